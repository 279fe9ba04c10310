import Verif.Common.Bits
import Verif.Common.Endian

/-!
# Block ciphers and byte-wise xor as used by the modes of operation

The modes in `crypto/modes/src` reach the block cipher only through the method table
(`ciphMeth->encryptBlock` / `decryptBlock`).  The model abstracts the keyed cipher to a pair of
functions on 16-byte blocks.  AES and SM4 (the only ciphers registered for these modes,
`crypto/eal/src/eal_cipher_method.c`) both have `blockSize = 16`.
-/

namespace Verif.Crypto.Modes

open Verif.Common

/-- A keyed block cipher, `EAL_SymMethod.encryptBlock/decryptBlock` with a key already set
(`crypto/include/crypt_local_types.h`, struct `EAL_SymMethod`): maps on 16-byte blocks with the
each undoing the other.  Simplification: block functions cannot fail (they fail only for a
length that is not one block). -/
structure Cipher where
  enc : List Byte → List Byte
  dec : List Byte → List Byte
  encLen : ∀ x, x.length = 16 → (enc x).length = 16
  decLen : ∀ x, x.length = 16 → (dec x).length = 16
  inv : ∀ x, x.length = 16 → dec (enc x) = x
  inv' : ∀ x, x.length = 16 → enc (dec x) = x

/-- `DATA64_XOR` / `DATA32_XOR` / the byte loops `out[i] = a[i] ^ b[i]`
(`crypto/include/crypt_utils.h`): xor of two byte strings, up to the shorter one. -/
def xorB (a b : List Byte) : List Byte := List.zipWith (· ^^^ ·) a b

/-- Return codes of the mode layer that the model distinguishes (`crypt_errno.h`). -/
inductive Err
  | nullInput | inputLen | modeBuffLen | ealBuffLen | buffTooLong | dataError | invalidArg
  | feedbackSize | key | ivLen | keyLen | cryptLen
  deriving DecidableEq, Repr

end Verif.Crypto.Modes
