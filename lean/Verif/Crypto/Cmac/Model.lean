import Verif.Crypto.Modes.Cipher

/-! Model of CMAC and CBC-MAC: /repo/crypto/cmac/src. `E` is the block cipher with the key that was set (`encryptBlock`) and `n` its block size;
that setting the key or a block operation fails is not modelled. The arrays `data` and `left`, of 16 bytes in the code, are lists of `n` bytes,
the only ones used. `none` is an error that is returned, with the context unchanged. -/
namespace Verif.Crypto.Cmac
open Verif.Common Verif.Crypto.Modes

/-- `Cipher_MAC_Common_Ctx`, cipher_mac_common.h:31-38, without the key and the methods. -/
structure Ctx where
  data : List Byte
  left : List Byte
  len : Nat
  deriving DecidableEq

/-- `CipherMacInit` after the key is set, cipher_mac_common.c:57-71, and `CipherMacReinit`, cipher_mac_common.c:127-137. -/
def reset (n : Nat) (c : Ctx) : Ctx := ⟨List.replicate n 0, c.left, 0⟩

/-- The loop of `CipherMacUpdate`, cipher_mac_common.c:109-118, for at most `fuel` blocks, and the copy of the rest, lines 119-123. -/
def blocks (E : List Byte → List Byte) (n : Nat) : Nat → Ctx → List Byte → Ctx
  | 0, c, _ => c
  | fuel + 1, c, inp =>
    if inp.length > n then
      let left := xorB (inp.take n) c.data
      blocks E n fuel ⟨E left, left, c.len⟩ (inp.drop n)
    else ⟨c.data, inp ++ c.left.drop inp.length, inp.length⟩

/-- `CipherMacUpdate`, cipher_mac_common.c:73-125. -/
def update (E : List Byte → List Byte) (n : Nat) (c : Ctx) (inp : List Byte) : Option Ctx :=
  if c.len > 0 then
    if c.len > 2 ^ 32 - 1 - inp.length then none
    else
      let stop := if c.len + inp.length > n then n else c.len + inp.length
      let left := c.left.take c.len ++ inp.take (stop - c.len) ++ c.left.drop stop
      let rest := inp.drop (stop - c.len)
      if rest.length = 0 then some ⟨c.data, left, stop⟩
      else
        let left := xorB left c.data
        some (blocks E n (rest.length + 1) ⟨E left, left, c.len⟩ rest)
  else some (blocks E n (inp.length + 1) c inp)

/-- `LeftShiftOneBit`, cmac.c:70-79. -/
def shl : List Byte → List Byte
  | [] => []
  | [a] => [a <<< 1]
  | a :: b :: t => (a <<< 1 ||| b >>> 7) :: shl (b :: t)

/-- `k1[blockSize - 1] ^= rb` when the first bit of `l` is set, cmac.c:95-104 and 116-119. -/
def subkey (n : Nat) (l : List Byte) : List Byte :=
  let rb : Byte := if n = 16 then 0x87 else 0x1B
  let k := shl l
  if l.headD 0 &&& 0x80 ≠ 0 then k.take (n - 1) ++ [k.getD (n - 1) 0 ^^^ rb] else k

/-- `CMAC_Final`, cmac.c:81-124. -/
def lastBlock (E : List Byte → List Byte) (n : Nat) (c : Ctx) : List Byte :=
  let k1 := subkey n (E (List.replicate n 0))
  if c.len = n then xorB c.left k1
  else xorB (c.left.take c.len ++ 0x80 :: List.replicate (n - (c.len + 1)) 0) (subkey n k1)

/-- `CRYPT_CMAC_Final`, cmac.c:126-151, for a buffer of `len` bytes: the context and the result. -/
def final (E : List Byte → List Byte) (n : Nat) (c : Ctx) (len : Nat) : Option (Ctx × List Byte) :=
  if len < n then none
  else
    let left := xorB (lastBlock E n c) c.data
    some (⟨c.data, left, n⟩, E left)

/-- `paddingType` of `CRYPT_CBC_MAC_Ctx`: not set (`CRYPT_PADDING_MAX_COUNT`), `CRYPT_PADDING_ZEROS` or another number. -/
inductive Pad where
  | unset
  | zeros
  | other
  deriving DecidableEq

/-- `CRYPT_CBC_MAC_Update`, cbc_mac.c:74-85. -/
def cbcUpdate (E : List Byte → List Byte) (n : Nat) (p : Pad) (c : Ctx) (inp : List Byte) : Option Ctx :=
  if p = .unset then none else update E n c inp

/-- `CbcMacPadding`, cbc_mac.c:87-103, and `CRYPT_CBC_MAC_Final`, cbc_mac.c:105-130. -/
def cbcFinal (E : List Byte → List Byte) (n : Nat) (p : Pad) (c : Ctx) (len : Nat) : Option (Ctx × List Byte) :=
  if len < n then none
  else
    match p with
    | .zeros =>
      let left := xorB (c.left.take c.len ++ List.replicate (n - c.len) 0) c.data
      some (⟨c.data, left, n⟩, E left)
    | _ => none

end Verif.Crypto.Cmac
