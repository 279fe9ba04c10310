import Verif.Crypto.RsaPad.Model

/-!
# RFC 8017 encodings, written from the RFC

Independent of the model apart from the type `Hash`.  `xor` is the bytewise exclusive or.
-/

namespace Verif.Crypto.RsaPad.Spec

open Verif.Common

def xor (a b : List Byte) : List Byte := List.zipWith (· ^^^ ·) a b

/-- RFC 8017 B.2.1: the leading `n` octets of Hash(seed ‖ 0) ‖ Hash(seed ‖ 1) ‖ …, counters in four octets. -/
def mgf1 (H : Hash) (seed : List Byte) (n : Nat) : List Byte :=
  ((List.range ((n + H.size - 1) / H.size)).flatMap fun i => H.h (seed ++ beBytes 4 i)).take n

/-- Set the leftmost `n` bits of the leftmost octet to zero. -/
def zeroLeft (n : Nat) : List Byte → List Byte
  | [] => []
  | b :: r => BitVec.ofNat 8 (b.toNat % 2 ^ (8 - n)) :: r

/-- RFC 8017 9.1.1 (EMSA-PSS-ENCODE with `emBits = modBits - 1`) followed by 8.1.1 step 2: the encoded
message as a string of as many octets as the modulus has. -/
def pss (H M : Hash) (modBits : Nat) (mHash salt : List Byte) : Option (List Byte) :=
  let emBits := modBits - 1
  let emLen := (emBits + 7) / 8
  let k := (modBits + 7) / 8
  if emLen < H.size + salt.length + 2 then none
  else
    let h := H.h (List.replicate 8 0#8 ++ mHash ++ salt)
    let db := List.replicate (emLen - salt.length - H.size - 2) 0#8 ++ [1#8] ++ salt
    let maskedDB := zeroLeft (8 * emLen - emBits) (xor db (mgf1 M h (emLen - H.size - 1)))
    some (List.replicate (k - emLen) 0#8 ++ maskedDB ++ h ++ [0xbc#8])

/-- RFC 8017 7.1.1: EME-OAEP with a given seed, for a modulus of `k` octets. -/
def oaep (H M : Hash) (label seed msg : List Byte) (k : Nat) : Option (List Byte) :=
  if k < msg.length + 2 * H.size + 2 ∨ seed.length ≠ H.size then none
  else
    let db := H.h label ++ List.replicate (k - msg.length - 2 * H.size - 2) 0#8 ++ [1#8] ++ msg
    let maskedDB := xor db (mgf1 M seed (k - H.size - 1))
    let maskedSeed := xor seed (mgf1 M maskedDB H.size)
    some ([0#8] ++ maskedSeed ++ maskedDB)

/-- RFC 8017 7.2.1: EM = 00 ‖ 02 ‖ PS ‖ 00 ‖ M, PS of at least eight non-zero octets. -/
def Type2 (em msg : List Byte) : Prop :=
  ∃ ps : List Byte, em = [0#8, 2#8] ++ ps ++ [0#8] ++ msg ∧ 8 ≤ ps.length ∧ ∀ b ∈ ps, b ≠ 0#8

/-- The object identifiers of the hashes: DER contents octets. -/
def oid : MdId → List Byte
  | .sha1 => [0x2b, 0x0e, 0x03, 0x02, 0x1a]
  | .sha224 => [0x60, 0x86, 0x48, 0x01, 0x65, 0x03, 0x04, 0x02, 0x04]
  | .sha256 => [0x60, 0x86, 0x48, 0x01, 0x65, 0x03, 0x04, 0x02, 0x01]
  | .sha384 => [0x60, 0x86, 0x48, 0x01, 0x65, 0x03, 0x04, 0x02, 0x02]
  | .sha512 => [0x60, 0x86, 0x48, 0x01, 0x65, 0x03, 0x04, 0x02, 0x03]
  | .md5 => [0x2a, 0x86, 0x48, 0x86, 0xf7, 0x0d, 0x02, 0x05]
  | .sm3 => [0x2a, 0x81, 0x1c, 0xcf, 0x55, 0x01, 0x83, 0x11]
  | .other => []

/-- Output lengths of the hashes. -/
def hashSize : MdId → Nat
  | .sha1 => 160 / 8 | .sha224 => 224 / 8 | .sha256 => 256 / 8 | .sha384 => 384 / 8 | .sha512 => 512 / 8
  | .md5 => 128 / 8 | .sm3 => 256 / 8 | .other => 0

/-- A DER element with a short length. -/
def der (tag : Byte) (c : List Byte) : List Byte := tag :: BitVec.ofNat 8 c.length :: c

/-- RFC 8017 9.2 step 2: DER of DigestInfo { { OID, NULL }, OCTET STRING digest }. -/
def digestInfo (id : MdId) (digest : List Byte) : List Byte :=
  der 0x30#8 (der 0x30#8 (der 0x06#8 (oid id) ++ der 0x05#8 []) ++ der 0x04#8 digest)

/-- RFC 8017 9.2: EM = 00 ‖ 01 ‖ PS ‖ 00 ‖ T, PS at least eight octets `ff`. -/
def type1 (id : MdId) (digest : List Byte) (emLen : Nat) : Option (List Byte) :=
  let t := digestInfo id digest
  if emLen < t.length + 11 then none
  else some ([0#8, 1#8] ++ List.replicate (emLen - t.length - 3) 0xff#8 ++ [0#8] ++ t)

end Verif.Crypto.RsaPad.Spec
