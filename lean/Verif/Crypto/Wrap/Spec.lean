import Verif.Common.Endian
/-! Specification of key wrap: RFC 3394 section 2.2.1 and RFC 5649 section 4.1, over any 16-byte block
encryption `E`. -/
namespace Verif.Crypto.Wrap.Spec
open Verif.Common

/-- Bytewise xor. -/
def xor (a b : List Byte) : List Byte := List.zipWith (· ^^^ ·) a b

/-- The consecutive 8-byte blocks of a string. -/
def blocks (p : List Byte) : List (List Byte) :=
  (List.range (p.length / 8)).map (fun i => (p.drop (8 * i)).take 8)

/-- One pass over the registers `R[1..n]`, the first with step number `t`:
`B = E(A | R[i])`, `A = MSB64(B) ^ t`, `R[i] = LSB64(B)`. -/
def pass (E : List Byte → List Byte) : List Byte → Nat → List (List Byte) → List Byte × List (List Byte)
  | a, _, [] => (a, [])
  | a, t, r :: rs =>
    let b := E (a ++ r)
    let (a', rs') := pass E (xor (b.take 8) (beBytes 8 t)) (t + 1) rs
    (a', b.drop 8 :: rs')

/-- The six passes, pass `j` starting with step number `n * j + 1`. -/
def rounds (E : List Byte → List Byte) (a : List Byte) (r : List (List Byte)) : List Byte × List (List Byte) :=
  (List.range 6).foldl (fun s j => pass E s.1 (r.length * j + 1) s.2) (a, r)

/-- RFC 3394 key wrap with initial value `iv`. -/
def wrap (E : List Byte → List Byte) (iv p : List Byte) : List Byte :=
  (rounds E iv (blocks p)).1 ++ (rounds E iv (blocks p)).2.flatten

/-- The plaintext padded with zeros to a multiple of 8 bytes. -/
def padded (p : List Byte) : List Byte := p ++ List.replicate ((8 - p.length % 8) % 8) 0#8

/-- RFC 5649 key wrap with padding; `iv4` is the upper half of the alternative initial value. -/
def wrapPad (E : List Byte → List Byte) (iv4 p : List Byte) : List Byte :=
  if p.length ≤ 8 then E (iv4 ++ beBytes 4 p.length ++ padded p)
  else wrap E (iv4 ++ beBytes 4 p.length) (padded p)

end Verif.Crypto.Wrap.Spec
