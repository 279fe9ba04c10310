import Verif.Common.Bits
/-! RFC 4648 base64, stated on bit strings, independent of the C code. -/
namespace Verif.Bsl.Base64.Spec
open Verif.Common

/-- RFC 4648 table 1: digit value to character. -/
def char (i : Nat) : Byte :=
  if i < 26 then BitVec.ofNat 8 (65 + i)
  else if i < 52 then BitVec.ofNat 8 (97 + (i - 26))
  else if i < 62 then BitVec.ofNat 8 (48 + (i - 52))
  else if i = 62 then 43#8 else 47#8

/-- Blank characters skipped by the decoder: space, LF, CR. -/
def isBlank (c : Byte) : Bool := c == 32#8 || c == 10#8 || c == 13#8

/-- Bits of a byte, most significant first. -/
def bits8 (b : Byte) : List Bool :=
  [b.getLsbD 7, b.getLsbD 6, b.getLsbD 5, b.getLsbD 4, b.getLsbD 3, b.getLsbD 2, b.getLsbD 1, b.getLsbD 0]

/-- The six bits of a digit below 64, most significant first. -/
def bits6 (d : Nat) : List Bool :=
  [d.testBit 5, d.testBit 4, d.testBit 3, d.testBit 2, d.testBit 1, d.testBit 0]

/-- Number denoted by bits, most significant first. -/
def ofBits (l : List Bool) : Nat := l.foldl (fun n b => 2 * n + b.toNat) 0

/-- Digits of a bit string: groups of six bits, the last one filled with zero bits. -/
def digits : List Bool → List Nat
  | a :: b :: c :: d :: e :: f :: rest => ofBits [a, b, c, d, e, f] :: digits rest
  | [] => []
  | l => [ofBits (l ++ List.replicate (6 - l.length) false)]

/-- Bytes of a bit string; a final incomplete group is dropped. -/
def bytes : List Bool → List Byte
  | a :: b :: c :: d :: e :: f :: g :: h :: rest =>
    BitVec.ofNat 8 (ofBits [a, b, c, d, e, f, g, h]) :: bytes rest
  | _ => []

/-- The RFC 4648 encoding of a byte string (padded, no line breaks). -/
def encode (m : List Byte) : List Byte :=
  (digits (m.flatMap bits8)).map char ++ List.replicate ((3 - m.length % 3) % 3) 61#8

/-- `t` is a base64 text denoting `m`: digits, then at most two `=` so that the length is a multiple of
four; `m` is the sequence of complete bytes of the digit bits. -/
def Denotes (t m : List Byte) : Prop :=
  ∃ (ds : List Nat) (pad : Nat), (∀ d ∈ ds, d < 64) ∧ pad ≤ 2 ∧
    t = ds.map char ++ List.replicate pad 61#8 ∧ t.length % 4 = 0 ∧ m = bytes (ds.flatMap bits6)

/-- Blocks of 48 bytes, the last one possibly shorter (none empty). -/
def lines (m : List Byte) : List (List Byte) :=
  if _h : m = [] then [] else m.take 48 :: lines (m.drop 48)
termination_by m.length
decreasing_by
  cases m with
  | nil => exact absurd rfl _h
  | cons a l => simp; omega

end Verif.Bsl.Base64.Spec
