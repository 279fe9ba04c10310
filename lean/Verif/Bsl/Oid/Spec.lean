import Verif.Common.Bits
/-!
# Specification of object identifiers

The DER contents (ITU-T X.690, 8.19) and the dotted decimal text of an object identifier given by its numbers.
-/
namespace Verif.Bsl.Oid.Spec
open Verif.Common

/-- The digits of `n` in base `b + 2`, most significant first, without leading zeros (`[0]` for zero). -/
def digits (b n : Nat) : List Nat :=
  if n < b + 2 then [n] else digits b (n / (b + 2)) ++ [n % (b + 2)]
termination_by n
decreasing_by exact Nat.div_lt_self (by omega) (by omega)

/-- The value of a list of digits. -/
def value (base : Nat) (ds : List Nat) : Nat := ds.foldl (fun a d => base * a + d) 0

/-- A subidentifier (8.19.2): the base-128 digits of `n`, all but the last with the top bit set. -/
def subId (n : Nat) : List Byte :=
  (digits 126 n).dropLast.map (fun d => BitVec.ofNat 8 (128 + d)) ++ [BitVec.ofNat 8 (n % 128)]

/-- The contents octets of the identifier `x.y.rest`. -/
def der (x y : Nat) (rest : List Nat) : List Byte := BitVec.ofNat 8 (40 * x + y) :: (rest.map subId).flatten

/-- The decimal text of a number. -/
def number (n : Nat) : List Byte := (digits 8 n).map fun d => BitVec.ofNat 8 (48 + d)

/-- The dotted text of a list of texts. -/
def dotted : List (List Byte) → List Byte
  | [] => []
  | [t] => t
  | t :: u :: r => t ++ 46#8 :: dotted (u :: r)

/-- The canonical text of an identifier. -/
def text (arcs : List Nat) : List Byte := dotted (arcs.map number)

/-- `s` is a dotted text of these numbers, leading zeros allowed. -/
def Reads (s : List Byte) (arcs : List Nat) : Prop :=
  ∃ ds : List (List Nat), s = dotted (ds.map fun d => d.map fun x => BitVec.ofNat 8 (48 + x)) ∧
    (∀ d ∈ ds, d ≠ [] ∧ ∀ x ∈ d, x < 10) ∧ arcs = ds.map (value 10)

end Verif.Bsl.Oid.Spec
