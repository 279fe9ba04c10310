import Verif.Bsl.Base64.Spec
/-!
Specification of the PEM textual encoding, on texts as byte lists.
-/
namespace Verif.Bsl.Pem.Spec
open Verif.Common

/-- `n` first occurs in `t` at offset `i`. -/
def FirstAt (t n : List Byte) (i : Nat) : Prop :=
  n <+: t.drop i ∧ ∀ j, j < i → ¬ n <+: t.drop j

/-- `n` occurs somewhere in `t`. -/
def Occurs (t n : List Byte) : Prop := ∃ i, n <+: t.drop i

/-- ASCII text as bytes. -/
def ascii (s : String) : List Byte := s.toList.map (fun c => BitVec.ofNat 8 c.toNat)

/-- RFC 7468 shape: `-----BEGIN`, `-----`, `-----END`, `-----`, in this order and without overlap. -/
def IsPem (t : List Byte) : Prop :=
  ∃ a b c d e, t = a ++ ascii "-----BEGIN" ++ b ++ ascii "-----" ++ c ++ ascii "-----END" ++ d
    ++ ascii "-----" ++ e

/-- The markers of a label. -/
def begin_ (label : String) : List Byte := ascii "-----BEGIN " ++ ascii label ++ ascii "-----"
def end_ (label : String) : List Byte := ascii "-----END " ++ ascii label ++ ascii "-----"

/-- A base64 text cut in lines of 64 characters; the last one may be shorter. -/
def lines64 (t : List Byte) : List (List Byte) :=
  if _h : t = [] then [] else t.take 64 :: lines64 (t.drop 64)
termination_by t.length
decreasing_by
  have : t.length ≠ 0 := fun h0 => _h (List.length_eq_zero_iff.mp h0)
  simp; omega

/-- The PEM text of `m`: the begin marker, the base64 text in lines of 64 characters and the end marker, each
ended by a line feed. -/
def text (head tail m : List Byte) : List Byte :=
  head ++ [10#8] ++ (lines64 (Base64.Spec.encode m)).flatMap (fun l => l ++ [10#8]) ++ tail ++ [10#8]

/-- `t` is some text, the first `head` in it, `body`, the first `tail` after that, and `rest`. -/
def Block (t head tail body rest : List Byte) : Prop :=
  ∃ pre, t = pre ++ head ++ body ++ tail ++ rest ∧ FirstAt t head pre.length ∧
    FirstAt (body ++ tail ++ rest) tail body.length

/-- `head` and, after it, `tail` occur in `t`. -/
def HasBlock (t head tail : List Byte) : Prop := ∃ a b c, t = a ++ head ++ b ++ tail ++ c

end Verif.Bsl.Pem.Spec
