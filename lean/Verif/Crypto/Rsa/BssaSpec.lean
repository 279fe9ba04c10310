import Verif.Crypto.Rsa.BssaModel
import Verif.Crypto.Rsa.Spec

/-! Specification of the RSA blind signatures (RFC 9474). -/
namespace Verif.Crypto.Rsa.Spec
open Verif.Crypto.Bn Verif.Crypto.Sig.Spec

/-- The context holds the factor `u`: the number to blind with and the one to undo it. -/
def Factor (N E : Nat) (s : Bssa) (u : Nat) : Prop :=
  ∃ r i w, s = some (r, i) ∧ Is r (u ^ E % N) ∧ Is i w ∧ u * w ≡ 1 [MOD N]

/-- There is no factor yet, or a right one. -/
def Ready (N E : Nat) (s : Bssa) : Prop := s = none ∨ ∃ u, Factor N E s u

/-- A history in which no setting of the factor has failed, and the random generator delivers numbers. -/
def Clean (k : Pub) : Bssa → List BssaOp → Prop
  | _, [] => True
  | s, .set ct r :: ops => (setBssa k s ct r).2 = true ∧ Clean k (setBssa k s ct r).1 ops
  | s, .blind v pad :: ops => (∀ r, v.rand = some r → ∃ u, Is r u) ∧ Clean k (bssaBlind k s v pad).1 ops
  | s, .unblind _ :: ops => Clean k s ops

end Verif.Crypto.Rsa.Spec
