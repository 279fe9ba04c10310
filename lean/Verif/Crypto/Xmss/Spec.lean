import Verif.Crypto.Xmss.Model

/-!
# C35: what a disciplined use of private keys is
-/

namespace Verif.Crypto.Xmss.Spec

open Verif.Common Verif.Crypto.Xmss

/-- Installing private key `seed` at position `idx` in context `i` is safe when every index of this
key that has been used so far is lower, and no other context holds the same private key. -/
def SafeInstall (w : World) (i : Nat) (seed : List Byte) (idx : Nat) : Prop :=
  (∀ u ∈ w.uses, u.seed = seed → u.index < idx) ∧
  (∀ j : Nat, j < w.ctxs.length → j ≠ i → ∀ c : Ctx, w.ctxs[j]? = some c → c.hasPriv = true → c.seed ≠ seed)

instance (w : World) (i : Nat) (seed : List Byte) (idx : Nat) : Decidable (SafeInstall w i seed idx) := by
  unfold SafeInstall
  have : ∀ j : Nat, Decidable (∀ c : Ctx, w.ctxs[j]? = some c → c.hasPriv = true → c.seed ≠ seed) := fun j =>
    match h : w.ctxs[j]? with
    | none => .isTrue (by simp)
    | some c => decidable_of_iff (c.hasPriv = true → c.seed ≠ seed) (by simp)
  infer_instance

/-- The only obligation on the application: the random seed of a new key is new, and an imported
key is imported at a position not used before. -/
def OpOk (w : World) : Op → Prop
  | .gen i x => match x.seed with
    | .ok s => SafeInstall w i s 0
    | .error _ => True
  | .setPrv i p => SafeInstall w i p.seed p.idx.toNat
  | _ => True

instance (w : World) (o : Op) : Decidable (OpOk w o) := by
  unfold OpOk
  split
  · split <;> infer_instance
  all_goals infer_instance

/-- Every call of the history meets its obligation at the time it is made. -/
def Disciplined (w : World) : List Op → Prop
  | [] => True
  | o :: os => OpOk w o ∧ Disciplined (step w o) os

instance instDecDisc (w : World) (os : List Op) : Decidable (Disciplined w os) :=
  match os with
  | [] => .isTrue trivial
  | o :: os => have := instDecDisc (step w o) os; inferInstanceAs (Decidable (OpOk w o ∧ Disciplined (step w o) os))

end Verif.Crypto.Xmss.Spec
