import Mathlib.AlgebraicGeometry.EllipticCurve.Affine.Point
import Verif.Crypto.Ecc.Model

/-! Specification: what correct field routines are, and when a triple of coordinates stands for a point of the curve
`y² = x³ - 3x + b`. The group of points is that of Mathlib. -/
namespace Verif.Crypto.Ecc.Spec

/-- The routines `S` calculate in the field `F`: `ok` are the valid values (reduced numbers), `rep` the elements they stand
for. -/
structure Impl {α : Type} (S : Fld α) (F : Type) [Field F] where
  ok : α → Prop
  rep : α → F
  mul : ∀ {a b}, ok a → ok b → ∃ c, S.mul a b = some c ∧ ok c ∧ rep c = rep a * rep b
  sqr : ∀ {a}, ok a → ∃ c, S.sqr a = some c ∧ ok c ∧ rep c = rep a * rep a
  add : ∀ {a b}, ok a → ok b → ∃ c, S.add a b = some c ∧ ok c ∧ rep c = rep a + rep b
  sub : ∀ {a b}, ok a → ok b → ∃ c, S.sub a b = some c ∧ ok c ∧ rep c = rep a - rep b
  modMul : ∀ {a b}, ok a → ok b → ∃ c, S.modMul a b = some c ∧ ok c ∧ rep c = rep a * rep b
  modSqr : ∀ {a}, ok a → ∃ c, S.modSqr a = some c ∧ ok c ∧ rep c = rep a * rep a
  modAdd : ∀ {a b}, ok a → ok b → ∃ c, S.modAdd a b = some c ∧ ok c ∧ rep c = rep a + rep b
  modInv : ∀ {a}, ok a → rep a ≠ 0 → ∃ c, S.modInv a = some c ∧ ok c ∧ rep c = (rep a)⁻¹
  /-- Without a reduction, so only for a number that is not zero. -/
  subFromP : ∀ {a}, ok a → rep a ≠ 0 → ok (S.subFromP a) ∧ rep (S.subFromP a) = - rep a
  isZero : ∀ {a}, ok a → (S.isZero a = true ↔ rep a = 0)
  isOne : ∀ {a}, ok a → (S.isOne a = true ↔ rep a = 1)
  eq : ∀ {a b}, ok a → ok b → (S.eq a b = true ↔ rep a = rep b)
  zero : ok S.zero ∧ rep S.zero = 0
  one : ok S.one ∧ rep S.one = 1
  half : ok S.half ∧ 2 * rep S.half = 1

variable {F : Type} [Field F] [DecidableEq F]

/-- The curve `y² = x³ - 3x + b`. -/
abbrev Curve (b : F) : WeierstrassCurve.Affine F := ⟨0, 0, 0, -3, b⟩

/-- `(X : Y : Z)` are Jacobian coordinates of a point: `x = X / Z²`, `y = Y / Z³`, and `Z = 0` for the point at infinity. -/
def Jacobian {b : F} (X Y Z : F) : (Curve b).Point → Prop
  | .zero => Z = 0
  | .some x y _ => Z ≠ 0 ∧ X = x * Z ^ 2 ∧ Y = y * Z ^ 3

/-- The triple stands for the point. -/
def Represents {α : Type} {S : Fld α} (I : Impl S F) {b : F} (pt : Pt α) (P : (Curve b).Point) : Prop :=
  I.ok pt.x ∧ I.ok pt.y ∧ I.ok pt.z ∧ Jacobian (I.rep pt.x) (I.rep pt.y) (I.rep pt.z) P

end Verif.Crypto.Ecc.Spec
