import Mathlib.Tactic.Ring
import Mathlib.Tactic.FieldSimp
import Mathlib.Tactic.LinearCombination
import Verif.Crypto.Ecc.Spec

/-! The Jacobian formulas are the group law. -/
namespace Verif.Crypto.Ecc
open Spec WeierstrassCurve.Affine

variable {F : Type} [Field F] [DecidableEq F] {b : F}

theorem jac_double (h2 : (2 : F) ≠ 0) {X Y Z : F} {P : (Curve b).Point} (h : Jacobian X Y Z P) :
    Jacobian ((3 * (X ^ 2 - Z ^ 4)) ^ 2 - 8 * X * Y ^ 2)
      (3 * (X ^ 2 - Z ^ 4) * (4 * X * Y ^ 2 - ((3 * (X ^ 2 - Z ^ 4)) ^ 2 - 8 * X * Y ^ 2)) - 8 * Y ^ 4)
      (2 * Y * Z) (P + P) := by
  rcases P with _ | ⟨x, y, hp⟩
  · have h : Z = 0 := h
    show Jacobian _ _ _ ((0 : (Curve b).Point) + 0)
    rw [add_zero]
    show 2 * Y * Z = 0
    rw [h, mul_zero]
  · obtain ⟨hz, hX, hY⟩ := h
    by_cases hy : y = 0
    · subst hy
      have : (Point.some x 0 hp : (Curve b).Point) + Point.some x 0 hp = 0 :=
        Point.add_of_Y_eq rfl (by simp [negY])
      rw [this]
      show 2 * Y * Z = 0
      rw [hY]; ring
    · have hne : y ≠ (Curve b).negY x y := by
        intro e
        have e : y = - y - 0 * x - 0 := e
        have : 2 * y = 0 := by linear_combination e
        rcases mul_eq_zero.mp this with h | h
        · exact h2 h
        · exact hy h
      rw [Point.add_self_of_Y_ne hne]
      have hs : (Curve b).slope x x y y = (3 * x ^ 2 - 3) / (2 * y) := by
        rw [slope_of_Y_ne rfl hne]
        simp only [negY]
        congr 1 <;> ring
      refine ⟨mul_ne_zero (mul_ne_zero h2 (by rw [hY]; exact mul_ne_zero hy (pow_ne_zero _ hz))) hz, ?_, ?_⟩
      · simp only [addX, hs]
        rw [hX, hY]
        field_simp
        ring
      · simp only [addY, negY, negAddY, addX, hs]
        rw [hX, hY]
        field_simp
        ring

theorem jac_same {X1 Y1 Z1 X2 Y2 Z2 : F} {P Q : (Curve b).Point} (hP : Jacobian X1 Y1 Z1 P) (hQ : Jacobian X2 Y2 Z2 Q)
    (h1 : Z1 ≠ 0) (h2 : Z2 ≠ 0) (hH : X2 * Z1 ^ 2 - X1 * Z2 ^ 2 = 0) (hR : Y2 * Z1 ^ 3 - Y1 * Z2 ^ 3 = 0) : P = Q := by
  rcases P with _ | ⟨x1, y1, hp⟩
  · exact absurd hP h1
  rcases Q with _ | ⟨x2, y2, hq⟩
  · exact absurd hQ h2
  obtain ⟨_, hX1, hY1⟩ := hP
  obtain ⟨_, hX2, hY2⟩ := hQ
  have ex : x1 = x2 := by
    rw [hX1, hX2] at hH
    have : (x2 - x1) * (Z1 ^ 2 * Z2 ^ 2) = 0 := by linear_combination hH
    rcases mul_eq_zero.mp this with h | h
    · exact (sub_eq_zero.mp h).symm
    · exact absurd h (mul_ne_zero (pow_ne_zero _ h1) (pow_ne_zero _ h2))
  have ey : y1 = y2 := by
    rw [hY1, hY2] at hR
    have : (y2 - y1) * (Z1 ^ 3 * Z2 ^ 3) = 0 := by linear_combination hR
    rcases mul_eq_zero.mp this with h | h
    · exact (sub_eq_zero.mp h).symm
    · exact absurd h (mul_ne_zero (pow_ne_zero _ h1) (pow_ne_zero _ h2))
  subst ex ey
  rfl

theorem jac_add {X1 Y1 Z1 X2 Y2 Z2 H R X3 : F} {P Q : (Curve b).Point} (hP : Jacobian X1 Y1 Z1 P) (hQ : Jacobian X2 Y2 Z2 Q)
    (h1 : Z1 ≠ 0) (h2 : Z2 ≠ 0) (eH : H = X2 * Z1 ^ 2 - X1 * Z2 ^ 2) (eR : R = Y2 * Z1 ^ 3 - Y1 * Z2 ^ 3)
    (hne : ¬ (H = 0 ∧ R = 0)) (e3 : X3 = R ^ 2 - H ^ 3 - 2 * (X1 * Z2 ^ 2 * H ^ 2)) :
    Jacobian X3 (R * (X1 * Z2 ^ 2 * H ^ 2 - X3) - Y1 * Z2 ^ 3 * H ^ 3) (Z1 * Z2 * H) (P + Q) := by
  rcases P with _ | ⟨x1, y1, hp⟩
  · exact absurd hP h1
  rcases Q with _ | ⟨x2, y2, hq⟩
  · exact absurd hQ h2
  obtain ⟨_, hX1, hY1⟩ := hP
  obtain ⟨_, hX2, hY2⟩ := hQ
  have eH' : H = (x2 - x1) * (Z1 ^ 2 * Z2 ^ 2) := by rw [eH, hX1, hX2]; ring
  have eR' : R = (y2 - y1) * (Z1 ^ 3 * Z2 ^ 3) := by rw [eR, hY1, hY2]; ring
  by_cases hx : x1 = x2
  · subst hx
    have hH0 : H = 0 := by rw [eH']; ring
    have hy : y1 ≠ y2 := by
      intro e
      exact hne ⟨hH0, by rw [eR', e]; ring⟩
    have hneg : y1 = (Curve b).negY x1 y2 := by
      have e1 := (equation_iff ..).mp hp.1
      have e2 := (equation_iff ..).mp hq.1
      simp only [] at e1 e2
      have : (y1 - y2) * (y1 + y2) = 0 := by linear_combination e1 - e2
      rcases mul_eq_zero.mp this with h | h
      · exact absurd (sub_eq_zero.mp h) hy
      · show y1 = - y2 - 0 * x1 - 0
        linear_combination h
    rw [Point.add_of_Y_eq rfl hneg]
    show Z1 * Z2 * H = 0
    rw [hH0, mul_zero]
  · have hx' : x2 - x1 ≠ 0 := fun e => hx (sub_eq_zero.mp e).symm
    have hx'' : x1 - x2 ≠ 0 := fun e => hx (sub_eq_zero.mp e)
    rw [Point.add_of_X_ne hx]
    have hs : (Curve b).slope x1 x2 y1 y2 = (y2 - y1) / (x2 - x1) := by
      rw [slope_of_X_ne hx, ← neg_div_neg_eq]
      congr 1 <;> ring
    have hHne : H ≠ 0 := by
      rw [eH']
      exact mul_ne_zero hx' (mul_ne_zero (pow_ne_zero _ h1) (pow_ne_zero _ h2))
    have e3' : X3 = (Curve b).addX x1 x2 ((Curve b).slope x1 x2 y1 y2) * (Z1 * Z2 * H) ^ 2 := by
      simp only [addX, hs]
      rw [e3, eR', eH', hX1]
      field_simp
      ring
    refine ⟨mul_ne_zero (mul_ne_zero h1 h2) hHne, e3', ?_⟩
    rw [e3']
    simp only [addY, negY, negAddY, addX, hs]
    rw [eR', eH', hX1, hY1]
    field_simp
    ring

end Verif.Crypto.Ecc
