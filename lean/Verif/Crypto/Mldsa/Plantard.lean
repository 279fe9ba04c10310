import Verif.Crypto.Mldsa.PlantardForm
import Verif.Crypto.Mldsa.Spec
import Verif.Crypto.Mlkem.Intt
/-! Plantard reduction with 64-bit words, and the products built on it. -/
namespace Verif.Crypto.Mldsa
open Verif.Crypto.Mlkem (Poly i32 u32 upd tab)

/-- Residues modulo `q`. -/
abbrev Zq := ZMod 8380417

theorem cast_of_dvd {x y : Int} (h : 8380417 ∣ (x - y)) : (x : Zq) = (y : Zq) := by
  rw [ZMod.intCast_eq_intCast_iff_dvd_sub]
  have : ((8380417 : Nat) : Int) ∣ x - y := h
  rw [← Int.dvd_neg]
  rwa [show -(y - x) = x - y by ring]

theorem dvd_of_cast {x y : Int} (h : (x : Zq) = (y : Zq)) : x % 8380417 = y % 8380417 := by
  rw [ZMod.intCast_eq_intCast_iff_dvd_sub] at h
  have : (8380417 : Int) ∣ y - x := h
  omega

/-- `-2^(-64)` modulo `q`. -/
def rInv : Zq := 786975
theorem rInv_mul : rInv * (-(2 ^ 64)) = 1 := by decide +kernel

theorem i64_id {x : Int} (h : -9223372036854775808 ≤ x ∧ x ≤ 9223372036854775807) : i64 x = x := by
  unfold i64; omega

/-- The reduction: for a 64-bit `p` with `p q ≡ y (mod 2^64)`, `y` not too large, the result is `(p q - y) / 2^64`. -/
theorem plantard_core (p m y : Int) (hp : -9223372036854775808 ≤ p ∧ p ≤ 9223372036854775807)
    (hy : -230000000000000000 ≤ y ∧ y ≤ 230000000000000000) (hm : p * 8380417 = y + 18446744073709551616 * m) :
    plantard p = m ∧ -4190208 ≤ m ∧ m ≤ 4190208 := by
  obtain ⟨t, ht⟩ : ∃ t, t = p / 4294967296 := ⟨_, rfl⟩
  have h1 : 4294967296 * t ≤ p ∧ p < 4294967296 * t + 4294967296 := by omega
  have hmr : -4190208 ≤ m ∧ m ≤ 4190208 := by omega
  refine ⟨?_, hmr⟩
  unfold plantard Q
  simp only [show ((2:Int)^32) = 4294967296 by decide, show ((2:Int)^3) = 8 by decide, ← ht]
  rw [i64_id (by omega)]
  have h2 : (t + 8) * 8380417 / 4294967296 = m := by omega
  rw [h2]
  unfold i32; omega

theorem cast_core (p m y : Int) (hm : p * 8380417 = y + 18446744073709551616 * m) : (m : Zq) = rInv * (y : Zq) := by
  have h := congrArg (Int.cast : Int → Zq) hm
  push_cast at h
  have hq : (8380417 : Zq) = 0 := by decide +kernel
  have h2 : (18446744073709551616 : Zq) = 2 ^ 64 := by norm_num
  rw [hq, mul_zero, h2] at h
  have := rInv_mul
  linear_combination (-(m : Zq)) * this + rInv * h

/-- The general product: `plantard` of the low 64 bits of a number `n` with `n q = y + 2^64 k`. -/
theorem plantard_gen (n y k : Int) (hy : -230000000000000000 ≤ y ∧ y ≤ 230000000000000000)
    (hn : n * 8380417 = y + 18446744073709551616 * k) :
    ((plantard (i64 n) : Int) : Zq) = rInv * (y : Zq) ∧ -4190208 ≤ plantard (i64 n) ∧ plantard (i64 n) ≤ 4190208 := by
  obtain ⟨e, he⟩ : ∃ e, n = i64 n + 18446744073709551616 * e :=
    ⟨(n + 9223372036854775808) / 18446744073709551616, by unfold i64; omega⟩
  have hr : -9223372036854775808 ≤ i64 n ∧ i64 n ≤ 9223372036854775807 := by unfold i64; omega
  have hm : i64 n * 8380417 = y + 18446744073709551616 * (k - e * 8380417) := by
    rw [he] at hn
    generalize i64 n = p at *
    linarith
  obtain ⟨h1, h2⟩ := plantard_core _ _ _ hr hy hm
  rw [h1]
  exact ⟨cast_core _ _ _ hm, h2⟩

theorem i64_u64 (n : Int) : i64 (u64 n) = i64 n := by unfold i64 u64; omega
theorem u64_mul (x y : Int) : u64 (u64 x * u64 y) = u64 (x * y) := by unfold u64; rw [← Int.mul_emod]
theorem u64_u64 (x : Int) : u64 (u64 x) = u64 x := by unfold u64; omega

theorem abs_mul_bound (a c A C : Int) (ha : |a| ≤ A) (hc : |c| ≤ C) : -(A * C) ≤ a * c ∧ a * c ≤ A * C := by
  have h : |a * c| ≤ A * C := by
    rw [abs_mul]
    exact mul_le_mul ha hc (abs_nonneg _) (le_trans (abs_nonneg _) ha)
  exact abs_le.1 h

/-- Multiplication by a constant in Plantard form, for every `int32_t`. -/
theorem mulZ_spec (zeta z a : Int) (ha : -2147483648 ≤ a ∧ a ≤ 2147483647) (h : PF zeta z) :
    ((mulZ zeta a : Int) : Zq) = (z : Zq) * a ∧ -4190208 ≤ mulZ zeta a ∧ mulZ zeta a ≤ 4190208 := by
  obtain ⟨c, w, m, h1, h2, h3⟩ := h
  unfold mulZ
  rw [u64_mul, i64_u64]
  have hb := abs_mul_bound a c 2147483648 8380417 (abs_le.2 (by omega)) (abs_le.2 h2)
  obtain ⟨e1, e2⟩ := plantard_gen (zeta * a) (a * c) (a * w) (by omega) (by
    have : zeta * a * 8380417 = a * (zeta * 8380417) := by ring
    rw [this, h1]; ring)
  refine ⟨?_, e2⟩
  rw [e1]
  have h := congrArg (Int.cast : Int → Zq) h3
  push_cast at h ⊢
  have hq : (8380417 : Zq) = 0 := by decide +kernel
  have h64 : (18446744073709551616 : Zq) = 2 ^ 64 := by norm_num
  rw [hq, zero_mul, h64] at h
  have := rInv_mul
  linear_combination (a * z : Zq) * this + (a * rInv : Zq) * h

theorem inv_form : plantardInv * 8380417 = 1 + 18446744073709551616 * 786975 := by decide +kernel

/-- A product (or sum of products) `y` times `q⁻¹ mod 2^64`. -/
theorem plantard_inv (y : Int) (hy : -230000000000000000 ≤ y ∧ y ≤ 230000000000000000) :
    ((plantard (i64 (u64 (u64 y * u64 plantardInv))) : Int) : Zq) = rInv * (y : Zq) ∧
      -4190208 ≤ plantard (i64 (u64 (u64 y * u64 plantardInv))) ∧
      plantard (i64 (u64 (u64 y * u64 plantardInv))) ≤ 4190208 := by
  rw [u64_mul, i64_u64]
  refine plantard_gen (y * plantardInv) y (y * 786975) hy ?_
  have : y * plantardInv * 8380417 = y * (plantardInv * 8380417) := by ring
  rw [this, inv_form]; ring

theorem vecMul_spec (a s : Poly) (i : Nat) (ha : |a i| ≤ 45000000) (hs : |s i| ≤ 45000000) :
    ((vecMul a s i : Int) : Zq) = rInv * ((a i : Zq) * (s i : Zq)) ∧ -4190208 ≤ vecMul a s i ∧ vecMul a s i ≤ 4190208 := by
  have hb := abs_mul_bound _ _ _ _ ha hs
  have h := plantard_inv (a i * s i) (by omega)
  unfold vecMul
  have e : u64 (u64 (a i) * u64 (s i)) = u64 (a i * s i) := u64_mul _ _
  rw [e]
  push_cast at h
  exact h

theorem macLoop_eq (a s : Nat → Poly) (j : Nat) (n : Nat) (hn : n ≤ 8) (ha : ∀ i, i < n → |a i j| ≤ 8380417)
    (hs : ∀ i, i < n → |s i j| ≤ 45000000) :
    macLoop a s j n = ∑ i ∈ Finset.range n, a i j * s i j ∧
      -(400000000000000 * (n : Int)) ≤ macLoop a s j n ∧ macLoop a s j n ≤ 400000000000000 * n := by
  induction n with
  | zero => exact ⟨rfl, by simp [macLoop], by simp [macLoop]⟩
  | succ n ih =>
    obtain ⟨h1, h2⟩ := ih (by omega) (fun i hi => ha i (by omega)) (fun i hi => hs i (by omega))
    have hb := abs_mul_bound _ _ _ _ (ha n (by omega)) (hs n (by omega))
    rw [macLoop, Finset.sum_range_succ, ← h1]
    rw [i64_id (x := a n j * s n j) (by omega), i64_id (by omega)]
    refine ⟨rfl, ?_⟩
    push_cast
    omega

theorem matMul_spec (l : Nat) (hl : l ≤ 8) (a s : Nat → Poly) (j : Nat) (ha : ∀ i, i < l → |a i j| ≤ 8380417)
    (hs : ∀ i, i < l → |s i j| ≤ 45000000) :
    ((matMul l a s j : Int) : Zq) = rInv * ∑ i ∈ Finset.range l, ((a i j : Zq) * (s i j : Zq)) ∧
      -4190208 ≤ matMul l a s j ∧ matMul l a s j ≤ 4190208 := by
  obtain ⟨h1, h2⟩ := macLoop_eq a s j l hl ha hs
  have h := plantard_inv (macLoop a s j l) (by omega)
  unfold matMul
  refine ⟨?_, h.2⟩
  rw [h.1, h1]
  push_cast; rfl

end Verif.Crypto.Mldsa
