import Verif.Crypto.Mldsa.Model
import Verif.Crypto.Mldsa.Spec
import Mathlib.Tactic.IntervalCases
/-! Rounding and hints. -/
namespace Verif.Crypto.Mldsa
open Verif.Crypto.Mlkem (Poly i32 u32 u8 upd)

theorem i32_id {x : Int} (h : -2147483648 ≤ x ∧ x ≤ 2147483647) : i32 x = x := by unfold i32; omega
theorem u32_id {x : Int} (h : 0 ≤ x ∧ x ≤ 4294967295) : u32 x = x := by unfold u32; omega

theorem param_cases {p : Params} (hp : p ∈ paramTable) : p = mldsa44 ∨ p = mldsa65 ∨ p = mldsa87 := by
  simpa [paramTable] using hp

/-- Barrett quotient by `2 γ2 = 190464` on the 128-blocks. -/
theorem quot44 (r k : Int) (h : 0 ≤ r ∧ r < 8380417) (hk : k = (((r + 127) / 128) * 11275 + 8388608) / 16777216) :
    0 ≤ k ∧ k ≤ 44 ∧ -95232 < r - 190464 * k ∧ r - 190464 * k ≤ 95232 := by
  have hk0 : 0 ≤ k := by omega
  have hk1 : k ≤ 44 := by omega
  refine ⟨hk0, hk1, ?_⟩
  interval_cases k <;> omega

theorem quot32 (r k : Int) (h : 0 ≤ r ∧ r < 8380417) (hk : k = (((r + 127) / 128) * 1025 + 2097152) / 4194304) :
    0 ≤ k ∧ k ≤ 16 ∧ -261888 < r - 523776 * k ∧ r - 523776 * k ≤ 261888 := by
  have hk0 : 0 ≤ k := by omega
  have hk1 : k ≤ 16 := by omega
  refine ⟨hk0, hk1, ?_⟩
  interval_cases k <;> omega

/-- What FIPS 204 decomposition gives, in terms of the rounded quotient. -/
theorem spec_decompose_eq (g m r k : Int) (hg : 0 < g) (hm : Spec.q = 1 + m * (2 * g)) (hr : 0 ≤ r ∧ r < Spec.q)
    (hk : -g < r - 2 * g * k ∧ r - 2 * g * k ≤ g) :
    Spec.decompose g r = if k = m then (0, r - 2 * g * k - 1) else (k, r - 2 * g * k) := by
  have e0 : r % Spec.q = r := Int.emod_eq_of_lt hr.1 hr.2
  have hc : Spec.cmod r (2 * g) = r - 2 * g * k := by
    unfold Spec.cmod
    have hdiv : 2 * g / 2 = g := by omega
    rw [hdiv]
    by_cases hs : 0 ≤ r - 2 * g * k
    · have e : r % (2 * g) = r - 2 * g * k := by
        rw [← Int.emod_eq_of_lt hs (by omega : r - 2 * g * k < 2 * g)]
        rw [Int.sub_mul_emod_self_left]
      rw [e, if_neg (by omega)]
    · have e : r % (2 * g) = r - 2 * g * k + 2 * g := by
        have h1 : 0 ≤ r - 2 * g * k + 2 * g := by omega
        rw [← Int.emod_eq_of_lt h1 (by omega : r - 2 * g * k + 2 * g < 2 * g)]
        rw [show r - 2 * g * k + 2 * g = r - 2 * g * (k - 1) by rw [Int.mul_sub]; omega, Int.sub_mul_emod_self_left]
      rw [e, if_pos (by omega)]; omega
  unfold Spec.decompose
  simp only [e0, hc]
  have e1 : r - (r - 2 * g * k) = 2 * g * k := by omega
  rw [e1, hm]
  have e2 : 1 + m * (2 * g) - 1 = 2 * g * m := by rw [Int.mul_comm m]; omega
  rw [e2]
  by_cases hkm : k = m
  · rw [if_pos (by rw [hkm]), if_pos hkm]
  · rw [if_neg (fun h => hkm (Int.eq_of_mul_eq_mul_left (by omega) h)), if_neg hkm,
      Int.mul_ediv_cancel_left _ (by omega)]

theorem decompose44 (r : Int) (h : 0 ≤ r ∧ r < 8380417) :
    decompose mldsa44 r = Spec.decompose 95232 r := by
  obtain ⟨k, hk⟩ : ∃ k, k = (((r + 127) / 128) * 11275 + 8388608) / 16777216 := ⟨_, rfl⟩
  obtain ⟨h0, h1, h2, h3⟩ := quot44 r k h hk
  rw [spec_decompose_eq 95232 44 r k (by decide) (by decide) h (by omega)]
  have e1 : u32 (u32 r + 0x7f) = r + 127 := by unfold u32; omega
  have e2 : i32 ((r + 127) / 2 ^ 7) = (r + 127) / 128 := by unfold i32; omega
  have e3 : u32 (u32 (u32 ((r + 127) / 128) * 11275) + 2 ^ 23) = ((r + 127) / 128) * 11275 + 8388608 := by
    unfold u32; omega
  have e4 : i32 ((((r + 127) / 128) * 11275 + 8388608) / 2 ^ 24) = k := by
    rw [show (2 : Int) ^ 24 = 16777216 by norm_num, ← hk]; exact i32_id (by omega)
  have hh : decomposeHigh mldsa44 r = if k = 44 then 0 else k := by
    unfold decomposeHigh
    simp only [e1, e2, e3, e4]
    rw [if_pos (by decide)]
    by_cases hc : k = 44
    · rw [if_pos hc, if_pos (by omega)]
    · rw [if_neg hc, if_neg (by omega)]
  unfold decompose
  simp only [hh, show (mldsa44.gamma2 : Int) = 95232 by decide, Q]
  by_cases hc : k = 44
  · simp only [if_pos hc]
    have e5 : i32 (u32 (r - u32 (u32 (0 * 2) * 95232))) = r := by unfold u32 i32; omega
    rw [e5, if_pos (by omega), Prod.mk.injEq]
    refine ⟨rfl, ?_⟩
    rw [i32_id (by omega)]; omega
  · simp only [if_neg hc]
    have e5 : i32 (u32 (r - u32 (u32 (k * 2) * 95232))) = r - 2 * 95232 * k := by
      rw [u32_id (x := k * 2) (by omega), u32_id (x := k * 2 * 95232) (by omega)]; unfold u32 i32; omega
    rw [e5, if_neg (by omega), Prod.mk.injEq]
    refine ⟨rfl, ?_⟩
    rw [i32_id (by omega)]; omega

theorem decompose32 (p : Params) (hp : p = mldsa65 ∨ p = mldsa87) (r : Int) (h : 0 ≤ r ∧ r < 8380417) :
    decompose p r = Spec.decompose 261888 r := by
  obtain ⟨k, hk⟩ : ∃ k, k = (((r + 127) / 128) * 1025 + 2097152) / 4194304 := ⟨_, rfl⟩
  obtain ⟨h0, h1, h2, h3⟩ := quot32 r k h hk
  rw [spec_decompose_eq 261888 16 r k (by decide) (by decide) h (by omega)]
  have e1 : u32 (u32 r + 0x7f) = r + 127 := by unfold u32; omega
  have e2 : i32 ((r + 127) / 2 ^ 7) = (r + 127) / 128 := by unfold i32; omega
  have e3 : u32 (u32 (u32 ((r + 127) / 128) * 1025) + 2 ^ 21) = ((r + 127) / 128) * 1025 + 2097152 := by
    unfold u32; omega
  have e4 : i32 ((((r + 127) / 128) * 1025 + 2097152) / 2 ^ 22) = k := by
    rw [show (2 : Int) ^ 22 = 4194304 by norm_num, ← hk]; exact i32_id (by omega)
  have hk4 : ¬ p.k = 4 := by rcases hp with rfl | rfl <;> decide
  have hg : (p.gamma2 : Int) = 261888 := by rcases hp with rfl | rfl <;> decide
  have hh : decomposeHigh p r = if k = 16 then 0 else k := by
    unfold decomposeHigh
    simp only [e1, e2, e3, e4]
    rw [if_neg hk4]
    by_cases hc : k = 16
    · rw [if_pos hc]; omega
    · rw [if_neg hc]; omega
  unfold decompose
  simp only [hh, hg, Q]
  by_cases hc : k = 16
  · simp only [if_pos hc]
    have e5 : i32 (u32 (r - u32 (u32 (0 * 2) * 261888))) = r := by unfold u32 i32; omega
    rw [e5, if_pos (by omega), Prod.mk.injEq]
    refine ⟨rfl, ?_⟩
    rw [i32_id (by omega)]; omega
  · simp only [if_neg hc]
    have e5 : i32 (u32 (r - u32 (u32 (k * 2) * 261888))) = r - 2 * 261888 * k := by
      rw [u32_id (x := k * 2) (by omega), u32_id (x := k * 2 * 261888) (by omega)]; unfold u32 i32; omega
    rw [e5, if_neg (by omega), Prod.mk.injEq]
    refine ⟨rfl, ?_⟩
    rw [i32_id (by omega)]; omega

/-- The two values of `γ2`, and the number of high parts. -/
theorem gamma2_cases {p : Params} (hp : p ∈ paramTable) :
    (p.gamma2 = 95232 ∧ p = mldsa44) ∨ (p.gamma2 = 261888 ∧ (p = mldsa65 ∨ p = mldsa87)) := by
  rcases param_cases hp with rfl | rfl | rfl
  · exact .inl ⟨by decide, rfl⟩
  · exact .inr ⟨by decide, .inl rfl⟩
  · exact .inr ⟨by decide, .inr rfl⟩

theorem decompose_eq {p : Params} (hp : p ∈ paramTable) (r : Int) (h : 0 ≤ r ∧ r < Spec.q) :
    decompose p r = Spec.decompose p.gamma2 r := by
  rcases gamma2_cases hp with ⟨hg, rfl⟩ | ⟨hg, hc⟩
  · rw [hg]; exact decompose44 r h
  · rw [hg]; exact decompose32 p hc r h

theorem addQ_eq (x : Int) (h : -8380417 ≤ x ∧ x < 8380417) : addQ x = x % 8380417 ∨ (x = -8380417 ∧ addQ x = 0) := by
  unfold addQ Q i32; split <;> omega

theorem addQ_mod (x : Int) (h : -8380417 < x ∧ x < 8380417) : addQ x = x % Spec.q := by
  unfold addQ Q i32 Spec.q; split <;> omega

theorem spec_decompose_mod (g r : Int) : Spec.decompose g (r % Spec.q) = Spec.decompose g r := by
  unfold Spec.decompose; simp only [Int.emod_emod]

/-- The shape of a FIPS decomposition: quotient `k ∈ [0, m]`. -/
theorem spec_shape (g m r : Int) (hg : 0 < g) (hm : Spec.q = 1 + m * (2 * g)) :
    ∃ k, 0 ≤ k ∧ k ≤ m ∧ (-g < r % Spec.q - 2 * g * k ∧ r % Spec.q - 2 * g * k ≤ g) ∧
      Spec.decompose g r = if k = m then (0, r % Spec.q - 2 * g * k - 1) else (k, r % Spec.q - 2 * g * k) := by
  obtain ⟨x, hx⟩ : ∃ x, x = r % Spec.q := ⟨_, rfl⟩
  have hx0 : 0 ≤ x ∧ x < Spec.q := by
    have : (0 : Int) < Spec.q := by decide
    rw [hx]; exact ⟨Int.emod_nonneg _ (by omega), Int.emod_lt_of_pos _ this⟩
  rw [← spec_decompose_mod, ← hx]
  have h1 := Int.mul_ediv_add_emod (x + g - 1) (2 * g)
  have h2 := Int.emod_nonneg (x + g - 1) (show 2 * g ≠ 0 by omega)
  have h3 := Int.emod_lt_of_pos (x + g - 1) (show 0 < 2 * g by omega)
  have hk0 : 0 ≤ (x + g - 1) / (2 * g) := Int.ediv_nonneg (by omega) (by omega)
  have hkm : (x + g - 1) / (2 * g) ≤ m := by
    by_contra hc
    have : m + 1 ≤ (x + g - 1) / (2 * g) := by omega
    have h4 := Int.mul_le_mul_of_nonneg_left this (show 0 ≤ 2 * g by omega)
    rw [Int.mul_add, Int.mul_comm (2 * g) m] at h4
    omega
  exact ⟨(x + g - 1) / (2 * g), hk0, hkm, by omega, spec_decompose_eq g m x _ hg hm hx0 (by omega)⟩

theorem useHint_eq {p : Params} (hp : p ∈ paramTable) (h : Nat) (hh : h = 0 ∨ h = 1) (w : Int)
    (hw : -Spec.q < w ∧ w < Spec.q) : useHint p h w = Spec.useHint p.gamma2 h w := by
  have e0 : addQ w = w % Spec.q := addQ_mod w hw
  have hq : (0 : Int) < Spec.q := by decide
  have hr : 0 ≤ w % Spec.q ∧ w % Spec.q < Spec.q := ⟨Int.emod_nonneg _ (by omega), Int.emod_lt_of_pos _ hq⟩
  unfold useHint Spec.useHint
  simp only [e0, decompose_eq hp _ hr, spec_decompose_mod]
  rcases gamma2_cases hp with ⟨hg, _⟩ | ⟨hg, _⟩
  · obtain ⟨k, k0, k1, k2, hd⟩ := spec_shape 95232 44 w (by decide) (by decide)
    rw [hg, show ((95232 : Nat) : Int) = 95232 from rfl, hd]
    rcases hh with rfl | rfl
    · simp
    · by_cases hk : k = 44
      · simp only [if_pos hk, if_pos]; simp [Spec.q]; (repeat' split) <;> omega
      · simp only [if_neg hk]; simp [Spec.q]; (repeat' split) <;> omega
  · obtain ⟨k, k0, k1, k2, hd⟩ := spec_shape 261888 16 w (by decide) (by decide)
    rw [hg, show ((261888 : Nat) : Int) = 261888 from rfl, hd]
    rcases hh with rfl | rfl
    · simp
    · by_cases hk : k = 16
      · simp only [if_pos hk, if_pos]; simp [Spec.q]; (repeat' split) <;> omega
      · simp only [if_neg hk]; simp [Spec.q]; (repeat' split) <;> omega

theorem power2Round_eq (r : Int) (h : 0 ≤ r ∧ r < Spec.q) : power2Round r = Spec.power2Round r := by
  unfold Spec.q at h
  have e1 : i32 (i32 (r + 2 ^ (13 - 1)) - 1) / 2 ^ 13 = (r + 4095) / 8192 := by
    rw [i32_id (x := r + 2 ^ (13 - 1)) (by norm_num; omega), i32_id (by norm_num; omega)]
    norm_num; congr 1; omega
  unfold power2Round Spec.power2Round Spec.cmod Spec.q
  simp only [e1]
  rw [Int.emod_eq_of_lt h.1 h.2]
  have e2 : i32 ((r + 4095) / 8192 * 2 ^ 13) = (r + 4095) / 8192 * 8192 := by
    norm_num; exact i32_id (by omega)
  rw [e2, i32_id (by omega), Prod.mk.injEq]
  norm_num
  constructor <;> split <;> omega

/-! ## Norms -/

theorem validity_term (z : Int) (t : Nat) (hz : -2147483648 ≤ z ∧ z ≤ 2147483647) (ht : 1 ≤ t ∧ t ≤ 2147483648) :
    (u32 (t - 1 - u32 (u32 z - (if u32 (if z < 0 then -1 else 0) = 0 then 0 else u32 (u32 z * 2))))).toNat >>> 31 &&& 1
      = if (t : Int) ≤ |z| then 1 else 0 := by
  have e : u32 (u32 z - (if u32 (if z < 0 then -1 else 0) = 0 then 0 else u32 (u32 z * 2))) = |z| := by
    by_cases hs : z < 0
    · rw [if_pos hs, if_neg (by decide), abs_of_neg hs]; unfold u32; omega
    · rw [if_neg hs, if_pos (by decide), abs_of_nonneg (by omega)]; unfold u32; omega
  rw [e]
  have ha : 0 ≤ |z| ∧ |z| ≤ 2147483648 := by
    constructor
    · exact abs_nonneg z
    · rw [abs_le]; omega
  generalize |z| = a at *
  rw [Nat.shiftRight_eq_div_pow, Nat.and_one_is_mod]
  split <;> (unfold u32; omega)

theorem validityLoop_eq (z : Poly) (t : Nat) (hz : ∀ j, j < 256 → -2147483648 ≤ z j ∧ z j ≤ 2147483647)
    (ht : 1 ≤ t ∧ t ≤ 2147483648) (n : Nat) (hn : n ≤ 256) :
    validityLoop z t n = 0 ↔ ∀ j, j < n → |z j| < t := by
  induction n with
  | zero => simp [validityLoop]
  | succ n ih =>
    unfold validityLoop
    simp only [validity_term (z n) t (hz n (by omega)) ht]
    rw [Nat.or_eq_zero_iff, ih (by omega)]
    constructor
    · rintro ⟨h1, h2⟩ j hj
      by_cases e : j = n
      · subst e
        by_contra hc
        rw [if_pos (by omega)] at h2; omega
      · exact h1 j (by omega)
    · intro h
      refine ⟨fun j hj => h j (by omega), ?_⟩
      rw [if_neg (by have := h n (by omega); omega)]

/-! ## The hint bit of the signer -/

theorem topOfOrNeg_eq (x : Nat) (hx : x < 4294967296) : topOfOrNeg x = if x = 0 then 0 else 1 := by
  unfold topOfOrNeg
  by_cases h0 : x = 0
  · subst h0; decide
  · rw [if_neg h0]
    have e : w32 (0 - (x : Int)) = 4294967296 - x := by unfold w32 u32; omega
    rw [e, Nat.shiftRight_eq_div_pow]
    have h1 : x ≤ x ||| (4294967296 - x) := Nat.left_le_or
    have h2 : 4294967296 - x ≤ x ||| (4294967296 - x) := Nat.right_le_or
    have h3 : x ||| (4294967296 - x) < 2 ^ 32 := Nat.or_lt_two_pow (by omega) (by omega)
    omega

theorem modQ_small (v s : Int) (c : Int) (hs : -4170000 ≤ s ∧ s ≤ 4170000) (hv : v = s + c * 8380417) (hc : -2 ≤ c ∧ c ≤ 2) :
    modQ v = s := by
  obtain ⟨c0, c1⟩ := hc
  unfold modQ Q i32
  subst hv
  interval_cases c <;> norm_num <;> omega

end Verif.Crypto.Mldsa
