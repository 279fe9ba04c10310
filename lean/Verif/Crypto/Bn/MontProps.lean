import Verif.Crypto.Bn.ApiProps
/-! C22: modular arithmetic and modular exponentiation.

The word has `w = 2 h` bits; the library is built with `w = 64` or `w = 32`. -/
namespace Verif.Crypto.Bn

variable {h : Nat}

/-- For every base, every non-negative exponent and every modulus other than zero, in both modes, with an odd modulus (by way of Montgomery
form) or with an even or negative one: the result is the power, reduced. A negative exponent and a zero modulus are errors. -/
theorem modExp_exact {j : Nat} (hj : h = 2 ^ j) (hw : 8 ≤ h + h) (a e m : Bn h) (ha : Spec.WellFormed a) (he : Spec.WellFormed e) (hm : Spec.WellFormed m)
    (consttime : Bool) :
    (Spec.int m ≠ 0 → 0 ≤ Spec.int e → ∃ r, bnModExp a e m consttime = some (some r) ∧
      Spec.int r = Spec.int a ^ (Spec.int e).toNat % Spec.int m ∧ Spec.WellFormed r) ∧
    (Spec.int m = 0 ∨ Spec.int e < 0 → bnModExp a e m consttime = none) := by
  have hh : 0 < h := by rw [hj]; exact Nat.pow_pos (by decide)
  rw [wf_iff hh] at ha he hm
  simp only [int_eq, wf_iff hh]
  constructor
  · intro h0 h1
    refine bnModExp_spec hj (by omega) a e m ha he hm ?_ h0 consttime
    cases hs : e.neg
    · rfl
    · have := wf_val_pos hh he hs
      unfold Bn.toInt at h1
      rw [hs] at h1
      simp only [if_true] at h1
      omega
  · intro hc
    unfold bnModExp
    by_cases hz : m.data.length = 0
    · rw [if_pos hz]
    · rw [if_neg hz]
      rcases hc with hc | hc
      · have hp := val_pos_of_norm hh hm.1 (fun hx => hz (by rw [hx]; rfl))
        unfold Bn.toInt at hc
        split at hc <;> omega
      · have : e.neg = true := by
          cases hs : e.neg
          · unfold Bn.toInt at hc; rw [hs] at hc; simp only [Bool.false_eq_true, if_false] at hc; omega
          · rfl
        rw [if_pos this]

/-- A Montgomery context exists exactly for the odd positive moduli, and exponentiation with it is exact. -/
theorem montExp_exact {j : Nat} (hj : h = 2 ^ j) (hw : 8 ≤ h + h) (m : Bn h) (hm : Spec.WellFormed m) :
    (Spec.int m % 2 = 1 ∧ 0 < Spec.int m → ∃ M, montCreate m = some (some M) ∧ ∀ a e : Bn h, Spec.WellFormed a → Spec.WellFormed e → 0 ≤ Spec.int e →
      ∀ consttime, ∃ r, bnMontExp M a e consttime = some (some r) ∧ Spec.int r = Spec.int a ^ (Spec.int e).toNat % Spec.int m ∧ Spec.WellFormed r) ∧
    (¬(Spec.int m % 2 = 1 ∧ 0 < Spec.int m) → montCreate m = none) := by
  have hh : 0 < h := by rw [hj]; exact Nat.pow_pos (by decide)
  rw [wf_iff hh] at hm
  simp only [int_eq, wf_iff hh]
  refine ⟨?_, (montCreate_ok hj m hm).2⟩
  intro hc
  obtain ⟨M, m1, m2, m3⟩ := (montCreate_ok hj m hm).1 hc
  refine ⟨M, m1, ?_⟩
  intro a e ha he h1 consttime
  have hs : e.neg = false := by
    cases hs : e.neg
    · rfl
    · have := wf_val_pos hh he hs
      unfold Bn.toInt at h1
      rw [hs] at h1
      simp only [if_true] at h1
      omega
  obtain ⟨r, r1, r2, r3⟩ := montExpCore_spec hj (by omega) m3 a e ha he hs consttime
  refine ⟨r, by unfold bnMontExp; rw [if_neg (by rw [hs]; simp), r1], ?_, r3⟩
  rw [r2, m2]
  congr 1
  unfold Bn.toInt at hc ⊢
  cases hs : m.neg
  · simp
  · rw [hs] at hc; simp only [if_true] at hc; omega

/-- The product of two numbers in Montgomery form is the Montgomery form of their product: with `R = B ^ n` for a modulus of `n` words,
multiplying gives `a b / R`, fully reduced, for all reduced `a` and `b`. -/
theorem montMul_exact {j : Nat} (hj : h = 2 ^ j) (m : Bn h) (hm : Spec.WellFormed m) {M : Mont h} (hM : montCreate m = some (some M))
    (a b : List (W h)) (hla : a.length = m.data.length) (hlb : b.length = m.data.length) (ha : Spec.num a < Spec.num m.data) (hb : Spec.num b < Spec.num m.data) :
    ∃ r, montMul M a b = some r ∧ r.length = m.data.length ∧ Spec.num r < Spec.num m.data ∧
      Spec.num r * (2 ^ (h + h)) ^ m.data.length % Spec.num m.data = Spec.num a * Spec.num b % Spec.num m.data := by
  have hh : 0 < h := by rw [hj]; exact Nat.pow_pos (by decide)
  rw [wf_iff hh] at hm
  simp only [num_eq] at *
  have hc : m.toInt % 2 = 1 ∧ 0 < m.toInt := by
    by_contra hx
    rw [(montCreate_ok hj m hm).2 hx] at hM
    cases hM
  obtain ⟨M', m1, m2, m3⟩ := (montCreate_ok hj m hm).1 hc
  rw [hM] at m1
  obtain rfl : M = M' := by simpa using m1
  rw [← m2] at hla hlb ha hb ⊢
  unfold montMul
  obtain ⟨p1, p2, _⟩ := binMul_val hh (2 * M.mod.length) a b (by omega)
  have hml := val_lt M.mod
  obtain ⟨r, r1, r2, r3, r4⟩ := reduce_mod hh M.mod M.k0 m3.key (binMul (2 * M.mod.length) a b).1 p1 (by
    rw [p2]
    exact Nat.mul_lt_mul'' ha (by omega))
  rw [p2] at r4
  exact ⟨r, r1, r2, r3, r4⟩

example : bnModExp (⟨true, [3]⟩ : Bn 4) ⟨false, [5]⟩ ⟨false, [7, 1]⟩ true = some (some ⟨false, [20]⟩) := by decide +kernel
example : bnModExp (⟨false, [3]⟩ : Bn 4) ⟨false, [0, 1]⟩ ⟨false, [1, 1]⟩ false = some (some ⟨false, [1]⟩) := by decide +kernel
example : bnModExp (⟨true, [3]⟩ : Bn 4) ⟨false, [5]⟩ ⟨true, [0, 1]⟩ false = some (some ⟨false, [13]⟩) := by decide +kernel
example : (-3 : Int) ^ 5 % 263 = 20 ∧ (3 : Int) ^ 256 % 257 = 1 ∧ (-3 : Int) ^ 5 % (-256) = 13 := by decide +kernel

end Verif.Crypto.Bn
