import Verif.Crypto.Bn.Gcd
import Verif.Crypto.Bn.ApiProps
import Mathlib.Data.Int.ModEq
import Mathlib.Data.Int.GCD
/-! C58: greatest common divisor, least common multiple and modular inverse. -/
namespace Verif.Crypto.Bn

variable {h : Nat}

theorem isOne_iff (hh : 0 < h) (a : Bn h) (ha : a.WF) : isOne a = true ↔ a.toInt = 1 := by
  unfold isOne
  rw [decide_eq_true_iff]
  have h1 : (⟨false, [1]⟩ : Bn h).toInt = 1 := by rw [toInt_pos, val_one_limb, toNat_one hh]; rfl
  have hwf : (⟨false, [1]⟩ : Bn h).WF := wf_pos (norm_append_last (l := []) (by
    intro h0
    have := congrArg BitVec.toNat h0
    rw [toNat_one hh, toNat_zero'] at this
    omega))
  constructor
  · intro he; rw [he, h1]
  · intro he
    exact bn_canonical hh a _ ((wf_iff hh a).2 ha) ((wf_iff hh _).2 hwf) (by rw [int_eq, int_eq, he, h1])

theorem zero_iff (hh : 0 < h) (a : Bn h) (ha : a.WF) : a.data.length = 0 ↔ a.toInt = 0 := by
  constructor
  · intro h0; by_contra hx; exact wf_nonzero hx h0
  · intro h0
    by_contra hx
    have := val_pos_of_norm hh ha.1 (fun hy => hx (by rw [hy]; rfl))
    unfold Bn.toInt at h0
    split at h0 <;> omega

theorem natAbs_val (a : Bn h) : a.toInt.natAbs = val a.data := by unfold Bn.toInt; split <;> simp

theorem gcd_step (x y q r : Int) (he : x = q * y + r) : Int.gcd y r = Int.gcd x y := by
  rw [he, Int.gcd_comm (q * y + r) y, Int.gcd_mul_right_add_right]

theorem gcdLoop_spec {j : Nat} (hj : h = 2 ^ j) : ∀ (fuel : Nat) (big small : Bn h), big.WF → small.WF → small.toInt ≠ 0 → val small.data < fuel →
    ∃ r, gcdLoop fuel big small = some (some r) ∧ r.WF ∧ val r.data = Int.gcd big.toInt small.toInt
  | 0, _, _, _, _, _, hf => by omega
  | fuel + 1, big, small, hb, hs, h0, hf => by
    have hh : 0 < h := by rw [hj]; exact Nat.pow_pos (by decide)
    obtain ⟨q, r, d1, d2, d3, d4, d5⟩ := bnDiv_spec hj big small hb hs h0
    have hstep : Int.gcd small.toInt r.toInt = Int.gcd big.toInt small.toInt :=
      gcd_step _ _ q.toInt _ (by rw [d2, d3, Int.mul_comm, Int.mul_tdiv_add_tmod])
    rw [gcdLoop, d1]
    simp only
    by_cases h1 : isOne r = true
    · rw [if_pos h1]
      refine ⟨r, rfl, d5, ?_⟩
      have hr := (isOne_iff hh r d5).1 h1
      rw [← hstep, hr, Int.gcd_one, ← natAbs_val, hr]; rfl
    · rw [if_neg h1]
      by_cases hz : r.data.length = 0
      · rw [if_pos hz]
        refine ⟨small, rfl, hs, ?_⟩
        rw [← hstep, (zero_iff hh r d5).1 hz, Int.gcd_zero, natAbs_val]
      · rw [if_neg hz]
        obtain ⟨g, g1, g2, g3⟩ := gcdLoop_spec hj fuel small r hs d5 (fun hx => hz ((zero_iff hh r d5).2 hx)) (by
          have : r.toInt.natAbs < small.toInt.natAbs := by
            rw [d3, Int.natAbs_tmod]; exact Nat.mod_lt _ (by omega)
          rw [natAbs_val, natAbs_val] at this
          omega)
        exact ⟨g, g1, g2, by rw [g3, hstep]⟩

theorem bnGcd_spec {j : Nat} (hj : h = 2 ^ j) (a b : Bn h) (ha : a.WF) (hb : b.WF) (ha0 : a.toInt ≠ 0) (hb0 : b.toInt ≠ 0) :
    ∃ r, bnGcd a b = some (some r) ∧ r.toInt = Int.gcd a.toInt b.toInt ∧ r.WF := by
  have hh : 0 < h := by rw [hj]; exact Nat.pow_pos (by decide)
  unfold bnGcd
  rw [if_neg (by rw [zero_iff hh a ha, zero_iff hh b hb]; tauto)]
  simp only
  rcases cmp_trich hh a.data b.data ha.1 hb.1 with ⟨h1, h2⟩ | ⟨h1, h2⟩ | ⟨h1, h2⟩ <;> rw [h1]
  · rw [if_neg (by decide), if_neg (by decide), if_neg (by decide)]
    obtain ⟨r, r1, r2, r3⟩ := gcdLoop_spec hj ((2 ^ (h + h)) ^ a.data.length) b a hb ha ha0 (val_lt _)
    rw [r1]
    exact ⟨_, rfl, by rw [toInt_pos, r3, Int.gcd_comm], wf_pos r2.1⟩
  · rw [if_pos rfl]
    refine ⟨_, rfl, ?_, wf_pos ha.1⟩
    rw [toInt_pos]
    show ((val a.data : Nat) : Int) = (Nat.gcd a.toInt.natAbs b.toInt.natAbs : Nat)
    rw [natAbs_val, natAbs_val, ← h2, Nat.gcd_self]
  · rw [if_neg (by decide), if_pos (by decide), if_pos (by decide)]
    obtain ⟨r, r1, r2, r3⟩ := gcdLoop_spec hj ((2 ^ (h + h)) ^ b.data.length) a b ha hb hb0 (val_lt _)
    rw [r1]
    exact ⟨_, rfl, by rw [toInt_pos, r3], wf_pos r2.1⟩

theorem invCoreLoop_spec {j : Nat} (hj : h = 2 ^ j) (x m : Int) : ∀ (fuel : Nat) (a b c d : Bn h), a.WF → b.WF → c.WF → d.WF → 0 < b.toInt → b.toInt < a.toInt →
    val b.data < fuel → c.toInt * x ≡ a.toInt [ZMOD m] → d.toInt * x ≡ b.toInt [ZMOD m] → (b.toInt = 1 → x ≡ 1 [ZMOD m]) →
    (Int.gcd a.toInt b.toInt = 1 → ∃ r, invCoreLoop fuel a b c d = some (some r) ∧ r.WF ∧ r.toInt * x ≡ 1 [ZMOD m]) ∧
    (Int.gcd a.toInt b.toInt ≠ 1 → invCoreLoop fuel a b c d = none)
  | 0, _, _, _, _, _, _, _, _, _, _, hf, _, _, _ => by omega
  | fuel + 1, a, b, c, d, ha, hb, hc, hd, hb0, hlt, hf, ea, eb, hone => by
    have hh : 0 < h := by rw [hj]; exact Nat.pow_pos (by decide)
    obtain ⟨q, r, d1, d2, d3, d4, d5⟩ := bnDiv_spec hj a b ha hb (by omega)
    have hqr : a.toInt = q.toInt * b.toInt + r.toInt := by rw [d2, d3, Int.mul_comm, Int.mul_tdiv_add_tmod]
    have hstep : Int.gcd b.toInt r.toInt = Int.gcd a.toInt b.toInt := gcd_step _ _ q.toInt _ hqr
    rw [← hstep, invCoreLoop, d1]
    simp only
    by_cases hz : r.data.length = 0
    · rw [if_pos hz, (zero_iff hh r d5).1 hz, Int.gcd_zero]
      by_cases h1 : isOne b = true
      · rw [if_pos h1]
        have hb1 := (isOne_iff hh b hb).1 h1
        refine ⟨fun _ => ?_, fun hn => absurd (by rw [hb1]; rfl) hn⟩
        obtain ⟨l1, l2, l3⟩ := bnLimb_spec (1 : W h)
        refine ⟨_, rfl, l2, ?_⟩
        rw [l1, toNat_one hh]
        simpa using hone hb1
      · rw [if_neg h1]
        refine ⟨fun hn => absurd ((isOne_iff hh b hb).2 (by omega)) h1, fun _ => rfl⟩
    · rw [if_neg hz]
      have hr0 : r.toInt ≠ 0 := fun hx => hz ((zero_iff hh r d5).2 hx)
      have hrn : 0 ≤ r.toInt := by rw [d3]; exact Int.tmod_nonneg _ (by omega)
      have hrlt : r.toInt < b.toInt := by rw [d3]; exact Int.tmod_lt_of_pos _ hb0
      have hq0 : 0 < q.toInt := by
        rcases Int.lt_or_le 0 q.toInt with hq | hq
        · exact hq
        · have := Int.mul_le_mul_of_nonneg_right hq (show 0 ≤ b.toInt by omega)
          omega
      have hqwf : (⟨!q.neg, q.data⟩ : Bn h).WF := ⟨d4.1, fun _ h0 => by
        have := (zero_iff hh q d4).1 (by rw [show q.data = [] from h0]; rfl)
        omega⟩
      have hqI : (⟨!q.neg, q.data⟩ : Bn h).toInt = -q.toInt := by
        unfold Bn.toInt
        cases q.neg <;> simp
      obtain ⟨m1, m2⟩ := bnMul_spec hh (q.data.length + d.data.length) ⟨!q.neg, q.data⟩ d hqwf hd
      obtain ⟨s1, s2⟩ := bnAdd_spec hh c (bnMul (q.data.length + d.data.length) ⟨!q.neg, q.data⟩ d) hc m2
      rw [m1, hqI] at s1
      have hinv : (bnAdd c (bnMul (q.data.length + d.data.length) ⟨!q.neg, q.data⟩ d)).toInt * x ≡ r.toInt [ZMOD m] := by
        rw [s1]
        have e1 : (c.toInt + -q.toInt * d.toInt) * x = c.toInt * x - q.toInt * (d.toInt * x) := by ring
        have e2 : r.toInt = a.toInt - q.toInt * b.toInt := by omega
        rw [e1, e2]
        exact ea.sub (eb.mul_left _)
      by_cases h1 : isOne r = true
      · rw [if_pos h1]
        have hr1 := (isOne_iff hh r d5).1 h1
        rw [hr1, Int.gcd_one]
        refine ⟨fun _ => ⟨_, rfl, s2, by rw [← hr1]; exact hinv⟩, fun hn => absurd rfl hn⟩
      · rw [if_neg h1]
        refine invCoreLoop_spec hj x m fuel b r d _ hb d5 hd s2 (by omega) hrlt ?_ eb hinv fun hx => absurd ((isOne_iff hh r d5).2 hx) h1
        have e1 := natAbs_val r
        have e2 := natAbs_val b
        omega

/-- The greatest common divisor, for every two numbers other than zero. -/
theorem gcd_exact {j : Nat} (hj : h = 2 ^ j) (a b : Bn h) (ha : Spec.WellFormed a) (hb : Spec.WellFormed b) :
    (Spec.int a ≠ 0 ∧ Spec.int b ≠ 0 → ∃ r, bnGcd a b = some (some r) ∧ Spec.int r = Int.gcd (Spec.int a) (Spec.int b) ∧ Spec.WellFormed r) ∧
    (Spec.int a = 0 ∨ Spec.int b = 0 → bnGcd a b = none) := by
  have hh : 0 < h := by rw [hj]; exact Nat.pow_pos (by decide)
  rw [wf_iff hh] at ha hb
  simp only [int_eq, wf_iff hh]
  refine ⟨fun h0 => bnGcd_spec hj a b ha hb h0.1 h0.2, fun h0 => ?_⟩
  unfold bnGcd
  rw [if_pos (by rw [zero_iff hh a ha, zero_iff hh b hb]; exact h0)]

/-- The modular inverse: found exactly when there is one, for every modulus but zero, one and minus one. -/
theorem modInv_exact {j : Nat} (hj : h = 2 ^ j) (x m : Bn h) (hx : Spec.WellFormed x) (hm : Spec.WellFormed m) (hm1 : 1 < (Spec.int m).natAbs) :
    (Int.gcd (Spec.int x) (Spec.int m) = 1 → ∃ r, bnModInv x m = some (some r) ∧ Spec.int r * Spec.int x % Spec.int m = 1 ∧
      0 ≤ Spec.int r ∧ Spec.int r < (Spec.int m).natAbs ∧ Spec.WellFormed r) ∧
    (Int.gcd (Spec.int x) (Spec.int m) ≠ 1 → bnModInv x m = none) := by
  have hh : 0 < h := by rw [hj]; exact Nat.pow_pos (by decide)
  rw [wf_iff hh] at hx hm
  simp only [int_eq, wf_iff hh] at *
  have hm0 : m.toInt ≠ 0 := by omega
  unfold bnModInv
  by_cases hx0 : x.toInt = 0
  · rw [if_pos (Or.inl ((zero_iff hh x hx).2 hx0)), hx0, Int.zero_gcd]
    exact ⟨fun hc => by omega, fun _ => rfl⟩
  · rw [if_neg (by rw [zero_iff hh x hx, zero_iff hh m hm]; tauto)]
    obtain ⟨b, b1, b2, b3⟩ := bnMod_spec hj x m hx hm hm0
    simp only
    rw [b1]
    simp only
    have hgcd : Int.gcd x.toInt m.toInt = Int.gcd m.toInt b.toInt := by
      have e := Int.mul_ediv_add_emod x.toInt m.toInt
      rw [b2]
      exact (gcd_step x.toInt m.toInt (x.toInt / m.toInt) _ (by rw [Int.mul_comm]; exact e.symm)).symm
    by_cases hb0 : b.data.length = 0
    · rw [if_pos hb0, hgcd, (zero_iff hh b b3).1 hb0, Int.gcd_zero]
      exact ⟨fun hc => by omega, fun _ => rfl⟩
    · rw [if_neg hb0]
      have hbne : b.toInt ≠ 0 := fun hc => hb0 ((zero_iff hh b b3).2 hc)
      have hbn : 0 ≤ b.toInt := by rw [b2]; exact Int.emod_nonneg _ hm0
      have hblt : b.toInt < m.toInt.natAbs := by rw [b2]; exact Int.emod_lt x.toInt hm0
      have haI : (⟨false, m.data⟩ : Bn h).toInt = m.toInt.natAbs := by rw [toInt_pos, natAbs_val]
      obtain ⟨l1, l2, l3⟩ := bnLimb_spec (1 : W h)
      rw [toNat_one hh] at l1
      have hxb : x.toInt ≡ b.toInt [ZMOD m.toInt] := by rw [b2]; exact (Int.mod_modEq _ _).symm
      have hdvd : m.toInt ∣ (m.toInt.natAbs : Int) := Int.dvd_natAbs_self
      obtain ⟨i1, i2⟩ := invCoreLoop_spec hj x.toInt m.toInt ((2 ^ (h + h)) ^ b.data.length) ⟨false, m.data⟩ b bnZero (bnLimb 1) (wf_pos hm.1) b3 wf_zero l2 (by omega)
        (by rw [haI]; exact hblt) (val_lt _) (by
          rw [haI, toInt_zero, Int.zero_mul]
          exact ((Int.modEq_zero_iff_dvd).2 hdvd).symm)
        (by rw [l1]; simpa using hxb) (fun h1 => by rw [h1] at hxb; exact hxb)
      have hg' : Int.gcd (⟨false, m.data⟩ : Bn h).toInt b.toInt = Int.gcd x.toInt m.toInt := by
        rw [haI, hgcd]
        show Nat.gcd ((m.toInt.natAbs : Int)).natAbs b.toInt.natAbs = Nat.gcd m.toInt.natAbs b.toInt.natAbs
        rw [Int.natAbs_natCast]
      rw [hg'] at i1 i2
      constructor
      · intro hc
        obtain ⟨t, t1, t2, t3⟩ := i1 hc
        rw [t1]
        simp only
        obtain ⟨r, r1, r2, r3⟩ := bnMod_spec hj t m t2 hm hm0
        refine ⟨r, r1, ?_, by rw [r2]; exact Int.emod_nonneg _ hm0, by rw [r2]; exact Int.emod_lt _ hm0, r3⟩
        have e1 : r.toInt * x.toInt ≡ 1 [ZMOD m.toInt] := by
          rw [r2]
          exact ((Int.mod_modEq t.toInt m.toInt).mul_right _).trans t3
        have e2 : r.toInt * x.toInt % m.toInt = 1 % m.toInt := e1
        rw [e2, ← Int.emod_abs]
        apply Int.emod_eq_of_lt (by decide)
        rw [Int.abs_eq_natAbs]; omega
      · intro hc
        rw [i2 hc]

/-- With the moduli one and minus one, where every number is an inverse of every other, the function reports that there is none. -/
theorem modInv_one {j : Nat} (hj : h = 2 ^ j) (x m : Bn h) (hx : Spec.WellFormed x) (hm : Spec.WellFormed m) (hm1 : (Spec.int m).natAbs ≤ 1) :
    bnModInv x m = none := by
  have hh : 0 < h := by rw [hj]; exact Nat.pow_pos (by decide)
  rw [wf_iff hh] at hx hm
  rw [int_eq] at hm1
  unfold bnModInv
  by_cases h0 : x.data.length = 0 ∨ m.data.length = 0
  · rw [if_pos h0]
  · rw [if_neg h0]
    have hm0 : m.toInt ≠ 0 := fun hc => h0 (Or.inr ((zero_iff hh m hm).2 hc))
    obtain ⟨b, b1, b2, b3⟩ := bnMod_spec hj x m hx hm hm0
    simp only
    rw [b1]
    simp only
    have : b.toInt = 0 := by
      rw [b2]
      have hl := Int.emod_lt x.toInt hm0
      have hn := Int.emod_nonneg x.toInt hm0
      omega
    rw [if_pos ((zero_iff hh b b3).2 this)]

/-- The least common multiple, up to the sign, into a destination that is not the second operand. -/
theorem lcm_exact {j : Nat} (hj : h = 2 ^ j) (a b : Bn h) (ha : Spec.WellFormed a) (hb : Spec.WellFormed b) (ha0 : Spec.int a ≠ 0) (hb0 : Spec.int b ≠ 0) :
    ∃ r, bnLcm false a b = some (some r) ∧ (Spec.int r).natAbs = Int.lcm (Spec.int a) (Spec.int b) ∧ Spec.WellFormed r := by
  have hh : 0 < h := by rw [hj]; exact Nat.pow_pos (by decide)
  rw [wf_iff hh] at ha hb
  simp only [int_eq, wf_iff hh] at *
  obtain ⟨g, g1, g2, g3⟩ := bnGcd_spec hj a b ha hb ha0 hb0
  have hgpos : 0 < Int.gcd a.toInt b.toInt := Int.gcd_pos_of_ne_zero_left _ ha0
  have hlcm : Int.gcd a.toInt b.toInt * Int.lcm a.toInt b.toInt = a.toInt.natAbs * b.toInt.natAbs := by
    rw [Int.gcd_mul_lcm]
  unfold bnLcm
  rw [g1]
  simp only
  by_cases h1 : isOne g = false
  · rw [if_pos h1]
    obtain ⟨q, r, d1, d2, d3, d4, d5⟩ := bnDiv_spec hj a g ha g3 (by omega)
    rw [d1]
    simp only [Bool.false_eq_true, if_false]
    obtain ⟨m1, m2⟩ := bnMul_spec hh (q.data.length + b.data.length) q b d4 hb
    refine ⟨_, rfl, ?_, m2⟩
    rw [m1, Int.natAbs_mul, d2, g2, Int.natAbs_tdiv, Int.natAbs_natCast]
    apply Nat.eq_of_mul_eq_mul_left hgpos
    rw [hlcm, ← Nat.mul_assoc, show a.toInt.natAbs.div (a.toInt.gcd b.toInt) = a.toInt.natAbs / (a.toInt.gcd b.toInt) from rfl, Nat.mul_div_cancel' (Int.gcd_dvd_natAbs_left _ _)]
  · rw [if_neg h1]
    have hg1 := (isOne_iff hh g g3).1 (by simpa using h1)
    obtain ⟨m1, m2⟩ := bnMul_spec hh (a.data.length + b.data.length) a b ha hb
    refine ⟨_, rfl, ?_, m2⟩
    have : Int.gcd a.toInt b.toInt = 1 := by omega
    rw [this, Nat.one_mul] at hlcm
    rw [m1, Int.natAbs_mul, hlcm]

/-- With the destination in the place of the second operand, `BN_Lcm` of 4 and 6 is 4. -/
theorem lcm_alias_wrong : ∃ (a b r : Bn 4), Spec.WellFormed a ∧ Spec.WellFormed b ∧ bnLcm true a b = some (some r) ∧
    (Spec.int r).natAbs ≠ Int.lcm (Spec.int a) (Spec.int b) := by
  refine ⟨⟨false, [4]⟩, ⟨false, [6]⟩, ⟨false, [4]⟩, ?_, ?_, by decide +kernel, by decide +kernel⟩
  all_goals rw [wf_iff (by decide)]; exact ⟨by decide, by decide⟩

example : bnGcd (⟨true, [0, 3]⟩ : Bn 4) ⟨false, [0xc0, 1]⟩ = some (some ⟨false, [64]⟩) := by decide +kernel
example : Int.gcd (-768) 448 = 64 := by decide +kernel
example : bnModInv (⟨true, [3]⟩ : Bn 4) ⟨false, [1, 1]⟩ = some (some ⟨false, [171]⟩) := by decide +kernel
example : (171 * -3 : Int) % 257 = 1 := by decide +kernel
example : bnModInv (⟨false, [6]⟩ : Bn 4) ⟨false, [9]⟩ = none := by decide +kernel
example : bnLcm false (⟨false, [4]⟩ : Bn 4) ⟨false, [6]⟩ = some (some ⟨false, [12]⟩) := by decide +kernel

end Verif.Crypto.Bn
