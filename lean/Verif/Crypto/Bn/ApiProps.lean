import Verif.Crypto.Bn.ExpProof
import Verif.Crypto.Bn.Props
/-! C56: the signed big numbers of the library are the integers.

The word has `w = 2 h` bits; the library is built with `w = 64` or `w = 32`. -/
namespace Verif.Crypto.Bn

namespace Spec

/-- The integer a big number stands for: a sign and a magnitude. -/
def int {h : Nat} (b : Bn h) : Int := if b.neg = true then -(num b.data : Int) else num b.data

/-- How the library keeps a number: no leading zero word, and no minus sign on zero. -/
def WellFormed {h : Nat} (b : Bn h) : Prop := Normal b.data ∧ (b.neg = true → num b.data ≠ 0)

/-- The number of bits of a natural number. -/
def bits (n : Nat) : Nat := if n = 0 then 0 else Nat.log2 n + 1

end Spec

variable {h : Nat}

theorem int_eq (b : Bn h) : Spec.int b = b.toInt := by unfold Spec.int Bn.toInt; rw [num_eq]

theorem normal_iff (l : List (W h)) : Spec.Normal l ↔ Norm l := by
  constructor
  · intro hn _ hl; exact hn _ hl rfl
  · rintro hn x hl rfl
    exact hn (fun h0 => by rw [h0] at hl; cases hl) hl

theorem wf_iff (hh : 0 < h) (b : Bn h) : Spec.WellFormed b ↔ b.WF := by
  unfold Spec.WellFormed Bn.WF
  rw [normal_iff, num_eq]
  constructor
  · rintro ⟨h1, h2⟩
    exact ⟨h1, fun hn h0 => h2 hn (by rw [h0]; rfl)⟩
  · rintro ⟨h1, h2⟩
    exact ⟨h1, fun hn => by have := val_pos_of_norm hh h1 (h2 hn); omega⟩

instance (l : List (W h)) : Decidable (Norm l) := inferInstanceAs (Decidable (_ → _ ≠ _))

/-! ### Shifts -/

theorem rs_len {A q s r k : Nat} (h1 : A - q = s + 1) (h2 : r = s) (h3 : r = k + 1) : A - 1 = q + (k + 1) := by omega

theorem ls_len {A q s r : Nat} (h1 : r = q + (s + 1)) (h2 : A = s + 1) : r - 1 = (A - 1) + q := by omega

theorem rshiftLoop_norm (nb na : Nat) (mask : W h) : ∀ (as : List (W h)) (lo : W h), (rshiftLoop nb na mask lo as).length = as.length ∨
    ((rshiftLoop nb na mask lo as).length = as.length + 1 ∧ (rshiftLoop nb na mask lo as).getLast? ≠ some 0)
  | [], lo => by
    rw [rshiftLoop]
    by_cases hc : lo >>> nb ≠ 0
    · rw [if_pos hc]; right; exact ⟨rfl, by simpa using hc⟩
    · rw [if_neg hc]; left; rfl
  | hi :: as, lo => by
    rw [rshiftLoop]
    rcases rshiftLoop_norm nb na mask as hi with h1 | ⟨h1, h2⟩
    · left; simp [h1]
    · right
      refine ⟨by simp [h1], ?_⟩
      have hne : rshiftLoop nb na mask hi as ≠ [] := fun h0 => by rw [h0] at h1; simp at h1
      rw [List.getLast?_cons_of_ne_nil hne]
      exact h2

theorem bnRshift_spec {j : Nat} (hj : h = 2 ^ j) (a : Bn h) (n : Nat) (ha : a.WF) :
    ∃ r, bnRshift a n = some r ∧ r.toInt = a.toInt.tdiv (2 ^ n) ∧ r.WF := by
  have hh : 0 < h := by rw [hj]; exact Nat.pow_pos (by decide)
  have hpow : ((2 : Int) ^ n) = ((2 ^ n : Nat) : Int) := by push_cast; rfl
  rw [hpow]
  unfold bnRshift
  by_cases hc : binBits a.data ≤ n
  · rw [if_pos hc]
    refine ⟨_, rfl, ?_, wf_zero⟩
    have hlt : val a.data < 2 ^ n := by
      by_cases hne : a.data = []
      · rw [hne]; simp [val]
      · have := (binBits_spec hj a.data ha.1 hne).2.2.1
        exact Nat.lt_of_lt_of_le this (Nat.pow_le_pow_right (by decide) hc)
    rw [toInt_zero]
    symm
    unfold Bn.toInt
    split
    · rw [Int.neg_tdiv, ← Int.ofNat_tdiv, Nat.div_eq_of_lt hlt]; rfl
    · rw [← Int.ofNat_tdiv, Nat.div_eq_of_lt hlt]; rfl
  · rw [if_neg hc]
    have hne : a.data ≠ [] := fun h0 => by rw [h0] at hc; simp [binBits] at hc
    obtain ⟨b1, b2, b3, b4, b5⟩ := binBits_spec hj a.data ha.1 hne
    have hlen : n / (h + h) < a.data.length := by
      rw [Nat.div_lt_iff_lt_mul (by omega), Nat.mul_comm]; omega
    obtain ⟨r, r1, r2⟩ := binRshift_spec hh a.data n hlen
    rw [r1]
    have hpos : 0 < val r := by
      rw [r2]; apply Nat.div_pos _ (Nat.pow_pos (by decide))
      exact Nat.le_trans (Nat.pow_le_pow_right (by decide) (by omega)) b2
    have hnorm : Norm r := by
      unfold binRshift at r1
      simp only at r1
      obtain ⟨lo, as, hd⟩ : ∃ lo as, a.data.drop (n / (h + h)) = lo :: as := by
        cases hd : a.data.drop (n / (h + h)) with
        | nil => rw [List.drop_eq_nil_iff] at hd; omega
        | cons x y => exact ⟨x, y, rfl⟩
      rw [hd] at r1
      simp only [Option.some.injEq] at r1
      have hl := congrArg List.length hd
      rw [List.length_drop, List.length_cons] at hl
      have hcase := rshiftLoop_norm (n % (h + h)) ((h + h - n % (h + h)) % (h + h)) (if n % (h + h) = 0 then (0 : W h) else BitVec.allOnes (h + h)) as lo
      rw [r1] at hcase
      rcases hcase with h1 | ⟨_, h2⟩
      · apply norm_of_le hh
        intro hrne
        rw [r2, Nat.le_div_iff_mul_le (Nat.pow_pos (by decide))]
        refine Nat.le_trans ?_ (norm_le ha.1 hne)
        have hrl : 0 < r.length := List.length_pos_iff.2 hrne
        have hm : n % (h + h) < h + h := Nat.mod_lt _ (by omega)
        have hdm := Nat.div_add_mod n (h + h)
        rw [← pow_mul, ← pow_mul, ← pow_add]
        apply Nat.pow_le_pow_right (by decide)
        obtain ⟨k, hk⟩ : ∃ k, r.length = k + 1 := ⟨r.length - 1, by omega⟩
        have e1 := rs_len hl h1 hk
        rw [hk, Nat.add_sub_cancel, e1]
        have : (h + h) * (n / (h + h) + (k + 1)) = (h + h) * (n / (h + h)) + ((h + h) * k + (h + h)) := by ring
        omega
      · exact fun _ => h2
    refine ⟨_, rfl, ?_, wf_of_val hnorm fun _ => hpos⟩
    unfold Bn.toInt
    split
    · rw [Int.neg_tdiv, ← Int.ofNat_tdiv, r2]
    · rw [← Int.ofNat_tdiv, r2]

theorem lshiftLoop_norm (nb na : Nat) (mask : W h) : ∀ (as : List (W h)) (below : W h), (lshiftLoop nb na mask below as).length = as.length ∨
    ((lshiftLoop nb na mask below as) ≠ [] ∧ (lshiftLoop nb na mask below as).getLast? ≠ some 0)
  | [], below => by
    rw [lshiftLoop]
    by_cases hc : (below >>> na) &&& mask ≠ 0
    · rw [if_pos hc]; right; exact ⟨by simp, by simpa using hc⟩
    · rw [if_neg hc]; left; rfl
  | a :: as, below => by
    rw [lshiftLoop]
    rcases lshiftLoop_norm nb na mask as a with h1 | ⟨h1, h2⟩
    · left; simp [h1]
    · right
      exact ⟨by simp, by rw [List.getLast?_cons_of_ne_nil h1]; exact h2⟩

theorem bnLshift_spec (hh : 0 < h) (a : Bn h) (n : Nat) (ha : a.WF) : ∃ r, bnLshift a n = some r ∧ r.toInt = a.toInt * 2 ^ n ∧ r.WF := by
  unfold bnLshift
  by_cases h0 : a.data.length ≠ 0
  · rw [if_pos h0]
    have hne : a.data ≠ [] := fun hx => h0 (by rw [hx]; rfl)
    obtain ⟨r, r1, r2, r3⟩ := binLshift_spec hh a.data n hne
    rw [r1]
    have hpa := val_pos_of_norm hh ha.1 hne
    have hpos : 0 < val r := by rw [r2]; exact Nat.mul_pos hpa (Nat.pow_pos (by decide))
    have hnorm : Norm r := by
      obtain ⟨a0, as, hd⟩ : ∃ a0 as, a.data = a0 :: as := by
        cases hd : a.data with
        | nil => exact absurd hd hne
        | cons x y => exact ⟨x, y, rfl⟩
      have hl := congrArg List.length hd
      rw [List.length_cons] at hl
      have hr1 := r1
      rw [hd] at hr1
      unfold binLshift at hr1
      simp only [Option.some.injEq] at hr1
      rcases lshiftLoop_norm (n % (h + h)) ((h + h - n % (h + h)) % (h + h)) (if n % (h + h) = 0 then (0 : W h) else BitVec.allOnes (h + h)) as a0 with h1 | ⟨h1, h2⟩
      · apply norm_of_le hh
        intro hrne
        have hrl := congrArg List.length hr1
        rw [List.length_append, List.length_replicate, List.length_cons, h1] at hrl
        rw [r2]
        have hdm := Nat.div_add_mod n (h + h)
        have e1 := ls_len hrl.symm hl
        rw [e1, pow_add]
        apply Nat.mul_le_mul (norm_le ha.1 hne)
        rw [← pow_mul]
        exact Nat.pow_le_pow_right (by decide) (by omega)
      · intro _
        rw [← hr1, List.getLast?_append, List.getLast?_cons_of_ne_nil h1, List.getLast?_eq_some_getLast h1, Option.some_or, ← List.getLast?_eq_some_getLast h1]
        exact h2
    refine ⟨_, rfl, ?_, wf_of_val hnorm fun _ => hpos⟩
    unfold Bn.toInt
    simp only
    split
    · rw [r2]; push_cast; ring
    · rw [r2]; push_cast; ring
  · rw [if_neg h0]
    have hd : a.data = [] := List.length_eq_zero_iff.1 (by omega)
    have hn : a.neg = false := by
      cases hx : a.neg
      · rfl
      · exact absurd hd (ha.2 hx)
    rw [hn]
    refine ⟨_, rfl, ?_, wf_pos norm_nil⟩
    rw [toInt_pos]
    unfold Bn.toInt
    rw [hn, hd]; simp [val]

/-! ### Headline theorems -/

/-- Comparing is comparing integers. -/
theorem bn_cmp (hh : 0 < h) (a b : Bn h) (ha : Spec.WellFormed a) (hb : Spec.WellFormed b) :
    bnCmp a b = if Spec.int a < Spec.int b then -1 else if Spec.int b < Spec.int a then 1 else 0 := by
  rw [wf_iff hh] at ha hb
  rw [int_eq, int_eq]
  rcases bnCmp_spec hh a b ha hb with ⟨h1, h2⟩ | ⟨h1, h2⟩ | ⟨h1, h2⟩ <;> rw [h1]
  · rw [if_pos h2]
  · rw [if_neg (by omega), if_neg (by omega)]
  · rw [if_neg (by omega), if_pos h2]

/-- Two well-formed numbers that stand for the same integer are the same. -/
theorem bn_canonical (hh : 0 < h) (a b : Bn h) (ha : Spec.WellFormed a) (hb : Spec.WellFormed b) (he : Spec.int a = Spec.int b) : a = b := by
  rw [wf_iff hh] at ha hb
  rw [int_eq, int_eq] at he
  obtain ⟨sa, da⟩ := a
  obtain ⟨sb, db⟩ := b
  have hpa := fun hn => wf_val_pos hh ha hn
  have hpb := fun hn => wf_val_pos hh hb hn
  have hdd : ∀ (x y : List (W h)), Norm x → Norm y → val x = val y → x = y := by
    intro x y hx hy hv
    have hl : x.length = y.length := by
      have h1 := len_le_of_le hh hx (by omega : val x ≤ val y)
      have h2 := len_le_of_le hh hy (by omega : val y ≤ val x)
      omega
    clear hx hy
    induction x generalizing y with
    | nil => exact (List.length_eq_zero_iff.1 hl.symm).symm
    | cons u us ih =>
      cases y with
      | nil => simp at hl
      | cons v vs =>
        simp only [val] at hv
        have hu := u.isLt
        have hv' := v.isLt
        have e1 : u.toNat = v.toNat := by
          have := congrArg (· % 2 ^ (h + h)) hv
          simp only [Nat.add_mul_mod_self_left, Nat.mod_eq_of_lt hu, Nat.mod_eq_of_lt hv'] at this
          exact this
        have e2 : val us = val vs := by
          rw [e1] at hv
          have := Nat.add_left_cancel hv
          exact Nat.eq_of_mul_eq_mul_left (Nat.pow_pos (by decide)) this
        rw [BitVec.eq_of_toNat_eq e1, ih vs e2 (by simpa using hl)]
  cases sa <;> cases sb <;> simp only [toInt_neg, toInt_pos] at *
  · rw [hdd da db ha.1 hb.1 (by omega)]
  · have := hpb trivial; omega
  · have := hpa trivial; omega
  · rw [hdd da db ha.1 hb.1 (by omega)]

theorem bn_add (hh : 0 < h) (a b : Bn h) (ha : Spec.WellFormed a) (hb : Spec.WellFormed b) :
    Spec.int (bnAdd a b) = Spec.int a + Spec.int b ∧ Spec.WellFormed (bnAdd a b) := by
  rw [wf_iff hh] at *; simp only [int_eq]; exact bnAdd_spec hh a b ha hb

theorem bn_sub (hh : 0 < h) (a b : Bn h) (ha : Spec.WellFormed a) (hb : Spec.WellFormed b) :
    Spec.int (bnSub a b) = Spec.int a - Spec.int b ∧ Spec.WellFormed (bnSub a b) := by
  rw [wf_iff hh] at *; simp only [int_eq]; exact bnSub_spec hh a b ha hb

theorem bn_mul (hh : 0 < h) (room : Nat) (a b : Bn h) (ha : Spec.WellFormed a) (hb : Spec.WellFormed b) :
    Spec.int (bnMul room a b) = Spec.int a * Spec.int b ∧ Spec.WellFormed (bnMul room a b) := by
  rw [wf_iff hh] at *; simp only [int_eq]; exact bnMul_spec hh room a b ha hb

theorem bn_sqr (hh : 0 < h) (a : Bn h) (ha : Spec.WellFormed a) : ∃ r, bnSqr a = some r ∧ Spec.int r = Spec.int a ^ 2 ∧ Spec.WellFormed r := by
  rw [wf_iff hh] at ha
  obtain ⟨r, h1, h2, h3⟩ := bnSqr_spec hh a ha
  exact ⟨r, h1, by rw [int_eq, int_eq, h2, pow_two], (wf_iff hh r).2 h3⟩

theorem bn_addLimb (hh : 0 < h) (a : Bn h) (w : W h) (ha : Spec.WellFormed a) :
    Spec.int (bnAddLimb a w) = Spec.int a + w.toNat ∧ Spec.WellFormed (bnAddLimb a w) := by
  rw [wf_iff hh] at *; simp only [int_eq]; exact bnAddLimb_spec hh a w ha

/-- The subtraction of a word is exact when the destination did not hold a negative number before. -/
theorem bn_subLimb (hh : 0 < h) (old a : Bn h) (w : W h) (ha : Spec.WellFormed a) (ho : old.neg = false) :
    Spec.int (bnSubLimb old a w) = Spec.int a - w.toNat ∧ Spec.WellFormed (bnSubLimb old a w) := by
  rw [wf_iff hh] at *; simp only [int_eq]; exact bnSubLimb_spec hh old a w ha ho

theorem bn_mulLimb (hh : 0 < h) (a : Bn h) (w : W h) (ha : Spec.WellFormed a) :
    Spec.int (bnMulLimb a w) = Spec.int a * w.toNat ∧ Spec.WellFormed (bnMulLimb a w) := by
  rw [wf_iff hh] at *; simp only [int_eq]; exact bnMulLimb_spec hh a w ha

/-- Division rounds towards zero, the remainder has the sign of the dividend, and a zero divisor is an error. -/
theorem bn_div {j : Nat} (hj : h = 2 ^ j) (x y : Bn h) (hx : Spec.WellFormed x) (hy : Spec.WellFormed y) :
    (Spec.int y = 0 → bnDiv x y = none) ∧
    (Spec.int y ≠ 0 → ∃ q r, bnDiv x y = some (some (q, r)) ∧ Spec.int x = Spec.int q * Spec.int y + Spec.int r ∧
      (Spec.int r).natAbs < (Spec.int y).natAbs ∧ 0 ≤ Spec.int r * Spec.int x ∧ Spec.WellFormed q ∧ Spec.WellFormed r) := by
  have hh : 0 < h := by rw [hj]; exact Nat.pow_pos (by decide)
  rw [wf_iff hh] at hx hy
  simp only [int_eq, wf_iff hh]
  constructor
  · intro h0
    apply bnDiv_zero
    by_contra hne
    have := val_pos_of_norm hh hy.1 hne
    unfold Bn.toInt at h0
    split at h0 <;> omega
  · intro h0
    obtain ⟨q, r, d1, d2, d3, d4, d5⟩ := bnDiv_spec hj x y hx hy h0
    refine ⟨q, r, d1, ?_, ?_, ?_, d4, d5⟩
    · rw [d2, d3, Int.mul_comm, Int.mul_tdiv_add_tmod]
    · rw [d3, Int.natAbs_tmod]
      exact Nat.mod_lt _ (by omega)
    · rw [d3]
      rcases Int.le_total 0 x.toInt with hs | hs
      · exact Int.mul_nonneg (Int.tmod_nonneg _ hs) hs
      · have := Int.tmod_nonneg (a := -x.toInt) y.toInt (by omega)
        rw [Int.neg_tmod] at this
        exact Int.mul_nonneg_of_nonpos_of_nonpos (by omega) hs

/-- The remainder of `BN_Mod` is the one between zero and the modulus. -/
theorem bn_mod {j : Nat} (hj : h = 2 ^ j) (a m : Bn h) (ha : Spec.WellFormed a) (hm : Spec.WellFormed m) (h0 : Spec.int m ≠ 0) :
    ∃ r, bnMod a m = some (some r) ∧ Spec.int r = Spec.int a % Spec.int m ∧ Spec.WellFormed r := by
  have hh : 0 < h := by rw [hj]; exact Nat.pow_pos (by decide)
  rw [wf_iff hh] at ha hm
  rw [int_eq] at h0
  simp only [int_eq, wf_iff hh]
  exact bnMod_spec hj a m ha hm h0

theorem bn_divLimb {j : Nat} (hj : h = 2 ^ j) (x : Bn h) (y : W h) (hx : Spec.WellFormed x) (hy : y ≠ 0) :
    ∃ q r, bnDivLimb x y = some (some (q, r)) ∧ Spec.int q = (Spec.int x).tdiv y.toNat ∧ r.toNat = (Spec.int x).natAbs % y.toNat ∧ Spec.WellFormed q := by
  have hh : 0 < h := by rw [hj]; exact Nat.pow_pos (by decide)
  rw [wf_iff hh] at hx
  simp only [int_eq, wf_iff hh]
  exact bnDivLimb_spec hj x y hx hy

/-- The remainder by a word: right unless the number is negative and a multiple of the modulus. -/
theorem bn_modLimb {j : Nat} (hj : h = 2 ^ j) (a : Bn h) (m : W h) (ha : Spec.WellFormed a) (hm : m ≠ 0)
    (hc : 0 ≤ Spec.int a ∨ ¬(m.toNat : Int) ∣ Spec.int a) : ∃ r, bnModLimb a m = some (some r) ∧ (r.toNat : Int) = Spec.int a % m.toNat := by
  have hh : 0 < h := by rw [hj]; exact Nat.pow_pos (by decide)
  rw [wf_iff hh] at ha
  rw [int_eq] at *
  obtain ⟨r, h1, h2⟩ := bnModLimb_spec hj a m ha hm
  refine ⟨r, h1, ?_⟩
  rw [h2, if_neg]
  rintro ⟨h3, h4⟩
  rcases hc with hc | hc
  · omega
  · exact hc (Int.dvd_of_emod_eq_zero h4)

theorem bn_rshift {j : Nat} (hj : h = 2 ^ j) (a : Bn h) (n : Nat) (ha : Spec.WellFormed a) :
    ∃ r, bnRshift a n = some r ∧ Spec.int r = (Spec.int a).tdiv (2 ^ n) ∧ Spec.WellFormed r := by
  have hh : 0 < h := by rw [hj]; exact Nat.pow_pos (by decide)
  rw [wf_iff hh] at ha
  simp only [int_eq, wf_iff hh]
  exact bnRshift_spec hj a n ha

theorem bn_lshift (hh : 0 < h) (a : Bn h) (n : Nat) (ha : Spec.WellFormed a) :
    ∃ r, bnLshift a n = some r ∧ Spec.int r = Spec.int a * 2 ^ n ∧ Spec.WellFormed r := by
  rw [wf_iff hh] at ha
  simp only [int_eq, wf_iff hh]
  exact bnLshift_spec hh a n ha

/-- `BN_Bits` is the length of the magnitude in binary. -/
theorem bn_bits {j : Nat} (hj : h = 2 ^ j) (a : Bn h) (ha : Spec.WellFormed a) : binBits a.data = Spec.bits (Spec.int a).natAbs := by
  have hh : 0 < h := by rw [hj]; exact Nat.pow_pos (by decide)
  rw [wf_iff hh] at ha
  have e : (Spec.int a).natAbs = val a.data := by rw [int_eq]; unfold Bn.toInt; split <;> simp
  rw [e]
  unfold Spec.bits
  by_cases hne : a.data = []
  · rw [hne]; rfl
  · obtain ⟨b1, b2, b3, -, -⟩ := binBits_spec hj a.data ha.1 hne
    have hp := val_pos_of_norm hh ha.1 hne
    rw [if_neg (by omega)]
    have := (Nat.log2_eq_iff (k := binBits a.data - 1) (by omega : val a.data ≠ 0)).2 ⟨b2, by rwa [show binBits a.data - 1 + 1 = binBits a.data by omega]⟩
    omega

/-- `BN_GetBit` is the bit of the magnitude. -/
theorem bn_getBit (hh : 0 < h) (a : Bn h) (n : Nat) : getBit a.data n = (Spec.int a).natAbs.testBit n := by
  have e : (Spec.int a).natAbs = val a.data := by rw [int_eq]; unfold Bn.toInt; split <;> simp
  rw [e, Nat.testBit_eq_decide_div_mod_eq, Bool.eq_iff_iff, getBit_spec hh, decide_eq_true_iff]

/-! ### Two places where the code departs from the integers -/

/-- `BN_SubLimb` into a destination that held a negative number: 5 - 3 = -2. -/
theorem subLimb_keeps_old_sign : ∃ (old a : Bn 4) (w : W 4), Spec.WellFormed old ∧ Spec.WellFormed a ∧
    Spec.int (bnSubLimb old a w) ≠ Spec.int a - w.toNat := by
  refine ⟨⟨true, [1]⟩, ⟨false, [5]⟩, 3, ?_, ?_, by decide +kernel⟩ <;> rw [wf_iff (by decide)] <;> exact ⟨by decide, by decide⟩

/-- and 5 - 5 is a zero with a minus sign, which is then smaller than zero. -/
theorem subLimb_negative_zero : ∃ (old a : Bn 4) (w : W 4), Spec.WellFormed old ∧ Spec.WellFormed a ∧
    ¬Spec.WellFormed (bnSubLimb old a w) ∧ bnCmp (bnSubLimb old a w) bnZero = -1 := by
  refine ⟨⟨true, [1]⟩, ⟨false, [5]⟩, 5, ?_, ?_, ?_, by decide +kernel⟩
  · rw [wf_iff (by decide)]; exact ⟨by decide, by decide⟩
  · rw [wf_iff (by decide)]; exact ⟨by decide, by decide⟩
  · rw [wf_iff (by decide)]
    intro hc
    exact hc.2 (by decide +kernel) (by decide +kernel)

/-- `BN_ModLimb` of a negative multiple of the modulus is the modulus, which is not a remainder. -/
theorem modLimb_returns_modulus {j : Nat} (hj : h = 2 ^ j) (a : Bn h) (m : W h) (ha : Spec.WellFormed a) (hm : m ≠ 0) (h1 : Spec.int a < 0)
    (h2 : (m.toNat : Int) ∣ Spec.int a) : bnModLimb a m = some (some m) := by
  have hh : 0 < h := by rw [hj]; exact Nat.pow_pos (by decide)
  rw [wf_iff hh] at ha
  rw [int_eq] at *
  obtain ⟨r, r1, r2⟩ := bnModLimb_spec hj a m ha hm
  rw [if_pos ⟨h1, Int.emod_eq_zero_of_dvd h2⟩] at r2
  rw [r1, BitVec.eq_of_toNat_eq (show r.toNat = m.toNat by omega)]

example : ∃ j, (4 : Nat) = 2 ^ j := ⟨2, rfl⟩
example : Spec.WellFormed (⟨true, [0, 1]⟩ : Bn 4) := by rw [wf_iff (by decide)]; exact ⟨by decide, by decide⟩
example : Spec.int (⟨true, [0, 1]⟩ : Bn 4) = -256 := by decide +kernel
example : bnAdd (⟨true, [0, 1]⟩ : Bn 4) ⟨false, [255]⟩ = ⟨true, [1]⟩ := by decide +kernel
example : bnSub (⟨false, [255]⟩ : Bn 4) ⟨true, [255, 255]⟩ = ⟨false, [254, 0, 1]⟩ := by decide +kernel
example : bnMul 5 (⟨true, [255, 255]⟩ : Bn 4) ⟨true, [2]⟩ = ⟨false, [254, 255, 1]⟩ := by decide +kernel
example : bnDiv (⟨true, [7, 0, 1]⟩ : Bn 4) ⟨false, [0, 2]⟩ = some (some (⟨true, [128]⟩, ⟨true, [7]⟩)) := by decide +kernel
example : bnMod (⟨true, [7, 0, 1]⟩ : Bn 4) ⟨false, [0, 2]⟩ = some (some ⟨false, [249, 1]⟩) := by decide +kernel
example : bnRshift (⟨true, [0, 0, 1]⟩ : Bn 4) 9 = some ⟨true, [128]⟩ := by decide +kernel
example : bnLshift (⟨true, [128]⟩ : Bn 4) 9 = some ⟨true, [0, 0, 1]⟩ := by decide +kernel
example : bnModLimb (⟨true, [10]⟩ : Bn 4) 5 = some (some 5) := by decide +kernel
example : binBits (⟨false, [0, 1]⟩ : Bn 4).data = 9 := by decide +kernel

end Verif.Crypto.Bn
