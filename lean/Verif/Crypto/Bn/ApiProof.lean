import Verif.Crypto.Bn.Api
import Verif.Crypto.Bn.DivProof
import Mathlib.Tactic.Ring
import Mathlib.Tactic.Linarith
namespace Verif.Crypto.Bn

variable {h : Nat}

/-! ### Normal vectors -/

theorem norm_of_le (hh : 0 < h) {l : List (W h)} (hv : l ≠ [] → (2 ^ (h + h)) ^ (l.length - 1) ≤ val l) : Norm l := by
  intro hne hlast
  have h1 := hv hne
  rw [List.getLast?_eq_some_getLast hne, Option.some.injEq] at hlast
  have h2 := List.dropLast_concat_getLast hne
  rw [hlast] at h2
  have h3 := val_append l.dropLast [(0 : W h)]
  rw [h2] at h3
  have h4 := val_lt l.dropLast
  rw [List.length_dropLast] at h4
  simp only [val, toNat_zero', Nat.mul_zero, Nat.add_zero] at h3
  omega

theorem val_pos_of_norm (hh : 0 < h) {l : List (W h)} (hn : Norm l) (hne : l ≠ []) : 0 < val l := by
  have h1 := norm_le hn hne
  have : 0 < (2 ^ (h + h)) ^ (l.length - 1) := Nat.pow_pos (Nat.pow_pos (by decide))
  omega

theorem norm_nil : Norm ([] : List (W h)) := fun hx => absurd rfl hx

theorem norm_take {l : List (W h)} {n : Nat} (hn : n ≤ l.length) (hl : 0 < n → ∃ t, l[n - 1]? = some t ∧ t ≠ 0) : Norm (l.take n) := by
  intro _ hx
  rcases Nat.eq_zero_or_pos n with h0 | h0
  · subst h0; simp at hx
  · obtain ⟨t, ht, hne⟩ := hl h0
    rw [List.getLast?_eq_getElem?, List.length_take, Nat.min_eq_left hn, List.getElem?_take_of_lt (by omega), ht, Option.some.injEq] at hx
    exact hne hx

theorem trim_spec (l : List (W h)) : val (trim l) = val l ∧ Norm (trim l) := by
  obtain ⟨h1, h2, h3⟩ := fix_full l l.length (Nat.le_refl _)
  refine ⟨?_, norm_take h1 h3⟩
  unfold trim
  rw [h2, List.take_length]

theorem norm_append_last {l : List (W h)} {x : W h} (hx : x ≠ 0) : Norm (l ++ [x]) := by
  intro _ hl
  rw [List.getLast?_concat, Option.some.injEq] at hl
  exact hx hl

theorem ne_zero_pos {x : W h} (hx : x ≠ 0) : 0 < x.toNat := by
  rcases Nat.eq_zero_or_pos x.toNat with h0 | h0
  · exact absurd (BitVec.eq_of_toNat_eq (by rw [h0, toNat_zero'])) hx
  · exact h0

/-! ### The unsigned helpers -/

theorem addTail_spec (hh : 0 < h) : ∀ (a : List (W h)) (c : W h),
    val (addTail a c).1 + (2 ^ (h + h)) ^ a.length * (addTail a c).2.toNat = val a + c.toNat ∧ (addTail a c).1.length = a.length
  | [], c => by simp [addTail, val]
  | a :: as, c => by
    rw [addTail]
    have e := addAB_spec hh a c
    generalize addAB a c = q at e
    obtain ⟨c1, r1⟩ := q
    obtain ⟨ih1, ih2⟩ := addTail_spec hh as c1
    simp only at e ih1 ih2 ⊢
    generalize addTail as c1 = q at *
    obtain ⟨rs, c2⟩ := q
    simp only at e ih1 ih2 ⊢
    refine ⟨?_, by simp [ih2]⟩
    simp only [val, List.length_cons, pow_succ]
    generalize 2 ^ (h + h) = B at *
    have : B * val rs + B * (B ^ as.length * c2.toNat) = B * (val as + c1.toNat) := by rw [← Nat.mul_add, ih1]
    linarith

theorem subTail_spec (hh : 0 < h) : ∀ (a : List (W h)) (b : W h), b.toNat ≤ 1 → b.toNat ≤ val a →
    val (subTail a b) + b.toNat = val a ∧ (subTail a b).length = a.length
  | [], b, _, hb => by simp [subTail, val] at *; exact hb
  | t :: as, b, h1, hb => by
    rw [subTail]
    have e := toNat_sub_cases t b
    by_cases hc : t < b
    · rw [if_pos hc] at e ⊢
      have ht : t.toNat = 0 := by have := BitVec.lt_def.1 hc; omega
      have hb1 : b.toNat = 1 := by have := BitVec.lt_def.1 hc; omega
      rw [val, ht] at hb
      have hp : 1 ≤ val as := by
        rcases Nat.eq_zero_or_pos (val as) with h0 | h0
        · rw [h0] at hb; omega
        · exact h0
      obtain ⟨ih1, ih2⟩ := subTail_spec hh as 1 (by rw [toNat_one hh]) (by rw [toNat_one hh]; exact hp)
      rw [toNat_one hh] at ih1
      refine ⟨?_, by rw [List.length_cons, ih2, List.length_cons]⟩
      simp only [val]
      rw [← ih1, Nat.mul_add]
      omega
    · rw [if_neg hc] at e ⊢
      obtain ⟨ih1, ih2⟩ := subTail_spec hh as 0 (by simp) (by simp)
      rw [toNat_zero', Nat.add_zero] at ih1
      refine ⟨?_, by rw [List.length_cons, ih2, List.length_cons]⟩
      simp only [val]
      rw [ih1]
      omega

theorem uAdd_val (hh : 0 < h) (mx mn : List (W h)) (hl : mn.length ≤ mx.length) (hn : Norm mx) (hm : Norm mn) :
    val (let (lo, carry) := binAdd (mx.take mn.length) mn 0
      let (hi, carry) := addTail (mx.drop mn.length) carry
      if carry ≠ 0 then lo ++ hi ++ [carry] else lo ++ hi) = val mx + val mn ∧
    Norm (let (lo, carry) := binAdd (mx.take mn.length) mn 0
      let (hi, carry) := addTail (mx.drop mn.length) carry
      if carry ≠ 0 then lo ++ hi ++ [carry] else lo ++ hi) := by
  have htl : (mx.take mn.length).length = mn.length := by rw [List.length_take]; omega
  obtain ⟨a1, a2⟩ := binAdd_spec hh (mx.take mn.length) mn 0 htl
  generalize binAdd (mx.take mn.length) mn 0 = q at *
  obtain ⟨lo, c1⟩ := q
  simp only at a1 a2 ⊢
  obtain ⟨t1, t2⟩ := addTail_spec hh (mx.drop mn.length) c1
  generalize addTail (mx.drop mn.length) c1 = q at *
  obtain ⟨hi, c2⟩ := q
  simp only at t1 t2 ⊢
  have hs := val_append (mx.take mn.length) (mx.drop mn.length)
  rw [List.take_append_drop] at hs
  have hlen : (lo ++ hi).length = mx.length := by rw [List.length_append, a2, t2, htl, List.length_drop]; omega
  have e : val (lo ++ hi) + (2 ^ (h + h)) ^ mx.length * c2.toNat = val mx + val mn := by
    rw [val_append, a2, hs]
    have hp : (2 ^ (h + h)) ^ mx.length = (2 ^ (h + h)) ^ (mx.take mn.length).length * (2 ^ (h + h)) ^ (mx.drop mn.length).length := by
      rw [← pow_add]; congr 1; rw [htl, List.length_drop]; omega
    rw [hp]
    rw [toNat_zero'] at a1
    generalize (2 ^ (h + h)) ^ (mx.take mn.length).length = P at *
    generalize (2 ^ (h + h)) ^ (mx.drop mn.length).length = Q at *
    have : P * val hi + P * (Q * c2.toNat) = P * (val (mx.drop mn.length) + c1.toNat) := by rw [← Nat.mul_add, t1]
    linarith
  by_cases hc : c2 = 0
  · rw [if_neg (by simpa using hc)]
    rw [hc, toNat_zero', Nat.mul_zero, Nat.add_zero] at e
    refine ⟨e, norm_of_le hh fun hne => ?_⟩
    have hne' : mx ≠ [] := by intro hx; rw [hx] at hlen; exact hne (List.length_eq_zero_iff.1 hlen)
    have := norm_le hn hne'
    rw [hlen, e]; omega
  · rw [if_pos hc]
    refine ⟨?_, norm_append_last hc⟩
    rw [val_append, hlen]
    simpa [val] using e

theorem uAdd_spec (hh : 0 < h) (a b : List (W h)) (ha : Norm a) (hb : Norm b) : val (uAdd a b) = val a + val b ∧ Norm (uAdd a b) := by
  unfold uAdd
  by_cases hl : a.length < b.length
  · have := uAdd_val hh b a (by omega) hb ha
    rw [if_pos hl, if_pos hl, Nat.add_comm (val a)]; exact this
  · have := uAdd_val hh a b (by omega) ha hb
    rw [if_neg hl, if_neg hl]; exact this

theorem len_le_of_le (hh : 0 < h) {a b : List (W h)} (hb : Norm b) (hle : val b ≤ val a) : b.length ≤ a.length := by
  by_cases hne : b = []
  · subst hne; simp
  · have h1 := norm_le hb hne
    have h2 := val_lt a
    have h3 : (2 ^ (h + h)) ^ (b.length - 1) < (2 ^ (h + h)) ^ a.length := by omega
    have := (Nat.pow_lt_pow_iff_right (by have := four_le hh; omega)).1 h3
    omega

theorem uSub_spec (hh : 0 < h) (a b : List (W h)) (hb : Norm b) (hle : val b ≤ val a) : val (uSub a b) + val b = val a ∧ Norm (uSub a b) := by
  have hl := len_le_of_le hh hb hle
  unfold uSub
  have htl : (a.take b.length).length = b.length := by rw [List.length_take]; omega
  obtain ⟨a1, a2⟩ := binSub_spec hh (a.take b.length) b 0 htl
  generalize binSub (a.take b.length) b 0 = q at *
  obtain ⟨lo, c1⟩ := q
  simp only at a1 a2 ⊢
  obtain ⟨t1, t2⟩ := trim_spec (lo ++ subTail (a.drop b.length) c1)
  refine ⟨?_, t2⟩
  rw [t1, val_append, a2, htl]
  have hs := val_append (a.take b.length) (a.drop b.length)
  rw [List.take_append_drop, htl] at hs
  rw [htl, toNat_zero', Nat.add_zero] at a1
  have hlo := val_lt lo
  rw [a2, htl] at hlo
  have hta := val_lt (a.take b.length)
  rw [htl] at hta
  have hbl := val_lt b
  rw [hs] at hle ⊢
  generalize (2 ^ (h + h)) ^ b.length = P at *
  have hc1 : c1.toNat ≤ 1 := by
    by_contra hcon
    have : P * 2 ≤ P * c1.toNat := Nat.mul_le_mul_left P (show 2 ≤ c1.toNat by omega)
    omega
  have hc2 : c1.toNat ≤ val (a.drop b.length) := by
    by_contra hcon
    have h0 : val (a.drop b.length) = 0 := by omega
    have h1 : c1.toNat = 1 := by omega
    rw [h0] at hle; rw [h1] at a1
    omega
  obtain ⟨s1, s2⟩ := subTail_spec hh _ c1 hc1 hc2
  rw [← s1, Nat.mul_add]
  omega

/-! ### Signed numbers -/

def Bn.toInt (b : Bn h) : Int := if b.neg = true then -(val b.data : Int) else val b.data

/-- Normalised, and zero is not negative. -/
def Bn.WF (b : Bn h) : Prop := Norm b.data ∧ (b.neg = true → b.data ≠ [])

theorem toInt_neg {l : List (W h)} : (Bn.mk true l).toInt = -(val l : Int) := rfl
theorem toInt_pos {l : List (W h)} : (Bn.mk false l).toInt = val l := rfl

theorem wf_pos {l : List (W h)} (hn : Norm l) : (Bn.mk false l).WF := ⟨hn, fun hx => by cases hx⟩

theorem wf_of_val {s : Bool} {l : List (W h)} (hn : Norm l) (hv : s = true → 0 < val l) : (Bn.mk s l).WF :=
  ⟨hn, fun hx hl => by have := hv hx; simp only at hl; rw [hl] at this; simp [val] at this⟩

theorem wf_zero : (bnZero : Bn h).WF := wf_pos norm_nil

theorem toInt_zero : (bnZero : Bn h).toInt = 0 := rfl

theorem wf_val_pos (hh : 0 < h) {a : Bn h} (ha : a.WF) (hn : a.neg = true) : 0 < val a.data := val_pos_of_norm hh ha.1 (ha.2 hn)

theorem bnLimb_spec (w : W h) : (bnLimb w).toInt = w.toNat ∧ (bnLimb w).WF ∧ val (bnLimb w).data = w.toNat := by
  unfold bnLimb
  refine ⟨by rw [toInt_pos, val_single], wf_pos ?_, by simp only; rw [val_single]⟩
  by_cases hw : w = 0
  · rw [if_neg (by simpa using hw)]; exact norm_nil
  · rw [if_pos hw]; exact norm_append_last (l := []) hw

theorem cmp_trich (hh : 0 < h) (a b : List (W h)) (ha : Norm a) (hb : Norm b) :
    (binCmp a b = -1 ∧ val a < val b) ∨ (binCmp a b = 0 ∧ val a = val b) ∨ (binCmp a b = 1 ∧ val b < val a) := by
  obtain ⟨h1, h2, h3⟩ := binCmp_spec hh a b ha hb
  rcases Nat.lt_trichotomy (val a) (val b) with hc | hc | hc
  · exact Or.inl ⟨h1 hc, hc⟩
  · exact Or.inr (Or.inl ⟨h2 hc, hc⟩)
  · exact Or.inr (Or.inr ⟨h3 hc, hc⟩)

theorem bnCmp_spec (hh : 0 < h) (a b : Bn h) (ha : a.WF) (hb : b.WF) :
    (bnCmp a b = -1 ∧ a.toInt < b.toInt) ∨ (bnCmp a b = 0 ∧ a.toInt = b.toInt) ∨ (bnCmp a b = 1 ∧ b.toInt < a.toInt) := by
  obtain ⟨sa, da⟩ := a
  obtain ⟨sb, db⟩ := b
  have hpa := fun hn => wf_val_pos hh ha hn
  have hpb := fun hn => wf_val_pos hh hb hn
  unfold bnCmp
  cases sa <;> cases sb <;> simp only [toInt_neg, toInt_pos] at * <;> simp at *
  · rcases cmp_trich hh da db ha.1 hb.1 with ⟨h1, h2⟩ | ⟨h1, h2⟩ | ⟨h1, h2⟩ <;> omega
  · omega
  · omega
  · rcases cmp_trich hh db da hb.1 ha.1 with ⟨h1, h2⟩ | ⟨h1, h2⟩ | ⟨h1, h2⟩ <;> omega

theorem bnAdd_spec (hh : 0 < h) (a b : Bn h) (ha : a.WF) (hb : b.WF) : (bnAdd a b).toInt = a.toInt + b.toInt ∧ (bnAdd a b).WF := by
  obtain ⟨sa, da⟩ := a
  obtain ⟨sb, db⟩ := b
  have hpa := fun hn => wf_val_pos hh ha hn
  have hna := ha.1
  have hnb := hb.1
  simp only at hpa hna hnb
  unfold bnAdd
  by_cases hs : sa = sb
  · subst hs
    simp only [if_true]
    obtain ⟨u1, u2⟩ := uAdd_spec hh da db hna hnb
    refine ⟨?_, wf_of_val u2 fun hx => by have := hpa hx; omega⟩
    cases sa <;> simp only [toInt_neg, toInt_pos, u1] <;> push_cast <;> omega
  · simp only
    rw [if_neg hs]
    rcases cmp_trich hh da db hna hnb with ⟨h1, h2⟩ | ⟨h1, h2⟩ | ⟨h1, h2⟩ <;> rw [h1]
    · rw [if_neg (by decide), if_pos (by decide)]
      obtain ⟨u1, u2⟩ := uSub_spec hh db da hna (by omega)
      refine ⟨?_, wf_of_val u2 fun _ => by omega⟩
      cases sa <;> cases sb <;> simp only [toInt_neg, toInt_pos] <;> first | exact absurd rfl hs | omega
    · rw [if_neg (by decide), if_neg (by decide)]
      refine ⟨?_, wf_zero⟩
      rw [toInt_zero]
      cases sa <;> cases sb <;> simp only [toInt_neg, toInt_pos] <;> first | exact absurd rfl hs | omega
    · rw [if_pos (by decide)]
      obtain ⟨u1, u2⟩ := uSub_spec hh da db hnb (by omega)
      refine ⟨?_, wf_of_val u2 fun _ => by omega⟩
      cases sa <;> cases sb <;> simp only [toInt_neg, toInt_pos] <;> first | exact absurd rfl hs | omega

theorem bnSub_spec (hh : 0 < h) (a b : Bn h) (ha : a.WF) (hb : b.WF) : (bnSub a b).toInt = a.toInt - b.toInt ∧ (bnSub a b).WF := by
  obtain ⟨sa, da⟩ := a
  obtain ⟨sb, db⟩ := b
  have hpa := fun hn => wf_val_pos hh ha hn
  have hna := ha.1
  have hnb := hb.1
  simp only at hpa hna hnb
  unfold bnSub
  by_cases hs : sa = sb
  · subst hs
    simp only [ne_eq, not_true, if_false]
    rcases cmp_trich hh da db hna hnb with ⟨h1, h2⟩ | ⟨h1, h2⟩ | ⟨h1, h2⟩ <;> rw [h1]
    · rw [if_neg (by decide), if_neg (by decide)]
      obtain ⟨u1, u2⟩ := uSub_spec hh db da hna (by omega)
      refine ⟨?_, wf_of_val u2 fun _ => by omega⟩
      cases sa <;> simp only [Bool.not_true, Bool.not_false, toInt_neg, toInt_pos] <;> omega
    · rw [if_pos rfl]
      refine ⟨?_, wf_zero⟩
      rw [toInt_zero]
      cases sa <;> simp only [toInt_neg, toInt_pos] <;> omega
    · rw [if_neg (by decide), if_pos (by decide)]
      obtain ⟨u1, u2⟩ := uSub_spec hh da db hnb (by omega)
      refine ⟨?_, wf_of_val u2 fun _ => by omega⟩
      cases sa <;> simp only [toInt_neg, toInt_pos] <;> omega
  · simp only
    rw [if_pos hs]
    obtain ⟨u1, u2⟩ := uAdd_spec hh da db hna hnb
    refine ⟨?_, wf_of_val u2 fun hx => by have := hpa hx; omega⟩
    cases sa <;> cases sb <;> simp only [toInt_neg, toInt_pos, u1] <;> first | exact absurd rfl hs | (push_cast; omega)

/-! ### One word -/

theorem incData_spec (hh : 0 < h) (a : List (W h)) (w : W h) (ha : Norm a) : val (incData a w) = val a + w.toNat ∧ (a ≠ [] → Norm (incData a w)) := by
  unfold incData
  obtain ⟨i1, i2⟩ := binInc_spec hh a w
  generalize binInc a w = q at *
  obtain ⟨r, c⟩ := q
  simp only at i1 i2 ⊢
  by_cases hc : c = 0
  · rw [if_neg (by simpa using hc)]
    rw [hc, toNat_zero', Nat.mul_zero, Nat.add_zero] at i1
    refine ⟨i1, fun hne => norm_of_le hh fun _ => ?_⟩
    have := norm_le ha hne
    rw [i2, i1]; omega
  · rw [if_pos hc]
    refine ⟨?_, fun _ => norm_append_last hc⟩
    rw [val_append, i2]
    simpa [val] using i1

theorem uDec_spec (hh : 0 < h) (a : List (W h)) (w : W h) (hw : w.toNat ≤ val a) : val (uDec a w) + w.toNat = val a ∧ Norm (uDec a w) := by
  unfold uDec
  obtain ⟨i1, i2⟩ := binDec_spec hh a w
  obtain ⟨t1, t2⟩ := trim_spec (binDec a w).1
  refine ⟨?_, t2⟩
  rw [t1]
  have hl := val_lt (binDec a w).1
  rw [i2] at hl
  have hla := val_lt a
  rcases Nat.eq_zero_or_pos (binDec a w).2.toNat with h0 | h0
  · rw [h0] at i1; omega
  · exfalso
    have := Nat.mul_le_mul_left ((2 ^ (h + h)) ^ a.length) h0
    omega

theorem two_limbs (hh : 0 < h) {a : List (W h)} (ha : Norm a) (hl : 2 ≤ a.length) (w : W h) : w.toNat < val a := by
  have hne : a ≠ [] := by intro hx; rw [hx] at hl; simp at hl
  have h1 := norm_le ha hne
  have h2 := Nat.pow_le_pow_right (show 0 < 2 ^ (h + h) from Nat.pow_pos (by decide)) (show 1 ≤ a.length - 1 by omega)
  have := w.isLt
  rw [pow_one] at h2
  omega

theorem val_one_limb (x : W h) : val [x] = x.toNat := by simp [val]

theorem bnAddLimb_spec (hh : 0 < h) (a : Bn h) (w : W h) (ha : a.WF) : (bnAddLimb a w).toInt = a.toInt + w.toNat ∧ (bnAddLimb a w).WF := by
  obtain ⟨sa, da⟩ := a
  have hna := ha.1
  have hpa := fun hn => wf_val_pos hh ha hn
  have hem := ha.2
  simp only at hna hpa hem
  unfold bnAddLimb
  simp only
  by_cases h0 : da.length = 0
  · rw [if_pos h0]
    have : da = [] := List.length_eq_zero_iff.1 h0
    subst this
    obtain ⟨b1, b2, _⟩ := bnLimb_spec w
    refine ⟨?_, b2⟩
    cases sa
    · rw [b1, toInt_pos]; simp [val]
    · exact absurd rfl (hem rfl)
  · rw [if_neg h0]
    have hne : da ≠ [] := fun hx => h0 (by rw [hx]; rfl)
    obtain ⟨i1, i2⟩ := incData_spec hh da w hna
    cases sa
    · simp only [if_true]
      refine ⟨?_, wf_pos (i2 hne)⟩
      rw [toInt_pos, toInt_pos, i1]; push_cast; rfl
    · simp only [Bool.true_eq_false, if_false]
      match da, h0, hna, hpa with
      | [a0], _, hna, hpa =>
        simp only
        have e := toNat_sub_cases a0 w
        have e2 := toNat_sub_cases w a0
        by_cases hc : a0 > w
        · rw [if_pos hc]
          have hlt := BitVec.lt_def.1 hc
          rw [if_neg (by rw [BitVec.lt_def]; omega)] at e
          refine ⟨?_, wf_of_val (norm_append_last (l := []) ?_) fun _ => by rw [val_one_limb]; omega⟩
          · rw [toInt_neg, toInt_neg, val_one_limb, val_one_limb]; omega
          · intro hx; rw [hx, toNat_zero'] at e; omega
        · rw [if_neg hc]
          have hge : ¬ w.toNat < a0.toNat := fun hx => hc (BitVec.lt_def.2 hx)
          by_cases he : a0 = w
          · rw [if_pos he]
            refine ⟨?_, wf_pos norm_nil⟩
            rw [toInt_pos, toInt_neg, val_one_limb, he]; simp [val]
          · rw [if_neg he]
            have hlt : a0.toNat < w.toNat := by
              have : a0.toNat ≠ w.toNat := fun hx => he (BitVec.eq_of_toNat_eq hx)
              omega
            rw [if_neg (by rw [BitVec.lt_def]; omega)] at e2
            refine ⟨?_, wf_pos (norm_append_last (l := []) ?_)⟩
            · rw [toInt_pos, toInt_neg, val_one_limb, val_one_limb]; omega
            · intro hx; rw [hx, toNat_zero'] at e2; omega
      | a0 :: a1 :: as, _, hna, hpa =>
        simp only
        have hlt := two_limbs hh hna (by simp) w
        obtain ⟨u1, u2⟩ := uDec_spec hh (a0 :: a1 :: as) w (by omega)
        refine ⟨?_, wf_of_val u2 fun _ => by omega⟩
        rw [toInt_neg, toInt_neg]; omega

theorem bnSubLimb_spec (hh : 0 < h) (old a : Bn h) (w : W h) (ha : a.WF) (ho : old.neg = false) :
    (bnSubLimb old a w).toInt = a.toInt - w.toNat ∧ (bnSubLimb old a w).WF := by
  obtain ⟨sa, da⟩ := a
  have hna := ha.1
  have hpa := fun hn => wf_val_pos hh ha hn
  have hem := ha.2
  simp only at hna hpa hem
  unfold bnSubLimb
  simp only [ho]
  by_cases h0 : da.length = 0
  · rw [if_pos h0]
    have : da = [] := List.length_eq_zero_iff.1 h0
    subst this
    obtain ⟨b1, b2, b3⟩ := bnLimb_spec w
    cases sa
    · by_cases hw : w = 0
      · rw [if_pos hw]
        refine ⟨?_, wf_pos b2.1⟩
        rw [toInt_pos, toInt_pos, b3, hw]; simp [val]
      · rw [if_neg hw]
        refine ⟨?_, wf_of_val b2.1 fun _ => by rw [b3]; exact ne_zero_pos hw⟩
        rw [toInt_pos, toInt_neg, b3]; simp [val]
    · exact absurd rfl (hem rfl)
  · rw [if_neg h0]
    have hne : da ≠ [] := fun hx => h0 (by rw [hx]; rfl)
    obtain ⟨i1, i2⟩ := incData_spec hh da w hna
    cases sa
    · simp only [Bool.false_eq_true, if_false]
      match da, h0, hna, hpa with
      | [a0], _, hna, hpa =>
        simp only
        have e := toNat_sub_cases a0 w
        have e2 := toNat_sub_cases w a0
        by_cases hc : a0 ≥ w
        · rw [if_pos hc]
          have hle := BitVec.le_def.1 hc
          rw [if_neg (by rw [BitVec.lt_def]; omega)] at e
          obtain ⟨t1, t2⟩ := trim_spec [a0 - w]
          refine ⟨?_, wf_pos t2⟩
          rw [toInt_pos, toInt_pos, t1, val_one_limb, val_one_limb]; omega
        · rw [if_neg hc]
          have hlt : a0.toNat < w.toNat := by
            by_contra hx; exact hc (BitVec.le_def.2 (by omega))
          rw [if_neg (by rw [BitVec.lt_def]; omega)] at e2
          refine ⟨?_, wf_of_val (norm_append_last (l := []) ?_) fun _ => by rw [val_one_limb]; omega⟩
          · rw [toInt_neg, toInt_pos, val_one_limb, val_one_limb]; omega
          · intro hx; rw [hx, toNat_zero'] at e2; omega
      | a0 :: a1 :: as, _, hna, hpa =>
        simp only
        have hlt := two_limbs hh hna (by simp) w
        obtain ⟨u1, u2⟩ := uDec_spec hh (a0 :: a1 :: as) w (by omega)
        refine ⟨?_, wf_pos u2⟩
        rw [toInt_pos, toInt_pos]; omega
    · simp only [if_true]
      refine ⟨?_, wf_of_val (i2 hne) fun _ => by have := hpa rfl; omega⟩
      rw [toInt_neg, toInt_neg, i1]; push_cast; omega

/-! ### Products -/

theorem neg_xor {s t : Bool} {x y z : List (W h)} (hv : val z = val x * val y) : (Bn.mk (s != t) z).toInt = (Bn.mk s x).toInt * (Bn.mk t y).toInt := by
  cases s <;> cases t <;> simp [Bn.toInt, hv]

theorem binMul_val (hh : 0 < h) (room : Nat) (a b : List (W h)) (hr : a.length + b.length ≤ room) :
    (binMul room a b).1.length = room ∧ val (binMul room a b).1 = val a * val b ∧ val ((binMul room a b).1.take (a.length + b.length)) = val a * val b := by
  obtain ⟨r, carry, h1, h2, h3, h4, h5⟩ := mulLoop_spec hh a b (List.replicate a.length 0) (room - a.length) 0 (by simp) (by omega)
  rw [List.replicate_append_replicate, show a.length + (room - a.length) = room by omega] at h1
  have he : (binMul room a b).1 = r := by unfold binMul; rw [h1]
  rw [he]
  rw [val_replicate, Nat.zero_add] at h2
  refine ⟨by rw [h3]; omega, h2, ?_⟩
  have := val_append (r.take (a.length + b.length)) (r.drop (a.length + b.length))
  rw [List.take_append_drop, h5, Nat.mul_zero, Nat.add_zero, h2] at this
  exact this.symm

theorem bnMul_spec (hh : 0 < h) (room : Nat) (a b : Bn h) (ha : a.WF) (hb : b.WF) :
    (bnMul room a b).toInt = a.toInt * b.toInt ∧ (bnMul room a b).WF := by
  obtain ⟨sa, da⟩ := a
  obtain ⟨sb, db⟩ := b
  have hna := ha.1
  have hnb := hb.1
  unfold bnMul
  simp only at *
  by_cases h0 : da.length = 0 ∨ db.length = 0
  · rw [if_pos h0]
    refine ⟨?_, wf_zero⟩
    rw [toInt_zero]
    rcases h0 with h0 | h0
    · rw [List.length_eq_zero_iff.1 h0]; simp [Bn.toInt, val]
    · rw [List.length_eq_zero_iff.1 h0]; simp [Bn.toInt, val]
  · rw [if_neg h0]
    have hda : da ≠ [] := fun hx => h0 (Or.inl (by rw [hx]; rfl))
    have hdb : db ≠ [] := fun hx => h0 (Or.inr (by rw [hx]; rfl))
    obtain ⟨m1, m2, m3⟩ := binMul_val hh (max room (da.length + db.length)) da db (Nat.le_max_right _ _)
    generalize binMul (max room (da.length + db.length)) da db = q at *
    obtain ⟨t, n⟩ := q
    simp only at m1 m2 m3 ⊢
    have hle : da.length + db.length ≤ t.length := by rw [m1]; exact Nat.le_max_right _ _
    obtain ⟨f1, f2, f3⟩ := fix_full t (da.length + db.length) hle
    have hv : val (t.take (fixSize t (da.length + db.length))) = val da * val db := by rw [f2, m3]
    refine ⟨neg_xor hv, wf_of_val (norm_take f1 f3) fun _ => ?_⟩
    rw [hv]
    exact Nat.mul_pos (val_pos_of_norm hh hna hda) (val_pos_of_norm hh hnb hdb)

theorem bnSqr_spec (hh : 0 < h) (a : Bn h) (ha : a.WF) : ∃ r, bnSqr a = some r ∧ r.toInt = a.toInt * a.toInt ∧ r.WF := by
  obtain ⟨sa, da⟩ := a
  have hna := ha.1
  unfold bnSqr
  simp only at *
  by_cases h0 : da.length = 0
  · rw [if_pos h0]
    refine ⟨_, rfl, ?_, wf_zero⟩
    rw [toInt_zero, List.length_eq_zero_iff.1 h0]; simp [Bn.toInt, val]
  · rw [if_neg h0]
    have hda : da ≠ [] := fun hx => h0 (by rw [hx]; rfl)
    obtain ⟨r, size, s1, s2, s3, s4, s5⟩ := binSqr_spec hh (da.length * 2) da hda (by omega)
    rw [s1]
    simp only
    obtain ⟨f1, f2, f3⟩ := fix_full r (da.length * 2) (by omega)
    have hv : val (r.take (fixSize r (da.length * 2))) = val da * val da := by rw [f2, ← s2, List.take_length, s3]
    refine ⟨_, rfl, ?_, wf_pos (norm_take f1 f3)⟩
    rw [toInt_pos, hv]
    cases sa <;> simp [Bn.toInt]

theorem mulLimbLoop_spec (hh : 0 < h) (w : W h) : ∀ (a : List (W h)) (c : W h),
    val (mulLimbLoop w a c) = val a * w.toNat + c.toNat ∧ a.length ≤ (mulLimbLoop w a c).length ∧ (mulLimbLoop w a c).length ≤ a.length + 1 ∧
      ((mulLimbLoop w a c).length = a.length + 1 → (mulLimbLoop w a c).getLast? ≠ some 0)
  | [], c => by
    rw [mulLimbLoop]
    refine ⟨by rw [val_single]; simp [val], by simp, by split <;> simp, ?_⟩
    by_cases hc : c = 0
    · rw [if_neg (by simpa using hc)]; simp
    · rw [if_pos hc]; simpa using hc
  | a :: as, c => by
    rw [mulLimbLoop]
    have m := mulAB_spec hh a w
    have hlt := lt_sq a.isLt w.isLt (show 0 < 2 ^ (h + h) from Nat.pow_pos (by decide)) c.isLt
    generalize mulAB a w = q at *
    obtain ⟨rh, rl⟩ := q
    simp only at m ⊢
    have e := addAB_spec hh rl c
    generalize addAB rl c = q at *
    obtain ⟨c1, r⟩ := q
    simp only at e ⊢
    have hs : (c1 + rh).toNat = c1.toNat + rh.toNat := by
      apply toNat_add_small
      by_contra hx
      have := Nat.mul_le_mul_left (2 ^ (h + h)) (show 2 ^ (h + h) ≤ c1.toNat + rh.toNat by omega)
      rw [Nat.mul_add] at this
      omega
    obtain ⟨i1, i2, i3, i4⟩ := mulLimbLoop_spec hh w as (c1 + rh)
    generalize mulLimbLoop w as (c1 + rh) = t at *
    refine ⟨?_, by simp; exact i2, by simp; exact i3, fun hlen => ?_⟩
    · simp only [val]
      rw [i1, hs]
      generalize 2 ^ (h + h) = B at *
      have e3 : (a.toNat + B * val as) * w.toNat = a.toNat * w.toNat + B * (val as * w.toNat) := by ring
      rw [e3, ← m]
      linarith
    · simp only [List.length_cons, Nat.add_right_cancel_iff] at hlen
      have hne : t ≠ [] := by intro hx; rw [hx] at hlen; simp at hlen
      rw [List.getLast?_cons_of_ne_nil hne]
      exact i4 hlen

theorem bnMulLimb_spec (hh : 0 < h) (a : Bn h) (w : W h) (ha : a.WF) : (bnMulLimb a w).toInt = a.toInt * w.toNat ∧ (bnMulLimb a w).WF := by
  obtain ⟨sa, da⟩ := a
  have hna := ha.1
  unfold bnMulLimb
  simp only at *
  by_cases h0 : da.length = 0 ∨ w = 0
  · rw [if_pos h0]
    refine ⟨?_, wf_zero⟩
    rw [toInt_zero]
    rcases h0 with h0 | h0
    · rw [List.length_eq_zero_iff.1 h0]; simp [Bn.toInt, val]
    · rw [h0]; simp
  · rw [if_neg h0]
    have hda : da ≠ [] := fun hx => h0 (Or.inl (by rw [hx]; rfl))
    have hw : 0 < w.toNat := ne_zero_pos fun hx => h0 (Or.inr hx)
    obtain ⟨i1, i2, i3, i4⟩ := mulLimbLoop_spec hh w da 0
    rw [toNat_zero', Nat.add_zero] at i1
    have hvp := val_pos_of_norm hh hna hda
    have hle : val da ≤ val da * w.toNat := Nat.le_mul_of_pos_right _ hw
    refine ⟨?_, wf_of_val ?_ fun _ => by omega⟩
    · cases sa
      · rw [toInt_pos, toInt_pos, i1]; push_cast; rfl
      · rw [toInt_neg, toInt_neg, i1]; push_cast; ring
    · rcases Nat.lt_or_ge da.length (mulLimbLoop w da 0).length with hc | hc
      · exact fun _ => i4 (by omega)
      · refine norm_of_le hh fun _ => ?_
        have := norm_le hna hda
        rw [show (mulLimbLoop w da 0).length = da.length by omega, i1]
        omega

/-! ### Quotients -/

theorem binDiv_full {j : Nat} (hj : h = 2 ^ j) (x y : List (W h)) (hx : x ≠ []) (hy : y ≠ []) (hn : Norm y) :
    ∃ r rS q qS, binDiv x y = some ((r, rS), (q, qS)) ∧ rS ≤ r.length ∧ val (q.take qS) = val x / val y ∧ val (r.take rS) = val x % val y ∧
      Norm (q.take qS) ∧ Norm (r.take rS) := by
  have hsplit := List.dropLast_concat_getLast hy
  have hyy : y.getLast hy ≠ 0 := by
    intro h0; apply hn hy; rw [List.getLast?_eq_some_getLast hy, h0]
  rw [← hsplit]
  generalize y.dropLast = yl at *
  generalize y.getLast hy = yy at *
  obtain ⟨r, rS, q, qS, h1, h2, h3, h4, h5, h6, h7⟩ := binDiv_spec hj x yl yy hx hyy
  have hpos : 0 < val (yl ++ [yy]) := by omega
  refine ⟨r, rS, q, qS, h1, h5, ?_, ?_, norm_take h4 h6, norm_take h5 h7⟩
  · rw [h2, Nat.mul_comm, Nat.mul_add_div hpos, Nat.div_eq_of_lt h3, Nat.add_zero]
  · rw [h2, Nat.mul_comm, Nat.mul_add_mod, Nat.mod_eq_of_lt h3]

theorem tdiv_signs (s t : Bool) (x y : Nat) :
    ((if s = true then -(x : Int) else x).tdiv (if t = true then -(y : Int) else y) = if (s != t) = true then -((x / y : Nat) : Int) else (x / y : Nat)) ∧
    ((if s = true then -(x : Int) else x).tmod (if t = true then -(y : Int) else y) = if s = true then -((x % y : Nat) : Int) else (x % y : Nat)) := by
  cases s <;> cases t <;> simp [Int.neg_tdiv, Int.tdiv_neg, Int.neg_tmod, Int.tmod_neg] <;> simp [Int.tdiv_eq_ediv_of_nonneg, Int.tmod_eq_emod_of_nonneg]

theorem bnDiv_spec {j : Nat} (hj : h = 2 ^ j) (x y : Bn h) (hx : x.WF) (hy : y.WF) (h0 : y.toInt ≠ 0) :
    ∃ q r, bnDiv x y = some (some (q, r)) ∧ q.toInt = x.toInt.tdiv y.toInt ∧ r.toInt = x.toInt.tmod y.toInt ∧ q.WF ∧ r.WF := by
  have hh : 0 < h := by rw [hj]; exact Nat.pow_pos (by decide)
  obtain ⟨sx, dx⟩ := x
  obtain ⟨sy, dy⟩ := y
  have hnx := hx.1
  have hny := hy.1
  have hpx := fun hn => wf_val_pos hh hx hn
  simp only at hnx hny hpx
  have hdy : dy ≠ [] := by intro he; rw [he] at h0; cases sy <;> simp [Bn.toInt, val] at h0
  have hvy := val_pos_of_norm hh hny hdy
  obtain ⟨d1, d2⟩ := tdiv_signs sx sy (val dx) (val dy)
  unfold bnDiv
  simp only
  rw [if_neg (by rw [List.length_eq_zero_iff]; exact hdy)]
  have hX : (Bn.mk sx dx).toInt = if sx = true then -(val dx : Int) else val dx := rfl
  have hY : (Bn.mk sy dy).toInt = if sy = true then -(val dy : Int) else val dy := rfl
  rcases cmp_trich hh dx dy hnx hny with ⟨h1, h2⟩ | ⟨h1, h2⟩ | ⟨h1, h2⟩ <;> rw [h1]
  · rw [if_pos (by decide)]
    refine ⟨_, _, rfl, ?_, ?_, wf_zero, hx⟩
    · rw [toInt_zero, hX, hY, d1, Nat.div_eq_of_lt h2]; simp
    · rw [hX, hY, d2, Nat.mod_eq_of_lt h2]
  · rw [if_neg (by decide), if_pos rfl]
    obtain ⟨l1, l2, l3⟩ := bnLimb_spec (1 : W h)
    rw [toNat_one hh] at l3
    refine ⟨_, _, rfl, ?_, ?_, wf_of_val l2.1 fun _ => by omega, wf_zero⟩
    · rw [hX, hY, d1, h2, Nat.div_self hvy]
      show (if (sx != sy) = true then -(val (bnLimb (1 : W h)).data : Int) else val (bnLimb (1 : W h)).data) = _
      rw [l3]
    · rw [toInt_zero, hX, hY, d2, h2, Nat.mod_self]; simp
  · rw [if_neg (by decide), if_neg (by decide)]
    have hdx : dx ≠ [] := by intro he; rw [he] at h2; simp [val] at h2
    obtain ⟨r, rS, q, qS, b1, b2, b3, b4, b5, b6⟩ := binDiv_full hj dx dy hdx hdy hny
    rw [b1]
    simp only
    refine ⟨_, _, rfl, ?_, ?_, wf_of_val b5 fun _ => by rw [b3]; exact Nat.div_pos (by omega) hvy, ?_⟩
    · rw [hX, hY, d1, ← b3]; rfl
    · rw [hX, hY, d2, ← b4]
      by_cases hr : rS = 0
      · rw [if_pos hr, hr]; simp [Bn.toInt, val]
      · rw [if_neg hr]; rfl
    · by_cases hr : rS = 0
      · rw [if_pos hr]; exact wf_pos b6
      · rw [if_neg hr]
        refine ⟨b6, fun _ hx => ?_⟩
        have : (r.take rS).length = 0 := by simp only at hx; rw [hx]; rfl
        rw [List.length_take, Nat.min_eq_left b2] at this
        exact hr this

theorem bnDiv_zero (x y : Bn h) (hy : y.data = []) : bnDiv x y = none := by
  unfold bnDiv; rw [if_pos (by rw [hy]; rfl)]

theorem emod_of_tmod (x y : Int) (hy : y ≠ 0) : x % y = if 0 ≤ x.tmod y then x.tmod y else x.tmod y + |y| := by
  have h1 := Int.mul_tdiv_add_tmod x y
  have h2 := Int.tmod_lt_of_pos x (show 0 < |y| from abs_pos.2 hy)
  have h3 : -|y| < x.tmod y := by
    have := Int.tmod_lt_of_pos (-x) (show 0 < |y| from abs_pos.2 hy)
    rw [Int.neg_tmod] at this
    have e : x.tmod |y| = x.tmod y := by
      rcases abs_choice y with he | he <;> rw [he]
      rw [Int.tmod_neg]
    rw [e] at this; omega
  have e : x.tmod |y| = x.tmod y := by
    rcases abs_choice y with he | he <;> rw [he]
    rw [Int.tmod_neg]
  rw [e] at h2
  have habs : x % y = x % |y| := (Int.emod_abs x y).symm
  have hd : |y| ∣ x - x.tmod y := by
    rcases abs_choice y with hc | hc <;> rw [hc]
    · exact ⟨x.tdiv y, by linarith⟩
    · exact ⟨-x.tdiv y, by linarith⟩
  rw [habs]
  obtain ⟨k, hk⟩ := hd
  split
  · next hc =>
    rw [show x = x.tmod y + |y| * k by linarith, Int.add_mul_emod_self_left]
    rw [show x.tmod y + |y| * k = x by linarith]
    exact Int.emod_eq_of_lt hc h2
  · next hc =>
    have : x = (x.tmod y + |y|) + |y| * (k - 1) := by linarith
    have e2 : x % |y| = (x.tmod y + |y|) % |y| := by
      conv_lhs => rw [this]
      rw [Int.add_mul_emod_self_left]
    rw [e2]
    exact Int.emod_eq_of_lt (by omega) (by omega)

theorem bnMod_spec {j : Nat} (hj : h = 2 ^ j) (a m : Bn h) (ha : a.WF) (hm : m.WF) (h0 : m.toInt ≠ 0) :
    ∃ r, bnMod a m = some (some r) ∧ r.toInt = a.toInt % m.toInt ∧ r.WF := by
  have hh : 0 < h := by rw [hj]; exact Nat.pow_pos (by decide)
  obtain ⟨q, t, d1, d2, d3, d4, d5⟩ := bnDiv_spec hj a m ha hm h0
  unfold bnMod
  rw [d1]
  simp only
  have he := emod_of_tmod a.toInt m.toInt h0
  rw [← d3] at he
  have hneg : t.neg = true → t.toInt < 0 := by
    intro hx
    have := wf_val_pos hh d5 hx
    unfold Bn.toInt; rw [if_pos hx]; omega
  have hnn : t.neg = false → 0 ≤ t.toInt := by
    intro hx; unfold Bn.toInt; rw [hx]; simp
  by_cases hs : t.neg = false
  · rw [if_pos hs]
    refine ⟨_, rfl, ?_, d5⟩
    rw [he, if_pos (hnn hs)]
  · rw [if_neg hs]
    have hs' : t.neg = true := by simpa using hs
    have hlt := hneg hs'
    rw [if_neg (by omega)] at he
    by_cases hms : m.neg = true
    · rw [if_pos hms]
      obtain ⟨s1, s2⟩ := bnSub_spec hh t m d5 hm
      refine ⟨_, rfl, ?_, s2⟩
      have : m.toInt < 0 := by
        have := wf_val_pos hh hm hms
        unfold Bn.toInt; rw [if_pos hms]; omega
      rw [s1, he, abs_of_neg this]; omega
    · rw [if_neg hms]
      obtain ⟨s1, s2⟩ := bnAdd_spec hh t m d5 hm
      refine ⟨_, rfl, ?_, s2⟩
      have : 0 ≤ m.toInt := by unfold Bn.toInt; rw [if_neg hms]; simp
      rw [s1, he, abs_of_nonneg this]

/-! ### Division by a word -/

theorem divLimbLoop_spec (hh : 0 < h) (y : W h) (hy : 2 ^ (h + h) ≤ 2 * y.toNat) : ∀ x : List (W h),
    ∃ q rem, divLimbLoop y x = some (q, rem) ∧ val q * y.toNat + rem.toNat = val x ∧ rem.toNat < y.toNat
  | [] => ⟨[], 0, rfl, by simp [val], by have := four_le hh; rw [toNat_zero']; omega⟩
  | x :: xs => by
    obtain ⟨q, rem, i1, i2, i3⟩ := divLimbLoop_spec hh y hy xs
    obtain ⟨q0, r0, d1, d2, d3⟩ := divND_spec hh rem x y i3 hy
    refine ⟨q0 :: q, r0, by rw [divLimbLoop, i1]; simp only; rw [d1], ?_, d3⟩
    simp only [val]
    rw [← i2]
    generalize 2 ^ (h + h) = B at *
    have e : B * (val q * y.toNat + rem.toNat) = B * val q * y.toNat + rem.toNat * B := by ring
    rw [e, Nat.add_mul]
    omega

theorem bnDivLimb_spec {j : Nat} (hj : h = 2 ^ j) (x : Bn h) (y : W h) (hx : x.WF) (hy : y ≠ 0) :
    ∃ q r, bnDivLimb x y = some (some (q, r)) ∧ q.toInt = x.toInt.tdiv y.toNat ∧ r.toNat = x.toInt.natAbs % y.toNat ∧ q.WF := by
  have hh : 0 < h := by rw [hj]; exact Nat.pow_pos (by decide)
  obtain ⟨sx, dx⟩ := x
  have hnx := hx.1
  unfold bnDivLimb
  simp only at *
  rw [if_neg hy]
  have hyp := ne_zero_pos hy
  have habs : (Bn.mk sx dx).toInt.natAbs = val dx := by cases sx <;> simp [Bn.toInt]
  by_cases h0 : dx.length = 0
  · rw [if_pos h0]
    refine ⟨_, _, rfl, ?_, ?_, hx⟩
    · rw [List.length_eq_zero_iff.1 h0]; cases sx <;> simp [Bn.toInt, val]
    · rw [habs, List.length_eq_zero_iff.1 h0]; simp [val]
  · rw [if_neg h0]
    have hdx : dx ≠ [] := fun he => h0 (by rw [he]; rfl)
    obtain ⟨z1, z2, z3⟩ := zeroBits_spec hj y hy
    have hsh : (y <<< zeroBits y).toNat = y.toNat * 2 ^ zeroBits y := by
      rw [BitVec.toNat_shiftLeft, Nat.shiftLeft_eq, Nat.mod_eq_of_lt]
      have : 2 ^ (h + h) = 2 ^ (h + h - zeroBits y) * 2 ^ zeroBits y := by rw [← Nat.pow_add]; congr 1; omega
      rw [this]
      exact Nat.mul_lt_mul_of_pos_right z3 (Nat.pow_pos (by decide))
    have hbig : 2 ^ (h + h) ≤ 2 * (y <<< zeroBits y).toNat := by
      rw [hsh]
      have : 2 ^ (h + h) = 2 * (2 ^ (h + h - 1 - zeroBits y) * 2 ^ zeroBits y) := by
        rw [← Nat.pow_add, ← Nat.pow_succ']; congr 1; omega
      rw [this]
      exact Nat.mul_le_mul_left 2 (Nat.mul_le_mul_right _ z2)
    obtain ⟨data, l1, l2⟩ : ∃ data, (if zeroBits y ≠ 0 then binLshift dx (zeroBits y) else some dx) = some data ∧ val data = val dx * 2 ^ zeroBits y := by
      by_cases hz : zeroBits y = 0
      · rw [if_neg (by simpa using hz)]; exact ⟨dx, rfl, by rw [hz]; simp⟩
      · rw [if_pos hz]
        obtain ⟨r, h1, h2, _⟩ := binLshift_spec hh dx (zeroBits y) hdx
        exact ⟨r, h1, h2⟩
    rw [l1]
    simp only
    obtain ⟨q, rem, i1, i2, i3⟩ := divLimbLoop_spec hh _ hbig data
    rw [i1]
    simp only
    obtain ⟨t1, t2⟩ := trim_spec q
    rw [l2, hsh] at i2
    rw [hsh] at i3
    have hD : 0 < 2 ^ zeroBits y := Nat.pow_pos (by decide)
    have hq : val q = val dx / y.toNat := by
      rw [← Nat.mul_div_mul_right (val dx) y.toNat hD, ← i2, Nat.mul_comm (val q), Nat.mul_add_div (Nat.mul_pos hyp hD), Nat.div_eq_of_lt i3, Nat.add_zero]
    have hr : rem.toNat = (val dx % y.toNat) * 2 ^ zeroBits y := by
      rw [← Nat.mul_mod_mul_right, ← i2, Nat.mul_comm (val q), Nat.mul_add_mod, Nat.mod_eq_of_lt i3]
    obtain ⟨d1, _⟩ := tdiv_signs sx false (val dx) y.toNat
    refine ⟨_, _, rfl, ?_, ?_, ?_⟩
    · have hX : (Bn.mk sx dx).toInt = if sx = true then -(val dx : Int) else val dx := rfl
      simp only [Bool.false_eq_true, if_false, Bool.bne_false] at d1
      rw [hX, d1, ← hq, ← t1]
      by_cases hl : (trim q).length = 0
      · rw [if_pos hl, List.length_eq_zero_iff.1 hl]; simp [Bn.toInt, val]
      · rw [if_neg hl]; rfl
    · rw [toNat_shr, hr, Nat.mul_div_cancel _ hD, habs]
    · by_cases hl : (trim q).length = 0
      · rw [if_pos hl]; exact wf_pos t2
      · rw [if_neg hl]; exact ⟨t2, fun _ he => hl (by simp only at he; rw [he]; rfl)⟩

theorem bnModLimb_spec {j : Nat} (hj : h = 2 ^ j) (a : Bn h) (m : W h) (ha : a.WF) (hm : m ≠ 0) :
    ∃ r, bnModLimb a m = some (some r) ∧
      (r.toNat : Int) = if a.toInt < 0 ∧ a.toInt % m.toNat = 0 then (m.toNat : Int) else a.toInt % m.toNat := by
  have hh : 0 < h := by rw [hj]; exact Nat.pow_pos (by decide)
  obtain ⟨sa, da⟩ := a
  unfold bnModLimb
  simp only at *
  rw [if_neg hm]
  have hmp := ne_zero_pos hm
  have hneg := fun hn => wf_val_pos hh ha hn
  have hem := ha.2
  simp only at hneg hem
  by_cases h0 : da.length = 0
  · rw [if_pos h0]
    have := List.length_eq_zero_iff.1 h0
    refine ⟨_, rfl, ?_⟩
    cases sa
    · rw [this]; simp [Bn.toInt, val]
    · exact absurd this (hem rfl)
  · rw [if_neg h0]
    obtain ⟨q, r, d1, d2, d3, d4⟩ := bnDivLimb_spec hj ⟨sa, da⟩ m ha hm
    rw [d1]
    simp only
    have habs : (Bn.mk sa da).toInt.natAbs = val da := by cases sa <;> simp [Bn.toInt]
    rw [habs] at d3
    refine ⟨_, rfl, ?_⟩
    cases sa
    · simp only [Bool.false_eq_true, if_false]
      rw [toInt_pos, if_neg (by omega)]
      rw [d3]; norm_cast
    · simp only [if_true]
      have hp := hneg rfl
      have hlt : r.toNat < m.toNat := by rw [d3]; exact Nat.mod_lt _ hmp
      have e := toNat_sub_cases m r
      rw [if_neg (by rw [BitVec.lt_def]; omega)] at e
      have hmr : ((m - r).toNat : Int) = m.toNat - r.toNat := by omega
      rw [hmr, toInt_neg]
      have hdm := Nat.mod_add_div (val da) m.toNat
      have e3 : (-(val da : Int)) = (m.toNat - (r.toNat : Int)) + m.toNat * (-(val da / m.toNat : Nat) - 1 : Int) := by
        have : (val da : Int) = (r.toNat : Int) + m.toNat * ((val da / m.toNat : Nat) : Int) := by rw [d3]; exact_mod_cast hdm.symm
        rw [this]; ring
      have e4 : (-(val da : Int)) % m.toNat = ((m.toNat : Int) - r.toNat) % m.toNat := by rw [e3, Int.add_mul_emod_self_left]
      rw [e4]
      by_cases hz : r.toNat = 0
      · rw [hz]; simp; omega
      · rw [Int.emod_eq_of_lt (by omega) (by omega), if_neg (by omega)]

end Verif.Crypto.Bn
