import Verif.Crypto.Bn.Limb
/-! Proofs about the vector functions. -/
namespace Verif.Crypto.Bn

variable {h : Nat}

/-- The number a vector of limbs stands for. -/
def val : List (W h) → Nat
  | [] => 0
  | x :: xs => x.toNat + 2 ^ (h + h) * val xs

theorem val_append (a b : List (W h)) : val (a ++ b) = val a + (2 ^ (h + h)) ^ a.length * val b := by
  induction a with
  | nil => simp [val]
  | cons x a ih =>
    simp only [List.cons_append, val, ih, List.length_cons, pow_succ]
    ring

theorem val_lt (a : List (W h)) : val a < (2 ^ (h + h)) ^ a.length := by
  induction a with
  | nil => simp [val]
  | cons x a ih =>
    have := x.isLt
    simp only [val, List.length_cons, pow_succ]
    have h1 := Nat.mul_le_mul_left (2 ^ (h + h)) (show val a + 1 ≤ _ from ih)
    rw [Nat.mul_add] at h1
    rw [Nat.mul_comm ((2 ^ (h + h)) ^ a.length)]
    omega

theorem val_replicate (n : Nat) : val (List.replicate n (0 : W h)) = 0 := by
  induction n with
  | zero => rfl
  | succ n ih => rw [List.replicate_succ, val, ih]; simp

theorem binAdd_spec (hh : 0 < h) : ∀ (a b : List (W h)) (c : W h), a.length = b.length →
    val (binAdd a b c).1 + (2 ^ (h + h)) ^ a.length * (binAdd a b c).2.toNat = val a + val b + c.toNat ∧ (binAdd a b c).1.length = a.length
  | [], [], c, _ => by simp [binAdd, val]
  | a :: as, b :: bs, c, hl => by
    simp only [List.length_cons, Nat.add_right_cancel_iff] at hl
    rw [binAdd]
    have e := addABC_spec hh a b c
    generalize addABC a b c = q at e
    obtain ⟨c', r⟩ := q
    simp only at e ⊢
    obtain ⟨i1, i2⟩ := binAdd_spec hh as bs c' hl
    refine ⟨?_, by simp [i2]⟩
    simp only [val, List.length_cons, pow_succ]
    generalize (binAdd as bs c').1 = R at *
    generalize (binAdd as bs c').2 = C at *
    generalize 2 ^ (h + h) = B at *
    have : B * val R + B * (B ^ as.length * C.toNat) = B * val as + B * val bs + B * c'.toNat := by
      rw [← Nat.mul_add, i1]; ring
    linarith

theorem binSub_spec (hh : 0 < h) : ∀ (a b : List (W h)) (c : W h), a.length = b.length →
    val (binSub a b c).1 + val b + c.toNat = val a + (2 ^ (h + h)) ^ a.length * (binSub a b c).2.toNat ∧ (binSub a b c).1.length = a.length
  | [], [], c, _ => by simp [binSub, val]
  | a :: as, b :: bs, c, hl => by
    simp only [List.length_cons, Nat.add_right_cancel_iff] at hl
    rw [binSub]
    have e := subABC_spec hh a b c
    generalize subABC a b c = q at e
    obtain ⟨c', r⟩ := q
    simp only at e ⊢
    obtain ⟨i1, i2⟩ := binSub_spec hh as bs c' hl
    refine ⟨?_, by simp [i2]⟩
    simp only [val, List.length_cons, pow_succ]
    generalize (binSub as bs c').1 = R at *
    generalize (binSub as bs c').2 = C at *
    generalize 2 ^ (h + h) = B at *
    have : B * val R + B * val bs + B * c'.toNat = B * val as + B * (B ^ as.length * C.toNat) := by
      rw [← Nat.mul_add, ← Nat.mul_add, i1]; ring
    linarith

theorem binInc_spec (hh : 0 < h) : ∀ (a : List (W h)) (c : W h),
    val (binInc a c).1 + (2 ^ (h + h)) ^ a.length * (binInc a c).2.toNat = val a + c.toNat ∧ (binInc a c).1.length = a.length
  | [], c => by simp [binInc, val]
  | a :: as, c => by
    rw [binInc]
    by_cases hc : c = 0
    · rw [if_pos hc]; simp [hc]
    · rw [if_neg hc]
      have e := addAB_spec hh a c
      generalize addAB a c = q at e
      obtain ⟨c', r⟩ := q
      simp only at e ⊢
      obtain ⟨i1, i2⟩ := binInc_spec hh as c'
      refine ⟨?_, by simp [i2]⟩
      simp only [val, List.length_cons, pow_succ]
      generalize (binInc as c').1 = R at *
      generalize (binInc as c').2 = C at *
      generalize 2 ^ (h + h) = B at *
      have : B * val R + B * (B ^ as.length * C.toNat) = B * val as + B * c'.toNat := by
        rw [← Nat.mul_add, i1]; ring
      linarith

theorem binDec_spec (hh : 0 < h) : ∀ (a : List (W h)) (c : W h),
    val (binDec a c).1 + c.toNat = val a + (2 ^ (h + h)) ^ a.length * (binDec a c).2.toNat ∧ (binDec a c).1.length = a.length
  | [], c => by simp [binDec, val]
  | a :: as, c => by
    rw [binDec]
    by_cases hc : c = 0
    · rw [if_pos hc]; simp [hc]
    · rw [if_neg hc]
      have e := subAB_spec hh a c
      generalize subAB a c = q at e
      obtain ⟨c', r⟩ := q
      simp only at e ⊢
      obtain ⟨i1, i2⟩ := binDec_spec hh as c'
      refine ⟨?_, by simp [i2]⟩
      simp only [val, List.length_cons, pow_succ]
      generalize (binDec as c').1 = R at *
      generalize (binDec as c').2 = C at *
      generalize 2 ^ (h + h) = B at *
      have : B * val R + B * c'.toNat = B * val as + B * (B ^ as.length * C.toNat) := by
        rw [← Nat.mul_add, i1]; ring
      linarith

theorem binMulAcc_spec (hh : 0 < h) : ∀ (r a : List (W h)) (b c : W h), r.length = a.length →
    val (binMulAcc r a b c).1 + (2 ^ (h + h)) ^ a.length * (binMulAcc r a b c).2.toNat = val r + val a * b.toNat + c.toNat ∧
      (binMulAcc r a b c).1.length = a.length
  | [], [], b, c, _ => by simp [binMulAcc, val]
  | r :: rs, a :: as, b, c, hl => by
    simp only [List.length_cons, Nat.add_right_cancel_iff] at hl
    rw [binMulAcc]
    have e := mulAddABC_spec hh c r a b
    generalize mulAddABC c r a b = q at e
    obtain ⟨c', r'⟩ := q
    simp only at e ⊢
    obtain ⟨i1, i2⟩ := binMulAcc_spec hh rs as b c' hl
    refine ⟨?_, by simp [i2]⟩
    simp only [val, List.length_cons, pow_succ]
    generalize (binMulAcc rs as b c').1 = R at *
    generalize (binMulAcc rs as b c').2 = C at *
    generalize 2 ^ (h + h) = B at *
    have : B * val R + B * (B ^ as.length * C.toNat) = B * val rs + B * (val as * b.toNat) + B * c'.toNat := by
      rw [← Nat.mul_add, i1]; ring
    linarith

theorem mulRow_spec (hh : 0 < h) : ∀ (r a : List (W h)) (t c : W h), r.length = a.length →
    val (mulRow r a t c).1 + (2 ^ (h + h)) ^ a.length * (mulRow r a t c).2.toNat = val r + val a * t.toNat + c.toNat ∧
      (mulRow r a t c).1.length = a.length
  | [], [], b, c, _ => by simp [mulRow, val]
  | r :: rs, a :: as, b, c, hl => by
    simp only [List.length_cons, Nat.add_right_cancel_iff] at hl
    rw [mulRow]
    have e := mulAdcAB_spec hh r a b c
    generalize mulAdcAB r a b c = q at e
    obtain ⟨c', r'⟩ := q
    simp only at e ⊢
    obtain ⟨i1, i2⟩ := mulRow_spec hh rs as b c' hl
    refine ⟨?_, by simp [i2]⟩
    simp only [val, List.length_cons, pow_succ]
    generalize (mulRow rs as b c').1 = R at *
    generalize (mulRow rs as b c').2 = C at *
    generalize 2 ^ (h + h) = B at *
    have : B * val R + B * (B ^ as.length * C.toNat) = B * val rs + B * (val as * b.toNat) + B * c'.toNat := by
      rw [← Nat.mul_add, i1]; ring
    linarith

theorem binSubMul_spec (hh : 0 < h) : ∀ (r a : List (W h)) (m c : W h), r.length = a.length →
    val (binSubMul r a m c).1 + val a * m.toNat + c.toNat = val r + (2 ^ (h + h)) ^ a.length * (binSubMul r a m c).2.toNat ∧
      (binSubMul r a m c).1.length = a.length
  | [], [], b, c, _ => by simp [binSubMul, val]
  | r :: rs, a :: as, m, c, hl => by
    simp only [List.length_cons, Nat.add_right_cancel_iff] at hl
    rw [binSubMul]
    have e1 := mulAB_spec hh a m
    generalize mulAB a m = q at e1
    obtain ⟨ah, al⟩ := q
    simp only at e1 ⊢
    have e2 := subABC_spec hh r al c
    generalize subABC r al c = q at e2
    obtain ⟨c', r'⟩ := q
    simp only at e2 ⊢
    have hsum : (c' + ah).toNat = c'.toNat + ah.toNat := by
      apply toNat_add_small
      have hr' := r'.isLt
      have hlt := lt_sq a.isLt m.isLt hr' c.isLt
      -- B * (c' + ah) = r' + a * m + c - r
      have : 2 ^ (h + h) * (c'.toNat + ah.toNat) + r.toNat = r'.toNat + a.toNat * m.toNat + c.toNat := by
        rw [Nat.mul_add]; omega
      have : 2 ^ (h + h) * (c'.toNat + ah.toNat) < 2 ^ (h + h) * 2 ^ (h + h) := by omega
      exact Nat.lt_of_mul_lt_mul_left this
    obtain ⟨i1, i2⟩ := binSubMul_spec hh rs as m (c' + ah) hl
    refine ⟨?_, by simp [i2]⟩
    rw [hsum] at i1
    simp only [val, List.length_cons, pow_succ]
    generalize (binSubMul rs as m (c' + ah)).1 = R at *
    generalize (binSubMul rs as m (c' + ah)).2 = C at *
    generalize 2 ^ (h + h) = B at *
    have : B * val R + B * (val as * m.toNat) + B * (c'.toNat + ah.toNat) = B * val rs + B * (B ^ as.length * C.toNat) := by
      rw [← Nat.mul_add, ← Nat.mul_add, i1]; ring
    have e3 : (a.toNat + B * val as) * m.toNat = a.toNat * m.toNat + B * (val as * m.toNat) := by ring
    rw [e3, ← e1]
    linarith

/-! ### Multiplication -/

theorem set0_zero (n : Nat) (c : W h) (hn : 0 < n) : (List.replicate n (0 : W h)).set 0 c = c :: List.replicate (n - 1) 0 := by
  obtain ⟨k, rfl⟩ : ∃ k, n = k + 1 := ⟨n - 1, by omega⟩
  simp [List.replicate_succ]

/-- `low` are the limbs that may be non-zero, `z` zeros follow. -/
theorem mulLoop_spec (hh : 0 < h) (a : List (W h)) : ∀ (b low : List (W h)) (z : Nat) (c0 : W h), low.length = a.length → b.length ≤ z →
    ∃ r carry, mulLoop (low ++ List.replicate z 0) a b c0 = (r, carry) ∧ val r = val low + val a * val b ∧ r.length = a.length + z ∧
      (0 < b.length → carry = 0 → val (r.drop (a.length + b.length - 1)) = 0) ∧ val (r.drop (a.length + b.length)) = 0
  | [], low, z, c0, hl, _ => by
    refine ⟨_, _, rfl, ?_, by simp [hl], fun hx => absurd hx (by simp), ?_⟩
    · rw [val_append, val_replicate]; simp [val]
    · rw [List.length_nil, Nat.add_zero, ← hl, List.drop_left, val_replicate]
  | t :: b, low, z, c0, hl, hz => by
    simp only [List.length_cons] at hz
    obtain ⟨i1, i2⟩ := mulRow_spec hh low a t 0 hl
    have htake : (low ++ List.replicate z 0).take a.length = low := by rw [← hl, List.take_left]
    have hdrop : (low ++ List.replicate z (0 : W h)).drop a.length = List.replicate z 0 := by rw [← hl, List.drop_left]
    rw [mulLoop, htake, hdrop]
    generalize mulRow low a t 0 = q at *
    obtain ⟨row, carry⟩ := q
    simp only at i1 i2 ⊢
    have hset : (if carry ≠ 0 then (List.replicate z (0 : W h)).set 0 carry else List.replicate z 0) = carry :: List.replicate (z - 1) 0 := by
      by_cases hc : carry ≠ 0
      · rw [if_pos hc, set0_zero _ _ (by omega)]
      · rw [if_neg hc]
        have hc : carry = 0 := Decidable.not_not.1 hc
        rw [hc, ← List.replicate_succ]; congr 1; omega
    rw [hset]
    -- the first limb of row ++ [carry] is final
    obtain ⟨r0, low', hrow⟩ : ∃ r0 low', row ++ [carry] = r0 :: low' := by
      cases row with
      | nil => exact ⟨_, _, rfl⟩
      | cons x l => exact ⟨_, _, rfl⟩
    have happ : row ++ carry :: List.replicate (z - 1) 0 = r0 :: (low' ++ List.replicate (z - 1) 0) := by
      rw [show row ++ carry :: List.replicate (z - 1) (0 : W h) = (row ++ [carry]) ++ List.replicate (z - 1) 0 by simp, hrow]; rfl
    have hlow' : low'.length = a.length := by
      have := congrArg List.length hrow
      simp at this; omega
    have hval : r0.toNat + 2 ^ (h + h) * val low' = val low + val a * t.toNat := by
      have := congrArg val hrow
      rw [val_append, i2] at this
      simp only [val, Nat.mul_zero, Nat.add_zero] at this
      rw [← this]; simpa using i1
    rw [happ]
    simp only
    obtain ⟨r, carry', j1, j2, j3, j4, j5⟩ := mulLoop_spec hh a b low' (z - 1) carry hlow' (by omega)
    rw [j1]
    refine ⟨_, _, rfl, ?_, by simp only [List.length_cons, j3]; omega, ?_, ?_⟩
    · simp only [val, j2]
      generalize 2 ^ (h + h) = B at *
      have e : val a * (t.toNat + B * val b) = val a * t.toNat + B * (val a * val b) := by ring
      rw [e, Nat.mul_add]; omega
    · intro _ hc0
      simp only [List.length_cons]
      cases b with
      | nil =>
        -- last row: its carry is the limb dropped at
        simp only [mulLoop, Prod.mk.injEq] at j1
        obtain ⟨rfl, rfl⟩ := j1
        subst hc0
        simp only [List.length_nil, Nat.zero_add, Nat.add_sub_cancel]
        have : r0 :: (low' ++ List.replicate (z - 1) (0 : W h)) = row ++ (0 : W h) :: List.replicate (z - 1) 0 := happ.symm
        rw [this, ← i2, List.drop_left, val, val_replicate]; simp
      | cons t' b' =>
        have := j4 (by simp) hc0
        simp only [List.length_cons] at this ⊢
        rw [show a.length + (b'.length + 1 + 1) - 1 = (a.length + (b'.length + 1) - 1) + 1 by omega, List.drop_succ_cons]
        exact this
    · simp only [List.length_cons]
      rw [show a.length + (b.length + 1) = (a.length + b.length) + 1 by omega, List.drop_succ_cons]
      exact j5

/-! ### Sizes and comparison -/

theorem fixSize_spec (l : List (W h)) : ∀ n, n ≤ l.length → fixSize l n ≤ n ∧ val (l.take (fixSize l n)) = val (l.take n) ∧
    (0 < fixSize l n → l[fixSize l n - 1]? ≠ some 0)
  | 0, _ => by simp [fixSize]
  | i + 1, hn => by
    rw [fixSize]
    by_cases h0 : l[i]? = some 0
    · rw [if_pos h0]
      obtain ⟨i1, i2, i3⟩ := fixSize_spec l i (by omega)
      refine ⟨by omega, ?_, i3⟩
      have hi : i < l.length := by omega
      rw [i2, List.take_succ_eq_append_getElem hi, val_append]
      have : l[i] = 0 := by rw [List.getElem?_eq_getElem hi, Option.some.injEq] at h0; exact h0
      rw [this]; simp [val]
    · rw [if_neg h0]; exact ⟨Nat.le_refl _, rfl, fun _ => h0⟩

/-- A normalised vector: the top limb is not zero. -/
def Norm (l : List (W h)) : Prop := l ≠ [] → l.getLast? ≠ some 0

theorem norm_le {l : List (W h)} (hn : Norm l) (hne : l ≠ []) : (2 ^ (h + h)) ^ (l.length - 1) ≤ val l := by
  have h1 := hn hne
  have h2 := List.dropLast_concat_getLast hne
  have hlast : l.getLast hne ≠ 0 := by
    intro hx; rw [List.getLast?_eq_some_getLast hne, hx] at h1; exact h1 rfl
  rw [← h2, val_append]
  simp only [val, Nat.mul_zero, Nat.add_zero, List.length_append, List.length_dropLast, List.length_singleton]
  have : 1 ≤ (l.getLast hne).toNat := by
    rcases Nat.eq_zero_or_pos (l.getLast hne).toNat with hz | hz
    · exact absurd (BitVec.eq_of_toNat_eq (by simpa using hz)) hlast
    · exact hz
  have := Nat.mul_le_mul_left ((2 ^ (h + h)) ^ (l.length - 1)) this
  have hlen : l.length - 1 + 1 - 1 = l.length - 1 := by omega
  rw [hlen]
  omega

theorem cmpLoop_spec (a b : List (W h)) (hl : a.length = b.length) : ∀ n, n ≤ a.length →
    (val (a.take n) < val (b.take n) → cmpLoop a b n = -1) ∧ (val (a.take n) = val (b.take n) → cmpLoop a b n = 0) ∧
    (val (a.take n) > val (b.take n) → cmpLoop a b n = 1)
  | 0, _ => by simp [cmpLoop, val]
  | n + 1, hn => by
    have ha : n < a.length := by omega
    have hb : n < b.length := by omega
    obtain ⟨i1, i2, i3⟩ := cmpLoop_spec a b hl n (by omega)
    rw [cmpLoop, List.getElem?_eq_getElem ha, List.getElem?_eq_getElem hb]
    simp only
    rw [List.take_succ_eq_append_getElem ha, List.take_succ_eq_append_getElem hb, val_append, val_append]
    simp only [val, Nat.mul_zero, Nat.add_zero, List.length_take, Nat.min_eq_left (Nat.le_of_lt ha), Nat.min_eq_left (Nat.le_of_lt hb)]
    have l1 := val_lt (a.take n)
    have l2 := val_lt (b.take n)
    simp only [List.length_take, Nat.min_eq_left (Nat.le_of_lt ha), Nat.min_eq_left (Nat.le_of_lt hb)] at l1 l2
    generalize a[n] = x at *
    generalize b[n] = y at *
    generalize (2 ^ (h + h)) ^ n = P at *
    by_cases hxy : x = y
    · subst hxy
      rw [if_neg (by simp)]
      exact ⟨fun hx => i1 (by omega), fun hx => i2 (by omega), fun hx => i3 (by omega)⟩
    · rw [if_pos hxy]
      have hne : x.toNat ≠ y.toNat := fun hx => hxy (BitVec.eq_of_toNat_eq hx)
      by_cases hgt : x > y
      · rw [if_pos hgt]
        have hgt' : y.toNat < x.toNat := BitVec.lt_def.1 hgt
        have := Nat.mul_le_mul_left P (show y.toNat + 1 ≤ x.toNat from hgt')
        rw [Nat.mul_add] at this
        exact ⟨fun hx => by omega, fun hx => by omega, fun _ => rfl⟩
      · rw [if_neg hgt]
        have hlt : x.toNat < y.toNat := by
          have : ¬ y.toNat < x.toNat := fun hx => hgt (BitVec.lt_def.2 hx)
          omega
        have := Nat.mul_le_mul_left P (show x.toNat + 1 ≤ y.toNat from hlt)
        rw [Nat.mul_add] at this
        exact ⟨fun _ => rfl, fun hx => by omega, fun hx => by omega⟩

theorem binCmp_spec (hh : 0 < h) (a b : List (W h)) (ha : Norm a) (hb : Norm b) :
    (val a < val b → binCmp a b = -1) ∧ (val a = val b → binCmp a b = 0) ∧ (val a > val b → binCmp a b = 1) := by
  unfold binCmp
  have hB : 0 < 2 ^ (h + h) := by have := four_le hh; omega
  by_cases hl : a.length = b.length
  · rw [if_pos hl]
    have := cmpLoop_spec a b hl a.length (Nat.le_refl _)
    rw [List.take_length] at this
    rw [show b.take a.length = b by rw [hl, List.take_length]] at this
    exact this
  · rw [if_neg hl]
    have aux : ∀ x y : List (W h), Norm y → x.length < y.length → val x < val y := by
      intro x y hy hlt
      have h1 := val_lt x
      have h2 := norm_le hy (by intro hx; rw [hx] at hlt; cases hlt)
      have h3 := Nat.pow_le_pow_right hB (show x.length ≤ y.length - 1 by omega)
      omega
    by_cases hgt : a.length > b.length
    · rw [if_pos hgt]
      have := aux b a ha hgt
      exact ⟨fun hx => by omega, fun hx => by omega, fun _ => rfl⟩
    · rw [if_neg hgt]
      have := aux a b hb (by omega)
      exact ⟨fun _ => rfl, fun hx => by omega, fun hx => by omega⟩

end Verif.Crypto.Bn
