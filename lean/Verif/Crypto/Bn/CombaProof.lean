import Verif.Crypto.Bn.CombaModel
import Verif.Crypto.Bn.ApiProps
import Verif.Crypto.Bn.Props
import Mathlib.Tactic.Ring
import Mathlib.Tactic.Linarith
/-! Proofs about the unrolled and the divide-and-conquer multiplications. -/
namespace Verif.Crypto.Bn

variable {h : Nat}

theorem sqrAddA_eq (t m l v : W h) : sqrAddA t m l v = mulAddAB t m l v v := by
  unfold sqrAddA mulAddAB
  simp only [BitVec.mul_comm (lo v) (hi v)]

/-- A word of a vector, as a number. -/
def wd (a : List (W h)) (i : Nat) : Nat := match a[i]? with | some x => x.toNat | none => 0

def lineVal (a b : List (W h)) : Line → Nat
  | .mul i j => wd a i * wd b j
  | .mul2 i j => 2 * (wd a i * wd b j)
  | .sqr i => wd a i * wd a i

def lineCnt : Line → Nat
  | .mul _ _ => 1
  | .mul2 _ _ => 2
  | .sqr _ => 1

def lineOk (n : Nat) : Line → Bool
  | .mul i j => decide (i < n) && decide (j < n)
  | .mul2 i j => decide (i < n) && decide (j < n)
  | .sqr i => decide (i < n)

def colVal (a b : List (W h)) : List Line → Nat
  | [] => 0
  | i :: is => lineVal a b i + colVal a b is

def colCnt : List Line → Nat
  | [] => 0
  | i :: is => lineCnt i + colCnt is

def colsVal (a b : List (W h)) : List (List Line) → Nat
  | [] => 0
  | c :: cs => colVal a b c + 2 ^ (h + h) * colsVal a b cs

def acc (s : W h × W h × W h) : Nat := s.2.2.toNat + 2 ^ (h + h) * s.2.1.toNat + 2 ^ (h + h) * 2 ^ (h + h) * s.1.toNat

theorem wd_eq {a : List (W h)} {i : Nat} {x : W h} (hx : a[i]? = some x) : wd a i = x.toNat := by unfold wd; rw [hx]

theorem flag_le (hh : 0 < h) (p : Prop) [Decidable p] : (if p then (1 : W h) else 0).toNat ≤ 1 := by
  by_cases hp : p
  · rw [if_pos hp]; exact Nat.le_of_eq (BitVec.toNat_one (by omega))
  · rw [if_neg hp]; simp

theorem mulAdd_step (hh : 0 < h) (s : W h × W h × W h) (u v : W h) (ht : s.1.toNat + 1 < 2 ^ (h + h)) :
    acc (mulAddAB s.1 s.2.1 s.2.2 u v) = acc s + u.toNat * v.toNat ∧ (mulAddAB s.1 s.2.1 s.2.2 u v).1.toNat ≤ s.1.toNat + 1 := by
  refine ⟨mulAddAB_spec hh s.1 s.2.1 s.2.2 u v ht, ?_⟩
  unfold mulAddAB
  simp only [BitVec.toNat_add]
  refine Nat.le_trans (Nat.mod_le _ _) (Nat.add_le_add_left (flag_le hh _) _)

theorem runLine_spec (hh : 0 < h) (a b : List (W h)) (n : Nat) (ha : a.length = n) (hb : b.length = n) (ln : Line) (hl : lineOk n ln = true)
    (s : W h × W h × W h) (hs : s.1.toNat + lineCnt ln < 2 ^ (h + h)) :
    ∃ s', runLine a b s ln = some s' ∧ acc s' = acc s + lineVal a b ln ∧ s'.1.toNat ≤ s.1.toNat + lineCnt ln := by
  cases ln with
  | mul i j =>
    simp only [lineOk, Bool.and_eq_true, decide_eq_true_eq] at hl
    have e1 : a[i]? = some (a[i]'(by omega)) := List.getElem?_eq_getElem (by omega)
    have e2 : b[j]? = some (b[j]'(by omega)) := List.getElem?_eq_getElem (by omega)
    simp only [runLine, lineVal, lineCnt, wd_eq e1, wd_eq e2] at *
    rw [e1, e2]
    obtain ⟨m1, m2⟩ := mulAdd_step hh s (a[i]'(by omega)) (b[j]'(by omega)) hs
    exact ⟨_, rfl, m1, m2⟩
  | mul2 i j =>
    simp only [lineOk, Bool.and_eq_true, decide_eq_true_eq] at hl
    have e1 : a[i]? = some (a[i]'(by omega)) := List.getElem?_eq_getElem (by omega)
    have e2 : b[j]? = some (b[j]'(by omega)) := List.getElem?_eq_getElem (by omega)
    simp only [runLine, lineVal, lineCnt, wd_eq e1, wd_eq e2] at *
    rw [e1, e2]
    obtain ⟨m1, m2⟩ := mulAdd_step hh s (a[i]'(by omega)) (b[j]'(by omega)) (by omega)
    obtain ⟨m3, m4⟩ := mulAdd_step hh (mulAddAB s.1 s.2.1 s.2.2 (a[i]'(by omega)) (b[j]'(by omega))) (a[i]'(by omega)) (b[j]'(by omega)) (by omega)
    exact ⟨_, rfl, by rw [m3, m1]; ring, by omega⟩
  | sqr i =>
    simp only [lineOk, decide_eq_true_eq] at hl
    have e1 : a[i]? = some (a[i]'(by omega)) := List.getElem?_eq_getElem (by omega)
    simp only [runLine, lineVal, lineCnt, wd_eq e1] at *
    rw [e1]
    simp only [sqrAddA_eq]
    obtain ⟨m1, m2⟩ := mulAdd_step hh s (a[i]'(by omega)) (a[i]'(by omega)) hs
    exact ⟨_, rfl, m1, m2⟩

theorem runCol_spec (hh : 0 < h) (a b : List (W h)) (n : Nat) (ha : a.length = n) (hb : b.length = n) : ∀ (c : List Line) (s : W h × W h × W h),
    c.all (lineOk n) = true → s.1.toNat + colCnt c < 2 ^ (h + h) →
    ∃ s', runCol a b c s = some s' ∧ acc s' = acc s + colVal a b c
  | [], s, _, _ => ⟨s, rfl, by simp [colVal]⟩
  | i :: is, s, hl, hs => by
    rw [List.all_cons, Bool.and_eq_true] at hl
    rw [colCnt] at hs
    obtain ⟨s1, r1, r2, r3⟩ := runLine_spec hh a b n ha hb i hl.1 s (by omega)
    obtain ⟨s2, r4, r5⟩ := runCol_spec hh a b n ha hb is s1 hl.2 (by omega)
    rw [runCol, r1]
    exact ⟨s2, r4, by rw [r5, r2, colVal]; omega⟩

theorem runCols_spec (hh : 0 < h) (a b : List (W h)) (n : Nat) (ha : a.length = n) (hb : b.length = n) : ∀ (cs : List (List Line)) (s : W h × W h × W h),
    cs ≠ [] → cs.all (fun c => c.all (lineOk n) && decide (colCnt c ≤ 8)) = true → s.1 = 0 → 8 < 2 ^ (h + h) →
    ∃ r k, runCols a b cs s = some r ∧ r.length = cs.length + 1 ∧ val r + (2 ^ (h + h)) ^ (cs.length + 1) * k = acc s + colsVal a b cs
  | [], _, h0, _, _, _ => absurd rfl h0
  | [c], s, _, hl, hs, hB => by
    simp only [List.all_cons, List.all_nil, Bool.and_true, Bool.and_eq_true, decide_eq_true_eq] at hl
    obtain ⟨s', r1, r2⟩ := runCol_spec hh a b n ha hb c s hl.1 (by rw [hs, show (0 : W h).toNat = 0 by simp]; omega)
    obtain ⟨t, m, l⟩ := s'
    rw [runCols, r1]
    refine ⟨_, t.toNat, rfl, rfl, ?_⟩
    simp only [acc, colsVal, val, List.length_cons, List.length_nil] at *
    simp only [Nat.mul_zero, Nat.add_zero] at *
    rw [← r2]
    ring
  | c :: c' :: cs, s, _, hl, hs, hB => by
    rw [List.all_cons, Bool.and_eq_true, Bool.and_eq_true, decide_eq_true_eq] at hl
    obtain ⟨s', r1, r2⟩ := runCol_spec hh a b n ha hb c s hl.1.1 (by rw [hs, show (0 : W h).toNat = 0 by simp]; omega)
    obtain ⟨t, m, l⟩ := s'
    obtain ⟨r, k, q1, q2, q3⟩ := runCols_spec hh a b n ha hb (c' :: cs) (0, t, m) (by simp) hl.2 rfl hB
    rw [runCols, r1]
    simp only
    rw [q1]
    refine ⟨_, k, rfl, by simp only [List.length_cons] at *; omega, ?_⟩
    have q3' : val r + (2 ^ (h + h)) ^ ((c' :: cs).length + 1) * k = m.toNat + 2 ^ (h + h) * t.toNat + colsVal a b (c' :: cs) := by
      rw [q3]; simp [acc]
    rw [colsVal, val, ← Nat.add_assoc, ← r2, List.length_cons, pow_succ]
    simp only [acc]
    generalize (2 ^ (h + h)) ^ ((c' :: cs).length + 1) = P at *
    generalize colsVal a b (c' :: cs) = V at *
    generalize 2 ^ (h + h) = B at *
    have : B * (val r + P * k) = B * (m.toNat + B * t.toNat + V) := by rw [q3']
    linarith

theorem cols_product (hh : 2 ≤ h) (a b : List (W h)) (n : Nat) (ha : a.length = n) (hb : b.length = n) (cs : List (List Line))
    (hne : cs ≠ []) (hcs : cs.all (fun c => c.all (lineOk n) && decide (colCnt c ≤ 8)) = true) (hlen : cs.length + 1 = 2 * n)
    (hv : colsVal a b cs = val a * val b) :
    ∃ r, runCols a b cs (0, 0, 0) = some r ∧ r.length = 2 * n ∧ val r = val a * val b := by
  have hB : 8 < 2 ^ (h + h) := by
    have : 2 ^ 4 ≤ 2 ^ (h + h) := Nat.pow_le_pow_right (by omega) (by omega)
    omega
  obtain ⟨r, k, q1, q2, q3⟩ := runCols_spec (by omega) a b n ha hb cs (0, 0, 0) hne hcs rfl hB
  refine ⟨r, q1, by omega, ?_⟩
  rw [hv, hlen] at q3
  have h0 : acc ((0, 0, 0) : W h × W h × W h) = 0 := by simp [acc]
  rw [h0, Nat.zero_add] at q3
  have h1 := val_lt a
  have h2 := val_lt b
  rw [ha] at h1; rw [hb] at h2
  have h3 : val a * val b < (2 ^ (h + h)) ^ (2 * n) := by
    rw [Nat.two_mul, pow_add]
    exact Nat.mul_lt_mul_of_lt_of_le h1 (Nat.le_of_lt h2) (by omega)
  rcases Nat.eq_zero_or_pos k with hk | hk
  · rw [hk, Nat.mul_zero, Nat.add_zero] at q3; exact q3
  · exfalso
    have : (2 ^ (h + h)) ^ (2 * n) * 1 ≤ (2 ^ (h + h)) ^ (2 * n) * k := Nat.mul_le_mul_left _ hk
    omega

theorem len2 {a : List (W h)} (ha : a.length = 2) : ∃ x0 x1, a = [x0, x1] := by
  match a, ha with
  | [x0, x1], _ => exact ⟨_, _, rfl⟩
theorem len3 {a : List (W h)} (ha : a.length = 3) : ∃ x0 x1 x2, a = [x0, x1, x2] := by
  match a, ha with
  | [x0, x1, x2], _ => exact ⟨_, _, _, rfl⟩
theorem len4 {a : List (W h)} (ha : a.length = 4) : ∃ x0 x1 x2 x3, a = [x0, x1, x2, x3] := by
  match a, ha with
  | [x0, x1, x2, x3], _ => exact ⟨_, _, _, _, rfl⟩
theorem len6 {a : List (W h)} (ha : a.length = 6) : ∃ x0 x1 x2 x3 x4 x5, a = [x0, x1, x2, x3, x4, x5] := by
  match a, ha with
  | [x0, x1, x2, x3, x4, x5], _ => exact ⟨_, _, _, _, _, _, rfl⟩
theorem len8 {a : List (W h)} (ha : a.length = 8) : ∃ x0 x1 x2 x3 x4 x5 x6 x7, a = [x0, x1, x2, x3, x4, x5, x6, x7] := by
  match a, ha with
  | [x0, x1, x2, x3, x4, x5, x6, x7], _ => exact ⟨_, _, _, _, _, _, _, _, rfl⟩

theorem mulComba2_spec (hh : 2 ≤ h) (a b : List (W h)) (ha : a.length = 2) (hb : b.length = 2) :
    ∃ r, runCols a b mulComba2 (0, 0, 0) = some r ∧ r.length = 2 * 2 ∧ val r = val a * val b := by
  refine cols_product hh a b 2 ha hb mulComba2 (by simp [mulComba2, mulBegin1, mulBegin2, mulBegin3]) (by decide) (by decide) ?_
  obtain ⟨a0, a1, rfl⟩ := len2 ha
  obtain ⟨b0, b1, rfl⟩ := len2 hb
  simp only [mulComba2, mulBegin1, mulBegin2, mulBegin3, List.cons_append, List.nil_append, List.append_assoc, colsVal, colVal, lineVal, wd, List.getElem?_cons_zero, List.getElem?_cons_succ, val]
  ring

theorem mulComba3_spec (hh : 2 ≤ h) (a b : List (W h)) (ha : a.length = 3) (hb : b.length = 3) :
    ∃ r, runCols a b mulComba3 (0, 0, 0) = some r ∧ r.length = 2 * 3 ∧ val r = val a * val b := by
  refine cols_product hh a b 3 ha hb mulComba3 (by simp [mulComba3, mulBegin1, mulBegin2, mulBegin3]) (by decide) (by decide) ?_
  obtain ⟨a0, a1, a2, rfl⟩ := len3 ha
  obtain ⟨b0, b1, b2, rfl⟩ := len3 hb
  simp only [mulComba3, mulBegin1, mulBegin2, mulBegin3, List.cons_append, List.nil_append, List.append_assoc, colsVal, colVal, lineVal, wd, List.getElem?_cons_zero, List.getElem?_cons_succ, val]
  ring

theorem mulComba4_spec (hh : 2 ≤ h) (a b : List (W h)) (ha : a.length = 4) (hb : b.length = 4) :
    ∃ r, runCols a b mulComba4 (0, 0, 0) = some r ∧ r.length = 2 * 4 ∧ val r = val a * val b := by
  refine cols_product hh a b 4 ha hb mulComba4 (by simp [mulComba4, mulBegin1, mulBegin2, mulBegin3]) (by decide) (by decide) ?_
  obtain ⟨a0, a1, a2, a3, rfl⟩ := len4 ha
  obtain ⟨b0, b1, b2, b3, rfl⟩ := len4 hb
  simp only [mulComba4, mulBegin1, mulBegin2, mulBegin3, List.cons_append, List.nil_append, List.append_assoc, colsVal, colVal, lineVal, wd, List.getElem?_cons_zero, List.getElem?_cons_succ, val]
  ring

theorem mulComba6_spec (hh : 2 ≤ h) (a b : List (W h)) (ha : a.length = 6) (hb : b.length = 6) :
    ∃ r, runCols a b mulComba6 (0, 0, 0) = some r ∧ r.length = 2 * 6 ∧ val r = val a * val b := by
  refine cols_product hh a b 6 ha hb mulComba6 (by simp [mulComba6, mulBegin1, mulBegin2, mulBegin3]) (by decide) (by decide) ?_
  obtain ⟨a0, a1, a2, a3, a4, a5, rfl⟩ := len6 ha
  obtain ⟨b0, b1, b2, b3, b4, b5, rfl⟩ := len6 hb
  simp only [mulComba6, mulBegin1, mulBegin2, mulBegin3, List.cons_append, List.nil_append, List.append_assoc, colsVal, colVal, lineVal, wd, List.getElem?_cons_zero, List.getElem?_cons_succ, val]
  ring

theorem mulComba8_spec (hh : 2 ≤ h) (a b : List (W h)) (ha : a.length = 8) (hb : b.length = 8) :
    ∃ r, runCols a b mulComba8 (0, 0, 0) = some r ∧ r.length = 2 * 8 ∧ val r = val a * val b := by
  refine cols_product hh a b 8 ha hb mulComba8 (by simp [mulComba8, mulBegin1, mulBegin2, mulBegin3]) (by decide) (by decide) ?_
  obtain ⟨a0, a1, a2, a3, a4, a5, a6, a7, rfl⟩ := len8 ha
  obtain ⟨b0, b1, b2, b3, b4, b5, b6, b7, rfl⟩ := len8 hb
  simp only [mulComba8, mulBegin1, mulBegin2, mulBegin3, List.cons_append, List.nil_append, List.append_assoc, colsVal, colVal, lineVal, wd, List.getElem?_cons_zero, List.getElem?_cons_succ, val]
  ring

theorem sqrComba2_spec (hh : 2 ≤ h) (a : List (W h)) (ha : a.length = 2) :
    ∃ r, runCols a a sqrComba2 (0, 0, 0) = some r ∧ r.length = 2 * 2 ∧ val r = val a * val a := by
  refine cols_product hh a a 2 ha ha sqrComba2 (by simp [sqrComba2, sqrBegin1, sqrBegin2]) (by decide) (by decide) ?_
  obtain ⟨a0, a1, rfl⟩ := len2 ha
  simp only [sqrComba2, sqrBegin1, sqrBegin2, List.cons_append, List.nil_append, List.append_assoc, colsVal, colVal, lineVal, wd, List.getElem?_cons_zero, List.getElem?_cons_succ, val]
  ring

theorem sqrComba3_spec (hh : 2 ≤ h) (a : List (W h)) (ha : a.length = 3) :
    ∃ r, runCols a a sqrComba3 (0, 0, 0) = some r ∧ r.length = 2 * 3 ∧ val r = val a * val a := by
  refine cols_product hh a a 3 ha ha sqrComba3 (by simp [sqrComba3, sqrBegin1, sqrBegin2]) (by decide) (by decide) ?_
  obtain ⟨a0, a1, a2, rfl⟩ := len3 ha
  simp only [sqrComba3, sqrBegin1, sqrBegin2, List.cons_append, List.nil_append, List.append_assoc, colsVal, colVal, lineVal, wd, List.getElem?_cons_zero, List.getElem?_cons_succ, val]
  ring

theorem sqrComba4_spec (hh : 2 ≤ h) (a : List (W h)) (ha : a.length = 4) :
    ∃ r, runCols a a sqrComba4 (0, 0, 0) = some r ∧ r.length = 2 * 4 ∧ val r = val a * val a := by
  refine cols_product hh a a 4 ha ha sqrComba4 (by simp [sqrComba4, sqrBegin1, sqrBegin2]) (by decide) (by decide) ?_
  obtain ⟨a0, a1, a2, a3, rfl⟩ := len4 ha
  simp only [sqrComba4, sqrBegin1, sqrBegin2, List.cons_append, List.nil_append, List.append_assoc, colsVal, colVal, lineVal, wd, List.getElem?_cons_zero, List.getElem?_cons_succ, val]
  ring

theorem sqrComba6_spec (hh : 2 ≤ h) (a : List (W h)) (ha : a.length = 6) :
    ∃ r, runCols a a sqrComba6 (0, 0, 0) = some r ∧ r.length = 2 * 6 ∧ val r = val a * val a := by
  refine cols_product hh a a 6 ha ha sqrComba6 (by simp [sqrComba6, sqrBegin1, sqrBegin2]) (by decide) (by decide) ?_
  obtain ⟨a0, a1, a2, a3, a4, a5, rfl⟩ := len6 ha
  simp only [sqrComba6, sqrBegin1, sqrBegin2, List.cons_append, List.nil_append, List.append_assoc, colsVal, colVal, lineVal, wd, List.getElem?_cons_zero, List.getElem?_cons_succ, val]
  ring

theorem sqrComba8_spec (hh : 2 ≤ h) (a : List (W h)) (ha : a.length = 8) :
    ∃ r, runCols a a sqrComba8 (0, 0, 0) = some r ∧ r.length = 2 * 8 ∧ val r = val a * val a := by
  refine cols_product hh a a 8 ha ha sqrComba8 (by simp [sqrComba8, sqrBegin1, sqrBegin2]) (by decide) (by decide) ?_
  obtain ⟨a0, a1, a2, a3, a4, a5, a6, a7, rfl⟩ := len8 ha
  simp only [sqrComba8, sqrBegin1, sqrBegin2, List.cons_append, List.nil_append, List.append_assoc, colsVal, colVal, lineVal, wd, List.getElem?_cons_zero, List.getElem?_cons_succ, val]
  ring

theorem mulSmall_spec (hh : 2 ≤ h) (a b : List (W h)) (hab : a.length = b.length) (h0 : 0 < a.length) (h4 : a.length < 4) :
    ∃ r, mulSmall a b = some r ∧ r.length = 2 * a.length ∧ val r = val a * val b := by
  unfold mulSmall
  by_cases h3 : a.length = 3
  · rw [if_pos h3, h3]; exact mulComba3_spec hh a b h3 (by omega)
  · rw [if_neg h3]
    by_cases h2 : a.length = 2
    · rw [if_pos h2, h2]; exact mulComba2_spec hh a b h2 (by omega)
    · rw [if_neg h2]
      obtain ⟨x, rfl⟩ := List.length_eq_one_iff.1 (show a.length = 1 by omega)
      obtain ⟨y, rfl⟩ := List.length_eq_one_iff.1 (show b.length = 1 by omega)
      refine ⟨_, rfl, rfl, ?_⟩
      simp only [val, Nat.mul_zero, Nat.add_zero]
      exact mulAB_spec (by omega) x y

theorem sqrSmall_spec (hh : 2 ≤ h) (a : List (W h)) (h0 : 0 < a.length) (h4 : a.length < 4) :
    ∃ r, sqrSmall a = some r ∧ r.length = 2 * a.length ∧ val r = val a * val a := by
  unfold sqrSmall
  by_cases h3 : a.length = 3
  · rw [if_pos h3, h3]; exact sqrComba3_spec hh a h3
  · rw [if_neg h3]
    by_cases h2 : a.length = 2
    · rw [if_pos h2, h2]; exact sqrComba2_spec hh a h2
    · rw [if_neg h2]
      obtain ⟨x, rfl⟩ := List.length_eq_one_iff.1 (show a.length = 1 by omega)
      refine ⟨_, rfl, rfl, ?_⟩
      simp only [val, Nat.mul_zero, Nat.add_zero]
      exact sqrA_spec (by omega) x

/-- The sizes that are always done without splitting. -/
def Small (n : Nat) : Prop := n = 1 ∨ n = 2 ∨ n = 3 ∨ n = 4 ∨ n = 6 ∨ n = 8

theorem mulBase_spec (hh : 2 ≤ h) (ct : Bool) (a b : List (W h)) (hab : a.length = b.length) (h0 : 0 < a.length) :
    (∃ r, mulBase ct a b = some (some r) ∧ r.length = 2 * a.length ∧ val r = val a * val b) ∨
      (mulBase ct a b = none ∧ ¬Small a.length ∧ 5 ≤ a.length) := by
  unfold mulBase
  cases ct with
  | false =>
    rw [if_pos rfl]
    by_cases h8 : a.length = 8
    · rw [if_pos h8, h8]; left; obtain ⟨r, e, q⟩ := mulComba8_spec hh a b h8 (by omega); exact ⟨r, by rw [e], q⟩
    rw [if_neg h8]
    by_cases h6 : a.length = 6
    · rw [if_pos h6, h6]; left; obtain ⟨r, e, q⟩ := mulComba6_spec hh a b h6 (by omega); exact ⟨r, by rw [e], q⟩
    rw [if_neg h6]
    by_cases h4 : a.length = 4
    · rw [if_pos h4, h4]; left; obtain ⟨r, e, q⟩ := mulComba4_spec hh a b h4 (by omega); exact ⟨r, by rw [e], q⟩
    rw [if_neg h4]
    by_cases h3 : a.length < 4
    · rw [if_pos h3]; left; obtain ⟨r, e, q⟩ := mulSmall_spec hh a b hab h0 h3; exact ⟨r, by rw [e], q⟩
    · rw [if_neg h3]; right; refine ⟨rfl, ?_, by omega⟩; unfold Small; omega
  | true =>
    rw [if_neg (by decide)]
    by_cases h8 : a.length ≤ 8
    · rw [if_pos h8]; left
      obtain ⟨m1, m2, _⟩ := mul_exact (by omega) (2 * a.length) a b (by intro hb; rw [hb] at hab; simp at hab; rw [hab] at h0; simp at h0) (by omega)
      simp only [num_eq] at m2
      exact ⟨_, rfl, m1, m2⟩
    · rw [if_neg h8]; right; refine ⟨rfl, ?_, by omega⟩; unfold Small; omega

theorem sqrBase_spec (hh : 2 ≤ h) (ct : Bool) (a : List (W h)) (h0 : 0 < a.length) :
    (∃ r, sqrBase ct a = some (some r) ∧ r.length = 2 * a.length ∧ val r = val a * val a) ∨
      (sqrBase ct a = none ∧ ¬Small a.length ∧ 5 ≤ a.length) := by
  unfold sqrBase
  cases ct with
  | false =>
    rw [if_pos rfl]
    by_cases h8 : a.length = 8
    · rw [if_pos h8, h8]; left; obtain ⟨r, e, q⟩ := sqrComba8_spec hh a h8; exact ⟨r, by rw [e], q⟩
    rw [if_neg h8]
    by_cases h6 : a.length = 6
    · rw [if_pos h6, h6]; left; obtain ⟨r, e, q⟩ := sqrComba6_spec hh a h6; exact ⟨r, by rw [e], q⟩
    rw [if_neg h6]
    by_cases h4 : a.length = 4
    · rw [if_pos h4, h4]; left; obtain ⟨r, e, q⟩ := sqrComba4_spec hh a h4; exact ⟨r, by rw [e], q⟩
    rw [if_neg h4]
    by_cases h3 : a.length < 4
    · rw [if_pos h3]; left; obtain ⟨r, e, q⟩ := sqrSmall_spec hh a h0 h3; exact ⟨r, by rw [e], q⟩
    · rw [if_neg h3]; right; refine ⟨rfl, ?_, by omega⟩; unfold Small; omega
  | true =>
    rw [if_neg (by decide)]
    by_cases h8 : a.length ≤ 8
    · rw [if_pos h8]; left
      obtain ⟨r, size, s1, s2, s3, _⟩ := binSqr_spec (by omega) (2 * a.length) a (List.length_pos_iff.1 h0) (by omega)
      rw [s1]
      exact ⟨_, rfl, s2, s3⟩
    · rw [if_neg h8]; right; refine ⟨rfl, ?_, by omega⟩; unfold Small; omega

/-- `absSub`: the absolute difference, and its sign. -/
theorem absSub_spec (hh : 0 < h) (a b : List (W h)) (hl : a.length = b.length ∨ a.length = b.length + 1) :
    (absSub a b).1.length = a.length ∧
      ((absSub a b).2 = false ∧ val b < val a ∧ val (absSub a b).1 + val b = val a ∨
       (absSub a b).2 = true ∧ val a ≤ val b ∧ val (absSub a b).1 + val a = val b) := by
  have carryZero : ∀ {P d x y : Nat} {c : Nat}, d + y = x + P * c → d < P → y ≤ x → c = 0 := by
    intro P d x y c e1 e2 e3
    rcases Nat.eq_zero_or_pos c with hc | hc
    · exact hc
    · have : P * 1 ≤ P * c := Nat.mul_le_mul_left _ hc
      omega
  have hz : (0 : W h).toNat = 0 := by simp
  unfold absSub
  dsimp only
  rcases hl with hl | hl
  · rw [show a.drop b.length = [] by rw [← hl, List.drop_length]]
    simp only
    obtain ⟨c1, c2, c3⟩ := cmpLoop_spec a b hl b.length (by omega)
    rw [List.take_length, ← hl, List.take_length] at c1 c2 c3
    rw [hl] at c1 c2 c3
    by_cases hc : cmpLoop a b b.length > 0
    · rw [if_pos hc]
      have hgt : val b < val a := by
        rcases Nat.lt_trichotomy (val a) (val b) with q | q | q
        · rw [c1 q] at hc; omega
        · rw [c2 q] at hc; omega
        · exact q
      obtain ⟨s1, s2⟩ := binSub_spec hh a b 0 hl
      have hlt := val_lt (binSub a b 0).1
      rw [s2] at hlt
      rw [hz, Nat.add_zero] at s1
      have h0 := carryZero s1 hlt (by omega)
      rw [h0, Nat.mul_zero] at s1
      exact ⟨s2, Or.inl ⟨rfl, hgt, by omega⟩⟩
    · rw [if_neg hc]
      have hle : val a ≤ val b := by
        rcases Nat.lt_or_ge (val b) (val a) with q | q
        · rw [c3 q] at hc; omega
        · exact q
      obtain ⟨s1, s2⟩ := binSub_spec hh b a 0 hl.symm
      have hlt := val_lt (binSub b a 0).1
      rw [s2] at hlt
      rw [hz, Nat.add_zero] at s1
      have h0 := carryZero s1 hlt (by omega)
      rw [h0, Nat.mul_zero] at s1
      exact ⟨by show (binSub b a 0).1.length = a.length; omega, Or.inr ⟨rfl, hle, by omega⟩⟩
  · obtain ⟨top, ht⟩ : ∃ top, a.drop b.length = [top] := List.length_eq_one_iff.1 (by rw [List.length_drop]; omega)
    have hav : val a = val (a.take b.length) + (2 ^ (h + h)) ^ b.length * top.toNat := by
      conv => lhs; rw [← List.take_append_drop b.length a]
      rw [val_append, ht, List.length_take, Nat.min_eq_left (by omega)]; simp [val]
    have htl : (a.take b.length).length = b.length := by rw [List.length_take]; omega
    rw [ht]
    simp only
    obtain ⟨c1, c2, c3⟩ := cmpLoop_spec (a.take b.length) b htl b.length (by omega)
    rw [List.take_length, show (a.take b.length).take b.length = a.take b.length by rw [List.take_take, Nat.min_self]] at c1 c2 c3
    have hbl := val_lt b
    have hal := val_lt (a.take b.length)
    rw [htl] at hal
    by_cases htop : top > 0
    · rw [if_pos htop, if_pos (by decide)]
      have hpos : 1 ≤ top.toNat := by
        have := BitVec.lt_def.1 htop
        rw [hz] at this; exact this
      obtain ⟨s1, s2⟩ := binSub_spec hh (a.take b.length) b 0 htl
      rw [hz, Nat.add_zero, htl] at s1
      rw [htl] at s2
      have hlt := val_lt (binSub (a.take b.length) b 0).1
      rw [s2] at hlt
      have hP : (2 ^ (h + h)) ^ b.length * 1 ≤ (2 ^ (h + h)) ^ b.length * top.toNat := Nat.mul_le_mul_left _ hpos
      have hbor : (binSub (a.take b.length) b 0).2.toNat ≤ 1 := by
        by_contra hn
        have : (2 ^ (h + h)) ^ b.length * 2 ≤ (2 ^ (h + h)) ^ b.length * (binSub (a.take b.length) b 0).2.toNat := Nat.mul_le_mul_left _ (by omega)
        omega
      have hsub : (top - (binSub (a.take b.length) b 0).2).toNat = top.toNat - (binSub (a.take b.length) b 0).2.toNat :=
        BitVec.toNat_sub_of_le (BitVec.le_def.2 (by omega))
      refine ⟨by rw [List.length_append, s2, List.length_singleton]; omega, Or.inl ⟨rfl, by omega, ?_⟩⟩
      rw [val_append, s2, hav]
      simp only [val, Nat.mul_zero, Nat.add_zero]
      rw [hsub, Nat.mul_sub]
      have : (2 ^ (h + h)) ^ b.length * (binSub (a.take b.length) b 0).2.toNat ≤ (2 ^ (h + h)) ^ b.length * top.toNat := Nat.mul_le_mul_left _ (by omega)
      omega
    · rw [if_neg htop]
      have htz : top.toNat = 0 := by
        rcases Nat.eq_zero_or_pos top.toNat with q | q
        · exact q
        · exact absurd (BitVec.lt_def.2 (by rw [hz]; exact q)) htop
      have ht0 : top = 0 := BitVec.eq_of_toNat_eq (by rw [htz, hz])
      rw [htz, Nat.mul_zero, Nat.add_zero] at hav
      by_cases hc : cmpLoop (a.take b.length) b b.length > 0
      · rw [if_pos hc]
        have hgt : val b < val (a.take b.length) := by
          rcases Nat.lt_trichotomy (val (a.take b.length)) (val b) with q | q | q
          · rw [c1 q] at hc; omega
          · rw [c2 q] at hc; omega
          · exact q
        obtain ⟨s1, s2⟩ := binSub_spec hh (a.take b.length) b 0 htl
        have hlt := val_lt (binSub (a.take b.length) b 0).1
        rw [s2] at hlt
        rw [hz, Nat.add_zero] at s1
        have h0 := carryZero s1 hlt (by omega)
        have h0' : (binSub (a.take b.length) b 0).2 = 0 := BitVec.eq_of_toNat_eq (by rw [h0, hz])
        rw [h0, Nat.mul_zero] at s1
        refine ⟨by rw [List.length_append, s2, List.length_singleton]; omega, Or.inl ⟨rfl, by omega, ?_⟩⟩
        rw [val_append, ht0, h0', show (0 : W h) - 0 = 0 by simp]
        simp only [val, hz, Nat.mul_zero, Nat.add_zero]
        omega
      · rw [if_neg hc]
        have hle : val (a.take b.length) ≤ val b := by
          rcases Nat.lt_or_ge (val b) (val (a.take b.length)) with q | q
          · rw [c3 q] at hc; omega
          · exact q
        obtain ⟨s1, s2⟩ := binSub_spec hh b (a.take b.length) 0 htl.symm
        have hlt := val_lt (binSub b (a.take b.length) 0).1
        rw [s2] at hlt
        rw [hz, Nat.add_zero] at s1
        have h0 := carryZero s1 hlt (by omega)
        rw [h0, Nat.mul_zero] at s1
        refine ⟨by rw [List.length_append, s2, List.length_singleton]; omega, Or.inr ⟨rfl, by omega, ?_⟩⟩
        rw [val_append, ht0]
        simp only [val, hz, Nat.mul_zero, Nat.add_zero]
        omega

theorem sumHalves_spec (hh : 0 < h) (lo hi : List (W h)) (hl : hi.length = lo.length ∨ hi.length = lo.length + 2) :
    (sumHalves lo hi).1.length = hi.length ∧
      val (sumHalves lo hi).1 + (2 ^ (h + h)) ^ hi.length * (sumHalves lo hi).2.toNat = val lo + val hi := by
  have hz : (0 : W h).toNat = 0 := by simp
  have h1 : (1 : W h).toNat = 1 := BitVec.toNat_one (by omega)
  have htl : lo.length = (hi.take lo.length).length := by rw [List.length_take]; omega
  obtain ⟨s1, s2⟩ := binAdd_spec hh lo (hi.take lo.length) 0 htl
  rw [hz, Nat.add_zero] at s1
  unfold sumHalves
  generalize hb : binAdd lo (hi.take lo.length) 0 = q at s1 s2 ⊢
  obtain ⟨s, carry⟩ := q
  dsimp only at s1 s2 ⊢
  have step : ∀ x c : W h, c.toNat ≤ 1 → (x + c).toNat + 2 ^ (h + h) * (if x + c < c then (1 : W h) else 0).toNat = x.toNat + c.toNat := by
    intro x c hc
    have hx := x.isLt
    have hcl := c.isLt
    have hs := BitVec.toNat_add x c
    by_cases hv : x.toNat + c.toNat < 2 ^ (h + h)
    · rw [Nat.mod_eq_of_lt hv] at hs
      rw [if_neg (by rw [BitVec.lt_def, hs]; omega), hz, hs]; omega
    · rw [Nat.mod_eq_sub_mod (by omega), Nat.mod_eq_of_lt (by omega)] at hs
      rw [if_pos (by rw [BitVec.lt_def, hs]; omega), h1, hs]; omega
  rcases hl with hl | hl
  · rw [show hi.drop lo.length = [] by rw [← hl, List.drop_length]]
    rw [show hi.take lo.length = hi by rw [← hl, List.take_length]] at s1
    rw [hl]
    exact ⟨s2, s1⟩
  · have hv : val hi = val (hi.take lo.length) + (2 ^ (h + h)) ^ lo.length * val (hi.drop lo.length) := by
      conv => lhs; rw [← List.take_append_drop lo.length hi]
      rw [val_append, ← htl]
    obtain ⟨x, y, ht⟩ := len2 (show (hi.drop lo.length).length = 2 by rw [List.length_drop]; omega)
    have hc1 : carry.toNat ≤ 1 := by
      by_contra hn
      have : (2 ^ (h + h)) ^ lo.length * 2 ≤ (2 ^ (h + h)) ^ lo.length * carry.toNat := Nat.mul_le_mul_left _ (by omega)
      have q1 := val_lt lo
      have q2 := val_lt (hi.take lo.length)
      rw [← htl] at q2
      omega
    have st1 := step x carry hc1
    have st2 := step y (if x + carry < carry then (1 : W h) else 0) (flag_le hh _)
    rw [ht] at hv ⊢
    dsimp only
    refine ⟨by rw [List.length_append, s2, hl]; rfl, ?_⟩
    rw [val_append, s2, hv, hl, pow_add (2 ^ (h + h)) lo.length 2, pow_two (2 ^ (h + h))]
    simp only [val, Nat.mul_zero, Nat.add_zero]
    generalize (if y + (if x + carry < carry then (1 : W h) else 0) < (if x + carry < carry then (1 : W h) else 0) then (1 : W h) else 0).toNat = k2 at *
    generalize (y + if x + carry < carry then (1 : W h) else 0).toNat = qv at *
    generalize (if x + carry < carry then (1 : W h) else 0).toNat = k1 at *
    generalize (x + carry).toNat = pv at *
    generalize (2 ^ (h + h)) ^ lo.length = P at *
    generalize 2 ^ (h + h) = B at *
    have e1 : P * (pv + B * k1) = P * (x.toNat + carry.toNat) := by rw [st1]
    have e2 : P * B * (qv + B * k2) = P * B * (y.toNat + k1) := by rw [st2]
    nlinarith

theorem merge_arith {P Q tk md cm vm vt vf cf vd c : Nat} (s1 : md + Q * cm = vm + vt) (i1 : vf + P * cf = vd + (c + cm)) :
    tk + P * md + P * Q * vf + P * Q * P * cf = tk + P * (vm + Q * vd) + P * (vt + Q * c) := by
  have k1 : P * (md + Q * cm) = P * (vm + vt) := by rw [s1]
  have k2 : P * Q * (vf + P * cf) = P * Q * (vd + (c + cm)) := by rw [i1]
  linarith

/-- The combination: `t1` is the product of the differences, added if their signs differ. -/
theorem merge_spec (hh : 0 < h) (sign : Bool) (n : Nat) (lo hi t1 : List (W h)) (M : Nat) (hlo : lo.length = 2 * n)
    (hhi : hi.length = 2 * n ∨ hi.length = 2 * n + 2) (ht : t1.length = hi.length) (hn : 2 ≤ n)
    (hM : if sign = true then val lo + val hi + val t1 = M else val lo + val hi = M + val t1)
    (hfit : val lo + (2 ^ (h + h)) ^ (2 * n) * val hi + (2 ^ (h + h)) ^ n * M < (2 ^ (h + h)) ^ (lo.length + hi.length)) :
    (merge sign n lo hi t1).length = lo.length + hi.length ∧
      val (merge sign n lo hi t1) = val lo + (2 ^ (h + h)) ^ (2 * n) * val hi + (2 ^ (h + h)) ^ n * M := by
  have hz : (0 : W h).toNat = 0 := by simp
  have hB : 4 ≤ 2 ^ (h + h) := by
    have : 2 ^ 2 ≤ 2 ^ (h + h) := Nat.pow_le_pow_right (by omega) (by omega)
    omega
  obtain ⟨u1, u2⟩ := sumHalves_spec hh lo hi (by omega)
  have vlo := val_lt lo
  have vhi := val_lt hi
  have hle : (2 ^ (h + h)) ^ lo.length ≤ (2 ^ (h + h)) ^ hi.length := Nat.pow_le_pow_right (by omega) (by omega)
  have hc1 : (sumHalves lo hi).2.toNat ≤ 1 := by
    by_contra hx
    have : (2 ^ (h + h)) ^ hi.length * 2 ≤ (2 ^ (h + h)) ^ hi.length * (sumHalves lo hi).2.toNat := Nat.mul_le_mul_left _ (by omega)
    omega
  unfold merge
  generalize sumHalves lo hi = q at u1 u2 hc1 ⊢
  obtain ⟨t2, carry⟩ := q
  dsimp only at u1 u2 hc1 ⊢
  have hmid : ∃ t c : _, (if sign = true then ((binAdd t2 t1 0).1, carry + (binAdd t2 t1 0).2) else ((binSub t2 t1 0).1, carry - (binSub t2 t1 0).2)) = (t, c) ∧
      t.length = hi.length ∧ val t + (2 ^ (h + h)) ^ hi.length * c.toNat = M ∧ c.toNat ≤ 2 := by
    have v2 := val_lt t2
    have v1 := val_lt t1
    rw [u1] at v2
    rw [ht] at v1
    cases sign with
    | true =>
      rw [if_pos rfl] at hM ⊢
      obtain ⟨s1, s2⟩ := binAdd_spec hh t2 t1 0 (by omega)
      rw [hz, Nat.add_zero, u1] at s1
      have hc : (binAdd t2 t1 0).2.toNat ≤ 1 := by
        by_contra hx
        have : (2 ^ (h + h)) ^ hi.length * 2 ≤ (2 ^ (h + h)) ^ hi.length * (binAdd t2 t1 0).2.toNat := Nat.mul_le_mul_left _ (by omega)
        omega
      have ha : (carry + (binAdd t2 t1 0).2).toNat = carry.toNat + (binAdd t2 t1 0).2.toNat := by
        rw [BitVec.toNat_add, Nat.mod_eq_of_lt (by omega)]
      refine ⟨_, _, rfl, by omega, ?_, by omega⟩
      rw [ha, Nat.mul_add]; omega
    | false =>
      rw [if_neg (by decide)] at hM ⊢
      obtain ⟨s1, s2⟩ := binSub_spec hh t2 t1 0 (by omega)
      rw [hz, Nat.add_zero, u1] at s1
      have vs := val_lt (binSub t2 t1 0).1
      rw [s2, u1] at vs
      have hc : (binSub t2 t1 0).2.toNat ≤ carry.toNat := by
        by_contra hx
        have h3 : (2 ^ (h + h)) ^ hi.length * (carry.toNat + 1) ≤ (2 ^ (h + h)) ^ hi.length * (binSub t2 t1 0).2.toNat := Nat.mul_le_mul_left _ (by omega)
        rw [Nat.mul_add] at h3
        omega
      have ha : (carry - (binSub t2 t1 0).2).toNat = carry.toNat - (binSub t2 t1 0).2.toNat :=
        BitVec.toNat_sub_of_le (BitVec.le_def.2 hc)
      refine ⟨_, _, rfl, by omega, ?_, by omega⟩
      have h3 : (2 ^ (h + h)) ^ hi.length * (binSub t2 t1 0).2.toNat ≤ (2 ^ (h + h)) ^ hi.length * carry.toNat := Nat.mul_le_mul_left _ hc
      rw [ha, Nat.mul_sub]; omega
  obtain ⟨t, c, e1, e2, e3, e4⟩ := hmid
  rw [e1]
  dsimp only
  rw [e2]
  have hr : (lo ++ hi).length = lo.length + hi.length := List.length_append
  have hmidl : (((lo ++ hi).drop n).take hi.length).length = hi.length := by rw [List.length_take, List.length_drop, hr]; omega
  obtain ⟨s1, s2⟩ := binAdd_spec hh (((lo ++ hi).drop n).take hi.length) t 0 (by rw [hmidl, e2])
  rw [hz, Nat.add_zero, hmidl] at s1
  rw [hmidl] at s2
  have hcc : (binAdd (((lo ++ hi).drop n).take hi.length) t 0).2.toNat ≤ 1 := by
    by_contra hx
    have : (2 ^ (h + h)) ^ hi.length * 2 ≤ (2 ^ (h + h)) ^ hi.length * (binAdd (((lo ++ hi).drop n).take hi.length) t 0).2.toNat := Nat.mul_le_mul_left _ (by omega)
    have q1 := val_lt t
    have q2 := val_lt (((lo ++ hi).drop n).take hi.length)
    rw [hmidl] at q2
    rw [e2] at q1
    omega
  generalize hbm : binAdd (((lo ++ hi).drop n).take hi.length) t 0 = mq at s1 s2 hcc ⊢
  obtain ⟨mid, cm⟩ := mq
  dsimp only at s1 s2 hcc ⊢
  have hca : (c + cm).toNat = c.toNat + cm.toNat := by rw [BitVec.toNat_add, Nat.mod_eq_of_lt (by omega)]
  obtain ⟨i1, i2⟩ := binInc_spec hh ((lo ++ hi).drop (n + hi.length)) (c + cm)
  rw [hca] at i1
  have hdl : ((lo ++ hi).drop (n + hi.length)).length = n := by rw [List.length_drop, hr]; omega
  rw [hdl] at i1 i2
  have htk : ((lo ++ hi).take n).length = n := by rw [List.length_take, hr]; omega
  have hsplit : val (lo ++ hi) = val ((lo ++ hi).take n) + (2 ^ (h + h)) ^ n * (val (((lo ++ hi).drop n).take hi.length) +
      (2 ^ (h + h)) ^ hi.length * val ((lo ++ hi).drop (n + hi.length))) := by
    conv => lhs; rw [← List.take_append_drop n (lo ++ hi), val_append, htk, ← List.take_append_drop hi.length ((lo ++ hi).drop n), val_append, hmidl, List.drop_drop]
  have hwhole : val (lo ++ hi) = val lo + (2 ^ (h + h)) ^ (2 * n) * val hi := by rw [val_append, hlo]
  have hlen : ((lo ++ hi).take n ++ mid ++ (binInc ((lo ++ hi).drop (n + hi.length)) (c + cm)).1).length = lo.length + hi.length := by
    rw [List.length_append, List.length_append, htk, s2, i2]; omega
  refine ⟨hlen, ?_⟩
  have hvr : val ((lo ++ hi).take n ++ mid ++ (binInc ((lo ++ hi).drop (n + hi.length)) (c + cm)).1) +
      (2 ^ (h + h)) ^ (lo.length + hi.length) * (binInc ((lo ++ hi).drop (n + hi.length)) (c + cm)).2.toNat =
      val lo + (2 ^ (h + h)) ^ (2 * n) * val hi + (2 ^ (h + h)) ^ n * M := by
    rw [← hwhole, hsplit, val_append, val_append, List.length_append, htk, s2, hlo, show 2 * n + hi.length = n + hi.length + n by omega, pow_add (2 ^ (h + h)) (n + hi.length) n,
      pow_add (2 ^ (h + h)) n hi.length, ← e3]
    exact merge_arith s1 i1
  rcases Nat.eq_zero_or_pos (binInc ((lo ++ hi).drop (n + hi.length)) (c + cm)).2.toNat with hk | hk
  · rw [hk, Nat.mul_zero, Nat.add_zero] at hvr; exact hvr
  · exfalso
    have : (2 ^ (h + h)) ^ (lo.length + hi.length) * 1 ≤ (2 ^ (h + h)) ^ (lo.length + hi.length) * (binInc ((lo ++ hi).drop (n + hi.length)) (c + cm)).2.toNat :=
      Nat.mul_le_mul_left _ hk
    omega

/-- A workspace of `room` words is enough for a size. -/
def Fits (n room : Nat) : Prop := Small n ∨ ∃ k, n ≤ 8 * 2 ^ k ∧ 32 * 2 ^ k ≤ room

theorem fits_split {n room : Nat} (hf : Fits n room) (hs : ¬Small n) (h5 : 5 ≤ n) :
    4 * (n - n / 2) ≤ room ∧ Fits (n / 2) (room - 4 * (n - n / 2)) ∧ Fits (n - n / 2) (room - 4 * (n - n / 2)) := by
  rcases hf with hf | ⟨k, h1, h2⟩
  · exact absurd hf hs
  · cases k with
    | zero =>
      unfold Small at hs
      refine ⟨by omega, Or.inl ?_, Or.inl ?_⟩ <;> unfold Small <;> omega
    | succ k =>
      rw [pow_succ] at h1 h2
      exact ⟨by omega, Or.inr ⟨k, by omega, by omega⟩, Or.inr ⟨k, by omega, by omega⟩⟩

theorem spaceLoop_spec (size : Nat) : ∀ fuel k, size ≤ 8 * 2 ^ (k + fuel) → ∃ k', spaceLoop fuel size (8 * 2 ^ k) = 8 * 2 ^ k' ∧ size ≤ 8 * 2 ^ k'
  | 0, k, hs => ⟨k, rfl, hs⟩
  | fuel + 1, k, hs => by
    rw [spaceLoop]
    by_cases hc : size > 8 * 2 ^ k
    · rw [if_pos hc, show 8 * 2 ^ k * 2 = 8 * 2 ^ (k + 1) by rw [pow_succ]; omega]
      exact spaceLoop_spec size fuel (k + 1) (by rw [show k + 1 + fuel = k + (fuel + 1) by omega]; exact hs)
    · rw [if_neg hc]; exact ⟨k, rfl, by omega⟩

theorem fits_space (n : Nat) : Fits n (spaceSize n) := by
  have : n < 2 ^ n := Nat.lt_two_pow_self
  obtain ⟨k, e1, e2⟩ := spaceLoop_spec n n 0 (by rw [Nat.zero_add]; omega)
  refine Or.inr ⟨k, e2, ?_⟩
  unfold spaceSize
  rw [pow_zero, Nat.mul_one] at e1
  rw [e1]; omega

theorem fits_conquer (n : Nat) (hn : 0 < n) : Fits n (conquerRoom n) := by
  unfold conquerRoom
  by_cases hc : n ≤ 8 ∧ n % 2 = 0
  · rw [if_pos hc]; left; unfold Small; omega
  · rw [if_neg hc]; exact fits_space n

theorem val_split (a : List (W h)) (n : Nat) (hn : n ≤ a.length) : val a = val (a.take n) + (2 ^ (h + h)) ^ n * val (a.drop n) := by
  conv => lhs; rw [← List.take_append_drop n a]
  rw [val_append, List.length_take, Nat.min_eq_left hn]

/-- The three products make the product. -/
theorem split_arith {P al ah bl bh : Nat} : al * bl + P * P * (ah * bh) + P * (al * bh + ah * bl) = (al + P * ah) * (bl + P * bh) := by ring

theorem sign_arith {al ah bl bh da db : Nat} {sa sb : Bool} (ha : sa = false ∧ al < ah ∧ da + al = ah ∨ sa = true ∧ ah ≤ al ∧ da + ah = al)
    (hb : sb = false ∧ bl < bh ∧ db + bl = bh ∨ sb = true ∧ bh ≤ bl ∧ db + bh = bl) :
    if (xor sa sb) = true then al * bl + ah * bh + da * db = al * bh + ah * bl else al * bl + ah * bh = al * bh + ah * bl + da * db := by
  rcases ha with ⟨ra, _, ea⟩ | ⟨ra, _, ea⟩ <;> rcases hb with ⟨rb, _, eb⟩ | ⟨rb, _, eb⟩ <;> subst ra rb ea eb <;> simp <;> ring

theorem product_lt (a b : List (W h)) : val a * val b < (2 ^ (h + h)) ^ (a.length + b.length) := by
  rw [pow_add]
  have h1 := val_lt a
  have h2 := val_lt b
  exact Nat.mul_lt_mul_of_lt_of_le h1 (Nat.le_of_lt h2) (by omega)

theorem mulConquer_spec (hh : 2 ≤ h) (ct : Bool) : ∀ (fuel room : Nat) (a b : List (W h)), a.length = b.length → 0 < a.length →
    a.length ≤ fuel → Fits a.length room →
    ∃ r, mulConquer ct fuel room a b = some r ∧ r.length = 2 * a.length ∧ val r = val a * val b
  | 0, _, _, _, _, h0, hf, _ => by omega
  | fuel + 1, room, a, b, hab, h0, hf, hr => by
    rw [mulConquer]
    rcases mulBase_spec hh ct a b hab h0 with ⟨r, e, q⟩ | ⟨e, hs, h5⟩
    · rw [e]; exact ⟨r, rfl, q⟩
    · rw [e]
      dsimp only
      obtain ⟨f1, f2, f3⟩ := fits_split hr hs h5
      rw [if_neg (by omega)]
      have la : (a.take (a.length / 2)).length = a.length / 2 := by rw [List.length_take]; omega
      have lb : (b.take (a.length / 2)).length = a.length / 2 := by rw [List.length_take]; omega
      have lda : (a.drop (a.length / 2)).length = a.length - a.length / 2 := by rw [List.length_drop]
      have ldb : (b.drop (a.length / 2)).length = a.length - a.length / 2 := by rw [List.length_drop, hab]
      obtain ⟨x1, x2⟩ := absSub_spec (show 0 < h by omega) (a.drop (a.length / 2)) (a.take (a.length / 2)) (by omega)
      obtain ⟨y1, y2⟩ := absSub_spec (show 0 < h by omega) (b.drop (a.length / 2)) (b.take (a.length / 2)) (by omega)
      obtain ⟨lo, l1, l2, l3⟩ := mulConquer_spec hh ct fuel (room - 4 * (a.length - a.length / 2)) (a.take (a.length / 2)) (b.take (a.length / 2))
        (by omega) (by omega) (by omega) (by rw [la]; exact f2)
      obtain ⟨hi, g1, g2, g3⟩ := mulConquer_spec hh ct fuel (room - 4 * (a.length - a.length / 2)) (a.drop (a.length / 2)) (b.drop (a.length / 2))
        (by omega) (by omega) (by omega) (by rw [lda]; exact f3)
      obtain ⟨t, t1, t2, t3⟩ := mulConquer_spec hh ct fuel (room - 4 * (a.length - a.length / 2)) (absSub (a.drop (a.length / 2)) (a.take (a.length / 2))).1
        (absSub (b.drop (a.length / 2)) (b.take (a.length / 2))).1 (by omega) (by omega) (by omega) (by rw [x1, lda]; exact f3)
      rw [l1, g1, t1]
      dsimp only
      have hva := val_split a (a.length / 2) (by omega)
      have hvb := val_split b (a.length / 2) (by omega)
      have hp := product_lt a b
      have hM := sign_arith x2 y2
      rw [← l3, ← g3, ← t3] at hM
      have hsum : val lo + (2 ^ (h + h)) ^ (2 * (a.length / 2)) * val hi + (2 ^ (h + h)) ^ (a.length / 2) *
          (val (a.take (a.length / 2)) * val (b.drop (a.length / 2)) + val (a.drop (a.length / 2)) * val (b.take (a.length / 2))) = val a * val b := by
        rw [l3, g3, Nat.two_mul, pow_add, hva, hvb]; exact split_arith
      obtain ⟨m1, m2⟩ := merge_spec (show 0 < h by omega) _ (a.length / 2) lo hi t _ (by omega) (by omega) (by omega) (by omega) hM
        (by rw [hsum, show lo.length + hi.length = a.length + b.length by omega]; exact hp)
      exact ⟨_, rfl, by rw [m1]; omega, by rw [m2, hsum]⟩

theorem sqrConquer_spec (hh : 2 ≤ h) (ct : Bool) : ∀ (fuel room : Nat) (a : List (W h)), 0 < a.length →
    a.length ≤ fuel → Fits a.length room →
    ∃ r, sqrConquer ct fuel room a = some r ∧ r.length = 2 * a.length ∧ val r = val a * val a
  | 0, _, _, h0, hf, _ => by omega
  | fuel + 1, room, a, h0, hf, hr => by
    rw [sqrConquer]
    rcases sqrBase_spec hh ct a h0 with ⟨r, e, q⟩ | ⟨e, hs, h5⟩
    · rw [e]; exact ⟨r, rfl, q⟩
    · rw [e]
      dsimp only
      obtain ⟨f1, f2, f3⟩ := fits_split hr hs h5
      rw [show (a.length + 1) / 2 = a.length - a.length / 2 by omega]
      rw [if_neg (by omega)]
      have la : (a.take (a.length / 2)).length = a.length / 2 := by rw [List.length_take]; omega
      have lda : (a.drop (a.length / 2)).length = a.length - a.length / 2 := by rw [List.length_drop]
      obtain ⟨x1, x2⟩ := absSub_spec (show 0 < h by omega) (a.drop (a.length / 2)) (a.take (a.length / 2)) (by omega)
      obtain ⟨lo, l1, l2, l3⟩ := sqrConquer_spec hh ct fuel (room - 4 * (a.length - a.length / 2)) (a.take (a.length / 2))
        (by omega) (by omega) (by rw [la]; exact f2)
      obtain ⟨hi, g1, g2, g3⟩ := sqrConquer_spec hh ct fuel (room - 4 * (a.length - a.length / 2)) (a.drop (a.length / 2))
        (by omega) (by omega) (by rw [lda]; exact f3)
      obtain ⟨t, t1, t2, t3⟩ := sqrConquer_spec hh ct fuel (room - 4 * (a.length - a.length / 2)) (absSub (a.drop (a.length / 2)) (a.take (a.length / 2))).1
        (by omega) (by omega) (by rw [x1, lda]; exact f3)
      rw [l1, g1, t1]
      dsimp only
      have hva := val_split a (a.length / 2) (by omega)
      have hp := product_lt a a
      have hM := sign_arith x2 x2
      rw [← l3, ← g3, ← t3, Bool.xor_self] at hM
      have hsum : val lo + (2 ^ (h + h)) ^ (2 * (a.length / 2)) * val hi + (2 ^ (h + h)) ^ (a.length / 2) *
          (val (a.take (a.length / 2)) * val (a.drop (a.length / 2)) + val (a.drop (a.length / 2)) * val (a.take (a.length / 2))) = val a * val a := by
        rw [l3, g3, Nat.two_mul, pow_add, hva]; exact split_arith
      obtain ⟨m1, m2⟩ := merge_spec (show 0 < h by omega) _ (a.length / 2) lo hi t _ (by omega) (by omega) (by omega) (by omega) hM
        (by rw [hsum, show lo.length + hi.length = a.length + a.length by omega]; exact hp)
      exact ⟨_, rfl, by rw [m1]; omega, by rw [m2, hsum]⟩

theorem bnMulComba_spec (hh : 2 ≤ h) (room : Nat) (a b : Bn h) (ha : a.WF) (hb : b.WF) :
    ∃ r, bnMulComba room a b = some r ∧ r.toInt = a.toInt * b.toInt ∧ r.WF := by
  have hold := bnMul_spec (show 0 < h by omega) room a b ha hb
  unfold bnMulComba
  by_cases h0 : a.data.length = 0 ∨ b.data.length = 0
  · rw [if_pos h0]
    unfold bnMul at hold
    rw [if_pos h0] at hold
    exact ⟨_, rfl, hold⟩
  · rw [if_neg h0]
    by_cases he : a.data.length = b.data.length
    · rw [if_pos he]
      obtain ⟨sa, da⟩ := a
      obtain ⟨sb, db⟩ := b
      have hna := ha.1
      have hnb := hb.1
      simp only at *
      have hda : da ≠ [] := fun hx => h0 (Or.inl (by rw [hx]; rfl))
      have hdb : db ≠ [] := fun hx => h0 (Or.inr (by rw [hx]; rfl))
      obtain ⟨r, e1, e2, e3⟩ := mulConquer_spec hh false da.length (conquerRoom da.length) da db he (by omega) (Nat.le_refl _)
        (fits_conquer _ (by omega))
      rw [e1]
      obtain ⟨t1, t2⟩ := trim_spec r
      have hv : val (trim r) = val da * val db := by rw [t1, e3]
      refine ⟨_, rfl, neg_xor hv, wf_of_val t2 fun _ => ?_⟩
      rw [hv]
      exact Nat.mul_pos (val_pos_of_norm (by omega) hna hda) (val_pos_of_norm (by omega) hnb hdb)
    · rw [if_neg he]; exact ⟨_, rfl, hold⟩

theorem bnSqrComba_spec (hh : 2 ≤ h) (a : Bn h) (ha : a.WF) :
    ∃ r, bnSqrComba a = some r ∧ r.toInt = a.toInt * a.toInt ∧ r.WF := by
  obtain ⟨sa, da⟩ := a
  unfold bnSqrComba
  simp only at *
  by_cases h0 : da.length = 0
  · rw [if_pos h0]
    refine ⟨_, rfl, ?_, wf_zero⟩
    rw [toInt_zero, List.length_eq_zero_iff.1 h0]; simp [Bn.toInt, val]
  · rw [if_neg h0]
    obtain ⟨r, e1, e2, e3⟩ := sqrConquer_spec hh false da.length (conquerRoom da.length) da (by omega) (Nat.le_refl _)
      (fits_conquer _ (by omega))
    rw [e1]
    obtain ⟨t1, t2⟩ := trim_spec r
    refine ⟨_, rfl, ?_, wf_pos t2⟩
    rw [toInt_pos, t1, e3]
    cases sa <;> simp [Bn.toInt]

end Verif.Crypto.Bn
