import Verif.Crypto.Ecc.Group

/-! The routines act on points as the group operations. -/
namespace Verif.Crypto.Ecc
open Spec

variable {α F : Type} [Field F]

/-- The meaning of a call in the field. -/
def stepF (s : Reg → F) : Instr → (Reg → F)
  | .mul d a b => upd s d (s a * s b)
  | .sqr d a => upd s d (s a * s a)
  | .add d a b => upd s d (s a + s b)
  | .sub d a b => upd s d (s a - s b)
  | .cpy d a => upd s d (s a)

def runF : List Instr → (Reg → F) → (Reg → F)
  | [], s => s
  | i :: is, s => runF is (stepF s i)

theorem runF_append (p q : List Instr) (s : Reg → F) : runF (p ++ q) s = runF q (runF p s) := by
  induction p generalizing s with
  | nil => rfl
  | cons i p ih => exact ih _

variable {S : Fld α} (I : Impl S F)

theorem upd_ok {s : Reg → α} (hs : ∀ r, I.ok (s r)) {d : Reg} {v : α} (hv : I.ok v) : ∀ r, I.ok (upd s d v r) := by
  intro r
  unfold upd
  split
  · exact hv
  · exact hs r

theorem upd_rep (s : Reg → α) (d : Reg) (v : α) : (fun r => I.rep (upd s d v r)) = upd (fun r => I.rep (s r)) d (I.rep v) := by
  funext r
  unfold upd
  split <;> rfl

theorem step_ok (i : Instr) {s : Reg → α} (hs : ∀ r, I.ok (s r)) :
    ∃ s', step S s i = some s' ∧ (∀ r, I.ok (s' r)) ∧ (fun r => I.rep (s' r)) = stepF (fun r => I.rep (s r)) i := by
  cases i with
  | mul d a b =>
    obtain ⟨c, e, hc, hr⟩ := I.mul (hs a) (hs b)
    exact ⟨upd s d c, by simp only [step, e], upd_ok I hs hc, by rw [upd_rep, hr]; rfl⟩
  | sqr d a =>
    obtain ⟨c, e, hc, hr⟩ := I.sqr (hs a)
    exact ⟨upd s d c, by simp only [step, e], upd_ok I hs hc, by rw [upd_rep, hr]; rfl⟩
  | add d a b =>
    obtain ⟨c, e, hc, hr⟩ := I.add (hs a) (hs b)
    exact ⟨upd s d c, by simp only [step, e], upd_ok I hs hc, by rw [upd_rep, hr]; rfl⟩
  | sub d a b =>
    obtain ⟨c, e, hc, hr⟩ := I.sub (hs a) (hs b)
    exact ⟨upd s d c, by simp only [step, e], upd_ok I hs hc, by rw [upd_rep, hr]; rfl⟩
  | cpy d a => exact ⟨_, rfl, upd_ok I hs (hs a), by rw [upd_rep]; rfl⟩

theorem run_ok (p : List Instr) {s : Reg → α} (hs : ∀ r, I.ok (s r)) :
    ∃ s', run S p s = some s' ∧ (∀ r, I.ok (s' r)) ∧ (fun r => I.rep (s' r)) = runF p (fun r => I.rep (s r)) := by
  induction p generalizing s with
  | nil => exact ⟨s, rfl, hs, rfl⟩
  | cons i p ih =>
    obtain ⟨s1, e1, h1, r1⟩ := step_ok I i hs
    obtain ⟨s2, e2, h2, r2⟩ := ih h1
    exact ⟨s2, by simp only [run, e1, e2], h2, by rw [r2, r1]; rfl⟩

/-- The three coordinates are valid numbers. -/
def OkPt (p : Pt α) : Prop := I.ok p.x ∧ I.ok p.y ∧ I.ok p.z

theorem regs_ok {r a b : Pt α} (hr : OkPt I r) (ha : OkPt I a) (hb : OkPt I b) : ∀ i, I.ok (regs S r a b i) := by
  intro i
  cases i <;> first
    | exact hr.1 | exact hr.2.1 | exact hr.2.2 | exact ha.1 | exact ha.2.1 | exact ha.2.2
    | exact hb.1 | exact hb.2.1 | exact hb.2.2 | exact I.half.1 | exact I.zero.1

theorem blank_ok : OkPt I ⟨S.zero, S.zero, S.zero⟩ := ⟨I.zero.1, I.zero.1, I.zero.1⟩

include I in
theorem two_ne : (2 : F) ≠ 0 := by
  intro h
  have := I.half.2
  rw [h, zero_mul] at this
  exact zero_ne_one this

variable [DecidableEq F] {b : F}

theorem Rep.ok {p : Pt α} {P : (Curve b).Point} (h : Represents I p P) : OkPt I p := ⟨h.1, h.2.1, h.2.2.1⟩

theorem rep_result {s : Reg → α} {f : Reg → F} {P : (Curve b).Point} (hs : ∀ r, I.ok (s r))
    (e : (fun r => I.rep (s r)) = f) (h : Jacobian (f .rx) (f .ry) (f .rz) P) : Represents I (result s) P := by
  refine ⟨hs _, hs _, hs _, ?_⟩
  rw [← e] at h
  exact h

theorem pointDouble_spec (al : Bool) {r a : Pt α} {P : (Curve b).Point} (hr : OkPt I r) (ha : Represents I a P) :
    ∃ q, pointDouble S al r a = some q ∧ Represents I q (P + P) := by
  have hr' : OkPt I (if al = true then a else r) := by split; exact Rep.ok I ha; exact hr
  obtain ⟨s, e, hs, hrep⟩ := run_ok I (aliased al doubleProg) (regs_ok I hr' (Rep.ok I ha) (Rep.ok I ha))
  refine ⟨result s, by unfold pointDouble; rw [e], rep_result I hs hrep ?_⟩
  have hh : 2 * I.rep S.half = 1 := I.half.2
  have key := jac_double (two_ne I) ha.2.2.2
  cases al
  · convert key using 1
    · simp [aliased, doubleProg, runF, stepF, upd, regs]; ring
    · simp [aliased, doubleProg, runF, stepF, upd, regs]
      linear_combination (-8 * I.rep a.y ^ 4) * hh
    · simp only [aliased, doubleProg, runF, stepF, upd, regs, reduceCtorEq, if_false, if_true, Bool.false_eq_true]; ring
  · convert key using 1
    · simp [aliased, doubleProg, sameI, same, runF, stepF, upd, regs]; ring
    · simp [aliased, doubleProg, sameI, same, runF, stepF, upd, regs]
      linear_combination (-8 * I.rep a.y ^ 4) * hh
    · simp only [aliased, doubleProg, sameI, same, runF, stepF, upd, regs, reduceCtorEq, if_false, if_true, List.map]; ring

/-- The state of the repeated doubling: the second coordinate is doubled, and `t4` is the fourth power of the third one. -/
def MultInv (hf : F) (s : Reg → F) (P : (Curve b).Point) : Prop :=
  Jacobian (s .rx) (s .ry * hf) (s .rz) P ∧ s .half = hf

theorem multRound_spec (hf : F) (hh : 2 * hf = 1) (al : Bool) (n : Nat) {s : Reg → F} {P : (Curve b).Point}
    (h : MultInv hf s P) (ht : s .t4 = s .rz ^ 4) :
    MultInv hf (runF (aliased al (multRound n)) s) (P + P) ∧
      (0 < n → runF (aliased al (multRound n)) s .t4 = runF (aliased al (multRound n)) s .rz ^ 4) := by
  have h2 : (2 : F) ≠ 0 := by
    intro h; rw [h, zero_mul] at hh; exact zero_ne_one hh
  have hf2 : hf = 2⁻¹ := by field_simp; linear_combination hh
  have key := jac_double h2 h.1
  rcases Nat.eq_zero_or_pos n with hn | hn
  · subst hn
    refine ⟨⟨?_, ?_⟩, fun h => absurd h (by omega)⟩
    · cases al <;> convert key using 1 <;>
        (simp [aliased, multRound, multBody, multTail, multTw, sameI, same, runF, stepF, upd, ht, hf2]; try field_simp; try ring)
    · rw [← h.2]; cases al <;> rfl
  · refine ⟨⟨?_, ?_⟩, fun _ => ?_⟩
    · cases al <;> convert key using 1 <;>
        (simp [aliased, multRound, multBody, multTail, multTw, sameI, same, runF, stepF, upd, ht, hf2, hn]; try field_simp; try ring)
    · rw [← h.2]; cases al <;> simp [aliased, multRound, multBody, multTail, multTw, sameI, same, runF, stepF, upd, hn]
    · cases al <;>
        (simp [aliased, multRound, multBody, multTail, multTw, sameI, same, runF, stepF, upd, ht, hn]; ring)

theorem aliased_append (al : Bool) (p q : List Instr) : aliased al (p ++ q) = aliased al p ++ aliased al q := by
  cases al <;> simp [aliased]

theorem multLoop_spec (hf : F) (hh : 2 * hf = 1) (al : Bool) (n : Nat) {s : Reg → F} {P : (Curve b).Point}
    (h : MultInv hf s P) (ht : 0 < n → s .t4 = s .rz ^ 4) :
    MultInv hf (runF (aliased al (multLoop n)) s) (2 ^ n • P) := by
  induction n generalizing s P with
  | zero =>
    have : runF (aliased al (multLoop 0)) s = s := by cases al <;> rfl
    rw [this, pow_zero, one_smul]
    exact h
  | succ n ih =>
    obtain ⟨h1, h2⟩ := multRound_spec hf hh al n h (ht (by omega))
    have e : aliased al (multLoop (n + 1)) = aliased al (multRound n) ++ aliased al (multLoop n) := aliased_append al _ _
    rw [e, runF_append, pow_succ, mul_smul, two_smul]
    exact ih h1 h2

theorem pointMultDouble_spec (al : Bool) {r a : Pt α} {P : (Curve b).Point} (m : Nat) (hr : OkPt I r)
    (ha : Represents I a P) : ∃ q, pointMultDouble S al r a m = some q ∧ Represents I q (2 ^ m • P) := by
  have hr' : OkPt I (if al = true then a else r) := by split; exact Rep.ok I ha; exact hr
  obtain ⟨s, e, hs, hrep⟩ := run_ok I (aliased al (multInit ++ multLoop m ++ multEnd)) (regs_ok I hr' (Rep.ok I ha) (Rep.ok I ha))
  refine ⟨result s, by unfold pointMultDouble; rw [e], rep_result I hs hrep ?_⟩
  have hh : 2 * I.rep S.half = 1 := I.half.2
  rw [aliased_append, aliased_append, runF_append, runF_append]
  have h0 : MultInv (I.rep S.half) (runF (aliased al multInit) (fun i => I.rep (regs S (if al = true then a else r) a a i))) P := by
    refine ⟨?_, by cases al <;> rfl⟩
    convert ha.2.2.2 using 1
    · cases al <;> rfl
    · cases al <;> simp [aliased, multInit, sameI, same, runF, stepF, upd, regs] <;> linear_combination I.rep a.y * hh
    · cases al <;> rfl
  have := multLoop_spec (I.rep S.half) hh al m h0 (fun _ => by cases al <;> simp [aliased, multInit, sameI, same, runF, stepF, upd, regs] <;> ring)
  revert this
  generalize (runF (aliased al (multLoop m)) _ : Reg → F) = f
  intro this
  obtain ⟨h1, h2⟩ := this
  rw [← h2] at h1
  cases al <;> exact h1

theorem not_zero {p : Pt α} {P : (Curve b).Point} (h : Represents I p P) : S.isZero p.z = true ↔ P = 0 := by
  rw [I.isZero h.2.2.1]
  rcases P with _ | ⟨x, y, hp⟩
  · exact ⟨fun _ => rfl, fun _ => h.2.2.2⟩
  · exact ⟨fun e => absurd e h.2.2.2.1, fun e => by cases e⟩

theorem z_ne {p : Pt α} {P : (Curve b).Point} (h : Represents I p P) (hz : ¬ S.isZero p.z = true) : I.rep p.z ≠ 0 :=
  fun e => hz ((I.isZero h.2.2.1).mpr e)

theorem pointAddAffine_spec {r a c : Pt α} {P Q : (Curve b).Point} (hr : OkPt I r) (ha : Represents I a P)
    (hc : Represents I c Q) (h1 : I.rep c.z = 1) :
    ∃ q, pointAddAffine S r a c = some q ∧ Represents I q (P + Q) := by
  unfold pointAddAffine
  by_cases hz : S.isZero a.z = true
  · rw [if_pos hz, (not_zero I ha).mp hz, zero_add]
    exact ⟨c, rfl, hc⟩
  rw [if_neg hz]
  obtain ⟨s, e, hs, hrep⟩ := run_ok I affineProg1 (regs_ok I hr (Rep.ok I ha) (Rep.ok I hc))
  rw [e]
  dsimp only
  have hza := z_ne I ha hz
  have hzc : I.rep c.z ≠ 0 := by rw [h1]; exact one_ne_zero
  have et1 : I.rep (s .t1) = I.rep c.x * I.rep a.z ^ 2 - I.rep a.x * I.rep c.z ^ 2 := by
    rw [show I.rep (s .t1) = _ from congrFun hrep .t1, h1]
    simp [affineProg1, runF, stepF, upd, regs]; ring
  have et2 : I.rep (s .t2) = I.rep c.y * I.rep a.z ^ 3 - I.rep a.y * I.rep c.z ^ 3 := by
    rw [show I.rep (s .t2) = _ from congrFun hrep .t2, h1]
    simp [affineProg1, runF, stepF, upd, regs]; ring
  by_cases ht1 : S.isZero (s .t1) = true
  · rw [if_pos ht1]
    rw [I.isZero (hs _)] at ht1
    by_cases ht2 : S.isZero (s .t2) = true
    · rw [if_pos ht2]
      rw [I.isZero (hs _)] at ht2
      have : P = Q := jac_same ha.2.2.2 hc.2.2.2 hza hzc (et1 ▸ ht1) (et2 ▸ ht2)
      rw [this]
      exact pointDouble_spec I false ⟨hs _, hs _, hs _⟩ hc
    · rw [if_neg ht2]
      rw [I.isZero (hs _)] at ht2
      refine ⟨_, rfl, hr.1, hr.2.1, I.zero.1, ?_⟩
      have := jac_add ha.2.2.2 hc.2.2.2 hza hzc et1 et2 (fun h => ht2 h.2) rfl
      rw [ht1] at this
      rcases hPQ : P + Q with _ | ⟨x, y, h⟩
      · exact I.zero.2
      · rw [hPQ] at this
        exact absurd (mul_zero _) this.1
  · rw [if_neg ht1]
    rw [I.isZero (hs _)] at ht1
    obtain ⟨s', e', hs', hrep'⟩ := run_ok I affineProg2 hs
    rw [e']
    refine ⟨result s', rfl, rep_result I hs' hrep' ?_⟩
    have key := jac_add ha.2.2.2 hc.2.2.2 hza hzc et1 et2 (fun h => ht1 h.1) rfl
    have ex : I.rep (s .ax) = I.rep a.x := (congrFun hrep .ax).trans rfl
    have ey : I.rep (s .ay) = I.rep a.y := (congrFun hrep .ay).trans rfl
    have ez : I.rep (s .az) = I.rep a.z := (congrFun hrep .az).trans rfl
    convert key using 1
    · simp [affineProg2, runF, stepF, upd, ex, ey, ez, h1]; ring
    · simp [affineProg2, runF, stepF, upd, ex, ey, ez, h1]; ring
    · simp [affineProg2, runF, stepF, upd, ex, ey, ez, h1]

theorem pointAdd_spec (al : Bool) {r a c : Pt α} {P Q : (Curve b).Point} (hr : OkPt I r) (ha : Represents I a P)
    (hc : Represents I c Q) : ∃ q, pointAdd S al r a c = some q ∧ Represents I q (P + Q) := by
  unfold pointAdd
  by_cases hz : S.isZero a.z = true
  · rw [if_pos hz, (not_zero I ha).mp hz, zero_add]
    exact ⟨c, rfl, hc⟩
  rw [if_neg hz]
  by_cases hz' : S.isZero c.z = true
  · rw [if_pos hz', (not_zero I hc).mp hz', add_zero]
    exact ⟨a, rfl, ha⟩
  rw [if_neg hz']
  have hr' : OkPt I (if al = true then a else r) := by split; exact Rep.ok I ha; exact hr
  obtain ⟨s, e, hs, hrep⟩ := run_ok I (aliased al addProg1) (regs_ok I hr' (Rep.ok I ha) (Rep.ok I hc))
  rw [e]
  dsimp only
  have hza := z_ne I ha hz
  have hzc := z_ne I hc hz'
  have et1 : I.rep (s .t1) = I.rep c.x * I.rep a.z ^ 2 - I.rep a.x * I.rep c.z ^ 2 := by
    rw [show I.rep (s .t1) = _ from congrFun hrep .t1]
    cases al <;> (simp [aliased, sameI, same, addProg1, runF, stepF, upd, regs]; ring)
  have et2 : I.rep (s .t2) = I.rep c.y * I.rep a.z ^ 3 - I.rep a.y * I.rep c.z ^ 3 := by
    rw [show I.rep (s .t2) = _ from congrFun hrep .t2]
    cases al <;> (simp [aliased, sameI, same, addProg1, runF, stepF, upd, regs]; ring)
  have et5 : I.rep (s .t5) = I.rep a.x * I.rep c.z ^ 2 := by
    rw [show I.rep (s .t5) = _ from congrFun hrep .t5]
    cases al <;> (simp [aliased, sameI, same, addProg1, runF, stepF, upd, regs]; ring)
  have et6 : I.rep (s .t6) = I.rep a.y * I.rep c.z ^ 3 := by
    rw [show I.rep (s .t6) = _ from congrFun hrep .t6]
    cases al <;> (simp [aliased, sameI, same, addProg1, runF, stepF, upd, regs]; ring)
  have ez : I.rep (s .rz) = I.rep a.z * I.rep c.z := by
    rw [show I.rep (s .rz) = _ from congrFun hrep .rz]
    cases al <;> simp [aliased, sameI, same, addProg1, runF, stepF, upd, regs]
  by_cases ht : S.isZero (s .t1) = true ∧ S.isZero (s .t2) = true
  · rw [if_pos ht]
    rw [I.isZero (hs _), I.isZero (hs _)] at ht
    have : P = Q := jac_same ha.2.2.2 hc.2.2.2 hza hzc (et1 ▸ ht.1) (et2 ▸ ht.2)
    rw [this]
    exact pointDouble_spec I false ⟨hs _, hs _, hs _⟩ hc
  · rw [if_neg ht]
    rw [I.isZero (hs _), I.isZero (hs _)] at ht
    obtain ⟨s', e', hs', hrep'⟩ := run_ok I (aliased al addProg2) hs
    rw [e']
    refine ⟨result s', rfl, rep_result I hs' hrep' ?_⟩
    have key := jac_add ha.2.2.2 hc.2.2.2 hza hzc et1 et2 ht rfl
    convert key using 1
    · cases al <;> (simp [aliased, sameI, same, addProg2, runF, stepF, upd, et5, et6, ez]; ring)
    · cases al <;> (simp [aliased, sameI, same, addProg2, runF, stepF, upd, et5, et6, ez]; ring)
    · cases al <;> (simp [aliased, sameI, same, addProg2, runF, stepF, upd, et5, et6, ez]; ring)

end Verif.Crypto.Ecc
