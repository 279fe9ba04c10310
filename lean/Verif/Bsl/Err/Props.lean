import Verif.Bsl.Err.Proof
/-! C17: the error stack of each thread holds its last 20 errors, for every interleaving of calls. -/
namespace Verif.Bsl.Err
open Verif.Bsl
variable {F : Type}

/-! ### Specification -/

/-- Position plus one of the last marked entry, 0 when there is none. -/
def Spec.lastMark : List (Slot F) → Nat
  | [] => 0
  | e :: l => if Spec.lastMark l > 0 then Spec.lastMark l + 1 else if e.mark then 1 else 0

def Spec.unmark (l : List (Slot F)) (pos : Nat) : List (Slot F) := l.modify pos (fun e => { e with mark := false })

/-- The stack of every thread that has one, oldest error first, and the number of these threads. -/
structure Spec.State (F : Type) where
  stacks : Nat → Option (List (Slot F))
  n : Nat

def Spec.State.set (s : Spec.State F) (tid : Nat) (l : Option (List (Slot F))) (n : Nat) : Spec.State F :=
  ⟨fun t => if t = tid then l else s.stacks t, n⟩

/-- What is reported of an entry: no file is reported as "NA" (`none`) with line 0. -/
def Spec.report : Option (Slot F) → Out F
  | none => .info 0 none 0
  | some ⟨code, _, none, _⟩ => .info code none 0
  | some ⟨code, _, some f, line⟩ => .info code (some f) line

/-- One call by thread `tid`. `lack` is set when no stack can be made for a new thread. `none` means that the call does not
return. -/
def Spec.step (lack : Bool) (s : Spec.State F) (tid : Nat) : Op F → Option (Spec.State F × Out F)
  | .push err file line _ =>
    if err = 0 then some (s, .done)
    else match s.stacks tid with
      | some l => some (s.set tid (some ((if l.length = 20 then l.drop 1 else l) ++ [⟨err, false, file, line⟩])) s.n, .done)
      | none => if lack then some (s, .done) else some (s.set tid (some [⟨err, false, file, line⟩]) (s.n + 1), .done)
  | .clear => match s.stacks tid with
    | some _ => some (s.set tid (some []) s.n, .done)
    | none => some (s, .done)
  | .remove true => some (⟨fun _ => none, 0⟩, .done)
  | .remove false => match s.stacks tid with
    | some _ => some (s.set tid none (s.n - 1), .done)
    | none => some (s, .done)
  | .get clr last => match s.stacks tid with
    | some l => some (s.set tid (some (if clr then (if last then l.dropLast else l.drop 1) else l)) s.n,
        Spec.report (if last then l.getLast? else l.head?))
    | none => some (s, .info 0 none 0)
  | .setMark => match s.stacks tid with
    | some l => some (s.set tid (some (l.modify (l.length - 1) (fun e => { e with mark := true }))) s.n,
        if l = [] then .noError else .done)
    | none => some (s, .noStack)
  | .popToMark => match s.stacks tid with
    | some l => some (s.set tid (some (Spec.unmark (l.take (Spec.lastMark l)) (Spec.lastMark l - 1))) s.n,
        if Spec.lastMark l = 0 then .noMark else .done)
    | none => some (s, .noStack)
  | .clearLastMark => match s.stacks tid with
    | some l =>
      if l.length = 20 ∧ Spec.lastMark l = 0 then none
      else some (s.set tid (some (if Spec.lastMark l = 0 then l else Spec.unmark l (Spec.lastMark l - 1))) s.n, .done)
    | none => some (s, .noStack)
  | .output => match s.stacks tid with
    | some l => some (s, .items (l.map outItem))
    | none => some (s, .items [])

/-! ### Proof -/

theorem lastMark_cons (e : Slot F) (l : List (Slot F)) (n : Nat) :
    lastMark (e :: l) (n + 1) = if lastMark l n > 0 then lastMark l n + 1 else if e.mark then 1 else 0 := by
  induction n with
  | zero => simp [lastMark, at_]
  | succ n ih =>
    rw [lastMark, ih]
    have h1 : at_ (e :: l) (n + 1) = at_ l n := by simp [at_]
    rw [h1, lastMark]
    cases (at_ l n).mark <;> simp

theorem lastMark_eq (l : List (Slot F)) : lastMark l l.length = Spec.lastMark l := by
  induction l with
  | nil => rfl
  | cons e l ih => rw [List.length_cons, lastMark_cons, Spec.lastMark, ih]

theorem report_eq (o : Option (Slot F)) : Spec.report o = .info (infoOf o).1 (infoOf o).2.1 (infoOf o).2.2 := by
  rcases o with _ | ⟨code, _, _ | f, line⟩ <;> rfl

inductive RelOpt : Option (Stack F) → Option (List (Slot F)) → Prop
  | none : RelOpt none none
  | some {st l} (h : Abs st l) : RelOpt (some st) (some l)

structure Rel (g : St F) (s : Spec.State F) : Prop where
  ex : ∃ m : Avl.Spec.Map (Stack F), Avl.Rel g.root m ∧ g.count = m.size ∧ s.n = m.size ∧ m.size ≤ 65535 ∧
    ∀ tid, RelOpt (m.get tid) (s.stacks tid)

theorem setData_rel {α : Type} {t : Avl.Tree α} {m : Avl.Spec.Map α} (hr : Avl.Rel t m) (hm : m.size + 1 < 2 ^ 32) (id : Nat)
    (v x : α) (hg : m.get id = some v) : Avl.Rel (Avl.setData t id x) (Avl.Spec.set m id (some x) m.size) := by
  have hs : Avl.Spec.step m (.put id x) = some (Avl.Spec.set m id (some x) m.size, none) := by
    rw [Avl.Spec.step, hg]; rfl
  obtain ⟨t', h1, h2⟩ := Avl.step_rel hr hm _ hs
  have hp : Avl.put t id x = some (Avl.setData t id x) := by
    unfold Avl.put; rw [Avl.search_eq t id hr.srt, ← hr.get, hg]
  rw [Avl.step, hp] at h1
  simp only [Option.map_some, Option.some.injEq, Prod.mk.injEq, and_true] at h1
  rw [h1]; exact h2

/-- Storing a new stack for a thread that has one. -/
theorem upd_rel {g : St F} {s : Spec.State F} (m : Avl.Spec.Map (Stack F)) (hr : Avl.Rel g.root m) (hc : g.count = m.size)
    (hn : s.n = m.size) (hm : m.size ≤ 65535) (hx : ∀ tid, RelOpt (m.get tid) (s.stacks tid)) (tid : Nat) (st st' : Stack F)
    (l' : List (Slot F)) (hg : m.get tid = some st) (ha : Abs st' l') :
    Rel ⟨Avl.setData g.root tid st', g.count⟩ (s.set tid (some l') s.n) := by
  refine ⟨_, setData_rel hr (by omega) tid st st' hg, hc, hn, hm, ?_⟩
  intro u
  simp only [Avl.Spec.set, Spec.State.set]
  by_cases hu : u = tid
  · rw [if_pos hu, if_pos hu]; exact .some ha
  · rw [if_neg hu, if_neg hu]; exact hx u

/-- One call: the model does what the specification says, in at most 21 loop iterations, or both do not return. A stack is
refused to a new thread only if an allocation failed or 65535 threads have one. -/
theorem step_refines {g : St F} {s : Spec.State F} (hr : Rel g s) (tid : Nat) (op : Op F) :
    ∃ lack, (lack = true → s.n ≥ 65535 ∨ ∃ e f l, op = .push e f l false) ∧
      match Spec.step lack s tid op with
      | some (s', o) => (∀ fuel, 20 < fuel → ∃ g', step fuel g tid op = some (g', o, lack) ∧ Rel g' s')
      | none => ∀ fuel, step fuel g tid op = none := by
  have hR := hr
  obtain ⟨m, hr, hc, hn, hm, hx⟩ := hr
  have hse : Avl.search g.root tid = m.get tid := by rw [Avl.search_eq _ _ hr.srt, hr.get]
  have hxt := hx tid
  have hsz : m.size + 1 < 2 ^ 32 := by omega
  cases op with
  | push err file line mem =>
    by_cases he : err = 0
    · refine ⟨false, by simp, ?_⟩
      simp only [Spec.step, if_pos he]
      intro fuel _
      exact ⟨g, by simp [step, he], hR⟩
    · generalize hmg : m.get tid = mo at hxt
      generalize hsg : s.stacks tid = so at hxt
      cases hxt with
      | some ha =>
        refine ⟨false, by simp, ?_⟩
        simp only [Spec.step, if_neg he, hsg]
        intro fuel _
        refine ⟨_, ?_, upd_rel m hr hc hn hm hx tid _ _ _ hmg (push_abs ha err file line he)⟩
        simp only [step, if_neg he, hse, hmg]
      | none =>
        by_cases hlk : (g.count ≥ 0xFFFF || !mem) = true
        · refine ⟨true, ?_, ?_⟩
          · intro _
            simp only [Bool.or_eq_true, decide_eq_true_eq, Bool.not_eq_true'] at hlk
            rcases hlk with h | h
            · left; omega
            · right; exact ⟨err, file, line, by rw [h]⟩
          · simp only [Spec.step, if_neg he, hsg, if_true]
            intro fuel _
            refine ⟨g, ?_, hR⟩
            simp only [step, if_neg he, hse, hmg]
            rw [if_pos hlk]
        · refine ⟨false, by simp, ?_⟩
          simp only [Spec.step, if_neg he, hsg, Bool.false_eq_true, if_false]
          intro fuel _
          have hlt : m.size < 65535 := by
            simp only [Bool.or_eq_true, decide_eq_true_eq, not_or] at hlk; omega
          obtain ⟨t', i1, i2⟩ := Avl.insert_rel hr hsz tid (Stack.new : Stack F) hmg
          have hg2 : (Avl.Spec.set m tid (some (Stack.new : Stack F)) (m.size + 1)).get tid = some Stack.new := by
            simp [Avl.Spec.set]
          have hs2 : Avl.search t' tid = some Stack.new := by
            rw [Avl.search_eq _ _ i2.srt, ← i2.get]; exact hg2
          have hr3 := setData_rel i2 (by simp only [Avl.Spec.set]; omega) tid _ (pushOn Stack.new err file line) hg2
          have hcnt : (g.count + 1) % 2 ^ 32 = g.count + 1 := Nat.mod_eq_of_lt (by omega)
          refine ⟨⟨Avl.setData t' tid (pushOn Stack.new err file line), g.count + 1⟩, ?_, ⟨_, hr3, ?_, ?_, ?_, ?_⟩⟩
          · simp only [step, if_neg he, hse, hmg]
            rw [if_neg hlk, i1, Option.bind_eq_bind, Option.bind_some, hs2, Option.bind_eq_bind, Option.bind_some, hcnt]
          · simp only [Avl.Spec.set]; omega
          · simp only [Avl.Spec.set, Spec.State.set]; omega
          · simp only [Avl.Spec.set]; omega
          · intro u
            simp only [Avl.Spec.set, Spec.State.set]
            by_cases hu : u = tid
            · simp only [hu, if_true]
              exact .some (by simpa using push_abs abs_new err file line he)
            · simp only [hu, if_false]; exact hx u
  | clear =>
    refine ⟨false, by simp, ?_⟩
    generalize hmg : m.get tid = mo at hxt
    generalize hsg : s.stacks tid = so at hxt
    cases hxt with
    | some ha =>
      simp only [Spec.step, hsg]
      intro fuel _
      exact ⟨_, by simp only [step, hse, hmg], upd_rel m hr hc hn hm hx tid _ _ _ hmg abs_new⟩
    | none =>
      simp only [Spec.step, hsg]
      intro fuel _
      exact ⟨g, by simp only [step, hse, hmg], hR⟩
  | remove all =>
    refine ⟨false, by simp, ?_⟩
    cases all with
    | true =>
      simp only [Spec.step]
      intro fuel _
      refine ⟨removeAll g, by simp only [step], ?_⟩
      have hz : (removeAll g).root = .nil ∧ (removeAll g).count = 0 := by
        unfold removeAll
        cases hroot : g.root with
        | nil =>
          refine ⟨hroot, ?_⟩
          have := hr.size
          rw [hroot] at this
          rw [hc, this]; rfl
        | node => exact ⟨rfl, rfl⟩
      refine ⟨⟨fun _ => none, 0⟩, ?_, hz.2, rfl, by simp, fun _ => .none⟩
      rw [hz.1]
      exact ⟨trivial, List.Pairwise.nil, fun _ => rfl, rfl⟩
    | false =>
      generalize hmg : m.get tid = mo at hxt
      generalize hsg : s.stacks tid = so at hxt
      cases hxt with
      | none =>
        simp only [Spec.step, hsg]
        intro fuel _
        exact ⟨g, by simp only [step, hse, hmg], hR⟩
      | some ha =>
        simp only [Spec.step, hsg]
        intro fuel _
        have hss : Avl.Spec.step m (.delete tid) = some (Avl.Spec.set m tid none (m.size - 1), none) := by
          rw [Avl.Spec.step, hmg]; rfl
        obtain ⟨t', d1, d2⟩ := Avl.step_rel hr hsz _ hss
        have d3 : Avl.delete g.root tid = some t' := by
          rw [Avl.step] at d1
          cases hd : Avl.delete g.root tid with
          | none => rw [hd] at d1; simp at d1
          | some t2 => rw [hd] at d1; simp only [Option.map_some, Option.some.injEq, Prod.mk.injEq, and_true] at d1; rw [d1]
        have hpos : 0 < m.size := by
          rw [hr.size]
          rw [hr.get] at hmg
          refine Nat.pos_of_ne_zero (fun h0 => ?_)
          rw [List.length_eq_zero_iff.1 h0] at hmg
          simp [Avl.find] at hmg
        have hcnt : (g.count + 2 ^ 32 - 1) % 2 ^ 32 = g.count - 1 := by omega
        refine ⟨⟨t', g.count - 1⟩, ?_, ⟨_, d2, ?_, ?_, ?_, ?_⟩⟩
        · simp only [step, hse, hmg]
          rw [d3, Option.bind_eq_bind, Option.bind_some, hcnt]
        · simp only [Avl.Spec.set]; omega
        · simp only [Avl.Spec.set, Spec.State.set]; omega
        · simp only [Avl.Spec.set]; omega
        · intro u
          simp only [Avl.Spec.set, Spec.State.set]
          by_cases hu : u = tid
          · rw [if_pos hu, if_pos hu]; exact .none
          · rw [if_neg hu, if_neg hu]; exact hx u
  | get clr last =>
    refine ⟨false, by simp, ?_⟩
    generalize hmg : m.get tid = mo at hxt
    generalize hsg : s.stacks tid = so at hxt
    cases hxt with
    | some ha =>
      simp only [Spec.step, hsg]
      intro fuel _
      obtain ⟨g1, g2⟩ := get_abs ha clr last
      refine ⟨_, ?_, upd_rel m hr hc hn hm hx tid _ _ _ hmg g2⟩
      simp only [step, hse, hmg]
      rw [g1, report_eq]
    | none =>
      simp only [Spec.step, hsg]
      intro fuel _
      exact ⟨g, by simp only [step, hse, hmg], hR⟩
  | setMark =>
    refine ⟨false, by simp, ?_⟩
    generalize hmg : m.get tid = mo at hxt
    generalize hsg : s.stacks tid = so at hxt
    cases hxt with
    | some ha =>
      simp only [Spec.step, hsg]
      intro fuel _
      obtain ⟨g1, g2⟩ := setMark_abs ha
      refine ⟨_, ?_, upd_rel m hr hc hn hm hx tid _ _ _ hmg g2⟩
      simp only [step, hse, hmg]
      rw [g1]
    | none =>
      simp only [Spec.step, hsg]
      intro fuel _
      exact ⟨g, by simp only [step, hse, hmg], hR⟩
  | popToMark =>
    refine ⟨false, by simp, ?_⟩
    generalize hmg : m.get tid = mo at hxt
    generalize hsg : s.stacks tid = so at hxt
    cases hxt with
    | some ha =>
      simp only [Spec.step, hsg]
      intro fuel hf
      obtain ⟨st', g1, g2⟩ := pop_abs ha fuel hf
      rw [lastMark_eq] at g1 g2
      refine ⟨_, ?_, upd_rel m hr hc hn hm hx tid _ _ _ hmg g2⟩
      simp only [step, hse, hmg]
      rw [g1]; rfl
    | none =>
      simp only [Spec.step, hsg]
      intro fuel _
      exact ⟨g, by simp only [step, hse, hmg], hR⟩
  | clearLastMark =>
    refine ⟨false, by simp, ?_⟩
    generalize hmg : m.get tid = mo at hxt
    generalize hsg : s.stacks tid = so at hxt
    cases hxt with
    | @some st l ha =>
      simp only [Spec.step, hsg]
      by_cases hcond : l.length = 20 ∧ Spec.lastMark l = 0
      · rw [if_pos hcond]
        intro fuel
        have hall : ∀ e ∈ l, e.mark = false := by
          have h0 := hcond.2
          clear hcond hsg ha
          induction l with
          | nil => simp
          | cons a l ih =>
            unfold Spec.lastMark at h0
            by_cases hgt : Spec.lastMark l > 0
            · rw [if_pos hgt] at h0; omega
            · rw [if_neg hgt] at h0
              intro e he
              rcases List.mem_cons.1 he with rfl | he
              · cases hb : e.mark with
                | false => rfl
                | true => rw [hb] at h0; simp at h0
              · exact ih (by omega) e he
        simp only [step, hse, hmg]
        rw [clearMark_hangs ha hcond.1 hall fuel]; rfl
      · rw [if_neg hcond]
        intro fuel hf
        have hl := ha.len
        obtain ⟨st', g1, g2⟩ := clearMark_abs ha fuel hf (by rw [lastMark_eq]; omega)
        rw [lastMark_eq] at g2
        refine ⟨_, ?_, upd_rel m hr hc hn hm hx tid _ _ _ hmg g2⟩
        simp only [step, hse, hmg]
        rw [g1]; rfl
    | none =>
      simp only [Spec.step, hsg]
      intro fuel _
      exact ⟨g, by simp only [step, hse, hmg], hR⟩
  | output =>
    refine ⟨false, by simp, ?_⟩
    generalize hmg : m.get tid = mo at hxt
    generalize hsg : s.stacks tid = so at hxt
    cases hxt with
    | some ha =>
      simp only [Spec.step, hsg]
      intro fuel _
      refine ⟨g, ?_, hR⟩
      simp only [step, hse, hmg]
      rw [collect_abs ha]
    | none =>
      simp only [Spec.step, hsg]
      intro fuel _
      exact ⟨g, by simp only [step, hse, hmg], hR⟩

/-- An interleaving of calls; it stops at a call that does not return. -/
def run (fuel : Nat) : List (Nat × Op F) → St F → St F × List (Out F × Bool)
  | [], g => (g, [])
  | (tid, op) :: ops, g => match step fuel g tid op with
    | none => (g, [])
    | some (g', o, lack) => let r := run fuel ops g'; (r.1, (o, lack) :: r.2)

def Spec.run : List (Nat × Op F) → List Bool → Spec.State F → Spec.State F × List (Out F)
  | (tid, op) :: ops, lack :: lacks, s => match Spec.step lack s tid op with
    | none => (s, [])
    | some (s', o) => let r := Spec.run ops lacks s'; (r.1, o :: r.2)
  | _, _, s => (s, [])

def St.init : St F := ⟨.nil, 0⟩
def Spec.init : Spec.State F := ⟨fun _ => none, 0⟩

/-- Whether thread `tid`'s stack is full and without a mark, the state in which `BSL_ERR_ClearLastMark` does not return. -/
def Spec.Stuck (s : Spec.State F) (tid : Nat) : Prop := ∃ l, s.stacks tid = some l ∧ l.length = 20 ∧ Spec.lastMark l = 0

theorem stuck_iff (lack : Bool) (s : Spec.State F) (tid : Nat) (op : Op F) :
    Spec.step lack s tid op = none ↔ op = .clearLastMark ∧ Spec.Stuck s tid := by
  constructor
  · intro h
    cases op with
    | clearLastMark =>
      refine ⟨rfl, ?_⟩
      unfold Spec.step at h
      cases hs : s.stacks tid with
      | none => rw [hs] at h; cases h
      | some l =>
        rw [hs] at h
        simp only at h
        by_cases hc : l.length = 20 ∧ Spec.lastMark l = 0
        · exact ⟨l, hs, hc⟩
        · rw [if_neg hc] at h; cases h
    | remove all => cases all <;> (simp only [Spec.step] at h; try (split at h)) <;> cases h
    | push => simp only [Spec.step] at h; split at h <;> (try split at h) <;> (try split at h) <;> cases h
    | _ => simp only [Spec.step] at h; split at h <;> cases h
  · rintro ⟨rfl, l, h1, h2⟩
    simp only [Spec.step, h1]
    rw [if_pos h2]

/-- C17. For every interleaving of calls by any threads, from the start of the process: the results are those of the
specification, up to and including the first call that does not return, and only `BSL_ERR_ClearLastMark` on a full stack
without a mark does not return (`stuck_iff`). -/
theorem run_refines (ops : List (Nat × Op F)) (fuel : Nat) (hf : 20 < fuel) :
    (run fuel ops St.init).2.map (·.1) = (Spec.run ops ((run fuel ops St.init).2.map (·.2) ++ [false]) (Spec.init : Spec.State F)).2 ∧
      Rel (run fuel ops St.init).1 (Spec.run ops ((run fuel ops St.init).2.map (·.2) ++ [false]) (Spec.init : Spec.State F)).1 := by
  have key : ∀ (ops : List (Nat × Op F)) (g : St F) (s : Spec.State F), Rel g s →
      (run fuel ops g).2.map (·.1) = (Spec.run ops ((run fuel ops g).2.map (·.2) ++ [false]) s).2 ∧
      Rel (run fuel ops g).1 (Spec.run ops ((run fuel ops g).2.map (·.2) ++ [false]) s).1 := by
    intro ops
    induction ops with
    | nil => intro g s h; exact ⟨rfl, h⟩
    | cons x ops ih =>
      intro g s h
      obtain ⟨tid, op⟩ := x
      obtain ⟨lack, _, h1⟩ := step_refines h tid op
      cases hsp : Spec.step lack s tid op with
      | none =>
        rw [hsp] at h1
        simp only at h1
        have hsp' : Spec.step false s tid op = none := by rw [stuck_iff] at hsp ⊢; exact hsp
        simp only [run, h1 fuel, List.map_nil, List.nil_append, Spec.run, hsp']
        exact ⟨trivial, h⟩
      | some p =>
        obtain ⟨s', o⟩ := p
        rw [hsp] at h1
        simp only at h1
        obtain ⟨g', e1, e2⟩ := h1 fuel hf
        obtain ⟨k1, k2⟩ := ih g' s' e2
        simp only [run, e1, List.map_cons, List.cons_append, Spec.run, hsp]
        exact ⟨by rw [k1], k2⟩
  exact key ops _ _ ⟨⟨fun _ => none, 0⟩, ⟨trivial, List.Pairwise.nil, fun _ => rfl, rfl⟩, rfl, rfl, by simp, fun _ => .none⟩

/-- After any pushes by a thread with a stack holding `l`, the stack holds the last 20 of everything. -/
theorem pushes_last20 (s : Spec.State F) (tid : Nat) (l : List (Slot F)) (hl : l.length ≤ 20) (hs : s.stacks tid = some l)
    (es : List (Int × Option F × Nat)) (he : ∀ e ∈ es, e.1 ≠ 0) :
    ∃ s' os, Spec.run (es.map fun e => (tid, Op.push e.1 e.2.1 e.2.2 true)) (es.map fun _ => false) s = (s', os) ∧
      s'.stacks tid = some ((l ++ es.map fun e => (⟨e.1, false, e.2.1, e.2.2⟩ : Slot F)).drop (l.length + es.length - 20)) := by
  induction es generalizing s l with
  | nil => exact ⟨s, [], rfl, by rw [hs, List.map_nil, List.append_nil, List.length_nil, Nat.add_zero, Nat.sub_eq_zero_of_le hl, List.drop_zero]⟩
  | cons e es ih =>
    have hne := he e (by simp)
    have h1 : Spec.step false s tid (Op.push e.1 e.2.1 e.2.2 true) =
        some (s.set tid (some ((if l.length = 20 then l.drop 1 else l) ++ [⟨e.1, false, e.2.1, e.2.2⟩])) s.n, .done) := by
      simp only [Spec.step, if_neg hne, hs]
    obtain ⟨s', os, r1, r2⟩ := ih (s.set tid (some ((if l.length = 20 then l.drop 1 else l) ++ [⟨e.1, false, e.2.1, e.2.2⟩])) s.n)
      ((if l.length = 20 then l.drop 1 else l) ++ [⟨e.1, false, e.2.1, e.2.2⟩])
      (by split <;> simp <;> omega) (by simp [Spec.State.set]) (fun e he' => he e (by simp [he']))
    refine ⟨s', .done :: os, ?_, ?_⟩
    · simp only [List.map_cons, Spec.run, h1, r1]
    · rw [r2]
      congr 1
      by_cases h20 : l.length = 20
      · simp only [if_pos h20, List.length_append, List.length_drop, List.length_nil, Nat.zero_add, List.length_cons, List.map_cons]
        have e1 : l ++ (⟨e.1, false, e.2.1, e.2.2⟩ : Slot F) :: es.map (fun e => ⟨e.1, false, e.2.1, e.2.2⟩) =
            l.take 1 ++ (l.drop 1 ++ [⟨e.1, false, e.2.1, e.2.2⟩] ++ es.map (fun e => ⟨e.1, false, e.2.1, e.2.2⟩)) := by
          rw [← List.append_assoc, ← List.append_assoc, List.take_append_drop]; simp
        rw [e1]
        have hn : l.length + (es.length + 1) - 20 = (l.take 1).length + (l.length - 1 + 1 + es.length - 20) := by
          simp; omega
        rw [hn, List.drop_length_add_append]
      · simp only [if_neg h20, List.length_append, List.length_nil, Nat.zero_add, List.length_cons, List.map_cons, List.append_assoc,
          List.singleton_append]
        rw [show l.length + 1 + es.length = l.length + (es.length + 1) by omega]

/-- A call of another thread (other than removing all stacks) does not touch the stack of `u`. -/
theorem others_untouched (lack : Bool) (s s' : Spec.State F) (tid u : Nat) (hu : u ≠ tid) (op : Op F) (o : Out F)
    (hop : op ≠ .remove true) (h : Spec.step lack s tid op = some (s', o)) : s'.stacks u = s.stacks u := by
  cases op with
  | remove all =>
    cases all with
    | true => exact absurd rfl hop
    | false => simp only [Spec.step] at h; split at h <;> cases h <;> simp [Spec.State.set, hu]
  | push =>
    simp only [Spec.step] at h
    split at h
    · cases h; rfl
    · split at h
      · cases h; simp [Spec.State.set, hu]
      · split at h <;> cases h <;> simp [Spec.State.set, hu]
  | clearLastMark =>
    simp only [Spec.step] at h
    split at h
    · split at h <;> cases h <;> simp [Spec.State.set, hu]
    · cases h; rfl
  | _ => simp only [Spec.step] at h; split at h <;> cases h <;> simp [Spec.State.set, hu]

-- Non-vacuity: two threads interleaved; a wrap-around; the hang.
example : ((run 30 [(7, .push 11 (some 'f') 1 true), (9, .push 5 none 3 true), (7, .setMark), (7, .push 12 none 9 true),
    (9, .get true false), (7, .popToMark), (7, .get true true), (9, .get false true), (8, .setMark)] (St.init : St Char)).2.map (·.1)) =
    [.done, .done, .done, .done, .info 5 none 0, .done, .info 11 (some 'f') 1, .info 0 none 0, .noStack] := by decide +kernel

example : ((run 30 ((List.range 23).map (fun (i : Nat) => (1, Op.push ((i : Int) + 1) (some 'f') i true)) ++ [(1, .get false false), (1, .get false true)])
    (St.init : St Char)).2.map (·.1)).drop 23 = [.info 4 (some 'f') 3, .info 23 (some 'f') 22] := by decide +kernel

/-- The hang is reachable: 20 pushes and `BSL_ERR_ClearLastMark`. -/
theorem hang_reachable (fuel : Nat) :
    step fuel (run 30 ((List.range 20).map (fun (i : Nat) => (1, Op.push ((i : Int) + 1) none i true))) (St.init : St Char)).1 1 .clearLastMark = none := by
  have hr := (run_refines (F := Char) ((List.range 20).map (fun (i : Nat) => (1, Op.push ((i : Int) + 1) none i true))) 30 (by decide)).2
  obtain ⟨lack, _, h⟩ := step_refines hr 1 .clearLastMark
  have hl : (run 30 ((List.range 20).map (fun (i : Nat) => (1, Op.push ((i : Int) + 1) none i true))) (St.init : St Char)).2.map (·.2) =
      List.replicate 20 false := by decide +kernel
  have hn : Spec.step lack (Spec.run ((List.range 20).map (fun (i : Nat) => (1, Op.push ((i : Int) + 1) none i true)))
      (List.replicate 20 false ++ [false]) (Spec.init : Spec.State Char)).1 1 .clearLastMark = none := by
    rw [stuck_iff]
    refine ⟨rfl, (List.range 20).map (fun (i : Nat) => (⟨(i : Int) + 1, false, none, i⟩ : Slot Char)), ?_, by decide, by decide⟩
    decide +kernel
  rw [hl, hn] at h
  exact h fuel

end Verif.Bsl.Err
