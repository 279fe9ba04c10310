import Verif.Bsl.Avl.Proof
/-! C16: the AVL tree is a balanced finite map. -/
namespace Verif.Bsl.Avl
variable {α : Type}

/-! ### Specification -/

/-- A finite map with its number of entries. -/
structure Spec.Map (α : Type) where
  get : Nat → Option α
  size : Nat

inductive Op (α : Type)
  | insert (id : Nat) (x : α) | put (id : Nat) (x : α) | delete (id : Nat) | search (id : Nat)

def Spec.set (m : Spec.Map α) (id : Nat) (v : Option α) (n : Nat) : Spec.Map α :=
  ⟨fun j => if j = id then v else m.get j, n⟩

/-- The number of entries up to which the tree is known to work; the error module never has more than 2^31. -/
def Spec.maxSize : Nat := 2 ^ 32 - 2

/-- One operation and, for a search, its result. Inserting an id that is present is not allowed (`none`), nor is a new
entry in a map of `maxSize` entries. -/
def Spec.step (m : Spec.Map α) : Op α → Option (Spec.Map α × Option α)
  | .insert id x =>
    if (m.get id).isSome || decide (m.size ≥ Spec.maxSize) then none
    else some (Spec.set m id (some x) (m.size + 1), none)
  | .put id x =>
    if (m.get id).isSome then some (Spec.set m id (some x) m.size, none)
    else if m.size ≥ Spec.maxSize then none
    else some (Spec.set m id (some x) (m.size + 1), none)
  | .delete id => some (Spec.set m id none (if (m.get id).isSome then m.size - 1 else m.size), none)
  | .search id => some (m, m.get id)

def Spec.run (m : Spec.Map α) : List (Op α) → Option (Spec.Map α × List (Option α))
  | [] => some (m, [])
  | op :: ops => do
    let (m, o) ← Spec.step m op
    let (m, os) ← Spec.run m ops
    some (m, o :: os)

def Spec.empty : Spec.Map α := ⟨fun _ => none, 0⟩

/-- The length of the longest path. -/
def Spec.depth : Tree α → Nat
  | .nil => 0
  | .node _ l _ _ r => max (Spec.depth l) (Spec.depth r) + 1

/-- The depths of siblings differ by at most one, everywhere. -/
def Spec.Balanced : Tree α → Prop
  | .nil => True
  | .node _ l _ _ r => Spec.depth l ≤ Spec.depth r + 1 ∧ Spec.depth r ≤ Spec.depth l + 1 ∧
      Spec.Balanced l ∧ Spec.Balanced r

def Spec.Has (id : Nat) : Tree α → Prop
  | .nil => False
  | .node _ l k _ r => k = id ∨ Spec.Has id l ∨ Spec.Has id r

/-- Search-tree order. -/
def Spec.Ordered : Tree α → Prop
  | .nil => True
  | .node _ l k _ r => (∀ id, Spec.Has id l → id < k) ∧ (∀ id, Spec.Has id r → k < id) ∧ Spec.Ordered l ∧ Spec.Ordered r

def step (t : Tree α) : Op α → Option (Tree α × Option α)
  | .insert id x => (insert t id x).map (·, none)
  | .put id x => (put t id x).map (·, none)
  | .delete id => (delete t id).map (·, none)
  | .search id => some (t, search t id)

def run (t : Tree α) : List (Op α) → Option (Tree α × List (Option α))
  | [] => some (t, [])
  | op :: ops => do
    let (t, o) ← step t op
    let (t, os) ← run t ops
    some (t, o :: os)

/-! ### Proof -/

structure Rel (t : Tree α) (m : Spec.Map α) : Prop where
  bal : Bal t
  srt : Srt (toList t)
  get : ∀ id, m.get id = find (toList t) id
  size : m.size = (toList t).length

theorem absent_of_find {l : List (Nat × α)} {id : Nat} (h : find l id = none) : ∀ e ∈ l, e.1 ≠ id := by
  intro e he hc
  unfold find at h
  rw [Option.map_eq_none_iff, List.find?_eq_none] at h
  exact absurd (by simpa using hc) (h e he)

theorem insert_rel {t : Tree α} {m : Spec.Map α} (hr : Rel t m) (hsz : m.size + 1 < 2 ^ 32) (id : Nat) (x : α)
    (hn : m.get id = none) : ∃ t', insert t id x = some t' ∧ Rel t' (Spec.set m id (some x) (m.size + 1)) := by
  have ha := absent_of_find ((hr.get id).symm.trans hn)
  obtain ⟨t', h1, h2, h3, _, _⟩ := insert_spec t id x hr.bal hr.srt
    (height_lt t hr.bal (by rw [← hr.size]; exact hsz)) ha
  refine ⟨t', h1, h2, by rw [h3]; exact ins_srt _ _ _ hr.srt ha, ?_, ?_⟩
  · intro j
    simp only [Spec.set]
    rw [h3, ins_find _ _ _ ha, hr.get]
  · simp only [Spec.set]; rw [h3, ins_length, hr.size]

theorem step_rel {t : Tree α} {m m' : Spec.Map α} {o : Option α} (hr : Rel t m) (hsz : m.size + 1 < 2 ^ 32) (op : Op α)
    (hs : Spec.step m op = some (m', o)) : ∃ t', step t op = some (t', o) ∧ Rel t' m' := by
  cases op with
  | insert id x =>
    rw [Spec.step] at hs
    by_cases hc : ((m.get id).isSome || decide (m.size ≥ Spec.maxSize)) = true
    · rw [if_pos hc] at hs; cases hs
    · rw [if_neg hc] at hs
      cases hs
      have hg : m.get id = none := by
        simp only [Bool.or_eq_true, not_or] at hc
        simpa using hc.1
      obtain ⟨t', h1, h2⟩ := insert_rel hr hsz id x hg
      exact ⟨t', by simp [step, h1], h2⟩
  | put id x =>
    rw [Spec.step] at hs
    have hse := search_eq t id hr.srt
    cases hg : m.get id with
    | none =>
      simp only [hg, Option.isSome_none, Bool.false_eq_true, if_false] at hs
      by_cases hc : m.size ≥ Spec.maxSize
      · rw [if_pos hc] at hs; cases hs
      · rw [if_neg hc] at hs
        cases hs
        obtain ⟨t', h1, h2⟩ := insert_rel hr hsz id x hg
        have hp : put t id x = some t' := by
          unfold put
          rw [hse, ← hr.get, hg]; exact h1
        exact ⟨t', by simp [step, hp], h2⟩
    | some v =>
      simp only [hg, Option.isSome_some, if_true] at hs
      cases hs
      obtain ⟨s1, s2, s3⟩ := setData_spec t id x hr.srt
      have hp : put t id x = some (setData t id x) := by
        unfold put
        rw [hse, ← hr.get, hg]
      refine ⟨setData t id x, by simp [step, hp], s2 hr.bal, by rw [s3]; exact set_srt _ _ _ hr.srt, ?_, ?_⟩
      · intro j
        simp only [Spec.set]
        rw [s3, set_find, hr.get j]
        by_cases hj : j = id
        · rw [if_pos hj, if_pos hj, ← hr.get, hg]; rfl
        · rw [if_neg hj, if_neg hj]
      · simp only [Spec.set]; rw [s3, List.length_map, hr.size]
  | delete id =>
    unfold Spec.step at hs
    simp only [Option.some.injEq, Prod.mk.injEq] at hs
    obtain ⟨t', h1, h2, h3, _, _⟩ := delete_spec t id hr.bal hr.srt
      (height_lt t hr.bal (by rw [← hr.size]; exact hsz))
    rw [← hs.1, ← hs.2]
    refine ⟨t', by simp [step, h1], h2, by rw [h3]; exact del_srt _ _ hr.srt, ?_, ?_⟩
    · intro j
      simp only [Spec.set]
      rw [h3, del_find, hr.get]
    · simp only [Spec.set]
      have := del_length id _ hr.srt
      rw [← h3, ← hr.get, ← hr.size] at this
      split at this
      · rename_i hx; rw [if_pos hx]; omega
      · rename_i hx; rw [if_neg hx]; omega
  | search id =>
    unfold Spec.step at hs
    simp only [Option.some.injEq, Prod.mk.injEq] at hs
    rw [← hs.1, ← hs.2]
    exact ⟨t, by rw [step, search_eq t id hr.srt, hr.get], hr⟩

theorem height_eq (t : Tree α) (hb : Bal t) : getHeight t = Spec.depth t := by
  induction t with
  | nil => rfl
  | node h l k d r ihl ihr =>
    obtain ⟨b1, _, _, b4, b5⟩ := hb
    rw [gh1, b1, ihl b4, ihr b5, Spec.depth]

theorem balanced (t : Tree α) (hb : Bal t) : Spec.Balanced t := by
  induction t with
  | nil => trivial
  | node h l k d r ihl ihr =>
    obtain ⟨_, b2, b3, b4, b5⟩ := hb
    rw [height_eq l b4, height_eq r b5] at b2 b3
    exact ⟨b2, b3, ihl b4, ihr b5⟩

theorem has_iff (t : Tree α) (id : Nat) : Spec.Has id t ↔ ∃ e ∈ toList t, e.1 = id := by
  induction t with
  | nil => simp [Spec.Has, toList]
  | node h l k d r ihl ihr =>
    simp only [Spec.Has, toList, ihl, ihr, List.mem_append, List.mem_cons]
    constructor
    · rintro (h | ⟨e, he, h⟩ | ⟨e, he, h⟩)
      · exact ⟨(k, d), .inr (.inl rfl), h⟩
      · exact ⟨e, .inl he, h⟩
      · exact ⟨e, .inr (.inr he), h⟩
    · rintro ⟨e, he | rfl | he, h⟩
      · exact .inr (.inl ⟨e, he, h⟩)
      · exact .inl h
      · exact .inr (.inr ⟨e, he, h⟩)

theorem ordered (t : Tree α) (hs : Srt (toList t)) : Spec.Ordered t := by
  induction t with
  | nil => trivial
  | node h l k d r ihl ihr =>
    obtain ⟨s1, s2, s3, s4⟩ := srt_node.1 hs
    refine ⟨?_, ?_, ihl s1, ihr s2⟩
    · intro id hid; obtain ⟨e, he, rfl⟩ := (has_iff l id).1 hid; exact s3 e he
    · intro id hid; obtain ⟨e, he, rfl⟩ := (has_iff r id).1 hid; exact s4 e he

theorem spec_size {m m' : Spec.Map α} {op : Op α} {o : Option α} (hm : m.size + 1 < 2 ^ 32)
    (h : Spec.step m op = some (m', o)) : m'.size + 1 < 2 ^ 32 := by
  have hx : Spec.maxSize = 2 ^ 32 - 2 := rfl
  cases op with
  | insert id x =>
    rw [Spec.step] at h
    by_cases hc : ((m.get id).isSome || decide (m.size ≥ Spec.maxSize)) = true
    · rw [if_pos hc] at h; cases h
    · rw [if_neg hc] at h
      cases h
      simp only [Bool.or_eq_true, not_or, decide_eq_true_eq] at hc
      simp only [Spec.set]
      omega
  | put id x =>
    rw [Spec.step] at h
    by_cases hg : (m.get id).isSome = true
    · rw [if_pos hg] at h; cases h; exact hm
    · rw [if_neg hg] at h
      by_cases hc : m.size ≥ Spec.maxSize
      · rw [if_pos hc] at h; cases h
      · rw [if_neg hc] at h; cases h; simp only [Spec.set]; omega
  | delete id => rw [Spec.step] at h; cases h; simp only [Spec.set]; split <;> omega
  | search id => rw [Spec.step] at h; cases h; omega

/-- Every allowed history from a consistent tree. -/
theorem run_rel (ops : List (Op α)) : ∀ (t : Tree α) (m m' : Spec.Map α) (os : List (Option α)), Rel t m →
    m.size + 1 < 2 ^ 32 → Spec.run m ops = some (m', os) → ∃ t', run t ops = some (t', os) ∧ Rel t' m' := by
  induction ops with
  | nil =>
    intro t m m' os hr _ hs
    simp only [Spec.run, Option.some.injEq, Prod.mk.injEq] at hs
    exact ⟨t, by rw [run, hs.2], by rw [← hs.1]; exact hr⟩
  | cons op ops ih =>
    intro t m m' os hr hlen hs
    simp only [Spec.run] at hs
    cases h1 : Spec.step m op with
    | none => simp [h1] at hs
    | some p =>
      obtain ⟨m1, o⟩ := p
      simp only [h1, Option.bind_eq_bind, Option.bind_some] at hs
      cases h2 : Spec.run m1 ops with
      | none => simp [h2] at hs
      | some q =>
        obtain ⟨m2, os2⟩ := q
        simp only [h2, Option.bind_some, Option.some.injEq, Prod.mk.injEq] at hs
        obtain ⟨t1, s1, s2⟩ := step_rel hr hlen op h1
        obtain ⟨t2, r1, r2⟩ := ih t1 m1 m2 os2 s2 (spec_size hlen h1) h2
        refine ⟨t2, ?_, by rw [← hs.1]; exact r2⟩
        simp only [run, s1, r1, Option.bind_eq_bind, Option.bind_some]
        rw [← hs.2]

/-- C16. Any history from the empty tree in which no present id is inserted and there are never more than 2^32 - 2
entries: no NULL pointer is dereferenced, every search returns what a finite map returns, and the tree is ordered,
balanced and of logarithmic depth. -/
theorem run_refines (ops : List (Op α)) (m : Spec.Map α) (os : List (Option α))
    (hs : Spec.run Spec.empty ops = some (m, os)) :
    ∃ t, run .nil ops = some (t, os) ∧ (∀ id, search t id = m.get id) ∧ (∀ id, Spec.Has id t ↔ (m.get id).isSome) ∧
      Spec.Ordered t ∧ Spec.Balanced t ∧ 2 ^ (Spec.depth t / 2) ≤ m.size + 1 := by
  obtain ⟨t, h1, h2⟩ := run_rel ops .nil Spec.empty m os ⟨trivial, List.Pairwise.nil, fun _ => rfl, rfl⟩
    (by show 0 + 1 < 2 ^ 32; decide) hs
  refine ⟨t, h1, fun id => by rw [search_eq t id h2.srt, h2.get], ?_, ordered t h2.srt, balanced t h2.bal, ?_⟩
  · intro id
    rw [has_iff, h2.get]
    unfold find
    rw [Option.isSome_map, List.find?_isSome]
    simp
  · rw [← height_eq t h2.bal, h2.size]; exact size_ge t h2.bal

/-- Inserting an id that is present makes the tree lose the whole subtree under it: after a second insertion of `2` the
entries `1`, `2` and `3` are gone. -/
theorem duplicate_loses :
    (run .nil [Op.insert 4 'd', .insert 2 'b', .insert 5 'e', .insert 1 'a', .insert 3 'c', .insert 2 'x',
      .search 1, .search 2, .search 3]).map (·.2.drop 6) = some [none, none, none] := by
  decide +kernel

/-- In general: inserting an id that is at the root gives NULL, the whole tree is lost. -/
theorem duplicate_root (h : Nat) (l r : Tree α) (k : Nat) (d x : α) : insert (.node h l k d r) k x = some .nil := by
  unfold insert; simp

-- Non-vacuity: a history with all rotations and a two-child deletion.
example : ((Spec.run (Spec.empty : Spec.Map Char)
    [.insert 10 'a', .insert 20 'b', .insert 30 'c', .insert 5 'd', .insert 7 'e', .put 7 'f', .delete 20, .search 7, .search 20]).map
      (·.2.drop 7)) = some [some 'f', none] := by decide +kernel

example : ((run (.nil : Tree Char)
    [.insert 10 'a', .insert 20 'b', .insert 30 'c', .insert 5 'd', .insert 7 'e', .put 7 'f', .delete 20, .search 7, .search 20]).map
      (fun p => (p.1, p.2.drop 7))) =
    some (.node 3 (.node 2 (.node 1 .nil 5 'd' .nil) 7 'f' .nil) 10 'a' (.node 1 .nil 30 'c' .nil), [some 'f', none]) := by
  decide +kernel

end Verif.Bsl.Avl
