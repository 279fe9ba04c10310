import Verif.Bsl.List.Proof
/-! C14: every history of list operations is a history on a sequence with a cursor. -/
namespace Verif.Bsl.LinkedList
variable {D : Type}

/-! ### Specification: a sequence of (handle, element) pairs with an optional cursor position -/

/-- A sequence with a cursor; the handle of an element is its node address (what `BSL_LIST_FirstNode` and
`BSL_LIST_GetNextNode` give to the user). -/
structure Spec.St (D : Type) where
  items : List (Nat × D)
  cur : Option Nat

/-- The operations of the interface. -/
inductive Op (D : Type)
  | add (d : D) (pos : Pos)
  | deleteAll | deleteCurrent | detachCurrent
  | deleteNode (target : Option Nat)
  | prev | next | last | first | curr
  | search (cmp : D → Hit) (wantErr : Bool)
  | getIndex (i : Nat)
  | elmtIndex (d : D)
  | rev | sort

/-- What an operation returns. -/
inductive Out (D : Type)
  | unit
  | code (c : Code)
  | elem (d : Option D)
  | found (d : Option D) (err : Bool)
  | index (i : Option Nat)

/-- The element at a position. -/
def Spec.at (items : List (Nat × D)) (cur : Option Nat) : Option D := cur.bind fun k => (items[k]?).map (·.2)

/-- Position next to which a new element goes: the cursor (or the far end when there is none), or an end. -/
def Spec.anchor (s : Spec.St D) : Pos → Option Nat
  | .after => match s.cur with | some k => some k | none => some (s.items.length - 1)
  | .before => match s.cur with | some k => some k | none => some 0
  | .begin => some 0
  | .end_ => some (s.items.length - 1)

/-- Insertion at a position. -/
def Spec.insertAt (items : List (Nat × D)) (k : Nat) (x : Nat × D) : List (Nat × D) :=
  items.take k ++ x :: items.drop k

/-- A position, if it exists. -/
def Spec.clip (n k : Nat) : Option Nat := if k < n then some k else none

/-- Addition of an element with handle `mem` (`none`: no memory; the elements are unchanged, the cursor goes to the
anchor). -/
def Spec.add (max : Int) (mem : Option Nat) (s : Spec.St D) (d : D) (pos : Pos) : Spec.St D × Out D :=
  if (s.items.length : Int) ≥ max then (s, .code .full)
  else if s.items = [] then
    match mem with
    | none => (s, .code .mallocFail)
    | some n => (⟨[(n, d)], some 0⟩, .code .success)
  else
    match Spec.anchor s pos with
    | none => (s, .code .success)
    | some k =>
      match mem with
      | none => (⟨s.items, some k⟩, .code .mallocFail)
      | some n =>
        let j := if pos = .after ∨ pos = .end_ then k + 1 else k
        (⟨Spec.insertAt s.items j (n, d), some j⟩, .code .success)

/-- The position before the cursor; without a cursor, the last one. -/
def Spec.prevPos (s : Spec.St D) : Option Nat :=
  match s.cur with
  | none => Spec.clip s.items.length (s.items.length - 1)
  | some k => if k = 0 then none else some (k - 1)

/-- The position after the cursor; without a cursor, the first one. -/
def Spec.nextPos (s : Spec.St D) : Option Nat :=
  match s.cur with
  | none => Spec.clip s.items.length 0
  | some k => Spec.clip s.items.length (k + 1)

/-- The cursor moves and the element there is returned. -/
def Spec.move (s : Spec.St D) (c : Option Nat) : Spec.St D × Out D := (⟨s.items, c⟩, .elem (Spec.at s.items c))

/-- One operation on the sequence. `qsort` is the sorting function of the C library. -/
def Spec.step [DecidableEq D] (max : Int) (qsort : List D → List D) (mem : Option Nat) (s : Spec.St D) :
    Op D → Spec.St D × Out D
  | .add d pos => Spec.add max mem s d pos
  | .deleteAll => (⟨[], none⟩, .unit)
  | .deleteCurrent => match s.cur with
    | none => (s, .unit)
    | some k => (⟨s.items.eraseIdx k, Spec.clip (s.items.length - 1) k⟩, .unit)
  | .detachCurrent => match s.cur with
    | none => (s, .unit)
    | some k =>
      (⟨s.items.eraseIdx k, if k + 1 < s.items.length then some k else Spec.clip (s.items.length - 1) (k - 1)⟩, .unit)
  | .deleteNode target =>
    match target.bind fun t => s.items.findIdx? (fun x => x.1 == t) with
    | none => (s, .unit)
    | some k => (⟨s.items.eraseIdx k, match s.cur with
        | none => none
        | some j => if j < k then some j else if k < j then some (j - 1) else Spec.clip (s.items.length - 1) k⟩, .unit)
  | .prev => Spec.move s (Spec.prevPos s)
  | .next => Spec.move s (Spec.nextPos s)
  | .last => Spec.move s (Spec.clip s.items.length (s.items.length - 1))
  | .first => Spec.move s (Spec.clip s.items.length 0)
  | .curr => (s, .elem (Spec.at s.items s.cur))
  | .search cmp wantErr =>
    -- the first element that matches or, when errors are wanted, makes the callback fail
    match s.items.findIdx? (fun x => cmp x.2 == .yes || (wantErr && cmp x.2 == .intError)) with
    | none => (s, .found none false)
    | some k =>
      let d := Spec.at s.items (some k)
      (⟨s.items, some k⟩, if d.any (fun d => cmp d == .yes) then .found d false else .found none true)
  | .getIndex i =>
    if i < s.items.length then (⟨s.items, some i⟩, .elem (Spec.at s.items (some i))) else (s, .elem none)
  | .elmtIndex d => (s, .index (s.items.findIdx? (fun x => x.2 == d)))
  | .rev => (⟨s.items.reverse, Spec.clip s.items.length 0⟩, .unit)
  | .sort => (⟨(s.items.map (·.1)).zip (qsort (s.items.map (·.2))), none⟩, .unit)

/-- One operation of the model. -/
def step [DecidableEq D] (max : Int) (qsort : List D → List D) (mem : Option Nat) (h : Heap D) (l : Lst) :
    Op D → Option (Heap D × Lst × Out D)
  | .add d pos => (addElement max h l mem d pos).map fun (h, l, c) => (h, l, .code c)
  | .deleteAll => (deleteAll h l).map fun (h, l) => (h, l, .unit)
  | .deleteCurrent => (deleteCurrent h l).map fun (h, l) => (h, l, .unit)
  | .detachCurrent => (detachCurrent h l).map fun (h, l) => (h, l, .unit)
  | .deleteNode t => (deleteNode h l t).map fun (h, l) => (h, l, .unit)
  | .prev => (LinkedList.prev h l).map fun (l, d) => (h, l, .elem d)
  | .next => (LinkedList.next h l).map fun (l, d) => (h, l, .elem d)
  | .last => (LinkedList.last h l).map fun (l, d) => (h, l, .elem d)
  | .first => (LinkedList.first h l).map fun (l, d) => (h, l, .elem d)
  | .curr => (currElmt h l).map fun d => (h, l, .elem d)
  | .search cmp w => (LinkedList.search cmp w h l).map fun (l, d, e) => (h, l, .found d e)
  | .getIndex i => (getIndexNode h l i).map fun (l, d) => (h, l, .elem d)
  | .elmtIndex d => (getElmtIndex d h l).map fun i => (h, l, .index i)
  | .rev => (revList h l).map fun (h, l) => (h, l, .unit)
  | .sort => (LinkedList.sort qsort h l).map fun (h, l) => (h, l, .unit)

/-! ### Proof -/

theorem nextOf_cons (i : Nat) (d : D) (L : List (Nat × D)) (q : Option Nat) : nextOf ((i, d) :: L) q = some i := rfl

theorem nextOf_head (L : List (Nat × D)) : nextOf L none = (L[0]?).map (·.1) := by cases L <;> rfl

theorem lastOf_getLast (L : List (Nat × D)) : lastOf L none = (L[L.length - 1]?).map (·.1) := by
  have key : ∀ (L : List (Nat × D)) (i : Nat) (d : D),
      lastOf L (some i) = (((i, d) :: L)[L.length]?).map (·.1) := by
    intro L
    induction L with
    | nil => intro i d; rfl
    | cons x L ih =>
      intro i d
      obtain ⟨j, e⟩ := x
      have := ih j e
      simpa [lastOf] using this
  cases L with
  | nil => rfl
  | cons x L => exact key L x.1 x.2

/-- The pointer for a cursor position. -/
def ptr (items : List (Nat × D)) (cur : Option Nat) : Option Nat := cur.bind fun k => (items[k]?).map (·.1)

/-- The list structure and heap stand for the sequence with cursor. -/
structure Rel (h : Heap D) (l : Lst) (s : Spec.St D) : Prop where
  rep : Rep h l s.items
  curr : l.curr = ptr s.items s.cur
  inRange : ∀ k, s.cur = some k → k < s.items.length

theorem split_at (L : List (Nat × D)) (k : Nat) (h : k < L.length) :
    ∃ i d, L[k]? = some (i, d) ∧ L = L.take k ++ (i, d) :: L.drop (k + 1) := by
  refine ⟨(L[k]).1, (L[k]).2, by simp [h], ?_⟩
  have := List.take_append_drop k L
  rw [List.drop_eq_getElem_cons h] at this
  exact this.symm

theorem curr_split {h : Heap D} {l : Lst} {s : Spec.St D} (hr : Rel h l s) {k : Nat} (hk : s.cur = some k) :
    ∃ i d, s.items[k]? = some (i, d) ∧ s.items = s.items.take k ++ (i, d) :: s.items.drop (k + 1) ∧ l.curr = some i ∧
      h i = some ⟨lastOf (s.items.take k) none, nextOf (s.items.drop (k + 1)) none, d⟩ := by
  obtain ⟨i, d, h1, h2⟩ := split_at s.items k (hr.inRange k hk)
  refine ⟨i, d, h1, h2, ?_, ?_⟩
  · rw [hr.curr, hk]; simp [ptr, h1]
  · have := hr.rep.seg
    rw [h2] at this
    exact rep_node h none none _ i d _ this

theorem node_at {h : Heap D} {l : Lst} {L : List (Nat × D)} (hr : Rep h l L) {k : Nat} (hk : k < L.length) :
    ∃ i d, L[k]? = some (i, d) ∧ h i = some ⟨lastOf (L.take k) none, nextOf (L.drop (k + 1)) none, d⟩ := by
  obtain ⟨i, d, h1, h2⟩ := split_at L k hk
  refine ⟨i, d, h1, ?_⟩
  have := hr.seg
  rw [h2] at this
  exact rep_node h none none _ i d _ this

theorem nextOf_drop (L : List (Nat × D)) (k : Nat) : nextOf (L.drop k) none = (L[k]?).map (·.1) := by
  rw [nextOf_head]; simp

theorem lastOf_take (L : List (Nat × D)) (k : Nat) (h : k < L.length) :
    lastOf (L.take k) none = if k = 0 then none else (L[k - 1]?).map (·.1) := by
  rw [lastOf_getLast]
  by_cases hk : k = 0
  · subst hk; simp
  · rw [if_neg hk, List.length_take, Nat.min_eq_left (by omega), List.getElem?_take, if_pos (by omega)]

theorem ptr_clip (L : List (Nat × D)) (k : Nat) : ptr L (Spec.clip L.length k) = (L[k]?).map (·.1) := by
  unfold Spec.clip
  by_cases h : k < L.length
  · rw [if_pos h]; rfl
  · rw [if_neg h]; simp [ptr, List.getElem?_eq_none (Nat.le_of_not_lt h)]

theorem clip_range {n k j : Nat} (h : Spec.clip n k = some j) : j < n := by
  unfold Spec.clip at h
  split at h
  · simp only [Option.some.injEq] at h; omega
  · simp at h

/-- Common last step of the cursor operations. -/
theorem move_spec {h : Heap D} {l : Lst} {s : Spec.St D} (hr : Rel h l s) (c : Option Nat)
    (hc : ∀ k, c = some k → k < s.items.length) :
    readAt h l (ptr s.items c) =
        some ({ l with curr := ptr s.items c }, Spec.at s.items c) ∧
      Rel h { l with curr := ptr s.items c } ⟨s.items, c⟩ := by
  refine ⟨?_, ⟨⟨hr.rep.seg, hr.rep.nodup, hr.rep.first, hr.rep.last, hr.rep.count⟩, rfl, hc⟩⟩
  cases c with
  | none => rfl
  | some k =>
    obtain ⟨i, d, h1, h2⟩ := node_at hr.rep (hc k rfl)
    simp [readAt, ptr, Spec.at, h1, h2]

theorem next_spec {h : Heap D} {l : Lst} {s : Spec.St D} (hr : Rel h l s) :
    ∃ c, c = Spec.nextPos s ∧
      next h l = some ({ l with curr := ptr s.items c }, Spec.at s.items c) ∧
      Rel h { l with curr := ptr s.items c } ⟨s.items, c⟩ := by
  refine ⟨_, rfl, ?_⟩
  unfold Spec.nextPos
  cases hcur : s.cur with
  | none =>
    simp only
    have hl : l.curr = none := by rw [hr.curr, hcur]; rfl
    have := move_spec hr (Spec.clip s.items.length 0) (fun k hk => clip_range hk)
    refine ⟨?_, this.2⟩
    rw [← this.1]
    unfold next
    rw [hl]
    simp only [Option.bind_eq_bind, Option.bind_some, hr.rep.first, nextOf_head, ptr_clip]
  | some k =>
    simp only
    obtain ⟨i, d, h1, h2, h3, h4⟩ := curr_split hr hcur
    have := move_spec hr (Spec.clip s.items.length (k + 1)) (fun k hk => clip_range hk)
    refine ⟨?_, this.2⟩
    rw [← this.1]
    unfold next
    rw [h3]
    simp only [Option.bind_eq_bind, h4, Option.map_some, Option.bind_some, nextOf_drop, ptr_clip]

theorem prev_spec {h : Heap D} {l : Lst} {s : Spec.St D} (hr : Rel h l s) :
    ∃ c, c = Spec.prevPos s ∧
      prev h l = some ({ l with curr := ptr s.items c }, Spec.at s.items c) ∧
      Rel h { l with curr := ptr s.items c } ⟨s.items, c⟩ := by
  refine ⟨_, rfl, ?_⟩
  unfold Spec.prevPos
  cases hcur : s.cur with
  | none =>
    simp only
    have hl : l.curr = none := by rw [hr.curr, hcur]; rfl
    have := move_spec hr (Spec.clip s.items.length (s.items.length - 1)) (fun k hk => clip_range hk)
    refine ⟨?_, this.2⟩
    rw [← this.1]
    unfold prev
    rw [hl]
    simp only [Option.bind_eq_bind, Option.bind_some, hr.rep.last, lastOf_getLast, ptr_clip]
  | some k =>
    simp only
    obtain ⟨i, d, h1, h2, h3, h4⟩ := curr_split hr hcur
    have hk := hr.inRange k hcur
    have := move_spec hr (if k = 0 then none else some (k - 1)) (fun j hj => by split at hj <;> simp at hj; omega)
    refine ⟨?_, this.2⟩
    rw [← this.1]
    unfold prev
    rw [h3]
    have e : ptr s.items (if k = 0 then none else some (k - 1)) = lastOf (s.items.take k) none := by
      rw [lastOf_take _ _ hk]
      by_cases hz : k = 0
      · rw [if_pos hz, if_pos hz]; rfl
      · rw [if_neg hz, if_neg hz]; rfl
    simp only [Option.bind_eq_bind, h4, Option.map_some, Option.bind_some, e]

theorem first_spec {h : Heap D} {l : Lst} {s : Spec.St D} (hr : Rel h l s) :
    first h l = some ({ l with curr := ptr s.items (Spec.clip s.items.length 0) },
        Spec.at s.items (Spec.clip s.items.length 0)) ∧
      Rel h { l with curr := ptr s.items (Spec.clip s.items.length 0) } ⟨s.items, Spec.clip s.items.length 0⟩ := by
  have := move_spec hr (Spec.clip s.items.length 0) (fun k hk => clip_range hk)
  refine ⟨?_, this.2⟩
  rw [← this.1]
  have e : l.first = ptr s.items (Spec.clip s.items.length 0) := by rw [hr.rep.first, nextOf_head, ptr_clip]
  rw [← e]
  unfold first readAt
  cases l.first <;> rfl

theorem last_spec {h : Heap D} {l : Lst} {s : Spec.St D} (hr : Rel h l s) :
    last h l = some ({ l with curr := ptr s.items (Spec.clip s.items.length (s.items.length - 1)) },
        Spec.at s.items (Spec.clip s.items.length (s.items.length - 1))) ∧
      Rel h { l with curr := ptr s.items (Spec.clip s.items.length (s.items.length - 1)) }
        ⟨s.items, Spec.clip s.items.length (s.items.length - 1)⟩ := by
  have := move_spec hr (Spec.clip s.items.length (s.items.length - 1)) (fun k hk => clip_range hk)
  refine ⟨?_, this.2⟩
  rw [← this.1]
  have e : l.last = ptr s.items (Spec.clip s.items.length (s.items.length - 1)) := by
    rw [hr.rep.last, lastOf_getLast, ptr_clip]
  rw [← e]
  unfold last readAt
  cases l.last <;> rfl

theorem searchLoop_spec (cmp : D → Hit) (w : Bool) (h : Heap D) (L : List (Nat × D)) (p : Option Nat) (fuel : Nat)
    (hs : Seg h p L none) (hf : L.length ≤ fuel) :
    searchLoop cmp w h fuel (nextOf L none) =
      match L.findIdx? (fun x => cmp x.2 == .yes || (w && cmp x.2 == .intError)) with
      | none => some (none, none, false)
      | some k => some ((L[k]?).map (·.1),
          if ((L[k]?).map (·.2)).any (fun d => cmp d == .yes) then ((L[k]?).map (·.2), false) else (none, true)) := by
  induction L generalizing p fuel with
  | nil => cases fuel <;> simp [nextOf, searchLoop]
  | cons x L ih =>
    obtain ⟨i, d⟩ := x
    obtain ⟨h1, h2⟩ := hs
    match fuel, hf with
    | fuel + 1, hf =>
      have ih' := ih (some i) fuel h2 (by simpa using hf)
      simp only [nextOf_cons, searchLoop, h1, Option.bind_eq_bind, Option.bind_some, List.findIdx?_cons]
      cases hc : cmp d with
      | yes => simp [hc]
      | no =>
        simp only [ih']
        have : ((Hit.no == Hit.yes) || (w && Hit.no == Hit.intError)) = false := by cases w <;> rfl
        rw [this]
        cases L.findIdx? (fun x => cmp x.2 == .yes || (w && cmp x.2 == .intError)) <;> simp
      | intError =>
        cases w with
        | true => simp [hc]
        | false =>
          simp only [Bool.false_eq_true, if_false, ih']
          have : ((Hit.intError == Hit.yes) || (false && Hit.intError == Hit.intError)) = false := rfl
          rw [this]
          cases L.findIdx? (fun x => cmp x.2 == .yes || (false && cmp x.2 == .intError)) <;> simp

theorem elmtLoop_spec [DecidableEq D] (d : D) (h : Heap D) (L : List (Nat × D)) (p : Option Nat) (fuel idx : Nat)
    (hs : Seg h p L none) (hf : L.length ≤ fuel) :
    elmtIndexLoop d h fuel (nextOf L none) idx = some ((L.findIdx? (fun x => x.2 == d)).map (· + idx)) := by
  induction L generalizing p fuel idx with
  | nil => cases fuel <;> simp [nextOf, elmtIndexLoop]
  | cons x L ih =>
    obtain ⟨i, e⟩ := x
    obtain ⟨h1, h2⟩ := hs
    match fuel, hf with
    | fuel + 1, hf =>
      have ih' := ih (some i) fuel (idx + 1) h2 (by simpa using hf)
      simp only [nextOf_cons, elmtIndexLoop, h1, Option.bind_eq_bind, Option.bind_some, List.findIdx?_cons]
      by_cases hc : e = d
      · simp [hc]
      · simp only [ne_eq, hc, not_false_eq_true, if_true, ih', beq_iff_eq, if_false]
        cases L.findIdx? (fun x => x.2 == d) with
        | none => simp
        | some k => simp; omega

theorem deleteAll_spec (h : Heap D) (L : List (Nat × D)) (p : Option Nat) (fuel : Nat) (cnt : Int) (hs : Seg h p L none)
    (hn : (ids L).Nodup) (hf : L.length ≤ fuel) :
    ∃ h', deleteAllLoop fuel h (nextOf L none) cnt = some (h', cnt - L.length) ∧ (∀ j, j ∉ ids L → h' j = h j) ∧
      (∀ j ∈ ids L, h' j = none) := by
  induction L generalizing p fuel cnt h with
  | nil => exact ⟨h, by cases fuel <;> simp [nextOf, deleteAllLoop], fun _ _ => rfl, fun j hj => by simp [ids] at hj⟩
  | cons x L ih =>
    obtain ⟨i, e⟩ := x
    obtain ⟨h1, h2⟩ := hs
    rw [ids_cons, List.nodup_cons] at hn
    match fuel, hf with
    | fuel + 1, hf =>
      have hs' : Seg (upd h i none) (some i) L none :=
        seg_frame h _ L _ _ h2 (fun j hj => upd_ne _ _ _ _ (fun e => hn.1 (e ▸ hj)))
      obtain ⟨h', e1, e2, e3⟩ := ih (upd h i none) (some i) fuel (cnt - 1) hs' hn.2 (by simpa using hf)
      refine ⟨h', ?_, ?_, ?_⟩
      · simp only [nextOf_cons, deleteAllLoop, h1, Option.bind_eq_bind, Option.bind_some, e1, List.length_cons]
        congr 2
        omega
      · intro j hj
        rw [ids_cons, List.mem_cons] at hj
        rw [e2 j (fun hm => hj (.inr hm)), upd_ne _ _ _ _ (fun e => hj (.inl e))]
      · intro j hj
        rw [ids_cons, List.mem_cons] at hj
        by_cases hm : j ∈ ids L
        · exact e3 j hm
        · rcases hj with rfl | hj
          · rw [e2 _ hm, upd_self]
          · exact absurd hj hm

theorem revLoop_spec (h : Heap D) (L : List (Nat × D)) (p : Option Nat) (fuel : Nat) (hs : Seg h p L none)
    (hn : (ids L).Nodup) (hf : L.length ≤ fuel) :
    ∃ h', revLoop fuel (nextOf L none) h = some h' ∧ Seg h' none L.reverse p ∧ (∀ j, j ∉ ids L → h' j = h j) := by
  induction L generalizing p fuel h with
  | nil => exact ⟨h, by cases fuel <;> simp [nextOf, revLoop], trivial, fun _ _ => rfl⟩
  | cons x L ih =>
    obtain ⟨i, e⟩ := x
    obtain ⟨h1, h2⟩ := hs
    rw [ids_cons, List.nodup_cons] at hn
    match fuel, hf with
    | fuel + 1, hf =>
      have hs' : Seg (upd h i (some ⟨nextOf L none, p, e⟩)) (some i) L none :=
        seg_frame h _ L _ _ h2 (fun j hj => upd_ne _ _ _ _ (fun e => hn.1 (e ▸ hj)))
      obtain ⟨h', e1, e2, e3⟩ := ih _ (some i) fuel hs' hn.2 (by simpa using hf)
      refine ⟨h', ?_, ?_, ?_⟩
      · simp only [nextOf_cons, revLoop, h1, Option.bind_eq_bind, Option.bind_some, e1]
      · rw [List.reverse_cons, seg_append]
        refine ⟨e2, ?_, trivial⟩
        rw [e3 i hn.1, upd_self]
        congr 2
        rw [lastOf_getLast, nextOf_head]
        cases L with
        | nil => rfl
        | cons y L =>
          rw [List.length_reverse, List.getElem?_reverse (by simp)]
          simp
      · intro j hj
        rw [ids_cons, List.mem_cons] at hj
        rw [e3 j (fun hm => hj (.inr hm)), upd_ne _ _ _ _ (fun e => hj (.inl e))]

theorem readLoop_spec (h : Heap D) (L : List (Nat × D)) (p : Option Nat) (fuel : Nat) (hs : Seg h p L none)
    (hf : L.length ≤ fuel) : readLoop h fuel (nextOf L none) = some (L.map (·.2)) := by
  induction L generalizing p fuel with
  | nil => cases fuel <;> simp [nextOf, readLoop]
  | cons x L ih =>
    obtain ⟨i, e⟩ := x
    obtain ⟨h1, h2⟩ := hs
    match fuel, hf with
    | fuel + 1, hf =>
      have := ih (some i) fuel h2 (by simpa using hf)
      simp only [nextOf_cons, readLoop, h1, Option.bind_eq_bind, Option.bind_some, this, List.map_cons]

theorem nextOf_zip (L : List (Nat × D)) (ds : List D) (hl : ds.length = L.length) (q : Option Nat) :
    nextOf ((L.map (·.1)).zip ds) q = nextOf L q := by
  cases L with
  | nil => rfl
  | cons x L =>
    cases ds with
    | nil => simp at hl
    | cons d ds => rfl

theorem writeLoop_spec (h : Heap D) (L : List (Nat × D)) (ds : List D) (p : Option Nat) (hs : Seg h p L none)
    (hn : (ids L).Nodup) (hl : ds.length = L.length) :
    ∃ h', writeLoop (nextOf L none) ds h = some h' ∧ Seg h' p ((L.map (·.1)).zip ds) none ∧
      (∀ j, j ∉ ids L → h' j = h j) := by
  induction L generalizing p ds h with
  | nil => exact ⟨h, by simp [nextOf, writeLoop], trivial, fun _ _ => rfl⟩
  | cons x L ih =>
    obtain ⟨i, e⟩ := x
    obtain ⟨h1, h2⟩ := hs
    rw [ids_cons, List.nodup_cons] at hn
    match ds, hl with
    | d :: ds, hl =>
      have hl' : ds.length = L.length := by simpa using hl
      have hs' : Seg (upd h i (some ⟨p, nextOf L none, d⟩)) (some i) L none :=
        seg_frame h _ L _ _ h2 (fun j hj => upd_ne _ _ _ _ (fun e => hn.1 (e ▸ hj)))
      obtain ⟨h', e1, e2, e3⟩ := ih _ ds (some i) hs' hn.2 hl'
      refine ⟨h', ?_, ⟨?_, e2⟩, ?_⟩
      · simp only [nextOf_cons, writeLoop, h1, Option.bind_eq_bind, Option.bind_some, e1]
      · rw [e3 i hn.1, upd_self]
        show some (Node.mk p (nextOf L none) d) = some ⟨p, nextOf ((L.map (·.1)).zip ds) none, d⟩
        rw [nextOf_zip L ds hl']
      · intro j hj
        rw [ids_cons, List.mem_cons] at hj
        rw [e3 j (fun hm => hj (.inr hm)), upd_ne _ _ _ _ (fun e => hj (.inl e))]

theorem lastOf_zip (L : List (Nat × D)) (ds : List D) (hl : ds.length = L.length) (p : Option Nat) :
    lastOf ((L.map (·.1)).zip ds) p = lastOf L p := by
  induction L generalizing ds p with
  | nil => rfl
  | cons x L ih =>
    cases ds with
    | nil => simp at hl
    | cons d ds => exact ih ds (by simpa using hl) _

theorem eraseIdx_split (L : List (Nat × D)) (k : Nat) : L.eraseIdx k = L.take k ++ L.drop (k + 1) :=
  List.eraseIdx_eq_take_drop_succ L k

theorem getElem?_split (a b : List (Nat × D)) (k : Nat) (hk : k = a.length) : (a ++ b)[k]? = b[0]? := by
  subst hk; rw [List.getElem?_append_right (Nat.le_refl _)]; simp

/-- The pointer of the cursor after removal of position `k`. -/
theorem ptr_erase_lt (L : List (Nat × D)) (k j : Nat) (hj : j < k) : (L.eraseIdx k)[j]? = L[j]? := by
  rw [List.getElem?_eraseIdx, if_pos hj]

theorem ptr_erase_ge (L : List (Nat × D)) (k j : Nat) (hj : k ≤ j) : (L.eraseIdx k)[j]? = L[j + 1]? := by
  rw [List.getElem?_eraseIdx, if_neg (by omega)]

theorem count_nat {h : Heap D} {l : Lst} {L : List (Nat × D)} (hr : Rep h l L) : l.count.toNat = L.length := by
  rw [hr.count]; simp

/-- `BSL_LIST_DeleteNode`'s loop, having passed the nodes `a`. -/
theorem deleteNodeLoop_spec (h : Heap D) (l : Lst) (target : Option Nat) (a b : List (Nat × D)) (fuel : Nat)
    (hr : Rep h l (a ++ b)) (hf : b.length ≤ fuel) :
    match target.bind fun t => b.findIdx? (fun x => x.1 == t) with
    | none => deleteNodeLoop target fuel (nextOf b none) h l = some (h, l)
    | some k => ∃ h' c dc, b[k]? = some (c, dc) ∧
        deleteNodeLoop target fuel (nextOf b none) h l =
          some (h', ⟨nextOf ((a ++ b).eraseIdx (a.length + k)) none, lastOf ((a ++ b).eraseIdx (a.length + k)) none,
            if some c = l.curr then nextOf (b.drop (k + 1)) none else l.curr, l.count - 1⟩) ∧
        Rep h' ⟨nextOf ((a ++ b).eraseIdx (a.length + k)) none, lastOf ((a ++ b).eraseIdx (a.length + k)) none,
            if some c = l.curr then nextOf (b.drop (k + 1)) none else l.curr, l.count - 1⟩
          ((a ++ b).eraseIdx (a.length + k)) := by
  induction b generalizing a fuel with
  | nil =>
    have : (target.bind fun t => ([] : List (Nat × D)).findIdx? (fun x => x.1 == t)) = none := by
      cases target <;> simp
    rw [this]
    cases fuel <;> simp [nextOf, deleteNodeLoop]
  | cons x b ih =>
    obtain ⟨c, dc⟩ := x
    match fuel, hf with
    | fuel + 1, hf =>
      have hnode := rep_node h none none a c dc b hr.seg
      by_cases ht : target = some c
      · subst ht
        have : ((some c).bind fun t => ((c, dc) :: b).findIdx? (fun x => x.1 == t)) = some 0 := by simp [List.findIdx?_cons]
        rw [this]
        obtain ⟨na, nb, nca, ncb, nab⟩ := nodup_split hr.nodup
        obtain ⟨_, h1, _, _, u1, u2, u3⟩ := unlink_spec h l a b c dc hr
        have herase : (a ++ (c, dc) :: b).eraseIdx (a.length + 0) = a ++ b := by
          rw [eraseIdx_split]; simp
        refine ⟨upd h1 c none, c, dc, rfl, ?_, ?_⟩
        · rw [herase]
          simp only [nextOf_cons, deleteNodeLoop, hnode, Option.bind_eq_bind, Option.bind_some, if_true, u1, u3 c nca ncb,
            Nat.zero_add, List.drop_succ_cons, List.drop_zero]
          by_cases hc : some c = l.curr
          · rw [if_pos hc, if_pos hc]
          · rw [if_neg hc, if_neg hc]
        · rw [herase]
          exact remove_rep h l a b c dc hr h1 u2 _
      · have hloop : deleteNodeLoop target (fuel + 1) (nextOf ((c, dc) :: b) none) h l =
            deleteNodeLoop target fuel (nextOf b none) h l := by
          simp only [nextOf_cons, deleteNodeLoop, hnode, Option.bind_eq_bind, Option.bind_some]
          rw [if_neg (fun e => ht e.symm)]
        have hfind : (target.bind fun t => ((c, dc) :: b).findIdx? (fun x => x.1 == t)) =
            (target.bind fun t => b.findIdx? (fun x => x.1 == t)).map (· + 1) := by
          cases target with
          | none => rfl
          | some t =>
            have : (c == t) = false := by
              rw [beq_eq_false_iff_ne]; intro e; exact ht (by rw [e])
            simp only [Option.bind_some, List.findIdx?_cons, this]
            rfl
        have := ih (a ++ [(c, dc)]) fuel (by rw [List.append_assoc]; exact hr) (by simpa using hf)
        rw [hfind, hloop]
        cases hk : (target.bind fun t => b.findIdx? (fun x => x.1 == t)) with
        | none => rw [hk] at this; exact this
        | some k =>
          rw [hk] at this
          obtain ⟨h', c', dc', e1, e2, e3⟩ := this
          have hidx : (a ++ [(c, dc)]).length + k = a.length + (k + 1) := by simp; omega
          rw [List.append_assoc, hidx] at e2 e3
          refine ⟨h', c', dc', by simpa using e1, ?_, ?_⟩
          · simpa using e2
          · simpa using e3

/-- Two positions have the same handle only if they are the same. -/
theorem nodup_index {L : List (Nat × D)} (hn : (ids L).Nodup) {j k : Nat} {x y : Nat × D} (hj : L[j]? = some x)
    (hk : L[k]? = some y) (he : x.1 = y.1) : j = k := by
  have hj' : (ids L)[j]? = some x.1 := by simp [ids, hj]
  have hk' : (ids L)[k]? = some y.1 := by simp [ids, hk]
  obtain ⟨hjl, _⟩ := List.getElem?_eq_some_iff.1 hj'
  exact (List.getElem?_inj hjl hn).1 (by rw [hj', hk', he])

theorem add_spec (max : Int) (h : Heap D) (l : Lst) (s : Spec.St D) (hr : Rel h l s) (mem : Option Nat) (d : D) (pos : Pos)
    (hmem : ∀ a, mem = some a → h a = none) :
    ∃ h' l', ((addElement max h l mem d pos).map fun (h, l, c) => (h, l, Out.code c)) =
        some (h', l', (Spec.add max mem s d pos).2) ∧ Rel h' l' (Spec.add max mem s d pos).1 := by
  unfold addElement Spec.add
  rw [hr.rep.count]
  by_cases hfull : (s.items.length : Int) ≥ max
  · rw [if_pos hfull, if_pos hfull]
    exact ⟨h, l, rfl, hr⟩
  · rw [if_neg hfull, if_neg hfull]
    by_cases hnil : s.items = []
    · have hcur : l.curr = none := by
        rw [hr.curr]
        cases hc : s.cur with
        | none => rfl
        | some k => have := hr.inRange k hc; rw [hnil] at this; simp at this
      rw [if_pos ⟨hcur, by rw [hr.rep.first, hnil]; rfl⟩, if_pos hnil]
      cases mem with
      | none => exact ⟨h, l, rfl, hr⟩
      | some n =>
        refine ⟨_, _, rfl, ⟨⟨⟨upd_self .., trivial⟩, by simp [ids], rfl, rfl, by simp [hnil]⟩, rfl, ?_⟩⟩
        intro k hk; simp at hk ⊢; omega
    · have hpos : 0 < s.items.length := List.length_pos_iff.2 hnil
      have hfirst : l.first ≠ none := by rw [hr.rep.first]; exact fun e => hnil ((nextOf_none _).1 e)
      rw [if_neg (fun e => hfirst e.2), if_neg hnil]
      -- the list with the cursor moved to the anchor
      obtain ⟨k, hk, hanchor⟩ : ∃ k, k < s.items.length ∧ Spec.anchor s pos = some k := by
        cases pos <;> simp only [Spec.anchor]
        · cases hc : s.cur with
          | none => exact ⟨0, hpos, rfl⟩
          | some k => exact ⟨k, hr.inRange k hc, rfl⟩
        · cases hc : s.cur with
          | none => exact ⟨s.items.length - 1, by omega, rfl⟩
          | some k => exact ⟨k, hr.inRange k hc, rfl⟩
        · exact ⟨0, hpos, rfl⟩
        · exact ⟨s.items.length - 1, by omega, rfl⟩
      obtain ⟨i, di, hki, hsplit⟩ := split_at s.items k hk
      have hfst : l.first = ptr s.items (some 0) := by rw [hr.rep.first, nextOf_head]; rfl
      have hlst : l.last = ptr s.items (some (s.items.length - 1)) := by rw [hr.rep.last, lastOf_getLast]; rfl
      have hptr : ptr s.items (some k) = some i := by simp [ptr, hki]
      have hl' : ∃ la : Lst, la = { l with curr := some i } := ⟨_, rfl⟩
      obtain ⟨la, hla⟩ := hl'
      have hrepa : Rep h la s.items := by
        rw [hla]; exact ⟨hr.rep.seg, hr.rep.nodup, hr.rep.first, hr.rep.last, hr.rep.count⟩
      have hcura : la.curr = some i := by rw [hla]
      rw [hanchor]
      simp only
      have hrepa' : Rep h la (s.items.take k ++ (i, di) :: s.items.drop (k + 1)) := by rw [← hsplit]; exact hrepa
      have hgo : anchor l pos = la := by
        rw [hla]
        cases pos <;> simp only [Spec.anchor] at hanchor
        · cases hc : s.cur with
          | none =>
            rw [hc] at hanchor
            simp only [Option.some.injEq] at hanchor
            have : l.curr = none := by rw [hr.curr, hc]; rfl
            simp [anchor, this, hfst, hanchor, hptr]
          | some k' =>
            rw [hc] at hanchor
            simp only [Option.some.injEq] at hanchor
            have : l.curr = some i := by rw [hr.curr, hc, hanchor, hptr]
            simp only [anchor, this, if_false, reduceCtorEq]
            rw [← this]
        · cases hc : s.cur with
          | none =>
            rw [hc] at hanchor
            simp only [Option.some.injEq] at hanchor
            have : l.curr = none := by rw [hr.curr, hc]; rfl
            simp [anchor, this, hlst, hanchor, hptr]
          | some k' =>
            rw [hc] at hanchor
            simp only [Option.some.injEq] at hanchor
            have : l.curr = some i := by rw [hr.curr, hc, hanchor, hptr]
            simp only [anchor, this, if_false, reduceCtorEq]
            rw [← this]
        · simp only [Option.some.injEq] at hanchor
          by_cases hc : l.curr = none <;> simp [anchor, hc, hfst, hanchor, hptr]
        · simp only [Option.some.injEq] at hanchor
          by_cases hc : l.curr = none <;> simp [anchor, hc, hlst, hanchor, hptr]
      rw [hgo]
      by_cases hafter : pos = .after ∨ pos = .end_
      · -- after
        rw [if_pos hafter, if_pos hafter]
        cases mem with
        | none =>
          simp only
          refine ⟨h, la, ?_, ⟨hrepa, by rw [hcura, hptr], fun j hj => by simp only [Option.some.injEq] at hj ⊢; omega⟩⟩
          unfold addAfterCurr; rw [hcura]; rfl
        | some n =>
          simp only
          obtain ⟨h', l', e1, e2, e3, _⟩ := addAfter_spec h la _ _ i di d n hrepa' hcura (hmem n rfl)
          have hins : Spec.insertAt s.items (k + 1) (n, d) =
              s.items.take k ++ (i, di) :: (n, d) :: s.items.drop (k + 1) := by
            unfold Spec.insertAt
            rw [List.take_succ, hki]; simp
          refine ⟨h', l', by rw [e1]; rfl, ⟨by rw [hins]; exact e2, ?_, ?_⟩⟩
          · rw [e3, hins]
            simp only [ptr, Option.bind_some]
            rw [List.getElem?_append_right (by rw [List.length_take]; omega)]
            have : k + 1 - (s.items.take k).length = 1 := by rw [List.length_take]; omega
            rw [this]; rfl
          · intro j hj
            simp only [Option.some.injEq] at hj
            rw [hins]
            simp only [List.length_append, List.length_take, List.length_cons, List.length_drop]
            omega
      · -- before
        rw [if_neg hafter, if_neg hafter]
        cases mem with
        | none =>
          simp only
          refine ⟨h, la, ?_, ⟨hrepa, by rw [hcura, hptr], fun j hj => by simp only [Option.some.injEq] at hj ⊢; omega⟩⟩
          unfold insertBeforeCurr; rw [hcura]; rfl
        | some n =>
          simp only
          obtain ⟨h', l', e1, e2, e3, _⟩ := insertBefore_spec h la _ _ i di d n hrepa' hcura (hmem n rfl)
          have hins : Spec.insertAt s.items k (n, d) =
              s.items.take k ++ (n, d) :: (i, di) :: s.items.drop (k + 1) := by
            unfold Spec.insertAt
            rw [List.drop_eq_getElem_cons hk]
            have : s.items[k] = (i, di) := by
              have := hki
              rw [List.getElem?_eq_getElem hk] at this
              simpa using this
            rw [this]
          refine ⟨h', l', by rw [e1]; rfl, ⟨by rw [hins]; exact e2, ?_, ?_⟩⟩
          · rw [e3, hins]
            simp only [ptr, Option.bind_some]
            rw [List.getElem?_append_right (by rw [List.length_take]; omega)]
            have : k - (s.items.take k).length = 0 := by rw [List.length_take]; omega
            rw [this]; rfl
          · intro j hj
            simp only [Option.some.injEq] at hj
            rw [hins]
            simp only [List.length_append, List.length_take, List.length_cons, List.length_drop]
            omega

theorem stepNext_spec {h : Heap D} (n : Nat) : ∀ {l : Lst} {s : Spec.St D} (k : Nat), Rel h l s → s.cur = some k →
    k + n < s.items.length → stepNext h n l = some ({ l with curr := ptr s.items (some (k + n)) }, true) := by
  induction n with
  | zero =>
    intro l s k hr hc hk
    simp only [stepNext]
    have := hr.curr
    rw [hc] at this
    rw [Nat.add_zero, ← this]
  | succ n ih =>
    intro l s k hr hc hk
    obtain ⟨c, hcdef, hnext, hrel⟩ := next_spec hr
    unfold Spec.nextPos at hcdef
    rw [hc] at hcdef
    simp only [Spec.clip, if_pos (show k + 1 < s.items.length by omega)] at hcdef
    subst hcdef
    obtain ⟨i, d, hi, _⟩ := node_at hr.rep (show k + 1 < s.items.length by omega)
    have hat : Spec.at s.items (some (k + 1)) = some d := by simp [Spec.at, hi]
    simp only [stepNext, hnext, Option.bind_eq_bind, Option.bind_some, hat]
    have := ih (k + 1) hrel rfl (by simp only; omega)
    rw [this]
    simp only
    rw [show k + 1 + n = k + (n + 1) by omega]

/-- One step: on a well-formed list the code never dereferences a bad pointer and always terminates, and result and
new state are those of the sequence with cursor. -/
theorem step_refines [DecidableEq D] (max : Int) (qsort : List D → List D) (hq : ∀ a, (qsort a).Perm a)
    (mem : Option Nat) (h : Heap D) (l : Lst) (s : Spec.St D) (hr : Rel h l s) (hmem : ∀ a, mem = some a → h a = none)
    (op : Op D) :
    ∃ h' l', step max qsort mem h l op = some (h', l', (Spec.step max qsort mem s op).2) ∧
      Rel h' l' (Spec.step max qsort mem s op).1 := by
  have hcount := count_nat hr.rep
  cases op with
  | add d pos => exact add_spec max h l s hr mem d pos hmem
  | deleteAll =>
    obtain ⟨h', e1, _, _⟩ := deleteAll_spec h s.items none (l.count.toNat + 1) l.count hr.rep.seg hr.rep.nodup (by omega)
    refine ⟨h', ⟨none, none, none, l.count - s.items.length⟩, ?_, ⟨⟨trivial, by simp [Spec.step, ids], rfl, rfl, ?_⟩, rfl, ?_⟩⟩
    · simp only [step, deleteAll, hr.rep.first, e1, Option.bind_eq_bind, Option.bind_some, Option.map_some, Spec.step]
    · simp [Spec.step, hr.rep.count]
    · intro k hk; simp [Spec.step] at hk
  | deleteCurrent =>
    simp only [step, Spec.step]
    cases hc : s.cur with
    | none =>
      have hl : l.curr = none := by rw [hr.curr, hc]; rfl
      exact ⟨h, l, by simp [deleteCurrent, hl], hr⟩
    | some k =>
      obtain ⟨i, d, h1, h2, h3, h4⟩ := curr_split hr hc
      have hk := hr.inRange k hc
      have hrep : Rep h l (s.items.take k ++ (i, d) :: s.items.drop (k + 1)) := by rw [← h2]; exact hr.rep
      obtain ⟨h', l', e1, e2, e3, _, _⟩ := deleteCurrent_spec h l _ _ i d hrep h3
      have hlen : (s.items.eraseIdx k).length = s.items.length - 1 := List.length_eraseIdx_of_lt hk
      refine ⟨h', l', by rw [e1]; rfl, ⟨by simp only; rw [eraseIdx_split]; exact e2, ?_, ?_⟩⟩
      · rw [e3, nextOf_drop, ← hlen]
        simp only
        rw [ptr_clip, ptr_erase_ge _ _ _ (Nat.le_refl _)]
      · intro j hj; simp only at hj ⊢; rw [hlen]; exact clip_range hj
  | detachCurrent =>
    simp only [step, Spec.step]
    cases hc : s.cur with
    | none =>
      have hl : l.curr = none := by rw [hr.curr, hc]; rfl
      exact ⟨h, l, by simp [detachCurrent, hl], hr⟩
    | some k =>
      obtain ⟨i, d, h1, h2, h3, h4⟩ := curr_split hr hc
      have hk := hr.inRange k hc
      have hrep : Rep h l (s.items.take k ++ (i, d) :: s.items.drop (k + 1)) := by rw [← h2]; exact hr.rep
      obtain ⟨h', l', e1, e2, e3, _, _⟩ := detachCurrent_spec h l _ _ i d hrep h3
      have hlen : (s.items.eraseIdx k).length = s.items.length - 1 := List.length_eraseIdx_of_lt hk
      refine ⟨h', l', by rw [e1]; rfl, ⟨by simp only; rw [eraseIdx_split]; exact e2, ?_, ?_⟩⟩
      · rw [e3]
        simp only
        by_cases hlast : k + 1 < s.items.length
        · rw [if_pos hlast, nextOf_ne _ (by simp; omega) _ none, nextOf_drop]
          simp only [ptr, Option.bind_some]
          rw [ptr_erase_ge _ _ _ (Nat.le_refl _)]
        · rw [if_neg hlast, ← hlen, ptr_clip, List.drop_of_length_le (by omega), nextOf, lastOf_take _ _ hk]
          by_cases hz : k = 0
          · rw [if_pos hz]
            have : s.items.eraseIdx k = [] := List.length_eq_zero_iff.1 (by omega)
            rw [this]; rfl
          · rw [if_neg hz, ptr_erase_lt _ _ _ (by omega)]
      · intro j hj
        simp only at hj ⊢
        split at hj
        · simp only [Option.some.injEq] at hj; omega
        · rw [hlen]; exact clip_range hj
  | deleteNode target =>
    have := deleteNodeLoop_spec h l target [] s.items (l.count.toNat + 1) hr.rep (by omega)
    simp only [step, Spec.step, deleteNode, hr.rep.first]
    cases hk : (target.bind fun t => s.items.findIdx? (fun x => x.1 == t)) with
    | none =>
      rw [hk] at this
      exact ⟨h, l, by rw [this]; rfl, hr⟩
    | some k =>
      rw [hk] at this
      obtain ⟨h', c, dc, e1, e2, e3⟩ := this
      simp only [List.nil_append, List.length_nil, Nat.zero_add] at e2 e3
      have hklt : k < s.items.length := (List.getElem?_eq_some_iff.1 e1).1
      have hlen : (s.items.eraseIdx k).length = s.items.length - 1 := List.length_eraseIdx_of_lt hklt
      refine ⟨h', _, by rw [e2]; rfl, ⟨e3, ?_, ?_⟩⟩
      · simp only
        cases hc : s.cur with
        | none =>
          have hl : l.curr = none := by rw [hr.curr, hc]; rfl
          rw [hl]; rfl
        | some j =>
          obtain ⟨i, d, h1, h2, h3, h4⟩ := curr_split hr hc
          rw [h3]
          simp only
          by_cases hjk : j = k
          · subst hjk
            rw [e1] at h1
            simp only [Option.some.injEq, Prod.mk.injEq] at h1
            rw [if_pos (by rw [h1.1]), if_neg (by omega), if_neg (by omega), ← hlen, ptr_clip, nextOf_drop,
              ptr_erase_ge _ _ _ (Nat.le_refl _)]
          · have hne : ¬ some c = some i := by
              intro e
              simp only [Option.some.injEq] at e
              exact hjk (nodup_index hr.rep.nodup h1 e1 (by simp [e]))
            rw [if_neg hne]
            by_cases hlt : j < k
            · rw [if_pos hlt]
              simp only [ptr, Option.bind_some]
              rw [ptr_erase_lt _ _ _ hlt, h1]; rfl
            · rw [if_neg hlt, if_pos (by omega)]
              simp only [ptr, Option.bind_some]
              rw [ptr_erase_ge _ _ _ (by omega), show j - 1 + 1 = j by omega, h1]; rfl
      · intro m hm
        simp only at hm ⊢
        rw [hlen]
        cases hc : s.cur with
        | none => rw [hc] at hm; simp at hm
        | some j =>
          have hj := hr.inRange j hc
          rw [hc] at hm
          simp only at hm
          split at hm
          · simp only [Option.some.injEq] at hm; omega
          · split at hm
            · simp only [Option.some.injEq] at hm; omega
            · exact clip_range hm
  | prev =>
    obtain ⟨c, hc, e1, e2⟩ := prev_spec hr
    subst hc
    exact ⟨h, _, by simp only [step, e1, Option.map_some, Spec.step, Spec.move], e2⟩
  | next =>
    obtain ⟨c, hc, e1, e2⟩ := next_spec hr
    subst hc
    exact ⟨h, _, by simp only [step, e1, Option.map_some, Spec.step, Spec.move], e2⟩
  | last =>
    obtain ⟨e1, e2⟩ := last_spec hr
    exact ⟨h, _, by simp only [step, e1, Option.map_some, Spec.step, Spec.move], e2⟩
  | first =>
    obtain ⟨e1, e2⟩ := first_spec hr
    exact ⟨h, _, by simp only [step, e1, Option.map_some, Spec.step, Spec.move], e2⟩
  | curr =>
    refine ⟨h, l, ?_, hr⟩
    simp only [step, Spec.step, currElmt]
    cases hc : s.cur with
    | none =>
      have hl : l.curr = none := by rw [hr.curr, hc]; rfl
      rw [hl]; rfl
    | some k =>
      obtain ⟨i, d, h1, h2, h3, h4⟩ := curr_split hr hc
      rw [h3]
      simp [h4, Spec.at, h1]
  | search cmp w =>
    have := searchLoop_spec cmp w h s.items none (l.count.toNat + 1) hr.rep.seg (by omega)
    simp only [step, Spec.step, LinkedList.search, hr.rep.first, this, Option.bind_eq_bind]
    cases hk : s.items.findIdx? (fun x => cmp x.2 == .yes || (w && cmp x.2 == .intError)) with
    | none => exact ⟨h, l, rfl, hr⟩
    | some k =>
      have hklt : k < s.items.length := by
        obtain ⟨hlt, _⟩ := List.findIdx?_eq_some_iff_getElem.1 hk
        exact hlt
      obtain ⟨i, d, h1, h2⟩ := node_at hr.rep hklt
      refine ⟨h, { l with curr := some i }, ?_, ⟨⟨hr.rep.seg, hr.rep.nodup, hr.rep.first, hr.rep.last, hr.rep.count⟩, ?_, ?_⟩⟩
      · simp only [Option.bind_some, h1, Option.map_some, Spec.at]
        by_cases hy : (cmp d == Hit.yes) = true
        · simp [hy, hr.rep.first]
        · simp [hy, hr.rep.first]
      · simp [ptr, h1]
      · intro j hj; simp only [Option.some.injEq] at hj ⊢; omega
  | getIndex i =>
    simp only [step, Spec.step, getIndexNode, hr.rep.count]
    by_cases hi : i < s.items.length
    · rw [if_neg (by omega), if_pos hi]
      obtain ⟨f1, f2⟩ := first_spec hr
      have hpos : 0 < s.items.length := by omega
      have hclip : Spec.clip s.items.length 0 = some 0 := if_pos hpos
      rw [hclip] at f1 f2
      obtain ⟨i0, d0, g1, _⟩ := node_at hr.rep hpos
      have hat : Spec.at s.items (some 0) = some d0 := by simp [Spec.at, g1]
      have hst := stepNext_spec i 0 f2 rfl (by simp only; omega)
      obtain ⟨ii, di, k1, k2⟩ := node_at hr.rep hi
      refine ⟨h, { l with curr := ptr s.items (some i) }, ?_,
        ⟨⟨hr.rep.seg, hr.rep.nodup, hr.rep.first, hr.rep.last, hr.rep.count⟩, rfl, ?_⟩⟩
      · simp only [Nat.zero_add] at hst
        have hp : ptr s.items (some i) = some ii := by simp [ptr, k1]
        rw [f1]
        simp only [Option.bind_eq_bind, Option.bind_some, hat, hst, if_true, hp, deref, k2, Option.map_some]
        simp [Spec.at, k1]
      · intro j hj; simp only [Option.some.injEq] at hj ⊢; omega
    · rw [if_pos (by omega), if_neg hi]
      exact ⟨h, l, rfl, hr⟩
  | elmtIndex d =>
    have := elmtLoop_spec d h s.items none (l.count.toNat + 1) 0 hr.rep.seg (by omega)
    refine ⟨h, l, ?_, hr⟩
    simp only [step, Spec.step, getElmtIndex, hr.rep.first, this, Option.map_some, Nat.add_zero]
    simp
  | rev =>
    obtain ⟨h', e1, e2, _⟩ := revLoop_spec h s.items none (l.count.toNat + 1) hr.rep.seg hr.rep.nodup (by omega)
    refine ⟨h', ⟨l.last, l.first, l.last, l.count⟩, ?_, ⟨⟨e2, ?_, ?_, ?_, ?_⟩, ?_, ?_⟩⟩
    · simp only [step, revList, hr.rep.first, e1, Option.bind_eq_bind, Option.bind_some, Option.map_some, Spec.step]
    · simp only [Spec.step, ids, List.map_reverse]
      exact ((List.reverse_perm _).nodup_iff).2 hr.rep.nodup
    · simp only [Spec.step, hr.rep.last, lastOf_getLast, nextOf_head]
      cases hx : s.items with
      | nil => rfl
      | cons y t => rw [List.getElem?_reverse (by simp)]; simp
    · simp only [Spec.step, hr.rep.first, lastOf_getLast, nextOf_head]
      cases hx : s.items with
      | nil => rfl
      | cons y t => rw [List.length_reverse, List.getElem?_reverse (by simp)]; simp
    · simp [Spec.step, hr.rep.count]
    · simp only [Spec.step]
      rw [← List.length_reverse, ptr_clip, hr.rep.last, lastOf_getLast]
      cases hx : s.items with
      | nil => rfl
      | cons y t => rw [List.getElem?_reverse (by simp)]; simp
    · intro k hk; simp only [Spec.step] at hk ⊢; rw [List.length_reverse]; exact clip_range hk
  | sort =>
    have hr1 := readLoop_spec h s.items none (l.count.toNat + 1) hr.rep.seg (by omega)
    have hlen : (qsort (s.items.map (·.2))).length = s.items.length := by
      rw [(hq _).length_eq, List.length_map]
    obtain ⟨h', e1, e2, _⟩ := writeLoop_spec h s.items (qsort (s.items.map (·.2))) none hr.rep.seg hr.rep.nodup hlen
    refine ⟨h', { l with curr := none }, ?_, ⟨⟨e2, ?_, ?_, ?_, ?_⟩, rfl, ?_⟩⟩
    · simp only [step, LinkedList.sort, hr.rep.first, hr1, e1, Option.bind_eq_bind, Option.bind_some, Option.map_some, Spec.step]
    · simp only [Spec.step, ids]
      rw [List.map_fst_zip (by rw [List.length_map, hlen]; exact Nat.le_refl _)]
      exact hr.rep.nodup
    · simp only [Spec.step]; rw [nextOf_zip _ _ hlen]; exact hr.rep.first
    · simp only [Spec.step]; rw [lastOf_zip _ _ hlen]; exact hr.rep.last
    · simp only [Spec.step, hr.rep.count]; rw [List.length_zip, List.length_map, hlen, Nat.min_self]
    · intro k hk; simp [Spec.step] at hk

/-- A history of operations on the sequence; `mems` gives for each operation the result of the allocator. -/
def Spec.run [DecidableEq D] (max : Int) (qsort : List D → List D) : List (Op D × Option Nat) → Spec.St D →
    Spec.St D × List (Out D)
  | [], s => (s, [])
  | (op, mem) :: ops, s =>
    let r := Spec.step max qsort mem s op
    let rest := Spec.run max qsort ops r.1
    (rest.1, r.2 :: rest.2)

/-- A history of operations on the model. The allocator is asked before each operation with the current memory (its
answer is used only by additions); the history is recorded with its answers. -/
def run [DecidableEq D] (max : Int) (qsort : List D → List D) (alloc : Nat → Heap D → Option Nat) : Nat → List (Op D) →
    Heap D → Lst → Option (Heap D × Lst × List (Op D × Option Nat) × List (Out D))
  | _, [], h, l => some (h, l, [], [])
  | t, op :: ops, h, l => do
    let (h', l', out) ← step max qsort (alloc t h) h l op
    let (h'', l'', hist, outs) ← run max qsort alloc (t + 1) ops h' l'
    some (h'', l'', (op, alloc t h) :: hist, out :: outs)

/-- Every history, from the empty list on, for every behaviour of the allocator that hands out free addresses or
fails: no bad pointer is ever used and no loop runs away, every output is the output of the sequence with cursor, and
the stored count is the number of elements. -/
theorem run_refines [DecidableEq D] (max : Int) (qsort : List D → List D) (hq : ∀ a, (qsort a).Perm a)
    (alloc : Nat → Heap D → Option Nat) (ha : ∀ t h a, alloc t h = some a → h a = none) (ops : List (Op D)) :
    ∃ h l hist, run max qsort alloc 0 ops (fun _ => none) new =
        some (h, l, hist, (Spec.run max qsort hist ⟨[], none⟩).2) ∧ hist.map (·.1) = ops ∧
      Rel h l (Spec.run max qsort hist ⟨[], none⟩).1 ∧
      l.count = (Spec.run max qsort hist ⟨[], none⟩).1.items.length := by
  have key : ∀ (ops : List (Op D)) (t : Nat) (h : Heap D) (l : Lst) (s : Spec.St D), Rel h l s →
      ∃ h' l' hist, run max qsort alloc t ops h l = some (h', l', hist, (Spec.run max qsort hist s).2) ∧
        hist.map (·.1) = ops ∧ Rel h' l' (Spec.run max qsort hist s).1 := by
    intro ops
    induction ops with
    | nil => intro t h l s hr; exact ⟨h, l, [], rfl, rfl, hr⟩
    | cons op ops ih =>
      intro t h l s hr
      obtain ⟨h1, l1, e1, e2⟩ := step_refines max qsort hq (alloc t h) h l s hr (ha t h) op
      obtain ⟨h2, l2, hist, f1, f2, f3⟩ := ih (t + 1) h1 l1 _ e2
      refine ⟨h2, l2, (op, alloc t h) :: hist, ?_, ?_, f3⟩
      · simp only [run, e1, Option.bind_eq_bind, Option.bind_some, f1]
        rfl
      · rw [List.map_cons, f2]
  have h0 : Rel (fun _ => none : Heap D) new ⟨[], none⟩ :=
    ⟨⟨trivial, by simp [ids], rfl, rfl, rfl⟩, rfl, fun k hk => by simp at hk⟩
  obtain ⟨h, l, hist, e1, e2, e3⟩ := key ops 0 _ _ _ h0
  exact ⟨h, l, hist, e1, e2, e3, e3.rep.count⟩

/-- Concatenation of two lists with different nodes: the sequence of the destination followed by that of the source;
refused, with nothing changed, when the sum of the counts exceeds the limit and the destination is not empty. -/
theorem concat_spec (max : Int) (h : Heap D) (dst src : Lst) (a b : List (Nat × D)) (ha : Rep h dst a) (hb : Rep h src b)
    (hdis : ∀ x ∈ ids a, x ∉ ids b) :
    ∃ h' dst' ok, concat max h dst src = some (h', dst', ok) ∧
      (ok = true ↔ b = [] ∨ a = [] ∨ (a.length + b.length : Int) ≤ max) ∧
      (ok = true → Rep h' dst' (a ++ b)) ∧ (ok = false → h' = h ∧ dst' = dst) := by
  unfold concat
  rw [ha.count, hb.count]
  by_cases h1 : b = []
  · subst h1
    refine ⟨h, dst, true, by simp, by simp, fun _ => by rw [List.append_nil]; exact ha, by simp⟩
  · have hbl : 0 < b.length := List.length_pos_iff.2 h1
    rw [if_neg (by omega)]
    by_cases h2 : a = []
    · subst h2
      refine ⟨h, ⟨src.first, src.last, src.first, b.length⟩, true, by simp, by simp,
        fun _ => ⟨hb.seg, hb.nodup, hb.first, hb.last, by simp⟩, by simp⟩
    · have hal : 0 < a.length := List.length_pos_iff.2 h2
      rw [if_neg (by omega)]
      by_cases h3 : (a.length : Int) + b.length > max
      · rw [if_pos h3]
        exact ⟨h, dst, false, rfl, by simp [h1, h2]; omega, by simp, fun _ => ⟨rfl, rfl⟩⟩
      · rw [if_neg h3]
        obtain ⟨h1', e1, e2, e3⟩ := setPrev_seg h b none none none dst.last h1 hb.seg hb.nodup
        have hsa : Seg h1' none a none := seg_frame h h1' a _ _ ha.seg (fun j hj => e3 j (hdis j hj))
        obtain ⟨h2', f1, f2, f3⟩ := setNext_seg h1' a none none none src.first h2 hsa ha.nodup
        refine ⟨h2', ⟨dst.first, src.last, dst.curr, (a.length : Int) + b.length⟩, true, ?_, ?_, ?_, by simp⟩
        · rw [hb.first, e1]
          simp only [Option.bind_eq_bind, Option.bind_some]
          rw [ha.last, ← hb.first, f1]
          rfl
        · simp; omega
        · intro _
          refine ⟨?_, nodup_join ha.nodup hb.nodup hdis, ?_, ?_, ?_⟩
          · rw [seg_append]
            refine ⟨by rw [← hb.first]; exact f2, ?_⟩
            rw [← ha.last]
            exact seg_frame h1' h2' b _ _ e2 (fun j hj => f3 j (fun hm => hdis j hm hj))
          · simp only
            rw [ha.first, nextOf_append, nextOf_ne a h2]
          · simp only
            rw [hb.last, lastOf_append, lastOf_ne b h1]
          · simp only [List.length_append]; omega

/-- Concatenation of a list with itself is outside the theorem above (the nodes are not different) and is not
refused: the one-element list becomes a ring, after which a search for an absent element does not end (the model's
loop, whose bound exceeds the stored count, runs out). -/
theorem concat_self_ring :
    ∃ (h : Heap Nat) (l : Lst), Rep h l [(7, 5)] ∧
      ∃ h' l', concat 100 h l l = some (h', l', true) ∧ (h' 7).map (·.next) = some (some 7) ∧
        LinkedList.search (fun d => if d = 6 then .yes else .no) false h' l' = none := by
  refine ⟨upd (fun _ => none) 7 (some ⟨none, none, 5⟩), ⟨some 7, some 7, some 7, 1⟩,
    ⟨⟨rfl, trivial⟩, by simp [ids], rfl, rfl, rfl⟩, _, _, rfl, rfl, rfl⟩

-- Non-vacuity: an allocator that hands out the free address `t` at step `t`; it meets the hypothesis of
-- `run_refines`, and a history of three additions, a cursor move, a deletion and a reversal.
def exAlloc (t : Nat) (h : Heap Nat) : Option Nat := match h t with | none => some t | some _ => none

example : ∀ t h a, exAlloc t h = some a → h a = none := by
  intro t h a e
  unfold exAlloc at e
  cases hh : h t with
  | none => rw [hh] at e; simp only [Option.some.injEq] at e; rw [← e]; exact hh
  | some n => rw [hh] at e; simp at e

example : ∀ a : List Nat, (id a).Perm a := fun _ => .refl _

example : ((run (D := Nat) 100 id exAlloc 0
    [.add 10 .end_, .add 20 .end_, .add 30 .begin, .next, .deleteCurrent, .rev, .first] (fun _ => none) new).map
      fun r => (r.2.1.count, r.2.2.2)) = some (2, [.code .success, .code .success, .code .success, .elem (some 10), .unit,
        .unit, .elem (some 20)]) := by rfl

end Verif.Bsl.LinkedList
