import Verif.Bsl.List.Model
/-! Representation invariant of the list and the effect of each operation on it. -/
namespace Verif.Bsl.LinkedList
variable {D : Type}

def ids (L : List (Nat × D)) : List Nat := L.map (·.1)

def nextOf : List (Nat × D) → Option Nat → Option Nat
  | [], q => q
  | (i, _) :: _, _ => some i

def lastOf : List (Nat × D) → Option Nat → Option Nat
  | [], p => p
  | (i, _) :: r, _ => lastOf r (some i)

/-- `L` is linked in the heap, the first node's `prev` is `p`, the last node's `next` is `q`. -/
def Seg (h : Heap D) : Option Nat → List (Nat × D) → Option Nat → Prop
  | _, [], _ => True
  | p, (i, d) :: r, q => h i = some ⟨p, nextOf r q, d⟩ ∧ Seg h (some i) r q

theorem nextOf_append (a b : List (Nat × D)) (q : Option Nat) : nextOf (a ++ b) q = nextOf a (nextOf b q) := by
  cases a <;> rfl

theorem lastOf_append (a b : List (Nat × D)) (p : Option Nat) : lastOf (a ++ b) p = lastOf b (lastOf a p) := by
  induction a generalizing p with
  | nil => rfl
  | cons x a ih => exact ih _

theorem lastOf_ne (a : List (Nat × D)) (hne : a ≠ []) (p q : Option Nat) : lastOf a p = lastOf a q := by
  cases a with
  | nil => exact absurd rfl hne
  | cons x a => rfl

theorem nextOf_ne (a : List (Nat × D)) (hne : a ≠ []) (p q : Option Nat) : nextOf a p = nextOf a q := by
  cases a with
  | nil => exact absurd rfl hne
  | cons x a => rfl

theorem lastOf_none (a : List (Nat × D)) : lastOf a none = none ↔ a = [] := by
  constructor
  · intro h
    match a with
    | [] => rfl
    | x :: a =>
      have key : ∀ (a : List (Nat × D)) (i : Nat), lastOf a (some i) ≠ none := by
        intro a
        induction a with
        | nil => intro i; simp [lastOf]
        | cons y a ih => intro i; exact ih _
      exact absurd h (key a x.1)
  · rintro rfl; rfl

theorem nextOf_none (a : List (Nat × D)) : nextOf a none = none ↔ a = [] := by
  cases a with
  | nil => simp [nextOf]
  | cons x a => simp [nextOf]

theorem seg_append (h : Heap D) (a b : List (Nat × D)) (p q : Option Nat) :
    Seg h p (a ++ b) q ↔ Seg h p a (nextOf b q) ∧ Seg h (lastOf a p) b q := by
  induction a generalizing p with
  | nil => simp [Seg, lastOf]
  | cons x a ih =>
    obtain ⟨i, d⟩ := x
    simp only [List.cons_append, Seg, nextOf_append, ih, lastOf, and_assoc]

theorem seg_frame (h h' : Heap D) (a : List (Nat × D)) (p q : Option Nat) (hs : Seg h p a q)
    (hf : ∀ i ∈ ids a, h' i = h i) : Seg h' p a q := by
  induction a generalizing p with
  | nil => trivial
  | cons x a ih =>
    obtain ⟨i, d⟩ := x
    obtain ⟨h1, h2⟩ := hs
    refine ⟨?_, ih _ h2 (fun j hj => hf j (List.mem_cons_of_mem _ hj))⟩
    rw [hf i (List.mem_cons_self ..)]; exact h1

theorem upd_self (h : Heap D) (i : Nat) (n : Option (Node D)) : upd h i n i = n := by simp [upd]
theorem upd_ne (h : Heap D) (i j : Nat) (n : Option (Node D)) (hne : j ≠ i) : upd h i n j = h j := by simp [upd, hne]

theorem setPrev_seg (h : Heap D) (b : List (Nat × D)) (p q q' v : Option Nat) (hne : b ≠ []) (hs : Seg h p b q)
    (hn : (ids b).Nodup) :
    ∃ h', setPrev h (nextOf b q') v = some h' ∧ Seg h' v b q ∧ ∀ j, j ∉ ids b → h' j = h j := by
  match b with
  | [] => exact absurd rfl hne
  | (i, d) :: b =>
    obtain ⟨h1, h2⟩ := hs
    simp only [ids, List.map_cons, List.nodup_cons] at hn
    refine ⟨upd h i (some ⟨v, nextOf b q, d⟩), ?_, ⟨upd_self .., ?_⟩, ?_⟩
    · simp only [nextOf, setPrev, h1, Option.map_some]
    · exact seg_frame h _ b _ _ h2 (fun j hj => upd_ne _ _ _ _ (fun e => hn.1 (e ▸ hj)))
    · intro j hj
      exact upd_ne _ _ _ _ (fun e => hj (by rw [e]; simp [ids]))

theorem setNext_seg (h : Heap D) (a : List (Nat × D)) (p p' q v : Option Nat) (hne : a ≠ []) (hs : Seg h p a q)
    (hn : (ids a).Nodup) :
    ∃ h', setNext h (lastOf a p') v = some h' ∧ Seg h' p a v ∧ ∀ j, j ∉ ids a → h' j = h j := by
  induction a generalizing p p' with
  | nil => exact absurd rfl hne
  | cons x a ih =>
    obtain ⟨i, d⟩ := x
    obtain ⟨h1, h2⟩ := hs
    simp only [ids, List.map_cons, List.nodup_cons] at hn
    by_cases ha : a = []
    · subst ha
      refine ⟨upd h i (some ⟨p, v, d⟩), ?_, ⟨upd_self .., trivial⟩, ?_⟩
      · simp only [lastOf, setNext, h1, Option.map_some]
      · intro j hj
        exact upd_ne _ _ _ _ (fun e => hj (by rw [e]; simp [ids]))
    · obtain ⟨h', e1, e2, e3⟩ := ih (some i) (some i) ha h2 hn.2
      refine ⟨h', e1, ⟨?_, e2⟩, ?_⟩
      · rw [e3 i hn.1, h1, nextOf_ne a ha q v]
      · intro j hj
        exact e3 j (fun hm => hj (List.mem_cons_of_mem _ hm))

theorem backLink_spec (h : Heap D) (l : Lst) (b : List (Nat × D)) (p v : Option Nat) (hs : Seg h p b none)
    (hn : (ids b).Nodup) (hl : b ≠ [] → l.last = lastOf b v) :
    ∃ h', backLink h l (nextOf b none) v = some (h', { l with last := lastOf b v }) ∧ Seg h' v b none ∧
      (∀ j, j ∉ ids b → h' j = h j) := by
  by_cases hb : b = []
  · subst hb
    exact ⟨h, rfl, trivial, fun _ _ => rfl⟩
  · obtain ⟨h1, e1, e2, e3⟩ := setPrev_seg h b p none none v hb hs hn
    obtain ⟨x, hx⟩ := Option.ne_none_iff_exists'.1 (fun e => hb ((nextOf_none b).1 e) : nextOf b none ≠ none)
    refine ⟨h1, ?_, e2, e3⟩
    rw [hx] at e1 ⊢
    simp only [backLink, e1, Option.map_some, ← hl hb]

theorem fwdLink_spec (h : Heap D) (l : Lst) (a : List (Nat × D)) (q v : Option Nat) (hs : Seg h none a q)
    (hn : (ids a).Nodup) (hl : a ≠ [] → l.first = nextOf a v) :
    ∃ h', fwdLink h l (lastOf a none) v = some (h', { l with first := nextOf a v }) ∧ Seg h' none a v ∧
      (∀ j, j ∉ ids a → h' j = h j) := by
  by_cases ha : a = []
  · subst ha
    exact ⟨h, rfl, trivial, fun _ _ => rfl⟩
  · obtain ⟨h1, e1, e2, e3⟩ := setNext_seg h a none none q v ha hs hn
    obtain ⟨x, hx⟩ := Option.ne_none_iff_exists'.1 (fun e => ha ((lastOf_none a).1 e) : lastOf a none ≠ none)
    refine ⟨h1, ?_, e2, e3⟩
    rw [hx] at e1 ⊢
    simp only [fwdLink, e1, Option.map_some, ← hl ha]

theorem fwdLink_curr (h : Heap D) (l : Lst) (p v : Option Nat) (h' : Heap D) (l' : Lst) (cur : Option Nat)
    (e : fwdLink h l p v = some (h', l')) :
    fwdLink h { l with curr := cur } p v = some (h', { l' with curr := cur }) := by
  unfold fwdLink at *
  cases p with
  | none =>
    simp only [Option.some.injEq, Prod.mk.injEq] at e
    rw [← e.1, ← e.2]
  | some i =>
    simp only at e ⊢
    cases hs : setNext h (some i) v with
    | none => rw [hs] at e; simp at e
    | some h2 =>
      rw [hs] at e
      simp only [Option.map_some, Option.some.injEq, Prod.mk.injEq] at e ⊢
      rw [← e.1, ← e.2]
      simp

/-- The list structure `l` in heap `h` holds the nodes and elements `L`. -/
structure Rep (h : Heap D) (l : Lst) (L : List (Nat × D)) : Prop where
  seg : Seg h none L none
  nodup : (ids L).Nodup
  first : l.first = nextOf L none
  last : l.last = lastOf L none
  count : l.count = L.length

theorem ids_append (a b : List (Nat × D)) : ids (a ++ b) = ids a ++ ids b := List.map_append ..

theorem ids_cons (i : Nat) (d : D) (b : List (Nat × D)) : ids ((i, d) :: b) = i :: ids b := rfl

theorem nodup_split {a : List (Nat × D)} {c : Nat} {d : D} {b : List (Nat × D)} (h : (ids (a ++ (c, d) :: b)).Nodup) :
    (ids a).Nodup ∧ (ids b).Nodup ∧ c ∉ ids a ∧ c ∉ ids b ∧ (∀ x ∈ ids a, x ∉ ids b) := by
  rw [ids_append, ids_cons, List.nodup_append] at h
  obtain ⟨h1, h2, h3⟩ := h
  rw [List.nodup_cons] at h2
  refine ⟨h1, h2.2, ?_, h2.1, ?_⟩
  · intro hc; exact h3 c hc c (List.mem_cons_self ..) rfl
  · intro x hx hb; exact h3 x hx x (List.mem_cons_of_mem _ hb) rfl

theorem nodup_join {a b : List (Nat × D)} (ha : (ids a).Nodup) (hb : (ids b).Nodup) (hab : ∀ x ∈ ids a, x ∉ ids b) :
    (ids (a ++ b)).Nodup := by
  rw [ids_append, List.nodup_append]
  exact ⟨ha, hb, fun x hx y hy e => hab x hx (e ▸ hy)⟩

/-- Address of the `k`-th node. -/
theorem rep_node (h : Heap D) (p q : Option Nat) (a : List (Nat × D)) (c : Nat) (d : D) (b : List (Nat × D))
    (hs : Seg h p (a ++ (c, d) :: b) q) : h c = some ⟨lastOf a p, nextOf b q, d⟩ := by
  rw [seg_append] at hs
  exact hs.2.1

/-- Adding after the node `c`. -/
theorem addAfter_spec (h : Heap D) (l : Lst) (a b : List (Nat × D)) (c : Nat) (dc d : D) (n : Nat)
    (hr : Rep h l (a ++ (c, dc) :: b)) (hc : l.curr = some c) (hfree : h n = none) :
    ∃ h' l', addAfterCurr h l (some n) d = some (h', l', .success) ∧ Rep h' l' (a ++ (c, dc) :: (n, d) :: b) ∧
      l'.curr = some n ∧ (∀ j, j ∉ ids (a ++ (c, dc) :: b) → j ≠ n → h' j = h j) := by
  have hnode := rep_node h none none a c dc b hr.seg
  obtain ⟨na, nb, nca, ncb, nab⟩ := nodup_split hr.nodup
  have hnc : c ≠ n := by rintro rfl; rw [hfree] at hnode; simp at hnode
  have hnotin : n ∉ ids (a ++ (c, dc) :: b) := by
    intro hm
    have : ∀ (L : List (Nat × D)) (p q : Option Nat), Seg h p L q → n ∈ ids L → h n ≠ none := by
      intro L
      induction L with
      | nil => intro p q _ hm; simp [ids] at hm
      | cons x L ih =>
        obtain ⟨i, e⟩ := x
        intro p q hs hm
        rw [ids_cons, List.mem_cons] at hm
        rcases hm with rfl | hm
        · rw [hs.1]; simp
        · exact ih _ _ hs.2 hm
    exact this _ _ _ hr.seg hm hfree
  have hna : n ∉ ids a := fun hm => hnotin (by rw [ids_append]; exact List.mem_append_left _ hm)
  have hnb : n ∉ ids b := fun hm => hnotin (by rw [ids_append, ids_cons]; exact List.mem_append_right _ (List.mem_cons_of_mem _ hm))
  have hseg := (seg_append ..).1 hr.seg
  let h2 : Heap D := upd (upd h n (some ⟨none, none, d⟩)) n (some ⟨some c, nextOf b none, d⟩)
  have h2ne : ∀ j, j ≠ n → h2 j = h j := by
    intro j hj; show upd _ _ _ _ = _; rw [upd_ne _ _ _ _ hj, upd_ne _ _ _ _ hj]
  have hsb : Seg h2 (some c) b none := seg_frame h h2 b _ _ hseg.2.2 (fun j hj => h2ne j (fun e => hnb (e ▸ hj)))
  obtain ⟨h3, q1, q2, q3⟩ := backLink_spec h2 l b (some c) (some n) hsb nb (fun hb => by
    have := hr.last
    rw [lastOf_append] at this
    rw [this, lastOf_ne b hb (some n) (some c)]; rfl)
  have hc3 : h3 c = some ⟨lastOf a none, nextOf b none, dc⟩ := by rw [q3 c ncb, h2ne c hnc, hnode]
  have hn3 : h3 n = some ⟨some c, nextOf b none, d⟩ := by rw [q3 n hnb]; exact upd_self ..
  let h4 : Heap D := upd h3 c (some ⟨lastOf a none, some n, dc⟩)
  have h4ne : ∀ j, j ≠ c → h4 j = h3 j := fun j hj => upd_ne _ _ _ _ hj
  refine ⟨h4, { l with last := lastOf b (some n), curr := some n, count := l.count + 1 }, ?_, ?_, rfl, ?_⟩
  · unfold addAfterCurr
    rw [hc]
    simp only [upd_ne _ _ _ _ hnc, hnode, Option.bind_eq_bind, Option.bind_some]
    have q1' := q1
    simp only [h2] at q1'
    rw [q1']
    simp only [Option.bind_some, setNext, hc3, Option.map_some]
    rfl
  · refine ⟨?_, ?_, ?_, ?_, ?_⟩
    · rw [seg_append]
      refine ⟨?_, ?_, ?_, ?_⟩
      · show Seg h4 none a (some c)
        refine seg_frame h h4 a _ _ hseg.1 (fun j hj => ?_)
        rw [h4ne j (fun e => nca (e ▸ hj)), q3 j (nab j hj), h2ne j (fun e => hna (e ▸ hj))]
      · exact upd_self ..
      · rw [h4ne n (Ne.symm hnc), hn3]
      · exact seg_frame h3 h4 b _ _ q2 (fun j hj => h4ne j (fun e => ncb (e ▸ hj)))
    · rw [show a ++ (c, dc) :: (n, d) :: b = (a ++ [(c, dc)]) ++ ((n, d) :: b) by simp]
      refine nodup_join ?_ ?_ ?_
      · exact nodup_join na (by simp [ids]) (fun x hx hx' => nca (by simp [ids] at hx'; exact hx' ▸ hx))
      · rw [ids_cons, List.nodup_cons]; exact ⟨hnb, nb⟩
      · intro x hx hx'
        rw [ids_append, List.mem_append] at hx
        rw [ids_cons, List.mem_cons] at hx'
        rcases hx with hx | hx
        · rcases hx' with rfl | hx'
          · exact hna hx
          · exact nab x hx hx'
        · simp [ids] at hx
          subst hx
          rcases hx' with e | hx'
          · exact hnc e
          · exact ncb hx'
    · simp only
      rw [hr.first, nextOf_append, nextOf_append]; rfl
    · rw [lastOf_append]; rfl
    · simp only [hr.count, List.length_append, List.length_cons]; omega
  · intro j hj hjn
    rw [ids_append, ids_cons, List.mem_append, List.mem_cons] at hj
    rw [h4ne j (fun e => hj (.inr (.inl e))), q3 j (fun e => hj (.inr (.inr e))), h2ne j hjn]

/-- Addresses of linked nodes are allocated. -/
theorem seg_alloc (h : Heap D) (n : Nat) (hfree : h n = none) (L : List (Nat × D)) (p q : Option Nat) (hs : Seg h p L q) :
    n ∉ ids L := by
  induction L generalizing p with
  | nil => simp [ids]
  | cons x L ih =>
    obtain ⟨i, e⟩ := x
    rw [ids_cons, List.mem_cons]
    rintro (rfl | hm)
    · rw [hs.1] at hfree; simp at hfree
    · exact ih _ hs.2 hm

/-- Inserting before the node `c`. -/
theorem insertBefore_spec (h : Heap D) (l : Lst) (a b : List (Nat × D)) (c : Nat) (dc d : D) (n : Nat)
    (hr : Rep h l (a ++ (c, dc) :: b)) (hc : l.curr = some c) (hfree : h n = none) :
    ∃ h' l', insertBeforeCurr h l (some n) d = some (h', l', .success) ∧ Rep h' l' (a ++ (n, d) :: (c, dc) :: b) ∧
      l'.curr = some n ∧ (∀ j, j ∉ ids (a ++ (c, dc) :: b) → j ≠ n → h' j = h j) := by
  have hnode := rep_node h none none a c dc b hr.seg
  obtain ⟨na, nb, nca, ncb, nab⟩ := nodup_split hr.nodup
  have hnc : c ≠ n := by rintro rfl; rw [hfree] at hnode; simp at hnode
  have hnotin : n ∉ ids (a ++ (c, dc) :: b) := seg_alloc h n hfree _ _ _ hr.seg
  have hna : n ∉ ids a := fun hm => hnotin (by rw [ids_append]; exact List.mem_append_left _ hm)
  have hnb : n ∉ ids b := fun hm => hnotin (by rw [ids_append, ids_cons]; exact List.mem_append_right _ (List.mem_cons_of_mem _ hm))
  have hseg := (seg_append ..).1 hr.seg
  let h2 : Heap D := upd (upd h n (some ⟨none, none, d⟩)) n (some ⟨lastOf a none, some c, d⟩)
  have h2ne : ∀ j, j ≠ n → h2 j = h j := by
    intro j hj; show upd _ _ _ _ = _; rw [upd_ne _ _ _ _ hj, upd_ne _ _ _ _ hj]
  have hsa : Seg h2 none a (some c) := seg_frame h h2 a _ _ hseg.1 (fun j hj => h2ne j (fun e => hna (e ▸ hj)))
  obtain ⟨h3, q1, q2, q3⟩ := fwdLink_spec h2 l a (some c) (some n) hsa na (fun ha => by
    have := hr.first
    rw [nextOf_append] at this
    rw [this, nextOf_ne a ha (some n) _])
  have hc3 : h3 c = some ⟨lastOf a none, nextOf b none, dc⟩ := by rw [q3 c nca, h2ne c hnc, hnode]
  have hn3 : h3 n = some ⟨lastOf a none, some c, d⟩ := by rw [q3 n hna]; exact upd_self ..
  let h4 : Heap D := upd h3 c (some ⟨some n, nextOf b none, dc⟩)
  have h4ne : ∀ j, j ≠ c → h4 j = h3 j := fun j hj => upd_ne _ _ _ _ hj
  refine ⟨h4, { l with first := nextOf a (some n), curr := some n, count := l.count + 1 }, ?_, ?_, rfl, ?_⟩
  · unfold insertBeforeCurr
    rw [hc]
    simp only [upd_ne _ _ _ _ hnc, hnode, Option.bind_eq_bind, Option.bind_some]
    have q1' := q1
    simp only [h2] at q1'
    rw [q1']
    simp only [Option.bind_some, setPrev, hc3, Option.map_some]
    rfl
  · refine ⟨?_, ?_, ?_, ?_, ?_⟩
    · rw [seg_append]
      refine ⟨?_, ?_, ?_, ?_⟩
      · exact seg_frame h3 h4 a _ _ q2 (fun j hj => h4ne j (fun e => nca (e ▸ hj)))
      · rw [h4ne n (Ne.symm hnc), hn3]; rfl
      · exact upd_self ..
      · refine seg_frame h h4 b _ _ hseg.2.2 (fun j hj => ?_)
        rw [h4ne j (fun e => ncb (e ▸ hj)), q3 j (fun hm => nab j hm hj), h2ne j (fun e => hnb (e ▸ hj))]
    · rw [show a ++ (n, d) :: (c, dc) :: b = a ++ ((n, d) :: (c, dc) :: b) by simp]
      refine nodup_join na ?_ ?_
      · rw [ids_cons, ids_cons, List.nodup_cons, List.nodup_cons, List.mem_cons]
        exact ⟨fun e => e.elim (fun e => hnc e.symm) hnb, ncb, nb⟩
      · intro x hx hx'
        rw [ids_cons, ids_cons, List.mem_cons, List.mem_cons] at hx'
        rcases hx' with rfl | rfl | hx'
        · exact hna hx
        · exact nca hx
        · exact nab x hx hx'
    · rw [nextOf_append]; rfl
    · simp only
      rw [hr.last, lastOf_append, lastOf_append]; rfl
    · simp only [hr.count, List.length_append, List.length_cons]; omega
  · intro j hj hjn
    rw [ids_append, ids_cons, List.mem_append, List.mem_cons] at hj
    rw [h4ne j (fun e => hj (.inr (.inl e))), q3 j (fun e => hj (.inl e)), h2ne j hjn]

/-- Unlinking the node `c`. -/
theorem unlink_spec (h : Heap D) (l : Lst) (a b : List (Nat × D)) (c : Nat) (dc : D)
    (hr : Rep h l (a ++ (c, dc) :: b)) :
    ∃ h1 h', backLink h l (nextOf b none) (lastOf a none) = some (h1, { l with last := lastOf b (lastOf a none) }) ∧
      (∀ cur, fwdLink h1 ⟨l.first, lastOf b (lastOf a none), cur, l.count⟩ (lastOf a none) (nextOf b none) =
        some (h', ⟨nextOf (a ++ b) none, lastOf (a ++ b) none, cur, l.count⟩)) ∧
      unlink h l ⟨lastOf a none, nextOf b none, dc⟩ =
        some (h', ⟨nextOf (a ++ b) none, lastOf (a ++ b) none, l.curr, l.count⟩) ∧
      Seg h' none (a ++ b) none ∧ (∀ j, j ∉ ids a → j ∉ ids b → h' j = h j) := by
  obtain ⟨na, nb, nca, ncb, nab⟩ := nodup_split hr.nodup
  have hseg := (seg_append ..).1 hr.seg
  obtain ⟨h1, q1, q2, q3⟩ := backLink_spec h l b (some c) (lastOf a none) hseg.2.2 nb (fun hb => by
    have := hr.last
    rw [lastOf_append] at this
    rw [this, lastOf_ne b hb (lastOf a none) (some c)]; rfl)
  have hsa : Seg h1 none a (some c) := seg_frame h h1 a _ _ hseg.1 (fun j hj => q3 j (nab j hj))
  obtain ⟨h2, r1, r2, r3⟩ := fwdLink_spec h1 { l with last := lastOf b (lastOf a none) } a (some c) (nextOf b none) hsa na
    (fun ha => by
      have := hr.first
      rw [nextOf_append] at this
      show l.first = _
      rw [this, nextOf_ne a ha (nextOf b none) _])
  refine ⟨h1, h2, q1, ?_, ?_, ?_, ?_⟩
  · intro cur
    rw [nextOf_append, lastOf_append]
    exact fwdLink_curr _ _ _ _ _ _ cur r1
  · rw [nextOf_append, lastOf_append]
    unfold unlink
    simp only [Option.bind_eq_bind, q1, Option.bind_some, r1]
  · rw [seg_append]
    exact ⟨r2, seg_frame h1 h2 b _ _ q2 (fun j hj => r3 j (fun hm => nab j hm hj))⟩
  · intro j hj1 hj2
    rw [r3 j hj1, q3 j hj2]

/-- Removing the node `c` from the representation. -/
theorem remove_rep (h : Heap D) (l : Lst) (a b : List (Nat × D)) (c : Nat) (dc : D)
    (hr : Rep h l (a ++ (c, dc) :: b)) (h' : Heap D) (hs : Seg h' none (a ++ b) none) (cur : Option Nat) :
    Rep (upd h' c none) ⟨nextOf (a ++ b) none, lastOf (a ++ b) none, cur, l.count - 1⟩ (a ++ b) := by
  obtain ⟨na, nb, nca, ncb, nab⟩ := nodup_split hr.nodup
  refine ⟨?_, nodup_join na nb nab, rfl, rfl, ?_⟩
  · refine seg_frame h' _ _ _ _ hs (fun j hj => upd_ne _ _ _ _ ?_)
    rintro rfl
    rw [ids_append, List.mem_append] at hj
    exact hj.elim nca ncb
  · have := hr.count
    simp only [List.length_append, List.length_cons] at this ⊢
    omega

theorem deleteCurrent_spec (h : Heap D) (l : Lst) (a b : List (Nat × D)) (c : Nat) (dc : D)
    (hr : Rep h l (a ++ (c, dc) :: b)) (hc : l.curr = some c) :
    ∃ h' l', deleteCurrent h l = some (h', l') ∧ Rep h' l' (a ++ b) ∧ l'.curr = nextOf b none ∧ h' c = none ∧
      (∀ j, j ∉ ids (a ++ (c, dc) :: b) → h' j = h j) := by
  have hnode := rep_node h none none a c dc b hr.seg
  obtain ⟨na, nb, nca, ncb, nab⟩ := nodup_split hr.nodup
  obtain ⟨_, h1, _, _, u1, u2, u3⟩ := unlink_spec h l a b c dc hr
  refine ⟨upd h1 c none, ⟨nextOf (a ++ b) none, lastOf (a ++ b) none, nextOf b none, l.count - 1⟩, ?_, ?_, rfl,
    upd_self .., ?_⟩
  · unfold deleteCurrent
    simp only [hc, hnode, Option.bind_eq_bind, Option.bind_some, u1, u3 c nca ncb]
  · exact remove_rep h l a b c dc hr h1 u2 _
  · intro j hj
    rw [ids_append, ids_cons, List.mem_append, List.mem_cons] at hj
    rw [upd_ne _ _ _ _ (fun e => hj (.inr (.inl e))), u3 j (fun e => hj (.inl e)) (fun e => hj (.inr (.inr e)))]

theorem detachCurrent_spec (h : Heap D) (l : Lst) (a b : List (Nat × D)) (c : Nat) (dc : D)
    (hr : Rep h l (a ++ (c, dc) :: b)) (hc : l.curr = some c) :
    ∃ h' l', detachCurrent h l = some (h', l') ∧ Rep h' l' (a ++ b) ∧ l'.curr = nextOf b (lastOf a none) ∧ h' c = none ∧
      (∀ j, j ∉ ids (a ++ (c, dc) :: b) → h' j = h j) := by
  have hnode := rep_node h none none a c dc b hr.seg
  obtain ⟨na, nb, nca, ncb, nab⟩ := nodup_split hr.nodup
  obtain ⟨h0, h1, w1, w2, _, u2, u3⟩ := unlink_spec h l a b c dc hr
  refine ⟨upd h1 c none, ⟨nextOf (a ++ b) none, lastOf (a ++ b) none, nextOf b (lastOf a none), l.count - 1⟩, ?_, ?_, rfl,
    upd_self .., ?_⟩
  · unfold detachCurrent
    simp only [hc, hnode, Option.bind_eq_bind, Option.bind_some]
    rw [w1]
    simp only [Option.bind_some]
    have hcur : (if nextOf b none = none then lastOf b (lastOf a none) else nextOf b none) = nextOf b (lastOf a none) := by
      cases b <;> rfl
    rw [hcur, w2]
    rfl
  · exact remove_rep h l a b c dc hr h1 u2 _
  · intro j hj
    rw [ids_append, ids_cons, List.mem_append, List.mem_cons] at hj
    rw [upd_ne _ _ _ _ (fun e => hj (.inr (.inl e))), u3 j (fun e => hj (.inl e)) (fun e => hj (.inr (.inr e)))]

end Verif.Bsl.LinkedList
