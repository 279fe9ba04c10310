import Verif.Bsl.Avl.Model
/-! Rebalancing restores balance and keeps the sequence of entries. -/
namespace Verif.Bsl.Avl
variable {α : Type}

theorem gh0 : getHeight (.nil : Tree α) = 0 := rfl
theorem gh1 (h : Nat) (l : Tree α) (k : Nat) (d : α) (r : Tree α) : getHeight (.node h l k d r) = h := rfl

/-- The entries in order. -/
def toList : Tree α → List (Nat × α)
  | .nil => []
  | .node _ l k d r => toList l ++ (k, d) :: toList r

/-- Stored heights are right and siblings differ by at most one. -/
def Bal : Tree α → Prop
  | .nil => True
  | .node h l _ _ r => h = max (getHeight l) (getHeight r) + 1 ∧ getHeight l ≤ getHeight r + 1 ∧
      getHeight r ≤ getHeight l + 1 ∧ Bal l ∧ Bal r

theorem updHeight_lt {h : Nat} (hh : h < 64) (l : Tree α) (k : Nat) (d : α) (r : Tree α) :
    updHeight h l k d r = .node (max (getHeight l) (getHeight r) + 1) l k d r := by
  unfold updHeight; rw [if_neg (by omega)]

theorem rebalanceRight_spec {h : Nat} {l : Tree α} {k : Nat} {d : α} {r : Tree α} (hh : h < 64) (bl : Bal l) (br : Bal r)
    (h1 : getHeight r ≤ getHeight l + 2) (h2 : getHeight l ≤ getHeight r + 1) (h3 : getHeight r < 64) :
    ∃ t, rebalanceRight h l k d r = some t ∧ Bal t ∧ toList t = toList l ++ (k, d) :: toList r ∧
      (getHeight r ≤ getHeight l + 1 → getHeight t = max (getHeight l) (getHeight r) + 1) ∧
      (getHeight r = getHeight l + 2 → getHeight r ≤ getHeight t ∧ getHeight t ≤ getHeight r + 1) := by
  unfold rebalanceRight
  by_cases hc : getHeight l + 1 ≥ getHeight r
  · rw [if_pos hc, updHeight_lt hh]
    exact ⟨_, rfl, ⟨rfl, by omega, by omega, bl, br⟩, rfl, fun _ => rfl, fun h => by omega⟩
  · rw [if_neg hc]
    cases r with
    | nil => simp only [gh0, gh1] at hc; omega
    | node hr rl rk rd rr =>
      obtain ⟨b1, b2, b3, b4, b5⟩ := br
      simp only [gh0, gh1] at h1 h2 h3 hc ⊢
      simp only [leftHigher, Option.bind_eq_bind, Option.bind_some]
      by_cases hx : getHeight rl > getHeight rr
      · simp only [hx, decide_true, if_true]
        cases rl with
        | nil => simp only [gh0, gh1] at hx; omega
        | node hrl a ak ad b =>
          obtain ⟨c1, c2, c3, c4, c5⟩ := b4
          simp only [gh0, gh1] at b1 b2 b3 hx
          simp only [rotateRight, Option.bind_some]
          rw [updHeight_lt (h := hr) (by omega), updHeight_lt (h := hrl) (by omega)]
          simp only [rotateLeft]
          rw [updHeight_lt hh, updHeight_lt (by simp only [gh0, gh1]; omega)]
          refine ⟨_, rfl, ⟨rfl, ?_, ?_, ⟨rfl, ?_, ?_, bl, c4⟩, ⟨rfl, ?_, ?_, c5, b5⟩⟩, by simp [toList], fun _ => ?_, fun _ => ?_⟩ <;>
            (try simp only [gh0, gh1]) <;> omega
      · simp only [hx, decide_false, Bool.false_eq_true, if_false, Option.bind_some, rotateLeft]
        rw [updHeight_lt hh, updHeight_lt (by omega)]
        refine ⟨_, rfl, ⟨rfl, ?_, ?_, ⟨rfl, ?_, ?_, bl, b4⟩, b5⟩, by simp [toList], fun _ => ?_, fun _ => ?_⟩ <;>
          (try simp only [gh0, gh1]) <;> omega

theorem rebalanceLeft_spec {h : Nat} {l : Tree α} {k : Nat} {d : α} {r : Tree α} (hh : h < 64) (bl : Bal l) (br : Bal r)
    (h1 : getHeight l ≤ getHeight r + 2) (h2 : getHeight r ≤ getHeight l + 1) (h3 : getHeight l < 64) :
    ∃ t, rebalanceLeft h l k d r = some t ∧ Bal t ∧ toList t = toList l ++ (k, d) :: toList r ∧
      (getHeight l ≤ getHeight r + 1 → getHeight t = max (getHeight l) (getHeight r) + 1) ∧
      (getHeight l = getHeight r + 2 → getHeight l ≤ getHeight t ∧ getHeight t ≤ getHeight l + 1) := by
  unfold rebalanceLeft
  by_cases hc : getHeight r + 1 ≥ getHeight l
  · rw [if_pos hc, updHeight_lt hh]
    exact ⟨_, rfl, ⟨rfl, by omega, by omega, bl, br⟩, rfl, fun _ => rfl, fun h => by omega⟩
  · rw [if_neg hc]
    cases l with
    | nil => simp only [gh0, gh1] at hc; omega
    | node hl ll lk ld lr =>
      obtain ⟨b1, b2, b3, b4, b5⟩ := bl
      simp only [gh0, gh1] at h1 h2 h3 hc ⊢
      simp only [rightHigher, Option.bind_eq_bind, Option.bind_some]
      by_cases hx : getHeight lr > getHeight ll
      · simp only [hx, decide_true, if_true]
        cases lr with
        | nil => simp only [gh0, gh1] at hx; omega
        | node hlr a ak ad b =>
          obtain ⟨c1, c2, c3, c4, c5⟩ := b5
          simp only [gh0, gh1] at b1 b2 b3 hx
          simp only [rotateLeft, Option.bind_some]
          rw [updHeight_lt (h := hl) (by omega), updHeight_lt (h := hlr) (by omega)]
          simp only [rotateRight]
          rw [updHeight_lt hh, updHeight_lt (by simp only [gh0, gh1]; omega)]
          refine ⟨_, rfl, ⟨rfl, ?_, ?_, ⟨rfl, ?_, ?_, b4, c4⟩, ⟨rfl, ?_, ?_, c5, br⟩⟩, by simp [toList], fun _ => ?_, fun _ => ?_⟩ <;>
            (try simp only [gh0, gh1]) <;> omega
      · simp only [hx, decide_false, Bool.false_eq_true, if_false, Option.bind_some, rotateRight]
        rw [updHeight_lt hh, updHeight_lt (by omega)]
        refine ⟨_, rfl, ⟨rfl, ?_, ?_, b4, ⟨rfl, ?_, ?_, b5, br⟩⟩, by simp [toList], fun _ => ?_, fun _ => ?_⟩ <;>
          (try simp only [gh0, gh1]) <;> omega

/-! ### Sorted association lists -/

/-- Strictly increasing ids. -/
def Srt (l : List (Nat × α)) : Prop := l.Pairwise (fun a b => a.1 < b.1)

/-- Sorted insertion. -/
def ins (id : Nat) (x : α) : List (Nat × α) → List (Nat × α)
  | [] => [(id, x)]
  | e :: l => if e.1 < id then e :: ins id x l else (id, x) :: e :: l

def find (l : List (Nat × α)) (id : Nat) : Option α := (l.find? (fun e => e.1 = id)).map (·.2)

theorem ins_append_lt (id : Nat) (x : α) (l r : List (Nat × α)) (k : Nat) (d : α) (hk : k > id) (hl : ∀ e ∈ l, e.1 < k) :
    ins id x (l ++ (k, d) :: r) = ins id x l ++ (k, d) :: r := by
  induction l with
  | nil => simp only [List.nil_append, ins]; rw [if_neg (by omega)]; rfl
  | cons e l ih =>
    simp only [List.cons_append, ins]
    split
    · rw [ih (fun e he => hl e (by simp [he]))]; rfl
    · rfl

theorem ins_append_gt (id : Nat) (x : α) (l r : List (Nat × α)) (k : Nat) (d : α) (hk : k < id) (hl : ∀ e ∈ l, e.1 < k) :
    ins id x (l ++ (k, d) :: r) = l ++ (k, d) :: ins id x r := by
  induction l with
  | nil => simp only [List.nil_append, ins]; rw [if_pos hk]
  | cons e l ih =>
    simp only [List.cons_append, ins]
    rw [if_pos (by have := hl e (by simp); omega), ih (fun e he => hl e (by simp [he]))]

theorem srt_node {l r : List (Nat × α)} {k : Nat} {d : α} :
    Srt (l ++ (k, d) :: r) ↔ Srt l ∧ Srt r ∧ (∀ e ∈ l, e.1 < k) ∧ (∀ e ∈ r, k < e.1) := by
  unfold Srt
  rw [List.pairwise_append, List.pairwise_cons]
  constructor
  · rintro ⟨h1, ⟨h2, h3⟩, h4⟩
    exact ⟨h1, h3, fun e he => h4 e he (k, d) (by simp), fun e he => h2 e he⟩
  · rintro ⟨h1, h2, h3, h4⟩
    refine ⟨h1, ⟨fun e he => h4 e he, h2⟩, ?_⟩
    intro a ha b hb
    rcases List.mem_cons.1 hb with rfl | hb
    · exact h3 a ha
    · exact Nat.lt_trans (h3 a ha) (h4 b hb)

theorem find_append (l r : List (Nat × α)) (id : Nat) : find (l ++ r) id = (find l id).or (find r id) := by
  unfold find
  rw [List.find?_append]
  cases List.find? (fun e => decide (e.1 = id)) l <;> rfl

theorem find_none (l : List (Nat × α)) (id : Nat) (h : ∀ e ∈ l, e.1 ≠ id) : find l id = none := by
  unfold find
  rw [List.find?_eq_none.2 (by simpa using h)]; rfl

theorem find_cons (e : Nat × α) (l : List (Nat × α)) (id : Nat) : find (e :: l) id = if e.1 = id then some e.2 else find l id := by
  unfold find
  rw [List.find?_cons]
  by_cases h : e.1 = id <;> simp [h]

theorem search_eq (t : Tree α) (id : Nat) (hs : Srt (toList t)) : search t id = find (toList t) id := by
  induction t with
  | nil => rfl
  | node h l k d r ihl ihr =>
    obtain ⟨s1, s2, s3, s4⟩ := srt_node.1 hs
    simp only [search, toList]
    rw [find_append, find_cons]
    by_cases h1 : k = id
    · rw [if_pos h1, if_pos h1, find_none _ _ (fun e he => by have := s3 e he; omega)]; rfl
    · rw [if_neg h1]
      simp only [h1, if_false]
      by_cases h2 : k > id
      · rw [if_pos h2, ihl s1, find_none (toList r) _ (fun e he => by have := s4 e he; omega), Option.or_none]
      · rw [if_neg h2, ihr s2, find_none (toList l) _ (fun e he => by have := s3 e he; omega), Option.none_or]

theorem ins_mem (id : Nat) (x : α) (l : List (Nat × α)) (e : Nat × α) (he : e ∈ ins id x l) : e = (id, x) ∨ e ∈ l := by
  induction l with
  | nil => simp only [ins, List.mem_singleton] at he; exact .inl he
  | cons a l ih =>
    unfold ins at he
    split at he
    · rcases List.mem_cons.1 he with rfl | he
      · simp
      · rcases ih he with h | h <;> simp [h]
    · rcases List.mem_cons.1 he with rfl | he
      · simp
      · exact .inr he

theorem ins_srt (id : Nat) (x : α) (l : List (Nat × α)) (h : Srt l) (hn : ∀ e ∈ l, e.1 ≠ id) : Srt (ins id x l) := by
  unfold Srt at *
  induction l with
  | nil => simp [ins]
  | cons a l ih =>
    have ha := List.pairwise_cons.1 h
    unfold ins
    split
    case isTrue hc =>
      refine List.pairwise_cons.2 ⟨?_, ih ha.2 (fun e he => hn e (by simp [he]))⟩
      intro e he
      rcases ins_mem id x l e he with rfl | he
      · exact hc
      · exact ha.1 e he
    case isFalse hc =>
      refine List.pairwise_cons.2 ⟨?_, h⟩
      have := hn a (by simp)
      intro e he
      rcases List.mem_cons.1 he with rfl | he
      · simp only; omega
      · have := ha.1 e he; simp only; omega

theorem ins_find (id : Nat) (x : α) (l : List (Nat × α)) (hn : ∀ e ∈ l, e.1 ≠ id) (j : Nat) :
    find (ins id x l) j = if j = id then some x else find l j := by
  induction l with
  | nil => simp only [ins, find_cons]; by_cases h : id = j <;> simp [h, find, Eq.comm]
  | cons a l ih =>
    unfold ins
    have h0 := hn a (by simp)
    split
    · rw [find_cons, find_cons, ih (fun e he => hn e (by simp [he]))]
      by_cases h1 : a.1 = j
      · rw [if_pos h1, if_pos h1, if_neg (by omega)]
      · rw [if_neg h1, if_neg h1]
    · rw [find_cons]
      by_cases h1 : j = id
      · rw [if_pos h1.symm, if_pos h1]
      · rw [if_neg (fun h => h1 h.symm), if_neg h1]

theorem ins_length (id : Nat) (x : α) (l : List (Nat × α)) : (ins id x l).length = l.length + 1 := by
  induction l with
  | nil => rfl
  | cons a l ih => unfold ins; split <;> simp [ih]

/-! ### Insertion -/

theorem insert_spec (t : Tree α) (id : Nat) (x : α) (hb : Bal t) (hs : Srt (toList t)) (hh : getHeight t < 64)
    (hn : ∀ e ∈ toList t, e.1 ≠ id) :
    ∃ t', insert t id x = some t' ∧ Bal t' ∧ toList t' = ins id x (toList t) ∧
      getHeight t ≤ getHeight t' ∧ getHeight t' ≤ getHeight t + 1 := by
  induction t with
  | nil => exact ⟨_, rfl, ⟨rfl, by simp [gh0, gh1], by simp [gh0, gh1], trivial, trivial⟩, rfl, by simp [gh0, gh1], by simp [gh0, gh1]⟩
  | node h l k d r ihl ihr =>
    obtain ⟨s1, s2, s3, s4⟩ := srt_node.1 hs
    obtain ⟨b1, b2, b3, b4, b5⟩ := hb
    simp only [gh0, gh1] at hh
    unfold insert
    by_cases h1 : k > id
    · obtain ⟨l', e1, e2, e3, e4, e5⟩ := ihl b4 s1 (by omega) (fun e he => hn e (by simp [toList, he]))
      rw [if_pos h1]
      simp only [e1, Option.bind_eq_bind, Option.bind_some]
      obtain ⟨t, r1, r2, r3, r4, r5⟩ := rebalanceLeft_spec (k := k) (d := d) hh e2 b5 (by omega) (by omega) (by omega)
      refine ⟨t, r1, r2, ?_, ?_, ?_⟩
      · rw [r3, e3, toList, ins_append_lt _ _ _ _ _ _ h1 s3]
      · simp only [gh0, gh1]
        by_cases hc : getHeight l' ≤ getHeight r + 1
        · have := r4 hc; omega
        · have := r5 (by omega); omega
      · simp only [gh0, gh1]
        by_cases hc : getHeight l' ≤ getHeight r + 1
        · have := r4 hc; omega
        · have := r5 (by omega); omega
    · have hne : k ≠ id := hn (k, d) (by simp [toList])
      have h2 : k < id := by omega
      obtain ⟨r', e1, e2, e3, e4, e5⟩ := ihr b5 s2 (by omega) (fun e he => hn e (by simp [toList, he]))
      rw [if_neg h1, if_pos h2]
      simp only [e1, Option.bind_eq_bind, Option.bind_some]
      obtain ⟨t, r1, r2, r3, r4, r5⟩ := rebalanceRight_spec (k := k) (d := d) hh b4 e2 (by omega) (by omega) (by omega)
      refine ⟨t, r1, r2, ?_, ?_, ?_⟩
      · rw [r3, e3, toList, ins_append_gt _ _ _ _ _ _ h2 s3]
      · simp only [gh0, gh1]
        by_cases hc : getHeight r' ≤ getHeight l + 1
        · have := r4 hc; omega
        · have := r5 (by omega); omega
      · simp only [gh0, gh1]
        by_cases hc : getHeight r' ≤ getHeight l + 1
        · have := r4 hc; omega
        · have := r5 (by omega); omega

/-! ### Deletion -/

theorem deleteMax_spec (t : Tree α) (hb : Bal t) (hh : getHeight t < 64) (hne : t ≠ .nil) :
    ∃ t' k d, deleteMax t = some (t', k, d) ∧ Bal t' ∧ toList t = toList t' ++ [(k, d)] ∧
      getHeight t' ≤ getHeight t ∧ getHeight t ≤ getHeight t' + 1 := by
  induction t with
  | nil => exact absurd rfl hne
  | node h l k d r ihl ihr =>
    obtain ⟨b1, b2, b3, b4, b5⟩ := hb
    cases r with
    | nil =>
      simp only [gh0, gh1] at b1 b2 b3 hh
      exact ⟨l, k, d, rfl, b4, rfl, by simp only [gh0, gh1]; omega, by simp only [gh0, gh1]; omega⟩
    | node h' l' k' d' r' =>
      simp only [gh0, gh1] at hh b1 b2 b3
      obtain ⟨r2, k2, d2, e1, e2, e3, e4, e5⟩ := ihr b5 (by simp only [gh0, gh1]; omega) (by simp)
      simp only [gh0, gh1] at e4 e5
      obtain ⟨t, q1, q2, q3, q4, q5⟩ := rebalanceLeft_spec (k := k) (d := d) hh b4 e2 (by omega) (by omega) (by omega)
      refine ⟨t, k2, d2, ?_, q2, ?_, ?_, ?_⟩
      · simp only [deleteMax, e1, Option.bind_eq_bind, Option.bind_some, q1]
      · rw [q3, toList, e3]; simp
      · simp only [gh0, gh1]
        by_cases hc : getHeight l ≤ getHeight r2 + 1
        · have := q4 hc; omega
        · have := q5 (by omega); omega
      · simp only [gh0, gh1]
        by_cases hc : getHeight l ≤ getHeight r2 + 1
        · have := q4 hc; omega
        · have := q5 (by omega); omega

/-- The list without the id. -/
def del (id : Nat) (l : List (Nat × α)) : List (Nat × α) := l.filter (fun e => e.1 ≠ id)

theorem del_none (id : Nat) (l : List (Nat × α)) (h : ∀ e ∈ l, e.1 ≠ id) : del id l = l := by
  unfold del; rw [List.filter_eq_self]; simpa using h

theorem del_node (id : Nat) (l r : List (Nat × α)) (k : Nat) (d : α) (s3 : ∀ e ∈ l, e.1 < k) (s4 : ∀ e ∈ r, k < e.1) :
    del id (l ++ (k, d) :: r) = if k = id then l ++ r else if k > id then del id l ++ (k, d) :: r else l ++ (k, d) :: del id r := by
  have hap : ∀ a b : List (Nat × α), del id (a ++ b) = del id a ++ del id b := fun a b => by simp [del]
  have hc : del id ((k, d) :: r) = if k = id then del id r else (k, d) :: del id r := by
    unfold del; rw [List.filter_cons]; by_cases h : k = id <;> simp [h]
  rw [hap, hc]
  by_cases h1 : k = id
  · simp only [h1, if_true]
    rw [del_none _ _ (fun e he => by have := s3 e he; omega), del_none _ _ (fun e he => by have := s4 e he; omega)]
  · simp only [h1, if_false]
    by_cases h2 : k > id
    · rw [if_pos h2, del_none id r (fun e he => by have := s4 e he; omega)]
    · rw [if_neg h2, del_none id l (fun e he => by have := s3 e he; omega)]

theorem delete_spec (t : Tree α) (id : Nat) (hb : Bal t) (hs : Srt (toList t)) (hh : getHeight t < 64) :
    ∃ t', delete t id = some t' ∧ Bal t' ∧ toList t' = del id (toList t) ∧
      getHeight t' ≤ getHeight t ∧ getHeight t ≤ getHeight t' + 1 := by
  induction t with
  | nil => exact ⟨_, rfl, trivial, rfl, by omega, by omega⟩
  | node h l k d r ihl ihr =>
    obtain ⟨s1, s2, s3, s4⟩ := srt_node.1 hs
    obtain ⟨b1, b2, b3, b4, b5⟩ := hb
    simp only [gh0, gh1] at hh
    rw [toList, del_node _ _ _ _ _ s3 s4]
    unfold delete
    by_cases h1 : k = id
    · rw [if_pos h1, if_pos h1]
      match l, r, b1, b2, b3, b4, b5 with
      | .nil, r, b1, b2, b3, b4, b5 =>
        simp only [gh0, gh1] at b1 b2 b3
        exact ⟨r, rfl, b5, by simp [toList], by simp only [gh0, gh1]; omega, by simp only [gh0, gh1]; omega⟩
      | .node hl ll lk ld lr, .nil, b1, b2, b3, b4, b5 =>
        simp only [gh0, gh1] at b1 b2 b3
        exact ⟨_, rfl, b4, by simp [toList], by simp only [gh0, gh1]; omega, by simp only [gh0, gh1]; omega⟩
      | .node hl ll lk ld lr, .node hr rl rk rd rr, b1, b2, b3, b4, b5 =>
        simp only [gh0, gh1] at b1 b2 b3
        obtain ⟨l', k2, d2, e1, e2, e3, e4, e5⟩ := deleteMax_spec _ b4 (by simp only [gh0, gh1]; omega) (by simp)
        simp only [gh0, gh1] at e4 e5
        obtain ⟨t, q1, q2, q3, q4, q5⟩ := rebalanceRight_spec (h := h) (l := l') (k := k2) (d := d2) hh e2 b5
          (by simp only [gh0, gh1]; omega) (by simp only [gh0, gh1]; omega) (by simp only [gh0, gh1]; omega)
        simp only [gh0, gh1] at q4 q5
        refine ⟨t, ?_, q2, ?_, ?_, ?_⟩
        · simp only [e1, Option.bind_eq_bind, Option.bind_some, q1]
        · rw [q3, e3]; simp
        · simp only [gh0, gh1]
          by_cases hc : hr ≤ getHeight l' + 1
          · have := q4 hc; omega
          · have := q5 (by omega); omega
        · simp only [gh0, gh1]
          by_cases hc : hr ≤ getHeight l' + 1
          · have := q4 hc; omega
          · have := q5 (by omega); omega
    · rw [if_neg h1, if_neg h1]
      by_cases h2 : k > id
      · rw [if_pos h2, if_pos h2]
        obtain ⟨l', e1, e2, e3, e4, e5⟩ := ihl b4 s1 (by omega)
        obtain ⟨t, q1, q2, q3, q4, q5⟩ := rebalanceRight_spec (k := k) (d := d) hh e2 b5 (by omega) (by omega) (by omega)
        refine ⟨t, by simp only [e1, Option.bind_eq_bind, Option.bind_some, q1], q2, by rw [q3, e3], ?_, ?_⟩
        · simp only [gh0, gh1]
          by_cases hc : getHeight r ≤ getHeight l' + 1
          · have := q4 hc; omega
          · have := q5 (by omega); omega
        · simp only [gh0, gh1]
          by_cases hc : getHeight r ≤ getHeight l' + 1
          · have := q4 hc; omega
          · have := q5 (by omega); omega
      · rw [if_neg h2, if_neg h2]
        obtain ⟨r', e1, e2, e3, e4, e5⟩ := ihr b5 s2 (by omega)
        obtain ⟨t, q1, q2, q3, q4, q5⟩ := rebalanceLeft_spec (k := k) (d := d) hh b4 e2 (by omega) (by omega) (by omega)
        refine ⟨t, by simp only [e1, Option.bind_eq_bind, Option.bind_some, q1], q2, by rw [q3, e3], ?_, ?_⟩
        · simp only [gh0, gh1]
          by_cases hc : getHeight l ≤ getHeight r' + 1
          · have := q4 hc; omega
          · have := q5 (by omega); omega
        · simp only [gh0, gh1]
          by_cases hc : getHeight l ≤ getHeight r' + 1
          · have := q4 hc; omega
          · have := q5 (by omega); omega

theorem del_find (id : Nat) (l : List (Nat × α)) (j : Nat) : find (del id l) j = if j = id then none else find l j := by
  induction l with
  | nil => simp [del, find]
  | cons a l ih =>
    have hc : del id (a :: l) = if a.1 = id then del id l else a :: del id l := by
      unfold del; rw [List.filter_cons]; by_cases h : a.1 = id <;> simp [h]
    rw [hc, find_cons]
    by_cases h1 : a.1 = id
    · rw [if_pos h1, ih]
      by_cases h2 : j = id
      · rw [if_pos h2, if_pos h2]
      · rw [if_neg h2, if_neg h2, if_neg (by omega)]
    · rw [if_neg h1, find_cons, ih]
      by_cases h2 : a.1 = j
      · rw [if_pos h2, if_pos h2, if_neg (by omega)]
      · rw [if_neg h2, if_neg h2]

theorem del_srt (id : Nat) (l : List (Nat × α)) (h : Srt l) : Srt (del id l) := h.sublist List.filter_sublist

theorem del_length (id : Nat) (l : List (Nat × α)) (h : Srt l) :
    (del id l).length + (if (find l id).isSome then 1 else 0) = l.length := by
  unfold Srt at h
  induction l with
  | nil => simp [del, find]
  | cons a l ih =>
    have ha := List.pairwise_cons.1 h
    have hc : del id (a :: l) = if a.1 = id then del id l else a :: del id l := by
      unfold del; rw [List.filter_cons]; by_cases h : a.1 = id <;> simp [h]
    rw [hc, find_cons]
    have hi := ih ha.2
    by_cases h1 : a.1 = id
    · rw [if_pos h1, if_pos h1, del_none _ _ (fun e he => by have := ha.1 e he; omega)]; simp
    · rw [if_neg h1, if_neg h1]; simp only [List.length_cons]; omega

/-! ### Replacing data -/

theorem setData_spec (t : Tree α) (id : Nat) (x : α) (hs : Srt (toList t)) :
    getHeight (setData t id x) = getHeight t ∧ (Bal t → Bal (setData t id x)) ∧
      toList (setData t id x) = (toList t).map (fun e => if e.1 = id then (id, x) else e) := by
  induction t with
  | nil => exact ⟨rfl, fun h => h, rfl⟩
  | node h l k d r ihl ihr =>
    obtain ⟨s1, s2, s3, s4⟩ := srt_node.1 hs
    obtain ⟨l1, l2, l3⟩ := ihl s1
    obtain ⟨r1, r2, r3⟩ := ihr s2
    have hml : k ≤ id → (toList l).map (fun e => if e.1 = id then (id, x) else e) = toList l := by
      intro hk
      rw [List.map_congr_left (g := fun e => e) (fun e he => by rw [if_neg]; have := s3 e he; omega)]; simp
    have hmr : k ≥ id → (toList r).map (fun e => if e.1 = id then (id, x) else e) = toList r := by
      intro hk
      rw [List.map_congr_left (g := fun e => e) (fun e he => by rw [if_neg]; have := s4 e he; omega)]; simp
    unfold setData
    by_cases h1 : k = id
    · rw [if_pos h1]
      refine ⟨rfl, fun h => h, ?_⟩
      simp only [toList, List.map_append, List.map_cons]
      rw [hml (by omega), hmr (by omega), if_pos h1, h1]
    · rw [if_neg h1]
      by_cases h2 : k > id
      · rw [if_pos h2]
        refine ⟨rfl, ?_, ?_⟩
        · rintro ⟨b1, b2, b3, b4, b5⟩; exact ⟨by rw [l1]; exact b1, by omega, by omega, l2 b4, b5⟩
        · simp only [toList, List.map_append, List.map_cons]
          rw [hmr (by omega), if_neg h1, l3]
      · rw [if_neg h2]
        refine ⟨rfl, ?_, ?_⟩
        · rintro ⟨b1, b2, b3, b4, b5⟩; exact ⟨by rw [r1]; exact b1, by omega, by omega, b4, r2 b5⟩
        · simp only [toList, List.map_append, List.map_cons]
          rw [hml (by omega), if_neg h1, r3]

theorem set_find (id : Nat) (x : α) (l : List (Nat × α)) (j : Nat) :
    find (l.map (fun e => if e.1 = id then (id, x) else e)) j =
      if j = id then (find l id).map (fun _ => x) else find l j := by
  induction l with
  | nil => simp [find]
  | cons a l ih =>
    rw [List.map_cons, find_cons, ih, find_cons, find_cons]
    by_cases h1 : a.1 = id
    · rw [if_pos h1]
      by_cases h2 : j = id
      · simp [h2, h1]
      · rw [if_neg (fun h => h2 h.symm), if_neg h2, if_neg h2, if_neg (by omega)]
    · rw [if_neg h1]
      by_cases h2 : j = id
      · subst h2; simp [h1]
      · simp [h2]

theorem set_srt (id : Nat) (x : α) (l : List (Nat × α)) (h : Srt l) :
    Srt (l.map (fun e => if e.1 = id then (id, x) else e)) := by
  unfold Srt at *
  rw [List.pairwise_map]
  refine h.imp ?_
  intro a b hab
  by_cases h1 : a.1 = id <;> by_cases h2 : b.1 = id <;> simp [h1, h2] <;> omega

/-! ### Height -/

theorem size_ge (t : Tree α) (hb : Bal t) : 2 ^ (getHeight t / 2) ≤ (toList t).length + 1 := by
  have key : ∀ n (t : Tree α), getHeight t ≤ n → Bal t → 2 ^ (getHeight t / 2) ≤ (toList t).length + 1 := by
    intro n
    induction n with
    | zero => intro t h _; rw [show getHeight t = 0 by omega]; simp
    | succ n ih =>
      intro t h hb
      cases t with
      | nil => simp [gh0, toList]
      | node h0 l k d r =>
        obtain ⟨b1, b2, b3, b4, b5⟩ := hb
        simp only [gh0, gh1] at h ⊢
        have h1 := ih l (by omega) b4
        have h2 := ih r (by omega) b5
        have hl : (toList (.node h0 l k d r)).length + 1 = ((toList l).length + 1) + ((toList r).length + 1) := by
          simp [toList]; omega
        rw [hl]
        by_cases h3 : h0 < 2
        · rw [show h0 / 2 = 0 by omega]; omega
        · have e1 : 2 ^ (h0 / 2) = 2 ^ ((h0 - 2) / 2) * 2 := by
            rw [← Nat.pow_succ]; congr 1; omega
          have m1 : 2 ^ ((h0 - 2) / 2) ≤ 2 ^ (getHeight l / 2) := Nat.pow_le_pow_right (by omega) (by omega)
          have m2 : 2 ^ ((h0 - 2) / 2) ≤ 2 ^ (getHeight r / 2) := Nat.pow_le_pow_right (by omega) (by omega)
          omega
  exact key _ t (Nat.le_refl _) hb

theorem height_lt (t : Tree α) (hb : Bal t) (h : (toList t).length + 1 < 2 ^ 32) : getHeight t < 64 := by
  have := size_ge t hb
  refine Nat.lt_of_not_le (fun hc => ?_)
  have h1 : 2 ^ 32 ≤ 2 ^ (getHeight t / 2) := Nat.pow_le_pow_right (by omega) (by omega)
  omega

end Verif.Bsl.Avl
