import Verif.Bsl.Err.Model
/-! The ring of one stack is a list of at most 20 entries. -/
namespace Verif.Bsl.Err
variable {F : Type}

/-- Entry `i` of the ring, or the empty slot. -/
def at_ (l : List (Slot F)) (i : Nat) : Slot F := (l[i]?).getD .zero

/-- The stack holds the list `l`, oldest first. -/
structure Abs (st : Stack F) (l : List (Slot F)) : Prop where
  len : l.length ≤ 20
  bot : st.bottom < 20
  top : st.top = (st.bottom + l.length) % 20
  slot : ∀ i, i < 20 → st.slots ((st.bottom + i) % 20) = at_ l i
  nz : ∀ e ∈ l, e.code ≠ 0

theorem at_lt {l : List (Slot F)} {i : Nat} (h : i < l.length) : at_ l i = l[i] := by
  unfold at_; rw [List.getElem?_eq_getElem h]; rfl

theorem at_ge {l : List (Slot F)} {i : Nat} (h : l.length ≤ i) : at_ l i = .zero := by
  unfold at_; rw [List.getElem?_eq_none h]; rfl

theorem nz_iff {l : List (Slot F)} (h : ∀ e ∈ l, e.code ≠ 0) (i : Nat) : (at_ l i).code ≠ 0 ↔ i < l.length := by
  constructor
  · intro hc
    refine Nat.lt_of_not_le (fun hl => ?_)
    rw [at_ge hl] at hc
    exact hc rfl
  · intro hl; rw [at_lt hl]; exact h _ (List.getElem_mem hl)

theorem abs_new : Abs (Stack.new : Stack F) [] := by
  refine ⟨by simp, by simp [Stack.new], rfl, ?_, by simp⟩
  intro i _; rfl

theorem upd_ring {s : Nat → Slot F} {b j i : Nat} (x : Slot F) (hi : i < 20) (hj : j < 20) :
    upd s ((b + j) % 20) x ((b + i) % 20) = if i = j then x else s ((b + i) % 20) := by
  unfold upd
  by_cases h : i = j
  · rw [if_pos h, if_pos (by rw [h])]
  · rw [if_neg h, if_neg (by omega)]

theorem push_abs {st : Stack F} {l : List (Slot F)} (h : Abs st l) (err : Int) (file : Option F) (line : Nat) (he : err ≠ 0) :
    Abs (pushOn st err file line) ((if l.length = 20 then l.drop 1 else l) ++ [⟨err, false, file, line⟩]) := by
  obtain ⟨h1, h2, h3, h4, h5⟩ := h
  have hnz : ∀ e ∈ (if l.length = 20 then l.drop 1 else l) ++ [(⟨err, false, file, line⟩ : Slot F)], e.code ≠ 0 := by
    intro e hm
    rcases List.mem_append.1 hm with hm | hm
    · split at hm
      · exact h5 e (List.mem_of_mem_drop hm)
      · exact h5 e hm
    · rw [List.mem_singleton] at hm; rw [hm]; exact he
  unfold pushOn
  by_cases hl : l.length = 20
  · have hc : st.top = st.bottom ∧ (st.slots st.top).code ≠ 0 := by
      have : st.top = st.bottom := by omega
      refine ⟨this, ?_⟩
      have h0 := h4 0 (by omega)
      rw [Nat.add_zero, Nat.mod_eq_of_lt h2] at h0
      rw [this, h0]
      exact (nz_iff h5 0).2 (by omega)
    simp only [if_pos hc, if_pos hl] at hnz ⊢
    refine ⟨?_, ?_, ?_, ?_, hnz⟩
    · simp; omega
    · simp only; omega
    · simp only [List.length_append, List.length_drop, List.length_singleton]; omega
    · intro i hi
      simp only
      have e1 : ((st.bottom + 1) % 20 + i) % 20 = (st.bottom + (i + 1) % 20) % 20 := by omega
      have e2 : st.top = (st.bottom + 0) % 20 := by omega
      rw [e1, e2, upd_ring _ (by omega) (by omega)]
      by_cases hz : i = 19
      · subst hz
        rw [if_pos (by omega), at_lt (by simp; omega), List.getElem_append_right (by simp; omega)]
        simp [hl]
      · rw [if_neg (by omega), h4 _ (by omega), Nat.mod_eq_of_lt (by omega), at_lt (by omega), at_lt (by simp; omega),
          List.getElem_append_left (by simp; omega), List.getElem_drop]
        congr 1; omega
  · have hc : ¬ (st.top = st.bottom ∧ (st.slots st.top).code ≠ 0) := by
      rintro ⟨_, hc⟩
      rw [h3, h4 _ (by omega), at_ge (Nat.le_refl _)] at hc
      exact hc rfl
    simp only [if_neg hc, if_neg hl] at hnz ⊢
    refine ⟨?_, ?_, ?_, ?_, hnz⟩
    · simp; omega
    · simp only; omega
    · simp only [List.length_append, List.length_singleton]; omega
    · intro i hi
      simp only
      rw [h3, upd_ring _ hi (by omega)]
      by_cases hz : i = l.length
      · subst hz
        rw [if_pos rfl, at_lt (by simp)]
        simp
      · rw [if_neg hz, h4 _ hi]
        by_cases hlt : i < l.length
        · rw [at_lt hlt, at_lt (by simp; omega), List.getElem_append_left hlt]
        · rw [at_ge (by omega), at_ge (by simp; omega)]

theorem topIndex_eq {st : Stack F} {l : List (Slot F)} (h : Abs st l) : topIndex st = (st.bottom + (l.length + 19) % 20) % 20 := by
  have h1 := h.len
  have h2 := h.bot
  have h3 := h.top
  unfold topIndex
  split
  · omega
  · rw [if_neg (by omega)]; omega

/-- What a get of an entry reports. -/
def infoOf : Option (Slot F) → Int × Option F × Nat
  | none => (0, none, 0)
  | some s => (s.code, s.file, match s.file with | none => 0 | some _ => s.line)

theorem get_abs {st : Stack F} {l : List (Slot F)} (h : Abs st l) (clr last : Bool) :
    (getInfo st clr last).2 = infoOf (if last then l.getLast? else l.head?) ∧
      Abs (getInfo st clr last).1 (if clr then (if last then l.dropLast else l.drop 1) else l) := by
  have hti := topIndex_eq h
  have h0 := h
  obtain ⟨h1, h2, h3, h4, h5⟩ := h
  cases last with
  | true =>
    unfold getInfo
    simp only [if_true, hti]
    rw [h4 _ (by omega)]
    cases hl : l.length with
    | zero =>
      have : l = [] := List.length_eq_zero_iff.1 hl
      subst this
      rw [if_pos (by rfl)]
      refine ⟨rfl, ?_⟩
      cases clr <;> exact h0
    | succ n =>
      have e1 : (n + 1 + 19) % 20 = n := by omega
      have hn : n < l.length := by omega
      rw [e1, if_neg ((nz_iff h5 n).2 hn), at_lt hn]
      have hgl : l.getLast? = some l[n] := by
        rw [List.getLast?_eq_getElem?, hl]; simp
      refine ⟨by rw [hgl]; rfl, ?_⟩
      cases clr with
      | false => exact h0
      | true =>
        simp only [if_true]
        refine ⟨by simp; omega, h2, ?_, ?_, fun e he => h5 e ((List.dropLast_sublist l).subset he)⟩
        · simp only [List.length_dropLast]; omega
        · intro i hi
          simp only
          rw [upd_ring _ hi (by omega), h4 _ hi]
          by_cases hz : i = n
          · rw [if_pos hz, at_ge (by simp; omega)]
          · rw [if_neg hz]
            by_cases hlt : i < n
            · rw [at_lt (by omega), at_lt (by simp; omega), List.getElem_dropLast]
            · rw [at_ge (by omega), at_ge (by simp; omega)]
  | false =>
    unfold getInfo
    simp only [Bool.false_eq_true, if_false]
    have hb : st.slots st.bottom = at_ l 0 := by
      have := h4 0 (by omega)
      rwa [Nat.add_zero, Nat.mod_eq_of_lt h2] at this
    rw [hb]
    cases l with
    | nil =>
      rw [if_pos (by rfl)]
      refine ⟨rfl, ?_⟩
      cases clr <;> exact h0
    | cons e l =>
      rw [if_neg ((nz_iff h5 0).2 (by simp)), at_lt (by simp)]
      refine ⟨rfl, ?_⟩
      cases clr with
      | false => exact h0
      | true =>
        simp only [List.length_cons] at h1 h3
        simp only [if_true, List.drop_one, List.tail_cons]
        refine ⟨by omega, by simp only; omega, by simp only; omega, ?_, fun e he => h5 e (by simp [he])⟩
        intro i hi
        simp only
        have e1 : ((st.bottom + 1) % 20 + i) % 20 = (st.bottom + (i + 1) % 20) % 20 := by omega
        have e2 : st.bottom = (st.bottom + 0) % 20 := by omega
        rw [e1]
        conv => lhs; arg 2; rw [e2]
        rw [upd_ring _ (by omega) (by omega)]
        by_cases hz : i = 19
        · rw [if_pos (by omega), at_ge (by omega)]
        · rw [if_neg (by omega), h4 _ (by omega), Nat.mod_eq_of_lt (by omega)]
          simp [at_]

theorem mark_abs {st : Stack F} {l : List (Slot F)} (h : Abs st l) (j : Nat) (hj : j < l.length) (b : Bool) (i : Nat)
    (hi : i = (st.bottom + j) % 20) :
    Abs { st with slots := upd st.slots i { st.slots i with mark := b } } (l.modify j (fun e => { e with mark := b })) := by
  obtain ⟨h1, h2, h3, h4, h5⟩ := h
  subst hi
  refine ⟨by simpa using h1, h2, by simpa using h3, ?_, ?_⟩
  · intro i hi
    simp only
    rw [upd_ring _ hi (by omega)]
    by_cases hz : i = j
    · subst hz
      rw [if_pos rfl, h4 _ hi, at_lt hj, at_lt (by simpa using hj), List.getElem_modify]
      simp
    · rw [if_neg hz, h4 _ hi]
      unfold at_
      rw [List.getElem?_modify]
      simp [Ne.symm hz]
  · intro e he
    obtain ⟨k, hk, rfl⟩ := List.mem_iff_getElem.1 he
    rw [List.getElem_modify]
    split
    · have hk' : k < l.length := by simpa using hk
      exact h5 l[k] (List.getElem_mem hk')
    · exact h5 _ (List.getElem_mem _)

/-- Position plus one of the last marked entry among the first `n`, or 0. -/
def lastMark (l : List (Slot F)) : Nat → Nat
  | 0 => 0
  | n + 1 => if (at_ l n).mark then n + 1 else lastMark l n

theorem lastMark_le (l : List (Slot F)) (n : Nat) : lastMark l n ≤ n := by
  induction n with
  | zero => simp [lastMark]
  | succ n ih => unfold lastMark; split <;> omega

theorem lastMark_congr (l l' : List (Slot F)) (n : Nat) (h : ∀ i, i < n → at_ l i = at_ l' i) : lastMark l n = lastMark l' n := by
  induction n with
  | zero => rfl
  | succ n ih => unfold lastMark; rw [h n (by omega), ih (fun i hi => h i (by omega))]

theorem prev_ring {b i : Nat} (h : 0 < i) (hi : i ≤ 20) : prev ((b + (i + 19) % 20) % 20) = (b + (i - 1 + 19) % 20) % 20 := by
  unfold prev
  split <;> omega

theorem at_take {l : List (Slot F)} {n i : Nat} (h : i < n) : at_ (l.take n) i = at_ l i := by
  unfold at_; rw [List.getElem?_take_of_lt h]

theorem popLoop_spec (b : Nat) (hb : b < 20) : ∀ (n fuel : Nat) (s : Nat → Slot F) (l : List (Slot F)), l.length = n → n ≤ 20 →
    n < fuel → (∀ i, i < 20 → s ((b + i) % 20) = at_ l i) → (∀ e ∈ l, e.code ≠ 0) →
    ∃ s', popLoop fuel s ((b + (n + 19) % 20) % 20) = some (s', (b + (lastMark l n + 19) % 20) % 20) ∧
      (∀ i, i < 20 → s' ((b + i) % 20) = at_ (l.take (lastMark l n)) i) := by
  intro n
  induction n with
  | zero =>
    intro fuel s l hl _ hf hs _
    have : l = [] := List.length_eq_zero_iff.1 hl
    subst this
    match fuel, hf with
    | fuel + 1, _ =>
      refine ⟨s, ?_, hs⟩
      unfold popLoop
      rw [if_neg]
      · rfl
      · rintro ⟨hc, _⟩
        rw [hs _ (by omega)] at hc
        exact hc rfl
  | succ n ih =>
    intro fuel s l hl hn hf hs hz
    match fuel, hf with
    | fuel + 1, hf =>
      unfold popLoop
      have e1 : (n + 1 + 19) % 20 = n := by omega
      rw [e1, hs n (by omega)]
      have hnz : (at_ l n).code ≠ 0 := (nz_iff hz n).2 (by omega)
      cases hm : (at_ l n).mark with
      | true =>
        rw [if_neg (by simp)]
        refine ⟨s, ?_, ?_⟩
        · unfold lastMark; rw [hm]; simp only [if_true]; rw [e1]
        · intro i hi
          unfold lastMark; rw [hm]; simp only [if_true]
          rw [List.take_of_length_le (by omega)]; exact hs i hi
      | false =>
        rw [if_pos ⟨hnz, rfl⟩]
        have hp := prev_ring (b := b) (i := n + 1) (by omega) hn
        rw [e1] at hp
        rw [hp, Nat.add_sub_cancel]
        have hlm : lastMark l (n + 1) = lastMark l n := by
          rw [lastMark, hm]; simp
        have hlt : lastMark (l.take n) n = lastMark l n := lastMark_congr _ _ n (fun i hi => at_take hi)
        have hs' : ∀ i, i < 20 → upd s ((b + n) % 20) .zero ((b + i) % 20) = at_ (l.take n) i := by
          intro i hi
          rw [upd_ring _ hi (by omega)]
          by_cases hin : i = n
          · rw [if_pos hin, at_ge (by simp; omega)]
          · rw [if_neg hin, hs i hi]
            by_cases hlt : i < n
            · rw [at_take hlt]
            · rw [at_ge (by omega), at_ge (by simp; omega)]
        obtain ⟨s', r1, r2⟩ := ih fuel (upd s ((b + n) % 20) .zero) (l.take n) (by simp; omega) (by omega) (by omega) hs'
          (fun e he => hz e (List.mem_of_mem_take he))
        refine ⟨s', by rw [r1, hlm, hlt], ?_⟩
        intro i hi
        rw [r2 i hi, hlm, hlt, List.take_take, Nat.min_eq_left (lastMark_le l n)]

theorem pop_abs {st : Stack F} {l : List (Slot F)} (h : Abs st l) (fuel : Nat) (hf : 20 < fuel) :
    ∃ st', popToMarkOn fuel st = some (st', if lastMark l l.length = 0 then .noMark else .done) ∧
      Abs st' ((l.take (lastMark l l.length)).modify (lastMark l l.length - 1) (fun e => { e with mark := false })) := by
  have hti := topIndex_eq h
  obtain ⟨h1, h2, h3, h4, h5⟩ := h
  obtain ⟨s', r1, r2⟩ := popLoop_spec st.bottom h2 l.length fuel st.slots l rfl h1 (by omega) h4 h5
  have hle := lastMark_le l l.length
  generalize lastMark l l.length = m at *
  have hnz' : ∀ e ∈ l.take m, e.code ≠ 0 := fun e he => h5 e (List.mem_of_mem_take he)
  have hlen : (l.take m).length = m := by simp; omega
  have hA : Abs ⟨st.bottom, ((st.bottom + (m + 19) % 20) % 20 + 1) % 20, s'⟩ (l.take m) :=
    ⟨by omega, h2, by rw [hlen]; simp only; omega, r2, hnz'⟩
  unfold popToMarkOn
  rw [hti, r1]
  simp only [Option.bind_eq_bind, Option.bind_some]
  cases m with
  | zero =>
    rw [r2 _ (by omega), if_pos (by rfl)]
    exact ⟨_, rfl, by simpa using hA⟩
  | succ m =>
    have e1 : (m + 1 + 19) % 20 = m := by omega
    rw [r2 _ (by omega), e1, if_neg ((nz_iff hnz' m).2 (by omega))]
    refine ⟨_, rfl, ?_⟩
    rw [e1] at hA
    have := mark_abs hA m (by omega) false _ rfl
    simp only at this
    rw [r2 _ (by omega)] at this
    exact this

theorem clearLoop_spec (b : Nat) (hb : b < 20) (s : Nat → Slot F) (l : List (Slot F)) (h1 : l.length ≤ 20)
    (hs : ∀ i, i < 20 → s ((b + i) % 20) = at_ l i) (hz : ∀ e ∈ l, e.code ≠ 0) :
    ∀ (n fuel : Nat), n ≤ l.length → n < fuel → (0 < lastMark l n ∨ l.length < 20) →
    clearLoop fuel s ((b + (n + 19) % 20) % 20) = some ((b + (lastMark l n + 19) % 20) % 20) := by
  intro n
  induction n with
  | zero =>
    intro fuel _ hf hx
    have hl : l.length < 20 := by
      rcases hx with hx | hx
      · simp [lastMark] at hx
      · exact hx
    match fuel, hf with
    | fuel + 1, _ =>
      unfold clearLoop
      rw [if_neg]
      · rfl
      · rintro ⟨hc, _⟩
        rw [hs _ (by omega), at_ge (by omega)] at hc
        exact hc rfl
  | succ n ih =>
    intro fuel hn hf hx
    match fuel, hf with
    | fuel + 1, hf =>
      unfold clearLoop
      have e1 : (n + 1 + 19) % 20 = n := by omega
      rw [e1, hs n (by omega)]
      cases hm : (at_ l n).mark with
      | true =>
        rw [if_neg (by simp)]
        unfold lastMark; rw [hm]; simp only [if_true]; rw [e1]
      | false =>
        have hlm : lastMark l (n + 1) = lastMark l n := by rw [lastMark, hm]; simp
        rw [if_pos ⟨(nz_iff hz n).2 (by omega), rfl⟩]
        have hp := prev_ring (b := b) (i := n + 1) (by omega) (by omega)
        rw [e1] at hp
        rw [hp, Nat.add_sub_cancel, hlm]
        rw [hlm] at hx
        exact ih fuel (by omega) (by omega) hx

theorem clearMark_abs {st : Stack F} {l : List (Slot F)} (h : Abs st l) (fuel : Nat) (hf : 20 < fuel)
    (hx : 0 < lastMark l l.length ∨ l.length < 20) :
    ∃ st', clearLastMarkOn fuel st = some (st', .done) ∧
      Abs st' (if lastMark l l.length = 0 then l else l.modify (lastMark l l.length - 1) (fun e => { e with mark := false })) := by
  have hti := topIndex_eq h
  have hA := h
  obtain ⟨h1, h2, h3, h4, h5⟩ := h
  have r1 := clearLoop_spec st.bottom h2 st.slots l h1 h4 h5 l.length fuel (Nat.le_refl _) (by omega) hx
  have hle := lastMark_le l l.length
  unfold clearLastMarkOn
  rw [hti, r1]
  simp only [Option.bind_eq_bind, Option.bind_some]
  refine ⟨_, rfl, ?_⟩
  cases hm : lastMark l l.length with
  | zero =>
    rw [if_pos rfl]
    refine ⟨h1, h2, h3, ?_, h5⟩
    intro i hi
    simp only
    rw [upd_ring _ hi (by omega), h4 _ (by omega)]
    by_cases hz : i = (0 + 19) % 20
    · rw [if_pos hz, at_ge (by omega)]
      have : (at_ l i) = .zero := at_ge (by omega)
      rw [this]; rfl
    · rw [if_neg hz]; exact h4 i hi
  | succ m =>
    have e1 : (m + 1 + 19) % 20 = m := by omega
    rw [if_neg (by omega), e1]
    exact mark_abs hA m (by omega) false _ rfl

/-- A full stack without a mark: the loop never ends. -/
theorem clearMark_hangs {st : Stack F} {l : List (Slot F)} (h : Abs st l) (hl : l.length = 20)
    (hm : ∀ e ∈ l, e.mark = false) (fuel : Nat) : clearLastMarkOn fuel st = none := by
  obtain ⟨h1, h2, h3, h4, h5⟩ := h
  have key : ∀ fuel i, i < 20 → clearLoop fuel st.slots ((st.bottom + i) % 20) = none := by
    intro fuel
    induction fuel with
    | zero => intro i _; rfl
    | succ fuel ih =>
      intro i hi
      unfold clearLoop
      rw [h4 i hi, at_lt (by omega), if_pos ⟨h5 _ (List.getElem_mem _), hm _ (List.getElem_mem _)⟩]
      have hp := prev_ring (b := st.bottom) (i := i + 1) (by omega) (by omega)
      rw [show (i + 1 + 19) % 20 = i by omega] at hp
      rw [hp]
      exact ih _ (by omega)
  have hti : topIndex st = (st.bottom + (l.length + 19) % 20) % 20 := topIndex_eq ⟨h1, h2, h3, h4, h5⟩
  unfold clearLastMarkOn
  rw [hti, key _ _ (by omega)]; rfl

theorem setMark_abs {st : Stack F} {l : List (Slot F)} (h : Abs st l) :
    (setMarkOn st).2 = (if l = [] then .noError else .done) ∧
      Abs (setMarkOn st).1 (l.modify (l.length - 1) (fun e => { e with mark := true })) := by
  have hti := topIndex_eq h
  have hA := h
  obtain ⟨h1, h2, h3, h4, h5⟩ := h
  unfold setMarkOn
  simp only [hti]
  rw [h4 _ (by omega)]
  cases hl : l.length with
  | zero =>
    have : l = [] := List.length_eq_zero_iff.1 hl
    subst this
    rw [if_pos (by rfl)]
    exact ⟨rfl, by simpa using hA⟩
  | succ n =>
    have e1 : (n + 1 + 19) % 20 = n := by omega
    rw [e1, if_neg ((nz_iff h5 n).2 (by omega))]
    refine ⟨by rw [if_neg]; intro hc; rw [hc] at hl; simp at hl, ?_⟩
    have := mark_abs hA n (by omega) true _ rfl
    rw [h4 _ (by omega)] at this
    exact this

theorem collect_abs {st : Stack F} {l : List (Slot F)} (h : Abs st l) : collect st.slots 20 st.bottom = l := by
  obtain ⟨h1, h2, h3, h4, h5⟩ := h
  have key : ∀ n i, i + n = 20 → collect st.slots n ((st.bottom + i) % 20) = l.drop i := by
    intro n
    induction n with
    | zero => intro i hi; rw [collect, List.drop_eq_nil_of_le (by omega)]
    | succ n ih =>
      intro i hi
      unfold collect
      rw [h4 i (by omega)]
      by_cases hlt : i < l.length
      · rw [if_pos ((nz_iff h5 i).2 hlt), at_lt hlt, List.drop_eq_getElem_cons hlt]
        congr 1
        rw [show ((st.bottom + i) % 20 + 1) % 20 = (st.bottom + (i + 1)) % 20 by omega]
        exact ih (i + 1) (by omega)
      · rw [if_neg (fun hc => hlt ((nz_iff h5 i).1 hc)), List.drop_eq_nil_of_le (by omega)]
  have := key 20 0 rfl
  rwa [Nat.add_zero, Nat.mod_eq_of_lt h2] at this

end Verif.Bsl.Err
