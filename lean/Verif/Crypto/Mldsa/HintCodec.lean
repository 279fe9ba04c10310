import Verif.Crypto.Mldsa.Hint
import Mathlib.Data.List.Sort
/-! Encoding and decoding of the hint. -/
namespace Verif.Crypto.Mldsa
open Verif.Crypto.Mlkem (Poly i32 u32 u8 upd)

/-- Strictly increasing, above `prev` if there is one. -/
def chainOk (prev : Option Nat) : List Nat → Prop
  | [] => True
  | b :: s => (∀ a, prev = some a → a < b) ∧ chainOk (some b) s

theorem chainOk_pairwise : ∀ (s : List Nat) (prev : Option Nat),
    chainOk prev s ↔ s.Pairwise (· < ·) ∧ ∀ a, prev = some a → ∀ b ∈ s, a < b
  | [], prev => by simp [chainOk]
  | b :: s, prev => by
    unfold chainOk
    rw [chainOk_pairwise s, List.pairwise_cons]
    constructor
    · rintro ⟨h1, h2, h3⟩
      refine ⟨⟨fun x hx => h3 b rfl x hx, h2⟩, ?_⟩
      intro a ha x hx
      rcases List.mem_cons.1 hx with rfl | hx
      · exact h1 a ha
      · exact lt_trans (h1 a ha) (h3 b rfl x hx)
    · rintro ⟨⟨h1, h2⟩, h3⟩
      exact ⟨fun a ha => h3 a ha b List.mem_cons_self, h2, fun a ha x hx => by
        injection ha with e; subst e; exact h1 x hx⟩

/-- The row after storing ones at the given places. -/
def ones (h : Poly) (s : List Nat) : Poly := s.foldl (fun h b => upd h b 1) h

theorem ones_at (s : List Nat) : ∀ (h : Poly) (x : Nat), ones h s x = if x ∈ s then 1 else h x := by
  induction s with
  | nil => intro h x; simp [ones]
  | cons b s ih =>
    intro h x
    have : ones h (b :: s) = ones (upd h b 1) s := rfl
    rw [this, ih]
    by_cases hx : x ∈ s
    · simp [hx]
    · by_cases e : x = b
      · simp [e, upd]
      · simp [hx, e, upd]

open Classical in
theorem hintRow_eq : ∀ (S P R : List Nat) (first index : Nat) (h : Poly), P.length = index → first ≤ index →
    hintRow (P ++ S ++ R) first h index S.length =
      if chainOk (if index = first then none else P.getLast?) S then some (some (ones h S)) else some none := by
  intro S
  induction S with
  | nil => intro P R first index h hP hf; simp [hintRow, chainOk, ones]
  | cons b S ih =>
    intro P R first index h hP hf
    have hb : (P ++ (b :: S) ++ R)[index]? = some b := by
      rw [List.append_assoc, List.getElem?_append_right (by omega), hP]; simp
    obtain ⟨a, ha, ha2⟩ : ∃ a, (P ++ (b :: S) ++ R)[index - 1]? = some a ∧ (first < index → P.getLast? = some a) := by
      by_cases h0 : first < index
      · have hl : index - 1 < P.length := by omega
        refine ⟨P[index - 1], ?_, ?_⟩
        · rw [List.append_assoc, List.getElem?_append_left hl, List.getElem?_eq_getElem hl]
        · intro _; rw [List.getLast?_eq_getElem?, hP, List.getElem?_eq_getElem hl]
      · have hl : index - 1 < (P ++ (b :: S) ++ R).length := by simp; omega
        exact ⟨_, List.getElem?_eq_getElem hl, fun h => absurd h h0⟩
    rw [List.length_cons]
    unfold hintRow
    simp only [hb, ha]
    have e : P ++ (b :: S) ++ R = (P ++ [b]) ++ S ++ R := by simp
    rw [e, ih (P ++ [b]) R first (index + 1) (upd h b 1) (by simp [hP]) (by omega), if_neg (by omega : ¬ index + 1 = first)]
    have eo : ones h (b :: S) = ones (upd h b 1) S := rfl
    simp only [List.getLast?_append, List.getLast?_singleton, Option.some_or]
    by_cases hif : index = first
    · subst hif
      rw [if_neg (by omega), if_pos rfl, eo]
      simp [chainOk]
    · have hl := ha2 (by omega)
      rw [if_neg hif, hl, eo]
      by_cases hab : a ≥ b
      · rw [if_pos ⟨by omega, hab⟩, if_neg]
        rintro ⟨h1, _⟩
        have := h1 a rfl; omega
      · rw [if_neg (fun hh => hab hh.2)]
        have : chainOk (some a) (b :: S) ↔ chainOk (some b) S := by
          unfold chainOk
          constructor
          · exact fun hh => by cases S <;> first | exact trivial | exact hh.2
          · intro hh
            exact ⟨fun x hx => by injection hx with e; omega, by cases S <;> first | exact trivial | exact hh⟩
        simp only [this]

theorem positions_sorted (row : Nat → Int) : (Spec.positions row).Pairwise (· < ·) :=
  List.Pairwise.filter _ List.pairwise_lt_range

theorem mem_positions (row : Nat → Int) (x : Nat) : x ∈ Spec.positions row ↔ x < 256 ∧ row x ≠ 0 := by
  simp [Spec.positions]

theorem positions_ones (s : List Nat) (hs : s.Pairwise (· < ·)) (hb : ∀ b ∈ s, b < 256) :
    Spec.positions (ones (fun _ => 0) s) = s := by
  refine List.Pairwise.eq_of_mem_iff (positions_sorted _) hs ?_
  intro x
  rw [mem_positions, ones_at]
  by_cases h : x ∈ s
  · simp [h, hb x h]
  · simp [h]

theorem ones_positions (row : Nat → Int) (h : ∀ x, (row x = 0 ∨ row x = 1) ∧ (256 ≤ x → row x = 0)) :
    ones (fun _ => 0) (Spec.positions row) = row := by
  funext x
  rw [ones_at]
  by_cases hx : x ∈ Spec.positions row
  · rw [if_pos hx]
    rw [mem_positions] at hx
    rcases (h x).1 with e | e
    · exact absurd e hx.2
    · exact e.symm
  · rw [if_neg hx]
    rw [mem_positions] at hx
    by_cases h256 : x < 256
    · exact (Decidable.byContradiction fun hc => hx ⟨h256, fun e => hc e.symm⟩)
    · exact ((h x).2 (by omega)).symm

theorem hintTail_eq : ∀ (n : Nat) (ptr : List Nat) (i : Nat), i + n ≤ ptr.length →
    hintTail ptr i n = some (decide ((ptr.drop i).take n = List.replicate n 0))
  | 0, ptr, i, _ => by simp [hintTail]
  | n + 1, ptr, i, h => by
    unfold hintTail
    have hl : i < ptr.length := by omega
    rw [List.getElem?_eq_getElem hl]
    simp only
    rw [List.drop_eq_getElem_cons hl, List.take_succ_cons, List.replicate_succ]
    by_cases hb : ptr[i] = 0
    · rw [if_neg (by simpa using hb), hintTail_eq n ptr (i + 1) (by omega)]
      simp [hb]
    · rw [if_pos hb]; simp [hb]

theorem weight_cons (row : Nat → Int) (rows : List (Nat → Int)) :
    Spec.weight (row :: rows) = (Spec.positions row).length + Spec.weight rows := by
  simp [Spec.weight]

theorem split3 (ptr : List Nat) (index bound : Nat) (h : index ≤ bound) (hb : bound ≤ ptr.length) :
    ptr = ptr.take index ++ (ptr.drop index).take (bound - index) ++ ptr.drop bound := by
  have e : ptr.drop bound = (ptr.drop index).drop (bound - index) := by rw [List.drop_drop]; congr 1; omega
  rw [e, List.append_assoc, List.take_append_drop, List.take_append_drop]

open Classical in
/-- One row of the decoder. -/
theorem row_step (ptr : List Nat) (index bound : Nat) (h : index ≤ bound) (hb : bound ≤ ptr.length) :
    hintRow ptr index (fun _ => 0) index (bound - index) =
      if ((ptr.drop index).take (bound - index)).Pairwise (· < ·) then
        some (some (ones (fun _ => 0) ((ptr.drop index).take (bound - index)))) else some none := by
  have hl : ((ptr.drop index).take (bound - index)).length = bound - index := by simp; omega
  have hpl : (ptr.take index).length = index := by simp; omega
  have key := hintRow_eq ((ptr.drop index).take (bound - index)) (ptr.take index) (ptr.drop bound) index index
    (fun _ => 0) hpl (le_refl _)
  rw [← split3 ptr index bound h hb, hl, if_pos rfl] at key
  rw [key]
  have : chainOk none ((ptr.drop index).take (bound - index)) ↔
      ((ptr.drop index).take (bound - index)).Pairwise (· < ·) := by
    rw [chainOk_pairwise]; simp
  simp only [this]

theorem rows_sound (omega : Nat) (ptr : List Nat) (hby : ∀ b ∈ ptr, b < 256) :
    ∀ (n i index : Nat) (acc h : List Poly), ptr.length = omega + i + n → index ≤ omega →
      hintRows omega ptr i index acc n = .ok h →
      ∃ rows, h = acc ++ rows ∧ rows.length = n ∧
        (∀ row ∈ rows, ∀ x, (row x = 0 ∨ row x = 1) ∧ (256 ≤ x → row x = 0)) ∧
        index + Spec.weight rows ≤ omega ∧
        (ptr.drop index).take (omega - index) =
          rows.flatMap Spec.positions ++ List.replicate (omega - index - Spec.weight rows) 0 ∧
        ptr.drop (omega + i) = Spec.counts index rows := by
  intro n
  induction n with
  | zero =>
    intro i index acc h hlen hi hok
    unfold hintRows at hok
    rw [hintTail_eq _ _ _ (by omega)] at hok
    by_cases hd : (ptr.drop index).take (omega - index) = List.replicate (omega - index) 0
    · simp only [hd, decide_true] at hok
      injection hok with e
      refine ⟨[], by simp [e], rfl, by simp, by simp [Spec.weight, hi], ?_, ?_⟩
      · simp [Spec.weight, hd]
      · rw [List.drop_eq_nil_of_le (by omega)]; rfl
    · simp [hd] at hok
  | succ n ih =>
    intro i index acc h hlen hi hok
    unfold hintRows at hok
    have hl : omega + i < ptr.length := by omega
    rw [List.getElem?_eq_getElem hl] at hok
    simp only at hok
    generalize hbd : ptr[omega + i] = bound at hok
    by_cases hc : bound < index ∨ bound > omega
    · rw [if_pos hc] at hok; cases hok
    · rw [if_neg hc, row_step ptr index bound (by omega) (by omega)] at hok
      by_cases hs : ((ptr.drop index).take (bound - index)).Pairwise (· < ·)
      · rw [if_pos hs] at hok
        simp only at hok
        obtain ⟨rows, e1, e2, e3, e4, e5, e6⟩ := ih (i + 1) bound _ h (by omega) (by omega) hok
        have hSb : ∀ b ∈ (ptr.drop index).take (bound - index), b < 256 :=
          fun b hb => hby b (List.mem_of_mem_drop (List.mem_of_mem_take hb))
        have hpos := positions_ones _ hs hSb
        have hSl : ((ptr.drop index).take (bound - index)).length = bound - index := by simp; omega
        have hw : Spec.weight (ones (fun _ => 0) ((ptr.drop index).take (bound - index)) :: rows) =
            bound - index + Spec.weight rows := by rw [weight_cons, hpos, hSl]
        refine ⟨ones (fun _ => 0) ((ptr.drop index).take (bound - index)) :: rows, ?_, ?_, ?_, ?_, ?_, ?_⟩
        · rw [e1]; simp
        · simp [e2]
        · intro row hr x
          rcases List.mem_cons.1 hr with rfl | hr
          · rw [ones_at]
            by_cases hx : x ∈ (ptr.drop index).take (bound - index)
            · rw [if_pos hx]; exact ⟨.inr rfl, fun h => absurd (hSb x hx) (by omega)⟩
            · rw [if_neg hx]; exact ⟨.inl rfl, fun _ => rfl⟩
          · exact e3 row hr x
        · rw [hw]; omega
        · rw [List.flatMap_cons, hpos, hw, List.append_assoc,
            show omega - index - (bound - index + Spec.weight rows) = omega - bound - Spec.weight rows by omega, ← e5]
          have ed : ptr.drop bound = (ptr.drop index).drop (bound - index) := by
            rw [List.drop_drop]; congr 1; omega
          rw [ed, show omega - index = (bound - index) + (omega - bound) by omega, List.take_add]
        · rw [List.drop_eq_getElem_cons hl, hbd, show omega + i + 1 = omega + (i + 1) by omega, e6]
          unfold Spec.counts
          rw [hpos, hSl, show index + (bound - index) = bound by omega]
          cases rows <;> rfl
      · rw [if_neg hs] at hok; cases hok

theorem take_drop_append {α : Type} (L A B : List α) (i m : Nat) (h : (L.drop i).take m = A ++ B) (hA : A.length ≤ m) :
    (L.drop i).take A.length = A ∧ (L.drop (i + A.length)).take (m - A.length) = B := by
  constructor
  · have := congrArg (List.take A.length) h
    rw [List.take_take, Nat.min_eq_left hA] at this
    simpa using this
  · have := congrArg (List.drop A.length) h
    rw [List.drop_take, List.drop_drop] at this
    simpa using this

theorem rows_complete (omega : Nat) (ptr : List Nat) :
    ∀ (rows : List Poly) (i index : Nat) (acc : List Poly), ptr.length = omega + i + rows.length →
      (∀ row ∈ rows, ∀ x, (row x = 0 ∨ row x = 1) ∧ (256 ≤ x → row x = 0)) →
      index + Spec.weight rows ≤ omega →
      (ptr.drop index).take (omega - index) =
        rows.flatMap Spec.positions ++ List.replicate (omega - index - Spec.weight rows) 0 →
      ptr.drop (omega + i) = Spec.counts index rows →
      hintRows omega ptr i index acc rows.length = .ok (acc ++ rows) := by
  intro rows
  induction rows with
  | nil =>
    intro i index acc hlen _ hw h1 _
    have hl : ptr.length = omega + i := by simpa using hlen
    have hi : index ≤ omega := by simp [Spec.weight] at hw; exact hw
    rw [show ([] : List Poly).length = 0 from rfl]
    unfold hintRows
    rw [hintTail_eq _ _ _ (by omega)]
    simp [Spec.weight] at h1
    simp [h1]
  | cons row rows ih =>
    intro i index acc hlen hrow hw h1 h2
    have hlen' : ptr.length = omega + i + (rows.length + 1) := by simpa using hlen
    rw [weight_cons] at hw h1
    rw [show (row :: rows).length = rows.length + 1 from rfl]
    unfold hintRows
    have hl : omega + i < ptr.length := by omega
    rw [List.drop_eq_getElem_cons hl] at h2
    unfold Spec.counts at h2
    have hb : ptr[omega + i] = index + (Spec.positions row).length := (List.cons.inj h2).1
    have ht : ptr.drop (omega + (i + 1)) = Spec.counts (index + (Spec.positions row).length) rows := (List.cons.inj h2).2
    rw [List.getElem?_eq_getElem hl, hb]
    simp only
    rw [if_neg (by omega), row_step ptr index _ (by omega) (by omega)]
    rw [List.flatMap_cons, List.append_assoc] at h1
    obtain ⟨t1, t2⟩ := take_drop_append _ _ _ _ _ h1 (by omega)
    have e : index + (Spec.positions row).length - index = (Spec.positions row).length := by omega
    rw [e, t1, if_pos (positions_sorted row), ones_positions row (hrow row List.mem_cons_self)]
    simp only
    rw [ih (i + 1) _ (acc ++ [row]) (by omega) (fun r hr => hrow r (List.mem_cons_of_mem _ hr)) (by omega) ?_ ht]
    · simp
    · rw [show omega - (index + (Spec.positions row).length) = omega - index - (Spec.positions row).length by omega, t2]
      congr 2; omega

theorem rows_in_bounds (omega : Nat) (ptr : List Nat) :
    ∀ (n i index : Nat) (acc : List Poly), ptr.length = omega + i + n → index ≤ omega →
      hintRows omega ptr i index acc n ≠ .oob := by
  intro n
  induction n with
  | zero =>
    intro i index acc hlen hi
    unfold hintRows
    rw [hintTail_eq _ _ _ (by omega)]
    generalize decide ((ptr.drop index).take (omega - index) = List.replicate (omega - index) 0) = b
    cases b <;> simp
  | succ n ih =>
    intro i index acc hlen hi
    unfold hintRows
    have hl : omega + i < ptr.length := by omega
    rw [List.getElem?_eq_getElem hl]
    simp only
    generalize ptr[omega + i] = bound
    by_cases hc : bound < index ∨ bound > omega
    · rw [if_pos hc]; simp
    · rw [if_neg hc, row_step ptr index bound (by omega) (by omega)]
      by_cases hs : ((ptr.drop index).take (bound - index)).Pairwise (· < ·)
      · rw [if_pos hs]; exact ih _ _ _ (by omega) (by omega)
      · rw [if_neg hs]; simp

theorem counts_length (c : Nat) (rows : List Poly) : (Spec.counts c rows).length = rows.length := by
  induction rows generalizing c with
  | nil => rfl
  | cons r rs ih => simp [Spec.counts, ih]

theorem hintBytes_length (omega : Nat) (h : List Poly) (hw : Spec.weight h ≤ omega) :
    (Spec.hintBytes omega h).length = omega + h.length := by
  unfold Spec.hintBytes
  rw [List.length_append, List.length_append, counts_length, List.length_replicate]
  unfold Spec.weight at *
  omega

/-- Which byte strings decode, and to what. -/
theorem hintDecode_iff (p : Params) (ptr : List Nat) (hlen : ptr.length = p.omega + p.k) (hby : ∀ b ∈ ptr, b < 256)
    (h : List Poly) :
    hintDecode p ptr = .ok h ↔ Spec.IsHint p.k p.omega h ∧ ptr = Spec.hintBytes p.omega h := by
  unfold hintDecode
  constructor
  · intro hok
    obtain ⟨rows, e1, e2, e3, e4, e5, e6⟩ := rows_sound p.omega ptr hby p.k 0 0 [] h (by omega) (by omega) hok
    have e1' : h = rows := by simpa using e1
    subst e1'
    refine ⟨⟨e2, e3, by omega⟩, ?_⟩
    unfold Spec.hintBytes
    have e5' : ptr.take p.omega = h.flatMap Spec.positions ++ List.replicate (p.omega - Spec.weight h) 0 := by
      simpa using e5
    have e6' : ptr.drop p.omega = Spec.counts 0 h := by simpa using e6
    rw [← e5', ← e6', List.take_append_drop]
  · rintro ⟨⟨h1, h2, h3⟩, rfl⟩
    have hA : (h.flatMap Spec.positions ++ List.replicate (p.omega - Spec.weight h) 0).length = p.omega := by
      rw [List.length_append, List.length_replicate]; unfold Spec.weight at *; omega
    have := rows_complete p.omega (Spec.hintBytes p.omega h) h 0 0 [] (by omega) h2 (by omega)
      (by
        rw [List.drop_zero, Nat.sub_zero]
        unfold Spec.hintBytes
        rw [List.take_append_of_le_length (by omega), List.take_of_length_le (by omega)])
      (by
        rw [Nat.add_zero]
        unfold Spec.hintBytes
        rw [List.drop_append_of_le_length (by omega), List.drop_of_length_le (by omega), List.nil_append])
    rw [h1] at this
    simpa using this

/-! ## The encoder -/

theorem set_at {α : Type} (A C : List α) (z v : α) : (A ++ z :: C).set A.length v = A ++ v :: C := by
  simp

theorem encRow_eq (h : Poly) : ∀ (n j : Nat) (A C : List Nat) (z : Nat), j + n ≤ 256 →
    ((List.range' j n).filter (fun x => h x ≠ 0)).length ≤ z →
    hintEncRow h j (A ++ List.replicate z 0 ++ C, A.length) n =
      some (A ++ (List.range' j n).filter (fun x => h x ≠ 0) ++
        List.replicate (z - ((List.range' j n).filter (fun x => h x ≠ 0)).length) 0 ++ C,
        A.length + ((List.range' j n).filter (fun x => h x ≠ 0)).length) := by
  intro n
  induction n with
  | zero => intro j A C z _ _; simp [hintEncRow]
  | succ n ih =>
    intro j A C z hj hz
    unfold hintEncRow
    rw [List.range'_succ, List.filter_cons] at *
    by_cases hc : h j = 0
    · simp only [hc, ne_eq, not_true_eq_false, decide_false, if_false, Bool.false_eq_true] at hz ⊢
      exact ih (j + 1) A C z (by omega) hz
    · simp only [hc, ne_eq, not_false_eq_true, decide_true, if_true] at hz ⊢
      rw [List.length_cons] at hz
      obtain ⟨z', rfl⟩ : ∃ z', z = z' + 1 := ⟨z - 1, by omega⟩
      unfold store
      have e1 : A ++ List.replicate (z' + 1) 0 ++ C = A ++ 0 :: (List.replicate z' 0 ++ C) := by
        simp [List.replicate_succ]
      rw [if_pos (by simp), e1, set_at]
      simp only
      have e2 : u8 j = j := Nat.mod_eq_of_lt (by omega)
      have e3 : A ++ u8 j :: (List.replicate z' 0 ++ C) = (A ++ [j]) ++ List.replicate z' 0 ++ C := by simp [e2]
      rw [e3, show A.length + 1 = (A ++ [j]).length by simp, ih (j + 1) (A ++ [j]) C z' (by omega) (Nat.le_of_succ_le_succ hz)]
      simp only [List.length_append, List.length_cons, List.length_nil]
      rw [show ∀ m, z' + 1 - (m + 1) = z' - m by omega]
      simp [Nat.add_assoc, Nat.add_comm]

theorem positions_range' (row : Poly) : (List.range' 0 256).filter (fun x => row x ≠ 0) = Spec.positions row := by
  unfold Spec.positions; rw [List.range_eq_range']

theorem encRows_eq (omega : Nat) (ho : omega < 256) : ∀ (rows : List Poly) (A C : List Nat) (i : Nat), C.length = i →
    A.length + Spec.weight rows ≤ omega →
    hintEncRows omega i (A ++ List.replicate (omega - A.length) 0 ++ (C ++ List.replicate rows.length 0), A.length) rows =
      some (A ++ rows.flatMap Spec.positions ++ List.replicate (omega - A.length - Spec.weight rows) 0 ++
        (C ++ Spec.counts A.length rows)) := by
  intro rows
  induction rows with
  | nil => intro A C i _ _; simp [hintEncRows, Spec.weight, Spec.counts]
  | cons row rows ih =>
    intro A C i hC hw
    rw [weight_cons] at hw
    unfold hintEncRows
    rw [encRow_eq row 256 0 A _ _ (by omega) (by rw [positions_range']; omega), positions_range']
    simp only
    have hl : (A ++ Spec.positions row ++ List.replicate (omega - A.length - (Spec.positions row).length) 0 ++ C).length
        = omega + i := by simp; omega
    unfold store
    have e1 : A ++ Spec.positions row ++ List.replicate (omega - A.length - (Spec.positions row).length) 0 ++
        (C ++ List.replicate (row :: rows).length 0) =
        (A ++ Spec.positions row ++ List.replicate (omega - A.length - (Spec.positions row).length) 0 ++ C) ++
          0 :: List.replicate rows.length 0 := by
      simp [List.replicate_succ]
    rw [e1, if_pos (by rw [List.length_append, hl]; simp), ← hl, set_at]
    simp only
    have e2 : u8 (A.length + (Spec.positions row).length) = A.length + (Spec.positions row).length :=
      Nat.mod_eq_of_lt (by omega)
    rw [e2]
    have e3 : (A ++ Spec.positions row ++ List.replicate (omega - A.length - (Spec.positions row).length) 0 ++ C) ++
          (A.length + (Spec.positions row).length) :: List.replicate rows.length 0 =
        (A ++ Spec.positions row) ++ List.replicate (omega - (A ++ Spec.positions row).length) 0 ++
          ((C ++ [A.length + (Spec.positions row).length]) ++ List.replicate rows.length 0) := by
      simp [Nat.sub_sub]
    have hlen2 : (A ++ Spec.positions row).length = A.length + (Spec.positions row).length := by simp
    have := ih (A ++ Spec.positions row) (C ++ [A.length + (Spec.positions row).length]) (i + 1) (by simp [hC])
      (by rw [hlen2]; omega)
    rw [e3]
    rw [hlen2] at this ⊢
    rw [this, weight_cons]
    simp [Spec.counts, Nat.sub_sub]
    omega

theorem hintEncode_eq {p : Params} (hp : p ∈ paramTable) (h : List Poly) (hk : h.length = p.k)
    (hw : Spec.weight h ≤ p.omega) : hintEncode p h = some (Spec.hintBytes p.omega h) := by
  have ho : p.omega < 256 := by rcases param_cases hp with rfl | rfl | rfl <;> decide
  have := encRows_eq p.omega ho h [] [] 0 rfl (by simpa using hw)
  have e : (List.replicate (p.omega + p.k) 0 : List Nat) =
      [] ++ List.replicate (p.omega - ([] : List Nat).length) 0 ++ ([] ++ List.replicate h.length 0) := by
    rw [hk]; simp only [List.nil_append, List.length_nil, Nat.sub_zero, List.replicate_append_replicate]
  show hintEncRows p.omega 0 (List.replicate (p.omega + p.k) 0, ([] : List Nat).length) h = _
  rw [e, this]
  unfold Spec.hintBytes
  simp only [List.nil_append, List.length_nil, Nat.sub_zero]

end Verif.Crypto.Mldsa
