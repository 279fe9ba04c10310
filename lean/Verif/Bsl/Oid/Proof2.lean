import Verif.Bsl.Oid.Proof
/-!
# Object identifiers: the conversion from text
-/
namespace Verif.Bsl.Oid
open Verif.Common

theorem low7 (t : Nat) : t &&& 0x7f = t % 128 := Nat.and_two_pow_sub_one_eq_mod t 7

theorem set_top {d : Nat} (h : d < 128) : BitVec.ofNat 8 d ||| 0x80#8 = BitVec.ofNat 8 (128 + d) := by
  have key : ∀ e : Fin 128, BitVec.ofNat 8 e.val ||| 0x80#8 = BitVec.ofNat 8 (128 + e.val) := by decide +kernel
  exact key ⟨d, h⟩

theorem clear_top {d : Nat} (h : d < 128) : BitVec.ofNat 8 (128 + d) &&& 0x7f#8 = BitVec.ofNat 8 d := by
  have key : ∀ e : Fin 128, BitVec.ofNat 8 (128 + e.val) &&& 0x7f#8 = BitVec.ofNat 8 e.val := by decide +kernel
  exact key ⟨d, h⟩

theorem tempLoop_zero (room : Nat) : tempLoop room 0 = .ok [] := by
  cases room <;> rfl

theorem tempLoop_succ (room t : Nat) (h : 0 < t) : tempLoop (room + 1) t =
    match tempLoop room (t >>> 7) with
    | .error e => .error e
    | .ok r => .ok ((BitVec.ofNat 8 (t &&& 0x7f) ||| 0x80#8) :: r) := by
  cases t with
  | zero => omega
  | succ t => rfl

theorem tempLoop_spec (room t : Nat) (h : t < 128 ^ room) (h0 : 0 < t) :
    tempLoop room t = .ok ((Spec.digits 126 t).map (fun d => BitVec.ofNat 8 (128 + d))).reverse := by
  induction room generalizing t with
  | zero => rw [Nat.pow_zero] at h; omega
  | succ room ih =>
    have hs : t >>> 7 = t / 128 := Nat.shiftRight_eq_div_pow t 7
    rw [tempLoop_succ _ _ h0, hs, low7, set_top (by omega)]
    by_cases h1 : t < 128
    · rw [Nat.div_eq_of_lt h1, tempLoop_zero, digits_small (by omega), Nat.mod_eq_of_lt h1]; rfl
    · rw [ih (t / 128) (by rw [Nat.div_lt_iff_lt_mul (by omega), ← Nat.pow_succ]; exact h) (by omega),
        digits_big (n := t) (by omega), List.map_append, List.reverse_append]
      rfl

theorem encodePart_spec (n : Nat) (h : n < 2 ^ 64) :
    encodePart n = .ok (Spec.subId n) ∧ (Spec.subId n).length ≤ 10 := by
  have hl : (Spec.subId n).length ≤ 10 := by
    have := (digits_length (b := 126) (n := n) 9).mpr (Nat.lt_trans h (by decide))
    unfold Spec.subId
    simp only [List.length_append, List.length_map, List.length_dropLast, List.length_cons, List.length_nil]
    omega
  refine ⟨?_, hl⟩
  unfold encodePart
  by_cases hs : n < 0x80
  · rw [if_pos hs, low7, Nat.mod_eq_of_lt hs, subId_small hs]
  · rw [if_neg hs, tempLoop_spec 10 n (Nat.lt_trans h (by decide)) (by omega), digits_big (n := n) (by omega),
      List.map_append, List.reverse_append]
    simp only [List.map_cons, List.map_nil, List.reverse_cons, List.reverse_nil, List.nil_append, List.cons_append,
      clearFirst, List.reverse_reverse]
    rw [clear_top (by omega)]
    have e : n = n / 128 * 128 + n % 128 := by omega
    have h1 : Spec.subId n = (Spec.digits 126 (n / 128)).map (fun d => BitVec.ofNat 8 (128 + d)) ++
        [BitVec.ofNat 8 (n % 128)] := by
      conv => lhs; rw [e]
      exact subId_snoc (by omega) (by omega)
    rw [h1]

theorem encodeLoop_spec (cap : Nat) (rest : List Nat) (out : List Byte) (h : ∀ n ∈ rest, n < 2 ^ 64)
    (hc : out.length + 10 * rest.length ≤ cap) :
    encodeLoop cap rest out = .ok (out ++ (rest.map Spec.subId).flatten) := by
  induction rest generalizing out with
  | nil => simp [encodeLoop]
  | cons n r ih =>
    obtain ⟨h1, h2⟩ := encodePart_spec n (h n (by simp))
    rw [encodeLoop, h1]
    simp only [List.length_cons] at hc ⊢
    rw [if_neg (by omega), ih _ (fun m hm => h m (List.mem_cons_of_mem _ hm)) (by rw [List.length_append]; omega)]
    simp

/-- The characters of digits. -/
def chars (d : List Nat) : List Byte := d.map fun x => BitVec.ofNat 8 (48 + x)

theorem value_nil : Spec.value 10 [] = 0 := rfl

theorem value_prefix (base : Nat) (hb : 0 < base) (a b : List Nat) : Spec.value base a ≤ Spec.value base (a ++ b) := by
  induction b generalizing a with
  | nil => simp
  | cons x r ih =>
    have h1 := ih (a ++ [x])
    rw [value_snoc, List.append_assoc] at h1
    have : 1 * Spec.value base a ≤ base * Spec.value base a := Nat.mul_le_mul_right _ hb
    exact Nat.le_trans (by omega) h1

theorem digit_char {c : Byte} (h : ¬ (c.toNat > 57 ∨ (c.toNat < 48 ∧ c ≠ 46#8))) (hc : c ≠ 46#8) :
    c.toNat - 48 < 10 ∧ BitVec.ofNat 8 (48 + (c.toNat - 48)) = c := by
  have h1 : ¬ c.toNat < 48 := fun hh => h (Or.inr ⟨hh, hc⟩)
  have h2 : ¬ c.toNat > 57 := fun hh => h (Or.inl hh)
  refine ⟨by omega, ?_⟩
  rw [show 48 + (c.toNat - 48) = c.toNat by omega, ofNat_toNat]

theorem partsLoop_sound (s : List Byte) (done : List Nat) (dcur parts : List Nat)
    (hcur : Spec.value 10 dcur < 2 ^ 64)
    (h : partsLoop s done (Spec.value 10 dcur) = .ok parts) (hlast : s.getLast? ≠ some 46#8)
    (hst : dcur = [] → s ≠ [] ∧ s.head? ≠ some 46#8) (hlen : done.length + 1 ≤ 128) :
    ∃ (d : List Nat) (ds : List (List Nat)), s = Spec.dotted (chars d :: ds.map chars) ∧ dcur ++ d ≠ [] ∧ (∀ x ∈ d, x < 10) ∧
      (∀ e ∈ ds, e ≠ [] ∧ ∀ x ∈ e, x < 10) ∧
      parts = done ++ Spec.value 10 (dcur ++ d) :: ds.map (Spec.value 10) ∧
      Spec.value 10 (dcur ++ d) < 2 ^ 64 ∧ (∀ e ∈ ds, Spec.value 10 e < 2 ^ 64) ∧
      done.length + 1 + ds.length ≤ 128 := by
  induction s generalizing done dcur with
  | nil =>
    rw [partsLoop] at h
    cases h
    refine ⟨[], [], rfl, ?_, by simp, by simp, by simp, by simpa using hcur, by simp, by simpa using hlen⟩
    intro hh
    exact (hst (by simpa using hh)).1 rfl
  | cons c r ih =>
    rw [partsLoop] at h
    split at h
    · cases h
    rename_i h0
    split at h
    · cases h
    rename_i h1
    have hlast' : r.getLast? ≠ some 46#8 := by
      intro hh
      apply hlast
      cases r with
      | nil => cases hh
      | cons a b => rw [List.getLast?_cons_cons]; exact hh
    split at h
    · rename_i h2
      split at h
      · cases h
      rename_i h3
      obtain ⟨d1, d2⟩ := digit_char h0 h2
      have hv : Spec.value 10 (dcur ++ [c.toNat - 48]) = Spec.value 10 dcur * 10 + (c.toNat - 48) := by
        rw [value_snoc]; omega
      rw [← hv] at h
      obtain ⟨d, ds, e1, _, e3, e4, e5, e6, e7, e8⟩ := ih done (dcur ++ [c.toNat - 48]) (by omega) h hlast'
        (fun hh => absurd hh (by simp)) hlen
      rw [List.append_assoc] at e5 e6
      refine ⟨(c.toNat - 48) :: d, ds, ?_, by simp, ?_, e4, e5, e6, e7, e8⟩
      · rw [e1]
        have : chars ((c.toNat - 48) :: d) = c :: chars d := by
          unfold chars; rw [List.map_cons, d2]
        rw [this]
        cases ds with
        | nil => simp [Spec.dotted]
        | cons a b => simp [Spec.dotted]
      · intro x hx
        rcases List.mem_cons.mp hx with rfl | hx
        · exact d1
        · exact e3 x hx
    · rename_i h2
      have hc : c = 46#8 := Decidable.of_not_not h2
      split at h
      · cases h
      rename_i h3
      have hr : r ≠ [] := by
        rintro rfl
        apply hlast
        rw [hc]; rfl
      have hh : r.head? ≠ some 46#8 := fun hh => h1 ⟨hc, hh⟩
      obtain ⟨d, ds, e1, e2, e3, e4, e5, e6, e7, e8⟩ := ih (done ++ [Spec.value 10 dcur]) [] (by decide)
        (by rw [value_nil]; exact h) hlast' (fun _ => ⟨hr, hh⟩) (by simp only [List.length_append, List.length_cons, List.length_nil]; omega)
      rw [List.nil_append] at e2 e5 e6
      refine ⟨[], d :: ds, ?_, ?_, by simp, ?_, ?_, by rw [List.append_nil]; exact hcur, ?_, ?_⟩
      · rw [e1, hc]; rfl
      · rw [List.append_nil]
        intro hh'
        apply (hst hh').2
        rw [hc]; rfl
      · intro e he
        rcases List.mem_cons.mp he with rfl | he
        · exact ⟨e2, e3⟩
        · exact e4 e he
      · rw [e5]; simp
      · intro e he
        rcases List.mem_cons.mp he with rfl | he
        · exact e6
        · exact e7 e he
      · simp only [List.length_append, List.length_cons, List.length_nil] at e8 ⊢; omega

theorem char_toNat {x : Nat} (h : x < 10) : (BitVec.ofNat 8 (48 + x)).toNat = 48 + x := by
  rw [BitVec.toNat_ofNat]; omega

theorem char_ne {x : Nat} (h : x < 10) : BitVec.ofNat 8 (48 + x) ≠ 46#8 := by
  intro hh
  have := congrArg BitVec.toNat hh
  rw [char_toNat h] at this
  have e : (46#8 : Byte).toNat = 46 := rfl
  omega

theorem dotted_head {d : List Nat} {ds : List (List Nat)} (h1 : d ≠ []) (h2 : ∀ x ∈ d, x < 10) :
    (Spec.dotted (chars d :: ds.map chars)).head? ≠ some 46#8 := by
  cases d with
  | nil => exact absurd rfl h1
  | cons x r =>
    have hx := char_ne (h2 x (by simp))
    have : (Spec.dotted (chars (x :: r) :: ds.map chars)).head? = some (BitVec.ofNat 8 (48 + x)) := by
      cases ds <;> simp [Spec.dotted, chars]
    rw [this]
    intro hh
    exact hx (Option.some.inj hh)

theorem dotted_last {d : List Nat} {ds : List (List Nat)} (h : ∀ e ∈ d :: ds, e ≠ [] ∧ ∀ x ∈ e, x < 10) :
    (Spec.dotted (chars d :: ds.map chars)).getLast? ≠ some 46#8 := by
  induction ds generalizing d with
  | nil =>
    obtain ⟨h1, h2⟩ := h d (by simp)
    show (chars d).getLast? ≠ some 46#8
    rw [chars, List.getLast?_map]
    intro hh
    obtain ⟨x, hx, hx2⟩ := Option.map_eq_some_iff.mp hh
    exact char_ne (h2 x (List.mem_of_getLast? hx)) hx2
  | cons a b ih =>
    have hi := ih (d := a) (fun e he => h e (List.mem_cons_of_mem _ he))
    have hne : Spec.dotted (chars a :: b.map chars) ≠ [] := by
      obtain ⟨h1, _⟩ := h a (by simp)
      cases a with
      | nil => exact absurd rfl h1
      | cons x r => cases b <;> simp [Spec.dotted, chars]
    show (chars d ++ 46#8 :: Spec.dotted (chars a :: b.map chars)).getLast? ≠ _
    generalize Spec.dotted (chars a :: b.map chars) = t at hi hne ⊢
    cases t with
    | nil => exact absurd rfl hne
    | cons p q =>
      rw [List.getLast?_append, List.getLast?_cons_cons]
      cases hq : (p :: q).getLast? with
      | none => simp at hq
      | some z => rw [hq] at hi; simpa using hi

theorem partsLoop_complete (ds : List (List Nat)) (d : List Nat) (done dcur : List Nat)
    (hd : ∀ x ∈ d, x < 10) (hv : Spec.value 10 (dcur ++ d) < 2 ^ 64)
    (hds : ∀ e ∈ ds, e ≠ [] ∧ ∀ x ∈ e, x < 10) (hvs : ∀ e ∈ ds, Spec.value 10 e < 2 ^ 64)
    (hlen : done.length + 1 + ds.length ≤ 128) :
    partsLoop (Spec.dotted (chars d :: ds.map chars)) done (Spec.value 10 dcur) =
      .ok (done ++ Spec.value 10 (dcur ++ d) :: ds.map (Spec.value 10)) := by
  induction ds generalizing d done dcur with
  | nil =>
    show partsLoop (chars d) _ _ = _
    induction d generalizing dcur with
    | nil => simp [chars, partsLoop]
    | cons x r ih =>
      have hx := hd x (by simp)
      show partsLoop (BitVec.ofNat 8 (48 + x) :: chars r) _ _ = _
      have hp := value_prefix 10 (by omega) (dcur ++ [x]) r
      rw [value_snoc, List.append_assoc] at hp
      rw [List.singleton_append] at hp
      rw [partsLoop, if_neg (by rw [char_toNat hx]; omega), if_neg (fun hh => char_ne hx hh.1), if_pos (char_ne hx),
        char_toNat hx, if_neg (by omega)]
      have hi := ih (dcur ++ [x]) (fun y hy => hd y (List.mem_cons_of_mem _ hy)) (by simpa using hv)
      rw [value_snoc] at hi
      rw [show Spec.value 10 dcur * 10 + (48 + x - 48) = 10 * Spec.value 10 dcur + x by omega, hi]
      simp
  | cons e es ihs =>
    show partsLoop (chars d ++ 46#8 :: Spec.dotted (chars e :: es.map chars)) _ _ = _
    obtain ⟨he1, he2⟩ := hds e (by simp)
    induction d generalizing dcur with
    | nil =>
      show partsLoop (46#8 :: Spec.dotted (chars e :: es.map chars)) _ _ = _
      simp only [List.length_cons] at hlen
      rw [partsLoop, if_neg (by decide), if_neg (fun hh => dotted_head he1 he2 hh.2), if_neg (by simp),
        if_neg (by omega)]
      have := ihs e (done ++ [Spec.value 10 dcur]) [] he2 (hvs e (by simp))
        (fun a ha => hds a (List.mem_cons_of_mem _ ha)) (fun a ha => hvs a (List.mem_cons_of_mem _ ha))
        (by simp only [List.length_append, List.length_cons, List.length_nil]; omega)
      rw [value_nil] at this
      rw [this]; simp
    | cons x r ih =>
      have hx := hd x (by simp)
      show partsLoop (BitVec.ofNat 8 (48 + x) :: (chars r ++ 46#8 :: Spec.dotted (chars e :: es.map chars))) _ _ = _
      have hp := value_prefix 10 (by omega) (dcur ++ [x]) r
      rw [value_snoc, List.append_assoc] at hp
      rw [List.singleton_append] at hp
      rw [partsLoop, if_neg (by rw [char_toNat hx]; omega), if_neg (fun hh => char_ne hx hh.1), if_pos (char_ne hx),
        char_toNat hx, if_neg (by omega)]
      have hi := ih (dcur ++ [x]) (fun y hy => hd y (List.mem_cons_of_mem _ hy)) (by simpa using hv)
      rw [value_snoc] at hi
      rw [show Spec.value 10 dcur * 10 + (48 + x - 48) = 10 * Spec.value 10 dcur + x by omega, hi]
      simp

theorem partsLoop_no_oob (s : List Byte) (done : List Nat) (cur : Nat) : partsLoop s done cur ≠ .error .oob := by
  induction s generalizing done cur with
  | nil => simp [partsLoop]
  | cons c r ih =>
    rw [partsLoop]
    split
    · simp
    split
    · simp
    split
    · split
      · simp
      · exact ih _ _
    · split
      · simp
      · exact ih _ _

/-- The numbers read from a text, completely. -/
theorem parts_spec (s : List Byte) (arcs : List Nat) (hne : arcs ≠ []) :
    (¬ (s = [] ∨ s.head? = some 46#8 ∨ s.getLast? = some 46#8) ∧ partsLoop s [] 0 = .ok arcs) ↔
      Spec.Reads s arcs ∧ (∀ n ∈ arcs, n < 2 ^ 64) ∧ arcs.length ≤ 128 := by
  constructor
  · rintro ⟨h0, h⟩
    have h0a : s ≠ [] := fun hh => h0 (Or.inl hh)
    have h0b : s.head? ≠ some 46#8 := fun hh => h0 (Or.inr (Or.inl hh))
    have h0c : s.getLast? ≠ some 46#8 := fun hh => h0 (Or.inr (Or.inr hh))
    obtain ⟨d, ds, e1, e2, e3, e4, e5, e6, e7, e8⟩ := partsLoop_sound s [] [] arcs (by decide)
      (by rw [value_nil]; exact h) h0c (fun _ => ⟨h0a, h0b⟩) (by decide)
    rw [List.nil_append] at e2 e5 e6
    refine ⟨⟨d :: ds, e1, ?_, e5⟩, ?_, ?_⟩
    · intro e he
      rcases List.mem_cons.mp he with rfl | he
      · exact ⟨e2, e3⟩
      · exact e4 e he
    · intro n hn
      rw [e5] at hn
      rcases List.mem_cons.mp hn with rfl | hn
      · exact e6
      · obtain ⟨e, he, rfl⟩ := List.mem_map.mp hn
        exact e7 e he
    · rw [e5]
      simp only [List.length_cons, List.length_map, List.length_nil] at e8 ⊢; omega
  · rintro ⟨⟨ds, e1, e2, e3⟩, h2, h3⟩
    cases ds with
    | nil => exact absurd e3 hne
    | cons d ds =>
      have e1 : s = Spec.dotted (chars d :: ds.map chars) := e1
      obtain ⟨a1, a2⟩ := e2 d (by simp)
      have hm : ∀ e ∈ d :: ds, Spec.value 10 e < 2 ^ 64 := by
        intro e he
        apply h2
        rw [e3]
        exact List.mem_map.mpr ⟨e, he, rfl⟩
      refine ⟨?_, ?_⟩
      · rw [e1]
        rintro (hh | hh | hh)
        · cases d with
          | nil => exact a1 rfl
          | cons x r => cases ds <;> simp [Spec.dotted, chars] at hh
        · exact dotted_head a1 a2 hh
        · exact dotted_last e2 hh
      · have := partsLoop_complete ds d [] [] a2 (hm d (by simp)) (fun e he => e2 e (List.mem_cons_of_mem _ he))
          (fun e he => hm e (List.mem_cons_of_mem _ he)) (by
            rw [e3] at h3
            simp only [List.length_cons, List.length_map, List.length_nil] at h3 ⊢; omega)
        rw [value_nil] at this
        rw [e1, this, e3]; rfl

theorem encodeParts_spec (arcs : List Nat) (bs : List Byte) (h : ∀ n ∈ arcs, n < 2 ^ 64) :
    encodeParts arcs ≠ .error .oob ∧
    (encodeParts arcs = .ok bs ↔ ∃ x y rest, arcs = x :: y :: rest ∧ x ≤ 2 ∧ y < 40 ∧ bs = Spec.der x y rest) := by
  match arcs with
  | [] => exact ⟨by simp [encodeParts], ⟨fun hh => (by cases hh), (by rintro ⟨_, _, _, hh, _⟩; cases hh)⟩⟩
  | [a] => exact ⟨by simp [encodeParts], ⟨fun hh => (by cases hh), (by rintro ⟨_, _, _, hh, _⟩; cases hh)⟩⟩
  | x :: y :: rest =>
    unfold encodeParts
    simp only
    by_cases h1 : x > 2
    · rw [if_pos h1]
      refine ⟨by simp, ⟨fun hh => (by cases hh), ?_⟩⟩
      rintro ⟨x', y', r', hh, h2, _⟩
      injection hh with ha hb; omega
    rw [if_neg h1]
    by_cases h2 : y ≥ 40
    · rw [if_pos h2]
      refine ⟨by simp, ⟨fun hh => (by cases hh), ?_⟩⟩
      rintro ⟨x', y', r', hh, _, h3, _⟩
      injection hh with ha hb; injection hb with hb hc; omega
    rw [if_neg h2, encodeLoop_spec _ _ _ (fun n hn => h n (by simp [hn]))
      (by simp only [List.length_cons, List.length_nil]; omega)]
    refine ⟨by simp, ⟨?_, ?_⟩⟩
    · intro hh
      injection hh with hh
      refine ⟨x, y, rest, rfl, by omega, by omega, ?_⟩
      rw [← hh, Nat.mul_comm]; rfl
    · rintro ⟨x', y', r', hh, _, _, rfl⟩
      injection hh with ha hb; injection hb with hb hc
      subst ha; subst hb; subst hc
      rw [Nat.mul_comm]; rfl

theorem fromText_spec (s bs : List Byte) :
    fromText s = .ok bs ↔
      ∃ x y rest, Spec.Reads s (x :: y :: rest) ∧ x ≤ 2 ∧ y < 40 ∧ (∀ n ∈ rest, n < 2 ^ 64) ∧
        rest.length + 2 ≤ 128 ∧ bs = Spec.der x y rest := by
  unfold fromText
  constructor
  · intro h
    split at h
    · cases h
    rename_i h0
    cases hp : partsLoop s [] 0 with
    | error e => rw [hp] at h; cases h
    | ok arcs =>
      rw [hp] at h
      simp only at h
      have hne : arcs ≠ [] := by rintro rfl; cases h
      obtain ⟨h1, h2, h3⟩ := (parts_spec s arcs hne).mp ⟨h0, hp⟩
      obtain ⟨x, y, rest, rfl, hx, hy, e⟩ := (encodeParts_spec arcs bs h2).2.mp h
      exact ⟨x, y, rest, h1, hx, hy, fun n hn => h2 n (by simp [hn]), by simpa using h3, e⟩
  · rintro ⟨x, y, rest, h1, hx, hy, h2, h3, e⟩
    have hall : ∀ n ∈ x :: y :: rest, n < 2 ^ 64 := by
      intro n hn
      rcases List.mem_cons.mp hn with rfl | hn
      · omega
      rcases List.mem_cons.mp hn with rfl | hn
      · omega
      · exact h2 n hn
    obtain ⟨h0, hp⟩ := (parts_spec s (x :: y :: rest) (by simp)).mpr ⟨h1, hall, by simpa using h3⟩
    rw [if_neg h0, hp]
    exact (encodeParts_spec _ bs hall).2.mpr ⟨x, y, rest, rfl, hx, hy, e⟩

theorem fromText_no_oob (s : List Byte) : fromText s ≠ .error .oob := by
  unfold fromText
  split
  · simp
  rename_i h0
  cases hp : partsLoop s [] 0 with
  | error e => intro hh; simp only at hh; injection hh with hh; exact partsLoop_no_oob s [] 0 (by rw [hp, hh])
  | ok arcs =>
    simp only
    cases arcs with
    | nil => simp [encodeParts]
    | cons a r =>
      obtain ⟨_, h2, _⟩ := (parts_spec s (a :: r) (by simp)).mp ⟨h0, hp⟩
      exact (encodeParts_spec (a :: r) [] h2).1

/-- The canonical text reads as its numbers. -/
theorem reads_text (arcs : List Nat) : Spec.Reads (Spec.text arcs) arcs := by
  refine ⟨arcs.map (Spec.digits 8), ?_, ?_, ?_⟩
  · unfold Spec.text; rw [List.map_map]; rfl
  · intro d hd
    obtain ⟨n, _, rfl⟩ := List.mem_map.mp hd
    exact ⟨digits_ne 8 n, digits_lt 8 n⟩
  · rw [List.map_map]
    have : (Spec.value 10 ∘ Spec.digits 8) = id := by funext n; exact value_digits 8 n
    rw [this, List.map_id]

end Verif.Bsl.Oid
