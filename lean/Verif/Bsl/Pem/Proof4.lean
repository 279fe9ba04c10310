import Verif.Bsl.Pem.Proof3
namespace Verif.Bsl.Pem
open Verif.Common

/-! ## Type detection -/

/-- The labels of RFC 7468 for the types of the table. -/
def labels : List String := ["RSA PRIVATE KEY", "EC PRIVATE KEY", "PRIVATE KEY", "ENCRYPTED PRIVATE KEY", "PUBLIC KEY",
  "RSA PUBLIC KEY", "CERTIFICATE", "X509 CRL", "CERTIFICATE REQUEST"]

theorem table_labels : headerInfo.map (·.2) = labels.map (fun l => ⟨Spec.begin_ l, Spec.end_ l⟩) := by decide +kernel

theorem table_marked {x : String × Symbol} (h : x ∈ headerInfo) : Marked x.2 := by
  have : x.2 ∈ headerInfo.map (·.2) := List.mem_map_of_mem h
  rw [table_labels] at this
  obtain ⟨l, _, e⟩ := List.mem_map.mp this
  exact ⟨l, by rw [← e], by rw [← e]⟩

theorem marked_ne {s : Symbol} (hs : Marked s) : s.head ≠ [] ∧ s.tail ≠ [] := by
  obtain ⟨l, h1, h2⟩ := hs
  obtain ⟨r, hr⟩ := begin_cons l
  obtain ⟨r', hr'⟩ := end_cons l
  rw [h1, h2, hr, hr']
  simp

theorem symbolLoop_step (buf : List Byte) (off len : Nat) (h : off + len ≤ buf.length) (t : String) (s : Symbol)
    (hs : Marked s) (rest : List (String × Symbol)) :
    (Spec.HasBlock (win buf off len) s.head s.tail ∧ symbolLoop buf off len ((t, s) :: rest) = .ok (t, s)) ∨
    (¬ Spec.HasBlock (win buf off len) s.head s.tail ∧
      symbolLoop buf off len ((t, s) :: rest) = symbolLoop buf off len rest) := by
  obtain ⟨hh, ht⟩ := marked_ne hs
  have hf : ∀ r, findAll [s.head, s.tail] (win buf off len) r → (r = true ↔ Spec.HasBlock (win buf off len) s.head s.tail) :=
    fun r hr => (findAll_pieces _ _ _ hr).trans (hasBlock_pieces _ _ _)
  conv => enter [1, 2]; unfold symbolLoop
  conv => enter [2, 2]; unfold symbolLoop
  rcases memStr_spec buf s.head off len h hh with ⟨g, g'⟩ | ⟨i, g, g'⟩
  · right
    rw [g]
    refine ⟨fun hb => ?_, ?_⟩
    · have := (hf false (findAll_stop g')).mpr hb
      cases this
    · cases rest <;> rfl
  · have hb1 := prefix_len g'.1 hh
    rw [win_length h] at hb1
    rw [g]
    simp only
    rcases memStr_rest buf s.tail off len (i + s.head.length) h (by omega) ht (off + i + s.head.length)
      (by omega) with ⟨k, k'⟩ | ⟨j, k, hb2, k'⟩
    · right
      rw [k]
      refine ⟨fun hb => ?_, ?_⟩
      · have := (hf false (findAll_step g' (findAll_stop k'))).mpr hb
        cases this
      · cases rest <;> rfl
    · left
      rw [k]
      exact ⟨(hf true (findAll_step g' (findAll_step k' (by unfold findAll; rfl)))).mp rfl, rfl⟩

theorem symbolLoop_spec (buf : List Byte) (off len : Nat) (h : off + len ≤ buf.length) (tbl : List (String × Symbol))
    (hm : ∀ x ∈ tbl, Marked x.2) :
    (∃ before after t s, tbl = before ++ (t, s) :: after ∧ symbolLoop buf off len tbl = .ok (t, s) ∧
      Spec.HasBlock (win buf off len) s.head s.tail ∧
      ∀ x ∈ before, ¬ Spec.HasBlock (win buf off len) x.2.head x.2.tail) ∨
    (symbolLoop buf off len tbl = .error .symbolNotFound ∧
      ∀ x ∈ tbl, ¬ Spec.HasBlock (win buf off len) x.2.head x.2.tail) := by
  induction tbl with
  | nil => right; exact ⟨rfl, by simp⟩
  | cons x rest ih =>
    obtain ⟨t, s⟩ := x
    rcases symbolLoop_step buf off len h t s (hm (t, s) (List.mem_cons_self ..)) rest with ⟨h1, h2⟩ | ⟨h1, h2⟩
    · left; exact ⟨[], rest, t, s, rfl, h2, h1, by simp⟩
    · rw [h2]
      rcases ih (fun y hy => hm y (List.mem_cons_of_mem _ hy)) with ⟨b, a, t', s', e, e1, e2, e3⟩ | ⟨e1, e2⟩
      · left
        refine ⟨(t, s) :: b, a, t', s', by rw [e]; rfl, e1, e2, ?_⟩
        intro y hy
        rcases List.mem_cons.mp hy with rfl | hy
        · exact h1
        · exact e3 y hy
      · right
        refine ⟨e1, ?_⟩
        intro y hy
        rcases List.mem_cons.mp hy with rfl | hy
        · exact h1
        · exact e2 y hy

theorem isPem_of_hasBlock (s : Symbol) (hs : Marked s) {t : List Byte} (h : Spec.HasBlock t s.head s.tail) :
    Spec.IsPem t := by
  obtain ⟨label, h1, h2⟩ := hs
  obtain ⟨a, b, c, e⟩ := h
  have b1 : Spec.ascii "-----BEGIN " = Spec.ascii "-----BEGIN" ++ [32#8] := by decide +kernel
  have b2 : Spec.ascii "-----END " = Spec.ascii "-----END" ++ [32#8] := by decide +kernel
  refine ⟨a, [32#8] ++ Spec.ascii label, b, [32#8] ++ Spec.ascii label, c, ?_⟩
  rw [e, h1, h2]
  unfold Spec.begin_ Spec.end_
  rw [b1, b2]
  simp only [List.append_assoc]

/-- `known` disagrees with `n` placed at offset `p`. -/
def clash (known n : List Byte) (p : Nat) : Bool :=
  (List.range n.length).any fun k => match known[p + k]?, n[k]? with
    | some a, some b => a != b
    | _, _ => false

theorem clash_sound {known n r : List Byte} {p : Nat} (h : clash known n p = true) :
    ¬ n <+: (known ++ r).drop p := by
  intro ho
  unfold clash at h
  obtain ⟨k, hk, hc⟩ := List.any_eq_true.mp h
  have hk := List.mem_range.mp hk
  have hg := prefix_get ho hk
  cases ha : known[p + k]? with
  | none => rw [ha] at hc; simp at hc
  | some a =>
    have hlt : p + k < known.length := by
      rcases Nat.lt_or_ge (p + k) known.length with h | h
      · exact h
      · rw [List.getElem?_eq_none h] at ha; cases ha
    rw [List.getElem?_append_left hlt, ha] at hg
    rw [ha, ← hg] at hc
    simp at hc

/-- No begin marker of the table occurs in the text of another type: at the begin marker, and at the end marker. -/
theorem table_clash :
    ∀ x ∈ headerInfo, ∀ y ∈ headerInfo, x ≠ y →
      (∀ p, p < x.2.head.length → clash (x.2.head ++ [10#8]) y.2.head p = true) := by decide +kernel
theorem table_clash_tail :
    ∀ x ∈ headerInfo, ∀ y ∈ headerInfo,
      (∀ p, p < x.2.tail.length → clash (x.2.tail ++ [10#8]) y.2.head p = true) := by decide +kernel

theorem head_not_in_text {x y : String × Symbol} (hx : x ∈ headerInfo) (hy : y ∈ headerInfo) (hxy : x ≠ y)
    (m : List Byte) : ¬ Spec.Occurs (Spec.text x.2.head x.2.tail m) y.2.head := by
  obtain ⟨r, hr⟩ : ∃ r, y.2.head = 45#8 :: r := by
    obtain ⟨l, h1, _⟩ := table_marked hy; obtain ⟨r, hr⟩ := begin_cons l; exact ⟨r, by rw [h1, hr]⟩
  rintro ⟨p, hp⟩
  rw [text_eq] at hp
  by_cases h1 : p < x.2.head.length
  · have hb : ∃ b, bodyOf m = 10#8 :: b := ⟨_, rfl⟩
    obtain ⟨b, hb⟩ := hb
    rw [hb, show x.2.head ++ 10#8 :: b ++ x.2.tail ++ [10#8] = (x.2.head ++ [10#8]) ++ (b ++ x.2.tail ++ [10#8]) by
      simp only [List.append_assoc, List.cons_append, List.nil_append]] at hp
    exact clash_sound (table_clash x hx y hy hxy p h1) hp
  · have hfirst := prefix_get hp (k := 0) (by rw [hr]; simp)
    rw [hr, Nat.add_zero] at hfirst
    have hfirst : (x.2.head ++ bodyOf m ++ x.2.tail ++ [10#8])[p]? = some 45#8 := by simpa using hfirst
    by_cases h2 : p < x.2.head.length + (bodyOf m).length
    · rw [List.append_assoc, List.append_assoc, List.getElem?_append_right (by omega),
        List.getElem?_append_left (by omega)] at hfirst
      exact body_no_dash m (List.mem_of_getElem? hfirst)
    · have hp' : y.2.head <+: (x.2.tail ++ [10#8]).drop (p - (x.2.head.length + (bodyOf m).length)) := by
        rw [List.append_assoc (x.2.head ++ bodyOf m)] at hp
        rw [List.drop_append, List.drop_of_length_le (by rw [List.length_append]; omega), List.nil_append,
          List.length_append] at hp
        exact hp
      by_cases h3 : p - (x.2.head.length + (bodyOf m).length) < x.2.tail.length
      · have := clash_sound (r := []) (table_clash_tail x hx y hy _ h3)
        rw [List.append_nil] at this
        exact this hp'
      · have h4 := prefix_get hp' (k := 0) (by rw [hr]; simp)
        rw [hr, Nat.add_zero, List.getElem?_append_right (by omega)] at h4
        rcases Nat.eq_zero_or_pos (p - (x.2.head.length + (bodyOf m).length) - x.2.tail.length) with h5 | h5
        · rw [h5] at h4; simp at h4
        · rw [List.getElem?_eq_none (by simp; omega)] at h4
          simp at h4

end Verif.Bsl.Pem
