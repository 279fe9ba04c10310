import Verif.Bsl.Pem.Proof2
namespace Verif.Bsl.Pem
open Verif.Common

/-! ## Encoding -/

theorem lines64_nil : Spec.lines64 [] = [] := by unfold Spec.lines64; simp
theorem lines64_short {t : List Byte} (h0 : t ≠ []) (h : t.length ≤ 64) : Spec.lines64 t = [t] := by
  unfold Spec.lines64
  rw [dif_neg h0, List.take_of_length_le h, List.drop_of_length_le h, lines64_nil]
theorem lines64_long {t : List Byte} (h : t.length > 64) :
    Spec.lines64 t = t.take 64 :: Spec.lines64 (t.drop 64) := by
  have h0 : t ≠ [] := by rintro rfl; simp at h
  conv => lhs; unfold Spec.lines64
  rw [dif_neg h0]

theorem formatBase64_eq (t : List Byte) (h0 : t ≠ []) :
    formatBase64 t = 10#8 :: (Spec.lines64 t).flatMap (fun l => l ++ [10#8]) := by
  induction hn : t.length using Nat.strongRecOn generalizing t with
  | ind n ih =>
    subst hn
    unfold formatBase64
    by_cases h : t.length > 64
    · have hd : t.drop 64 ≠ [] := by
        intro hd
        have := congrArg List.length hd
        simp only [List.length_drop, List.length_nil] at this
        omega
      rw [dif_pos h, lines64_long h, ih _ (by rw [List.length_drop]; omega) _ hd rfl]
      simp only [List.flatMap_cons, List.append_assoc, List.singleton_append]
    · rw [dif_neg h, lines64_short h0 (by omega)]
      simp

theorem lines64_length (t : List Byte) :
    ((Spec.lines64 t).flatMap (fun l => l ++ [10#8])).length = t.length + (t.length + 63) / 64 := by
  induction hn : t.length using Nat.strongRecOn generalizing t with
  | ind n ih =>
    subst hn
    by_cases h0 : t = []
    · subst h0; rw [lines64_nil]; rfl
    by_cases h : t.length > 64
    · rw [lines64_long h]
      simp only [List.flatMap_cons, List.length_append, List.length_take, List.length_cons, List.length_nil]
      rw [ih _ (by rw [List.length_drop]; omega) _ rfl, List.length_drop]
      omega
    · rw [lines64_short h0 (by omega)]
      have : t.length ≠ 0 := fun hh => h0 (List.length_eq_zero_iff.mp hh)
      simp only [List.flatMap_cons, List.flatMap_nil, List.append_nil, List.length_append, List.length_cons,
        List.length_nil]
      omega

theorem encode_ne_nil {m : List Byte} (h : m ≠ []) : Base64.Spec.encode m ≠ [] := by
  intro hc
  have h1 := Base64.encode_length m
  rw [hc, List.length_nil] at h1
  have h2 : m.length ≠ 0 := fun hh => h (List.length_eq_zero_iff.mp hh)
  omega

theorem text_length (h t m : List Byte) : (Spec.text h t m).length + 1 =
    ((Base64.Spec.encode m).length + 64 - 1) / 64 + (Base64.Spec.encode m).length + h.length + t.length + 3 := by
  unfold Spec.text
  simp only [List.length_append, lines64_length, List.length_cons, List.length_nil]
  rw [show (Base64.Spec.encode m).length + 64 - 1 = (Base64.Spec.encode m).length + 63 by omega]
  omega

theorem encode_eq (m : List Byte) (s : Symbol) :
    encodeAsn1ToPem m s =
      if (Base64.Spec.encode m).length + 1 > 2 ^ 32 - 1 then .error .invalidArg
      else if m = [] then .error (.base64 .nullInput)
      else if (Spec.text s.head s.tail m).length + 1 > 2 ^ 32 - 1 then .error .bufNotEnough
      else .ok { block := Spec.text s.head s.tail m ++ [0#8], len := (Spec.text s.head s.tail m).length } := by
  have hl := Base64.encode_length m
  unfold encodeAsn1ToPem
  simp only
  rw [← hl]
  by_cases h1 : (Base64.Spec.encode m).length + 1 > 2 ^ 32 - 1
  · rw [if_pos h1, if_pos h1]
  rw [if_neg h1, if_neg h1, Base64.encode_spec m _ (by unfold Base64.uint32Max; omega)]
  by_cases h2 : m = []
  · rw [if_pos h2, if_pos h2]
  rw [if_neg h2, if_neg h2, if_neg (by omega)]
  simp only
  rw [← text_length]
  by_cases h3 : (Spec.text s.head s.tail m).length + 1 > 2 ^ 32 - 1
  · rw [if_pos h3, if_pos h3]
  rw [if_neg h3, if_neg h3]
  have e : s.head ++ formatBase64 (Base64.Spec.encode m) ++ s.tail ++ [10#8, 0#8] = Spec.text s.head s.tail m ++ [0#8] := by
    rw [formatBase64_eq _ (encode_ne_nil h2)]
    unfold Spec.text
    simp only [List.append_assoc, List.cons_append, List.nil_append]
  rw [e, if_neg (by rw [List.length_append]; simp)]
  simp

/-! ## The body of an encoded block -/

/-- What lies between the markers of an encoded block. -/
def bodyOf (m : List Byte) : List Byte :=
  10#8 :: (Spec.lines64 (Base64.Spec.encode m)).flatMap (fun l => l ++ [10#8])

theorem text_eq (h t m : List Byte) : Spec.text h t m = h ++ bodyOf m ++ t ++ [10#8] := by
  unfold Spec.text bodyOf
  simp only [List.append_assoc, List.cons_append, List.nil_append]

theorem lines64_mem (t : List Byte) (c : Byte) (h : c ∈ (Spec.lines64 t).flatMap (fun l => l ++ [10#8])) :
    c ∈ t ∨ c = 10#8 := by
  induction hn : t.length using Nat.strongRecOn generalizing t with
  | ind n ih =>
    subst hn
    by_cases h0 : t = []
    · subst h0; rw [lines64_nil] at h; simp at h
    by_cases hl : t.length > 64
    · rw [lines64_long hl, List.flatMap_cons, List.mem_append, List.mem_append] at h
      rcases h with (h | h) | h
      · exact Or.inl (List.mem_of_mem_take h)
      · exact Or.inr (by simpa using h)
      · rcases ih _ (by rw [List.length_drop]; omega) _ h rfl with h | h
        · exact Or.inl (List.mem_of_mem_drop h)
        · exact Or.inr h
    · rw [lines64_short h0 (by omega)] at h
      simpa using h

theorem encode_no_dash (m : List Byte) : 45#8 ∉ Base64.Spec.encode m := by
  intro hc
  unfold Base64.Spec.encode at hc
  rcases List.mem_append.mp hc with h | h
  · obtain ⟨d, hd, he⟩ := List.mem_map.mp h
    have hlt := Base64.digits_lt m d hd
    have : ∀ d : Fin 64, Base64.Spec.char d.val ≠ 45#8 := by decide +kernel
    exact this ⟨d, hlt⟩ he
  · have := (List.mem_replicate.mp h).2
    revert this; decide

theorem body_no_dash (m : List Byte) : 45#8 ∉ bodyOf m := by
  intro hc
  unfold bodyOf at hc
  rcases List.mem_cons.mp hc with h | h
  · revert h; decide
  · rcases lines64_mem _ _ h with h | h
    · exact encode_no_dash m h
    · revert h; decide

theorem filter_lines (p : Byte → Bool) (hp : p 10#8 = false) (t : List Byte) :
    ((Spec.lines64 t).flatMap (fun l => l ++ [10#8])).filter p = t.filter p := by
  induction hn : t.length using Nat.strongRecOn generalizing t with
  | ind n ih =>
    subst hn
    by_cases h0 : t = []
    · subst h0; rw [lines64_nil]; rfl
    by_cases hl : t.length > 64
    · rw [lines64_long hl, List.flatMap_cons, List.filter_append, List.filter_append,
        ih _ (by rw [List.length_drop]; omega) _ rfl]
      conv => rhs; rw [← List.take_append_drop 64 t, List.filter_append]
      simp [hp]
    · rw [lines64_short h0 (by omega)]
      simp [hp]

theorem strip_body (m : List Byte) : Base64.Spec.strip (bodyOf m) = Base64.Spec.encode m := by
  have h10 : (!Base64.Spec.isBlank 10#8) = false := by decide
  have h1 : Base64.Spec.strip (bodyOf m) = Base64.Spec.strip (Base64.Spec.encode m) := by
    unfold Base64.Spec.strip bodyOf
    rw [List.filter_cons_of_neg (by rw [h10]; decide), filter_lines _ h10]
  rw [h1, Base64.strip_encode]

/-! ## Occurrences -/

theorem prefix_get {n t : List Byte} {i k : Nat} (h : n <+: t.drop i) (hk : k < n.length) :
    t[i + k]? = n[k]? := by
  obtain ⟨r, hr⟩ := h
  have := congrArg (fun l => l[k]?) hr
  simp only [List.getElem?_drop] at this
  rw [← this, List.getElem?_append_left hk]

/-- A first byte that a stretch of text does not contain does not begin an occurrence there. -/
theorem firstAt_after {x n r : List Byte} {c : Byte} {n' : List Byte} (hn : n = c :: n') (hx : c ∉ x) :
    Spec.FirstAt (x ++ n ++ r) n x.length := by
  constructor
  · rw [List.append_assoc, List.drop_left]; exact List.prefix_append _ _
  · intro j hj ho
    have h1 := prefix_get ho (k := 0) (by rw [hn]; simp)
    rw [List.append_assoc, Nat.add_zero, List.getElem?_append_left hj, hn, List.getElem?_eq_getElem hj] at h1
    have : x[j] = c := by simpa using h1
    exact hx (this ▸ List.getElem_mem hj)

/-- An occurrence that starts within `pre` lies within `pre ++ n` and one byte less. -/
theorem firstAt_extend {pre n r : List Byte} (h : Spec.FirstAt (pre ++ n) n pre.length) :
    Spec.FirstAt (pre ++ n ++ r) n pre.length := by
  constructor
  · rw [List.append_assoc, List.drop_left]; exact List.prefix_append _ _
  · intro j hj ho
    apply h.2 j hj
    rw [List.prefix_iff_eq_take] at ho ⊢
    rw [List.drop_append_of_le_length (by rw [List.length_append]; omega),
      List.take_append_of_le_length (by rw [List.length_drop, List.length_append]; omega)] at ho
    exact ho

/-- Markers made from a label. -/
def Marked (s : Symbol) : Prop := ∃ label, s.head = Spec.begin_ label ∧ s.tail = Spec.end_ label

theorem begin_cons (l : String) : ∃ r, Spec.begin_ l = 45#8 :: r := by
  unfold Spec.begin_
  have : Spec.ascii "-----BEGIN " = 45#8 :: [45#8, 45#8, 45#8, 45#8, 66#8, 69#8, 71#8, 73#8, 78#8, 32#8] := by
    decide +kernel
  rw [this]; exact ⟨_, rfl⟩
theorem end_cons (l : String) : ∃ r, Spec.end_ l = 45#8 :: r := by
  unfold Spec.end_
  have : Spec.ascii "-----END " = 45#8 :: [45#8, 45#8, 45#8, 45#8, 69#8, 78#8, 68#8, 32#8] := by decide +kernel
  rw [this]; exact ⟨_, rfl⟩

theorem isPem_of_block (s : Symbol) (hs : Marked s) {t body rest : List Byte}
    (h : Spec.Block t s.head s.tail body rest) : Spec.IsPem t := by
  obtain ⟨label, h1, h2⟩ := hs
  obtain ⟨pre, e, _⟩ := h
  have b1 : Spec.ascii "-----BEGIN " = Spec.ascii "-----BEGIN" ++ [32#8] := by decide +kernel
  have b2 : Spec.ascii "-----END " = Spec.ascii "-----END" ++ [32#8] := by decide +kernel
  refine ⟨pre, [32#8] ++ Spec.ascii label, body, [32#8] ++ Spec.ascii label, rest, ?_⟩
  rw [e, h1, h2]
  unfold Spec.begin_ Spec.end_
  rw [b1, b2]
  simp only [List.append_assoc]

/-- An encoded block is found, decoded, and the text after its end marker remains. -/
theorem decode_text (buf : List Byte) (off len : Nat) (s : Symbol) (hs : Marked s) (h : off + len ≤ buf.length)
    (hlen : len < 2 ^ 32) (pre m rest : List Byte) (hm : m ≠ [])
    (hpre : Spec.FirstAt (pre ++ s.head) s.head pre.length)
    (hw : win buf off len = pre ++ Spec.text s.head s.tail m ++ rest) :
    decodePemToAsn1 buf off len s =
      .ok { asn1 := m, nextOff := off + len - (rest.length + 1), nextLen := rest.length + 1 } := by
  have hh : s.head ≠ [] := by
    obtain ⟨l, h1, _⟩ := hs; obtain ⟨r, hr⟩ := begin_cons l; rw [h1, hr]; simp
  obtain ⟨r, hr⟩ : ∃ r, s.tail = 45#8 :: r := by
    obtain ⟨l, _, h1⟩ := hs; obtain ⟨r, hr⟩ := end_cons l; exact ⟨r, by rw [h1, hr]⟩
  have ht : s.tail ≠ [] := by rw [hr]; simp
  have hb : Spec.Block (win buf off len) s.head s.tail (bodyOf m) (10#8 :: rest) := by
    refine ⟨pre, ?_, ?_, ?_⟩
    · rw [hw, text_eq]; simp only [List.append_assoc, List.cons_append, List.nil_append]
    · have := firstAt_extend (r := bodyOf m ++ s.tail ++ [10#8] ++ rest) hpre
      rw [hw, text_eq]
      simpa only [List.append_assoc, List.cons_append, List.nil_append] using this
    · exact firstAt_after hr (body_no_dash m)
  have hl : rest.length + 1 ≤ len := by
    have := congrArg List.length hw
    rw [win_length h, text_eq] at this
    simp only [List.length_append, List.length_cons, List.length_nil] at this
    omega
  refine ((decode_spec buf off len s h hlen hh ht).2 _).mpr
    ⟨bodyOf m, 10#8 :: rest, isPem_of_block s hs hb, hb, ?_, ?_, rfl, ?_⟩
  · rw [strip_body]; exact encode_ne_nil hm
  · rw [strip_body]; exact Base64.encode_denotes m
  · show off + len - (rest.length + 1) + (rest.length + 1) = off + len
    omega

/-! ## Bundles -/

/-- A bundle: dash-free text before each block, and after the last one. -/
def bundle (s : Symbol) : List (List Byte × List Byte) → List Byte → List Byte
  | [], trail => trail
  | (gap, m) :: rest, trail => gap ++ Spec.text s.head s.tail m ++ bundle s rest trail

theorem occurs_dash {t n r : List Byte} (hn : n = 45#8 :: r) (ht : 45#8 ∉ t) : ¬ Spec.Occurs t n := by
  rintro ⟨i, hi⟩
  have h1 := prefix_get hi (k := 0) (by rw [hn]; simp)
  rw [hn, Nat.add_zero] at h1
  exact ht (List.mem_of_getElem? (by simpa using h1))

theorem decode_no_dash (buf : List Byte) (off len : Nat) (s : Symbol) (hs : Marked s) (h : off + len ≤ buf.length)
    (hlen : len < 2 ^ 32) (hw : 45#8 ∉ win buf off len) :
    ∃ e, decodePemToAsn1 buf off len s = .error e ∧ e ≠ .oob := by
  have hh : s.head ≠ [] := by
    obtain ⟨l, h1, _⟩ := hs; obtain ⟨r, hr⟩ := begin_cons l; rw [h1, hr]; simp
  have ht : s.tail ≠ [] := by
    obtain ⟨l, _, h1⟩ := hs; obtain ⟨r, hr⟩ := end_cons l; rw [h1, hr]; simp
  have hd := decode_spec buf off len s h hlen hh ht
  cases hc : decodePemToAsn1 buf off len s with
  | error e => exact ⟨e, rfl, fun he => hd.1 (by rw [hc, he])⟩
  | ok d =>
    obtain ⟨body, rest, _, hb, _⟩ := (hd.2 d).mp hc
    obtain ⟨i, p1, _⟩ := block_pos hb
    obtain ⟨l, h1, _⟩ := hs
    obtain ⟨r, hr⟩ := begin_cons l
    exact absurd ⟨i, p1.1⟩ (occurs_dash (h1.trans hr) hw)

theorem loop_stop (buf : List Byte) (s : Symbol) (parse : List Byte → Option α) (k off len : Nat)
    (h : len = 0 ∨ ∃ e, decodePemToAsn1 buf off len s = .error e ∧ e ≠ .oob) :
    parsePemLoop buf s parse k off len = .ok [] := by
  cases k with
  | zero => rfl
  | succ k =>
    unfold parsePemLoop
    by_cases hl : len > 0
    · rw [if_pos hl]
      rcases h with h | ⟨e, he, hne⟩
      · omega
      · rw [he]
        cases e <;> first | rfl | exact absurd rfl hne
    · rw [if_neg hl]

theorem bundle_loop (buf : List Byte) (s : Symbol) (hs : Marked s) (parse : List Byte → Option α)
    (items : List (List Byte × List Byte)) (hi : ∀ x ∈ items, 45#8 ∉ x.1 ∧ x.2 ≠ []) (trail : List Byte)
    (xs : List α) (hx : items.map (fun x => parse x.2) = xs.map some)
    (gap : List Byte) (hg : 45#8 ∉ gap)
    (k off len : Nat) (h : off + len ≤ buf.length) (hlen : len < 2 ^ 32) (hk : items.length ≤ k)
    (hstop : ∀ off' len' g, 45#8 ∉ g → off' + len' ≤ buf.length → len' < 2 ^ 32 → win buf off' len' = g ++ trail →
      len' = 0 ∨ ∃ e, decodePemToAsn1 buf off' len' s = .error e ∧ e ≠ .oob)
    (hw : win buf off len = gap ++ bundle s items trail) :
    parsePemLoop buf s parse k off len = .ok xs := by
  induction items generalizing gap k off len xs with
  | nil =>
    cases xs with
    | nil => exact loop_stop buf s parse k off len (hstop off len gap hg h hlen hw)
    | cons x xs => simp at hx
  | cons item items ih =>
    obtain ⟨g, m⟩ := item
    cases xs with
    | nil => simp at hx
    | cons x xs =>
      obtain ⟨hg1, hm⟩ := hi (g, m) (List.mem_cons_self ..)
      simp only [List.map_cons, List.cons.injEq] at hx
      obtain ⟨hx1, hx2⟩ := hx
      cases k with
      | zero => simp at hk
      | succ k =>
        have hw' : win buf off len = (gap ++ g) ++ Spec.text s.head s.tail m ++ bundle s items trail := by
          rw [hw]
          show gap ++ (g ++ Spec.text s.head s.tail m ++ bundle s items trail) = _
          simp only [List.append_assoc]
        have hh : ∃ r, s.head = 45#8 :: r := by
          obtain ⟨l, h1, _⟩ := hs; obtain ⟨r, hr⟩ := begin_cons l; exact ⟨r, by rw [h1, hr]⟩
        obtain ⟨r, hr⟩ := hh
        have hpre : Spec.FirstAt ((gap ++ g) ++ s.head) s.head (gap ++ g).length := by
          have := firstAt_after (r := []) hr (x := gap ++ g)
            (fun h => (List.mem_append.mp h).elim hg hg1)
          simpa only [List.append_nil] using this
        have hd := decode_text buf off len s hs h hlen (gap ++ g) m (bundle s items trail) hm hpre hw'
        have hlw := congrArg List.length hw'
        rw [win_length h, text_eq] at hlw
        simp only [List.length_append, List.length_cons, List.length_nil] at hlw
        have hpos : len > 0 := by omega
        unfold parsePemLoop
        rw [if_pos hpos, hd]
        simp only
        rw [hx1]
        simp only
        rw [ih (fun y hy => hi y (List.mem_cons_of_mem _ hy)) xs hx2 [10#8] (by decide) k _ _ (by omega) (by omega)
          (by simp at hk; omega) ?_]
        have hdrop : (win buf off len).drop (len - ((bundle s items trail).length + 1)) = [10#8] ++ bundle s items trail := by
          rw [hw', text_eq]
          have e : gap ++ g ++ (s.head ++ bodyOf m ++ s.tail ++ [10#8]) ++ bundle s items trail =
            (gap ++ g ++ s.head ++ bodyOf m ++ s.tail) ++ ([10#8] ++ bundle s items trail) := by
            simp only [List.append_assoc]
          rw [e, show len - ((bundle s items trail).length + 1) = (gap ++ g ++ s.head ++ bodyOf m ++ s.tail).length by
            simp only [List.length_append]; omega, List.drop_left]
        rw [win_drop] at hdrop
        rw [← hdrop]
        congr 1 <;> omega

theorem bundle_loop_bad (buf : List Byte) (s : Symbol) (hs : Marked s) (parse : List Byte → Option α)
    (items : List (List Byte × List Byte)) (hi : ∀ x ∈ items, 45#8 ∉ x.1 ∧ x.2 ≠ []) (trail : List Byte)
    (hx : ∃ x ∈ items, parse x.2 = none)
    (gap : List Byte) (hg : 45#8 ∉ gap)
    (k off len : Nat) (h : off + len ≤ buf.length) (hlen : len < 2 ^ 32) (hk : items.length ≤ k)
    (hw : win buf off len = gap ++ bundle s items trail) :
    parsePemLoop buf s parse k off len = .error .parse := by
  induction items generalizing gap k off len with
  | nil => obtain ⟨x, hm, _⟩ := hx; simp at hm
  | cons item items ih =>
    obtain ⟨g, m⟩ := item
    obtain ⟨hg1, hm⟩ := hi (g, m) (List.mem_cons_self ..)
    cases k with
    | zero => simp at hk
    | succ k =>
      have hw' : win buf off len = (gap ++ g) ++ Spec.text s.head s.tail m ++ bundle s items trail := by
        rw [hw]
        show gap ++ (g ++ Spec.text s.head s.tail m ++ bundle s items trail) = _
        simp only [List.append_assoc]
      have hh : ∃ r, s.head = 45#8 :: r := by
        obtain ⟨l, h1, _⟩ := hs; obtain ⟨r, hr⟩ := begin_cons l; exact ⟨r, by rw [h1, hr]⟩
      obtain ⟨r, hr⟩ := hh
      have hpre : Spec.FirstAt ((gap ++ g) ++ s.head) s.head (gap ++ g).length := by
        have := firstAt_after (r := []) hr (x := gap ++ g)
          (fun h => (List.mem_append.mp h).elim hg hg1)
        simpa only [List.append_nil] using this
      have hd := decode_text buf off len s hs h hlen (gap ++ g) m (bundle s items trail) hm hpre hw'
      have hlw := congrArg List.length hw'
      rw [win_length h, text_eq] at hlw
      simp only [List.length_append, List.length_cons, List.length_nil] at hlw
      have hpos : len > 0 := by omega
      unfold parsePemLoop
      rw [if_pos hpos, hd]
      simp only
      cases hp : parse m with
      | none => rfl
      | some x =>
        simp only
        have hx' : ∃ x ∈ items, parse x.2 = none := by
          obtain ⟨y, hy, hn⟩ := hx
          rcases List.mem_cons.mp hy with rfl | hy
          · rw [hp] at hn; cases hn
          · exact ⟨y, hy, hn⟩
        rw [ih (fun y hy => hi y (List.mem_cons_of_mem _ hy)) hx' [10#8] (by decide) k _ _ (by omega) (by omega)
          (by simp at hk; omega) ?_]
        have hdrop : (win buf off len).drop (len - ((bundle s items trail).length + 1)) = [10#8] ++ bundle s items trail := by
          rw [hw', text_eq]
          have e : gap ++ g ++ (s.head ++ bodyOf m ++ s.tail ++ [10#8]) ++ bundle s items trail =
            (gap ++ g ++ s.head ++ bodyOf m ++ s.tail) ++ ([10#8] ++ bundle s items trail) := by
            simp only [List.append_assoc]
          rw [e, show len - ((bundle s items trail).length + 1) = (gap ++ g ++ s.head ++ bodyOf m ++ s.tail).length by
            simp only [List.length_append]; omega, List.drop_left]
        rw [win_drop] at hdrop
        rw [← hdrop]
        congr 1 <;> omega

end Verif.Bsl.Pem
