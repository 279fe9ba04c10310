import Verif.Bsl.Pem.Proof4
/-!
# C45 — PEM (`/repo/bsl/pem/src/bsl_pem.c`)

Specification: `Verif/Bsl/Pem/Spec.lean` (texts, markers, first occurrences) and `Verif/Bsl/Base64/Spec.lean` (RFC 4648).
A text is `win buf off len`, the `len` bytes at offset `off` of the caller's memory `buf`.  `Err.oob` is a read
outside that memory or a write outside the allocated block. `Marked s`: the markers of `s` are those of a label.
-/
namespace Verif.Bsl.Pem.Props
open Verif.Common Verif.Bsl.Pem

/-- The search returns the first occurrence of a non-empty string, NULL exactly when there is none, and reads nothing
outside the text. -/
theorem search_correct (buf n : List Byte) (off len : Nat) (h : off + len ≤ buf.length) (hn : n ≠ []) :
    (memStr buf off len n = .ok none ∧ ¬ Spec.Occurs (win buf off len) n) ∨
    ∃ i, memStr buf off len n = .ok (some (off + i)) ∧ Spec.FirstAt (win buf off len) n i :=
  memStr_spec buf n off len h hn
example : memStr (str "xxabcabc") 1 7 (str "abc") = .ok (some 2) ∧ memStr (str "xxab") 0 3 (str "ab") = .ok none := by
  decide +kernel

/-- A text is recognised as PEM exactly when it has the four marks in this order. -/
theorem isPem_correct (buf : List Byte) (off len : Nat) (h : off + len ≤ buf.length) :
    ∃ r, isPemFormat buf off len = .ok r ∧ (r = true ↔ Spec.IsPem (win buf off len)) := isPemFormat_spec buf off len h

/-- Every text and every pair of markers: decoding stays inside the text; it succeeds exactly when the text has the
shape of PEM, holds the begin marker and after it the end marker, and the first such stretch is base64 of some bytes;
then it returns these bytes and leaves the text after the end marker. -/
theorem decode_correct (buf : List Byte) (off len : Nat) (s : Symbol) (h : off + len ≤ buf.length)
    (hlen : len < 2 ^ 32) (hh : s.head ≠ []) (ht : s.tail ≠ []) :
    decodePemToAsn1 buf off len s ≠ .error .oob ∧
    ∀ d, decodePemToAsn1 buf off len s = .ok d ↔
      ∃ body rest, Spec.IsPem (win buf off len) ∧ Spec.Block (win buf off len) s.head s.tail body rest ∧
        Base64.Spec.strip body ≠ [] ∧ Base64.Spec.Denotes (Base64.Spec.strip body) d.asn1 ∧
        d.nextLen = rest.length ∧ d.nextOff + rest.length = off + len :=
  decode_spec buf off len s h hlen hh ht

/-- Encoding: refused for empty contents or when the text would not fit a 32-bit length; otherwise the block holds the PEM
text and a NUL, the reported length is that of the text, and no byte is stored outside the allocated block. -/
theorem encode_correct (m : List Byte) (s : Symbol) :
    encodeAsn1ToPem m s =
      if (Base64.Spec.encode m).length + 1 > 2 ^ 32 - 1 then .error .invalidArg
      else if m = [] then .error (.base64 .nullInput)
      else if (Spec.text s.head s.tail m).length + 1 > 2 ^ 32 - 1 then .error .bufNotEnough
      else .ok { block := Spec.text s.head s.tail m ++ [0#8], len := (Spec.text s.head s.tail m).length } :=
  encode_eq m s

/-- No line of the encoded contents is longer than 64 characters, only the last may be shorter, and joined they are the
base64 text. -/
theorem lines_correct (t : List Byte) :
    (Spec.lines64 t).flatten = t ∧ (∀ l ∈ Spec.lines64 t, 0 < l.length ∧ l.length ≤ 64) ∧
    ∀ l ∈ (Spec.lines64 t).dropLast, l.length = 64 := by
  induction hn : t.length using Nat.strongRecOn generalizing t with
  | ind n ih =>
    subst hn
    by_cases h0 : t = []
    · subst h0; rw [lines64_nil]; simp
    have hpos : t.length ≠ 0 := fun hh => h0 (List.length_eq_zero_iff.mp hh)
    by_cases hl : t.length > 64
    · obtain ⟨i1, i2, i3⟩ := ih (t.drop 64).length (by rw [List.length_drop]; omega) (t.drop 64) rfl
      rw [lines64_long hl]
      refine ⟨by rw [List.flatten_cons, i1, List.take_append_drop], ?_, ?_⟩
      · intro l hm
        rcases List.mem_cons.mp hm with rfl | hm
        · rw [List.length_take]; omega
        · exact i2 l hm
      · intro l hm
        have hne : Spec.lines64 (t.drop 64) ≠ [] := by
          intro hc
          rw [hc] at i1
          have := congrArg List.length i1
          simp only [List.flatten_nil, List.length_nil, List.length_drop] at this
          omega
        rw [List.dropLast_cons_of_ne_nil hne] at hm
        rcases List.mem_cons.mp hm with rfl | hm
        · rw [List.length_take]; omega
        · exact i3 l hm
    · rw [lines64_short h0 (by omega)]
      refine ⟨by simp, ?_, by simp⟩
      intro l hm
      have : l = t := by simpa using hm
      subst this; omega

/-- The rows of the type table carry the markers of the RFC 7468 labels. -/
theorem table_correct : headerInfo.map (fun x => (x.1, x.2)) =
    (["PRIKEY_RSA", "PRIKEY_ECC", "PRIKEY_PKCS8_UNENCRYPT", "PRIKEY_PKCS8_ENCRYPT", "PUBKEY_SUBKEY", "PUBKEY_RSA", "CERT",
      "CRL", "CSR"].zip
    (["RSA PRIVATE KEY", "EC PRIVATE KEY", "PRIVATE KEY", "ENCRYPTED PRIVATE KEY", "PUBLIC KEY",
      "RSA PUBLIC KEY", "CERTIFICATE", "X509 CRL", "CERTIFICATE REQUEST"].map
        fun l => (⟨Spec.begin_ l, Spec.end_ l⟩ : Symbol))) := by decide +kernel

/-- Round trip: whatever the contents, the label, the text in front (as long as the begin marker does not already occur in
it) and the text behind, decoding an encoded block returns the contents and leaves the line feed after the end marker and
the text behind. -/
theorem roundtrip (s : Symbol) (hs : Marked s) (m pre rest block : List Byte) (n : Nat)
    (henc : encodeAsn1ToPem m s = .ok { block := block, len := n })
    (hpre : Spec.FirstAt (pre ++ s.head) s.head pre.length)
    (hsize : (pre ++ block.take n ++ rest).length < 2 ^ 32) :
    ∃ d, decodePemToAsn1 (pre ++ block.take n ++ rest) 0 (pre ++ block.take n ++ rest).length s = .ok d ∧
      d.asn1 = m ∧ win (pre ++ block.take n ++ rest) d.nextOff d.nextLen = 10#8 :: rest := by
  rw [encode_eq] at henc
  split at henc
  · cases henc
  split at henc
  · cases henc
  rename_i hm
  split at henc
  · cases henc
  injection henc with henc
  injection henc with hb hn
  have e : block.take n = Spec.text s.head s.tail m := by rw [← hb, ← hn, List.take_left]
  rw [e] at hsize ⊢
  have hd := decode_text (pre ++ Spec.text s.head s.tail m ++ rest) 0 _ s hs (by omega) hsize pre m rest hm hpre
    (by unfold win; rw [List.drop_zero, List.take_length])
  refine ⟨_, hd, rfl, ?_⟩
  show win _ (0 + _ - (rest.length + 1)) (rest.length + 1) = _
  rw [text_eq, show pre ++ (s.head ++ bodyOf m ++ s.tail ++ [10#8]) ++ rest
    = (pre ++ s.head ++ bodyOf m ++ s.tail) ++ (10#8 :: rest) by
      simp only [List.append_assoc, List.cons_append, List.nil_append]]
  unfold win
  rw [show 0 + ((pre ++ s.head ++ bodyOf m ++ s.tail) ++ (10#8 :: rest)).length - (rest.length + 1)
    = (pre ++ s.head ++ bodyOf m ++ s.tail).length by
      rw [List.length_append]; simp only [List.length_cons]; omega, List.drop_left]
  exact List.take_of_length_le (by simp)

/-- The hypotheses are met: every row of the table is `Marked`, contents of 100 bytes can be encoded, and any text without
dashes can stand in front. -/
example : (∀ x ∈ headerInfo, Marked x.2) ∧
    (∃ block n, encodeAsn1ToPem (List.replicate 100 7#8) symCert = .ok { block := block, len := n } ∧ n = 193) ∧
    ∀ pre, 45#8 ∉ pre → Spec.FirstAt (pre ++ symCert.head) symCert.head pre.length := by
  refine ⟨fun x hx => table_marked hx, ?_, ?_⟩
  · have hl : (Base64.Spec.encode (List.replicate 100 7#8)).length = 136 := by rw [Base64.encode_length]; rfl
    have ht : (Spec.text symCert.head symCert.tail (List.replicate 100 7#8)).length + 1 = 194 := by
      rw [text_length, hl]
      have h1 : symCert.head.length = 27 := by decide +kernel
      have h2 : symCert.tail.length = 25 := by decide +kernel
      rw [h1, h2]
    rw [encode_eq, hl, if_neg (by decide), if_neg (by decide), if_neg (by omega)]
    exact ⟨_, _, rfl, by omega⟩
  · intro pre hpre
    obtain ⟨r, hr⟩ : ∃ r, symCert.head = 45#8 :: r := ⟨symCert.head.tail, by decide +kernel⟩
    have := firstAt_after (r := []) hr hpre
    simpa only [List.append_nil] using this

/-- Type detection: the type returned is the first row of the table, in table order, whose begin marker and, after it, end
marker occur in the text; an error when there is none; no read outside the text. -/
theorem type_correct (buf : List Byte) (off len : Nat) (h : off + len ≤ buf.length) :
    (∃ before after t s, headerInfo = before ++ (t, s) :: after ∧ getSymbolAndType buf off len = .ok (t, s) ∧
      Spec.HasBlock (win buf off len) s.head s.tail ∧
      ∀ x ∈ before, ¬ Spec.HasBlock (win buf off len) x.2.head x.2.tail) ∨
    ((getSymbolAndType buf off len = .error .symbolNotFound ∨ getSymbolAndType buf off len = .error .pemInvalid) ∧
      ∀ x ∈ headerInfo, ¬ Spec.HasBlock (win buf off len) x.2.head x.2.tail) := by
  obtain ⟨r, hr, hp⟩ := isPemFormat_spec buf off len h
  unfold getSymbolAndType
  rw [hr]
  cases r with
  | false =>
    right
    refine ⟨Or.inr rfl, fun x hx hb => ?_⟩
    have := hp.mpr (isPem_of_hasBlock x.2 (table_marked hx) hb)
    cases this
  | true =>
    simp only
    rcases symbolLoop_spec buf off len h headerInfo (fun x hx => table_marked hx) with h1 | ⟨h1, h2⟩
    · exact Or.inl h1
    · exact Or.inr ⟨Or.inl h1, h2⟩

/-- The text of any contents under any row of the table is detected as that row. -/
theorem type_of_encoded (x : String × Symbol) (hx : x ∈ headerInfo) (m : List Byte) :
    getSymbolAndType (Spec.text x.2.head x.2.tail m) 0 (Spec.text x.2.head x.2.tail m).length = .ok x := by
  have hw : win (Spec.text x.2.head x.2.tail m) 0 (Spec.text x.2.head x.2.tail m).length
      = Spec.text x.2.head x.2.tail m := by unfold win; simp
  have hb : Spec.HasBlock (Spec.text x.2.head x.2.tail m) x.2.head x.2.tail :=
    ⟨[], bodyOf m, [10#8], by rw [text_eq]; rfl⟩
  have honly : ∀ y ∈ headerInfo, Spec.HasBlock (Spec.text x.2.head x.2.tail m) y.2.head y.2.tail → x = y := by
    intro y hy ⟨a, b, c, e⟩
    apply Decidable.byContradiction
    intro hne
    apply head_not_in_text hx hy hne m
    rw [e]
    refine ⟨a.length, ?_⟩
    simp only [List.append_assoc, List.drop_left]
    exact List.prefix_append _ _
  have ht := type_correct (Spec.text x.2.head x.2.tail m) 0 _ (Nat.le_of_eq (Nat.zero_add _))
  rw [hw] at ht
  rcases ht with ⟨before, after, t, s, e1, e2, e3, _⟩ | ⟨_, h2⟩
  · rw [e2, honly (t, s) (by rw [e1]; simp) e3]
  · exact absurd hb (h2 x hx)

/-- Detection follows the order of the table, not of the text: a certificate followed by a private key is reported as a
private key. -/
theorem type_by_table_order :
    getSymbolAndType (Spec.text symCert.head symCert.tail [48#8, 0#8] ++ Spec.text symPri.head symPri.tail [48#8, 0#8]) 0
      (Spec.text symCert.head symCert.tail [48#8, 0#8] ++ Spec.text symPri.head symPri.tail [48#8, 0#8]).length
      = .ok ("PRIKEY_PKCS8_UNENCRYPT", symPri) := by
  have e1 : Spec.text symCert.head symCert.tail [48#8, 0#8] = symCert.head ++ str "\nMAA=\n" ++ symCert.tail ++ [10#8] := by
    rw [text_eq]; unfold bodyOf; rw [lines64_short (by decide +kernel) (by decide +kernel)]; decide +kernel
  have e2 : Spec.text symPri.head symPri.tail [48#8, 0#8] = symPri.head ++ str "\nMAA=\n" ++ symPri.tail ++ [10#8] := by
    rw [text_eq]; unfold bodyOf; rw [lines64_short (by decide +kernel) (by decide +kernel)]; decide +kernel
  rw [e1, e2]
  decide +kernel

/-- A bundle of any number of encoded objects, with dash-free text in front of, between and after them: every object is
found, in order. -/
theorem bundle_correct (s : Symbol) (hs : Marked s) (parse : List Byte → Option α)
    (items : List (List Byte × List Byte)) (hne : items ≠ []) (hi : ∀ x ∈ items, 45#8 ∉ x.1 ∧ x.2 ≠ [])
    (trail : List Byte) (ht : 45#8 ∉ trail) (xs : List α) (hx : items.map (fun x => parse x.2) = xs.map some)
    (hsize : (bundle s items trail).length < 2 ^ 32) :
    parsePem (bundle s items trail) 0 (bundle s items trail).length s parse = .ok xs := by
  have hk : ∀ (items : List (List Byte × List Byte)), items.length ≤ (bundle s items trail).length := by
    intro items
    induction items with
    | nil => simp
    | cons x rest ih =>
      obtain ⟨g, m⟩ := x
      have : bundle s ((g, m) :: rest) trail = g ++ Spec.text s.head s.tail m ++ bundle s rest trail := rfl
      rw [this, text_eq]
      simp only [List.length_append, List.length_cons, List.length_nil]
      omega
  unfold parsePem
  rw [bundle_loop (bundle s items trail) s hs parse items hi trail xs hx [] (by simp) _ 0 _ (by omega) hsize
    (Nat.le_succ_of_le (hk items)) ?_ (by unfold win; simp)]
  · cases xs with
    | nil => cases items with
      | nil => exact absurd rfl hne
      | cons a b => simp at hx
    | cons a b => rfl
  · intro off' len' g hg h1 h2 h3
    by_cases h0 : len' = 0
    · exact Or.inl h0
    · right
      refine decode_no_dash _ off' len' s hs h1 h2 ?_
      rw [h3]
      exact fun h => (List.mem_append.mp h).elim hg ht
example : ∀ x ∈ [((str "first\n"), [48#8, 0#8]), ([], [48#8, 1#8, 5#8])], 45#8 ∉ x.1 ∧ x.2 ≠ [] := by decide +kernel

/-- What the bundle parser does with a damaged object behind good ones: it reports success and returns the good ones only;
neither the damaged object nor anything after it is reported. -/
theorem bundle_truncates (s : Symbol) (hs : Marked s) (parse : List Byte → Option α)
    (items : List (List Byte × List Byte)) (hne : items ≠ []) (hi : ∀ x ∈ items, 45#8 ∉ x.1 ∧ x.2 ≠ [])
    (bad rest : List Byte) (hbad : 45#8 ∉ bad) (hnot : ¬ ∃ m, Base64.Spec.Denotes (Base64.Spec.strip bad) m)
    (xs : List α) (hx : items.map (fun x => parse x.2) = xs.map some)
    (hsize : (bundle s items (s.head ++ bad ++ s.tail ++ rest)).length < 2 ^ 32) :
    parsePem (bundle s items (s.head ++ bad ++ s.tail ++ rest)) 0
      (bundle s items (s.head ++ bad ++ s.tail ++ rest)).length s parse = .ok xs := by
  generalize htr : s.head ++ bad ++ s.tail ++ rest = trail at hsize ⊢
  have hk : ∀ (items : List (List Byte × List Byte)), items.length ≤ (bundle s items trail).length := by
    intro items
    induction items with
    | nil => simp
    | cons x rest ih =>
      obtain ⟨g, m⟩ := x
      have : bundle s ((g, m) :: rest) trail = g ++ Spec.text s.head s.tail m ++ bundle s rest trail := rfl
      rw [this, text_eq]
      simp only [List.length_append, List.length_cons, List.length_nil]
      omega
  unfold parsePem
  rw [bundle_loop (bundle s items trail) s hs parse items hi trail xs hx [] (by simp) _ 0 _ (by omega) hsize
    (Nat.le_succ_of_le (hk items)) ?_ (by unfold win; simp)]
  · cases xs with
    | nil => cases items with
      | nil => exact absurd rfl hne
      | cons a b => simp at hx
    | cons a b => rfl
  · intro off' len' g hg h1 h2 h3
    right
    obtain ⟨hh, ht⟩ := marked_ne hs
    have hd := decode_spec (bundle s items trail) off' len' s h1 h2 hh ht
    cases hc : decodePemToAsn1 (bundle s items trail) off' len' s with
    | error e => exact ⟨e, rfl, fun he => hd.1 (by rw [hc, he])⟩
    | ok d =>
      obtain ⟨body, rest', _, hb, _, hden, _⟩ := (hd.2 d).mp hc
      obtain ⟨i, p1, p2, p3, _⟩ := block_pos hb
      exfalso
      have hhd : ∃ r, s.head = 45#8 :: r := by
        obtain ⟨l, h1, _⟩ := hs; obtain ⟨r, hr⟩ := begin_cons l; exact ⟨r, by rw [h1, hr]⟩
      have htl : ∃ r, s.tail = 45#8 :: r := by
        obtain ⟨l, _, h1⟩ := hs; obtain ⟨r, hr⟩ := end_cons l; exact ⟨r, by rw [h1, hr]⟩
      obtain ⟨r1, hr1⟩ := hhd
      obtain ⟨r2, hr2⟩ := htl
      have hblk : Spec.Block (win (bundle s items trail) off' len') s.head s.tail bad rest := by
        refine ⟨g, by rw [h3, ← htr]; simp only [List.append_assoc], ?_, firstAt_after hr2 hbad⟩
        rw [h3, ← htr, show g ++ (s.head ++ bad ++ s.tail ++ rest) = g ++ s.head ++ (bad ++ s.tail ++ rest) by
          simp only [List.append_assoc]]
        exact firstAt_after hr1 hg
      obtain ⟨i', q1, q2, q3, _⟩ := block_pos hblk
      have := firstAt_unique p1 q1
      subst this
      have hbl := firstAt_unique p2 q2
      have heq := p3.symm.trans q3
      simp only [List.append_assoc] at heq
      have heq := List.append_cancel_left (List.append_cancel_left heq)
      obtain ⟨e, _⟩ := List.append_inj heq hbl
      exact hnot ⟨_, e ▸ hden⟩

/-- A character outside the alphabet makes a text denote nothing, so the hypothesis of `bundle_truncates` is met by a body
with one wrong character. -/
example : ¬ ∃ m, Base64.Spec.Denotes (Base64.Spec.strip (str "\nMA!=\n")) m := by
  rintro ⟨m, hm⟩
  have h1 := (Base64.decode_iff (str "\nMA!=\n") m 6 (by decide) (by decide +kernel)).mpr ⟨by decide +kernel, hm⟩
  have h2 : Base64.decode (str "\nMA!=\n") 6 = .error .invalidCharacter := by decide +kernel
  rw [h2] at h1
  cases h1

/-- A bundle in which an object is refused by its own parser is refused as a whole, wherever that object stands. -/
theorem bundle_bad_object (s : Symbol) (hs : Marked s) (parse : List Byte → Option α)
    (items : List (List Byte × List Byte)) (hi : ∀ x ∈ items, 45#8 ∉ x.1 ∧ x.2 ≠ [])
    (trail : List Byte) (hx : ∃ x ∈ items, parse x.2 = none) (hsize : (bundle s items trail).length < 2 ^ 32) :
    ∃ e, parsePem (bundle s items trail) 0 (bundle s items trail).length s parse = .error e := by
  have hk : ∀ (items : List (List Byte × List Byte)), items.length ≤ (bundle s items trail).length := by
    intro items
    induction items with
    | nil => simp
    | cons x rest ih =>
      obtain ⟨g, m⟩ := x
      have : bundle s ((g, m) :: rest) trail = g ++ Spec.text s.head s.tail m ++ bundle s rest trail := rfl
      rw [this, text_eq]
      simp only [List.length_append, List.length_cons, List.length_nil]
      omega
  unfold parsePem
  rw [bundle_loop_bad (bundle s items trail) s hs parse items hi trail hx [] (by simp) _ 0 _ (by omega) hsize
    (Nat.le_succ_of_le (hk items)) (by unfold win; simp)]
  exact ⟨_, rfl⟩
example : ∃ x ∈ [((str "first\n"), [48#8, 0#8]), ([], [48#8, 1#8, 5#8])], (fun m : List Byte => if m.length = 2 then some () else none) x.2 = none :=
  ⟨([], [48#8, 1#8, 5#8]), by simp, rfl⟩

/-- The bundle parser never reports success without an object. -/
theorem bundle_nonempty (buf : List Byte) (off len : Nat) (s : Symbol) (parse : List Byte → Option α) (xs : List α)
    (h : parsePem buf off len s parse = .ok xs) : xs ≠ [] := by
  rintro rfl
  unfold parsePem at h
  split at h
  · cases h
  · cases h
  · rename_i hne _; injection h with h; exact hne h
example : ∃ xs, parsePem (bundle symCert [([], [48#8, 0#8])] []) 0 (bundle symCert [([], [48#8, 0#8])] []).length symCert some = .ok xs :=
  ⟨[[48#8, 0#8]], bundle_correct symCert (table_marked (x := ("CERT", symCert)) (by decide +kernel)) some _ (by simp) (by decide +kernel) [] (by simp) _ rfl
    (by show (([] : List Byte) ++ Spec.text symCert.head symCert.tail [48#8, 0#8] ++ []).length < _
        rw [text_eq]; unfold bodyOf; rw [lines64_short (by decide +kernel) (by decide +kernel)]; decide +kernel)⟩

end Verif.Bsl.Pem.Props
