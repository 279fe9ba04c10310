import Verif.Bsl.Base64.Model
import Verif.Bsl.Base64.Spec
/-! Lemmas for base64: the C tables and bit manipulations agree with the bit-string specification. -/
namespace Verif.Bsl.Base64
open Verif.Common

theorem letterTable_char : ∀ i : Fin 64, letterTable[i.val]? = some (Spec.char i.val) := by
  decide +kernel

theorem letter_char (i : Byte) (h : i.toNat < 64) : letter i = .ok (Spec.char i.toNat) := by
  unfold letter
  rw [letterTable_char ⟨i.toNat, h⟩]

theorem dec_char : ∀ d : Fin 64, dec (Spec.char d.val) = BitVec.ofNat 8 d.val := by decide +kernel

theorem dec_lt {c : Byte} : dec c < 64#8 → (dec c).toNat < 64 ∧ c = Spec.char (dec c).toNat := by
  revert c; decide +kernel

theorem dec_blank : ∀ c : Byte, (dec c != 64#8) = !Spec.isBlank c := by decide +kernel

theorem dec_eq65 : ∀ c : Byte, dec c = 65#8 ↔ c = 61#8 := by decide +kernel

theorem dec_le : ∀ c : Byte, dec c ≤ 67#8 := by decide +kernel

theorem idx_toNat : ∀ x : Byte, x.getLsbD 7 = false → x.getLsbD 6 = false →
    x.toNat < 64 ∧ x.toNat = Spec.ofBits [x.getLsbD 5, x.getLsbD 4, x.getLsbD 3, x.getLsbD 2,
      x.getLsbD 1, x.getLsbD 0] := by decide +kernel

theorem letter_bits (x : Byte) (h7 : x.getLsbD 7 = false) (h6 : x.getLsbD 6 = false) :
    letter x = .ok (Spec.char (Spec.ofBits [x.getLsbD 5, x.getLsbD 4, x.getLsbD 3, x.getLsbD 2,
      x.getLsbD 1, x.getLsbD 0])) := by
  have h := idx_toNat x h7 h6
  rw [letter_char x h.1, ← h.2]

theorem encodeProc_eq_spec (m : List Byte) : encodeProc m = .ok (Spec.encode m) := by
  fun_induction encodeProc m with
  | case1 b0 b1 b2 rest ih =>
    rw [ih, letter_bits _ (by simp) (by simp), letter_bits _ (by simp) (by simp),
      letter_bits _ (by simp) (by simp), letter_bits _ (by simp) (by simp)]
    simp [Spec.encode, Spec.bits8, Spec.digits, bind, Except.bind, pure, Except.pure]
    omega
  | case2 b0 b1 =>
    rw [letter_bits _ (by simp) (by simp), letter_bits _ (by simp) (by simp),
      letter_bits _ (by simp) (by simp)]
    simp [Spec.encode, Spec.bits8, Spec.digits, bind, Except.bind, pure, Except.pure, List.replicate]
  | case3 b0 =>
    rw [letter_bits _ (by simp) (by simp), letter_bits _ (by simp) (by simp)]
    simp [Spec.encode, Spec.bits8, Spec.digits, bind, Except.bind, pure, Except.pure, List.replicate]
  | case4 => simp [Spec.encode, Spec.digits, pure, Except.pure]


/-! ### Lengths -/

theorem encodeProc_length (m t : List Byte) (h : encodeProc m = .ok t) :
    t.length = (m.length + 2) / 3 * 4 := by
  rw [encodeProc_eq_spec] at h
  cases h
  have hd : ∀ m : List Byte, (Spec.digits (m.flatMap Spec.bits8)).length = (m.length * 8 + 5) / 6 := by
    intro m
    induction m using encodeProc.induct with
    | case1 b0 b1 b2 rest ih =>
      simp [Spec.bits8, Spec.digits, ih]; omega
    | case2 b0 b1 => simp [Spec.bits8, Spec.digits]
    | case3 b0 => simp [Spec.bits8, Spec.digits]
    | case4 => simp [Spec.digits]
  simp [Spec.encode, hd]
  omega

theorem decodeBuffer_length (t : List Byte) :
    (decodeBuffer t).length = t.length / 4 * 3 + (t.length % 4 - 1) := by
  fun_induction decodeBuffer t <;> simp_all <;> omega

/-! ### Decoding -/

theorem byte_ofBits : ∀ x : Byte, x = BitVec.ofNat 8 (Spec.ofBits (Spec.bits8 x)) := by decide +kernel

theorem getElem_digit (d i : Nat) (h : i < 8) : (BitVec.ofNat 8 d)[i] = d.testBit i := by
  rw [← BitVec.getLsbD_eq_getElem, BitVec.getLsbD_ofNat]; simp [h]

theorem testBit_high {d : Nat} (h : d < 64) (i : Nat) (hi : 6 ≤ i) : d.testBit i = false := by
  apply Nat.testBit_lt_two_pow
  calc d < 2 ^ 6 := h
    _ ≤ 2 ^ i := Nat.pow_le_pow_right (by decide) hi

theorem byte1 {a b : Nat} (ha : a < 64) (hb : b < 64) :
    (BitVec.ofNat 8 a <<< 2) ||| (BitVec.ofNat 8 b >>> 4) =
      BitVec.ofNat 8 (Spec.ofBits [a.testBit 5, a.testBit 4, a.testBit 3, a.testBit 2, a.testBit 1,
        a.testBit 0, b.testBit 5, b.testBit 4]) := by
  rw [byte_ofBits ((BitVec.ofNat 8 a <<< 2) ||| (BitVec.ofNat 8 b >>> 4))]
  simp [Spec.bits8, getElem_digit, testBit_high hb 6, testBit_high hb 7]

theorem byte2 {a b : Nat} (ha : a < 64) (hb : b < 64) :
    (BitVec.ofNat 8 a <<< 4) ||| (BitVec.ofNat 8 b >>> 2) =
      BitVec.ofNat 8 (Spec.ofBits [a.testBit 3, a.testBit 2, a.testBit 1,
        a.testBit 0, b.testBit 5, b.testBit 4, b.testBit 3, b.testBit 2]) := by
  rw [byte_ofBits ((BitVec.ofNat 8 a <<< 4) ||| (BitVec.ofNat 8 b >>> 2))]
  simp [Spec.bits8, getElem_digit, testBit_high hb 6, testBit_high hb 7]

theorem byte3 {a b : Nat} (ha : a < 64) (hb : b < 64) :
    (BitVec.ofNat 8 a <<< 6) ||| (BitVec.ofNat 8 b) =
      BitVec.ofNat 8 (Spec.ofBits [a.testBit 1,
        a.testBit 0, b.testBit 5, b.testBit 4, b.testBit 3, b.testBit 2, b.testBit 1, b.testBit 0]) := by
  rw [byte_ofBits ((BitVec.ofNat 8 a <<< 6) ||| (BitVec.ofNat 8 b))]
  simp [Spec.bits8, getElem_digit, testBit_high hb 6, testBit_high hb 7]

theorem dec_char' {d : Nat} (h : d < 64) : dec (Spec.char d) = BitVec.ofNat 8 d := dec_char ⟨d, h⟩

theorem decodeBuffer_eq_spec : ∀ ds : List Nat, (∀ d ∈ ds, d < 64) →
    decodeBuffer (ds.map Spec.char) = Spec.bytes (ds.flatMap Spec.bits6)
  | a :: b :: c :: d :: e :: rest, h => by
    have ih := decodeBuffer_eq_spec (e :: rest) (fun x hx => h x (List.mem_cons_of_mem _ (List.mem_cons_of_mem _
      (List.mem_cons_of_mem _ (List.mem_cons_of_mem _ hx)))))
    have ha : a < 64 := h a (by simp)
    have hb : b < 64 := h b (by simp)
    have hc : c < 64 := h c (by simp)
    have hd : d < 64 := h d (by simp)
    simp only [List.map_cons] at ih
    simp only [List.map_cons, decodeBuffer, ih, dec_char' ha, dec_char' hb, dec_char' hc, dec_char' hd,
      byte1 ha hb, byte2 hb hc, byte3 hc hd, List.flatMap_cons]
    simp [Spec.bits6, Spec.bytes]
  | [a, b, c, d], h => by
    have ha : a < 64 := h a (by simp)
    have hb : b < 64 := h b (by simp)
    have hc : c < 64 := h c (by simp)
    have hd : d < 64 := h d (by simp)
    simp only [List.map_cons, List.map_nil, decodeBuffer, dec_char' ha, dec_char' hb, dec_char' hc,
      dec_char' hd, byte1 ha hb, byte2 hb hc, byte3 hc hd, List.flatMap_cons]
    simp [Spec.bits6, Spec.bytes]
  | [a, b, c], h => by
    have ha : a < 64 := h a (by simp)
    have hb : b < 64 := h b (by simp)
    have hc : c < 64 := h c (by simp)
    simp only [List.map_cons, List.map_nil, decodeBuffer, dec_char' ha, dec_char' hb, dec_char' hc,
      byte1 ha hb, byte2 hb hc, List.flatMap_cons]
    simp [Spec.bits6, Spec.bytes]
  | [a, b], h => by
    have ha : a < 64 := h a (by simp)
    have hb : b < 64 := h b (by simp)
    simp only [List.map_cons, List.map_nil, decodeBuffer, dec_char' ha, dec_char' hb,
      byte1 ha hb, List.flatMap_cons]
    simp [Spec.bits6, Spec.bytes]
  | [a], _ => by simp [decodeBuffer, Spec.bits6, Spec.bytes]
  | [], _ => by simp [decodeBuffer, Spec.bytes]

/-- Data characters. -/
def IsData (c : Byte) : Prop := dec c < 64#8

theorem isData_char {d : Nat} (h : d < 64) : IsData (Spec.char d) := by
  unfold IsData; rw [dec_char' h]; simp [BitVec.lt_def]; omega

theorem data_eq_map (p : List Byte) (h : ∀ c ∈ p, IsData c) :
    (∀ d ∈ p.map (fun c => (dec c).toNat), d < 64) ∧
      p = (p.map (fun c => (dec c).toNat)).map Spec.char := by
  constructor
  · intro d hd
    obtain ⟨c, hc, rfl⟩ := List.mem_map.mp hd
    exact (dec_lt (h c hc)).1
  · rw [List.map_map]
    conv => lhs; rw [← List.map_id p]
    apply List.map_congr_left
    intro c hc
    exact (dec_lt (h c hc)).2

theorem not_data_61 : ¬ IsData 61#8 := by unfold IsData; decide +kernel

/-- Trichotomy of a non-blank character as the code sees it. -/
theorem dec_cases (c : Byte) (h : dec c ≠ 64#8) : IsData c ∨ c = 61#8 ∨ dec c > 65#8 := by
  by_cases h1 : dec c = 65#8
  · exact Or.inr (Or.inl ((dec_eq65 c).mp h1))
  · unfold IsData
    have e1 : (dec c).toNat ≠ 64 := fun hh => h (BitVec.eq_of_toNat_eq (by simpa using hh))
    have e2 : (dec c).toNat ≠ 65 := fun hh => h1 (BitVec.eq_of_toNat_eq (by simpa using hh))
    simp only [BitVec.lt_def, gt_iff_lt, BitVec.toNat_ofNat]
    omega

theorem checkAndRmv_iff (f p : List Byte) (hf : ∀ c ∈ f, dec c ≠ 64#8) :
    checkAndRmvEqualSign f = .ok p ↔
      ∃ pad, pad ≤ 2 ∧ f = p ++ List.replicate pad 61#8 ∧ ∀ c ∈ p, IsData c := by
  have hd61 : dec 61#8 = 65#8 := by decide +kernel
  induction f generalizing p with
  | nil =>
    simp only [checkAndRmvEqualSign, Except.ok.injEq]
    constructor
    · rintro rfl; exact ⟨0, by simp⟩
    · rintro ⟨pad, _, h, _⟩
      have := congrArg List.length h
      simp at this
      exact (List.length_eq_zero_iff.mp (by omega)).symm
  | cons c rest ih =>
    have hrest : ∀ c ∈ rest, dec c ≠ 64#8 := fun x hx => hf x (by simp [hx])
    rcases dec_cases c (hf c (by simp)) with hdata | rfl | hbad
    · have h1 : ¬ dec c > 65#8 := by
        unfold IsData at hdata; simp only [BitVec.lt_def, gt_iff_lt, BitVec.toNat_ofNat] at *; omega
      have h2 : dec c ≠ 65#8 := by
        intro h; unfold IsData at hdata; rw [h] at hdata; exact absurd hdata (by decide)
      unfold checkAndRmvEqualSign
      rw [if_neg h1, if_neg h2]
      constructor
      · intro h
        split at h
        · rename_i q hq
          cases h
          obtain ⟨pad, hp, he, hall⟩ := (ih q hrest).mp hq
          refine ⟨pad, hp, by simp [he], ?_⟩
          intro x hx
          rcases List.mem_cons.mp hx with rfl | hx
          · exact hdata
          · exact hall x hx
        · cases h
      · rintro ⟨pad, hp, he, hall⟩
        cases p with
        | nil =>
          exfalso
          cases pad with
          | zero => simp at he
          | succ n =>
            simp [List.replicate_succ] at he
            exact not_data_61 (he.1 ▸ hdata)
        | cons x q =>
          simp only [List.cons_append, List.cons.injEq] at he
          obtain ⟨rfl, he⟩ := he
          have := (ih q hrest).mpr ⟨pad, hp, he, fun y hy => hall y (by simp [hy])⟩
          rw [this]
    · unfold checkAndRmvEqualSign
      rw [if_neg (by rw [hd61]; decide), if_pos hd61]
      constructor
      · intro h
        match rest, h with
        | [], h => cases h; exact ⟨1, by simp [List.replicate]⟩
        | [d], h =>
          by_cases hd : d = 61#8
          · subst hd
            have hp : p = [] := by simpa using h.symm
            subst hp
            exact ⟨2, by simp [List.replicate]⟩
          · simp [hd] at h
        | _ :: _ :: _, h => simp at h
      · rintro ⟨pad, hp, he, hall⟩
        have hpn : p = [] := by
          cases p with
          | nil => rfl
          | cons x q =>
            exfalso
            simp only [List.cons_append, List.cons.injEq] at he
            exact not_data_61 (he.1 ▸ hall x (by simp))
        subst hpn
        have : pad = 1 ∨ pad = 2 := by
          have := congrArg List.length he
          simp at this
          omega
        rcases this with rfl | rfl
        · simp [List.replicate] at he
          subst he; rfl
        · simp [List.replicate] at he
          subst he; simp
    · unfold checkAndRmvEqualSign
      rw [if_pos hbad]
      constructor
      · intro h; cases h
      · rintro ⟨pad, hp, he, hall⟩
        exfalso
        cases p with
        | nil =>
          cases pad with
          | zero => simp at he
          | succ n =>
            simp [List.replicate_succ] at he
            rw [he.1, hd61] at hbad
            exact absurd hbad (by decide)
        | cons x q =>
          simp only [List.cons_append, List.cons.injEq] at he
          have := hall x (by simp)
          rw [← he.1] at this
          unfold IsData at this
          simp only [BitVec.lt_def, gt_iff_lt, BitVec.toNat_ofNat] at *
          omega

theorem removeBlank_eq (s : List Byte) : removeBlank s = s.filter (fun c => !Spec.isBlank c) := by
  unfold removeBlank
  congr 1
  funext c
  exact dec_blank c

theorem removeBlank_ne (s : List Byte) : ∀ c ∈ removeBlank s, dec c ≠ 64#8 := by
  intro c hc
  unfold removeBlank at hc
  simpa using (List.mem_filter.mp hc).2

theorem normalization_iff (s p : List Byte) :
    normalization s = .ok p ↔ removeBlank s ≠ [] ∧ (removeBlank s).length % 4 = 0 ∧
      ∃ pad, pad ≤ 2 ∧ removeBlank s = p ++ List.replicate pad 61#8 ∧ ∀ c ∈ p, IsData c := by
  unfold normalization
  simp only
  rw [← checkAndRmv_iff _ _ (removeBlank_ne s)]
  by_cases h : (removeBlank s).length = 0 ∨ (removeBlank s).length % 4 ≠ 0
  · rw [if_pos h]
    constructor
    · intro h; cases h
    · rintro ⟨h1, h2, _⟩
      rcases h with h | h
      · exact absurd (List.length_eq_zero_iff.mp h) h1
      · exact absurd h2 h
  · rw [if_neg h]
    have h1 : (removeBlank s).length ≠ 0 := fun hc => h (Or.inl hc)
    have h2 : (removeBlank s).length % 4 = 0 := by
      by_cases hc : (removeBlank s).length % 4 = 0
      · exact hc
      · exact absurd (Or.inr hc) h
    constructor
    · intro hh; exact ⟨fun hc => h1 (by simp [hc]), h2, hh⟩
    · rintro ⟨_, _, hh⟩; exact hh


/-! ### Streaming encoder -/

/-- Rendering of one line. -/
def renderLine (nn : Bool) (l : List Byte) : List Byte :=
  Spec.encode l ++ (if nn then [] else [0x0A#8])

/-- Rendering of a list of lines. -/
def render (nn : Bool) (ls : List (List Byte)) : List Byte := ls.flatMap (renderLine nn)

theorem encodeBlock_eq (nn : Bool) (b : List Byte) : encodeBlock nn b = .ok (renderLine nn b) := by
  unfold encodeBlock renderLine
  rw [encodeProc_eq_spec]
  cases nn <;> simp [bind, Except.bind, pure, Except.pure]

theorem lines_nil : Spec.lines [] = [] := by unfold Spec.lines; simp

theorem lines_cons (b rest : List Byte) (h : b.length = 48) :
    Spec.lines (b ++ rest) = b :: Spec.lines rest := by
  rw [Spec.lines]
  have : b ++ rest ≠ [] := by
    intro hc
    have := congrArg List.length hc
    rw [List.length_append, h] at this
    simp at this
  simp [this]
  constructor
  · rw [← h, List.take_left']; rfl
  · rw [← h, List.drop_left']; rfl

theorem lines_short (m : List Byte) (h : m.length ≤ 48) (hne : m ≠ []) : Spec.lines m = [m] := by
  rw [Spec.lines]
  simp only [hne, dite_false]
  rw [List.take_of_length_le h, List.drop_eq_nil_of_le h, lines_nil]

theorem encodeBlocks_spec (nn : Bool) (src : List Byte) :
    ∃ full tail, encodeBlocks nn src = .ok (render nn full, tail) ∧ tail.length < 48 ∧
      (∀ l ∈ full, l.length = 48) ∧ src = full.flatten ++ tail ∧
      (∀ more, Spec.lines (src ++ more) = full ++ Spec.lines (tail ++ more)) := by
  induction hn : src.length using Nat.strongRecOn generalizing src with
  | _ n ih =>
    rw [encodeBlocks]
    by_cases h : 48 ≤ src.length
    · obtain ⟨full, tail, he, hlt, hall, heq, hl⟩ := ih (src.drop 48).length (by simp; omega) (src.drop 48) rfl
      simp only [h, dite_true, encodeBlock_eq, he, bind, Except.bind, pure, Except.pure]
      refine ⟨src.take 48 :: full, tail, ?_, hlt, ?_, ?_, ?_⟩
      · simp [render]
      · intro l hl
        rcases List.mem_cons.mp hl with rfl | hl
        · simp; omega
        · exact hall l hl
      · simp [← heq]
      · intro more
        have : src ++ more = src.take 48 ++ (src.drop 48 ++ more) := by
          rw [← List.append_assoc, List.take_append_drop]
        rw [this, lines_cons _ _ (by simp; omega), hl more]
        simp
    · simp only [h, dite_false]
      exact ⟨[], src, by simp [render], by omega, by simp, by simp, by simp⟩

theorem encodeUpdate_spec (ctx : Ctx) (src : List Byte) (dstLen : Nat) (hb : ctx.buf.length < 48)
    (hne : src ≠ []) (hd : (src.length + ctx.buf.length) / 48 * 65 + 1 ≤ dstLen) (hmax : dstLen ≤ uint32Max) :
    ∃ full tail, encodeUpdate ctx src dstLen = .ok ({ ctx with buf := tail }, render ctx.noNewline full) ∧
      tail.length < 48 ∧ (∀ l ∈ full, l.length = 48) ∧ ctx.buf ++ src = full.flatten ++ tail ∧
      (∀ more, Spec.lines (ctx.buf ++ src ++ more) = full ++ Spec.lines (tail ++ more)) := by
  unfold encodeUpdate
  have h0 : src.length ≠ 0 := fun h => hne (List.length_eq_zero_iff.mp h)
  have h1 : ¬ ((src.length + ctx.buf.length) / 48 * 65 + 1 > uint32Max ∨
      dstLen < (src.length + ctx.buf.length) / 48 * 65 + 1) := by omega
  simp only [if_neg h0, if_neg h1]
  by_cases h2 : src.length < 48 - ctx.buf.length
  · simp only [if_pos h2]
    refine ⟨[], ctx.buf ++ src, by simp [render], by simp; omega, by simp, by simp, by simp⟩
  · simp only [if_neg h2]
    by_cases h3 : ctx.buf.length ≠ 0
    · obtain ⟨full, tail, he, hlt, hall, heq, hl⟩ := encodeBlocks_spec ctx.noNewline (src.drop (48 - ctx.buf.length))
      rw [if_pos h3]
      simp only [encodeBlock_eq, he, bind, Except.bind, pure, Except.pure]
      have hlen : (ctx.buf ++ src.take (48 - ctx.buf.length)).length = 48 := by simp; omega
      refine ⟨(ctx.buf ++ src.take (48 - ctx.buf.length)) :: full, tail, by simp [render], hlt, ?_, ?_, ?_⟩
      · intro l hl
        rcases List.mem_cons.mp hl with rfl | hl
        · exact hlen
        · exact hall l hl
      · simp [← heq]
      · intro more
        have : ctx.buf ++ src ++ more = (ctx.buf ++ src.take (48 - ctx.buf.length)) ++
            (src.drop (48 - ctx.buf.length) ++ more) := by
          rw [List.append_assoc, List.append_assoc, ← List.append_assoc (List.take _ _),
            List.take_append_drop]
        rw [this, lines_cons _ _ hlen, hl more]
        simp
    · obtain ⟨full, tail, he, hlt, hall, heq, hl⟩ := encodeBlocks_spec ctx.noNewline src
      rw [if_neg h3]
      have hbn : ctx.buf = [] := List.length_eq_zero_iff.mp (by omega)
      simp only [he, bind, Except.bind, pure, Except.pure]
      refine ⟨full, tail, rfl, hlt, hall, by simp [hbn, heq], ?_⟩
      intro more
      rw [hbn]; simpa using hl more

theorem encodeFinal_spec (ctx : Ctx) (dstLen : Nat) (hb : ctx.buf.length < 48) (hd : 66 ≤ dstLen) :
    encodeFinal ctx dstLen = .ok ({ ctx with buf := [] }, render ctx.noNewline (Spec.lines ctx.buf)) := by
  unfold encodeFinal
  by_cases h : ctx.buf.length = 0
  · have hbn : ctx.buf = [] := List.length_eq_zero_iff.mp h
    rw [if_pos h, hbn, lines_nil]
    have : ctx = { ctx with buf := [] } := by
      cases ctx; simp_all
    simp [render, ← this]
  · rw [if_neg h]
    have hne : ctx.buf ≠ [] := fun hc => h (by simp [hc])
    have : ¬ dstLen < (ctx.buf.length + 2) / 3 * 4 + 1 + (if ctx.noNewline = true then 0 else 1) := by
      split <;> omega
    simp only [if_neg this, encodeProc_eq_spec, bind, Except.bind, pure, Except.pure]
    rw [lines_short _ (by omega) hne]
    cases hnn : ctx.noNewline <;> simp [render, renderLine]

theorem encodeStream_go (dstLen : Nat) (hd : 66 ≤ dstLen) (hmax : dstLen ≤ uint32Max)
    (chunks : List (List Byte)) (ctx : Ctx) (hb : ctx.buf.length < 48)
    (hc : ∀ c ∈ chunks, c ≠ [] ∧ (c.length + 47) / 48 * 65 + 1 ≤ dstLen) :
    encodeStream.go dstLen ctx chunks =
      .ok (render ctx.noNewline (Spec.lines (ctx.buf ++ chunks.flatten))) := by
  induction chunks generalizing ctx with
  | nil =>
    simp only [encodeStream.go, encodeFinal_spec ctx dstLen hb hd, bind, Except.bind, pure, Except.pure]
    simp
  | cons c cs ih =>
    obtain ⟨hne, hlen⟩ := hc c (by simp)
    have hle : (c.length + ctx.buf.length) / 48 * 65 + 1 ≤ dstLen := by
      have : (c.length + ctx.buf.length) / 48 ≤ (c.length + 47) / 48 :=
        Nat.div_le_div_right (by omega)
      omega
    obtain ⟨full, tail, he, hlt, _, _, hl⟩ := encodeUpdate_spec ctx c dstLen hb hne hle hmax
    have := ih { ctx with buf := tail } (by simpa using hlt) (fun x hx => hc x (by simp [hx]))
    simp only [encodeStream.go, he, this, bind, Except.bind, pure, Except.pure]
    have hl' := hl cs.flatten
    simp only [List.flatten_cons]
    rw [← List.append_assoc, hl']
    simp [render]

/-! ### Streaming decoder -/

theorem decodeBuffer_append : ∀ x y : List Byte, x.length % 4 = 0 →
    decodeBuffer (x ++ y) = decodeBuffer x ++ decodeBuffer y
  | a :: b :: c :: d :: e :: rest, y, h => by
    have ih := decodeBuffer_append (e :: rest) y (by simp at h ⊢; omega)
    simp only [List.cons_append] at ih
    simp [decodeBuffer, ih]
  | [a, b, c, d], y, _ => by
    cases y with
    | nil => simp [decodeBuffer]
    | cons e ys => simp [decodeBuffer]
  | [_, _, _], _, h => by simp at h
  | [_, _], _, h => by simp at h
  | [_], _, h => by simp at h
  | [], y, _ => by simp [decodeBuffer]

theorem decodeLoop_append (xs ys : List Byte) (buf : List Byte) (pad : Nat) :
    decodeLoop (xs ++ ys) buf pad =
      match decodeLoop xs buf pad with
      | .error e => .error e
      | .ok (b, p, out) =>
        match decodeLoop ys b p with
        | .error e => .error e
        | .ok (b', p', out') => .ok (b', p', out ++ out') := by
  induction xs generalizing buf pad with
  | nil =>
    simp only [List.nil_append, decodeLoop]
    split <;> simp_all
  | cons c cs ih =>
    simp only [List.cons_append, decodeLoop]
    cases hck : decodeCheck c pad with
    | error e => simp
    | ok pad' =>
      simp only
      split
      · rfl
      · simp only [ih]
        generalize (if dec c < 64#8 then buf ++ [c] else buf) = buf'
        by_cases h64 : buf'.length = 64
        · simp only [if_pos h64]
          cases h1 : decodeLoop cs [] pad' with
          | error e => simp
          | ok r =>
            obtain ⟨b, p, out⟩ := r
            simp only
            cases h2 : decodeLoop ys b p with
            | error e => simp
            | ok r2 => obtain ⟨b', p', out'⟩ := r2; simp
        · simp only [if_neg h64]

theorem decodeCheck_data {c : Byte} (h : IsData c) (pad : Nat) :
    decodeCheck c pad = if pad > 0 then .error .dataAfterPadding else .ok pad := by
  unfold IsData at h
  have h' : (dec c).toNat < 64 := by simpa [BitVec.lt_def] using h
  unfold decodeCheck
  have e1 : dec c ≠ 66#8 := by intro hc; rw [hc] at h'; simp at h'
  have e2 : ¬ dec c > 66#8 := by simp [BitVec.lt_def]; omega
  have e3 : dec c ≠ 65#8 := by intro hc; rw [hc] at h'; simp at h'
  rw [if_neg e1, if_neg e2, if_neg (by simp [e3])]
  simp only [if_neg e3, h, and_true]
  rfl

theorem decodeCheck_eq (pad : Nat) :
    decodeCheck 61#8 pad = if pad < 2 then .ok (pad + 1) else .error .invalid := by
  have hd : dec 61#8 = 65#8 := by decide +kernel
  unfold decodeCheck
  rw [hd]
  by_cases h : pad < 2
  · simp [h]
  · simp [h]

theorem decodeCheck_blank {c : Byte} (h : dec c = 64#8) (pad : Nat) : decodeCheck c pad = .ok pad := by
  unfold decodeCheck
  rw [h]; simp

theorem decodeCheck_bad {c : Byte} (h : dec c > 65#8) (pad : Nat) : ∃ e, decodeCheck c pad = .error e := by
  unfold decodeCheck
  by_cases h1 : dec c = 66#8
  · exact ⟨_, if_pos h1⟩
  · have h2 : dec c > 66#8 := by
      simp only [BitVec.lt_def, gt_iff_lt, BitVec.toNat_ofNat] at *
      have : (dec c).toNat ≠ 66 := fun hh => h1 (BitVec.eq_of_toNat_eq (by simpa using hh))
      omega
    rw [if_neg h1, if_pos h2]
    exact ⟨_, rfl⟩

theorem removeBlank_cons (c : Byte) (cs : List Byte) :
    removeBlank (c :: cs) = if dec c = 64#8 then removeBlank cs else c :: removeBlank cs := by
  unfold removeBlank
  by_cases h : dec c = 64#8 <;> simp [List.filter_cons, h]

/-- Complete behaviour of the character loop. -/
theorem decodeLoop_iff (cs buf : List Byte) (pad : Nat) (hb : buf.length < 64) (hp : pad ≤ 2)
    (b : List Byte) (p : Nat) (out : List Byte) :
    decodeLoop cs buf pad = .ok (b, p, out) ↔
      ∃ D, (∀ c ∈ D, IsData c) ∧ p ≤ 2 ∧
        List.replicate pad 61#8 ++ removeBlank cs = D ++ List.replicate p 61#8 ∧
        ∃ blocks, blocks.length % 64 = 0 ∧ b.length < 64 ∧ buf ++ D = blocks ++ b ∧
          out = decodeBuffer blocks := by
  induction cs generalizing buf pad out with
  | nil =>
    simp only [decodeLoop, removeBlank, List.filter_nil, List.append_nil, Except.ok.injEq, Prod.mk.injEq]
    constructor
    · rintro ⟨rfl, rfl, rfl⟩
      exact ⟨[], by simp, hp, by simp, [], by simp, hb, by simp, by simp [decodeBuffer]⟩
    · rintro ⟨D, hD, hp', he, blocks, hm, hb', hbuf, rfl⟩
      have hDn : D = [] := by
        cases D with
        | nil => rfl
        | cons x xs =>
          exfalso
          cases pad with
          | zero => simp at he
          | succ n =>
            simp [List.replicate_succ] at he
            exact not_data_61 (he.1 ▸ hD x (by simp))
      subst hDn
      have hpp : pad = p := by
        have := congrArg List.length he; simpa using this
      have hlen := congrArg List.length hbuf
      simp only [List.append_nil, List.length_append] at hlen
      have hbl : blocks = [] := by
        apply List.length_eq_zero_iff.mp; omega
      subst hbl
      simp at hbuf
      exact ⟨hbuf, hpp, by simp [decodeBuffer]⟩
  | cons c cs ih =>
    by_cases hblank : dec c = 64#8
    · have hnd : ¬ (dec c < 64#8) := by rw [hblank]; decide
      rw [removeBlank_cons, if_pos hblank]
      simp only [decodeLoop, decodeCheck_blank hblank, hnd, false_and, if_false]
      rw [if_neg (by omega)]
      exact ih buf pad hb hp out
    · rw [removeBlank_cons, if_neg hblank]
      rcases dec_cases c hblank with hdata | rfl | hbad
      · have hd' : dec c < 64#8 := hdata
        simp only [decodeLoop, decodeCheck_data hdata]
        by_cases hpad : pad > 0
        · simp only [if_pos hpad]
          constructor
          · intro h; cases h
          · rintro ⟨D, hD, hp', he, _⟩
            exfalso
            -- D must be empty because the head is '='; but then c is '='
            obtain ⟨n, rfl⟩ : ∃ n, pad = n + 1 := ⟨pad - 1, by omega⟩
            cases D with
            | nil =>
              have hm : c ∈ List.replicate p 61#8 := by
                have : c ∈ List.replicate (n + 1) 61#8 ++ c :: removeBlank cs := by simp
                rw [he] at this; simpa using this
              exact not_data_61 ((List.mem_replicate.mp hm).2 ▸ hdata)
            | cons x xs =>
              simp [List.replicate_succ] at he
              exact not_data_61 (he.1 ▸ hD x (by simp))
        · have hp0 : pad = 0 := by omega
          subst hp0
          simp only [if_neg hpad, hd', true_and, if_true]
          rw [if_neg (by omega)]
          have hrep : ∀ (q : List Byte), List.replicate 0 61#8 ++ q = q := by simp
          by_cases h64 : (buf ++ [c]).length = 64
          · rw [if_pos h64]
            constructor
            · intro h
              split at h
              · cases h
              · rename_i b1 p1 out1 heq
                cases h
                obtain ⟨D, hD, hp', he, blocks, hm, hb', hbuf, ho⟩ := (ih [] 0 (by simp) (by omega) out1).mp heq
                refine ⟨c :: D, ?_, hp', ?_, buf ++ [c] ++ blocks, ?_, hb', ?_, ?_⟩
                · intro x hx
                  rcases List.mem_cons.mp hx with rfl | hx
                  · exact hdata
                  · exact hD x hx
                · simp at he ⊢; exact he
                · rw [List.length_append, h64]; omega
                · simp at hbuf ⊢; exact hbuf
                · rw [ho, decodeBuffer_append (buf ++ [c]) blocks (by rw [h64])]
            · rintro ⟨D, hD, hp', he, blocks, hm, hb', hbuf, rfl⟩
              rw [hrep] at he
              cases D with
              | nil =>
                exfalso
                have hm : c ∈ List.replicate p 61#8 := by
                  rw [List.nil_append] at he; rw [← he]; simp
                exact not_data_61 ((List.mem_replicate.mp hm).2 ▸ hdata)
              | cons x D' =>
                simp only [List.cons_append, List.cons.injEq] at he
                obtain ⟨rfl, he⟩ := he
                -- blocks starts with buf ++ [c]
                have hlenb : 64 ≤ blocks.length := by
                  have hl := congrArg List.length hbuf
                  simp at hl h64
                  have : blocks.length ≠ 0 := by omega
                  omega
                have hpre : blocks = (buf ++ [c]) ++ blocks.drop 64 := by
                  have h1 : (buf ++ c :: D').take 64 = buf ++ [c] := by
                    have : buf ++ c :: D' = (buf ++ [c]) ++ D' := by simp
                    rw [this, ← h64, List.take_left']; rfl
                  have h2 : (blocks ++ b).take 64 = blocks.take 64 := by
                    rw [List.take_append_of_le_length hlenb]
                  rw [hbuf, h2] at h1
                  rw [← h1, List.take_append_drop]
                have hrest : D' = blocks.drop 64 ++ b := by
                  have hbuf' := hbuf
                  rw [hpre] at hbuf'
                  simpa using hbuf'
                have := (ih [] 0 (by simp) (by omega) (decodeBuffer (blocks.drop 64))).mpr
                  ⟨D', fun y hy => hD y (by simp [hy]), hp', by rw [hrep]; exact he,
                    blocks.drop 64, by simp; omega, hb', by simpa using hrest, rfl⟩
                rw [this]
                simp only [Except.ok.injEq, Prod.mk.injEq, true_and]
                conv => rhs; rw [hpre]
                rw [decodeBuffer_append (buf ++ [c]) _ (by rw [h64])]
          · rw [if_neg h64]
            have hlt : (buf ++ [c]).length < 64 := by simp at h64 ⊢; omega
            rw [ih (buf ++ [c]) 0 hlt (by omega) out]
            constructor
            · rintro ⟨D, hD, hp', he, blocks, hm, hb', hbuf, ho⟩
              refine ⟨c :: D, ?_, hp', ?_, blocks, hm, hb', ?_, ho⟩
              · intro x hx
                rcases List.mem_cons.mp hx with rfl | hx
                · exact hdata
                · exact hD x hx
              · simp at he ⊢; exact he
              · rw [← hbuf]; simp
            · rintro ⟨D, hD, hp', he, blocks, hm, hb', hbuf, ho⟩
              rw [hrep] at he
              cases D with
              | nil =>
                exfalso
                have hm : c ∈ List.replicate p 61#8 := by
                  rw [List.nil_append] at he; rw [← he]; simp
                exact not_data_61 ((List.mem_replicate.mp hm).2 ▸ hdata)
              | cons x D' =>
                simp only [List.cons_append, List.cons.injEq] at he
                obtain ⟨rfl, he⟩ := he
                exact ⟨D', fun y hy => hD y (by simp [hy]), hp', by rw [hrep]; exact he, blocks, hm, hb',
                  by rw [← hbuf]; simp, ho⟩
      · have hnd : ¬ (dec 61#8 < 64#8) := not_data_61
        simp only [decodeLoop, decodeCheck_eq]
        by_cases hp2 : pad < 2
        · simp only [if_pos hp2, hnd, false_and, if_false]
          rw [if_neg (by omega), ih buf (pad + 1) hb (by omega) out]
          have : ∀ q : List Byte, List.replicate (pad + 1) 61#8 ++ q = List.replicate pad 61#8 ++ 61#8 :: q := by
            intro q; rw [List.replicate_succ']; simp
          rw [this]
        · simp only [if_neg hp2]
          constructor
          · intro h; cases h
          · rintro ⟨D, hD, hp', he, _⟩
            exfalso
            have hp2 : pad = 2 := by omega
            subst hp2
            cases D with
            | nil =>
              have hl := congrArg List.length he
              simp at hl; omega
            | cons x xs =>
              simp [List.replicate_succ] at he
              exact not_data_61 (he.1 ▸ hD x (by simp))
      · obtain ⟨e, he⟩ := decodeCheck_bad hbad pad
        simp only [decodeLoop, he]
        constructor
        · intro h; cases h
        · rintro ⟨D, hD, hp', heq, _⟩
          exfalso
          have hm : c ∈ D ++ List.replicate p 61#8 := by rw [← heq]; simp
          rcases List.mem_append.mp hm with hm | hm
          · have := hD c hm
            unfold IsData at this
            simp only [BitVec.lt_def, gt_iff_lt, BitVec.toNat_ofNat] at *
            omega
          · have hc := (List.mem_replicate.mp hm).2
            have hd : dec c = 65#8 := (dec_eq65 c).mpr hc
            rw [hd] at hbad
            exact absurd hbad (by decide)

theorem decodeStream_go (dstLen : Nat) (hmax : dstLen ≤ uint32Max)
    (chunks : List (List Byte)) (ctx : Ctx) (hb : ctx.buf.length < 64) (hp : ctx.paddingCnt ≤ 2)
    (hc : ∀ c ∈ chunks, c ≠ [] ∧ (c.length + 63) / 64 * 48 ≤ dstLen) :
    decodeStream.go dstLen ctx chunks =
      match decodeLoop chunks.flatten ctx.buf ctx.paddingCnt with
      | .error e => .error e
      | .ok (b, p, out) =>
        match decodeFinal { ctx with buf := b, paddingCnt := p } dstLen with
        | .error e => .error e
        | .ok (_, t) => .ok (out ++ t) := by
  induction chunks generalizing ctx with
  | nil =>
    simp only [decodeStream.go, List.flatten_nil, decodeLoop, bind, Except.bind, pure, Except.pure]
    cases decodeFinal ctx dstLen <;> simp
  | cons c cs ih =>
    obtain ⟨hne, hlen⟩ := hc c (by simp)
    have h0 : c.length ≠ 0 := fun h => hne (List.length_eq_zero_iff.mp h)
    have hle : (c.length + ctx.buf.length) / 64 * 48 ≤ dstLen := by
      have : (c.length + ctx.buf.length) / 64 ≤ (c.length + 63) / 64 :=
        Nat.div_le_div_right (by omega)
      omega
    simp only [decodeStream.go, decodeUpdate, if_neg h0, bind, Except.bind, pure, Except.pure]
    rw [if_neg (by omega), List.flatten_cons, decodeLoop_append]
    cases h1 : decodeLoop c ctx.buf ctx.paddingCnt with
    | error e => simp
    | ok r =>
      obtain ⟨b, p, out⟩ := r
      obtain ⟨D, _, hp', _, blocks, _, hb', _, _⟩ := (decodeLoop_iff c ctx.buf ctx.paddingCnt hb hp b p out).mp h1
      have := ih { ctx with buf := b, paddingCnt := p } (by simpa using hb') (by simpa using hp')
        (fun x hx => hc x (by simp [hx]))
      simp only [this]
      cases h2 : decodeLoop cs.flatten b p with
      | error e => simp
      | ok r2 =>
        obtain ⟨b2, p2, out2⟩ := r2
        simp only
        cases decodeFinal { ctx with buf := b2, paddingCnt := p2 } dstLen with
        | error e => simp
        | ok r3 => simp

theorem decodeWhole_iff (cs : List Byte) (dstLen : Nat) (m : List Byte) (hmin : 48 ≤ dstLen) :
    (match decodeLoop cs ctxInit.buf ctxInit.paddingCnt with
      | .error e => (.error e : Except Err (List Byte))
      | .ok (b, p, out) =>
        match decodeFinal { ctxInit with buf := b, paddingCnt := p } dstLen with
        | .error e => .error e
        | .ok (_, t) => .ok (out ++ t)) = .ok m ↔ Spec.Denotes (removeBlank cs) m := by
  have hfin : ∀ (b : List Byte) (p : Nat), p ≤ 2 → b.length < 64 →
      ((match decodeFinal { ctxInit with buf := b, paddingCnt := p } dstLen with
        | .error e => (.error e : Except Err (List Byte))
        | .ok (_, t) => .ok t)) =
        if (b.length % 4 + p) % 4 ≠ 0 then .error .invalidEncode else .ok (decodeBuffer b) := by
    intro b p hp hb
    unfold decodeFinal
    simp only
    by_cases h1 : (b.length % 4 + p) % 4 ≠ 0
    · rw [if_pos (Or.inr h1), if_pos h1]
    · rw [if_neg (by omega), if_neg h1]
      by_cases h2 : b.length = 0
      · have : b = [] := List.length_eq_zero_iff.mp h2
        subst this
        simp [ctxInit, decodeBuffer]
      · rw [if_neg h2, if_neg (by omega)]
  constructor
  · intro h
    split at h
    · cases h
    · rename_i b p out heq
      obtain ⟨D, hD, hp, he, blocks, hm, hb, hbuf, rfl⟩ :=
        (decodeLoop_iff cs [] 0 (by simp) (by omega) b p out).mp heq
      have hf := hfin b p hp hb
      split at h
      · cases h
      · rename_i x t heq2
        rw [heq2] at hf
        simp only at hf
        split at hf
        · cases hf
        · rename_i h4
          cases hf; cases h
          simp at hbuf he
          obtain ⟨h64, hmap⟩ := data_eq_map D hD
          refine ⟨D.map (fun c => (dec c).toNat), p, h64, hp, by rw [← hmap]; exact he, ?_, ?_⟩
          · rw [he, hbuf]; simp; omega
          · rw [← decodeBuffer_append _ _ (by omega), ← hbuf, ← decodeBuffer_eq_spec _ h64, ← hmap]
  · rintro ⟨ds, pad, hd, hp, he, h4, rfl⟩
    have hDd : ∀ c ∈ ds.map Spec.char, IsData c := by
      intro c hc
      obtain ⟨d, hd', rfl⟩ := List.mem_map.mp hc
      exact isData_char (hd d hd')
    let D := ds.map Spec.char
    have hlen : (D.drop (D.length / 64 * 64)).length < 64 := by simp; omega
    have hl := (decodeLoop_iff cs [] 0 (by simp) (by omega) (D.drop (D.length / 64 * 64)) pad
      (decodeBuffer (D.take (D.length / 64 * 64)))).mpr
      ⟨D, hDd, hp, by simpa using he, D.take (D.length / 64 * 64), by simp; omega, hlen, by simp, rfl⟩
    have hl' : decodeLoop cs ctxInit.buf ctxInit.paddingCnt = _ := hl
    rw [hl']
    simp only
    have hf := hfin (D.drop (D.length / 64 * 64)) pad hp hlen
    have h4' : (D.length + pad) % 4 = 0 := by
      rw [he] at h4; simpa [D] using h4
    rw [if_neg (by simp; omega)] at hf
    split at hf
    · cases hf
    · rename_i x t heq
      cases hf
      rw [heq]
      simp only
      rw [← decodeBuffer_append _ _ (by simp; omega), List.take_append_drop, decodeBuffer_eq_spec _ hd]

theorem ofBits6_lt : ∀ a b c d e f : Bool, Spec.ofBits [a, b, c, d, e, f] < 64 := by decide

theorem digits_lt (m : List Byte) : ∀ d ∈ Spec.digits (m.flatMap Spec.bits8), d < 64 := by
  have key : ∀ l : List Bool, ∀ d ∈ Spec.digits l, d < 64 := by
    intro l
    fun_induction Spec.digits l with
    | case1 a b c d e f rest ih =>
      intro x hx
      rcases List.mem_cons.mp hx with rfl | hx
      · exact ofBits6_lt a b c d e f
      · exact ih x hx
    | case2 => simp
    | case3 l h1 h2 =>
      intro x hx
      simp only [List.mem_singleton] at hx
      subst hx
      match l, h1, h2 with
      | [], _, h2 => exact absurd rfl h2
      | [a], _, _ => exact ofBits6_lt a false false false false false
      | [a, b], _, _ => exact ofBits6_lt a b false false false false
      | [a, b, c], _, _ => exact ofBits6_lt a b c false false false
      | [a, b, c, d], _, _ => exact ofBits6_lt a b c d false false
      | [a, b, c, d, e], _, _ => exact ofBits6_lt a b c d e false
      | a :: b :: c :: d :: e :: f :: r, h1, _ => exact absurd rfl (h1 a b c d e f r)
  exact key _

theorem bits6_ofBits : ∀ a b c d e f : Bool, Spec.bits6 (Spec.ofBits [a, b, c, d, e, f]) = [a, b, c, d, e, f] := by
  decide

theorem bytes_cons8 (x : Byte) (rest : List Bool) :
    Spec.bytes (Spec.bits8 x ++ rest) = x :: Spec.bytes rest := by
  simp only [Spec.bits8, List.cons_append, List.nil_append, Spec.bytes]
  rw [← show Spec.bits8 x = [x.getLsbD 7, x.getLsbD 6, x.getLsbD 5, x.getLsbD 4, x.getLsbD 3, x.getLsbD 2,
    x.getLsbD 1, x.getLsbD 0] from rfl, ← byte_ofBits]

theorem bytes_digits : ∀ m : List Byte,
    Spec.bytes ((Spec.digits (m.flatMap Spec.bits8)).flatMap Spec.bits6) = m
  | a :: b :: c :: rest => by
    have ih := bytes_digits rest
    have : (Spec.digits ((a :: b :: c :: rest).flatMap Spec.bits8)).flatMap Spec.bits6 =
        Spec.bits8 a ++ (Spec.bits8 b ++ (Spec.bits8 c ++
          (Spec.digits (rest.flatMap Spec.bits8)).flatMap Spec.bits6)) := by
      simp only [List.flatMap_cons, Spec.bits8, List.cons_append, List.nil_append, Spec.digits, bits6_ofBits]
    rw [this, bytes_cons8, bytes_cons8, bytes_cons8, ih]
  | [a, b] => by
    have : (Spec.digits ([a, b].flatMap Spec.bits8)).flatMap Spec.bits6 =
        Spec.bits8 a ++ (Spec.bits8 b ++ [false, false]) := by
      simp [Spec.bits8, Spec.digits, bits6_ofBits, List.replicate]
    rw [this, bytes_cons8, bytes_cons8]; simp [Spec.bytes]
  | [a] => by
    have : (Spec.digits ([a].flatMap Spec.bits8)).flatMap Spec.bits6 =
        Spec.bits8 a ++ [false, false, false, false] := by
      simp [Spec.bits8, Spec.digits, bits6_ofBits, List.replicate]
    rw [this, bytes_cons8]; simp [Spec.bytes]
  | [] => by simp [Spec.digits, Spec.bytes]

theorem encode_append3 : ∀ (x y : List Byte), x.length % 3 = 0 →
    Spec.encode (x ++ y) = Spec.encode x ++ Spec.encode y
  | a :: b :: c :: rest, y, h => by
    have ih := encode_append3 rest y (by simp at h; omega)
    have key : ∀ z : List Byte, Spec.encode (a :: b :: c :: z) =
        (Spec.digits ([a, b, c].flatMap Spec.bits8)).map Spec.char ++ Spec.encode z := by
      intro z
      unfold Spec.encode
      have : (3 - (a :: b :: c :: z).length % 3) % 3 = (3 - z.length % 3) % 3 := by simp; omega
      rw [this]
      simp [Spec.bits8, Spec.digits]
    rw [List.cons_append, List.cons_append, List.cons_append, key, key, ih, List.append_assoc]
  | [_, _], _, h => by simp at h
  | [_], _, h => by simp at h
  | [], y, _ => by simp [Spec.encode, Spec.digits]

theorem flatMap_lines (m : List Byte) : (Spec.lines m).flatMap Spec.encode = Spec.encode m := by
  fun_induction Spec.lines m with
  | case1 => simp [Spec.encode, Spec.digits]
  | case2 m h ih =>
    rw [List.flatMap_cons, ih]
    by_cases h48 : 48 ≤ m.length
    · rw [← encode_append3 _ _ (by simp; omega), List.take_append_drop]
    · rw [List.take_of_length_le (by omega), List.drop_eq_nil_of_le (by omega)]
      simp [Spec.encode, Spec.digits]

end Verif.Bsl.Base64
