import Verif.Bsl.Asn1.PrimModel
/-! C54: BOOLEAN, BIT STRING and BMPString contents; C55: lists of items. -/
namespace Verif.Bsl.Asn1
open Verif.Common

/-! ### BOOLEAN -/

/-- A BOOLEAN is one octet; zero is false, everything else true (X.690 8.2). -/
theorem parseBool_iff (val : List Byte) (x : Bool) :
    parseBool val = .ok x ↔ ∃ b, val = [b] ∧ (x = true ↔ b ≠ 0) := by
  unfold parseBool
  split
  · rename_i b
    simp only [Except.ok.injEq, List.cons.injEq, and_true]
    constructor
    · intro h; exact ⟨b, rfl, by rw [← h]; simp⟩
    · rintro ⟨b', rfl, h⟩
      cases x with
      | true => simpa using h
      | false => simpa using h
  · rename_i h
    simp only [reduceCtorEq, false_iff]
    rintro ⟨b, rfl, _⟩
    exact h b rfl

theorem parseBool_encodeBool (x : Bool) : parseBool (encodeBool x) = .ok x := by cases x <;> decide

/-! ### BIT STRING -/

theorem encodeBitString_cons (u : Byte) (init : List Byte) (last : Byte) :
    encodeBitString u (init ++ [last]) = u :: (init ++ [clearUnused u last]) := by
  simp [encodeBitString]

/-- Bits of the rewritten last byte: the low `u` bits are cleared, the others kept. -/
theorem clearUnused_bits (u : Nat) (hu : u ≤ 7) (b : Byte) (i : Nat) :
    (clearUnused (BitVec.ofNat 8 u) b).getLsbD i = (decide (u ≤ i) && b.getLsbD i) := by
  have e : (BitVec.ofNat 8 u).toNat = u := by rw [BitVec.toNat_ofNat, Nat.mod_eq_of_lt (by omega)]
  unfold clearUnused
  rw [e, BitVec.getLsbD_shiftLeft, BitVec.getLsbD_ushiftRight]
  by_cases h : u ≤ i
  · by_cases h8 : i < 8
    · simp [h, h8, Nat.not_lt.2 h, Nat.add_sub_cancel' h]
    · have : b.getLsbD i = false := BitVec.getLsbD_of_ge b i (by omega)
      simp [h8, this]
  · simp [h, Nat.lt_of_not_le h]

/-- Round trip of a BIT STRING with at least one byte: the same bytes come back, with the unused bits of the last
byte cleared. -/
theorem parseBitString_encode (u : Nat) (hu : u ≤ 7) (init : List Byte) (last : Byte) :
    ∃ last', parseBitString (encodeBitString (BitVec.ofNat 8 u) (init ++ [last])) =
        .ok (BitVec.ofNat 8 u, init ++ [last']) ∧
      ∀ i, last'.getLsbD i = (decide (u ≤ i) && last.getLsbD i) := by
  refine ⟨clearUnused (BitVec.ofNat 8 u) last, ?_, clearUnused_bits u hu last⟩
  rw [encodeBitString_cons, parseBitString]
  rw [if_neg (by rw [BitVec.toNat_ofNat, Nat.mod_eq_of_lt (by omega)]; omega)]

/-- An empty BIT STRING is written with zero unused bits, whatever number was asked for. -/
theorem parseBitString_encode_empty (u : Nat) (hu : u ≤ 7) :
    parseBitString (encodeBitString (BitVec.ofNat 8 u) []) = .ok (0, []) := by
  rcases (show u = 0 ∨ u = 1 ∨ u = 2 ∨ u = 3 ∨ u = 4 ∨ u = 5 ∨ u = 6 ∨ u = 7 by omega) with
    rfl | rfl | rfl | rfl | rfl | rfl | rfl | rfl <;> decide +kernel

/-- The parser accepts exactly contents with a leading count of at most 7 and returns the other bytes unchanged. -/
theorem parseBitString_iff (val : List Byte) (u : Byte) (buff : List Byte) :
    parseBitString val = .ok (u, buff) ↔ val = u :: buff ∧ u.toNat ≤ 7 := by
  unfold parseBitString
  split
  · simp
  · rename_i b rest
    by_cases h : b.toNat > 7
    · rw [if_pos h]
      simp only [reduceCtorEq, List.cons.injEq, false_iff, not_and]
      rintro ⟨rfl, _⟩; omega
    · rw [if_neg h]
      simp only [Except.ok.injEq, Prod.mk.injEq, List.cons.injEq]
      constructor
      · rintro ⟨rfl, rfl⟩; exact ⟨⟨rfl, rfl⟩, by omega⟩
      · rintro ⟨h, _⟩; exact h

/-! ### BMPString -/

theorem bmpLoop_flatMap (s : List Byte) : bmpLoop (s.flatMap fun b => [0, b]) = s := by
  induction s with
  | nil => rfl
  | cons b s ih => simp only [List.flatMap_cons, List.cons_append, List.nil_append, bmpLoop, ih]

theorem bmpFlat_length (s : List Byte) : (s.flatMap fun b => [0, b] : List Byte).length = 2 * s.length := by
  induction s with
  | nil => rfl
  | cons b s ih => simp only [List.flatMap_cons, List.length_append, List.length_cons, List.length_nil, ih]; omega

/-- Round trip of non-empty ASCII strings: each character becomes two octets, zero and the character, and parsing
gives the string back. -/
theorem parseBmp_encodeBmp (s out : List Byte) (hne : s ≠ []) (h : encodeBmp s = .ok out) :
    (∀ b ∈ s, b.toNat ≤ 127) ∧ out.length = 2 * s.length ∧
      (∀ i (hi : i < s.length), out[2 * i]? = some 0 ∧ out[2 * i + 1]? = some s[i]) ∧ parseBmp out = .ok s := by
  unfold encodeBmp at h
  by_cases ha : s.any (fun b => decide (b.toNat > 127)) = true
  · rw [if_pos ha] at h; simp at h
  · rw [if_neg ha] at h
    simp only [Except.ok.injEq] at h
    subst h
    refine ⟨?_, bmpFlat_length s, ?_, ?_⟩
    · intro b hb
      apply Nat.le_of_not_lt; intro hc
      exact ha (List.any_eq_true.2 ⟨b, hb, by simpa using hc⟩)
    · clear ha hne
      induction s with
      | nil => intro i hi; simp at hi
      | cons b s ih =>
        intro i hi
        simp only [List.flatMap_cons, List.cons_append, List.nil_append]
        match i with
        | 0 => exact ⟨rfl, rfl⟩
        | i + 1 =>
          have := ih i (by simpa using hi)
          rw [show 2 * (i + 1) = 2 * i + 1 + 1 by omega]
          simpa using this
    · have hpos : 0 < s.length := List.length_pos_iff.2 hne
      unfold parseBmp
      rw [if_neg (by rw [bmpFlat_length]; omega), if_neg (by rw [bmpFlat_length]; omega), bmpLoop_flatMap]

/-- Finding F-ASN1-5: parsing a BMPString is not injective, even on strings of one character: the high octet is
dropped, so U+4E2D and U+002D ('-') give the same result. -/
theorem parseBmp_drops_high : parseBmp [0x4E, 0x2D] = parseBmp [0x00, 0x2D] ∧ parseBmp [0x4E, 0x2D] = .ok [0x2D] := by
  decide +kernel

-- Non-vacuity.
example : encodeBmp [0x61, 0x62] = .ok [0, 0x61, 0, 0x62] := by decide +kernel
example : encodeBitString 3 [0xAB, 0xFF] = [3, 0xAB, 0xF8] := by decide +kernel

/-! ### Lists -/

/-- `data` is the concatenation of the encodings of `items` (tag and contents), all with tag `t`, each with a
definite-form length field of at most five octets for exactly its contents. -/
inductive Spec.IsList (t : Byte) : List Byte → List (List Byte) → Prop
  | nil : Spec.IsList t [] []
  | cons (octs content data : List Byte) (items : List (List Byte)) (h : Spec.IsLength octs content.length)
      (h5 : octs.length ≤ 5) (hmax : 1 < octs.length → content.length + octs.length + 1 < 2 ^ 32 - 1)
      (ht : Spec.IsList t data items) :
      Spec.IsList t (t :: (octs ++ (content ++ data))) (content :: items)

/-- The callback applied to the items in order, stopping at the first error. -/
def Spec.visit {σ ε : Type} (cb : List Byte → σ → Except ε σ) : List (List Byte) → σ → Except ε σ
  | [], s => .ok s
  | c :: items, s => match cb c s with
    | .error e => .error e
    | .ok s' => Spec.visit cb items s'

theorem decodeItem_of_len (t : Byte) (buff rest : List Byte) (n : BitVec 32) (h : decodeLen false buff = .ok (n, rest)) :
    n.toNat ≤ rest.length ∧ decodeItem (t :: buff) = .ok (t, rest.take n.toNat, rest.drop n.toNat) := by
  obtain ⟨_, _, _, hle, _⟩ := (decodeLen_iff _ _ _).1 h
  refine ⟨hle, ?_⟩
  unfold decodeItem
  simp only [h]
  rw [if_pos hle]

/-- The list decoder never reads outside the buffer (the callback gets only bytes of the buffer). -/
theorem listInternal_in_bounds {σ ε : Type} (t : Byte) (cb : Byte → List Byte → σ → Except ε σ) (buff : List Byte) (s : σ) :
    listInternal t cb buff s ≠ .error .oob := by
  match buff with
  | [] => unfold listInternal; simp
  | b :: buff' =>
    unfold listInternal
    split
    · simp
    · split
      · simp
      · rename_i n rest he
        have hl := decodeLen_length he
        rw [if_pos (decodeItem_of_len b _ _ _ he).1]
        split
        · simp
        · exact listInternal_in_bounds t cb _ _
termination_by buff.length
decreasing_by
  simp only [List.length_drop, List.length_cons]; omega

/-- One-layer lists: success means that the buffer is exactly a concatenation of items with the expected tag and that
the callback has accepted them one after the other, in order, nothing skipped and nothing left over. -/
theorem listInternal_iff {σ ε : Type} (t : Byte) (cb : Byte → List Byte → σ → Except ε σ) (buff : List Byte) (s s' : σ) :
    listInternal t cb buff s = .ok s' ↔
      ∃ items, Spec.IsList t buff items ∧ Spec.visit (cb t) items s = .ok s' := by
  match buff with
  | [] =>
    unfold listInternal
    constructor
    · intro h; simp only [Except.ok.injEq] at h; exact ⟨[], .nil, by rw [Spec.visit, h]⟩
    · rintro ⟨items, hl, hv⟩
      cases hl
      simpa [Spec.visit] using hv
  | b :: buff' =>
    unfold listInternal
    by_cases hb : b = t
    · subst hb
      rw [if_neg (by simp)]
      split
      · rename_i e he
        constructor
        · intro h; simp at h
        · rintro ⟨items, hl, hv⟩
          cases hl with
          | cons octs content data items h h5 hmax ht =>
            have hd := (decodeItem_iff (b :: (octs ++ (content ++ data))) b content data).2 ⟨octs, h, rfl, h5, hmax⟩
            unfold decodeItem at hd
            simp only [he] at hd
            simp at hd
      · rename_i n rest he
        have hlen := decodeLen_length he
        obtain ⟨hle, hitem⟩ := decodeItem_of_len b _ _ _ he
        have ih := fun s1 => listInternal_iff b cb (rest.drop n.toNat) s1 s'
        rw [if_pos hle]
        obtain ⟨octs0, ho, hdata, ho5, homax⟩ := (decodeItem_iff _ _ _ _).1 hitem
        constructor
        · intro h
          split at h
          · simp at h
          · rename_i s1 hcb
            obtain ⟨items, hl, hv⟩ := (ih s1).1 h
            refine ⟨rest.take n.toNat :: items, ?_, by rw [Spec.visit, hcb]; exact hv⟩
            rw [hdata]
            exact .cons _ _ _ _ ho ho5 homax hl
        · rintro ⟨items, hl, hv⟩
          generalize hq : b :: buff' = q at hl hitem
          cases hl with
          | nil => simp at hq
          | cons octs content data items h h5 hmax ht =>
            have hd := (decodeItem_iff _ b content data).2 ⟨octs, h, rfl, h5, hmax⟩
            rw [hd] at hitem
            simp only [Except.ok.injEq, Prod.mk.injEq, true_and] at hitem
            obtain ⟨rfl, rfl⟩ := hitem
            rw [Spec.visit] at hv
            split at hv
            · simp at hv
            · rename_i s1 hcb
              rw [hcb]
              exact (ih s1).2 ⟨items, ht, hv⟩
    · rw [if_pos hb]
      constructor
      · intro h; simp at h
      · rintro ⟨items, hl, hv⟩
        cases hl; exact absurd rfl hb
termination_by buff.length
decreasing_by
  simp only [List.length_drop, List.length_cons]; omega

/-- What the two-layer decoder must do with one outer item: the callback with layer 1, then the callback with layer 2
for the items of the inner list its contents are. -/
def Spec.Outer {σ ε : Type} (t1 t2 : Byte) (cb : Nat → Byte → List Byte → σ → Except ε σ) (content : List Byte) (s s' : σ) :
    Prop :=
  ∃ s1 inner, cb 1 t1 content s = .ok s1 ∧ Spec.IsList t2 content inner ∧ Spec.visit (cb 2 t2) inner s1 = .ok s'

/-- Steps one after the other. -/
inductive Spec.Run {σ : Type} (step : List Byte → σ → σ → Prop) : List (List Byte) → σ → σ → Prop
  | nil (s : σ) : Spec.Run step [] s s
  | cons {c : List Byte} {items : List (List Byte)} {s s1 s' : σ} (h : step c s s1) (ht : Spec.Run step items s1 s') :
      Spec.Run step (c :: items) s s'

/-- Two-layer lists: success means that the buffer is exactly a concatenation of outer items whose contents are
exactly concatenations of inner items, visited in document order. -/
theorem decodeTwoLayer_iff {σ ε : Type} (t1 t2 : Byte) (cb : Nat → Byte → List Byte → σ → Except ε σ)
    (buff : List Byte) (s s' : σ) :
    decodeTwoLayer t1 t2 cb buff s = .ok s' ↔
      ∃ items, Spec.IsList t1 buff items ∧ Spec.Run (Spec.Outer t1 t2 cb) items s s' := by
  match buff with
  | [] =>
    unfold decodeTwoLayer
    constructor
    · intro h; simp only [Except.ok.injEq] at h; exact ⟨[], .nil, h ▸ .nil s⟩
    · rintro ⟨items, hl, hv⟩
      cases hl
      cases hv; rfl
  | b :: buff' =>
    unfold decodeTwoLayer
    by_cases hb : b = t1
    · subst hb
      rw [if_neg (by simp)]
      split
      · rename_i e he
        constructor
        · intro h; simp at h
        · rintro ⟨items, hl, hv⟩
          cases hl with
          | cons octs content data items h h5 hmax ht =>
            have hd := (decodeItem_iff (b :: (octs ++ (content ++ data))) b content data).2 ⟨octs, h, rfl, h5, hmax⟩
            unfold decodeItem at hd
            simp only [he] at hd
            simp at hd
      · rename_i n rest he
        have hlen := decodeLen_length he
        obtain ⟨hle, hitem⟩ := decodeItem_of_len b _ _ _ he
        have ih := fun s1 => decodeTwoLayer_iff b t2 cb (rest.drop n.toNat) s1 s'
        rw [if_pos hle]
        obtain ⟨octs0, ho, hdata, ho5, homax⟩ := (decodeItem_iff _ _ _ _).1 hitem
        constructor
        · intro h
          split at h
          · simp at h
          · rename_i s1 hcb
            split at h
            · simp at h
            · rename_i s2 hin
              obtain ⟨inner, hil, hiv⟩ := (listInternal_iff _ _ _ _ _).1 hin
              obtain ⟨items, hl, hv⟩ := (ih s2).1 h
              refine ⟨rest.take n.toNat :: items, ?_, .cons ⟨s1, inner, hcb, hil, hiv⟩ hv⟩
              rw [hdata]
              exact .cons _ _ _ _ ho ho5 homax hl
        · rintro ⟨items, hl, hv⟩
          generalize hq : b :: buff' = q at hl hitem
          cases hl with
          | nil => simp at hq
          | cons octs content data items h h5 hmax ht =>
            have hd := (decodeItem_iff _ b content data).2 ⟨octs, h, rfl, h5, hmax⟩
            rw [hd] at hitem
            simp only [Except.ok.injEq, Prod.mk.injEq, true_and] at hitem
            obtain ⟨rfl, rfl⟩ := hitem
            cases hv with
            | cons hstep hrun =>
              obtain ⟨s1, inner, hcb, hil, hiv⟩ := hstep
              rw [hcb]
              have := (listInternal_iff t2 (cb 2) _ _ _).2 ⟨inner, hil, hiv⟩
              simp only [this]
              exact (ih _).2 ⟨items, ht, hrun⟩
    · rw [if_pos hb]
      constructor
      · intro h; simp at h
      · rintro ⟨items, hl, hv⟩
        cases hl; exact absurd rfl hb
termination_by buff.length
decreasing_by
  simp only [List.length_drop, List.length_cons]; omega

/-- The two-layer decoder never reads outside the buffer. -/
theorem decodeTwoLayer_in_bounds {σ ε : Type} (t1 t2 : Byte) (cb : Nat → Byte → List Byte → σ → Except ε σ)
    (buff : List Byte) (s : σ) : decodeTwoLayer t1 t2 cb buff s ≠ .error .oob := by
  match buff with
  | [] => unfold decodeTwoLayer; simp
  | b :: buff' =>
    unfold decodeTwoLayer
    split
    · simp
    · split
      · simp
      · rename_i n rest he
        have hl := decodeLen_length he
        rw [if_pos (decodeItem_of_len b _ _ _ he).1]
        split
        · simp
        · split
          · rename_i e hin
            intro h
            simp only [Except.error.injEq] at h
            subst h
            exact listInternal_in_bounds _ _ _ _ hin
          · exact decodeTwoLayer_in_bounds t1 t2 cb _ _
termination_by buff.length
decreasing_by
  simp only [List.length_drop, List.length_cons]; omega

-- Non-vacuity: a list of two items, the callback collects the contents.
example : (listInternal 0x02 (fun _ c (s : List (List Byte)) => (.ok (s ++ [c]) : Except Nat _))
    [0x02, 0x01, 0x05, 0x02, 0x02, 0x06, 0x07] []).toOption = some [[0x05], [0x06, 0x07]] := by
  simp [listInternal, decodeLen, Except.toOption]
example : Spec.IsList 0x02 [0x02, 0x01, 0x05, 0x02, 0x02, 0x06, 0x07] [[0x05], [0x06, 0x07]] :=
  .cons [0x01] [0x05] _ _ (.short 1 (by decide)) (by decide) (by decide)
    (.cons [0x02] [0x06, 0x07] [] _ (.short 2 (by decide)) (by decide) (by decide) .nil)

end Verif.Bsl.Asn1
