import Verif.Bsl.Asn1.Proof
/-! C10: DER length fields and items. -/
namespace Verif.Bsl.Asn1
open Verif.Common

/-- X.690 8.1.3.3-8.1.3.5: `octs` is a definite-form length field announcing `n` content octets. -/
inductive Spec.IsLength : List Byte → Nat → Prop
  /-- short form: one octet with bit 8 clear -/
  | short (b : Byte) (h : b.toNat < 128) : Spec.IsLength [b] b.toNat
  /-- long form: bit 8 set, the other bits count the following octets, which hold the length -/
  | long (b : Byte) (ds : List Byte) (h : b.toNat = 128 + ds.length) (h1 : 1 ≤ ds.length) :
      Spec.IsLength (b :: ds) (beVal ds)

theorem and80 (b : Byte) : b &&& 0x80 = 0 ↔ b.toNat < 128 := by
  revert b; decide +kernel

theorem decodeLen_short (c : Bool) (b : Byte) (temp : List Byte) (h : b.toNat < 128) :
    decodeLen c (b :: temp) =
      if (b.setWidth 32 + (if c then 1#32 else 0#32)).toNat > (if c then (b :: temp).length else temp.length)
      then .error .decodeLen else .ok (b.setWidth 32 + (if c then 1#32 else 0#32), temp) := by
  rw [decodeLen, if_pos ((and80 b).2 h)]
  cases c <;> rfl

theorem decodeLen_long (c : Bool) (b : Byte) (ds rest : List Byte) (h : b.toNat = 128 + ds.length)
    (h1 : 1 ≤ ds.length) (h4 : ds.length ≤ 4) :
    ∃ r : BitVec 32, r.toNat = beVal ds ∧ decodeLen c (b :: (ds ++ rest)) =
      if r.toNat ≥ 2 ^ 32 - 1 - ds.length - 2 then .error .maxLenNum
      else if (r + (if c then BitVec.ofNat 32 (ds.length + 1) else 0#32)).toNat >
          (if c then (b :: (ds ++ rest)).length else rest.length) then .error .decodeLen
      else .ok (r + (if c then BitVec.ofNat 32 (ds.length + 1) else 0#32), rest) := by
  have hand : ¬ b &&& 0x80 = 0 := fun h => by have := (and80 b).1 h; omega
  have h80 : ¬ b = 0x80 := by
    intro h0; rw [h0] at h
    have : (0x80 : Byte).toNat = 128 := rfl
    omega
  have hidx : b.toNat - 0x80 = ds.length := by omega
  obtain ⟨r, hr, hv⟩ := readLen0 ds.length (ds ++ rest) (by simp) h4
  rw [List.take_left] at hv
  rw [List.drop_left] at hr
  refine ⟨r, hv, ?_⟩
  rw [decodeLen, if_neg hand, if_neg h80, hidx]
  rw [if_neg (by omega), if_neg (by simp), hr]
  cases c <;> rfl

/-- The lengths `BSL_ASN1_DecodeLen` accepts are exactly the definite-form length fields with at most four
length octets whose announced contents are inside the buffer (and, in the long form, small enough for the whole
item to have a 32-bit size); the value returned is the announced one and the cursor is right after the field. -/
theorem decodeLen_iff (data : List Byte) (n : BitVec 32) (rest : List Byte) :
    decodeLen false data = .ok (n, rest) ↔
      ∃ octs, Spec.IsLength octs n.toNat ∧ data = octs ++ rest ∧ n.toNat ≤ rest.length ∧ octs.length ≤ 5 ∧
        (1 < octs.length → n.toNat + octs.length + 1 < 2 ^ 32 - 1) := by
  constructor
  · intro h
    unfold decodeLen at h
    split at h
    · exact absurd h (by simp)
    · rename_i b temp
      by_cases hb : b &&& 0x80 = 0
      · rw [if_pos hb] at h
        simp only [Bool.false_eq_true, if_false, BitVec.ofNat_eq_ofNat] at h
        by_cases hl : (b.setWidth 32 + 0#32).toNat > temp.length
        · rw [if_pos hl] at h; exact absurd h (by simp)
        · rw [if_neg hl] at h
          simp only [Except.ok.injEq, Prod.mk.injEq] at h
          obtain ⟨rfl, rfl⟩ := h
          have hlt := (and80 b).1 hb
          have e : (b.setWidth 32 + 0#32).toNat = b.toNat := by
            rw [BitVec.add_zero, BitVec.toNat_setWidth]; omega
          refine ⟨[b], ?_, rfl, by omega, by simp, by simp⟩
          rw [e]; exact .short b hlt
      · rw [if_neg hb] at h
        have hge : 128 ≤ b.toNat := by
          have := mt (and80 b).2 hb; omega
        by_cases h80 : b = 0x80
        · rw [if_pos h80] at h; exact absurd h (by simp)
        · rw [if_neg h80] at h
          have hne : b.toNat ≠ 128 := fun e => h80 (BitVec.eq_of_toNat_eq e)
          by_cases h4 : b.toNat - 0x80 > 4
          · rw [if_pos h4] at h; exact absurd h (by simp)
          · rw [if_neg h4] at h
            by_cases hs : temp.length < b.toNat - 0x80
            · rw [if_pos hs] at h; exact absurd h (by simp)
            · rw [if_neg hs] at h
              obtain ⟨r, hr, hv⟩ := readLen0 (b.toNat - 0x80) temp (by omega) (by omega)
              rw [hr] at h
              simp only [Bool.false_eq_true, if_false, BitVec.ofNat_eq_ofNat, BitVec.add_zero] at h
              by_cases hm : r.toNat ≥ 2 ^ 32 - 1 - (b.toNat - 0x80) - 2
              · rw [if_pos hm] at h; exact absurd h (by simp)
              · rw [if_neg hm] at h
                by_cases hl : r.toNat > (temp.drop (b.toNat - 0x80)).length
                · rw [if_pos hl] at h; exact absurd h (by simp)
                · rw [if_neg hl] at h
                  simp only [Except.ok.injEq, Prod.mk.injEq] at h
                  obtain ⟨rfl, rfl⟩ := h
                  refine ⟨b :: temp.take (b.toNat - 0x80), ?_, by simp, by omega, ?_, ?_⟩
                  · rw [hv]
                    refine .long b _ ?_ ?_ <;> rw [List.length_take, Nat.min_eq_left (by omega)] <;> omega
                  · rw [List.length_cons, List.length_take, Nat.min_eq_left (by omega)]; omega
                  · intro _
                    rw [List.length_cons, List.length_take, Nat.min_eq_left (by omega)]; omega
  · rintro ⟨octs, hspec, rfl, hle, h5, hbig⟩
    generalize hn : n.toNat = v at hspec hle hbig
    cases hspec with
    | short b hb =>
      have e : b.setWidth 32 + 0#32 = n := by
        apply BitVec.eq_of_toNat_eq; rw [BitVec.add_zero, BitVec.toNat_setWidth, hn]; omega
      rw [List.singleton_append, decodeLen_short _ _ _ hb]
      simp only [Bool.false_eq_true, if_false, e]
      rw [if_neg (by omega)]
    | long b ds hb h1 =>
      simp only [List.length_cons] at h5 hbig
      obtain ⟨r, hv, hr⟩ := decodeLen_long false b ds rest hb h1 (by omega)
      have hbig' := hbig (by omega)
      have e : r = n := BitVec.eq_of_toNat_eq (by omega)
      subst e
      rw [List.cons_append, hr, if_neg (by omega)]
      simp only [Bool.false_eq_true, if_false, BitVec.add_zero]
      rw [if_neg (by omega)]

theorem ite_ne_oob {α : Type} (p : Prop) [Decidable p] (x : α) :
    (if p then Except.error Err.decodeLen else .ok x) ≠ Except.error Err.oob := by
  by_cases h : p
  · rw [if_pos h]; simp
  · rw [if_neg h]; simp

/-- No input makes `BSL_ASN1_DecodeLen` read outside its buffer. -/
theorem decodeLen_in_bounds (c : Bool) (data : List Byte) : decodeLen c data ≠ .error .oob := by
  unfold decodeLen
  split
  · simp
  · rename_i b temp
    simp only
    by_cases hb : b &&& 0x80 = 0
    · rw [if_pos hb]; exact ite_ne_oob _ _
    · rw [if_neg hb]
      by_cases h80 : b = 0x80
      · rw [if_pos h80]; simp
      · rw [if_neg h80]
        by_cases h4 : b.toNat - 0x80 > 4
        · rw [if_pos h4]; simp
        · rw [if_neg h4]
          by_cases hs : temp.length < b.toNat - 0x80
          · rw [if_pos hs]; simp
          · rw [if_neg hs]
            obtain ⟨r, hr, hv⟩ := readLen0 (b.toNat - 0x80) temp (by omega) (by omega)
            rw [hr]
            simp only
            by_cases hm : r.toNat ≥ 2 ^ 32 - 1 - (b.toNat - 0x80) - 2
            · rw [if_pos hm]; simp
            · rw [if_neg hm]; exact ite_ne_oob _ _

/-- No input makes `BSL_ASN1_DecodeItem` touch anything outside its buffer. -/
theorem decodeItem_in_bounds (data : List Byte) : decodeItem data ≠ .error .oob := by
  unfold decodeItem
  split
  · simp
  · rename_i tag temp
    split
    · rename_i e he
      intro h
      simp only [Except.error.injEq] at h
      exact decodeLen_in_bounds false temp (h ▸ he)
    · rename_i len rest he
      obtain ⟨_, _, _, hle, _⟩ := (decodeLen_iff _ _ _).1 he
      rw [if_pos hle]; simp

/-- A decoded item is a tag, a valid length field for exactly the returned contents, the contents and the
rest of the buffer, in this order: nothing is lost, reordered or invented. -/
theorem decodeItem_iff (data : List Byte) (tag : Byte) (content rest : List Byte) :
    decodeItem data = .ok (tag, content, rest) ↔
      ∃ octs, Spec.IsLength octs content.length ∧ data = tag :: (octs ++ (content ++ rest)) ∧ octs.length ≤ 5 ∧
        (1 < octs.length → content.length + octs.length + 1 < 2 ^ 32 - 1) := by
  constructor
  · intro h
    unfold decodeItem at h
    split at h
    · exact absurd h (by simp)
    · rename_i t temp
      split at h
      · exact absurd h (by simp)
      · rename_i len r he
        obtain ⟨octs, h1, h2, hle, h5, hb⟩ := (decodeLen_iff _ _ _).1 he
        rw [if_pos hle] at h
        simp only [Except.ok.injEq, Prod.mk.injEq] at h
        obtain ⟨rfl, rfl, rfl⟩ := h
        refine ⟨octs, ?_, ?_, h5, ?_⟩
        · rw [List.length_take, Nat.min_eq_left hle]; exact h1
        · rw [List.take_append_drop, h2]
        · rw [List.length_take, Nat.min_eq_left hle]; exact hb
  · rintro ⟨octs, h1, rfl, h5, hb⟩
    have hlt : content.length < 2 ^ 32 := by
      generalize content.length = v at h1 hb
      cases h1 with
      | short b h => omega
      | long b ds h h1 => have := hb (by simp; omega); omega
    have e : (BitVec.ofNat 32 content.length).toNat = content.length := by
      rw [BitVec.toNat_ofNat, Nat.mod_eq_of_lt hlt]
    have hd : decodeLen false (octs ++ (content ++ rest)) = .ok (BitVec.ofNat 32 content.length, content ++ rest) :=
      (decodeLen_iff _ _ _).2 ⟨octs, by rw [e]; exact h1, rfl, by rw [e]; simp, h5, by rw [e]; exact hb⟩
    simp only [decodeItem, hd, e]
    rw [if_pos (by simp)]; simp

/-- The length field the encoder writes is a valid length field for its argument, of the announced size. -/
theorem encodeLength_valid (n : BitVec 32) :
    Spec.IsLength (encodeLength n) n.toNat ∧ (encodeLength n).length = lenOctetNum n ∧
      (encodeLength n).length ≤ 5 := by
  have h64 : (n.setWidth 64).toNat = n.toNat := by
    rw [BitVec.toNat_setWidth]; have := n.isLt; omega
  by_cases h : n.toNat ≤ 127
  · have e : (n.setWidth 8).toNat = n.toNat := by rw [BitVec.toNat_setWidth]; omega
    rw [encodeLength, if_pos h, lenOctetNum, if_pos h]
    refine ⟨?_, rfl, by simp⟩
    have := Spec.IsLength.short (n.setWidth 8) (by omega)
    rwa [e] at this
  · have hz : n.setWidth 64 ≠ 0 := fun hz => by
      have := congrArg BitVec.toNat hz; rw [h64] at this; simp at this; omega
    obtain ⟨hlt, hge⟩ := octetNum_spec (n.setWidth 64)
    obtain ⟨hge, h1⟩ := hge hz
    rw [h64] at hlt hge
    have h4 : octetNumOfUint (n.setWidth 64) ≤ 4 := by
      apply Decidable.byContradiction; intro hc
      have : (256 : Nat) ^ 4 ≤ 256 ^ (octetNumOfUint (n.setWidth 64) - 1) :=
        Nat.pow_le_pow_right (n := 256) (Nat.succ_pos 255) (by omega)
      rw [show (256 : Nat) ^ 4 = 4294967296 from rfl] at this
      have := n.isLt; omega
    rw [encodeLength, if_neg h, lenOctetNum, if_neg h, Nat.add_sub_cancel_left, encodeNumber_eq, h64]
    generalize octetNumOfUint (n.setWidth 64) = k at *
    refine ⟨?_, by simp; omega, by simp; omega⟩
    have hv : beVal (beBytes k n.toNat) = n.toNat := by rw [beVal_beBytes, Nat.mod_eq_of_lt hlt]
    have := Spec.IsLength.long (0x80 ||| BitVec.ofNat 8 k) (beBytes k n.toNat) ?_ (by simpa using h1)
    · rwa [hv] at this
    · rw [beBytes_length]
      rcases (show k = 1 ∨ k = 2 ∨ k = 3 ∨ k = 4 by omega) with rfl | rfl | rfl | rfl <;> rfl

/-- DER: the encoder writes the shortest length field there is for the length, and only one field has this size. -/
theorem encodeLength_shortest (n : BitVec 32) (octs : List Byte) (h : Spec.IsLength octs n.toNat) :
    (encodeLength n).length < octs.length ∨ encodeLength n = octs := by
  obtain ⟨hv, hl, h5⟩ := encodeLength_valid n
  have h64 : (n.setWidth 64).toNat = n.toNat := by
    rw [BitVec.toNat_setWidth]; have := n.isLt; omega
  generalize hn : n.toNat = v at h
  cases h with
  | short b hb =>
    right
    rw [encodeLength, if_pos (by omega)]
    congr 1
    apply BitVec.eq_of_toNat_eq
    rw [BitVec.toNat_setWidth, hn]; omega
  | long b ds hb h1 =>
    by_cases hs : n.toNat ≤ 127
    · left; rw [encodeLength, if_pos hs]; simp; omega
    · have hz : n.setWidth 64 ≠ 0 := fun hz => by
        have := congrArg BitVec.toNat hz; rw [h64] at this; simp at this; omega
      obtain ⟨hlt, hge⟩ := octetNum_spec (n.setWidth 64)
      obtain ⟨hge, hk1⟩ := hge hz
      rw [h64] at hlt hge
      rw [hl, lenOctetNum, if_neg hs]
      by_cases hlen : octetNumOfUint (n.setWidth 64) = ds.length
      · right
        rw [encodeLength, if_neg hs] at hv ⊢
        rw [lenOctetNum, if_neg hs, Nat.add_sub_cancel_left, encodeNumber_eq, h64, hlen] at hv ⊢
        rw [hn, beBytes_beVal]
        congr 1
        apply BitVec.eq_of_toNat_eq
        rw [hb]
        have hlen' : (beBytes ds.length n.toNat).length = ds.length := beBytes_length _ _
        generalize beBytes ds.length n.toNat = y at hv hlen'
        generalize n.toNat = x at hv
        cases hv with
        | short _ _ => simp at hlen'; omega
        | long _ _ hb' _ => rw [hb', hlen']
      · left
        have : ¬ ds.length < octetNumOfUint (n.setWidth 64) := by
          intro hc
          have h2 := beVal_lt ds
          have : (256 : Nat) ^ ds.length ≤ 256 ^ (octetNumOfUint (n.setWidth 64) - 1) :=
            Nat.pow_le_pow_right (n := 256) (Nat.succ_pos 255) (by omega)
          omega
        simp only [List.length_cons]; omega

/-- Decoding inverts encoding: for every length the encoder can write, except for an item of exactly
`2 ^ 32 - 1` bytes, and any buffer that holds the contents, the decoder returns the length and leaves the cursor
at the first content octet. -/
theorem decodeLen_encodeLength (n : BitVec 32) (rest : List Byte) (h : n.toNat ≤ rest.length)
    (hfit : n.toNat + lenOctetNum n + 1 < 2 ^ 32 - 1) :
    decodeLen false (encodeLength n ++ rest) = .ok (n, rest) := by
  obtain ⟨hv, hl, h5⟩ := encodeLength_valid n
  exact (decodeLen_iff _ _ _).2 ⟨_, hv, rfl, h, h5, fun _ => by omega⟩

/-- Round trip of whole items. -/
theorem decodeItem_encodeItem (tag : Byte) (content rest : List Byte)
    (hfit : content.length + lenOctetNum (BitVec.ofNat 32 content.length) + 1 < 2 ^ 32 - 1) :
    decodeItem (encodeItem tag content ++ rest) = .ok (tag, content, rest) := by
  obtain ⟨hv, hl, h5⟩ := encodeLength_valid (BitVec.ofNat 32 content.length)
  rw [BitVec.toNat_ofNat, Nat.mod_eq_of_lt (by omega)] at hv
  exact (decodeItem_iff _ _ _ _).2 ⟨_, hv, by simp [encodeItem], h5, fun _ => by omega⟩

/-- Size computation: `BSL_ASN1_GetEncodeLen` succeeds exactly when the item fits a 32-bit size, and then
returns the size of the item the encoder writes. -/
theorem getEncodeLen_exact (content : List Byte) (h : content.length < 2 ^ 32) (t : BitVec 32) :
    getEncodeLen (BitVec.ofNat 32 content.length) = some t ↔
      t.toNat = (encodeItem 0 content).length := by
  obtain ⟨hv, hl, h5⟩ := encodeLength_valid (BitVec.ofNat 32 content.length)
  have e : (BitVec.ofNat 32 content.length).toNat = content.length := by
    rw [BitVec.toNat_ofNat, Nat.mod_eq_of_lt h]
  simp only [getEncodeLen, encodeItem, List.length_cons, List.length_append, hl, e, List.cons_append]
  rw [hl] at h5
  generalize hg : lenOctetNum (BitVec.ofNat 32 content.length) = k at *
  have ht := t.isLt
  by_cases hc : 2 ^ 32 - 1 - (1 + k) < content.length
  · rw [if_pos hc]
    simp only [reduceCtorEq, false_iff]; omega
  · rw [if_neg hc]
    have : (BitVec.ofNat 32 (1 + k) + BitVec.ofNat 32 content.length).toNat = k + content.length + 1 := by
      rw [BitVec.toNat_add, e, BitVec.toNat_ofNat]; omega
    constructor
    · intro h; cases h; exact this
    · intro h; congr 1; exact BitVec.eq_of_toNat_eq (by omega)

/-- `BSL_ASN1_GetCompleteLen` on a buffer that starts with a well-formed item returns the size of the item. -/
theorem getCompleteLen_exact (tag : Byte) (content rest : List Byte)
    (hfit : content.length + lenOctetNum (BitVec.ofNat 32 content.length) + 1 < 2 ^ 32 - 1) :
    ∃ t, getCompleteLen (encodeItem tag content ++ rest) = .ok t ∧
      t.toNat = (encodeItem tag content).length := by
  obtain ⟨hv, hl, h5⟩ := encodeLength_valid (BitVec.ofNat 32 content.length)
  have hlt : content.length < 2 ^ 32 := by omega
  have e0 : (BitVec.ofNat 32 content.length).toNat = content.length := by
    rw [BitVec.toNat_ofNat, Nat.mod_eq_of_lt hlt]
  rw [e0] at hv
  rw [← hl] at hfit
  simp only [encodeItem, List.cons_append, getCompleteLen, List.length_cons, List.length_append]
  generalize encodeLength (BitVec.ofNat 32 content.length) = octs at *
  generalize hc : content.length = v at hv hfit
  cases hv with
  | short b hb =>
    have e : (b.setWidth 32 + 1#32).toNat = b.toNat + 1 := by
      rw [BitVec.toNat_add, BitVec.toNat_setWidth]; simp; omega
    refine ⟨b.setWidth 32 + 1#32 + 1, ?_, ?_⟩
    · rw [List.singleton_append, List.cons_append, decodeLen_short _ _ _ hb]
      simp only [if_true, e, List.length_cons, List.length_append]
      rw [if_neg (by omega)]
    · rw [BitVec.ofNat_eq_ofNat, BitVec.toNat_add, e]; simp; omega
  | long b ds hb h1 =>
    simp only [List.length_cons] at h5 hfit
    obtain ⟨r, hv, hr⟩ := decodeLen_long true b ds (content ++ rest) hb h1 (by omega)
    have e : (r + BitVec.ofNat 32 (ds.length + 1)).toNat = content.length + ds.length + 1 := by
      rw [BitVec.toNat_add, BitVec.toNat_ofNat]; omega
    refine ⟨r + BitVec.ofNat 32 (ds.length + 1) + 1, ?_, ?_⟩
    · rw [List.cons_append, List.cons_append, List.append_assoc, hr, if_neg (by omega)]
      simp only [if_true, e, List.length_cons, List.length_append]
      rw [if_neg (by omega)]
    · rw [BitVec.ofNat_eq_ofNat, BitVec.toNat_add, e]; simp; omega

/-- The one length the encoder can write and the decoder refuses: an item of `2 ^ 32 - 1` bytes
(finding F-ASN1-1 in DESIGN.md). -/
theorem decodeLen_max_refused :
    getEncodeLen (BitVec.ofNat 32 (2 ^ 32 - 7)) = some (BitVec.ofNat 32 (2 ^ 32 - 1)) ∧
    ∀ rest, decodeLen false (encodeLength (BitVec.ofNat 32 (2 ^ 32 - 7)) ++ rest) = .error .maxLenNum := by
  constructor
  · decide +kernel
  · intro rest
    have henc : encodeLength (BitVec.ofNat 32 (2 ^ 32 - 7)) = [0x84, 0xff, 0xff, 0xff, 0xf9] := by decide +kernel
    obtain ⟨r, hv, hr⟩ := decodeLen_long false 0x84 [0xff, 0xff, 0xff, 0xf9] rest rfl (by decide) (by decide)
    have : beVal [0xff, 0xff, 0xff, 0xf9] = 4294967289 := by decide +kernel
    rw [henc, List.cons_append, hr, if_pos]
    rw [hv, this]; decide

/-- The decoder is BER, not DER: it also takes length fields that are not the shortest
(finding F-ASN1-2 in DESIGN.md), so two different byte strings decode to the same item. -/
theorem decodeLen_accepts_nonminimal :
    decodeLen false [0x82, 0x00, 0x01, 0x05] = .ok (1, [0x05]) ∧ decodeLen false [0x01, 0x05] = .ok (1, [0x05]) := by
  decide +kernel

-- Non-vacuity: a 200-byte item is inside the hypotheses and uses the long form.
example : (200 : Nat) + lenOctetNum (BitVec.ofNat 32 200) + 1 < 2 ^ 32 - 1 := by decide +kernel
example : encodeLength 200 = [0x81, 0xC8] := by decide +kernel
example : decodeItem ([0x04, 0x02, 0xAA, 0xBB] ++ [0x05, 0x00]) = .ok (0x04, [0xAA, 0xBB], [0x05, 0x00]) := rfl
example : decodeItem [0x04, 0x03, 0xAA, 0xBB] = .error .decodeLen := rfl

end Verif.Bsl.Asn1
