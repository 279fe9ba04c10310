import Verif.Bsl.Asn1.Utf8Model
import Verif.Bsl.Asn1.Proof
/-! C12: conversion of ASN.1 strings to UTF-8. The specification of UTF-8 is Lean's own
`String.utf8EncodeChar`; `Char` is the type of Unicode scalar values. -/
namespace Verif.Bsl.Asn1.Utf8
open Verif.Common Verif.Bsl.Asn1

/-- UTF-8 octets of a sequence of characters. -/
def Spec.utf8 (cs : List Char) : List Byte := cs.flatMap fun c => (String.utf8EncodeChar c).map UInt8.toBitVec

/-- Contents octets of a string type with `k` octets per character (X.690 8.23: big-endian code points). -/
def Spec.fixed (k : Nat) (cs : List Char) : List Byte := cs.flatMap fun c => beBytes k c.toNat

/-- Octets per character of the string types converted: PrintableString, IA5String, TeletexString (taken as
Latin-1) one, BMPString two, UniversalString four. -/
def Spec.charSize (tag : Byte) : Option Nat :=
  if tag = 0x13 ∨ tag = 0x16 ∨ tag = 0x14 then some 1
  else if tag = 0x1E then some 2 else if tag = 0x1C then some 4 else none

theorem isScalar_iff (cp : BitVec 32) : isScalar cp = true ↔ cp.toNat.isValidChar := by
  unfold isScalar Nat.isValidChar
  by_cases h1 : cp.toNat > 0x10FFFF
  · rw [if_pos h1]; simp; omega
  · rw [if_neg h1]
    by_cases h2 : cp.toNat ≥ 0xD800 ∧ cp.toNat ≤ 0xDFFF
    · rw [if_pos (by simpa using h2)]; simp; omega
    · rw [if_neg (by simpa using h2)]; simp; omega

theorem findForm_eq (cp : BitVec 32) : findForm cp =
    if cp.toNat ≥ 0x10000 then (4, 0xF0) else if cp.toNat ≥ 0x800 then (3, 0xE0)
    else if cp.toNat ≥ 0x80 then (2, 0xC0) else (1, 0) := by
  unfold findForm formTable
  simp only [List.reverse_cons, List.reverse_nil, List.nil_append, List.cons_append, List.find?]
  by_cases h4 : cp.toNat ≥ 0x10000
  · simp [h4]
  · by_cases h3 : cp.toNat ≥ 0x800
    · simp [h4, h3]
    · by_cases h2 : cp.toNat ≥ 0x80
      · simp [h4, h3, h2]
      · simp [h4, h3, h2]

theorem store_mid (pre g post : List Byte) (i : Nat) (b : Byte) (h : i < g.length) :
    store (pre ++ (g ++ post)) (pre.length + i) b = .ok (pre ++ (g.set i b ++ post)) := by
  unfold store
  rw [if_pos (by simp; omega), List.set_append_right _ _ (by omega), List.set_append_left _ _ (by omega),
    Nat.add_sub_cancel_left]

/-- low byte of `0x80 | (cp >> 6k & 0x3f)` -/
theorem cont_byte (x : BitVec 32) :
    (0x80#32 ||| (x &&& 0x3F#32)).setWidth 8 = BitVec.ofNat 8 (x.toNat % 64 + 128) := by
  apply BitVec.eq_of_toNat_eq
  rw [BitVec.toNat_setWidth, BitVec.toNat_or, BitVec.toNat_and]
  have h1 : x.toNat &&& (0x3F#32).toNat = x.toNat % 64 := Nat.and_two_pow_sub_one_eq_mod x.toNat 6
  rw [h1]
  have h2 : (0x80#32).toNat ||| x.toNat % 64 = 128 + x.toNat % 64 := by
    have := Nat.shiftLeft_add_eq_or_of_lt (show x.toNat % 64 < 2 ^ 7 by omega) 1
    rw [show (1 : Nat) <<< 7 = 128 from rfl] at this
    rw [this]; rfl
  rw [h2, BitVec.toNat_ofNat]; omega

theorem lead_byte (p : Byte) (m : Nat) (x : BitVec 32) (hp : p.toNat % 2 ^ m = 0) (hx : x.toNat < 2 ^ m)
    (hs : p.toNat + x.toNat < 256) :
    (p.setWidth 32 ||| x).setWidth 8 = BitVec.ofNat 8 (x.toNat + p.toNat) := by
  apply BitVec.eq_of_toNat_eq
  rw [BitVec.toNat_setWidth, BitVec.toNat_or, BitVec.toNat_ofNat, BitVec.toNat_setWidth]
  have hpl := p.isLt
  rw [Nat.mod_eq_of_lt (show p.toNat < 2 ^ 32 by omega)]
  have h1 : p.toNat = (p.toNat / 2 ^ m) <<< m := by
    rw [Nat.shiftLeft_eq, Nat.mul_comm]; have := Nat.div_add_mod p.toNat (2 ^ m); omega
  have h2 : p.toNat ||| x.toNat = p.toNat + x.toNat := by
    rw [h1, ← Nat.shiftLeft_add_eq_or_of_lt hx]
  rw [h2]; omega

/-- Bytes written for one scalar value, and their number. -/
theorem codePoint_write (c : Char) (cp : BitVec 32) (hcp : cp.toNat = c.toNat) (pre g post : List Byte)
    (hg : g.length = (findForm cp).1) :
    codePointToUtf8 cp (some (pre ++ (g ++ post), pre.length)) =
      .ok ((String.utf8EncodeChar c).length,
        some (pre ++ ((String.utf8EncodeChar c).map UInt8.toBitVec ++ post))) ∧
    (findForm cp).1 = (String.utf8EncodeChar c).length := by
  have hv : c.val.toNat = cp.toNat := hcp.symm
  have hmax : cp.toNat < 0x110000 := by
    have := c.valid
    have hvv : c.val.toNat.isValidChar := this
    rw [hv] at hvv
    unfold Nat.isValidChar at hvv; omega
  rw [findForm_eq] at hg
  have s6 : ∀ x : BitVec 32, (x >>> 6).toNat = x.toNat / 64 := fun x => by
    rw [BitVec.toNat_ushiftRight, Nat.shiftRight_eq_div_pow]
  by_cases h4 : cp.toNat ≥ 0x10000
  · rw [if_pos h4] at hg
    have hf : findForm cp = (4, 0xF0) := by rw [findForm_eq, if_pos h4]
    match g, hg with
    | [g0, g1, g2, g3], _ =>
      have st : ∀ (g : List Byte) (i : Nat) (b : Byte), i < g.length →
        store (pre ++ (g ++ post)) (pre.length + i) b = .ok (pre ++ (g.set i b ++ post)) :=
        fun g i b h => store_mid pre g post i b h
      have st0 : ∀ (g : List Byte) (b : Byte), 0 < g.length →
        store (pre ++ (g ++ post)) pre.length b = .ok (pre ++ (g.set 0 b ++ post)) :=
        fun g b h => store_mid pre g post 0 b h
      have e : String.utf8EncodeChar c = [UInt8.ofNat (cp.toNat / 262144 % 8 + 0xf0),
          UInt8.ofNat (cp.toNat / 4096 % 64 + 0x80), UInt8.ofNat (cp.toNat / 64 % 64 + 0x80),
          UInt8.ofNat (cp.toNat % 64 + 0x80)] := by
        unfold String.utf8EncodeChar
        simp only [hv]
        rw [if_neg (by omega), if_neg (by omega), if_neg (by omega)]
      have hl := lead_byte 0xF0 3 (cp >>> 6 >>> 6 >>> 6) (by decide) (by rw [s6, s6, s6]; omega)
        (by rw [s6, s6, s6, show (0xF0 : Byte).toNat = 240 from rfl]; omega)
      refine ⟨?_, by rw [hf, e]; rfl⟩
      unfold codePointToUtf8
      simp only [hf, contLoop, cont_byte]
      rw [st _ 3 _ (by simp)]
      simp only [List.set]
      rw [st _ 2 _ (by simp)]
      simp only [List.set]
      rw [st _ 1 _ (by simp)]
      simp only [List.set]
      rw [st0 _ _ (by simp), hl]
      simp only [List.set, e, List.map, List.length, s6]
      simp only [show (0xF0 : Byte).toNat = 240 from rfl]
      have a1 : cp.toNat / 64 / 64 / 64 = cp.toNat / 262144 % 8 := by omega
      have a2 : cp.toNat / 64 / 64 % 64 = cp.toNat / 4096 % 64 := by omega
      rw [a1, a2]; rfl
  · rw [if_neg h4] at hg
    by_cases h3 : cp.toNat ≥ 0x800
    · rw [if_pos h3] at hg
      have hf : findForm cp = (3, 0xE0) := by rw [findForm_eq, if_neg h4, if_pos h3]
      match g, hg with
      | [g0, g1, g2], _ =>
        have st : ∀ (g : List Byte) (i : Nat) (b : Byte), i < g.length →
          store (pre ++ (g ++ post)) (pre.length + i) b = .ok (pre ++ (g.set i b ++ post)) :=
          fun g i b h => store_mid pre g post i b h
        have st0 : ∀ (g : List Byte) (b : Byte), 0 < g.length →
          store (pre ++ (g ++ post)) pre.length b = .ok (pre ++ (g.set 0 b ++ post)) :=
          fun g b h => store_mid pre g post 0 b h
        have e : String.utf8EncodeChar c = [UInt8.ofNat (cp.toNat / 4096 % 16 + 0xe0),
            UInt8.ofNat (cp.toNat / 64 % 64 + 0x80), UInt8.ofNat (cp.toNat % 64 + 0x80)] := by
          unfold String.utf8EncodeChar
          simp only [hv]
          rw [if_neg (by omega), if_neg (by omega), if_pos (by omega)]
        have hl := lead_byte 0xE0 4 (cp >>> 6 >>> 6) (by decide) (by rw [s6, s6]; omega)
          (by rw [s6, s6, show (0xE0 : Byte).toNat = 224 from rfl]; omega)
        refine ⟨?_, by rw [hf, e]; rfl⟩
        unfold codePointToUtf8
        simp only [hf, contLoop, cont_byte]
        rw [st _ 2 _ (by simp)]
        simp only [List.set]
        rw [st _ 1 _ (by simp)]
        simp only [List.set]
        rw [st0 _ _ (by simp), hl]
        simp only [List.set, e, List.map, List.length, s6]
        simp only [show (0xE0 : Byte).toNat = 224 from rfl]
        have a1 : cp.toNat / 64 / 64 = cp.toNat / 4096 % 16 := by omega
        rw [a1]; rfl
    · rw [if_neg h3] at hg
      by_cases h2 : cp.toNat ≥ 0x80
      · rw [if_pos h2] at hg
        have hf : findForm cp = (2, 0xC0) := by rw [findForm_eq, if_neg h4, if_neg h3, if_pos h2]
        match g, hg with
        | [g0, g1], _ =>
          have e : String.utf8EncodeChar c = [UInt8.ofNat (cp.toNat / 64 % 32 + 0xc0),
              UInt8.ofNat (cp.toNat % 64 + 0x80)] := by
            unfold String.utf8EncodeChar
            simp only [hv]
            rw [if_neg (by omega), if_pos (by omega)]
          have hl := lead_byte 0xC0 5 (cp >>> 6) (by decide) (by rw [s6]; omega)
            (by rw [s6, show (0xC0 : Byte).toNat = 192 from rfl]; omega)
          refine ⟨?_, by rw [hf, e]; rfl⟩
          unfold codePointToUtf8
          simp only [hf, contLoop, cont_byte]
          rw [store_mid pre _ post 1 _ (by simp)]
          simp only [List.set]
          have st0 := fun b => store_mid pre [g0, BitVec.ofNat 8 (cp.toNat % 64 + 128)] post 0 b (by simp)
          simp only [Nat.add_zero] at st0
          rw [st0, hl]
          simp only [List.set, e, List.map, List.length, s6]
          simp only [show (0xC0 : Byte).toNat = 192 from rfl]
          have a1 : cp.toNat / 64 % 32 = cp.toNat / 64 := by omega
          rw [a1]; rfl
      · rw [if_neg h2] at hg
        have hf : findForm cp = (1, 0) := by rw [findForm_eq, if_neg h4, if_neg h3, if_neg h2]
        match g, hg with
        | [g0], _ =>
          have e : String.utf8EncodeChar c = [UInt8.ofNat cp.toNat] := by
            unfold String.utf8EncodeChar
            simp only [hv]
            rw [if_pos (by omega)]
          have hl := lead_byte 0 7 cp (by decide) (by omega)
            (by rw [show (0 : Byte).toNat = 0 from rfl]; omega)
          refine ⟨?_, by rw [hf, e]; rfl⟩
          unfold codePointToUtf8
          simp only [hf]
          simp only [show (1 : Nat) - 1 = 0 from rfl, contLoop]
          have st0 := fun b => store_mid pre [g0] post 0 b (by simp)
          simp only [Nat.add_zero] at st0
          rw [st0, hl]
          simp only [List.set, e, List.map, List.length]
          rfl

theorem encodeCodePoints_nil (k : Nat) (out : Option (List Byte × Nat)) (n : Nat) :
    encodeCodePoints k [] out n = .ok (n, out) := by
  rw [encodeCodePoints]; rfl

theorem encodeCodePoints_step (k : Nat) (data : List Byte) (out : Option (List Byte × Nat)) (n : Nat)
    (hk : k + 1 ≤ 4) (hlen : k + 1 ≤ data.length) :
    ∃ cp : BitVec 32, cp.toNat = beVal (data.take (k + 1)) ∧ encodeCodePoints k data out n =
      match codePointToUtf8 cp out with
      | .error e => .error e
      | .ok (needLen, buf) =>
        if n > 2 ^ 32 - 1 - needLen then .error .lenOverflow
        else
          encodeCodePoints k (data.drop (k + 1))
            (advance out buf needLen)
            (n + needLen) := by
  obtain ⟨r, hr, hv⟩ := readLen0 (k + 1) data hlen hk
  refine ⟨r, hv, ?_⟩
  rw [encodeCodePoints, if_neg (by omega)]
  split
  · rename_i h; rw [hr] at h; simp at h
  · rename_i cp rest h
    rw [hr] at h
    simp only [Option.some.injEq, Prod.mk.injEq] at h
    obtain ⟨rfl, rfl⟩ := h
    rfl

theorem fixed_cons (k : Nat) (c : Char) (cs : List Char) :
    Spec.fixed k (c :: cs) = beBytes k c.toNat ++ Spec.fixed k cs := by simp [Spec.fixed]

theorem utf8_cons (c : Char) (cs : List Char) :
    Spec.utf8 (c :: cs) = (String.utf8EncodeChar c).map UInt8.toBitVec ++ Spec.utf8 cs := by simp [Spec.utf8]

theorem size_pass (k : Nat) (cs : List Char) (hk : k + 1 ≤ 4) (hc : ∀ c ∈ cs, c.toNat < 256 ^ (k + 1)) (n : Nat)
    (hn : n < 2 ^ 32) :
    encodeCodePoints k (Spec.fixed (k + 1) cs) none n =
      if n + (Spec.utf8 cs).length < 2 ^ 32 then .ok (n + (Spec.utf8 cs).length, none)
      else .error .lenOverflow := by
  induction cs generalizing n with
  | nil =>
    rw [show Spec.fixed (k + 1) [] = [] from rfl, encodeCodePoints_nil, if_pos (by simpa [Spec.utf8] using hn)]
    rfl
  | cons c cs ih =>
    have hcv := hc c (by simp)
    obtain ⟨cp, hcp, hst⟩ := encodeCodePoints_step k (Spec.fixed (k + 1) (c :: cs)) none n hk
      (by rw [fixed_cons]; simp)
    rw [fixed_cons, List.take_left' (by simp), beVal_beBytes, Nat.mod_eq_of_lt hcv] at hcp
    have hsc : isScalar cp = true := (isScalar_iff cp).2 (hcp ▸ c.valid)
    have hform := (codePoint_write c cp hcp [] (List.replicate (findForm cp).1 0) [] (by simp)).2
    rw [hst]
    simp only [codePointToUtf8, hsc, Bool.true_eq_false, if_false, hform, advance]
    rw [fixed_cons, List.drop_left' (by simp), utf8_cons]
    simp only [List.length_append, List.length_map]
    by_cases ho : n > 2 ^ 32 - 1 - (String.utf8EncodeChar c).length
    · rw [if_pos ho, if_neg]; omega
    · have hl : (String.utf8EncodeChar c).length ≤ 4 := by
        rw [← hform, findForm_eq]; split <;> (try split) <;> (try split) <;> simp
      rw [if_neg ho, ih (fun c' h' => hc c' (by simp [h'])) _ (by omega), Nat.add_assoc]

theorem size_pass_sound (k : Nat) (hk : k + 1 ≤ 4) (m : Nat) (data : List Byte) (hm : data.length ≤ m) (n : Nat)
    (r : Nat × Option (List Byte × Nat)) (h : encodeCodePoints k data none n = .ok r) :
    ∃ cs : List Char, data = Spec.fixed (k + 1) cs ∧ ∀ c ∈ cs, c.toNat < 256 ^ (k + 1) := by
  induction m generalizing data n with
  | zero => exact ⟨[], List.eq_nil_of_length_eq_zero (by omega), by simp⟩
  | succ m ih =>
    by_cases h0 : data.length = 0
    · exact ⟨[], List.eq_nil_of_length_eq_zero h0, by simp⟩
    · by_cases hl : k + 1 ≤ data.length
      · obtain ⟨cp, hcp, hst⟩ := encodeCodePoints_step k data none n hk hl
        rw [hst] at h
        by_cases hsc : isScalar cp = true
        · simp only [codePointToUtf8, hsc, Bool.true_eq_false, if_false] at h
          by_cases ho : n > 2 ^ 32 - 1 - (findForm cp).1
          · rw [if_pos ho] at h; exact absurd h (by simp)
          · rw [if_neg ho] at h
            obtain ⟨cs, h1, h2⟩ := ih (data.drop (k + 1)) (by simp; omega) _ h
            let c : Char := ⟨⟨cp⟩, (isScalar_iff cp).1 hsc⟩
            have hc : c.toNat = beVal (data.take (k + 1)) := hcp
            have hlt : c.toNat < 256 ^ (k + 1) := by
              have := beVal_lt (data.take (k + 1))
              rw [List.length_take, Nat.min_eq_left hl] at this
              rwa [hc]
            refine ⟨c :: cs, ?_, ?_⟩
            · rw [fixed_cons, ← h1, hc]
              have : beBytes (k + 1) (beVal (data.take (k + 1))) = data.take (k + 1) := by
                have := beBytes_beVal (data.take (k + 1))
                rwa [List.length_take, Nat.min_eq_left hl] at this
              rw [this, List.take_append_drop]
            · intro c' hc'
              rcases List.mem_cons.1 hc' with rfl | h'
              · exact hlt
              · exact h2 c' h'
        · simp only [codePointToUtf8] at h
          rw [if_pos (by simpa using hsc)] at h
          exact absurd h (by simp)
      · exfalso
        rw [encodeCodePoints, if_neg h0] at h
        split at h
        · exact absurd h (by simp)
        · rename_i cp rest hr
          have := readLen_length hr; omega

theorem write_pass (k : Nat) (cs : List Char) (hk : k + 1 ≤ 4) (hc : ∀ c ∈ cs, c.toNat < 256 ^ (k + 1)) (n : Nat)
    (pre g : List Byte) (hn : n + (Spec.utf8 cs).length < 2 ^ 32) (hg : g.length = (Spec.utf8 cs).length) :
    encodeCodePoints k (Spec.fixed (k + 1) cs) (some (pre ++ g, pre.length)) n =
      .ok (n + (Spec.utf8 cs).length, some (pre ++ Spec.utf8 cs, pre.length + (Spec.utf8 cs).length)) := by
  induction cs generalizing n pre g with
  | nil =>
    have : g = [] := List.eq_nil_of_length_eq_zero (by simpa [Spec.utf8] using hg)
    rw [show Spec.fixed (k + 1) [] = [] from rfl, encodeCodePoints_nil, this]
    rfl
  | cons c cs ih =>
    have hcv := hc c (by simp)
    obtain ⟨cp, hcp, hst⟩ := encodeCodePoints_step k (Spec.fixed (k + 1) (c :: cs)) (some (pre ++ g, pre.length)) n hk
      (by rw [fixed_cons]; simp)
    rw [fixed_cons, List.take_left' (by simp), beVal_beBytes, Nat.mod_eq_of_lt hcv] at hcp
    have hform := (codePoint_write c cp hcp [] (List.replicate (findForm cp).1 0) [] (by simp)).2
    rw [utf8_cons, List.length_append, List.length_map] at hg hn
    have hw := (codePoint_write c cp hcp pre (g.take (String.utf8EncodeChar c).length)
      (g.drop (String.utf8EncodeChar c).length) (by rw [List.length_take, hform]; exact Nat.min_eq_left (by omega))).1
    rw [List.take_append_drop] at hw
    rw [hst, hw]
    simp only [advance]
    rw [if_neg (by omega), fixed_cons, List.drop_left' (by simp), utf8_cons]
    have := ih (fun c' h' => hc c' (by simp [h'])) (n + (String.utf8EncodeChar c).length)
      (pre ++ (String.utf8EncodeChar c).map UInt8.toBitVec) (g.drop (String.utf8EncodeChar c).length)
      (by omega) (by rw [List.length_drop]; omega)
    simp only [List.append_assoc, List.length_append, List.length_map] at this ⊢
    rw [this, Nat.add_assoc, Nat.add_assoc]

theorem convert_eq (k : Nat) (hk : k + 1 ≤ 4) (data out : List Byte) :
    convertToUtf8String k data = .ok out ↔
      ∃ cs : List Char, (∀ c ∈ cs, c.toNat < 256 ^ (k + 1)) ∧ data = Spec.fixed (k + 1) cs ∧
        out = Spec.utf8 cs ∧ out.length < 2 ^ 32 := by
  unfold convertToUtf8String
  constructor
  · intro h
    split at h
    · exact absurd h (by simp)
    · rename_i len o h1
      obtain ⟨cs, rfl, hc⟩ := size_pass_sound k hk data.length data (Nat.le_refl _) 0 _ h1
      rw [size_pass k cs hk hc 0 (by decide)] at h1
      by_cases hl : 0 + (Spec.utf8 cs).length < 2 ^ 32
      · rw [if_pos hl] at h1
        simp only [Except.ok.injEq, Prod.mk.injEq, Nat.zero_add] at h1
        rw [← h1.1] at h
        have hw := write_pass k cs hk hc 0 [] (List.replicate (Spec.utf8 cs).length 0) hl (by simp)
        simp only [List.nil_append, List.length_nil, Nat.zero_add] at hw hl
        rw [hw] at h
        simp only [List.take_length, Except.ok.injEq] at h
        exact ⟨cs, hc, rfl, h.symm, by rw [← h]; exact hl⟩
      · rw [if_neg hl] at h1; exact absurd h1 (by simp)
  · rintro ⟨cs, hc, rfl, rfl, hl⟩
    rw [size_pass k cs hk hc 0 (by decide), if_pos (by omega)]
    have hw := write_pass k cs hk hc 0 [] (List.replicate (Spec.utf8 cs).length 0) (by omega) (by simp)
    simp only [List.nil_append, List.length_nil, Nat.zero_add] at hw
    simp only [Nat.zero_add, hw, List.take_length]

/-- Exactness: for every string type converted, the conversion succeeds exactly when the contents are the
big-endian code points of a sequence of Unicode scalar values (so surrogates and values above U+10FFFF are refused)
and the output has a 32-bit length; the output then is the UTF-8 encoding of that sequence. -/
theorem toUtf8String_iff (tag : Byte) (k : Nat) (hk : Spec.charSize tag = some k) (data out : List Byte) :
    toUtf8String tag data = .ok out ↔
      ∃ cs : List Char, (∀ c ∈ cs, c.toNat < 256 ^ k) ∧ data = Spec.fixed k cs ∧ out = Spec.utf8 cs ∧
        out.length < 2 ^ 32 := by
  have hlen : ∀ k cs, (Spec.fixed k cs).length = k * cs.length := by
    intro k cs
    induction cs with
    | nil => rfl
    | cons c cs ih => rw [fixed_cons, List.length_append, ih, beBytes_length, List.length_cons, Nat.mul_succ]; omega
  have hk4 : 1 ≤ k ∧ k ≤ 4 ∧ tag ≠ 0x0C := by
    unfold Spec.charSize at hk
    split at hk
    · rename_i h; simp at hk; rcases h with rfl | rfl | rfl <;> (refine ⟨by omega, by omega, by decide⟩)
    · split at hk
      · rename_i h; simp at hk; subst h; exact ⟨by omega, by omega, by decide⟩
      · split at hk
        · rename_i h; simp at hk; subst h; exact ⟨by omega, by omega, by decide⟩
        · simp at hk
  have hcs : getCharSize tag data.length = if data.length % k ≠ 0 then .error .invalidLen else .ok k := by
    unfold Spec.charSize at hk
    unfold getCharSize
    rw [if_neg hk4.2.2]
    split at hk
    · rename_i h; rw [if_pos h]; simp at hk; subst hk; rw [if_neg (by omega)]
    · rename_i h; rw [if_neg h]
      split at hk
      · rename_i h; rw [if_pos h]; simp at hk; subst hk; rfl
      · rename_i h; rw [if_neg h]
        split at hk
        · rename_i h; rw [if_pos h]; simp at hk; subst hk; rfl
        · simp at hk
  obtain ⟨j, rfl⟩ : ∃ j, k = j + 1 := ⟨k - 1, by omega⟩
  unfold toUtf8String
  rw [hcs]
  by_cases hm : data.length % (j + 1) ≠ 0
  · rw [if_pos hm]
    constructor
    · intro h; exact absurd h (by simp)
    · rintro ⟨cs, _, rfl, _⟩
      rw [hlen, Nat.mul_mod_right] at hm; exact absurd rfl hm
  · rw [if_neg hm]
    simp only [if_neg hk4.2.2, Nat.add_sub_cancel]
    by_cases h0 : data.length = 0
    · rw [if_pos h0]
      have hnil := List.eq_nil_of_length_eq_zero h0
      subst hnil
      constructor
      · intro h
        simp only [Except.ok.injEq] at h
        subst h
        exact ⟨[], by simp, rfl, rfl, by simp⟩
      · rintro ⟨cs, _, h, rfl, _⟩
        have := congrArg List.length h
        rw [hlen] at this
        cases cs with
        | nil => rfl
        | cons c cs => simp [Nat.mul_succ] at this
    · rw [if_neg h0]
      exact convert_eq j hk4.2.1 data out

theorem code_in_bounds_aux (k : Nat) (hk : k + 1 ≤ 4) (data : List Byte) (hmod : data.length % (k + 1) = 0) (n m : Nat)
    (hm : data.length ≤ m) :
    encodeCodePoints k data none n ≠ .error .oobRead ∧ encodeCodePoints k data none n ≠ .error .oobWrite := by
  induction m generalizing data n with
  | zero =>
    have : data = [] := List.eq_nil_of_length_eq_zero (by omega)
    rw [this, encodeCodePoints_nil]; simp
  | succ m ih =>
    by_cases h0 : data.length = 0
    · have : data = [] := List.eq_nil_of_length_eq_zero h0
      rw [this, encodeCodePoints_nil]; simp
    · have hl : k + 1 ≤ data.length := Nat.le_of_not_lt fun h => h0 (by rwa [Nat.mod_eq_of_lt h] at hmod)
      obtain ⟨cp, hcp, hst⟩ := encodeCodePoints_step k data none n hk hl
      rw [hst]
      by_cases hsc : isScalar cp = true
      · simp only [codePointToUtf8, hsc, Bool.true_eq_false, if_false]
        by_cases ho : n > 2 ^ 32 - 1 - (findForm cp).1
        · rw [if_pos ho]; simp
        · rw [if_neg ho]
          refine ih (data.drop (k + 1)) ?_ _ (by rw [List.length_drop]; omega)
          rw [List.length_drop]
          obtain ⟨q, hq⟩ := Nat.dvd_of_mod_eq_zero hmod
          have : 1 ≤ q := Nat.pos_of_ne_zero (by rintro rfl; rw [Nat.mul_zero] at hq; omega)
          rw [hq, show (k + 1) * q - (k + 1) = (k + 1) * (q - 1) by rw [Nat.mul_sub_one], Nat.mul_mod_right]
      · simp only [codePointToUtf8]
        rw [if_pos (by simpa using hsc)]; simp

/-- Memory safety: no input makes the conversion read outside the contents or write outside the buffer it
allocated; in particular the length computed by the sizing pass is never smaller than what is written. -/
theorem toUtf8String_in_bounds (tag : Byte) (data : List Byte) :
    toUtf8String tag data ≠ .error .oobRead ∧ toUtf8String tag data ≠ .error .oobWrite := by
  unfold toUtf8String
  split
  · rename_i e he
    unfold getCharSize at he
    constructor <;>
    · intro h
      simp only [Except.error.injEq] at h
      subst h
      split at he <;> (try split at he) <;> (try split at he) <;> (try split at he) <;> (try split at he) <;>
        exact absurd he (by simp)
  · rename_i k hk
    by_cases h0 : data.length = 0
    · rw [if_pos h0]; simp
    · rw [if_neg h0]
      by_cases ht : tag = 0x0C
      · rw [if_pos ht]; simp
      · rw [if_neg ht]
        have hks : (k = 1 ∨ k = 2 ∨ k = 4) ∧ data.length % k = 0 := by
          unfold getCharSize at hk
          rw [if_neg ht] at hk
          split at hk
          · simp at hk; subst hk; omega
          · split at hk
            · split at hk
              · simp at hk
              · simp at hk; subst hk; omega
            · split at hk
              · split at hk
                · simp at hk
                · simp at hk; subst hk; omega
              · simp at hk
        obtain ⟨j, rfl⟩ : ∃ j, k = j + 1 := ⟨k - 1, by omega⟩
        rw [Nat.add_sub_cancel]
        have hj : j + 1 ≤ 4 := by omega
        have hb := code_in_bounds_aux j hj data hks.2 0 data.length (Nat.le_refl _)
        unfold convertToUtf8String
        split
        · rename_i e he
          rw [he] at hb; simpa using hb
        · rename_i len o h1
          obtain ⟨cs, rfl, hc⟩ := size_pass_sound j hj data.length data (Nat.le_refl _) 0 _ h1
          rw [size_pass j cs hj hc 0 (by decide)] at h1
          by_cases hl : 0 + (Spec.utf8 cs).length < 2 ^ 32
          · rw [if_pos hl] at h1
            simp only [Except.ok.injEq, Prod.mk.injEq, Nat.zero_add] at h1
            rw [← h1.1]
            have hw := write_pass j cs hj hc 0 [] (List.replicate (Spec.utf8 cs).length 0) hl (by simp)
            simp only [List.nil_append, List.length_nil, Nat.zero_add] at hw
            rw [hw]; simp
          · rw [if_neg hl] at h1; exact absurd h1 (by simp)

/-- A UTF8String is passed through byte for byte, without a check that it is UTF-8 (see DESIGN.md). -/
theorem toUtf8String_utf8 (data : List Byte) : toUtf8String 0x0C data = .ok data := by
  unfold toUtf8String getCharSize
  rw [if_pos rfl]
  by_cases h : data.length = 0
  · simp [List.eq_nil_of_length_eq_zero h]
  · simp [h]

-- Non-vacuity: "é€" as BMPString, "😀" as UniversalString; a surrogate is refused.
example : toUtf8String 0x1E [0x00, 0xE9, 0x20, 0xAC] = .ok [0xC3, 0xA9, 0xE2, 0x82, 0xAC] := by
  refine (toUtf8String_iff 0x1E 2 (by decide) _ _).2 ⟨['é', '€'], by decide, by decide, by decide, by decide⟩
example : toUtf8String 0x1C [0x00, 0x01, 0xF6, 0x00] = .ok [0xF0, 0x9F, 0x98, 0x80] := by
  refine (toUtf8String_iff 0x1C 4 (by decide) _ _).2 ⟨['😀'], by decide, by decide, by decide, by decide⟩
example : codePointToUtf8 0xD800 none = .error .invalidCodePoint := by decide +kernel

end Verif.Bsl.Asn1.Utf8
