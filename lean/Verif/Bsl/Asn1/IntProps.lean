import Verif.Bsl.Asn1.LenProps
/-! C11: INTEGER contents. -/
namespace Verif.Bsl.Asn1
open Verif.Common

/-- X.690 8.3.3: the integer denoted by contents octets (two's complement, big-endian). -/
def Spec.intVal (c : List Byte) : Int :=
  match c with
  | [] => 0
  | b :: l => if 128 ≤ b.toNat then (beVal (b :: l) : Int) - 256 ^ (l.length + 1) else beVal (b :: l)

/-- X.690 8.3.1 and 8.3.2: legal contents octets of an INTEGER: at least one, and the first nine bits are
neither all ones nor all zeros. -/
def Spec.Legal (c : List Byte) : Prop :=
  c ≠ [] ∧ ∀ b b' l, c = b :: b' :: l →
    ¬ (b.toNat = 0 ∧ b'.toNat < 128) ∧ ¬ (b.toNat = 255 ∧ 128 ≤ b'.toNat)

/-- The shortest non-empty big-endian byte string of a number. -/
def Spec.Shortest (m : List Byte) (n : Nat) : Prop :=
  beVal m = n ∧ m ≠ [] ∧ ∀ m', m' ≠ [] → beVal m' = n → m.length ≤ m'.length

theorem ne_zero_toNat {b : Byte} (h : b ≠ 0) : b.toNat ≠ 0 := fun h0 => h (BitVec.eq_of_toNat_eq h0)

theorem split_zeros (l : List Byte) :
    ∃ z d, l = List.replicate z 0 ++ d ∧ (d = [] ∨ ∃ b r, d = b :: r ∧ b ≠ 0) := by
  induction l with
  | nil => exact ⟨0, [], rfl, .inl rfl⟩
  | cons b l ih =>
    by_cases hb : b = 0
    · obtain ⟨z, d, h, hd⟩ := ih
      exact ⟨z + 1, d, by rw [hb, h, List.replicate_succ]; rfl, hd⟩
    · exact ⟨0, b :: l, rfl, .inr ⟨b, l, rfl, hb⟩⟩

theorem beVal_zeros (z : Nat) (d : List Byte) : beVal (List.replicate z 0 ++ d) = beVal d := by
  induction z with
  | zero => rfl
  | succ z ih => rw [List.replicate_succ, List.cons_append, beVal_cons, ih]; simp

theorem intRes_zeros (z n : Nat) (d : List Byte) (hd : d = [] ∨ ∃ b r, d = b :: r ∧ b ≠ 0) :
    intRes (List.replicate z 0 ++ d) n = n - z := by
  induction z generalizing n with
  | zero =>
    rcases hd with rfl | ⟨b, r, rfl, hb⟩
    · rfl
    · rw [List.replicate_zero, List.nil_append, intRes, if_pos hb]; rfl
  | succ z ih => rw [List.replicate_succ, List.cons_append, intRes, if_neg (by simp), ih]; omega

theorem encodeInt_zeros (z k : Nat) (d : List Byte) :
    encodeInt (List.replicate z 0 ++ d) (k + d.length) = List.replicate k 0 ++ d := by
  unfold encodeInt
  simp only [List.length_append, List.length_replicate]
  by_cases h : k + d.length < z + d.length
  · rw [if_pos h, List.drop_append, List.drop_replicate, List.length_replicate,
      show z - (z + d.length - (k + d.length)) = k by omega,
      show z + d.length - (k + d.length) - z = 0 by omega, List.drop_zero]
    apply List.take_of_length_le; simp
  · rw [if_neg h, ← List.append_assoc, List.replicate_append_replicate]
    congr 2; omega

/-- The contents octets the encoder writes for a magnitude without leading zero bytes. -/
def derOf : List Byte → List Byte
  | [] => [0]
  | b :: l => if 128 ≤ b.toNat then 0 :: b :: l else b :: l

theorem and80_ne (b : Byte) : b &&& 0x80 ≠ 0 ↔ 128 ≤ b.toNat := by
  have := and80 b
  constructor
  · intro h; exact Nat.le_of_not_lt fun hc => h (this.2 hc)
  · intro h hc; have := this.1 hc; omega

theorem encodeIntContent_zeros (z : Nat) (d : List Byte) (hd : d = [] ∨ ∃ b r, d = b :: r ∧ b ≠ 0)
    (hne : z + d.length ≠ 0) (hlen : z + d.length < 2 ^ 32 - 1) :
    encodeIntContent (List.replicate z 0 ++ d) = some (derOf d) := by
  unfold encodeIntContent contentLenOfInt
  rw [if_neg (by simp only [List.length_append, List.length_replicate]; exact hne), intRes_zeros _ _ _ hd]
  have hl : (List.replicate z (0 : Byte) ++ d).length - z = d.length := by simp
  simp only [hl]
  rcases hd with rfl | ⟨b, r, rfl, hb⟩
  · rw [if_pos (show ([] : List Byte).length = 0 from rfl)]
    have := encodeInt_zeros z 1 []
    simpa [derOf] using this
  · rw [if_neg (by simp)]
    have hz : (List.replicate z (0 : Byte) ++ b :: r).length - (b :: r).length = z := by simp
    rw [hz, List.getElem?_append_right (by simp)]
    simp only [List.length_replicate, Nat.sub_self, List.getElem?_cons_zero]
    have hlen' : (b :: r).length ≤ z + (b :: r).length := by omega
    by_cases h : 128 ≤ b.toNat
    · rw [if_pos ((and80_ne b).2 h), if_neg (by omega)]
      simp only [Option.map_some, derOf, if_pos h]
      have := encodeInt_zeros z 1 (b :: r)
      rw [Nat.add_comm 1] at this
      rw [this]; rfl
    · rw [if_neg (mt (and80_ne b).1 h)]
      simp only [Option.map_some, derOf, if_neg h]
      have := encodeInt_zeros z 0 (b :: r)
      rw [Nat.zero_add] at this
      rw [this]; rfl

theorem derOf_legal (d : List Byte) (hd : d = [] ∨ ∃ b r, d = b :: r ∧ b ≠ 0) :
    Spec.Legal (derOf d) ∧ Spec.intVal (derOf d) = beVal d := by
  rcases hd with rfl | ⟨b, r, rfl, hb⟩
  · refine ⟨⟨by simp [derOf], by simp [derOf]⟩, by decide⟩
  · have h0 := ne_zero_toNat hb
    by_cases h : 128 ≤ b.toNat
    · simp only [derOf, if_pos h]
      refine ⟨⟨by simp, ?_⟩, ?_⟩
      · intro x x' l hx
        simp only [List.cons.injEq] at hx
        obtain ⟨rfl, rfl, rfl⟩ := hx
        simp; omega
      · simp only [Spec.intVal]
        rw [if_neg (by decide), beVal_cons]; simp
    · simp only [derOf, if_neg h]
      refine ⟨⟨by simp, ?_⟩, ?_⟩
      · intro x x' l hx
        simp only [List.cons.injEq] at hx
        obtain ⟨rfl, rfl, rfl⟩ := hx
        omega
      · simp only [Spec.intVal]
        rw [if_neg h]

/-- Encoding: any non-empty unsigned big-endian number, with or without leading zero bytes, is written as
legal (DER) contents octets denoting the same number. -/
theorem encodeInt_legal (buff : List Byte) (hne : buff ≠ []) (hlen : buff.length < 2 ^ 32 - 1) :
    ∃ c, encodeIntContent buff = some c ∧ Spec.Legal c ∧ Spec.intVal c = beVal buff := by
  obtain ⟨z, d, rfl, hd⟩ := split_zeros buff
  have hz : z + d.length ≠ 0 := by
    intro h
    have h1 : z = 0 := by omega
    have h2 : d = [] := List.eq_nil_of_length_eq_zero (by omega)
    subst h1 h2; simp at hne
  refine ⟨derOf d, encodeIntContent_zeros z d hd hz (by simpa using hlen), ?_⟩
  rw [beVal_zeros]; exact derOf_legal d hd

theorem intVal_nonneg_iff (b : Byte) (l : List Byte) : 0 ≤ Spec.intVal (b :: l) ↔ b.toNat < 128 := by
  show 0 ≤ (if 128 ≤ b.toNat then (beVal (b :: l) : Int) - 256 ^ (l.length + 1) else beVal (b :: l)) ↔ _
  have h := beVal_lt (b :: l)
  rw [List.length_cons] at h
  by_cases hb : 128 ≤ b.toNat
  · rw [if_pos hb]
    have : ((beVal (b :: l) : Nat) : Int) < ((256 ^ (l.length + 1) : Nat) : Int) := by exact_mod_cast h
    rw [Int.natCast_pow] at this
    simp only [Int.cast_ofNat_Int] at this
    omega
  · rw [if_neg hb]; omega

/-- Legal contents octets of non-negative integers are unique: two legal encodings of the same number are equal.
With `encodeInt_legal` this makes the encoder's output the unique DER contents. -/
theorem legal_unique (c c' : List Byte) (h : Spec.Legal c) (h' : Spec.Legal c')
    (hv : Spec.intVal c = Spec.intVal c') (hpos : 0 ≤ Spec.intVal c) : c = c' := by
  -- the length is determined by the value
  have key : ∀ a a' : List Byte, Spec.Legal a → Spec.Legal a' → Spec.intVal a = Spec.intVal a' →
      0 ≤ Spec.intVal a → ¬ a.length < a'.length := by
    intro a a' ha ha' hv hpos hlt
    obtain ⟨hne, _⟩ := ha
    obtain ⟨hne', hl'⟩ := ha'
    have hpos' := hpos
    rw [hv] at hpos'
    cases a with
    | nil => exact hne rfl
    | cons b l =>
    cases a' with
    | nil => exact hne' rfl
    | cons b' l' =>
    cases l' with
    | nil => simp at hlt
    | cons c' l' =>
      have hb := (intVal_nonneg_iff _ _).1 hpos
      have hb' := (intVal_nonneg_iff _ _).1 hpos'
      have hx := (hl' b' c' l' rfl).1
      simp only [Spec.intVal] at hv
      rw [if_neg (by omega), if_neg (by omega)] at hv
      have hv : beVal (b :: l) = beVal (b' :: c' :: l') := by exact_mod_cast hv
      have h1 : beVal (b :: l) < 128 * 256 ^ l.length := by
        rw [beVal_cons]
        have := beVal_lt l
        have h2 : 256 ^ l.length * b.toNat ≤ 256 ^ l.length * 127 := Nat.mul_le_mul_left _ (by omega)
        omega
      have h2 : 128 * 256 ^ l'.length ≤ beVal (b' :: c' :: l') := by
        rw [beVal_cons, beVal_cons, List.length_cons, Nat.pow_succ]
        by_cases h0 : b'.toNat = 0
        · have : 256 ^ l'.length * 128 ≤ 256 ^ l'.length * c'.toNat := Nat.mul_le_mul_left _ (by omega)
          rw [h0]; omega
        · have : 256 ^ l'.length * 256 * 1 ≤ 256 ^ l'.length * 256 * b'.toNat := Nat.mul_le_mul_left _ (by omega)
          omega
      have h3 : 256 ^ l.length ≤ 256 ^ l'.length :=
        Nat.pow_le_pow_right (n := 256) (Nat.succ_pos 255) (by simp at hlt; omega)
      omega
  have hlen : c.length = c'.length := by
    have h1 := key c c' h h' hv hpos
    have h2 := key c' c h' h hv.symm (hv ▸ hpos)
    omega
  have hpos' := hpos
  rw [hv] at hpos'
  apply beVal_inj hlen
  cases c with
  | nil => exact absurd rfl h.1
  | cons b l =>
  cases c' with
  | nil => exact absurd rfl h'.1
  | cons b' l' =>
    have hb := (intVal_nonneg_iff _ _).1 hpos
    have hb' := (intVal_nonneg_iff _ _).1 hpos'
    simp only [Spec.intVal] at hv
    rw [if_neg (by omega), if_neg (by omega)] at hv
    exact_mod_cast hv

theorem stripZeros_spec (c : List Byte) (h : c ≠ []) :
    beVal (stripZeros c) = beVal c ∧ stripZeros c ≠ [] ∧
      (∀ b b' l, stripZeros c = b :: b' :: l → b ≠ 0) := by
  induction c using stripZeros.induct with
  | case1 c l ih =>
    rw [stripZeros, if_pos rfl]
    obtain ⟨h1, h2, h3⟩ := ih (by simp)
    refine ⟨?_, h2, h3⟩
    rw [h1, beVal_cons 0]; simp
  | case2 b c l hb =>
    rw [stripZeros, if_neg hb]
    refine ⟨rfl, by simp, ?_⟩
    intro x x' l' hx
    simp only [List.cons.injEq] at hx
    rw [← hx.1]; exact hb
  | case3 l hl =>
    match l, hl with
    | [], _ => exact absurd rfl h
    | [b], _ => simp [stripZeros]
    | b :: c :: l, hl => exact absurd rfl (hl b c l)

theorem shortest_of (m : List Byte) (h : m ≠ []) (h0 : ∀ b b' l, m = b :: b' :: l → b ≠ 0) :
    Spec.Shortest m (beVal m) := by
  refine ⟨rfl, h, fun m' hm' hv => ?_⟩
  apply Nat.le_of_not_lt; intro hlt
  match m, m', h0 with
  | [], _, _ => exact h rfl
  | [b], [], _ => exact hm' rfl
  | [b], b' :: l', _ => simp at hlt
  | b :: c :: l, [], _ => exact hm' rfl
  | b :: c :: l, b' :: l', h0 =>
    have hb := ne_zero_toNat (h0 b c l rfl)
    have h1 := beVal_lt (b' :: l')
    have h2 : 256 ^ (c :: l).length * 1 ≤ beVal (b :: c :: l) := by
      rw [beVal_cons]
      have : 256 ^ (c :: l).length * 1 ≤ 256 ^ (c :: l).length * b.toNat := Nat.mul_le_mul_left _ (by omega)
      omega
    have h3 : 256 ^ (b' :: l').length ≤ 256 ^ (c :: l).length :=
      Nat.pow_le_pow_right (n := 256) (Nat.succ_pos 255) (by simp at hlt ⊢; omega)
    omega

open Classical in
theorem processIntegerType_eq (b : Byte) (l : List Byte) :
    processIntegerType (b :: l) =
      if 128 ≤ b.toNat ∨ (b.toNat = 0 ∧ ∃ c l', l = c :: l' ∧ c.toNat < 128) then .error .decodeInt
      else .ok (stripZeros (b :: l)) := by
  unfold processIntegerType
  by_cases hb : 128 ≤ b.toNat
  · simp only; rw [if_pos ((and80_ne b).2 hb), if_pos (.inl hb)]
  · simp only; rw [if_neg (mt (and80_ne b).1 hb)]
    by_cases h0 : b = 0
    · subst h0
      cases l with
      | nil => rw [if_neg]; · rfl
               · simp
      | cons c l =>
        simp only [BEq.rfl]
        by_cases hc : c.toNat < 128
        · rw [if_pos ((and80 c).2 hc), if_pos]; exact .inr ⟨rfl, c, l, rfl, hc⟩
        · rw [if_neg (mt (and80 c).1 hc), if_neg]
          rintro (h | ⟨_, c', l', h, h'⟩)
          · simp at h
          · simp only [List.cons.injEq] at h; rw [← h.1] at h'; exact hc h'
    · have : (b == 0) = false := by simpa using h0
      rw [this, if_neg]
      rintro (h | ⟨h, _⟩)
      · exact hb h
      · exact ne_zero_toNat h0 h

/-- Decoding of non-empty contents: exactly the legal contents of non-negative integers are accepted, and the
bytes handed out are the shortest big-endian bytes of the integer. -/
theorem decodeInt_iff (c m : List Byte) (hne : c ≠ []) :
    decodeIntContent c = .ok m ↔
      Spec.Legal c ∧ ∃ n : Nat, Spec.intVal c = n ∧ Spec.Shortest m n := by
  cases c with
  | nil => exact absurd rfl hne
  | cons b l =>
  obtain ⟨s1, s2, s3⟩ := stripZeros_spec (b :: l) (by simp)
  unfold decodeIntContent
  rw [if_pos (by simp), processIntegerType_eq]
  constructor
  · intro h
    by_cases hc : 128 ≤ b.toNat ∨ (b.toNat = 0 ∧ ∃ c l', l = c :: l' ∧ c.toNat < 128)
    · rw [if_pos hc] at h; exact absurd h (by simp)
    · rw [if_neg hc] at h
      simp only [Except.ok.injEq] at h
      subst h
      have hb : ¬ 128 ≤ b.toNat := fun h => hc (.inl h)
      refine ⟨⟨by simp, ?_⟩, beVal (b :: l), by simp only [Spec.intVal]; rw [if_neg hb], ?_⟩
      · intro x x' l' hx
        simp only [List.cons.injEq] at hx
        obtain ⟨rfl, rfl⟩ := hx
        refine ⟨fun hh => hc (.inr ⟨hh.1, x', l', rfl, hh.2⟩), by omega⟩
      · rw [← s1]; exact shortest_of _ s2 s3
  · rintro ⟨hl, n, hn, hm⟩
    have hb := (intVal_nonneg_iff b l).1 (by omega)
    have hc : ¬ (128 ≤ b.toNat ∨ (b.toNat = 0 ∧ ∃ c l', l = c :: l' ∧ c.toNat < 128)) := by
      rintro (h | ⟨h, c, l', rfl, h'⟩)
      · omega
      · exact (hl.2 b c l' rfl).1 ⟨h, h'⟩
    rw [if_neg hc]
    congr 1
    simp only [Spec.intVal] at hn
    rw [if_neg (by omega)] at hn
    have hn : beVal (b :: l) = n := by exact_mod_cast hn
    have hs := shortest_of _ s2 s3
    rw [s1, hn] at hs
    apply beVal_inj _ (by rw [hs.1, hm.1])
    have h1 := hs.2.2 m hm.2.1 hm.1
    have h2 := hm.2.2 _ hs.2.1 hs.1
    omega

/-- Round trip: decoding what the encoder wrote returns the shortest bytes of the encoded number. -/
theorem decodeInt_encodeInt (buff : List Byte) (hne : buff ≠ []) (hlen : buff.length < 2 ^ 32 - 1) :
    ∃ c m, encodeIntContent buff = some c ∧ decodeIntContent c = .ok m ∧ Spec.Shortest m (beVal buff) := by
  obtain ⟨c, h1, h2, h3⟩ := encodeInt_legal buff hne hlen
  obtain ⟨s1, s2, s3⟩ := stripZeros_spec buff hne
  refine ⟨c, stripZeros buff, h1, (decodeInt_iff c _ h2.1).2 ⟨h2, beVal buff, h3, ?_⟩, ?_⟩ <;>
    (rw [← s1]; exact shortest_of _ s2 s3)

/-- `BSL_ASN1_EncodeLimb` hands the template encoder the big-endian bytes of the limb. -/
theorem encodeLimb_value (limb : BitVec 64) : beVal (encodeLimb limb) = limb.toNat ∧ encodeLimb limb ≠ [] ∧
    (encodeLimb limb).length ≤ 8 := by
  unfold encodeLimb
  by_cases h : limb = 0
  · rw [if_pos h, h]; decide
  · rw [if_neg h, encodeNumber_eq, beVal_beBytes]
    obtain ⟨h1, h2⟩ := octetNum_spec limb
    obtain ⟨h2, h3⟩ := h2 h
    refine ⟨Nat.mod_eq_of_lt h1, ?_, ?_⟩
    · intro hn
      have := congrArg List.length hn
      simp at this; omega
    · rw [beBytes_length]
      apply Nat.le_of_not_lt; intro hc
      have : (256 : Nat) ^ 8 ≤ 256 ^ (octetNumOfUint limb - 1) :=
        Nat.pow_le_pow_right (n := 256) (Nat.succ_pos 255) (by omega)
      rw [show (256 : Nat) ^ 8 = 18446744073709551616 from rfl] at this
      have := limb.isLt; omega

theorem parseIntLoop_spec (l : List Byte) (acc : BitVec 64) (ha : acc.toNat ≤ 2147483647) :
    parseIntLoop l acc =
      if acc.toNat * 256 ^ l.length + beVal l ≤ 2147483647
      then .ok (BitVec.ofNat 64 (acc.toNat * 256 ^ l.length + beVal l)) else .error .decodeInt := by
  induction l generalizing acc with
  | nil => simp [parseIntLoop, ha]
  | cons b l ih =>
    have e := shl_or_toNat 64 (by decide) acc b
    have hb := b.isLt
    rw [Nat.mod_eq_of_lt (by omega)] at e
    have ev : acc.toNat * 256 ^ (b :: l).length + beVal (b :: l) =
        ((acc <<< 8) ||| b.setWidth 64).toNat * 256 ^ l.length + beVal l := by
      rw [e, beVal_cons, List.length_cons, Nat.pow_succ, Nat.add_mul, Nat.mul_comm (256 ^ l.length) 256,
        Nat.mul_assoc, Nat.mul_comm b.toNat, Nat.add_assoc]
    rw [ev]
    rw [parseIntLoop]
    by_cases h : ((acc <<< 8) ||| b.setWidth 64).toNat > 2147483647
    · simp only [if_pos h]
      rw [if_neg]
      have : 1 ≤ 256 ^ l.length := Nat.one_le_pow _ _ (Nat.succ_pos 255)
      have := Nat.mul_le_mul_left ((acc <<< 8) ||| b.setWidth 64).toNat this
      omega
    · simp only [if_neg h]
      exact ih _ (by omega)

/-- `ParseInt` accepts exactly one to four octets whose value fits `int`, and returns the value. -/
theorem parseInt_iff (val : List Byte) (v : BitVec 32) :
    parseInt val = .ok v ↔ 1 ≤ val.length ∧ val.length ≤ 4 ∧ beVal val < 2 ^ 31 ∧ v.toNat = beVal val := by
  unfold parseInt
  by_cases hl : val.length < 1 ∨ val.length > 4
  · rw [if_pos hl]; simp; omega
  · rw [if_neg hl, parseIntLoop_spec val 0 (by simp)]
    rw [show (0 : BitVec 64).toNat * 256 ^ val.length + beVal val = beVal val by simp]
    by_cases h : beVal val ≤ 2147483647
    · rw [if_pos h]
      have e : ((BitVec.ofNat 64 (beVal val)).setWidth 32).toNat = beVal val := by
        rw [BitVec.toNat_setWidth, BitVec.toNat_ofNat]; omega
      simp only [Except.ok.injEq]
      constructor
      · rintro rfl; exact ⟨by omega, by omega, by omega, e⟩
      · rintro ⟨_, _, _, hv⟩; exact BitVec.eq_of_toNat_eq (by omega)
    · rw [if_neg h]; simp; omega

/-- A small number survives the whole journey limb → DER contents → decoded contents → `int`. -/
theorem limb_int_roundtrip (limb : BitVec 64) (h : limb.toNat < 2 ^ 31) :
    ∃ c m v, encodeIntContent (encodeLimb limb) = some c ∧ decodeIntContent c = .ok m ∧ parseInt m = .ok v ∧
      v.toNat = limb.toNat := by
  obtain ⟨h1, h2, h3⟩ := encodeLimb_value limb
  obtain ⟨c, m, hc, hm, hs⟩ := decodeInt_encodeInt (encodeLimb limb) h2 (by omega)
  rw [h1] at hs
  refine ⟨c, m, BitVec.ofNat 32 limb.toNat, hc, hm, (parseInt_iff _ _).2 ⟨?_, ?_, by rw [hs.1]; exact h, ?_⟩, ?_⟩
  · exact List.length_pos_iff.2 hs.2.1
  · have := hs.2.2 (beBytes 4 limb.toNat) (fun hn => by have := congrArg List.length hn; simp at this)
      (by rw [beVal_beBytes, Nat.mod_eq_of_lt]; rw [show (256 : Nat) ^ 4 = 4294967296 from rfl]; omega)
    simpa using this
  · rw [BitVec.toNat_ofNat, hs.1]; omega
  · rw [BitVec.toNat_ofNat]; omega

/-- Empty contents, which X.690 8.3.1 forbids, are accepted by the template decoder (finding F-ASN1-3 in
DESIGN.md): `hne` cannot be dropped from `decodeInt_iff`. -/
theorem decodeInt_accepts_empty : decodeIntContent [] = .ok [] ∧ ¬ Spec.Legal [] :=
  ⟨rfl, fun h => h.1 rfl⟩

-- Non-vacuity and sanity
example : encodeIntContent [0, 0, 0x80, 1] = some [0, 0x80, 1] := by decide +kernel
example : encodeIntContent [0, 0] = some [0] := by decide +kernel
example : decodeIntContent [0, 0x80, 1] = .ok [0x80, 1] := by decide +kernel
example : decodeIntContent [0, 0x7f] = .error .decodeInt := by decide +kernel
example : decodeIntContent [0xff] = .error .decodeInt := by decide +kernel
example : Spec.intVal [0xff, 0x7f] = -129 := by decide +kernel
example : ∃ n : Nat, Spec.intVal [0, 0x80, 1] = n ∧ Spec.Shortest [0x80, 1] n :=
  ((decodeInt_iff _ _ (by simp)).1 (by decide +kernel : decodeIntContent [0, 0x80, 1] = .ok [0x80, 1])).2
example : parseInt [0x7f, 0xff, 0xff, 0xff] = .ok 0x7fffffff := by decide +kernel

end Verif.Bsl.Asn1
