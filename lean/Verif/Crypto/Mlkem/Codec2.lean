import Verif.Crypto.Mlkem.Codec
import Verif.Crypto.Mlkem.Pke2
/-! Round trips of the packing functions and the byte-level operations. -/
namespace Verif.Crypto.Mlkem

theorem enc_bytes (f : Nat → Nat) (i : Nat) : encodeBits1 f i < 256 ∧ encodeBits4 f i < 256 ∧ encodeBits5 f i < 256 ∧
    encodeBits10 f i < 256 ∧ encodeBits11 f i < 256 ∧ encodeBits12 f i < 256 := by
  refine ⟨u8_lt _, u8_lt _, ?_, ?_, ?_, ?_⟩
  · unfold encodeBits5; dsimp only; split <;> exact u8_lt _
  · unfold encodeBits10; dsimp only; split <;> exact u8_lt _
  · unfold encodeBits11; dsimp only; split <;> exact u8_lt _
  · unfold encodeBits12; dsimp only; split <;> exact u8_lt _

theorem u16_of {x : Int} (h : 0 ≤ x ∧ x < 65536) : u16 x = x.toNat := by unfold u16; congr 1; omega

/-- `ByteEncode` of in-range values. -/
theorem byteEncode_spec (d : Nat) (hd : d = 1 ∨ d = 4 ∨ d = 5 ∨ d = 10 ∨ d = 11) (a : Poly)
    (ha : ∀ x, x < 256 → 0 ≤ a x ∧ a x < 2 ^ d) :
    ∃ r, byteEncode d a = some r ∧ (∀ i, r i < 256) ∧ PackedBits d (fun x => (a x).toNat) r := by
  have hp : (2 : Int) ^ d ≤ 2048 := by rcases hd with rfl | rfl | rfl | rfl | rfl <;> decide
  have hf : Fits d (fun i => u16 (a i)) := by
    intro m hm
    have := ha m hm
    show u16 (a m) < 2 ^ d
    rw [u16_of (by omega)]
    have : ((a m).toNat : Int) < ((2 ^ d : Nat) : Int) := by push_cast; omega
    exact_mod_cast this
  have hcon : ∀ r, PackedBits d (fun i => u16 (a i)) r → PackedBits d (fun x => (a x).toNat) r := by
    intro r hr idx b hi hb
    rw [hr idx b hi hb]
    have hm : (8 * idx + b) / d < 256 := by rw [Nat.div_lt_iff_lt_mul (by omega)]; omega
    have := ha _ hm
    show (u16 (a _)).testBit _ = _
    rw [u16_of (by omega)]
  rcases hd with rfl | rfl | rfl | rfl | rfl
  · exact ⟨_, rfl, fun i => (enc_bytes _ i).1, hcon _ (enc1 _ hf)⟩
  · exact ⟨_, rfl, fun i => (enc_bytes _ i).2.1, hcon _ (enc4 _ hf)⟩
  · exact ⟨_, rfl, fun i => (enc_bytes _ i).2.2.1, hcon _ (enc5 _ hf)⟩
  · exact ⟨_, rfl, fun i => (enc_bytes _ i).2.2.2.1, hcon _ (enc10 _ hf)⟩
  · exact ⟨_, rfl, fun i => (enc_bytes _ i).2.2.2.2.1, hcon _ (enc11 _ hf)⟩

/-- `ByteDecode`. -/
theorem byteDecode_spec (d : Nat) (hd : d = 1 ∨ d = 4 ∨ d = 5 ∨ d = 10 ∨ d = 11) (r : Nat → Nat)
    (hr : ∀ i, i < 32 * d → r i < 256) :
    ∃ f, byteDecode d r = some f ∧ (∀ x, 0 ≤ f x) ∧ UnpackedBits d r (fun x => (f x).toNat) := by
  rcases hd with rfl | rfl | rfl | rfl | rfl
  · exact ⟨_, rfl, fun x => Int.natCast_nonneg _, by simpa using dec1 r⟩
  · exact ⟨_, rfl, fun x => Int.natCast_nonneg _, by simpa using dec4 r hr⟩
  · exact ⟨_, rfl, fun x => Int.natCast_nonneg _, by simpa using dec5 r hr⟩
  · exact ⟨_, rfl, fun x => Int.natCast_nonneg _, by simpa using dec10 r hr⟩
  · exact ⟨_, rfl, fun x => Int.natCast_nonneg _, by simpa using dec11 r hr⟩

/-- Decoding what was encoded. -/
theorem byteDecode_byteEncode (d : Nat) (hd : d = 1 ∨ d = 4 ∨ d = 5 ∨ d = 10 ∨ d = 11) (a : Poly)
    (ha : ∀ x, x < 256 → 0 ≤ a x ∧ a x < 2 ^ d) (r r' : Nat → Nat) (hr : byteEncode d a = some r)
    (hrr : ∀ i, i < 32 * d → r' i = r i) :
    ∃ f, byteDecode d r' = some f ∧ ∀ x, x < 256 → f x = a x := by
  obtain ⟨r0, h0, h1, h2⟩ := byteEncode_spec d hd a ha
  rw [hr, Option.some.injEq] at h0
  subst h0
  obtain ⟨f, f0, f1, f2⟩ := byteDecode_spec d hd r' (fun i hi => by rw [hrr i hi]; exact h1 i)
  refine ⟨f, f0, fun x hx => ?_⟩
  have h2' : PackedBits d (fun x => (a x).toNat) r' := fun idx b hi hb => by rw [hrr idx hi]; exact h2 idx b hi hb
  have hfit : Fits d (fun x => (a x).toNat) := fun m hm => by
    have := ha m hm
    have : ((a m).toNat : Int) < ((2 ^ d : Nat) : Int) := by push_cast; omega
    exact_mod_cast this
  have := unpack_pack (by omega) hfit h2' f2 x hx
  have := ha x hx
  have := f1 x
  omega

theorem decode12Loop_eq (a : Nat → Nat) (i n : Nat) :
    decode12Loop a i n = true ↔ ∀ m, 2 * i ≤ m → m < 2 * (i + n) → decodeBits12At a m < 3329 := by
  induction n generalizing i with
  | zero => simp only [decode12Loop, true_iff]; intro m h1 h2; omega
  | succ n ih =>
    unfold decode12Loop q
    split
    · next h =>
      simp only [Bool.false_eq_true, false_iff]
      intro hall
      have h1 := hall (2 * i) (by omega) (by omega)
      have h2 := hall (2 * i + 1) (by omega) (by omega)
      omega
    · next h =>
      rw [ih]
      constructor
      · intro hall m h1 h2
        by_cases hm : m < 2 * (i + 1)
        · rcases (show m = 2 * i ∨ m = 2 * i + 1 by omega) with rfl | rfl <;> omega
        · exact hall m (by omega) (by omega)
      · intro hall m h1 h2
        exact hall m (by omega) (by omega)

/-- `DecodeBits12` accepts exactly the packings of arrays of residues below `q`. -/
theorem decodeBits12_spec (r : Nat → Nat) (hr : ∀ i, i < 384 → r i < 256) :
    (∀ f, decodeBits12 r = some f →
      (∀ x, x < 256 → 0 ≤ f x ∧ f x < 3329) ∧ PackedBits 12 (fun x => (f x).toNat) r) ∧
    (decodeBits12 r = none → ¬ ∃ f : Nat → Nat, (∀ x, x < 256 → f x < 3329) ∧ PackedBits 12 f r) := by
  have hu := dec12 r hr
  have hpk : PackedBits 12 (decodeBits12At r) r := by
    intro idx b hi hb
    have hm : (8 * idx + b) / 12 < 256 := by omega
    rw [(hu _ hm).2 _ (Nat.mod_lt _ (by decide)), Nat.div_add_mod]
    congr 1
    · congr 1; omega
    · omega
  have hl := decode12Loop_eq r 0 128
  constructor
  · intro f hf
    unfold decodeBits12 at hf
    split at hf
    · next h =>
      simp only [Option.some.injEq] at hf
      subst hf
      have := hl.mp h
      refine ⟨fun x hx => ?_, by simpa using hpk⟩
      have := this x (by omega) (by omega)
      show 0 ≤ (decodeBits12At r x : Int) ∧ (decodeBits12At r x : Int) < 3329
      omega
    · simp at hf
  · intro hn
    unfold decodeBits12 at hn
    split at hn
    · simp at hn
    · next h =>
      rintro ⟨f, h1, h2⟩
      apply h
      rw [hl]
      intro m _ hm
      have := packed_unique (by decide) (fun m hm => (hu m hm).1) (fun m hm => lt_of_lt_of_le (h1 m hm) (by decide))
        hpk h2 m (by omega)
      rw [this]
      exact h1 m (by omega)

/-- The 12-bit encoding stores the representative in `[0, q)`. -/
theorem byteEncode12_spec (a : Poly) (ha : ∀ x, x < 256 → |a x| ≤ 3328) :
    ∃ r, byteEncode 12 a = some r ∧ (∀ i, r i < 256) ∧ PackedBits 12 (fun x => (canon a x).toNat) r := by
  have hcan : ∀ x, x < 256 → u16 (addQ a x) = (canon a x).toNat := by
    intro x hx
    have h := canon_range a x (ha x hx)
    have e : addQ a x = canon a x := by
      unfold addQ canon q
      unfold canon at h
      split
      · next hn => rw [if_pos hn] at h; exact i16_id (by omega)
      · next hn => rw [if_neg hn] at h; rw [Int.add_zero]; exact i16_id (by omega)
    rw [e, u16_of (by omega)]
  have hf : Fits 12 (fun i => u16 (addQ a i)) := by
    intro m hm
    have h := canon_range a m (ha m hm)
    show u16 (addQ a m) < 4096
    rw [hcan m hm]
    omega
  refine ⟨_, rfl, fun i => (enc_bytes _ i).2.2.2.2.2, ?_⟩
  intro idx b hi hb
  rw [enc12 _ hf idx b hi hb]
  show (u16 (addQ a _)).testBit _ = _
  rw [hcan _ (by omega)]

/-- Decoding an encoded key component. -/
theorem decode_encode12 (a : Poly) (ha : ∀ x, x < 256 → |a x| ≤ 3328) (r r' : Nat → Nat) (hr : byteEncode 12 a = some r)
    (hrr : ∀ i, i < 384 → r' i = r i) :
    ∃ f, decodeBits12 r' = some f ∧ ∀ x, x < 256 → f x = canon a x := by
  obtain ⟨r0, h0, h1, h2⟩ := byteEncode12_spec a ha
  rw [hr, Option.some.injEq] at h0
  subst h0
  have h2' : PackedBits 12 (fun x => (canon a x).toNat) r' := fun idx b hi hb => by
    rw [hrr idx (by omega)]; exact h2 idx b hi hb
  obtain ⟨s1, s2⟩ := decodeBits12_spec r' (fun i hi => by rw [hrr i hi]; exact h1 i)
  have hc := fun x hx => canon_range a x (ha x hx)
  cases hd : decodeBits12 r' with
  | none =>
    refine absurd ⟨fun x => (canon a x).toNat, fun x hx => ?_, h2'⟩ (s2 hd)
    have := hc x hx
    show (canon a x).toNat < 3329
    omega
  | some f =>
    refine ⟨f, rfl, fun x hx => ?_⟩
    obtain ⟨p1, p2⟩ := s1 f hd
    have := packed_unique (by decide)
      (fun m hm => (by have := p1 m hm; omega : (f m).toNat < 2 ^ 12))
      (fun m hm => (by have := hc m hm; omega : (canon a m).toNat < 2 ^ 12)) p2 h2' x hx
    have := p1 x hx
    have := hc x hx
    omega

end Verif.Crypto.Mlkem
