import Verif.Crypto.Mlkem.CodecModel
import Mathlib.Tactic.IntervalCases
/-! Bit-level correctness of the packing functions. -/
namespace Verif.Crypto.Mlkem

/-- Array of `256` values of `d` bits. -/
def Fits (d : Nat) (f : Nat → Nat) : Prop := ∀ m, m < 256 → f m < 2 ^ d

theorem fits_bit {d : Nat} {f : Nat → Nat} (h : Fits d f) (m t : Nat) (hm : m < 256) (ht : d ≤ t) :
    (f m).testBit t = false :=
  Nat.testBit_lt_two_pow (lt_of_lt_of_le (h m hm) (Nat.pow_le_pow_right (by decide) ht))

/-- `r` is the little-endian bit packing of the `d`-bit values `f` (FIPS 203, Algorithms 3 and 5). -/
def PackedBits (d : Nat) (f r : Nat → Nat) : Prop :=
  ∀ idx b, idx < 32 * d → b < 8 → (r idx).testBit b = (f ((8 * idx + b) / d)).testBit ((8 * idx + b) % d)

/-- `f` is the array of `d`-bit values read from the bytes `r` (FIPS 203, Algorithms 4 and 6). -/
def UnpackedBits (d : Nat) (r f : Nat → Nat) : Prop :=
  ∀ m, m < 256 → f m < 2 ^ d ∧ ∀ t, t < d → (f m).testBit t = (r ((d * m + t) / 8)).testBit ((d * m + t) % 8)

theorem u8_bit (x b : Nat) : (u8 x).testBit b = (decide (b < 8) && x.testBit b) := Nat.testBit_mod_two_pow x 8 b

theorem and_lt (x n : Nat) : x &&& (2 ^ n - 1) < 2 ^ n := by
  rw [Nat.and_two_pow_sub_one_eq_mod]; exact Nat.mod_lt _ (Nat.two_pow_pos n)

theorem and_bit (x n t : Nat) (h : t < n) : (x &&& (2 ^ n - 1)).testBit t = x.testBit t := by
  rw [Nat.and_two_pow_sub_one_eq_mod, Nat.testBit_mod_two_pow]; simp [h]

theorem byte_bit {a : Nat → Nat} {N : Nat} (h : ∀ i, i < N → a i < 256) (m t : Nat) (hm : m < N) (ht : 8 ≤ t) :
    (a m).testBit t = false :=
  Nat.testBit_lt_two_pow (lt_of_lt_of_le (h m hm) (Nat.pow_le_pow_right (n := 2) (by decide) ht))

theorem enc5 (f : Nat → Nat) (h : Fits 5 f) : PackedBits 5 f (encodeBits5 f) := by
  intro idx b hi hb
  have H := fun m t hm ht => fits_bit h m t hm ht
  obtain ⟨i, r, rfl, hr⟩ : ∃ i r, idx = 5 * i + r ∧ r < 5 := ⟨idx / 5, idx % 5, by omega⟩
  have e1 : (8 * (5 * i + r) + b) / 5 = 8 * i + (8 * r + b) / 5 := by omega
  have e2 : (8 * (5 * i + r) + b) % 5 = (8 * r + b) % 5 := by omega
  rw [e1, e2]
  unfold encodeBits5
  have e3 : (5 * i + r) / 5 = i := by omega
  have e4 : (5 * i + r) % 5 = r := by omega
  rw [e3, e4]
  interval_cases r <;> simp only [u8_bit] <;> interval_cases b <;>
    simp (disch := omega) [Nat.testBit_or, Nat.testBit_shiftLeft, Nat.testBit_shiftRight, H]

theorem enc10 (f : Nat → Nat) (h : Fits 10 f) : PackedBits 10 f (encodeBits10 f) := by
  intro idx b hi hb
  have H := fun m t hm ht => fits_bit h m t hm ht
  obtain ⟨i, r, rfl, hr⟩ : ∃ i r, idx = 5 * i + r ∧ r < 5 := ⟨idx / 5, idx % 5, by omega⟩
  have e1 : (8 * (5 * i + r) + b) / 10 = 4 * i + (8 * r + b) / 10 := by omega
  have e2 : (8 * (5 * i + r) + b) % 10 = (8 * r + b) % 10 := by omega
  rw [e1, e2]
  unfold encodeBits10
  have e3 : (5 * i + r) / 5 = i := by omega
  have e4 : (5 * i + r) % 5 = r := by omega
  rw [e3, e4]
  interval_cases r <;> simp only [u8_bit] <;> interval_cases b <;>
    simp (disch := omega) [Nat.testBit_or, Nat.testBit_shiftLeft, Nat.testBit_shiftRight, H]

theorem enc11 (f : Nat → Nat) (h : Fits 11 f) : PackedBits 11 f (encodeBits11 f) := by
  intro idx b hi hb
  have H := fun m t hm ht => fits_bit h m t hm ht
  obtain ⟨i, r, rfl, hr⟩ : ∃ i r, idx = 11 * i + r ∧ r < 11 := ⟨idx / 11, idx % 11, by omega⟩
  have e1 : (8 * (11 * i + r) + b) / 11 = 8 * i + (8 * r + b) / 11 := by omega
  have e2 : (8 * (11 * i + r) + b) % 11 = (8 * r + b) % 11 := by omega
  rw [e1, e2]
  unfold encodeBits11
  have e3 : (11 * i + r) / 11 = i := by omega
  have e4 : (11 * i + r) % 11 = r := by omega
  rw [e3, e4]
  interval_cases r <;> simp only [u8_bit] <;> interval_cases b <;>
    simp (disch := omega) [Nat.testBit_or, Nat.testBit_shiftLeft, Nat.testBit_shiftRight, H]

theorem enc12 (f : Nat → Nat) (h : Fits 12 f) : PackedBits 12 f (encodeBits12 f) := by
  intro idx b hi hb
  have H := fun m t hm ht => fits_bit h m t hm ht
  obtain ⟨i, r, rfl, hr⟩ : ∃ i r, idx = 3 * i + r ∧ r < 3 := ⟨idx / 3, idx % 3, by omega⟩
  have e1 : (8 * (3 * i + r) + b) / 12 = 2 * i + (8 * r + b) / 12 := by omega
  have e2 : (8 * (3 * i + r) + b) % 12 = (8 * r + b) % 12 := by omega
  rw [e1, e2]
  unfold encodeBits12
  have e3 : (3 * i + r) / 3 = i := by omega
  have e4 : (3 * i + r) % 3 = r := by omega
  rw [e3, e4]
  interval_cases r <;> simp only [u8_bit] <;> interval_cases b <;>
    simp (disch := omega) [Nat.testBit_or, Nat.testBit_shiftLeft, Nat.testBit_shiftRight, H]

theorem dec4 (a : Nat → Nat) (h : ∀ i, i < 32 * 4 → a i < 256) : UnpackedBits 4 a (decodeBits4 a) := by
  intro m hm
  have H := fun m t hm ht => byte_bit h m t hm ht
  obtain ⟨i, r, rfl, hr⟩ : ∃ i r, m = 2 * i + r ∧ r < 2 := ⟨m / 2, m % 2, by omega⟩
  unfold decodeBits4
  have e3 : (2 * i + r) / 2 = i := by omega
  have e4 : (2 * i + r) % 2 = r := by omega
  rw [e3, e4]
  rw [show 15 = 2 ^ 4 - 1 by norm_num]
  refine ⟨by interval_cases r <;> exact and_lt _ _, ?_⟩
  intro t ht
  have e1 : (4 * (2 * i + r) + t) / 8 = 1 * i + (4 * r + t) / 8 := by omega
  have e2 : (4 * (2 * i + r) + t) % 8 = (4 * r + t) % 8 := by omega
  rw [e1, e2]
  interval_cases r <;> simp only [and_bit _ 4 t ht] <;> interval_cases t <;>
    simp (disch := omega) [Nat.testBit_or, Nat.testBit_shiftLeft, Nat.testBit_shiftRight, H]

theorem dec5 (a : Nat → Nat) (h : ∀ i, i < 32 * 5 → a i < 256) : UnpackedBits 5 a (decodeBits5 a) := by
  intro m hm
  have H := fun m t hm ht => byte_bit h m t hm ht
  obtain ⟨i, r, rfl, hr⟩ : ∃ i r, m = 8 * i + r ∧ r < 8 := ⟨m / 8, m % 8, by omega⟩
  unfold decodeBits5
  have e3 : (8 * i + r) / 8 = i := by omega
  have e4 : (8 * i + r) % 8 = r := by omega
  rw [e3, e4]
  rw [show 31 = 2 ^ 5 - 1 by norm_num]
  refine ⟨by interval_cases r <;> exact and_lt _ _, ?_⟩
  intro t ht
  have e1 : (5 * (8 * i + r) + t) / 8 = 5 * i + (5 * r + t) / 8 := by omega
  have e2 : (5 * (8 * i + r) + t) % 8 = (5 * r + t) % 8 := by omega
  rw [e1, e2]
  interval_cases r <;> simp only [and_bit _ 5 t ht] <;> interval_cases t <;>
    simp (disch := omega) [Nat.testBit_or, Nat.testBit_shiftLeft, Nat.testBit_shiftRight, H]

theorem dec10 (a : Nat → Nat) (h : ∀ i, i < 32 * 10 → a i < 256) : UnpackedBits 10 a (decodeBits10 a) := by
  intro m hm
  have H := fun m t hm ht => byte_bit h m t hm ht
  obtain ⟨i, r, rfl, hr⟩ : ∃ i r, m = 4 * i + r ∧ r < 4 := ⟨m / 4, m % 4, by omega⟩
  unfold decodeBits10
  have e3 : (4 * i + r) / 4 = i := by omega
  have e4 : (4 * i + r) % 4 = r := by omega
  rw [e3, e4]
  rw [show 1023 = 2 ^ 10 - 1 by norm_num]
  refine ⟨by interval_cases r <;> exact and_lt _ _, ?_⟩
  intro t ht
  have e1 : (10 * (4 * i + r) + t) / 8 = 5 * i + (10 * r + t) / 8 := by omega
  have e2 : (10 * (4 * i + r) + t) % 8 = (10 * r + t) % 8 := by omega
  rw [e1, e2]
  interval_cases r <;> simp only [and_bit _ 10 t ht] <;> interval_cases t <;>
    simp (disch := omega) [Nat.testBit_or, Nat.testBit_shiftLeft, Nat.testBit_shiftRight, H]

theorem dec11 (a : Nat → Nat) (h : ∀ i, i < 32 * 11 → a i < 256) : UnpackedBits 11 a (decodeBits11 a) := by
  intro m hm
  have H := fun m t hm ht => byte_bit h m t hm ht
  obtain ⟨i, r, rfl, hr⟩ : ∃ i r, m = 8 * i + r ∧ r < 8 := ⟨m / 8, m % 8, by omega⟩
  unfold decodeBits11
  have e3 : (8 * i + r) / 8 = i := by omega
  have e4 : (8 * i + r) % 8 = r := by omega
  rw [e3, e4]
  rw [show 2047 = 2 ^ 11 - 1 by norm_num]
  refine ⟨by interval_cases r <;> exact and_lt _ _, ?_⟩
  intro t ht
  have e1 : (11 * (8 * i + r) + t) / 8 = 11 * i + (11 * r + t) / 8 := by omega
  have e2 : (11 * (8 * i + r) + t) % 8 = (11 * r + t) % 8 := by omega
  rw [e1, e2]
  interval_cases r <;> simp only [and_bit _ 11 t ht] <;> interval_cases t <;>
    simp (disch := omega) [Nat.testBit_or, Nat.testBit_shiftLeft, Nat.testBit_shiftRight, H]

theorem dec12 (a : Nat → Nat) (h : ∀ i, i < 32 * 12 → a i < 256) : UnpackedBits 12 a (decodeBits12At a) := by
  intro m hm
  have H := fun m t hm ht => byte_bit h m t hm ht
  obtain ⟨i, r, rfl, hr⟩ : ∃ i r, m = 2 * i + r ∧ r < 2 := ⟨m / 2, m % 2, by omega⟩
  unfold decodeBits12At
  have e3 : (2 * i + r) / 2 = i := by omega
  have e4 : (2 * i + r) % 2 = r := by omega
  rw [e3, e4]
  rw [show 4095 = 2 ^ 12 - 1 by norm_num]
  refine ⟨by interval_cases r <;> exact and_lt _ _, ?_⟩
  intro t ht
  have e1 : (12 * (2 * i + r) + t) / 8 = 3 * i + (12 * r + t) / 8 := by omega
  have e2 : (12 * (2 * i + r) + t) % 8 = (12 * r + t) % 8 := by omega
  rw [e1, e2]
  interval_cases r <;> simp only [and_bit _ 12 t ht] <;> interval_cases t <;>
    simp (disch := omega) [Nat.testBit_or, Nat.testBit_shiftLeft, Nat.testBit_shiftRight, H]

theorem enc4 (f : Nat → Nat) (h : Fits 4 f) : PackedBits 4 f (encodeBits4 f) := by
  intro idx b hi hb
  have H := fun m t hm ht => fits_bit h m t hm ht
  have e1 : (8 * idx + b) / 4 = 2 * idx + b / 4 := by omega
  have e2 : (8 * idx + b) % 4 = b % 4 := by omega
  rw [e1, e2]
  unfold encodeBits4
  simp only [u8_bit, Nat.testBit_or, Nat.testBit_shiftLeft]
  interval_cases b <;> simp (disch := omega) [H]

theorem enc1_loop (f : Nat → Nat) (h : Fits 1 f) (i : Nat) (hi : i < 32) (n : Nat) (hn : n ≤ 7) (b : Nat) :
    (encodeBits1Loop f i n).testBit b = (decide (b ≤ n) && (f (8 * i + b)).testBit 0) := by
  induction n with
  | zero =>
    simp only [encodeBits1Loop, u8_bit]
    rcases Nat.eq_zero_or_pos b with rfl | hb
    · simp
    · rw [fits_bit h (8 * i) b (by omega) (by omega)]
      simp; omega
  | succ n ih =>
    simp only [encodeBits1Loop, u8_bit, Nat.testBit_or, Nat.testBit_shiftLeft]
    rw [ih (by omega)]
    rcases Nat.lt_trichotomy b (n + 1) with hb | rfl | hb
    · simp [show ¬ n + 1 ≤ b by omega, show b ≤ n by omega, show b ≤ n + 1 by omega, show b < 8 by omega]
    · simp [show n + 1 < 8 by omega]
    · rw [fits_bit h _ (b - (n + 1)) (by omega) (by omega)]
      simp [show ¬ b ≤ n by omega, show ¬ b ≤ n + 1 by omega]

theorem enc1 (f : Nat → Nat) (h : Fits 1 f) : PackedBits 1 f (encodeBits1 f) := by
  intro idx b hi hb
  unfold encodeBits1
  rw [enc1_loop f h idx (by omega) 7 (le_refl _) b, Nat.div_one, Nat.mod_one]
  simp [show b ≤ 7 by omega]

theorem dec1 (a : Nat → Nat) : UnpackedBits 1 a (decodeBits1 a) := by
  intro m hm
  unfold decodeBits1
  rw [show 1 = 2 ^ 1 - 1 by norm_num]
  refine ⟨and_lt _ _, fun t ht => ?_⟩
  rw [and_bit _ 1 t ht, show t = 0 by omega, Nat.testBit_shiftRight]
  simp

theorem unpack_pack {d : Nat} (hd : 0 < d) {f r g : Nat → Nat} (hf : Fits d f) (hr : PackedBits d f r)
    (hg : UnpackedBits d r g) (m : Nat) (hm : m < 256) : g m = f m := by
  obtain ⟨h1, h2⟩ := hg m hm
  apply Nat.eq_of_testBit_eq
  intro t
  by_cases ht : t < d
  · have hlt : d * m + t < d * 256 := by
      have : d * (m + 1) ≤ d * 256 := Nat.mul_le_mul_left d (by omega)
      rw [Nat.mul_add] at this
      omega
    rw [h2 t ht, hr _ _ (by omega) (Nat.mod_lt _ (by decide)), Nat.div_add_mod, Nat.mul_add_div hd,
      Nat.mul_add_mod, Nat.div_eq_of_lt ht, Nat.mod_eq_of_lt ht, Nat.add_zero]
  · rw [fits_bit hf m t hm (by omega)]
    exact Nat.testBit_lt_two_pow (lt_of_lt_of_le h1 (Nat.pow_le_pow_right (by decide) (by omega)))

theorem pack_unpack {d : Nat} (hd : 0 < d) {f r r' : Nat → Nat} (hr : ∀ i, i < 32 * d → r i < 256)
    (hr' : ∀ i, i < 32 * d → r' i < 256) (hf : UnpackedBits d r f) (hp : PackedBits d f r') (i : Nat) (hi : i < 32 * d) :
    r' i = r i := by
  apply Nat.eq_of_testBit_eq
  intro b
  by_cases hb : b < 8
  · rw [hp i b hi hb]
    have hm : (8 * i + b) / d < 256 := by
      rw [Nat.div_lt_iff_lt_mul hd]; omega
    rw [(hf _ hm).2 _ (Nat.mod_lt _ hd), Nat.div_add_mod]
    congr 1
    · congr 1; omega
    · omega
  · rw [byte_bit hr i b hi (by omega), byte_bit hr' i b hi (by omega)]

theorem packed_unique {d : Nat} {f g r : Nat → Nat} (hd : 0 < d) (hf : Fits d f) (hg : Fits d g) (h1 : PackedBits d f r)
    (h2 : PackedBits d g r) (m : Nat) (hm : m < 256) : f m = g m := by
  apply Nat.eq_of_testBit_eq
  intro t
  by_cases ht : t < d
  · have hlt : d * m + t < d * 256 := by
      have : d * (m + 1) ≤ d * 256 := Nat.mul_le_mul_left d (by omega)
      rw [Nat.mul_add] at this
      omega
    have a := h1 ((d * m + t) / 8) ((d * m + t) % 8) (by omega) (Nat.mod_lt _ (by decide))
    have b := h2 ((d * m + t) / 8) ((d * m + t) % 8) (by omega) (Nat.mod_lt _ (by decide))
    rw [Nat.div_add_mod, Nat.mul_add_div hd, Nat.mul_add_mod, Nat.div_eq_of_lt ht, Nat.mod_eq_of_lt ht,
      Nat.add_zero] at a b
    rw [← a, ← b]
  · rw [fits_bit hf m t hm (by omega), fits_bit hg m t hm (by omega)]

theorem u8_lt (x : Nat) : u8 x < 256 := Nat.mod_lt _ (by decide)

end Verif.Crypto.Mlkem
