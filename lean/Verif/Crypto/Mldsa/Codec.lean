import Verif.Crypto.Mldsa.CodecModel
import Verif.Crypto.Mlkem.Codec
/-! Bit-level correctness of the ML-DSA packing functions. -/
namespace Verif.Crypto.Mldsa
open Verif.Crypto.Mlkem (Poly i32 u32 u8 Fits PackedBits UnpackedBits fits_bit byte_bit u8_bit and_lt and_bit u8_lt
  unpack_pack pack_unpack)

theorem enc10_packed (f : Nat → Nat) (h : Fits 10 f) : PackedBits 10 f (enc10 f) := by
  intro idx b hi hb
  have H := fun m t hm ht => fits_bit h m t hm ht
  obtain ⟨i, r, rfl, hr⟩ : ∃ i r, idx = 5 * i + r ∧ r < 5 := ⟨idx / 5, idx % 5, by omega⟩
  have e1 : (8 * (5 * i + r) + b) / 10 = 4 * i + (8 * r + b) / 10 := by omega
  have e2 : (8 * (5 * i + r) + b) % 10 = (8 * r + b) % 10 := by omega
  rw [e1, e2]
  unfold enc10
  have e3 : (5 * i + r) / 5 = i := by omega
  have e4 : (5 * i + r) % 5 = r := by omega
  rw [e3, e4]
  interval_cases r <;> simp only [u8_bit, Nat.testBit_or] <;> interval_cases b <;>
    simp (disch := omega) [u8_bit, Nat.testBit_or, Nat.testBit_shiftLeft, Nat.testBit_shiftRight, H]

theorem enc6_packed (f : Nat → Nat) (h : Fits 6 f) : PackedBits 6 f (enc6 f) := by
  intro idx b hi hb
  have H := fun m t hm ht => fits_bit h m t hm ht
  obtain ⟨i, r, rfl, hr⟩ : ∃ i r, idx = 3 * i + r ∧ r < 3 := ⟨idx / 3, idx % 3, by omega⟩
  have e1 : (8 * (3 * i + r) + b) / 6 = 4 * i + (8 * r + b) / 6 := by omega
  have e2 : (8 * (3 * i + r) + b) % 6 = (8 * r + b) % 6 := by omega
  rw [e1, e2]
  unfold enc6
  have e3 : (3 * i + r) / 3 = i := by omega
  have e4 : (3 * i + r) % 3 = r := by omega
  rw [e3, e4]
  interval_cases r <;> simp only [u8_bit, Nat.testBit_or] <;> interval_cases b <;>
    simp (disch := omega) [u8_bit, Nat.testBit_or, Nat.testBit_shiftLeft, Nat.testBit_shiftRight, H]

theorem enc3_packed (f : Nat → Nat) (h : Fits 3 f) : PackedBits 3 f (enc3 f) := by
  intro idx b hi hb
  have H := fun m t hm ht => fits_bit h m t hm ht
  obtain ⟨i, r, rfl, hr⟩ : ∃ i r, idx = 3 * i + r ∧ r < 3 := ⟨idx / 3, idx % 3, by omega⟩
  have e1 : (8 * (3 * i + r) + b) / 3 = 8 * i + (8 * r + b) / 3 := by omega
  have e2 : (8 * (3 * i + r) + b) % 3 = (8 * r + b) % 3 := by omega
  rw [e1, e2]
  unfold enc3
  have e3 : (3 * i + r) / 3 = i := by omega
  have e4 : (3 * i + r) % 3 = r := by omega
  rw [e3, e4]
  interval_cases r <;> simp only [u8_bit, Nat.testBit_or] <;> interval_cases b <;>
    simp (disch := omega) [u8_bit, Nat.testBit_or, Nat.testBit_shiftLeft, Nat.testBit_shiftRight, H]

theorem enc13_packed (f : Nat → Nat) (h : Fits 13 f) : PackedBits 13 f (enc13 f) := by
  intro idx b hi hb
  have H := fun m t hm ht => fits_bit h m t hm ht
  obtain ⟨i, r, rfl, hr⟩ : ∃ i r, idx = 13 * i + r ∧ r < 13 := ⟨idx / 13, idx % 13, by omega⟩
  have e1 : (8 * (13 * i + r) + b) / 13 = 8 * i + (8 * r + b) / 13 := by omega
  have e2 : (8 * (13 * i + r) + b) % 13 = (8 * r + b) % 13 := by omega
  rw [e1, e2]
  unfold enc13
  have e3 : (13 * i + r) / 13 = i := by omega
  have e4 : (13 * i + r) % 13 = r := by omega
  rw [e3, e4]
  interval_cases r <;> simp only [u8_bit, Nat.testBit_or] <;> interval_cases b <;>
    simp (disch := omega) [u8_bit, Nat.testBit_or, Nat.testBit_shiftLeft, Nat.testBit_shiftRight, H]

theorem enc18_packed (f : Nat → Nat) (h : Fits 18 f) : PackedBits 18 f (enc18 f) := by
  intro idx b hi hb
  have H := fun m t hm ht => fits_bit h m t hm ht
  obtain ⟨i, r, rfl, hr⟩ : ∃ i r, idx = 9 * i + r ∧ r < 9 := ⟨idx / 9, idx % 9, by omega⟩
  have e1 : (8 * (9 * i + r) + b) / 18 = 4 * i + (8 * r + b) / 18 := by omega
  have e2 : (8 * (9 * i + r) + b) % 18 = (8 * r + b) % 18 := by omega
  rw [e1, e2]
  unfold enc18
  have e3 : (9 * i + r) / 9 = i := by omega
  have e4 : (9 * i + r) % 9 = r := by omega
  rw [e3, e4]
  interval_cases r <;> simp only [u8_bit, Nat.testBit_or] <;> interval_cases b <;>
    simp (disch := omega) [u8_bit, Nat.testBit_or, Nat.testBit_shiftLeft, Nat.testBit_shiftRight, H]

theorem enc20_packed (f : Nat → Nat) (h : Fits 20 f) : PackedBits 20 f (enc20 f) := by
  intro idx b hi hb
  have H := fun m t hm ht => fits_bit h m t hm ht
  obtain ⟨i, r, rfl, hr⟩ : ∃ i r, idx = 5 * i + r ∧ r < 5 := ⟨idx / 5, idx % 5, by omega⟩
  have e1 : (8 * (5 * i + r) + b) / 20 = 2 * i + (8 * r + b) / 20 := by omega
  have e2 : (8 * (5 * i + r) + b) % 20 = (8 * r + b) % 20 := by omega
  rw [e1, e2]
  unfold enc20
  have e3 : (5 * i + r) / 5 = i := by omega
  have e4 : (5 * i + r) % 5 = r := by omega
  rw [e3, e4]
  interval_cases r <;> simp only [u8_bit, Nat.testBit_or] <;> interval_cases b <;>
    simp (disch := omega) [u8_bit, Nat.testBit_or, Nat.testBit_shiftLeft, Nat.testBit_shiftRight, H]

theorem enc4_packed (f : Nat → Nat) (h : Fits 4 f) : PackedBits 4 f (enc4 f) := by
  intro i b hi hb
  have H := fun m t hm ht => fits_bit h m t hm ht
  have e1 : (8 * i + b) / 4 = 2 * i + b / 4 := by omega
  have e2 : (8 * i + b) % 4 = b % 4 := by omega
  rw [e1, e2]
  unfold enc4
  simp only [u8_bit, Nat.testBit_or]
  interval_cases b <;>
    simp (disch := omega) [u8_bit, Nat.testBit_or, Nat.testBit_shiftLeft, Nat.testBit_shiftRight, H]

theorem dec10_unpacked (a : Nat → Nat) (h : ∀ i, i < 32 * 10 → a i < 256) : UnpackedBits 10 a (dec10 a) := by
  intro m hm
  have H := fun m t hm ht => byte_bit h m t hm ht
  obtain ⟨i, r, rfl, hr⟩ : ∃ i r, m = 4 * i + r ∧ r < 4 := ⟨m / 4, m % 4, by omega⟩
  unfold dec10
  have e3 : (4 * i + r) / 4 = i := by omega
  have e4 : (4 * i + r) % 4 = r := by omega
  rw [e3, e4]
  rw [show 1023 = 2 ^ 10 - 1 by norm_num]
  refine ⟨by interval_cases r <;> exact and_lt _ _, ?_⟩
  intro t ht
  have e1 : (10 * (4 * i + r) + t) / 8 = 5 * i + (10 * r + t) / 8 := by omega
  have e2 : (10 * (4 * i + r) + t) % 8 = (10 * r + t) % 8 := by omega
  rw [e1, e2]
  interval_cases r <;> simp only [and_bit _ 10 t ht] <;> interval_cases t <;>
    simp (disch := omega) [Nat.testBit_or, Nat.testBit_shiftLeft, Nat.testBit_shiftRight, H]

theorem dec3_unpacked (a : Nat → Nat) (h : ∀ i, i < 32 * 3 → a i < 256) : UnpackedBits 3 a (dec3 a) := by
  intro m hm
  have H := fun m t hm ht => byte_bit h m t hm ht
  obtain ⟨i, r, rfl, hr⟩ : ∃ i r, m = 8 * i + r ∧ r < 8 := ⟨m / 8, m % 8, by omega⟩
  unfold dec3
  have e3 : (8 * i + r) / 8 = i := by omega
  have e4 : (8 * i + r) % 8 = r := by omega
  rw [e3, e4]
  rw [show 7 = 2 ^ 3 - 1 by norm_num]
  refine ⟨by interval_cases r <;> exact and_lt _ _, ?_⟩
  intro t ht
  have e1 : (3 * (8 * i + r) + t) / 8 = 3 * i + (3 * r + t) / 8 := by omega
  have e2 : (3 * (8 * i + r) + t) % 8 = (3 * r + t) % 8 := by omega
  rw [e1, e2]
  interval_cases r <;> simp only [and_bit _ 3 t ht] <;> interval_cases t <;>
    simp (disch := omega) [Nat.testBit_or, Nat.testBit_shiftLeft, Nat.testBit_shiftRight, H]

theorem dec4_unpacked (a : Nat → Nat) (h : ∀ i, i < 32 * 4 → a i < 256) : UnpackedBits 4 a (dec4 a) := by
  intro m hm
  have H := fun m t hm ht => byte_bit h m t hm ht
  obtain ⟨i, r, rfl, hr⟩ : ∃ i r, m = 2 * i + r ∧ r < 2 := ⟨m / 2, m % 2, by omega⟩
  unfold dec4
  have e3 : (2 * i + r) / 2 = i := by omega
  have e4 : (2 * i + r) % 2 = r := by omega
  rw [e3, e4]
  rw [show 15 = 2 ^ 4 - 1 by norm_num]
  refine ⟨by interval_cases r <;> exact and_lt _ _, ?_⟩
  intro t ht
  have e1 : (4 * (2 * i + r) + t) / 8 = 1 * i + (4 * r + t) / 8 := by omega
  have e2 : (4 * (2 * i + r) + t) % 8 = (4 * r + t) % 8 := by omega
  rw [e1, e2]
  interval_cases r <;> simp only [and_bit _ 4 t ht] <;> interval_cases t <;>
    simp (disch := omega) [Nat.testBit_or, Nat.testBit_shiftLeft, Nat.testBit_shiftRight, H]

theorem dec13_unpacked (a : Nat → Nat) (h : ∀ i, i < 32 * 13 → a i < 256) : UnpackedBits 13 a (dec13 a) := by
  intro m hm
  have H := fun m t hm ht => byte_bit h m t hm ht
  obtain ⟨i, r, rfl, hr⟩ : ∃ i r, m = 8 * i + r ∧ r < 8 := ⟨m / 8, m % 8, by omega⟩
  unfold dec13
  have e3 : (8 * i + r) / 8 = i := by omega
  have e4 : (8 * i + r) % 8 = r := by omega
  rw [e3, e4]
  rw [show 8191 = 2 ^ 13 - 1 by norm_num]
  refine ⟨by interval_cases r <;> exact and_lt _ _, ?_⟩
  intro t ht
  have e1 : (13 * (8 * i + r) + t) / 8 = 13 * i + (13 * r + t) / 8 := by omega
  have e2 : (13 * (8 * i + r) + t) % 8 = (13 * r + t) % 8 := by omega
  rw [e1, e2]
  interval_cases r <;> simp only [and_bit _ 13 t ht] <;> interval_cases t <;>
    simp (disch := omega) [Nat.testBit_or, Nat.testBit_shiftLeft, Nat.testBit_shiftRight, H]

theorem dec18_unpacked (a : Nat → Nat) (h : ∀ i, i < 32 * 18 → a i < 256) : UnpackedBits 18 a (dec18 a) := by
  intro m hm
  have H := fun m t hm ht => byte_bit h m t hm ht
  obtain ⟨i, r, rfl, hr⟩ : ∃ i r, m = 4 * i + r ∧ r < 4 := ⟨m / 4, m % 4, by omega⟩
  unfold dec18
  have e3 : (4 * i + r) / 4 = i := by omega
  have e4 : (4 * i + r) % 4 = r := by omega
  rw [e3, e4]
  rw [show 262143 = 2 ^ 18 - 1 by norm_num]
  refine ⟨by interval_cases r <;> exact and_lt _ _, ?_⟩
  intro t ht
  have e1 : (18 * (4 * i + r) + t) / 8 = 9 * i + (18 * r + t) / 8 := by omega
  have e2 : (18 * (4 * i + r) + t) % 8 = (18 * r + t) % 8 := by omega
  rw [e1, e2]
  interval_cases r <;> simp only [and_bit _ 18 t ht] <;> interval_cases t <;>
    simp (disch := omega) [Nat.testBit_or, Nat.testBit_shiftLeft, Nat.testBit_shiftRight, H]

theorem dec20_unpacked (a : Nat → Nat) (h : ∀ i, i < 32 * 20 → a i < 256) : UnpackedBits 20 a (dec20 a) := by
  intro m hm
  have H := fun m t hm ht => byte_bit h m t hm ht
  obtain ⟨i, r, rfl, hr⟩ : ∃ i r, m = 2 * i + r ∧ r < 2 := ⟨m / 2, m % 2, by omega⟩
  unfold dec20
  have e3 : (2 * i + r) / 2 = i := by omega
  have e4 : (2 * i + r) % 2 = r := by omega
  rw [e3, e4]
  rw [show 1048575 = 2 ^ 20 - 1 by norm_num]
  refine ⟨by interval_cases r <;> exact and_lt _ _, ?_⟩
  intro t ht
  have e1 : (20 * (2 * i + r) + t) / 8 = 5 * i + (20 * r + t) / 8 := by omega
  have e2 : (20 * (2 * i + r) + t) % 8 = (20 * r + t) % 8 := by omega
  rw [e1, e2]
  interval_cases r <;> simp only [and_bit _ 20 t ht] <;> interval_cases t <;>
    simp (disch := omega) [Nat.testBit_or, Nat.testBit_shiftLeft, Nat.testBit_shiftRight, H]

end Verif.Crypto.Mldsa
