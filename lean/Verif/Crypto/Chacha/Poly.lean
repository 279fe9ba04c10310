import Verif.Crypto.Chacha.Proof

/-! # Poly1305: the 32-bit limb code computes the polynomial modulo `2^130 - 5` -/

namespace Verif.Crypto.Chacha

open Verif.Common

/-- The number an accumulator stands for. -/
def Acc.val (a : Acc) : Nat :=
  a.a0.toNat + 2 ^ 32 * a.a1.toNat + 2 ^ 64 * a.a2.toNat + 2 ^ 96 * a.a3.toNat + 2 ^ 128 * a.a4.toNat

theorem w_toNat (x : BitVec 32) : (w x).toNat = x.toNat := by
  have := x.isLt
  simp only [w, BitVec.toNat_setWidth]; omega

theorem lo_toNat (x : BitVec 64) : (lo x).toNat = x.toNat % 2 ^ 32 := by
  simp only [lo, BitVec.toNat_setWidth]

theorem shr32 (x : BitVec 64) : (x >>> 32).toNat = x.toNat / 2 ^ 32 := by
  rw [BitVec.toNat_ushiftRight, Nat.shiftRight_eq_div_pow]

theorem m32_toNat (x : BitVec 64) : (m32 x).toNat = x.toNat % 2 ^ 32 := by
  unfold m32
  rw [BitVec.toNat_and]
  exact Nat.and_two_pow_sub_one_eq_mod x.toNat 32

/-- Addition of 64-bit words that stay small. -/
theorem add64 (x y : BitVec 64) (h : x.toNat + y.toNat < 2 ^ 64) : (x + y).toNat = x.toNat + y.toNat := by
  rw [BitVec.toNat_add, Nat.mod_eq_of_lt h]

/-- One step `x + y` split at 32 bits. -/
theorem split32 (n : Nat) : n = n % 2 ^ 32 + 2 ^ 32 * (n / 2 ^ 32) := by omega

theorem addBlock_val (a : Acc) (m0 m1 m2 m3 pad : BitVec 32) (h4 : a.a4.toNat ≤ 4) (hp : pad.toNat ≤ 1) :
    (addBlock a m0 m1 m2 m3 pad).val = a.val + (m0.toNat + 2 ^ 32 * m1.toNat + 2 ^ 64 * m2.toNat + 2 ^ 96 * m3.toNat)
      + 2 ^ 128 * pad.toNat ∧ (addBlock a m0 m1 m2 m3 pad).a4.toNat ≤ 6 := by
  unfold addBlock
  have := a.a0.isLt; have := a.a1.isLt; have := a.a2.isLt; have := a.a3.isLt
  have := m0.isLt; have := m1.isLt; have := m2.isLt; have := m3.isLt
  generalize hb0 : w a.a0 + w m0 = b0
  have e0 : b0.toNat = a.a0.toNat + m0.toNat := by
    rw [← hb0, add64 _ _ (by rw [w_toNat, w_toNat]; omega), w_toNat, w_toNat]
  dsimp only
  generalize hb1 : w a.a1 + w m1 + b0 >>> 32 = b1
  have e1 : b1.toNat = a.a1.toNat + m1.toNat + b0.toNat / 2 ^ 32 := by
    have x : (w a.a1 + w m1).toNat = a.a1.toNat + m1.toNat := by
      rw [add64 _ _ (by rw [w_toNat, w_toNat]; omega), w_toNat, w_toNat]
    rw [← hb1, add64 _ _ (by rw [x, shr32]; omega), x, shr32]
  generalize hb2 : w a.a2 + w m2 + b1 >>> 32 = b2
  have e2 : b2.toNat = a.a2.toNat + m2.toNat + b1.toNat / 2 ^ 32 := by
    have x : (w a.a2 + w m2).toNat = a.a2.toNat + m2.toNat := by
      rw [add64 _ _ (by rw [w_toNat, w_toNat]; omega), w_toNat, w_toNat]
    rw [← hb2, add64 _ _ (by rw [x, shr32]; omega), x, shr32]
  generalize hb3 : w a.a3 + w m3 + b2 >>> 32 = b3
  have e3 : b3.toNat = a.a3.toNat + m3.toNat + b2.toNat / 2 ^ 32 := by
    have x : (w a.a3 + w m3).toNat = a.a3.toNat + m3.toNat := by
      rw [add64 _ _ (by rw [w_toNat, w_toNat]; omega), w_toNat, w_toNat]
    rw [← hb3, add64 _ _ (by rw [x, shr32]; omega), x, shr32]
  have e4 : (a.a4 + (lo (b3 >>> 32) + pad)).toNat = a.a4.toNat + (b3.toNat / 2 ^ 32 + pad.toNat) := by
    rw [BitVec.toNat_add, BitVec.toNat_add, lo_toNat, shr32]
    omega
  unfold Acc.val
  dsimp only
  rw [e4]
  simp only [lo_toNat]
  clear hb0 hb1 hb2 hb3 e4
  constructor <;> omega

/-- A 32 by 28 bit product. -/
theorem wmul (x y : BitVec 32) (hy : y.toNat < 2 ^ 28) :
    (w x * w y).toNat = x.toNat * y.toNat ∧ x.toNat * y.toNat < 2 ^ 60 := by
  have h : x.toNat * y.toNat < 2 ^ 60 := by
    have := x.isLt
    calc x.toNat * y.toNat ≤ x.toNat * 2 ^ 28 := Nat.mul_le_mul_left _ (by omega)
      _ < 2 ^ 60 := by omega
  refine ⟨?_, h⟩
  rw [BitVec.toNat_mul, w_toNat, w_toNat, Nat.mod_eq_of_lt (by omega)]

theorem five_toNat (b : BitVec 64) (h : b.toNat < 3 * 2 ^ 60) : (five b).toNat = b.toNat / 4 + b.toNat := by
  unfold five
  have e : (b >>> 2).toNat = b.toNat / 4 := by rw [BitVec.toNat_ushiftRight, Nat.shiftRight_eq_div_pow]
  rw [add64 _ _ (by rw [e]; omega), e]

/-- The clamped multiplier. -/
structure RBound (r0 r1 r2 r3 : BitVec 32) : Prop where
  h0 : r0.toNat < 2 ^ 28
  h1 : r1.toNat < 2 ^ 28
  h2 : r2.toNat < 2 ^ 28
  h3 : r3.toNat < 2 ^ 28
  d1 : 4 ∣ r1.toNat
  d2 : 4 ∣ r2.toNat
  d3 : 4 ∣ r3.toNat

/-- The multiplier as a number. -/
def rVal (r0 r1 r2 r3 : BitVec 32) : Nat :=
  r0.toNat + 2 ^ 32 * r1.toNat + 2 ^ 64 * r2.toNat + 2 ^ 96 * r3.toNat

theorem fold_val (a4 r0 : BitVec 32) (p : Prods) (h4 : a4.toNat ≤ 6) (hr : r0.toNat < 2 ^ 28)
    (h0 : p.b0.toNat < 2 ^ 60) (h1 : p.b1.toNat < 2 * 2 ^ 60) (h2 : p.b2.toNat < 3 * 2 ^ 60) (h3 : p.b3.toNat < 4 * 2 ^ 60)
    (h5 : p.b4.toNat < 3 * 2 ^ 60) (h6 : p.b5.toNat < 3 * 2 ^ 60) (h7 : p.b6.toNat < 2 * 2 ^ 60)
    (h8 : p.b7.toNat < 6 * 2 ^ 28) :
    (fold a4 r0 p).val = p.b0.toNat + 2 ^ 32 * p.b1.toNat + 2 ^ 64 * p.b2.toNat + 2 ^ 96 * p.b3.toNat +
      2 ^ 128 * (a4.toNat * r0.toNat) + ((p.b4.toNat / 4 + p.b4.toNat) + 2 ^ 32 * (p.b5.toNat / 4 + p.b5.toNat) +
        2 ^ 64 * (p.b6.toNat / 4 + p.b6.toNat) + 2 ^ 96 * (p.b7.toNat / 4 + p.b7.toNat)) ∧
    (fold a4 r0 p).a4.toNat < 3 * 2 ^ 30 := by
  have ha : a4.toNat * r0.toNat ≤ 6 * 2 ^ 28 := Nat.mul_le_mul h4 (by omega)
  have e5 := five_toNat p.b4 h5
  have e6 := five_toNat p.b5 h6
  have e7 := five_toNat p.b6 (by omega)
  have e8 := five_toNat p.b7 (by omega)
  unfold fold
  dsimp only
  generalize five p.b4 = c4 at *
  generalize five p.b5 = c5 at *
  generalize five p.b6 = c6 at *
  generalize five p.b7 = c7 at *
  have three : ∀ x y z : BitVec 64, x.toNat + y.toNat + z.toNat < 2 ^ 64 → (x + y + z).toNat = x.toNat + y.toNat + z.toNat := by
    intro x y z hh
    have : (x + y).toNat = x.toNat + y.toNat := add64 _ _ (by omega)
    rw [add64 _ _ (by omega), this]
  generalize hb0 : p.b0 + m32 c4 = b0
  have f0 : b0.toNat = p.b0.toNat + c4.toNat % 2 ^ 32 := by
    rw [← hb0, add64 _ _ (by rw [m32_toNat]; omega), m32_toNat]
  generalize hb1 : p.b1 + (b0 >>> 32 + c4 >>> 32 + m32 c5) = b1
  have f1 : b1.toNat = p.b1.toNat + (b0.toNat / 2 ^ 32 + c4.toNat / 2 ^ 32 + c5.toNat % 2 ^ 32) := by
    have x := three (b0 >>> 32) (c4 >>> 32) (m32 c5) (by rw [m32_toNat, shr32, shr32]; omega)
    rw [m32_toNat, shr32, shr32] at x
    rw [← hb1, add64 _ _ (by rw [x]; omega), x]
  generalize hb2 : p.b2 + (b1 >>> 32 + c5 >>> 32 + m32 c6) = b2
  have f2 : b2.toNat = p.b2.toNat + (b1.toNat / 2 ^ 32 + c5.toNat / 2 ^ 32 + c6.toNat % 2 ^ 32) := by
    have x := three (b1 >>> 32) (c5 >>> 32) (m32 c6) (by rw [m32_toNat, shr32, shr32]; omega)
    rw [m32_toNat, shr32, shr32] at x
    rw [← hb2, add64 _ _ (by rw [x]; omega), x]
  generalize hb3 : p.b3 + (b2 >>> 32 + c6 >>> 32 + m32 c7) = b3
  have f3 : b3.toNat = p.b3.toNat + (b2.toNat / 2 ^ 32 + c6.toNat / 2 ^ 32 + c7.toNat % 2 ^ 32) := by
    have x := three (b2 >>> 32) (c6 >>> 32) (m32 c7) (by rw [m32_toNat, shr32, shr32]; omega)
    rw [m32_toNat, shr32, shr32] at x
    rw [← hb3, add64 _ _ (by rw [x]; omega), x]
  have f4 : (a4 * r0 + lo (b3 >>> 32) + lo (c7 >>> 32)).toNat = a4.toNat * r0.toNat + b3.toNat / 2 ^ 32 + c7.toNat / 2 ^ 32 := by
    have x : (a4 * r0).toNat = a4.toNat * r0.toNat := by rw [BitVec.toNat_mul, Nat.mod_eq_of_lt (by omega)]
    rw [BitVec.toNat_add, BitVec.toNat_add, lo_toNat, lo_toNat, shr32, shr32, x]
    omega
  unfold Acc.val
  dsimp only
  rw [f4]
  simp only [lo_toNat]
  generalize a4.toNat * r0.toNat = ar at *
  clear hb0 hb1 hb2 hb3 three f4
  constructor <;> omega

theorem maskC : ∀ i : Fin 32, 2 ≤ i.val → (0xFFFFFFFC#32).getLsbD i.val = true := by decide

theorem carry_val (a : Acc) (h : a.a4.toNat < 3 * 2 ^ 30) :
    (carry a).val + Spec.P * (a.a4.toNat / 4) = a.val ∧ (carry a).a4.toNat ≤ 4 := by
  have := a.a0.isLt; have := a.a1.isLt; have := a.a2.isLt; have := a.a3.isLt
  have hand : (a.a4 &&& 0xFFFFFFFC#32).toNat = a.a4.toNat / 4 * 4 := by
    have e : a.a4 &&& 0xFFFFFFFC#32 = (a.a4 >>> 2) <<< 2 := by
      ext i hi
      simp only [BitVec.getElem_and, BitVec.getElem_shiftLeft, BitVec.getElem_ushiftRight]
      by_cases h2 : i < 2
      · have : i = 0 ∨ i = 1 := by omega
        rcases this with rfl | rfl <;> simp
      · have hc : (0xFFFFFFFC#32)[i] = true := by
          rw [← BitVec.getLsbD_eq_getElem hi]
          exact maskC ⟨i, hi⟩ (by show 2 ≤ i; omega)
        rw [hc, Bool.and_true]
        simp [h2]
        rw [show 2 + (i - 2) = i by omega, BitVec.getLsbD_eq_getElem hi]
    rw [e, BitVec.toNat_shiftLeft, BitVec.toNat_ushiftRight, Nat.shiftRight_eq_div_pow, Nat.shiftLeft_eq]
    omega
  have hlow : (a.a4 &&& 0x3#32).toNat = a.a4.toNat % 4 := by
    rw [BitVec.toNat_and]
    exact Nat.and_two_pow_sub_one_eq_mod a.a4.toNat 2
  have hf : ((a.a4 >>> 2) + (a.a4 &&& 0xFFFFFFFC#32)).toNat = a.a4.toNat / 4 * 5 := by
    rw [BitVec.toNat_add, hand, BitVec.toNat_ushiftRight, Nat.shiftRight_eq_div_pow]
    omega
  unfold carry
  dsimp only
  generalize (a.a4 >>> 2) + (a.a4 &&& 0xFFFFFFFC#32) = f at *
  generalize hb0 : w a.a0 + w f = b0
  have e0 : b0.toNat = a.a0.toNat + a.a4.toNat / 4 * 5 := by
    rw [← hb0, add64 _ _ (by rw [w_toNat, w_toNat]; omega), w_toNat, w_toNat, hf]
  generalize hb1 : w a.a1 + b0 >>> 32 = b1
  have e1 : b1.toNat = a.a1.toNat + b0.toNat / 2 ^ 32 := by
    rw [← hb1, add64 _ _ (by rw [w_toNat, shr32]; omega), w_toNat, shr32]
  generalize hb2 : w a.a2 + b1 >>> 32 = b2
  have e2 : b2.toNat = a.a2.toNat + b1.toNat / 2 ^ 32 := by
    rw [← hb2, add64 _ _ (by rw [w_toNat, shr32]; omega), w_toNat, shr32]
  generalize hb3 : w a.a3 + b2 >>> 32 = b3
  have e3 : b3.toNat = a.a3.toNat + b2.toNat / 2 ^ 32 := by
    rw [← hb3, add64 _ _ (by rw [w_toNat, shr32]; omega), w_toNat, shr32]
  have e4 : ((a.a4 &&& 0x3#32) + lo (b3 >>> 32)).toNat = a.a4.toNat % 4 + b3.toNat / 2 ^ 32 := by
    rw [BitVec.toNat_add, hlow, lo_toNat, shr32]
    omega
  unfold Acc.val Spec.P
  dsimp only
  rw [e4]
  simp only [lo_toNat]
  clear hb0 hb1 hb2 hb3 e4 hf hlow hand
  constructor <;> omega

/-- The polynomial identity behind the reduction. -/
theorem mul_reduce (a0 a1 a2 a3 a4 r0 r1 r2 r3 q4 q5 q6 q7 p : Nat) (hp : p + 5 = 2 ^ 130)
    (h4 : a1 * r3 + a2 * r2 + a3 * r1 = 4 * q4) (h5 : a2 * r3 + a3 * r2 + a4 * r1 = 4 * q5)
    (h6 : a3 * r3 + a4 * r2 = 4 * q6) (h7 : a4 * r3 = 4 * q7) :
    (a0 * r0 + 2 ^ 32 * (a0 * r1 + a1 * r0) + 2 ^ 64 * (a0 * r2 + a1 * r1 + a2 * r0) +
      2 ^ 96 * (a0 * r3 + a1 * r2 + a2 * r1 + a3 * r0) + 2 ^ 128 * (a4 * r0) +
      ((q4 + 4 * q4) + 2 ^ 32 * (q5 + 4 * q5) + 2 ^ 64 * (q6 + 4 * q6) + 2 ^ 96 * (q7 + 4 * q7))) +
      p * (q4 + 2 ^ 32 * q5 + 2 ^ 64 * q6 + 2 ^ 96 * q7) =
    (a0 + 2 ^ 32 * a1 + 2 ^ 64 * a2 + 2 ^ 96 * a3 + 2 ^ 128 * a4) * (r0 + 2 ^ 32 * r1 + 2 ^ 64 * r2 + 2 ^ 96 * r3) := by
  have e : (a0 + 2 ^ 32 * a1 + 2 ^ 64 * a2 + 2 ^ 96 * a3 + 2 ^ 128 * a4) * (r0 + 2 ^ 32 * r1 + 2 ^ 64 * r2 + 2 ^ 96 * r3) =
      (a0 * r0 + 2 ^ 32 * (a0 * r1 + a1 * r0) + 2 ^ 64 * (a0 * r2 + a1 * r1 + a2 * r0) +
      2 ^ 96 * (a0 * r3 + a1 * r2 + a2 * r1 + a3 * r0) + 2 ^ 128 * (a4 * r0)) +
      2 ^ 128 * ((a1 * r3 + a2 * r2 + a3 * r1) + 2 ^ 32 * (a2 * r3 + a3 * r2 + a4 * r1) + 2 ^ 64 * (a3 * r3 + a4 * r2) +
        2 ^ 96 * (a4 * r3)) := by ring
  rw [e, h4, h5, h6, h7]
  have hp' : (p + 5) * (q4 + 2 ^ 32 * q5 + 2 ^ 64 * q6 + 2 ^ 96 * q7) =
    2 ^ 130 * (q4 + 2 ^ 32 * q5 + 2 ^ 64 * q6 + 2 ^ 96 * q7) := by rw [hp]
  rw [Nat.add_mul] at hp'
  generalize p * (q4 + 2 ^ 32 * q5 + 2 ^ 64 * q6 + 2 ^ 96 * q7) = z at *
  omega

/-- One block: multiplication modulo `2^130 - 5`. -/
theorem mulred_val (a : Acc) (r0 r1 r2 r3 : BitVec 32) (hr : RBound r0 r1 r2 r3) (h4 : a.a4.toNat ≤ 6) :
    (carry (fold a.a4 r0 (prods a r0 r1 r2 r3))).val % Spec.P = a.val * rVal r0 r1 r2 r3 % Spec.P ∧
    (carry (fold a.a4 r0 (prods a r0 r1 r2 r3))).a4.toNat ≤ 4 := by
  have two : ∀ x y : BitVec 64, x.toNat + y.toNat < 2 ^ 64 → (x + y).toNat = x.toNat + y.toNat := add64
  have three : ∀ x y z : BitVec 64, x.toNat + y.toNat + z.toNat < 2 ^ 64 → (x + y + z).toNat = x.toNat + y.toNat + z.toNat := by
    intro x y z hh
    have : (x + y).toNat = x.toNat + y.toNat := add64 _ _ (by omega)
    rw [add64 _ _ (by omega), this]
  have four : ∀ x y z t : BitVec 64, x.toNat + y.toNat + z.toNat + t.toNat < 2 ^ 64 →
      (x + y + z + t).toNat = x.toNat + y.toNat + z.toNat + t.toNat := by
    intro x y z t hh
    have : (x + y + z).toNat = x.toNat + y.toNat + z.toNat := three _ _ _ (by omega)
    rw [add64 _ _ (by omega), this]
  obtain ⟨p00, q00⟩ := wmul a.a0 r0 hr.h0
  obtain ⟨p01, q01⟩ := wmul a.a0 r1 hr.h1
  obtain ⟨p02, q02⟩ := wmul a.a0 r2 hr.h2
  obtain ⟨p03, q03⟩ := wmul a.a0 r3 hr.h3
  obtain ⟨p10, q10⟩ := wmul a.a1 r0 hr.h0
  obtain ⟨p11, q11⟩ := wmul a.a1 r1 hr.h1
  obtain ⟨p12, q12⟩ := wmul a.a1 r2 hr.h2
  obtain ⟨p13, q13⟩ := wmul a.a1 r3 hr.h3
  obtain ⟨p20, q20⟩ := wmul a.a2 r0 hr.h0
  obtain ⟨p21, q21⟩ := wmul a.a2 r1 hr.h1
  obtain ⟨p22, q22⟩ := wmul a.a2 r2 hr.h2
  obtain ⟨p23, q23⟩ := wmul a.a2 r3 hr.h3
  obtain ⟨p30, q30⟩ := wmul a.a3 r0 hr.h0
  obtain ⟨p31, q31⟩ := wmul a.a3 r1 hr.h1
  obtain ⟨p32, q32⟩ := wmul a.a3 r2 hr.h2
  obtain ⟨p33, q33⟩ := wmul a.a3 r3 hr.h3
  obtain ⟨p41, q41⟩ := wmul a.a4 r1 hr.h1
  obtain ⟨p42, q42⟩ := wmul a.a4 r2 hr.h2
  obtain ⟨p43, q43⟩ := wmul a.a4 r3 hr.h3
  have q43' : a.a4.toNat * r3.toNat < 6 * 2 ^ 28 := by
    calc a.a4.toNat * r3.toNat ≤ 6 * r3.toNat := Nat.mul_le_mul_right _ h4
      _ < 6 * 2 ^ 28 := by have := hr.h3; omega
  have b0 : (prods a r0 r1 r2 r3).b0.toNat = a.a0.toNat * r0.toNat := p00
  have b1 : (prods a r0 r1 r2 r3).b1.toNat = a.a0.toNat * r1.toNat + a.a1.toNat * r0.toNat :=
    (two (w a.a0 * w r1) (w a.a1 * w r0) (by rw [p01, p10]; omega)).trans (by rw [p01, p10])
  have b2 : (prods a r0 r1 r2 r3).b2.toNat = a.a0.toNat * r2.toNat + a.a1.toNat * r1.toNat + a.a2.toNat * r0.toNat :=
    (three (w a.a0 * w r2) (w a.a1 * w r1) (w a.a2 * w r0) (by rw [p02, p11, p20]; omega)).trans (by rw [p02, p11, p20])
  have b3 : (prods a r0 r1 r2 r3).b3.toNat = a.a0.toNat * r3.toNat + a.a1.toNat * r2.toNat + a.a2.toNat * r1.toNat +
      a.a3.toNat * r0.toNat :=
    (four (w a.a0 * w r3) (w a.a1 * w r2) (w a.a2 * w r1) (w a.a3 * w r0) (by rw [p03, p12, p21, p30]; omega)).trans
      (by rw [p03, p12, p21, p30])
  have b4 : (prods a r0 r1 r2 r3).b4.toNat = a.a1.toNat * r3.toNat + a.a2.toNat * r2.toNat + a.a3.toNat * r1.toNat :=
    (three (w a.a1 * w r3) (w a.a2 * w r2) (w a.a3 * w r1) (by rw [p13, p22, p31]; omega)).trans (by rw [p13, p22, p31])
  have b5 : (prods a r0 r1 r2 r3).b5.toNat = a.a2.toNat * r3.toNat + a.a3.toNat * r2.toNat + a.a4.toNat * r1.toNat :=
    (three (w a.a2 * w r3) (w a.a3 * w r2) (w a.a4 * w r1) (by rw [p23, p32, p41]; omega)).trans (by rw [p23, p32, p41])
  have b6 : (prods a r0 r1 r2 r3).b6.toNat = a.a3.toNat * r3.toNat + a.a4.toNat * r2.toNat :=
    (two (w a.a3 * w r3) (w a.a4 * w r2) (by rw [p33, p42]; omega)).trans (by rw [p33, p42])
  have b7 : (prods a r0 r1 r2 r3).b7.toNat = a.a4.toNat * r3.toNat := p43
  obtain ⟨f1, f2⟩ := fold_val a.a4 r0 (prods a r0 r1 r2 r3) h4 hr.h0 (by omega) (by omega) (by omega) (by omega) (by omega)
    (by omega) (by omega) (by omega)
  obtain ⟨c1, c2⟩ := carry_val _ f2
  refine ⟨?_, c2⟩
  obtain ⟨s1, t1⟩ := hr.d1
  obtain ⟨s2, t2⟩ := hr.d2
  obtain ⟨s3, t3⟩ := hr.d3
  have mr := mul_reduce a.a0.toNat a.a1.toNat a.a2.toNat a.a3.toNat a.a4.toNat r0.toNat r1.toNat r2.toNat r3.toNat
    (a.a1.toNat * s3 + a.a2.toNat * s2 + a.a3.toNat * s1) (a.a2.toNat * s3 + a.a3.toNat * s2 + a.a4.toNat * s1)
    (a.a3.toNat * s3 + a.a4.toNat * s2) (a.a4.toNat * s3) Spec.P (by decide)
    (by rw [t1, t2, t3]; ring) (by rw [t1, t2, t3]; ring) (by rw [t2, t3]; ring) (by rw [t3]; ring)
  have g4 : (prods a r0 r1 r2 r3).b4.toNat = 4 * (a.a1.toNat * s3 + a.a2.toNat * s2 + a.a3.toNat * s1) := by
    rw [b4, t1, t2, t3]; ring
  have g5 : (prods a r0 r1 r2 r3).b5.toNat = 4 * (a.a2.toNat * s3 + a.a3.toNat * s2 + a.a4.toNat * s1) := by
    rw [b5, t1, t2, t3]; ring
  have g6 : (prods a r0 r1 r2 r3).b6.toNat = 4 * (a.a3.toNat * s3 + a.a4.toNat * s2) := by rw [b6, t2, t3]; ring
  have g7 : (prods a r0 r1 r2 r3).b7.toNat = 4 * (a.a4.toNat * s3) := by rw [b7, t3]; ring
  rw [g4, g5, g6, g7, b0, b1, b2, b3] at f1
  simp only [Nat.mul_div_cancel_left _ (show 0 < 4 by decide)] at f1
  have fin : (fold a.a4 r0 (prods a r0 r1 r2 r3)).val + Spec.P * ((a.a1.toNat * s3 + a.a2.toNat * s2 + a.a3.toNat * s1) +
      2 ^ 32 * (a.a2.toNat * s3 + a.a3.toNat * s2 + a.a4.toNat * s1) + 2 ^ 64 * (a.a3.toNat * s3 + a.a4.toNat * s2) +
      2 ^ 96 * (a.a4.toNat * s3)) = a.val * rVal r0 r1 r2 r3 := by
    rw [f1]
    exact mr
  rw [← fin, ← c1]
  simp only [Nat.add_mul_mod_self_left]

/-! ## The message -/

theorem getLe_toNat (d : List Byte) (i : Nat) : (getLe d i).toNat = leVal ((d.drop i).take 4) := by
  unfold getLe
  have h : leVal ((d.drop i).take 4) < 2 ^ 32 := by
    have h1 := leVal_lt ((d.drop i).take 4)
    have h2 : ((d.drop i).take 4).length ≤ 4 := by rw [List.length_take]; omega
    calc _ < 256 ^ ((d.drop i).take 4).length := h1
      _ ≤ 256 ^ 4 := Nat.pow_le_pow_right (by decide) h2
  rw [BitVec.toNat_ofNat, Nat.mod_eq_of_lt h]

/-- Four words of 16 bytes. -/
theorem leVal16 (d : List Byte) (h : d.length = 16) : leVal d = (getLe d 0).toNat + 2 ^ 32 * (getLe d 4).toNat +
    2 ^ 64 * (getLe d 8).toNat + 2 ^ 96 * (getLe d 12).toNat := by
  rw [getLe_toNat, getLe_toNat, getLe_toNat, getLe_toNat]
  have e : d = d.take 4 ++ ((d.drop 4).take 4 ++ ((d.drop 8).take 4 ++ (d.drop 12).take 4)) := by
    rw [List.take_of_length_le (l := d.drop 12) (by rw [List.length_drop]; omega)]
    have h3 : (d.drop 8).take 4 ++ d.drop 12 = d.drop 8 := by
      have := List.take_append_drop 4 (d.drop 8)
      rwa [List.drop_drop] at this
    have h2 : (d.drop 4).take 4 ++ d.drop 8 = d.drop 4 := by
      have := List.take_append_drop 4 (d.drop 4)
      rwa [List.drop_drop] at this
    rw [h3, h2, List.take_append_drop]
  have hl : ∀ i, i + 4 ≤ 16 → ((d.drop i).take 4).length = 4 := by
    intro i hi
    rw [List.length_take, List.length_drop]; omega
  have hl0 : (d.take 4).length = 4 := by rw [List.length_take]; omega
  conv_lhs => rw [e]
  rw [leVal_append, leVal_append, leVal_append, hl 4 (by decide), hl 8 (by decide), hl0, List.drop_zero]
  norm_num
  ring

theorem blockStep_val (a : Acc) (r0 r1 r2 r3 : BitVec 32) (hr : RBound r0 r1 r2 r3) (h4 : a.a4.toNat ≤ 4) (d : List Byte)
    (hd : d.length = 16) (pad : BitVec 32) (hp : pad.toNat ≤ 1) :
    (blockStep a r0 r1 r2 r3 d pad).val % Spec.P =
      (a.val + (leVal d + 2 ^ 128 * pad.toNat)) * rVal r0 r1 r2 r3 % Spec.P ∧
    (blockStep a r0 r1 r2 r3 d pad).a4.toNat ≤ 4 := by
  obtain ⟨h1, h2⟩ := addBlock_val a (getLe d 0) (getLe d 4) (getLe d 8) (getLe d 12) pad h4 hp
  obtain ⟨h3, h5⟩ := mulred_val _ r0 r1 r2 r3 hr h2
  refine ⟨?_, h5⟩
  show (carry _).val % _ = _
  rw [h3, h1, leVal16 d hd, Nat.add_assoc]

theorem modmul (a b r p : Nat) : (a + b) * r % p = (a % p + b) * r % p := by
  rw [Nat.mul_mod, ← Nat.mod_add_mod, ← Nat.mul_mod]

theorem polyAcc_nil (r acc : Nat) : Spec.polyAcc r acc [] = acc := by rw [Spec.polyAcc]; rfl

theorem polyAcc_step (r acc : Nat) (m : List Byte) (h : m ≠ []) :
    Spec.polyAcc r acc m = Spec.polyAcc r ((acc + leVal (m.take 16 ++ [1#8])) * r % Spec.P) (m.drop 16) := by
  rw [Spec.polyAcc]; rw [if_neg h]

theorem polyAcc_append (r : Nat) (k : Nat) : ∀ (acc : Nat) (a b : List Byte), a.length = 16 * k →
    Spec.polyAcc r acc (a ++ b) = Spec.polyAcc r (Spec.polyAcc r acc a) b := by
  induction k with
  | zero =>
    intro acc a b h
    have : a = [] := List.length_eq_zero_iff.mp (by omega)
    subst this
    rw [polyAcc_nil]; rfl
  | succ k ih =>
    intro acc a b h
    have ha : a ≠ [] := by intro e; rw [e] at h; simp at h
    rw [polyAcc_step r acc (a ++ b) (by simp [ha]), polyAcc_step r acc a ha,
      List.take_append_of_le_length (by omega), List.drop_append_of_le_length (by omega),
      ih _ _ _ (by rw [List.length_drop]; omega)]

theorem leVal_one (d : List Byte) : leVal (d ++ [1#8]) = leVal d + 256 ^ d.length := by
  rw [leVal_append]
  show _ + _ * (1 + 256 * 0) = _
  omega

theorem polyAcc_lt (r : Nat) (k : Nat) : ∀ (acc : Nat) (a : List Byte), a.length ≤ k → acc < Spec.P →
    Spec.polyAcc r acc a < Spec.P := by
  induction k with
  | zero =>
    intro acc a h ha
    have : a = [] := List.length_eq_zero_iff.mp (by omega)
    subst this
    rwa [polyAcc_nil]
  | succ k ih =>
    intro acc a h ha
    by_cases h0 : a = []
    · subst h0; rwa [polyAcc_nil]
    · rw [polyAcc_step r acc a h0]
      exact ih _ _ (by rw [List.length_drop]; omega) (Nat.mod_lt _ (by decide))

theorem blockLoop_spec (r0 r1 r2 r3 : BitVec 32) (hr : RBound r0 r1 r2 r3) (k : Nat) :
    ∀ (a : Acc) (d : List Byte) (acc : Nat), a.a4.toNat ≤ 4 → d.length = 16 * k → a.val % Spec.P = acc →
      (blockLoop r0 r1 r2 r3 1#32 k a d).val % Spec.P = Spec.polyAcc (rVal r0 r1 r2 r3) acc d ∧
      (blockLoop r0 r1 r2 r3 1#32 k a d).a4.toNat ≤ 4 := by
  induction k with
  | zero =>
    intro a d acc h4 hd hv
    have : d = [] := List.length_eq_zero_iff.mp (by omega)
    subst this
    rw [polyAcc_nil]
    exact ⟨hv, h4⟩
  | succ k ih =>
    intro a d acc h4 hd hv
    have hn : d ≠ [] := by intro e; rw [e] at hd; simp at hd
    have ht : (d.take 16).length = 16 := by rw [List.length_take]; omega
    obtain ⟨b1, b2⟩ := blockStep_val a r0 r1 r2 r3 hr h4 (d.take 16) ht 1#32 (by decide)
    have := ih (blockStep a r0 r1 r2 r3 (d.take 16) 1#32) (d.drop 16)
      ((acc + leVal (d.take 16 ++ [1#8])) * rVal r0 r1 r2 r3 % Spec.P) b2 (by rw [List.length_drop]; omega) (by
        rw [b1, leVal_one, ht, ← hv]
        show (_ + (_ + 2 ^ 128 * 1)) * _ % _ = _
        exact modmul _ _ _ _)
    rw [polyAcc_step _ _ _ hn]
    exact this

/-- The state of the authenticator after `msg`. -/
structure PInv (key msg : List Byte) (p : Poly) : Prop where
  hr : RBound p.r0 p.r1 p.r2 p.r3
  rv : rVal p.r0 p.r1 p.r2 p.r3 = leVal (key.take 16) &&& 0x0ffffffc0ffffffc0ffffffc0fffffff
  sv : rVal p.s0 p.s1 p.s2 p.s3 = leVal (key.drop 16)
  a4 : p.a4.toNat ≤ 4
  acc : (Acc.mk p.a0 p.a1 p.a2 p.a3 p.a4).val % Spec.P =
    Spec.polyAcc (rVal p.r0 p.r1 p.r2 p.r3) 0 (msg.take (msg.length / 16 * 16))
  ll : p.lastLen = msg.length % 16
  la : p.last.length = 16
  lb : p.last.take p.lastLen = msg.drop (msg.length / 16 * 16)

theorem and_split (a b c d k : Nat) (ha : a < 2 ^ k) (hc : c < 2 ^ k) :
    (a + 2 ^ k * b) &&& (c + 2 ^ k * d) = (a &&& c) + 2 ^ k * (b &&& d) := by
  apply Nat.eq_of_testBit_eq
  intro i
  have hac : a &&& c < 2 ^ k := Nat.lt_of_le_of_lt Nat.and_le_left ha
  rw [Nat.testBit_and, Nat.add_comm a, Nat.add_comm c, Nat.add_comm (a &&& c), Nat.testBit_two_pow_mul_add _ ha,
    Nat.testBit_two_pow_mul_add _ hc, Nat.testBit_two_pow_mul_add _ hac]
  split <;> simp [Nat.testBit_and]

theorem clamp_and (w0 w1 w2 w3 : Nat) (h0 : w0 < 2 ^ 32) (h1 : w1 < 2 ^ 32) (h2 : w2 < 2 ^ 32) (h3 : w3 < 2 ^ 32) :
    (w0 + 2 ^ 32 * w1 + 2 ^ 64 * w2 + 2 ^ 96 * w3) &&& 0x0ffffffc0ffffffc0ffffffc0fffffff =
    (w0 &&& 0x0fffffff) + 2 ^ 32 * (w1 &&& 0x0ffffffc) + 2 ^ 64 * (w2 &&& 0x0ffffffc) + 2 ^ 96 * (w3 &&& 0x0ffffffc) := by
  have a1 := and_split w0 (w1 + 2 ^ 32 * (w2 + 2 ^ 32 * w3)) 0x0fffffff
    (0x0ffffffc + 2 ^ 32 * (0x0ffffffc + 2 ^ 32 * 0x0ffffffc)) 32 h0 (by decide)
  have a2 := and_split w1 (w2 + 2 ^ 32 * w3) 0x0ffffffc (0x0ffffffc + 2 ^ 32 * 0x0ffffffc) 32 h1 (by decide)
  have a3 := and_split w2 w3 0x0ffffffc 0x0ffffffc 32 h2 (by decide)
  rw [a2, a3] at a1
  have e : w0 + 2 ^ 32 * w1 + 2 ^ 64 * w2 + 2 ^ 96 * w3 = w0 + 2 ^ 32 * (w1 + 2 ^ 32 * (w2 + 2 ^ 32 * w3)) := by ring
  rw [e]
  refine Eq.trans ?_ (a1.trans (by ring))
  rfl

theorem maskA (x : BitVec 32) : (x &&& 0x0FFFFFFF#32).toNat < 2 ^ 28 := by
  rw [BitVec.toNat_and]
  exact Nat.lt_of_le_of_lt Nat.and_le_right (by decide)

theorem maskB (x : BitVec 32) : (x &&& 0x0FFFFFFC#32).toNat < 2 ^ 28 ∧ 4 ∣ (x &&& 0x0FFFFFFC#32).toNat := by
  rw [BitVec.toNat_and]
  refine ⟨Nat.lt_of_le_of_lt Nat.and_le_right (by decide), ?_⟩
  show 4 ∣ x.toNat &&& (2 ^ 2 * 0x3FFFFFF)
  have := and_split (x.toNat % 4) (x.toNat / 4) 0 0x3FFFFFF 2 (by omega) (by decide)
  rw [show x.toNat % 4 + 2 ^ 2 * (x.toNat / 4) = x.toNat by omega, Nat.zero_add, Nat.and_zero, Nat.zero_add] at this
  rw [this]
  exact ⟨_, rfl⟩

theorem getLe_take (d : List Byte) (i n : Nat) (h : i + 4 ≤ n) : getLe (d.take n) i = getLe d i := by
  unfold getLe
  rw [List.drop_take, List.take_take, Nat.min_eq_left (by omega)]

theorem getLe_drop (d : List Byte) (i n : Nat) : getLe (d.drop n) i = getLe d (n + i) := by
  unfold getLe
  rw [List.drop_drop]

theorem polySetKey_inv (key : List Byte) (hk : key.length = 32) : PInv key [] (polySetKey key) where
  hr := ⟨maskA _, (maskB _).1, (maskB _).1, (maskB _).1, (maskB _).2, (maskB _).2, (maskB _).2⟩
  rv := by
    have h := leVal16 (key.take 16) (by rw [List.length_take]; omega)
    rw [getLe_take _ _ _ (by decide), getLe_take _ _ _ (by decide), getLe_take _ _ _ (by decide),
      getLe_take _ _ _ (by decide)] at h
    rw [h, clamp_and _ _ _ _ (getLe key 0).isLt (getLe key 4).isLt (getLe key 8).isLt (getLe key 12).isLt]
    unfold rVal polySetKey
    dsimp only
    rw [BitVec.toNat_and, BitVec.toNat_and, BitVec.toNat_and, BitVec.toNat_and]
    rfl
  sv := by
    have h := leVal16 (key.drop 16) (by rw [List.length_drop]; omega)
    rw [getLe_drop, getLe_drop, getLe_drop, getLe_drop] at h
    rw [h]; rfl
  a4 := by show (0#32).toNat ≤ 4; decide
  acc := by rw [show ([] : List Byte).take _ = [] from rfl, polyAcc_nil]; rfl
  ll := rfl
  la := rfl
  lb := rfl

/-- Absorbing whole blocks at a block boundary. -/
theorem polyBlock_inv (key msg d : List Byte) (p : Poly) (k : Nat) (h : PInv key msg p) (hm : msg.length % 16 = 0)
    (hd : d.length = 16 * k) (last : List Byte) (hl : last.length = 16) :
    PInv key (msg ++ d) (polyBlock { p with last := last, lastLen := 0 } d 1#32) := by
  obtain ⟨b1, b2⟩ := blockLoop_spec p.r0 p.r1 p.r2 p.r3 h.hr k ⟨p.a0, p.a1, p.a2, p.a3, p.a4⟩ d _ h.a4 hd h.acc
  have hq : d.length / 16 = k := by omega
  refine ⟨h.hr, h.rv, h.sv, ?_, ?_, ?_, hl, ?_⟩
  · show (blockLoop p.r0 p.r1 p.r2 p.r3 1#32 (d.length / 16) ⟨p.a0, p.a1, p.a2, p.a3, p.a4⟩ d).a4.toNat ≤ 4
    rw [hq]; exact b2
  · show (blockLoop p.r0 p.r1 p.r2 p.r3 1#32 (d.length / 16) ⟨p.a0, p.a1, p.a2, p.a3, p.a4⟩ d).val % _ = _
    rw [hq, b1, List.take_of_length_le (by omega), List.take_of_length_le (by rw [List.length_append]; omega)]
    exact (polyAcc_append _ (msg.length / 16) 0 msg d (by omega)).symm
  · show 0 = _
    rw [List.length_append]; omega
  · show List.take 0 _ = _
    rw [List.drop_eq_nil_of_le (by rw [List.length_append]; omega)]; rfl

theorem put_eq (dst src : List Byte) (off : Nat) (h : off + src.length ≤ dst.length) :
    ∃ r, put dst off src = some r ∧ r.length = dst.length ∧ r.take (off + src.length) = dst.take off ++ src := by
  unfold put
  rw [if_pos h]
  refine ⟨_, rfl, ?_, ?_⟩
  · rw [List.length_append, List.length_append, List.length_take, List.length_drop]; omega
  · have : (dst.take off ++ src).length = off + src.length := by rw [List.length_append, List.length_take]; omega
    rw [← this, List.take_left']
    rfl

theorem and_f0 (n : Nat) (h : n < 2 ^ 32) : n &&& 0xfffffff0 = n / 16 * 16 := by
  have := and_split (n % 16) (n / 16) 0 (2 ^ 28 - 1) 4 (by omega) (by decide)
  rw [show n % 16 + 2 ^ 4 * (n / 16) = n by omega, Nat.and_two_pow_sub_one_eq_mod] at this
  have e : 0 + 2 ^ 4 * (2 ^ 28 - 1) = 0xfffffff0 := by decide
  rw [e, Nat.and_zero] at this
  omega

theorem and_0f (n : Nat) : n &&& 0x0f = n % 16 := Nat.and_two_pow_sub_one_eq_mod n 4

theorem polyTail_inv (key msg d : List Byte) (p : Poly) (hl : p.last.length = 16) (h : PInv key msg { p with lastLen := 0 })
    (hd : d.length < 2 ^ 32) : ∃ p', polyTail p d = some p' ∧ PInv key (msg ++ d) p' := by
  have hm : msg.length % 16 = 0 := h.ll.symm
  unfold polyTail
  rw [and_f0 _ hd, and_0f]
  dsimp only
  -- after the whole blocks
  have key1 : ∃ p1, (if d.length ≥ 16 then polyBlock p (d.take (d.length / 16 * 16)) 1#32 else p) = p1 ∧
      PInv key (msg ++ d.take (d.length / 16 * 16)) { p1 with lastLen := 0 } ∧ p1.last = p.last := by
    refine ⟨_, rfl, ?_, ?_⟩
    · split
      · exact polyBlock_inv key msg (d.take (d.length / 16 * 16)) { p with lastLen := 0 } (d.length / 16) h hm
          (by rw [List.length_take]; omega) p.last hl
      · rw [show d.length / 16 = 0 by omega, Nat.zero_mul, List.take_zero, List.append_nil]
        exact h
    · split <;> rfl
  obtain ⟨p1, e1, h1, hl1⟩ := key1
  rw [e1]
  have hsl : (d.drop (d.length - d.length % 16)).length = d.length % 16 := by rw [List.length_drop]; omega
  obtain ⟨r, er, rl, rt⟩ := put_eq p1.last (d.drop (d.length - d.length % 16)) 0 (by rw [hsl, hl1, hl]; omega)
  rw [er]
  refine ⟨_, rfl, ⟨h1.hr, h1.rv, h1.sv, h1.a4, ?_, ?_, ?_, ?_⟩⟩
  · have ha := h1.acc
    have e2 : (msg ++ d.take (d.length / 16 * 16)).length = (msg ++ d).length / 16 * 16 := by
      rw [List.length_append, List.length_append, List.length_take]; omega
    rw [List.take_of_length_le (l := msg ++ d.take _) (by rw [e2]; omega)] at ha
    refine ha.trans ?_
    congr 1
    rw [← e2]
    have e3 : msg ++ d = (msg ++ d.take (d.length / 16 * 16)) ++ d.drop (d.length / 16 * 16) := by
      rw [List.append_assoc, List.take_append_drop]
    conv_rhs => rw [e3]
    rw [List.take_left']; rfl
  · show d.length % 16 = _
    rw [List.length_append]; omega
  · show r.length = 16
    rw [rl, hl1, hl]
  · show r.take (d.length % 16) = _
    rw [hsl, Nat.zero_add, List.take_zero, List.nil_append] at rt
    have e5 : (msg ++ d).length / 16 * 16 = msg.length + (d.length - d.length % 16) := by rw [List.length_append]; omega
    rw [rt, e5, List.drop_append, List.drop_eq_nil_of_le (as := msg) (by omega), List.nil_append, Nat.add_sub_cancel_left]

/-- `Poly1305Update` absorbs. -/
theorem polyUpdate_inv (key msg d : List Byte) (p : Poly) (h : PInv key msg p) (hd : d.length < 2 ^ 32) :
    ∃ p', polyUpdate p d = some p' ∧ PInv key (msg ++ d) p' := by
  have hll := h.ll
  unfold polyUpdate
  by_cases h0 : p.lastLen ≠ 0
  · rw [if_pos h0]
    dsimp only
    generalize he : (if d.length + p.lastLen > 16 then 16 else d.length + p.lastLen) = e
    have hle : e = min 16 (d.length + p.lastLen) := by rw [← he]; split <;> omega
    have htk : (d.take (e - p.lastLen)).length = e - p.lastLen := by rw [List.length_take]; omega
    obtain ⟨l, el, ll, lt⟩ := put_eq p.last (d.take (e - p.lastLen)) p.lastLen (by rw [htk, h.la]; omega)
    rw [htk, show p.lastLen + (e - p.lastLen) = e by omega, h.lb] at lt
    rw [el]
    dsimp only
    by_cases h16 : e = 16
    · rw [if_pos h16]
      -- the block completed
      have hml : l = msg.drop (msg.length / 16 * 16) ++ d.take (16 - p.lastLen) := by
        rw [h16, List.take_of_length_le (by rw [ll, h.la])] at lt
        exact lt
      have hp0 : PInv key (msg.take (msg.length / 16 * 16)) { p with lastLen := 0 } := by
        have hl2 : (msg.take (msg.length / 16 * 16)).length = msg.length / 16 * 16 := by rw [List.length_take]; omega
        refine ⟨h.hr, h.rv, h.sv, h.a4, ?_, ?_, h.la, ?_⟩
        · refine h.acc.trans ?_
          rw [hl2, List.take_of_length_le (l := msg.take _) (by rw [hl2]; omega)]
        · show 0 = _
          rw [hl2]; omega
        · show List.take 0 _ = _
          rw [List.drop_eq_nil_of_le (by rw [hl2]; omega)]; rfl
      have hb := polyBlock_inv key _ l { p with lastLen := 0 } 1 hp0 (by rw [List.length_take]; omega)
        (by rw [ll, h.la]) l (by rw [ll, h.la])
      have em : msg.take (msg.length / 16 * 16) ++ l = msg ++ d.take (16 - p.lastLen) := by
        rw [hml, ← List.append_assoc, List.take_append_drop]
      rw [em] at hb
      obtain ⟨p', e', i'⟩ := polyTail_inv key (msg ++ d.take (16 - p.lastLen)) (d.drop (e - p.lastLen))
        (polyBlock { p with last := l } l 1#32) (by show l.length = 16; rw [ll, h.la]) hb (by rw [List.length_drop]; omega)
      rw [h16] at i' e' ⊢
      rw [List.append_assoc, List.take_append_drop] at i'
      exact ⟨p', e', i'⟩
    · rw [if_neg h16]
      have hde : d.take (e - p.lastLen) = d := List.take_of_length_le (by omega)
      refine ⟨_, rfl, ⟨h.hr, h.rv, h.sv, h.a4, ?_, ?_, ?_, ?_⟩⟩
      · refine h.acc.trans ?_
        have e1 : (msg ++ d).length / 16 * 16 = msg.length / 16 * 16 := by rw [List.length_append]; omega
        rw [e1, List.take_append_of_le_length (by omega)]
      · show e = _
        rw [List.length_append]; omega
      · show l.length = 16
        rw [ll, h.la]
      · show l.take e = _
        have e1 : (msg ++ d).length / 16 * 16 = msg.length / 16 * 16 := by rw [List.length_append]; omega
        rw [lt, hde, e1, List.drop_append_of_le_length (by omega)]
  · rw [if_neg h0]
    have hz : p.lastLen = 0 := by omega
    exact polyTail_inv key msg d p h.la (by rw [← hz]; exact h) hd

theorem leBytes_append (a b : Nat) : ∀ (x : Nat), leBytes (a + b) x = leBytes a x ++ leBytes b (x / 256 ^ a) := by
  induction a with
  | zero => intro x; simp [leBytes]
  | succ a ih =>
    intro x
    rw [show a + 1 + b = (a + b) + 1 by omega]
    show _ :: leBytes (a + b) (x / 256) = (_ :: leBytes a (x / 256)) ++ _
    rw [ih, Nat.div_div_eq_div_mul, ← Nat.pow_succ']
    rfl

theorem leBytes_mod (k : Nat) : ∀ (x : Nat), leBytes k (x % 256 ^ k) = leBytes k x := by
  intro x
  apply leVal_inj
  · rw [leBytes_length, leBytes_length]
  · rw [leVal_leBytes, leVal_leBytes, Nat.mod_mod]

/-- Adding `s` in 32-bit pieces. -/
theorem add_s (V f0 f1 f2 f3 s0 s1 s2 s3 d0 d1 d2 d3 : Nat)
    (hsel : f0 + 2 ^ 32 * f1 + 2 ^ 64 * f2 + 2 ^ 96 * f3 = V % 2 ^ 128) (g0 : d0 = s0 + f0)
    (g1 : d1 = s1 + f1 + d0 / 2 ^ 32) (g2 : d2 = s2 + f2 + d1 / 2 ^ 32) (g3 : d3 = s3 + f3 + d2 / 2 ^ 32) :
    (V + (s0 + 2 ^ 32 * s1 + 2 ^ 64 * s2 + 2 ^ 96 * s3)) % 2 ^ 128 = d0 % 2 ^ 32 + 2 ^ 32 * (d1 % 2 ^ 32) +
      2 ^ 64 * (d2 % 2 ^ 32) + 2 ^ 96 * (d3 % 2 ^ 32) := by
  have hv := Nat.mod_add_div V (2 ^ 128)
  rw [← hsel] at hv
  generalize V / 2 ^ 128 = q at hv
  have x0 := Nat.mod_add_div d0 (2 ^ 32)
  have x1 := Nat.mod_add_div d1 (2 ^ 32)
  have x2 := Nat.mod_add_div d2 (2 ^ 32)
  have x3 := Nat.mod_add_div d3 (2 ^ 32)
  have l0 : d0 % 2 ^ 32 < 2 ^ 32 := Nat.mod_lt _ (by decide)
  have l1 : d1 % 2 ^ 32 < 2 ^ 32 := Nat.mod_lt _ (by decide)
  have l2 : d2 % 2 ^ 32 < 2 ^ 32 := Nat.mod_lt _ (by decide)
  have l3 : d3 % 2 ^ 32 < 2 ^ 32 := Nat.mod_lt _ (by decide)
  generalize d0 % 2 ^ 32 = m0 at *
  generalize d1 % 2 ^ 32 = m1 at *
  generalize d2 % 2 ^ 32 = m2 at *
  generalize d3 % 2 ^ 32 = m3 at *
  generalize d0 / 2 ^ 32 = y0 at *
  generalize d1 / 2 ^ 32 = y1 at *
  generalize d2 / 2 ^ 32 = y2 at *
  generalize d3 / 2 ^ 32 = y3 at *
  have e : V + (s0 + 2 ^ 32 * s1 + 2 ^ 64 * s2 + 2 ^ 96 * s3) = (m0 + 2 ^ 32 * m1 + 2 ^ 64 * m2 + 2 ^ 96 * m3) +
      2 ^ 128 * (y3 + q) := by
    clear hsel
    omega
  rw [e, Nat.add_mul_mod_self_left, Nat.mod_eq_of_lt (by omega)]

/-- 16 bytes as four words. -/
theorem leBytes_words (y0 y1 y2 y3 : Nat) (h0 : y0 < 2 ^ 32) (h1 : y1 < 2 ^ 32) (h2 : y2 < 2 ^ 32) (h3 : y3 < 2 ^ 32) :
    leBytes 16 (y0 + 2 ^ 32 * y1 + 2 ^ 64 * y2 + 2 ^ 96 * y3) =
      leBytes 4 y0 ++ leBytes 4 y1 ++ leBytes 4 y2 ++ leBytes 4 y3 := by
  apply leVal_inj
  · simp only [List.length_append, leBytes_length]
  · simp only [leVal_append, leVal_leBytes, List.length_append, leBytes_length]
    omega

/-- `Poly1305Last`: reduction and addition of `s`. -/
theorem polyLast_val (p : Poly) (h4 : p.a4.toNat ≤ 4) :
    polyLast p = leBytes 16 (((Acc.mk p.a0 p.a1 p.a2 p.a3 p.a4).val % Spec.P + rVal p.s0 p.s1 p.s2 p.s3) % 2 ^ 128) := by
  have := p.a0.isLt; have := p.a1.isLt; have := p.a2.isLt; have := p.a3.isLt
  have := p.s0.isLt; have := p.s1.isLt; have := p.s2.isLt; have := p.s3.isLt
  unfold polyLast
  dsimp only
  generalize hc0 : w p.a0 + 5#64 = c0
  have e0 : c0.toNat = p.a0.toNat + 5 := by
    rw [← hc0, add64 _ _ (by rw [w_toNat]; show _ + 5 < _; omega), w_toNat]; rfl
  generalize hc1 : w p.a1 + c0 >>> 32 = c1
  have e1 : c1.toNat = p.a1.toNat + c0.toNat / 2 ^ 32 := by
    rw [← hc1, add64 _ _ (by rw [w_toNat, shr32]; omega), w_toNat, shr32]
  generalize hc2 : w p.a2 + c1 >>> 32 = c2
  have e2 : c2.toNat = p.a2.toNat + c1.toNat / 2 ^ 32 := by
    rw [← hc2, add64 _ _ (by rw [w_toNat, shr32]; omega), w_toNat, shr32]
  generalize hc3 : w p.a3 + c2 >>> 32 = c3
  have e3 : c3.toNat = p.a3.toNat + c2.toNat / 2 ^ 32 := by
    rw [← hc3, add64 _ _ (by rw [w_toNat, shr32]; omega), w_toNat, shr32]
  generalize hc4 : w p.a4 + c3 >>> 32 = c4
  have e4 : c4.toNat = p.a4.toNat + c3.toNat / 2 ^ 32 := by
    rw [← hc4, add64 _ _ (by rw [w_toNat, shr32]; omega), w_toNat, shr32]
  -- the selected value
  have hbig : ((c4 &&& 0x4#64) ≠ 0#64) = (4 ≤ c4.toNat) := by
    have hlt : c4.toNat < 8 := by omega
    have hc : c4 = BitVec.ofNat 64 c4.toNat := by simp
    rw [hc, BitVec.toNat_ofNat, Nat.mod_eq_of_lt (by omega)]
    generalize c4.toNat = x at hlt
    have : ∀ x < 8, ((BitVec.ofNat 64 x &&& 0x4#64) ≠ 0#64) ↔ (4 ≤ x) := by decide
    exact propext (this x hlt)
  simp only [hbig]
  generalize hf0 : (if 4 ≤ c4.toNat then c0 else w p.a0) = f0
  generalize hf1 : (if 4 ≤ c4.toNat then c1 else w p.a1) = f1
  generalize hf2 : (if 4 ≤ c4.toNat then c2 else w p.a2) = f2
  generalize hf3 : (if 4 ≤ c4.toNat then c3 else w p.a3) = f3
  have hsel : f0.toNat % 2 ^ 32 + 2 ^ 32 * (f1.toNat % 2 ^ 32) + 2 ^ 64 * (f2.toNat % 2 ^ 32) + 2 ^ 96 * (f3.toNat % 2 ^ 32)
      = ((Acc.mk p.a0 p.a1 p.a2 p.a3 p.a4).val % Spec.P) % 2 ^ 128 := by
    rw [← hf0, ← hf1, ← hf2, ← hf3]
    clear hf0 hf1 hf2 hf3 hc0 hc1 hc2 hc3 hc4 hbig
    have hW : (Acc.mk p.a0 p.a1 p.a2 p.a3 p.a4).val + 5 = c0.toNat % 2 ^ 32 + 2 ^ 32 * (c1.toNat % 2 ^ 32) +
        2 ^ 64 * (c2.toNat % 2 ^ 32) + 2 ^ 96 * (c3.toNat % 2 ^ 32) + 2 ^ 128 * c4.toNat := by
      unfold Acc.val
      dsimp only
      omega
    have hW2 : (Acc.mk p.a0 p.a1 p.a2 p.a3 p.a4).val = p.a0.toNat + 2 ^ 32 * p.a1.toNat + 2 ^ 64 * p.a2.toNat +
      2 ^ 96 * p.a3.toNat + 2 ^ 128 * p.a4.toNat := rfl
    generalize (Acc.mk p.a0 p.a1 p.a2 p.a3 p.a4).val = V at *
    have hP : Spec.P + 5 = 2 ^ 130 := by decide
    generalize Spec.P = P at *
    by_cases hb : 4 ≤ c4.toNat
    · simp only [if_pos hb]
      have hVP : V % P = V - P := by
        rw [Nat.mod_eq_sub_mod (show V ≥ P by omega), Nat.mod_eq_of_lt (show V - P < P by omega)]
      rw [hVP]
      omega
    · simp only [if_neg hb, w_toNat]
      rw [Nat.mod_eq_of_lt (show V < P by omega)]
      omega
  clear hf0 hf1 hf2 hf3 hc0 hc1 hc2 hc3 hc4 hbig e0 e1 e2 e3 e4
  generalize hd0 : w p.s0 + m32 f0 = d0
  have g0 : d0.toNat = p.s0.toNat + f0.toNat % 2 ^ 32 := by
    rw [← hd0, add64 _ _ (by rw [w_toNat, m32_toNat]; omega), w_toNat, m32_toNat]
  have tri : ∀ (s : BitVec 32) (f d : BitVec 64), (w s + m32 f + d >>> 32).toNat = s.toNat + f.toNat % 2 ^ 32 + d.toNat / 2 ^ 32 := by
    intro s f d
    have := s.isLt; have := d.isLt
    have x : (w s + m32 f).toNat = s.toNat + f.toNat % 2 ^ 32 := by
      rw [add64 _ _ (by rw [w_toNat, m32_toNat]; omega), w_toNat, m32_toNat]
    rw [add64 _ _ (by rw [x, shr32]; omega), x, shr32]
  generalize hd1 : w p.s1 + m32 f1 + d0 >>> 32 = d1
  have g1 : d1.toNat = p.s1.toNat + f1.toNat % 2 ^ 32 + d0.toNat / 2 ^ 32 := by rw [← hd1]; exact tri _ _ _
  generalize hd2 : w p.s2 + m32 f2 + d1 >>> 32 = d2
  have g2 : d2.toNat = p.s2.toNat + f2.toNat % 2 ^ 32 + d1.toNat / 2 ^ 32 := by rw [← hd2]; exact tri _ _ _
  generalize hd3 : w p.s3 + m32 f3 + d2 >>> 32 = d3
  have g3 : d3.toNat = p.s3.toNat + f3.toNat % 2 ^ 32 + d2.toNat / 2 ^ 32 := by rw [← hd3]; exact tri _ _ _
  simp only [lo_toNat]
  clear hd0 hd1 hd2 hd3 tri
  generalize hV : ((Acc.mk p.a0 p.a1 p.a2 p.a3 p.a4).val % Spec.P) = V at *
  have hR : (V + rVal p.s0 p.s1 p.s2 p.s3) % 2 ^ 128 = d0.toNat % 2 ^ 32 + 2 ^ 32 * (d1.toNat % 2 ^ 32) +
      2 ^ 64 * (d2.toNat % 2 ^ 32) + 2 ^ 96 * (d3.toNat % 2 ^ 32) := by
    unfold rVal
    exact add_s V _ _ _ _ _ _ _ _ _ _ _ _ hsel g0 g1 g2 g3
  rw [hR]
  exact (leBytes_words _ _ _ _ (Nat.mod_lt _ (by decide)) (Nat.mod_lt _ (by decide)) (Nat.mod_lt _ (by decide))
    (Nat.mod_lt _ (by decide))).symm

theorem leVal_zeros (d : List Byte) (n : Nat) : leVal (d ++ List.replicate n 0#8) = leVal d := by
  have : ∀ n, leVal (List.replicate n 0#8) = 0 := by
    intro n
    induction n with
    | zero => rfl
    | succ n ih => rw [List.replicate_succ]; show 0 + 256 * leVal _ = 0; rw [ih]
  rw [leVal_append, this, Nat.mul_zero, Nat.add_zero]

/-- `Poly1305Final` gives the RFC 8439 tag of everything absorbed. -/
theorem polyFinal_spec (key msg : List Byte) (p : Poly) (h : PInv key msg p) :
    polyFinal p = some (Spec.poly1305 key msg) := by
  have hll := h.ll
  have hsplit : msg = msg.take (msg.length / 16 * 16) ++ msg.drop (msg.length / 16 * 16) := (List.take_append_drop _ _).symm
  have hfull := polyAcc_append (rVal p.r0 p.r1 p.r2 p.r3) (msg.length / 16) 0 (msg.take (msg.length / 16 * 16))
    (msg.drop (msg.length / 16 * 16)) (by rw [List.length_take]; omega)
  rw [← hsplit] at hfull
  unfold polyFinal Spec.poly1305
  rw [← h.rv, ← h.sv]
  dsimp only
  by_cases h0 : p.lastLen > 0
  · rw [if_pos h0]
    have hsl : (1#8 :: List.replicate (15 - p.lastLen) 0#8).length = 16 - p.lastLen := by
      rw [List.length_cons, List.length_replicate]; omega
    obtain ⟨l, el, ll, lt⟩ := put_eq p.last (1#8 :: List.replicate (15 - p.lastLen) 0#8) p.lastLen
      (by rw [hsl, h.la]; omega)
    rw [el]
    dsimp only
    rw [hsl, show p.lastLen + (16 - p.lastLen) = 16 by omega, List.take_of_length_le (by rw [ll, h.la]), h.lb] at lt
    have hlen : l.length = 16 := by rw [ll, h.la]
    have hdl : (msg.drop (msg.length / 16 * 16)).length = p.lastLen := by rw [List.length_drop]; omega
    have hlv : leVal l = leVal (msg.drop (msg.length / 16 * 16) ++ [1#8]) := by
      rw [lt, ← leVal_zeros (msg.drop (msg.length / 16 * 16) ++ [1#8]) (15 - p.lastLen), List.append_assoc]
      rfl
    obtain ⟨b1, b2⟩ := blockStep_val ⟨p.a0, p.a1, p.a2, p.a3, p.a4⟩ p.r0 p.r1 p.r2 p.r3 h.hr h.a4 l hlen 0#32 (by decide)
    have hpb : polyBlock p l 0#32 = { p with
        a0 := (blockStep ⟨p.a0, p.a1, p.a2, p.a3, p.a4⟩ p.r0 p.r1 p.r2 p.r3 l 0#32).a0
        a1 := (blockStep ⟨p.a0, p.a1, p.a2, p.a3, p.a4⟩ p.r0 p.r1 p.r2 p.r3 l 0#32).a1
        a2 := (blockStep ⟨p.a0, p.a1, p.a2, p.a3, p.a4⟩ p.r0 p.r1 p.r2 p.r3 l 0#32).a2
        a3 := (blockStep ⟨p.a0, p.a1, p.a2, p.a3, p.a4⟩ p.r0 p.r1 p.r2 p.r3 l 0#32).a3
        a4 := (blockStep ⟨p.a0, p.a1, p.a2, p.a3, p.a4⟩ p.r0 p.r1 p.r2 p.r3 l 0#32).a4 } := by
      unfold polyBlock
      rw [hlen, show 16 / 16 = 0 + 1 from rfl]
      dsimp only [blockLoop]
      rw [List.take_of_length_le (by omega)]
    rw [hpb, polyLast_val _ b2]
    dsimp only
    have hv : (Acc.mk (blockStep ⟨p.a0, p.a1, p.a2, p.a3, p.a4⟩ p.r0 p.r1 p.r2 p.r3 l 0#32).a0
        (blockStep ⟨p.a0, p.a1, p.a2, p.a3, p.a4⟩ p.r0 p.r1 p.r2 p.r3 l 0#32).a1
        (blockStep ⟨p.a0, p.a1, p.a2, p.a3, p.a4⟩ p.r0 p.r1 p.r2 p.r3 l 0#32).a2
        (blockStep ⟨p.a0, p.a1, p.a2, p.a3, p.a4⟩ p.r0 p.r1 p.r2 p.r3 l 0#32).a3
        (blockStep ⟨p.a0, p.a1, p.a2, p.a3, p.a4⟩ p.r0 p.r1 p.r2 p.r3 l 0#32).a4) =
        blockStep ⟨p.a0, p.a1, p.a2, p.a3, p.a4⟩ p.r0 p.r1 p.r2 p.r3 l 0#32 := rfl
    rw [hv, b1, hfull, ← h.acc, polyAcc_step _ _ _ (by intro e; rw [e] at hdl; simp at hdl; omega),
      List.take_of_length_le (l := msg.drop _) (by omega), List.drop_eq_nil_of_le (as := msg.drop _) (by omega),
      polyAcc_nil, hlv]
    congr 4
    show (_ + (_ + 2 ^ 128 * 0)) * _ % _ = _
    rw [Nat.mul_zero, Nat.add_zero]
    exact modmul _ _ _ _
  · rw [if_neg h0, polyLast_val _ h.a4, h.acc]
    rw [List.drop_eq_nil_of_le (by omega), polyAcc_nil] at hfull
    rw [hfull]

end Verif.Crypto.Chacha
