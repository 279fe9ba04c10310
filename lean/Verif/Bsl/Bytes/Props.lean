import Verif.Bsl.Bytes.Model
import Verif.Common.Endian
/-!
# C42 and byte order: `bsl_bytes.h`
-/
namespace Verif.Bsl.Bytes
open Verif.Common

/-- The mask of a truth value: all ones or zero. -/
def mask (p : Prop) [Decidable p] : BitVec 32 := if p then BitVec.allOnes 32 else 0#32

theorem ctMsb_eq (a : BitVec 32) : ctMsb a = mask (a.msb = true) := by
  unfold ctMsb mask
  apply BitVec.eq_of_toNat_eq
  have hlt := a.isLt
  rw [BitVec.msb_eq_decide]
  simp only [BitVec.toNat_sub, BitVec.toNat_ushiftRight, Nat.shiftRight_eq_div_pow, decide_eq_true_eq]
  split <;> simp <;> omega

/-- C42. `IsZero` is the all-ones mask exactly for zero. -/
theorem ctIsZero_spec (a : BitVec 32) : ctIsZero a = mask (a = 0#32) := by
  unfold ctIsZero
  rw [ctMsb_eq]
  unfold mask
  congr 1
  rw [BitVec.msb_and, BitVec.msb_not, BitVec.msb_eq_decide, BitVec.msb_eq_decide, BitVec.toNat_sub]
  have hlt := a.isLt
  have h0 : a = 0#32 ↔ a.toNat = 0 := by
    constructor
    · intro h; simp [h]
    · intro h; exact BitVec.eq_of_toNat_eq (by simpa using h)
  rw [h0]
  simp
  omega

/-- C42. `Equal` is the mask of equality. -/
theorem ctEqual_spec (a b : BitVec 32) : ctEqual a b = mask (a = b) := by
  unfold ctEqual
  rw [ctIsZero_spec]
  unfold mask
  congr 1
  simp [BitVec.xor_eq_zero_iff]

/-- C42. `Lt` is the mask of unsigned less-than. -/
theorem ctLt_spec (a b : BitVec 32) : ctLt a b = mask (a.toNat < b.toNat) := by
  unfold ctLt
  rw [ctMsb_eq]
  unfold mask
  congr 1
  have ha := a.isLt
  have hb := b.isLt
  rw [BitVec.msb_xor, BitVec.msb_or, BitVec.msb_xor, BitVec.msb_xor, BitVec.msb_eq_decide, BitVec.msb_eq_decide,
    BitVec.msb_eq_decide, BitVec.toNat_sub]
  by_cases h1 : 2 ^ (32 - 1) ≤ a.toNat <;> by_cases h2 : 2 ^ (32 - 1) ≤ b.toNat <;>
    simp [h1, h2] <;> omega

/-- C42. `Ge`, `Gt`, `Le` are the masks of the corresponding comparisons. -/
theorem ctGe_spec (a b : BitVec 32) : ctGe a b = mask (b.toNat ≤ a.toNat) := by
  unfold ctGe
  rw [ctLt_spec]
  unfold mask
  by_cases h : a.toNat < b.toNat
  · have : ¬ b.toNat ≤ a.toNat := by omega
    simp [h, this]
  · have : b.toNat ≤ a.toNat := by omega
    simp [h, this]

theorem ctGt_spec (a b : BitVec 32) : ctGt a b = mask (b.toNat < a.toNat) := ctLt_spec b a

theorem ctLe_spec (a b : BitVec 32) : ctLe a b = mask (a.toNat ≤ b.toNat) := ctGe_spec b a

/-- C42. `Select` under a mask is the conditional. -/
theorem ctSelect_spec (p : Prop) [Decidable p] (a b : BitVec 32) :
    ctSelect (mask p) a b = if p then a else b := by
  unfold ctSelect mask
  by_cases h : p
  · simp only [if_pos h, BitVec.allOnes_and, BitVec.not_allOnes, BitVec.zero_and, BitVec.or_zero]
  · simp only [if_neg h, BitVec.zero_and, BitVec.not_zero, BitVec.allOnes_and, BitVec.zero_or]

theorem ctSelect8_spec (p : Prop) [Decidable p] (a b : Byte) :
    ctSelect8 (mask p) a b = if p then a else b := by
  unfold ctSelect8 mask
  by_cases h : p <;> simp only [h, if_true, if_false] <;> bv_bits8

example : ctSelect (mask (1 < 2)) 5#32 7#32 = 5#32 := by rfl

theorem memcmpAcc_zero (a b : List Byte) (r : Byte) (hl : a.length = b.length) :
    memcmpAcc a b r = 0#8 ↔ r = 0#8 ∧ a = b := by
  induction a generalizing b r with
  | nil =>
    cases b with
    | nil => simp [memcmpAcc]
    | cons y ys => simp at hl
  | cons x xs ih =>
    cases b with
    | nil => simp at hl
    | cons y ys =>
      rw [memcmpAcc, ih ys _ (by simpa using hl), BitVec.or_eq_zero_iff, BitVec.xor_eq_zero_iff]
      simp only [List.cons.injEq]
      exact and_assoc

/-- C42. The constant-time comparison of two buffers is the mask of their equality, for every content and
every length. -/
theorem ctMemcmp_spec (a b : List Byte) (hl : a.length = b.length) : ctMemcmp a b = mask (a = b) := by
  unfold ctMemcmp
  rw [ctIsZero_spec]
  unfold mask
  have h : (memcmpAcc a b 0).setWidth 32 = 0#32 ↔ a = b := by
    have := memcmpAcc_zero a b 0#8 hl
    simp only [true_and] at this
    rw [← this]
    constructor
    · intro h
      apply BitVec.eq_of_toNat_eq
      have h2 := congrArg BitVec.toNat h
      rw [BitVec.toNat_setWidth, Nat.mod_eq_of_lt (by have := (memcmpAcc a b 0).isLt; omega)] at h2
      simpa using h2
    · intro h
      have h' : memcmpAcc a b 0 = 0#8 := h
      rw [h']; rfl
  by_cases hp : a = b
  · rw [if_pos (h.mpr hp), if_pos hp]
  · rw [if_neg (fun hh => hp (h.mp hh)), if_neg hp]

example : ctMemcmp [1#8, 2#8] [1#8, 2#8] = BitVec.allOnes 32 := by rfl
example : ctMemcmp [1#8, 2#8] [1#8, 3#8] = 0#32 := by rfl

/-! ## Byte order -/

theorem byteAt_eq {w : Nat} (x : BitVec w) (s : Nat) : byteAt x s = BitVec.ofNat 8 (x.toNat / 2 ^ s) := by
  apply BitVec.eq_of_toNat_eq
  simp [byteAt, Nat.shiftRight_eq_div_pow]

theorem byteAt_mask {w : Nat} (hw : 8 ≤ w) (x : BitVec w) :
    byteAt (x &&& BitVec.ofNat w 255) 0 = BitVec.ofNat 8 x.toNat := by
  apply BitVec.eq_of_toNat_eq
  have h256 : 256 ≤ 2 ^ w := by
    calc 256 = 2 ^ 8 := by decide
      _ ≤ 2 ^ w := Nat.pow_le_pow_right (by decide) hw
  have h : 255 % 2 ^ w = 2 ^ 8 - 1 := Nat.mod_eq_of_lt (by omega)
  simp only [byteAt, BitVec.ushiftRight_zero, BitVec.toNat_setWidth, BitVec.toNat_and, BitVec.toNat_ofNat, h,
    Nat.and_two_pow_sub_one_eq_mod]
  omega

/-- The stores produce exactly the big-endian representation. -/
theorem uint16ToByte_spec (x : BitVec 16) : uint16ToByte x = beBytes 2 x.toNat := by
  have h : byteAt (x &&& 0xff) 0 = BitVec.ofNat 8 x.toNat := byteAt_mask (by decide) x
  unfold uint16ToByte
  rw [h]
  simp only [byteAt_eq, beBytes, List.nil_append, List.cons_append, Nat.reducePow]

theorem uint24ToByte_spec (x : BitVec 32) : uint24ToByte x = beBytes 3 x.toNat := by
  have h : byteAt (x &&& 0xff) 0 = BitVec.ofNat 8 x.toNat := byteAt_mask (by decide) x
  unfold uint24ToByte
  rw [h]
  simp only [byteAt_eq, beBytes, List.nil_append, List.cons_append, Nat.div_div_eq_div_mul, Nat.reduceMul, Nat.reducePow]

theorem uint32ToByte_spec (x : BitVec 32) : uint32ToByte x = beBytes 4 x.toNat := by
  have h : byteAt (x &&& 0xff) 0 = BitVec.ofNat 8 x.toNat := byteAt_mask (by decide) x
  unfold uint32ToByte
  rw [h]
  simp only [byteAt_eq, beBytes, List.nil_append, List.cons_append, Nat.div_div_eq_div_mul, Nat.reduceMul, Nat.reducePow]

theorem uint48ToByte_spec (x : BitVec 64) : uint48ToByte x = beBytes 6 x.toNat := by
  have h : byteAt (x &&& 0xff) 0 = BitVec.ofNat 8 x.toNat := byteAt_mask (by decide) x
  unfold uint48ToByte
  rw [h]
  simp only [byteAt_eq, beBytes, List.nil_append, List.cons_append, Nat.div_div_eq_div_mul, Nat.reduceMul, Nat.reducePow]

theorem uint64ToByte_spec (x : BitVec 64) : uint64ToByte x = beBytes 8 x.toNat := by
  have h : byteAt (x &&& 0xff) 0 = BitVec.ofNat 8 x.toNat := byteAt_mask (by decide) x
  unfold uint64ToByte
  rw [h]
  simp only [byteAt_eq, beBytes, List.nil_append, List.cons_append, Nat.div_div_eq_div_mul, Nat.reduceMul, Nat.reducePow]

theorem or_add (k : Nat) {a b : Nat} (ha : a % 2 ^ k = 0) (hb : b < 2 ^ k) : a ||| b = a + b := by
  have h : a = (a / 2 ^ k) <<< k := by
    rw [Nat.shiftLeft_eq, Nat.mul_comm]
    have := Nat.div_add_mod a (2 ^ k)
    omega
  rw [h, Nat.shiftLeft_add_eq_or_of_lt hb]

theorem orStep (k n b : Nat) (hb : b < 256) : n * 2 ^ (k + 8) ||| b * 2 ^ k = (256 * n + b) * 2 ^ k := by
  have h1 : n * 2 ^ (k + 8) % 2 ^ (k + 8) = 0 := Nat.mul_mod_left _ _
  have hp : (2 : Nat) ^ (k + 8) = 2 ^ k * 256 := by rw [Nat.pow_add]
  rw [or_add (k + 8) h1]
  · rw [hp, Nat.add_mul, Nat.mul_comm (2 ^ k) 256, ← Nat.mul_assoc, Nat.mul_comm n 256]
  · rw [hp, Nat.mul_comm]
    exact Nat.mul_lt_mul_of_pos_left hb (Nat.two_pow_pos k)

theorem byteToUint16_spec (a b : Byte) (r : List Byte) :
    byteToUint16 (a :: b :: r) = some (BitVec.ofNat 16 (beVal [a, b])) := by
  have ha := a.isLt
  have hb := b.isLt
  simp only [byteToUint16, Option.some.injEq]
  apply BitVec.eq_of_toNat_eq
  simp only [BitVec.toNat_or, BitVec.toNat_shiftLeft, BitVec.toNat_setWidth, Nat.shiftLeft_eq, beVal,
    List.foldl_cons, List.foldl_nil, BitVec.toNat_ofNat]
  rw [show a.toNat % 2 ^ 16 = a.toNat by omega]
  rw [show a.toNat * 2 ^ 8 % 2 ^ 16 = a.toNat * 2 ^ 8 by omega]
  rw [show b.toNat % 2 ^ 16 = b.toNat by omega]
  rw [show a.toNat * 2 ^ 8 ||| b.toNat = 256 * (a.toNat) + b.toNat by
    have := orStep 0 (a.toNat) b.toNat (by omega); simpa using this]
  omega

theorem byteToUint24_spec (a b c : Byte) (r : List Byte) :
    byteToUint24 (a :: b :: c :: r) = some (BitVec.ofNat 32 (beVal [a, b, c])) := by
  have ha := a.isLt
  have hb := b.isLt
  have hc := c.isLt
  simp only [byteToUint24, Option.some.injEq]
  apply BitVec.eq_of_toNat_eq
  simp only [BitVec.toNat_or, BitVec.toNat_shiftLeft, BitVec.toNat_setWidth, Nat.shiftLeft_eq, beVal,
    List.foldl_cons, List.foldl_nil, BitVec.toNat_ofNat]
  rw [show a.toNat % 2 ^ 32 = a.toNat by omega]
  rw [show a.toNat * 2 ^ 16 % 2 ^ 32 = a.toNat * 2 ^ 16 by omega]
  rw [show b.toNat % 2 ^ 32 = b.toNat by omega]
  rw [show b.toNat * 2 ^ 8 % 2 ^ 32 = b.toNat * 2 ^ 8 by omega]
  rw [show c.toNat % 2 ^ 32 = c.toNat by omega]
  rw [show a.toNat * 2 ^ 16 ||| b.toNat * 2 ^ 8 = (256 * (a.toNat) + b.toNat) * 2 ^ 8 from
    orStep 8 _ _ (by omega)]
  rw [show (256 * (a.toNat) + b.toNat) * 2 ^ 8 ||| c.toNat = 256 * ((256 * (a.toNat) + b.toNat)) + c.toNat by
    have := orStep 0 ((256 * (a.toNat) + b.toNat)) c.toNat (by omega); simpa using this]
  omega

theorem byteToUint32_spec (a b c d : Byte) (r : List Byte) :
    byteToUint32 (a :: b :: c :: d :: r) = some (BitVec.ofNat 32 (beVal [a, b, c, d])) := by
  have ha := a.isLt
  have hb := b.isLt
  have hc := c.isLt
  have hd := d.isLt
  simp only [byteToUint32, Option.some.injEq]
  apply BitVec.eq_of_toNat_eq
  simp only [BitVec.toNat_or, BitVec.toNat_shiftLeft, BitVec.toNat_setWidth, Nat.shiftLeft_eq, beVal,
    List.foldl_cons, List.foldl_nil, BitVec.toNat_ofNat]
  rw [show a.toNat % 2 ^ 32 = a.toNat by omega]
  rw [show a.toNat * 2 ^ 24 % 2 ^ 32 = a.toNat * 2 ^ 24 by omega]
  rw [show b.toNat % 2 ^ 32 = b.toNat by omega]
  rw [show b.toNat * 2 ^ 16 % 2 ^ 32 = b.toNat * 2 ^ 16 by omega]
  rw [show c.toNat % 2 ^ 32 = c.toNat by omega]
  rw [show c.toNat * 2 ^ 8 % 2 ^ 32 = c.toNat * 2 ^ 8 by omega]
  rw [show d.toNat % 2 ^ 32 = d.toNat by omega]
  rw [show a.toNat * 2 ^ 24 ||| b.toNat * 2 ^ 16 = (256 * (a.toNat) + b.toNat) * 2 ^ 16 from
    orStep 16 _ _ (by omega)]
  rw [show (256 * (a.toNat) + b.toNat) * 2 ^ 16 ||| c.toNat * 2 ^ 8 = (256 * ((256 * (a.toNat) + b.toNat)) + c.toNat) * 2 ^ 8 from
    orStep 8 _ _ (by omega)]
  rw [show (256 * ((256 * (a.toNat) + b.toNat)) + c.toNat) * 2 ^ 8 ||| d.toNat = 256 * ((256 * ((256 * (a.toNat) + b.toNat)) + c.toNat)) + d.toNat by
    have := orStep 0 ((256 * ((256 * (a.toNat) + b.toNat)) + c.toNat)) d.toNat (by omega); simpa using this]
  omega

theorem byteToUint48_spec (a b c d e f : Byte) (r : List Byte) :
    byteToUint48 (a :: b :: c :: d :: e :: f :: r) = some (BitVec.ofNat 64 (beVal [a, b, c, d, e, f])) := by
  have ha := a.isLt
  have hb := b.isLt
  have hc := c.isLt
  have hd := d.isLt
  have he := e.isLt
  have hf := f.isLt
  simp only [byteToUint48, Option.some.injEq]
  apply BitVec.eq_of_toNat_eq
  simp only [BitVec.toNat_or, BitVec.toNat_shiftLeft, BitVec.toNat_setWidth, Nat.shiftLeft_eq, beVal,
    List.foldl_cons, List.foldl_nil, BitVec.toNat_ofNat]
  rw [show a.toNat % 2 ^ 64 = a.toNat by omega]
  rw [show a.toNat * 2 ^ 40 % 2 ^ 64 = a.toNat * 2 ^ 40 by omega]
  rw [show b.toNat % 2 ^ 64 = b.toNat by omega]
  rw [show b.toNat * 2 ^ 32 % 2 ^ 64 = b.toNat * 2 ^ 32 by omega]
  rw [show c.toNat % 2 ^ 64 = c.toNat by omega]
  rw [show c.toNat * 2 ^ 24 % 2 ^ 64 = c.toNat * 2 ^ 24 by omega]
  rw [show d.toNat % 2 ^ 64 = d.toNat by omega]
  rw [show d.toNat * 2 ^ 16 % 2 ^ 64 = d.toNat * 2 ^ 16 by omega]
  rw [show e.toNat % 2 ^ 64 = e.toNat by omega]
  rw [show e.toNat * 2 ^ 8 % 2 ^ 64 = e.toNat * 2 ^ 8 by omega]
  rw [show f.toNat % 2 ^ 64 = f.toNat by omega]
  rw [show a.toNat * 2 ^ 40 ||| b.toNat * 2 ^ 32 = (256 * (a.toNat) + b.toNat) * 2 ^ 32 from
    orStep 32 _ _ (by omega)]
  rw [show (256 * (a.toNat) + b.toNat) * 2 ^ 32 ||| c.toNat * 2 ^ 24 = (256 * ((256 * (a.toNat) + b.toNat)) + c.toNat) * 2 ^ 24 from
    orStep 24 _ _ (by omega)]
  rw [show (256 * ((256 * (a.toNat) + b.toNat)) + c.toNat) * 2 ^ 24 ||| d.toNat * 2 ^ 16 = (256 * ((256 * ((256 * (a.toNat) + b.toNat)) + c.toNat)) + d.toNat) * 2 ^ 16 from
    orStep 16 _ _ (by omega)]
  rw [show (256 * ((256 * ((256 * (a.toNat) + b.toNat)) + c.toNat)) + d.toNat) * 2 ^ 16 ||| e.toNat * 2 ^ 8 = (256 * ((256 * ((256 * ((256 * (a.toNat) + b.toNat)) + c.toNat)) + d.toNat)) + e.toNat) * 2 ^ 8 from
    orStep 8 _ _ (by omega)]
  rw [show (256 * ((256 * ((256 * ((256 * (a.toNat) + b.toNat)) + c.toNat)) + d.toNat)) + e.toNat) * 2 ^ 8 ||| f.toNat = 256 * ((256 * ((256 * ((256 * ((256 * (a.toNat) + b.toNat)) + c.toNat)) + d.toNat)) + e.toNat)) + f.toNat by
    have := orStep 0 ((256 * ((256 * ((256 * ((256 * (a.toNat) + b.toNat)) + c.toNat)) + d.toNat)) + e.toNat)) f.toNat (by omega); simpa using this]
  omega

theorem byteToUint64_spec (a b c d e f g h : Byte) (r : List Byte) :
    byteToUint64 (a :: b :: c :: d :: e :: f :: g :: h :: r) = some (BitVec.ofNat 64 (beVal [a, b, c, d, e, f, g, h])) := by
  have ha := a.isLt
  have hb := b.isLt
  have hc := c.isLt
  have hd := d.isLt
  have he := e.isLt
  have hf := f.isLt
  have hg := g.isLt
  have hh := h.isLt
  simp only [byteToUint64, Option.some.injEq]
  apply BitVec.eq_of_toNat_eq
  simp only [BitVec.toNat_or, BitVec.toNat_shiftLeft, BitVec.toNat_setWidth, Nat.shiftLeft_eq, beVal,
    List.foldl_cons, List.foldl_nil, BitVec.toNat_ofNat]
  rw [show a.toNat % 2 ^ 64 = a.toNat by omega]
  rw [show a.toNat * 2 ^ 56 % 2 ^ 64 = a.toNat * 2 ^ 56 by omega]
  rw [show b.toNat % 2 ^ 64 = b.toNat by omega]
  rw [show b.toNat * 2 ^ 48 % 2 ^ 64 = b.toNat * 2 ^ 48 by omega]
  rw [show c.toNat % 2 ^ 64 = c.toNat by omega]
  rw [show c.toNat * 2 ^ 40 % 2 ^ 64 = c.toNat * 2 ^ 40 by omega]
  rw [show d.toNat % 2 ^ 64 = d.toNat by omega]
  rw [show d.toNat * 2 ^ 32 % 2 ^ 64 = d.toNat * 2 ^ 32 by omega]
  rw [show e.toNat % 2 ^ 64 = e.toNat by omega]
  rw [show e.toNat * 2 ^ 24 % 2 ^ 64 = e.toNat * 2 ^ 24 by omega]
  rw [show f.toNat % 2 ^ 64 = f.toNat by omega]
  rw [show f.toNat * 2 ^ 16 % 2 ^ 64 = f.toNat * 2 ^ 16 by omega]
  rw [show g.toNat % 2 ^ 64 = g.toNat by omega]
  rw [show g.toNat * 2 ^ 8 % 2 ^ 64 = g.toNat * 2 ^ 8 by omega]
  rw [show h.toNat % 2 ^ 64 = h.toNat by omega]
  rw [show a.toNat * 2 ^ 56 ||| b.toNat * 2 ^ 48 = (256 * (a.toNat) + b.toNat) * 2 ^ 48 from
    orStep 48 _ _ (by omega)]
  rw [show (256 * (a.toNat) + b.toNat) * 2 ^ 48 ||| c.toNat * 2 ^ 40 = (256 * ((256 * (a.toNat) + b.toNat)) + c.toNat) * 2 ^ 40 from
    orStep 40 _ _ (by omega)]
  rw [show (256 * ((256 * (a.toNat) + b.toNat)) + c.toNat) * 2 ^ 40 ||| d.toNat * 2 ^ 32 = (256 * ((256 * ((256 * (a.toNat) + b.toNat)) + c.toNat)) + d.toNat) * 2 ^ 32 from
    orStep 32 _ _ (by omega)]
  rw [show (256 * ((256 * ((256 * (a.toNat) + b.toNat)) + c.toNat)) + d.toNat) * 2 ^ 32 ||| e.toNat * 2 ^ 24 = (256 * ((256 * ((256 * ((256 * (a.toNat) + b.toNat)) + c.toNat)) + d.toNat)) + e.toNat) * 2 ^ 24 from
    orStep 24 _ _ (by omega)]
  rw [show (256 * ((256 * ((256 * ((256 * (a.toNat) + b.toNat)) + c.toNat)) + d.toNat)) + e.toNat) * 2 ^ 24 ||| f.toNat * 2 ^ 16 = (256 * ((256 * ((256 * ((256 * ((256 * (a.toNat) + b.toNat)) + c.toNat)) + d.toNat)) + e.toNat)) + f.toNat) * 2 ^ 16 from
    orStep 16 _ _ (by omega)]
  rw [show (256 * ((256 * ((256 * ((256 * ((256 * (a.toNat) + b.toNat)) + c.toNat)) + d.toNat)) + e.toNat)) + f.toNat) * 2 ^ 16 ||| g.toNat * 2 ^ 8 = (256 * ((256 * ((256 * ((256 * ((256 * ((256 * (a.toNat) + b.toNat)) + c.toNat)) + d.toNat)) + e.toNat)) + f.toNat)) + g.toNat) * 2 ^ 8 from
    orStep 8 _ _ (by omega)]
  rw [show (256 * ((256 * ((256 * ((256 * ((256 * ((256 * (a.toNat) + b.toNat)) + c.toNat)) + d.toNat)) + e.toNat)) + f.toNat)) + g.toNat) * 2 ^ 8 ||| h.toNat = 256 * ((256 * ((256 * ((256 * ((256 * ((256 * ((256 * (a.toNat) + b.toNat)) + c.toNat)) + d.toNat)) + e.toNat)) + f.toNat)) + g.toNat)) + h.toNat by
    have := orStep 0 ((256 * ((256 * ((256 * ((256 * ((256 * ((256 * (a.toNat) + b.toNat)) + c.toNat)) + d.toNat)) + e.toNat)) + f.toNat)) + g.toNat)) h.toNat (by omega); simpa using this]
  omega

/-- C49. Loading what was stored gives the number back, whatever follows in the buffer. -/
theorem load_store16 (x : BitVec 16) (r : List Byte) : byteToUint16 (uint16ToByte x ++ r) = some x := by
  have h := beVal_beBytes 2 x.toNat
  rw [uint16ToByte_spec]
  simp only [beBytes, List.nil_append, List.cons_append] at h ⊢
  rw [byteToUint16_spec, h]
  congr 1; apply BitVec.eq_of_toNat_eq; have := x.isLt; simp; omega

theorem load_store32 (x : BitVec 32) (r : List Byte) : byteToUint32 (uint32ToByte x ++ r) = some x := by
  have h := beVal_beBytes 4 x.toNat
  rw [uint32ToByte_spec]
  simp only [beBytes, List.nil_append, List.cons_append] at h ⊢
  rw [byteToUint32_spec, h]
  congr 1; apply BitVec.eq_of_toNat_eq; have := x.isLt; simp; omega

theorem load_store24 (x : BitVec 32) (hx : x.toNat < 2 ^ 24) (r : List Byte) :
    byteToUint24 (uint24ToByte x ++ r) = some x := by
  have h := beVal_beBytes 3 x.toNat
  rw [uint24ToByte_spec]
  simp only [beBytes, List.nil_append, List.cons_append] at h ⊢
  rw [byteToUint24_spec, h]
  congr 1; apply BitVec.eq_of_toNat_eq; simp; omega

theorem load_store48 (x : BitVec 64) (hx : x.toNat < 2 ^ 48) (r : List Byte) :
    byteToUint48 (uint48ToByte x ++ r) = some x := by
  have h := beVal_beBytes 6 x.toNat
  rw [uint48ToByte_spec]
  simp only [beBytes, List.nil_append, List.cons_append] at h ⊢
  rw [byteToUint48_spec, h]
  congr 1; apply BitVec.eq_of_toNat_eq; simp; omega

theorem load_store64 (x : BitVec 64) (r : List Byte) : byteToUint64 (uint64ToByte x ++ r) = some x := by
  have h := beVal_beBytes 8 x.toNat
  rw [uint64ToByte_spec]
  simp only [beBytes, List.nil_append, List.cons_append] at h ⊢
  rw [byteToUint64_spec, h]
  congr 1; apply BitVec.eq_of_toNat_eq; have := x.isLt; simp; omega

example : byteToUint24 (uint24ToByte 0x123456#32 ++ [7#8]) = some 0x123456#32 := load_store24 _ (by decide) _
example : byteToUint48 (uint48ToByte 0x123456789abc#64) = some 0x123456789abc#64 := by
  have := load_store48 0x123456789abc#64 (by decide) []; simpa using this

end Verif.Bsl.Bytes
