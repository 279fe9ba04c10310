import Verif.Bsl.Asn1.Model
namespace Verif.Bsl.Asn1
open Verif.Common

theorem shl_or_toNat (w : Nat) (hw : 8 ≤ w) (acc : BitVec w) (b : Byte) :
    ((acc <<< 8) ||| b.setWidth w).toNat = acc.toNat * 256 % 2 ^ w + b.toNat := by
  rw [BitVec.toNat_or, BitVec.toNat_shiftLeft, BitVec.toNat_setWidth, Nat.shiftLeft_eq]
  have hb := b.isLt
  have hp : (2 : Nat) ^ 8 ≤ 2 ^ w := Nat.pow_le_pow_right (by decide) hw
  rw [Nat.mod_eq_of_lt (a := b.toNat) (by omega)]
  have e : acc.toNat * 2 ^ 8 % 2 ^ w = (acc.toNat % 2 ^ (w - 8)) * 2 ^ 8 := by
    have : (2 : Nat) ^ w = 2 ^ (w - 8) * 2 ^ 8 := by rw [← Nat.pow_add]; congr 1; omega
    rw [this, Nat.mul_mod_mul_right]
  rw [show (256 : Nat) = 2 ^ 8 from rfl, e, ← Nat.shiftLeft_eq, Nat.shiftLeft_add_eq_or_of_lt hb]

theorem step_lt {a b P : Nat} (h : a < P) (hb : b < 2 ^ 8) : a * 256 + b < P * 256 := by omega

theorem readLen_spec (i : Nat) (acc : BitVec 32) (l : List Byte) (h : i ≤ l.length)
    (hi : i ≤ 4) (ha : acc.toNat < 256 ^ (4 - i)) :
    ∃ r, readLen i acc l = some (r, l.drop i) ∧ r.toNat = acc.toNat * 256 ^ i + beVal (l.take i) := by
  induction i generalizing acc l with
  | zero => exact ⟨acc, by simp [readLen], by simp⟩
  | succ i ih =>
    cases l with
    | nil => simp at h
    | cons b l =>
      have h1 : i ≤ l.length := Nat.le_of_succ_le_succ h
      have hb := b.isLt
      have hlt : acc.toNat * 256 < 2 ^ 32 := by
        have : (256 : Nat) ^ (4 - (i + 1)) ≤ 256 ^ 3 := Nat.pow_le_pow_right (n := 256) (Nat.succ_pos 255) (by omega)
        have h3 : (256 : Nat) ^ 3 = 16777216 := rfl
        rw [h3] at this
        omega
      have e := shl_or_toNat 32 (by decide) acc b
      rw [Nat.mod_eq_of_lt hlt] at e
      have ha' : ((acc <<< 8) ||| b.setWidth 32).toNat < 256 ^ (4 - i) := by
        rw [e, show 4 - i = (4 - (i + 1)) + 1 by omega, Nat.pow_succ]
        exact step_lt ha hb
      obtain ⟨r, hr, hv⟩ := ih _ l h1 (by omega) ha'
      refine ⟨r, by simpa [readLen] using hr, ?_⟩
      rw [hv, e, List.take_succ_cons, beVal_cons, List.length_take, Nat.min_eq_left h1,
        Nat.pow_succ, Nat.add_mul]
      rw [Nat.mul_assoc acc.toNat, Nat.mul_comm 256, Nat.mul_comm b.toNat, Nat.add_assoc]

theorem readLen0 (i : Nat) (l : List Byte) (h : i ≤ l.length) (hi : i ≤ 4) :
    ∃ r, readLen i 0 l = some (r, l.drop i) ∧ r.toNat = beVal (l.take i) := by
  have := readLen_spec i 0 l h hi (by simpa using Nat.pow_pos (by decide))
  simpa using this

theorem encodeNumber_eq (k : Nat) (d : BitVec 64) : encodeNumber d k = beBytes k d.toNat := by
  induction k generalizing d with
  | zero => rfl
  | succ k ih =>
    rw [encodeNumber, beBytes, ih, BitVec.toNat_ushiftRight, Nat.shiftRight_eq_div_pow]
    congr 2

theorem octetNum_spec (n : BitVec 64) :
    n.toNat < 256 ^ octetNumOfUint n ∧ (n ≠ 0 → 256 ^ (octetNumOfUint n - 1) ≤ n.toNat ∧ 1 ≤ octetNumOfUint n) := by
  induction n using octetNumOfUint.induct with
  | case1 => simp [octetNumOfUint]
  | case2 n h ih =>
    rw [octetNumOfUint, dif_neg h]
    have e : (n >>> 8).toNat = n.toNat / 256 := by
      rw [BitVec.toNat_ushiftRight, Nat.shiftRight_eq_div_pow]
    rw [e] at ih
    have h0 : n.toNat ≠ 0 := fun h0 => h (BitVec.eq_of_toNat_eq (by simpa using h0))
    refine ⟨?_, fun _ => ⟨?_, by omega⟩⟩
    · rw [Nat.pow_succ]; omega
    · rw [Nat.add_sub_cancel]
      by_cases hz : n >>> 8 = 0
      · rw [hz, octetNumOfUint, dif_pos rfl]; omega
      · have := (ih.2 hz)
        have h2 : octetNumOfUint (n >>> 8) = (octetNumOfUint (n >>> 8) - 1) + 1 := by omega
        rw [h2, Nat.pow_succ]; omega

end Verif.Bsl.Asn1
