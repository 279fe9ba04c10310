import Verif.Crypto.Aes.Spec
import Mathlib.Data.Fintype.Basic
import Mathlib.Tactic.FinCases
import Mathlib.Tactic.IntervalCases

namespace Verif.Crypto.Aes

open Verif.Common

theorem byte_all {p : Byte → Prop} (h : ∀ i : Fin 256, p (BitVec.ofFin i)) (x : Byte) : p x :=
  h x.toFin

theorem xtime_xor (x y : Byte) : Spec.xtime (x ^^^ y) = Spec.xtime x ^^^ Spec.xtime y := by
  simp only [Spec.xtime, BitVec.msb_xor, BitVec.shiftLeft_xor_distrib]
  cases x.msb <;> cases y.msb <;> simp <;> (try ac_rfl)
  all_goals
    have : ∀ a b c : Byte, a ^^^ b = a ^^^ c ^^^ (b ^^^ c) := by
      intro a b c
      rw [show a ^^^ c ^^^ (b ^^^ c) = a ^^^ b ^^^ (c ^^^ c) by ac_rfl, BitVec.xor_self,
        BitVec.xor_zero]
    exact this _ _ _

theorem xtime_iter_xor (n : Nat) (x y : Byte) :
    Spec.xtime^[n] (x ^^^ y) = Spec.xtime^[n] x ^^^ Spec.xtime^[n] y := by
  induction n generalizing x y with
  | zero => rfl
  | succ n ih => simp only [Function.iterate_succ_apply, xtime_xor, ih]

theorem gmul_xor (x y c : Byte) : Spec.gmul (x ^^^ y) c = Spec.gmul x c ^^^ Spec.gmul y c := by
  have h : ∀ (l : List Nat) (r r' : Byte),
      l.foldl (fun r i => if c.getLsbD i then r ^^^ (Spec.xtime^[i] (x ^^^ y)) else r) (r ^^^ r') =
      l.foldl (fun r i => if c.getLsbD i then r ^^^ (Spec.xtime^[i] x) else r) r ^^^
      l.foldl (fun r i => if c.getLsbD i then r ^^^ (Spec.xtime^[i] y) else r) r' := by
    intro l
    induction l with
    | nil => intro r r'; rfl
    | cons i l ih =>
      intro r r'
      simp only [List.foldl_cons]
      rw [← ih]
      congr 1
      split
      · rw [xtime_iter_xor]; ac_rfl
      · rfl
  exact h (List.range 8) 0 0

theorem sbox_inv (x : Byte) : Spec.invSbox (Spec.sbox x) = x := by
  revert x; apply byte_all; decide +kernel

theorem sbox_inv' (x : Byte) : Spec.sbox (Spec.invSbox x) = x := by
  revert x; apply byte_all; decide +kernel

/-- The product of the two coefficient matrices is the identity: the terms of one entry. -/
theorem mix_row (x : Byte) :
    Spec.gmul (Spec.gmul x 2#8) 0x0e#8 ^^^ Spec.gmul x 0x0b#8 ^^^ Spec.gmul x 0x0d#8 ^^^ Spec.gmul (Spec.gmul x 3#8) 0x09#8 = x ∧
    Spec.gmul (Spec.gmul x 3#8) 0x0e#8 ^^^ Spec.gmul (Spec.gmul x 2#8) 0x0b#8 ^^^ Spec.gmul x 0x0d#8 ^^^ Spec.gmul x 0x09#8 = 0#8 ∧
    Spec.gmul x 0x0e#8 ^^^ Spec.gmul (Spec.gmul x 3#8) 0x0b#8 ^^^ Spec.gmul (Spec.gmul x 2#8) 0x0d#8 ^^^ Spec.gmul x 0x09#8 = 0#8 ∧
    Spec.gmul x 0x0e#8 ^^^ Spec.gmul x 0x0b#8 ^^^ Spec.gmul (Spec.gmul x 3#8) 0x0d#8 ^^^ Spec.gmul (Spec.gmul x 2#8) 0x09#8 = 0#8 := by
  revert x; apply byte_all; decide +kernel

theorem mix_row' (x : Byte) :
    Spec.gmul (Spec.gmul x 0x0e#8) 2#8 ^^^ Spec.gmul (Spec.gmul x 0x09#8) 3#8 ^^^ Spec.gmul x 0x0d#8 ^^^ Spec.gmul x 0x0b#8 = x ∧
    Spec.gmul (Spec.gmul x 0x0b#8) 2#8 ^^^ Spec.gmul (Spec.gmul x 0x0e#8) 3#8 ^^^ Spec.gmul x 0x09#8 ^^^ Spec.gmul x 0x0d#8 = 0#8 ∧
    Spec.gmul (Spec.gmul x 0x0d#8) 2#8 ^^^ Spec.gmul (Spec.gmul x 0x0b#8) 3#8 ^^^ Spec.gmul x 0x0e#8 ^^^ Spec.gmul x 0x09#8 = 0#8 ∧
    Spec.gmul (Spec.gmul x 0x09#8) 2#8 ^^^ Spec.gmul (Spec.gmul x 0x0d#8) 3#8 ^^^ Spec.gmul x 0x0b#8 ^^^ Spec.gmul x 0x0e#8 = 0#8 := by
  revert x; apply byte_all; decide +kernel

theorem fin4 (r : Fin 4) : r + 1 + 1 = r + 2 ∧ r + 1 + 2 = r + 3 ∧ r + 1 + 3 = r ∧
    r + 2 + 1 = r + 3 ∧ r + 2 + 2 = r ∧ r + 2 + 3 = r + 1 ∧ r + 3 + 1 = r ∧ r + 3 + 2 = r + 1 ∧
    r + 3 + 3 = r + 2 := by
  revert r; decide
theorem fin4' (r c : Fin 4) : c - r + r = c ∧ c + r - r = c := by
  revert r c; decide

theorem xor4 {x y a b c d : Byte} (ha : a = x) (hb : b = 0) (hc : c = 0) (hd : d = 0)
    (h : y = a ^^^ b ^^^ c ^^^ d) : y = x := by
  rw [h, ha, hb, hc, hd]; simp

theorem invMix_mix (s : Spec.State) : Spec.invMixColumns (Spec.mixColumns s) = s := by
  funext r c
  simp only [Spec.invMixColumns, Spec.mixColumns, gmul_xor, fin4]
  obtain ⟨a, -, -, -⟩ := mix_row (s r c)
  obtain ⟨-, b, -, -⟩ := mix_row (s (r + 1) c)
  obtain ⟨-, -, d, -⟩ := mix_row (s (r + 2) c)
  obtain ⟨-, -, -, e⟩ := mix_row (s (r + 3) c)
  generalize s (r + 3) c = p3 at *
  generalize s (r + 2) c = p2 at *
  generalize s (r + 1) c = p1 at *
  generalize s r c = p0 at *
  exact xor4 a b d e (by ac_rfl)

theorem mix_invMix (s : Spec.State) : Spec.mixColumns (Spec.invMixColumns s) = s := by
  funext r c
  simp only [Spec.invMixColumns, Spec.mixColumns, gmul_xor, fin4]
  obtain ⟨a, -, -, -⟩ := mix_row' (s r c)
  obtain ⟨-, b, -, -⟩ := mix_row' (s (r + 1) c)
  obtain ⟨-, -, d, -⟩ := mix_row' (s (r + 2) c)
  obtain ⟨-, -, -, e⟩ := mix_row' (s (r + 3) c)
  generalize s (r + 3) c = p3 at *
  generalize s (r + 2) c = p2 at *
  generalize s (r + 1) c = p1 at *
  generalize s r c = p0 at *
  exact xor4 a b d e (by ac_rfl)

theorem invSub_sub (s : Spec.State) : Spec.invSubBytes (Spec.subBytes s) = s := by
  funext r c; exact sbox_inv _
theorem sub_invSub (s : Spec.State) : Spec.subBytes (Spec.invSubBytes s) = s := by
  funext r c; exact sbox_inv' _
theorem invShift_shift (s : Spec.State) : Spec.invShiftRows (Spec.shiftRows s) = s := by
  funext r c; simp only [Spec.invShiftRows, Spec.shiftRows, fin4']
theorem shift_invShift (s : Spec.State) : Spec.shiftRows (Spec.invShiftRows s) = s := by
  funext r c; simp only [Spec.invShiftRows, Spec.shiftRows, fin4']
theorem add_add (w : Nat → Spec.Word) (i : Nat) (s : Spec.State) :
    Spec.addRoundKey w i (Spec.addRoundKey w i s) = s := by
  funext r c; simp [Spec.addRoundKey, BitVec.xor_assoc]

theorem rounds_inv (w : Nat → Spec.Word) (n : Nat) (s : Spec.State) :
    Spec.invRounds w n (Spec.shiftRows (Spec.subBytes (Spec.rounds w n s))) =
      Spec.shiftRows (Spec.subBytes s) := by
  induction n with
  | zero => rfl
  | succ n ih => rw [Spec.rounds, Spec.invRounds, invShift_shift, invSub_sub, add_add, invMix_mix, ih]

theorem invCipher_cipher (nr : Nat) (w : Nat → Spec.Word) (s : Spec.State) :
    Spec.invCipher nr w (Spec.cipher nr w s) = s := by
  rw [Spec.invCipher, Spec.cipher, add_add, rounds_inv, invShift_shift, invSub_sub, add_add]

theorem rounds_inv' (w : Nat → Spec.Word) (n : Nat) (s : Spec.State) :
    Spec.shiftRows (Spec.subBytes (Spec.rounds w n (Spec.invSubBytes (Spec.invShiftRows (Spec.invRounds w n s))))) = s := by
  induction n generalizing s with
  | zero => simp only [Spec.rounds, Spec.invRounds, sub_invSub, shift_invShift]
  | succ n ih =>
    rw [Spec.rounds, Spec.invRounds]
    rw [ih, mix_invMix, add_add, sub_invSub, shift_invShift]

theorem cipher_invCipher (nr : Nat) (w : Nat → Spec.Word) (s : Spec.State) :
    Spec.cipher nr w (Spec.invCipher nr w s) = s := by
  rw [Spec.invCipher, Spec.cipher, add_add, rounds_inv', add_add]

/-! ## Blocks -/

theorem store_length (s : Spec.State) : (Spec.store s).length = 16 := rfl

theorem load_store (s : Spec.State) : Spec.load (Spec.store s) (store_length s) = s := by
  funext r c; fin_cases r <;> fin_cases c <;> rfl

theorem store_load (b : List Byte) (h : b.length = 16) : Spec.store (Spec.load b h) = b := by
  match b, h with
  | [a0, a1, a2, a3, b0, b1, b2, b3, c0, c1, c2, c3, d0, d1, d2, d3], _ => rfl

end Verif.Crypto.Aes
