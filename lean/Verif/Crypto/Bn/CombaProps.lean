import Verif.Crypto.Bn.CombaProof
/-! C57: the fast multiplications give the product.

`Spec.num`, `Spec.int` and `Spec.WellFormed` (Props, ApiProps) are the natural number of a vector of words, the integer of a big
number and the form the library keeps it in. The word has `2 h` bits; the library is built with `h = 32` or `h = 16`. -/
namespace Verif.Crypto.Bn

variable {h : Nat}

theorem val_inj : ∀ {a b : List (W h)}, a.length = b.length → val a = val b → a = b
  | [], [], _, _ => rfl
  | [], _ :: _, hl, _ => by simp at hl
  | _ :: _, [], hl, _ => by simp at hl
  | x :: a, y :: b, hl, hv => by
    simp only [val] at hv
    have hx := x.isLt
    have hy := y.isLt
    have h1 := congrArg (· % 2 ^ (h + h)) hv
    have h2 := congrArg (· / 2 ^ (h + h)) hv
    have hp : 0 < 2 ^ (h + h) := Nat.pow_pos (by decide)
    simp only [Nat.add_mul_mod_self_left, Nat.mod_eq_of_lt hx, Nat.mod_eq_of_lt hy] at h1
    simp only [Nat.add_mul_div_left _ _ hp, Nat.div_eq_of_lt hx, Nat.div_eq_of_lt hy, Nat.zero_add] at h2
    rw [BitVec.eq_of_toNat_eq h1, val_inj (by simpa using hl) h2]

/-! ### The unrolled multiplications -/

/-- The unrolled multiplications of 2, 3, 4, 6 and 8 words read no word outside of the operands and give the product. -/
theorem unrolled_mul_exact (hh : 2 ≤ h) (n : Nat) (cols : List (List Line))
    (hn : (n, cols) = (2, mulComba2) ∨ (n, cols) = (3, mulComba3) ∨ (n, cols) = (4, mulComba4) ∨ (n, cols) = (6, mulComba6) ∨ (n, cols) = (8, mulComba8))
    (a b : List (W h)) (ha : a.length = n) (hb : b.length = n) :
    ∃ r, runCols a b cols (0, 0, 0) = some r ∧ r.length = 2 * n ∧ Spec.num r = Spec.num a * Spec.num b := by
  simp only [num_eq]
  rcases hn with hn | hn | hn | hn | hn <;> obtain ⟨rfl, rfl⟩ := Prod.mk.inj hn
  · exact mulComba2_spec hh a b ha hb
  · exact mulComba3_spec hh a b ha hb
  · exact mulComba4_spec hh a b ha hb
  · exact mulComba6_spec hh a b ha hb
  · exact mulComba8_spec hh a b ha hb

/-- The unrolled squarings. -/
theorem unrolled_sqr_exact (hh : 2 ≤ h) (n : Nat) (cols : List (List Line))
    (hn : (n, cols) = (2, sqrComba2) ∨ (n, cols) = (3, sqrComba3) ∨ (n, cols) = (4, sqrComba4) ∨ (n, cols) = (6, sqrComba6) ∨ (n, cols) = (8, sqrComba8))
    (a : List (W h)) (ha : a.length = n) :
    ∃ r, runCols a a cols (0, 0, 0) = some r ∧ r.length = 2 * n ∧ Spec.num r = Spec.num a ^ 2 := by
  simp only [num_eq, pow_two]
  rcases hn with hn | hn | hn | hn | hn <;> obtain ⟨rfl, rfl⟩ := Prod.mk.inj hn
  · exact sqrComba2_spec hh a ha
  · exact sqrComba3_spec hh a ha
  · exact sqrComba4_spec hh a ha
  · exact sqrComba6_spec hh a ha
  · exact sqrComba8_spec hh a ha

/-! ### The divide-and-conquer multiplications -/

/-- Two vectors of any size, in a workspace of `SpaceSize` words or more: no access outside of a vector or of the workspace,
and the words of the product, with and without the constant-time flag. -/
theorem conquer_mul_exact (hh : 2 ≤ h) (consttime : Bool) (room : Nat) (a b : List (W h)) (hab : a.length = b.length) (h0 : a ≠ [])
    (hroom : spaceSize a.length ≤ room) :
    ∃ r, mulConquer consttime a.length room a b = some r ∧ r.length = 2 * a.length ∧ Spec.num r = Spec.num a * Spec.num b := by
  simp only [num_eq]
  refine mulConquer_spec hh consttime a.length room a b hab (List.length_pos_iff.2 h0) (Nat.le_refl _) ?_
  rcases fits_space a.length with hf | ⟨k, k1, k2⟩
  · exact Or.inl hf
  · exact Or.inr ⟨k, k1, Nat.le_trans k2 hroom⟩

theorem conquer_sqr_exact (hh : 2 ≤ h) (consttime : Bool) (room : Nat) (a : List (W h)) (h0 : a ≠ []) (hroom : spaceSize a.length ≤ room) :
    ∃ r, sqrConquer consttime a.length room a = some r ∧ r.length = 2 * a.length ∧ Spec.num r = Spec.num a ^ 2 := by
  simp only [num_eq, pow_two]
  refine sqrConquer_spec hh consttime a.length room a (List.length_pos_iff.2 h0) (Nat.le_refl _) ?_
  rcases fits_space a.length with hf | ⟨k, k1, k2⟩
  · exact Or.inl hf
  · exact Or.inr ⟨k, k1, Nat.le_trans k2 hroom⟩

/-- With no workspace at all, the even sizes up to eight: what `BN_Mul` and `BN_Sqr` rely on when they pass NULL. -/
theorem conquer_small_no_space (hh : 2 ≤ h) (consttime : Bool) (a b : List (W h)) (hab : a.length = b.length) (h0 : a ≠ [])
    (h8 : a.length ≤ 8) (hev : a.length % 2 = 0) :
    (∃ r, mulConquer consttime a.length 0 a b = some r ∧ Spec.num r = Spec.num a * Spec.num b) ∧
      ∃ r, sqrConquer consttime a.length 0 a = some r ∧ Spec.num r = Spec.num a ^ 2 := by
  have hp := List.length_pos_iff.2 h0
  have hs : Fits a.length 0 := by left; unfold Small; omega
  simp only [num_eq, pow_two]
  obtain ⟨r, r1, _, r2⟩ := mulConquer_spec hh consttime a.length 0 a b hab hp (Nat.le_refl _) hs
  obtain ⟨q, q1, _, q2⟩ := sqrConquer_spec hh consttime a.length 0 a hp (Nat.le_refl _) hs
  exact ⟨⟨r, r1, r2⟩, q, q1, q2⟩

/-- The workspace is needed: five words, with none. -/
theorem conquer_odd_needs_space (a b : List (W h)) (ha : a.length = 5) : mulConquer false 5 0 a b = none := by
  rw [mulConquer, show mulBase false a b = none by unfold mulBase; simp [ha]]
  simp [ha]

/-- The fast multiplication writes the same words as the schoolbook multiplication, so what is proved of `BinMul` (the
Montgomery multiplication, the multiplications modulo the NIST primes) holds in a build with the fast ones. -/
theorem conquer_same_words (hh : 2 ≤ h) (consttime : Bool) (room : Nat) (a b : List (W h)) (hab : a.length = b.length) (h0 : a ≠ [])
    (hroom : spaceSize a.length ≤ room) : mulConquer consttime a.length room a b = some (binMul (2 * a.length) a b).1 := by
  obtain ⟨r, r1, r2, r3⟩ := conquer_mul_exact hh consttime room a b hab h0 hroom
  have hb0 : b ≠ [] := by intro hb; rw [hb] at hab; exact h0 (List.length_eq_zero_iff.1 hab)
  obtain ⟨m1, m2, _⟩ := mul_exact (show 0 < h by omega) (2 * a.length) a b hb0 (by omega)
  rw [r1]
  congr 1
  simp only [num_eq] at r3 m2
  exact val_inj (by omega) (by omega)

/-! ### The API -/

/-- `BN_Mul` in a build with the fast multiplications. -/
theorem bn_mul_comba (hh : 2 ≤ h) (room : Nat) (a b : Bn h) (ha : Spec.WellFormed a) (hb : Spec.WellFormed b) :
    ∃ r, bnMulComba room a b = some r ∧ Spec.int r = Spec.int a * Spec.int b ∧ Spec.WellFormed r := by
  rw [wf_iff (by omega)] at ha hb
  obtain ⟨r, h1, h2, h3⟩ := bnMulComba_spec hh room a b ha hb
  exact ⟨r, h1, by rw [int_eq, int_eq, int_eq, h2], by rw [wf_iff (by omega)]; exact h3⟩

theorem bn_sqr_comba (hh : 2 ≤ h) (a : Bn h) (ha : Spec.WellFormed a) :
    ∃ r, bnSqrComba a = some r ∧ Spec.int r = Spec.int a ^ 2 ∧ Spec.WellFormed r := by
  rw [wf_iff (by omega)] at ha
  obtain ⟨r, h1, h2, h3⟩ := bnSqrComba_spec hh a ha
  exact ⟨r, h1, by rw [int_eq, int_eq, h2, pow_two], by rw [wf_iff (by omega)]; exact h3⟩

/-! ### The hypotheses are met -/

/-- Nine words, all bits set: split into four and five, and five into two and three; every carry occurs. -/
example : mulConquer (h := 32) false 9 (spaceSize 9) (List.replicate 9 0xffffffffffffffff) (List.replicate 9 0xffffffffffffffff) =
    some (1 :: List.replicate 8 0 ++ 0xfffffffffffffffe :: List.replicate 8 0xffffffffffffffff) := by decide +kernel
example : sqrConquer (h := 32) true 9 (spaceSize 9) (List.replicate 9 0xffffffffffffffff) =
    some (1 :: List.replicate 8 0 ++ 0xfffffffffffffffe :: List.replicate 8 0xffffffffffffffff) := by decide +kernel
/-- Differences of different signs. -/
example : mulConquer (h := 32) false 5 (spaceSize 5) [1, 0, 0, 0, 7] [0, 9, 0, 0, 0] = some [0, 9, 0, 0, 0, 63, 0, 0, 0, 0] := by decide +kernel
example : spaceSize 8 = 32 ∧ spaceSize 9 = 64 ∧ spaceSize 64 = 256 ∧ spaceSize 65 = 512 := by decide +kernel

example := conquer_mul_exact (h := 32) (by decide) true (spaceSize 9) (List.replicate 9 0xffffffffffffffff) (List.replicate 9 3) rfl (by decide) (Nat.le_refl _)
example := conquer_small_no_space (h := 32) (by decide) false (List.replicate 6 5) (List.replicate 6 3) rfl (by decide) (by decide) (by decide)
example := unrolled_mul_exact (h := 32) (by decide) 8 mulComba8 (by simp) (List.replicate 8 5) (List.replicate 8 3) rfl rfl
example := unrolled_sqr_exact (h := 16) (by decide) 6 sqrComba6 (by simp) (List.replicate 6 5) rfl
example : ∃ r, bnMulComba 0 (⟨true, [5, 1]⟩ : Bn 32) ⟨false, [7, 2]⟩ = some r ∧ Spec.int r = Spec.int (⟨true, [5, 1]⟩ : Bn 32) * Spec.int (⟨false, [7, 2]⟩ : Bn 32) ∧
    Spec.WellFormed r :=
  bn_mul_comba (by decide) 0 _ _ ((wf_iff (by decide) _).2 ⟨by decide +kernel, by simp⟩) ((wf_iff (by decide) _).2 ⟨by decide +kernel, by simp⟩)

end Verif.Crypto.Bn
