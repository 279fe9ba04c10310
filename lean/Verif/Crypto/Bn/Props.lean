import Verif.Crypto.Bn.DivProof
/-! C21: vectors of machine words compute exactly.

The word has `w = 2 h` bits; the library is built with `w = 64` or `w = 32`. Every theorem holds for every word size `2 h > 0`, those that
count bits for every power of two. -/
namespace Verif.Crypto.Bn

namespace Spec

/-- The number written with the given digits, least significant first. -/
def number (base : Nat) : List Nat → Nat
  | [] => 0
  | d :: ds => d + base * number base ds

/-- The number a vector of words stands for. -/
def num {h : Nat} (l : List (W h)) : Nat := number (2 ^ (h + h)) (l.map BitVec.toNat)

/-- No leading zero word. -/
def Normal {h : Nat} (l : List (W h)) : Prop := ∀ x, l.getLast? = some x → x ≠ 0

end Spec

variable {h : Nat}

theorem num_eq (l : List (W h)) : Spec.num l = val l := by
  unfold Spec.num
  induction l with
  | nil => rfl
  | cons x l ih => simp only [List.map_cons, Spec.number, val, ih]

/-- C21: the sum with its carry. -/
theorem add_exact (hh : 0 < h) (a b : List (W h)) (hl : a.length = b.length) :
    (binAdd a b 0).1.length = a.length ∧ (binAdd a b 0).2.toNat ≤ 1 ∧
    Spec.num (binAdd a b 0).1 + (2 ^ (h + h)) ^ a.length * (binAdd a b 0).2.toNat = Spec.num a + Spec.num b := by
  obtain ⟨h1, h2⟩ := binAdd_spec hh a b 0 hl
  rw [toNat_zero', Nat.add_zero] at h1
  simp only [num_eq]
  refine ⟨h2, ?_, h1⟩
  by_contra hcon
  have := Nat.mul_le_mul_left ((2 ^ (h + h)) ^ a.length) (show 2 ≤ (binAdd a b 0).2.toNat by omega)
  have l1 := val_lt a
  have l2 := val_lt b
  rw [← hl] at l2
  omega

/-- C21: the difference with its borrow. -/
theorem sub_exact (hh : 0 < h) (a b : List (W h)) (hl : a.length = b.length) :
    (binSub a b 0).1.length = a.length ∧
    Spec.num (binSub a b 0).1 + Spec.num b = Spec.num a + (2 ^ (h + h)) ^ a.length * (binSub a b 0).2.toNat ∧
    ((binSub a b 0).2.toNat = if Spec.num a < Spec.num b then 1 else 0) := by
  obtain ⟨h1, h2⟩ := binSub_spec hh a b 0 hl
  rw [toNat_zero', Nat.add_zero] at h1
  simp only [num_eq]
  refine ⟨h2, h1, ?_⟩
  have l1 := val_lt a
  have l2 := val_lt b
  have l3 := val_lt (binSub a b 0).1
  rw [h2] at l3
  rw [← hl] at l2
  have hp : 0 < (2 ^ (h + h)) ^ a.length := by omega
  by_cases hc : val a < val b
  · rw [if_pos hc]
    rcases Nat.lt_trichotomy (binSub a b 0).2.toNat 1 with ht | ht | ht
    · have : (binSub a b 0).2.toNat = 0 := by omega
      rw [this] at h1; omega
    · exact ht
    · have := Nat.mul_le_mul_left ((2 ^ (h + h)) ^ a.length) (show 2 ≤ (binSub a b 0).2.toNat by omega)
      omega
  · rw [if_neg hc]
    by_contra hcon
    have := Nat.mul_le_mul_left ((2 ^ (h + h)) ^ a.length) (show 1 ≤ (binSub a b 0).2.toNat by omega)
    omega

/-- C21: adding one word. -/
theorem inc_exact (hh : 0 < h) (a : List (W h)) (w : W h) :
    (binInc a w).1.length = a.length ∧ Spec.num (binInc a w).1 + (2 ^ (h + h)) ^ a.length * (binInc a w).2.toNat = Spec.num a + w.toNat := by
  obtain ⟨h1, h2⟩ := binInc_spec hh a w
  simp only [num_eq]; exact ⟨h2, h1⟩

/-- C21: subtracting one word. -/
theorem dec_exact (hh : 0 < h) (a : List (W h)) (w : W h) :
    (binDec a w).1.length = a.length ∧ Spec.num (binDec a w).1 + w.toNat = Spec.num a + (2 ^ (h + h)) ^ a.length * (binDec a w).2.toNat := by
  obtain ⟨h1, h2⟩ := binDec_spec hh a w
  simp only [num_eq]; exact ⟨h2, h1⟩

/-- C21: multiply by a word and accumulate. -/
theorem mulAcc_exact (hh : 0 < h) (r a : List (W h)) (b : W h) (hl : r.length = a.length) :
    (binMulAcc r a b 0).1.length = a.length ∧
    Spec.num (binMulAcc r a b 0).1 + (2 ^ (h + h)) ^ a.length * (binMulAcc r a b 0).2.toNat = Spec.num r + Spec.num a * b.toNat := by
  obtain ⟨h1, h2⟩ := binMulAcc_spec hh r a b 0 hl
  rw [toNat_zero', Nat.add_zero] at h1
  simp only [num_eq]; exact ⟨h2, h1⟩

/-- C21: multiply by a word and subtract. -/
theorem subMul_exact (hh : 0 < h) (r a : List (W h)) (m : W h) (hl : r.length = a.length) :
    (binSubMul r a m 0).1.length = a.length ∧
    Spec.num (binSubMul r a m 0).1 + Spec.num a * m.toNat = Spec.num r + (2 ^ (h + h)) ^ a.length * (binSubMul r a m 0).2.toNat := by
  obtain ⟨h1, h2⟩ := binSubMul_spec hh r a m 0 hl
  rw [toNat_zero', Nat.add_zero] at h1
  simp only [num_eq]; exact ⟨h2, h1⟩

/-- C21: the product, in a destination with room for it; the returned size leaves out only zeros. -/
theorem mul_exact (hh : 0 < h) (room : Nat) (a b : List (W h)) (hb : b ≠ []) (hr : a.length + b.length ≤ room) :
    (binMul room a b).1.length = room ∧ Spec.num (binMul room a b).1 = Spec.num a * Spec.num b ∧
    (binMul room a b).2 ≤ a.length + b.length ∧ Spec.num ((binMul room a b).1.drop (binMul room a b).2) = 0 := by
  have hpos := List.length_pos_iff.2 hb
  simp only [num_eq]
  obtain ⟨r, carry, h1, h2, h3, h4, h5⟩ := mulLoop_spec hh a b (List.replicate a.length 0) (room - a.length) 0 (by simp) (by omega)
  rw [List.replicate_append_replicate, show a.length + (room - a.length) = room by omega] at h1
  unfold binMul
  rw [h1]
  simp only
  refine ⟨by omega, by rw [h2, val_replicate, Nat.zero_add], by omega, ?_⟩
  by_cases hc : carry = 0
  · rw [if_pos hc]; exact h4 hpos hc
  · rw [if_neg hc]; exact h5

/-- C21: the square. -/
theorem sqr_exact (hh : 0 < h) (room : Nat) (a : List (W h)) (ha : a ≠ []) (hr : 2 * a.length ≤ room) :
    ∃ r size, binSqr room a = some (r, size) ∧ r.length = room ∧ Spec.num r = Spec.num a * Spec.num a ∧ size ≤ 2 * a.length ∧
      Spec.num (r.drop size) = 0 := by
  simp only [num_eq]; exact binSqr_spec hh room a ha hr

/-- C21: shifting right divides by a power of two, rounding down. -/
theorem rshift_exact (hh : 0 < h) (a : List (W h)) (bits : Nat) (ha : bits < (h + h) * a.length) :
    ∃ r, binRshift a bits = some r ∧ Spec.num r = Spec.num a / 2 ^ bits := by
  simp only [num_eq]
  exact binRshift_spec hh a bits (by rw [Nat.div_lt_iff_lt_mul (by omega), Nat.mul_comm]; exact ha)

/-- C21: shifting left multiplies by a power of two. -/
theorem lshift_exact (hh : 0 < h) (a : List (W h)) (bits : Nat) (ha : a ≠ []) :
    ∃ r, binLshift a bits = some r ∧ Spec.num r = Spec.num a * 2 ^ bits := by
  simp only [num_eq]
  obtain ⟨r, h1, h2, _⟩ := binLshift_spec hh a bits ha
  exact ⟨r, h1, h2⟩

/-- C21: comparison of vectors without leading zeros is comparison of the numbers. -/
theorem cmp_exact (hh : 0 < h) (a b : List (W h)) (ha : Spec.Normal a) (hb : Spec.Normal b) :
    (binCmp a b = -1 ↔ Spec.num a < Spec.num b) ∧ (binCmp a b = 0 ↔ Spec.num a = Spec.num b) ∧ (binCmp a b = 1 ↔ Spec.num a > Spec.num b) := by
  simp only [num_eq]
  have hN : ∀ l : List (W h), Spec.Normal l → Norm l := fun l hl _ hx => hl _ hx rfl
  obtain ⟨h1, h2, h3⟩ := binCmp_spec hh a b (hN a ha) (hN b hb)
  rcases Nat.lt_trichotomy (val a) (val b) with hc | hc | hc
  · rw [h1 hc]; refine ⟨⟨fun _ => hc, fun _ => rfl⟩, ⟨fun hx => absurd hx (by decide), fun hx => by omega⟩, ⟨fun hx => absurd hx (by decide), fun hx => by omega⟩⟩
  · rw [h2 hc]; refine ⟨⟨fun hx => absurd hx (by decide), fun hx => by omega⟩, ⟨fun _ => hc, fun _ => rfl⟩, ⟨fun hx => absurd hx (by decide), fun hx => by omega⟩⟩
  · rw [h3 hc]; refine ⟨⟨fun hx => absurd hx (by decide), fun hx => by omega⟩, ⟨fun hx => absurd hx (by decide), fun hx => by omega⟩, ⟨fun _ => hc, fun _ => rfl⟩⟩

/-- C21: the number of leading zero bits of a word. -/
theorem zeroBits_exact {j : Nat} (hj : h = 2 ^ j) (x : W h) (hx : x ≠ 0) :
    zeroBits x < h + h ∧ 2 ^ (h + h - 1 - zeroBits x) ≤ x.toNat ∧ x.toNat < 2 ^ (h + h - zeroBits x) := zeroBits_spec hj x hx

/-- C21: quotient and remainder, for every dividend and every divisor whose top word is not zero; both come without leading zeros. -/
theorem div_exact {j : Nat} (hj : h = 2 ^ j) (x y : List (W h)) (hx : x ≠ []) (hy : y ≠ []) (hn : Spec.Normal y) :
    ∃ r rSize q qSize, binDiv x y = some ((r, rSize), (q, qSize)) ∧ rSize ≤ r.length ∧ qSize ≤ q.length ∧
      Spec.num (q.take qSize) = Spec.num x / Spec.num y ∧ Spec.num (r.take rSize) = Spec.num x % Spec.num y ∧
      Spec.Normal (q.take qSize) ∧ Spec.Normal (r.take rSize) := by
  simp only [num_eq]
  have hsplit := List.dropLast_concat_getLast hy
  have hyy : y.getLast hy ≠ 0 := hn _ (List.getLast?_eq_some_getLast hy)
  rw [← hsplit]
  generalize y.dropLast = yl at *
  generalize y.getLast hy = yy at *
  obtain ⟨r, rS, q, qS, h1, h2, h3, h4, h5, h6, h7⟩ := binDiv_spec hj x yl yy hx hyy
  have hpos : 0 < val (yl ++ [yy]) := by omega
  have hnorm : ∀ (l : List (W h)) (n : Nat), n ≤ l.length → (0 < n → ∃ t, l[n - 1]? = some t ∧ t ≠ 0) → Spec.Normal (l.take n) := by
    intro l n hn hl x hx
    rcases Nat.eq_zero_or_pos n with h0 | h0
    · subst h0; simp at hx
    · obtain ⟨t, ht, hne⟩ := hl h0
      rw [List.getLast?_eq_getElem?, List.length_take, Nat.min_eq_left hn, List.getElem?_take_of_lt (by omega), ht, Option.some.injEq] at hx
      rw [← hx]; exact hne
  refine ⟨r, rS, q, qS, h1, h5, h4, ?_, ?_, hnorm q qS h4 h6, hnorm r rS h5 h7⟩
  · rw [h2, Nat.mul_comm, Nat.mul_add_div hpos, Nat.div_eq_of_lt h3, Nat.add_zero]
  · rw [h2, Nat.mul_comm, Nat.mul_add_mod, Nat.mod_eq_of_lt h3]

/-! ### Concrete cases -/

/-- 64-bit words: a carry through two words. -/
example : binAdd (h := 32) [0xffffffffffffffff#64, 0xffffffffffffffff#64] [1#64, 0#64] 0 = ([0#64, 0#64], 1#64) := by decide +kernel

/-- 8-bit words: the estimate is one too large and the divisor is added back. -/
example : binDiv (h := 4) [0#8, 0#8, 0#8, 0x80#8] [1#8, 0#8, 0x80#8] = some (([1#8, 0xff#8, 0x7f#8, 0#8, 0#8], 3), ([0xff#8, 0#8], 1)) := by decide +kernel

example : ∃ j, 32 = 2 ^ j := ⟨5, rfl⟩

example : binDiv (h := 4) [0xff#8, 0xff#8, 0xff#8] [0x03#8, 0x02#8] = some (([0x3c#8, 0#8, 0#8], 1), ([0x41#8, 0x7f#8], 2)) := by decide +kernel

example : binMul (h := 4) 4 [0xff#8, 0xff#8] [0xff#8, 0xff#8] = ([1#8, 0#8, 0xfe#8, 0xff#8], 4) := by decide +kernel
example : binSqr (h := 4) 4 [0xff#8, 0xff#8] = some ([1#8, 0#8, 0xfe#8, 0xff#8], 4) := by decide +kernel
example : binLshift (h := 4) [0x81#8, 0x81#8] 9 = some [0#8, 2#8, 3#8, 1#8] := by decide +kernel
example : binRshift (h := 4) [0#8, 2#8, 3#8, 1#8] 9 = some [0x81#8, 0x81#8] := by decide +kernel
example : binCmp (h := 4) [5#8, 1#8] [6#8, 1#8] = -1 := by decide +kernel
example : zeroBits (h := 4) 0x13#8 = 3 := by decide +kernel

end Verif.Crypto.Bn
