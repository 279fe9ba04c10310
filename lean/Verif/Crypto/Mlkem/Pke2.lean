import Verif.Crypto.Mlkem.Pke
/-! The three K-PKE operations against the ring equations of FIPS 203. -/
namespace Verif.Crypto.Mlkem
open Finset Spec

theorem abs_of_pos {x : Int} (h : 0 ≤ x ∧ x < 3329) : |x| ≤ 3328 := abs_le.mpr (by omega)

theorem comp_out (d : Nat) (hd : d = 1 ∨ d = 4 ∨ d = 5 ∨ d = 10 ∨ d = 11) (g : Poly) (f : Nat → Int)
    (hr : ∀ x, x < 256 → (-3329 ≤ g x ∧ g x ≤ 3360 ∨ (d ≠ 11 ∧ -3329 ≤ g x ∧ g x < 6658)))
    (hg : ∀ x, x < 256 → cz g x = cz f x) :
    ∃ c, polyCompress d g = some c ∧ ∀ x, x < 256 → c x = Spec.compress d (f x) := by
  obtain ⟨c, hc, h⟩ := polyCompress_at d hd g
  refine ⟨c, hc, fun x hx => ?_⟩
  rw [h x _ (compress_spec d hd (g x) (hr x hx))]
  exact spec_compress_congr d _ _ (hg x hx)

/-- `MLKEM_PKEEnc`: both halves of the ciphertext are the compressed ring expressions. -/
theorem pkeEnc_spec (k du dv : Nat) (hk : k ≤ 4) (hdu : du = 10 ∨ du = 11) (hdv : dv = 4 ∨ dv = 5)
    (a : Nat → Nat → Poly) (t y e1 : Nat → Poly) (e2 mu : Poly)
    (ha : ∀ i j, i < k → j < k → ∀ x, x < 256 → 0 ≤ a i j x ∧ a i j x < 3329)
    (ht : ∀ j, j < k → ∀ x, x < 256 → 0 ≤ t j x ∧ t j x < 3329)
    (hy : ∀ i, i < k → ∀ x, x < 256 → |y i x| ≤ 3) (he1 : ∀ i, i < k → ∀ x, x < 256 → |e1 i x| ≤ 3) (he2 : ∀ x, x < 256 → |e2 x| ≤ 3)
    (hmu : ∀ x, x < 256 → mu x = 0 ∨ mu x = 1665)
    (A : Nat → Nat → Nat → Zq) (hA : ∀ i j, i < k → j < k → ∀ x, x < 256 → Spec.ntt (A i j) x = cz (a i j) x)
    (T : Nat → Nat → Zq) (hT : ∀ j, j < k → ∀ x, x < 256 → Spec.ntt (T j) x = cz (t j) x)
    (U : Nat → Nat → Int) (V : Nat → Int)
    (hU : ∀ i, i < k → el (cz (U i)) = ∑ j ∈ range k, el (A j i) * el (cz (y j)) + el (cz (e1 i)))
    (hV : el (cz V) = ∑ j ∈ range k, el (T j) * el (cz (y j)) + el (cz e2) + el (cz mu)) :
    (∀ i, i < k → ∃ c, (pkeEnc k du dv a t y e1 e2 mu).1 i = some c ∧ ∀ x, x < 256 → c x = Spec.compress du (U i x)) ∧
    ∃ c, (pkeEnc k du dv a t y e1 e2 mu).2 = some c ∧ ∀ x, x < 256 → c x = Spec.compress dv (V x) := by
  constructor
  · intro i hi
    have ip := ip_spec k hk (fun j => a j i) y 3 (by decide) (fun j hj x h => abs_of_pos (ha j i hj hi x h)) hy (fun j => A j i)
      (fun j hj x h => hA j i hj hi x h) (fit_small k hk _ y (fun j hj x h => abs_of_pos (ha j i hj hi x h)) hy)
      (fun x => cz (U i) x - cz (e1 i) x) (by rw [el_sub, hU i hi]; ring)
    have hg : transposeMatrixMulAdd k a (fun i => ntt zetaPower1 (y i))
        (fun i => mulCache zetaPower2 (ntt zetaPower1 (y i))) i =
        polyReduce (acc (fun j => a j i) (fun j => ntt zetaPower1 (y j)) (fun _ => 0) k) := by
      unfold transposeMatrixMulAdd
      rw [matrixRow_eq]
    simp only [pkeEnc]
    rw [hg]
    generalize intt zetaPower1 (polyReduce (acc (fun j => a j i) (fun j => ntt zetaPower1 (y j)) (fun _ => 0) k)) = G
      at ip ⊢
    have hadd : ∀ x, x < 256 → addPoly (e1 i) G x = G x + e1 i x ∧ |G x + e1 i x| ≤ 1667 := by
      intro x hx
      have h1 := abs_le.mp (ip x hx).1
      have h2 := abs_le.mp (he1 i hi x hx)
      exact ⟨i16_id (by omega), abs_le.mpr (by omega)⟩
    refine comp_out du (by omega) _ _ (fun x hx => ?_) (fun x hx => ?_)
    · obtain ⟨h1, h2⟩ := hadd x hx
      have := abs_le.mp h2
      omega
    · show ((addPoly (e1 i) G x : Int) : Zq) = _
      rw [(hadd x hx).1]
      have h := (ip x hx).2
      have hG : ((G x : Int) : Zq) = cz (U i) x - cz (e1 i) x := h
      push_cast
      rw [hG]
      unfold cz
      ring
  · have ip := ip_spec k hk t y 3 (by decide) (fun j hj x h => abs_of_pos (ht j hj x h)) hy T hT
      (fit_small k hk _ y (fun j hj x h => abs_of_pos (ht j hj x h)) hy)
      (fun x => cz V x - cz e2 x - cz mu x) (by rw [el_sub (fun x => cz V x - cz e2 x), el_sub, hV]; ring)
    simp only [pkeEnc, vectorInnerProduct]
    rw [innerProduct_eq]
    generalize intt zetaPower1 (polyReduce (acc t (fun j => ntt zetaPower1 (y j)) (fun _ => 0) k)) = G at ip ⊢
    have hadd : ∀ x, x < 256 → addPoly mu (addPoly e2 G) x = G x + e2 x + mu x ∧
        -1667 ≤ G x + e2 x + mu x ∧ G x + e2 x + mu x ≤ 3332 := by
      intro x hx
      have h1 := abs_le.mp (ip x hx).1
      have h2 := abs_le.mp (he2 x hx)
      have h3 := hmu x hx
      unfold addPoly
      rw [i16_id (x := G x + e2 x) (by omega), i16_id (by omega)]
      exact ⟨rfl, by omega, by omega⟩
    refine comp_out dv (by omega) _ _ (fun x hx => ?_) (fun x hx => ?_)
    · obtain ⟨h1, h2, h3⟩ := hadd x hx
      omega
    · show ((addPoly mu (addPoly e2 G) x : Int) : Zq) = _
      rw [(hadd x hx).1]
      have hG : ((G x : Int) : Zq) = cz V x - cz e2 x - cz mu x := (ip x hx).2
      push_cast
      rw [hG]
      unfold cz
      ring

/-- `MLKEM_PKEDec`: the message is the compressed ring expression, for every key and every ciphertext. -/
theorem pkeDec_spec (k : Nat) (hk : k ≤ 4) (s c1 : Nat → Poly) (c2 : Poly)
    (hs : ∀ j, j < k → ∀ x, x < 256 → 0 ≤ s j x ∧ s j x < 3329) (hc1 : ∀ j, j < k → ∀ x, x < 256 → 0 ≤ c1 j x ∧ c1 j x < 3329)
    (hc2 : ∀ x, x < 256 → 0 ≤ c2 x ∧ c2 x < 3329)
    (S : Nat → Nat → Zq) (hS : ∀ j, j < k → ∀ x, x < 256 → Spec.ntt (S j) x = cz (s j) x)
    (W : Nat → Int) (hW : el (cz W) = el (cz c2) - ∑ j ∈ range k, el (S j) * el (cz (c1 j))) :
    ∃ m, pkeDec k s c1 c2 = some m ∧ ∀ x, x < 256 → m x = Spec.compress 1 (W x) := by
  have ip := ip_spec k hk s c1 3328 (by decide) (fun j hj x h => abs_of_pos (hs j hj x h))
    (fun j hj x h => abs_of_pos (hc1 j hj x h)) S hS
    (fit_large k hk s c1 (fun j hj x h => abs_of_pos (hs j hj x h)) (fun j hj x h => abs_of_pos (hc1 j hj x h)))
    (fun x => cz c2 x - cz W x) (by rw [el_sub, hW]; ring)
  simp only [pkeDec, vectorInnerProduct]
  rw [innerProduct_eq]
  generalize intt zetaPower1 (polyReduce (acc s (fun j => ntt zetaPower1 (c1 j)) (fun _ => 0) k)) = G at ip ⊢
  have hsub : ∀ x, x < 256 → subPoly c2 G x = c2 x - G x ∧ -1664 ≤ c2 x - G x ∧ c2 x - G x ≤ 4992 := by
    intro x hx
    have h1 := abs_le.mp (ip x hx).1
    have h2 := hc2 x hx
    unfold subPoly
    rw [i16_id (by omega)]
    exact ⟨rfl, by omega, by omega⟩
  refine comp_out 1 (by omega) _ _ (fun x hx => ?_) (fun x hx => ?_)
  · obtain ⟨h1, h2, h3⟩ := hsub x hx
    right; omega
  · show ((subPoly c2 G x : Int) : Zq) = _
    rw [(hsub x hx).1]
    have hG : ((G x : Int) : Zq) = cz c2 x - cz W x := (ip x hx).2
    push_cast
    rw [hG]
    unfold cz
    ring

/-- Rounding to a bit is right for noise in `[-832, 831]`. -/
theorem compress_bit (b n : Int) (hb : b = 0 ∨ b = 1) (hn : -832 ≤ n ∧ n ≤ 831) :
    Spec.compress 1 (1665 * b + n) = b := by
  unfold Spec.compress
  norm_num
  rcases hb with rfl | rfl
  · rcases (show n % 3329 = n ∨ n % 3329 = n + 3329 by omega) with h | h <;>
    · rw [show (1665 * 0 + n) % 3329 = n % 3329 by omega, h]; omega
  · rw [show (1665 * 1 + n) % 3329 = 1665 + n by omega]; omega

/-- Reduced representative, as stored by the 12-bit encoding. -/
def canon (a : Poly) : Poly := fun x => if a x < 0 then a x + 3329 else a x

theorem canon_range (a : Poly) (x : Nat) (h : |a x| ≤ 3328) : 0 ≤ canon a x ∧ canon a x < 3329 := by
  unfold canon
  have := abs_le.mp h
  split <;> omega

theorem canon_cz (a : Poly) : cz (canon a) = cz a := by
  funext x
  unfold cz canon
  split
  · have : ((3329 : Int) : Zq) = 0 := by decide
    push_cast at this ⊢
    rw [this, add_zero]
  · rfl

end Verif.Crypto.Mlkem
