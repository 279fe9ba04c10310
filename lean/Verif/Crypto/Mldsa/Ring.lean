import Verif.Crypto.Mldsa.Intt
import Mathlib.Algebra.BigOperators.Intervals
import Mathlib.Algebra.Ring.Parity
import Mathlib.Data.Fintype.EquivFin
import Mathlib.Data.Fintype.Pi
import Mathlib.Data.ZMod.Basic
/-! The transform turns multiplication in `Z_q[X] / (X^256 + 1)` into pointwise multiplication, and is one to one. -/
namespace Verif.Crypto.Mldsa
open Finset

namespace Spec
/-- The product in `R_q = Z_q[X] / (X^256 + 1)` (FIPS 204, 2.3): coefficient `k` collects `f i · g j` with `i + j = k`,
and with a minus sign those with `i + j = k + 256`. -/
def ringMul (f g : Nat → Zq) (k : Nat) : Zq :=
  ∑ i ∈ range 256, if i ≤ k then f i * g (k - i) else -(f i * g (256 + k - i))
end Spec

theorem root_pow (x : Nat) : Spec.root x ^ 256 = -1 := by
  unfold Spec.root
  rw [← pow_mul, Nat.mul_comm, pow_mul, show (1753 : Zq) ^ 256 = -1 by decide +kernel]
  exact Odd.neg_one_pow ⟨_, rfl⟩

theorem shift_sum (g : Nat → Zq) (r : Zq) (hr : r ^ 256 = -1) (i : Nat) (hi : i < 256) :
    ∑ k ∈ range 256, (if i ≤ k then g (k - i) else -(g (256 + k - i))) * r ^ k = r ^ i * ∑ j ∈ range 256, g j * r ^ j := by
  have e1 : ∑ k ∈ range 256, (if i ≤ k then g (k - i) else -(g (256 + k - i))) * r ^ k =
      ∑ k ∈ range (i + (256 - i)), (if i ≤ k then g (k - i) else -(g (256 + k - i))) * r ^ k := by
    rw [show i + (256 - i) = 256 by omega]
  have e2 : ∑ j ∈ range 256, g j * r ^ j = ∑ j ∈ range ((256 - i) + i), g j * r ^ j := by
    rw [show 256 - i + i = 256 by omega]
  have hA : ∑ k ∈ range (256 - i), (if i ≤ i + k then g (i + k - i) else -(g (256 + (i + k) - i))) * r ^ (i + k) =
      r ^ i * ∑ j ∈ range (256 - i), g j * r ^ j := by
    rw [mul_sum]
    apply sum_congr rfl
    intro j _
    rw [if_pos (by omega), Nat.add_sub_cancel_left, pow_add]; ring
  have hB : ∑ k ∈ range i, (if i ≤ k then g (k - i) else -(g (256 + k - i))) * r ^ k =
      r ^ i * ∑ k ∈ range i, g (256 - i + k) * r ^ (256 - i + k) := by
    rw [mul_sum]
    apply sum_congr rfl
    intro k hk
    rw [mem_range] at hk
    rw [if_neg (by omega), show 256 + k - i = 256 - i + k by omega]
    have : r ^ i * r ^ (256 - i + k) = - r ^ k := by
      rw [← pow_add, show i + (256 - i + k) = 256 + k by omega, pow_add, hr]; ring
    linear_combination - (g (256 - i + k)) * this
  rw [e1, e2, sum_range_add, sum_range_add, mul_add, hA, hB, add_comm]

/-- The transform of a product is the pointwise product of the transforms. -/
theorem ntt_mul (f g : Nat → Zq) (x : Nat) : Spec.ntt (Spec.ringMul f g) x = Spec.ntt f x * Spec.ntt g x := by
  unfold Spec.ntt Spec.ringMul
  simp only [sum_mul]
  rw [sum_comm]
  apply sum_congr rfl
  intro i hi
  rw [mem_range] at hi
  have := shift_sum g (Spec.root x) (root_pow x) i hi
  rw [mul_assoc, ← this, mul_sum]
  apply sum_congr rfl
  intro k _
  split <;> ring

theorem ntt_add (f g : Nat → Zq) (x : Nat) : Spec.ntt (fun i => f i + g i) x = Spec.ntt f x + Spec.ntt g x := by
  unfold Spec.ntt; rw [← sum_add_distrib]; apply sum_congr rfl; intro i _; ring
theorem ntt_sub (f g : Nat → Zq) (x : Nat) : Spec.ntt (fun i => f i - g i) x = Spec.ntt f x - Spec.ntt g x := by
  unfold Spec.ntt; rw [← sum_sub_distrib]; apply sum_congr rfl; intro i _; ring
theorem ntt_smul (c : Zq) (f : Nat → Zq) (x : Nat) : Spec.ntt (fun i => c * f i) x = c * Spec.ntt f x := by
  unfold Spec.ntt; rw [mul_sum]; apply sum_congr rfl; intro i _; ring
theorem ntt_sum (n : Nat) (f : Nat → Nat → Zq) (x : Nat) :
    Spec.ntt (fun i => ∑ j ∈ range n, f j i) x = ∑ j ∈ range n, Spec.ntt (f j) x := by
  unfold Spec.ntt; simp only [sum_mul]; exact sum_comm
theorem ntt_congr {f g : Nat → Zq} (h : ∀ i, i < 256 → f i = g i) (x : Nat) : Spec.ntt f x = Spec.ntt g x := by
  unfold Spec.ntt; apply sum_congr rfl; intro i hi; rw [h i (mem_range.1 hi)]

/-- A representative of a residue in `[0, q)`. -/
def rep (z : Zq) : Int := (z.val : Int)
theorem rep_cast (z : Zq) : ((rep z : Int) : Zq) = z := by
  unfold rep
  rw [Int.cast_natCast, ZMod.natCast_zmod_val]
theorem rep_range (z : Zq) : 0 ≤ rep z ∧ rep z < 8380417 := by
  unfold rep
  exact ⟨Int.natCast_nonneg _, by exact_mod_cast ZMod.val_lt z⟩

/-- A polynomial is determined by its transform. -/
theorem ntt_inj {f g : Nat → Zq} (h : ∀ x, x < 256 → Spec.ntt f x = Spec.ntt g x) : ∀ x, x < 256 → f x = g x := by
  intro x hx
  have hb : ∀ y, y < 256 → -8388607 ≤ rep (rInv * Spec.ntt f y) ∧ rep (rInv * Spec.ntt f y) ≤ 8388607 := fun y _ => by
    have := rep_range (rInv * Spec.ntt f y); omega
  have a := (intt_main (fun y => rep (rInv * Spec.ntt f y)) f hb (fun y _ => rep_cast _) x hx).2
  have b := (intt_main (fun y => rep (rInv * Spec.ntt f y)) g hb (fun y hy => by rw [rep_cast, h y hy]) x hx).2
  rw [← a, ← b]

/-- Every vector of 256 values is the transform of a polynomial. -/
theorem ntt_surj (v : Nat → Zq) : ∃ f : Nat → Zq, ∀ x, x < 256 → Spec.ntt f x = v x := by
  let ext : (Fin 256 → Zq) → Nat → Zq := fun f i => if h : i < 256 then f ⟨i, h⟩ else 0
  let T : (Fin 256 → Zq) → (Fin 256 → Zq) := fun f x => Spec.ntt (ext f) x
  have hi : Function.Injective T := by
    intro f g h
    funext ⟨x, hx⟩
    have := ntt_inj (f := ext f) (g := ext g) (fun y hy => congrFun h ⟨y, hy⟩) x hx
    simpa [ext, hx] using this
  have hs : Function.Surjective T := Finite.injective_iff_surjective.1 hi
  obtain ⟨f, hf⟩ := hs (fun x => v x)
  exact ⟨ext f, fun x hx => congrFun hf ⟨x, hx⟩⟩

/-- The inverse transform of the code, without naming the result: its transform is `-2^64` times the input. -/
theorem intt_spec (G : Nat → Int) (hb : ∀ x, x < 256 → -8388607 ≤ G x ∧ G x ≤ 8388607) :
    (∀ x, x < 256 → -4190208 ≤ intt G x ∧ intt G x ≤ 4190208) ∧
    ∀ x, x < 256 → rInv * Spec.ntt (fun i => ((intt G i : Int) : Zq)) x = ((G x : Int) : Zq) := by
  obtain ⟨f, hf⟩ := ntt_surj (fun x => -(2 ^ 64) * ((G x : Int) : Zq))
  have hg : ∀ x, x < 256 → ((G x : Int) : Zq) = rInv * Spec.ntt f x := by
    intro x hx
    rw [hf x hx]
    linear_combination -(((G x : Int) : Zq)) * rInv_mul
  have h := intt_main G f hb hg
  refine ⟨fun x hx => (h x hx).1, fun x hx => ?_⟩
  rw [ntt_congr (g := f) (fun i hi => (h i hi).2), hg x hx]

end Verif.Crypto.Mldsa
