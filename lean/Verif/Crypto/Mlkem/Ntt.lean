import Verif.Crypto.Mlkem.Arith
import Mathlib.Algebra.BigOperators.Ring.Finset
import Mathlib.Algebra.BigOperators.Intervals
import Mathlib.Tactic.LinearCombination
/-! The number-theoretic transform: the loops compute the layers, and the layers compute the residues modulo
`X^2 - ζ^(2 BitRev7(i) + 1)`. -/
namespace Verif.Crypto.Mlkem
open Finset

/-- Multiplication by a table constant. -/
def mulT (zeta v : Int) : Int := plantard (u32 (u32 v * u32 zeta))

theorem mulT_comm (zeta v : Int) : plantard (u32 (u32 zeta * u32 v)) = mulT zeta v := by
  unfold mulT; rw [Int.mul_comm]

/-- One layer of the transform, as a function of the index. -/
def layerF (z : Nat → Int) (len : Nat) (a : Poly) : Poly := fun x =>
  if x % (2 * len) < len then i16 (a x + mulT (z (x / (2 * len))) (a (x + len)))
  else i16 (a (x - len) - mulT (z (x / (2 * len))) (a x))

theorem nttBlock_at (zeta : Int) (len start : Nat) (a : Poly) (n : Nat) (hn : n ≤ len) (x : Nat) :
    nttBlock zeta len start a n x =
      if start ≤ x ∧ x < start + n then i16 (a x + mulT zeta (a (x + len)))
      else if start + len ≤ x ∧ x < start + len + n then i16 (a (x - len) - mulT zeta (a x))
      else a x := by
  induction n generalizing x with
  | zero =>
    rw [if_neg (by omega), if_neg (by omega)]; rfl
  | succ n ih =>
    have ih := fun x => ih (by omega) x
    have h1 : nttBlock zeta len start a n (start + n) = a (start + n) := by
      rw [ih, if_neg (by omega), if_neg (by omega)]
    have h2 : nttBlock zeta len start a n (start + n + len) = a (start + n + len) := by
      rw [ih, if_neg (by omega), if_neg (by omega)]
    show butterfly zeta len (start + n) (nttBlock zeta len start a n) x = _
    unfold butterfly upd
    simp only [h2]
    by_cases hx : x = start + n
    · subst hx
      rw [if_pos rfl, if_neg (by omega), h1, if_pos (by omega)]; rfl
    · rw [if_neg hx]
      by_cases hx2 : x = start + n + len
      · subst hx2
        rw [if_pos rfl, h1, if_neg (by omega), if_pos (by omega)]
        rw [show start + n + len - len = start + n by omega]; rfl
      · rw [if_neg hx2, ih]
        by_cases c1 : start ≤ x ∧ x < start + n
        · rw [if_pos c1, if_pos (by omega)]
        · rw [if_neg c1, if_neg (c := start ≤ x ∧ x < start + (n + 1)) (by omega)]
          by_cases c2 : start + len ≤ x ∧ x < start + len + n
          · rw [if_pos c2, if_pos (by omega)]
          · rw [if_neg c2, if_neg (by omega)]

theorem div_block {len n x : Nat} (h1 : 2 * len * n ≤ x) (h2 : x < 2 * len * n + 2 * len) :
    x / (2 * len) = n ∧ x % (2 * len) = x - 2 * len * n := by
  have hp : 0 < 2 * len := by omega
  obtain ⟨r, rfl⟩ : ∃ r, x = 2 * len * n + r := ⟨x - 2 * len * n, by omega⟩
  rw [Nat.mul_add_div hp, Nat.mul_add_mod, Nat.div_eq_of_lt (by omega), Nat.mod_eq_of_lt (by omega)]
  omega

theorem lt_block {len n x : Nat} (hl : 0 < len) (h : x < 2 * len * n) : x / (2 * len) < n := by
  rw [Nat.div_lt_iff_lt_mul (by omega)]
  rwa [Nat.mul_comm]

theorem nttLayer_eq (psi : List Int) (len : Nat) (hl : 0 < len) (a : Poly) (k n : Nat) :
    (nttLayer psi len (a, k) n).2 = k + n ∧ ∀ x, (nttLayer psi len (a, k) n).1 x =
      if x < 2 * len * n then layerF (fun b => tab psi (k + b)) len a x else a x := by
  induction n with
  | zero => exact ⟨rfl, fun x => by rw [if_neg (by omega)]; rfl⟩
  | succ n ih =>
    obtain ⟨ih1, ih2⟩ := ih
    obtain ⟨a', k', he⟩ : ∃ a' k', nttLayer psi len (a, k) n = (a', k') := ⟨_, _, rfl⟩
    rw [he] at ih1 ih2
    have hs : nttLayer psi len (a, k) (n + 1) = (nttBlock (tab psi k') len (2 * len * n) a' len, k' + 1) := by
      rw [nttLayer, he]
    rw [hs]
    simp only at ih1 ih2
    refine ⟨by simp only [ih1]; omega, fun x => ?_⟩
    show nttBlock (tab psi k') len (2 * len * n) a' len x = _
    have hm : 2 * len * (n + 1) = 2 * len * n + 2 * len := by ring
    rw [nttBlock_at _ _ _ _ _ (le_refl _), ih1]
    by_cases c1 : 2 * len * n ≤ x ∧ x < 2 * len * n + len
    · have hd := div_block c1.1 (show x < 2 * len * n + 2 * len by omega)
      rw [if_pos c1, ih2, if_neg (by omega), ih2, if_neg (by omega), if_pos (by omega)]
      unfold layerF
      rw [hd.1, hd.2, if_pos (by omega)]
    · rw [if_neg c1]
      by_cases c2 : 2 * len * n + len ≤ x ∧ x < 2 * len * n + len + len
      · have hd := div_block (show 2 * len * n ≤ x by omega) (show x < 2 * len * n + 2 * len by omega)
        rw [if_pos c2, ih2, if_neg (by omega), ih2, if_neg (by omega), if_pos (by omega)]
        unfold layerF
        rw [hd.1, hd.2, if_neg (by omega)]
      · rw [if_neg c2, ih2]
        by_cases c3 : x < 2 * len * n
        · rw [if_pos c3, if_pos (by omega)]
        · rw [if_neg c3, if_neg (by omega)]

/-! ## The layers over a ring -/

/-- One forward layer over a commutative ring. -/
def LZ {R : Type} [CommRing R] (z : Nat → R) (len : Nat) (f : Nat → R) : Nat → R := fun x =>
  if x % (2 * len) < len then f x + z (x / (2 * len)) * f (x + len)
  else f (x - len) - z (x / (2 * len)) * f x

/-- Residues modulo `q`. -/
abbrev Zq := ZMod 3329

theorem cast_eq_of_dvd {x y : Int} (h : 3329 ∣ (x - y)) : (x : Zq) = (y : Zq) := by
  rw [ZMod.intCast_eq_intCast_iff_dvd_sub]
  have : ((3329 : Nat) : Int) ∣ x - y := h
  rw [← Int.dvd_neg]
  rwa [show -(y - x) = x - y by ring]

theorem mulT_cast (a zeta z : Int) (ha : -32768 ≤ a ∧ a ≤ 32767) (hz : PlantardForm zeta z) :
    ((mulT zeta a : Int) : Zq) = (z : Zq) * a ∧ -1664 ≤ mulT zeta a ∧ mulT zeta a ≤ 1664 := by
  obtain ⟨h1, h2⟩ := plantard_spec a zeta z ha hz
  refine ⟨?_, h2⟩
  rw [show (mulT zeta a : Int) = plantard (u32 (u32 a * u32 zeta)) from rfl, cast_eq_of_dvd h1]
  push_cast; ring

theorem layer_step (psi : List Int) (zv : Nat → Int) (k len nb : Nat) (hl : 0 < len) (h256 : 2 * len * nb = 256)
    (hz : ∀ b, b < nb → PlantardForm (tab psi (k + b)) (zv (k + b)))
    (a : Poly) (B : Int) (hB : B + 1664 ≤ 32767) (ha : ∀ x, x < 256 → -B ≤ a x ∧ a x ≤ B) :
    (nttLayer psi len (a, k) nb).2 = k + nb ∧
    ∀ x, x < 256 →
      (-(B + 1664) ≤ (nttLayer psi len (a, k) nb).1 x ∧ (nttLayer psi len (a, k) nb).1 x ≤ B + 1664) ∧
      (((nttLayer psi len (a, k) nb).1 x : Int) : Zq) =
        LZ (fun b => ((zv (k + b) : Int) : Zq)) len (fun i => ((a i : Int) : Zq)) x := by
  obtain ⟨h1, h2⟩ := nttLayer_eq psi len hl a k nb
  refine ⟨h1, fun x hx => ?_⟩
  have hbl := lt_block hl (show x < 2 * len * nb by omega)
  have hxb : x % (2 * len) < 2 * len := Nat.mod_lt _ (by omega)
  have hdm := Nat.div_add_mod x (2 * len)
  have hle : 2 * len * (x / (2 * len) + 1) ≤ 2 * len * nb := Nat.mul_le_mul_left _ hbl
  rw [Nat.mul_add, Nat.mul_one] at hle
  rw [h2 x, if_pos (by omega)]
  unfold layerF LZ
  by_cases hc : x % (2 * len) < len
  · rw [if_pos hc, if_pos hc]
    have hi := ha x hx
    have hj := ha (x + len) (by omega)
    obtain ⟨e, hr⟩ := mulT_cast (a (x + len)) _ _ (by omega) (hz _ hbl)
    simp only []
    rw [i16_id (by omega)]
    refine ⟨by omega, ?_⟩
    push_cast; rw [e]
  · rw [if_neg hc, if_neg hc]
    have hi := ha x hx
    have hj := ha (x - len) (by omega)
    obtain ⟨e, hr⟩ := mulT_cast (a x) _ _ (by omega) (hz _ hbl)
    simp only []
    rw [i16_id (by omega)]
    refine ⟨by omega, ?_⟩
    push_cast; rw [e]

/-! ## What the layers compute -/

/-- `Σ_{m < M} f(r + L m) y^m`: coefficient `r` of `f mod (X^L - y)`. -/
def ps {R : Type} [CommRing R] (L M : Nat) (f : Nat → R) (y : R) (r : Nat) : R :=
  ∑ m ∈ range M, f (r + L * m) * y ^ m

theorem ps_split {R : Type} [CommRing R] (len M : Nat) (f : Nat → R) (z : R) (r : Nat) :
    ps len (2 * M) f z r = ps (2 * len) M f (z ^ 2) r + z * ps (2 * len) M f (z ^ 2) (r + len) := by
  unfold ps
  induction M with
  | zero => simp
  | succ M ih =>
    rw [show 2 * (M + 1) = 2 * M + 1 + 1 by ring, sum_range_succ, sum_range_succ, ih, sum_range_succ, sum_range_succ]
    rw [show r + len * (2 * M) = r + 2 * len * M by ring, show r + len * (2 * M + 1) = r + len + 2 * len * M by ring]
    ring

theorem LZ_step {R : Type} [CommRing R] (len M nb : Nat) (hl : 0 < len) (z g : Nat → R) (f v : Nat → R)
    (hz : ∀ b, b < nb → z b ^ 2 = g b)
    (hv : ∀ x, x < 2 * len * nb → v x = ps (2 * len) M f (g (x / (2 * len))) (x % (2 * len)))
    (g' : Nat → R) (hg' : ∀ b, b < nb → g' (2 * b) = z b ∧ g' (2 * b + 1) = - z b) :
    ∀ x, x < 2 * len * nb → LZ z len v x = ps len (2 * M) f (g' (x / len)) (x % len) := by
  intro x hx
  have hbl := lt_block hl hx
  have hxb : x % (2 * len) < 2 * len := Nat.mod_lt _ (by omega)
  have hdm := Nat.div_add_mod x (2 * len)
  have hle : 2 * len * (x / (2 * len) + 1) ≤ 2 * len * nb := Nat.mul_le_mul_left _ hbl
  rw [Nat.mul_add, Nat.mul_one] at hle
  obtain ⟨b, hb⟩ : ∃ b, b = x / (2 * len) := ⟨_, rfl⟩
  obtain ⟨r, hr⟩ : ∃ r, r = x % (2 * len) := ⟨_, rfl⟩
  unfold LZ
  rw [← hb, ← hr]
  rw [← hb] at hdm hbl hle
  rw [← hr] at hdm hxb
  by_cases hc : r < len
  · rw [if_pos hc]
    have e1 : x = len * (2 * b) + r := by rw [← hdm]; ring
    have d1 : x / len = 2 * b ∧ x % len = r := by
      rw [e1, Nat.mul_add_div hl, Nat.mul_add_mod, Nat.div_eq_of_lt hc, Nat.mod_eq_of_lt hc]; omega
    have d2 := div_block (len := len) (n := b) (x := x + len) (by omega) (by omega)
    rw [d1.1, d1.2, (hg' b hbl).1, ps_split, hz b hbl, hv x hx, hv (x + len) (by omega), ← hb, ← hr, d2.1, d2.2,
      show x + len - 2 * len * b = r + len by omega]
  · rw [if_neg hc]
    have e1 : x = len * (2 * b + 1) + (r - len) := by
      have : len * (2 * b + 1) = 2 * len * b + len := by ring
      omega
    have d1 : x / len = 2 * b + 1 ∧ x % len = r - len := by
      rw [e1, Nat.mul_add_div hl, Nat.mul_add_mod, Nat.div_eq_of_lt (by omega), Nat.mod_eq_of_lt (by omega)]; omega
    have d2 := div_block (len := len) (n := b) (x := x - len) (by omega) (by omega)
    rw [d1.1, d1.2, (hg' b hbl).2, ps_split, neg_sq, hz b hbl, hv x hx, hv (x - len) (by omega), ← hb, ← hr, d2.1,
      d2.2, show x - len - 2 * len * b = r - len by omega, show r - len + len = r by omega]
    ring

end Verif.Crypto.Mlkem
