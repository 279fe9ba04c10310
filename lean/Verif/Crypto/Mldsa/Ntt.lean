import Verif.Crypto.Mldsa.Plantard
import Mathlib.Algebra.BigOperators.Ring.Finset
import Mathlib.Algebra.BigOperators.Intervals
import Mathlib.Tactic.LinearCombination
/-! The forward transform: the eight layers evaluate the polynomial at the 256 roots of `X^256 + 1`. -/
namespace Verif.Crypto.Mldsa
open Finset
open Verif.Crypto.Mlkem (Poly i32 u32 upd tab LZ ILZ ILZ_LZ ps LZ_step div_block lt_block blk)

namespace Spec
/-- FIPS 204, 7.5 (BitRev8): the number whose 8-bit representation is that of `r` in reverse order. -/
def bitRev8 (r : Nat) : Nat :=
  128 * (r % 2) + 64 * (r / 2 % 2) + 32 * (r / 4 % 2) + 16 * (r / 8 % 2) + 8 * (r / 16 % 2) + 4 * (r / 32 % 2)
    + 2 * (r / 64 % 2) + r / 128 % 2
/-- The root `ζ^(2 BitRev8(i) + 1)`, `ζ = 1753`: FIPS 204, (2.5). -/
def root (i : Nat) : Zq := 1753 ^ (2 * bitRev8 i + 1)
/-- The transform of `f`, FIPS 204, (2.4): the value of the polynomial at the root number `x`. -/
def ntt (f : Nat → Zq) (x : Nat) : Zq := ∑ m ∈ range 256, f m * root x ^ m
end Spec

theorem i32_id {x : Int} (h : -2147483648 ≤ x ∧ x ≤ 2147483647) : i32 x = x := by unfold i32; omega

/-- `ζ^BitRev8(k)` as an integer. -/
def zv (k : Nat) : Int := ((1753 ^ Spec.bitRev8 k % 8380417 : Nat) : Int)

theorem table : ∀ k : Fin 256, k.1 ≠ 0 → PFb (tab zetas k) (zv k) = true := by decide +kernel

theorem zv_one : (8380417 : Int) ∣ (zv 1 ^ 2 - (-1)) := by decide +kernel
theorem zv_even : ∀ k : Fin 128, k.1 ≠ 0 → (8380417 : Int) ∣ (zv (2 * k) ^ 2 - zv k) := by decide +kernel
theorem zv_odd : ∀ k : Fin 128, k.1 ≠ 0 → (8380417 : Int) ∣ (zv (2 * k + 1) ^ 2 - (- zv k)) := by decide +kernel
theorem zv_root0 : ∀ k : Fin 128, (8380417 : Int) ∣ (zv (128 + k) - ((1753 ^ (2 * Spec.bitRev8 (2 * k) + 1) : Nat) : Int)) := by
  decide +kernel
theorem zv_root1 : ∀ k : Fin 128, (8380417 : Int) ∣ (- zv (128 + k) - ((1753 ^ (2 * Spec.bitRev8 (2 * k + 1) + 1) : Nat) : Int)) := by
  decide +kernel

/-- The zeta of block `k` in the ring. -/
def zq (k : Nat) : Zq := ((zv k : Int) : Zq)

theorem zq_one : zq 1 ^ 2 = -1 := by
  have := cast_of_dvd zv_one
  push_cast at this; exact this

theorem zq_even (k : Nat) (h0 : k ≠ 0) (h : k < 128) : zq (2 * k) ^ 2 = zq k := by
  have := cast_of_dvd (zv_even ⟨k, h⟩ h0)
  rw [Int.cast_pow] at this; exact this

theorem zq_odd (k : Nat) (h0 : k ≠ 0) (h : k < 128) : zq (2 * k + 1) ^ 2 = - zq k := by
  have := cast_of_dvd (zv_odd ⟨k, h⟩ h0)
  rw [Int.cast_pow, Int.cast_neg] at this; exact this

theorem zq_root0 (k : Nat) (h : k < 128) : zq (128 + k) = Spec.root (2 * k) := by
  have := cast_of_dvd (zv_root0 ⟨k, h⟩)
  rw [Int.cast_natCast, Nat.cast_pow] at this; exact this

theorem zq_root1 (k : Nat) (h : k < 128) : - zq (128 + k) = Spec.root (2 * k + 1) := by
  have := cast_of_dvd (zv_root1 ⟨k, h⟩)
  rw [Int.cast_natCast, Nat.cast_pow, Int.cast_neg] at this; exact this

/-- One layer of the transform, as a function of the index. -/
def layerF (z : Nat → Int) (len : Nat) (a : Poly) : Poly := fun x =>
  if x % (2 * len) < len then i32 (a x + mulZ (z (x / (2 * len))) (a (x + len)))
  else i32 (a (x - len) - mulZ (z (x / (2 * len))) (a x))

theorem nttBlock_at (zeta : Int) (len start : Nat) (a : Poly) (n : Nat) (hn : n ≤ len) (x : Nat) :
    nttBlock zeta len start a n x =
      if start ≤ x ∧ x < start + n then i32 (a x + mulZ zeta (a (x + len)))
      else if start + len ≤ x ∧ x < start + len + n then i32 (a (x - len) - mulZ zeta (a x))
      else a x := by
  induction n generalizing x with
  | zero =>
    rw [if_neg (by omega), if_neg (by omega)]; rfl
  | succ n ih =>
    have ih := fun x => ih (by omega) x
    have h1 : nttBlock zeta len start a n (start + n) = a (start + n) := by
      rw [ih, if_neg (by omega), if_neg (by omega)]
    have h2 : nttBlock zeta len start a n (start + n + len) = a (start + n + len) := by
      rw [ih, if_neg (by omega), if_neg (by omega)]
    show butterfly zeta len (start + n) (nttBlock zeta len start a n) x = _
    unfold butterfly upd
    simp only [h2]
    by_cases hx : x = start + n
    · subst hx
      rw [if_pos rfl, if_neg (by omega), h1, if_pos (by omega)]
    · rw [if_neg hx]
      by_cases hx2 : x = start + n + len
      · subst hx2
        rw [if_pos rfl, h1, if_neg (by omega), if_pos (by omega)]
        rw [show start + n + len - len = start + n by omega]
      · rw [if_neg hx2, ih]
        by_cases c1 : start ≤ x ∧ x < start + n
        · rw [if_pos c1, if_pos (by omega)]
        · rw [if_neg c1, if_neg (c := start ≤ x ∧ x < start + (n + 1)) (by omega)]
          by_cases c2 : start + len ≤ x ∧ x < start + len + n
          · rw [if_pos c2, if_pos (by omega)]
          · rw [if_neg c2, if_neg (by omega)]

theorem nttLayer_eq (len : Nat) (hl : 0 < len) (a : Poly) (k n : Nat) :
    (nttLayer len (a, k) n).2 = k + n ∧ ∀ x, (nttLayer len (a, k) n).1 x =
      if x < 2 * len * n then layerF (fun b => tab zetas (k + 1 + b)) len a x else a x := by
  induction n with
  | zero => exact ⟨rfl, fun x => by rw [if_neg (by omega)]; rfl⟩
  | succ n ih =>
    obtain ⟨ih1, ih2⟩ := ih
    obtain ⟨a', k', he⟩ : ∃ a' k', nttLayer len (a, k) n = (a', k') := ⟨_, _, rfl⟩
    rw [he] at ih1 ih2
    have hs : nttLayer len (a, k) (n + 1) = (nttBlock (tab zetas (k' + 1)) len (2 * len * n) a' len, k' + 1) := by
      rw [nttLayer, he]
    rw [hs]
    simp only at ih1 ih2
    refine ⟨by simp only [ih1]; omega, fun x => ?_⟩
    show nttBlock (tab zetas (k' + 1)) len (2 * len * n) a' len x = _
    have hm : 2 * len * (n + 1) = 2 * len * n + 2 * len := by ring
    rw [nttBlock_at _ _ _ _ _ (le_refl _), ih1, show k + n + 1 = k + 1 + n by omega]
    by_cases c1 : 2 * len * n ≤ x ∧ x < 2 * len * n + len
    · have hd := div_block c1.1 (show x < 2 * len * n + 2 * len by omega)
      rw [if_pos c1, ih2, if_neg (by omega), ih2, if_neg (by omega), if_pos (by omega)]
      unfold layerF
      rw [hd.1, hd.2, if_pos (by omega)]
    · rw [if_neg c1]
      by_cases c2 : 2 * len * n + len ≤ x ∧ x < 2 * len * n + len + len
      · have hd := div_block (show 2 * len * n ≤ x by omega) (show x < 2 * len * n + 2 * len by omega)
        rw [if_pos c2, ih2, if_neg (by omega), ih2, if_neg (by omega), if_pos (by omega)]
        unfold layerF
        rw [hd.1, hd.2, if_neg (by omega)]
      · rw [if_neg c2, ih2]
        by_cases c3 : x < 2 * len * n
        · rw [if_pos c3, if_pos (by omega)]
        · rw [if_neg c3, if_neg (by omega)]

theorem layer_step (k len nb : Nat) (hl : 0 < len) (h256 : 2 * len * nb = 256)
    (hz : ∀ b, b < nb → PF (tab zetas (k + 1 + b)) (zv (k + 1 + b)))
    (a : Poly) (B : Int) (hB : B + 4190208 ≤ 2147483647) (ha : ∀ x, x < 256 → -B ≤ a x ∧ a x ≤ B) :
    (nttLayer len (a, k) nb).2 = k + nb ∧
    ∀ x, x < 256 →
      (-(B + 4190208) ≤ (nttLayer len (a, k) nb).1 x ∧ (nttLayer len (a, k) nb).1 x ≤ B + 4190208) ∧
      (((nttLayer len (a, k) nb).1 x : Int) : Zq) =
        LZ (fun b => ((zv (k + 1 + b) : Int) : Zq)) len (fun i => ((a i : Int) : Zq)) x := by
  obtain ⟨h1, h2⟩ := nttLayer_eq len hl a k nb
  refine ⟨h1, fun x hx => ?_⟩
  have hbl := lt_block hl (show x < 2 * len * nb by omega)
  have hxb : x % (2 * len) < 2 * len := Nat.mod_lt _ (by omega)
  have hdm := Nat.div_add_mod x (2 * len)
  have hle : 2 * len * (x / (2 * len) + 1) ≤ 2 * len * nb := Nat.mul_le_mul_left _ hbl
  rw [Nat.mul_add, Nat.mul_one] at hle
  rw [h2 x, if_pos (by omega)]
  unfold layerF LZ
  by_cases hc : x % (2 * len) < len
  · rw [if_pos hc, if_pos hc]
    have hi := ha x hx
    have hj := ha (x + len) (by omega)
    obtain ⟨e, hr⟩ := mulZ_spec _ _ (a (x + len)) (by omega) (hz _ hbl)
    simp only []
    rw [i32_id (by omega)]
    refine ⟨by omega, ?_⟩
    push_cast; rw [e]
  · rw [if_neg hc, if_neg hc]
    have hi := ha x hx
    have hj := ha (x - len) (by omega)
    obtain ⟨e, hr⟩ := mulZ_spec _ _ (a x) (by omega) (hz _ hbl)
    simp only []
    rw [i32_id (by omega)]
    refine ⟨by omega, ?_⟩
    push_cast; rw [e]

/-- The constants after `l` layers: block `b` holds the residue modulo `X^L - gam l b`. -/
def gam : Nat → Nat → Zq
  | 0, _ => -1
  | l + 1, b => if b % 2 = 0 then zq (2 ^ l + b / 2) else - zq (2 ^ l + b / 2)

theorem gam_succ (l b : Nat) :
    gam (l + 1) b = if b % 2 = 0 then zq (2 ^ l + b / 2) else - zq (2 ^ l + b / 2) := rfl

theorem gam_sq (l b : Nat) (hl : l < 8) (hb : b < 2 ^ l) : zq (2 ^ l + b) ^ 2 = gam l b := by
  cases l with
  | zero => rw [show b = 0 by omega]; exact zq_one
  | succ l =>
    have hp : 2 ^ l ≤ 2 ^ 6 := Nat.pow_le_pow_right (by decide) (by omega)
    have h1 : 0 < 2 ^ l := Nat.two_pow_pos l
    have h2 : 2 ^ (l + 1) = 2 * 2 ^ l := by ring
    rw [h2] at hb ⊢
    rw [gam_succ]
    by_cases hc : b % 2 = 0
    · rw [if_pos hc, ← zq_even (2 ^ l + b / 2) (by omega) (by omega)]
      congr 2; omega
    · rw [if_neg hc, ← zq_odd (2 ^ l + b / 2) (by omega) (by omega)]
      congr 2; omega

theorem gam_next (l b : Nat) : gam (l + 1) (2 * b) = zq (2 ^ l + b) ∧ gam (l + 1) (2 * b + 1) = - zq (2 ^ l + b) := by
  rw [gam_succ, gam_succ]
  constructor
  · rw [if_pos (by omega)]; congr 2; omega
  · rw [if_neg (by omega)]; congr 3; omega

/-- The first `l` layers over the ring. -/
def nz : Nat → (Nat → Zq) → Nat → Zq
  | 0, f => f
  | l + 1, f => LZ (fun b => zq (2 ^ l + b)) (128 / 2 ^ l) (nz l f)

theorem nz_eq (f : Nat → Zq) (l : Nat) (hl : l ≤ 8) (x : Nat) (hx : x < 256) :
    nz l f x = ps (256 / 2 ^ l) (2 ^ l) f (gam l (x / (256 / 2 ^ l))) (x % (256 / 2 ^ l)) := by
  induction l generalizing x with
  | zero =>
    show f x = _
    unfold ps
    simp [Nat.mod_eq_of_lt hx]
  | succ l ih =>
    have h : ∀ len nb : Nat, len = 128 / 2 ^ l → nb = 2 ^ l → 2 * len = 256 / 2 ^ l → 2 * len * nb = 256 →
        256 / 2 ^ (l + 1) = len → 0 < len → nz (l + 1) f x =
          ps (256 / 2 ^ (l + 1)) (2 ^ (l + 1)) f (gam (l + 1) (x / (256 / 2 ^ (l + 1)))) (x % (256 / 2 ^ (l + 1))) := by
      intro len nb e1 e2 e3 e4 e5 e6
      rw [nz, e5, pow_succ, Nat.mul_comm (2 ^ l) 2, ← e1]
      refine LZ_step len (2 ^ l) nb e6 _ (gam l) f (nz l f) ?_ ?_ (gam (l + 1)) ?_ x (by omega)
      · intro b hb; exact gam_sq l b (by omega) (by omega)
      · intro x hx; rw [ih (by omega) x (by omega), e3]
      · intro b _; exact gam_next l b
    have hl' : l = 0 ∨ l = 1 ∨ l = 2 ∨ l = 3 ∨ l = 4 ∨ l = 5 ∨ l = 6 ∨ l = 7 := by omega
    rcases hl' with rfl | rfl | rfl | rfl | rfl | rfl | rfl | rfl <;>
      exact h _ _ rfl rfl (by decide) (by decide) (by decide) (by decide)

theorem nz8_eq (f : Nat → Zq) (x : Nat) (hx : x < 256) : nz 8 f x = Spec.ntt f x := by
  rw [nz_eq f 8 (le_refl _) x hx]
  unfold ps Spec.ntt
  rw [show 256 / 2 ^ 8 = 1 by decide, show 2 ^ 8 = 256 by decide]
  have : gam 8 (x / 1) = Spec.root x := by
    rw [Nat.div_one, show 8 = 7 + 1 from rfl, gam_succ]
    rw [show 2 ^ 7 = 128 by decide]
    split
    · rw [zq_root0 _ (by omega)]; congr 1; omega
    · rw [zq_root1 _ (by omega)]; congr 1; omega
  rw [this]
  simp only [Nat.mod_one, Nat.zero_add, Nat.one_mul]

/-- The state after `l` layers. -/
def nttTo : Nat → Poly → Poly × Nat
  | 0, a => (a, 0)
  | l + 1, a => nttLayer (128 / 2 ^ l) (nttTo l a) (2 ^ l)

theorem ntt_eq_nttTo (a : Poly) : ntt a = (nttTo 8 a).1 := by
  unfold ntt
  simp only [List.foldl_cons, List.foldl_nil, Nat.reduceMul, Nat.reduceDiv]
  simp only [nttTo, Nat.reducePow, Nat.reduceDiv]

theorem nttTo_spec (a : Poly) (B : Int) (hB : B + 4190208 * 8 ≤ 2147483647) (ha : ∀ x, x < 256 → -B ≤ a x ∧ a x ≤ B)
    (l : Nat) (hl : l ≤ 8) :
    (nttTo l a).2 + 1 = 2 ^ l ∧ ∀ x, x < 256 → (-(B + 4190208 * l) ≤ (nttTo l a).1 x ∧ (nttTo l a).1 x ≤ B + 4190208 * l) ∧
      (((nttTo l a).1 x : Int) : Zq) = nz l (fun i => ((a i : Int) : Zq)) x := by
  induction l with
  | zero => exact ⟨rfl, fun x h => ⟨by have := ha x h; simp only [nttTo]; omega, rfl⟩⟩
  | succ l ih =>
    obtain ⟨i1, i2⟩ := ih (by omega)
    have hz : ∀ b, b < 2 ^ l → PF (tab zetas (2 ^ l + b)) (zv (2 ^ l + b)) := by
      intro b hb
      have hp : 2 ^ l ≤ 2 ^ 7 := Nat.pow_le_pow_right (by decide) (by omega)
      have h1 : 0 < 2 ^ l := Nat.two_pow_pos l
      exact PF_of (table ⟨2 ^ l + b, by omega⟩ (by simp only [ne_eq]; omega))
    obtain ⟨a', k', he⟩ : ∃ a' k', nttTo l a = (a', k') := ⟨_, _, rfl⟩
    rw [he] at i1 i2
    simp only at i1 i2
    have main : ∀ len nb, len = 128 / 2 ^ l → nb = 2 ^ l → 2 * len * nb = 256 → 0 < len →
      (nttLayer len (a', k') nb).2 + 1 = 2 ^ (l + 1) ∧
      ∀ x, x < 256 → (-(B + 4190208 * (l + 1 : Nat)) ≤ (nttLayer len (a', k') nb).1 x ∧
          (nttLayer len (a', k') nb).1 x ≤ B + 4190208 * (l + 1 : Nat)) ∧
        (((nttLayer len (a', k') nb).1 x : Int) : Zq) = nz (l + 1) (fun i => ((a i : Int) : Zq)) x := by
      intro len nb e1 e2 e3 e4
      obtain ⟨h1, h2⟩ := layer_step k' len nb e4 e3 (fun b hb => by rw [i1]; exact hz b (by omega)) a'
        (B + 4190208 * l) (by omega) (fun x h => (i2 x h).1)
      refine ⟨by rw [h1, e2, pow_succ]; omega, fun x h => ⟨?_, ?_⟩⟩
      · have := (h2 x h).1; push_cast; omega
      · rw [(h2 x h).2, nz, ← e1, i1]
        have hbl := lt_block e4 (show x < 2 * len * nb by omega)
        have hle : 2 * len * (x / (2 * len) + 1) ≤ 2 * len * nb := Nat.mul_le_mul_left _ hbl
        rw [Nat.mul_add, Nat.mul_one] at hle
        have hdm := Nat.div_add_mod x (2 * len)
        have hxb : x % (2 * len) < 2 * len := Nat.mod_lt _ (by omega)
        unfold LZ
        split
        · beta_reduce
          rw [(i2 x h).2, (i2 (x + len) (by omega)).2]; rfl
        · beta_reduce
          rw [(i2 x h).2, (i2 (x - len) (by omega)).2]; rfl
    rw [nttTo, he]
    have hl' : l = 0 ∨ l = 1 ∨ l = 2 ∨ l = 3 ∨ l = 4 ∨ l = 5 ∨ l = 6 ∨ l = 7 := by omega
    rcases hl' with rfl | rfl | rfl | rfl | rfl | rfl | rfl | rfl <;>
      exact main _ _ rfl rfl (by decide) (by decide)

theorem ntt_steps (a : Poly) (B : Int) (hB : B + 4190208 * 8 ≤ 2147483647) (ha : ∀ x, x < 256 → -B ≤ a x ∧ a x ≤ B)
    (x : Nat) (hx : x < 256) :
    (-(B + 33521664) ≤ ntt a x ∧ ntt a x ≤ B + 33521664) ∧
    ((ntt a x : Int) : Zq) = Spec.ntt (fun i => ((a i : Int) : Zq)) x := by
  have h := (nttTo_spec a B hB ha 8 (le_refl _)).2 x hx
  rw [ntt_eq_nttTo, ← nz8_eq _ x hx]
  refine ⟨?_, h.2⟩
  have h1 := h.1
  push_cast at h1
  exact ⟨le_trans (by omega) h1.1, le_trans h1.2 (by omega)⟩

end Verif.Crypto.Mldsa
