import Verif.Crypto.Mlkem.Ntt
/-! The seven layers: the transform is the transform of FIPS 203. -/
namespace Verif.Crypto.Mlkem
open Finset

namespace Spec
/-- FIPS 203, 2.3: the number whose 7-bit representation is that of `r` in reverse order. -/
def bitRev7 (r : Nat) : Nat :=
  64 * (r % 2) + 32 * (r / 2 % 2) + 16 * (r / 4 % 2) + 8 * (r / 8 % 2) + 4 * (r / 16 % 2) + 2 * (r / 32 % 2)
    + r / 64 % 2
/-- `γ_i = ζ^(2 BitRev7(i) + 1)`, `ζ = 17`: FIPS 203, (4.11). -/
def gamma (i : Nat) : Zq := 17 ^ (2 * bitRev7 i + 1)
/-- The transform of `f`, FIPS 203, (4.11): the pair of coefficients number `2 i`, `2 i + 1` is
`f mod (X^2 - γ_i)`. -/
def ntt (f : Nat → Zq) (x : Nat) : Zq := ∑ m ∈ range 128, f (x % 2 + 2 * m) * gamma (x / 2) ^ m
end Spec

/-- `ζ^BitRev7(k)` as an integer. -/
def zv (k : Nat) : Int := 17 ^ Spec.bitRev7 k

theorem table1 : ∀ k : Fin 128, PlantardForm (tab zetaPower1 k) (zv k) := by decide +kernel
theorem table2 : ∀ k : Fin 128, PlantardForm (tab zetaPower2 k) (17 ^ (2 * Spec.bitRev7 k + 1)) := by decide +kernel

theorem zv_one : (3329 : Int) ∣ (zv 1 ^ 2 - (-1)) := by decide +kernel
theorem zv_even : ∀ k : Fin 64, k.1 ≠ 0 → (3329 : Int) ∣ (zv (2 * k) ^ 2 - zv k) := by decide +kernel
theorem zv_odd : ∀ k : Fin 64, k.1 ≠ 0 → (3329 : Int) ∣ (zv (2 * k + 1) ^ 2 - (- zv k)) := by decide +kernel
theorem zv_gamma0 : ∀ k : Fin 64, (3329 : Int) ∣ (zv (64 + k) - 17 ^ (2 * Spec.bitRev7 (2 * k) + 1)) := by
  decide +kernel
theorem zv_gamma1 : ∀ k : Fin 64, (3329 : Int) ∣ (- zv (64 + k) - 17 ^ (2 * Spec.bitRev7 (2 * k + 1) + 1)) := by
  decide +kernel

/-- The zeta of block `k` in the ring. -/
def zq (k : Nat) : Zq := ((zv k : Int) : Zq)

theorem zq_one : zq 1 ^ 2 = -1 := by
  have := cast_eq_of_dvd zv_one
  push_cast at this; exact this

theorem zq_even (k : Nat) (h0 : k ≠ 0) (h : k < 64) : zq (2 * k) ^ 2 = zq k := by
  have := cast_eq_of_dvd (zv_even ⟨k, h⟩ h0)
  push_cast at this; exact this

theorem zq_odd (k : Nat) (h0 : k ≠ 0) (h : k < 64) : zq (2 * k + 1) ^ 2 = - zq k := by
  have := cast_eq_of_dvd (zv_odd ⟨k, h⟩ h0)
  push_cast at this; exact this

theorem zq_gamma0 (k : Nat) (h : k < 64) : zq (64 + k) = Spec.gamma (2 * k) := by
  have := cast_eq_of_dvd (zv_gamma0 ⟨k, h⟩)
  push_cast at this; exact this

theorem zq_gamma1 (k : Nat) (h : k < 64) : - zq (64 + k) = Spec.gamma (2 * k + 1) := by
  have := cast_eq_of_dvd (zv_gamma1 ⟨k, h⟩)
  push_cast at this; exact this

/-- The constants after `l` layers: block `b` holds the residue modulo `X^L - gam l b`. -/
def gam : Nat → Nat → Zq
  | 0, _ => -1
  | l + 1, b => if b % 2 = 0 then zq (2 ^ l + b / 2) else - zq (2 ^ l + b / 2)

theorem gam_succ (l b : Nat) :
    gam (l + 1) b = if b % 2 = 0 then zq (2 ^ l + b / 2) else - zq (2 ^ l + b / 2) := rfl

theorem gam_sq (l b : Nat) (hl : l < 7) (hb : b < 2 ^ l) : zq (2 ^ l + b) ^ 2 = gam l b := by
  cases l with
  | zero => rw [show b = 0 by omega]; exact zq_one
  | succ l =>
    have hp : 2 ^ l ≤ 2 ^ 5 := Nat.pow_le_pow_right (by decide) (by omega)
    have h1 : 0 < 2 ^ l := Nat.two_pow_pos l
    have h2 : 2 ^ (l + 1) = 2 * 2 ^ l := by ring
    rw [h2] at hb ⊢
    rw [gam_succ]
    by_cases hc : b % 2 = 0
    · rw [if_pos hc, ← zq_even (2 ^ l + b / 2) (by omega) (by omega)]
      congr 2; omega
    · rw [if_neg hc, ← zq_odd (2 ^ l + b / 2) (by omega) (by omega)]
      congr 2; omega

theorem gam_next (l b : Nat) : gam (l + 1) (2 * b) = zq (2 ^ l + b) ∧ gam (l + 1) (2 * b + 1) = - zq (2 ^ l + b) := by
  rw [gam_succ, gam_succ]
  constructor
  · rw [if_pos (by omega)]; congr 2; omega
  · rw [if_neg (by omega)]; congr 3; omega

/-- The first `l` layers over the ring. -/
def nz : Nat → (Nat → Zq) → Nat → Zq
  | 0, f => f
  | l + 1, f => LZ (fun b => zq (2 ^ l + b)) (128 / 2 ^ l) (nz l f)

theorem nz_eq (f : Nat → Zq) (l : Nat) (hl : l ≤ 7) (x : Nat) (hx : x < 256) :
    nz l f x = ps (256 / 2 ^ l) (2 ^ l) f (gam l (x / (256 / 2 ^ l))) (x % (256 / 2 ^ l)) := by
  induction l generalizing x with
  | zero =>
    show f x = _
    unfold ps
    simp [Nat.mod_eq_of_lt hx]
  | succ l ih =>
    have h : ∀ len nb : Nat, len = 128 / 2 ^ l → nb = 2 ^ l → 2 * len = 256 / 2 ^ l → 2 * len * nb = 256 →
        256 / 2 ^ (l + 1) = len → 0 < len → nz (l + 1) f x =
          ps (256 / 2 ^ (l + 1)) (2 ^ (l + 1)) f (gam (l + 1) (x / (256 / 2 ^ (l + 1)))) (x % (256 / 2 ^ (l + 1))) := by
      intro len nb e1 e2 e3 e4 e5 e6
      rw [nz, e5, pow_succ, Nat.mul_comm (2 ^ l) 2, ← e1]
      refine LZ_step len (2 ^ l) nb e6 _ (gam l) f (nz l f) ?_ ?_ (gam (l + 1)) ?_ x (by omega)
      · intro b hb; exact gam_sq l b (by omega) (by omega)
      · intro x hx; rw [ih (by omega) x (by omega), e3]
      · intro b _; exact gam_next l b
    have hl' : l = 0 ∨ l = 1 ∨ l = 2 ∨ l = 3 ∨ l = 4 ∨ l = 5 ∨ l = 6 := by omega
    rcases hl' with rfl | rfl | rfl | rfl | rfl | rfl | rfl <;>
      exact h _ _ rfl rfl (by decide) (by decide) (by decide) (by decide)

theorem nz7_eq (f : Nat → Zq) (x : Nat) (hx : x < 256) : nz 7 f x = Spec.ntt f x := by
  rw [nz_eq f 7 (le_refl _) x hx]
  unfold ps Spec.ntt
  rw [show 256 / 2 ^ 7 = 2 by decide, show 2 ^ 7 = 128 by decide]
  have : gam 7 (x / 2) = Spec.gamma (x / 2) := by
    rw [show 7 = 6 + 1 from rfl, gam_succ]
    rw [show 2 ^ 6 = 64 by decide]
    split
    · rw [zq_gamma0 _ (by omega)]; congr 1; omega
    · rw [zq_gamma1 _ (by omega)]; congr 1; omega
  rw [this]

/-- The state after `l` layers. -/
def nttTo : Nat → Poly → Poly × Nat
  | 0, a => (a, 1)
  | l + 1, a => nttLayer zetaPower1 (128 / 2 ^ l) (nttTo l a) (2 ^ l)

theorem ntt_eq_nttTo (a : Poly) : ntt zetaPower1 a = (nttTo 7 a).1 := by
  unfold ntt
  simp only [List.foldl_cons, List.foldl_nil, Nat.reduceMul, Nat.reduceDiv]
  simp only [nttTo, Nat.reducePow, Nat.reduceDiv]

theorem nttTo_spec (a : Poly) (B : Int) (hB : B + 1664 * 7 ≤ 32767) (ha : ∀ x, x < 256 → -B ≤ a x ∧ a x ≤ B)
    (l : Nat) (hl : l ≤ 7) :
    (nttTo l a).2 = 2 ^ l ∧ ∀ x, x < 256 → (-(B + 1664 * l) ≤ (nttTo l a).1 x ∧ (nttTo l a).1 x ≤ B + 1664 * l) ∧
      (((nttTo l a).1 x : Int) : Zq) = nz l (fun i => ((a i : Int) : Zq)) x := by
  induction l with
  | zero => exact ⟨rfl, fun x h => ⟨by have := ha x h; simp only [nttTo]; omega, rfl⟩⟩
  | succ l ih =>
    obtain ⟨i1, i2⟩ := ih (by omega)
    have hz : ∀ b, b < 2 ^ l → PlantardForm (tab zetaPower1 (2 ^ l + b)) (zv (2 ^ l + b)) := by
      intro b hb
      have hp : 2 ^ l ≤ 2 ^ 6 := Nat.pow_le_pow_right (by decide) (by omega)
      exact table1 ⟨2 ^ l + b, by omega⟩
    obtain ⟨a', k', he⟩ : ∃ a' k', nttTo l a = (a', k') := ⟨_, _, rfl⟩
    rw [he] at i1 i2
    simp only at i1 i2
    subst i1
    have main : ∀ len nb, len = 128 / 2 ^ l → nb = 2 ^ l → 2 * len * nb = 256 → 0 < len →
      (nttLayer zetaPower1 len (a', 2 ^ l) nb).2 = 2 ^ (l + 1) ∧
      ∀ x, x < 256 → (-(B + 1664 * (l + 1 : Nat)) ≤ (nttLayer zetaPower1 len (a', 2 ^ l) nb).1 x ∧
          (nttLayer zetaPower1 len (a', 2 ^ l) nb).1 x ≤ B + 1664 * (l + 1 : Nat)) ∧
        (((nttLayer zetaPower1 len (a', 2 ^ l) nb).1 x : Int) : Zq) = nz (l + 1) (fun i => ((a i : Int) : Zq)) x := by
      intro len nb e1 e2 e3 e4
      obtain ⟨h1, h2⟩ := layer_step zetaPower1 zv (2 ^ l) len nb e4 e3 (fun b hb => hz b (by omega)) a'
        (B + 1664 * l) (by omega) (fun x h => (i2 x h).1)
      refine ⟨by rw [h1, e2]; ring, fun x h => ⟨?_, ?_⟩⟩
      · have := (h2 x h).1; push_cast; omega
      · rw [(h2 x h).2, nz, ← e1]
        have hbl := lt_block e4 (show x < 2 * len * nb by omega)
        have hle : 2 * len * (x / (2 * len) + 1) ≤ 2 * len * nb := Nat.mul_le_mul_left _ hbl
        rw [Nat.mul_add, Nat.mul_one] at hle
        have hdm := Nat.div_add_mod x (2 * len)
        have hxb : x % (2 * len) < 2 * len := Nat.mod_lt _ (by omega)
        unfold LZ
        split
        · beta_reduce
          rw [(i2 x h).2, (i2 (x + len) (by omega)).2]; rfl
        · beta_reduce
          rw [(i2 x h).2, (i2 (x - len) (by omega)).2]; rfl
    rw [nttTo, he]
    have hl' : l = 0 ∨ l = 1 ∨ l = 2 ∨ l = 3 ∨ l = 4 ∨ l = 5 ∨ l = 6 := by omega
    rcases hl' with rfl | rfl | rfl | rfl | rfl | rfl | rfl <;>
      exact main _ _ rfl rfl (by decide) (by decide)

theorem ntt_steps (a : Poly) (B : Int) (hB : B + 1664 * 7 ≤ 32767) (ha : ∀ x, x < 256 → -B ≤ a x ∧ a x ≤ B)
    (x : Nat) (hx : x < 256) :
    (-(B + 11648) ≤ ntt zetaPower1 a x ∧ ntt zetaPower1 a x ≤ B + 11648) ∧
    ((ntt zetaPower1 a x : Int) : Zq) = Spec.ntt (fun i => ((a i : Int) : Zq)) x := by
  have h := (nttTo_spec a B hB ha 7 (le_refl _)).2 x hx
  rw [ntt_eq_nttTo, ← nz7_eq _ x hx]
  refine ⟨?_, h.2⟩
  have h1 := h.1
  push_cast at h1
  exact ⟨le_trans (by omega) h1.1, le_trans h1.2 (by omega)⟩

/-- A layer on integers: the two outputs of a butterfly lie symmetrically around the lower input. -/
theorem nttTo_pair (a : Poly) (B : Int) (hB : B + 1664 * 7 ≤ 32767) (ha : ∀ x, x < 256 → -B ≤ a x ∧ a x ≤ B)
    (l len nb : Nat) (hl : l < 7) (e1 : len = 128 / 2 ^ l) (e2 : nb = 2 ^ l) (e3 : 2 * len * nb = 256) (e4 : 0 < len)
    (x : Nat) (hx : x < 256) (hc : x % (2 * len) < len) :
    ∃ t, -1664 ≤ t ∧ t ≤ 1664 ∧ (nttTo (l + 1) a).1 x = (nttTo l a).1 x + t ∧
      (nttTo (l + 1) a).1 (x + len) = (nttTo l a).1 x - t := by
  obtain ⟨i1, i2⟩ := nttTo_spec a B hB ha l (by omega)
  obtain ⟨a', k', he⟩ : ∃ a' k', nttTo l a = (a', k') := ⟨_, _, rfl⟩
  rw [nttTo, he, ← e1, ← e2]
  rw [he] at i1 i2
  simp only at i1 i2 ⊢
  obtain ⟨_, h2⟩ := nttLayer_eq zetaPower1 len e4 a' k' nb
  have hbl := lt_block e4 (show x < 2 * len * nb by omega)
  have hle : 2 * len * (x / (2 * len) + 1) ≤ 2 * len * nb := Nat.mul_le_mul_left _ hbl
  rw [Nat.mul_add, Nat.mul_one] at hle
  have hdm := Nat.div_add_mod x (2 * len)
  have d := div_block (len := len) (n := x / (2 * len)) (x := x + len) (by omega) (by omega)
  have hp : 2 ^ l ≤ 2 ^ 6 := Nat.pow_le_pow_right (by decide) (by omega)
  have v1 := (i2 x hx).1
  have v2 := (i2 (x + len) (by omega)).1
  obtain ⟨_, hr⟩ := mulT_cast (a' (x + len)) (tab zetaPower1 (k' + x / (2 * len))) _ (by omega)
    (table1 ⟨k' + x / (2 * len), by omega⟩)
  refine ⟨mulT (tab zetaPower1 (k' + x / (2 * len))) (a' (x + len)), hr.1, hr.2, ?_, ?_⟩
  · rw [h2, if_pos (by omega)]; unfold layerF
    rw [if_pos hc]; beta_reduce; rw [i16_id (by omega)]
  · rw [h2, if_pos (by omega)]; unfold layerF
    rw [if_neg (by omega), d.1, Nat.add_sub_cancel]; beta_reduce; rw [i16_id (by omega)]

/-- The last three layers: the eight outputs of one parity in a block of 16 average to one value of the fourth
layer, and are close to it; so the sum of their absolute values stays small. -/
theorem ntt_parity_sum (a : Poly) (ha : ∀ x, x < 256 → -3328 ≤ a x ∧ a x ≤ 3328) (c p : Nat) (hc : c < 16)
    (hp : p < 2) :
    |ntt zetaPower1 a (16 * c + p)| + |ntt zetaPower1 a (16 * c + p + 2)| + |ntt zetaPower1 a (16 * c + p + 4)| +
    |ntt zetaPower1 a (16 * c + p + 6)| + |ntt zetaPower1 a (16 * c + p + 8)| + |ntt zetaPower1 a (16 * c + p + 10)| +
    |ntt zetaPower1 a (16 * c + p + 12)| + |ntt zetaPower1 a (16 * c + p + 14)| ≤ 79872 := by
  rw [ntt_eq_nttTo]
  have h4 := ((nttTo_spec a 3328 (by omega) ha 4 (by omega)).2 (16 * c + p) (by omega)).1
  have P5 := nttTo_pair a 3328 (by omega) ha 4 8 16 (by decide) (by decide) (by decide) (by decide) (by decide)
  have P6 := nttTo_pair a 3328 (by omega) ha 5 4 32 (by decide) (by decide) (by decide) (by decide) (by decide)
  have P7 := nttTo_pair a 3328 (by omega) ha 6 2 64 (by decide) (by decide) (by decide) (by decide) (by decide)
  obtain ⟨t, t1, t2, t3, t4⟩ := P5 (16 * c + p) (by omega) (by omega)
  obtain ⟨u, u1, u2, u3, u4⟩ := P6 (16 * c + p) (by omega) (by omega)
  obtain ⟨v, v1, v2, v3, v4⟩ := P6 (16 * c + p + 8) (by omega) (by omega)
  obtain ⟨w0, w01, w02, w03, w04⟩ := P7 (16 * c + p) (by omega) (by omega)
  obtain ⟨w1, w11, w12, w13, w14⟩ := P7 (16 * c + p + 4) (by omega) (by omega)
  obtain ⟨w2, w21, w22, w23, w24⟩ := P7 (16 * c + p + 8) (by omega) (by omega)
  obtain ⟨w3, w31, w32, w33, w34⟩ := P7 (16 * c + p + 8 + 4) (by omega) (by omega)
  simp only [Nat.add_assoc, Nat.reduceAdd] at *
  rw [w03, w04, w13, w14, w23, w24, w33, w34, u3, u4, v3, v4, t3, t4]
  generalize (nttTo 4 a).1 (16 * c + p) = r at h4 ⊢
  push_cast at h4
  have hr : -9984 ≤ r ∧ r ≤ 9984 := by omega
  clear * - hr t1 t2 u1 u2 v1 v2 w01 w02 w11 w12 w21 w22 w31 w32
  rcases lt_or_ge r (-4992) with h | h
  · rw [abs_of_nonpos (by omega), abs_of_nonpos (by omega), abs_of_nonpos (by omega), abs_of_nonpos (by omega),
      abs_of_nonpos (by omega), abs_of_nonpos (by omega), abs_of_nonpos (by omega), abs_of_nonpos (by omega)]
    omega
  · rcases lt_or_ge 4992 r with h' | h'
    · rw [abs_of_nonneg (by omega), abs_of_nonneg (by omega), abs_of_nonneg (by omega), abs_of_nonneg (by omega),
        abs_of_nonneg (by omega), abs_of_nonneg (by omega), abs_of_nonneg (by omega), abs_of_nonneg (by omega)]
      omega
    · have b : ∀ y : Int, -9984 ≤ y → y ≤ 9984 → |y| ≤ 9984 := fun y h1 h2 => abs_le.mpr ⟨h1, h2⟩
      have b1 := b (r + t + u + w0) (by omega) (by omega)
      have b2 := b (r + t + u - w0) (by omega) (by omega)
      have b3 := b (r + t - u + w1) (by omega) (by omega)
      have b4 := b (r + t - u - w1) (by omega) (by omega)
      have b5 := b (r - t + v + w2) (by omega) (by omega)
      have b6 := b (r - t + v - w2) (by omega) (by omega)
      have b7 := b (r - t - v + w3) (by omega) (by omega)
      have b8 := b (r - t - v - w3) (by omega) (by omega)
      linarith

end Verif.Crypto.Mlkem
