import Verif.Crypto.Mlkem.Intt
import Mathlib.RingTheory.AdjoinRoot
import Mathlib.Algebra.Polynomial.Degree.Lemmas
import Mathlib.Tactic.NormNum.Prime
import Mathlib.Algebra.Field.ZMod
/-! The transform turns multiplication in `Z_q[X] / (X^256 + 1)` into pairwise multiplication. -/
namespace Verif.Crypto.Mlkem
open Finset Polynomial

namespace Spec
/-- The polynomial with coefficients `f 0, …, f 255`. -/
noncomputable def toPoly (f : Nat → Zq) : Polynomial Zq := ∑ i ∈ range 256, C (f i) * X ^ i
/-- The ring `R_q = Z_q[X] / (X^256 + 1)` of FIPS 203, 2.3. -/
abbrev Rq := AdjoinRoot (X ^ 256 + 1 : Polynomial Zq)
/-- The element of `R_q` with coefficients `f 0, …, f 255`. -/
noncomputable def el (f : Nat → Zq) : Rq := AdjoinRoot.mk _ (toPoly f)
end Spec
open Spec

/-- The remainder of `f` modulo `X^2 - γ_b` is the pair of transform coefficients. -/
theorem toPoly_mod (f : Nat → Zq) (b : Nat) :
    (X ^ 2 - C (gamma b)) ∣ toPoly f - (C (Spec.ntt f (2 * b)) + C (Spec.ntt f (2 * b + 1)) * X) := by
  have e : toPoly f = ∑ m ∈ range 128, (C (f (2 * m)) + C (f (1 + 2 * m)) * X) * (X ^ 2) ^ m := by
    unfold toPoly
    have : ∀ M, ∑ i ∈ range (2 * M), C (f i) * X ^ i =
        ∑ m ∈ range M, (C (f (2 * m)) + C (f (1 + 2 * m)) * X) * (X ^ 2 : Polynomial Zq) ^ m := by
      intro M
      induction M with
      | zero => rfl
      | succ M ih =>
        rw [show 2 * (M + 1) = 2 * M + 1 + 1 by ring, sum_range_succ, sum_range_succ, ih, sum_range_succ,
          Nat.add_comm 1 (2 * M)]
        ring
    exact this 128
  have e2 : C (Spec.ntt f (2 * b)) + C (Spec.ntt f (2 * b + 1)) * X =
      ∑ m ∈ range 128, (C (f (2 * m)) + C (f (1 + 2 * m)) * X) * C (gamma b) ^ m := by
    unfold Spec.ntt
    rw [show 2 * b % 2 = 0 by omega, show 2 * b / 2 = b by omega, show (2 * b + 1) % 2 = 1 by omega,
      show (2 * b + 1) / 2 = b by omega, map_sum, map_sum, sum_mul, ← sum_add_distrib]
    apply sum_congr rfl
    intro m _
    rw [C_mul, C_mul, C_pow, Nat.zero_add]
    ring
  rw [e, e2, ← sum_sub_distrib]
  apply dvd_sum
  intro m _
  rw [← mul_sub]
  exact Dvd.dvd.mul_left (sub_dvd_pow_sub_pow _ _ m) _

theorem zq_unit (k : Nat) (h0 : k ≠ 0) (h : k < 128) : ∃ w, 2 * zq k * w = 1 := by
  have key : ∀ k : Fin 128, k.1 ≠ 0 → ∃ w : Fin 3329, (2 * zv k * w.1) % 3329 = 1 := by
    intro k hk
    have : ∀ l : Fin 7, ∀ b : Fin 64, b.1 < 2 ^ l.1 →
      (2 * zv (2 ^ l.1 + b) * ((-1665 * zv (2 ^ (l.1 + 1) - 1 - b)) % 3329)) % 3329 = 1 := by decide +kernel
    have hl : k.1.log2 < 7 := by rw [Nat.log2_lt hk]; exact k.2
    have hle := Nat.log2_self_le hk
    have hlt := Nat.lt_log2_self (n := k.1)
    have hp : 2 ^ (k.1.log2 + 1) = 2 * 2 ^ k.1.log2 := by ring
    have hp6 : 2 ^ k.1.log2 ≤ 2 ^ 6 := Nat.pow_le_pow_right (by decide) (by omega)
    have h1 := this ⟨k.1.log2, hl⟩ ⟨k.1 - 2 ^ k.1.log2, by omega⟩ (by simp only; omega)
    simp only at h1
    rw [show 2 ^ k.1.log2 + (k.1 - 2 ^ k.1.log2) = k.1 by omega] at h1
    generalize (-1665 * zv (2 ^ (k.1.log2 + 1) - 1 - (k.1 - 2 ^ k.1.log2))) = v at h1
    have hv : 0 ≤ v % 3329 ∧ v % 3329 < 3329 := by omega
    refine ⟨⟨(v % 3329).toNat, by omega⟩, ?_⟩
    simp only [Int.toNat_of_nonneg hv.1]
    exact h1
  obtain ⟨w, hw⟩ := key ⟨k, h⟩ h0
  refine ⟨((w.1 : Int) : Zq), ?_⟩
  have hd : (3329 : Int) ∣ (2 * zv k * w.1 - 1) := by
    have := hw
    simp only at this
    omega
  have := cast_eq_of_dvd hd
  push_cast at this
  unfold zq
  push_cast
  exact this

/-- Divisibility by the two factors of `X^(2 len) - z^2`. -/
theorem dvd_pair (len : Nat) (z w : Zq) (hw : 2 * z * w = 1) (D : Polynomial Zq) (h1 : (X ^ len - C z) ∣ D)
    (h2 : (X ^ len - C (-z)) ∣ D) : (X ^ (2 * len) - C (z ^ 2)) ∣ D := by
  have hc : IsCoprime (X ^ len - C z : Polynomial Zq) (X ^ len - C (-z)) := by
    refine ⟨-C w, C w, ?_⟩
    have : (C (2 * z * w) : Polynomial Zq) = 1 := by rw [hw, C_1]
    rw [C_mul, C_mul] at this
    rw [C_neg]
    have h2' : (C 2 : Polynomial Zq) = 2 := map_ofNat C 2
    rw [h2'] at this
    linear_combination this
  have := hc.mul_dvd h1 h2
  have e : (X ^ len - C z : Polynomial Zq) * (X ^ len - C (-z)) = X ^ (2 * len) - C (z ^ 2) := by
    rw [C_neg, C_pow, Nat.mul_comm, pow_mul]; ring
  rwa [e] at this

theorem fin_dvd (P D : Polynomial Zq) (h : (P - C (gam 0 0)) ∣ D) : (P + 1) ∣ D := by
  have hg : (C (gam 0 0) : Polynomial Zq) = -1 := by rw [show gam 0 0 = -1 from rfl, C_neg, C_1]
  rwa [hg, sub_neg_eq_add] at h

theorem dvd_levels (D : Polynomial Zq) (h : ∀ b, b < 128 → (X ^ 2 - C (gamma b)) ∣ D) : (X ^ 256 + 1) ∣ D := by
  have h7 : ∀ b, b < 128 → (X ^ 2 - C (gam 7 b)) ∣ D := by
    intro b hb
    have : gam 7 b = gamma b := by
      rw [show 7 = 6 + 1 from rfl, gam_succ, show 2 ^ 6 = 64 by decide]
      split
      · rw [zq_gamma0 _ (by omega)]; congr 1; omega
      · rw [zq_gamma1 _ (by omega)]; congr 1; omega
    rw [this]; exact h b hb
  have step : ∀ l len, l < 7 → (∀ b, b < 2 ^ (l + 1) → (X ^ len - C (gam (l + 1) b)) ∣ D) →
      ∀ b, b < 2 ^ l → (X ^ (2 * len) - C (gam l b)) ∣ D := by
    intro l len hl hh b hb
    have hp : 2 ^ (l + 1) = 2 * 2 ^ l := by ring
    have hp6 : 2 ^ l ≤ 2 ^ 6 := Nat.pow_le_pow_right (by decide) (by omega)
    obtain ⟨w, hw⟩ := zq_unit (2 ^ l + b) (by have := Nat.two_pow_pos l; omega) (by omega)
    have n := gam_next l b
    have a1 := hh (2 * b) (by omega)
    have a2 := hh (2 * b + 1) (by omega)
    rw [n.1] at a1; rw [n.2] at a2
    have := dvd_pair len _ w hw D a1 a2
    rwa [gam_sq l b hl hb] at this
  have s6 := step 6 2 (by decide) h7
  simp only [Nat.reduceMul] at s6
  have s5 := step 5 4 (by decide) s6
  simp only [Nat.reduceMul] at s5
  have s4 := step 4 8 (by decide) s5
  simp only [Nat.reduceMul] at s4
  have s3 := step 3 16 (by decide) s4
  simp only [Nat.reduceMul] at s3
  have s2 := step 2 32 (by decide) s3
  simp only [Nat.reduceMul] at s2
  have s1 := step 1 64 (by decide) s2
  simp only [Nat.reduceMul] at s1
  have h0 := step 0 128 (by decide) s1 0 (by decide)
  simp only [Nat.reduceMul] at h0
  exact fin_dvd _ _ h0

/-- The pairwise product of FIPS 203, Algorithm 12, on transform coefficients. -/
def pairMul (f g : Nat → Zq) (x : Nat) : Zq :=
  if x % 2 = 0 then f x * g x + f (x + 1) * g (x + 1) * gamma (x / 2)
  else f (x - 1) * g x + f x * g (x - 1)

/-- If the transform of `h` is the sum of pairwise products of transforms then `h` is the sum of products in `R_q`,
plus any further element. -/
theorem el_sum_mul {ι : Type} (s : Finset ι) (F G : ι → Nat → Zq) (E h : Nat → Zq)
    (hh : ∀ x, x < 256 → Spec.ntt h x = Spec.ntt E x + ∑ i ∈ s, pairMul (Spec.ntt (F i)) (Spec.ntt (G i)) x) :
    el h = el E + ∑ i ∈ s, el (F i) * el (G i) := by
  unfold el
  rw [← sub_eq_zero]
  simp only [← map_mul, ← map_sum, ← map_add, ← map_sub]
  rw [AdjoinRoot.mk_eq_zero]
  apply dvd_levels
  intro b hb
  have hev := hh (2 * b) (by omega)
  have hod := hh (2 * b + 1) (by omega)
  simp only [pairMul, if_pos (show 2 * b % 2 = 0 by omega), show 2 * b / 2 = b by omega] at hev
  simp only [pairMul, if_neg (show ¬ (2 * b + 1) % 2 = 0 by omega), Nat.add_sub_cancel] at hod
  -- work with remainders
  have key : ∀ i, (X ^ 2 - C (gamma b)) ∣ toPoly (F i) * toPoly (G i) -
      (C (Spec.ntt (F i) (2 * b) * Spec.ntt (G i) (2 * b) +
          Spec.ntt (F i) (2 * b + 1) * Spec.ntt (G i) (2 * b + 1) * gamma b) +
        C (Spec.ntt (F i) (2 * b) * Spec.ntt (G i) (2 * b + 1) +
          Spec.ntt (F i) (2 * b + 1) * Spec.ntt (G i) (2 * b)) * X) := by
    intro i
    obtain ⟨u, hu⟩ := toPoly_mod (F i) b
    obtain ⟨v, hv⟩ := toPoly_mod (G i) b
    generalize Spec.ntt (F i) (2 * b) = f0 at *
    generalize Spec.ntt (F i) (2 * b + 1) = f1 at *
    generalize Spec.ntt (G i) (2 * b) = g0 at *
    generalize Spec.ntt (G i) (2 * b + 1) = g1 at *
    refine ⟨u * toPoly (G i) + (C f0 + C f1 * X) * v + C f1 * C g1, ?_⟩
    simp only [C_add, C_mul]
    linear_combination (toPoly (G i)) * hu + (C f0 + C f1 * X) * hv
  have hs : (X ^ 2 - C (gamma b)) ∣ ∑ i ∈ s, toPoly (F i) * toPoly (G i) -
      ∑ i ∈ s, (C (Spec.ntt (F i) (2 * b) * Spec.ntt (G i) (2 * b) +
          Spec.ntt (F i) (2 * b + 1) * Spec.ntt (G i) (2 * b + 1) * gamma b) +
        C (Spec.ntt (F i) (2 * b) * Spec.ntt (G i) (2 * b + 1) +
          Spec.ntt (F i) (2 * b + 1) * Spec.ntt (G i) (2 * b)) * X) := by
    rw [← sum_sub_distrib]
    exact dvd_sum fun i _ => key i
  obtain ⟨a, ha⟩ := toPoly_mod h b
  obtain ⟨e, he⟩ := toPoly_mod E b
  obtain ⟨c, hc⟩ := hs
  rw [sum_add_distrib, ← sum_mul, ← map_sum, ← map_sum] at hc
  rw [hev, hod, C_add, C_add] at ha
  exact ⟨a - e - c, by linear_combination ha - he - hc⟩

theorem toPoly_add (f g : Nat → Zq) : toPoly (fun i => f i + g i) = toPoly f + toPoly g := by
  unfold toPoly
  rw [← sum_add_distrib]
  refine sum_congr rfl fun i _ => ?_
  rw [C_add, add_mul]

theorem toPoly_sub (f g : Nat → Zq) : toPoly (fun i => f i - g i) = toPoly f - toPoly g := by
  unfold toPoly
  rw [← sum_sub_distrib]
  refine sum_congr rfl fun i _ => ?_
  rw [C_sub, sub_mul]

theorem toPoly_congr {f g : Nat → Zq} (h : ∀ i, i < 256 → f i = g i) : toPoly f = toPoly g := by
  unfold toPoly
  refine sum_congr rfl fun i hi => ?_
  rw [h i (by simpa using hi)]

theorem el_add (f g : Nat → Zq) : el (fun i => f i + g i) = el f + el g := by
  unfold el; rw [toPoly_add, map_add]

theorem el_sub (f g : Nat → Zq) : el (fun i => f i - g i) = el f - el g := by
  unfold el; rw [toPoly_sub, map_sub]

theorem el_congr {f g : Nat → Zq} (h : ∀ i, i < 256 → f i = g i) : el f = el g := by
  unfold el; rw [toPoly_congr h]

theorem dvd_deg (P D : Polynomial Zq) (h : P ∣ D) (hd : D.degree < P.degree) : D = 0 := by
  haveI : Fact (Nat.Prime 3329) := ⟨by norm_num⟩
  exact eq_zero_of_dvd_of_degree_lt h hd

theorem deg_sub_lt (a b : Polynomial Zq) (n : WithBot Nat) (ha : a.degree < n) (hb : b.degree < n) :
    (a - b).degree < n := lt_of_le_of_lt (degree_sub_le _ _) (max_lt ha hb)

theorem deg_gen (n : Nat) (hn : 0 < n) : (X ^ n + 1 : Polynomial Zq).degree = n := by
  haveI : Fact (Nat.Prime 3329) := ⟨by norm_num⟩
  rw [← C_1]
  exact degree_X_pow_add_C hn 1

theorem deg_mod : (X ^ 256 + 1 : Polynomial Zq).degree = (256 : Nat) := deg_gen 256 (by decide)

/-- Coefficients are determined by the element. -/
theorem el_inj {f g : Nat → Zq} (h : el f = el g) (i : Nat) (hi : i < 256) : f i = g i := by
  unfold el at h
  rw [AdjoinRoot.mk_eq_mk] at h
  have hd : ∀ f : Nat → Zq, (toPoly f).degree < (256 : Nat) := by
    intro f
    unfold toPoly
    refine mem_degreeLT.mp (Submodule.sum_mem _ fun j hj => mem_degreeLT.mpr ?_)
    refine lt_of_le_of_lt (degree_C_mul_X_pow_le _ _) ?_
    have : j < 256 := by simpa using hj
    exact_mod_cast this
  have hz : toPoly f - toPoly g = 0 := by
    refine dvd_deg _ _ h ?_
    rw [deg_mod]
    exact deg_sub_lt _ _ _ (hd f) (hd g)
  have hco : ∀ f : Nat → Zq, (toPoly f).coeff i = f i := by
    intro f
    unfold toPoly
    rw [finset_sum_coeff]
    simp only [coeff_C_mul, coeff_X_pow]
    rw [Finset.sum_eq_single i]
    · simp
    · intro b _ hb; simp [Ne.symm hb]
    · intro hn; exact absurd (by simpa using hi) hn
  have := congrArg (fun p => p.coeff i) hz
  simp only [coeff_sub, hco, coeff_zero] at this
  exact sub_eq_zero.mp this

/-- The transform is onto: every array is the transform of some polynomial. -/
theorem ntt_surj (g : Nat → Zq) : ∃ f : Nat → Zq, ∀ x, x < 256 → Spec.ntt f x = g x := by
  -- injective on a finite set, hence surjective
  let T : (Fin 256 → Zq) → (Fin 256 → Zq) := fun f x => Spec.ntt (fun i => if h : i < 256 then f ⟨i, h⟩ else 0) x
  have hinj : Function.Injective T := by
    intro f1 f2 h
    have h' : ∀ x, x < 256 → Spec.ntt (fun i => if h : i < 256 then f1 ⟨i, h⟩ else 0) x =
        Spec.ntt (fun i => if h : i < 256 then f2 ⟨i, h⟩ else 0) x := fun x hx => congrFun h ⟨x, hx⟩
    have he : el (fun i => if h : i < 256 then f1 ⟨i, h⟩ else 0) =
        el (fun i => if h : i < 256 then f2 ⟨i, h⟩ else 0) := by
      have := el_sum_mul (∅ : Finset Nat) (fun _ _ => 0) (fun _ _ => 0)
        (fun i => if h : i < 256 then f2 ⟨i, h⟩ else 0) (fun i => if h : i < 256 then f1 ⟨i, h⟩ else 0)
        (by intro x hx; rw [h' x hx]; simp)
      simpa using this
    funext x
    have := el_inj he x.1 x.2
    simpa using this
  have hs : Function.Surjective T := Finite.surjective_of_injective hinj
  obtain ⟨f, hf⟩ := hs (fun x => g x)
  exact ⟨_, fun x hx => congrFun hf ⟨x, hx⟩⟩

theorem ntt_add (f g : Nat → Zq) (x : Nat) : Spec.ntt (fun i => f i + g i) x = Spec.ntt f x + Spec.ntt g x := by
  unfold Spec.ntt
  rw [← sum_add_distrib]
  exact sum_congr rfl fun m _ => by ring

theorem ntt_congr {f g : Nat → Zq} (h : ∀ i, i < 256 → f i = g i) (x : Nat) (hx : x < 256) :
    Spec.ntt f x = Spec.ntt g x := by
  unfold Spec.ntt
  refine sum_congr rfl fun m hm => ?_
  have : m < 128 := by simpa using hm
  rw [h _ (by omega)]

end Verif.Crypto.Mlkem
