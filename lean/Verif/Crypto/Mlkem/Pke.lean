import Verif.Crypto.Mlkem.Ring
import Verif.Crypto.Mlkem.Compress
/-! Key generation, encryption and decryption over `R_q`. -/
namespace Verif.Crypto.Mlkem
open Finset Spec

/-- The residues of an array. -/
def cz (a : Poly) : Nat → Zq := fun x => ((a x : Int) : Zq)

/-- `innerProduct` and `matrixRow`, from any start. -/
def acc (v w : Nat → Poly) (init : Poly) : Nat → Poly
  | 0 => init
  | n + 1 => circMulAdd zetaPower2 (acc v w init n) (v n) (w n)

theorem innerProduct_eq (v w : Nat → Poly) (n : Nat) : innerProduct zetaPower2 v w n = acc v w (fun _ => 0) n := by
  induction n with
  | zero => rfl
  | succ n ih => simp only [innerProduct, acc, ih]

theorem circ_cache (dest f g : Poly) :
    circMulAddCache (mulCache zetaPower2 g) dest f g = circMulAdd zetaPower2 dest f g := by
  funext i
  unfold circMulAddCache circMulAdd mulCache
  by_cases h : i % 2 = 0
  · rw [if_pos h, if_pos h, show 2 * (i / 2) + 1 = i + 1 by omega]
  · rw [if_neg h, if_neg h]

theorem matrixRow_eq (a : Nat → Nat → Poly) (v : Nat → Poly) (out : Poly) (i n : Nat) :
    matrixRow a v (fun j => mulCache zetaPower2 (v j)) out i n = acc (a i) v out n := by
  induction n with
  | zero => rfl
  | succ n ih => simp only [matrixRow, acc, ih, circ_cache]

/-- A bound of one product term, per unit of the first factor. -/
def wt (g : Poly) (x : Nat) : Int := if x % 2 = 0 then |g x| + 1664 else |g x| + |g (x - 1)|

theorem wt_nonneg (g : Poly) (x : Nat) : 0 ≤ wt g x := by
  unfold wt
  have := abs_nonneg (g x); have := abs_nonneg (g (x - 1))
  split <;> omega

theorem mul_abs_le (a b F : Int) (h : |a| ≤ F) : |a * b| ≤ F * |b| := by
  rw [abs_mul]
  exact mul_le_mul_of_nonneg_right h (abs_nonneg b)

theorem gamma_form (b : Nat) (h : b < 128) (v : Int) (hv : -32768 ≤ v ∧ v ≤ 32767) :
    ((mulT (tab zetaPower2 b) v : Int) : Zq) = gamma b * v ∧ |mulT (tab zetaPower2 b) v| ≤ 1664 := by
  have := mulT_cast v (tab zetaPower2 b) _ hv (table2 ⟨b, h⟩)
  refine ⟨?_, abs_le.mpr this.2⟩
  rw [this.1]
  unfold gamma
  push_cast
  rfl

/-- The value of a product term before the store. -/
theorem circ_step (dest f g : Poly) (F : Int) (x : Nat) (hx : x < 256)
    (hf : ∀ x, x < 256 → |f x| ≤ F) (hg : ∀ x, x < 256 → |g x| ≤ 32767)
    (hd : |dest x| + F * wt g x ≤ 2147000000) :
    |circMulAdd zetaPower2 dest f g x| ≤ |dest x| + F * wt g x ∧
    ((circMulAdd zetaPower2 dest f g x : Int) : Zq) = (dest x : Zq) + pairMul (cz f) (cz g) x := by
  have hF : 0 ≤ F := le_trans (abs_nonneg _) (hf 0 (by decide))
  unfold circMulAdd
  by_cases h : x % 2 = 0
  · have hx1 : x + 1 < 256 := by omega
    rw [if_pos h]
    have hgb := abs_le.mp (hg (x + 1) hx1)
    obtain ⟨m1, m2⟩ := gamma_form (x / 2) (by omega) (g (x + 1)) (by omega)
    rw [show plantard (u32 (u32 (g (x + 1)) * u32 (tab zetaPower2 (x / 2)))) = mulT (tab zetaPower2 (x / 2)) (g (x + 1)) from rfl]
    generalize mulT (tab zetaPower2 (x / 2)) (g (x + 1)) = M at m1 m2 ⊢
    have hw : wt g x = |g x| + 1664 := by unfold wt; rw [if_pos h]
    have t1 : |f x * g x| ≤ F * |g x| := mul_abs_le _ _ _ (hf x hx)
    have t2 : |f (x + 1) * M| ≤ F * 1664 :=
      le_trans (mul_abs_le _ _ _ (hf _ hx1)) (mul_le_mul_of_nonneg_left m2 hF)
    have t3 : F * wt g x = F * |g x| + F * 1664 := by rw [hw, Int.mul_add]
    have tt : |dest x + (f x * g x + f (x + 1) * M)| ≤ |dest x| + F * wt g x := by
      refine le_trans (abs_add_le _ _) ?_
      have := abs_add_le (f x * g x) (f (x + 1) * M)
      omega
    have tb := abs_le.mp tt
    rw [i32_id (by omega)]
    refine ⟨tt, ?_⟩
    push_cast
    rw [m1]
    unfold pairMul cz
    rw [if_pos h]
    ring
  · rw [if_neg h]
    have hw : wt g x = |g x| + |g (x - 1)| := by unfold wt; rw [if_neg h]
    have t1 : |f (x - 1) * g x| ≤ F * |g x| := mul_abs_le _ _ _ (hf _ (by omega))
    have t2 : |f x * g (x - 1)| ≤ F * |g (x - 1)| := mul_abs_le _ _ _ (hf _ hx)
    have t3 : F * wt g x = F * |g x| + F * |g (x - 1)| := by rw [hw, Int.mul_add]
    have tt : |dest x + (f (x - 1) * g x + f x * g (x - 1))| ≤ |dest x| + F * wt g x := by
      refine le_trans (abs_add_le _ _) ?_
      have := abs_add_le (f (x - 1) * g x) (f x * g (x - 1))
      omega
    have tb := abs_le.mp tt
    rw [i32_id (by omega)]
    refine ⟨tt, ?_⟩
    push_cast
    unfold pairMul cz
    rw [if_neg h]

theorem wt_le (g : Poly) (G : Int) (hG : 1664 ≤ G) (hg : ∀ x, x < 256 → |g x| ≤ G) (x : Nat) (hx : x < 256) :
    wt g x ≤ 2 * G := by
  unfold wt
  have := hg x hx
  have := hg (x - 1) (by omega)
  split <;> omega

theorem acc_spec (v w : Nat → Poly) (init : Poly) (F G D : Int) (n : Nat) (hG : 1664 ≤ G) (hG2 : G ≤ 32767)
    (hv : ∀ j, j < n → ∀ x, x < 256 → |v j x| ≤ F) (hw : ∀ j, j < n → ∀ x, x < 256 → |w j x| ≤ G) (hF : 0 ≤ F)
    (hi : ∀ x, x < 256 → |init x| ≤ D) (hb : D + n * (F * (2 * G)) ≤ 2147000000) (x : Nat) (hx : x < 256) :
    |acc v w init n x| ≤ |init x| + ∑ j ∈ range n, F * wt (w j) x ∧
    |acc v w init n x| ≤ D + n * (F * (2 * G)) ∧
    ((acc v w init n x : Int) : Zq) = (init x : Zq) + ∑ j ∈ range n, pairMul (cz (v j)) (cz (w j)) x := by
  induction n with
  | zero => simp only [acc, sum_range_zero]; have := hi x hx; refine ⟨by omega, by push_cast; omega, by simp⟩
  | succ n ih =>
    have hFG : 0 ≤ F * (2 * G) := mul_nonneg hF (by omega)
    have e : ((n + 1 : Nat) : Int) * (F * (2 * G)) = n * (F * (2 * G)) + F * (2 * G) := by push_cast; ring
    rw [e] at hb
    obtain ⟨i1, i2, i3⟩ := ih (fun j h => hv j (by omega)) (fun j h => hw j (by omega)) (by omega)
    have wl : F * wt (w n) x ≤ F * (2 * G) := mul_le_mul_of_nonneg_left (wt_le _ G hG (hw n (by omega)) x hx) hF
    obtain ⟨c1, c2⟩ := circ_step (acc v w init n) (v n) (w n) F x hx (hv n (by omega))
      (fun x h => le_trans (hw n (by omega) x h) hG2) (by omega)
    simp only [acc]
    rw [sum_range_succ, sum_range_succ]
    refine ⟨by omega, by rw [e]; omega, ?_⟩
    rw [c2, i3]; ring

theorem barrett_abs (a B : Int) (h : |a| ≤ B) (hB : B ≤ 2147000000) :
    3329 ∣ (a - barrett a) ∧ 134217728 * |barrett a| ≤ 223405408256 + 894 * |a| := by
  have ha := abs_le.mp h
  obtain ⟨T, h1, h2, h3⟩ := barrett_spec a (by omega)
  refine ⟨⟨T, by omega⟩, ?_⟩
  rcases abs_cases (barrett a) with ⟨e, _⟩ | ⟨e, _⟩ <;> rcases abs_cases a with ⟨e', _⟩ | ⟨e', _⟩ <;> omega

theorem barrett_cz (a B : Int) (h : |a| ≤ B) (hB : B ≤ 2147000000) : ((barrett a : Int) : Zq) = (a : Zq) :=
  (cast_eq_of_dvd (barrett_abs a B h hB).1).symm

/-- The transform of a bounded array. -/
theorem ntt_abs (a : Poly) (B : Int) (hB : B + 11648 ≤ 32767) (ha : ∀ x, x < 256 → |a x| ≤ B) (x : Nat) (hx : x < 256) :
    |ntt zetaPower1 a x| ≤ B + 11648 ∧ cz (ntt zetaPower1 a) x = Spec.ntt (cz a) x := by
  have := ntt_steps a B (by omega) (fun x h => abs_le.mp (ha x h)) x hx
  exact ⟨abs_le.mpr this.1, this.2⟩

theorem sumsFit_of (g : Poly) (h : ∀ x, x < 256 → |g x| ≤ 4095) : SumsFit g := by
  intro c p hc hp
  have h0 := h (16 * c + p) (by omega)
  have h1 := h (16 * c + p + 2) (by omega)
  have h2 := h (16 * c + p + 4) (by omega)
  have h3 := h (16 * c + p + 6) (by omega)
  have h4 := h (16 * c + p + 8) (by omega)
  have h5 := h (16 * c + p + 10) (by omega)
  have h6 := h (16 * c + p + 12) (by omega)
  have h7 := h (16 * c + p + 14) (by omega)
  omega

theorem pairMul_congr {f f' g g' : Nat → Zq} (hf : ∀ x, x < 256 → f x = f' x) (hg : ∀ x, x < 256 → g x = g' x)
    (x : Nat) (hx : x < 256) : pairMul f g x = pairMul f' g' x := by
  unfold pairMul
  split
  · rw [hf x hx, hg x hx, hf (x + 1) (by omega), hg (x + 1) (by omega)]
  · rw [hf x hx, hg x hx, hf (x - 1) (by omega), hg (x - 1) (by omega)]

/-! ## Key generation -/

theorem pkeGen_spec (k : Nat) (hk : k ≤ 4) (a : Nat → Nat → Poly) (s e : Nat → Poly)
    (ha : ∀ i j, i < k → j < k → ∀ x, x < 256 → |a i j x| ≤ 3328)
    (hs : ∀ i, i < k → ∀ x, x < 256 → |s i x| ≤ 3) (he : ∀ i, i < k → ∀ x, x < 256 → |e i x| ≤ 3) (i x : Nat)
    (hi : i < k) (hx : x < 256) :
    |(pkeGen k a s e).1 i x| ≤ 1664 ∧ cz ((pkeGen k a s e).1 i) x = Spec.ntt (cz (s i)) x ∧
    |(pkeGen k a s e).2 i x| ≤ 1960 ∧
    cz ((pkeGen k a s e).2 i) x = Spec.ntt (cz (e i)) x +
      ∑ j ∈ range k, pairMul (cz (a i j)) (Spec.ntt (cz (s j))) x := by
  have hS : ∀ i, i < k → ∀ x, x < 256 → |barrettAll (ntt zetaPower1 (s i)) x| ≤ 1664 ∧
      cz (barrettAll (ntt zetaPower1 (s i))) x = Spec.ntt (cz (s i)) x := by
    intro i hi x hx
    obtain ⟨h1, h2⟩ := ntt_abs (s i) 3 (by decide) (hs i hi) x hx
    have hb := abs_le.mp h1
    refine ⟨abs_le.mpr (barrett_range_small _ (by omega)), ?_⟩
    rw [← h2]
    exact barrett_cz _ _ h1 (by decide)
  refine ⟨(hS i hi x hx).1, (hS i hi x hx).2, ?_⟩
  simp only [pkeGen, matrixMulAdd]
  rw [matrixRow_eq]
  have hkk : (k : Int) ≤ 4 := by omega
  obtain ⟨_, a2, a3⟩ := acc_spec (a i) (fun j => barrettAll (ntt zetaPower1 (s j))) (ntt zetaPower1 (e i)) 3328 1664 11651 k
    (by decide) (by decide) (fun j hj x h => ha i j hi hj x h) (fun j hj x h => (hS j hj x h).1) (by decide)
    (fun x h => (ntt_abs (e i) 3 (by decide) (he i hi) x h).1) (by omega) x hx
  have hB : |acc (a i) (fun j => barrettAll (ntt zetaPower1 (s j))) (ntt zetaPower1 (e i)) k x| ≤ 44313987 := by omega
  unfold polyReduce
  generalize hA : acc (a i) (fun j => barrettAll (ntt zetaPower1 (s j))) (ntt zetaPower1 (e i)) k = A at a3 hB ⊢
  refine ⟨?_, ?_⟩
  · have := (barrett_abs (A x) _ hB (by decide)).2
    omega
  · show ((barrett (A x) : Int) : Zq) = _
    rw [barrett_cz _ _ hB (by decide), a3]
    have e1 := (ntt_abs (e i) 3 (by decide) (he i hi) x hx).2
    have e2 : ∀ j ∈ range k, pairMul (cz (a i j)) (cz (barrettAll (ntt zetaPower1 (s j)))) x =
      pairMul (cz (a i j)) (Spec.ntt (cz (s j))) x :=
      fun j hj => pairMul_congr (fun _ _ => rfl) (fun x h => (hS j (mem_range.mp hj) x h).2) x hx
    rw [sum_congr rfl e2, ← e1]
    rfl

/-! ## Encryption -/

theorem spec_compress_congr (d : Nat) (x y : Int) (h : ((x : Int) : Zq) = (y : Zq)) :
    Spec.compress d x = Spec.compress d y := by
  have : (3329 : Int) ∣ y - x := by
    rw [ZMod.intCast_eq_intCast_iff_dvd_sub] at h
    exact h
  unfold Spec.compress
  rw [show x % 3329 = y % 3329 by omega]

theorem polyCompress_at (d : Nat) (hd : d = 1 ∨ d = 4 ∨ d = 5 ∨ d = 10 ∨ d = 11) (a : Poly) :
    ∃ c, polyCompress d a = some c ∧ ∀ x, ∀ y, compress d (a x) = some y → c x = y := by
  refine ⟨fun i => match compress d (a i) with | some y => y | none => 0, ?_, ?_⟩
  · unfold polyCompress
    rw [compress_spec d hd 0 (by left; omega)]
    rfl
  · intro x y h
    simp only [h]

/-- A reduced sum of products, transformed back. -/
theorem ip_spec (k : Nat) (hk : k ≤ 4) (v y : Nat → Poly) (B : Int) (hB : 0 ≤ B ∧ B ≤ 3328)
    (hv : ∀ j, j < k → ∀ x, x < 256 → |v j x| ≤ 3328) (hy : ∀ j, j < k → ∀ x, x < 256 → |y j x| ≤ B)
    (V : Nat → Nat → Zq) (hV : ∀ j, j < k → ∀ x, x < 256 → Spec.ntt (V j) x = cz (v j) x)
    (hfit : SumsFit (polyReduce (acc v (fun j => ntt zetaPower1 (y j)) (fun _ => 0) k)))
    (f : Nat → Zq) (hf : el f = ∑ j ∈ range k, el (V j) * el (cz (y j))) (x : Nat) (hx : x < 256) :
    |intt zetaPower1 (polyReduce (acc v (fun j => ntt zetaPower1 (y j)) (fun _ => 0) k)) x| ≤ 1664 ∧
    cz (intt zetaPower1 (polyReduce (acc v (fun j => ntt zetaPower1 (y j)) (fun _ => 0) k))) x = f x := by
  have hY : ∀ i, i < k → ∀ x, x < 256 → |ntt zetaPower1 (y i) x| ≤ B + 11648 ∧
      cz (ntt zetaPower1 (y i)) x = Spec.ntt (cz (y i)) x :=
    fun i hi x h => ntt_abs (y i) B (by omega) (hy i hi) x h
  have hkk : (k : Int) ≤ 4 := by omega
  have hacc := fun x hx => acc_spec v (fun j => ntt zetaPower1 (y j)) (fun _ => 0) 3328 14976 0 k
    (by decide) (by decide) hv (fun j hj x h => by have := (hY j hj x h).1; omega) (by decide)
    (fun x h => by simp) (by omega) x hx
  generalize acc v (fun j => ntt zetaPower1 (y j)) (fun _ => 0) k = G at hacc hfit ⊢
  have hG : ∀ x, x < 256 → |G x| ≤ 398721024 := by
    intro x hx
    have := (hacc x hx).2.1
    omega
  obtain ⟨h, hh⟩ := ntt_surj (cz (polyReduce G))
  have hr : ∀ x, x < 256 → cz (polyReduce G) x =
      ∑ j ∈ range k, pairMul (Spec.ntt (V j)) (Spec.ntt (cz (y j))) x := by
    intro x hx
    show ((barrett (G x) : Int) : Zq) = _
    rw [barrett_cz _ _ (hG x hx) (by decide), (hacc x hx).2.2]
    simp only [Int.cast_zero, zero_add]
    exact sum_congr rfl fun j hj => pairMul_congr (fun x h => (hV j (mem_range.mp hj) x h).symm)
      (fun x h => (hY j (mem_range.mp hj) x h).2) x hx
  have hel : el h = el f := by
    have := el_sum_mul (range k) V (fun j => cz (y j)) (fun _ => 0) h (by
      intro x hx
      rw [hh x hx, hr x hx]
      have : Spec.ntt (fun _ => (0 : Zq)) x = 0 := by unfold Spec.ntt; simp
      rw [this, zero_add])
    rw [this, hf]
    have : el (fun _ => (0 : Zq)) = 0 := by unfold el toPoly; simp
    rw [this, zero_add]
  obtain ⟨r1, r2⟩ := intt_main (polyReduce G) h hfit (fun x hx => (hh x hx).symm) x hx
  exact ⟨abs_le.mpr r1, r2.trans (el_inj hel x hx)⟩

/-- With small second factors the reduced sums fit. -/
theorem fit_small (k : Nat) (hk : k ≤ 4) (v y : Nat → Poly) (hv : ∀ j, j < k → ∀ x, x < 256 → |v j x| ≤ 3328)
    (hy : ∀ j, j < k → ∀ x, x < 256 → |y j x| ≤ 3) :
    SumsFit (polyReduce (acc v (fun j => ntt zetaPower1 (y j)) (fun _ => 0) k)) := by
  have hkk : (k : Int) ≤ 4 := by omega
  refine sumsFit_of _ fun x hx => ?_
  have h := (acc_spec v (fun j => ntt zetaPower1 (y j)) (fun _ => 0) 3328 11651 0 k
    (by decide) (by decide) hv
    (fun j hj x h => (ntt_abs (y j) 3 (by decide) (hy j hj) x h).1) (by decide)
    (fun x h => by simp) (by omega) x hx).2.1
  show |barrett _| ≤ 4095
  generalize acc v (fun j => ntt zetaPower1 (y j)) (fun _ => 0) k x = G at h ⊢
  have hG : |G| ≤ 310196224 := by omega
  have := (barrett_abs G _ hG (by decide)).2
  omega

/-- Parity sums of the weights. -/
theorem wt_sum (g : Poly) (hg : ∀ c p, c < 16 → p < 2 →
    |g (16 * c + p)| + |g (16 * c + p + 2)| + |g (16 * c + p + 4)| + |g (16 * c + p + 6)| + |g (16 * c + p + 8)| +
    |g (16 * c + p + 10)| + |g (16 * c + p + 12)| + |g (16 * c + p + 14)| ≤ 79872) (c p : Nat) (hc : c < 16) (hp : p < 2) :
    wt g (16 * c + p) + wt g (16 * c + p + 2) + wt g (16 * c + p + 4) + wt g (16 * c + p + 6) + wt g (16 * c + p + 8) +
    wt g (16 * c + p + 10) + wt g (16 * c + p + 12) + wt g (16 * c + p + 14) ≤ 159744 := by
  unfold wt
  have h0 := hg c 0 hc (by decide)
  have h1 := hg c 1 hc (by decide)
  rcases (show p = 0 ∨ p = 1 by omega) with rfl | rfl
  · simp only [Nat.add_zero] at h0 ⊢
    rw [if_pos (by omega), if_pos (by omega), if_pos (by omega), if_pos (by omega), if_pos (by omega), if_pos (by omega),
      if_pos (by omega), if_pos (by omega)]
    omega
  · simp only [Nat.add_zero] at h0
    rw [if_neg (by omega), if_neg (by omega), if_neg (by omega), if_neg (by omega), if_neg (by omega), if_neg (by omega),
      if_neg (by omega), if_neg (by omega)]
    rw [show 16 * c + 1 - 1 = 16 * c by omega, show 16 * c + 1 + 2 - 1 = 16 * c + 2 by omega,
      show 16 * c + 1 + 4 - 1 = 16 * c + 4 by omega, show 16 * c + 1 + 6 - 1 = 16 * c + 6 by omega,
      show 16 * c + 1 + 8 - 1 = 16 * c + 8 by omega, show 16 * c + 1 + 10 - 1 = 16 * c + 10 by omega,
      show 16 * c + 1 + 12 - 1 = 16 * c + 12 by omega, show 16 * c + 1 + 14 - 1 = 16 * c + 14 by omega]
    omega

/-- With second factors up to `q - 1` a single coefficient may exceed `4095`, but the sums still fit. -/
theorem fit_large (k : Nat) (hk : k ≤ 4) (v y : Nat → Poly) (hv : ∀ j, j < k → ∀ x, x < 256 → |v j x| ≤ 3328)
    (hy : ∀ j, j < k → ∀ x, x < 256 → |y j x| ≤ 3328) :
    SumsFit (polyReduce (acc v (fun j => ntt zetaPower1 (y j)) (fun _ => 0) k)) := by
  have hkk : (k : Int) ≤ 4 := by omega
  have hacc := fun x hx => acc_spec v (fun j => ntt zetaPower1 (y j)) (fun _ => 0) 3328 14976 0 k
    (by decide) (by decide) hv
    (fun j hj x h => (ntt_abs (y j) 3328 (by decide) (hy j hj) x h).1) (by decide)
    (fun x h => by simp) (by omega) x hx
  have hws : ∀ c p, c < 16 → p < 2 → ∀ n, n ≤ k →
    ∑ j ∈ range n, 3328 * wt (ntt zetaPower1 (y j)) (16 * c + p) +
    ∑ j ∈ range n, 3328 * wt (ntt zetaPower1 (y j)) (16 * c + p + 2) +
    ∑ j ∈ range n, 3328 * wt (ntt zetaPower1 (y j)) (16 * c + p + 4) +
    ∑ j ∈ range n, 3328 * wt (ntt zetaPower1 (y j)) (16 * c + p + 6) +
    ∑ j ∈ range n, 3328 * wt (ntt zetaPower1 (y j)) (16 * c + p + 8) +
    ∑ j ∈ range n, 3328 * wt (ntt zetaPower1 (y j)) (16 * c + p + 10) +
    ∑ j ∈ range n, 3328 * wt (ntt zetaPower1 (y j)) (16 * c + p + 12) +
    ∑ j ∈ range n, 3328 * wt (ntt zetaPower1 (y j)) (16 * c + p + 14) ≤ n * (3328 * 159744) := by
    intro c p hc hp n hn
    induction n with
    | zero => simp
    | succ n ih =>
      have := ih (by omega)
      have h2 := wt_sum (ntt zetaPower1 (y n))
        (fun c p hc hp => ntt_parity_sum (y n) (fun x h => abs_le.mp (hy n (by omega) x h)) c p hc hp) c p hc hp
      simp only [sum_range_succ]
      push_cast
      omega
  intro c p hc hp
  have hw := hws c p hc hp k (le_refl _)
  have one : ∀ x, x < 256 → 134217728 * |barrett (acc v (fun j => ntt zetaPower1 (y j)) (fun _ => 0) k x)| ≤
      223405408256 + 894 * ∑ j ∈ range k, 3328 * wt (ntt zetaPower1 (y j)) x := by
    intro x hx
    obtain ⟨a1, a2, _⟩ := hacc x hx
    have := (barrett_abs _ _ a2 (by omega)).2
    simp only [abs_zero] at a1
    omega
  have q0 := one (16 * c + p) (by omega)
  have q1 := one (16 * c + p + 2) (by omega)
  have q2 := one (16 * c + p + 4) (by omega)
  have q3 := one (16 * c + p + 6) (by omega)
  have q4 := one (16 * c + p + 8) (by omega)
  have q5 := one (16 * c + p + 10) (by omega)
  have q6 := one (16 * c + p + 12) (by omega)
  have q7 := one (16 * c + p + 14) (by omega)
  unfold polyReduce
  omega

end Verif.Crypto.Mlkem
