import Verif.Crypto.Mldsa.Props
import Verif.Crypto.Mldsa.Ring
import Verif.Crypto.Mldsa.Ball
/-! The arithmetic steps of key generation, signing and verification, each as a statement about transforms. -/
namespace Verif.Crypto.Mldsa
open Finset
open Verif.Crypto.Mlkem (Poly i32 u32 u8 upd)

/-- The residues of an array. -/
def cz (a : Nat → Int) : Nat → Zq := fun i => ((a i : Int) : Zq)

theorem cz_at (a : Nat → Int) (x : Nat) : cz a x = ((a x : Int) : Zq) := rfl

theorem modQ_spec (v : Int) (h : -16777216 ≤ v ∧ v ≤ 16777216) :
    ((modQ v : Int) : Zq) = ((v : Int) : Zq) ∧ -8388607 ≤ modQ v ∧ modQ v ≤ 8388607 := by
  have e : ∃ m, modQ v = v - m * 8380417 ∧ -8388607 ≤ modQ v ∧ modQ v ≤ 8388607 := by
    refine ⟨(v + 4194304) / 8388608, ?_⟩
    have hm : -2 ≤ (v + 4194304) / 8388608 ∧ (v + 4194304) / 8388608 ≤ 2 := by omega
    have e : modQ v = v - (v + 4194304) / 8388608 * 8380417 := by
      unfold modQ Q
      rw [i32_id (x := v + _) (by norm_num; omega)]
      have e2 : (2 : Int) ^ 23 = 8388608 := by norm_num
      have e3 : (2 : Int) ^ 22 = 4194304 := by norm_num
      simp only [e2, e3]
      rw [i32_id (x := _ * _) (by omega), i32_id (by omega)]
    rw [e]
    refine ⟨rfl, by omega, by omega⟩
  obtain ⟨m, e, hr⟩ := e
  refine ⟨cast_of_dvd ⟨-m, by omega⟩, hr⟩

theorem addQ_spec (v : Int) (h : -8380417 < v ∧ v < 8380417) :
    ((addQ v : Int) : Zq) = ((v : Int) : Zq) ∧ 0 ≤ addQ v ∧ addQ v < 8380417 := by
  have e : (addQ v = v ∨ addQ v = v + 8380417) ∧ 0 ≤ addQ v ∧ addQ v < 8380417 := by
    unfold addQ Q i32; split <;> omega
  obtain ⟨e, hr⟩ := e
  refine ⟨?_, hr⟩
  rcases e with e | e
  · rw [e]
  · exact cast_of_dvd ⟨1, by omega⟩

theorem addQ_small (v : Int) (h : -8380417 < v ∧ v < 8380417) : addQ v = v % 8380417 := addQ_mod v h

/-- The forward transform on an array bounded by `B`. -/
theorem ntt_bound (a : Poly) (B : Int) (hB : B ≤ 8380416) (ha : ∀ x, x < 256 → |a x| ≤ B) :
    ∀ x, x < 256 → |ntt a x| ≤ 45000000 ∧ cz (ntt a) x = Spec.ntt (cz a) x := by
  intro x hx
  obtain ⟨h1, h2⟩ := ntt_steps a B (by omega) (fun x hx => abs_le.1 (ha x hx)) x hx
  exact ⟨abs_le.2 (by omega), h2⟩

/-- `NTT⁻¹(ĉ ∘ ŝ)` is the product in `R_q`. -/
theorem prod_spec (c s : Poly) (Bc Bs : Int) (hBc : Bc ≤ 8380416) (hBs : Bs ≤ 8380416)
    (hc : ∀ x, x < 256 → |c x| ≤ Bc) (hs : ∀ x, x < 256 → |s x| ≤ Bs) :
    (∀ x, x < 256 → |intt (vecMul (ntt c) (ntt s)) x| ≤ 4190208) ∧
    ∀ x, x < 256 → Spec.ntt (cz (intt (vecMul (ntt c) (ntt s)))) x = Spec.ntt (cz c) x * Spec.ntt (cz s) x := by
  have hm : ∀ x, x < 256 → _ := fun x hx => vecMul_spec (ntt c) (ntt s) x (ntt_bound c Bc hBc hc x hx).1 (ntt_bound s Bs hBs hs x hx).1
  obtain ⟨h1, h2⟩ := intt_spec (vecMul (ntt c) (ntt s)) (fun x hx => by have := (hm x hx).2; omega)
  refine ⟨fun x hx => abs_le.2 (h1 x hx), fun x hx => ?_⟩
  have e := h2 x hx
  rw [(hm x hx).1] at e
  have ec := (ntt_bound c Bc hBc hc x hx).2
  have es := (ntt_bound s Bs hBs hs x hx).2
  rw [cz_at] at ec es
  rw [ec, es] at e
  have := congrArg (fun z => -(2 ^ 64) * z) e
  have r := rInv_mul
  show Spec.ntt (fun i => ((intt (vecMul (ntt c) (ntt s)) i : Int) : Zq)) x = _
  linear_combination this + (Spec.ntt (cz c) x * Spec.ntt (cz s) x - Spec.ntt (fun i => ((intt (vecMul (ntt c) (ntt s)) i : Int) : Zq)) x) * r

theorem cancel_rInv {a b : Zq} (h : rInv * a = rInv * b) : a = b := by
  have := congrArg (fun z => -(2 ^ 64) * z) h
  linear_combination this + (b - a) * rInv_mul

/-- `NTT⁻¹(Â ∘ ŷ)`. -/
theorem mat_spec (l : Nat) (hl : l ≤ 8) (a y : Nat → Poly) (B : Int) (hB : B ≤ 8380416)
    (ha : ∀ j, j < l → ∀ x, x < 256 → 0 ≤ a j x ∧ a j x < 8380417) (hy : ∀ j, j < l → ∀ x, x < 256 → |y j x| ≤ B) :
    (∀ x, x < 256 → |intt (matMul l a (fun j => ntt (y j))) x| ≤ 4190208) ∧
    ∀ x, x < 256 → Spec.ntt (cz (intt (matMul l a (fun j => ntt (y j))))) x =
      ∑ j ∈ range l, cz (a j) x * Spec.ntt (cz (y j)) x := by
  have hm : ∀ x, x < 256 → _ := fun x hx => matMul_spec l hl a (fun j => ntt (y j)) x
    (fun j hj => abs_le.2 (by have := ha j hj x hx; omega)) (fun j hj => (ntt_bound (y j) B hB (hy j hj) x hx).1)
  obtain ⟨h1, h2⟩ := intt_spec (matMul l a (fun j => ntt (y j))) (fun x hx => by have := (hm x hx).2; omega)
  refine ⟨fun x hx => abs_le.2 (h1 x hx), fun x hx => ?_⟩
  have e := h2 x hx
  rw [(hm x hx).1] at e
  have e := cancel_rInv e
  show Spec.ntt (fun i => ((intt (matMul l a (fun j => ntt (y j))) i : Int) : Zq)) x = _
  rw [e]
  apply sum_congr rfl
  intro j hj
  have := (ntt_bound (y j) B hB (hy j (mem_range.1 hj)) x hx).2
  rw [cz_at] at this
  rw [this]; rfl

/-- The verifier's `NTT⁻¹(Â ∘ ẑ − ĉ ∘ NTT(t₁ 2^d))`. -/
theorem approxW_spec (p : Params) (hl : p.l ≤ 8) (a z : Nat → Poly) (c t1 : Poly) (B : Int) (hB : B ≤ 8380416)
    (ha : ∀ j, j < p.l → ∀ x, x < 256 → 0 ≤ a j x ∧ a j x < 8380417) (hz : ∀ j, j < p.l → ∀ x, x < 256 → |z j x| ≤ B)
    (hc : ∀ x, x < 256 → |c x| ≤ 1) (ht : ∀ x, x < 256 → 0 ≤ t1 x ∧ t1 x < 1024) :
    (∀ x, x < 256 → |approxW p a (fun j => ntt (z j)) (ntt c) t1 x| ≤ 4190208) ∧
    ∀ x, x < 256 → Spec.ntt (cz (approxW p a (fun j => ntt (z j)) (ntt c) t1)) x =
      ∑ j ∈ range p.l, cz (a j) x * Spec.ntt (cz (z j)) x - Spec.ntt (cz c) x * (2 ^ 13 * Spec.ntt (cz t1) x) := by
  have hsh : ∀ x, x < 256 → shiftT1 t1 x = 8192 * t1 x := by
    intro x hx
    have := ht x hx
    unfold shiftT1 i32 u32; norm_num; omega
  have hm : ∀ x, x < 256 → _ := fun x hx => matMul_spec p.l hl a (fun j => ntt (z j)) x
    (fun j hj => abs_le.2 (by have := ha j hj x hx; omega)) (fun j hj => (ntt_bound (z j) B hB (hz j hj) x hx).1)
  have hs := ntt_bound (shiftT1 t1) 8380416 (le_refl _) (fun x hx => by
    rw [hsh x hx]; have := ht x hx; exact abs_le.2 (by omega))
  have hcc := ntt_bound c 1 (by decide) hc
  have hv : ∀ x, x < 256 → _ := fun x hx => vecMul_spec (ntt (shiftT1 t1)) (ntt c) x (hs x hx).1 (hcc x hx).1
  have hsub : ∀ x, x < 256 → cz (vecSub (matMul p.l a (fun j => ntt (z j))) (vecMul (ntt (shiftT1 t1)) (ntt c))) x =
      cz (matMul p.l a (fun j => ntt (z j))) x - cz (vecMul (ntt (shiftT1 t1)) (ntt c)) x ∧
      -8388607 ≤ vecSub (matMul p.l a (fun j => ntt (z j))) (vecMul (ntt (shiftT1 t1)) (ntt c)) x ∧
      vecSub (matMul p.l a (fun j => ntt (z j))) (vecMul (ntt (shiftT1 t1)) (ntt c)) x ≤ 8388607 := by
    intro x hx
    have b1 := (hm x hx).2
    have b2 := (hv x hx).2
    unfold vecSub
    rw [cz_at, i32_id (by omega)]
    obtain ⟨e, hr⟩ := modQ_spec (matMul p.l a (fun j => ntt (z j)) x - vecMul (ntt (shiftT1 t1)) (ntt c) x) (by omega)
    refine ⟨?_, hr⟩
    rw [e]; push_cast; rfl
  unfold approxW
  obtain ⟨h1, h2⟩ := intt_spec _ (fun x hx => (hsub x hx).2)
  refine ⟨fun x hx => abs_le.2 (h1 x hx), fun x hx => ?_⟩
  have e := h2 x hx
  rw [← cz_at, (hsub x hx).1, cz_at, cz_at, (hm x hx).1, (hv x hx).1, ← mul_sub] at e
  have e := cancel_rInv e
  show Spec.ntt (fun i => ((intt (vecSub (matMul p.l a (fun j => ntt (z j))) (vecMul (ntt (shiftT1 t1)) (ntt c))) i : Int) : Zq)) x = _
  rw [e]
  have es := (hs x hx).2
  have ec := (hcc x hx).2
  rw [cz_at] at es ec
  rw [es, ec]
  have e8 : Spec.ntt (cz (shiftT1 t1)) x = 2 ^ 13 * Spec.ntt (cz t1) x := by
    rw [← ntt_smul]
    apply ntt_congr
    intro i hi
    rw [cz_at, hsh i hi, cz_at]
    push_cast
    norm_num
  rw [e8, mul_comm (2 ^ 13 * Spec.ntt (cz t1) x)]
  have es2 : ∑ j ∈ range p.l, ((a j x : Int) : Zq) * ((ntt (z j) x : Int) : Zq) = ∑ j ∈ range p.l, cz (a j) x * Spec.ntt (cz (z j)) x := by
    apply sum_congr rfl
    intro j hj
    have := (ntt_bound (z j) B hB (hz j (mem_range.1 hj)) x hx).2
    rw [cz_at] at this
    rw [this]; rfl
  rw [es2]

/-- `z = y + ⟨⟨c s⟩⟩ mod± q`. -/
theorem vecAdd_spec (a b : Poly) (x : Nat) (ha : |a x| ≤ 8380416) (hb : |b x| ≤ 8380416) :
    cz (vecAdd a b) x = cz a x + cz b x := by
  rw [abs_le] at ha hb
  unfold vecAdd
  rw [cz_at, i32_id (by omega), (modQ_spec (a x + b x) (by omega)).1, cz_at, cz_at]
  push_cast; rfl

theorem i32_range (x : Int) : -2147483648 ≤ i32 x ∧ i32 x ≤ 2147483647 := by unfold i32; omega
theorem modQ_range (x : Int) : -2147483648 ≤ modQ x ∧ modQ x ≤ 2147483647 := i32_range _

/-! ## Loops -/

theorem collect_spec {α : Type} (d : α) (f : Nat → Option α) (n : Nat) (g : Nat → α) (h : collect d f n = some g) :
    ∀ i, i < n → f i = some (g i) := by
  induction n generalizing g with
  | zero => intro i hi; omega
  | succ n ih =>
    unfold collect at h
    generalize hc : collect d f n = o at h
    generalize hf : f n = o2 at h
    match o, o2 with
    | none, _ => simp at h
    | some _, none => simp at h
    | some g0, some a =>
      simp only [Option.some.injEq] at h
      subst h
      intro i hi
      by_cases hin : i = n
      · show f i = some (if i = n then a else g0 i)
        rw [if_pos hin, hin, hf]
      · show f i = some (if i = n then a else g0 i)
        rw [if_neg hin]; exact ih g0 hc i (by omega)

theorem collect_congr {α : Type} (d : α) (f g : Nat → Option α) (n : Nat) (h : ∀ i, i < n → f i = g i) :
    collect d f n = collect d g n := by
  induction n with
  | zero => rfl
  | succ n ih => unfold collect; rw [ih (fun i hi => h i (by omega)), h n (by omega)]

theorem collect_some {α : Type} (d : α) (f : Nat → Option α) (n : Nat) (h : ∀ i, i < n → ∃ a, f i = some a) :
    ∃ g, collect d f n = some g := by
  induction n with
  | zero => exact ⟨_, rfl⟩
  | succ n ih =>
    obtain ⟨g, hg⟩ := ih (fun i hi => h i (by omega))
    obtain ⟨a, ha⟩ := h n (by omega)
    unfold collect
    rw [hg, ha]
    exact ⟨_, rfl⟩

theorem bytes_ext {f g : Nat → Nat} {off off' n : Nat} (h : ∀ i, i < n → f (off + i) = g (off' + i)) :
    bytes f off n = bytes g off' n := by
  unfold bytes
  apply List.map_congr_left
  intro i hi
  exact h i (List.mem_range.1 hi)

theorem bytes_at {f g : Nat → Nat} {off off' n : Nat} (h : bytes f off n = bytes g off' n) (i : Nat) (hi : i < n) :
    f (off + i) = g (off' + i) := by
  have := congrArg (fun l => l[i]?) h
  unfold bytes at this
  simpa [hi] using this

/-- Every matrix entry is a sample, so it is reduced. -/
theorem expandRow_spec {P : Prims} (hP : ∀ m n, P.shake128 m n < 256) {p : Params} {fuel : Nat} {rho : Nat → Nat} {i : Nat}
    {row : Nat → Poly} (h : expandRow P p fuel rho i = some row) (j : Nat) (hj : j < p.l) :
    Spec.IsSample (Spec.cand3 (P.shake128 (bytes rho 0 32 ++ [j, i]))) (row j) := by
  have := collect_spec _ _ _ _ h j hj
  exact (rejNtt_spec (hP _) fuel 0 0 (zeroPoly, 0) (Or.inl (by decide)) acc_nil).1 _ this

theorem expandA_congr {P : Prims} {p : Params} {fuel : Nat} {rho rho' : Nat → Nat} (h : bytes rho 0 32 = bytes rho' 0 32) :
    expandA P p fuel rho = expandA P p fuel rho' := by
  unfold expandA expandRow
  rw [h]

end Verif.Crypto.Mldsa
