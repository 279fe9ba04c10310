import Verif.Crypto.Mldsa.SignBound
/-! Every signature comes from an accepted round of ML-DSA.Sign_internal. -/
namespace Verif.Crypto.Mldsa
open Finset
open Verif.Crypto.Mlkem (Poly i32 u32 u8 upd)

namespace Spec
/-- `W = Σ_j A_j y_j` in `R_q`, where the `A_j` are given by their transforms. -/
def IsRowMul (l : Nat) (Ahat y : Nat → Nat → Zq) (W : Nat → Zq) : Prop :=
  ∃ A : Nat → Nat → Zq, (∀ j, j < l → ∀ x, x < 256 → Spec.ntt (A j) x = Ahat j x) ∧
    ∀ x, x < 256 → W x = ∑ j ∈ range l, ringMul (A j) (y j) x
/-- `y` is ExpandMask(ρ'', κ) (FIPS 204, Algorithm 34). -/
def IsMask (P : Prims) (p : Params) (rho2 : List Nat) (kappa : Nat) (y : Nat → Nat → Int) : Prop :=
  let zb := 1 + bitlen (p.gamma1 - 1)
  ∀ j, j < p.l → IsPacked (P.shake256 (rho2 ++ [(kappa + j) % 256, (kappa + j) / 256])) 0 zb (fun x => p.gamma1 - y j x)
end Spec
open Spec

theorem isRowMul_iff (l : Nat) (Ahat y : Nat → Nat → Zq) (W : Nat → Zq) :
    IsRowMul l Ahat y W ↔ ∀ x, x < 256 → Spec.ntt W x = ∑ j ∈ range l, Ahat j x * Spec.ntt (y j) x := by
  have key : ∀ A : Nat → Nat → Zq, (∀ j, j < l → ∀ x, x < 256 → Spec.ntt (A j) x = Ahat j x) → ∀ x, x < 256 →
      Spec.ntt (fun x => ∑ j ∈ range l, ringMul (A j) (y j) x) x = ∑ j ∈ range l, Ahat j x * Spec.ntt (y j) x := by
    intro A hA x hx
    rw [ntt_sum]
    exact sum_congr rfl (fun j hj => by rw [ntt_mul, hA j (mem_range.1 hj) x hx])
  constructor
  · rintro ⟨A, hA, hW⟩ x hx
    rw [← key A hA x hx]
    exact ntt_congr hW x
  · intro h
    choose A hA using fun j => ntt_surj (Ahat j)
    refine ⟨A, fun j _ x hx => hA j x hx, ?_⟩
    apply ntt_inj
    intro x hx
    rw [h x hx, key A (fun j _ x hx => hA j x hx) x hx]

theorem signLoop_kappa {P : Prims} {p : Params} {fuel : Nat} {e : SignEnv} {w1Buf : Nat → Nat} {r : Round} (n : Nat) : ∀ {u : Nat},
    signLoop P p fuel e w1Buf n u = some r → ∃ m, m < n ∧ signRound P p fuel e w1Buf (if m = 0 then u else (u + m * p.l) % 2 ^ 16) = some (some r) := by
  induction n with
  | zero => intro u h; simp [signLoop] at h
  | succ n ih =>
    intro u h
    unfold signLoop at h
    generalize hr : signRound P p fuel e w1Buf u = o at h
    match o with
    | none => simp at h
    | some none =>
      obtain ⟨m, hm, h2⟩ := ih h
      refine ⟨m + 1, by omega, ?_⟩
      rw [if_neg (by omega)]
      by_cases h0 : m = 0
      · subst h0
        rw [if_pos rfl] at h2
        rw [Nat.zero_add, Nat.one_mul]; exact h2
      · rw [if_neg h0] at h2
        rw [show (u + (m + 1) * p.l) % 2 ^ 16 = ((u + p.l) % 2 ^ 16 + m * p.l) % 2 ^ 16 by rw [Nat.succ_mul]; omega]
        exact h2
    | some (some r') =>
      simp only [Option.some.injEq] at h
      subst h
      exact ⟨0, by omega, by rw [if_pos rfl]; exact hr⟩

theorem mask_packed {P : Prims} (hP2 : ∀ m n, P.shake256 m n < 256) {p : Params} (hp : p ∈ paramTable) (rho2 : Nat → Nat) (u : Nat) (hu : u + p.l ≤ 65536) :
    IsMask P p (bytes rho2 0 64) u (expandMask P p rho2 u) := by
  intro j hj
  rw [zb_eq hp]
  have h := z_packed hp (sig := P.shake256 (bytes rho2 0 64 ++ [(u + j) % 2 ^ 16 % 2 ^ 8, ((u + j) % 2 ^ 16) >>> 8])) (hP2 _) 0 0
  have e : (sigDecode p (P.shake256 (bytes rho2 0 64 ++ [(u + j) % 2 ^ 16 % 2 ^ 8, ((u + j) % 2 ^ 16) >>> 8])) 0).1 0 = expandMask P p rho2 u j := by
    unfold sigDecode unpackAt expandMask
    simp only [Nat.mul_zero, Nat.zero_add]
    rfl
  rw [e] at h
  have e1 : (u + j) % 2 ^ 16 % 2 ^ 8 = (u + j) % 256 := by omega
  have e2 : ((u + j) % 2 ^ 16) >>> 8 = (u + j) / 256 := by rw [Nat.shiftRight_eq_div_pow]; omega
  rw [e1, e2] at h
  simpa using h

/-- The relations of an accepted round. -/
theorem round_relations {P : Prims} (hP1 : ∀ m n, P.shake128 m n < 256) (hP2 : ∀ m n, P.shake256 m n < 256) {p : Params}
    (hp : p ∈ paramTable) {fuel : Nat} {d : SkData} {pk : Nat → Nat} {A : Nat → Nat → Poly} {t : Nat → Poly}
    (K : KeyOk P p fuel d pk A t) (msg : Msg) (rnd w1Buf : Nat → Nat) (u : Nat) (r : Round)
    (h : signRound P p fuel (signEnv P p d A msg rnd) w1Buf u = some (some r)) :
    ∃ (y : Nat → Poly) (c : Poly) (W : Nat → Poly), y = expandMask P p (signEnv P p d A msg rnd).rho2 u ∧
      IsBall p.tau (P.shake256 (bytes r.ct 0 (cLen p))) c ∧
      (∀ i, i < p.k → IsRowMul p.l (fun j => cz (A i j)) (fun j => cz (y j)) (cz (W i))) ∧
      r.ct = P.shake256 (muBytes P (bytes d.tr 0 64) msg ++ Spec.w1Bytes (w1Bits p) p.k (fun i x => highBits p.gamma2 (W i x))) ∧
      (∀ j, j < p.l → ∀ x, x < 256 → (r.z j x - (y j x + intMul c (d.s1 j) x)) % Spec.q = 0 ∧ |r.z j x| < (p.gamma1 : Int) - p.beta) ∧
      (∀ i, i < p.k → ∀ x, x < 256 → |lowBits p.gamma2 (W i x - intMul c (d.s2 i) x)| < (p.gamma2 : Int) - p.beta) ∧
      (∀ i, i < p.k → ∀ x, x < 256 → |intMul c (d.t0 i) x| < (p.gamma2 : Int)) ∧
      (∀ i, i < p.k → ∀ x, x < 256 → r.h i x = makeHint p.gamma2 (-intMul c (d.t0 i) x) (W i x - intMul c (d.s2 i) x + intMul c (d.t0 i) x)) := by
  obtain ⟨c, hc, hct, hz, hh, g1, g2, g3, g4⟩ := signRound_some h
  set e := signEnv P p d A msg rnd with he
  set y := expandMask P p e.rho2 u with hy
  have ea : e.a = A := by simp only [he, signEnv]
  have es1 : e.s1 = fun i => ntt (d.s1 i) := by simp only [he, signEnv]
  have es2 : e.s2 = fun i => ntt (d.s2 i) := by simp only [he, signEnv]
  have et0 : e.t0 = fun i => ntt (d.t0 i) := by simp only [he, signEnv]
  have emu : e.mu = muBytes P (bytes d.tr 0 64) msg := by simp only [he, signEnv]
  have hl : p.l ≤ 8 := by rcases param_cases hp with rfl | rfl | rfl <;> decide
  have htau : p.tau ≤ 64 := by rcases param_cases hp with rfl | rfl | rfl <;> decide
  have hg1 : (p.gamma1 : Int) ≤ 524288 ∧ 1 ≤ p.gamma1 - p.beta ∧ p.gamma1 - p.beta ≤ 524288 ∧ p.beta ≤ p.gamma1 := by
    rcases param_cases hp with rfl | rfl | rfl <;> decide
  have hg2 : 1 ≤ p.gamma2 - p.beta ∧ p.gamma2 ≤ 2147483648 ∧ p.beta ≤ p.gamma2 := by
    rcases param_cases hp with rfl | rfl | rfl <;> decide
  have hball := sampleInBall_spec hP2 htau hc
  have hcr : ∀ x, x < 256 → |c x| ≤ 1 := fun x _ => isBall_range (by omega) hball x
  have hyr : ∀ j, j < p.l → ∀ x, x < 256 → |y j x| ≤ 524288 := by
    intro j _ x hx
    have := expandMask_range hP2 hp e.rho2 u j x hx
    exact abs_le.2 (by rw [hy]; omega)
  have hAr := fun i hi j hj x hx => expandA_range hP1 K.hA i hi j hj x hx
  have hW : ∀ i, i < p.k → _ := fun i hi => mat_spec p.l hl (A i) y 524288 (by decide) (hAr i hi) hyr
  have ht0r : ∀ i, i < p.k → ∀ x, x < 256 → |d.t0 i x| ≤ 4096 := by
    intro i hi x hx
    have := (power2Round_range (t i x) (K.ht i hi x hx)).2.1
    rw [K.t0 i hi x hx]
    exact abs_le.2 (by omega)
  have hs1 : ∀ j, j < p.l → ∀ x, x < 256 → _ := fun j hj x hx => cs_exact (by omega) hball 11 (by decide) (by omega) (by decide) (K.s1 j hj) x hx
  have hs2 : ∀ i, i < p.k → ∀ x, x < 256 → _ := fun i hi x hx => cs_exact (by omega) hball 11 (by decide) (by omega) (by decide) (K.s2 i hi) x hx
  have hs0 : ∀ i, i < p.k → ∀ x, x < 256 → _ := fun i hi x hx => cs_exact (by omega) hball 4096 (by decide) (by omega) (by decide) (ht0r i hi) x hx
  have hwd : ∀ i, i < p.k → ∀ x, x < 256 → Spec.decompose p.gamma2 (intt (matMul p.l (A i) (fun j => ntt (y j))) x) =
      ((roundW p e y i x).1, (roundW p e y i x).2) := by
    intro i hi x hx
    have := abs_le.1 ((hW i hi).1 x hx)
    unfold roundW
    rw [ea]
    exact (batchDecompose_fips hp _ (by unfold Spec.q; omega)).symm
  have eC : ∀ i, i < p.k → ∀ x, x < 256 → roundCs2 e (ntt c) i x = intMul c (d.s2 i) x := fun i hi x hx => by
    unfold roundCs2; rw [es2]; exact (hs2 i hi x hx).1
  have eT : ∀ i, i < p.k → ∀ x, x < 256 → roundCt0 e (ntt c) i x = intMul c (d.t0 i) x := fun i hi x hx => by
    unfold roundCt0; rw [et0]; exact (hs0 i hi x hx).1
  have bC : ∀ i, i < p.k → ∀ x, x < 256 → |intMul c (d.s2 i) x| ≤ 704 := fun i hi x hx => by
    rw [← (hs2 i hi x hx).1]; have := (hs2 i hi x hx).2; omega
  have bT : ∀ i, i < p.k → ∀ x, x < 256 → |intMul c (d.t0 i) x| ≤ 262144 := fun i hi x hx => by
    rw [← (hs0 i hi x hx).1]; have := (hs0 i hi x hx).2; omega
  have hct0 : ∀ i, i < p.k → ∀ x, x < 256 → |intMul c (d.t0 i) x| < (p.gamma2 : Int) := by
    rw [checkAll_spec p.k _ _ ⟨by omega, hg2.2.1⟩] at g3
    · intro i hi x hx; rw [← eT i hi x hx]; exact g3 i hi x hx
    · intro i hi x hx
      have := abs_le.1 (bT i hi x hx)
      rw [eT i hi x hx]; omega
  have hr0 : ∀ i, i < p.k → ∀ x, x < 256 → |modQ (i32 ((roundW p e y i x).2 - intMul c (d.s2 i) x))| < (p.gamma2 : Int) - p.beta := by
    rw [checkAll_spec p.k _ _ ⟨hg2.1, by omega⟩] at g2
    · intro i hi x hx
      have := g2 i hi x hx
      unfold vecSub at this
      simp only at this
      rw [eC i hi x hx] at this
      omega
    · intro i hi x hx
      exact modQ_range _
  have hcs2 : ∀ i, i < p.k → ∀ x, x < 256 → -Spec.q < intMul c (d.s2 i) x ∧ intMul c (d.s2 i) x < Spec.q := by
    intro i hi x hx
    have := abs_le.1 (bC i hi x hx)
    unfold Spec.q; omega
  refine ⟨y, c, fun i => intt (matMul p.l (A i) (fun j => ntt (y j))), rfl, hball, ?_, ?_, ?_, ?_, hct0, ?_⟩
  · intro i hi
    rw [isRowMul_iff]
    intro x hx
    exact (hW i hi).2 x hx
  · rw [hct, challenge_eq hp, emu]
    · congr 2
      apply w1Bytes_congr (by unfold w1Bits; split <;> decide)
      intro i hi x hx
      unfold highBits
      rw [hwd i hi x hx]
    · intro i hi x hx
      have := decompose_high_range hp (intt (matMul p.l (A i) (fun j => ntt (y j))) x)
      rw [hwd i hi x hx] at this
      exact this
  · intro j hj x hx
    constructor
    · have ez : r.z j x = vecAdd (y j) (intt (vecMul (ntt c) (ntt (d.s1 j)))) x := by rw [hz]; unfold roundZ; rw [es1]
      have b1 := hyr j hj x hx
      have b2 := (hs1 j hj x hx).2
      have := vecAdd_spec (y j) (intt (vecMul (ntt c) (ntt (d.s1 j)))) x (by omega) (by omega)
      rw [← (hs1 j hj x hx).1]
      have h2 : ((r.z j x : Int) : Zq) = ((y j x + intt (vecMul (ntt c) (ntt (d.s1 j))) x : Int) : Zq) := by
        rw [ez, Int.cast_add]; exact this
      have := dvd_of_cast h2
      unfold Spec.q; omega
    · rw [checkAll_spec p.l r.z _ ⟨hg1.2.1, by omega⟩] at g1
      · have := g1 j hj x hx; omega
      · intro i hi x hx
        rw [hz]
        exact modQ_range _
  · intro i hi x hx
    have hr := hr0 i hi x hx
    have := low_stable hp _ _ _ _ (hwd i hi x hx) (hcs2 i hi x hx) (by omega)
    simp only
    rw [this]; exact hr
  · intro i hi x hx
    have hr := hr0 i hi x hx
    have := (signer_hint hp _ _ _ _ _ (hwd i hi x hx) (hcs2 i hi x hx) (hct0 i hi x hx) (by omega)).1
    rw [hh]
    unfold roundHint
    rw [if_pos hx, eC i hi x hx, eT i hi x hx, this]

end Verif.Crypto.Mldsa
