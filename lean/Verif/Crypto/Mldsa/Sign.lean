import Verif.Crypto.Mldsa.SignSpec
/-! Correctness of signing: what a signature is, and that verification accepts it. -/
namespace Verif.Crypto.Mldsa
open Finset
open Verif.Crypto.Mlkem (Poly i32 u32 u8 upd)

theorem ones_count (l : List Nat) (f : Nat → Int) (h : ∀ j ∈ l, f j = 0 ∨ f j = 1) :
    (l.filter (fun j => f j ≠ 0)).length = (l.map fun j => (f j).toNat).sum := by
  induction l with
  | nil => rfl
  | cons a l ih =>
    have := ih (fun j hj => h j (List.mem_cons_of_mem _ hj))
    rcases h a List.mem_cons_self with e | e
    · rw [List.filter_cons_of_neg (by simp [e]), List.map_cons, List.sum_cons, e, this]; simp
    · rw [List.filter_cons_of_pos (by simp [e]), List.map_cons, List.sum_cons, e, List.length_cons, this]
      simp; omega

theorem weight_eq (p : Params) (h : Nat → Poly) (hh : ∀ i, i < p.k → ∀ x, x < 256 → h i x = 0 ∨ h i x = 1) :
    Spec.weight ((List.range p.k).map h) = hintCount p h := by
  unfold Spec.weight hintCount
  rw [List.length_flatMap, List.map_map]
  apply congrArg List.sum
  apply List.map_congr_left
  intro i hi
  rw [List.mem_range] at hi
  exact ones_count _ _ (fun j hj => hh i hi j (List.mem_range.1 hj))

/-- A key pair as the signer and the verifier see it: the matrix expands to `Â`, and `t = A s₁ + s₂` splits into the
`t₁` of the public key and the `t₀` of the private key. -/
structure KeyOk (P : Prims) (p : Params) (fuel : Nat) (d : SkData) (pk : Nat → Nat) (A : Nat → Nat → Poly) (t : Nat → Poly) : Prop where
  hA : expandA P p fuel d.rho = some A
  ht : ∀ i, i < p.k → ∀ x, x < 256 → 0 ≤ t i x ∧ t i x < 8380417
  eq : ∀ i, i < p.k → ∀ x, x < 256 → Spec.ntt (cz (t i)) x =
    ∑ j ∈ range p.l, cz (A i j) x * Spec.ntt (cz (d.s1 j)) x + Spec.ntt (cz (d.s2 i)) x
  s1 : ∀ j, j < p.l → ∀ x, x < 256 → |d.s1 j x| ≤ 11
  s2 : ∀ i, i < p.k → ∀ x, x < 256 → |d.s2 i x| ≤ 11
  t0 : ∀ i, i < p.k → ∀ x, x < 256 → d.t0 i x = (power2Round (t i x)).2
  t1 : ∀ i, i < p.k → ∀ x, x < 256 → (pkDecode pk).2 i x = (power2Round (t i x)).1
  rho : ∀ n, n < 32 → pk n = d.rho n
  tr : bytes (P.shake256 (bytes pk 0 p.pubLen)) 0 64 = bytes d.tr 0 64

theorem expandA_range {P : Prims} (hP : ∀ m n, P.shake128 m n < 256) {p : Params} {fuel : Nat} {rho : Nat → Nat}
    {A : Nat → Nat → Poly} (h : expandA P p fuel rho = some A) (i : Nat) (hi : i < p.k) (j : Nat) (hj : j < p.l) (x : Nat)
    (hx : x < 256) : 0 ≤ A i j x ∧ A i j x < 8380417 :=
  cand3_range (expandRow_spec hP (collect_spec _ _ _ _ h i hi) j hj) x hx

theorem computeT_spec {P : Prims} (hP : ∀ m n, P.shake128 m n < 256) {p : Params} (hp : p ∈ paramTable) {fuel : Nat}
    {rho : Nat → Nat} {s1 s2 : Nat → Poly} (h1 : ∀ j, j < p.l → ∀ x, x < 256 → |s1 j x| ≤ 11) {i : Nat}
    (h2 : ∀ x, x < 256 → |s2 i x| ≤ 11) {t : Poly} (h : computeT P p fuel rho s1 s2 i = some t) :
    ∃ row, expandRow P p fuel rho i = some row ∧ (∀ x, x < 256 → 0 ≤ t x ∧ t x < 8380417) ∧
      ∀ x, x < 256 → Spec.ntt (cz t) x = ∑ j ∈ range p.l, cz (row j) x * Spec.ntt (cz (s1 j)) x + Spec.ntt (cz (s2 i)) x := by
  unfold computeT at h
  generalize hr : expandRow P p fuel rho i = o at h
  cases o with
  | none => simp at h
  | some row =>
    simp only [Option.some.injEq] at h
    refine ⟨row, rfl, ?_⟩
    have hl : p.l ≤ 8 := by rcases param_cases hp with rfl | rfl | rfl <;> decide
    obtain ⟨m1, m2⟩ := mat_spec p.l hl row s1 11 (by decide) (fun j hj x hx => cand3_range (expandRow_spec hP hr j hj) x hx) h1
    have key : ∀ x, x < 256 → cz t x = cz (intt (matMul p.l row (fun j => ntt (s1 j)))) x + cz (s2 i) x ∧ 0 ≤ t x ∧ t x < 8380417 := by
      intro x hx
      have b1 := abs_le.1 (m1 x hx)
      have b2 := abs_le.1 (h2 x hx)
      subst h
      unfold vecAddQ
      rw [cz_at, i32_id (by omega)]
      obtain ⟨e, r⟩ := addQ_spec (intt (matMul p.l row (fun j => ntt (s1 j))) x + s2 i x) (by omega)
      refine ⟨?_, r⟩
      rw [e, cz_at, cz_at]; push_cast; rfl
    refine ⟨fun x hx => (key x hx).2, fun x hx => ?_⟩
    rw [← m2 x hx, ← ntt_add]
    exact ntt_congr (fun i hi => (key i hi).1) x

/-- What one accepted round of signing gives. -/
theorem signRound_some {P : Prims} {p : Params} {fuel : Nat} {e : SignEnv} {w1Buf : Nat → Nat} {u : Nat} {r : Round}
    (h : signRound P p fuel e w1Buf u = some (some r)) :
    ∃ c, sampleInBall P p fuel (bytes r.ct 0 (cLen p)) = some c ∧
      r.ct = challenge P p e.mu w1Buf (fun i x => (roundW p e (expandMask P p e.rho2 u) i x).1) ∧
      r.z = roundZ e (expandMask P p e.rho2 u) (ntt c) ∧
      r.h = roundHint p (roundW p e (expandMask P p e.rho2 u)) (roundCt0 e (ntt c)) (roundCs2 e (ntt c)) ∧
      checkAll p.l r.z (p.gamma1 - p.beta) = true ∧
      checkAll p.k (fun i => vecSub (fun x => (roundW p e (expandMask P p e.rho2 u) i x).2) (roundCs2 e (ntt c) i)) (p.gamma2 - p.beta) = true ∧
      checkAll p.k (roundCt0 e (ntt c)) p.gamma2 = true ∧ hintCount p r.h ≤ p.omega := by
  unfold signRound at h
  simp only at h
  generalize hc : sampleInBall P p fuel _ = o at h
  cases o with
  | none => simp at h
  | some c =>
    simp only at h
    split at h
    · simp at h
    · next g1 =>
      split at h
      · simp at h
      · next g2 =>
        split at h
        · simp at h
        · next g3 =>
          split at h
          · simp at h
          · next g4 =>
            simp only [Option.some.injEq] at h
            subst h
            refine ⟨c, hc, rfl, rfl, rfl, ?_, ?_, ?_, Nat.le_of_not_lt g4⟩
            · simpa using g1
            · simpa using g2
            · simpa using g3

theorem signLoop_some {P : Prims} {p : Params} {fuel : Nat} {e : SignEnv} {w1Buf : Nat → Nat} {n u : Nat} {r : Round}
    (h : signLoop P p fuel e w1Buf n u = some r) : ∃ u', signRound P p fuel e w1Buf u' = some (some r) := by
  induction n generalizing u with
  | zero => simp [signLoop] at h
  | succ n ih =>
    unfold signLoop at h
    generalize hr : signRound P p fuel e w1Buf u = o at h
    match o with
    | none => simp at h
    | some none => exact ih h
    | some (some r') =>
      simp only [Option.some.injEq] at h
      subst h
      exact ⟨u, hr⟩

theorem pk_t1_range (pk : Nat → Nat) (hpk : ∀ n, pk n < 256) (i x : Nat) (hx : x < 256) :
    0 ≤ (pkDecode pk).2 i x ∧ (pkDecode pk).2 i x < 1024 := by
  have := (dec10_unpacked (fun n => pk (32 + 32 * 10 * i + n)) (fun _ _ => hpk _) x hx).1
  show 0 ≤ ((dec10 (fun n => pk (32 + 32 * 10 * i + n)) x : Nat) : Int) ∧ ((dec10 (fun n => pk (32 + 32 * 10 * i + n)) x : Nat) : Int) < 1024
  have e : (2 : Nat) ^ 10 = 1024 := by norm_num
  rw [e] at this
  omega

/-- The signer's values of an accepted round, and the hint the verifier will use. -/
theorem round_recover {P : Prims} (hP1 : ∀ m n, P.shake128 m n < 256) (hP2 : ∀ m n, P.shake256 m n < 256) {p : Params}
    (hp : p ∈ paramTable) {fuel : Nat} {d : SkData} {pk : Nat → Nat} {A : Nat → Nat → Poly} {t : Nat → Poly}
    (K : KeyOk P p fuel d pk A t) (msg : Msg) (rnd w1Buf : Nat → Nat) (u : Nat) (r : Round)
    (h : signRound P p fuel (signEnv P p d A msg rnd) w1Buf u = some (some r)) :
    ∃ c w, sampleInBall P p fuel (bytes r.ct 0 (cLen p)) = some c ∧
      r.ct = P.shake256 (muBytes P (bytes d.tr 0 64) msg ++ Spec.w1Bytes (w1Bits p) p.k w) ∧
      (∀ i, i < p.l → ∀ x, x < 256 → |r.z i x| < ((p.gamma1 - p.beta : Nat) : Int)) ∧
      Spec.IsHint p.k p.omega ((List.range p.k).map r.h) ∧
      (∀ i, i < p.k → ∀ x, x < 256 → 0 ≤ w i x ∧ w i x < (Spec.q - 1) / (2 * p.gamma2)) ∧
      ∀ z : Nat → Poly, (∀ j, j < p.l → ∀ x, x < 256 → z j x = r.z j x) → ∀ i, i < p.k → ∀ x, x < 256 →
        useHint p (r.h i x) (approxW p (A i) (fun j => ntt (z j)) (ntt c) ((pkDecode pk).2 i) x) = w i x := by
  obtain ⟨c, hc, hct, hz, hh, g1, g2, g3, g4⟩ := signRound_some h
  set e := signEnv P p d A msg rnd with he
  set y := expandMask P p e.rho2 u with hy
  have ea : e.a = A := by simp only [he, signEnv]
  have es1 : e.s1 = fun i => ntt (d.s1 i) := by simp only [he, signEnv]
  have es2 : e.s2 = fun i => ntt (d.s2 i) := by simp only [he, signEnv]
  have et0 : e.t0 = fun i => ntt (d.t0 i) := by simp only [he, signEnv]
  have hl : p.l ≤ 8 := by rcases param_cases hp with rfl | rfl | rfl <;> decide
  have htau : p.tau ≤ 64 := by rcases param_cases hp with rfl | rfl | rfl <;> decide
  have hg1 : (p.gamma1 : Int) ≤ 524288 ∧ 1 ≤ p.gamma1 - p.beta ∧ p.gamma1 - p.beta ≤ 524288 := by
    rcases param_cases hp with rfl | rfl | rfl <;> decide
  have hg2 : 1 ≤ p.gamma2 - p.beta ∧ p.gamma2 ≤ 2147483648 ∧ p.gamma2 - p.beta ≤ p.gamma2 := by
    rcases param_cases hp with rfl | rfl | rfl <;> decide
  have hcr : ∀ x, x < 256 → |c x| ≤ 1 := fun x _ => isBall_range (by omega) (sampleInBall_spec hP2 htau hc) x
  have hyr : ∀ j, j < p.l → ∀ x, x < 256 → |y j x| ≤ 524288 := by
    intro j _ x hx
    have := expandMask_range hP2 hp e.rho2 u j x hx
    exact abs_le.2 (by rw [hy]; omega)
  have hAr := fun i hi j hj x hx => expandA_range hP1 K.hA i hi j hj x hx
  have hW : ∀ i, i < p.k → _ := fun i hi => mat_spec p.l hl (A i) y 524288 (by decide) (hAr i hi) hyr
  have hs1 : ∀ j, j < p.l → _ := fun j hj => prod_spec c (d.s1 j) 1 11 (by decide) (by decide) hcr (K.s1 j hj)
  have hs2 : ∀ i, i < p.k → _ := fun i hi => prod_spec c (d.s2 i) 1 11 (by decide) (by decide) hcr (K.s2 i hi)
  have hP2R : ∀ i, i < p.k → ∀ x, x < 256 → _ := fun i hi x hx => power2Round_range (t i x) (K.ht i hi x hx)
  have ht0r : ∀ i, i < p.k → ∀ x, x < 256 → |d.t0 i x| ≤ 4096 := by
    intro i hi x hx
    have := (hP2R i hi x hx).2.1
    rw [K.t0 i hi x hx]
    exact abs_le.2 (by omega)
  have hs0 : ∀ i, i < p.k → _ := fun i hi => prod_spec c (d.t0 i) 1 4096 (by decide) (by decide) hcr (ht0r i hi)
  have hwd : ∀ i, i < p.k → ∀ x, x < 256 → roundW p e y i x = Spec.decompose p.gamma2 (intt (matMul p.l (A i) (fun j => ntt (y j))) x) := by
    intro i hi x hx
    have := abs_le.1 ((hW i hi).1 x hx)
    unfold roundW
    rw [ea]
    exact batchDecompose_fips hp _ (by unfold Spec.q; omega)
  have hzr : ∀ i, i < p.l → ∀ x, x < 256 → |r.z i x| < ((p.gamma1 - p.beta : Nat) : Int) := by
    rw [checkAll_spec p.l r.z _ ⟨hg1.2.1, by omega⟩] at g1
    · exact g1
    · intro i hi x hx
      rw [hz]
      exact modQ_range _
  have hct0 : ∀ i, i < p.k → ∀ x, x < 256 → |roundCt0 e (ntt c) i x| < (p.gamma2 : Int) := by
    rw [checkAll_spec p.k _ _ ⟨by omega, hg2.2.1⟩] at g3
    · exact g3
    · intro i hi x hx
      have := abs_le.1 ((hs0 i hi).1 x hx)
      unfold roundCt0; rw [et0]; simp only; omega
  have hr0 : ∀ i, i < p.k → ∀ x, x < 256 → |modQ (i32 ((roundW p e y i x).2 - roundCs2 e (ntt c) i x))| < (p.gamma2 : Int) := by
    rw [checkAll_spec p.k _ _ ⟨hg2.1, by omega⟩] at g2
    · intro i hi x hx
      have := g2 i hi x hx
      unfold vecSub at this
      simp only at this
      have h2 : ((p.gamma2 - p.beta : Nat) : Int) ≤ p.gamma2 := by exact_mod_cast hg2.2.2
      omega
    · intro i hi x hx
      exact modQ_range _
  have hcs2 : ∀ i, i < p.k → ∀ x, x < 256 → -Spec.q < roundCs2 e (ntt c) i x ∧ roundCs2 e (ntt c) i x < Spec.q := by
    intro i hi x hx
    have := abs_le.1 ((hs2 i hi).1 x hx)
    unfold roundCs2 Spec.q; rw [es2]; simp only; omega
  have hdec : ∀ i, i < p.k → ∀ x, x < 256 → Spec.decompose p.gamma2 (intt (matMul p.l (A i) (fun j => ntt (y j))) x) =
      ((roundW p e y i x).1, (roundW p e y i x).2) := fun i hi x hx => (hwd i hi x hx).symm
  have hb : ∀ i, i < p.k → ∀ x, x < 256 → r.h i x = 0 ∨ r.h i x = 1 := by
    intro i hi x hx
    have := (signer_hint hp _ _ _ _ _ (hdec i hi x hx) (hcs2 i hi x hx) (hct0 i hi x hx) (hr0 i hi x hx)).1
    rw [hh]
    unfold roundHint
    rw [if_pos hx, this]
    unfold Spec.makeHint
    split <;> simp
  refine ⟨c, fun i x => (roundW p e y i x).1, hc, ?_, hzr, ⟨by simp, ?_, ?_⟩, ?_, ?_⟩
  · rw [hct, challenge_eq hp]
    · rfl
    · intro i hi x hx
      rw [hwd i hi x hx]
      exact decompose_high_range hp _
  · intro row hrow x
    rw [List.mem_map] at hrow
    obtain ⟨i, hi, rfl⟩ := hrow
    rw [List.mem_range] at hi
    by_cases hx : x < 256
    · exact ⟨hb i hi x hx, fun h => by omega⟩
    · have : r.h i x = 0 := by rw [hh]; unfold roundHint; rw [if_neg hx]
      exact ⟨Or.inl this, fun _ => this⟩
  · rw [weight_eq p r.h hb]; exact g4
  · intro i hi x hx
    simp only
    rw [hwd i hi x hx]
    exact decompose_high_range hp _
  · intro z hzz i hi x hx
    have hzb : ∀ j, j < p.l → ∀ x, x < 256 → |z j x| ≤ 524288 := by
      intro j hj x hx
      rw [hzz j hj x hx]
      have := hzr j hj x hx
      omega
    have ht1r : ∀ x, x < 256 → 0 ≤ (pkDecode pk).2 i x ∧ (pkDecode pk).2 i x < 1024 := fun x hx => by
      rw [K.t1 i hi x hx]; exact (hP2R i hi x hx).1
    obtain ⟨v1, v2⟩ := approxW_spec p hl (A i) z c ((pkDecode pk).2 i) 524288 (by decide) (hAr i hi) hzb hcr ht1r
    have hzn : ∀ j, j < p.l → ∀ x, x < 256 → Spec.ntt (cz (z j)) x = Spec.ntt (cz (y j)) x + Spec.ntt (cz c) x * Spec.ntt (cz (d.s1 j)) x := by
      intro j hj x hx
      rw [← (hs1 j hj).2 x hx, ← ntt_add]
      apply ntt_congr
      intro m hm
      rw [cz_at, hzz j hj m hm, hz]
      have b1 := hyr j hj m hm
      have b2 := (hs1 j hj).1 m hm
      have ez : roundZ e y (ntt c) j = vecAdd (y j) (intt (vecMul (ntt c) (ntt (d.s1 j)))) := by unfold roundZ; rw [es1]
      rw [ez]
      exact vecAdd_spec (y j) _ m (by omega) (by omega)
    have htn : ∀ x, x < 256 → Spec.ntt (cz (t i)) x = 2 ^ 13 * Spec.ntt (cz ((pkDecode pk).2 i)) x + Spec.ntt (cz (d.t0 i)) x := by
      intro x hx
      rw [← ntt_smul, ← ntt_add]
      apply ntt_congr
      intro m hm
      have := (hP2R i hi m hm).2.2
      rw [cz_at, cz_at, cz_at, K.t1 i hi m hm, K.t0 i hi m hm]
      conv_lhs => rw [this]
      push_cast; ring
    have key : ∀ m, m < 256 → cz (approxW p (A i) (fun j => ntt (z j)) (ntt c) ((pkDecode pk).2 i)) m =
        cz (intt (matMul p.l (A i) (fun j => ntt (y j)))) m - cz (intt (vecMul (ntt c) (ntt (d.s2 i)))) m +
          cz (intt (vecMul (ntt c) (ntt (d.t0 i)))) m := by
      apply ntt_inj
      intro m hm
      rw [v2 m hm, ntt_add, ntt_sub, (hW i hi).2 m hm, (hs2 i hi).2 m hm, (hs0 i hi).2 m hm]
      have q1 := K.eq i hi m hm
      have q2 := htn m hm
      have q3 : ∑ j ∈ range p.l, cz (A i j) m * Spec.ntt (cz (z j)) m = ∑ j ∈ range p.l, cz (A i j) m * Spec.ntt (cz (y j)) m +
          Spec.ntt (cz c) m * ∑ j ∈ range p.l, cz (A i j) m * Spec.ntt (cz (d.s1 j)) m := by
        rw [mul_sum, ← sum_add_distrib]
        apply sum_congr rfl
        intro j hj
        rw [hzn j (mem_range.1 hj) m hm]; ring
      rw [q3]
      rw [q2] at q1
      linear_combination (-Spec.ntt (cz c) m) * q1
    have hk := key x hx
    have hmod : approxW p (A i) (fun j => ntt (z j)) (ntt c) ((pkDecode pk).2 i) x % Spec.q =
        (intt (matMul p.l (A i) (fun j => ntt (y j))) x - roundCs2 e (ntt c) i x + roundCt0 e (ntt c) i x) % Spec.q := by
      have e1 : roundCs2 e (ntt c) i = intt (vecMul (ntt c) (ntt (d.s2 i))) := by unfold roundCs2; rw [es2]
      have e2 : roundCt0 e (ntt c) i = intt (vecMul (ntt c) (ntt (d.t0 i))) := by unfold roundCt0; rw [et0]
      rw [e1, e2]
      apply dvd_of_cast
      rw [Int.cast_add, Int.cast_sub]
      exact hk
    have hv := abs_le.1 (v1 x hx)
    have := verifier_recovers_w1 hp _ _ _ _ _ (approxW p (A i) (fun j => ntt (z j)) (ntt c) ((pkDecode pk).2 i) x)
      (hdec i hi x hx) (hcs2 i hi x hx) (hct0 i hi x hx) (hr0 i hi x hx) (by unfold Spec.q; omega) hmod
    rw [hh]
    unfold roundHint
    rw [if_pos hx]
    exact this

theorem hintAt_map (k : Nat) (h : Nat → Poly) (i : Nat) (hi : i < k) : hintAt ((List.range k).map h) i = h i := by
  unfold hintAt
  rw [List.getElem?_map, List.getElem?_range hi]
  rfl

/-- Verification accepts what an accepted round produced. -/
theorem sign_verify {P : Prims} (hP1 : ∀ m n, P.shake128 m n < 256) (hP2 : ∀ m n, P.shake256 m n < 256) {p : Params}
    (hp : p ∈ paramTable) {fuel : Nat} {d : SkData} {pk : Nat → Nat} {A : Nat → Nat → Poly} {t : Nat → Poly}
    (K : KeyOk P p fuel d pk A t) (msg : Msg) (rnd w1Buf out : Nat → Nat) (u : Nat) (r : Round)
    (h : signRound P p fuel (signEnv P p d A msg rnd) w1Buf u = some (some r)) :
    ∃ sig, sigEncode p (put out 0 (cLen p) r.ct) (cLen p) r.z ((List.range p.k).map r.h) = some sig ∧
      ∀ w1Buf', verify P p fuel pk msg sig w1Buf' = some .success := by
  obtain ⟨c, w, hc, hct, hz, hh, hwr, hrec⟩ := round_recover hP1 hP2 hp K msg rnd w1Buf u r h
  have hg1 : 1 ≤ p.gamma1 - p.beta ∧ p.gamma1 - p.beta ≤ 2147483647 ∧ p.gamma1 - p.beta ≤ p.gamma1 := by
    rcases param_cases hp with rfl | rfl | rfl <;> decide
  obtain ⟨sig, hs, hsc, hsz, hsh, -⟩ := signature_roundtrip hp (put out 0 (cLen p) r.ct) (cLen p) r.z ((List.range p.k).map r.h)
    (fun i hi x hx => by have := abs_lt.1 (hz i hi x hx); omega) hh
  refine ⟨sig, hs, fun w1Buf' => ?_⟩
  have hcb : bytes sig 0 (cLen p) = bytes r.ct 0 (cLen p) := by
    apply bytes_ext
    intro i hi
    rw [Nat.zero_add, hsc i hi]
    unfold put
    rw [if_pos ⟨Nat.zero_le _, by omega⟩, Nat.sub_zero]
  have hA : expandA P p fuel (pkDecode pk).1 = some A := by
    rw [← K.hA]
    apply expandA_congr
    apply bytes_ext
    intro i hi
    rw [Nat.zero_add]
    exact K.rho i hi
  unfold verify
  simp only
  rw [hsh]
  simp only
  have hchk : checkAll p.l (sigDecode p sig (cLen p)).1 (p.gamma1 - p.beta) = true := by
    have hlt : ∀ i, i < p.l → ∀ x, x < 256 → |(sigDecode p sig (cLen p)).1 i x| < ((p.gamma1 - p.beta : Nat) : Int) := by
      intro i hi x hx
      rw [hsz i hi x hx]; exact hz i hi x hx
    rw [checkAll_spec _ _ _ ⟨hg1.1, by omega⟩]
    · exact hlt
    · intro i hi x hx
      have := abs_lt.1 (hlt i hi x hx)
      omega
  rw [hchk, hcb, hc, hA]
  simp only [Bool.true_eq_false, if_false]
  rw [challenge_eq hp]
  · rw [K.tr, hct]
    rw [w1Bytes_congr (d := w1Bits p) (f := w) (by unfold w1Bits; split <;> decide)]
    · rw [if_pos rfl]
    · intro i hi x hx
      rw [hintAt_map p.k r.h i hi]
      exact (hrec _ hsz i hi x hx).symm
  · intro i hi x hx
    rw [hintAt_map p.k r.h i hi, hrec _ hsz i hi x hx]
    exact hwr i hi x hx

end Verif.Crypto.Mldsa
