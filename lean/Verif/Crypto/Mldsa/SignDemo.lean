import Verif.Crypto.Mldsa.SignFips
/-! A concrete run: streams for which key generation and signing succeed, with every secret coefficient 1. -/
namespace Verif.Crypto.Mldsa
open Finset
open Verif.Crypto.Mlkem (Poly i32 u32 u8 upd)

/-- 18-bit values `2^17 - 1`. -/
def demoMask (n : Nat) : Nat :=
  match n % 9 with
  | 2 => 0xFD
  | 4 => 0xF7
  | 6 => 0xDF
  | 8 => 0x7F
  | _ => 0xFF

/-- The streams: matrix coefficients 1, secrets 1, masks 1, signs and positions 0. -/
def demoPrims : Prims where
  shake128 := fun _ n => if n % 3 = 0 then 1 else 0
  shake256 := fun m n =>
    if m.length = 66 then (if m.head? = some 9 then demoMask n else 0x11)
    else if m.length = 128 then 9
    else if m.length = 34 then 7
    else 0

theorem demo1 : ∀ m n, demoPrims.shake128 m n < 256 := by
  intro m n; simp only [demoPrims]; split <;> decide
theorem demo2 : ∀ m n, demoPrims.shake256 m n < 256 := by
  intro m n; simp only [demoPrims]
  split
  · split
    · unfold demoMask; split <;> decide
    · decide
  · split
    · decide
    · split <;> decide

theorem in44 : mldsa44 ∈ paramTable := by decide

/-- The stream of a 66-byte message that does not begin with 9. -/
theorem demo_st {m : List Nat} (h1 : m.length = 66) (h2 : m.head? ≠ some 9) : demoPrims.shake256 m = fun _ => 0x11 := by
  funext n; simp only [demoPrims]; rw [if_pos h1, if_neg h2]

theorem demo_row (j i : Nat) (rho : Nat → Nat) : ∃ a, rejNtt (demoPrims.shake128 (bytes rho 0 32 ++ [j, i])) 64 0 0 (zeroPoly, 0) = some a := by
  have : (rejNtt (fun n => if n % 3 = 0 then 1 else 0) 64 0 0 (zeroPoly, 0)).isSome = true := by decide +kernel
  exact Option.isSome_iff_exists.1 this

theorem demo_a {i : Nat} {rho : Nat → Nat} {row : Nat → Poly} (h : expandRow demoPrims mldsa44 64 rho i = some row) (j : Nat) (hj : j < 4)
    (x : Nat) (hx : x < 256) : row j x = 1 := by
  obtain ⟨g, hg⟩ := sample_mem (expandRow_spec demo1 h j hj) x hx
  simp only [Spec.cand3, demoPrims] at hg
  rw [if_pos (by omega), if_neg (by omega), if_neg (by omega)] at hg
  have : Spec.coeff3 1 0 0 = some 1 := by decide
  rw [this] at hg
  exact (Option.some.inj hg).symm

theorem demo_s {seed : Nat → Nat} (h : seed 0 ≠ 9) (nonce : Nat) : ∃ s, expandSPoly demoPrims mldsa44 256 seed nonce = some s ∧ ∀ x, x < 256 → s x = 1 := by
  have hst := demo_st (m := bytes seed 0 64 ++ [u8 nonce, 0]) (by simp [bytes_length]) (by simpa [bytes, List.range_succ_eq_map] using h)
  have h1 : (rejBounded 2 (fun _ => 0x11) 256 0 0 (zeroPoly, 0)).isSome = true := by decide +kernel
  obtain ⟨s, hs⟩ := Option.isSome_iff_exists.1 h1
  have hs' : expandSPoly demoPrims mldsa44 256 seed nonce = some s := by
    unfold expandSPoly; rw [hst]; exact hs
  refine ⟨s, hs', fun x hx => ?_⟩
  obtain ⟨g, hg⟩ := sample_mem (expandSPoly_spec demo2 in44 hs') x hx
  rw [hst] at hg
  simp only [Spec.candHalf] at hg
  have : (if g % 2 = 0 then (17 : Nat) % 16 else 17 / 16) = 1 := by split <;> rfl
  rw [this] at hg
  have : Spec.coeffHalf mldsa44.eta 1 = some 1 := by decide
  rw [this] at hg
  exact (Option.some.inj hg).symm

/-- Key generation with these streams. -/
theorem demo_key (d pub prv : Nat → Nat) : ∃ pk sk, keyGen demoPrims mldsa44 256 d pub prv = some (pk, sk) ∧
    (∀ j, j < 4 → ∀ x, x < 256 → (skDecode mldsa44 sk).s1 j x = 1) ∧ (∀ i, i < 4 → ∀ x, x < 256 → (skDecode mldsa44 sk).s2 i x = 1) := by
  have hdig : demoPrims.shake256 (bytes d 0 32 ++ [mldsa44.k, mldsa44.l]) = fun _ => 7 := by
    funext n
    simp only [demoPrims]
    rw [if_neg (by simp [bytes_length]), if_neg (by simp [bytes_length]), if_pos (by simp [bytes_length])]
  obtain ⟨s1, h1⟩ := collect_some zeroPoly (fun i => expandSPoly demoPrims mldsa44 256 (fun n => demoPrims.shake256 (bytes d 0 32 ++ [mldsa44.k, mldsa44.l]) (32 + n)) i) mldsa44.l
    (fun i _ => by obtain ⟨s, h, _⟩ := demo_s (seed := (fun n => demoPrims.shake256 (bytes d 0 32 ++ [mldsa44.k, mldsa44.l]) (32 + n))) (by rw [hdig]; decide) i; exact ⟨s, h⟩)
  obtain ⟨s2, h2⟩ := collect_some zeroPoly (fun i => expandSPoly demoPrims mldsa44 256 (fun n => demoPrims.shake256 (bytes d 0 32 ++ [mldsa44.k, mldsa44.l]) (32 + n)) (mldsa44.l + i)) mldsa44.k
    (fun i _ => by obtain ⟨s, h, _⟩ := demo_s (seed := (fun n => demoPrims.shake256 (bytes d 0 32 ++ [mldsa44.k, mldsa44.l]) (32 + n))) (by rw [hdig]; decide) (mldsa44.l + i); exact ⟨s, h⟩)
  have v1 : ∀ j, j < 4 → ∀ x, x < 256 → s1 j x = 1 := by
    intro j hj
    obtain ⟨s, h, hv⟩ := demo_s (seed := (fun n => demoPrims.shake256 (bytes d 0 32 ++ [mldsa44.k, mldsa44.l]) (32 + n))) (by rw [hdig]; decide) j
    have := collect_spec _ _ _ _ h1 j hj
    rw [h, Option.some.injEq] at this
    rw [← this]; exact hv
  have v2 : ∀ i, i < 4 → ∀ x, x < 256 → s2 i x = 1 := by
    intro i hi
    obtain ⟨s, h, hv⟩ := demo_s (seed := (fun n => demoPrims.shake256 (bytes d 0 32 ++ [mldsa44.k, mldsa44.l]) (32 + n))) (by rw [hdig]; decide) (mldsa44.l + i)
    have := collect_spec _ _ _ _ h2 i hi
    rw [h, Option.some.injEq] at this
    rw [← this]; exact hv
  have hrow : ∀ i, ∃ row, expandRow demoPrims mldsa44 256 (demoPrims.shake256 (bytes d 0 32 ++ [mldsa44.k, mldsa44.l])) i = some row := fun i => by
    obtain ⟨row, h⟩ := collect_some zeroPoly (fun j => rejNtt (demoPrims.shake128 (bytes (demoPrims.shake256 (bytes d 0 32 ++ [mldsa44.k, mldsa44.l])) 0 32 ++ [j, i])) 64 0 0 (zeroPoly, 0)) mldsa44.l
      (fun j _ => demo_row j i _)
    exact ⟨row, mono_le (F := fun f => expandRow demoPrims mldsa44 f (demoPrims.shake256 (bytes d 0 32 ++ [mldsa44.k, mldsa44.l])) i) (fun _ _ h => expandRow_mono h) (by decide : 64 ≤ 256) h⟩
  obtain ⟨t, ht⟩ := collect_some zeroPoly (computeT demoPrims mldsa44 256 (demoPrims.shake256 (bytes d 0 32 ++ [mldsa44.k, mldsa44.l])) s1 s2) mldsa44.k
    (fun i _ => by
      obtain ⟨row, h⟩ := hrow i
      unfold computeT
      rw [h]
      exact ⟨_, rfl⟩)
  have hk : ∃ pk sk, keyGen demoPrims mldsa44 256 d pub prv = some (pk, sk) := by
    unfold keyGen
    simp only
    rw [h1, h2]
    simp only
    rw [ht]
    exact ⟨_, _, rfl⟩
  obtain ⟨pk, sk, hk⟩ := hk
  refine ⟨pk, sk, hk, ?_⟩
  obtain ⟨s1', s2', t', q1, q2, q3, -, rfl⟩ := keyGen_some hk
  rw [h1, Option.some.injEq] at q1
  rw [h2, Option.some.injEq] at q2
  subst q1 q2
  rw [ht, Option.some.injEq] at q3
  subst q3
  have b1 : ∀ j, j < mldsa44.l → ∀ x, x < 256 → |s1 j x| ≤ (mldsa44.eta : Int) := fun j hj x hx => by rw [v1 j hj x hx]; decide
  have b2 : ∀ j, j < mldsa44.k → ∀ x, x < 256 → |s2 j x| ≤ (mldsa44.eta : Int) := fun j hj x hx => by rw [v2 j hj x hx]; decide
  have htr : ∀ i, i < mldsa44.k → ∀ x, x < 256 → 0 ≤ t i x ∧ t i x < 8380417 := fun i hi => by
    obtain ⟨row, _, h, _⟩ := computeT_spec demo1 in44 (fun j hj x hx => abs_small in44 (b1 j hj x hx)) (fun x hx => abs_small in44 (b2 i hi x hx)) (collect_spec _ _ _ _ ht i hi)
    exact h
  obtain ⟨-, -, -, r1, r2, -⟩ := sk_roundtrip in44 prv (demoPrims.shake256 (bytes d 0 32 ++ [mldsa44.k, mldsa44.l])) (fun n => demoPrims.shake256 (bytes d 0 32 ++ [mldsa44.k, mldsa44.l]) (96 + n))
    (demoPrims.shake256 (bytes pk 0 mldsa44.pubLen)) s1 s2 _ b1 b2 (fun i hi x hx => (power2Round_range (t i x) (htr i hi x hx)).2.1) _ rfl
  exact ⟨fun j hj x hx => by rw [r1 j hj x hx]; exact v1 j hj x hx, fun i hi x hx => by rw [r2 i hi x hx]; exact v2 i hi x hx⟩

theorem demo_mask (rho2 : Nat → Nat) (h : rho2 0 = 9) (u i x : Nat) (hx : x < 256) : expandMask demoPrims mldsa44 rho2 u i x = 1 := by
  have hst : demoPrims.shake256 (bytes rho2 0 64 ++ [(u + i) % 2 ^ 16 % 2 ^ 8, ((u + i) % 2 ^ 16) >>> 8]) = demoMask := by
    funext n
    simp only [demoPrims]
    rw [if_pos (by simp [bytes_length]), if_pos (by simpa [bytes, List.range_succ_eq_map] using h)]
  unfold expandMask
  rw [hst]
  show i32 (((131072 : Nat) : Int) - dec18 demoMask x) = 1
  have : ∀ x, x < 256 → dec18 demoMask x = 131071 := by decide +kernel
  rw [this x hx]
  decide

theorem highBits_small (v : Int) (g1 : -1000 ≤ v) (g2 : v ≤ 1000) : Spec.highBits (95232 : Int) v = 0 := by
  obtain ⟨k, k0, k1, k2, hd⟩ := gm_shape (g := 95232) (m := 44) (Or.inl ⟨rfl, rfl⟩) v
  unfold Spec.highBits
  rw [(high_of_shape (g := 95232) hd).1]
  unfold Spec.q at k2
  split
  · rfl
  · next hk =>
    clear hd
    have e : v % 8380417 = v ∨ v % 8380417 = v + 8380417 := by omega
    rcases e with e | e <;> rw [e] at k2 <;> omega

/-- One round of signing with such a key is accepted. -/
theorem demo_round {d : SkData} {pk : Nat → Nat} {A : Nat → Nat → Poly} {t : Nat → Poly} (K : KeyOk demoPrims mldsa44 256 d pk A t)
    (hs1 : ∀ j, j < 4 → ∀ x, x < 256 → d.s1 j x = 1) (hs2 : ∀ j, j < 4 → ∀ x, x < 256 → d.s2 j x = 1) (m : List Nat) (hm : m.length = 64)
    (rnd buf : Nat → Nat) (u : Nat) :
    ∃ r, signRound demoPrims mldsa44 256 (signEnv demoPrims mldsa44 d A (.mu m) rnd) buf u = some (some r) := by
  set e := signEnv demoPrims mldsa44 d A (.mu m) rnd with he
  have ea : e.a = A := by simp only [he, signEnv]
  have es1 : e.s1 = fun i => ntt (d.s1 i) := by simp only [he, signEnv]
  have es2 : e.s2 = fun i => ntt (d.s2 i) := by simp only [he, signEnv]
  have et0 : e.t0 = fun i => ntt (d.t0 i) := by simp only [he, signEnv]
  have er : e.rho2 0 = 9 := by
    simp only [he, signEnv, muBytes, demoPrims]
    rw [if_neg (by simp [bytes_length, hm]), if_pos (by simp [bytes_length, hm])]
  set y := expandMask demoPrims mldsa44 e.rho2 u with hy
  have hyv : ∀ j x, x < 256 → y j x = 1 := fun j x hx => demo_mask e.rho2 er u j x hx
  have hA1 : ∀ i, i < 4 → ∀ j, j < 4 → ∀ x, x < 256 → A i j x = 1 := by
    intro i hi j hj x hx
    have h0 := collect_spec _ _ _ _ K.hA i hi
    obtain ⟨row, h64⟩ := collect_some zeroPoly (fun j => rejNtt (demoPrims.shake128 (bytes d.rho 0 32 ++ [j, i])) 64 0 0 (zeroPoly, 0)) mldsa44.l (fun j _ => demo_row j i _)
    have h256 := mono_le (F := fun f => expandRow demoPrims mldsa44 f d.rho i) (fun _ _ h => expandRow_mono h) (by decide : 64 ≤ 256) h64
    have := h0.symm.trans h256
    rw [Option.some.injEq] at this
    rw [this]
    exact demo_a h64 j hj x hx
  -- the matrix product: every coefficient is 4
  have hW : ∀ i, i < 4 → ∀ x, x < 256 → intt (matMul mldsa44.l (A i) (fun j => ntt (y j))) x = 4 := by
    intro i hi x hx
    obtain ⟨w1, w2⟩ := mat_spec mldsa44.l (by decide) (A i) y 1 (by decide) (fun j hj x hx => by rw [hA1 i hi j hj x hx]; decide)
      (fun j hj x hx => by rw [hyv j x hx]; decide)
    apply small_unique _ (w1 x hx) (by decide)
    have := ntt_inj (f := cz (intt (matMul mldsa44.l (A i) (fun j => ntt (y j))))) (g := fun _ => 4) (fun z hz => by
      rw [w2 z hz]
      have : ∀ j ∈ range mldsa44.l, cz (A i j) z * Spec.ntt (cz (y j)) z = Spec.ntt (fun _ => 1) z := by
        intro j hj
        rw [cz_at, hA1 i hi j (mem_range.1 hj) z hz, Int.cast_one, one_mul]
        exact ntt_congr (fun n hn => by rw [cz_at, hyv j n hn]; rfl) z
      rw [sum_congr rfl this, sum_const, card_range]
      have e4 : Spec.ntt (fun _ => (4 : Zq)) z = 4 * Spec.ntt (fun _ => 1) z := by rw [← ntt_smul]; simp
      rw [e4, nsmul_eq_mul]
      rfl) x hx
    rw [cz_at] at this
    rw [this]; rfl
  have hwv : ∀ i, i < 4 → ∀ x, x < 256 → roundW mldsa44 e y i x = (0, 4) := by
    intro i hi x hx
    unfold roundW
    rw [ea, hW i hi x hx]
    decide
  -- `t = 5`
  have htv : ∀ i, i < 4 → ∀ x, x < 256 → t i x = 5 := by
    intro i hi x hx
    have := ntt_inj (f := cz (t i)) (g := fun _ => 5) (fun z hz => by
      rw [K.eq i hi z hz]
      have h1 : ∀ j ∈ range mldsa44.l, cz (A i j) z * Spec.ntt (cz (d.s1 j)) z = Spec.ntt (fun _ => 1) z := by
        intro j hj
        rw [cz_at, hA1 i hi j (mem_range.1 hj) z hz, Int.cast_one, one_mul]
        exact ntt_congr (fun n hn => by rw [cz_at, hs1 j (mem_range.1 hj) n hn]; rfl) z
      have h2 : Spec.ntt (cz (d.s2 i)) z = Spec.ntt (fun _ => 1) z := ntt_congr (fun n hn => by rw [cz_at, hs2 i hi n hn]; rfl) z
      rw [sum_congr rfl h1, sum_const, card_range, h2]
      have e4 : Spec.ntt (fun _ => (5 : Zq)) z = 5 * Spec.ntt (fun _ => 1) z := by rw [← ntt_smul]; simp
      have e5 : mldsa44.l = 4 := rfl
      rw [e4, nsmul_eq_mul, e5]
      push_cast
      ring) x hx
    rw [cz_at] at this
    have h5 : ((t i x : Int) : Zq) = ((5 : Int) : Zq) := by rw [this]; rfl
    have := dvd_of_cast h5
    have := K.ht i hi x hx
    omega
  have ht0 : ∀ i, i < 4 → ∀ x, x < 256 → d.t0 i x = 5 := by
    intro i hi x hx
    rw [K.t0 i hi x hx, htv i hi x hx]; decide
  -- the challenge
  have hc : ∃ c, sampleInBall demoPrims mldsa44 256 (bytes (challenge demoPrims mldsa44 e.mu buf (fun i x => (roundW mldsa44 e y i x).1)) 0 (cLen mldsa44)) = some c := by
    have hst : demoPrims.shake256 (bytes (challenge demoPrims mldsa44 e.mu buf (fun i x => (roundW mldsa44 e y i x).1)) 0 (cLen mldsa44)) = fun _ => 0 := by
      funext n
      simp only [demoPrims]
      have hcl : cLen mldsa44 = 32 := by decide
      rw [if_neg (by rw [bytes_length, hcl]; decide), if_neg (by rw [bytes_length, hcl]; decide), if_neg (by rw [bytes_length, hcl]; decide)]
    unfold sampleInBall
    simp only
    rw [hst]
    have : (ballLoop (fun _ => 0) 256 (256 - mldsa44.tau) ⟨zeroPoly, ballSigns (fun _ => 0) 8, 0, 8⟩ mldsa44.tau).isSome = true := by decide +kernel
    obtain ⟨s, hs⟩ := Option.isSome_iff_exists.1 this
    rw [hs]
    exact ⟨_, rfl⟩
  obtain ⟨c, hc⟩ := hc
  have hball := sampleInBall_spec demo2 (by decide) hc
  have p1 : ∀ j, j < 4 → ∀ x, x < 256 → |intt (vecMul (ntt c) (ntt (d.s1 j))) x| ≤ 39 := fun j hj x hx =>
    (cs_exact (by decide) hball 1 (by decide) (by decide) (by decide) (fun x hx => by rw [hs1 j hj x hx]; decide) x hx).2
  have p2 : ∀ j, j < 4 → ∀ x, x < 256 → |intt (vecMul (ntt c) (ntt (d.s2 j))) x| ≤ 39 := fun j hj x hx =>
    (cs_exact (by decide) hball 1 (by decide) (by decide) (by decide) (fun x hx => by rw [hs2 j hj x hx]; decide) x hx).2
  have p0 : ∀ j, j < 4 → ∀ x, x < 256 → |intt (vecMul (ntt c) (ntt (d.t0 j))) x| ≤ 195 := fun j hj x hx =>
    (cs_exact (by decide) hball 5 (by decide) (by decide) (by decide) (fun x hx => by rw [ht0 j hj x hx]; decide) x hx).2
  have modS : ∀ v : Int, -1000 ≤ v → v ≤ 1000 → modQ (i32 v) = v := by
    intro v h1 h2
    rw [i32_id (by omega)]
    have e : i32 (v + 2 ^ 22) / 2 ^ 23 = 0 := by norm_num; rw [i32_id (by omega)]; omega
    unfold modQ
    simp only [e]
    unfold i32; omega
  have eC : ∀ i, i < 4 → ∀ x, x < 256 → |roundCs2 e (ntt c) i x| ≤ 39 := fun i hi x hx => by
    unfold roundCs2; rw [es2]; exact p2 i hi x hx
  have eT : ∀ i, i < 4 → ∀ x, x < 256 → |roundCt0 e (ntt c) i x| ≤ 195 := fun i hi x hx => by
    unfold roundCt0; rw [et0]; exact p0 i hi x hx
  have c1 : checkAll mldsa44.l (roundZ e y (ntt c)) (mldsa44.gamma1 - mldsa44.beta) = true := by
    refine (checkAll_spec _ _ _ (by decide) (fun i hi x hx => ?_)).2 ?_
    · exact modQ_range _
    intro i hi x hx
    have h1 := abs_le.1 (p1 i hi x hx)
    unfold roundZ vecAdd
    rw [es1, hyv i x hx]
    simp only
    rw [modS _ (by omega) (by omega)]
    have : ((mldsa44.gamma1 - mldsa44.beta : Nat) : Int) = 130994 := by decide
    rw [this]
    exact abs_lt.2 (by omega)
  have c2 : checkAll mldsa44.k (fun i => vecSub (fun x => (roundW mldsa44 e y i x).2) (roundCs2 e (ntt c) i)) (mldsa44.gamma2 - mldsa44.beta) = true := by
    refine (checkAll_spec _ _ _ (by decide) (fun i hi x hx => ?_)).2 ?_
    · exact modQ_range _
    intro i hi x hx
    have h1 := abs_le.1 (eC i hi x hx)
    unfold vecSub
    simp only
    rw [hwv i hi x hx, modS _ (by simp only; omega) (by simp only; omega)]
    have : ((mldsa44.gamma2 - mldsa44.beta : Nat) : Int) = 95154 := by decide
    rw [this]
    exact abs_lt.2 (by simp only; omega)
  have c3 : checkAll mldsa44.k (roundCt0 e (ntt c)) mldsa44.gamma2 = true := by
    refine (checkAll_spec _ _ _ (by decide) (fun i hi x hx => by have := abs_le.1 (eT i hi x hx); omega)).2 ?_
    intro i hi x hx
    have h1 := eT i hi x hx
    have : ((mldsa44.gamma2 : Nat) : Int) = 95232 := by decide
    rw [this]; omega
  have hb : ∀ i, i < 4 → ∀ x, x < 256 → roundHint mldsa44 (roundW mldsa44 e y) (roundCt0 e (ntt c)) (roundCs2 e (ntt c)) i x = 0 := by
    intro i hi x hx
    have h1 := abs_le.1 (eC i hi x hx)
    have h2 := abs_le.1 (eT i hi x hx)
    unfold roundHint
    rw [if_pos hx, hwv i hi x hx]
    have hg : ((mldsa44.gamma2 : Nat) : Int) = 95232 := by decide
    have := (signer_hint in44 4 (roundCs2 e (ntt c) i x) (roundCt0 e (ntt c) i x) 0 4 (by decide) (by unfold Spec.q; omega)
      (by rw [hg]; exact abs_lt.2 (by omega)) (by rw [modS _ (by omega) (by omega), hg]; exact abs_lt.2 (by omega))).1
    simp only
    rw [this]
    have hh := highBits_small
    unfold Spec.makeHint
    rw [hg, hh _ (by omega) (by omega), hh _ (by omega) (by omega)]
    simp
  have c4 : ¬ hintCount mldsa44 (roundHint mldsa44 (roundW mldsa44 e y) (roundCt0 e (ntt c)) (roundCs2 e (ntt c))) > mldsa44.omega := by
    unfold hintCount
    have : ((List.range mldsa44.k).map fun i => ((List.range 256).map fun j => (roundHint mldsa44 (roundW mldsa44 e y) (roundCt0 e (ntt c)) (roundCs2 e (ntt c)) i j).toNat).sum) =
        (List.range mldsa44.k).map fun _ => ((List.range 256).map fun _ => 0).sum := by
      apply List.map_congr_left
      intro i hi
      apply congrArg List.sum
      apply List.map_congr_left
      intro x hx
      rw [hb i (List.mem_range.1 hi) x (List.mem_range.1 hx)]
      rfl
    rw [this]
    decide +kernel
  unfold signRound
  simp only
  rw [← hy, hc]
  simp only
  rw [c1, c2, c3, if_neg (by decide), if_neg (by decide), if_neg (by decide), if_neg c4]
  exact ⟨_, rfl⟩

end Verif.Crypto.Mldsa
