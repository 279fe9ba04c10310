import Verif.Crypto.Mldsa.Sign
/-! Key generation and the key consistency check give good key pairs; more fuel does not change a result. -/
namespace Verif.Crypto.Mldsa
open Finset
open Verif.Crypto.Mlkem (Poly i32 u32 u8 upd)

theorem keyOk_of {P : Prims} (hP1 : ∀ m n, P.shake128 m n < 256) {p : Params} (hp : p ∈ paramTable) {fuel : Nat}
    {rho buf : Nat → Nat} {s1 s2 t : Nat → Poly} {d : SkData}
    (hs1 : ∀ j, j < p.l → ∀ x, x < 256 → |s1 j x| ≤ 11) (hs2 : ∀ i, i < p.k → ∀ x, x < 256 → |s2 i x| ≤ 11)
    (hT : collect zeroPoly (computeT P p fuel rho s1 s2) p.k = some t)
    (hrho : ∀ n, n < 32 → d.rho n = rho n) (hd1 : ∀ j, j < p.l → ∀ x, x < 256 → d.s1 j x = s1 j x)
    (hd2 : ∀ i, i < p.k → ∀ x, x < 256 → d.s2 i x = s2 i x)
    (hd0 : (∀ i, i < p.k → ∀ x, x < 256 → 0 ≤ t i x ∧ t i x < 8380417) → ∀ i, i < p.k → ∀ x, x < 256 → d.t0 i x = (power2Round (t i x)).2)
    (htr : bytes (P.shake256 (bytes (pkEncode p buf rho (fun i x => (power2Round (t i x)).1)) 0 p.pubLen)) 0 64 = bytes d.tr 0 64) :
    ∃ A, KeyOk P p fuel d (pkEncode p buf rho (fun i x => (power2Round (t i x)).1)) A t := by
  have hc := collect_spec _ _ _ _ hT
  have hrow : ∀ i, i < p.k → _ := fun i hi => computeT_spec hP1 hp hs1 (hs2 i hi) (hc i hi)
  have htr2 : ∀ i, i < p.k → ∀ x, x < 256 → 0 ≤ t i x ∧ t i x < 8380417 := fun i hi => by
    obtain ⟨row, _, h, _⟩ := hrow i hi; exact h
  obtain ⟨A, hA⟩ := collect_some (fun _ => zeroPoly) (expandRow P p fuel rho) p.k (fun i hi => by
    obtain ⟨row, h, _⟩ := hrow i hi; exact ⟨row, h⟩)
  have hAi := collect_spec _ _ _ _ hA
  have hpk := pk_roundtrip p buf rho (fun i x => (power2Round (t i x)).1) (fun i hi x hx => (power2Round_range (t i x) (htr2 i hi x hx)).1)
  refine ⟨A, ?_, htr2, ?_, ?_, ?_, hd0 htr2, hpk.2, ?_, htr⟩
  · rw [← hA]
    exact expandA_congr (bytes_ext (fun i hi => by rw [Nat.zero_add]; exact hrho i hi))
  · intro i hi x hx
    obtain ⟨row, h1, -, h2⟩ := hrow i hi
    rw [hAi i hi, Option.some.injEq] at h1
    rw [h2 x hx, h1]
    have e2 : Spec.ntt (cz (d.s2 i)) x = Spec.ntt (cz (s2 i)) x := ntt_congr (fun m hm => by rw [cz_at, cz_at, hd2 i hi m hm]) x
    rw [e2]
    have e1 : ∀ j, j < p.l → Spec.ntt (cz (d.s1 j)) x = Spec.ntt (cz (s1 j)) x := fun j hj =>
      ntt_congr (fun m hm => by rw [cz_at, cz_at, hd1 j hj m hm]) x
    have e3 : ∑ j ∈ range p.l, cz (row j) x * Spec.ntt (cz (d.s1 j)) x = ∑ j ∈ range p.l, cz (row j) x * Spec.ntt (cz (s1 j)) x :=
      sum_congr rfl (fun j hj => by rw [e1 j (mem_range.1 hj)])
    rw [e3]
  · intro j hj x hx; rw [hd1 j hj x hx]; exact hs1 j hj x hx
  · intro i hi x hx; rw [hd2 i hi x hx]; exact hs2 i hi x hx
  · intro n hn
    exact (hpk.1 n hn).trans (hrho n hn).symm

theorem eta_cases {p : Params} (hp : p ∈ paramTable) : p.eta = 2 ∨ p.eta = 4 := by
  rcases param_cases hp with rfl | rfl | rfl <;> decide

theorem expandSPoly_spec {P : Prims} (hP2 : ∀ m n, P.shake256 m n < 256) {p : Params} (hp : p ∈ paramTable) {fuel : Nat}
    {seed : Nat → Nat} {nonce : Nat} {s : Poly} (h : expandSPoly P p fuel seed nonce = some s) :
    Spec.IsSample (Spec.candHalf p.eta (P.shake256 (bytes seed 0 64 ++ [u8 nonce, 0]))) s :=
  (rejBounded_spec (eta_cases hp) (hP2 _) fuel 0 0 (zeroPoly, 0) (by decide) acc_nil).1 _ h

theorem abs_small {p : Params} (hp : p ∈ paramTable) {v : Int} (h : |v| ≤ (p.eta : Int)) : |v| ≤ 11 := by
  rcases eta_cases hp with e | e <;> rw [e] at h <;> omega

/-- What key generation computes. -/
theorem keyGen_some {P : Prims} {p : Params} {fuel : Nat} {d pub prv pk sk : Nat → Nat} (h : keyGen P p fuel d pub prv = some (pk, sk)) :
    ∃ s1 s2 t, collect zeroPoly (fun i => expandSPoly P p fuel (fun n => P.shake256 (bytes d 0 32 ++ [p.k, p.l]) (32 + n)) i) p.l = some s1 ∧
      collect zeroPoly (fun i => expandSPoly P p fuel (fun n => P.shake256 (bytes d 0 32 ++ [p.k, p.l]) (32 + n)) (p.l + i)) p.k = some s2 ∧
      collect zeroPoly (computeT P p fuel (P.shake256 (bytes d 0 32 ++ [p.k, p.l])) s1 s2) p.k = some t ∧
      pk = pkEncode p pub (P.shake256 (bytes d 0 32 ++ [p.k, p.l])) (fun i x => (power2Round (t i x)).1) ∧
      sk = skEncode p prv (P.shake256 (bytes d 0 32 ++ [p.k, p.l])) (fun n => P.shake256 (bytes d 0 32 ++ [p.k, p.l]) (96 + n))
        (P.shake256 (bytes pk 0 p.pubLen)) s1 s2 (fun i x => (power2Round (t i x)).2) := by
  unfold keyGen at h
  simp only at h
  split at h
  · next s1 s2 e1 e2 =>
    split at h
    · simp at h
    · next t e3 =>
      simp only [Option.some.injEq, Prod.mk.injEq] at h
      obtain ⟨rfl, rfl⟩ := h
      exact ⟨s1, s2, t, e1, e2, e3, rfl, rfl⟩
  · simp at h

theorem keyGen_ok {P : Prims} (hP1 : ∀ m n, P.shake128 m n < 256) (hP2 : ∀ m n, P.shake256 m n < 256) {p : Params}
    (hp : p ∈ paramTable) {fuel : Nat} {d pub prv pk sk : Nat → Nat} (h : keyGen P p fuel d pub prv = some (pk, sk)) :
    ∃ A t, KeyOk P p fuel (skDecode p sk) pk A t := by
  obtain ⟨s1, s2, t, h1, h2, h3, rfl, rfl⟩ := keyGen_some h
  have r1 : ∀ i, i < p.l → ∀ x, x < 256 → |s1 i x| ≤ (p.eta : Int) := fun i hi x hx =>
    candHalf_range (expandSPoly_spec hP2 hp (collect_spec _ _ _ _ h1 i hi)) x hx
  have r2 : ∀ i, i < p.k → ∀ x, x < 256 → |s2 i x| ≤ (p.eta : Int) := fun i hi x hx =>
    candHalf_range (expandSPoly_spec hP2 hp (collect_spec _ _ _ _ h2 i hi)) x hx
  have b1 : ∀ i, i < p.l → ∀ x, x < 256 → |s1 i x| ≤ 11 := fun i hi x hx => abs_small hp (r1 i hi x hx)
  have b2 : ∀ i, i < p.k → ∀ x, x < 256 → |s2 i x| ≤ 11 := fun i hi x hx => abs_small hp (r2 i hi x hx)
  have ht : ∀ i, i < p.k → ∀ x, x < 256 → 0 ≤ t i x ∧ t i x < 8380417 := fun i hi => by
    obtain ⟨row, _, h, _⟩ := computeT_spec hP1 hp b1 (b2 i hi) (collect_spec _ _ _ _ h3 i hi); exact h
  obtain ⟨q1, q2, q3, q4, q5, q6⟩ := sk_roundtrip hp prv _ (fun n => P.shake256 (bytes d 0 32 ++ [p.k, p.l]) (96 + n)) _ s1 s2 _ r1 r2
    (fun i hi x hx => (power2Round_range (t i x) (ht i hi x hx)).2.1) _ rfl
  obtain ⟨A, hA⟩ := keyOk_of (buf := pub) hP1 hp b1 b2 h3 q1 q4 q5 (fun _ => q6) (bytes_ext (fun i hi => by rw [Nat.zero_add]; exact (q3 i hi).symm))
  exact ⟨A, t, hA⟩

theorem polyEq_spec (a b : Poly) : polyEq a b = true ↔ ∀ x, x < 256 → a x = b x := by
  unfold polyEq
  rw [List.all_eq_true]
  simp [List.mem_range]

theorem sk_small {p : Params} (hp : p ∈ paramTable) {sk : Nat → Nat} (hsk : ∀ n, sk n < 256) :
    (∀ i x, x < 256 → |(skDecode p sk).s1 i x| ≤ 11) ∧ ∀ i x, x < 256 → |(skDecode p sk).s2 i x| ≤ 11 := by
  have k3 : ∀ (a : Nat → Nat), (∀ n, a n < 256) → ∀ x, x < 256 → |i32 (((2 : Nat) : Int) - dec3 a x)| ≤ 11 := by
    intro a ha x hx
    have h1 := (dec3_unpacked a (fun i _ => ha i) x hx).1
    have e : (2 : Nat) ^ 3 = 8 := rfl
    rw [e] at h1
    apply abs_le.2
    unfold i32; push_cast; omega
  have k4 : ∀ (a : Nat → Nat), (∀ n, a n < 256) → ∀ x, x < 256 → |i32 (((4 : Nat) : Int) - dec4 a x)| ≤ 11 := by
    intro a ha x hx
    have h1 := (dec4_unpacked a (fun i _ => ha i) x hx).1
    have e : (2 : Nat) ^ 4 = 16 := rfl
    rw [e] at h1
    apply abs_le.2
    unfold i32; push_cast; omega
  rcases param_cases hp with rfl | rfl | rfl
  · exact ⟨fun i x hx => k3 (fun n => sk (128 + 32 * 3 * i + n)) (fun _ => hsk _) x hx,
      fun i x hx => k3 (fun n => sk (128 + 32 * 3 * 4 + 32 * 3 * i + n)) (fun _ => hsk _) x hx⟩
  · exact ⟨fun i x hx => k4 (fun n => sk (128 + 32 * 4 * i + n)) (fun _ => hsk _) x hx,
      fun i x hx => k4 (fun n => sk (128 + 32 * 4 * 5 + 32 * 4 * i + n)) (fun _ => hsk _) x hx⟩
  · exact ⟨fun i x hx => k3 (fun n => sk (128 + 32 * 3 * i + n)) (fun _ => hsk _) x hx,
      fun i x hx => k3 (fun n => sk (128 + 32 * 3 * 7 + 32 * 3 * i + n)) (fun _ => hsk _) x hx⟩

theorem consistence_ok {P : Prims} (hP1 : ∀ m n, P.shake128 m n < 256) {p : Params} (hp : p ∈ paramTable) {fuel : Nat}
    {sk pub pk : Nat → Nat} (hsk : ∀ n, sk n < 256) (h : consistenceCheck P p fuel sk pub = some (some pk)) :
    ∃ A t, KeyOk P p fuel (skDecode p sk) pk A t := by
  unfold consistenceCheck at h
  split at h
  · simp at h
  · simp at h
  · next pk' hc =>
    split at h
    · next htr =>
      simp only [Option.some.injEq] at h
      subst h
      unfold calPub at hc
      simp only at hc
      split at hc
      · simp at hc
      · next t h3 =>
        split at hc
        · next h0 =>
          simp only [Option.some.injEq] at hc
          subst hc
          have hs := sk_small hp hsk
          rw [List.all_eq_true] at h0
          obtain ⟨A, hA⟩ := keyOk_of (d := skDecode p sk) hP1 hp (fun j _ x hx => hs.1 j x hx) (fun i _ x hx => hs.2 i x hx) h3 (fun _ _ => rfl)
            (fun _ _ _ _ => rfl) (fun _ _ _ _ => rfl)
            (fun _ i hi x hx => ((polyEq_spec _ _).1 (h0 i (List.mem_range.2 hi)) x hx).symm)
            (htr.trans (bytes_ext (fun i hi => by show sk (64 + i) = sk (64 + (0 + i)); rw [Nat.zero_add])))
          exact ⟨A, t, hA⟩
        · simp at hc
    · simp at h

/-! ## Fuel -/

theorem rejNtt_mono {st : Nat → Nat} {f : Nat} : ∀ {blk j : Nat} {s : Poly × Nat} {a : Poly}, rejNtt st f blk j s = some a →
    rejNtt st (f + 1) blk j s = some a := by
  induction f with
  | zero =>
    intro blk j s a h
    unfold rejNtt at h ⊢
    split at h
    · simp at h
    · next hn => rw [if_neg hn]; exact h
  | succ f ih =>
    intro blk j s a h
    rw [rejNtt] at h ⊢
    split at h
    · next hs =>
      rw [if_pos hs]
      simp only at h ⊢
      split at h
      · next hc => rw [if_pos hc]; exact ih h
      · next hc => rw [if_neg hc]; exact ih h
    · next hs => rw [if_neg hs]; exact h

theorem rejBounded_mono {eta : Nat} {st : Nat → Nat} {f : Nat} : ∀ {blk j : Nat} {s : Poly × Nat} {a : Poly},
    rejBounded eta st f blk j s = some a → rejBounded eta st (f + 1) blk j s = some a := by
  induction f with
  | zero =>
    intro blk j s a h
    unfold rejBounded at h ⊢
    split at h
    · simp at h
    · next hn => rw [if_neg hn]; exact h
  | succ f ih =>
    intro blk j s a h
    rw [rejBounded] at h ⊢
    split at h
    · next hs =>
      rw [if_pos hs]
      split at h
      · next hc => rw [if_pos hc]; exact ih h
      · next hc => rw [if_neg hc]; exact ih h
    · next hs => rw [if_neg hs]; exact h

theorem ballPos_mono {st : Nat → Nat} {i f : Nat} : ∀ {blk index : Nat} {r : Nat × Nat × Nat}, ballPos st i f blk index = some r →
    ballPos st i (f + 1) blk index = some r := by
  induction f with
  | zero => intro blk index r h; simp [ballPos] at h
  | succ f ih =>
    intro blk index r h
    rw [ballPos] at h ⊢
    generalize (if index = 136 then (blk + 1, 0) else (blk, index)) = bi at h ⊢
    simp only at h ⊢
    split at h
    · next hc => rw [if_pos hc]; exact ih h
    · next hc => rw [if_neg hc]; exact h

theorem ballLoop_mono {st : Nat → Nat} {f i0 : Nat} {s : Ball} (n : Nat) : ∀ {r : Ball}, ballLoop st f i0 s n = some r →
    ballLoop st (f + 1) i0 s n = some r := by
  induction n with
  | zero => intro r h; exact h
  | succ n ih =>
    intro r h
    unfold ballLoop at h ⊢
    split at h
    · simp at h
    · next s' hs =>
      rw [ih hs]
      simp only
      unfold ballStep at h ⊢
      split at h
      · simp at h
      · next j blk index hb => rw [ballPos_mono hb]; exact h

theorem sampleInBall_mono {P : Prims} {p : Params} {f : Nat} {seed : List Nat} {c : Poly} (h : sampleInBall P p f seed = some c) :
    sampleInBall P p (f + 1) seed = some c := by
  unfold sampleInBall at h ⊢
  simp only at h ⊢
  split at h
  · simp at h
  · next s hs => rw [ballLoop_mono _ hs]; exact h

theorem collect_mono {α : Type} {d : α} {f g : Nat → Option α} (hfg : ∀ i a, f i = some a → g i = some a) (n : Nat) :
    ∀ {r : Nat → α}, collect d f n = some r → collect d g n = some r := by
  induction n with
  | zero => intro r h; exact h
  | succ n ih =>
    intro r h
    unfold collect at h ⊢
    split at h
    · next u a hu ha => rw [ih hu, hfg n a ha]; exact h
    · simp at h

theorem expandRow_mono {P : Prims} {p : Params} {f : Nat} {rho : Nat → Nat} {i : Nat} {r : Nat → Poly}
    (h : expandRow P p f rho i = some r) : expandRow P p (f + 1) rho i = some r :=
  collect_mono (fun _ _ h => rejNtt_mono h) _ h
theorem expandA_mono {P : Prims} {p : Params} {f : Nat} {rho : Nat → Nat} {r : Nat → Nat → Poly}
    (h : expandA P p f rho = some r) : expandA P p (f + 1) rho = some r :=
  collect_mono (fun _ _ h => expandRow_mono h) _ h
theorem computeT_mono {P : Prims} {p : Params} {f : Nat} {rho : Nat → Nat} {s1 s2 : Nat → Poly} {i : Nat} {t : Poly}
    (h : computeT P p f rho s1 s2 i = some t) : computeT P p (f + 1) rho s1 s2 i = some t := by
  unfold computeT at h ⊢
  split at h
  · simp at h
  · next row hr => rw [expandRow_mono hr]; exact h

theorem expandSPoly_mono {P : Prims} {p : Params} {f : Nat} {seed : Nat → Nat} {nonce : Nat} {s : Poly}
    (h : expandSPoly P p f seed nonce = some s) : expandSPoly P p (f + 1) seed nonce = some s := rejBounded_mono h

theorem keyGen_mono {P : Prims} {p : Params} {f : Nat} {d pub prv : Nat → Nat} {r : (Nat → Nat) × (Nat → Nat)}
    (h : keyGen P p f d pub prv = some r) : keyGen P p (f + 1) d pub prv = some r := by
  unfold keyGen at h ⊢
  simp only at h ⊢
  split at h
  · next s1 s2 e1 e2 =>
    rw [collect_mono (fun _ _ h => expandSPoly_mono h) _ e1, collect_mono (fun _ _ h => expandSPoly_mono h) _ e2]
    simp only
    split at h
    · simp at h
    · next t e3 => rw [collect_mono (fun _ _ h => computeT_mono h) _ e3]; exact h
  · simp at h

theorem calPub_mono {P : Prims} {p : Params} {f : Nat} {sk pub : Nat → Nat} {r : Option (Nat → Nat)}
    (h : calPub P p f sk pub = some r) : calPub P p (f + 1) sk pub = some r := by
  unfold calPub at h ⊢
  simp only at h ⊢
  split at h
  · simp at h
  · next t e => rw [collect_mono (fun _ _ h => computeT_mono h) _ e]; exact h

theorem consistenceCheck_mono {P : Prims} {p : Params} {f : Nat} {sk pub : Nat → Nat} {r : Option (Nat → Nat)}
    (h : consistenceCheck P p f sk pub = some r) : consistenceCheck P p (f + 1) sk pub = some r := by
  unfold consistenceCheck at h ⊢
  split at h
  · simp at h
  · next e => rw [calPub_mono e]; exact h
  · next pk e => rw [calPub_mono e]; exact h

theorem signRound_mono {P : Prims} {p : Params} {f : Nat} {e : SignEnv} {b : Nat → Nat} {u : Nat} {r : Option Round}
    (h : signRound P p f e b u = some r) : signRound P p (f + 1) e b u = some r := by
  unfold signRound at h ⊢
  simp only at h ⊢
  split at h
  · simp at h
  · next c hc => rw [sampleInBall_mono hc]; exact h

theorem signLoop_mono {P : Prims} {p : Params} {f : Nat} {e : SignEnv} {b : Nat → Nat} {r : Round} (n : Nat) : ∀ {u : Nat},
    signLoop P p f e b n u = some r → signLoop P p (f + 1) e b n u = some r := by
  induction n with
  | zero => intro u h; exact h
  | succ n ih =>
    intro u h
    unfold signLoop at h ⊢
    split at h
    · simp at h
    · next r' hr => rw [signRound_mono hr]; exact h
    · next hr => rw [signRound_mono hr]; exact ih h

theorem sign_mono {P : Prims} {p : Params} {f n : Nat} {sk : Nat → Nat} {msg : Msg} {rnd out b sig : Nat → Nat}
    (h : sign P p f n sk msg rnd out b = some sig) : sign P p (f + 1) n sk msg rnd out b = some sig := by
  unfold sign at h ⊢
  simp only at h ⊢
  split at h
  · simp at h
  · next a ha =>
    rw [expandA_mono ha]
    simp only
    split at h
    · simp at h
    · next r hr => rw [signLoop_mono n hr]; exact h

theorem verify_mono {P : Prims} {p : Params} {f : Nat} {pk : Nat → Nat} {msg : Msg} {sig b : Nat → Nat} {r : VerRes}
    (h : verify P p f pk msg sig b = some r) : verify P p (f + 1) pk msg sig b = some r := by
  unfold verify at h ⊢
  simp only at h ⊢
  split at h
  · exact h
  · exact h
  · split at h
    · next hc => rw [if_pos hc]; exact h
    · next hc =>
      rw [if_neg hc]
      split at h
      · next c a h1 h2 => rw [sampleInBall_mono h1, expandA_mono h2]; exact h
      · simp at h

theorem mono_le {α : Type} {F : Nat → Option α} (h : ∀ f r, F f = some r → F (f + 1) = some r) {f g : Nat} (hfg : f ≤ g) {r : α}
    (hr : F f = some r) : F g = some r := by
  induction g with
  | zero => rwa [Nat.le_zero.1 hfg] at hr
  | succ g ih =>
    by_cases e : f = g + 1
    · rwa [← e]
    · exact h _ _ (ih (by omega))

end Verif.Crypto.Mldsa
