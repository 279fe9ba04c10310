import Verif.Crypto.Mldsa.SignDemo
/-! C62: ML-DSA key generation, signing and verification against FIPS 204.

The two hash functions `P.shake128`, `P.shake256` are arbitrary functions from messages to byte streams, as in the
standard, where they are random oracles. The results of the model are `none` only while a sampler or the signing loop
has not found what it looks for within the given number of steps. -/
namespace Verif.Crypto.Mldsa
open Finset
open Verif.Crypto.Mlkem (Poly i32 u32 u8 upd)
open Spec

namespace Spec
/-- The streams consist of bytes. -/
def ByteStreams (P : Prims) : Prop := (∀ m n, P.shake128 m n < 256) ∧ ∀ m n, P.shake256 m n < 256
/-- The relation between the seed and the two keys in ML-DSA.KeyGen_internal (FIPS 204, Algorithm 6). The secret key is
given by its decoded fields. -/
def IsKeyPair (P : Prims) (p : Params) (xi pk : Nat → Nat) (sk : SkData) : Prop :=
  let H := P.shake256 (bytes xi 0 32 ++ [p.k, p.l])
  ∃ (Ahat : Nat → Nat → Nat → Int) (s1 s2 t : Nat → Nat → Int),
    (∀ i, i < p.k → ∀ j, j < p.l → IsSample (cand3 (P.shake128 (bytes H 0 32 ++ [j, i]))) (Ahat i j)) ∧
    (∀ j, j < p.l → IsSample (candHalf p.eta (P.shake256 (bytes H 32 64 ++ [j, 0]))) (s1 j)) ∧
    (∀ i, i < p.k → IsSample (candHalf p.eta (P.shake256 (bytes H 32 64 ++ [p.l + i, 0]))) (s2 i)) ∧
    (∀ i, i < p.k → ∃ W, IsRowMul p.l (fun j x => (Ahat i j x : Zq)) (fun j x => (s1 j x : Zq)) W ∧
      ∀ x, x < 256 → 0 ≤ t i x ∧ t i x < q ∧ (t i x : Zq) = W x + (s2 i x : Zq)) ∧
    bytes pk 0 32 = bytes H 0 32 ∧
    (∀ i, i < p.k → IsPacked pk (32 + 320 * i) 10 (fun x => (power2Round (t i x)).1)) ∧
    bytes sk.rho 0 32 = bytes H 0 32 ∧ bytes sk.key 0 32 = bytes H 96 32 ∧
    bytes sk.tr 0 64 = bytes (P.shake256 (bytes pk 0 p.pubLen)) 0 64 ∧
    (∀ j, j < p.l → ∀ x, x < 256 → sk.s1 j x = s1 j x) ∧ (∀ i, i < p.k → ∀ x, x < 256 → sk.s2 i x = s2 i x) ∧
    (∀ i, i < p.k → ∀ x, x < 256 → sk.t0 i x = (power2Round (t i x)).2)
/-- The signature is the one of an accepted round of ML-DSA.Sign_internal (FIPS 204, Algorithm 7) at counter `κ`, for the
secret key with the given fields. `h` is the hint of the round. -/
def IsSignature (P : Prims) (p : Params) (sk : SkData) (msg : Msg) (rnd : Nat → Nat) (kappa : Nat) (sig : Nat → Nat) : Prop :=
  let mu : List Nat := match msg with
    | .mu m => m
    | .enc m => bytes (P.shake256 (bytes sk.tr 0 64 ++ m)) 0 64
  ∃ (Ahat : Nat → Nat → Nat → Int) (y z h : Nat → Nat → Int) (c : Nat → Int) (W : Nat → Nat → Int),
    (∀ i, i < p.k → ∀ j, j < p.l → IsSample (cand3 (P.shake128 (bytes sk.rho 0 32 ++ [j, i]))) (Ahat i j)) ∧
    IsMask P p (bytes (P.shake256 (bytes sk.key 0 32 ++ bytes rnd 0 32 ++ mu)) 0 64) kappa y ∧
    (∀ i, i < p.k → IsRowMul p.l (fun j x => (Ahat i j x : Zq)) (fun j x => (y j x : Zq)) (fun x => (W i x : Zq))) ∧
    bytes sig 0 (p.secBits / 4) = bytes (P.shake256 (mu ++
      w1Bytes (bitlen (((q - 1) / (2 * p.gamma2)).toNat - 1)) p.k (fun i x => highBits p.gamma2 (W i x)))) 0 (p.secBits / 4) ∧
    IsBall p.tau (P.shake256 (bytes sig 0 (p.secBits / 4))) c ∧
    (∀ j, j < p.l → ∀ x, x < 256 → (z j x - (y j x + intMul c (sk.s1 j) x)) % q = 0 ∧ |z j x| < (p.gamma1 : Int) - p.beta) ∧
    (∀ i, i < p.k → ∀ x, x < 256 → |lowBits p.gamma2 (W i x - intMul c (sk.s2 i) x)| < (p.gamma2 : Int) - p.beta) ∧
    (∀ i, i < p.k → ∀ x, x < 256 → |intMul c (sk.t0 i) x| < (p.gamma2 : Int)) ∧
    (∀ i, i < p.k → ∀ x, x < 256 →
      h i x = makeHint p.gamma2 (-intMul c (sk.t0 i) x) (W i x - intMul c (sk.s2 i) x + intMul c (sk.t0 i) x)) ∧
    Decodes p sig z h
end Spec

/-- A key pair the library holds: generated, or a secret key whose public key has been computed and checked. -/
def GoodKey (P : Prims) (p : Params) (fuel : Nat) (pk sk : Nat → Nat) : Prop :=
  (∃ d pub prv, keyGen P p fuel d pub prv = some (pk, sk)) ∨
  ((∀ n, sk n < 256) ∧ ∃ pub, consistenceCheck P p fuel sk pub = some (some pk))

theorem goodKey_ok {P : Prims} (hP : ByteStreams P) {p : Params} (hp : p ∈ paramTable) {fuel : Nat} {pk sk : Nat → Nat}
    (h : GoodKey P p fuel pk sk) : ∃ A t, KeyOk P p fuel (skDecode p sk) pk A t := by
  rcases h with ⟨d, pub, prv, h⟩ | ⟨hb, pub, h⟩
  · exact keyGen_ok hP.1 hP.2 hp h
  · exact consistence_ok hP.1 hp hb h

theorem goodKey_mono {P : Prims} {p : Params} {f g : Nat} (hfg : f ≤ g) {pk sk : Nat → Nat} (h : GoodKey P p f pk sk) :
    GoodKey P p g pk sk := by
  rcases h with ⟨d, pub, prv, h⟩ | ⟨hb, pub, h⟩
  · exact Or.inl ⟨d, pub, prv, mono_le (F := fun f => keyGen P p f d pub prv) (fun _ _ h => keyGen_mono h) hfg h⟩
  · exact Or.inr ⟨hb, pub, mono_le (F := fun f => consistenceCheck P p f sk pub) (fun _ _ h => consistenceCheck_mono h) hfg h⟩

theorem sign_round {P : Prims} {p : Params} {fuel rounds : Nat} {sk : Nat → Nat} {msg : Msg} {rnd out buf sig : Nat → Nat}
    {A : Nat → Nat → Poly} (hA : expandA P p fuel (skDecode p sk).rho = some A)
    (h : sign P p fuel rounds sk msg rnd out buf = some sig) :
    ∃ m r, m < rounds ∧ signRound P p fuel (signEnv P p (skDecode p sk) A msg rnd) buf ((m * p.l) % 2 ^ 16) = some (some r) ∧
      sigEncode p (put out 0 (cLen p) r.ct) (cLen p) r.z ((List.range p.k).map r.h) = some sig := by
  unfold sign at h
  simp only at h
  rw [hA] at h
  simp only at h
  split at h
  · simp at h
  · next r hr =>
    obtain ⟨m, hm, h2⟩ := signLoop_kappa rounds hr
    refine ⟨m, r, hm, ?_, h⟩
    by_cases h0 : m = 0
    · subst h0; rw [if_pos rfl] at h2; simpa using h2
    · rw [if_neg h0, Nat.zero_add] at h2; exact h2

/-- **Every signature verifies.** For a key pair that was generated or checked by the library, whatever `sign` returns
for a message is accepted by `verify` for the same message: with any limit on the samplers it never says anything
else, and it does answer as soon as the limit is at least those of the two calls. -/
theorem sign_then_verify {P : Prims} (hP : ByteStreams P) {p : Params} (hp : p ∈ paramTable) {f1 f2 rounds : Nat}
    {pk sk : Nat → Nat} (hk : GoodKey P p f1 pk sk) (msg : Msg) (rnd out buf buf' : Nat → Nat) {sig : Nat → Nat}
    (h : sign P p f2 rounds sk msg rnd out buf = some sig) :
    (∀ f, f1 ≤ f → f2 ≤ f → verify P p f pk msg sig buf' = some .success) ∧
    ∀ f r, verify P p f pk msg sig buf' = some r → r = .success := by
  have main : ∀ f, f1 ≤ f → f2 ≤ f → verify P p f pk msg sig buf' = some .success := by
    intro f h1 h2
    obtain ⟨A, t, K⟩ := goodKey_ok hP hp (goodKey_mono h1 hk)
    have hs := mono_le (F := fun f => sign P p f rounds sk msg rnd out buf) (fun _ _ h => sign_mono h) h2 h
    obtain ⟨m, r, _, hr, he⟩ := sign_round K.hA hs
    obtain ⟨sig', e', hv⟩ := sign_verify hP.1 hP.2 hp K msg rnd buf out _ r hr
    rw [he, Option.some.injEq] at e'
    rw [e']; exact hv buf'
  refine ⟨main, fun f r hv => ?_⟩
  have hv2 := mono_le (F := fun f => verify P p f pk msg sig buf') (fun _ _ h => verify_mono h) (le_max_right (max f1 f2) f) hv
  have := main (max (max f1 f2) f) (by omega) (by omega)
  rw [hv2, Option.some.injEq] at this
  exact this

/-- **What verification decides.** Success exactly when ML-DSA.Verify_internal accepts; a data error exactly when the
signature does not decode to a response within the norm bound and a well-formed hint; and no byte outside the
signature is read. -/
theorem verify_decision {P : Prims} (hP : ByteStreams P) {p : Params} (hp : p ∈ paramTable) {fuel : Nat} {pk sig : Nat → Nat}
    (hpk : ∀ n, pk n < 256) (hs : ∀ n, sig n < 256) (msg : Msg) (buf : Nat → Nat) {r : VerRes}
    (hv : verify P p fuel pk msg sig buf = some r) :
    (r = .success ↔ Accepts P p pk msg sig) ∧ (r = .dataError ↔ ¬ ∃ z h, Decodes p sig z h) ∧ r ≠ .oob :=
  verify_iff hP.1 hP.2 hp hpk hs msg buf hv

example : verify demoPrims mldsa44 0 (fun _ => 0) (.mu []) (fun _ => 255) (fun _ => 0) = some .dataError := by decide +kernel

/-- **Key generation** relates the seed and the two keys as ML-DSA.KeyGen_internal does. -/
theorem keyGen_fips {P : Prims} (hP : ByteStreams P) {p : Params} (hp : p ∈ paramTable) {fuel : Nat} {xi pub prv pk sk : Nat → Nat}
    (h : keyGen P p fuel xi pub prv = some (pk, sk)) : IsKeyPair P p xi pk (skDecode p sk) := by
  obtain ⟨s1, s2, t, h1, h2, h3, e1, e2⟩ := keyGen_some h
  set H := P.shake256 (bytes xi 0 32 ++ [p.k, p.l]) with hH
  have eb : bytes (fun n => H (32 + n)) 0 64 = bytes H 32 64 := bytes_ext (fun i _ => by rw [Nat.zero_add])
  have c1 : ∀ j, j < p.l → IsSample (candHalf p.eta (P.shake256 (bytes H 32 64 ++ [j, 0]))) (s1 j) := by
    intro j hj
    have := expandSPoly_spec hP.2 hp (collect_spec _ _ _ _ h1 j hj)
    have hl : p.l ≤ 8 := by rcases param_cases hp with rfl | rfl | rfl <;> decide
    rwa [eb, show u8 j = j by unfold u8; omega] at this
  have c2 : ∀ i, i < p.k → IsSample (candHalf p.eta (P.shake256 (bytes H 32 64 ++ [p.l + i, 0]))) (s2 i) := by
    intro i hi
    have := expandSPoly_spec hP.2 hp (collect_spec _ _ _ _ h2 i hi)
    have hl : p.l ≤ 8 ∧ p.k ≤ 8 := by rcases param_cases hp with rfl | rfl | rfl <;> decide
    rwa [eb, show u8 (p.l + i) = p.l + i by unfold u8; omega] at this
  have r1 : ∀ i, i < p.l → ∀ x, x < 256 → |s1 i x| ≤ (p.eta : Int) := fun i hi x hx => candHalf_range (c1 i hi) x hx
  have r2 : ∀ i, i < p.k → ∀ x, x < 256 → |s2 i x| ≤ (p.eta : Int) := fun i hi x hx => candHalf_range (c2 i hi) x hx
  have hrow : ∀ i, i < p.k → _ := fun i hi => computeT_spec hP.1 hp (fun i hi x hx => abs_small hp (r1 i hi x hx))
    (fun x hx => abs_small hp (r2 i hi x hx)) (collect_spec _ _ _ _ h3 i hi)
  have ht : ∀ i, i < p.k → ∀ x, x < 256 → 0 ≤ t i x ∧ t i x < 8380417 := fun i hi => by
    obtain ⟨row, _, h, _⟩ := hrow i hi; exact h
  obtain ⟨A, hA⟩ := collect_some (fun _ => zeroPoly) (expandRow P p fuel H) p.k (fun i hi => by
    obtain ⟨row, h, _⟩ := hrow i hi; exact ⟨row, h⟩)
  have hAi := collect_spec _ _ _ _ hA
  obtain ⟨q1, q2, q3, q4, q5, q6⟩ := sk_roundtrip hp prv H (fun n => H (96 + n)) (P.shake256 (bytes pk 0 p.pubLen)) s1 s2
    (fun i x => (Mldsa.power2Round (t i x)).2) r1 r2 (fun i hi x hx => (power2Round_range (t i x) (ht i hi x hx)).2.1) (skDecode p sk) (by rw [e2])
  have hpk := pubkey_roundtrip p pub H (fun i x => (Mldsa.power2Round (t i x)).1) (fun i hi x hx => (power2Round_range (t i x) (ht i hi x hx)).1)
  rw [← e1] at hpk
  have p2 : ∀ i, i < p.k → ∀ x, x < 256 → Mldsa.power2Round (t i x) = Spec.power2Round (t i x) := fun i hi x hx => power2Round_fips _ (ht i hi x hx)
  refine ⟨A, s1, s2, t, fun i hi j hj => expandRow_spec hP.1 (hAi i hi) j hj, c1, c2, fun i hi => ?_, ?_, fun i hi => ?_, ?_, ?_, ?_, q4, q5, fun i hi x hx => ?_⟩
  · obtain ⟨row, g1, g2, g3⟩ := hrow i hi
    rw [hAi i hi, Option.some.injEq] at g1
    subst g1
    refine ⟨fun x => (t i x : Zq) - (s2 i x : Zq), ?_, fun x hx => ⟨(g2 x hx).1, (g2 x hx).2, by ring⟩⟩
    rw [isRowMul_iff]
    intro x hx
    rw [ntt_sub]
    have := g3 x hx
    show Spec.ntt (cz (t i)) x - Spec.ntt (cz (s2 i)) x = _
    rw [this]
    simp only [add_sub_cancel_right]
    rfl
  · exact bytes_ext (fun i hi => by rw [Nat.zero_add]; exact hpk.2.1 i hi)
  · have hpa := hpk.1 i hi
    have e : ∀ x, x < 256 → (Mldsa.power2Round (t i x)).1 = (Spec.power2Round (t i x)).1 := fun x hx => by rw [p2 i hi x hx]
    exact isPacked_congr (by decide) e ⟨fun x hx => (power2Round_range (t i x) (ht i hi x hx)).1, hpa⟩
  · exact bytes_ext (fun i hi => by rw [Nat.zero_add]; exact q1 i hi)
  · exact bytes_ext (fun i hi => by rw [Nat.zero_add]; exact q2 i hi)
  · exact bytes_ext (fun i hi => by rw [Nat.zero_add]; exact q3 i hi)
  · rw [q6 i hi x hx, p2 i hi x hx]

/-- **Signing** returns the signature of an accepted round of ML-DSA.Sign_internal; the counter of the round is a
multiple of `l`, as in the standard, as long as it fits in the two bytes it is hashed with. -/
theorem sign_fips {P : Prims} (hP : ByteStreams P) {p : Params} (hp : p ∈ paramTable) {f1 f2 rounds : Nat} {pk sk : Nat → Nat}
    (hk : GoodKey P p f1 pk sk) (msg : Msg) (rnd out buf : Nat → Nat) (hout : ∀ n, out n < 256) (hr : rounds * p.l ≤ 65536)
    {sig : Nat → Nat} (h : sign P p f2 rounds sk msg rnd out buf = some sig) :
    ∃ m, m < rounds ∧ IsSignature P p (skDecode p sk) msg rnd (m * p.l) sig := by
  have hk' := goodKey_mono (le_max_left f1 f2) hk
  have hs := mono_le (F := fun f => sign P p f rounds sk msg rnd out buf) (fun _ _ h => sign_mono h) (le_max_right f1 f2) h
  obtain ⟨A, t, K⟩ := goodKey_ok hP hp hk'
  obtain ⟨m, r, hm, hround, he⟩ := sign_round K.hA hs
  have hml : m * p.l + p.l ≤ 65536 := by
    have := Nat.mul_le_mul_right p.l (Nat.succ_le_of_lt hm)
    rw [Nat.succ_mul] at this
    omega
  have hl : 0 < p.l := by rcases param_cases hp with rfl | rfl | rfl <;> decide
  rw [Nat.mod_eq_of_lt (show m * p.l < 2 ^ 16 by norm_num; omega)] at hround
  obtain ⟨y, c, W, hy, hc, hW, hct, hz, g1, g2, hh⟩ := round_relations hP.1 hP.2 hp K msg rnd buf _ r hround
  obtain ⟨c', w, _, _, hzr, hhr, _, _⟩ := round_recover hP.1 hP.2 hp K msg rnd buf _ r hround
  have hg1 : 1 ≤ p.gamma1 - p.beta ∧ p.gamma1 - p.beta ≤ 2147483647 ∧ p.gamma1 - p.beta ≤ p.gamma1 ∧ p.beta ≤ p.gamma1 := by
    rcases param_cases hp with rfl | rfl | rfl <;> decide
  obtain ⟨sig', e', hsc, hsz, hsh, hsb⟩ := signature_roundtrip hp (put out 0 (cLen p) r.ct) (cLen p) r.z ((List.range p.k).map r.h)
    (fun i hi x hx => by have := abs_lt.1 (hz i hi x hx).2; omega) hhr
  rw [he, Option.some.injEq] at e'
  subst e'
  have hcb : bytes sig 0 (cLen p) = bytes r.ct 0 (cLen p) := by
    apply bytes_ext
    intro i hi
    rw [Nat.zero_add, hsc i hi]
    unfold put
    rw [if_pos ⟨Nat.zero_le _, by omega⟩, Nat.sub_zero]
  have hb : ∀ n, sig n < 256 := by
    intro n
    apply hsb n
    intro m
    unfold put
    split
    · rw [hct]; exact hP.2 _ _
    · exact hout m
  have hmask := mask_packed hP.2 hp (signEnv P p (skDecode p sk) A msg rnd).rho2 (m * p.l) hml
  refine ⟨m, hm, A, y, r.z, r.h, c, W, fun i hi j hj => expandRow_spec hP.1 (collect_spec _ _ _ _ K.hA i hi) j hj, ?_, hW, ?_, ?_, hz, g1, g2, hh, ?_⟩
  · rw [hy]
    cases msg <;> exact hmask
  · show bytes sig 0 (cLen p) = bytes _ 0 (cLen p)
    rw [hcb, hct, wb_eq hp]
    cases msg <;> rfl
  · show IsBall _ (P.shake256 (bytes sig 0 (cLen p))) _
    rw [hcb]; exact hc
  · rw [decodes_iff hp hb]
    refine ⟨fun i hi x hx => (hsz i hi x hx).symm, hsh, ?_⟩
    rw [checkAll_spec p.l _ _ ⟨hg1.1, by omega⟩]
    · intro i hi x hx
      rw [hsz i hi x hx, Nat.cast_sub hg1.2.2.2]
      exact (hz i hi x hx).2
    · intro i hi x hx
      rw [hsz i hi x hx]
      have := abs_lt.1 (hz i hi x hx).2
      omega

/-- **Products** computed with the transforms are products in `Z_q[X]/(X²⁵⁶ + 1)`, reduced to the centred range. -/
theorem ring_product (f g : Poly) (hf : ∀ x, x < 256 → |f x| < q) (hg : ∀ x, x < 256 → |g x| < q) (x : Nat) (hx : x < 256) :
    ((intt (vecMul (ntt f) (ntt g)) x : Int) : Zq) = ringMul (fun n => (f n : Zq)) (fun n => (g n : Zq)) x ∧
      |intt (vecMul (ntt f) (ntt g)) x| ≤ (q - 1) / 2 := by
  obtain ⟨h1, h2⟩ := prod_spec f g 8380416 8380416 (le_refl _) (le_refl _) (fun x hx => by have := hf x hx; unfold q at this; omega)
    (fun x hx => by have := hg x hx; unfold q at this; omega)
  refine ⟨?_, le_trans (h1 x hx) (by decide)⟩
  have := ntt_inj (f := cz (intt (vecMul (ntt f) (ntt g)))) (g := ringMul (cz f) (cz g)) (fun x hx => by rw [h2 x hx, ntt_mul]) x hx
  exact this

example : let f : Poly := fun x => if x = 255 then 3 else 0; let g : Poly := fun x => if x = 2 then -5 else 0
    (intt (vecMul (ntt f) (ntt g)) 1 : Zq) = 15 ∧ (intt (vecMul (ntt f) (ntt g)) 255 : Zq) = 0 := by
  have hf : ∀ x, x < 256 → |(fun x => if x = 255 then 3 else 0 : Poly) x| < q := by
    intro x _; simp only; split <;> decide
  have hg : ∀ x, x < 256 → |(fun x => if x = 2 then -5 else 0 : Poly) x| < q := by
    intro x _; simp only; split <;> decide
  refine ⟨?_, ?_⟩
  · rw [(ring_product _ _ hf hg 1 (by decide)).1]; decide +kernel
  · rw [(ring_product _ _ hf hg 255 (by decide)).1]; decide +kernel

/-- The forward transform is the one of FIPS 204 (Algorithm 41) and nothing overflows on the way. -/
theorem ntt_fips (f : Poly) (hf : ∀ x, x < 256 → |f x| < q) (x : Nat) (hx : x < 256) :
    ((ntt f x : Int) : Zq) = Spec.ntt (fun n => (f n : Zq)) x ∧ |ntt f x| ≤ 45000000 := by
  have := ntt_bound f 8380416 (le_refl _) (fun x hx => by have := hf x hx; unfold q at this; omega) x hx
  exact ⟨this.2, this.1⟩

/-- **The challenge times a secret is small**: with coefficients of the secret at most `η` the product, computed with the
transforms, is the product over the integers and at most `β = τη`. -/
theorem challenge_product {p : Params} (hp : p ∈ paramTable) {st : Nat → Nat} {c s : Poly} (hc : IsBall p.tau st c)
    (hs : ∀ x, x < 256 → |s x| ≤ (p.eta : Int)) (x : Nat) (hx : x < 256) :
    intt (vecMul (ntt c) (ntt s)) x = intMul c s x ∧ |intt (vecMul (ntt c) (ntt s)) x| ≤ (p.beta : Int) := by
  have e : p.tau ≤ 256 ∧ (p.tau : Int) * p.eta ≤ 4190208 ∧ (p.eta : Int) ≤ 8380416 ∧ (p.tau : Int) * p.eta = p.beta := by
    rcases param_cases hp with rfl | rfl | rfl <;> decide
  have := cs_exact e.1 hc p.eta (Int.natCast_nonneg _) e.2.1 e.2.2.1 hs x hx
  rwa [e.2.2.2] at this

/-- **The samplers** give exactly the polynomials of FIPS 204: the first 256 accepted candidates of the stream, and the
challenge; and they stop with an answer as soon as enough candidates have been seen. -/
theorem rejNtt_fips {st : Nat → Nat} (hst : ∀ n, st n < 256) (fuel : Nat) :
    (∀ a, rejNtt st fuel 0 0 (zeroPoly, 0) = some a → IsSample (cand3 st) a) ∧
    (256 ≤ (accepted (cand3 st) (4 * fuel)).length → ∃ a, rejNtt st fuel 0 0 (zeroPoly, 0) = some a) := by
  have h := rejNtt_spec hst fuel 0 0 (zeroPoly, 0) (Or.inl (by decide)) acc_nil
  simp only [Nat.mul_zero, Nat.zero_add] at h
  refine ⟨h.1, fun hl => ?_⟩
  match hr : rejNtt st fuel 0 0 (zeroPoly, 0) with
  | some a => exact ⟨a, rfl⟩
  | none => have := h.2 hr; omega

theorem rejBounded_fips {eta : Nat} (he : eta = 2 ∨ eta = 4) {st : Nat → Nat} (hst : ∀ n, st n < 256) (fuel : Nat) :
    (∀ a, rejBounded eta st fuel 0 0 (zeroPoly, 0) = some a → IsSample (candHalf eta st) a) ∧
    (256 ≤ (accepted (candHalf eta st) (2 * fuel)).length → ∃ a, rejBounded eta st fuel 0 0 (zeroPoly, 0) = some a) := by
  have h := rejBounded_spec he hst fuel 0 0 (zeroPoly, 0) (by decide) acc_nil
  simp only [Nat.mul_zero, Nat.zero_add] at h
  refine ⟨h.1, fun hl => ?_⟩
  match hr : rejBounded eta st fuel 0 0 (zeroPoly, 0) with
  | some a => exact ⟨a, rfl⟩
  | none => have := h.2 hr; omega

theorem sampleInBall_fips {P : Prims} (hP : ByteStreams P) {p : Params} (hp : p ∈ paramTable) {fuel : Nat} {seed : List Nat} {c : Poly}
    (h : sampleInBall P p fuel seed = some c) :
    IsBall p.tau (P.shake256 seed) c ∧ ∀ c', IsBall p.tau (P.shake256 seed) c' → c' = c := by
  have := sampleInBall_spec hP.2 (by rcases param_cases hp with rfl | rfl | rfl <;> decide) h
  exact ⟨this, fun c' h' => isBall_unique h' this⟩

/-- **The message encoding** separates its inputs: two encodings are equal only for the same mode, the same context and
the same message (or the same hash and digest). -/
theorem encode_separates (o o' : Opts) (oid ph data oid' ph' data' : List Nat) (m : List Nat) (hc : o.ctx.length ≤ 255)
    (hc' : o'.ctx.length ≤ 255) (ho : oid.length ≤ 255) (ho' : oid'.length ≤ 255)
    (h : encodeInput o oid ph data = some (.enc m)) (h' : encodeInput o' oid' ph' data' = some (.enc m)) :
    o.needPreHash = o'.needPreHash ∧ o.ctx = o'.ctx ∧ (o.needPreHash = false → data = data') ∧
      (o.needPreHash = true → oid = oid' ∧ ph = ph') := by
  have u : ∀ n, n ≤ 255 → u8 n = n := fun n hn => by unfold u8; omega
  unfold encodeInput at h h'
  rw [u _ hc, u _ ho] at h
  rw [u _ hc', u _ ho'] at h'
  have a1 : ∀ {a b c d : List Nat}, a.length = b.length → a ++ c = b ++ d → a = b ∧ c = d := fun hl he => List.append_inj he hl
  by_cases m1 : o.isMuMsg
  · rw [if_pos m1] at h; split at h <;> simp at h
  by_cases m2 : o'.isMuMsg
  · rw [if_pos m2] at h'; split at h' <;> simp at h'
  rw [if_neg m1] at h
  rw [if_neg m2] at h'
  split at h
  · simp at h
  split at h'
  · simp at h'
  cases hn : o.needPreHash <;> cases hn' : o'.needPreHash <;> rw [hn] at h <;> rw [hn'] at h' <;>
    simp only [Bool.false_eq_true, if_false, if_true, Option.some.injEq, Msg.enc.injEq, List.cons_append, List.nil_append, List.append_assoc] at h h' <;>
    rw [← h'] at h <;> simp only [List.cons.injEq] at h
  · obtain ⟨e1, e2⟩ := a1 h.2.1 h.2.2
    exact ⟨rfl, e1, fun _ => e2, fun h => by simp at h⟩
  · omega
  · omega
  · obtain ⟨e1, e2⟩ := a1 h.2.1 h.2.2
    simp only [List.cons.injEq] at e2
    obtain ⟨e3, e4⟩ := a1 e2.2.1 e2.2.2
    exact ⟨rfl, e1, fun h => by simp at h, fun _ => ⟨e3, e4⟩⟩

example : encodeInput ⟨false, false, [1, 2]⟩ [] [] [3] = some (.enc [0, 2, 1, 2, 3]) ∧
    encodeInput ⟨false, true, [1]⟩ [96, 134] [9, 9] [3] = some (.enc [1, 1, 1, 6, 2, 96, 134, 9, 9]) := by
  simp [encodeInput, u8]

/-- A message that is already `μ` is taken as such, and only if it has 64 bytes. -/
theorem encode_mu (o : Opts) (hm : o.isMuMsg = true) (oid ph data : List Nat) :
    encodeInput o oid ph data = if data.length = 64 then some (.mu data) else none := by
  unfold encodeInput
  rw [if_pos hm]
  by_cases h : data.length = 64 <;> simp [h]

/-! ## A run

With the streams of `SignDemo` the whole chain runs: a key pair is generated, a message is signed in the first round,
and the signature verifies. -/

theorem demo_streams : ByteStreams demoPrims := ⟨demo1, demo2⟩

theorem demo_run (d pub prv : Nat → Nat) (m : List Nat) (hm : m.length = 64) (rnd out buf : Nat → Nat) :
    ∃ pk sk sig, GoodKey demoPrims mldsa44 256 pk sk ∧ sign demoPrims mldsa44 256 1 sk (.mu m) rnd out buf = some sig := by
  obtain ⟨pk, sk, hk, h1, h2⟩ := demo_key d pub prv
  obtain ⟨A, t, K⟩ := keyGen_ok demo1 demo2 in44 hk
  obtain ⟨r, hr⟩ := demo_round K h1 h2 m hm rnd buf 0
  obtain ⟨sig, hs, _⟩ := sign_verify demo1 demo2 in44 K (.mu m) rnd buf out 0 r hr
  refine ⟨pk, sk, sig, Or.inl ⟨d, pub, prv, hk⟩, ?_⟩
  unfold sign
  simp only
  rw [K.hA]
  simp only
  have : signLoop demoPrims mldsa44 256 (signEnv demoPrims mldsa44 (skDecode mldsa44 sk) A (.mu m) rnd) buf 1 0 = some r := by
    unfold signLoop
    rw [hr]
  rw [this]
  exact hs

example : ∃ pk sk sig, sign demoPrims mldsa44 256 1 sk (.mu (List.replicate 64 5)) (fun n => n) (fun _ => 0) (fun _ => 0) = some sig ∧
    verify demoPrims mldsa44 256 pk (.mu (List.replicate 64 5)) sig (fun _ => 1) = some .success ∧
    (∃ m, m < 1 ∧ IsSignature demoPrims mldsa44 (skDecode mldsa44 sk) (.mu (List.replicate 64 5)) (fun n => n) (m * 4) sig) := by
  obtain ⟨pk, sk, sig, hk, hs⟩ := demo_run (fun n => n) (fun _ => 0) (fun _ => 0) (List.replicate 64 5) (by decide) (fun n => n) (fun _ => 0) (fun _ => 0)
  exact ⟨pk, sk, sig, hs, (sign_then_verify demo_streams in44 hk _ _ _ _ _ hs).1 256 (le_refl _) (le_refl _),
    sign_fips demo_streams in44 hk _ _ _ _ (fun _ => by decide) (by decide) hs⟩

example : ∃ pk sk, IsKeyPair demoPrims mldsa44 (fun n => n) pk (skDecode mldsa44 sk) := by
  obtain ⟨pk, sk, hk, _⟩ := demo_key (fun n => n) (fun _ => 0) (fun _ => 0)
  exact ⟨pk, sk, keyGen_fips demo_streams in44 hk⟩

end Verif.Crypto.Mldsa
