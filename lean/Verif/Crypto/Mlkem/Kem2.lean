import Verif.Crypto.Mlkem.Kem
/-! Key generation, decoding of keys, encapsulation and decapsulation. -/
namespace Verif.Crypto.Mlkem
open Finset Spec

theorem addQ_canon (a : Poly) (x : Nat) (h : |a x| ≤ 3328) : addQ a x = canon a x := by
  have hr := canon_range a x h
  unfold addQ canon q at *
  split
  · next hn => rw [if_pos hn] at hr; exact i16_id (by omega)
  · next hn => rw [if_neg hn] at hr; rw [Int.add_zero]; exact i16_id (by omega)

theorem cz_addQ (a : Poly) (x : Nat) (h : |a x| ≤ 3328) : cz (addQ a) x = cz a x := by
  rw [← congrFun (canon_cz a) x]
  unfold cz
  rw [addQ_canon a x h]

theorem genMatrix_spec {P : Prims} {k fuel : Nat} {rho : Nat → Nat} {a : Nat → Nat → Poly}
    (h : genMatrix P k fuel rho = some a) (i j : Nat) (hi : i < k) (hj : j < k) : matrixEntry P fuel rho i j = some (a i j) := by
  unfold genMatrix at h
  split at h
  · next hs =>
    rw [Option.some.injEq] at h
    rw [← h]
    obtain ⟨v, hv⟩ := Option.isSome_iff_exists.mp (hs i hi j hj)
    simp only [hv]
  · cases h

theorem genMatrix_congr {P : Prims} {k fuel : Nat} {rho rho' : Nat → Nat} (h : ∀ n, n < 32 → rho n = rho' n) :
    genMatrix P k fuel rho = genMatrix P k fuel rho' := by
  have hb : bytes rho 0 32 = bytes rho' 0 32 := by
    unfold bytes
    refine List.map_congr_left fun n hn => ?_
    rw [Nat.zero_add]
    exact h n (by simpa using hn)
  unfold genMatrix matrixEntry
  rw [hb]

theorem bytes_congr {a b : Nat → Nat} {o o' n : Nat} (h : ∀ i, i < n → a (o + i) = b (o' + i)) : bytes a o n = bytes b o' n := by
  unfold bytes
  exact List.map_congr_left fun i hi => h i (by simpa using hi)

theorem bytes_eq {a b : Nat → Nat} {o o' n : Nat} (h : bytes a o n = bytes b o' n) (i : Nat) (hi : i < n) :
    a (o + i) = b (o' + i) := by
  have := congrArg (fun l => l[i]?) h
  simpa [bytes, hi] using this

/-- What key generation writes. -/
structure Generated (P : Prims) (p : Params) (fuel : Nat) (d z ek dk : Nat → Nat) (key : KeyData) : Prop where
  /-- The matrix comes from the XOF on the seed. -/
  mat : ∀ i, i < p.k → ∀ j, j < p.k → matrixEntry P fuel (P.G (bytes d 0 32 ++ [p.k])) i j = some (key.a i j)
  /-- The working key belongs to the sampled secret and error. -/
  rep : ∀ A : Nat → Nat → Nat → Zq, (∀ i, i < p.k → ∀ j, j < p.k → ∀ x, x < 256 → Spec.ntt (A i j) x = cz (key.a i j) x) →
    Represents p.k key A (genS P p fun n => P.G (bytes d 0 32 ++ [p.k]) (32 + n)) (genE P p fun n => P.G (bytes d 0 32 ++ [p.k]) (32 + n))
  /-- `ek = ByteEncode12(t) ‖ rho`. -/
  ekT : ∀ i, i < p.k → PackedBits 12 (fun x => (key.t i x).toNat) (fun n => ek (384 * i + n))
  ekRho : ∀ n, n < 32 → ek (384 * p.k + n) = P.G (bytes d 0 32 ++ [p.k]) n
  ekByte : ∀ n, ek n < 256
  /-- `dk = ByteEncode12(s) ‖ ek ‖ H(ek) ‖ z`. -/
  dkS : ∀ i, i < p.k → PackedBits 12 (fun x => (key.s i x).toNat) (fun n => dk (384 * i + n))
  dkEk : ∀ n, n < 384 * p.k + 32 → dk (384 * p.k + n) = ek n
  dkH : ∀ n, n < 32 → dk (768 * p.k + 32 + n) = P.H (bytes ek 0 (384 * p.k + 32)) n
  dkZ : ∀ n, n < 32 → dk (768 * p.k + 64 + n) = z n
  dkByte : ∀ n, n < 384 * p.k → dk n < 256

theorem encVec_packed (v : Nat → Poly) (i : Nat) (h : ∀ x, x < 256 → |v i x| ≤ 3328) :
    PackedBits 12 (fun x => (addQ (v i) x).toNat) (fun n => encVec v (384 * i + n)) := by
  obtain ⟨r, hr, _, hp⟩ := byteEncode12_spec (v i) h
  intro idx b hi hb
  show (encVec v (384 * i + idx)).testBit b = _
  have e : encVec v (384 * i + idx) = r idx := by
    unfold encVec
    rw [show (384 * i + idx) / 384 = i by omega, show (384 * i + idx) % 384 = idx by omega]
    unfold byteEncode at hr
    simp only [Option.some.injEq] at hr
    rw [← hr]
  rw [e]
  exact packed_shift (g := fun x => (addQ (v i) x).toNat) (by decide) (fun x hx => by rw [addQ_canon _ x (h x hx)]) hp idx b hi hb

theorem encVec_byte (v : Nat → Poly) (n : Nat) : encVec v n < 256 := (enc_bytes _ _).2.2.2.2.2

theorem matrix_range {P : Prims} (hP : P.Ok) {fuel : Nat} {rho : Nat → Nat} {i j : Nat} {a : Poly}
    (h : matrixEntry P fuel rho i j = some a) (x : Nat) (hx : x < 256) : 0 ≤ a x ∧ a x < 3329 := by
  obtain ⟨v, h1, h2, _⟩ := (matrixEntry_spec hP fuel rho i j).1 a h x hx
  omega

theorem keyGen_spec {P : Prims} (hP : P.Ok) {p : Params} (hp : p ∈ paramTable) {fuel : Nat} {d z ek dk : Nat → Nat}
    {key : KeyData} (h : keyGen P p fuel d z = some (ek, dk, key)) : Generated P p fuel d z ek dk key := by
  obtain ⟨hk, _, _, _, he1, _⟩ := param_cases hp
  unfold keyGen at h
  obtain ⟨a, hm, h⟩ := Option.map_eq_some_iff.mp h
  generalize hst : pkeGen p.k a (genS P p fun n => P.G (bytes d 0 32 ++ [p.k]) (32 + n))
    (genE P p fun n => P.G (bytes d 0 32 ++ [p.k]) (32 + n)) = st at h
  simp only [Prod.mk.injEq] at h
  obtain ⟨rfl, rfl, rfl⟩ := h
  have hent := fun i j hi hj => genMatrix_spec hm i j hi hj
  have hprf : ∀ seed nonce n, prf P seed nonce n < 256 := fun _ _ _ => hP.j _ _
  have hgen := fun i x hi hx => pkeGen_spec p.k hk a (genS P p fun n => P.G (bytes d 0 32 ++ [p.k]) (32 + n))
    (genE P p fun n => P.G (bytes d 0 32 ++ [p.k]) (32 + n))
    (fun i j hi hj x hx => abs_of_pos (matrix_range hP (hent i j hi hj) x hx))
    (fun i _ x _ => cbdPoly_range _ he1 _ (hprf _ _) x) (fun i _ x _ => cbdPoly_range _ he1 _ (hprf _ _) x) i x hi hx
  rw [hst] at hgen
  have hs : ∀ i, i < p.k → ∀ x, x < 256 → |st.1 i x| ≤ 3328 := fun i hi x hx => le_trans (hgen i x hi hx).1 (by decide)
  have ht : ∀ i, i < p.k → ∀ x, x < 256 → |st.2 i x| ≤ 3328 := fun i hi x hx => le_trans (hgen i x hi hx).2.2.1 (by decide)
  have hek : ∀ n, ekBytes p.k st.2 (P.G (bytes d 0 32 ++ [p.k])) n < 256 := by
    intro n
    unfold ekBytes
    split
    · exact encVec_byte _ _
    · exact hP.g _ _
  refine ⟨fun i hi j hj => hent i j hi hj, fun A hA => ⟨fun i hi j hj x hx => ⟨matrix_range hP (hent i j hi hj) x hx, hA i hi j hj x hx⟩,
    fun i hi x hx => ?_, fun i hi x hx => ?_⟩, fun i hi => ?_, fun n hn => ?_, hek, fun i hi => ?_, fun n hn => ?_,
    fun n hn => ?_, fun n hn => ?_, fun n hn => ?_⟩
  · obtain ⟨h1, h2, _⟩ := hgen i x hi hx
    refine ⟨?_, ?_⟩
    · show 0 ≤ addQ (st.1 i) x ∧ addQ (st.1 i) x < 3329
      rw [addQ_canon _ x (hs i hi x hx)]
      exact canon_range _ _ (hs i hi x hx)
    · show _ = cz (addQ (st.1 i)) x
      rw [cz_addQ _ x (hs i hi x hx), h2]
  · obtain ⟨_, _, h1, h2⟩ := hgen i x hi hx
    refine ⟨?_, ?_⟩
    · show 0 ≤ addQ (st.2 i) x ∧ addQ (st.2 i) x < 3329
      rw [addQ_canon _ x (ht i hi x hx)]
      exact canon_range _ _ (ht i hi x hx)
    · show cz (addQ (st.2 i)) x = _
      rw [cz_addQ _ x (ht i hi x hx), h2]
  · intro idx b hidx hb
    show (ekBytes p.k st.2 _ (384 * i + idx)).testBit b = _
    unfold ekBytes
    rw [if_pos (by omega)]
    exact encVec_packed st.2 i (ht i hi) idx b hidx hb
  · unfold ekBytes
    rw [if_neg (by omega), Nat.add_sub_cancel_left]
  · intro idx b hidx hb
    show (dkBytes P p.k st.1 _ z (384 * i + idx)).testBit b = _
    unfold dkBytes
    rw [if_pos (by omega)]
    exact encVec_packed st.1 i (hs i hi) idx b hidx hb
  · unfold dkBytes
    rw [if_neg (by omega), if_pos (by omega), Nat.add_sub_cancel_left]
  · unfold dkBytes
    rw [if_neg (by omega), if_neg (by omega), if_pos (by omega)]
    congr 1
    omega
  · unfold dkBytes
    rw [if_neg (by omega), if_neg (by omega), if_neg (by omega)]
    congr 1
    omega
  · unfold dkBytes
    rw [if_pos hn]
    exact encVec_byte _ _

/-- Decoding a packed vector gives it back. -/
theorem decodeVec_packed (k : Nat) (b : Nat → Nat) (hb : ∀ n, n < 384 * k → b n < 256) (v : Nat → Poly)
    (hv : ∀ i, i < k → ∀ x, x < 256 → 0 ≤ v i x ∧ v i x < 3329)
    (hp : ∀ i, i < k → PackedBits 12 (fun x => (v i x).toNat) (fun n => b (384 * i + n))) :
    ∃ w, decodeVec k b = some w ∧ ∀ i, i < k → ∀ x, x < 256 → w i x = v i x := by
  have h1 : ∀ i, i < k → ∃ f, decodeBits12 (fun n => b (384 * i + n)) = some f ∧ ∀ x, x < 256 → f x = v i x := by
    intro i hi
    obtain ⟨s1, s2⟩ := decodeBits12_spec (fun n => b (384 * i + n)) (fun n hn => hb _ (by omega))
    cases hd : decodeBits12 (fun n => b (384 * i + n)) with
    | none =>
      refine absurd ⟨fun x => (v i x).toNat, fun x hx => ?_, hp i hi⟩ (s2 hd)
      have := hv i hi x hx
      show (v i x).toNat < 3329
      omega
    | some f =>
      refine ⟨f, rfl, fun x hx => ?_⟩
      obtain ⟨p1, p2⟩ := s1 f hd
      have := packed_unique (by decide)
        (fun m hm => (by have := p1 m hm; omega : (f m).toNat < 2 ^ 12))
        (fun m hm => (by have := hv i hi m hm; omega : (v i m).toNat < 2 ^ 12)) p2 (hp i hi) x hx
      have := p1 x hx
      have := hv i hi x hx
      omega
  refine ⟨_, if_pos fun i hi => ?_, fun i hi x hx => ?_⟩
  · obtain ⟨f, hf, _⟩ := h1 i hi
    rw [hf]; rfl
  · obtain ⟨f, hf, hx'⟩ := h1 i hi
    simp only [hf]
    exact hx' x hx

/-- `decodeVec` accepts exactly the packings of residues. -/
theorem decodeVec_spec (k : Nat) (b : Nat → Nat) (hb : ∀ n, n < 384 * k → b n < 256) :
    (∀ v, decodeVec k b = some v → ∀ i, i < k → (∀ x, x < 256 → 0 ≤ v i x ∧ v i x < 3329) ∧
      PackedBits 12 (fun x => (v i x).toNat) (fun n => b (384 * i + n))) ∧
    (decodeVec k b = none → ∃ i, i < k ∧
      ¬ ∃ f : Nat → Nat, (∀ x, x < 256 → f x < 3329) ∧ PackedBits 12 f (fun n => b (384 * i + n))) := by
  unfold decodeVec
  constructor
  · intro v h i hi
    split at h
    · next hs =>
      rw [Option.some.injEq] at h
      obtain ⟨f, hf⟩ := Option.isSome_iff_exists.mp (hs i hi)
      have e : v i = f := by rw [← h]; simp only [hf]
      rw [e]
      exact (decodeBits12_spec (fun n => b (384 * i + n)) (fun n hn => hb _ (by omega))).1 f hf
    · cases h
  · intro h
    split at h
    · cases h
    · next hs =>
      simp only [not_forall] at hs
      obtain ⟨i, hi, hn⟩ := hs
      refine ⟨i, hi, (decodeBits12_spec (fun n => b (384 * i + n)) (fun n hn => hb _ (by omega))).2 ?_⟩
      simpa using hn

/-- Importing the generated encapsulation key gives the working key back. -/
theorem decodeEk_generated {P : Prims} {p : Params} {fuel : Nat} {d z ek dk ek' : Nat → Nat} {key : KeyData}
    (h : Generated P p fuel d z ek dk key) (hP : P.Ok) (he : ∀ n, n < 384 * p.k + 32 → ek' n = ek n) :
    ∃ a t, decodeEk P p fuel ek' = some (a, t) ∧
      (∀ i, i < p.k → ∀ j, j < p.k → ∀ x, x < 256 → a i j x = key.a i j x) ∧ ∀ i, i < p.k → ∀ x, x < 256 → t i x = key.t i x := by
  obtain ⟨A, hA⟩ : ∃ A : Nat → Nat → Nat → Zq, ∀ i j, ∀ x, x < 256 → Spec.ntt (A i j) x = cz (key.a i j) x :=
    ⟨fun i j => Classical.choose (ntt_surj (cz (key.a i j))), fun i j => Classical.choose_spec (ntt_surj (cz (key.a i j)))⟩
  have hrep := h.rep A (fun i _ j _ => hA i j)
  have hm : genMatrix P p.k fuel (fun n => ek' (384 * p.k + n)) = genMatrix P p.k fuel (P.G (bytes d 0 32 ++ [p.k])) :=
    genMatrix_congr fun n hn => by rw [he _ (by omega)]; exact h.ekRho n hn
  have hsome : ∃ a, genMatrix P p.k fuel (P.G (bytes d 0 32 ++ [p.k])) = some a := by
    refine ⟨_, if_pos fun i hi j hj => ?_⟩
    rw [h.mat i hi j hj]; rfl
  obtain ⟨a, ha⟩ := hsome
  obtain ⟨t, ht, htx⟩ := decodeVec_packed p.k ek' (fun n hn => by rw [he n (by omega)]; exact h.ekByte n) key.t
    (fun i hi x hx => (hrep.ht i hi x hx).1) (fun i hi idx b hidx hb => by
      show (ek' (384 * i + idx)).testBit b = _
      rw [he _ (by omega)]; exact h.ekT i hi idx b hidx hb)
  refine ⟨a, t, ?_, fun i hi j hj x hx => ?_, htx⟩
  · unfold decodeEk
    rw [hm, ha, Option.bind_some, ht, Option.map_some]
  · have := genMatrix_spec ha i j hi hj
    rw [h.mat i hi j hj, Option.some.injEq] at this
    rw [this]

/-- Importing the generated decapsulation key gives the working key back. -/
theorem decodeDk_generated {P : Prims} {p : Params} {fuel : Nat} {d z ek dk dk' : Nat → Nat} {key : KeyData}
    (h : Generated P p fuel d z ek dk key) (hP : P.Ok) (he : ∀ n, n < 768 * p.k + 32 → dk' n = dk n) :
    ∃ key', decodeDk P p fuel dk' = some key' ∧
      (∀ i, i < p.k → ∀ j, j < p.k → ∀ x, x < 256 → key'.a i j x = key.a i j x) ∧
      (∀ i, i < p.k → ∀ x, x < 256 → key'.s i x = key.s i x) ∧ ∀ i, i < p.k → ∀ x, x < 256 → key'.t i x = key.t i x := by
  obtain ⟨A, hA⟩ : ∃ A : Nat → Nat → Nat → Zq, ∀ i j, ∀ x, x < 256 → Spec.ntt (A i j) x = cz (key.a i j) x :=
    ⟨fun i j => Classical.choose (ntt_surj (cz (key.a i j))), fun i j => Classical.choose_spec (ntt_surj (cz (key.a i j)))⟩
  have hrep := h.rep A (fun i _ j _ => hA i j)
  obtain ⟨a, t, h1, h2, h3⟩ := decodeEk_generated (ek' := fun n => dk' (384 * p.k + n)) h hP
    (fun n hn => by rw [he _ (by omega)]; exact h.dkEk n hn)
  obtain ⟨s, hs, hsx⟩ := decodeVec_packed p.k dk' (fun n hn => by rw [he n (by omega)]; exact h.dkByte n hn) key.s
    (fun i hi x hx => (hrep.hs i hi x hx).1) (fun i hi idx b hidx hb => by
      show (dk' (384 * i + idx)).testBit b = _
      rw [he _ (by omega)]; exact h.dkS i hi idx b hidx hb)
  refine ⟨⟨a, s, t⟩, ?_, h2, hsx, h3⟩
  unfold decodeDk
  rw [hs, Option.bind_some, h1, Option.map_some]

theorem Represents.of_eq {k : Nat} {key key' : KeyData} {A : Nat → Nat → Nat → Zq} {s e : Nat → Poly}
    (h : Represents k key A s e) (ha : ∀ i, i < k → ∀ j, j < k → ∀ x, x < 256 → key'.a i j x = key.a i j x)
    (hs : ∀ i, i < k → ∀ x, x < 256 → key'.s i x = key.s i x) (ht : ∀ i, i < k → ∀ x, x < 256 → key'.t i x = key.t i x) :
    Represents k key' A s e := by
  have hcz : ∀ {f g : Poly}, (∀ x, x < 256 → f x = g x) → ∀ x, x < 256 → cz f x = cz g x :=
    fun h x hx => by unfold cz; rw [h x hx]
  refine ⟨fun i hi j hj x hx => ?_, fun i hi x hx => ?_, fun i hi x hx => ?_⟩
  · rw [ha i hi j hj x hx, hcz (ha i hi j hj) x hx]; exact h.ha i hi j hj x hx
  · rw [hs i hi x hx, hcz (hs i hi) x hx]; exact h.hs i hi x hx
  · rw [ht i hi x hx, hcz (ht i hi) x hx]
    refine ⟨(h.ht i hi x hx).1, ?_⟩
    rw [(h.ht i hi x hx).2]
    have hsum : ∑ j ∈ range k, pairMul (cz (key'.a i j)) (Spec.ntt (cz (s j))) x =
        ∑ j ∈ range k, pairMul (cz (key.a i j)) (Spec.ntt (cz (s j))) x :=
      sum_congr rfl fun j hj => pairMul_congr' x hx (hcz (ha i hi j (by simpa using hj)))
    rw [hsum]

/-! ## Decapsulation -/

theorem xor_byte {a b : Nat} (ha : a < 256) (hb : b < 256) : a ^^^ b < 256 := Nat.xor_lt_two_pow (n := 8) ha hb

theorem xor_zero {a b : Nat} : a ^^^ b = 0 ↔ a = b := by
  constructor
  · intro h
    have : a ^^^ b ^^^ b = b := by rw [h, Nat.zero_xor]
    rwa [Nat.xor_assoc, Nat.xor_self, Nat.xor_zero] at this
  · rintro rfl; exact Nat.xor_self a

theorem diffMask_spec (ct c : Nat → Nat) (newCt : Nat → Option Nat) (n : Nat) (h1 : ∀ i, i < n → ct i < 256)
    (h2 : ∀ i, i < n → newCt i = some (c i)) (h3 : ∀ i, c i < 256) :
    ∃ mask, diffMask ct newCt n = some mask ∧ mask < 256 ∧ (mask = 0 ↔ ∀ i, i < n → ct i = c i) := by
  induction n with
  | zero => exact ⟨0, rfl, by decide, by simp⟩
  | succ n ih =>
    obtain ⟨mask, e, hlt, hiff⟩ := ih (fun i hi => h1 i (by omega)) (fun i hi => h2 i (by omega))
    refine ⟨mask ||| (ct n ^^^ c n), ?_, ?_, ?_⟩
    · simp only [diffMask, e, h2 n (by omega)]
    · exact Nat.or_lt_two_pow (n := 8) hlt (xor_byte (h1 n (by omega)) (h3 n))
    · rw [Nat.or_eq_zero_iff, hiff, xor_zero]
      constructor
      · rintro ⟨ha, hb⟩ i hi
        rcases Nat.lt_succ_iff_lt_or_eq.mp hi with h | rfl
        · exact ha i h
        · exact hb
      · intro h
        exact ⟨fun i hi => h i (by omega), h n (by omega)⟩

theorem and255 (x : Nat) (h : x < 256) : x &&& 255 = x := by
  rw [show (255 : Nat) = 2 ^ 8 - 1 by decide, Nat.and_two_pow_sub_one_eq_mod]
  exact Nat.mod_eq_of_lt h

/-- The selection at the end of decapsulation. -/
theorem select (mask : Nat) (h : mask < 256) (a b : Nat) (ha : a < 256) (hb : b < 256) :
    (let mm := (((mask : Int) - 1) / 2 ^ 8 % 2 ^ 8).toNat
     (a &&& mm) ||| (b &&& (255 - mm))) = if mask = 0 then a else b := by
  simp only
  split
  · next h0 =>
    subst h0
    rw [show (((0 : Nat) : Int) - 1) / 2 ^ 8 % 2 ^ 8 = 255 by norm_num]
    show a &&& 255 ||| (b &&& 0) = a
    rw [and255 a ha, Nat.and_zero, Nat.or_zero]
  · next h0 =>
    have : (((mask : Int) - 1) / 2 ^ 8 % 2 ^ 8) = 0 := by norm_num; omega
    rw [this]
    show a &&& 0 ||| (b &&& 255) = b
    rw [and255 b hb, Nat.and_zero, Nat.zero_or]

/-- The working key has reduced coefficients. -/
structure KeyData.Reduced (k : Nat) (key : KeyData) : Prop where
  a : ∀ i j, i < k → j < k → ∀ x, x < 256 → 0 ≤ key.a i j x ∧ key.a i j x < 3329
  s : ∀ i, i < k → ∀ x, x < 256 → 0 ≤ key.s i x ∧ key.s i x < 3329
  t : ∀ i, i < k → ∀ x, x < 256 → 0 ≤ key.t i x ∧ key.t i x < 3329

theorem exists_A (key : KeyData) : ∃ A : Nat → Nat → Nat → Zq, ∀ i j, ∀ x, x < 256 → Spec.ntt (A i j) x = cz (key.a i j) x :=
  ⟨fun i j => Classical.choose (ntt_surj (cz (key.a i j))), fun i j => Classical.choose_spec (ntt_surj (cz (key.a i j)))⟩

theorem exists_v (v : Nat → Poly) : ∃ T : Nat → Nat → Zq, ∀ i, ∀ x, x < 256 → Spec.ntt (T i) x = cz (v i) x :=
  ⟨fun i => Classical.choose (ntt_surj (cz (v i))), fun i => Classical.choose_spec (ntt_surj (cz (v i)))⟩

/-- Encryption always writes the whole ciphertext. -/
theorem pkeEncrypt_total {P : Prims} (hP : P.Ok) {p : Params} (hp : p ∈ paramTable) (key : KeyData) (hk : key.Reduced p.k)
    (m r : Nat → Nat) : ∃ c : Nat → Nat, (∀ n, n < cipherLen p → pkeEncrypt P p key m r n = some (c n)) ∧ ∀ n, c n < 256 := by
  obtain ⟨A, hA⟩ := exists_A key
  obtain ⟨T, hT⟩ := exists_v key.t
  have hU : ∀ i, ∃ g : Nat → Int, el (cz g) = ∑ j ∈ range p.k, el (A j i) * el (cz (encY P p r j)) + el (cz (encE1 P p r i)) :=
    fun i => el_sum_surj p.k (fun j => A j i) (fun j => cz (encY P p r j)) _
  obtain ⟨U, hU⟩ := Classical.axiomOfChoice hU
  obtain ⟨V, hV⟩ := el_sum_surj p.k T (fun j => cz (encY P p r j)) (fun x => cz (encE2 P p r) x + cz (messagePoly m) x)
  rw [el_add, ← add_assoc] at hV
  obtain ⟨c, h1, h2, _⟩ := pkeEncrypt_spec hP hp key m r A T hk.a hk.t (fun i j _ _ => hA i j) (fun i _ => hT i) U V
    (fun i _ => hU i) hV
  exact ⟨c, h1, h2⟩

/-- Decryption is defined on every byte string. -/
theorem pkeDecrypt_total {p : Params} (hp : p ∈ paramTable) (key : KeyData) (hk : key.Reduced p.k)
    (ct : Nat → Nat) (hct : ∀ n, n < cipherLen p → ct n < 256) : ∃ m, pkeDecrypt p key ct = some m ∧ ∀ n, m n < 256 := by
  obtain ⟨S, hS⟩ := exists_v key.s
  obtain ⟨h, hh⟩ := el_sum_surj p.k S (fun j => cz (decodeDecompress p.du (fun n => ct (32 * p.du * j + n)))) (fun _ => 0)
  have h0 : el (fun _ => (0 : Zq)) = 0 := by
    have := el_sub (fun _ => (0 : Zq)) (fun _ => 0)
    simpa using this
  rw [h0, add_zero] at hh
  obtain ⟨m, h1, h2, _⟩ := pkeDecrypt_spec hp key hk.s ct hct S (fun j _ => hS j)
    (fun x => decodeDecompress p.dv (fun n => ct (32 * p.du * p.k + n)) x - h x) (by
      rw [← hh, ← el_sub]
      exact el_congr fun x _ => by unfold cz; push_cast; rfl)
  exact ⟨m, h1, h2⟩

/-- Decapsulation: the outcome for every key and ciphertext. -/
theorem decaps_spec {P : Prims} (hP : P.Ok) {p : Params} (hp : p ∈ paramTable) (key : KeyData) (hk : key.Reduced p.k)
    (dk ct : Nat → Nat) (hct : ∀ n, n < cipherLen p → ct n < 256) :
    (bytes dk (768 * p.k + 32) 32 ≠ bytes (P.H (bytes dk (384 * p.k) (384 * p.k + 32))) 0 32 ∧ decaps P p key dk ct = .invalidKey) ∨
    (bytes dk (768 * p.k + 32) 32 = bytes (P.H (bytes dk (384 * p.k) (384 * p.k + 32))) 0 32 ∧
      ∃ m c sk : Nat → Nat, pkeDecrypt p key ct = some m ∧
        (∀ n, n < cipherLen p → pkeEncrypt P p key m (fun n => P.G (bytes m 0 32 ++ bytes dk (768 * p.k + 32) 32) (32 + n)) n = some (c n)) ∧
        decaps P p key dk ct = .key sk ∧
        ∀ i, i < 32 → sk i = (if ∀ n, n < cipherLen p → ct n = c n then P.G (bytes m 0 32 ++ bytes dk (768 * p.k + 32) 32) i
          else P.J (bytes dk (768 * p.k + 64) 32 ++ bytes ct 0 (cipherLen p)) i)) := by
  have e1 : 384 * p.k + (384 * p.k + 32) = 768 * p.k + 32 := by ring
  have e2 : 768 * p.k + 32 + 32 = 768 * p.k + 64 := by ring
  by_cases hh : bytes dk (768 * p.k + 32) 32 = bytes (P.H (bytes dk (384 * p.k) (384 * p.k + 32))) 0 32
  · right
    refine ⟨hh, ?_⟩
    obtain ⟨m, hm, _⟩ := pkeDecrypt_total hp key hk ct hct
    obtain ⟨c, hc, hcb⟩ := pkeEncrypt_total hP hp key hk m (fun n => P.G (bytes m 0 32 ++ bytes dk (768 * p.k + 32) 32) (32 + n))
    obtain ⟨mask, hmask, hlt, hiff⟩ := diffMask_spec ct c _ (cipherLen p) hct hc hcb
    refine ⟨m, c, fun i => (P.G (bytes m 0 32 ++ bytes dk (768 * p.k + 32) 32) i &&& (((mask : Int) - 1) / 2 ^ 8 % 2 ^ 8).toNat) |||
      (P.J (bytes dk (768 * p.k + 64) 32 ++ bytes ct 0 (cipherLen p)) i &&& (255 - (((mask : Int) - 1) / 2 ^ 8 % 2 ^ 8).toNat)),
      hm, hc, ?_, ?_⟩
    · unfold decaps
      simp only [e1, e2]
      rw [if_neg (fun h => h hh)]
      simp only [hm]
      rw [hmask]
    · intro i _
      have := select mask hlt (P.G (bytes m 0 32 ++ bytes dk (768 * p.k + 32) 32) i)
        (P.J (bytes dk (768 * p.k + 64) 32 ++ bytes ct 0 (cipherLen p)) i) (hP.g _ _) (hP.j _ _)
      simp only at this ⊢
      rw [this]
      by_cases hall : ∀ n, n < cipherLen p → ct n = c n
      · rw [if_pos hall, if_pos (hiff.mpr hall)]
      · rw [if_neg hall, if_neg (fun h => hall (hiff.mp h))]
  · left
    refine ⟨hh, ?_⟩
    unfold decaps
    simp only [e1]
    rw [if_pos hh]

/-! ## Agreement -/

theorem packed_bytes {d : Nat} {f r r' : Nat → Nat} (hr : ∀ i, r i < 256) (hr' : ∀ i, r' i < 256) (h : PackedBits d f r)
    (h' : PackedBits d f r') (i : Nat) (hi : i < 32 * d) : r i = r' i := by
  apply Nat.eq_of_testBit_eq
  intro b
  by_cases hb : b < 8
  · rw [h i b hi hb, h' i b hi hb]
  · have e : ∀ x, x < 256 → x.testBit b = false := fun x hx =>
      Nat.testBit_lt_two_pow (lt_of_lt_of_le hx (show 2 ^ 8 ≤ 2 ^ b from Nat.pow_le_pow_right (by decide) (by omega)))
    rw [e _ (hr i), e _ (hr' i)]

theorem Represents.reduced {k : Nat} {key : KeyData} {A : Nat → Nat → Nat → Zq} {s e : Nat → Poly}
    (h : Represents k key A s e) : key.Reduced k :=
  ⟨fun i j hi hj x hx => (h.ha i hi j hj x hx).1, fun i hi x hx => (h.hs i hi x hx).1, fun i hi x hx => (h.ht i hi x hx).1⟩

theorem Represents.t_eq {k : Nat} {key key' : KeyData} {A : Nat → Nat → Nat → Zq} {s e : Nat → Poly}
    (h : Represents k key A s e) (h' : Represents k key' A s e) (i : Nat) (hi : i < k) (x : Nat) (hx : x < 256) :
    cz (key'.t i) x = cz (key.t i) x := by
  have hsum : ∑ j ∈ range k, pairMul (cz (key'.a i j)) (Spec.ntt (cz (s j))) x =
      ∑ j ∈ range k, pairMul (cz (key.a i j)) (Spec.ntt (cz (s j))) x :=
    sum_congr rfl fun j hj => pairMul_congr' x hx fun y hy => by
      have hj' : j < k := by simpa using hj
      rw [← (h.ha i hi j hj' y hy).2, ← (h'.ha i hi j hj' y hy).2]
  rw [(h.ht i hi x hx).2, (h'.ht i hi x hx).2, hsum]

theorem message_congr {m m' : Nat → Nat} (h : ∀ n, n < 32 → m n = m' n) (x : Nat) (hx : x < 256) :
    messagePoly m x = messagePoly m' x := by
  unfold messagePoly decodeBits1
  rw [h (x / 8) (by omega)]

/-- Working keys of the same `A`, `s`, `e` encrypt alike. -/
theorem encrypt_unique {P : Prims} (hP : P.Ok) {p : Params} (hp : p ∈ paramTable) {key key' : KeyData}
    {A : Nat → Nat → Nat → Zq} {s e : Nat → Poly} (hkey : Represents p.k key A s e) (hkey' : Represents p.k key' A s e)
    (m m' r : Nat → Nat) (hm : ∀ n, n < 32 → m n = m' n) (n : Nat) (hn : n < cipherLen p) :
    pkeEncrypt P p key m r n = pkeEncrypt P p key' m' r n := by
  obtain ⟨T, hT⟩ := exists_v key.t
  have hU : ∀ i, ∃ g : Nat → Int, el (cz g) = ∑ j ∈ range p.k, el (A j i) * el (cz (encY P p r j)) + el (cz (encE1 P p r i)) :=
    fun i => el_sum_surj p.k (fun j => A j i) (fun j => cz (encY P p r j)) _
  obtain ⟨U, hU⟩ := Classical.axiomOfChoice hU
  obtain ⟨V, hV⟩ := el_sum_surj p.k T (fun j => cz (encY P p r j)) (fun x => cz (encE2 P p r) x + cz (messagePoly m) x)
  rw [el_add, ← add_assoc] at hV
  have hmm : el (cz (messagePoly m)) = el (cz (messagePoly m')) := el_cz_congr (message_congr hm)
  have hk := hkey.reduced
  have hk' := hkey'.reduced
  obtain ⟨c, c1, c2, c3, c4⟩ := pkeEncrypt_spec hP hp key m r A T hk.a hk.t
    (fun i j hi hj x hx => (hkey.ha i hi j hj x hx).2) (fun i _ => hT i) U V (fun i _ => hU i) hV
  obtain ⟨c', d1, d2, d3, d4⟩ := pkeEncrypt_spec hP hp key' m' r A T hk'.a hk'.t
    (fun i j hi hj x hx => (hkey'.ha i hi j hj x hx).2) (fun i hi x hx => by rw [hT i x hx, hkey.t_eq hkey' i hi x hx]) U V
    (fun i _ => hU i) (by rw [← hmm]; exact hV)
  rw [c1 n hn, d1 n hn]
  have hlen : cipherLen p = 32 * p.du * p.k + 32 * p.dv := by unfold cipherLen; ring
  obtain ⟨_, _, hdu, _⟩ := param_cases hp
  have hw : 0 < 32 * p.du := by omega
  congr 1
  by_cases hlt : n < 32 * p.du * p.k
  · have hi : n / (32 * p.du) < p.k := by rw [Nat.div_lt_iff_lt_mul hw, Nat.mul_comm]; exact hlt
    have := packed_bytes (fun _ => c2 _) (fun _ => d2 _) (c3 _ hi) (d3 _ hi) (n % (32 * p.du)) (Nat.mod_lt _ hw)
    simpa only [Nat.div_add_mod] using this
  · have := packed_bytes (fun _ => c2 _) (fun _ => d2 _) c4 d4 (n - 32 * p.du * p.k) (by omega)
    rw [Nat.add_sub_cancel' (by omega)] at this
    exact this

/-- Encapsulation and decapsulation agree whenever the noise fits. -/
theorem kem_agree {P : Prims} (hP : P.Ok) {p : Params} (hp : p ∈ paramTable) {fuel : Nat} {d z ek dk : Nat → Nat}
    {key : KeyData} (hgen : keyGen P p fuel d z = some (ek, dk, key)) (m : Nat → Nat) (hm : ∀ n, n < 32 → m n < 256)
    (A : Nat → Nat → Nat → Zq) (hA : ∀ i, i < p.k → ∀ j, j < p.k → ∀ x, x < 256 → Spec.ntt (A i j) x = cz (key.a i j) x)
    (N : Nat → Int)
    (hN : NoiseIs P p A (genS P p fun n => P.G (bytes d 0 32 ++ [p.k]) (32 + n))
      (genE P p fun n => P.G (bytes d 0 32 ++ [p.k]) (32 + n)) m
      (fun n => P.G (bytes m 0 32 ++ bytes (P.H (bytes ek 0 (384 * p.k + 32))) 0 32) (32 + n)) N)
    (hbound : ∀ x, x < 256 → -832 ≤ N x ∧ N x ≤ 831) :
    ∃ a t key', decodeEk P p fuel ek = some (a, t) ∧ decodeDk P p fuel dk = some key' ∧
      ∀ s0, ∃ ct sk : Nat → Nat, (∀ n, n < cipherLen p → (encaps P p ⟨a, s0, t⟩ ek m).1 n = some (ct n)) ∧
        decaps P p key' dk ct = .key sk ∧ ∀ i, i < 32 → sk i = (encaps P p ⟨a, s0, t⟩ ek m).2 i := by
  have hg := keyGen_spec hP hp hgen
  obtain ⟨a, t, h1, h2, h3⟩ := decodeEk_generated hg hP (ek' := ek) (fun _ _ => rfl)
  obtain ⟨key', k1, k2, k3, k4⟩ := decodeDk_generated hg hP (dk' := dk) (fun _ _ => rfl)
  refine ⟨a, t, key', h1, k1, fun s0 => ?_⟩
  have hrep := hg.rep A hA
  have hrep' : Represents p.k key' A _ _ := hrep.of_eq k2 k3 k4
  have hrepE : Represents p.k ⟨a, key.s, t⟩ A _ _ := hrep.of_eq (key' := ⟨a, key.s, t⟩) h2 (fun _ _ _ _ => rfl) h3
  obtain ⟨c, c1, c2, c3⟩ := decrypt_encrypt hP hp ⟨a, key.s, t⟩ key' A _ _ hrepE hrep' m _ hm N hN hbound
  refine ⟨c, ?_⟩
  obtain ⟨m', hm1, hm2⟩ := c3 c (fun _ _ => rfl)
  have hh : bytes dk (768 * p.k + 32) 32 = bytes (P.H (bytes ek 0 (384 * p.k + 32))) 0 32 :=
    bytes_congr fun i hi => by rw [Nat.zero_add]; exact hg.dkH i hi
  have hek : bytes dk (384 * p.k) (384 * p.k + 32) = bytes ek 0 (384 * p.k + 32) :=
    bytes_congr fun i hi => by rw [Nat.zero_add]; exact hg.dkEk i hi
  have hmb : bytes m' 0 32 = bytes m 0 32 := bytes_congr fun i hi => by rw [Nat.zero_add]; exact hm2 i hi
  rcases decaps_spec hP hp key' hrep'.reduced dk c (fun n _ => c2 n) with ⟨hne, _⟩ | ⟨_, m'', c'', sk, e1, e2, e3, e4⟩
  · exact absurd (by rw [hek, hh]) hne
  · rw [hm1, Option.some.injEq] at e1
    subst e1
    refine ⟨sk, c1, e3, fun i hi => ?_⟩
    rw [e4 i hi, hmb, hh]
    rw [if_pos]
    · rfl
    · intro n hn
      have := e2 n hn
      rw [hmb, hh, ← encrypt_unique hP hp hrepE hrep' m m' _ (fun n hn => (hm2 n hn).symm) n hn, c1 n hn] at this
      exact Option.some.inj this

end Verif.Crypto.Mlkem
