import Verif.Crypto.Mldsa.SignKey
/-! What verification decides. -/
namespace Verif.Crypto.Mldsa
open Finset
open Verif.Crypto.Mlkem (Poly i32 u32 u8 upd UnpackedBits)

namespace Spec
/-- The length of the binary representation (FIPS 204, 2.3). -/
def bitlen (n : Nat) : Nat := n.log2 + 1
/-- `f` is the array of 256 values of `d` bits at `off` in the buffer (SimpleBitUnpack, FIPS 204 Algorithm 18). -/
def IsPacked (buf : Nat → Nat) (off d : Nat) (f : Nat → Int) : Prop :=
  (∀ x, x < 256 → 0 ≤ f x ∧ f x < 2 ^ d) ∧ PackedAt buf off d f
/-- `W = Σ_j A_j z_j − c · (t₁ 2^d)` in `R_q`, where the `A_j` are given by their transforms. -/
def IsApproxW (l : Nat) (Ahat z : Nat → Nat → Zq) (c t1 W : Nat → Zq) : Prop :=
  ∃ A : Nat → Nat → Zq, (∀ j, j < l → ∀ x, x < 256 → Spec.ntt (A j) x = Ahat j x) ∧
    ∀ x, x < 256 → W x = ∑ j ∈ range l, ringMul (A j) (z j) x - ringMul c (fun n => 2 ^ 13 * t1 n) x
/-- `μ`: given by the caller, or `H(tr ‖ M')` with `tr = H(pk)`. -/
def mu (P : Prims) (p : Params) (pk : Nat → Nat) : Msg → List Nat
  | .mu m => m
  | .enc m => bytes (P.shake256 (bytes (P.shake256 (bytes pk 0 p.pubLen)) 0 64 ++ m)) 0 64
/-- The signature decodes: `z` with `‖z‖_∞ < γ₁ − β`, and the hint `h`. -/
def Decodes (p : Params) (sig : Nat → Nat) (z h : Nat → Nat → Int) : Prop :=
  let zb := 1 + bitlen (p.gamma1 - 1)
  (∀ i, i < p.l → IsPacked sig (p.secBits / 4 + 32 * zb * i) zb (fun x => p.gamma1 - z i x)) ∧
  IsHint p.k p.omega ((List.range p.k).map h) ∧
  bytes sig (p.secBits / 4 + 32 * zb * p.l) (p.omega + p.k) = hintBytes p.omega ((List.range p.k).map h) ∧
  ∀ i, i < p.l → ∀ x, x < 256 → |z i x| < (p.gamma1 : Int) - p.beta
/-- ML-DSA.Verify_internal (FIPS 204, Algorithm 8) accepts. -/
def Accepts (P : Prims) (p : Params) (pk : Nat → Nat) (msg : Msg) (sig : Nat → Nat) : Prop :=
  ∃ (z h t1 : Nat → Nat → Int) (Ahat : Nat → Nat → Nat → Int) (c : Nat → Int) (W : Nat → Nat → Zq),
    Decodes p sig z h ∧
    (∀ i, i < p.k → IsPacked pk (32 + 320 * i) 10 (t1 i)) ∧
    (∀ i, i < p.k → ∀ j, j < p.l → IsSample (cand3 (P.shake128 (bytes pk 0 32 ++ [j, i]))) (Ahat i j)) ∧
    IsBall p.tau (P.shake256 (bytes sig 0 (p.secBits / 4))) c ∧
    (∀ i, i < p.k → IsApproxW p.l (fun j x => (Ahat i j x : Zq)) (fun j x => (z j x : Zq)) (fun x => (c x : Zq)) (fun x => (t1 i x : Zq)) (W i)) ∧
    bytes sig 0 (p.secBits / 4) = bytes (P.shake256 (mu P p pk msg ++
      w1Bytes (bitlen (((q - 1) / (2 * p.gamma2)).toNat - 1)) p.k (fun i x => useHint p.gamma2 (h i x).toNat (rep (W i x))))) 0 (p.secBits / 4)
end Spec
open Spec

theorem isApproxW_iff (l : Nat) (Ahat z : Nat → Nat → Zq) (c t1 W : Nat → Zq) :
    IsApproxW l Ahat z c t1 W ↔ ∀ x, x < 256 → Spec.ntt W x =
      ∑ j ∈ range l, Ahat j x * Spec.ntt (z j) x - Spec.ntt c x * (2 ^ 13 * Spec.ntt t1 x) := by
  have key : ∀ A : Nat → Nat → Zq, (∀ j, j < l → ∀ x, x < 256 → Spec.ntt (A j) x = Ahat j x) → ∀ x, x < 256 →
      Spec.ntt (fun x => ∑ j ∈ range l, ringMul (A j) (z j) x - ringMul c (fun n => 2 ^ 13 * t1 n) x) x =
      ∑ j ∈ range l, Ahat j x * Spec.ntt (z j) x - Spec.ntt c x * (2 ^ 13 * Spec.ntt t1 x) := by
    intro A hA x hx
    rw [ntt_sub, ntt_sum, ntt_mul, ntt_smul]
    have e : ∑ j ∈ range l, Spec.ntt (ringMul (A j) (z j)) x = ∑ j ∈ range l, Ahat j x * Spec.ntt (z j) x :=
      sum_congr rfl (fun j hj => by rw [ntt_mul, hA j (mem_range.1 hj) x hx])
    rw [e]
  constructor
  · rintro ⟨A, hA, hW⟩ x hx
    rw [← key A hA x hx]
    exact ntt_congr hW x
  · intro h
    choose A hA using fun j => ntt_surj (Ahat j)
    refine ⟨A, fun j _ x hx => hA j x hx, ?_⟩
    apply ntt_inj
    intro x hx
    rw [h x hx, key A (fun j _ x hx => hA j x hx) x hx]

theorem isPacked_unique {buf : Nat → Nat} {off d : Nat} (hd : 0 < d) {f g : Nat → Int} (hf : IsPacked buf off d f) (hg : IsPacked buf off d g)
    (x : Nat) (hx : x < 256) : f x = g x := by
  have h1 := hf.1 x hx
  have h2 := hg.1 x hx
  have : (f x).toNat = (g x).toNat := by
    apply Nat.eq_of_testBit_eq
    intro t
    by_cases ht : t < d
    · have key : ∀ f : Nat → Int, PackedAt buf off d f → (f x).toNat.testBit t = (buf (off + (d * x + t) / 8)).testBit ((d * x + t) % 8) := by
        intro f hf
        have := hf ((d * x + t) / 8) ((d * x + t) % 8) (by
          rw [Nat.div_lt_iff_lt_mul (by decide)]
          have : d * x + d ≤ d * 256 := by rw [← Nat.mul_succ]; exact Nat.mul_le_mul_left d hx
          omega) (Nat.mod_lt _ (by decide))
        rw [Nat.div_add_mod] at this
        rw [this, Nat.mul_add_div hd, Nat.div_eq_of_lt ht, Nat.mul_add_mod, Nat.mod_eq_of_lt ht, Nat.add_zero]
      rw [key f hf.2, key g hg.2]
    · have b : ∀ v : Int, 0 ≤ v → v < 2 ^ d → v.toNat.testBit t = false := by
        intro v h0 hv
        apply Nat.testBit_lt_two_pow
        apply lt_of_lt_of_le _ (Nat.pow_le_pow_right (by decide) (Nat.le_of_not_lt ht))
        have : ((2 ^ d : Nat) : Int) = 2 ^ d := by push_cast; rfl
        omega
      rw [b _ h1.1 h1.2, b _ h2.1 h2.2]
  omega

theorem isPacked_of {buf : Nat → Nat} {off d : Nat} (hd : 0 < d) {f : Nat → Nat} (h : UnpackedBits d (fun n => buf (off + n)) f) :
    IsPacked buf off d (fun x => (f x : Int)) := by
  refine ⟨fun x hx => ⟨Int.natCast_nonneg _, by show ((f x : Nat) : Int) < 2 ^ d; exact_mod_cast (h x hx).1⟩, fun i b hi hb => ?_⟩
  have hm : (8 * i + b) / d < 256 := by
    rw [Nat.div_lt_iff_lt_mul hd]; omega
  have := (h ((8 * i + b) / d) hm).2 ((8 * i + b) % d) (Nat.mod_lt _ hd)
  rw [Nat.div_add_mod] at this
  simp only [Int.toNat_natCast]
  rw [this]
  have e1 : (8 * i + b) / 8 = i := by omega
  have e2 : (8 * i + b) % 8 = b := by omega
  rw [e1, e2]

theorem isPacked_congr {buf : Nat → Nat} {off d : Nat} (hd : 0 < d) {f g : Nat → Int} (h : ∀ x, x < 256 → f x = g x) (hf : IsPacked buf off d f) :
    IsPacked buf off d g := by
  refine ⟨fun x hx => by rw [← h x hx]; exact hf.1 x hx, fun i b hi hb => ?_⟩
  rw [hf.2 i b hi hb, h]
  rw [Nat.div_lt_iff_lt_mul hd]; omega

theorem pk_packed {pk : Nat → Nat} (hpk : ∀ n, pk n < 256) (i : Nat) : IsPacked pk (32 + 320 * i) 10 ((pkDecode pk).2 i) := by
  exact isPacked_of (by decide) (dec10_unpacked (fun n => pk (32 + 320 * i + n)) (fun _ _ => hpk _))

theorem zb_eq {p : Params} (hp : p ∈ paramTable) : 1 + bitlen (p.gamma1 - 1) = gammaBits p := by
  rcases param_cases hp with rfl | rfl | rfl <;> decide
theorem wb_eq {p : Params} (hp : p ∈ paramTable) : bitlen (((Spec.q - 1) / (2 * p.gamma2)).toNat - 1) = w1Bits p := by
  rcases param_cases hp with rfl | rfl | rfl <;> decide

theorem z_packed {p : Params} (hp : p ∈ paramTable) {sig : Nat → Nat} (hs : ∀ n, sig n < 256) (off i : Nat) :
    IsPacked sig (off + 32 * gammaBits p * i) (gammaBits p) (fun x => p.gamma1 - (sigDecode p sig off).1 i x) := by
  have key : ∀ (d g o : Nat) (dec : (Nat → Nat) → Nat → Nat), 0 < d → 2 ^ d = 2 * g → g ≤ 1073741824 →
      UnpackedBits d (fun n => sig (o + n)) (dec (fun n => sig (o + n))) →
      IsPacked sig o d (fun x => g - i32 (g - dec (fun n => sig (o + n)) x)) := by
    intro d g o dec hd h1 h2 h
    refine isPacked_congr hd ?_ (isPacked_of hd h)
    intro x hx
    have := (h x hx).1
    rw [h1] at this
    unfold i32; omega
  rcases param_cases hp with rfl | rfl | rfl
  · exact key 18 (2 ^ 17) (off + 32 * 18 * i) dec18 (by decide) (by decide) (by decide) (dec18_unpacked _ fun _ _ => hs _)
  · exact key 20 (2 ^ 19) (off + 32 * 20 * i) dec20 (by decide) (by decide) (by decide) (dec20_unpacked _ fun _ _ => hs _)
  · exact key 20 (2 ^ 19) (off + 32 * 20 * i) dec20 (by decide) (by decide) (by decide) (dec20_unpacked _ fun _ _ => hs _)

theorem isSample_unique {cand : Nat → Option Int} {a b : Nat → Int} (ha : IsSample cand a) (hb : IsSample cand b) (x : Nat) (hx : x < 256) :
    a x = b x := by
  obtain ⟨n, hn⟩ := ha
  obtain ⟨m, hm⟩ := hb
  have key : ∀ n k v, (accepted cand n)[x]? = some v → (accepted cand (n + k))[x]? = some v := by
    intro n k v h
    unfold accepted at h ⊢
    rw [List.range_add, List.filterMap_append]
    have := List.getElem?_eq_some_iff.1 h
    obtain ⟨hlt, _⟩ := this
    rw [List.getElem?_append_left hlt]; exact h
  have h1 := key n m _ (hn x hx)
  have h2 := key m n _ (hm x hx)
  rw [Nat.add_comm m n, h1] at h2
  exact Option.some.inj h2

theorem isBall_unique {tau : Nat} {st : Nat → Nat} {a b : Nat → Int} (ha : IsBall tau st a) (hb : IsBall tau st b) : a = b := by
  obtain ⟨p1, h1, rfl⟩ := ha
  obtain ⟨p2, h2, rfl⟩ := hb
  have key : ∀ t, t < tau → p1 t = p2 t := by
    intro t
    induction t using Nat.strong_induction_on with
    | _ t ih =>
      intro ht
      have e : ballStart p1 t = ballStart p2 t := by
        cases t with
        | zero => rfl
        | succ t => show p1 t + 1 = p2 t + 1; rw [ih t (by omega) (by omega)]
      obtain ⟨a1, a2, a3⟩ := h1 t ht
      obtain ⟨b1, b2, b3⟩ := h2 t ht
      rcases Nat.lt_trichotomy (p1 t) (p2 t) with h | h | h
      · have := b3 (p1 t) (by omega) h; omega
      · exact h
      · have := a3 (p2 t) (by omega) h; omega
  exact ball_congr tau st p1 p2 tau key

theorem useHint_mod {g : Int} {h : Nat} {r r' : Int} (e : r % Spec.q = r' % Spec.q) : Spec.useHint g h r = Spec.useHint g h r' := by
  have : Spec.decompose g r = Spec.decompose g r' := by unfold Spec.decompose; rw [e]
  unfold Spec.useHint; rw [this]

theorem rep_mod (v : Int) : rep ((v : Int) : Zq) % Spec.q = v % Spec.q := dvd_of_cast (rep_cast _)

theorem list_hint {k : Nat} {h : List Poly} (hk : h.length = k) : h = (List.range k).map (hintAt h) := by
  apply List.ext_getElem?
  intro i
  by_cases hi : i < k
  · rw [List.getElem?_map, List.getElem?_range hi]
    show h[i]? = some (hintAt h i)
    unfold hintAt
    rw [List.getElem?_eq_getElem (by omega)]
  · rw [List.getElem?_eq_none (by omega), List.getElem?_eq_none (by simp; omega)]

theorem isHint_at {k omega : Nat} {h : Nat → Poly} (hh : IsHint k omega ((List.range k).map h)) (i : Nat) (hi : i < k) (x : Nat) :
    h i x = 0 ∨ h i x = 1 := (hh.2.1 (h i) (List.mem_map.2 ⟨i, List.mem_range.2 hi, rfl⟩) x).1

theorem useHint_int {p : Params} (hp : p ∈ paramTable) (h : Int) (hh : h = 0 ∨ h = 1) (w : Int) (hw : -Spec.q < w ∧ w < Spec.q) :
    useHint p h w = Spec.useHint p.gamma2 h.toNat w := by
  have := useHint_fips hp h.toNat (by rcases hh with rfl | rfl <;> simp) w hw
  rw [← this]
  congr 1
  rcases hh with rfl | rfl <;> rfl

/-- The verifier's value is the one of the specification, whatever representatives the specification uses. -/
theorem approxW_unique {p : Params} (hl : p.l ≤ 8) {a z z' : Nat → Poly} {c t1 t1' : Poly} {Ah : Nat → Nat → Int} {W : Nat → Zq} {B : Int} (hB : B ≤ 8380416)
    (ha : ∀ j, j < p.l → ∀ x, x < 256 → 0 ≤ a j x ∧ a j x < 8380417) (hz : ∀ j, j < p.l → ∀ x, x < 256 → |z j x| ≤ B)
    (hc : ∀ x, x < 256 → |c x| ≤ 1) (ht : ∀ x, x < 256 → 0 ≤ t1 x ∧ t1 x < 1024)
    (ea : ∀ j, j < p.l → ∀ x, x < 256 → Ah j x = a j x) (ez : ∀ j, j < p.l → ∀ x, x < 256 → z' j x = z j x)
    (et : ∀ x, x < 256 → t1' x = t1 x) :
    IsApproxW p.l (fun j x => (Ah j x : Zq)) (fun j x => (z' j x : Zq)) (fun x => (c x : Zq)) (fun x => (t1' x : Zq)) W ↔
      ∀ x, x < 256 → W x = cz (approxW p a (fun j => ntt (z j)) (ntt c) t1) x := by
  obtain ⟨v1, v2⟩ := approxW_spec p hl a z c t1 B hB ha hz hc ht
  rw [isApproxW_iff]
  have e : ∀ x, x < 256 → ∑ j ∈ range p.l, ((Ah j x : Int) : Zq) * Spec.ntt (fun x => ((z' j x : Int) : Zq)) x -
      Spec.ntt (fun x => ((c x : Int) : Zq)) x * (2 ^ 13 * Spec.ntt (fun x => ((t1' x : Int) : Zq)) x) =
      Spec.ntt (cz (approxW p a (fun j => ntt (z j)) (ntt c) t1)) x := by
    intro x hx
    rw [v2 x hx]
    have e1 : Spec.ntt (fun x => ((t1' x : Int) : Zq)) x = Spec.ntt (cz t1) x := ntt_congr (fun i hi => by rw [et i hi, cz_at]) x
    have e2 : ∑ j ∈ range p.l, ((Ah j x : Int) : Zq) * Spec.ntt (fun x => ((z' j x : Int) : Zq)) x = ∑ j ∈ range p.l, cz (a j) x * Spec.ntt (cz (z j)) x := by
      apply sum_congr rfl
      intro j hj
      rw [mem_range] at hj
      have : Spec.ntt (fun x => ((z' j x : Int) : Zq)) x = Spec.ntt (cz (z j)) x := ntt_congr (fun i hi => by rw [ez j hj i hi, cz_at]) x
      rw [this, ea j hj x hx, cz_at]
    rw [e1, e2]; rfl
  constructor
  · intro h
    apply ntt_inj
    intro x hx
    rw [h x hx, e x hx]
  · intro h x hx
    rw [e x hx]
    exact ntt_congr h x

theorem bytes_length (f : Nat → Nat) (off n : Nat) : (bytes f off n).length = n := by unfold bytes; simp
theorem bytes_mem {f : Nat → Nat} (hf : ∀ n, f n < 256) {off n b : Nat} (h : b ∈ bytes f off n) : b < 256 := by
  unfold bytes at h
  rw [List.mem_map] at h
  obtain ⟨i, _, rfl⟩ := h
  exact hf _

theorem mu_eq (P : Prims) (p : Params) (pk : Nat → Nat) (msg : Msg) :
    muBytes P (bytes (P.shake256 (bytes pk 0 p.pubLen)) 0 64) msg = Spec.mu P p pk msg := by cases msg <;> rfl

/-- The decoder and the first check. -/
theorem decodes_iff {p : Params} (hp : p ∈ paramTable) {sig : Nat → Nat} (hs : ∀ n, sig n < 256) (z h : Nat → Nat → Int) :
    Decodes p sig z h ↔ (∀ i, i < p.l → ∀ x, x < 256 → z i x = (sigDecode p sig (cLen p)).1 i x) ∧
      (sigDecode p sig (cLen p)).2 = .ok ((List.range p.k).map h) ∧ checkAll p.l (sigDecode p sig (cLen p)).1 (p.gamma1 - p.beta) = true := by
  have hg : 1 ≤ p.gamma1 - p.beta ∧ p.gamma1 - p.beta ≤ 2147483648 ∧ p.beta ≤ p.gamma1 ∧ p.gamma1 ≤ 2147483647 := by
    rcases param_cases hp with rfl | rfl | rfl <;> decide
  have hgb : 0 < gammaBits p := by unfold gammaBits; split <;> decide
  have hhd := hint_decode_iff p (bytes sig (cLen p + 32 * gammaBits p * p.l) (p.omega + p.k)) (bytes_length _ _ _)
    (fun b hb => bytes_mem hs hb) ((List.range p.k).map h)
  have hck := checkAll_spec p.l (sigDecode p sig (cLen p)).1 (p.gamma1 - p.beta) ⟨hg.1, hg.2.1⟩ (fun i hi x hx => by
    have := signature_z_range hp sig hs (cLen p) i x hx; omega)
  have hzp := z_packed hp hs (cLen p)
  unfold Decodes
  simp only [zb_eq hp]
  have ec : p.secBits / 4 = cLen p := rfl
  rw [ec]
  have hcast : ((p.gamma1 - p.beta : Nat) : Int) = (p.gamma1 : Int) - p.beta := by omega
  rw [hcast] at hck
  constructor
  · rintro ⟨h1, h2, h3, h4⟩
    have hz : ∀ i, i < p.l → ∀ x, x < 256 → z i x = (sigDecode p sig (cLen p)).1 i x := by
      intro i hi x hx
      have := isPacked_unique hgb (h1 i hi) (hzp i) x hx
      omega
    refine ⟨hz, hhd.2 ⟨h2, h3⟩, hck.2 ?_⟩
    intro i hi x hx
    rw [← hz i hi x hx]; exact h4 i hi x hx
  · rintro ⟨h1, h2, h3⟩
    obtain ⟨h4, h5⟩ := hhd.1 h2
    refine ⟨fun i hi => ?_, h4, h5, fun i hi x hx => ?_⟩
    · exact isPacked_congr hgb (fun x hx => by rw [h1 i hi x hx]) (hzp i)
    · rw [h1 i hi x hx]; exact hck.1 h3 i hi x hx

theorem sigDecode_not_oob (p : Params) (sig : Nat → Nat) (off : Nat) : (sigDecode p sig off).2 ≠ .oob :=
  hint_decode_in_bounds p _ (bytes_length _ _ _)

/-- The decision of the verifier. -/
theorem verify_iff {P : Prims} (hP1 : ∀ m n, P.shake128 m n < 256) (hP2 : ∀ m n, P.shake256 m n < 256) {p : Params}
    (hp : p ∈ paramTable) {fuel : Nat} {pk sig : Nat → Nat} (hpk : ∀ n, pk n < 256) (hs : ∀ n, sig n < 256) (msg : Msg)
    (buf : Nat → Nat) {r : VerRes} (hv : verify P p fuel pk msg sig buf = some r) :
    (r = .success ↔ Accepts P p pk msg sig) ∧ (r = .dataError ↔ ¬ ∃ z h, Decodes p sig z h) ∧ r ≠ .oob := by
  have hl : p.l ≤ 8 := by rcases param_cases hp with rfl | rfl | rfl <;> decide
  have htau : p.tau ≤ 64 := by rcases param_cases hp with rfl | rfl | rfl <;> decide
  have hg : (p.gamma1 : Int) ≤ 524288 := by rcases param_cases hp with rfl | rfl | rfl <;> decide
  unfold verify at hv
  simp only at hv
  generalize hres : (sigDecode p sig (cLen p)).2 = res at hv
  cases res with
  | oob => exact absurd hres (sigDecode_not_oob p sig _)
  | reject =>
    simp only [Option.some.injEq] at hv
    subst hv
    have hno : ¬ ∃ z h, Decodes p sig z h := by
      rintro ⟨z, h, hd⟩
      have := ((decodes_iff hp hs z h).1 hd).2.1
      rw [hres] at this
      simp at this
    refine ⟨⟨fun h => by simp at h, fun h => ?_⟩, ⟨fun _ => hno, fun _ => rfl⟩, by simp⟩
    obtain ⟨z, h, _, _, _, _, hd, _⟩ := h
    exact absurd ⟨z, h, hd⟩ hno
  | ok h =>
    simp only at hv
    by_cases hck : checkAll p.l (sigDecode p sig (cLen p)).1 (p.gamma1 - p.beta) = false
    · rw [if_pos hck] at hv
      simp only [Option.some.injEq] at hv
      subst hv
      have hno : ¬ ∃ z h, Decodes p sig z h := by
        rintro ⟨z, h, hd⟩
        have := ((decodes_iff hp hs z h).1 hd).2.2
        rw [hck] at this
        simp at this
      refine ⟨⟨fun h => by simp at h, fun h => ?_⟩, ⟨fun _ => hno, fun _ => rfl⟩, by simp⟩
      obtain ⟨z, h, _, _, _, _, hd, _⟩ := h
      exact absurd ⟨z, h, hd⟩ hno
    · rw [if_neg hck] at hv
      have hck' : checkAll p.l (sigDecode p sig (cLen p)).1 (p.gamma1 - p.beta) = true := by simpa using hck
      have hIs := ((hint_decode_iff p _ (bytes_length sig (cLen p + 32 * gammaBits p * p.l) _) (fun b hb => bytes_mem hs hb) h).1 hres).1
      have hlist := list_hint hIs.1
      have hdec : Decodes p sig (sigDecode p sig (cLen p)).1 (hintAt h) :=
        (decodes_iff hp hs _ _).2 ⟨fun _ _ _ _ => rfl, by rw [hres, ← hlist], hck'⟩
      split at hv
      · next c a hc ha =>
        have hball := sampleInBall_spec hP2 htau hc
        have hcr : ∀ x, x < 256 → |c x| ≤ 1 := fun x _ => isBall_range (by omega) hball x
        have har := fun i hi j hj x hx => expandA_range hP1 ha i hi j hj x hx
        have hsam : ∀ i, i < p.k → ∀ j, j < p.l → IsSample (cand3 (P.shake128 (bytes pk 0 32 ++ [j, i]))) (a i j) := fun i hi j hj =>
          expandRow_spec hP1 (collect_spec _ _ _ _ ha i hi) j hj
        have hzr : ∀ j, j < p.l → ∀ x, x < 256 → |(sigDecode p sig (cLen p)).1 j x| ≤ 524288 := by
          intro j _ x hx
          have := signature_z_range hp sig hs (cLen p) j x hx
          exact abs_le.2 (by omega)
        have ht1 := fun i x hx => pk_t1_range pk hpk i x hx
        have hrange : ∀ i, i < p.k → ∀ x, x < 256 → |approxW p (a i) (fun j => ntt ((sigDecode p sig (cLen p)).1 j)) (ntt c) ((pkDecode pk).2 i) x| ≤ 4190208 :=
          fun i hi => (approxW_spec p hl (a i) _ c _ 524288 (by decide) (har i hi) hzr hcr (ht1 i)).1
        have hw1 : ∀ i, i < p.k → ∀ x, x < 256 → useHint p (hintAt h i x) (approxW p (a i) (fun j => ntt ((sigDecode p sig (cLen p)).1 j)) (ntt c) ((pkDecode pk).2 i) x) =
            Spec.useHint p.gamma2 (hintAt h i x).toNat (approxW p (a i) (fun j => ntt ((sigDecode p sig (cLen p)).1 j)) (ntt c) ((pkDecode pk).2 i) x) := by
          intro i hi x hx
          have := abs_le.1 (hrange i hi x hx)
          rw [hlist] at hIs
          exact useHint_int hp _ (isHint_at hIs i hi x) _ (by unfold Spec.q; omega)
        rw [challenge_eq hp _ _ _ _ (fun i hi x hx => by rw [hw1 i hi x hx]; exact useHint_range hp _ _), mu_eq] at hv
        have hno : ¬ ¬ ∃ z h, Decodes p sig z h := fun hn => hn ⟨_, _, hdec⟩
        have hacc : (bytes sig 0 (cLen p) = bytes (P.shake256 (Spec.mu P p pk msg ++ w1Bytes (w1Bits p) p.k (fun i x =>
            useHint p (hintAt h i x) (approxW p (a i) (fun j => ntt ((sigDecode p sig (cLen p)).1 j)) (ntt c) ((pkDecode pk).2 i) x)))) 0 (cLen p)) ↔
            Accepts P p pk msg sig := by
          have hcong : ∀ W : Nat → Nat → Zq, (∀ i, i < p.k → ∀ x, x < 256 → W i x =
              cz (approxW p (a i) (fun j => ntt ((sigDecode p sig (cLen p)).1 j)) (ntt c) ((pkDecode pk).2 i)) x) →
              ∀ h' : Nat → Nat → Int, (∀ i, i < p.k → h' i = hintAt h i) →
              w1Bytes (w1Bits p) p.k (fun i x => Spec.useHint p.gamma2 (h' i x).toNat (rep (W i x))) =
              w1Bytes (w1Bits p) p.k (fun i x => useHint p (hintAt h i x) (approxW p (a i) (fun j => ntt ((sigDecode p sig (cLen p)).1 j)) (ntt c) ((pkDecode pk).2 i) x)) := by
            intro W hW h' hh'
            apply w1Bytes_congr (by unfold w1Bits; split <;> decide)
            intro i hi x hx
            rw [hw1 i hi x hx, hh' i hi, hW i hi x hx, cz_at]
            exact useHint_mod (rep_mod _)
          constructor
          · intro heq
            refine ⟨_, _, (pkDecode pk).2, a, c, fun i => cz (approxW p (a i) (fun j => ntt ((sigDecode p sig (cLen p)).1 j)) (ntt c) ((pkDecode pk).2 i)),
              hdec, fun i _ => pk_packed hpk i, hsam, hball, fun i hi => ?_, ?_⟩
            · exact (approxW_unique (B := 524288) hl (by decide) (har i hi) hzr hcr (ht1 i) (fun _ _ _ _ => rfl) (fun _ _ _ _ => rfl) (fun _ _ => rfl)).2 (fun _ _ => rfl)
            · rw [wb_eq hp, hcong _ (fun _ _ _ _ => rfl) _ (fun _ _ => rfl)]
              exact heq
          · rintro ⟨z, h', t1, Ah, c', W, hd, hpk1, hAh, hc', hW, heq⟩
            obtain ⟨d1, d2, -⟩ := (decodes_iff hp hs z h').1 hd
            have ecc := isBall_unique hc' hball
            subst ecc
            have hWW : ∀ i, i < p.k → ∀ x, x < 256 → W i x =
                cz (approxW p (a i) (fun j => ntt ((sigDecode p sig (cLen p)).1 j)) (ntt c') ((pkDecode pk).2 i)) x := fun i hi =>
              (approxW_unique (B := 524288) hl (by decide) (har i hi) hzr hcr (ht1 i) (fun j hj x hx => isSample_unique (hAh i hi j hj) (hsam i hi j hj) x hx)
                d1 (fun x hx => isPacked_unique (by decide) (hpk1 i hi) (pk_packed hpk i) x hx)).1 (hW i hi)
            rw [hres] at d2
            have eh : ∀ i, i < p.k → h' i = hintAt h i := by
              intro i hi
              have : h = (List.range p.k).map h' := by simpa using d2
              rw [this, hintAt_map p.k h' i hi]
            rw [wb_eq hp, hcong W hWW h' eh] at heq
            exact heq
        split at hv
        · next heq =>
          simp only [Option.some.injEq] at hv
          subst hv
          exact ⟨⟨fun _ => hacc.1 heq, fun _ => rfl⟩, ⟨fun h => by simp at h, fun h => absurd h hno⟩, by simp⟩
        · next heq =>
          simp only [Option.some.injEq] at hv
          subst hv
          exact ⟨⟨fun h => by simp at h, fun h => absurd (hacc.2 h) heq⟩, ⟨fun h => by simp at h, fun h => absurd h hno⟩, by simp⟩
      · simp at hv

end Verif.Crypto.Mldsa
