import Verif.Crypto.Mldsa.Key
import Verif.Crypto.Mldsa.Hint
/-! # ML-DSA rounding, hints and encodings (C34)

The specification is `Spec.lean` (FIPS 204 sections 2.3, 7.1 and 7.4) and the definitions below. -/
namespace Verif.Crypto.Mldsa
open Verif.Crypto.Mlkem (Poly i32 u32 u8 upd PackedBits)

/-- SimpleBitPack / BitPack (FIPS 204, Algorithms 16 and 17): the `32 · d` bytes at `off` are the little-endian bit
string of the 256 numbers `f`. -/
def Spec.PackedAt (buf : Nat → Nat) (off d : Nat) (f : Nat → Int) : Prop :=
  ∀ i b, i < 32 * d → b < 8 → (buf (off + i)).testBit b = (f ((8 * i + b) / d)).toNat.testBit ((8 * i + b) % d)

/-- The rounding of the code is the one of FIPS 204. -/
theorem decompose_fips {p : Params} (hp : p ∈ paramTable) (r : Int) (h : 0 ≤ r ∧ r < Spec.q) :
    decompose p r = Spec.decompose p.gamma2 r := decompose_eq hp r h

example : decompose mldsa44 8380416 = (0, -1) ∧ decompose mldsa65 4190208 = (8, 0) ∧ decompose mldsa65 261889 = (1, -261887) := by decide

/-- Decompose on a coefficient that is only reduced to `(-q, q)`, as `MLDSA_Batch_Decompose` receives it. -/
theorem batchDecompose_fips {p : Params} (hp : p ∈ paramTable) (r : Int) (h : -Spec.q < r ∧ r < Spec.q) :
    batchDecompose p r = Spec.decompose p.gamma2 r := by
  have hq : (0 : Int) < Spec.q := by decide
  unfold batchDecompose
  rw [addQ_mod r h, decompose_eq hp _ ⟨Int.emod_nonneg _ (by omega), Int.emod_lt_of_pos _ hq⟩, spec_decompose_mod]

example : batchDecompose mldsa44 (-1) = (0, -1) ∧ batchDecompose mldsa44 (-95233) = (43, 95232) := by decide

/-- The split of `t` into `t1` and `t0` is Power2Round of FIPS 204. -/
theorem power2Round_fips (r : Int) (h : 0 ≤ r ∧ r < Spec.q) : power2Round r = Spec.power2Round r := power2Round_eq r h

/-- … and what goes into the keys is in range: `t1` fits in 10 bits and `t0` in the signed 13-bit range. -/
theorem power2Round_range (r : Int) (h : 0 ≤ r ∧ r < Spec.q) :
    (0 ≤ (power2Round r).1 ∧ (power2Round r).1 < 1024) ∧ (-4096 < (power2Round r).2 ∧ (power2Round r).2 ≤ 4096) ∧
      r = (power2Round r).1 * 2 ^ 13 + (power2Round r).2 := by
  rw [power2Round_eq r h]
  unfold Spec.q at h
  unfold Spec.power2Round Spec.cmod Spec.q
  rw [Int.emod_eq_of_lt h.1 h.2]
  norm_num
  split <;> omega

example : power2Round 4097 = (1, -4095) ∧ power2Round 8380416 = (1023, 0) ∧ power2Round 4096 = (0, 4096) := by decide

/-- The verifier's use of a hint bit is UseHint of FIPS 204. -/
theorem useHint_fips {p : Params} (hp : p ∈ paramTable) (h : Nat) (hh : h = 0 ∨ h = 1) (w : Int)
    (hw : -Spec.q < w ∧ w < Spec.q) : useHint p h w = Spec.useHint p.gamma2 h w := useHint_eq hp h hh w hw

example : useHint mldsa44 1 0 = 43 ∧ useHint mldsa65 1 1 = 1 ∧ useHint mldsa65 1 (-1) = 15 := by decide

/-- The hint does its job: whatever perturbation `z` of size at most `γ2` separates the two sides, the one bit
MakeHint computes lets UseHint recover the high bits of `r + z` from `r` alone. -/
theorem hint_recovers {p : Params} (hp : p ∈ paramTable) (z r : Int) (hz : -(p.gamma2 : Int) ≤ z ∧ z ≤ p.gamma2) :
    Spec.useHint p.gamma2 (Spec.makeHint p.gamma2 z r) r = Spec.highBits p.gamma2 (r + z) := by
  obtain ⟨m, h⟩ := gm_of hp
  exact useHint_makeHint h z r hz

/-- The branch-free hint bit of the signer is MakeHint(−ct₀, w − cs₂ + ct₀) of FIPS 204, for every coefficient that
passed the two norm checks of the signing loop; and for such a coefficient subtracting `cs₂` did not change the high
bits. -/
theorem signer_hint {p : Params} (hp : p ∈ paramTable) (w cs2 ct0 w1 w0 : Int)
    (hw : Spec.decompose p.gamma2 w = (w1, w0)) (hcs : -Spec.q < cs2 ∧ cs2 < Spec.q) (hct : |ct0| < p.gamma2)
    (hr : |modQ (i32 (w0 - cs2))| < p.gamma2) :
    hintBit p w0 ct0 cs2 w1 = Spec.makeHint p.gamma2 (-ct0) (w - cs2 + ct0) ∧
      Spec.highBits p.gamma2 (w - cs2) = w1 := hintBit_eq hp w cs2 ct0 w1 w0 hw hcs hct hr

/-- The two sides together: from `w − cs₂ + ct₀`, which is what the verifier can compute, and the signer's hint bit the
verifier gets the signer's `w₁`. -/
theorem verifier_recovers_w1 {p : Params} (hp : p ∈ paramTable) (w cs2 ct0 w1 w0 v : Int)
    (hw : Spec.decompose p.gamma2 w = (w1, w0)) (hcs : -Spec.q < cs2 ∧ cs2 < Spec.q) (hct : |ct0| < p.gamma2)
    (hr : |modQ (i32 (w0 - cs2))| < p.gamma2) (hv : -Spec.q < v ∧ v < Spec.q)
    (hvw : v % Spec.q = (w - cs2 + ct0) % Spec.q) :
    useHint p (hintBit p w0 ct0 cs2 w1) v = w1 := by
  obtain ⟨h1, h2⟩ := hintBit_eq hp w cs2 ct0 w1 w0 hw hcs hct hr
  have hb : hintBit p w0 ct0 cs2 w1 = 0 ∨ hintBit p w0 ct0 cs2 w1 = 1 := by
    rw [h1]; unfold Spec.makeHint; split <;> simp
  rw [useHint_eq hp _ hb v hv, h1]
  have e : Spec.useHint p.gamma2 (Spec.makeHint p.gamma2 (-ct0) (w - cs2 + ct0)) v =
      Spec.useHint p.gamma2 (Spec.makeHint p.gamma2 (-ct0) (w - cs2 + ct0)) (w - cs2 + ct0) := by
    unfold Spec.useHint
    rw [← spec_decompose_mod p.gamma2 v, hvw, spec_decompose_mod]
  rw [abs_lt] at hct
  rw [e, hint_recovers hp _ _ (by omega), show w - cs2 + ct0 + -ct0 = w - cs2 by omega, h2]

/-- A coefficient just below a rounding boundary: the perturbation crosses it and the hint bit is set. -/
example : Spec.decompose mldsa44.gamma2 95200 = (0, 95200) ∧ hintBit mldsa44 95200 60 10 0 = 1 ∧
    useHint mldsa44 1 (95200 - 10 + 60) = 0 ∧ |modQ (i32 (95200 - 10))| < mldsa44.gamma2 := by decide
example : Spec.highBits mldsa44.gamma2 (95200 - 10 + 60) = 1 := by decide

/-- The branch-free norm check accepts exactly the polynomials whose coefficients are all smaller than the bound. -/
theorem norm_check (z : Poly) (t : Nat) (hz : ∀ j, j < 256 → -2147483648 ≤ z j ∧ z j ≤ 2147483647)
    (ht : 1 ≤ t ∧ t ≤ 2147483648) : validityChecks z t = true ↔ ∀ j, j < 256 → |z j| < t := by
  unfold validityChecks
  rw [beq_iff_eq]
  exact validityLoop_eq z t hz ht 256 (Nat.le_refl _)

example : validityChecks (fun j => if j = 255 then -7 else 3) 8 = true ∧
    validityChecks (fun j => if j = 255 then -8 else 3) 8 = false := by decide +kernel

/-- The hint part of a signature is accepted if and only if it is the one encoding of a hint of the parameter set:
positions strictly increasing within a row, row bounds non-decreasing and at most `ω`, zero padding. -/
theorem hint_decode_iff (p : Params) (ptr : List Nat) (hlen : ptr.length = p.omega + p.k) (hby : ∀ b ∈ ptr, b < 256)
    (h : List Poly) : hintDecode p ptr = .ok h ↔ Spec.IsHint p.k p.omega h ∧ ptr = Spec.hintBytes p.omega h :=
  hintDecode_iff p ptr hlen hby h

/-- So two different byte strings never carry the same hint. -/
theorem hint_unique (p : Params) (a b : List Nat) (ha : a.length = p.omega + p.k) (hb : b.length = p.omega + p.k)
    (hab : ∀ x ∈ a, x < 256) (hbb : ∀ x ∈ b, x < 256) (h : List Poly) (h1 : hintDecode p a = .ok h)
    (h2 : hintDecode p b = .ok h) : a = b := by
  rw [((hintDecode_iff p a ha hab h).1 h1).2, ((hintDecode_iff p b hb hbb h).1 h2).2]

/-- No hint, however malformed, makes the decoder read outside its `ω + k` bytes. -/
theorem hint_decode_in_bounds (p : Params) (ptr : List Nat) (hlen : ptr.length = p.omega + p.k) :
    hintDecode p ptr ≠ .oob := rows_in_bounds p.omega ptr p.k 0 0 [] (by omega) (by omega)

/-- Writing a hint with at most `ω` ones stays inside the `ω + k` bytes and produces its encoding. -/
theorem hint_encode {p : Params} (hp : p ∈ paramTable) (h : List Poly) (hk : h.length = p.k)
    (hw : Spec.weight h ≤ p.omega) : hintEncode p h = some (Spec.hintBytes p.omega h) := hintEncode_eq hp h hk hw

/-- A hint with two ones in row 1 and one in row 3. -/
def demoHint : List Poly := [fun _ => 0, fun j => if j = 3 ∨ j = 200 then 1 else 0, fun _ => 0,
  fun j => if j = 255 then 1 else 0]

theorem demoHint_ok : Spec.IsHint mldsa44.k mldsa44.omega demoHint := by
  refine ⟨rfl, ?_, by decide +kernel⟩
  intro row hr x
  simp only [demoHint, List.mem_cons, List.not_mem_nil, or_false] at hr
  rcases hr with rfl | rfl | rfl | rfl <;> constructor <;> (try intro) <;> dsimp only <;> (try split) <;> first | omega | simp

example : Spec.hintBytes mldsa44.omega demoHint = [3, 200, 255] ++ List.replicate 77 0 ++ [0, 2, 2, 3] := by decide +kernel
example : (match hintDecode mldsa44 ([3, 200, 255] ++ List.replicate 77 0 ++ [0, 2, 2, 3]) with | .ok h => h.length | _ => 0) = 4 := by
  decide +kernel
/-- Positions out of order, a count above `ω`, and a non-zero pad byte are refused. -/
example : (match hintDecode mldsa44 ([200, 3, 255] ++ List.replicate 77 0 ++ [0, 2, 2, 3]) with | .reject => true | _ => false) = true ∧
    (match hintDecode mldsa44 ([3, 200, 255] ++ List.replicate 77 0 ++ [0, 2, 2, 81]) with | .reject => true | _ => false) = true ∧
    (match hintDecode mldsa44 ([3, 200, 255, 1] ++ List.replicate 76 0 ++ [0, 2, 2, 3]) with | .reject => true | _ => false) = true := by
  decide +kernel

/-- The sizes in the parameter table are exactly those of the layouts. -/
theorem layout_lengths {p : Params} (hp : p ∈ paramTable) :
    p.pubLen = 32 + 320 * p.k ∧ p.prvLen = 128 + 32 * etaBits p * p.l + 32 * etaBits p * p.k + 416 * p.k ∧
      p.sigLen = p.secBits / 4 + 32 * gammaBits p * p.l + (p.omega + p.k) := by
  rcases param_cases hp with rfl | rfl | rfl <;> decide

/-- The public key is the seed followed by `t1` packed ten bits each, and decoding gives both back. -/
theorem pubkey_roundtrip (p : Params) (buf rho : Nat → Nat) (t : Nat → Poly)
    (ht : ∀ i, i < p.k → ∀ x, x < 256 → 0 ≤ t i x ∧ t i x < 1024) :
    (∀ i, i < p.k → Spec.PackedAt (pkEncode p buf rho t) (32 + 320 * i) 10 (t i)) ∧
    (∀ n, n < 32 → (pkDecode (pkEncode p buf rho t)).1 n = rho n) ∧
    ∀ i, i < p.k → ∀ x, x < 256 → (pkDecode (pkEncode p buf rho t)).2 i x = t i x := by
  refine ⟨fun i hi idx b hidx hb => ?_, pk_roundtrip p buf rho t ht⟩
  obtain ⟨h1, h2, h3⟩ := packLoop_eq 10 (fun i => byteEncode 10 (t i)) (put buf 0 32 rho) 32 p.k
  have := h3 i _ hi rfl idx hidx
  have e : pkEncode p buf rho t (32 + 320 * i + idx) = enc10 (fun j => w32 (t i j)) idx := this
  have hx : (8 * idx + b) / 10 < 256 := by omega
  have hw := ht i hi _ hx
  rw [e, enc10_packed _ (fun m hm => by
    have := ht i hi m hm
    simp only [w32_id (x := t i m) (by omega)]; omega) idx b hidx hb, w32_id (by omega)]

/-- Every byte string of the right length is the encoding of exactly what it decodes to: there is one public key
encoding per public key. -/
theorem pubkey_canonical (p : Params) (buf pk : Nat → Nat) (hpk : ∀ n, pk n < 256) :
    ∀ n, n < 32 + 320 * p.k → pkEncode p buf (pkDecode pk).1 (pkDecode pk).2 n = pk n := pk_canonical p buf pk hpk

/-- A secret key that key generation can produce survives export and import. -/
theorem prvkey_roundtrip {p : Params} (hp : p ∈ paramTable) (buf rho key tr : Nat → Nat) (s1 s2 t0 : Nat → Poly)
    (h1 : ∀ i, i < p.l → ∀ x, x < 256 → |s1 i x| ≤ p.eta) (h2 : ∀ i, i < p.k → ∀ x, x < 256 → |s2 i x| ≤ p.eta)
    (h0 : ∀ i, i < p.k → ∀ x, x < 256 → -4096 < t0 i x ∧ t0 i x ≤ 4096) (d : SkData)
    (hd : d = skDecode p (skEncode p buf rho key tr s1 s2 t0)) :
    (∀ n, n < 32 → d.rho n = rho n) ∧ (∀ n, n < 32 → d.key n = key n) ∧ (∀ n, n < 64 → d.tr n = tr n) ∧
    (∀ i, i < p.l → ∀ x, x < 256 → d.s1 i x = s1 i x) ∧ (∀ i, i < p.k → ∀ x, x < 256 → d.s2 i x = s2 i x) ∧
    (∀ i, i < p.k → ∀ x, x < 256 → d.t0 i x = t0 i x) := sk_roundtrip hp buf rho key tr s1 s2 t0 h1 h2 h0 d hd

example : let d := skDecode mldsa44 (skEncode mldsa44 (fun _ => 0) (fun n => n) (fun n => n + 100) (fun n => n + 50)
      (fun i x => if (x + i) % 2 = 0 then -2 else 1) (fun _ _ => 2) (fun _ x => (x : Int) * 16 - 4095))
    d.key 3 = 103 ∧ d.tr 63 = 113 ∧ d.s1 3 255 = -2 ∧ d.s2 3 255 = 2 ∧ d.t0 3 255 = -15 := by decide +kernel

/-- The decoder does not check ranges: a secret key can carry coefficients outside `[-η, η]`, which no key generated by
the library has, and the import accepts it. -/
theorem prvkey_out_of_range_accepted :
    (skDecode mldsa44 (fun _ => 255)).s1 0 0 = -5 ∧ (skDecode mldsa65 (fun _ => 255)).s1 0 0 = -11 := by decide +kernel

/-- A signature survives encoding and decoding: the challenge bytes, `z` and the hint all come back. -/
theorem signature_roundtrip {p : Params} (hp : p ∈ paramTable) (out : Nat → Nat) (cLen : Nat) (z : Nat → Poly)
    (h : List Poly) (hz : ∀ i, i < p.l → ∀ x, x < 256 → -(p.gamma1 : Int) < z i x ∧ z i x ≤ p.gamma1)
    (hh : Spec.IsHint p.k p.omega h) :
    ∃ sig, sigEncode p out cLen z h = some sig ∧ (∀ n, n < cLen → sig n = out n) ∧
      (∀ i, i < p.l → ∀ x, x < 256 → (sigDecode p sig cLen).1 i x = z i x) ∧ (sigDecode p sig cLen).2 = .ok h ∧
      ∀ n, (∀ m, out m < 256) → sig n < 256 := sig_roundtrip hp out cLen z h hz hh

example : ∃ sig, sigEncode mldsa44 (fun n => n % 256) 32 (fun i x => 131072 - (i + x : Nat)) demoHint = some sig ∧ sig 31 = 31 ∧
    (sigDecode mldsa44 sig 32).1 3 255 = 130814 ∧ (sigDecode mldsa44 sig 32).2 = .ok demoHint := by
  obtain ⟨sig, h1, h2, h3, h4, _⟩ := signature_roundtrip (p := mldsa44) (by decide) (fun n => n % 256) 32
    (fun i x => 131072 - (i + x : Nat)) demoHint (fun i hi x hx => by
      simp only [mldsa44] at hi ⊢
      omega) demoHint_ok
  exact ⟨sig, h1, by rw [h2 31 (by decide)], by rw [h3 3 (by decide) 255 (by decide)]; rfl, h4⟩

/-- Decoded `z` always lies in the range the encoding can express, so the later norm check decides on the real value. -/
theorem signature_z_range {p : Params} (hp : p ∈ paramTable) (sig : Nat → Nat) (hs : ∀ n, sig n < 256) (cLen i x : Nat)
    (hx : x < 256) : -(p.gamma1 : Int) < (sigDecode p sig cLen).1 i x ∧ (sigDecode p sig cLen).1 i x ≤ p.gamma1 := by
  have key : ∀ (d g : Nat) (dec : (Nat → Nat) → Nat → Nat) (a : Nat → Nat), Verif.Crypto.Mlkem.UnpackedBits d a (dec a) → 2 * g ≤ 2 ^ d → 2 ^ d ≤ 2 * g →
      g ≤ 2 ^ 30 → -(g : Int) < i32 (g - dec a x) ∧ i32 (g - dec a x) ≤ g := by
    intro d g dec a h1 h2 h3 h4
    have := (h1 x hx).1
    have e : dec a x < 2 * g := by omega
    norm_num at h4
    unfold i32; omega
  rcases param_cases hp with rfl | rfl | rfl
  · exact key 18 (2 ^ 17) dec18 _ (dec18_unpacked (fun n => sig (cLen + 32 * 18 * i + n)) fun _ _ => hs _) (by decide) (by decide) (by decide)
  · exact key 20 (2 ^ 19) dec20 _ (dec20_unpacked (fun n => sig (cLen + 32 * 20 * i + n)) fun _ _ => hs _) (by decide) (by decide) (by decide)
  · exact key 20 (2 ^ 19) dec20 _ (dec20_unpacked (fun n => sig (cLen + 32 * 20 * i + n)) fun _ _ => hs _) (by decide) (by decide) (by decide)

end Verif.Crypto.Mldsa
