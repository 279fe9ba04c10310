import Verif.Crypto.Mlkem.Kem2
/-! # ML-KEM (`/repo/crypto/mlkem/src`): headline theorems

Specification used here, besides the statements themselves:

* `Spec.compress`, `Spec.decompress` (FIPS 203, 4.7 and 4.8), `Spec.gamma`, `Spec.ntt` (4.11), `Spec.el`: the element of
  `R_q = Z_q[X]/(X^256+1)` with given coefficients, `Spec.candidates`/`Spec.accepted` (Algorithm 7), `Spec.cbd2`,
  `Spec.cbd3` (Algorithm 8), `PackedBits`, `UnpackedBits` (Algorithms 3 to 6).
* `cz f`: the residues modulo `q` of an array of integers.
* `Prims.Ok`: the four hash functions return bytes; nothing else is assumed about them.
* `NoiseIs … N`: `N` is the polynomial that decryption adds to the encoded message,
  `Σ e_j y_j + e_2 + (c_2 - v) - Σ s_j (e_{1,j} + (c_{1,j} - u_j))`. -/
namespace Verif.Crypto.Mlkem.Props
open Verif.Crypto.Mlkem Verif.Crypto.Mlkem.Spec Finset

/-! ## C33: arithmetic -/

/-- Barrett reduction: right residue for every argument that occurs, and centred for arguments up to 75000. -/
theorem barrett_correct (a : Int) (h : -2147000000 ≤ a ∧ a ≤ 2147000000) :
    3329 ∣ (a - barrett a) ∧ ((-75000 ≤ a ∧ a ≤ 75000) → -1664 ≤ barrett a ∧ barrett a ≤ 1664) :=
  ⟨barrett_dvd a h, barrett_range_small a⟩
/-- Outside that range Barrett reduction does not centre: this input comes out beyond `q / 2`. -/
theorem barrett_drifts : barrett 2000000000 < -1664 * 4 := by decide
example : barrett 5000 = 5000 - 2 * 3329 ∧ barrett (-5000) = 2 * 3329 - 5000 := by decide

/-- `Compress_d` is the function of FIPS 203, 4.7, on the range of arguments the callers produce. -/
theorem compress_correct (d : Nat) (hd : d = 1 ∨ d = 4 ∨ d = 5 ∨ d = 10 ∨ d = 11) (x : Int) (hx : -3329 ≤ x ∧ x ≤ 3360) :
    compress d x = some (Spec.compress d x) := compress_spec d hd x (Or.inl hx)
/-- `Decompress_d` is the function of FIPS 203, 4.8. -/
theorem decompress_correct (d : Nat) (hd : d = 1 ∨ d = 4 ∨ d = 5 ∨ d = 10 ∨ d = 11) (y : Int) (hy : 0 ≤ y ∧ y < 2 ^ d) :
    decompress d y = Spec.decompress d y ∧ 0 ≤ decompress d y ∧ decompress d y < 3329 := decompress_spec d hd y hy
/-- Another width is not compressed at all. -/
theorem compress_width (x : Int) : compress 6 x = none := rfl
example : compress 10 (-3) = some 1023 ∧ compress 11 3328 = some 2047 ∧ decompress 4 9 = 1873 := by
  decide

/-- Compressing a decompressed value gives it back. -/
theorem compress_decompress (d : Nat) (hd : d = 1 ∨ d = 4 ∨ d = 5 ∨ d = 10 ∨ d = 11) (y : Int) (hy : 0 ≤ y ∧ y < 2 ^ d) :
    compress d (decompress d y) = some y := by
  obtain ⟨h1, h2, h3⟩ := decompress_spec d hd y hy
  rw [compress_spec d hd _ (Or.inl (by omega)), h1, Option.some.injEq]
  unfold Spec.compress Spec.decompress
  have stage : ∀ (a b c e : Int), e % 3329 = e → (a * e + 3329) / b = y → y % c = y → (a * (e % 3329) + 3329) / b % c = y := by
    intro a b c e h1 h2 h3
    rw [h1, h2, h3]
  rcases hd with rfl | rfl | rfl | rfl | rfl <;> norm_num at hy ⊢ <;> exact stage _ _ _ _ (by omega) (by omega) (by omega)

/-- Bound of the compression error, `⌈q / 2^{d+1}⌋`. -/
def errBound : Nat → Int
  | 1 => 832
  | 4 => 104
  | 5 => 52
  | 10 => 2
  | _ => 1

/-- Decompressing a compressed value is off by at most `errBound d` modulo `q`. -/
theorem decompress_compress (d : Nat) (hd : d = 1 ∨ d = 4 ∨ d = 5 ∨ d = 10 ∨ d = 11) (x : Int) (hx : -3329 ≤ x ∧ x ≤ 3360) :
    ∃ y r, compress d x = some y ∧ (3329 : Int) ∣ (decompress d y - x - r) ∧ -errBound d ≤ r ∧ r ≤ errBound d := by
  have hr := compress_range d x
  refine ⟨Spec.compress d x, ?_⟩
  rw [compress_spec d hd _ (Or.inl hx)]
  have h : ∃ r, (3329 : Int) ∣ (Spec.decompress d (Spec.compress d x) - x - r) ∧ -errBound d ≤ r ∧ r ≤ errBound d := by
    unfold Spec.compress Spec.decompress
    obtain ⟨w, t, rfl, hw⟩ : ∃ w t, x = w + 3329 * t ∧ (0 ≤ w ∧ w < 3329) := ⟨x % 3329, x / 3329, by omega, by omega⟩
    have e : (w + 3329 * t) % 3329 = w := by omega
    rw [e]
    rcases hd with rfl | rfl | rfl | rfl | rfl <;> unfold errBound <;> norm_num
    · by_cases h0 : (4 * w + 3329) / 6658 = 2
      · rw [h0]; exact ⟨3329 - w, ⟨- t - 1, by omega⟩, by omega, by omega⟩
      · rw [show (4 * w + 3329) / 6658 % 2 = (4 * w + 3329) / 6658 by omega]
        exact ⟨(6658 * ((4 * w + 3329) / 6658) + 2) / 4 - w, ⟨-t, by omega⟩, by omega, by omega⟩
    · by_cases h0 : (32 * w + 3329) / 6658 = 16
      · rw [h0]; exact ⟨3329 - w, ⟨- t - 1, by omega⟩, by omega, by omega⟩
      · rw [show (32 * w + 3329) / 6658 % 16 = (32 * w + 3329) / 6658 by omega]
        exact ⟨(6658 * ((32 * w + 3329) / 6658) + 16) / 32 - w, ⟨-t, by omega⟩, by omega, by omega⟩
    · by_cases h0 : (64 * w + 3329) / 6658 = 32
      · rw [h0]; exact ⟨3329 - w, ⟨- t - 1, by omega⟩, by omega, by omega⟩
      · rw [show (64 * w + 3329) / 6658 % 32 = (64 * w + 3329) / 6658 by omega]
        exact ⟨(6658 * ((64 * w + 3329) / 6658) + 32) / 64 - w, ⟨-t, by omega⟩, by omega, by omega⟩
    · by_cases h0 : (2048 * w + 3329) / 6658 = 1024
      · rw [h0]; exact ⟨3329 - w, ⟨- t - 1, by omega⟩, by omega, by omega⟩
      · rw [show (2048 * w + 3329) / 6658 % 1024 = (2048 * w + 3329) / 6658 by omega]
        exact ⟨(6658 * ((2048 * w + 3329) / 6658) + 1024) / 2048 - w, ⟨-t, by omega⟩, by omega, by omega⟩
    · by_cases h0 : (4096 * w + 3329) / 6658 = 2048
      · rw [h0]; exact ⟨3329 - w, ⟨- t - 1, by omega⟩, by omega, by omega⟩
      · rw [show (4096 * w + 3329) / 6658 % 2048 = (4096 * w + 3329) / 6658 by omega]
        exact ⟨(6658 * ((4096 * w + 3329) / 6658) + 2048) / 4096 - w, ⟨-t, by omega⟩, by omega, by omega⟩
  obtain ⟨r, h1, h2⟩ := h
  exact ⟨r, rfl, by rw [(decompress_spec d hd _ hr).1]; exact h1, h2⟩

/-- `ByteEncode_d` is the bit packing of FIPS 203 and `ByteDecode_d` undoes it. -/
theorem encode_decode (d : Nat) (hd : d = 1 ∨ d = 4 ∨ d = 5 ∨ d = 10 ∨ d = 11) (a : Poly)
    (ha : ∀ x, x < 256 → 0 ≤ a x ∧ a x < 2 ^ d) :
    ∃ r, byteEncode d a = some r ∧ (∀ i, r i < 256) ∧ PackedBits d (fun x => (a x).toNat) r ∧
      ∀ r', (∀ i, i < 32 * d → r' i = r i) → ∃ f, byteDecode d r' = some f ∧ ∀ x, x < 256 → f x = a x := by
  obtain ⟨r, h1, h2, h3⟩ := byteEncode_spec d hd a ha
  exact ⟨r, h1, h2, h3, fun r' hr => byteDecode_byteEncode d hd a ha r r' h1 hr⟩

/-- `ByteDecode_d` of any bytes reads the `d`-bit fields. -/
theorem decode_fields (d : Nat) (hd : d = 1 ∨ d = 4 ∨ d = 5 ∨ d = 10 ∨ d = 11) (r : Nat → Nat)
    (hr : ∀ i, i < 32 * d → r i < 256) :
    ∃ f, byteDecode d r = some f ∧ (∀ x, 0 ≤ f x) ∧ UnpackedBits d r (fun x => (f x).toNat) := byteDecode_spec d hd r hr

/-- The 12-bit decoder of keys accepts exactly the packings of residues: any field `≥ q` is an error. -/
theorem decode12_accepts_iff (r : Nat → Nat) (hr : ∀ i, i < 384 → r i < 256) :
    (decodeBits12 r).isSome ↔ ∃ f : Nat → Nat, (∀ x, x < 256 → f x < 3329) ∧ PackedBits 12 f r := by
  obtain ⟨h1, h2⟩ := decodeBits12_spec r hr
  constructor
  · intro h
    obtain ⟨f, hf⟩ := Option.isSome_iff_exists.mp h
    obtain ⟨a, b⟩ := h1 f hf
    exact ⟨_, fun x hx => by have := a x hx; show (f x).toNat < 3329; omega, b⟩
  · intro h
    cases hd : decodeBits12 r with
    | none => exact absurd h (h2 hd)
    | some f => rfl
example : (decodeBits12 (fun _ => 0)).isSome ∧ ¬ (decodeBits12 (fun n => if n = 1 then 0xD0 else if n = 2 then 0x0D else if n = 0 then 0 else 0xFF)).isSome := by
  decide +kernel

/-- The transform computes FIPS 203, 4.11, without overflow. -/
theorem ntt_correct (a : Poly) (ha : ∀ x, x < 256 → |a x| ≤ 3328) (x : Nat) (hx : x < 256) :
    cz (ntt zetaPower1 a) x = Spec.ntt (cz a) x :=
  (ntt_steps a 3328 (by decide) (fun x hx => abs_le.mp (ha x hx)) x hx).2

/-- The inverse transform inverts it, up to the centred residue. -/
theorem intt_ntt (a : Poly) (ha : ∀ x, x < 256 → |a x| ≤ 3328) (x : Nat) (hx : x < 256) :
    |intt zetaPower1 (barrettAll (ntt zetaPower1 a)) x| ≤ 1664 ∧
    cz (intt zetaPower1 (barrettAll (ntt zetaPower1 a))) x = cz a x := by
  have hN := fun x hx => ntt_steps a 3328 (by decide) (fun x hx => abs_le.mp (ha x hx)) x hx
  have hb : ∀ x, x < 256 → |barrettAll (ntt zetaPower1 a) x| ≤ 1664 := fun x hx =>
    abs_le.mpr (barrett_range_small _ (by have := (hN x hx).1; omega))
  have hz : ∀ x, x < 256 → ((barrettAll (ntt zetaPower1 a) x : Int) : Zq) = Spec.ntt (cz a) x := by
    intro x hx
    rw [← (show _ = Spec.ntt (cz a) x from (hN x hx).2)]
    have := barrett_dvd (ntt zetaPower1 a x) (by have := (hN x hx).1; omega)
    rw [ZMod.intCast_eq_intCast_iff_dvd_sub]
    exact_mod_cast this
  have hs : SumsFit (barrettAll (ntt zetaPower1 a)) := by
    intro c p hc hp
    have h0 := hb (16 * c + p) (by omega); have h1 := hb (16 * c + p + 2) (by omega)
    have h2 := hb (16 * c + p + 4) (by omega); have h3 := hb (16 * c + p + 6) (by omega)
    have h4 := hb (16 * c + p + 8) (by omega); have h5 := hb (16 * c + p + 10) (by omega)
    have h6 := hb (16 * c + p + 12) (by omega); have h7 := hb (16 * c + p + 14) (by omega)
    omega
  obtain ⟨h1, h2⟩ := intt_main _ (cz a) hs hz x hx
  exact ⟨abs_le.mpr h1, h2⟩

/-- Centred binomial sampling is Algorithm 8. -/
theorem cbd_correct (buf : Nat → Nat) (h : ∀ n, buf n < 256) (x : Nat) :
    cbd 2 buf x = some (Spec.cbd2 buf x) ∧ cbd 3 buf x = some (Spec.cbd3 buf x) := ⟨cbd_two buf h x, cbd_three buf h x⟩
example : cbd 3 (fun _ => 0x07) 0 = some 3 ∧ cbd 2 (fun _ => 0x0C) 0 = some (-2) := by decide

/-- Rejection sampling of a matrix entry is Algorithm 7: the first 256 candidates below `q`, in order; the loop is still
running exactly when the blocks squeezed so far hold fewer. -/
theorem matrix_correct {P : Prims} (hP : P.Ok) (fuel : Nat) (rho : Nat → Nat) (i j : Nat) :
    (∀ a, matrixEntry P fuel rho i j = some a → ∀ x, x < 256 → ∃ v : Nat, v < 3329 ∧ a x = v ∧
      (accepted ((List.range fuel).map (P.xof (bytes rho 0 32 ++ [j, i]))).flatten)[x]? = some v) ∧
    (matrixEntry P fuel rho i j = none →
      (accepted ((List.range fuel).map (P.xof (bytes rho 0 32 ++ [j, i]))).flatten).length < 256) :=
  matrixEntry_spec hP fuel rho i j

/-! ## C61: the scheme -/

/-- Key generation: `t = A s + e` in `R_q` for the sampled `A`, `s`, `e`; the byte strings are
`ek = ByteEncode12(t) ‖ rho` and `dk = ByteEncode12(s) ‖ ek ‖ H(ek) ‖ z`. -/
theorem keyGen_correct {P : Prims} (hP : P.Ok) {p : Params} (hp : p ∈ paramTable) {fuel : Nat} {d z ek dk : Nat → Nat}
    {key : KeyData} (h : keyGen P p fuel d z = some (ek, dk, key)) :
    Generated P p fuel d z ek dk key ∧
    ∀ (A : Nat → Nat → Nat → Zq) (T : Nat → Nat → Zq),
      (∀ i, i < p.k → ∀ j, j < p.k → ∀ x, x < 256 → Spec.ntt (A i j) x = cz (key.a i j) x) →
      (∀ i, i < p.k → ∀ x, x < 256 → Spec.ntt (T i) x = cz (key.t i) x) →
      ∀ i, i < p.k → el (T i) = el (cz (genE P p (fun n => P.G (bytes d 0 32 ++ [p.k]) (32 + n)) i)) +
        ∑ j ∈ range p.k, el (A i j) * el (cz (genS P p (fun n => P.G (bytes d 0 32 ++ [p.k]) (32 + n)) j)) := by
  have hg := keyGen_spec hP hp h
  exact ⟨hg, fun A T hA hT i hi => (hg.rep A hA).pub i hi (T i) (hT i hi)⟩

/-- The small polynomials are Algorithm 8 applied to the SHAKE256 stream of the seed and a nonce: `0 … k-1` for the
secret vectors, `k … 2k-1` for the error vectors and `2k` for the last error; `eta1` is 3 for ML-KEM-512 and 2 for the other
two, `eta2` is 2.  The message polynomial has coefficient 1665 where the message has a set bit and 0 elsewhere. -/
theorem samples_correct {P : Prims} (hP : P.Ok) {p : Params} (hp : p ∈ paramTable) (seed : Nat → Nat) (i x : Nat) :
    genS P p seed i x = (if p.k = 2 then cbd3 else cbd2) (P.J (bytes seed 0 32 ++ [i])) x ∧
    genE P p seed i x = (if p.k = 2 then cbd3 else cbd2) (P.J (bytes seed 0 32 ++ [p.k + i])) x ∧
    encY P p seed i x = (if p.k = 2 then cbd3 else cbd2) (P.J (bytes seed 0 32 ++ [i])) x ∧
    encE1 P p seed i x = cbd2 (P.J (bytes seed 0 32 ++ [p.k + i])) x ∧
    encE2 P p seed x = cbd2 (P.J (bytes seed 0 32 ++ [2 * p.k])) x ∧
    messagePoly seed x = 1665 * Spec.bit seed x := by
  have c2 : ∀ n, cbdPoly 2 (prf P seed n) x = cbd2 (P.J (bytes seed 0 32 ++ [n])) x := by
    intro n
    unfold cbdPoly
    rw [cbd_two (prf P seed n) (fun k => hP.j _ k)]; rfl
  have c3 : ∀ n, cbdPoly 3 (prf P seed n) x = cbd3 (P.J (bytes seed 0 32 ++ [n])) x := by
    intro n
    unfold cbdPoly
    rw [cbd_three (prf P seed n) (fun k => hP.j _ k)]; rfl
  have hm : messagePoly seed x = 1665 * Spec.bit seed x := by
    rw [(message_bit seed x).2]
    unfold decodeBits1 Spec.bit
    rw [show (0x01 : Nat) = 2 ^ 1 - 1 by decide, Nat.and_two_pow_sub_one_eq_mod, Nat.shiftRight_eq_div_pow]
  unfold genS genE encY encE1 encE2
  simp only [paramTable, List.mem_cons, List.not_mem_nil, or_false] at hp
  rcases hp with rfl | rfl | rfl
  · exact ⟨c3 _, c3 _, c3 _, c2 _, c2 _, hm⟩
  · exact ⟨c2 _, c2 _, c2 _, c2 _, c2 _, hm⟩
  · exact ⟨c2 _, c2 _, c2 _, c2 _, c2 _, hm⟩

/-- The parameter sets of FIPS 203, table 2: `(k, eta1, eta2, du, dv)`. -/
theorem parameters : paramTable.map (fun p => (p.k, p.eta1, p.eta2, p.du, p.dv)) =
    [(2, 3, 2, 10, 4), (3, 2, 2, 10, 4), (4, 2, 2, 11, 5)] := by decide

/-- Encapsulation (Algorithm 17): the shared key and the randomness of the encryption are the two halves of
`G(m ‖ H(ek))`. -/
theorem encaps_correct (P : Prims) (p : Params) (key : KeyData) (ek m : Nat → Nat) :
    (encaps P p key ek m).2 = P.G (bytes m 0 32 ++ bytes (P.H (bytes ek 0 (384 * p.k + 32))) 0 32) ∧
    (encaps P p key ek m).1 = pkeEncrypt P p key m
      (fun n => P.G (bytes m 0 32 ++ bytes (P.H (bytes ek 0 (384 * p.k + 32))) 0 32) (32 + n)) := ⟨rfl, rfl⟩

/-- Encryption: every byte of the ciphertext is written; the parts are the packed, compressed `u = Aᵀ y + e1` and
`v = t y + e2 + mu`. -/
theorem encrypt_correct {P : Prims} (hP : P.Ok) {p : Params} (hp : p ∈ paramTable) (key : KeyData) (hk : key.Reduced p.k)
    (m r : Nat → Nat) (A : Nat → Nat → Nat → Zq) (T : Nat → Nat → Zq)
    (hA : ∀ i j, i < p.k → j < p.k → ∀ x, x < 256 → Spec.ntt (A i j) x = cz (key.a i j) x)
    (hT : ∀ j, j < p.k → ∀ x, x < 256 → Spec.ntt (T j) x = cz (key.t j) x)
    (U : Nat → Nat → Int) (V : Nat → Int)
    (hU : ∀ i, i < p.k → el (cz (U i)) = ∑ j ∈ range p.k, el (A j i) * el (cz (encY P p r j)) + el (cz (encE1 P p r i)))
    (hV : el (cz V) = ∑ j ∈ range p.k, el (T j) * el (cz (encY P p r j)) + el (cz (encE2 P p r)) + el (cz (messagePoly m))) :
    ∃ c : Nat → Nat, (∀ n, n < cipherLen p → pkeEncrypt P p key m r n = some (c n)) ∧ (∀ n, c n < 256) ∧
      (∀ i, i < p.k → PackedBits p.du (fun x => (Spec.compress p.du (U i x)).toNat) (fun n => c (32 * p.du * i + n))) ∧
      PackedBits p.dv (fun x => (Spec.compress p.dv (V x)).toNat) (fun n => c (32 * p.du * p.k + n)) :=
  pkeEncrypt_spec hP hp key m r A T hk.a hk.t hA hT U V hU hV

/-- Decryption of any byte string: the bits of `Compress_1(v' - s u')`. -/
theorem decrypt_correct {p : Params} (hp : p ∈ paramTable) (key : KeyData) (hk : key.Reduced p.k) (ct : Nat → Nat)
    (hct : ∀ n, n < cipherLen p → ct n < 256)
    (S : Nat → Nat → Zq) (hS : ∀ j, j < p.k → ∀ x, x < 256 → Spec.ntt (S j) x = cz (key.s j) x) (W : Nat → Int)
    (hW : el (cz W) = el (cz (decodeDecompress p.dv (fun n => ct (32 * p.du * p.k + n)))) -
      ∑ j ∈ range p.k, el (S j) * el (cz (decodeDecompress p.du (fun n => ct (32 * p.du * j + n))))) :
    ∃ m, pkeDecrypt p key ct = some m ∧ (∀ n, m n < 256) ∧ PackedBits 1 (fun x => (Spec.compress 1 (W x)).toNat) m :=
  pkeDecrypt_spec hp key hk.s ct hct S hS W hW

/-- Decapsulation of any byte string with any stored key of reduced coefficients: an error exactly when the stored hash
is not the hash of the stored public key; otherwise the key `K'` if re-encryption of the decrypted message gives the very
ciphertext, and `J(z ‖ c)` if any byte differs. -/
theorem decaps_correct {P : Prims} (hP : P.Ok) {p : Params} (hp : p ∈ paramTable) (key : KeyData) (hk : key.Reduced p.k)
    (dk ct : Nat → Nat) (hct : ∀ n, n < cipherLen p → ct n < 256) :
    (bytes dk (768 * p.k + 32) 32 ≠ bytes (P.H (bytes dk (384 * p.k) (384 * p.k + 32))) 0 32 ∧ decaps P p key dk ct = .invalidKey) ∨
    (bytes dk (768 * p.k + 32) 32 = bytes (P.H (bytes dk (384 * p.k) (384 * p.k + 32))) 0 32 ∧
      ∃ m c sk : Nat → Nat, pkeDecrypt p key ct = some m ∧
        (∀ n, n < cipherLen p → pkeEncrypt P p key m (fun n => P.G (bytes m 0 32 ++ bytes dk (768 * p.k + 32) 32) (32 + n)) n = some (c n)) ∧
        decaps P p key dk ct = .key sk ∧
        ∀ i, i < 32 → sk i = (if ∀ n, n < cipherLen p → ct n = c n then P.G (bytes m 0 32 ++ bytes dk (768 * p.k + 32) 32) i
          else P.J (bytes dk (768 * p.k + 64) 32 ++ bytes ct 0 (cipherLen p)) i)) :=
  decaps_spec hP hp key hk dk ct hct

/-- A key that was imported is reduced, and importing refuses exactly the encodings with a field `≥ q`
(when the matrix can be sampled). -/
theorem import_correct {P : Prims} (hP : P.Ok) (p : Params) (fuel : Nat) (dk : Nat → Nat)
    (hb : ∀ n, n < 768 * p.k → dk n < 256) (hm : (genMatrix P p.k fuel (fun n => dk (768 * p.k + n))).isSome) :
    (∀ key, decodeDk P p fuel dk = some key → key.Reduced p.k) ∧
    ((decodeDk P p fuel dk).isSome ↔ ∀ i, i < 2 * p.k →
      ∃ f : Nat → Nat, (∀ x, x < 256 → f x < 3329) ∧ PackedBits 12 f (fun n => dk (384 * i + n))) := by
  have hoff : ∀ i n, dk (384 * p.k + (384 * i + n)) = dk (384 * (p.k + i) + n) := fun i n => congrArg dk (by ring)
  have hgm : (fun n => dk (384 * p.k + (384 * p.k + n))) = fun n => dk (768 * p.k + n) := funext fun n => congrArg dk (by ring)
  obtain ⟨a, ha⟩ := Option.isSome_iff_exists.mp hm
  have hs := decodeVec_spec p.k dk (fun n hn => hb n (by omega))
  have ht := decodeVec_spec p.k (fun n => dk (384 * p.k + n)) (fun n hn => hb _ (by omega))
  unfold decodeDk decodeEk
  simp only [hgm, ha, Option.bind_some]
  cases h1 : decodeVec p.k dk with
  | none =>
    refine ⟨fun key h => (by simp at h), ?_⟩
    simp only [Option.bind_none, Option.isSome_none, Bool.false_eq_true, false_iff]
    intro hall
    obtain ⟨i, hi, hn⟩ := hs.2 h1
    exact hn (hall i (by omega))
  | some s =>
    cases h2 : decodeVec p.k (fun n => dk (384 * p.k + n)) with
    | none =>
      refine ⟨fun key h => (by simp at h), ?_⟩
      simp only [Option.bind_some, Option.map_none, Option.isSome_none, Bool.false_eq_true, false_iff]
      intro hall
      obtain ⟨i, hi, hn⟩ := ht.2 h2
      obtain ⟨f, f1, f2⟩ := hall (p.k + i) (by omega)
      exact hn ⟨f, f1, by simpa only [hoff] using f2⟩
    | some t =>
      refine ⟨fun key h => ?_, ?_⟩
      · simp only [Option.bind_some, Option.map_some, Option.some.injEq] at h
        subst h
        exact ⟨fun i j hi hj x hx => matrix_range hP (genMatrix_spec ha i j hi hj) x hx, fun i hi => (hs.1 s h1 i hi).1,
          fun i hi => (ht.1 t h2 i hi).1⟩
      · simp only [Option.bind_some, Option.map_some, Option.isSome_some, true_iff]
        intro i hi
        by_cases hik : i < p.k
        · obtain ⟨r1, r2⟩ := hs.1 s h1 i hik
          exact ⟨_, fun x hx => by have := r1 x hx; show (s i x).toNat < 3329; omega, r2⟩
        · obtain ⟨r1, r2⟩ := ht.1 t h2 (i - p.k) (by omega)
          refine ⟨_, fun x hx => by have := r1 x hx; show (t (i - p.k) x).toNat < 3329; omega, ?_⟩
          simp only [hoff, show p.k + (i - p.k) = i by omega] at r2
          exact r2

/-- Both sides agree: for every key pair, message and hash functions, if the noise of this encryption lies in
`[-832, 831]` then the exported keys can be imported, encapsulation to the imported public key writes the whole
ciphertext, and decapsulation with the imported private key returns the same shared key. -/
theorem encaps_decaps {P : Prims} (hP : P.Ok) {p : Params} (hp : p ∈ paramTable) {fuel : Nat} {d z ek dk : Nat → Nat}
    {key : KeyData} (hgen : keyGen P p fuel d z = some (ek, dk, key)) (m : Nat → Nat) (hm : ∀ n, n < 32 → m n < 256)
    (A : Nat → Nat → Nat → Zq) (hA : ∀ i, i < p.k → ∀ j, j < p.k → ∀ x, x < 256 → Spec.ntt (A i j) x = cz (key.a i j) x)
    (N : Nat → Int)
    (hN : NoiseIs P p A (genS P p fun n => P.G (bytes d 0 32 ++ [p.k]) (32 + n))
      (genE P p fun n => P.G (bytes d 0 32 ++ [p.k]) (32 + n)) m
      (fun n => P.G (bytes m 0 32 ++ bytes (P.H (bytes ek 0 (384 * p.k + 32))) 0 32) (32 + n)) N)
    (hbound : ∀ x, x < 256 → -832 ≤ N x ∧ N x ≤ 831) :
    ∃ a t key', decodeEk P p fuel ek = some (a, t) ∧ decodeDk P p fuel dk = some key' ∧
      ∀ s0, ∃ ct sk : Nat → Nat, (∀ n, n < cipherLen p → (encaps P p ⟨a, s0, t⟩ ek m).1 n = some (ct n)) ∧
        decaps P p key' dk ct = .key sk ∧ ∀ i, i < 32 → sk i = (encaps P p ⟨a, s0, t⟩ ek m).2 i :=
  kem_agree hP hp hgen m hm A hA N hN hbound

/-- The ciphertext lengths of the table in ml_kem.c:30-34. -/
theorem cipher_lengths : paramTable.map cipherLen = [768, 1088, 1568] := by decide

/-! ## A concrete instance

Hash functions for which every sampled small polynomial is the constant 1 and every matrix entry the constant 5. -/

/-- Demonstration hash functions. -/
def P0 : Prims where
  G := fun l n => (l.sum + 7 * n) % 256
  H := fun l n => (l.sum + n) % 256
  J := fun _ n => if n = 0 then 1 else 0
  xof := fun _ _ => (List.replicate 56 [5, 0, 0]).flatten

theorem P0_ok : P0.Ok := by
  refine ⟨fun l n => Nat.mod_lt _ (by decide), fun l n => Nat.mod_lt _ (by decide), fun l n => ?_, fun l b => ?_⟩
  · show (if n = 0 then 1 else 0) < 256
    split <;> decide
  · show (List.replicate 56 [5, 0, 0]).flatten.length = 168 ∧ ∀ c ∈ (List.replicate 56 [5, 0, 0]).flatten, c < 256
    decide +kernel

/-- ML-KEM-512. -/
def p512 : Params := ⟨2, 3, 2, 10, 4⟩
theorem p512_k : p512.k = 2 := rfl
theorem p512_mem : p512 ∈ paramTable := List.mem_cons_self ..

example : (keyGen P0 p512 3 (fun n => n) (fun n => n)).isSome := by
  unfold keyGen
  rw [Option.isSome_map]
  decide +kernel

/-- Constant polynomials. -/
def cst (c : Zq) : Nat → Zq := fun x => if x = 0 then c else 0
/-- Constant polynomials over the integers. -/
def icst (c : Int) : Nat → Int := fun x => if x = 0 then c else 0

theorem el_cst (c : Zq) : el (cst c) = AdjoinRoot.mk _ (Polynomial.C c) := by
  have : toPoly (cst c) = Polynomial.C c := by
    unfold toPoly cst
    rw [sum_eq_single 0]
    · simp
    · intro b _ hb; simp [hb]
    · intro h; simp at h
  unfold el
  rw [this]

theorem el_cst_mul (a b : Zq) : el (cst a) * el (cst b) = el (cst (a * b)) := by
  rw [el_cst, el_cst, el_cst, ← map_mul, Polynomial.C_mul]
theorem el_cst_add (a b : Zq) : el (cst a) + el (cst b) = el (cst (a + b)) := by
  rw [el_cst, el_cst, el_cst, ← map_add, Polynomial.C_add]

theorem ntt_cst (c : Zq) (x : Nat) : Spec.ntt (cst c) x = if x % 2 = 0 then c else 0 := by
  unfold Spec.ntt cst
  rw [sum_eq_single 0]
  · rcases (show x % 2 = 0 ∨ x % 2 = 1 by omega) with h | h <;> simp [h]
  · intro b _ hb; simp [hb]
  · intro h; simp at h

theorem demo_bit (n : Nat) : Spec.bit (fun n => if n = 0 then 1 else 0) n = if n = 0 then 1 else 0 := by
  unfold Spec.bit
  by_cases h : n / 8 = 0
  · simp only [h, if_true]
    have : n < 8 := by omega
    interval_cases n <;> decide
  · simp only [h, if_false]
    rw [if_neg (by omega), Nat.zero_div]
    rfl

theorem demo_cbd (eta : Nat) (he : eta = 2 ∨ eta = 3) (seed : Nat → Nat) (nonce : Nat) :
    cbdPoly eta (prf P0 seed nonce) = icst 1 := by
  have hb : ∀ n, prf P0 seed nonce n < 256 := fun n => P0_ok.j _ _
  have hprf : prf P0 seed nonce = fun n => if n = 0 then 1 else 0 := rfl
  funext x
  unfold cbdPoly icst
  rcases he with rfl | rfl
  · rw [cbd_two _ hb]
    simp only [Spec.cbd2, hprf, demo_bit]
    by_cases h : x = 0
    · subst h; decide
    · rw [if_neg h, if_neg (by omega), if_neg (by omega), if_neg (by omega), if_neg (by omega)]; rfl
  · rw [cbd_three _ hb]
    simp only [Spec.cbd3, hprf, demo_bit]
    by_cases h : x = 0
    · subst h; decide
    · rw [if_neg h, if_neg (by omega), if_neg (by omega), if_neg (by omega), if_neg (by omega), if_neg (by omega),
        if_neg (by omega)]; rfl

theorem cz_icst (c : Int) : cz (icst c) = cst (c : Zq) := by
  funext x; unfold cz icst cst; split <;> simp

/-- The noise of the demonstration encryption. -/
def demoN (m : Nat → Nat) : Nat → Int := fun x =>
  Spec.decompress 4 (Spec.compress 4 (messagePoly m x + icst 23 x)) - (messagePoly m x + icst 23 x) + icst 3 x

/-- The hypotheses of `encaps_decaps` hold for the demonstration hash functions, every message and every seed. -/
theorem demo_noise (m r sigma : Nat → Nat) :
    NoiseIs P0 p512 (fun _ _ => cst 5) (genS P0 p512 sigma) (genE P0 p512 sigma) m r (demoN m) ∧
    ∀ x, x < 256 → -832 ≤ demoN m x ∧ demoN m x ≤ 831 := by
  have hS : ∀ i, genS P0 p512 sigma i = icst 1 := fun i => demo_cbd _ (by decide) _ _
  have hE : ∀ i, genE P0 p512 sigma i = icst 1 := fun i => demo_cbd _ (by decide) _ _
  have hY : ∀ i, encY P0 p512 r i = icst 1 := fun i => demo_cbd _ (by decide) _ _
  have h1 : ∀ i, encE1 P0 p512 r i = icst 1 := fun i => demo_cbd _ (by decide) _ _
  have h2 : encE2 P0 p512 r = icst 1 := demo_cbd _ (by decide) _ _
  have hV : ∀ f : Nat → Int, el (cz fun x => f x + icst 23 x) = el (cz f) + el (cst 23) := by
    intro f
    rw [show (23 : Zq) = ((23 : Int) : Zq) by norm_num, ← cz_icst, ← el_add]
    exact el_congr fun x _ => by unfold cz; push_cast; rfl
  constructor
  · refine ⟨fun _ => cst 11, fun _ => icst 11, fun x => messagePoly m x + icst 23 x, fun i _ => ?_, fun i _ => ?_, ?_, ?_⟩
    · simp only [hS, hE, cz_icst, p512_k, sum_range_succ, sum_range_zero, zero_add, el_cst_mul, el_cst_add]
      norm_num
    · simp only [hY, h1, cz_icst, p512_k, sum_range_succ, sum_range_zero, zero_add, el_cst_mul, el_cst_add]
      norm_num
    · rw [hV]
      simp only [hY, h2, cz_icst, p512_k, sum_range_succ, sum_range_zero, zero_add, el_cst_mul, el_cst_add]
      rw [add_comm]
      norm_num
    · have hU : (fun x => Spec.decompress 10 (Spec.compress 10 (icst 11 x))) = icst 10 := by
        funext x; unfold icst; split <;> decide
      have hN : el (cz (demoN m)) = (el (cz fun x => Spec.decompress 4 (Spec.compress 4 (messagePoly m x + icst 23 x))) -
          el (cz fun x => messagePoly m x + icst 23 x)) + el (cst 3) := by
        rw [show (3 : Zq) = ((3 : Int) : Zq) by norm_num, ← cz_icst, ← el_sub, ← el_add]
        exact el_congr fun x _ => by unfold cz demoN; push_cast; rfl
      rw [hN]
      have hdu : p512.du = 10 := rfl
      have hdv : p512.dv = 4 := rfl
      rw [hdu, hdv]
      simp only [hU, hS, hE, hY, h1, h2, cz_icst, p512_k, sum_range_succ, sum_range_zero, zero_add]
      have e : ∀ X : Rq, X + el (cst 3) = el (cst ((1 : Int) : Zq)) * el (cst ((1 : Int) : Zq)) + el (cst ((1 : Int) : Zq)) * el (cst ((1 : Int) : Zq)) +
          el (cst ((1 : Int) : Zq)) + X - (el (cst ((1 : Int) : Zq)) * (el (cst ((1 : Int) : Zq)) + (el (cst ((10 : Int) : Zq)) - el (cst ((11 : Int) : Zq)))) +
          el (cst ((1 : Int) : Zq)) * (el (cst ((1 : Int) : Zq)) + (el (cst ((10 : Int) : Zq)) - el (cst ((11 : Int) : Zq))))) := by
        intro X
        have h11 : el (cst ((11 : Int) : Zq)) = el (cst ((10 : Int) : Zq)) + el (cst ((1 : Int) : Zq)) := by
          rw [el_cst_add]; norm_num
        have h3 : el (cst 3) = el (cst ((1 : Int) : Zq)) * el (cst ((1 : Int) : Zq)) + el (cst ((1 : Int) : Zq)) * el (cst ((1 : Int) : Zq)) +
          el (cst ((1 : Int) : Zq)) := by
          simp only [el_cst_mul, el_cst_add]; norm_num
        rw [h11, h3]
        ring
      generalize (el (cz fun x => Spec.decompress 4 (Spec.compress 4 (messagePoly m x + icst 23 x))) -
        el (cz fun x => messagePoly m x + icst 23 x)) = X
      exact e X
  · intro x _
    obtain ⟨hb, hm⟩ := message_bit m x
    unfold demoN icst
    rw [hm]
    rcases hb with hb | hb <;> rw [hb] <;> split <;> decide

/-- With these hash functions and the seeds below, both sides derive the same key for every message. -/
example (m : Nat → Nat) (hm : ∀ n, n < 32 → m n < 256) : ∃ ek dk key, keyGen P0 p512 3 (fun n => n) (fun n => n) = some (ek, dk, key) ∧
    ∃ a t key', decodeEk P0 p512 3 ek = some (a, t) ∧ decodeDk P0 p512 3 dk = some key' ∧
      ∀ s0, ∃ ct sk : Nat → Nat, (∀ n, n < 768 → (encaps P0 p512 ⟨a, s0, t⟩ ek m).1 n = some (ct n)) ∧
        decaps P0 p512 key' dk ct = .key sk ∧ ∀ i, i < 32 → sk i = (encaps P0 p512 ⟨a, s0, t⟩ ek m).2 i := by
  have hsome : (keyGen P0 p512 3 (fun n => n) (fun n => n)).isSome := by
    unfold keyGen
    rw [Option.isSome_map]
    decide +kernel
  obtain ⟨⟨ek, dk, key⟩, hk⟩ := Option.isSome_iff_exists.mp hsome
  refine ⟨ek, dk, key, hk, ?_⟩
  have hent : ∀ x, x < 256 → (accepted ((List.range 3).map fun _ => (List.replicate 56 [5, 0, 0]).flatten).flatten)[x]? =
      some (if x % 2 = 0 then 5 else 0) := by decide +kernel
  refine encaps_decaps P0_ok p512_mem hk m hm (fun _ _ => cst 5) (fun i hi j hj x hx => ?_) (demoN m) (demo_noise m _ _).1
    (demo_noise m (fun n => n) (fun n => n)).2
  obtain ⟨v, _, hv, hx'⟩ := (matrixEntry_spec P0_ok _ _ _ _).1 _ ((keyGen_spec P0_ok p512_mem hk).mat i hi j hj) x hx
  have e : v = if x % 2 = 0 then 5 else 0 := Option.some.inj ((hx'.symm).trans (hent x hx))
  rw [ntt_cst]
  unfold cz
  rw [hv, e]
  split <;> simp

end Verif.Crypto.Mlkem.Props
