import Verif.Crypto.Mlkem.KemModel
import Verif.Crypto.Mlkem.Codec2
import Verif.Crypto.Mlkem.Sample
/-! The byte-level operations: K-PKE and ML-KEM. -/
namespace Verif.Crypto.Mlkem
open Finset Spec

/-- The hash functions return bytes, the XOF blocks of 168 bytes. -/
structure Prims.Ok (P : Prims) : Prop where
  g : ∀ l n, P.G l n < 256
  h : ∀ l n, P.H l n < 256
  j : ∀ l n, P.J l n < 256
  x : ∀ l b, (P.xof l b).length = 168 ∧ ∀ c ∈ P.xof l b, c < 256

/-- A parameter set of the table. -/
theorem param_cases {p : Params} (hp : p ∈ paramTable) :
    p.k ≤ 4 ∧ 0 < p.k ∧ (p.du = 10 ∨ p.du = 11) ∧ (p.dv = 4 ∨ p.dv = 5) ∧ (p.eta1 = 2 ∨ p.eta1 = 3) ∧ (p.eta2 = 2 ∨ p.eta2 = 3) := by
  simp only [paramTable, List.mem_cons, List.not_mem_nil, or_false] at hp
  rcases hp with rfl | rfl | rfl <;> decide

theorem cbdPoly_range (eta : Nat) (he : eta = 2 ∨ eta = 3) (buf : Nat → Nat) (h : ∀ n, buf n < 256) (x : Nat) :
    |cbdPoly eta buf x| ≤ 3 := by
  obtain ⟨v, h1, h2⟩ := cbd_range eta he buf h x
  unfold cbdPoly
  rw [h1]
  exact abs_le.mpr (by simpa using h2)

/-- The matrix entry is the sequence of the first 256 candidates below `q` of the XOF output. -/
theorem matrixEntry_spec {P : Prims} (hP : P.Ok) (fuel : Nat) (rho : Nat → Nat) (i j : Nat) :
    (∀ a, matrixEntry P fuel rho i j = some a → ∀ x, x < 256 → ∃ v : Nat, v < 3329 ∧ a x = v ∧
      (accepted ((List.range fuel).map (P.xof (bytes rho 0 32 ++ [j, i]))).flatten)[x]? = some v) ∧
    (matrixEntry P fuel rho i j = none →
      (accepted ((List.range fuel).map (P.xof (bytes rho 0 32 ++ [j, i]))).flatten).length < 256) := by
  have hb : ∀ blk ∈ (List.range fuel).map (P.xof (bytes rho 0 32 ++ [j, i])), blk.length = 168 ∧ ∀ b ∈ blk, b < 256 := by
    intro blk hm
    obtain ⟨n, _, rfl⟩ := List.mem_map.mp hm
    exact hP.x _ _
  obtain ⟨h1, h2⟩ := sample_acc [] (fun _ => 0, 0) ⟨rfl, fun x hx => absurd hx (Nat.not_lt_zero x)⟩ _ (fun blk hm => (hb blk hm).2)
  rw [List.nil_append, accepted_flatten _ (fun b hm => by rw [(hb b hm).1])] at h1 h2
  refine ⟨fun a ha x hx => ?_, h2⟩
  obtain ⟨c, ⟨h3, h4⟩, h5⟩ := h1 a ha
  simp only at h3 h4
  have hx' : x < (accepted ((List.range fuel).map (P.xof (bytes rho 0 32 ++ [j, i]))).flatten).length := by omega
  refine ⟨_, ?_, h4 x hx' hx, List.getElem?_eq_getElem hx'⟩
  have := List.getElem_mem hx'
  exact of_decide_eq_true (List.mem_filter.mp this).2

/-- The working key `key` belongs to the matrix `A`, the secret `s` and the error `e`. -/
structure Represents (k : Nat) (key : KeyData) (A : Nat → Nat → Nat → Zq) (s e : Nat → Poly) : Prop where
  ha : ∀ i, i < k → ∀ j, j < k → ∀ x, x < 256 → (0 ≤ key.a i j x ∧ key.a i j x < 3329) ∧ Spec.ntt (A i j) x = cz (key.a i j) x
  hs : ∀ i, i < k → ∀ x, x < 256 → (0 ≤ key.s i x ∧ key.s i x < 3329) ∧ Spec.ntt (cz (s i)) x = cz (key.s i) x
  ht : ∀ i, i < k → ∀ x, x < 256 → (0 ≤ key.t i x ∧ key.t i x < 3329) ∧
    cz (key.t i) x = Spec.ntt (cz (e i)) x + ∑ j ∈ range k, pairMul (cz (key.a i j)) (Spec.ntt (cz (s j))) x

theorem pairMul_congr' {f f' g : Nat → Zq} (x : Nat) (hx : x < 256) (h : ∀ y, y < 256 → f y = f' y) :
    pairMul f g x = pairMul f' g x := by
  unfold pairMul
  split
  · rw [h x hx, h (x + 1) (by omega)]
  · rw [h x hx, h (x - 1) (by omega)]

/-- The public vector as ring elements: `T = A s + e`. -/
theorem Represents.pub {k : Nat} {key : KeyData} {A : Nat → Nat → Nat → Zq} {s e : Nat → Poly}
    (h : Represents k key A s e) (i : Nat) (hi : i < k) (T : Nat → Zq) (hT : ∀ x, x < 256 → Spec.ntt T x = cz (key.t i) x) :
    el T = el (cz (e i)) + ∑ j ∈ range k, el (A i j) * el (cz (s j)) := by
  apply el_sum_mul
  intro x hx
  have hsum : ∑ j ∈ range k, pairMul (Spec.ntt (A i j)) (Spec.ntt (cz (s j))) x =
      ∑ j ∈ range k, pairMul (cz (key.a i j)) (Spec.ntt (cz (s j))) x :=
    sum_congr rfl fun j hj => pairMul_congr' x hx fun y hy => (h.ha i hi j (by simpa using hj) y hy).2
  rw [hT x hx, (h.ht i hi x hx).2, hsum]

theorem message_bit (m : Nat → Nat) (x : Nat) :
    (decodeBits1 m x = 0 ∨ decodeBits1 m x = 1) ∧ messagePoly m x = 1665 * (decodeBits1 m x : Int) := by
  have h : decodeBits1 m x = 0 ∨ decodeBits1 m x = 1 := by
    unfold decodeBits1
    rw [show (0x01 : Nat) = 2 ^ 1 - 1 by decide, Nat.and_two_pow_sub_one_eq_mod]
    omega
  refine ⟨h, ?_⟩
  unfold messagePoly
  rcases h with h | h <;> rw [h] <;> decide

theorem compress_range (d : Nat) (x : Int) : 0 ≤ Spec.compress d x ∧ Spec.compress d x < 2 ^ d := by
  unfold Spec.compress
  have : (0 : Int) < 2 ^ d := by positivity
  exact ⟨Int.emod_nonneg _ (by omega), Int.emod_lt_of_pos _ this⟩

/-- Any residues are the residues of integers. -/
theorem lift_cz (f : Nat → Zq) : ∃ g : Nat → Int, cz g = f := by
  refine ⟨fun x => ((f x).val : Int), ?_⟩
  funext x
  unfold cz
  haveI : NeZero 3329 := ⟨by decide⟩
  push_cast
  exact ZMod.natCast_zmod_val (f x)

/-- Every element of `R_q` that is a sum of products is given by coefficients. -/
theorem el_sum_surj (k : Nat) (F G : Nat → Nat → Zq) (E : Nat → Zq) :
    ∃ g : Nat → Int, el (cz g) = ∑ i ∈ range k, el (F i) * el (G i) + el E := by
  obtain ⟨h, hh⟩ := ntt_surj (fun x => Spec.ntt E x + ∑ i ∈ range k, pairMul (Spec.ntt (F i)) (Spec.ntt (G i)) x)
  obtain ⟨g, rfl⟩ := lift_cz h
  exact ⟨g, by rw [el_sum_mul (range k) F G E _ hh, add_comm]⟩

theorem packed_shift {d : Nat} (hd : 0 < d) {f g r : Nat → Nat} (hfg : ∀ x, x < 256 → f x = g x) (h : PackedBits d f r) :
    PackedBits d g r := by
  intro idx b hi hb
  rw [h idx b hi hb, hfg _ (by rw [Nat.div_lt_iff_lt_mul hd]; omega)]

/-- `PkeEncrypt` writes every byte of the ciphertext; both parts are the packed, compressed ring expressions. -/
theorem pkeEncrypt_spec {P : Prims} (hP : P.Ok) {p : Params} (hp : p ∈ paramTable) (key : KeyData) (m r : Nat → Nat)
    (A : Nat → Nat → Nat → Zq) (T : Nat → Nat → Zq)
    (ha : ∀ i j, i < p.k → j < p.k → ∀ x, x < 256 → 0 ≤ key.a i j x ∧ key.a i j x < 3329)
    (ht : ∀ j, j < p.k → ∀ x, x < 256 → 0 ≤ key.t j x ∧ key.t j x < 3329)
    (hA : ∀ i j, i < p.k → j < p.k → ∀ x, x < 256 → Spec.ntt (A i j) x = cz (key.a i j) x)
    (hT : ∀ j, j < p.k → ∀ x, x < 256 → Spec.ntt (T j) x = cz (key.t j) x)
    (U : Nat → Nat → Int) (V : Nat → Int)
    (hU : ∀ i, i < p.k → el (cz (U i)) = ∑ j ∈ range p.k, el (A j i) * el (cz (encY P p r j)) + el (cz (encE1 P p r i)))
    (hV : el (cz V) = ∑ j ∈ range p.k, el (T j) * el (cz (encY P p r j)) + el (cz (encE2 P p r)) + el (cz (messagePoly m))) :
    ∃ c : Nat → Nat, (∀ n, n < cipherLen p → pkeEncrypt P p key m r n = some (c n)) ∧ (∀ n, c n < 256) ∧
      (∀ i, i < p.k → PackedBits p.du (fun x => (Spec.compress p.du (U i x)).toNat) (fun n => c (32 * p.du * i + n))) ∧
      PackedBits p.dv (fun x => (Spec.compress p.dv (V x)).toNat) (fun n => c (32 * p.du * p.k + n)) := by
  obtain ⟨hk, _, hdu, hdv, he1, he2⟩ := param_cases hp
  have hprf : ∀ seed nonce n, prf P seed nonce n < 256 := fun _ _ _ => hP.j _ _
  obtain ⟨h1, h2⟩ := pkeEnc_spec p.k p.du p.dv hk hdu hdv key.a key.t (encY P p r) (encE1 P p r) (encE2 P p r) (messagePoly m)
    ha ht (fun i _ x _ => cbdPoly_range _ he1 _ (hprf _ _) x) (fun i _ x _ => cbdPoly_range _ he2 _ (hprf _ _) x)
    (fun x _ => cbdPoly_range _ he2 _ (hprf _ _) x)
    (fun x _ => by obtain ⟨h, e⟩ := message_bit m x; rw [e]; rcases h with h | h <;> rw [h] <;> norm_num)
    A hA T hT U V hU hV
  have hdu0 : 0 < p.du := by omega
  have hdv0 : 0 < p.dv := by omega
  have hw : 0 < 32 * p.du := by omega
  obtain ⟨c2, hc2, hv2⟩ := h2
  obtain ⟨r2, hr2, hb2, hp2⟩ := byteEncode_spec p.dv (by omega) c2 (fun x hx => by rw [hv2 x hx]; exact compress_range _ _)
  have hsome : ∀ n, ∃ b, b < 256 ∧ (n < cipherLen p → pkeEncrypt P p key m r n = some b) := by
    intro n
    by_cases hn : n < 32 * p.du * p.k
    · have hi : n / (32 * p.du) < p.k := by rw [Nat.div_lt_iff_lt_mul hw]; rw [Nat.mul_comm]; exact hn
      obtain ⟨c, hc, hv⟩ := h1 _ hi
      obtain ⟨rr, hr, hb, _⟩ := byteEncode_spec p.du (by omega) c (fun x hx => by rw [hv x hx]; exact compress_range _ _)
      refine ⟨rr (n % (32 * p.du)), hb _, fun _ => ?_⟩
      simp only [pkeEncrypt, ctByte]
      rw [if_pos hn, hc]
      simp only [Option.bind_some, hr, Option.map_some]
    · refine ⟨r2 (n - 32 * p.du * p.k), hb2 _, fun _ => ?_⟩
      simp only [pkeEncrypt, ctByte]
      rw [if_neg hn, hc2]
      simp only [Option.bind_some, hr2, Option.map_some]
  obtain ⟨c, hc⟩ := Classical.axiomOfChoice hsome
  have hlen : cipherLen p = 32 * p.du * p.k + 32 * p.dv := by unfold cipherLen; ring
  refine ⟨c, fun n => (hc n).2, fun n => (hc n).1, fun i hi => ?_, ?_⟩
  · obtain ⟨f, hf, hv⟩ := h1 i hi
    obtain ⟨rr, hr, hb, hpk⟩ := byteEncode_spec p.du (by omega) f (fun x hx => by rw [hv x hx]; exact compress_range _ _)
    intro idx b hidx hb8
    have hle : 32 * p.du * i + 32 * p.du ≤ 32 * p.du * p.k := by
      rw [← Nat.mul_succ]; exact Nat.mul_le_mul_left _ hi
    have hlt : 32 * p.du * i + idx < 32 * p.du * p.k := by omega
    have e := (hc (32 * p.du * i + idx)).2 (by omega)
    simp only [pkeEncrypt, ctByte] at e
    rw [if_pos hlt, Nat.mul_add_div hw, Nat.div_eq_of_lt hidx, Nat.add_zero, hf, Nat.mul_add_mod, Nat.mod_eq_of_lt hidx] at e
    simp only [Option.bind_some, hr, Option.map_some, Option.some.injEq] at e
    show (c (32 * p.du * i + idx)).testBit b = _
    rw [← e]
    exact packed_shift hdu0 (fun x hx => by rw [hv x hx]) hpk idx b hidx hb8
  · intro idx b hidx hb8
    have e := (hc (32 * p.du * p.k + idx)).2 (by omega)
    simp only [pkeEncrypt, ctByte] at e
    rw [if_neg (by omega), hc2, Nat.add_sub_cancel_left] at e
    simp only [Option.bind_some, hr2, Option.map_some, Option.some.injEq] at e
    show (c (32 * p.du * p.k + idx)).testBit b = _
    rw [← e]
    exact packed_shift hdv0 (fun x hx => by rw [hv2 x hx]) hp2 idx b hidx hb8

/-- The decoded and decompressed coefficients are the FIPS ones. -/
theorem decodeDecompress_spec (d : Nat) (hd : d = 1 ∨ d = 4 ∨ d = 5 ∨ d = 10 ∨ d = 11) (r : Nat → Nat)
    (hr : ∀ i, i < 32 * d → r i < 256) :
    (∀ x, x < 256 → 0 ≤ decodeDecompress d r x ∧ decodeDecompress d r x < 3329) ∧
    ∀ f : Nat → Nat, Fits d f → PackedBits d f r → ∀ x, x < 256 → decodeDecompress d r x = Spec.decompress d (f x) := by
  obtain ⟨g, hg, h0, hu⟩ := byteDecode_spec d hd r hr
  have hb : ∀ x, x < 256 → 0 ≤ g x ∧ g x < 2 ^ d := by
    intro x hx
    have := (hu x hx).1
    have h1 := h0 x
    refine ⟨h1, ?_⟩
    have : ((g x).toNat : Int) < ((2 ^ d : Nat) : Int) := by exact_mod_cast this
    push_cast at this
    omega
  have he : ∀ x, decodeDecompress d r x = decompress d (g x) := by
    intro x
    unfold decodeDecompress
    rw [hg]
  refine ⟨fun x hx => by rw [he]; exact (decompress_spec d hd _ (hb x hx)).2, fun f hf hpk x hx => ?_⟩
  rw [he, (decompress_spec d hd _ (hb x hx)).1]
  have := unpack_pack (by omega) hf hpk hu x hx
  have h1 := h0 x
  congr 1
  omega

/-- `PkeDecrypt` on any ciphertext bytes: 32 bytes that pack the compressed ring expression. -/
theorem pkeDecrypt_spec {p : Params} (hp : p ∈ paramTable) (key : KeyData)
    (hs : ∀ j, j < p.k → ∀ x, x < 256 → 0 ≤ key.s j x ∧ key.s j x < 3329) (ct : Nat → Nat) (hct : ∀ n, n < cipherLen p → ct n < 256)
    (S : Nat → Nat → Zq) (hS : ∀ j, j < p.k → ∀ x, x < 256 → Spec.ntt (S j) x = cz (key.s j) x) (W : Nat → Int)
    (hW : el (cz W) = el (cz (decodeDecompress p.dv (fun n => ct (32 * p.du * p.k + n)))) -
      ∑ j ∈ range p.k, el (S j) * el (cz (decodeDecompress p.du (fun n => ct (32 * p.du * j + n))))) :
    ∃ m, pkeDecrypt p key ct = some m ∧ (∀ n, m n < 256) ∧ PackedBits 1 (fun x => (Spec.compress 1 (W x)).toNat) m := by
  obtain ⟨hk, _, hdu, hdv, _, _⟩ := param_cases hp
  have hlen : cipherLen p = 32 * p.du * p.k + 32 * p.dv := by unfold cipherLen; ring
  have hc1 : ∀ j, j < p.k → ∀ n, n < 32 * p.du → ct (32 * p.du * j + n) < 256 := by
    intro j hj n hn
    have hle : 32 * p.du * j + 32 * p.du ≤ 32 * p.du * p.k := by
      rw [← Nat.mul_succ]; exact Nat.mul_le_mul_left _ hj
    exact hct _ (by omega)
  obtain ⟨f, hf, hv⟩ := pkeDec_spec p.k hk key.s (fun i => decodeDecompress p.du (fun n => ct (32 * p.du * i + n)))
    (decodeDecompress p.dv (fun n => ct (32 * p.du * p.k + n))) hs
    (fun j hj => (decodeDecompress_spec p.du (by omega) _ (hc1 j hj)).1)
    (decodeDecompress_spec p.dv (by omega) _ (fun n hn => hct _ (by omega))).1 S hS W hW
  obtain ⟨rr, hr, hb, hpk⟩ := byteEncode_spec 1 (Or.inl rfl) f (fun x hx => by rw [hv x hx]; exact compress_range _ _)
  refine ⟨rr, ?_, hb, packed_shift (by decide) (fun x hx => by rw [hv x hx]) hpk⟩
  simp only [pkeDecrypt]
  rw [hf]
  exact hr

theorem ring_dec {R : Type} [CommRing R] (k : Nat) (A : Nat → Nat → R) (s e y e1 u c1 T : Nat → R) (e2 mu v c2 : R)
    (hT : ∀ i, i < k → T i = e i + ∑ j ∈ range k, A i j * s j)
    (hu : ∀ i, i < k → u i = ∑ j ∈ range k, A j i * y j + e1 i) (hv : v = ∑ j ∈ range k, T j * y j + e2 + mu) :
    c2 - ∑ j ∈ range k, s j * c1 j =
      mu + (∑ j ∈ range k, e j * y j + e2 + (c2 - v) - ∑ j ∈ range k, s j * (e1 j + (c1 j - u j))) := by
  have h1 : ∑ j ∈ range k, T j * y j = ∑ j ∈ range k, e j * y j + ∑ i ∈ range k, ∑ j ∈ range k, A i j * s j * y i := by
    rw [← sum_add_distrib]
    refine sum_congr rfl fun i hi => ?_
    rw [hT i (by simpa using hi), add_mul, sum_mul]
  have h2 : ∑ j ∈ range k, s j * (e1 j + (c1 j - u j)) =
      ∑ j ∈ range k, s j * c1 j - ∑ j ∈ range k, ∑ i ∈ range k, A i j * s j * y i := by
    rw [← sum_sub_distrib]
    refine sum_congr rfl fun j hj => ?_
    rw [hu j (by simpa using hj)]
    have : ∑ i ∈ range k, A i j * s j * y i = s j * ∑ i ∈ range k, A i j * y i := by
      rw [mul_sum]
      exact sum_congr rfl fun i _ => by ring
    rw [this]
    ring
  rw [h2, hv, h1, sum_comm]
  ring

/-- The noise of one encryption: the ring element that FIPS 203 decryption adds to the message. -/
def NoiseIs (P : Prims) (p : Params) (A : Nat → Nat → Nat → Zq) (s e : Nat → Poly) (m r : Nat → Nat) (N : Nat → Int) : Prop :=
  ∃ (T : Nat → Nat → Zq) (U : Nat → Nat → Int) (V : Nat → Int),
    (∀ i, i < p.k → el (T i) = ∑ j ∈ range p.k, el (A i j) * el (cz (s j)) + el (cz (e i))) ∧
    (∀ i, i < p.k → el (cz (U i)) = ∑ j ∈ range p.k, el (A j i) * el (cz (encY P p r j)) + el (cz (encE1 P p r i))) ∧
    (el (cz V) = ∑ j ∈ range p.k, el (T j) * el (cz (encY P p r j)) + el (cz (encE2 P p r)) + el (cz (messagePoly m))) ∧
    el (cz N) = ∑ j ∈ range p.k, el (cz (e j)) * el (cz (encY P p r j)) + el (cz (encE2 P p r)) +
      (el (cz fun x => Spec.decompress p.dv (Spec.compress p.dv (V x))) - el (cz V)) -
      ∑ j ∈ range p.k, el (cz (s j)) * (el (cz (encE1 P p r j)) +
        (el (cz fun x => Spec.decompress p.du (Spec.compress p.du (U j x))) - el (cz (U j))))

theorem el_cz_congr {f g : Nat → Int} (h : ∀ x, x < 256 → f x = g x) : el (cz f) = el (cz g) :=
  el_congr fun x hx => by unfold cz; rw [h x hx]

theorem packed_msg {m m' : Nat → Nat} (hm : ∀ n, n < 32 → m n < 256) (hm' : ∀ n, m' n < 256)
    (h : PackedBits 1 (fun x => decodeBits1 m x) m') (n : Nat) (hn : n < 32) : m' n = m n :=
  pack_unpack (by decide) (fun i hi => hm i (by omega)) (fun i _ => hm' i) (dec1 m) h n (by omega)

theorem fits_compress (d : Nat) (f : Nat → Int) : Fits d (fun x => (Spec.compress d (f x)).toNat) := by
  intro x _
  have := compress_range d (f x)
  have h : ((Spec.compress d (f x)).toNat : Int) < ((2 ^ d : Nat) : Int) := by push_cast; omega
  exact_mod_cast h

/-- Decrypting an encryption, whenever the noise fits in `[-832, 831]`.  The two sides may hold different working
keys of the same `A`, `s`, `e`. -/
theorem decrypt_encrypt {P : Prims} (hP : P.Ok) {p : Params} (hp : p ∈ paramTable) (key key' : KeyData)
    (A : Nat → Nat → Nat → Zq) (s e : Nat → Poly) (hkey : Represents p.k key A s e) (hkey' : Represents p.k key' A s e)
    (m r : Nat → Nat) (hm : ∀ n, n < 32 → m n < 256) (N : Nat → Int) (hN : NoiseIs P p A s e m r N)
    (hbound : ∀ x, x < 256 → -832 ≤ N x ∧ N x ≤ 831) :
    ∃ c : Nat → Nat, (∀ n, n < cipherLen p → pkeEncrypt P p key m r n = some (c n)) ∧ (∀ n, c n < 256) ∧
      ∀ ct : Nat → Nat, (∀ n, n < cipherLen p → ct n = c n) →
        ∃ m', pkeDecrypt p key' ct = some m' ∧ ∀ n, n < 32 → m' n = m n := by
  obtain ⟨T, U, V, hT, hU, hV, hNe⟩ := hN
  obtain ⟨hk, _, hdu, hdv, _, _⟩ := param_cases hp
  have hT' : ∀ j, j < p.k → ∀ x, x < 256 → Spec.ntt (T j) x = cz (key.t j) x := by
    intro j hj x hx
    obtain ⟨T0, h0⟩ := ntt_surj (cz (key.t j))
    have := hkey.pub j hj T0 h0
    rw [← h0 x hx]
    exact ntt_congr (el_inj (by rw [hT j hj, this, add_comm])) x hx
  obtain ⟨c, h1, h2, h3, h4⟩ := pkeEncrypt_spec hP hp key m r A T (fun i j hi hj x hx => (hkey.ha i hi j hj x hx).1)
    (fun j hj x hx => (hkey.ht j hj x hx).1) (fun i j hi hj x hx => (hkey.ha i hi j hj x hx).2) hT' U V hU hV
  refine ⟨c, h1, h2, fun ct hct => ?_⟩
  have hlen : cipherLen p = 32 * p.du * p.k + 32 * p.dv := by unfold cipherLen; ring
  have hle : ∀ j, j < p.k → 32 * p.du * j + 32 * p.du ≤ 32 * p.du * p.k := by
    intro j hj
    rw [← Nat.mul_succ]; exact Nat.mul_le_mul_left _ hj
  have hc1 : ∀ j, j < p.k → el (cz (decodeDecompress p.du (fun n => ct (32 * p.du * j + n)))) =
      el (cz fun x => Spec.decompress p.du (Spec.compress p.du (U j x))) := by
    intro j hj
    have := hle j hj
    apply el_cz_congr
    intro x hx
    rw [(decodeDecompress_spec p.du (by omega) _ (fun i hi => by rw [hct _ (by omega)]; exact h2 _)).2 _
      (fits_compress p.du (U j)) (fun idx b hi hb => by
        show (ct (32 * p.du * j + idx)).testBit b = _
        rw [hct _ (by omega)]; exact h3 j hj idx b hi hb) x hx]
    have := compress_range p.du (U j x)
    rw [Int.toNat_of_nonneg this.1]
  have hc2 : el (cz (decodeDecompress p.dv (fun n => ct (32 * p.du * p.k + n)))) =
      el (cz fun x => Spec.decompress p.dv (Spec.compress p.dv (V x))) := by
    apply el_cz_congr
    intro x hx
    rw [(decodeDecompress_spec p.dv (by omega) _ (fun i hi => by rw [hct _ (by omega)]; exact h2 _)).2 _
      (fits_compress p.dv V) (fun idx b hi hb => by
        show (ct (32 * p.du * p.k + idx)).testBit b = _
        rw [hct _ (by omega)]; exact h4 idx b hi hb) x hx]
    have := compress_range p.dv (V x)
    rw [Int.toNat_of_nonneg this.1]
  have hW : el (cz fun x => messagePoly m x + N x) = el (cz (messagePoly m)) + el (cz N) := by
    rw [← el_add]
    exact el_congr fun x _ => by unfold cz; push_cast; rfl
  have hsum : ∑ j ∈ range p.k, el (cz (s j)) * el (cz (decodeDecompress p.du (fun n => ct (32 * p.du * j + n)))) =
      ∑ j ∈ range p.k, el (cz (s j)) * el (cz fun x => Spec.decompress p.du (Spec.compress p.du (U j x))) :=
    sum_congr rfl fun j hj => by rw [hc1 j (by simpa using hj)]
  have hring := ring_dec p.k (fun i j => el (A i j)) (fun j => el (cz (s j))) (fun j => el (cz (e j)))
        (fun j => el (cz (encY P p r j))) (fun j => el (cz (encE1 P p r j))) (fun j => el (cz (U j)))
        (fun j => el (cz fun x => Spec.decompress p.du (Spec.compress p.du (U j x)))) (fun j => el (T j))
        (el (cz (encE2 P p r))) (el (cz (messagePoly m))) (el (cz V))
        (el (cz fun x => Spec.decompress p.dv (Spec.compress p.dv (V x)))) (fun i hi => by rw [hT i hi, add_comm]) hU hV
  beta_reduce at hring
  have hWeq : el (cz fun x => messagePoly m x + N x) =
      el (cz (decodeDecompress p.dv (fun n => ct (32 * p.du * p.k + n)))) -
      ∑ j ∈ range p.k, el (cz (s j)) * el (cz (decodeDecompress p.du (fun n => ct (32 * p.du * j + n)))) := by
    rw [hW, hNe, hc2, hsum]
    exact hring.symm
  obtain ⟨m', hm1, hm2, hm3⟩ := pkeDecrypt_spec hp key' (fun j hj x hx => (hkey'.hs j hj x hx).1) ct
    (fun n hn => by rw [hct n hn]; exact h2 n) (fun j => cz (s j)) (fun j hj x hx => (hkey'.hs j hj x hx).2)
    (fun x => messagePoly m x + N x) hWeq
  refine ⟨m', hm1, fun n hn => packed_msg hm hm2 (packed_shift (by decide) (fun x hx => ?_) hm3) n hn⟩
  obtain ⟨hb, hm⟩ := message_bit m x
  show (Spec.compress 1 (messagePoly m x + N x)).toNat = _
  rw [hm, compress_bit _ _ (by omega) (hbound x hx)]
  omega

end Verif.Crypto.Mlkem
