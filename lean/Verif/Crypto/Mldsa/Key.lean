import Verif.Crypto.Mldsa.KeyModel
import Verif.Crypto.Mldsa.Codec
import Verif.Crypto.Mldsa.HintCodec
/-! Round trips of the key and signature layouts. -/
namespace Verif.Crypto.Mldsa
open Verif.Crypto.Mlkem (Poly i32 u32 u8 upd Fits PackedBits UnpackedBits unpack_pack pack_unpack u8_lt)

theorem enc_lt (f : Nat → Nat) (i : Nat) : enc10 f i < 256 ∧ enc6 f i < 256 ∧ enc4 f i < 256 ∧ enc3 f i < 256 ∧
    enc13 f i < 256 ∧ enc18 f i < 256 ∧ enc20 f i < 256 := by
  refine ⟨?_, ?_, u8_lt _, ?_, ?_, ?_, ?_⟩
  · unfold enc10; dsimp only; split <;> exact u8_lt _
  · unfold enc6; dsimp only; split <;> exact u8_lt _
  · unfold enc3; dsimp only; split <;> exact u8_lt _
  · unfold enc13; dsimp only; split <;> exact u8_lt _
  · unfold enc18; dsimp only; split <;> exact u8_lt _
  · unfold enc20; dsimp only; split <;> exact u8_lt _

theorem w32_id {x : Int} (h : 0 ≤ x ∧ x < 4294967296) : w32 x = x.toNat := by unfold w32 u32; congr 1; omega

/-- The `b - w` packings. -/
theorem pack_core (d b : Nat) (w : Poly) (hb : b ≤ 2 ^ 30) (hd : d ≤ 20)
    (hw : ∀ x, x < 256 → 0 ≤ (b : Int) - w x ∧ (b : Int) - w x < 2 ^ d) (enc dec : (Nat → Nat) → Nat → Nat)
    (he : ∀ f, Fits d f → PackedBits d f (enc f)) (hl : ∀ f i, enc f i < 256)
    (hde : ∀ a, (∀ i, i < 32 * d → a i < 256) → UnpackedBits d a (dec a)) (hd0 : 0 < d)
    (r : Nat → Nat) (hr : ∀ i, i < 32 * d → r i = enc (fun i => w32 (b - w i)) i) (x : Nat) (hx : x < 256) :
    i32 (b - dec r x) = w x := by
  have hfit : Fits d (fun i => w32 (b - w i)) := by
    intro m hm
    have := hw m hm
    have h20 : (2 : Int) ^ d ≤ 2 ^ 20 := pow_le_pow_right₀ (by norm_num) hd
    have e : ((2 ^ d : Nat) : Int) = 2 ^ d := by push_cast; rfl
    show w32 (b - w m) < 2 ^ d
    norm_num at h20
    rw [w32_id ⟨this.1, by omega⟩]
    omega
  have hpk := he _ hfit
  have hpk' : PackedBits d (fun i => w32 (b - w i)) r := by
    intro idx b hi hb
    rw [hr idx hi]; exact hpk idx b hi hb
  have hun := hde r (fun i hi => by rw [hr i hi]; exact hl _ _)
  rw [unpack_pack hd0 hfit hpk' hun x hx]
  have := hw x hx
  have h20 : (2 : Int) ^ d ≤ 2 ^ 20 := pow_le_pow_right₀ (by norm_num) hd
  norm_num at h20 hb
  rw [w32_id ⟨this.1, by omega⟩, Int.toNat_of_nonneg this.1]
  unfold i32
  omega

theorem bitPack_roundtrip (bits b : Nat) (hbits : bits = 3 ∨ bits = 4 ∨ bits = 13) (hb : b ≤ 2 ^ 30) (w : Poly)
    (hw : ∀ x, x < 256 → 0 ≤ (b : Int) - w x ∧ (b : Int) - w x < 2 ^ bits) :
    ∃ r, bitPack bits b w = some r ∧ (∀ i, r i < 256) ∧
      ∀ r', (∀ i, i < 32 * bits → r' i = r i) → ∃ w', bitUnpack bits b r' = some w' ∧ ∀ x, x < 256 → w' x = w x := by
  rcases hbits with rfl | rfl | rfl
  · exact ⟨_, rfl, fun i => (enc_lt _ i).2.2.2.1, fun r' hr => ⟨_, rfl, fun x hx =>
      pack_core 3 b w hb (by decide) hw enc3 dec3 enc3_packed (fun f i => (enc_lt f i).2.2.2.1) dec3_unpacked (by decide) r' hr x hx⟩⟩
  · exact ⟨_, rfl, fun i => (enc_lt _ i).2.2.1, fun r' hr => ⟨_, rfl, fun x hx =>
      pack_core 4 b w hb (by decide) hw enc4 dec4 enc4_packed (fun f i => (enc_lt f i).2.2.1) dec4_unpacked (by decide) r' hr x hx⟩⟩
  · exact ⟨_, rfl, fun i => (enc_lt _ i).2.2.2.2.1, fun r' hr => ⟨_, rfl, fun x hx =>
      pack_core 13 b w hb (by decide) hw enc13 dec13 enc13_packed (fun f i => (enc_lt f i).2.2.2.2.1) dec13_unpacked (by decide) r' hr x hx⟩⟩

theorem signBitPack_roundtrip (bits b : Nat) (hbits : bits = 18 ∨ bits = 20) (hb : b ≤ 2 ^ 30) (w : Poly)
    (hw : ∀ x, x < 256 → 0 ≤ (b : Int) - w x ∧ (b : Int) - w x < 2 ^ bits) :
    ∃ r, signBitPack bits b w = some r ∧ (∀ i, r i < 256) ∧
      ∀ r', (∀ i, i < 32 * bits → r' i = r i) → ∃ w', signBitUnpack bits b r' = some w' ∧ ∀ x, x < 256 → w' x = w x := by
  rcases hbits with rfl | rfl
  · exact ⟨_, rfl, fun i => (enc_lt _ i).2.2.2.2.2.1, fun r' hr => ⟨_, rfl, fun x hx =>
      pack_core 18 b w hb (by decide) hw enc18 dec18 enc18_packed (fun f i => (enc_lt f i).2.2.2.2.2.1) dec18_unpacked (by decide) r' hr x hx⟩⟩
  · exact ⟨_, rfl, fun i => (enc_lt _ i).2.2.2.2.2.2, fun r' hr => ⟨_, rfl, fun x hx =>
      pack_core 20 b w hb (by decide) hw enc20 dec20 enc20_packed (fun f i => (enc_lt f i).2.2.2.2.2.2) dec20_unpacked (by decide) r' hr x hx⟩⟩

theorem byteEncode10_roundtrip (t : Poly) (ht : ∀ x, x < 256 → 0 ≤ t x ∧ t x < 1024) :
    ∃ r, byteEncode 10 t = some r ∧ (∀ i, r i < 256) ∧
      ∀ r', (∀ i, i < 320 → r' i = r i) → ∃ w', byteDecode 10 r' = some w' ∧ ∀ x, x < 256 → w' x = t x := by
  refine ⟨_, rfl, fun i => (enc_lt _ i).1, fun r' hr => ⟨_, rfl, fun x hx => ?_⟩⟩
  have hfit : Fits 10 (fun i => w32 (t i)) := by
    intro m hm
    have := ht m hm
    simp only [w32_id (x := t m) (by omega)]; norm_num; omega
  have hpk' : PackedBits 10 (fun i => w32 (t i)) r' := by
    intro idx b hi hb
    rw [hr idx hi]; exact enc10_packed _ hfit idx b hi hb
  have hun := dec10_unpacked r' (fun i hi => by rw [hr i hi]; exact (enc_lt _ _).1)
  have := ht x hx
  simp only [unpack_pack (by decide) hfit hpk' hun x hx, w32_id (x := t x) (by omega)]
  omega

/-- Every 10-bit packing is the packing of what it unpacks to. -/
theorem byteDecode10_encode (r : Nat → Nat) (hr : ∀ i, i < 320 → r i < 256) :
    ∃ t, byteDecode 10 r = some t ∧ (∀ x, x < 256 → 0 ≤ t x ∧ t x < 1024) ∧
      ∃ r', byteEncode 10 t = some r' ∧ ∀ i, i < 320 → r' i = r i := by
  have hun := dec10_unpacked r hr
  refine ⟨_, rfl, fun x hx => ?_, _, rfl, fun i hi => ?_⟩
  · have := (hun x hx).1; omega
  · have hfit : Fits 10 (fun i => w32 ((dec10 r i : Nat) : Int)) := by
      intro m hm
      have := (hun m hm).1
      simp only [w32_id (x := ((dec10 r m : Nat) : Int)) (by omega)]; omega
    have he : ∀ m, m < 256 → w32 ((dec10 r m : Nat) : Int) = dec10 r m := by
      intro m hm
      have := (hun m hm).1
      rw [w32_id (by omega)]; omega
    refine pack_unpack (d := 10) (by decide) hr (fun i _ => (enc_lt _ i).1) (f := fun i => w32 ((dec10 r i : Nat) : Int)) ?_
      (enc10_packed _ hfit) i hi
    intro m hm
    simp only [he m hm]
    exact hun m hm

/-! ## Loops -/

theorem put_in (buf : Nat → Nat) (off n : Nat) (src : Nat → Nat) (i : Nat) (h : i < n) : put buf off n src (off + i) = src i := by
  unfold put; rw [if_pos (by omega)]; congr 1; omega

theorem put_out (buf : Nat → Nat) (off n : Nat) (src : Nat → Nat) (i : Nat) (h : i < off ∨ off + n ≤ i) :
    put buf off n src i = buf i := by
  unfold put; rw [if_neg (by omega)]

theorem packLoop_eq (bits : Nat) (src : Nat → Option (Nat → Nat)) (buf : Nat → Nat) (index : Nat) :
    ∀ n, (packLoop bits src (buf, index) n).2 = index + 32 * bits * n ∧
      (∀ i, i < index ∨ index + 32 * bits * n ≤ i → (packLoop bits src (buf, index) n).1 i = buf i) ∧
      ∀ j r, j < n → src j = some r → ∀ i, i < 32 * bits →
        (packLoop bits src (buf, index) n).1 (index + 32 * bits * j + i) = r i := by
  intro n
  induction n with
  | zero => exact ⟨rfl, fun _ _ => rfl, fun j r hj => by omega⟩
  | succ n ih =>
    obtain ⟨h1, h2, h3⟩ := ih
    have hs : packLoop bits src (buf, index) (n + 1) =
        (putPacked (packLoop bits src (buf, index) n).1 (packLoop bits src (buf, index) n).2 (32 * bits) (src n),
          (packLoop bits src (buf, index) n).2 + 32 * bits) := rfl
    have hm : 32 * bits * (n + 1) = 32 * bits * n + 32 * bits := by rw [Nat.mul_add, Nat.mul_one]
    rw [hs, h1, hm]
    refine ⟨by simp only []; omega, fun i hi => ?_, fun j r hj hsrc i hi => ?_⟩
    · unfold putPacked
      cases src n with
      | none => exact h2 i (by omega)
      | some r => simp only; rw [put_out _ _ _ _ _ (by omega)]; exact h2 i (by omega)
    · by_cases e : j = n
      · subst e
        unfold putPacked
        simp only [hsrc]
        exact put_in _ _ _ _ _ hi
      · have hjn : 32 * bits * (j + 1) ≤ 32 * bits * n := Nat.mul_le_mul_left _ (by omega)
        rw [Nat.mul_add, Nat.mul_one] at hjn
        unfold putPacked
        cases src n with
        | none => exact h3 j r (by omega) hsrc i hi
        | some r' =>
          simp only
          rw [put_out _ _ _ _ _ (by omega)]; exact h3 j r (by omega) hsrc i hi

theorem unpackAt_eq (dec : (Nat → Nat) → Option Poly) (bits : Nat) (buf : Nat → Nat) (index i : Nat) (f : Poly)
    (h : ∃ g, dec (fun n => buf (index + 32 * bits * i + n)) = some g ∧ ∀ x, x < 256 → g x = f x) :
    ∀ x, x < 256 → unpackAt dec bits buf index i x = f x := by
  obtain ⟨g, h1, h2⟩ := h
  intro x hx
  unfold unpackAt
  rw [h1]; exact h2 x hx

theorem pk_roundtrip (p : Params) (buf rho : Nat → Nat) (t : Nat → Poly)
    (ht : ∀ i, i < p.k → ∀ x, x < 256 → 0 ≤ t i x ∧ t i x < 1024) :
    (∀ n, n < 32 → (pkDecode (pkEncode p buf rho t)).1 n = rho n) ∧
    ∀ i, i < p.k → ∀ x, x < 256 → (pkDecode (pkEncode p buf rho t)).2 i x = t i x := by
  obtain ⟨h1, h2, h3⟩ := packLoop_eq 10 (fun i => byteEncode 10 (t i)) (put buf 0 32 rho) 32 p.k
  constructor
  · intro n hn
    show (packLoop 10 _ _ p.k).1 n = _
    rw [h2 n (by omega)]
    have := put_in buf 0 32 rho n hn
    rwa [Nat.zero_add] at this
  · intro i hi
    obtain ⟨r, hr, _, hd⟩ := byteEncode10_roundtrip (t i) (ht i hi)
    refine unpackAt_eq _ _ _ _ _ _ (hd _ ?_)
    intro n hn
    exact h3 i r hi hr n hn

/-- The public key determines, and is determined by, what it decodes to. -/
theorem pk_canonical (p : Params) (buf pk : Nat → Nat) (hpk : ∀ n, pk n < 256) :
    ∀ n, n < 32 + 320 * p.k → pkEncode p buf (pkDecode pk).1 (pkDecode pk).2 n = pk n := by
  obtain ⟨h1, h2, h3⟩ := packLoop_eq 10 (fun i => byteEncode 10 ((pkDecode pk).2 i)) (put buf 0 32 pk) 32 p.k
  intro n hn
  show (packLoop 10 (fun i => byteEncode 10 ((pkDecode pk).2 i)) (put buf 0 32 pk, 32) p.k).1 n = _
  by_cases h32 : n < 32
  · rw [h2 n (by omega)]
    have := put_in buf 0 32 pk n h32
    rwa [Nat.zero_add] at this
  · obtain ⟨i, x, hi, hx, e⟩ : ∃ i x, i < p.k ∧ x < 320 ∧ n = 32 + 320 * i + x :=
      ⟨(n - 32) / 320, (n - 32) % 320, by omega, by omega, by omega⟩
    obtain ⟨t, ht, _, r', hr', hrr⟩ := byteDecode10_encode (fun m => pk (32 + 32 * 10 * i + m)) (fun _ _ => hpk _)
    have hti : (pkDecode pk).2 i = t := by
      show unpackAt (byteDecode 10) 10 pk 32 i = t
      unfold unpackAt; rw [ht]
    have := h3 i r' hi (by simp only [hti]; exact hr') x hx
    rw [e]; exact this.trans (hrr x hx)

/-- The byte ranges of the secret key. -/
theorem sk_layout (p : Params) (buf rho key tr : Nat → Nat) (s1 s2 t0 : Nat → Poly) :
    (∀ n, n < 32 → skEncode p buf rho key tr s1 s2 t0 n = rho n) ∧
    (∀ n, n < 32 → skEncode p buf rho key tr s1 s2 t0 (32 + n) = key n) ∧
    (∀ n, n < 64 → skEncode p buf rho key tr s1 s2 t0 (64 + n) = tr n) ∧
    (∀ i r, i < p.l → bitPack (etaBits p) p.eta (s1 i) = some r → ∀ n, n < 32 * etaBits p →
      skEncode p buf rho key tr s1 s2 t0 (128 + 32 * etaBits p * i + n) = r n) ∧
    (∀ i r, i < p.k → bitPack (etaBits p) p.eta (s2 i) = some r → ∀ n, n < 32 * etaBits p →
      skEncode p buf rho key tr s1 s2 t0 (128 + 32 * etaBits p * p.l + 32 * etaBits p * i + n) = r n) ∧
    (∀ i r, i < p.k → bitPack 13 4096 (t0 i) = some r → ∀ n, n < 32 * 13 →
      skEncode p buf rho key tr s1 s2 t0
        (128 + 32 * etaBits p * p.l + 32 * etaBits p * p.k + 32 * 13 * i + n) = r n) := by
  obtain ⟨b0, hb0⟩ : ∃ b, b = put (put (put buf 0 32 rho) 32 32 key) 64 64 tr := ⟨_, rfl⟩
  obtain ⟨a1, a2, a3⟩ := packLoop_eq (etaBits p) (fun i => bitPack (etaBits p) p.eta (s1 i)) b0 128 p.l
  obtain ⟨L1, hL1⟩ : ∃ L, packLoop (etaBits p) (fun i => bitPack (etaBits p) p.eta (s1 i)) (b0, 128) p.l = (L, 128 + 32 * etaBits p * p.l) :=
    ⟨_, Prod.ext rfl a1⟩
  rw [hL1] at a2 a3
  obtain ⟨c1, c2, c3⟩ := packLoop_eq (etaBits p) (fun i => bitPack (etaBits p) p.eta (s2 i)) L1
    (128 + 32 * etaBits p * p.l) p.k
  obtain ⟨L2, hL2⟩ : ∃ L, packLoop (etaBits p) (fun i => bitPack (etaBits p) p.eta (s2 i)) (L1, 128 + 32 * etaBits p * p.l) p.k
      = (L, 128 + 32 * etaBits p * p.l + 32 * etaBits p * p.k) := ⟨_, Prod.ext rfl c1⟩
  rw [hL2] at c2 c3
  obtain ⟨d1, d2, d3⟩ := packLoop_eq 13 (fun i => bitPack 13 4096 (t0 i)) L2
    (128 + 32 * etaBits p * p.l + 32 * etaBits p * p.k) p.k
  have hE : skEncode p buf rho key tr s1 s2 t0 =
      (packLoop 13 (fun i => bitPack 13 4096 (t0 i)) (L2, 128 + 32 * etaBits p * p.l + 32 * etaBits p * p.k) p.k).1 := by
    unfold skEncode
    simp only [← hb0, hL1, hL2]
  rw [hE]
  simp only at a2 a3 c2 c3
  have hlow : ∀ n, n < 128 → (packLoop 13 (fun i => bitPack 13 4096 (t0 i))
      (L2, 128 + 32 * etaBits p * p.l + 32 * etaBits p * p.k) p.k).1 n = b0 n := by
    intro n hn
    rw [d2 n (by omega), c2 n (by omega), a2 n (by omega)]
  refine ⟨fun n hn => ?_, fun n hn => ?_, fun n hn => ?_, fun i r hi hr n hn => ?_, fun i r hi hr n hn => ?_,
    fun i r hi hr n hn => d3 i r hi hr n hn⟩
  · rw [hlow n (by omega), hb0, put_out _ _ _ _ _ (by omega), put_out _ _ _ _ _ (by omega)]
    have := put_in buf 0 32 rho n hn
    rwa [Nat.zero_add] at this
  · rw [hlow _ (by omega), hb0, put_out _ _ _ _ _ (by omega)]; exact put_in _ _ _ _ _ hn
  · rw [hlow _ (by omega), hb0]; exact put_in _ _ _ _ _ hn
  · have hle : 32 * etaBits p * (i + 1) ≤ 32 * etaBits p * p.l := Nat.mul_le_mul_left _ hi
    rw [Nat.mul_add, Nat.mul_one] at hle
    rw [d2 _ (by omega), c2 _ (by omega)]; exact a3 i r hi hr n hn
  · have hle : 32 * etaBits p * (i + 1) ≤ 32 * etaBits p * p.k := Nat.mul_le_mul_left _ hi
    rw [Nat.mul_add, Nat.mul_one] at hle
    rw [d2 _ (by omega)]; exact c3 i r hi hr n hn

theorem etaBits_ok {p : Params} (hp : p ∈ paramTable) :
    (etaBits p = 3 ∨ etaBits p = 4 ∨ etaBits p = 13) ∧ p.eta ≤ 2 ^ 30 ∧ 2 * p.eta < 2 ^ etaBits p := by
  rcases param_cases hp with rfl | rfl | rfl <;> decide

theorem sk_roundtrip {p : Params} (hp : p ∈ paramTable) (buf rho key tr : Nat → Nat) (s1 s2 t0 : Nat → Poly)
    (h1 : ∀ i, i < p.l → ∀ x, x < 256 → |s1 i x| ≤ p.eta) (h2 : ∀ i, i < p.k → ∀ x, x < 256 → |s2 i x| ≤ p.eta)
    (h0 : ∀ i, i < p.k → ∀ x, x < 256 → -4096 < t0 i x ∧ t0 i x ≤ 4096) (d : SkData)
    (hd : d = skDecode p (skEncode p buf rho key tr s1 s2 t0)) :
    (∀ n, n < 32 → d.rho n = rho n) ∧ (∀ n, n < 32 → d.key n = key n) ∧ (∀ n, n < 64 → d.tr n = tr n) ∧
    (∀ i, i < p.l → ∀ x, x < 256 → d.s1 i x = s1 i x) ∧ (∀ i, i < p.k → ∀ x, x < 256 → d.s2 i x = s2 i x) ∧
    (∀ i, i < p.k → ∀ x, x < 256 → d.t0 i x = t0 i x) := by
  obtain ⟨a, b, c, e, f, g⟩ := sk_layout p buf rho key tr s1 s2 t0
  obtain ⟨hb, he, h2e⟩ := etaBits_ok hp
  have hrange : ∀ w : Int, |w| ≤ p.eta → 0 ≤ (p.eta : Int) - w ∧ (p.eta : Int) - w < 2 ^ etaBits p := by
    intro w hw
    rw [abs_le] at hw
    have : ((2 * p.eta : Nat) : Int) < ((2 ^ etaBits p : Nat) : Int) := by exact_mod_cast h2e
    push_cast at this
    omega
  subst hd
  refine ⟨a, b, c, fun i hi => ?_, fun i hi => ?_, fun i hi => ?_⟩
  · obtain ⟨r, hr, _, hu⟩ := bitPack_roundtrip _ _ hb he (s1 i) (fun x hx => hrange _ (h1 i hi x hx))
    exact unpackAt_eq _ _ _ _ _ _ (hu _ fun n hn => e i r hi hr n hn)
  · obtain ⟨r, hr, _, hu⟩ := bitPack_roundtrip _ _ hb he (s2 i) (fun x hx => hrange _ (h2 i hi x hx))
    exact unpackAt_eq _ _ _ _ _ _ (hu _ fun n hn => f i r hi hr n hn)
  · obtain ⟨r, hr, _, hu⟩ := bitPack_roundtrip 13 4096 (by decide) (by decide) (t0 i) (fun x hx => by
      have := h0 i hi x hx
      norm_num; omega)
    exact unpackAt_eq _ _ _ _ _ _ (hu _ fun n hn => g i r hi hr n hn)

theorem sig_roundtrip {p : Params} (hp : p ∈ paramTable) (out : Nat → Nat) (cLen : Nat) (z : Nat → Poly) (h : List Poly)
    (hz : ∀ i, i < p.l → ∀ x, x < 256 → -(p.gamma1 : Int) < z i x ∧ z i x ≤ p.gamma1)
    (hh : Spec.IsHint p.k p.omega h) :
    ∃ sig, sigEncode p out cLen z h = some sig ∧ (∀ n, n < cLen → sig n = out n) ∧
      (∀ i, i < p.l → ∀ x, x < 256 → (sigDecode p sig cLen).1 i x = z i x) ∧ (sigDecode p sig cLen).2 = .ok h ∧
      ∀ n, (∀ m, out m < 256) → sig n < 256 := by
  obtain ⟨hk, hrows, hw⟩ := hh
  have henc := hintEncode_eq hp h hk hw
  obtain ⟨a1, a2, a3⟩ := packLoop_eq (gammaBits p) (fun i => signBitPack (gammaBits p) p.gamma1 (z i)) out cLen p.l
  have hg : (gammaBits p = 18 ∨ gammaBits p = 20) ∧ p.gamma1 ≤ 2 ^ 30 ∧ 2 * p.gamma1 ≤ 2 ^ gammaBits p := by
    rcases param_cases hp with rfl | rfl | rfl <;> decide
  have ho : p.omega < 256 := by rcases param_cases hp with rfl | rfl | rfl <;> decide
  have hlen := hintBytes_length p.omega h hw
  have hby : ∀ b ∈ Spec.hintBytes p.omega h, b < 256 := by
    have hc : ∀ (rows : List Poly) c, ∀ b ∈ Spec.counts c rows, b ≤ c + Spec.weight rows := by
      intro rows
      induction rows with
      | nil => intro c b hb; cases hb
      | cons r rs ih =>
        intro c b hb
        rw [weight_cons]
        unfold Spec.counts at hb
        rcases List.mem_cons.1 hb with rfl | hb
        · omega
        · have := ih _ b hb; omega
    intro b hb
    unfold Spec.hintBytes at hb
    rw [List.mem_append, List.mem_append] at hb
    rcases hb with (hb | hb) | hb
    · obtain ⟨r, _, hr⟩ := List.mem_flatMap.1 hb
      exact ((mem_positions r b).1 hr).1
    · rw [List.mem_replicate] at hb; omega
    · have := hc h 0 b hb; omega
  have hpack : ∀ i, i < p.l → ∃ r, signBitPack (gammaBits p) p.gamma1 (z i) = some r ∧ (∀ i, r i < 256) ∧
      ∀ r', (∀ n, n < 32 * gammaBits p → r' n = r n) →
        ∃ w', signBitUnpack (gammaBits p) p.gamma1 r' = some w' ∧ ∀ x, x < 256 → w' x = z i x := by
    intro i hi
    refine signBitPack_roundtrip _ _ hg.1 hg.2.1 (z i) (fun x hx => ?_)
    have := hz i hi x hx
    have h2 : ((2 * p.gamma1 : Nat) : Int) ≤ ((2 ^ gammaBits p : Nat) : Int) := by exact_mod_cast hg.2.2
    push_cast at h2
    omega
  obtain ⟨L, hL⟩ : ∃ L, packLoop (gammaBits p) (fun i => signBitPack (gammaBits p) p.gamma1 (z i)) (out, cLen) p.l
      = (L, cLen + 32 * gammaBits p * p.l) := ⟨_, Prod.ext rfl a1⟩
  rw [hL] at a2 a3
  simp only at a2 a3
  refine ⟨put L (cLen + 32 * gammaBits p * p.l) (p.omega + p.k) (byteAt (Spec.hintBytes p.omega h)), ?_, fun n hn => ?_, fun i hi => ?_, ?_, fun n hout => ?_⟩
  · unfold sigEncode
    simp only [henc, hL]
  · rw [put_out _ _ _ _ _ (by omega)]; exact a2 n (by omega)
  · obtain ⟨r, hr, _, hu⟩ := hpack i hi
    refine unpackAt_eq _ _ _ _ _ _ (hu _ fun n hn => ?_)
    have hle : 32 * gammaBits p * (i + 1) ≤ 32 * gammaBits p * p.l := Nat.mul_le_mul_left _ hi
    rw [Nat.mul_add, Nat.mul_one] at hle
    rw [put_out _ _ _ _ _ (by omega)]; exact a3 i r hi hr n hn
  · have e : bytes (put L (cLen + 32 * gammaBits p * p.l) (p.omega + p.k) (byteAt (Spec.hintBytes p.omega h))) (cLen + 32 * gammaBits p * p.l) (p.omega + p.k) = Spec.hintBytes p.omega h := by
      apply List.ext_getElem
      · simp [bytes, hlen, hk]
      · intro n h1 h2
        have hn : n < p.omega + p.k := by simpa [bytes] using h1
        simp only [bytes, List.getElem_map, List.getElem_range]
        rw [put_in _ _ _ _ _ hn, byteAt, List.getElem?_eq_getElem h2]
    unfold sigDecode
    simp only [e]
    exact (hintDecode_iff p _ (by omega) hby h).2 ⟨⟨hk, hrows, hw⟩, rfl⟩
  · unfold put
    by_cases hc : cLen + 32 * gammaBits p * p.l ≤ n ∧ n < cLen + 32 * gammaBits p * p.l + (p.omega + p.k)
    · rw [if_pos hc]
      have hlt : n - (cLen + 32 * gammaBits p * p.l) < (Spec.hintBytes p.omega h).length := by omega
      simp only [byteAt, List.getElem?_eq_getElem hlt]
      exact hby _ (List.getElem_mem hlt)
    · rw [if_neg hc]
      by_cases hin : cLen ≤ n ∧ n < cLen + 32 * gammaBits p * p.l
      · have hpos : 0 < 32 * gammaBits p := by rcases hg.1 with e | e <;> rw [e] <;> decide
        obtain ⟨m, hm⟩ : ∃ m, n = cLen + m := ⟨n - cLen, by omega⟩
        have hq : m / (32 * gammaBits p) < p.l := by
          rw [Nat.div_lt_iff_lt_mul hpos, Nat.mul_comm]; omega
        obtain ⟨r, hr, hrb, _⟩ := hpack _ hq
        have := a3 _ r hq hr (m % (32 * gammaBits p)) (Nat.mod_lt _ hpos)
        rw [Nat.add_assoc, Nat.div_add_mod] at this
        rw [hm, this]; exact hrb _
      · rw [a2 n (by omega)]; exact hout n

end Verif.Crypto.Mldsa
