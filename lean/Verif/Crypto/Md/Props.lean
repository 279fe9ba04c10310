import Verif.Crypto.Md.Proof
import Verif.Crypto.Md.Sha2Proof

/-!
# Hash functions: what a user of `CRYPT_EAL_MdInit/Update/Final` relies on (property C28)

The specification of a Merkle–Damgård hash is `Spec.digest`: pad (`Spec.pad`), cut into blocks
(`Spec.blocks`), fold the block function.  `Sha2Spec.lean` has the SHA-2 block functions of FIPS 180-4.
-/

namespace Verif.Crypto.Md

open Verif.Common

variable {σ : Type} {W : Nat}

/-- The message, a one bit, the least number of zero bits that makes the whole a multiple of the block
size, the length field. -/
def Spec.pad (B L : Nat) (lenField : Nat → List Byte) (m : List Byte) : List Byte :=
  m ++ [0x80#8] ++ List.replicate ((B - (m.length + 1 + L) % B) % B) 0#8 ++ lenField (8 * m.length)

/-- The blocks of a message of whole blocks. -/
def Spec.blocks (B : Nat) (m : List Byte) : List (List Byte) :=
  (List.range (m.length / B)).map fun i => (m.drop (i * B)).take B

/-- Merkle–Damgård hashing. -/
def Spec.digest (comp : σ → List Byte → σ) (iv : σ) (out : σ → List Byte) (outLen B L : Nat)
    (lenField : Nat → List Byte) (m : List Byte) : List Byte :=
  (out ((Spec.blocks B (Spec.pad B L lenField m)).foldl comp iv)).take outLen

/-- `Spec.pad` yields whole blocks, and no shorter run of zeros would. -/
theorem pad_whole (B L : Nat) (lenField : Nat → List Byte) (m : List Byte) (hB : 0 < B)
    (hl : ∀ n, (lenField n).length = L) :
    (Spec.pad B L lenField m).length % B = 0 ∧
    ∀ k, (m.length + 1 + k + L) % B = 0 → (B - (m.length + 1 + L) % B) % B ≤ k := by
  have hlen : (Spec.pad B L lenField m).length = m.length + 1 + L + (B - (m.length + 1 + L) % B) % B := by
    simp only [Spec.pad, List.length_append, List.length_replicate, List.length_singleton, hl]
    omega
  have hadd : ∀ k, m.length + 1 + k + L = m.length + 1 + L + k := fun k => by omega
  simp only [hadd]
  generalize m.length + 1 + L = x at *
  have hx := Nat.mod_lt x hB
  constructor
  · rw [hlen]
    by_cases h : x % B = 0
    · rw [h, Nat.sub_zero, Nat.mod_self, Nat.add_zero, h]
    · rw [Nat.mod_eq_of_lt (show B - x % B < B by omega), Nat.add_mod, Nat.mod_eq_of_lt (show B - x % B < B by omega),
        Nat.add_sub_cancel' (by omega), Nat.mod_self]
  · intro k hk
    by_cases h : x % B = 0
    · rw [h, Nat.sub_zero, Nat.mod_self]; omega
    · rw [Nat.mod_eq_of_lt (show B - x % B < B by omega)]
      by_contra hc
      rw [Nat.add_mod, Nat.mod_eq_of_lt (show k < B by omega), Nat.mod_eq_of_lt (by omega)] at hk
      omega

theorem multi_foldl (comp : σ → List Byte → σ) (B n : Nat) (h : σ) (d : List Byte) :
    multi comp B n h d = ((List.range n).map fun i => (d.drop (i * B)).take B).foldl comp h := by
  induction n generalizing h d with
  | zero => rfl
  | succ n ih =>
    rw [multi, ih, List.range_succ_eq_map, List.map_cons, List.foldl_cons, List.map_map, Nat.zero_mul,
      List.drop_zero]
    congr 1
    apply List.map_congr_left
    intro i _
    simp only [Function.comp, List.drop_drop]
    congr 2
    rw [Nat.succ_mul, Nat.add_comm]

theorem chain_foldl (comp : σ → List Byte → σ) (B : Nat) (iv : σ) (m : List Byte) :
    chain comp B iv m = (Spec.blocks B m).foldl comp iv := multi_foldl comp B _ iv m

theorem be_words (k W hi lo : Nat) (hW : 2 ^ W = 256 ^ k) (hhi : hi < 2 ^ W) (hlo : lo < 2 ^ W) :
    beBytes k hi ++ beBytes k lo = beBytes (k + k) (hi * 2 ^ W + lo) := by
  apply beVal_inj
  · simp
  · rw [beVal_append, beVal_beBytes, beVal_beBytes, beVal_beBytes, beBytes_length, ← hW,
      Nat.mod_eq_of_lt hhi, Nat.mod_eq_of_lt hlo, Nat.pow_add, ← hW, Nat.mod_eq_of_lt, Nat.mul_comm]
    nlinarith

theorem le_words (k W hi lo : Nat) (hW : 2 ^ W = 256 ^ k) (hhi : hi < 2 ^ W) (hlo : lo < 2 ^ W) :
    leBytes k lo ++ leBytes k hi = leBytes (k + k) (hi * 2 ^ W + lo) := by
  apply leVal_inj
  · simp
  · rw [leVal_append, leVal_leBytes, leVal_leBytes, leVal_leBytes, leBytes_length, ← hW,
      Nat.mod_eq_of_lt hhi, Nat.mod_eq_of_lt hlo, Nat.pow_add, ← hW, Nat.mod_eq_of_lt, Nat.mul_comm, Nat.add_comm]
    nlinarith

/-- `Final` after absorbing `P`. -/
theorem final_spec (comp : σ → List Byte → σ) (B L : Nat) (iv : σ) (out : σ → List Byte) (outLen cap : Nat)
    (len : Ctx σ W → List Byte) (lenField : Nat → List Byte) (pad : Ctx σ W → Option σ)
    (hpad : PadOk comp B len pad) (hL : ∀ n, (lenField n).length = L)
    (hlen : ∀ c : Ctx σ W, len c = lenField (c.hi.toNat * 2 ^ W + c.lo.toNat))
    (c : Ctx σ W) (P : List Byte) (hi : Inv comp B iv c P) (hcap : outLen ≤ cap) :
    finalWith pad out outLen cap c = some (.ok (Spec.digest comp iv out outLen B L lenField P)) := by
  unfold finalWith
  rw [if_neg (by omega), if_neg (by rw [hi.err]; decide), hpad iv c P hi.buf, hlen c, Option.map_some, chain_foldl]
  have : c.hi.toNat * 2 ^ W + c.lo.toNat = 8 * P.length := hi.bits
  rw [this]
  unfold Spec.digest Spec.pad padded padZeros
  rw [hL]

/-- What streaming means for one algorithm: with any division of the message into pieces (each of a length
that fits the API's `uint32_t`), the updates succeed and `Final` returns the digest of the whole; beyond
the limit `2^limit` bits some update is refused. -/
def Spec.Streams (upd : Ctx σ W → List Byte → Option (Ctx σ W × Except Err Unit))
    (fin : Nat → Ctx σ W → Option (Except Err (List Byte))) (c0 : Ctx σ W) (outLen limit : Nat)
    (H : List Byte → List Byte) : Prop :=
  ∀ xs : List (List Byte), (∀ x ∈ xs, x.length < 2 ^ 32) →
    (8 * xs.flatten.length < 2 ^ limit →
      ∃ c, updateAll upd c0 xs = some (c, .ok ()) ∧
        (∀ cap, outLen ≤ cap → fin cap c = some (.ok (H xs.flatten))) ∧
        ∀ cap, cap < outLen → fin cap c = some (.error .outBuff)) ∧
    (2 ^ limit ≤ 8 * xs.flatten.length →
      ∃ c, updateAll upd c0 xs = some (c, .error .overflow))

theorem streams_of (comp : σ → List Byte → σ) (B L : Nat) (iv : σ) (out : σ → List Byte) (outLen : Nat)
    (len : Ctx σ W → List Byte) (lenField : Nat → List Byte) (pad : Ctx σ W → Option σ)
    (hpad : PadOk comp B len pad) (hL : ∀ n, (lenField n).length = L)
    (hlen : ∀ c : Ctx σ W, len c = lenField (c.hi.toNat * 2 ^ W + c.lo.toNat)) (sticky : Bool)
    (addLen : Ctx σ W → BitVec 32 → Ctx σ W × Bool) (body : Ctx σ W → List Byte → Option (Ctx σ W))
    (hl : LenOk addLen) (hbody : BodyOk comp B body) :
    Spec.Streams (updateWith sticky addLen body) (fun cap => finalWith pad out outLen cap) (init W iv B) outLen
      (2 * W) (Spec.digest comp iv out outLen B L lenField) := by
  intro xs hx
  constructor
  · intro ht
    obtain ⟨c, e, i⟩ := updateAll_ok comp B sticky addLen body hl hbody iv xs _ [] (init_inv comp B iv) hx
      (by rw [List.length_nil, Nat.zero_add]; exact ht)
    rw [List.nil_append] at i
    refine ⟨c, e, fun cap hcap => ?_, fun cap hcap => ?_⟩
    · exact final_spec comp B L iv out outLen cap len lenField pad hpad hL hlen c _ i hcap
    · show finalWith pad out outLen cap c = _
      rw [finalWith, if_pos hcap]
  · intro ht
    obtain ⟨c, e, -⟩ := updateAll_over comp B sticky addLen body hl hbody iv xs _ [] (init_inv comp B iv) hx
      (by simp [Nat.two_pow_pos]) (by rw [List.length_nil, Nat.zero_add]; exact ht)
    exact ⟨c, e⟩

/-! ## The five algorithms, for any block function -/

theorem stream256 (comp : σ → List Byte → σ) (iv : σ) (out : σ → List Byte) (outLen : Nat) :
    Spec.Streams (update256 comp) (fun cap => final256 comp out outLen cap) (init 32 iv 64) outLen 64
      (Spec.digest comp iv out outLen 64 8 (beBytes 8)) :=
  streams_of comp 64 8 iv out outLen (fun c => beBytes 4 c.hi.toNat ++ beBytes 4 c.lo.toNat) (beBytes 8) _
    (pad2_ok comp 64 8 _ (fun c => by simp) (by omega)) (fun n => by simp)
    (fun c => be_words 4 32 _ _ (by decide) c.hi.isLt c.lo.isLt) true addLen32 _ addLen32_ok
    (body256_ok comp 64 (by omega))

theorem stream512 (comp : σ → List Byte → σ) (iv : σ) (out : σ → List Byte) (outLen : Nat) :
    Spec.Streams (update512 comp) (fun cap => final512 comp out outLen cap) (init 64 iv 128) outLen 128
      (Spec.digest comp iv out outLen 128 16 (beBytes 16)) :=
  streams_of comp 128 16 iv out outLen (fun c => beBytes 8 c.hi.toNat ++ beBytes 8 c.lo.toNat) (beBytes 16) _
    (pad2_ok comp 128 16 _ (fun c => by simp) (by omega)) (fun n => by simp)
    (fun c => be_words 8 64 _ _ (by decide) c.hi.isLt c.lo.isLt) true addLen64 _ addLen64_ok
    (body512_ok comp 7)

/-- **SHA-1 streaming.**  For any block function. -/
theorem stream1 (comp : σ → List Byte → σ) (iv : σ) (out : σ → List Byte) (outLen : Nat) :
    Spec.Streams (update1 comp) (fun cap => final1 comp out outLen cap) (init 32 iv 64) outLen 64
      (Spec.digest comp iv out outLen 64 8 (beBytes 8)) :=
  streams_of comp 64 8 iv out outLen (fun c => beBytes 4 c.hi.toNat ++ beBytes 4 c.lo.toNat) (beBytes 8) _
    (pad1_ok comp _ (fun c => by simp)) (fun n => by simp)
    (fun c => be_words 4 32 _ _ (by decide) c.hi.isLt c.lo.isLt) true addLen32 _ addLen32_ok
    (body1_ok comp 64 (by omega))

/-- **MD5 streaming.**  The length field is little endian. -/
theorem streamMd5 (comp : σ → List Byte → σ) (iv : σ) (out : σ → List Byte) (outLen : Nat) :
    Spec.Streams (updateM comp) (fun cap => finalMd5 comp out outLen cap) (init 32 iv 64) outLen 64
      (Spec.digest comp iv out outLen 64 8 (leBytes 8)) :=
  streams_of comp 64 8 iv out outLen (fun c => leBytes 4 c.lo.toNat ++ leBytes 4 c.hi.toNat) (leBytes 8) _
    (padM_ok comp 64 _ (fun c => by simp) (by omega)) (fun n => by simp)
    (fun c => le_words 4 32 _ _ (by decide) c.hi.isLt c.lo.isLt) false addLen32 _ addLen32_ok
    (bodyM_ok comp 64 (by omega))

/-- **SM3 streaming.** -/
theorem streamSm3 (comp : σ → List Byte → σ) (iv : σ) (out : σ → List Byte) (outLen : Nat) :
    Spec.Streams (updateM comp) (fun cap => finalSm3 comp out outLen cap) (init 32 iv 64) outLen 64
      (Spec.digest comp iv out outLen 64 8 (beBytes 8)) :=
  streams_of comp 64 8 iv out outLen (fun c => beBytes 4 c.hi.toNat ++ beBytes 4 c.lo.toNat) (beBytes 8) _
    (padM_ok comp 64 _ (fun c => by simp) (by omega)) (fun n => by simp)
    (fun c => be_words 4 32 _ _ (by decide) c.hi.isLt c.lo.isLt) false addLen32 _ addLen32_ok
    (bodyM_ok comp 64 (by omega))

/-! ## SHA-2 -/

/-- FIPS 180-4 section 6.2: SHA-256 for a given table of constants and initial value. -/
def Spec.sha256 (K : Nat → BitVec 32) (iv : Sha2.St 32) (outLen : Nat) (m : List Byte) : List Byte :=
  Spec.digest (fun H b => Spec.block (Spec.family32 K) H (Spec.words 4 32 b)) iv
    (fun s => ([s.a, s.b, s.c, s.d, s.e, s.f, s.g, s.h].map fun x => beBytes 4 x.toNat).flatten) outLen 64 8
    (beBytes 8) m

/-- FIPS 180-4 section 6.4: SHA-512 for a given table of constants and initial value. -/
def Spec.sha512 (K : Nat → BitVec 64) (iv : Sha2.St 64) (outLen : Nat) (m : List Byte) : List Byte :=
  Spec.digest (fun H b => Spec.block (Spec.family64 K) H (Spec.words 8 64 b)) iv
    (fun s => ([s.a, s.b, s.c, s.d, s.e, s.f, s.g, s.h].map fun x => beBytes 8 x.toNat).flatten) outLen 128 16
    (beBytes 16) m

theorem blocks_length (B : Nat) (m : List Byte) : ∀ b ∈ Spec.blocks B m, b.length = B := by
  intro b hb
  simp only [Spec.blocks, List.mem_map, List.mem_range] at hb
  obtain ⟨i, hi, rfl⟩ := hb
  rw [List.length_take, List.length_drop]
  have h1 : (i + 1) * B ≤ m.length / B * B := Nat.mul_le_mul_right B hi
  have h2 := Nat.div_mul_le_self m.length B
  have h3 : (i + 1) * B = i * B + B := by ring
  omega

theorem foldl_congr_blocks (f g : σ → List Byte → σ) (B : Nat) (l : List (List Byte)) (h : σ)
    (hl : ∀ b ∈ l, b.length = B) (hfg : ∀ s b, b.length = B → f s b = g s b) : l.foldl f h = l.foldl g h := by
  induction l generalizing h with
  | nil => rfl
  | cons b l ih =>
    rw [List.foldl_cons, List.foldl_cons, hfg h b (hl b (by simp)), ih _ (fun c hc => hl c (by simp [hc]))]

theorem digest_congr (f g : σ → List Byte → σ) (iv : σ) (out : σ → List Byte) (outLen B L : Nat)
    (lenField : Nat → List Byte) (hfg : ∀ s b, b.length = B → f s b = g s b) :
    Spec.digest f iv out outLen B L lenField = Spec.digest g iv out outLen B L lenField := by
  funext m
  unfold Spec.digest
  rw [foldl_congr_blocks f g B _ iv (blocks_length B _) hfg]

/-- **SHA-256 and SHA-224.**  Whatever the division of the message into pieces, the digest is the one of
FIPS 180-4 of the whole message, below 2^64 bits; at 2^64 bits and beyond an update is refused. -/
theorem sha256_stream (iv : Sha2.St 32) (outLen : Nat) :
    Spec.Streams (update256 Sha2.compress256) (fun cap => final256 Sha2.compress256 Sha2.out256 outLen cap)
      (init 32 iv 64) outLen 64 (Spec.sha256 (Sha2.rd Sha2.K256) iv outLen) := by
  have h := stream256 Sha2.compress256 iv Sha2.out256 outLen
  rw [digest_congr Sha2.compress256 _ iv Sha2.out256 outLen 64 8 (beBytes 8)
    (fun s b hb => Sha2.compress256_spec s b hb)] at h
  exact h

/-- **SHA-512 and SHA-384.**  The same, with the limit 2^128. -/
theorem sha512_stream (iv : Sha2.St 64) (outLen : Nat) :
    Spec.Streams (update512 Sha2.compress512) (fun cap => final512 Sha2.compress512 Sha2.out512 outLen cap)
      (init 64 iv 128) outLen 128 (Spec.sha512 (Sha2.rd Sha2.K512) iv outLen) := by
  have h := stream512 Sha2.compress512 iv Sha2.out512 outLen
  rw [digest_congr Sha2.compress512 _ iv Sha2.out512 outLen 128 16 (beBytes 16)
    (fun s b hb => Sha2.compress512_spec s b hb)] at h
  exact h

/-- "abc" in two pieces. -/
example : (updateAll (update256 Sha2.compress256) (init 32 Sha2.iv256 64) [[0x61#8], [], [0x62#8, 0x63#8]]).bind
    (fun r => final256 Sha2.compress256 Sha2.out256 32 32 r.1)
    = some (.ok (beBytes 32 0xba7816bf8f01cfea414140de5dae2223b00361a396177a9cb410ff61f20015ad)) := by
  decide +kernel

example : (updateAll (update256 Sha2.compress256) (init 32 Sha2.iv224 64) [[0x61#8], [], [0x62#8, 0x63#8]]).bind
    (fun r => final256 Sha2.compress256 Sha2.out256 28 32 r.1)
    = some (.ok (beBytes 28 0x23097d223405d8228642a477bda255b32aadbce4bda0b3f7e36c9da7)) := by
  decide +kernel

example : (updateAll (update512 Sha2.compress512) (init 64 Sha2.iv512 128) [[0x61#8], [], [0x62#8, 0x63#8]]).bind
    (fun r => final512 Sha2.compress512 Sha2.out512 64 64 r.1)
    = some (.ok (beBytes 64 0xddaf35a193617abacc417349ae20413112e6fa4e89a97ea20a9eeee64b55d39a2192992a274fc1a836ba3c23a3feebbd454d4423643ce80e2a9ac94fa54ca49f)) := by
  decide +kernel

example : (updateAll (update512 Sha2.compress512) (init 64 Sha2.iv384 128) [[0x61#8], [], [0x62#8, 0x63#8]]).bind
    (fun r => final512 Sha2.compress512 Sha2.out512 48 64 r.1)
    = some (.ok (beBytes 48 0xcb00753f45a35e8bb5a03d699ac65007272c32ab0eded1631a8b605a43ff5bed8086072ba1e7cc2358baeca134c825a7)) := by
  decide +kernel

/-! ### Constants -/

/-- The list version of `Spec.FracRoot`, with the integer part given, for evaluation. -/
theorem fracRoot_of (e n p k c : Nat)
    (h : (decide (k < 2 ^ n) && decide ((c * 2 ^ n + k) ^ e ≤ p * 2 ^ (n * e)) &&
      decide (p * 2 ^ (n * e) < (c * 2 ^ n + k + 1) ^ e)) = true) : Spec.FracRoot e n p k := by
  simp only [Bool.and_eq_true, decide_eq_true_eq] at h
  exact ⟨h.1.1, c, h.1.2, h.2⟩

/-- Check for all entries of a table. -/
def rootsOk (e n : Nat) (ps ks : List Nat) : Bool :=
  (ps.zip ks).all fun pk => (List.range 21).any fun c =>
    decide (pk.2 < 2 ^ n) && decide ((c * 2 ^ n + pk.2) ^ e ≤ pk.1 * 2 ^ (n * e)) &&
      decide (pk.1 * 2 ^ (n * e) < (c * 2 ^ n + pk.2 + 1) ^ e)

theorem rootsOk_spec (e n : Nat) (ps ks : List Nat) (h : rootsOk e n ps ks = true) :
    ∀ pk ∈ ps.zip ks, Spec.FracRoot e n pk.1 pk.2 := by
  intro pk hpk
  have h1 := List.all_eq_true.mp h pk hpk
  obtain ⟨c, -, hc⟩ := List.any_eq_true.mp h1
  exact fracRoot_of e n pk.1 pk.2 c hc

/-- The words of an initial value. -/
def stWords (s : Sha2.St n) : List Nat :=
  [s.a.toNat, s.b.toNat, s.c.toNat, s.d.toNat, s.e.toNat, s.f.toNat, s.g.toNat, s.h.toNat]

/-- **The SHA-2 constants.**  The round constants are the fractional parts of the cube roots of the first
64 and 80 primes, the initial values those of the square roots of the first eight primes (SHA-256,
SHA-512) and of the ninth to sixteenth (SHA-384; SHA-224 uses the low halves of SHA-384's words). -/
theorem sha2_constants :
    Sha2.K256.length = 64 ∧ Sha2.K512.length = 80 ∧ Spec.primes.length = 80 ∧
    (∀ pk ∈ Spec.primes.zip (Sha2.K256.map BitVec.toNat), Spec.FracRoot 3 32 pk.1 pk.2) ∧
    (∀ pk ∈ Spec.primes.zip (Sha2.K512.map BitVec.toNat), Spec.FracRoot 3 64 pk.1 pk.2) ∧
    (∀ pk ∈ Spec.primes.zip (stWords Sha2.iv256), Spec.FracRoot 2 32 pk.1 pk.2) ∧
    (∀ pk ∈ Spec.primes.zip (stWords Sha2.iv512), Spec.FracRoot 2 64 pk.1 pk.2) ∧
    (∀ pk ∈ (Spec.primes.drop 8).zip (stWords Sha2.iv384), Spec.FracRoot 2 64 pk.1 pk.2) ∧
    stWords Sha2.iv224 = (stWords Sha2.iv384).map (· % 2 ^ 32) := by
  refine ⟨by decide, by decide, by decide +kernel, ?_, ?_, ?_, ?_, ?_, by decide⟩
  · exact rootsOk_spec _ _ _ _ (by decide +kernel)
  · exact rootsOk_spec _ _ _ _ (by decide +kernel)
  · exact rootsOk_spec _ _ _ _ (by decide +kernel)
  · exact rootsOk_spec _ _ _ _ (by decide +kernel)
  · exact rootsOk_spec _ _ _ _ (by decide +kernel)

/-! ## After a refused update -/

/-- **Sticky refusal (SHA-1, SHA-2).**  Once an update was refused because of the length limit, every
further update and `Final` is refused, so no digest of a truncated message comes out. -/
theorem refused_sticky (comp : σ → List Byte → σ) (addLen : Ctx σ W → BitVec 32 → Ctx σ W × Bool)
    (body : Ctx σ W → List Byte → Option (Ctx σ W)) (pad : Ctx σ W → Option σ) (out : σ → List Byte) (outLen : Nat)
    (c c1 : Ctx σ W) (d : List Byte)
    (h : updateWith true addLen body c d = some (c1, .error .overflow)) :
    (∀ d', updateWith true addLen body c1 d' = some (c1, .error .overflow)) ∧
    (∀ cap, ∃ e, finalWith pad out outLen cap c1 = some (.error e)) := by
  have _ := comp
  have herr : c1.err = true := by
    unfold updateWith at h
    dsimp only at h
    by_cases hc : c.err = true
    · rw [if_pos hc] at h
      simp only [Option.some.injEq, Prod.mk.injEq] at h
      rw [← h.1]; exact hc
    · rw [if_neg hc] at h
      by_cases hr : (addLen c (BitVec.ofNat 32 d.length)).2 = true
      · rw [if_pos hr] at h
        simp only [Option.some.injEq, Prod.mk.injEq] at h
        rw [← h.1]
      · rw [if_neg hr] at h
        cases hb : body (addLen c (BitVec.ofNat 32 d.length)).1 d with
        | none => rw [hb] at h; simp at h
        | some x => rw [hb] at h; simp at h
  constructor
  · intro d'
    rw [updateWith, if_pos herr]
  · intro cap
    unfold finalWith
    by_cases hcap : cap < outLen
    · exact ⟨_, if_pos hcap⟩
    · exact ⟨.overflow, by rw [if_neg hcap, if_pos herr]⟩

/-- A context 8 bits below the limit. -/
def nearLimit : Ctx (List Byte) 32 := ⟨[], List.replicate 64 0#8, 63, 0xfffffff8#32, 0xffffffff#32, false⟩

example : (update256 (fun h b => h ++ b) nearLimit [1#8]).map (·.2) = some (.error .overflow) := by decide +kernel
example : (update1 (fun h b => h ++ b) nearLimit [1#8]).map (·.2) = some (.error .overflow) := by decide +kernel

/-- The hash whose chaining value is the list of all compressed bytes. -/
def transcript : List Byte → List Byte → List Byte := fun h b => h ++ b

theorem multi_transcript (B n : Nat) (h d : List Byte) :
    multi transcript B n h d = h ++ d.take (n * B) := by
  induction n generalizing h d with
  | zero => simp [multi]
  | succ n ih =>
    rw [multi, ih, transcript, List.append_assoc, ← List.take_add]
    congr 2
    rw [Nat.succ_mul, Nat.add_comm]

theorem chain_transcript (B : Nat) (d : List Byte) (hd : d.length % B = 0) : chain transcript B [] d = d := by
  rw [chain, multi_transcript, List.nil_append, Nat.div_mul_cancel (Nat.dvd_of_mod_eq_zero hd),
    List.take_length]

theorem finalSm3_transcript (c : Ctx (List Byte) 32) (P : List Byte) (N : Nat)
    (hb : Buf transcript 64 [] c P) (he : c.err = false) (hN : P.length + 80 ≤ N) :
    finalSm3 transcript id N N c
      = some (.ok (padded 64 (beBytes 4 c.hi.toNat ++ beBytes 4 c.lo.toNat) P)) := by
  have hpad := padM_ok (W := 32) transcript 64 (fun c => beBytes 4 c.hi.toNat ++ beBytes 4 c.lo.toNat)
    (fun c => by simp) (by omega) [] c P hb
  dsimp only at hpad
  have hl : (padded 64 (beBytes 4 c.hi.toNat ++ beBytes 4 c.lo.toNat) P).length
      = P.length + 1 + (64 - (P.length + 1 + 8) % 64) % 64 + 8 := by
    simp only [padded, padZeros, List.length_append, List.length_replicate, List.length_singleton, beBytes_length]
  unfold finalSm3 finalWith
  dsimp only
  rw [if_neg (Nat.lt_irrefl N), if_neg (by rw [he]; decide), hpad, Option.map_some, chain_transcript _ _ (by omega),
    id, List.take_of_length_le (by omega)]

theorem digest_transcript (P : List Byte) (N : Nat) (hN : P.length + 80 ≤ N) :
    Spec.digest transcript [] id N 64 8 (beBytes 8) P = Spec.pad 64 8 (beBytes 8) P := by
  have hl : (Spec.pad 64 8 (beBytes 8) P).length = P.length + 1 + (64 - (P.length + 1 + 8) % 64) % 64 + 8 := by
    simp only [Spec.pad, List.length_append, List.length_replicate, List.length_singleton, beBytes_length]
  unfold Spec.digest
  rw [← chain_foldl, chain_transcript _ _ (by omega), id, List.take_of_length_le (by omega)]

/-- **Finding (MD5, SM3).**  MD5 and SM3 keep no error flag: after an update refused at the length limit,
`Final` succeeds, with a length field that is not the length of the accepted data.  Shown for SM3 on the
block function that records its input, after `2^61 - 1` accepted bytes. -/
theorem refused_not_sticky_witness :
    ∃ (xs : List (List Byte)) (c c1 : Ctx (List Byte) 32) (dig : List Byte),
      updateAll (updateM transcript) (init 32 [] 64) xs = some (c, .ok ()) ∧
      updateM transcript c [0#8] = some (c1, .error .overflow) ∧
      finalSm3 transcript id (2 ^ 62) (2 ^ 62) c1 = some (.ok dig) ∧
      dig ≠ Spec.digest transcript [] id (2 ^ 62) 64 8 (beBytes 8) xs.flatten := by
  have hxs : ∀ x ∈ List.replicate (2 ^ 61 - 1) [0#8], x.length < 2 ^ 32 := by
    intro x hx
    rw [(List.mem_replicate.mp hx).2]; decide
  have hfl : (List.replicate (2 ^ 61 - 1) [0#8]).flatten.length = 2 ^ 61 - 1 := by
    rw [List.length_flatten, List.map_replicate, List.sum_replicate_nat, List.length_singleton, Nat.mul_one]
  generalize List.replicate (2 ^ 61 - 1) [0#8] = xs at hxs hfl
  obtain ⟨c, e, i⟩ := updateAll_ok transcript 64 false addLen32 (bodyM (W := 32) transcript 64) addLen32_ok
    (bodyM_ok transcript 64 (by omega)) [] xs _ [] (init_inv transcript 64 []) hxs
    (by rw [List.length_nil, Nat.zero_add, hfl]; decide)
  rw [List.nil_append] at i
  generalize hP : xs.flatten = P at hfl i
  have hb : c.hi.toNat * 2 ^ 32 + c.lo.toNat = 8 * P.length := i.bits
  have hlo := c.lo.isLt
  have hhi := c.hi.isLt
  have hhi' : c.hi = 0xffffffff#32 := by
    apply BitVec.eq_of_toNat_eq
    rw [show (0xffffffff#32).toNat = 4294967295 from rfl]
    omega
  have hlo' : c.lo = 0xfffffff8#32 := by
    apply BitVec.eq_of_toNat_eq
    rw [show (0xfffffff8#32).toNat = 4294967288 from rfl]
    omega
  have hadd : addLen32 c (BitVec.ofNat 32 [0#8].length) = ({ c with hi := 0#32 }, true) := by
    unfold addLen32
    rw [hhi', hlo']
    rfl
  refine ⟨xs, c, { c with hi := 0#32, err := false }, (padded 64 (beBytes 4 0 ++ beBytes 4 4294967288) P), e, ?_, ?_, ?_⟩
  · unfold updateM updateWith
    rw [if_neg (by rw [i.err]; decide), hadd]
    rfl
  · have := finalSm3_transcript { c with hi := 0#32, err := false } P (2 ^ 62)
      ⟨i.buf.h, i.buf.num, i.buf.len, i.buf.buf⟩ rfl (by omega)
    rw [this]
    dsimp only
    rw [hlo', show (0xfffffff8#32).toNat = 4294967288 from rfl, show (0#32).toNat = 0 from rfl]
  · rw [hP, digest_transcript P _ (by omega)]
    intro h
    unfold padded Spec.pad at h
    have h2 := (List.append_inj' h (by simp)).2
    rw [hfl] at h2
    revert h2
    decide +kernel

end Verif.Crypto.Md
