import Verif.Crypto.Mac.Proof

/-!
# HMAC: the API computes RFC 2104 whatever the history of calls (C29)

Specification: `Spec.hmac` (RFC 2104) and `Spec.run`, a session as the caller sees it: no key, a key with
the bytes given so far, or a key whose tag has been delivered.
-/

namespace Verif.Crypto.Mac

open Verif.Common

/-- RFC 2104 section 2, for a hash `H` with blocks of `B` bytes. -/
def Spec.hmac (H : List Byte → List Byte) (B : Nat) (key msg : List Byte) : List Byte :=
  let k0 := if key.length ≤ B then key else H key
  let k := k0 ++ List.replicate (B - k0.length) 0#8
  H (k.map (· ^^^ 0x5c#8) ++ H (k.map (· ^^^ 0x36#8) ++ msg))

/-- What the caller knows about a session. -/
inductive Spec.Session
  | unkeyed
  | active (key msg : List Byte)
  | done (key : List Byte)

/-- One call as the caller sees it; `F` is the MAC, `L` its length. -/
def Spec.step (F : List Byte → List Byte → List Byte) (L : Nat) : Spec.Session → Op → Spec.Session × Res
  | _, .init key => (.active key [], .ok)
  | .active k m, .update d => (.active k (m ++ d), .ok)
  | .active k m, .final cap => if cap < L then (.active k m, .err) else (.done k, .mac (F k m))
  | .active k _, .reinit => (.active k [], .ok)
  | .done k, .reinit => (.active k [], .ok)
  | _, .deinit => (.unkeyed, .ok)
  | s, .dup => (s, .ok)
  | s, _ => (s, .err)

/-- A history of calls. -/
def Spec.run (F : List Byte → List Byte → List Byte) (L : Nat) : Spec.Session → List Op → List Res
  | _, [] => []
  | s, op :: ops => (Spec.step F L s op).2 :: Spec.run F L (Spec.step F L s op).1 ops

/-- The arguments fit the API's `uint32_t` lengths. -/
def Spec.Fits : Op → Prop
  | .init key => key.length < 2 ^ 32
  | .update d => d.length < 2 ^ 32
  | _ => True

/-- Bytes given to `update` in a history. -/
def Spec.total : List Op → Nat
  | [] => 0
  | .update d :: ops => d.length + Spec.total ops
  | _ :: ops => Spec.total ops

theorem hmacOf_spec (H : List Byte → List Byte) (B : Nat) (key msg : List Byte) :
    hmacOf H B key msg = Spec.hmac H B key msg := by
  unfold hmacOf Spec.hmac blockKey xorPad
  have h1 : (fun x : Byte => 0x5c#8 ^^^ x) = (· ^^^ 0x5c#8) := by funext x; exact BitVec.xor_comm _ _
  have h2 : (fun x : Byte => 0x36#8 ^^^ x) = (· ^^^ 0x36#8) := by funext x; exact BitVec.xor_comm _ _
  have h3 : (if B < key.length then H key else key) = if key.length ≤ B then key else H key := by
    by_cases h : B < key.length
    · rw [if_pos h, if_neg (by omega)]
    · rw [if_neg h, if_pos (by omega)]
  rw [h1, h2, h3]

/-- The session relation. -/
inductive Rel (m : Md) (H : List Byte → List Byte) (Abs : m.C → List Byte → Prop) : ECtx m → Spec.Session → Prop
  | unkeyed (h) : Rel m H Abs ⟨.new, h⟩ .unkeyed
  | init (h k P) (hi : HInv m H Abs h k P) : Rel m H Abs ⟨.init, h⟩ (.active k P)
  | update (h k P) (hi : HInv m H Abs h k P) : Rel m H Abs ⟨.update, h⟩ (.active k P)
  | final (h k) (hi : Keyed m H Abs h k) : Rel m H Abs ⟨.final, h⟩ (.done k)

/-- Bytes of the running message. -/
def msgLen : Spec.Session → Nat
  | .active _ m => m.length
  | _ => 0

theorem step_active (m : Md) (H Abs) (hm : Lawful m H Abs) (st : State) (hst : st = .init ∨ st = .update)
    (h : HCtx m) (k P : List Byte) (hi : HInv m H Abs h k P) (op : Op) (hf : Spec.Fits op)
    (hP : P.length + Spec.total [op] < 2 ^ 60) :
    ∃ c', step m ⟨st, h⟩ op = some (c', (Spec.step (Spec.hmac H m.blockSize) m.mdSize (.active k P) op).2) ∧
      Rel m H Abs c' (Spec.step (Spec.hmac H m.blockSize) m.mdSize (.active k P) op).1 ∧
      msgLen (Spec.step (Spec.hmac H m.blockSize) m.mdSize (.active k P) op).1 ≤ P.length + Spec.total [op] := by
  have hne : ¬ (st = .final ∨ st = .new) := by rcases hst with rfl | rfl <;> decide
  have hne2 : ¬ (st = .new ∨ st = .final) := by rcases hst with rfl | rfl <;> decide
  have hne3 : st ≠ .new := by rcases hst with rfl | rfl <;> decide
  have hrel : ∀ h', HInv m H Abs h' k P → Rel m H Abs ⟨st, h'⟩ (.active k P) := by
    intro h' hi'
    rcases hst with rfl | rfl
    · exact .init _ _ _ hi'
    · exact .update _ _ _ hi'
  cases op with
  | init key =>
    obtain ⟨h', e, i⟩ := hmacInit_spec m H Abs hm key hf
    refine ⟨⟨.init, h'⟩, ?_, .init _ _ _ i, by simp [Spec.step, msgLen]⟩
    unfold step
    dsimp only
    rw [e]; rfl
  | update d =>
    simp only [Spec.total, Nat.add_zero] at hP
    obtain ⟨h1, h2⟩ := hmacUpdate_spec m H Abs hm h k P d hi hf hP
    refine ⟨⟨.update, _⟩, ?_, .update _ _ _ h2, by simp [Spec.step, msgLen, Spec.total]⟩
    unfold step
    dsimp only
    rw [if_neg hne, h1, if_pos rfl]; rfl
  | final cap =>
    simp only [Spec.total, Nat.add_zero] at hP
    unfold step Spec.step
    dsimp only
    rw [if_neg hne2]
    by_cases hc : cap < m.mdSize
    · rw [if_pos hc]
      refine ⟨⟨st, h⟩, ?_, hrel h hi, by simp [msgLen]⟩
      unfold hmacFinal
      rw [if_pos hc]
    · rw [if_neg hc]
      obtain ⟨h1, h2⟩ := hmacFinal_spec m H Abs hm h k P cap hi hP (by omega)
      rw [h1]
      refine ⟨_, ?_, .final _ _ h2, by simp [msgLen]⟩
      rw [hmacOf_spec]
  | reinit =>
    refine ⟨⟨.init, _⟩, ?_, .init _ _ _ (hmacReinit_spec m H Abs hm h k hi.keyed), by simp [Spec.step, msgLen]⟩
    unfold step
    dsimp only
    rw [if_neg hne3]; rfl
  | deinit => exact ⟨_, rfl, .unkeyed _, by simp [Spec.step, msgLen]⟩
  | dup => exact ⟨_, rfl, hrel _ (hmacDup_spec m H Abs hm h k P hi), by simp [Spec.step, msgLen]⟩

theorem step_spec (m : Md) (H Abs) (hm : Lawful m H Abs) (c : ECtx m) (s : Spec.Session) (hr : Rel m H Abs c s)
    (op : Op) (hf : Spec.Fits op) (hP : msgLen s + Spec.total [op] < 2 ^ 60) :
    ∃ c', step m c op = some (c', (Spec.step (Spec.hmac H m.blockSize) m.mdSize s op).2) ∧
      Rel m H Abs c' (Spec.step (Spec.hmac H m.blockSize) m.mdSize s op).1 ∧
      msgLen (Spec.step (Spec.hmac H m.blockSize) m.mdSize s op).1 ≤ msgLen s + Spec.total [op] := by
  cases hr with
  | init h k P hi => exact step_active m H Abs hm _ (Or.inl rfl) h k P hi op hf hP
  | update h k P hi => exact step_active m H Abs hm _ (Or.inr rfl) h k P hi op hf hP
  | unkeyed h =>
    cases op with
    | init key =>
      obtain ⟨h', e, i⟩ := hmacInit_spec m H Abs hm key hf
      refine ⟨⟨.init, h'⟩, ?_, .init _ _ _ i, by simp [Spec.step, msgLen]⟩
      unfold step
      dsimp only
      rw [e]; rfl
    | update d => exact ⟨_, rfl, .unkeyed _, by simp [Spec.step, msgLen]⟩
    | final cap => exact ⟨_, rfl, .unkeyed _, by simp [Spec.step, msgLen]⟩
    | reinit => exact ⟨_, rfl, .unkeyed _, by simp [Spec.step, msgLen]⟩
    | deinit => exact ⟨_, rfl, .unkeyed _, by simp [Spec.step, msgLen]⟩
    | dup => exact ⟨_, rfl, .unkeyed _, by simp [Spec.step, msgLen]⟩
  | final h k hk =>
    cases op with
    | init key =>
      obtain ⟨h', e, i⟩ := hmacInit_spec m H Abs hm key hf
      refine ⟨⟨.init, h'⟩, ?_, .init _ _ _ i, by simp [Spec.step, msgLen]⟩
      unfold step
      dsimp only
      rw [e]; rfl
    | update d => exact ⟨_, rfl, .final _ _ hk, by simp [Spec.step, msgLen]⟩
    | final cap => exact ⟨_, rfl, .final _ _ hk, by simp [Spec.step, msgLen]⟩
    | reinit => exact ⟨_, rfl, .init _ _ _ (hmacReinit_spec m H Abs hm h k hk), by simp [Spec.step, msgLen]⟩
    | deinit => exact ⟨_, rfl, .unkeyed _, by simp [Spec.step, msgLen]⟩
    | dup => exact ⟨_, rfl, .final _ _ (hmacDup_keyed m H Abs hm h k hk), by simp [Spec.step, msgLen]⟩

theorem total_cons (op : Op) (ops : List Op) : Spec.total (op :: ops) = Spec.total [op] + Spec.total ops := by
  cases op <;> simp [Spec.total]

theorem run_spec (m : Md) (H Abs) (hm : Lawful m H Abs) (ops : List Op) (c : ECtx m) (s : Spec.Session)
    (hr : Rel m H Abs c s) (hf : ∀ op ∈ ops, Spec.Fits op) (hP : msgLen s + Spec.total ops < 2 ^ 60) :
    run m c ops = some (Spec.run (Spec.hmac H m.blockSize) m.mdSize s ops) := by
  induction ops generalizing c s with
  | nil => rfl
  | cons op ops ih =>
    rw [total_cons] at hP
    obtain ⟨c', e, r, l⟩ := step_spec m H Abs hm c s hr op (hf op (by simp)) (by omega)
    unfold run
    rw [e]
    dsimp only
    rw [ih c' _ r (fun o ho => hf o (by simp [ho])) (by omega)]
    rfl

/-- **HMAC sessions.**  For every hash object that behaves like a function `H` (`Lawful`), every new
context (whatever its memory holds) and every history of calls (with lengths that fit the API and less
than 2^60 bytes of data), the API answers exactly as the specification session: the tag is RFC 2104's HMAC
of the current key and of the bytes given since the last `init` or `reinit`, in any division; after the
tag has been delivered, or without a key, `update` and `final` are refused; a short buffer is refused and
costs nothing; a duplicated context continues as the original would. -/
theorem hmac_session (m : Md) (H Abs) (hm : Lawful m H Abs) (h0 : HCtx m) (ops : List Op)
    (hf : ∀ op ∈ ops, Spec.Fits op) (hP : Spec.total ops < 2 ^ 60) :
    run m ⟨.new, h0⟩ ops = some (Spec.run (Spec.hmac H m.blockSize) m.mdSize .unkeyed ops) :=
  run_spec m H Abs hm ops _ _ (.unkeyed h0) hf (by simp only [msgLen]; omega)

/-! ## The hashes of the library -/

section
open Verif.Crypto.Md (Ctx Err)

/-- HMAC over a streaming hash: the statement of `hmac_session` for it. -/
def Spec.HmacOf (B outLen : Nat) (upd : Ctx σ W → List Byte → Option (Ctx σ W × Except Err Unit))
    (fin : Nat → Ctx σ W → Option (Except Err (List Byte))) (c0 : Ctx σ W) (H : List Byte → List Byte) : Prop :=
  ∀ (h0 : HCtx (ofStream B outLen upd fin c0)) (ops : List Op), (∀ op ∈ ops, Spec.Fits op) →
    Spec.total ops < 2 ^ 60 →
    Mac.run (ofStream B outLen upd fin c0) ⟨.new, h0⟩ ops = some (Spec.run (Spec.hmac H B) outLen .unkeyed ops)

theorem digest_len (comp : σ → List Byte → σ) (iv : σ) (out : σ → List Byte) (outLen B L : Nat)
    (lenField : Nat → List Byte) (hout : ∀ s, outLen ≤ (out s).length) (P : List Byte) :
    (Md.Spec.digest comp iv out outLen B L lenField P).length = outLen := by
  unfold Md.Spec.digest
  rw [List.length_take]
  exact Nat.min_eq_left (hout _)

theorem hmacOf_streams (B outLen limit : Nat) (upd : Ctx σ W → List Byte → Option (Ctx σ W × Except Err Unit))
    (fin : Nat → Ctx σ W → Option (Except Err (List Byte))) (c0 : Ctx σ W) (H : List Byte → List Byte)
    (hs : Md.Spec.Streams upd fin c0 outLen limit H) (hlim : 64 ≤ limit) (hlen : ∀ P, (H P).length = outLen)
    (hsz : outLen ≤ B ∧ B ≤ maxBlock ∧ outLen ≤ maxOut) : Spec.HmacOf B outLen upd fin c0 H :=
  fun h0 ops hf hP => hmac_session _ H _ (ofStream_lawful B outLen limit upd fin c0 H hs hlim hlen hsz) h0 ops hf hP

/-- **HMAC-SHA-256 and HMAC-SHA-224** (`outLen` 32, 28). -/
theorem hmac_sha256 (iv : Md.Sha2.St 32) (outLen : Nat) (ho : outLen ≤ 32) :
    Spec.HmacOf 64 outLen (Md.update256 Md.Sha2.compress256)
      (fun cap => Md.final256 Md.Sha2.compress256 Md.Sha2.out256 outLen cap) (Crypto.Md.init 32 iv 64)
      (Md.Spec.sha256 (Md.Sha2.rd Md.Sha2.K256) iv outLen) :=
  hmacOf_streams 64 outLen 64 _ _ _ _ (Md.sha256_stream iv outLen) (by omega)
    (fun P => by unfold Md.Spec.sha256; exact digest_len _ _ _ _ _ _ _ (fun s => by simp; omega) P)
    (by simp only [maxBlock, maxOut]; omega)

/-- **HMAC-SHA-512 and HMAC-SHA-384** (`outLen` 64, 48). -/
theorem hmac_sha512 (iv : Md.Sha2.St 64) (outLen : Nat) (ho : outLen ≤ 64) :
    Spec.HmacOf 128 outLen (Md.update512 Md.Sha2.compress512)
      (fun cap => Md.final512 Md.Sha2.compress512 Md.Sha2.out512 outLen cap) (Crypto.Md.init 64 iv 128)
      (Md.Spec.sha512 (Md.Sha2.rd Md.Sha2.K512) iv outLen) :=
  hmacOf_streams 128 outLen 128 _ _ _ _ (Md.sha512_stream iv outLen) (by omega)
    (fun P => by unfold Md.Spec.sha512; exact digest_len _ _ _ _ _ _ _ (fun s => by simp; omega) P)
    (by simp only [maxBlock, maxOut]; omega)

/-- **HMAC-SHA-1**, for any block function with 20-byte results. -/
theorem hmac_sha1 (comp : σ → List Byte → σ) (iv : σ) (out : σ → List Byte) (hout : ∀ s, 20 ≤ (out s).length) :
    Spec.HmacOf 64 20 (Md.update1 comp) (fun cap => Md.final1 comp out 20 cap) (Crypto.Md.init 32 iv 64)
      (Md.Spec.digest comp iv out 20 64 8 (beBytes 8)) :=
  hmacOf_streams 64 20 64 _ _ _ _ (Md.stream1 comp iv out 20) (by omega) (digest_len _ _ _ _ _ _ _ hout)
    (by simp [maxBlock, maxOut])

/-- **HMAC-MD5**. -/
theorem hmac_md5 (comp : σ → List Byte → σ) (iv : σ) (out : σ → List Byte) (hout : ∀ s, 16 ≤ (out s).length) :
    Spec.HmacOf 64 16 (Md.updateM comp) (fun cap => Md.finalMd5 comp out 16 cap) (Crypto.Md.init 32 iv 64)
      (Md.Spec.digest comp iv out 16 64 8 (leBytes 8)) :=
  hmacOf_streams 64 16 64 _ _ _ _ (Md.streamMd5 comp iv out 16) (by omega) (digest_len _ _ _ _ _ _ _ hout)
    (by simp [maxBlock, maxOut])

/-- **HMAC-SM3**. -/
theorem hmac_sm3 (comp : σ → List Byte → σ) (iv : σ) (out : σ → List Byte) (hout : ∀ s, 32 ≤ (out s).length) :
    Spec.HmacOf 64 32 (Md.updateM comp) (fun cap => Md.finalSm3 comp out 32 cap) (Crypto.Md.init 32 iv 64)
      (Md.Spec.digest comp iv out 32 64 8 (beBytes 8)) :=
  hmacOf_streams 64 32 64 _ _ _ _ (Md.streamSm3 comp iv out 32) (by omega) (digest_len _ _ _ _ _ _ _ hout)
    (by simp [maxBlock, maxOut])

/-- The object used by the examples: SHA-256. -/
def sha256Md : Mac.Md := ofStream 64 32 (Md.update256 Md.Sha2.compress256)
  (fun cap => Md.final256 Md.Sha2.compress256 Md.Sha2.out256 32 cap) (Crypto.Md.init 32 Md.Sha2.iv256 64)

/-- RFC 4231 test case 2 in two pieces, with refusals, a duplicate in the middle, and a second message
after `reinit`. -/
example : run sha256Md ⟨.new, ⟨sha256Md.zero, sha256Md.zero, sha256Md.zero⟩⟩
    [.update [1#8], .init [0x4a#8, 0x65#8, 0x66#8, 0x65#8],
      .update [0x77#8, 0x68#8, 0x61#8, 0x74#8, 0x20#8, 0x64#8, 0x6f#8], .dup, .final 31,
      .update [0x20#8, 0x79#8, 0x61#8, 0x20#8, 0x77#8, 0x61#8, 0x6e#8, 0x74#8, 0x20#8, 0x66#8, 0x6f#8, 0x72#8,
        0x20#8, 0x6e#8, 0x6f#8, 0x74#8, 0x68#8, 0x69#8, 0x6e#8, 0x67#8, 0x3f#8],
      .final 32, .update [], .reinit, .deinit, .final 32] =
    some [.err, .ok, .ok, .ok, .err, .ok,
      .mac (beBytes 32 0x5bdcc146bf60754e6a042426089575c75a003f089d2739839dec58b964ec3843),
      .err, .ok, .ok, .err] := by
  decide +kernel

/-- RFC 4231 test case 6: a key longer than the block. -/
example : run sha256Md ⟨.new, ⟨sha256Md.zero, sha256Md.zero, sha256Md.zero⟩⟩
    [.init (List.replicate 131 0xaa#8),
      .update ("Test Using Larger Than Block-Size Key - Hash Key First".toList.map fun c => BitVec.ofNat 8 c.toNat),
      .final 32] =
    some [.ok, .ok, .mac (beBytes 32 0x60e431591ee0b67f0d8a26aacbf5b77f8e0bc6213728c5140546040f0ee37f54)] := by
  decide +kernel

end

end Verif.Crypto.Mac
