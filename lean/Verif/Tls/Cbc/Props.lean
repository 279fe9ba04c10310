import Verif.Tls.Cbc.Proof
/-!
# C05 — CBC records: padding and MAC verification
-/
namespace Verif.Tls.Cbc
open Verif.Common Verif.Bsl.Bytes

/-! ## Specification (RFC 5246 6.2.3.1/6.2.3.2, RFC 7366, RFC 2104) -/

/-- RFC 5246 6.2.3.1: `seq_num || type || version || length || content`. -/
def Spec.macInput (seq : Nat) (type : Byte) (version : BitVec 16) (content : List Byte) : List Byte :=
  beBytes 8 seq ++ [type] ++ beBytes 2 version.toNat ++ beBytes 2 content.length ++ content

/-- RFC 5246 6.2.3.2: `padding_length + 1` bytes, each equal to `padding_length`. -/
def Spec.padding (pad : Byte) : List Byte := List.replicate (pad.toNat + 1) pad

/-- RFC 2104. -/
def Spec.hmac (H : List Byte → List Byte) (blockSize : Nat) (key msg : List Byte) : List Byte :=
  let k0 := key ++ List.replicate (blockSize - key.length) 0#8
  H (k0.map (· ^^^ 0x5c#8) ++ H (k0.map (· ^^^ 0x36#8) ++ msg))

/-- The suites in use: MAC key not longer than the hash block, hash blocks fit the 144-byte work arrays,
digest length equals the MAC length, IV of one cipher block. -/
structure Suite.Wf (s : Suite) : Prop where
  key : s.macKey.length ≤ s.blen
  blen : s.blen ≤ 144
  dig : ∀ m, (s.H m).length = s.macLen
  mac : s.macLen ≤ 64
  blk0 : 0 < s.blockLength
  blk : s.blockLength ≤ 255
  fiv : s.fixedIvLength = s.blockLength
  riv : s.recordIvLength = s.blockLength

theorem last_padding (x : List Byte) (pad : Byte) :
    (x ++ Spec.padding pad)[(x ++ Spec.padding pad).length - 1]? = some pad := by
  unfold Spec.padding
  rw [List.length_append, List.length_replicate, List.getElem?_append_right (by omega),
    List.getElem?_replicate_of_lt (by omega)]

theorem hmac_eq (s : Suite) (m : List Byte) : hmac s m = Spec.hmac s.H s.blen s.macKey m := rfl

theorem macHeader_eq (seq : BitVec 64) (type : Byte) (version : BitVec 16) (content : List Byte)
    (hc : content.length < 65536) :
    macHeader ⟨uint64ToByte seq, type, version⟩ content.length ++ content =
      Spec.macInput seq.toNat type version content := by
  unfold macHeader Spec.macInput
  rw [uint64ToByte_spec, uint16ToByte_spec, uint16ToByte_spec, List.take_of_length_le (by simp)]
  simp [Nat.mod_eq_of_lt hc]

theorem key_take (s : Suite) (hs : s.Wf) :
    (s.macKey ++ List.replicate (144 - s.macKey.length) 0#8).take s.blen =
      s.macKey ++ List.replicate (s.blen - s.macKey.length) 0#8 := by
  have h1 := hs.key
  have h2 := hs.blen
  rw [List.take_append, List.take_of_length_le h1, List.take_replicate]
  congr 2
  omega

/-- The constant-time HMAC never leaves the buffer, whatever the mask. -/
theorem constTimeHmac_total (s : Suite) (hs : s.Wf) (g : Bool) (h : Hdr) (data : List Byte) (pb : Byte)
    (h1 : 1 ≤ data.length) (h2 : data.length < 2 ^ 32) (hpb : data[data.length - 1]? = some pb)
    (hg : g = true → s.macLen + pb.toNat + 1 ≤ data.length) :
    ∃ m, constTimeHmac s (mask (g = true)) h data = some m ∧ m.length = s.macLen ∧
      (g = true → m = hmac s (macHeader h (data.length - (s.macLen + pb.toNat + 1)) ++
        data.take (data.length - (s.macLen + pb.toNat + 1)))) := by
  have hmac := hs.mac
  have hpblt := pb.isLt
  unfold constTimeHmac
  have hidx : (BitVec.ofNat 32 data.length - 1#32).toNat = data.length - 1 := by
    rw [BitVec.toNat_sub]; simp only [BitVec.toNat_ofNat, Nat.mod_eq_of_lt h2]; omega
  simp only [hidx, hpb, ctSelect_spec, ctGt_spec]
  cases g with
  | false =>
    simp only [Bool.false_eq_true, if_false, false_implies, and_true, BitVec.toNat_ofNat, Nat.mod_eq_of_lt h2]
    by_cases h256 : 256 % 2 ^ 32 < data.length
    · simp only [if_pos h256]
      have hmn : (BitVec.ofNat 32 data.length - 256#32).toNat = data.length - 256 := by
        rw [BitVec.toNat_sub]; simp only [BitVec.toNat_ofNat, Nat.mod_eq_of_lt h2]; omega
      rw [hmn, if_neg (by omega), absorb_spec _ h2 _ _ _ _ _ (by omega)]
      exact ⟨_, rfl, hs.dig _⟩
    · simp only [if_neg h256]
      simp only [BitVec.toNat_ofNat, Nat.zero_mod]
      rw [if_neg (by omega), absorb_spec _ h2 _ _ _ _ _ (by omega)]
      exact ⟨_, rfl, hs.dig _⟩
  | true =>
    have hb := hg rfl
    simp only [if_true, true_implies]
    have hpl : (BitVec.ofNat 32 data.length - (BitVec.ofNat 32 s.macLen + pb.setWidth 32 + 1#32)).toNat =
        data.length - (s.macLen + pb.toNat + 1) := by
      rw [BitVec.toNat_sub, BitVec.toNat_add, BitVec.toNat_add]
      simp only [BitVec.toNat_ofNat, BitVec.toNat_setWidth, Nat.mod_eq_of_lt h2]
      omega
    have hml : (BitVec.ofNat 32 data.length - (BitVec.ofNat 32 s.macLen + 1#32)).toNat =
        data.length - (s.macLen + 1) := by
      rw [BitVec.toNat_sub, BitVec.toNat_add]
      simp only [BitVec.toNat_ofNat, Nat.mod_eq_of_lt h2]
      omega
    rw [hml]
    have h256 : (256#32).toNat = 256 := rfl
    rw [h256]
    have hmn : (if 256 < data.length - (s.macLen + 1) then
        BitVec.ofNat 32 data.length - (BitVec.ofNat 32 s.macLen + 1#32) - 256#32 else 0#32).toNat =
        data.length - (s.macLen + 1) - 256 := by
      split
      · rw [BitVec.toNat_sub, hml]; simp only [h256]; omega
      · simp only [BitVec.toNat_ofNat, Nat.zero_mod]; omega
    rw [hmn, if_neg (by omega), absorb_spec _ h2 _ _ _ _ _ (by omega), hpl, key_take s hs]
    refine ⟨_, rfl, hs.dig _, ?_⟩
    have hk : min (data.length - (s.macLen + 1) - (data.length - (s.macLen + 1) - 256))
        (data.length - (s.macLen + pb.toNat + 1) - (data.length - (s.macLen + 1) - 256)) =
        data.length - (s.macLen + pb.toNat + 1) - (data.length - (s.macLen + 1) - 256) := by omega
    have hk2 : data.length - (s.macLen + 1) - 256 + (data.length - (s.macLen + pb.toNat + 1) -
        (data.length - (s.macLen + 1) - 256)) = data.length - (s.macLen + pb.toNat + 1) := by omega
    simp only [List.append_assoc]
    rw [hk, ← List.take_add, hk2]
    rfl

/-- The MAC-then-encrypt check accepts a decrypted fragment exactly when it is
content ‖ HMAC(header ‖ content) ‖ well-formed padding; it never reads outside the fragment. -/
theorem decMtECheckMac_spec (s : Suite) (hs : s.Wf) (h : Hdr) (plain : List Byte)
    (h1 : 1 ≤ plain.length) (h2 : plain.length < 2 ^ 32) :
    ∃ ret, decMtECheckMac s h plain = some ret ∧
      (ret = 0#32 ↔ ∃ content pad, plain =
        content ++ hmac s (macHeader h content.length ++ content) ++ Spec.padding pad) := by
  have hmac := hs.mac
  have hlast : plain.length - 1 < plain.length := by omega
  have hpb := List.getElem?_eq_getElem hlast
  generalize plain[plain.length - 1] = pb at hpb
  have hpblt := pb.isLt
  unfold decMtECheckMac
  have hidx : (BitVec.ofNat 32 plain.length - 1#32).toNat = plain.length - 1 := by
    rw [BitVec.toNat_sub]; simp only [BitVec.toNat_ofNat, Nat.mod_eq_of_lt h2]; omega
  simp only [hidx, hpb]
  have hsum : (BitVec.ofNat 32 s.macLen + pb.setWidth 32 + 1#32).toNat = s.macLen + pb.toNat + 1 := by
    rw [BitVec.toNat_add, BitVec.toNat_add]
    simp only [BitVec.toNat_ofNat, BitVec.toNat_setWidth]
    omega
  have hg0 : ctGe (BitVec.ofNat 32 plain.length) (BitVec.ofNat 32 s.macLen + pb.setWidth 32 + 1#32) =
      mask (decide (s.macLen + pb.toNat + 1 ≤ plain.length) = true) := by
    rw [ctGe_spec, hsum, BitVec.toNat_ofNat, Nat.mod_eq_of_lt h2, mask_bool (_ ≤ _)]
  rw [hg0]
  obtain ⟨q, hq, hqi⟩ := padLoop_spec plain plain.length pb rfl h1 h2 hpb (List.range' 1 255)
    (decide (s.macLen + pb.toNat + 1 ≤ plain.length)) (by intro h; simp only [decide_eq_true_eq] at h; omega)
    (by intro i hi; rw [List.mem_range'] at hi; obtain ⟨k, hk, rfl⟩ := hi; omega)
  rw [hq]
  simp only
  obtain ⟨m, hm, hml, hmv⟩ := constTimeHmac_total s hs q h plain pb h1 h2 hpb
    (fun hqt => by have := (hqi.1 hqt).1; simpa using this)
  rw [hm]
  simp only [ctSelect_spec, ptrSelect_mask]
  simp only [decide_eq_true_eq] at hqi
  cases q with
  | false =>
    simp only [Bool.false_eq_true, if_false, Nat.lt_irrefl]
    refine ⟨_, rfl, ?_⟩
    rw [mask_False, BitVec.zero_and]
    constructor
    · intro h; exact absurd h (by decide)
    · rintro ⟨content, pad, hp⟩
      exfalso
      have hpadeq : pad = pb := by
        rw [hp, last_padding] at hpb
        exact Option.some.inj hpb
      subst hpadeq
      have hlen : plain.length = content.length + s.macLen + (pad.toNat + 1) := by
        rw [hp]; simp [Spec.padding, Cbc.hmac, hs.dig, Nat.add_assoc]
      have : (false = true) := hqi.2 ⟨by omega, (pad_all_iff plain _ pad rfl (by omega) hpb).2 (by
        rw [hlen, Nat.add_sub_cancel, hp]
        exact List.drop_left' (by simp [Cbc.hmac, hs.dig]))⟩
      cases this
  | true =>
    obtain ⟨hb, hpads⟩ := hqi.1 rfl
    have hpads' := (pad_all_iff plain _ pb rfl (by omega) hpb).1 hpads
    have hmv := hmv rfl
    simp only [if_true]
    have hpl : (BitVec.ofNat 32 plain.length - (BitVec.ofNat 32 s.macLen + pb.setWidth 32 + 1#32)).toNat =
        plain.length - (s.macLen + pb.toNat + 1) := by
      rw [BitVec.toNat_sub, hsum]
      simp only [BitVec.toNat_ofNat, Nat.mod_eq_of_lt h2]
      omega
    rw [hpl, hml]
    have htl : ((plain.drop (plain.length - (s.macLen + pb.toNat + 1))).take s.macLen).length = s.macLen := by
      simp; omega
    rw [if_neg (by omega)]
    refine ⟨_, rfl, ?_⟩
    rw [ctMemcmp_spec _ _ (by rw [htl, hml]), mask_True, mask_bool ((_ : List Byte) = _), mask_and, not_mask_eq_zero]
    simp only [Bool.true_and, decide_eq_true_eq]
    -- split the fragment
    have hdecomp : plain = plain.take (plain.length - (s.macLen + pb.toNat + 1)) ++
        (plain.drop (plain.length - (s.macLen + pb.toNat + 1))).take s.macLen ++ Spec.padding pb := by
      have e1 : plain.length - (pb.toNat + 1) = plain.length - (s.macLen + pb.toNat + 1) + s.macLen := by omega
      rw [← List.take_add, ← e1]
      rw [Spec.padding, ← hpads', List.take_append_drop]
    constructor
    · intro he
      refine ⟨plain.take (plain.length - (s.macLen + pb.toNat + 1)), pb, ?_⟩
      rw [List.length_take, Nat.min_eq_left (by omega), ← hmv, ← he]
      exact hdecomp
    · rintro ⟨content, pad, hp⟩
      have hpadeq : pad = pb := by
        rw [hp, last_padding] at hpb
        exact Option.some.inj hpb
      subst hpadeq
      have hlen : plain.length = content.length + s.macLen + (pad.toNat + 1) := by
        rw [hp]; simp [Spec.padding, Cbc.hmac, hs.dig, Nat.add_assoc]
      have hcl : plain.length - (s.macLen + pad.toNat + 1) = content.length := by omega
      rw [hcl] at hmv hdecomp ⊢
      have ht : plain.take content.length = content := by
        rw [hp, List.append_assoc]; exact List.take_left' rfl
      rw [ht] at hmv
      rw [hmv]
      rw [hp, List.append_assoc, List.drop_left' rfl]
      exact List.take_left' (by simp [Cbc.hmac, hs.dig])

/-- The block cipher: length preserving, decryption inverts encryption on whole blocks. -/
structure Cipher.Correct (c : Cipher) (block : Nat) : Prop where
  len : ∀ iv ct pt, c.dec iv ct = some pt → pt.length = ct.length
  enclen : ∀ iv pt, pt.length % block = 0 → (c.enc iv pt).length = pt.length
  inv : ∀ iv pt, pt.length % block = 0 → c.dec iv (c.enc iv pt) = some pt

theorem padding_total (b l : Nat) (hb : 0 < b) : (l + (getCbcPaddingLen b l + 1)) % b = 0 := by
  unfold getCbcPaddingLen
  rw [if_neg (by omega)]
  simp only
  have hlt := Nat.mod_lt (l + 1) hb
  split
  · rw [show l + (0 + 1) = l + 1 by omega]; assumption
  · have hd := Nat.div_add_mod (l + 1) b
    have : l + (b - (l + 1) % b + 1) = b * ((l + 1) / b) + b := by omega
    rw [this, Nat.add_mod_right, Nat.mul_mod_right]

theorem padding_lt (b l : Nat) (hb : 0 < b) : getCbcPaddingLen b l < b := by
  unfold getCbcPaddingLen
  rw [if_neg (by omega)]
  simp only
  split <;> omega

/-- C05 (MAC-then-encrypt). For every received record: it is accepted with `content` exactly when it is long
enough, consists of whole blocks, and decrypts to content ‖ HMAC ‖ padding with a valid RFC 5246 MAC and a valid
RFC 5246 padding. Everything else is rejected with the one error `bad_record_mac`. -/
theorem decryptMtE_iff (c : Cipher) (s : Suite) (hs : s.Wf) (hc : c.Correct s.blockLength) (seq : BitVec 64)
    (type : Byte) (version : BitVec 16) (text content : List Byte) (hlen : text.length < 65536) :
    decryptMtE c s ⟨uint64ToByte seq, type, version⟩ text = .ok content ↔
      calCiphertextLen s false 0 ≤ text.length ∧ text.length % s.blockLength = 0 ∧
      ∃ pad, c.dec (text.take s.blockLength) (text.drop s.blockLength) =
        some (content ++ Spec.hmac s.H s.blen s.macKey (Spec.macInput seq.toNat type version content) ++
          Spec.padding pad) := by
  have hb0 := hs.blk0
  have hfiv := hs.fiv
  unfold decryptMtE
  rw [hfiv]
  by_cases ha : text.length < calCiphertextLen s false 0
  · rw [if_pos ha]
    exact ⟨fun h => (by cases h), fun h => by omega⟩
  rw [if_neg ha]
  by_cases hbk : s.blockLength = 0 ∨ text.length % s.blockLength ≠ 0
  · rw [if_pos hbk]
    exact ⟨fun h => (by cases h), fun h => by omega⟩
  rw [if_neg hbk]
  have hmin : s.blockLength + s.macLen + 1 ≤ text.length := by
    have h3 := hs.riv
    have : calCiphertextLen s false 0 ≥ s.blockLength + s.macLen + 1 := by
      unfold calCiphertextLen; simp [h3] <;> omega
    omega
  cases hd : c.dec (text.take s.blockLength) (text.drop s.blockLength) with
  | none =>
    simp only
    constructor
    · intro h; cases h
    · rintro ⟨_, _, pad, h⟩; cases h
  | some plain =>
    have hl := hc.len _ _ _ hd
    rw [List.length_drop] at hl
    obtain ⟨ret, hret, hri⟩ := decMtECheckMac_spec s hs ⟨uint64ToByte seq, type, version⟩ plain (by omega) (by omega)
    simp only [hret]
    have hlast : plain.length - 1 < plain.length := by omega
    rw [List.getElem?_eq_getElem hlast]
    simp only [Option.some.injEq]
    -- decomposition facts
    have hfacts : ∀ (ct : List Byte) (pad : Byte), plain = ct ++ hmac s (macHeader ⟨uint64ToByte seq, type, version⟩ ct.length ++ ct) ++
        Spec.padding pad → plain.take (plain.length - (s.macLen + plain[plain.length - 1].toNat + 1)) = ct ∧
          ct.length < 65536 := by
      intro ct pad hp
      have hpl : plain.length = ct.length + s.macLen + (pad.toNat + 1) := by
        rw [hp]; simp [Spec.padding, Cbc.hmac, hs.dig, Nat.add_assoc]
      have hlastv : plain[plain.length - 1] = pad := by
        have h0 : plain[plain.length - 1]? = some pad := by
          rw [hp]; exact last_padding _ _
        rw [List.getElem?_eq_getElem hlast] at h0
        exact Option.some.inj h0
      rw [hlastv]
      refine ⟨?_, by omega⟩
      have : plain.length - (s.macLen + pad.toNat + 1) = ct.length := by omega
      rw [this]
      conv => lhs; rw [hp, List.append_assoc]
      exact List.take_left' rfl
    by_cases hr : ret = 0#32
    · rw [if_neg (by simpa using hr)]
      obtain ⟨ct, pad, hp⟩ := hri.1 hr
      obtain ⟨htk, hctl⟩ := hfacts ct pad hp
      rw [htk]
      constructor
      · intro h
        cases h
        refine ⟨by omega, by omega, pad, ?_⟩
        rw [hp, macHeader_eq _ _ _ _ hctl, hmac_eq]
      · rintro ⟨_, _, pad', hp'⟩
        have hctl' : content.length < 65536 := by
          have := congrArg List.length hp'
          simp at this
          omega
        rw [← hmac_eq, ← macHeader_eq _ _ _ _ hctl'] at hp'
        have h2 := (hfacts content pad' hp').1
        rw [htk] at h2
        rw [h2]
    · rw [if_pos (by simpa using hr)]
      constructor
      · intro h; cases h
      · rintro ⟨_, _, pad', hp'⟩
        exfalso
        apply hr
        apply hri.2
        have hctl' : content.length < 65536 := by
          have := congrArg List.length hp'
          simp at this
          omega
        rw [← hmac_eq, ← macHeader_eq _ _ _ _ hctl'] at hp'
        exact ⟨content, pad', hp'⟩

/-- C05. Every rejection is the same error, and no read leaves the record. -/
theorem decryptMtE_error (c : Cipher) (s : Suite) (hs : s.Wf) (hc : c.Correct s.blockLength) (h : Hdr)
    (text : List Byte) (hlen : text.length < 65536) (e : Err) (he : decryptMtE c s h text = .error e) :
    e = .badRecordMac := by
  have hb0 := hs.blk0
  have h3 := hs.riv
  have hfiv := hs.fiv
  unfold decryptMtE at he
  by_cases ha : text.length < calCiphertextLen s false 0
  · rw [if_pos ha] at he; cases he; rfl
  rw [if_neg ha] at he
  by_cases hbk : s.blockLength = 0 ∨ text.length % s.blockLength ≠ 0
  · rw [if_pos hbk] at he; cases he; rfl
  rw [if_neg hbk] at he
  have hmin : s.blockLength + s.macLen + 1 ≤ text.length := by
    have : calCiphertextLen s false 0 ≥ s.blockLength + s.macLen + 1 := by
      unfold calCiphertextLen; simp [h3] <;> omega
    omega
  cases hd : c.dec (text.take s.fixedIvLength) (text.drop s.fixedIvLength) with
  | none => rw [hd] at he; cases he; rfl
  | some plain =>
    have hl := hc.len _ _ _ hd
    rw [List.length_drop] at hl
    obtain ⟨ret, hret, hri⟩ := decMtECheckMac_spec s hs h plain (by omega) (by omega)
    simp only [hd, hret] at he
    by_cases hr : ret ≠ 0#32
    · rw [if_pos hr] at he; cases he; rfl
    · rw [if_neg hr, List.getElem?_eq_getElem (by omega : plain.length - 1 < plain.length)] at he
      cases he

/-- C05. What the sender protects, the receiver accepts and returns unchanged. -/
theorem roundtripMtE (c : Cipher) (s : Suite) (hs : s.Wf) (hc : c.Correct s.blockLength) (seq : BitVec 64)
    (type : Byte) (version : BitVec 16) (iv text out : List Byte) (hiv : iv.length = s.blockLength)
    (hlen : out.length < 65536)
    (h : encryptMtE c s ⟨uint64ToByte seq, type, version⟩ iv text = .ok out) :
    decryptMtE c s ⟨uint64ToByte seq, type, version⟩ out = .ok text := by
  have hb0 := hs.blk0
  have hblk := hs.blk
  have h3 := hs.riv
  rw [decryptMtE_iff c s hs hc _ _ _ _ _ hlen]
  unfold encryptMtE at h
  simp only at h
  split at h
  · cases h
  split at h
  · cases h
  split at h
  · cases h
  cases h
  generalize hmacv : hmac s (macHeader ⟨uint64ToByte seq, type, version⟩ text.length ++ text) = mac at *
  have hml : mac.length = s.macLen := by rw [← hmacv]; exact hs.dig _
  generalize hp : getCbcPaddingLen s.blockLength (text ++ mac).length = p at *
  have hplt : p < s.blockLength := by rw [← hp]; exact padding_lt _ _ hb0
  have hpt : (text ++ mac ++ List.replicate (p + 1) (BitVec.ofNat 8 p)).length % s.blockLength = 0 := by
    rw [List.length_append, List.length_replicate, ← hp]
    exact padding_total _ _ hb0
  have hel := hc.enclen iv _ hpt
  have hinv := hc.inv iv _ hpt
  generalize c.enc iv (text ++ mac ++ List.replicate (p + 1) (BitVec.ofNat 8 p)) = e at *
  rename_i hne
  have htk : (iv ++ e).take s.blockLength = iv := List.take_left' hiv
  have hdr : (iv ++ e).drop s.blockLength = e := List.drop_left' hiv
  rw [htk, hdr, hinv]
  simp only [List.length_append, List.length_replicate] at hel hpt
  simp only [List.length_append] at hlen
  refine ⟨?_, ?_, BitVec.ofNat 8 p, ?_⟩
  · have hz : (calCiphertextLen s false 0) % s.blockLength = 0 := by
      unfold calCiphertextLen
      simp only [Bool.false_eq_true, if_false]
      exact padding_total _ _ hb0
    have hup : calCiphertextLen s false 0 < s.blockLength + s.macLen + 1 + s.blockLength := by
      unfold calCiphertextLen
      have := padding_lt s.blockLength (0 + s.recordIvLength + s.macLen) hb0
      simp only [Bool.false_eq_true, if_false]
      omega
    have hez : (s.blockLength + e.length) % s.blockLength = 0 := by
      rw [Nat.add_mod_left, hel]; exact hpt
    obtain ⟨a, ha⟩ := Nat.dvd_of_mod_eq_zero hz
    obtain ⟨b, hb⟩ := Nat.dvd_of_mod_eq_zero hez
    rw [List.length_append, hiv, ha, hb]
    apply Nat.mul_le_mul_left
    rw [ha] at hup
    have hge : s.blockLength * b ≥ s.blockLength + s.macLen + 1 := by rw [← hb]; omega
    have hab : s.blockLength * a < s.blockLength * (b + 1) := by rw [Nat.mul_add]; omega
    have := Nat.lt_of_mul_lt_mul_left hab
    omega
  · rw [List.length_append, hiv, Nat.add_mod_left, hel]; exact hpt
  · rw [← hmac_eq, ← macHeader_eq _ _ _ _ (by omega), hmacv]
    unfold Spec.padding
    rw [BitVec.toNat_ofNat, Nat.mod_eq_of_lt (by omega : p < 2 ^ 8)]

/-! ## Encrypt-then-MAC -/

theorem checkPaddingEtM_spec (plain : List Byte) (h1 : 1 ≤ plain.length) (h2 : plain.length < 2 ^ 32) :
    ∃ q, checkPaddingEtM plain = some q ∧ (q = true ↔ ∃ content pad, plain = content ++ Spec.padding pad) := by
  have hlast : plain.length - 1 < plain.length := by omega
  have hpb := List.getElem?_eq_getElem hlast
  generalize plain[plain.length - 1] = pb at hpb
  have hpblt := pb.isLt
  unfold checkPaddingEtM
  have hidx : (BitVec.ofNat 32 plain.length - 1#32).toNat = plain.length - 1 := by
    rw [BitVec.toNat_sub]; simp only [BitVec.toNat_ofNat, Nat.mod_eq_of_lt h2]; omega
  have hsame : ∀ content pad, plain = content ++ Spec.padding pad →
      pad = pb ∧ plain.length = content.length + (pb.toNat + 1) := by
    intro content pad hp
    have : pad = pb := by
      rw [hp, last_padding] at hpb
      exact Option.some.inj hpb
    subst this
    exact ⟨rfl, by rw [hp]; simp [Spec.padding]⟩
  simp only [hidx, hpb]
  by_cases hl : plain.length < pb.toNat + 1
  · rw [if_pos hl]
    refine ⟨false, rfl, ?_⟩
    constructor
    · intro h; cases h
    · rintro ⟨content, pad, hp⟩
      have := (hsame content pad hp).2
      omega
  · rw [if_neg hl]
    have hsum : (pb.setWidth 32 + 1#32).toNat = pb.toNat + 1 := by
      rw [BitVec.toNat_add]
      simp only [BitVec.toNat_ofNat, BitVec.toNat_setWidth]
      omega
    have hg0 : ctGe (BitVec.ofNat 32 plain.length) (pb.setWidth 32 + 1#32) = mask (true = true) := by
      rw [ctGe_spec, hsum, BitVec.toNat_ofNat, Nat.mod_eq_of_lt h2]
      exact mask_iff (by simp; omega)
    rw [hg0]
    obtain ⟨q, hq, hqi⟩ := padLoop_spec plain plain.length pb rfl h1 h2 hpb (List.range' 1 255) true
      (fun _ => by omega) (by intro i hi; rw [List.mem_range'] at hi; obtain ⟨k, hk, rfl⟩ := hi; omega)
    rw [hq]
    refine ⟨q, ?_, hqi.trans ?_⟩
    · cases q <;> decide
    · rw [pad_all_iff plain _ pb rfl (by omega) hpb]
      simp only [true_and]
      constructor
      · intro h
        refine ⟨plain.take (plain.length - (pb.toNat + 1)), pb, ?_⟩
        rw [Spec.padding, ← h, List.take_append_drop]
      · rintro ⟨content, pad, hp⟩
        obtain ⟨rfl, hl2⟩ := hsame content pad hp
        rw [hl2, Nat.add_sub_cancel, hp]
        exact List.drop_left' rfl

/-- C05 (encrypt-then-MAC, RFC 7366). A record is accepted with `content` exactly when it is long enough, is
ciphertext ‖ HMAC(header ‖ ciphertext) with whole ciphertext blocks, and the ciphertext decrypts to
content ‖ padding. In particular nothing is decrypted to the caller unless the MAC is right. -/
theorem decryptEtM_iff (c : Cipher) (s : Suite) (hs : s.Wf) (hc : c.Correct s.blockLength) (seq : BitVec 64)
    (type : Byte) (version : BitVec 16) (text content : List Byte) (hlen : text.length < 65536) :
    decryptEtM c s ⟨uint64ToByte seq, type, version⟩ text = .ok content ↔
      calCiphertextLen s true 0 ≤ text.length ∧
      ∃ iv ct pad, iv.length = s.blockLength ∧ (iv ++ ct).length % s.blockLength = 0 ∧
        text = iv ++ ct ++ Spec.hmac s.H s.blen s.macKey (Spec.macInput seq.toNat type version (iv ++ ct)) ∧
        c.dec iv ct = some (content ++ Spec.padding pad) := by
  have hb0 := hs.blk0
  have hfiv := hs.fiv
  unfold decryptEtM
  rw [hfiv]
  by_cases ha : text.length < calCiphertextLen s true 0
  · rw [if_pos ha]
    exact ⟨fun h => (by cases h), fun h => by omega⟩
  rw [if_neg ha]
  have hmin : s.blockLength + s.macLen + 1 ≤ text.length := by
    have h3 := hs.riv
    have : calCiphertextLen s true 0 ≥ s.blockLength + s.macLen + 1 := by
      unfold calCiphertextLen; simp [h3] <;> omega
    omega
  have hmacl : ∀ m, (hmac s m).length = s.macLen := fun m => hs.dig _
  have hcm : checkMac s ⟨uint64ToByte seq, type, version⟩ text = true ↔
      text.drop (text.length - s.macLen) =
        Spec.hmac s.H s.blen s.macKey (Spec.macInput seq.toNat type version (text.take (text.length - s.macLen))) := by
    unfold checkMac
    simp only [hmacl, ne_eq, not_true_eq_false, if_false]
    have htl : (text.take (text.length - s.macLen)).length = text.length - s.macLen := by simp
    rw [← macHeader_eq _ _ _ _ (by rw [htl]; omega), htl, ← hmac_eq]
    rw [ctMemcmp_spec _ _ (by rw [hmacl, List.length_drop]; omega)]
    unfold mask
    split
    · rename_i h; simp [h]
    · rename_i h; simp [h]
  -- what the right-hand side says about the parts of `text`
  have hparts : ∀ iv ct : List Byte, iv.length = s.blockLength →
      text = iv ++ ct ++ Spec.hmac s.H s.blen s.macKey (Spec.macInput seq.toNat type version (iv ++ ct)) →
      text.take (text.length - s.macLen) = iv ++ ct ∧ text.take s.blockLength = iv ∧
      (text.drop s.blockLength).take (text.length - s.blockLength - s.macLen) = ct ∧
      text.drop (text.length - s.macLen) =
        Spec.hmac s.H s.blen s.macKey (Spec.macInput seq.toNat type version (iv ++ ct)) := by
    intro iv ct hiv ht
    rw [← hmac_eq] at ht ⊢
    have hl : text.length = s.blockLength + ct.length + s.macLen := by
      rw [ht]; simp only [List.length_append, hmacl, hiv]
    have e1 : text.length - s.macLen = (iv ++ ct).length := by rw [List.length_append, hiv]; omega
    have e2 : text.length - s.blockLength - s.macLen = ct.length := by omega
    rw [e1, e2]
    refine ⟨?_, ?_, ?_, ?_⟩
    · rw [ht]; exact List.take_left' rfl
    · rw [ht, List.append_assoc]; exact List.take_left' hiv
    · rw [ht, List.append_assoc, List.drop_left' hiv]; exact List.take_left' rfl
    · rw [ht]; exact List.drop_left' rfl
  by_cases hm : checkMac s ⟨uint64ToByte seq, type, version⟩ text = false
  · rw [if_pos hm]
    constructor
    · intro h; cases h
    · rintro ⟨_, iv, ct, pad, hiv, _, ht, _⟩
      exfalso
      obtain ⟨p1, _, _, p4⟩ := hparts iv ct hiv ht
      rw [hcm.2 (by rw [p4, p1])] at hm
      cases hm
  rw [if_neg hm]
  have hmt := hcm.1 (by simpa using hm)
  have htk : (text.take (text.length - s.macLen)).length = text.length - s.macLen := by simp
  by_cases hbk : s.blockLength = 0 ∨ (text.length - s.macLen) % s.blockLength ≠ 0
  · rw [if_pos hbk]
    constructor
    · intro h; cases h
    · rintro ⟨_, iv, ct, pad, hiv, hmod, ht, _⟩
      obtain ⟨p1, _, _, p4⟩ := hparts iv ct hiv ht
      rw [← p1, htk] at hmod
      omega
  rw [if_neg hbk]
  -- text splits into iv, ct, mac
  have hsplit : text.take s.blockLength ++ (text.drop s.blockLength).take (text.length - s.blockLength - s.macLen) =
      text.take (text.length - s.macLen) := by
    rw [← List.take_add]; congr 1; omega
  have htext : text = text.take s.blockLength ++ (text.drop s.blockLength).take (text.length - s.blockLength - s.macLen) ++
      Spec.hmac s.H s.blen s.macKey (Spec.macInput seq.toNat type version
        (text.take s.blockLength ++ (text.drop s.blockLength).take (text.length - s.blockLength - s.macLen))) := by
    rw [hsplit, ← hmt, List.take_append_drop]
  have hivl : (text.take s.blockLength).length = s.blockLength := by simp; omega
  have hctl : ((text.drop s.blockLength).take (text.length - s.blockLength - s.macLen)).length =
      text.length - s.blockLength - s.macLen := by simp
  have hmod : (text.take s.blockLength ++ (text.drop s.blockLength).take (text.length - s.blockLength - s.macLen)).length %
      s.blockLength = 0 := by
    rw [hsplit, htk]; omega
  cases hd : c.dec (text.take s.blockLength) ((text.drop s.blockLength).take (text.length - s.blockLength - s.macLen)) with
  | none =>
    simp only
    constructor
    · intro h; cases h
    · rintro ⟨_, iv, ct, pad, hiv, _, ht, hdec⟩
      obtain ⟨_, p2, p3, _⟩ := hparts iv ct hiv ht
      rw [p2, p3, hdec] at hd
      cases hd
  | some plain =>
    have hpl := hc.len _ _ _ hd
    rw [hctl] at hpl
    have hlast : plain.length - 1 < plain.length := by omega
    obtain ⟨q, hq, hqi⟩ := checkPaddingEtM_spec plain (by omega) (by omega)
    simp only [hq, List.getElem?_eq_getElem hlast]
    have hfacts : ∀ x pad, plain = x ++ Spec.padding pad →
        plain.take (plain.length - plain[plain.length - 1].toNat - 1) = x := by
      intro x pad hp
      have hv : plain[plain.length - 1] = pad := by
        have h0 : plain[plain.length - 1]? = some pad := by rw [hp]; exact last_padding _ _
        rw [List.getElem?_eq_getElem hlast] at h0
        exact Option.some.inj h0
      rw [hv]
      have hx : plain.length = x.length + (pad.toNat + 1) := by
        rw [hp]; simp [Spec.padding]
      have : plain.length - pad.toNat - 1 = x.length := by omega
      rw [this]
      conv => lhs; rw [hp]
      exact List.take_left' rfl
    cases q with
    | false =>
      simp only
      constructor
      · intro h; cases h
      · rintro ⟨_, iv, ct, pad, hiv, _, ht, hdec⟩
        exfalso
        obtain ⟨_, p2, p3, _⟩ := hparts iv ct hiv ht
        rw [p2, p3, hdec] at hd
        have := hqi.2 ⟨content, pad, (Option.some.inj hd).symm⟩
        cases this
    | true =>
      simp only
      obtain ⟨x, pad, hp⟩ := hqi.1 rfl
      rw [hfacts x pad hp]
      constructor
      · intro h
        cases h
        exact ⟨by omega, _, _, pad, hivl, hmod, htext, by rw [hd, hp]⟩
      · rintro ⟨_, iv, ct, pad', hiv, _, ht, hdec⟩
        obtain ⟨_, p2, p3, _⟩ := hparts iv ct hiv ht
        rw [p2, p3, hdec] at hd
        have h1 := hfacts content pad' (Option.some.inj hd).symm
        rw [hfacts x pad hp] at h1
        rw [h1]

/-- C05. What the sender protects in encrypt-then-MAC mode, the receiver accepts and returns unchanged. -/
theorem roundtripEtM (c : Cipher) (s : Suite) (hs : s.Wf) (hc : c.Correct s.blockLength) (seq : BitVec 64)
    (type : Byte) (version : BitVec 16) (iv text out : List Byte) (hiv : iv.length = s.blockLength)
    (hlen : out.length < 65536)
    (h : encryptEtM c s ⟨uint64ToByte seq, type, version⟩ iv text = .ok out) :
    decryptEtM c s ⟨uint64ToByte seq, type, version⟩ out = .ok text := by
  have hb0 := hs.blk0
  have hblk := hs.blk
  have h3 := hs.riv
  have hmacl : ∀ m, (hmac s m).length = s.macLen := fun m => hs.dig _
  rw [decryptEtM_iff c s hs hc _ _ _ _ _ hlen]
  unfold encryptEtM at h
  simp only at h
  split at h
  · cases h
  split at h
  · cases h
  split at h
  · cases h
  cases h
  rename_i hne
  generalize hp : getCbcPaddingLen s.blockLength text.length = p at *
  have hplt : p < s.blockLength := by rw [← hp]; exact padding_lt _ _ hb0
  have hpt : (text ++ List.replicate (p + 1) (BitVec.ofNat 8 p)).length % s.blockLength = 0 := by
    rw [List.length_append, List.length_replicate, ← hp]
    exact padding_total _ _ hb0
  have hel := hc.enclen iv _ hpt
  have hinv := hc.inv iv _ hpt
  generalize c.enc iv (text ++ List.replicate (p + 1) (BitVec.ofNat 8 p)) = e at *
  simp only [List.length_append, List.length_replicate] at hel hpt
  simp only [List.length_append, hmacl] at hlen
  have hmodp : ∀ x, getCbcPaddingLen s.blockLength (x + s.recordIvLength) = getCbcPaddingLen s.blockLength x := by
    intro x
    unfold getCbcPaddingLen
    rw [h3, show x + s.blockLength + 1 = x + 1 + s.blockLength by omega, Nat.add_mod_right]
  have hct : calCiphertextLen s true text.length - s.macLen = (iv ++ e).length := by
    unfold calCiphertextLen
    simp only [if_true]
    rw [hmodp, hp, List.length_append, hiv, hel]
    omega
  refine ⟨?_, iv, e, BitVec.ofNat 8 p, hiv, ?_, ?_, ?_⟩
  · simp only [List.length_append, hmacl, hiv, hel]
    have h0 : getCbcPaddingLen s.blockLength 0 + 1 ≤ text.length + (p + 1) := by
      have hz := padding_total s.blockLength 0 hb0
      have hlt := padding_lt s.blockLength 0 hb0
      rw [Nat.zero_add] at hz
      have hpt' : (text.length + (p + 1)) % s.blockLength = 0 := by rw [hel] at *; exact hpt
      obtain ⟨a, ha⟩ := Nat.dvd_of_mod_eq_zero hz
      obtain ⟨b, hb⟩ := Nat.dvd_of_mod_eq_zero hpt'
      rw [ha, hb]
      apply Nat.mul_le_mul_left
      have hbp : 0 < b := by
        rcases Nat.eq_zero_or_pos b with h | h
        · rw [h] at hb; omega
        · exact h
      have hab : s.blockLength * a < s.blockLength * 2 := by omega
      have := Nat.lt_of_mul_lt_mul_left hab
      omega
    unfold calCiphertextLen
    simp only [if_true]
    rw [hmodp]
    omega
  · rw [List.length_append, hiv, Nat.add_mod_left, hel]; exact hpt
  · rw [← hmac_eq, ← macHeader_eq _ _ _ _ (by simp only [List.length_append]; omega), hct]
  · rw [hinv]
    unfold Spec.padding
    rw [BitVec.toNat_ofNat, Nat.mod_eq_of_lt (by omega : p < 2 ^ 8)]

/-! ## The hypotheses can be met -/

/-- A toy suite: the "hash" keeps 4 bytes, the "cipher" is the identity, 4-byte blocks. -/
def toySuite : Suite :=
  { H := fun m => (m.reverse ++ [0#8, 0#8, 0#8, 0#8]).take 4, blen := 8, macKey := [1#8, 2#8, 3#8], macLen := 4
    blockLength := 4, fixedIvLength := 4, recordIvLength := 4 }

def toyCipher : Cipher := { enc := fun _ p => p, dec := fun _ c => some c }

example : toySuite.Wf :=
  { key := by decide, blen := by decide, dig := by intro m; simp [toySuite]
    mac := by decide, blk0 := by decide, blk := by decide, fiv := rfl, riv := rfl }

example : toyCipher.Correct 4 :=
  ⟨fun _ _ _ h => by simp only [toyCipher, Option.some.injEq] at h; rw [h], fun _ _ _ => rfl, fun _ _ _ => rfl⟩

example : ∃ out, encryptMtE toyCipher toySuite ⟨uint64ToByte 7#64, 23#8, 0x0303#16⟩ [0#8, 0#8, 0#8, 0#8]
    [5#8, 6#8] = .ok out ∧ out.length = 12 := ⟨_, rfl, rfl⟩
example : ∃ out, encryptEtM toyCipher toySuite ⟨uint64ToByte 7#64, 23#8, 0x0303#16⟩ [0#8, 0#8, 0#8, 0#8]
    [5#8, 6#8] = .ok out ∧ out.length = 12 := ⟨_, rfl, rfl⟩

end Verif.Tls.Cbc
