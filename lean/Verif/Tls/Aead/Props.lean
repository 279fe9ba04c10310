import Verif.Tls.Aead.Model
import Verif.Bsl.Bytes.Props
/-!
# C03 — per-record AEAD nonce and additional data
-/
namespace Verif.Tls.Aead
open Verif.Common Verif.Bsl.Bytes

/-! ## Specification (RFC 5288 section 3, RFC 7905 section 2, RFC 8446 section 5.3, RFC 5246 section 6.2.3.3) -/

/-- RFC 5288: 4 bytes of implicit salt, 8 bytes of explicit nonce (here the sequence number). -/
def Spec.nonce12 (salt : List Byte) (seq : Nat) : List Byte := salt ++ beBytes 8 seq

/-- RFC 8446 5.3 / RFC 7905: the sequence number left-padded with zeros to 12 bytes, XOR the IV. -/
def Spec.nonce13 (iv : List Byte) (seq : Nat) : List Byte := List.zipWith (· ^^^ ·) (beBytes 12 seq) iv

/-- RFC 5246 6.2.3.3: `seq_num || type || version || length`. -/
def Spec.aad12 (seq : Nat) (type : Byte) (version : BitVec 16) (len : Nat) : List Byte :=
  beBytes 8 seq ++ [type] ++ beBytes 2 version.toNat ++ beBytes 2 len

/-- RFC 8446 5.2: `opaque_type || legacy_record_version || length`. -/
def Spec.aad13 (type : Byte) (version : BitVec 16) (len : Nat) : List Byte :=
  [type] ++ beBytes 2 version.toNat ++ beBytes 2 len

/-- The cipher-suite shapes in use: explicit 8-byte nonce part after a 4-byte salt, or a 12-byte IV. -/
def Suite.Wf (s : Suite) : Prop :=
  s.iv.length = 16 ∧ ((s.fixedIvLength = 4 ∧ s.recordIvLength = 8) ∨ (s.fixedIvLength = 12 ∧ s.recordIvLength = 0))

/-- The nonce of `getNonce` for a 64-bit sequence number. -/
theorem nonce_spec (s : Suite) (hs : s.Wf) (seq : BitVec 64) :
    getNonce s (uint64ToByte seq) = .ok
      (if s.recordIvLength = 8 then Spec.nonce12 (s.iv.take 4) seq.toNat
       else Spec.nonce13 (s.iv.take 12) seq.toNat) := by
  obtain ⟨hiv, h⟩ := hs
  unfold getNonce
  rw [uint64ToByte_spec]
  have ht : (beBytes 8 seq.toNat).take seqSize = beBytes 8 seq.toNat := List.take_of_length_le (by simp [seqSize])
  rcases h with ⟨h1, h2⟩ | ⟨h1, h2⟩
  · simp [h1, h2, nonceSize, seqSize, hiv, Spec.nonce12, List.take_of_length_le]
  · have h12 : beBytes 12 seq.toNat = List.replicate 4 0#8 ++ beBytes 8 seq.toNat := by
      have hlt := seq.isLt
      apply beVal_inj (by simp)
      rw [beVal_append, beVal_beBytes, beVal_beBytes]
      simp [beVal]
      omega
    simp [h1, h2, nonceSize, seqSize, hiv, Spec.nonce13, h12, List.take_of_length_le]

theorem xor_right_cancel_lists : ∀ (a b iv : List Byte), a.length = b.length → a.length ≤ iv.length →
    List.zipWith (· ^^^ ·) a iv = List.zipWith (· ^^^ ·) b iv → a = b
  | [], [], _, _, _, _ => rfl
  | [], _ :: _, _, h, _, _ => by simp at h
  | _ :: _, [], _, h, _, _ => by simp at h
  | x :: xs, y :: ys, [], _, h, _ => by simp at h
  | x :: xs, y :: ys, v :: vs, h1, h2, h3 => by
    simp only [List.zipWith_cons_cons, List.cons.injEq] at h3
    have hx : x = y := by
      have := congrArg (· ^^^ v) h3.1
      simpa [BitVec.xor_assoc] using this
    rw [hx, xor_right_cancel_lists xs ys vs (by simpa using h1) (by simpa using h2) h3.2]

/-- C03. Distinct sequence numbers never share a nonce under one key and IV. -/
theorem nonce_injective (s : Suite) (hs : s.Wf) (x y : BitVec 64) (n : List Byte)
    (hx : getNonce s (uint64ToByte x) = .ok n) (hy : getNonce s (uint64ToByte y) = .ok n) : x = y := by
  rw [nonce_spec s hs] at hx hy
  have hxy : (if s.recordIvLength = 8 then Spec.nonce12 (s.iv.take 4) x.toNat
       else Spec.nonce13 (s.iv.take 12) x.toNat) = (if s.recordIvLength = 8 then Spec.nonce12 (s.iv.take 4) y.toNat
       else Spec.nonce13 (s.iv.take 12) y.toNat) := by
    have := hx.trans hy.symm
    exact Except.ok.inj this
  apply BitVec.eq_of_toNat_eq
  have hlx := x.isLt
  have hly := y.isLt
  by_cases h8 : s.recordIvLength = 8
  · simp only [if_pos h8, Spec.nonce12, List.append_cancel_left_eq] at hxy
    exact beBytes_inj (k := 8) (by omega) (by omega) hxy
  · simp only [if_neg h8, Spec.nonce13] at hxy
    have := xor_right_cancel_lists _ _ _ (by simp) (by simp [hs.1]) hxy
    exact beBytes_inj (k := 12) (by omega) (by omega) this

/-- A concrete TLS 1.3 suite and two sequence numbers. -/
example : let s : Suite := ⟨List.replicate 16 7#8, 12, 0, 16⟩
    s.Wf ∧ ∃ n, getNonce s (uint64ToByte 5#64) = .ok n := ⟨⟨by decide, Or.inr ⟨rfl, rfl⟩⟩, _, rfl⟩

/-- C03. Before TLS 1.3 the additional data is the RFC 5246 one. -/
theorem aad_spec12 (m : TextInput) (seq : BitVec 64) (len : Nat) (hseq : m.seq = uint64ToByte seq)
    (hv : isTls13Family m.negotiatedVersion = false) (hlen : len < 65536) :
    getAad m len = Spec.aad12 seq.toNat m.type m.version len := by
  unfold isTls13Family at hv
  simp only [Bool.or_eq_false_iff, beq_eq_false_iff_ne] at hv
  unfold getAad Spec.aad12
  rw [if_neg hv.1, if_neg hv.2, hseq, uint64ToByte_spec, uint16ToByte_spec, uint16ToByte_spec,
    List.take_of_length_le (by simp [seqSize])]
  simp [Nat.mod_eq_of_lt hlen]

/-- C03. In TLS 1.3 the additional data is the RFC 8446 one. -/
theorem aad_spec13 (m : TextInput) (len : Nat) (hv : m.negotiatedVersion = versionTls13) (hlen : len < 65536) :
    getAad m len = Spec.aad13 m.type m.version len := by
  unfold getAad Spec.aad13
  rw [if_pos hv, uint16ToByte_spec, uint16ToByte_spec]
  simp [Nat.mod_eq_of_lt hlen]

/-- C03. The additional data determines sequence number, type, version and length. -/
theorem aad12_injective (s1 s2 : BitVec 64) (t1 t2 : Byte) (v1 v2 : BitVec 16) (l1 l2 : Nat)
    (h1 : l1 < 65536) (h2 : l2 < 65536)
    (h : Spec.aad12 s1.toNat t1 v1 l1 = Spec.aad12 s2.toNat t2 v2 l2) :
    s1 = s2 ∧ t1 = t2 ∧ v1 = v2 ∧ l1 = l2 := by
  unfold Spec.aad12 at h
  have ha := List.append_inj h (by simp)
  have hb := List.append_inj ha.1 (by simp)
  have hc := List.append_inj hb.1 (by simp)
  have e1 := beBytes_inj (k := 8) (by have := s1.isLt; omega) (by have := s2.isLt; omega) hc.1
  have e3 := beBytes_inj (k := 2) (by have := v1.isLt; omega) (by have := v2.isLt; omega) hb.2
  have e4 := beBytes_inj (k := 2) (by omega) (by omega) ha.2
  exact ⟨BitVec.eq_of_toNat_eq e1, by simpa using hc.2, BitVec.eq_of_toNat_eq e3, e4⟩

/-! ## Sender and receiver agree -/

/-- What a correct AEAD guarantees: decryption inverts encryption, and encryption appends a tag. -/
structure Alg.Correct (alg : Alg) (macLen : Nat) : Prop where
  inv : ∀ n a p, alg.dec n a (alg.enc n a p) = some p
  len : ∀ n a p, (alg.enc n a p).length = p.length + macLen

/-- C03. A record protected by the sender is opened by a receiver holding the same keys, sequence number and
header, for every message, every suite shape and every protocol version. -/
theorem open_seal (alg : Alg) (s : Suite) (hs : s.Wf) (halg : alg.Correct s.macLen) (m : TextInput)
    (seq dseq : BitVec 64) (hseq : m.seq = uint64ToByte seq) (hd : m.dtls13Seq = uint64ToByte dseq) (c : List Byte)
    (henc : encrypt alg s m = .ok c) : decrypt alg s { m with text := c } = .ok m.text := by
  have hseqlen : m.seq.length = 8 := by rw [hseq, uint64ToByte_spec]; simp
  have htake : m.seq.take seqSize = m.seq := List.take_of_length_le (by simp [hseqlen, seqSize])
  unfold encrypt at henc
  simp only at henc
  split at henc
  · cases henc
  · split at henc
    · cases henc
    · rename_i nonce hn
      generalize hL : (if isTls13Family m.negotiatedVersion = true then
            calCiphertextLen s m.text.length else m.text.length) = L at henc
      generalize hE : (if s.recordIvLength > 0 then m.seq.take seqSize else []) = E at henc
      have hl := halg.len nonce (getAad m L) m.text
      have hdec := halg.inv nonce (getAad m L) m.text
      generalize alg.enc nonce (getAad m L) m.text = C at henc hl hdec
      split at henc
      · cases henc
      · cases henc
        unfold decrypt
        obtain ⟨hiv, h | h⟩ := hs
        · obtain ⟨hf, hr⟩ := h
          rw [hr, if_pos (by decide), htake] at hE
          subst hE
          have hnn : getNonce s (if m.negotiatedVersion = versionDtls13 then m.dtls13Seq else m.seq ++ C) =
              .ok nonce := by
            by_cases hv : m.negotiatedVersion = versionDtls13
            · simpa [hv] using hn
            · simp only [hv, if_false] at hn ⊢
              rw [← hn]
              unfold getNonce
              have h1 : (m.seq ++ C).take seqSize = m.seq.take seqSize := by
                rw [htake]; exact List.take_left' (by simpa [seqSize] using hseqlen)
              have h2 : ((m.seq ++ C).length < seqSize) = (m.seq.length < seqSize) := by
                simp only [List.length_append, hseqlen, seqSize, eq_iff_iff]; omega
              simp only [h1, h2]
          have hLL : (if isTls13Family m.negotiatedVersion = true then (m.seq ++ C).length
              else (m.seq ++ C).length - s.recordIvLength - s.macLen) = L := by
            rw [← hL, List.length_append, hl, hseqlen, hr]
            unfold calCiphertextLen
            split <;> omega
          have h0 : ¬ (m.seq ++ C).length < calCiphertextLen s 0 := by
            rw [List.length_append, hl, hseqlen, calCiphertextLen, hr]; omega
          have haad : ∀ k, getAad { m with text := m.seq ++ C } k = getAad m k := fun _ => rfl
          have hdrop : (m.seq ++ C).drop seqSize = C := List.drop_left' (by simpa [seqSize] using hseqlen)
          have hpos : s.recordIvLength > 0 := by omega
          simp only [if_neg h0, if_pos hpos, hnn, haad, hLL, hdrop, hdec]
        · obtain ⟨hf, hr⟩ := h
          rw [hr, if_neg (by decide)] at hE
          subst hE
          rw [List.nil_append]
          have hLL : (if isTls13Family m.negotiatedVersion = true then C.length
              else C.length - s.recordIvLength - s.macLen) = L := by
            rw [← hL, hl, hr]
            unfold calCiphertextLen
            split <;> omega
          have h0 : ¬ C.length < calCiphertextLen s 0 := by
            rw [hl, calCiphertextLen, hr]; omega
          have haad : ∀ k, getAad { m with text := C } k = getAad m k := fun _ => rfl
          have hpos : ¬ s.recordIvLength > 0 := by omega
          simp only [if_neg h0, if_neg hpos, hn, haad, hLL, List.drop_zero, hdec]

/-- C03. Whatever the received bytes, an accepted pre-1.3 record passed the AEAD under a nonce made of the
key-block salt and the record's explicit part (or of the IV and the receiver's sequence number), and under
additional data that binds the receiver's own sequence number and the record's type, version and length. -/
theorem accepted_binds12 (alg : Alg) (s : Suite) (hs : s.Wf) (m : TextInput) (p : List Byte) (seq : BitVec 64)
    (hseq : m.seq = uint64ToByte seq) (hv : isTls13Family m.negotiatedVersion = false)
    (hlen : m.text.length < 65536) (h : decrypt alg s m = .ok p) :
    s.recordIvLength + s.macLen ≤ m.text.length ∧
    alg.dec (if s.recordIvLength = 8 then s.iv.take 4 ++ m.text.take 8 else Spec.nonce13 (s.iv.take 12) seq.toNat)
      (Spec.aad12 seq.toNat m.type m.version (m.text.length - s.recordIvLength - s.macLen))
      (m.text.drop s.recordIvLength) = some p := by
  have hv' : m.negotiatedVersion ≠ versionDtls13 := by
    intro hc; simp [isTls13Family, hc] at hv
  have hns := nonce_spec s hs seq
  unfold decrypt at h
  simp only at h
  by_cases hmin : m.text.length < calCiphertextLen s 0
  · rw [if_pos hmin] at h; cases h
  · rw [if_neg hmin] at h
    simp only [calCiphertextLen] at hmin
    rw [if_neg hv'] at h
    rw [if_neg (by simp [hv] : ¬ isTls13Family m.negotiatedVersion = true)] at h
    rw [aad_spec12 m seq _ hseq hv (by omega)] at h
    refine ⟨by omega, ?_⟩
    obtain ⟨hiv, ⟨hf, hr⟩ | ⟨hf, hr⟩⟩ := hs
    · have hn : getNonce s m.text = .ok (s.iv.take 4 ++ m.text.take 8) := by
        have h8 : 8 ≤ m.text.length := by omega
        unfold getNonce
        simp [hf, hr, nonceSize, seqSize, hiv]
        omega
      simp only [hr, show (8 : Nat) > 0 by decide, if_true, hn] at h ⊢
      split at h
      · cases h
      · rename_i q hq
        cases h
        exact hq
    · rw [hr] at hns
      simp only [hr, show ¬ (0 : Nat) > 0 by decide, if_false, hseq, hns,
        show ¬ (0 : Nat) = 8 by decide, List.drop_zero] at h ⊢
      split at h
      · cases h
      · rename_i q hq
        cases h
        exact hq

/-- C03. The same for TLS 1.3: nonce from the IV and the receiver's sequence number, additional data = the
record header with the length of the received ciphertext. -/
theorem accepted_binds13 (alg : Alg) (s : Suite) (hs : s.Wf) (hr : s.recordIvLength = 0) (m : TextInput)
    (p : List Byte) (seq : BitVec 64)
    (hseq : m.seq = uint64ToByte seq) (hv : m.negotiatedVersion = versionTls13)
    (hlen : m.text.length < 65536) (h : decrypt alg s m = .ok p) :
    s.macLen ≤ m.text.length ∧
    alg.dec (Spec.nonce13 (s.iv.take 12) seq.toNat) (Spec.aad13 m.type m.version m.text.length) m.text = some p := by
  have hns := nonce_spec s hs seq
  unfold decrypt at h
  simp only at h
  by_cases hmin : m.text.length < calCiphertextLen s 0
  · rw [if_pos hmin] at h; cases h
  · rw [if_neg hmin] at h
    simp only [calCiphertextLen, hr] at hmin
    rw [if_neg (by rw [hv]; decide)] at h
    rw [if_pos (by rw [hv]; decide : isTls13Family m.negotiatedVersion = true)] at h
    rw [aad_spec13 m _ hv hlen] at h
    refine ⟨by omega, ?_⟩
    rw [hr] at hns
    simp only [hr, show ¬ (0 : Nat) > 0 by decide, if_false, hseq, hns,
      show ¬ (0 : Nat) = 8 by decide, List.drop_zero] at h ⊢
    split at h
    · cases h
    · rename_i q hq
      cases h
      exact hq

/-- A toy AEAD (tag = one zero byte) shows that the hypotheses of `open_seal` can be met. -/
def toyAlg : Alg :=
  { enc := fun _ _ p => p ++ [0#8]
    dec := fun _ _ c => some c.dropLast }

example : toyAlg.Correct 1 := ⟨by simp [toyAlg], by simp [toyAlg]⟩

example : ∃ c, encrypt toyAlg ⟨List.replicate 16 7#8, 4, 8, 1⟩
    ⟨23#8, 0x0303#16, 0x0303#16, uint64ToByte 9#64, [], uint64ToByte 0#64, [1#8, 2#8]⟩ = .ok c ∧ c.length = 11 :=
  ⟨_, rfl, rfl⟩

end Verif.Tls.Aead
