import Verif.Crypto.Aes.ProofK
import Verif.Crypto.Modes.Cipher

/-!
# C36 (AES): the block cipher is that of FIPS 197 and decryption inverts encryption

Both builds of the C code are covered: `tbl = false` is the S-box implementation
(`crypt_aes_sbox.c`), `tbl = true` the one with precomputed tables (`crypt_aes_tbox.c`).
`Spec.*` is FIPS 197 over a 4x4 array of bytes, with the S-box given algebraically.
-/

namespace Verif.Crypto.Aes

open Verif.Common

/-- The key lengths in words. -/
def KeyWords (nk : Nat) : Prop := nk = 4 ∨ nk = 6 ∨ nk = 8

/-- Every table of both builds, entry by entry, against the algebraic S-box of the standard. -/
theorem tables_spec (x : Byte) :
    aesS[x.toNat]? = some (Spec.sbox x) ∧ invS[x.toNat]? = some (Spec.invSbox x) ∧
    Spec.invSbox (Spec.sbox x) = x ∧ (x ≠ 0 → Spec.gmul x (Spec.ginv x) = 1) := by
  refine ⟨?_, ?_, sbox_inv x, ?_⟩
  · exact aesS_fn x
  · exact invS_fn x
  · have h : ∀ i : Fin 256, BitVec.ofFin i ≠ 0#8 →
        Spec.gmul (BitVec.ofFin i) (Spec.ginv (BitVec.ofFin i)) = 1 := by decide +kernel
    exact h x.toFin

theorem expand_schedule (tbl : Bool) (nk : Nat) (key : List Byte) (hk : KeyWords nk)
    (hl : key.length = 4 * nk) :
    ∃ ws w, Spec.IsSchedule nk (roundsOf nk) key w ∧ Keys ws w (roundsOf nk) ∧
      ws.length = 4 * (roundsOf nk + 1) ∧
      (tbl = false → keyExpansionSbox nk (roundsOf nk) key = some ws) ∧
      (tbl = true → (keyExpansionTbox nk (roundsOf nk) key true = some ws ∧
        keyExpansionTbox nk (roundsOf nk) key false = setDecryptKeyTbox ws (roundsOf nk))) := by
  obtain ⟨ws, h1, h2, h3⟩ := loadKey_eq key nk (by omega)
  have hg : Good nk ws := good_base nk ws (by omega)
  cases tbl with
  | false =>
    have hb : ws.length + (4 * (roundsOf nk + 1) - nk) ≤ 11 * nk ∧ nk ≤ 4 * (roundsOf nk + 1) := by
      rcases hk with rfl | rfl | rfl <;> simp [roundsOf, h2]
    obtain ⟨t, e1, e2, e3⟩ := expandLoop_eq nk (4 * (roundsOf nk + 1) - nk) ws
      (by rcases hk with rfl | rfl | rfl <;> omega) (by omega) hb.1 hg
    have hl' : (ws ++ t).length = 4 * (roundsOf nk + 1) := by
      rw [List.length_append, h2, e2]; omega
    obtain ⟨w, w1, w2⟩ := good_schedule (nr := roundsOf nk) (first_append h3 t (by omega)) e3 hl'
      (by rcases hk with rfl | rfl | rfl <;> omega)
    refine ⟨_, w, w1, w2, hl', fun _ => ?_, fun h => by simp at h⟩
    unfold keyExpansionSbox
    rw [h1, Option.bind_eq_bind, Option.bind_some, e1]
  | true =>
    have key' : ∃ t, setEncryptKeyTbox nk ws = some (ws ++ t) ∧
        (ws ++ t).length = 4 * (roundsOf nk + 1) ∧ Good nk (ws ++ t) := by
      rcases hk with rfl | rfl | rfl
      · obtain ⟨t, e1, e2, e3⟩ := loop128_eq 10 0 ws (by omega) (by omega) hg
        exact ⟨t, e1, by rw [List.length_append, h2, e2]; rfl, e3⟩
      · obtain ⟨t, e1, e2, e3⟩ := loop192_eq 7 0 ws (by omega) (by omega) hg
        exact ⟨t, e1, by rw [List.length_append, h2, e2]; rfl, e3⟩
      · obtain ⟨t, e1, e2, e3⟩ := loop256_eq 6 0 ws (by omega) (by omega) hg
        exact ⟨t, e1, by rw [List.length_append, h2, e2]; rfl, e3⟩
    obtain ⟨t, e1, hl', e3⟩ := key'
    obtain ⟨w, w1, w2⟩ := good_schedule (nr := roundsOf nk) (first_append h3 t (by omega)) e3 hl'
      (by rcases hk with rfl | rfl | rfl <;> omega)
    refine ⟨_, w, w1, w2, hl', fun h => by simp at h, fun _ => ⟨?_, ?_⟩⟩
    · unfold keyExpansionTbox
      simp only [h1, e1, Option.bind_eq_bind, Option.bind_some]
      rfl
    · unfold keyExpansionTbox
      simp only [h1, e1, Option.bind_eq_bind, Option.bind_some]
      rfl

theorem rounds_ok (nk : Nat) (hk : KeyWords nk) :
    roundsOf nk = 10 ∨ roundsOf nk = 12 ∨ roundsOf nk = 14 := by
  rcases hk with rfl | rfl | rfl <;> simp [roundsOf]

theorem encrypt_of_keys (tbl : Bool) {nk : Nat} (hk : KeyWords nk) {ws w} (h : Keys ws w (roundsOf nk))
    (b : List Byte) (hb : b.length = 16) :
    encrypt tbl ws (roundsOf nk) b = some (Spec.encrypt (roundsOf nk) w b hb) := by
  cases tbl
  · exact encryptSbox_eq h b hb
  · exact encryptTbox_eq h (rounds_ok nk hk) b hb

/-- **AES is FIPS 197.** For every build, key size and key there is exactly one key schedule `w` in
the sense of the standard; setting the encryption key succeeds and encrypting any block with it is
the standard's cipher under `w`; setting the decryption key succeeds and decrypting any block with
it is the standard's inverse cipher under the same `w`.  No read is out of bounds. -/
theorem aes_spec (tbl : Bool) (nk : Nat) (key : List Byte) (hk : KeyWords nk)
    (hl : key.length = 4 * nk) :
    ∃ w ek dk, Spec.IsSchedule nk (roundsOf nk) key w ∧
      (∀ w', Spec.IsSchedule nk (roundsOf nk) key w' → ∀ i, i < 4 * (roundsOf nk + 1) → w' i = w i) ∧
      setKey tbl true nk key = .ok ek ∧ setKey tbl false nk key = .ok dk ∧
      ∀ (b : List Byte) (hb : b.length = 16),
        encrypt tbl ek (roundsOf nk) b = some (Spec.encrypt (roundsOf nk) w b hb) ∧
        decrypt tbl dk (roundsOf nk) b = some (Spec.decrypt (roundsOf nk) w b hb) := by
  obtain ⟨ws, w, h1, h2, h3, h4, h5⟩ := expand_schedule tbl nk key hk hl
  have h0 : 0 < nk := by rcases hk with rfl | rfl | rfl <;> omega
  have hu : ∀ w', Spec.IsSchedule nk (roundsOf nk) key w' →
      ∀ i, i < 4 * (roundsOf nk + 1) → w' i = w i :=
    fun w' hw i hi => schedule_unique h0 hw h1 i hi
  cases tbl with
  | false =>
    have he : ∀ e, setKey false e nk key = .ok ws := by
      intro e; unfold setKey
      rw [if_neg (by omega)]
      simp only [Bool.false_eq_true, if_false, h4 rfl]
    exact ⟨w, ws, ws, h1, hu, he true, he false, fun b hb =>
      ⟨encrypt_of_keys false hk h2 b hb, decryptSbox_eq h2 b hb⟩⟩
  | true =>
    obtain ⟨dk, d1, d2, d3⟩ := setDecryptKey_eq h2 h3
      (by rcases rounds_ok nk hk with h | h | h <;> omega)
    refine ⟨w, ws, dk, h1, hu, ?_, ?_, fun b hb =>
      ⟨encrypt_of_keys true hk h2 b hb, decryptTbox_eq d3 (rounds_ok nk hk) b hb⟩⟩
    · unfold setKey
      rw [if_neg (by omega)]
      simp only [if_true, (h5 rfl).1]
    · unfold setKey
      rw [if_neg (by omega)]
      simp only [if_true, (h5 rfl).2, d1]

/-- **Rejected keys.** A key of any other length than the function's is refused. -/
theorem setKey_rejects (tbl enc : Bool) (nk : Nat) (key : List Byte) :
    setKey tbl enc nk key = .keyLen ↔ key.length ≠ 4 * nk := by
  unfold setKey
  by_cases h : key.length = 4 * nk
  · simp only [ne_eq, h, not_true_eq_false, if_false, iff_false]
    split <;> simp
  · simp [h]

/-- **Decryption inverts encryption**, in both directions, across builds: whatever build encrypted
the block, any build decrypts it. -/
theorem roundtrip (tbl tbl' : Bool) (nk : Nat) (key : List Byte) (hk : KeyWords nk)
    (hl : key.length = 4 * nk) :
    ∃ ek dk, setKey tbl true nk key = .ok ek ∧ setKey tbl' false nk key = .ok dk ∧
      ∀ (b : List Byte), b.length = 16 →
        (∃ c, c.length = 16 ∧ encrypt tbl ek (roundsOf nk) b = some c ∧
          decrypt tbl' dk (roundsOf nk) c = some b) ∧
        (∃ p, p.length = 16 ∧ decrypt tbl' dk (roundsOf nk) b = some p ∧
          encrypt tbl ek (roundsOf nk) p = some b) := by
  obtain ⟨ws, w, h1, h2, h3, h4, h5⟩ := expand_schedule tbl' nk key hk hl
  obtain ⟨ws', w', h1', h2', h3', h4', h5'⟩ := expand_schedule tbl nk key hk hl
  have h0 : 0 < nk := by rcases hk with rfl | rfl | rfl <;> omega
  have hw : Keys ws' w (roundsOf nk) := by
    intro j hj; rw [h2' j hj, schedule_unique h0 h1' h1 j hj]
  have he : setKey tbl true nk key = .ok ws' := by
    unfold setKey
    rw [if_neg (by omega)]
    cases tbl
    · simp only [Bool.false_eq_true, if_false, h4' rfl]
    · simp only [if_true, (h5' rfl).1]
  have hd : ∃ dk, setKey tbl' false nk key = .ok dk ∧ ∀ (b : List Byte) (hb : b.length = 16),
      decrypt tbl' dk (roundsOf nk) b = some (Spec.decrypt (roundsOf nk) w b hb) := by
    cases tbl'
    · refine ⟨ws, ?_, fun b hb => decryptSbox_eq h2 b hb⟩
      unfold setKey
      rw [if_neg (by omega)]
      simp only [Bool.false_eq_true, if_false, h4 rfl]
    · obtain ⟨dk, d1, d2, d3⟩ := setDecryptKey_eq h2 h3
        (by rcases rounds_ok nk hk with h | h | h <;> omega)
      refine ⟨dk, ?_, fun b hb => decryptTbox_eq d3 (rounds_ok nk hk) b hb⟩
      unfold setKey
      rw [if_neg (by omega)]
      simp only [if_true, (h5 rfl).2, d1]
  obtain ⟨dk, d1, d2⟩ := hd
  refine ⟨ws', dk, he, d1, fun b hb => ⟨⟨_, store_length _, encrypt_of_keys tbl hk hw b hb, ?_⟩,
    ⟨_, store_length _, d2 b hb, ?_⟩⟩⟩
  · rw [d2 _ (store_length _)]
    unfold Spec.decrypt
    rw [load_store, invCipher_cipher, store_load]
  · rw [encrypt_of_keys tbl hk hw _ (store_length _)]
    unfold Spec.encrypt
    rw [load_store, cipher_invCipher, store_load]

/-- **Key schedules of the two builds are the same words**, so a schedule computed by one may be
used by the other for encryption. -/
theorem builds_agree (nk : Nat) (key : List Byte) (hk : KeyWords nk) (hl : key.length = 4 * nk) :
    setKey true true nk key = setKey false true nk key := by
  obtain ⟨ws, w, h1, h2, h3, h4, h5⟩ := expand_schedule true nk key hk hl
  obtain ⟨ws', w', h1', h2', h3', h4', h5'⟩ := expand_schedule false nk key hk hl
  have h0 : 0 < nk := by rcases hk with rfl | rfl | rfl <;> omega
  have : ws = ws' := by
    apply List.ext_getElem?
    intro j
    by_cases hj : j < 4 * (roundsOf nk + 1)
    · rw [h2 j hj, h2' j hj, schedule_unique h0 h1 h1' j hj]
    · rw [List.getElem?_eq_none (by rw [h3]; omega), List.getElem?_eq_none (by rw [h3']; omega)]
  unfold setKey
  rw [if_neg (by omega : ¬ key.length ≠ 4 * nk)]
  simp only [if_neg (by omega : ¬ key.length ≠ 4 * nk), if_true, Bool.false_eq_true, if_false, (h5 rfl).1, h4' rfl, this]

/-- AES under any schedule words is a block cipher in the sense the mode theorems need. -/
def aesCipher (nr : Nat) (w : Nat → Spec.Word) : Verif.Crypto.Modes.Cipher where
  enc l := if h : l.length = 16 then Spec.encrypt nr w l h else []
  dec l := if h : l.length = 16 then Spec.decrypt nr w l h else []
  encLen l h := by rw [dif_pos h]; exact store_length _
  decLen l h := by rw [dif_pos h]; exact store_length _
  inv l h := by
    unfold Spec.decrypt Spec.encrypt
    rw [dif_pos h, dif_pos (store_length _)]
    rw [load_store, invCipher_cipher, store_load]
  inv' l h := by
    unfold Spec.decrypt Spec.encrypt
    rw [dif_pos h, dif_pos (store_length _)]
    rw [load_store, cipher_invCipher, store_load]

/-- FIPS 197 appendix C plaintext. -/
def exPt : List Byte := [0x00, 0x11, 0x22, 0x33, 0x44, 0x55, 0x66, 0x77,
  0x88, 0x99, 0xaa, 0xbb, 0xcc, 0xdd, 0xee, 0xff]
/-- FIPS 197 appendix C keys. -/
def exKey (nk : Nat) : List Byte := (List.range (4 * nk)).map (BitVec.ofNat 8)
/-- FIPS 197 C.1 ciphertext. -/
def exCt128 : List Byte := [0x69, 0xc4, 0xe0, 0xd8, 0x6a, 0x7b, 0x04, 0x30,
  0xd8, 0xcd, 0xb7, 0x80, 0x70, 0xb4, 0xc5, 0x5a]
/-- FIPS 197 C.3 ciphertext. -/
def exCt256 : List Byte := [0x8e, 0xa2, 0xb7, 0xca, 0x51, 0x67, 0x45, 0xbf,
  0xea, 0xfc, 0x49, 0x90, 0x4b, 0x49, 0x60, 0x89]

/-- Encrypt one block with a fresh context. -/
def once (tbl : Bool) (nk : Nat) (key b : List Byte) : Option (List Byte) :=
  match setKey tbl true nk key with
  | .ok ek => encrypt tbl ek (roundsOf nk) b
  | _ => none

/-- The hypotheses of the theorems hold for the standard's examples, and the model gives the
standard's ciphertexts in both builds. -/
example : KeyWords 8 ∧ (exKey 8).length = 4 * 8 ∧ exPt.length = 16 :=
  ⟨Or.inr (Or.inr rfl), by decide +kernel, rfl⟩
example : once false 4 (exKey 4) exPt = some exCt128 := by decide +kernel
example : once true 4 (exKey 4) exPt = some exCt128 := by decide +kernel
example : once false 8 (exKey 8) exPt = some exCt256 := by decide +kernel
example : once true 8 (exKey 8) exPt = some exCt256 := by decide +kernel

end Verif.Crypto.Aes
