import Verif.Crypto.Modes.XtsProof
import Verif.Crypto.Modes.BlockProps

/-!
# C25 (XTS)

XTS encryption of a data unit of any length from one block up, as IEEE P1619 (AES) and GB/T 17964
(SM4) define it, and decryption as its inverse.
-/

namespace Verif.Crypto.Modes

open Verif.Common

/-! ## Specification -/

namespace Spec

/-- Multiplication by the primitive element of GF(2^128).  AES: the tweak is a little-endian
polynomial, reduced by `x^128 + x^7 + x^2 + x + 1`.  SM4: the bits are read in reverse order. -/
def double (sm4 : Bool) (t : List Byte) : List Byte :=
  if sm4 then beBytes 16 (beVal t / 2 ^^^ (if beVal t % 2 = 1 then 0xE1 * 2 ^ 120 else 0))
  else leBytes 16 ((2 * leVal t) % 2 ^ 128 ^^^ (if 2 ^ 127 ≤ leVal t then 0x87 else 0))

/-- Tweak of block `j`. -/
def tweak (sm4 : Bool) (t : List Byte) (j : Nat) : List Byte := (double sm4)^[j] t

/-- Encryption of one block under a tweak. -/
def xex (K : Cipher) (t p : List Byte) : List Byte := xorB (K.enc (xorB p t)) t

/-- `ct` is the XTS encryption of `pt` under first tweak `t`: plain blocks, and ciphertext stealing
for the last two when the length is not a multiple of 16. -/
def IsXts (K : Cipher) (sm4 : Bool) (t pt ct : List Byte) : Prop :=
  let n := pt.length / 16
  let b := pt.length % 16
  ct.length = pt.length ∧
  (∀ j, j < n → (b = 0 ∨ j + 1 < n) → blk ct j = xex K (tweak sm4 t j) (blk pt j)) ∧
  (b ≠ 0 → ∀ cc, cc = xex K (tweak sm4 t (n - 1)) (blk pt (n - 1)) →
    blk ct (n - 1) = xex K (tweak sm4 t n) (pt.drop (16 * n) ++ cc.drop b) ∧
    ct.drop (16 * n) = cc.take b)

end Spec

/-! ## Doubling -/

/-- The doubling routines compute multiplication by the primitive element; the two builds (big- and
little-endian hosts) agree. -/
theorem xts_doubling (sm4 : Bool) (t : List Byte) (h : t.length = 16) :
    tweakNext sm4 t = Spec.double sm4 t ∧ gfMulBE t = gfMul t := by
  refine ⟨?_, gfMulBE_eq t h⟩
  cases sm4
  · simp only [tweakNext, Spec.double, Bool.false_eq_true, if_false]
    have := gfMul_val t h
    rw [← this]
    have h2 := leBytes_leVal (gfMul t)
    rw [gfMul_length] at h2
    exact h2.symm
  · simp only [tweakNext, Spec.double, if_true]
    have := gfMulGM_val t h
    rw [← this]
    have h2 := beBytes_beVal (gfMulGM t)
    rw [gfMulGM_length, h] at h2
    exact h2.symm

theorem tweak_succ (sm4 : Bool) (t : List Byte) (h : t.length = 16) (j : Nat) :
    Spec.tweak sm4 t (j + 1) = Spec.tweak sm4 (tweakNext sm4 t) j := by
  rw [(xts_doubling sm4 t h).1]
  rfl

theorem blk_whole (a : List Byte) (h : a.length = 16) : Spec.blk a 0 = a := by
  have := blk_zero a [] h
  simpa using this

theorem xex_eq (K : Cipher) (t p : List Byte) : Spec.xex K t p = xtsBlock K true p t := rfl

theorem xts_isXts (K : Cipher) (sm4 : Bool) (x : List Byte) (hx : 16 ≤ x.length) :
    ∀ t : List Byte, t.length = 16 → ∀ t' ct, xtsEncrypt K sm4 false t x = .ok (t', ct) →
      Spec.IsXts K sm4 t x ct ∧
      (x.length % 16 = 0 → t' = Spec.tweak sm4 t (x.length / 16)) := by
  induction x, hx using xts_induction with
  | last x h =>
    intro t ht t' ct hc
    rw [xtsEncrypt_last K sm4 t x h false] at hc
    cases hc
    have hl := xtsBlock_length K true x t h ht
    refine ⟨⟨by omega, ?_, by omega⟩, ?_⟩
    · intro j hj _
      have : j = 0 := by omega
      subst this
      rw [blk_whole _ hl, blk_whole _ h]
      rfl
    · intro _
      rw [h, (xts_doubling sm4 t ht).1]
      rfl
  | steal a b ha hb hb' =>
    intro t ht t' ct hc
    rw [xtsEncrypt_steal K sm4 t a b ha hb hb'] at hc
    cases hc
    have hlen : (a ++ b).length = 16 + b.length := by rw [List.length_append, ha]
    have hn : (a ++ b).length / 16 = 1 := by omega
    have hm : (a ++ b).length % 16 = b.length := by omega
    have ht' := tweakNext_length sm4 t ht
    have hl := xtsBlock_length K true a t ha ht
    have hpp : (b ++ (xtsBlock K true a t).drop b.length).length = 16 := by
      rw [List.length_append, List.length_drop]; omega
    have hl2 := xtsBlock_length K true _ (tweakNext sm4 t) hpp ht'
    have htk : ((xtsBlock K true a t).take b.length).length = b.length := by
      rw [List.length_take]; omega
    refine ⟨⟨?_, ?_, ?_⟩, by omega⟩
    · rw [List.length_append, hl2, htk, hlen]
    · intro j hj hor; omega
    · intro _ cc hcc
      rw [hn, hm]
      rw [hn] at hcc
      have e0 : Spec.blk (a ++ b) (1 - 1) = a := blk_zero a b ha
      rw [e0] at hcc
      have hcc' : cc = xtsBlock K true a t := hcc
      subst hcc'
      constructor
      · show Spec.blk _ 0 = _
        rw [blk_zero _ _ hl2]
        have e1 : (a ++ b).drop (16 * 1) = b := by
          rw [List.drop_append_of_le_length (by omega), List.drop_of_length_le (by omega), List.nil_append]
        rw [e1, tweak_succ sm4 t ht]
        rfl
      · rw [List.drop_append_of_le_length (by omega), List.drop_of_length_le (by omega), List.nil_append]
  | step x h ih =>
    intro t ht t' ct hc
    have hx16 : (x.take 16).length = 16 := by rw [List.length_take]; omega
    have ht' := tweakNext_length sm4 t ht
    have hl := xtsBlock_length K true _ t hx16 ht
    rw [xtsEncrypt_step K sm4 false t x h] at hc
    cases hr : xtsEncrypt K sm4 false (tweakNext sm4 t) (x.drop 16) with
    | error e => rw [hr] at hc; cases hc
    | ok r =>
      obtain ⟨t2, ct2⟩ := r
      rw [hr] at hc
      simp only [pre, Except.ok.injEq, Prod.mk.injEq] at hc
      obtain ⟨rfl, rfl⟩ := hc
      obtain ⟨⟨h1, h2, h3⟩, h4⟩ := ih _ ht' _ _ hr
      have hlen : (x.drop 16).length = x.length - 16 := List.length_drop
      have hn : x.length / 16 = (x.drop 16).length / 16 + 1 := by omega
      have hm : x.length % 16 = (x.drop 16).length % 16 := by omega
      have hn1 : 1 ≤ (x.drop 16).length / 16 := by omega
      have hblk : ∀ j, Spec.blk x (j + 1) = Spec.blk (x.drop 16) j := by
        intro j
        conv => lhs; rw [← List.take_append_drop 16 x]
        exact blk_succ _ _ _ hx16
      refine ⟨⟨?_, ?_, ?_⟩, ?_⟩
      · rw [List.length_append, hl, h1]; omega
      · intro j hj hor
        cases j with
        | zero =>
          have e0 : Spec.blk x 0 = x.take 16 := by
            conv => lhs; rw [← List.take_append_drop 16 x]
            exact blk_zero _ _ hx16
          rw [blk_zero _ _ hl, e0]
          rfl
        | succ j =>
          rw [blk_succ _ _ _ hl, hblk, tweak_succ sm4 t ht]
          exact h2 j (by omega) (by omega)
      · intro hb cc hcc
        rw [hm] at hb
        rw [hn, hm]
        obtain ⟨k, hk⟩ : ∃ k, (x.drop 16).length / 16 = k + 1 := ⟨(x.drop 16).length / 16 - 1, by omega⟩
        rw [hn, hk] at hcc
        simp only [Nat.add_sub_cancel] at hcc
        rw [hblk, tweak_succ sm4 t ht] at hcc
        have h3 := h3 hb cc (by rw [hk]; exact hcc)
        rw [hk] at h3 ⊢
        simp only [Nat.add_sub_cancel] at h3 ⊢
        rw [blk_succ _ _ _ hl, tweak_succ sm4 t ht, h3.1]
        have e5 : ∀ (a y : List Byte), a.length = 16 → (a ++ y).drop (16 * (k + 1 + 1)) = y.drop (16 * (k + 1)) := by
          intro a y ha
          rw [show 16 * (k + 1 + 1) = a.length + 16 * (k + 1) by omega, List.drop_append,
            List.drop_of_length_le (by omega)]
          simp
        have e6 : x.drop (16 * (k + 1 + 1)) = (x.drop 16).drop (16 * (k + 1)) := by
          conv => lhs; rw [← List.take_append_drop 16 x]
          exact e5 _ _ hx16
        rw [e6, e5 _ _ hl, h3.2]
        exact ⟨rfl, rfl⟩
      · intro hb
        rw [hn, tweak_succ sm4 t ht]
        exact h4 (by omega)

/-! ## C25 -/

/-- **C25 (XTS).**  For every input of at least one block, and any 16-byte first tweak, encryption
into a separate buffer succeeds, the output is the XTS encryption, and decrypting it returns the
input. -/
theorem xts_roundtrip (K : Cipher) (sm4 : Bool) (t pt : List Byte) (ht : t.length = 16)
    (hl : 16 ≤ pt.length) :
    ∃ t' ct, xtsEncrypt K sm4 false t pt = .ok (t', ct) ∧ Spec.IsXts K sm4 t pt ct ∧
      xtsDecrypt K sm4 false t ct = .ok (t', pt) := by
  obtain ⟨t', ct, h1, h2, h3⟩ := xts_enc_ok K sm4 pt hl t ht
  exact ⟨t', ct, h1, (xts_isXts K sm4 pt hl t ht _ _ h1).1, h3⟩

/-- Decryption is onto: every string of at least one block is the encryption of what decryption
returns for it. -/
theorem xts_decrypt_spec (K : Cipher) (sm4 : Bool) (t ct : List Byte) (ht : t.length = 16)
    (hl : 16 ≤ ct.length) :
    ∃ t' pt, xtsDecrypt K sm4 false t ct = .ok (t', pt) ∧ Spec.IsXts K sm4 t pt ct := by
  obtain ⟨t', pt, h1, h2, h3⟩ := xts_dec_ok K sm4 ct hl t ht
  exact ⟨t', pt, h1, (xts_isXts K sm4 pt (by omega) t ht _ _ h3).1⟩

/-- Inputs shorter than a block are refused in both directions. -/
theorem xts_short (K : Cipher) (sm4 ip : Bool) (t x : List Byte) (h : x.length < 16) :
    xtsEncrypt K sm4 ip t x = .error .modeBuffLen ∧ xtsDecrypt K sm4 ip t x = .error .modeBuffLen := by
  unfold xtsEncrypt xtsDecrypt
  rw [if_pos h, if_pos h]
  exact ⟨rfl, rfl⟩

/-- After `Update` calls on whole blocks the tweak has advanced by exactly the number of blocks, so the
next call continues the same data unit. -/
theorem xts_continues (K : Cipher) (sm4 : Bool) (t x : List Byte) (ht : t.length = 16)
    (hl : 16 ≤ x.length) (hm : x.length % 16 = 0) :
    (∃ ct, xtsEncrypt K sm4 false t x = .ok (Spec.tweak sm4 t (x.length / 16), ct)) ∧
    ∃ pt, xtsDecrypt K sm4 false t x = .ok (Spec.tweak sm4 t (x.length / 16), pt) := by
  obtain ⟨t', ct, h1, -, -⟩ := xts_enc_ok K sm4 x hl t ht
  obtain ⟨t2, pt, h4, h5, h6⟩ := xts_dec_ok K sm4 x hl t ht
  have e1 := (xts_isXts K sm4 x hl t ht _ _ h1).2 hm
  have e2 := (xts_isXts K sm4 pt (by omega) t ht _ _ h6).2 (by omega)
  rw [h5] at e2
  subst e1 e2
  exact ⟨⟨ct, h1⟩, ⟨pt, h4⟩⟩

/-- Any sequence of updates on an XTS context. -/
def xtsRun (K : Cipher) (sm4 ip : Bool) (c : XCtx) (ops : List (List Byte × Nat)) : XCtx :=
  ops.foldl (fun c o => (xtsUpdate K sm4 ip c o.1 o.2).1) c

/-- No sequence of updates processes more than 2^20 blocks under one IV (`totalLen` counts exactly
the bytes accepted); an update beyond the limit is refused and changes nothing. -/
theorem xts_data_unit_limit (K : Cipher) (sm4 ip : Bool) (c : XCtx) (h : c.total = 0)
    (ops : List (List Byte × Nat)) (x : List Byte) (cap : Nat) :
    (xtsRun K sm4 ip c ops).total ≤ 2 ^ 24 ∧
    (cap ≥ x.length → (xtsRun K sm4 ip c ops).total + x.length > 2 ^ 24 →
      xtsUpdate K sm4 ip (xtsRun K sm4 ip c ops) x cap = (xtsRun K sm4 ip c ops, .error .cryptLen)) ∧
    (∀ o, (xtsUpdate K sm4 ip (xtsRun K sm4 ip c ops) x cap).2 = .ok o →
      (xtsUpdate K sm4 ip (xtsRun K sm4 ip c ops) x cap).1.total
        = (xtsRun K sm4 ip c ops).total + x.length) := by
  have hmax : xtsMaxUnit = 2 ^ 24 := by decide
  have inv : ∀ (ops : List (List Byte × Nat)) (c : XCtx), c.total ≤ 2 ^ 24 →
      (xtsRun K sm4 ip c ops).total ≤ 2 ^ 24 := by
    intro ops
    induction ops with
    | nil => intro c h; exact h
    | cons o ops ih =>
      intro c h
      apply ih
      show (xtsUpdate K sm4 ip c o.1 o.2).1.total ≤ 2 ^ 24
      unfold xtsUpdate
      rw [hmax]
      split
      · exact h
      · split
        · exact h
        · rename_i h2
          split
          · exact h
          · split
            · exact h
            · simp only
              omega
  have hi := inv ops c (by omega)
  generalize xtsRun K sm4 ip c ops = d at *
  refine ⟨hi, ?_, ?_⟩
  · intro hc hx
    unfold xtsUpdate
    rw [hmax, if_neg (by omega), if_pos (by omega)]
  · intro o
    unfold xtsUpdate
    split
    · intro hh; cases hh
    · split
      · intro hh; cases hh
      · split
        · rename_i h3; intro _; simp only; omega
        · split
          · intro hh; cases hh
          · intro _; rfl

/-- Key halves: a key is accepted exactly when it has 32 or 64 bytes and its halves differ. -/
theorem xts_key_check (key : List Byte) :
    (∃ k1 k2, xtsSplitKey key = .ok (k1, k2) ∧ key = k1 ++ k2 ∧ k1 ≠ k2 ∧ k1.length = k2.length) ↔
    (key.length = 32 ∨ key.length = 64) ∧ key.take (key.length / 2) ≠ key.drop (key.length / 2) := by
  unfold xtsSplitKey
  simp only [Nat.shiftRight_eq_div_pow, pow_one]
  by_cases hl : key.length ≠ 32 ∧ key.length ≠ 64
  · rw [if_pos hl]
    constructor
    · rintro ⟨k1, k2, h, -⟩; cases h
    · rintro ⟨h, -⟩; omega
  · rw [if_neg hl]
    have e : (key.drop (key.length / 2)).take (key.length / 2) = key.drop (key.length / 2) :=
      List.take_of_length_le (by rw [List.length_drop]; omega)
    rw [e]
    by_cases heq : key.take (key.length / 2) = key.drop (key.length / 2)
    · rw [if_pos heq]
      constructor
      · rintro ⟨k1, k2, h, -⟩; cases h
      · rintro ⟨-, h⟩; exact absurd heq h
    · rw [if_neg heq]
      constructor
      · intro _; exact ⟨by omega, heq⟩
      · intro _
        refine ⟨_, _, rfl, (List.take_append_drop _ _).symm, heq, ?_⟩
        rw [List.length_take, List.length_drop]; omega

/-! ## In-place use -/

/-- **Finding.**  `CRYPT_EAL_CipherUpdate` allows `out == in`.  With ciphertext stealing the in-place
XTS encryption differs from the encryption into a separate buffer, and cannot be decrypted: the code
overwrites each tail byte before reading it (`modes_xts.c:226-227`, `:293-294`). -/
theorem xts_in_place_fails :
    xtsEncrypt toy false true iv0 msg20 ≠ xtsEncrypt toy false false iv0 msg20 ∧
    (∀ t' ct, xtsEncrypt toy false true iv0 msg20 = .ok (t', ct) →
      xtsDecrypt toy false false iv0 ct ≠ .ok (t', msg20)) ∧
    xtsDecrypt toy false true iv0 msg20 ≠ xtsDecrypt toy false false iv0 msg20 := by
  have key : (match xtsEncrypt toy false true iv0 msg20 with
      | .ok (t', ct) => decide (xtsDecrypt toy false false iv0 ct ≠ .ok (t', msg20))
      | .error _ => true) = true := by decide +kernel
  refine ⟨by decide +kernel, ?_, by decide +kernel⟩
  intro t' ct h
  rw [h] at key
  simpa using key

/-- In-place use is right whenever the length is a multiple of the block. -/
theorem xts_in_place_whole_blocks (K : Cipher) (sm4 : Bool) (x : List Byte) (hl : 16 ≤ x.length) :
    x.length % 16 = 0 → ∀ t : List Byte,
    xtsEncrypt K sm4 true t x = xtsEncrypt K sm4 false t x ∧
    xtsDecrypt K sm4 true t x = xtsDecrypt K sm4 false t x := by
  induction x, hl using xts_induction with
  | last x h =>
    intro _ t
    rw [xtsEncrypt_last K sm4 t x h, xtsEncrypt_last K sm4 t x h, xtsDecrypt_last K sm4 t x h,
      xtsDecrypt_last K sm4 t x h]
    exact ⟨rfl, rfl⟩
  | steal a b ha hb hb' =>
    intro hm
    rw [List.length_append] at hm
    omega
  | step x h ih =>
    intro hm t
    have := ih (by rw [List.length_drop]; omega) (tweakNext sm4 t)
    rw [xtsEncrypt_step K sm4 true t x h, xtsEncrypt_step K sm4 false t x h,
      xtsDecrypt_step K sm4 true t x h, xtsDecrypt_step K sm4 false t x h, this.1, this.2]
    exact ⟨rfl, rfl⟩

/-! ## Concrete cases -/

example : 16 ≤ msg20.length ∧ iv0.length = 16 := by decide
example : xtsEncrypt toy false false iv0 msg20 ≠ xtsEncrypt toy true false iv0 msg20 := by decide +kernel
example : gfMul (List.replicate 15 0#8 ++ [0x80#8]) = 0x87#8 :: List.replicate 15 0#8 := by decide +kernel
example : gfMulGM (List.replicate 15 0#8 ++ [1#8]) = 0xE1#8 :: List.replicate 15 0#8 := by decide +kernel
example : xtsSplitKey (List.replicate 32 7#8) = .error .key := by decide +kernel

end Verif.Crypto.Modes
