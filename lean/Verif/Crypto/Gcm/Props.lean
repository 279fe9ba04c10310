import Verif.Crypto.Gcm.Proof
import Verif.Crypto.Modes.BlockProps
import Mathlib.Data.List.Nodup

/-!
# GCM: what a user of `CRYPT_EAL_Cipher*` relies on (property C27)

`Spec.*` (in `GhashProof.lean` and `Proof.lean`) is a transcription of NIST SP 800-38D: multiplication
in GF(2^128), GHASH, GCTR, the pre-counter block and the tag.
-/

namespace Verif.Crypto.Gcm

open Verif.Common
open Verif.Crypto.Modes (Cipher xorB xorB_length)
open Spec

/-- The specification on the published value `GHASH(H, ‖C‖len)` of test case 2 of the GCM paper. -/
example : Spec.ghash (beBytes 16 0x66e94bd4ef8a2c3b884cfa59ca342b2e)
    (beBytes 16 0x0388dace60b6a392f328c2b971b2fe78 ++ beBytes 16 0x80)
    = beBytes 16 0xf38cbb1ad69223dcc3457ae5b6b0f885 := by decide +kernel

/-- **Field multiplication.**  The four-bit table method computes GHASH as defined bit by bit, for
every hash key, every number of blocks and whatever the table contained before. -/
theorem table_ghash (old : Nat → GF) (hk x : List Byte) (hh : hk.length = 16) (hx : x.length % 16 = 0) :
    Gcm.ghash (tableGen old hk) (List.replicate 16 0#8) x = some (Spec.ghash hk x) := by
  have _ := hx
  exact (ghash_spec _ hk (tableGen_good old hk hh) _ x (by simp)).1

example : Gcm.ghash (tableGen (fun _ => ⟨1, 2⟩) (beBytes 16 0x66e94bd4ef8a2c3b884cfa59ca342b2e))
    (List.replicate 16 0#8) (beBytes 16 0x0388dace60b6a392f328c2b971b2fe78 ++ beBytes 16 0x80)
    = some (beBytes 16 0xf38cbb1ad69223dcc3457ae5b6b0f885) := by decide +kernel

/-! ## Sessions -/

/-- The tag lengths of SP 800-38D, in bytes. -/
def Spec.validTagLen (t : Nat) : Prop := t = 4 ∨ t = 8 ∨ t = 12 ∨ t = 13 ∨ t = 14 ∨ t = 15 ∨ t = 16

theorem init_spec (K : Cipher) (c : Ctx) (iv : List Byte) (enc : Bool) (hne : iv ≠ [])
    (hcnt : c.cryptCnt ≠ 2 ^ 32 - 1) :
    ∃ c', initCtx K c iv enc = some (c', .ok ()) ∧
      Inv K (hkey K) (j0 K iv) (List.replicate 16 0#8) c' [] ∧ c'.ek0 = K.enc (j0 K iv) ∧
      c'.aadLen = 0 ∧ c'.plaintextLen = 0 ∧ c'.tagLen = 16 ∧ c'.enc = enc ∧ c'.vfyTag = c.vfyTag ∧
      c'.cryptCnt = c.cryptCnt := by
  have hne' : iv.length ≠ 0 := fun h => hne (List.eq_nil_of_length_eq_zero h)
  obtain ⟨c', h1, h2, h3, h4, h5, h6, _, h8, h9⟩ := setIv_spec K (setKey K c) iv
    (tableGen_good _ _ (hkey_len K)) hne' hcnt
  unfold initCtx
  rw [h1]
  refine ⟨_, rfl, ⟨h2.tb, h2.iv, h2.lastLen, h2.last, h2.remLen, ?_, ?_⟩, h3, h4, h5, h6, rfl, h8, h9⟩
  · intro h; simp at h
  · exact h2.gh

theorem setAad_spec (K : Cipher) (iv : List Byte) (c : Ctx) (aad : List Byte)
    (hI : Inv K (hkey K) (j0 K iv) (List.replicate 16 0#8) c []) (ha : c.aadLen = 0)
    (hp : c.plaintextLen = 0) :
    ∃ c', setAad c aad = some (c', .ok ()) ∧
      Inv K (hkey K) (j0 K iv)
        (ghashFrom (hkey K) ((zpad aad).length / 16) (List.replicate 16 0#8) (zpad aad)) c' [] ∧
      c'.aadLen = aad.length ∧ c'.plaintextLen = 0 ∧ c'.ek0 = c.ek0 ∧ c'.tagLen = c.tagLen ∧
      c'.enc = c.enc ∧ c'.vfyTag = c.vfyTag ∧ c'.cryptCnt = c.cryptCnt := by
  have hgh : c.ghash = List.replicate 16 0#8 := hI.gh
  unfold setAad
  rw [if_neg (by simp [ha, hp]), hgh, hashPadded_spec c.hTable _ hI.tb _ _ (by simp)]
  refine ⟨_, rfl, ⟨hI.tb, hI.iv, hI.lastLen, hI.last, hI.remLen, ?_, rfl⟩, rfl, hp, rfl, rfl, rfl, rfl, rfl⟩
  intro h; simp at h

theorem setTagLen_spec (c : Ctx) (t : Nat) (ht : validTagLen t) :
    setTagLen c t = ({ c with tagLen := t }, .ok ()) := by
  unfold setTagLen validTagLen at *
  rw [if_pos (by omega)]

theorem tag_spec (K : Cipher) (iv aad p : List Byte) (c : Ctx)
    (hI : Inv K (hkey K) (j0 K iv)
        (ghashFrom (hkey K) ((zpad aad).length / 16) (List.replicate 16 0#8) (zpad aad)) c p)
    (ha : c.aadLen = aad.length) (hp : c.plaintextLen = p.length) (he : c.ek0 = K.enc (j0 K iv)) :
    getTag c c.tagLen = some ({ c with cryptCnt := (c.cryptCnt + 1) % 2 ^ 32 },
      .ok ((fullTag K iv aad (ctOf K (j0 K iv) c.enc p)).take c.tagLen)) := by
  have hcl := ctOf_length K (j0 K iv) (j0_len K iv) c.enc p
  unfold getTag
  rw [if_neg (by simp), pad_spec K _ _ _ (j0_len K iv) (ghashFrom_length _ _ _ _ (by simp)) c p hI hp]
  simp only [Option.some.injEq, Prod.mk.injEq, true_and, Except.ok.injEq]
  unfold fullTag Spec.ghash
  have hz1 := zpad_length aad
  have hz2 := zpad_length (ctOf K (j0 K iv) c.enc p)
  rw [ha, he, hcl, List.append_assoc (zpad aad ++ _), List.append_assoc (zpad aad)]
  have hl : (beBytes 8 (8 * aad.length) ++ beBytes 8 (8 * p.length)).length = 16 := by simp
  rw [List.length_append, List.length_append, hl,
    show ((zpad aad).length + ((zpad (ctOf K (j0 K iv) c.enc p)).length + 16)) / 16 =
      (zpad aad).length / 16 + ((zpad (ctOf K (j0 K iv) c.enc p)).length / 16 + 1) by omega,
    ghashFrom_append _ _ _ _ _ _ (by omega), ghashFrom_append _ _ _ _ _ _ (by omega)]
  unfold xorB
  rw [List.take_zipWith, ← List.take_zipWith, List.take_zipWith]
  rw [List.zipWith_eq_zipWith_take_min]
  conv => rhs; rw [List.zipWith_eq_zipWith_take_min]
  simp only [List.length_take, List.take_take]
  congr 1 <;> congr 1 <;> omega

/-- **Encryption.**  For every key, every non-empty IV, every additional data, every message of at most
2^36 - 32 bytes cut into pieces in any way (empty pieces included) and every permitted tag length: the
output is `GCTR` of the message and the tag is the truncated tag of the standard, over
`pad(A) ‖ pad(C) ‖ len(A) ‖ len(C)`. -/
theorem gcm_encrypt (K : Cipher) (c : Ctx) (iv aad : List Byte) (xs : List (List Byte)) (t : Nat)
    (hiv : iv ≠ []) (hcnt : c.cryptCnt ≠ 2 ^ 32 - 1) (ht : validTagLen t)
    (hlen : xs.flatten.length ≤ 2 ^ 36 - 32) :
    ∃ c1 c2 c3 c4 c5, initCtx K c iv true = some (c1, .ok ()) ∧ setAad c1 aad = some (c2, .ok ()) ∧
      setTagLen c2 t = (c3, .ok ()) ∧
      updateAll K c3 xs = some (c4, .ok (gctr K (j0 K iv) xs.flatten)) ∧
      getTag c4 t = some (c5, .ok ((fullTag K iv aad (gctr K (j0 K iv) xs.flatten)).take t)) := by
  obtain ⟨c1, h1, hI1, he1, ha1, hp1, -, hen1, -, -⟩ := init_spec K c iv true hiv hcnt
  obtain ⟨c2, h2, hI2, ha2, hp2, he2, -, hen2, -, -⟩ := setAad_spec K iv c1 aad hI1 ha1 hp1
  obtain ⟨c4, o, h4, hA, hI4, hg⟩ := updateAll_spec K (hkey K) (j0 K iv) _ (j0_len K iv)
    (ghashFrom_length _ _ _ _ (by simp)) xs { c2 with tagLen := t } []
    ⟨hI2.tb, hI2.iv, hI2.lastLen, hI2.last, hI2.remLen, hI2.rem, hI2.gh⟩ hp2
    (by rw [List.length_nil, Nat.zero_add]; exact hlen)
  have hen : c4.enc = true := by rw [hA.enc]; exact hen2.trans hen1
  have htl : c4.tagLen = t := hA.tagLen
  have hts := tag_spec K iv aad ([] ++ xs.flatten) c4 hI4 (hA.aadLen.trans ha2)
    (by rw [hA.plaintextLen]; simp [hp2]) (hA.ek0.trans (he2.trans he1))
  rw [htl, hen] at hts
  have ho : gctr K (j0 K iv) xs.flatten = o := by simpa [gctr, xorB] using hg
  exact ⟨c1, c2, _, c4, _, h1, h2, setTagLen_spec c2 t ht, by rw [h4, ho], hts⟩

/-- **Decryption and authentication.**  With an expected tag set, any chunking of the ciphertext
decrypts to `GCTR` of it, and `Final` reports success exactly when the expected tag is the (truncated)
tag of the standard for this IV, additional data and ciphertext. -/
theorem gcm_decrypt (K : Cipher) (c : Ctx) (iv aad tag : List Byte) (xs : List (List Byte)) (t : Nat)
    (hiv : iv ≠ []) (hcnt : c.cryptCnt ≠ 2 ^ 32 - 1) (ht : validTagLen t) (htag : tag ≠ [])
    (htag16 : tag.length ≤ 16) (hlen : xs.flatten.length ≤ 2 ^ 36 - 32) :
    ∃ c1 c2 c3 c4 c5 c6 r, initCtx K c iv false = some (c1, .ok ()) ∧
      setAad c1 aad = some (c2, .ok ()) ∧ setTagLen c2 t = (c3, .ok ()) ∧
      setTag c3 tag = (c4, .ok ()) ∧
      updateAll K c4 xs = some (c5, .ok (gctr K (j0 K iv) xs.flatten)) ∧
      final c5 = some (c6, r) ∧ (r = .ok () ↔ tag = (fullTag K iv aad xs.flatten).take t) := by
  obtain ⟨c1, h1, hI1, he1, ha1, hp1, -, hen1, -, -⟩ := init_spec K c iv false hiv hcnt
  obtain ⟨c2, h2, hI2, ha2, hp2, he2, -, hen2, -, -⟩ := setAad_spec K iv c1 aad hI1 ha1 hp1
  have hst : setTag { c2 with tagLen := t } tag = ({ c2 with tagLen := t, vfyTag := tag }, .ok ()) := by
    unfold setTag
    have h0 : ¬ (({ c2 with tagLen := t } : Ctx).enc = true ∨ tag.length = 0) := by
      rintro (h | h)
      · have : c2.enc = true := h
        rw [hen2, hen1] at this; exact absurd this (by decide)
      · exact htag (List.eq_nil_of_length_eq_zero h)
    rw [if_neg h0, if_neg (by omega)]
  obtain ⟨c5, o, h5, hA, hI5, hg⟩ := updateAll_spec K (hkey K) (j0 K iv) _ (j0_len K iv)
    (ghashFrom_length _ _ _ _ (by simp)) xs { c2 with tagLen := t, vfyTag := tag } []
    ⟨hI2.tb, hI2.iv, hI2.lastLen, hI2.last, hI2.remLen, hI2.rem, hI2.gh⟩ hp2
    (by rw [List.length_nil, Nat.zero_add]; exact hlen)
  have hen : c5.enc = false := by rw [hA.enc]; exact hen2.trans hen1
  have htl : c5.tagLen = t := hA.tagLen
  have hvt : c5.vfyTag = tag := hA.vfyTag
  have hts := tag_spec K iv aad ([] ++ xs.flatten) c5 hI5 (hA.aadLen.trans ha2)
    (by rw [hA.plaintextLen]; simp [hp2]) (hA.ek0.trans (he2.trans he1))
  rw [htl, hen] at hts
  have ho : gctr K (j0 K iv) xs.flatten = o := by simpa [gctr, xorB] using hg
  have hctof : ctOf K (j0 K iv) false ([] ++ xs.flatten) = xs.flatten := by simp [ctOf]
  rw [hctof] at hts
  generalize Ctx.mk .. = c6 at hts
  have hfl : (fullTag K iv aad xs.flatten).length = 16 := by
    unfold fullTag
    rw [xorB_length, K.encLen _ (j0_len K iv)]
    unfold Spec.ghash
    rw [ghashFrom_length _ _ _ _ (by simp)]
    rfl
  have ht16 : t ≤ 16 := by unfold validTagLen at ht; omega
  by_cases hl : tag.length = t
  · have hfin : final c5 = some (c6,
        if tag = (fullTag K iv aad xs.flatten).take t then .ok () else .error .tag) := by
      unfold final
      rw [hen, hvt, hl, hts]
      simp only [Bool.false_eq_true, if_false]
      rw [Verif.Bsl.Bytes.ctMemcmp_spec _ _ (by rw [List.length_take, hfl]; omega)]
      by_cases heq : tag = (fullTag K iv aad xs.flatten).take t
      · have hm : ¬ Verif.Bsl.Bytes.mask ((fullTag K iv aad xs.flatten).take t = tag) = 0#32 := by
          unfold Verif.Bsl.Bytes.mask; rw [if_pos heq.symm]; decide
        simp only [hm, if_false, if_pos heq]
      · have hm : Verif.Bsl.Bytes.mask ((fullTag K iv aad xs.flatten).take t = tag) = 0#32 := by
          unfold Verif.Bsl.Bytes.mask; rw [if_neg (Ne.symm heq)]
        simp only [hm, if_true, if_neg heq]
    refine ⟨c1, c2, _, _, c5, _, _, h1, h2, setTagLen_spec c2 t ht, hst, ?_, hfin, ?_⟩
    · rw [h5, ho]
    · split <;> rename_i h <;> simp [h]
  · have hfin : final c5 = some (c5, .error .tagLen) := by
      unfold final getTag
      rw [hen, hvt, htl, if_pos hl]
      simp
    refine ⟨c1, c2, _, _, c5, _, _, h1, h2, setTagLen_spec c2 t ht, hst, ?_, hfin, ?_⟩
    · rw [h5, ho]
    · constructor
      · intro h; cases h
      · intro h; rw [h, List.length_take, hfl] at hl; omega

theorem gctr_gctr (K : Cipher) (j : List Byte) (hj : j.length = 16) (x : List Byte) :
    gctr K j (gctr K j x) = x := by
  have hl := gctr_length K j hj x
  have hk := ks_len K j hj (x.length / 16 + 1)
  unfold gctr at hl ⊢
  rw [hl]
  generalize keystream K j (x.length / 16 + 1) = k at *
  have hle : x.length ≤ k.length := by omega
  clear hl hk
  induction x generalizing k with
  | nil => rfl
  | cons a x ih =>
    cases k with
    | nil => simp at hle
    | cons b k =>
      rw [Verif.Crypto.Modes.xorB_cons, Verif.Crypto.Modes.xorB_cons, Verif.Crypto.Modes.xor_cancel,
        ih k (by simpa using hle)]

/-- **Round trip.**  What `gcm_encrypt` produced, given back in any other chunking with its tag,
decrypts to the message and is accepted. -/
theorem gcm_round_trip (K : Cipher) (c d : Ctx) (iv aad : List Byte) (xs ys : List (List Byte)) (t : Nat)
    (hiv : iv ≠ []) (hc : c.cryptCnt ≠ 2 ^ 32 - 1) (hd : d.cryptCnt ≠ 2 ^ 32 - 1) (ht : validTagLen t)
    (hlen : xs.flatten.length ≤ 2 ^ 36 - 32) :
    ∃ c1 c2 c3 c4 c5 ct tag, initCtx K c iv true = some (c1, .ok ()) ∧
      setAad c1 aad = some (c2, .ok ()) ∧ setTagLen c2 t = (c3, .ok ()) ∧
      updateAll K c3 xs = some (c4, .ok ct) ∧ getTag c4 t = some (c5, .ok tag) ∧
      (ys.flatten = ct →
        ∃ d1 d2 d3 d4 d5 d6, initCtx K d iv false = some (d1, .ok ()) ∧
          setAad d1 aad = some (d2, .ok ()) ∧ setTagLen d2 t = (d3, .ok ()) ∧
          setTag d3 tag = (d4, .ok ()) ∧ updateAll K d4 ys = some (d5, .ok xs.flatten) ∧
          final d5 = some (d6, .ok ())) := by
  obtain ⟨c1, c2, c3, c4, c5, h1, h2, h3, h4, h5⟩ := gcm_encrypt K c iv aad xs t hiv hc ht hlen
  refine ⟨c1, c2, c3, c4, c5, _, _, h1, h2, h3, h4, h5, ?_⟩
  intro hy
  have hfl : (fullTag K iv aad (gctr K (j0 K iv) xs.flatten)).length = 16 := by
    unfold fullTag
    rw [xorB_length, K.encLen _ (j0_len K iv)]
    unfold Spec.ghash
    rw [ghashFrom_length _ _ _ _ (by simp)]
    rfl
  have htl : ((fullTag K iv aad (gctr K (j0 K iv) xs.flatten)).take t).length = t := by
    rw [List.length_take, hfl]; unfold validTagLen at ht; omega
  obtain ⟨d1, d2, d3, d4, d5, d6, r, g1, g2, g3, g4, g5, g6, g7⟩ := gcm_decrypt K d iv aad
    ((fullTag K iv aad (gctr K (j0 K iv) xs.flatten)).take t) ys t hiv hd ht
    (by intro h; rw [h] at htl; unfold validTagLen at ht; simp at htl; omega)
    (by rw [htl]; unfold validTagLen at ht; omega)
    (by rw [hy, gctr_length K _ (j0_len K iv)]; exact hlen)
  rw [hy] at g5 g7
  rw [gctr_gctr K _ (j0_len K iv)] at g5
  exact ⟨d1, d2, d3, d4, d5, d6, g1, g2, g3, g4, g5, by rw [g6, g7.mpr rfl]⟩

/-- **Length limit.**  After `Init`, a sequence of updates is accepted exactly up to 2^36 - 32 bytes in
total. -/
theorem length_limit (K : Cipher) (c c1 : Ctx) (iv : List Byte) (enc : Bool) (xs : List (List Byte))
    (hiv : iv ≠ []) (hcnt : c.cryptCnt ≠ 2 ^ 32 - 1) (h1 : initCtx K c iv enc = some (c1, .ok ())) :
    ∃ c2 r, updateAll K c1 xs = some (c2, r) ∧
      ((∃ o, r = .ok o) ↔ xs.flatten.length ≤ 2 ^ 36 - 32) := by
  obtain ⟨c1', h1', hI, -, -, hp, -⟩ := init_spec K c iv enc hiv hcnt
  rw [h1] at h1'
  simp only [Option.some.injEq, Prod.mk.injEq, and_true] at h1'
  subst h1'
  have key : ∀ (xs : List (List Byte)) (c : Ctx) (p : List Byte),
      Inv K (hkey K) (j0 K iv) (List.replicate 16 0#8) c p → c.plaintextLen = p.length →
      p.length ≤ maxLen →
      ∃ c2 r, updateAll K c xs = some (c2, r) ∧ ((∃ o, r = .ok o) ↔ p.length + xs.flatten.length ≤ maxLen) := by
    intro xs
    induction xs with
    | nil => intro c p hI hp hle; exact ⟨c, _, rfl, by simp [hle]⟩
    | cons x xs ih =>
      intro c p hI hp hle
      by_cases hx : p.length + x.length ≤ maxLen
      · obtain ⟨c1, o1, e1, a1, i1, -⟩ := updateAll_spec K (hkey K) (j0 K iv) _ (j0_len K iv) (by simp) [x]
          c p hI hp (by simpa using hx)
        rw [List.flatten_singleton] at a1 i1
        have e1' : update K c x x.length = some (c1, .ok o1) := by
          rw [updateAll] at e1
          revert e1
          cases update K c x x.length with
          | none => intro h; cases h
          | some q =>
            obtain ⟨q1, q2⟩ := q
            cases q2 with
            | error e => intro h; simp at h
            | ok o => intro h; simpa [updateAll] using h
        obtain ⟨c2, r, e2, hr⟩ := ih c1 (p ++ x) i1 (by rw [a1.plaintextLen, hp, List.length_append])
          (by rw [List.length_append]; exact hx)
        rw [updateAll, e1']
        simp only [e2]
        rw [List.length_append] at hr
        cases r with
        | error e =>
          refine ⟨c2, _, rfl, ?_⟩
          rw [List.flatten_cons, List.length_append, ← Nat.add_assoc, ← hr]
        | ok o =>
          refine ⟨c2, _, rfl, ?_⟩
          rw [List.flatten_cons, List.length_append, ← Nat.add_assoc, ← hr]
          simp
      · have hne : x.length ≠ 0 := by omega
        have e1 : update K c x x.length = some (c, .error .cryptLen) := by
          unfold update crypt
          rw [if_neg hne, if_neg (by omega), if_pos (by omega)]
        rw [updateAll, e1]
        refine ⟨c, _, rfl, ?_⟩
        constructor
        · rintro ⟨o, h⟩; cases h
        · intro h; rw [List.flatten_cons, List.length_append] at h; omega
  have := key xs c1 [] hI hp (by simp)
  simpa [maxLen] using this

/-- **No counter block is used twice.**  Within the length limit the pre-counter block (which masks the
tag) and the counter blocks that encrypt the data are pairwise different. -/
theorem counter_blocks_distinct (K : Cipher) (iv : List Byte) (n : Nat) (hn : n ≤ 2 ^ 36 - 32) :
    ((List.range (1 + (n + 15) / 16)).map (cb (j0 K iv))).Nodup ∧ cb (j0 K iv) 0 = j0 K iv := by
  have hj := j0_len K iv
  constructor
  · refine List.Nodup.map_on ?_ List.nodup_range
    intro a ha b hb hab
    rw [List.mem_range] at ha hb
    unfold cb at hab
    have h := List.append_cancel_left hab
    have h2 := congrArg beVal h
    rw [beVal_beBytes, beVal_beBytes] at h2
    norm_num at h2
    omega
  · unfold cb
    have h4 : ((j0 K iv).drop 12).length = 4 := by rw [List.length_drop, hj]
    have hlt := beVal_lt ((j0 K iv).drop 12)
    rw [h4] at hlt
    have hb := beBytes_beVal ((j0 K iv).drop 12)
    rw [h4] at hb
    rw [Nat.add_zero, Nat.mod_eq_of_lt (by norm_num at hlt ⊢; exact hlt), hb, List.take_append_drop]

/-- **Additional data** can be given once and only before the message. -/
theorem aad_once (c : Ctx) (aad : List Byte) (h : c.aadLen ≠ 0 ∨ c.plaintextLen ≠ 0) :
    setAad c aad = some (c, .error .aadRepeat) := by
  unfold setAad; rw [if_pos h]

/-- Giving empty additional data is the same as giving none. -/
theorem aad_empty (c : Ctx) (ha : c.aadLen = 0) (hp : c.plaintextLen = 0) :
    setAad c [] = some (c, .ok ()) := by
  unfold setAad
  rw [if_neg (by simp [ha, hp])]
  cases c
  simp only at ha
  subst ha
  simp [hashPadded, hashTail]

/-- **Tag lengths.**  Exactly the lengths of the standard are accepted; others leave the context
unchanged. -/
theorem tag_lengths (c : Ctx) (t : Nat) :
    (validTagLen t → setTagLen c t = ({ c with tagLen := t }, .ok ())) ∧
    (¬ validTagLen t → setTagLen c t = (c, .error .ctrlTagLen)) := by
  refine ⟨setTagLen_spec c t, fun h => ?_⟩
  unfold setTagLen; unfold validTagLen at h
  rw [if_neg (by omega)]

/-- **No tag, no success.**  In decryption `Final` without an expected tag of the configured length
never succeeds, whatever was processed. -/
theorem final_needs_tag (c : Ctx) (hd : c.enc = false) (hl : c.vfyTag.length ≠ c.tagLen) :
    final c = some (c, .error .tagLen) := by
  unfold final getTag
  rw [hd, if_pos hl]; simp

/-- A new IV through `CRYPT_CTRL_SET_IV` / `REINIT_STATUS` forgets the expected tag. -/
theorem reinit_clears_tag (K : Cipher) (c c' : Ctx) (iv : List Byte)
    (h : reinit K c iv = some (c', .ok ())) : c'.vfyTag = [] := by
  unfold reinit at h
  split at h <;> simp at h
  rw [← h]

/-! ## Findings -/

/-- `CRYPT_EAL_CipherInit` on a context that was not de-initialised keeps the expected tag of the
previous session. -/
theorem init_keeps_old_tag (K : Cipher) (c : Ctx) (iv : List Byte) (enc : Bool) (hiv : iv ≠ [])
    (hcnt : c.cryptCnt ≠ 2 ^ 32 - 1) :
    ∃ c', initCtx K c iv enc = some (c', .ok ()) ∧ c'.vfyTag = c.vfyTag := by
  obtain ⟨c', h, _, _, _, _, _, _, hv, _⟩ := init_spec K c iv enc hiv hcnt
  exact ⟨c', h, hv⟩

/-- `n` calls of `CRYPT_CTRL_GET_TAG`. -/
def getTags (c : Ctx) : Nat → Option Ctx
  | 0 => some c
  | n + 1 => match getTag c c.tagLen with
    | some (c1, .ok _) => getTags c1 n
    | _ => none

/-- **The usage limit is on tags fetched, and wraps.**  After `n` tags the counter checked by a new IV
is `n mod 2^32`; the check refuses only the value `2^32 - 1`.  Setting IVs and encrypting without
fetching the tag does not count, and fetching one more tag at the limit resets the count. -/
theorem use_count (K : Cipher) (c c1 : Ctx) (iv : List Byte) (enc : Bool) (n : Nat) (hiv : iv ≠ [])
    (hcnt : c.cryptCnt = 0) (h1 : initCtx K c iv enc = some (c1, .ok ())) :
    ∃ c2, getTags c1 n = some c2 ∧ c2.cryptCnt = n % 2 ^ 32 ∧
      ∀ iv2, iv2 ≠ [] →
        (reinit K c2 iv2 = some (c2, .error .useCount) ↔ n % 2 ^ 32 = 2 ^ 32 - 1) := by
  obtain ⟨c1', h1', hI, he, ha, hp, -, -, -, hc⟩ := init_spec K c iv enc hiv (by omega)
  rw [h1] at h1'
  simp only [Option.some.injEq, Prod.mk.injEq, and_true] at h1'
  subst h1'
  have key : ∀ (n : Nat) (c : Ctx), Inv K (hkey K) (j0 K iv) (List.replicate 16 0#8) c [] →
      c.ek0 = K.enc (j0 K iv) → c.aadLen = 0 → c.plaintextLen = 0 → c.cryptCnt < 2 ^ 32 →
      ∃ c2, getTags c n = some c2 ∧ c2.cryptCnt = (c.cryptCnt + n) % 2 ^ 32 ∧
        Inv K (hkey K) (j0 K iv) (List.replicate 16 0#8) c2 [] := by
    intro n
    induction n with
    | zero => intro c hI _ _ _ hlt; exact ⟨c, rfl, (Nat.mod_eq_of_lt hlt).symm, hI⟩
    | succ n ih =>
      intro c hI he ha hp hlt
      have ht := tag_spec K iv [] [] c hI ha hp he
      obtain ⟨c2, g1, g2, g3⟩ := ih { c with cryptCnt := (c.cryptCnt + 1) % 2 ^ 32 }
        ⟨hI.tb, hI.iv, hI.lastLen, hI.last, hI.remLen, hI.rem, hI.gh⟩ he ha hp
        (Nat.mod_lt _ (by decide))
      rw [getTags, ht]
      refine ⟨c2, g1, ?_, g3⟩
      rw [g2]
      show ((c.cryptCnt + 1) % 2 ^ 32 + n) % 2 ^ 32 = _
      rw [Nat.mod_add_mod]
      congr 1; omega
  obtain ⟨c2, g1, g2, g3⟩ := key n c1 hI he ha hp (by rw [hc, hcnt]; decide)
  rw [hc, hcnt, Nat.zero_add] at g2
  refine ⟨c2, g1, g2, ?_⟩
  intro iv2 hiv2
  have hl : iv2.length ≠ 0 := fun h => hiv2 (List.eq_nil_of_length_eq_zero h)
  rw [← g2]
  constructor
  · intro h
    by_contra hne
    obtain ⟨c3, hs, -⟩ := setIv_spec K c2 iv2 g3.tb hl hne
    unfold reinit at h
    rw [hs] at h
    simp at h
  · intro h
    unfold reinit setIv
    rw [if_neg hl, if_pos h]

/-- Hence after fetching 2^32 tags under one key a further IV is accepted again. -/
theorem use_limit_wraps (K : Cipher) (c c1 : Ctx) (iv iv2 : List Byte) (hiv : iv ≠ []) (hiv2 : iv2 ≠ [])
    (hcnt : c.cryptCnt = 0) (h1 : initCtx K c iv true = some (c1, .ok ())) :
    ∃ c2, getTags c1 (2 ^ 32) = some c2 ∧ reinit K c2 iv2 ≠ some (c2, .error .useCount) := by
  obtain ⟨c2, g1, _, g3⟩ := use_count K c c1 iv true (2 ^ 32) hiv hcnt h1
  exact ⟨c2, g1, fun h => absurd ((g3 iv2 hiv2).mp h) (by decide)⟩

/-! ## Concrete cases -/

/-- A context as `MODES_GCM_NewCtx` leaves it (`modes_gcm.c:441-464`, `Calloc`). -/
def newCtx : Ctx :=
  ⟨[], [], fun _ => ⟨0, 0⟩, 0, 0, 0, [], [], [], 0, 0, false, []⟩

/-- A whole encryption session: ciphertext and tag. -/
def session (iv aad : List Byte) (xs : List (List Byte)) : Option (List Byte × List Byte) :=
  match initCtx Verif.Crypto.Modes.toy newCtx iv true with
  | some (c1, .ok _) => match setAad c1 aad with
    | some (c2, .ok _) => match updateAll Verif.Crypto.Modes.toy c2 xs with
      | some (c3, .ok o) => match getTag c3 16 with
        | some (_, .ok t) => some (o, t)
        | _ => none
      | _ => none
    | _ => none
  | _ => none

open Verif.Crypto.Modes (toy iv0 msg20) in
example : session (iv0.take 12) [1#8, 2#8] [msg20.take 3, [], msg20.drop 3]
    = session (iv0.take 12) [1#8, 2#8] [msg20] ∧
    (session (iv0.take 12) [1#8, 2#8] [msg20]).isSome ∧
    session iv0 [1#8, 2#8] [msg20] ≠ session (iv0.take 12) [1#8, 2#8] [msg20] ∧
    session iv0 [1#8, 2#8] [msg20] ≠ session iv0 [1#8, 3#8] [msg20] := by decide +kernel

open Verif.Crypto.Modes (toy iv0 msg20) in
example := gcm_encrypt toy newCtx iv0 [1#8, 2#8] [msg20.take 3, [], msg20.drop 3] 12 (by decide) (by decide)
  (by unfold validTagLen; decide) (by decide)

open Verif.Crypto.Modes (toy iv0 msg20) in
example := gcm_decrypt toy newCtx iv0 [1#8, 2#8] (List.replicate 12 9#8) [msg20] 12 (by decide) (by decide)
  (by unfold validTagLen; decide) (by decide) (by decide) (by decide)

example (K : Cipher) : ∃ c1, initCtx K newCtx [5#8] true = some (c1, .ok ()) ∧ newCtx.cryptCnt = 0 :=
  (init_spec K newCtx [5#8] true (by decide) (by decide)).imp fun _ h => ⟨h.1, rfl⟩

end Verif.Crypto.Gcm
