import Verif.Crypto.RsaPad.Proof

namespace Verif.Crypto.RsaPad

open Verif.Common Verif.Bsl.Bytes Verif.Crypto.Modes Verif.Crypto.Kdf

/-! ## Masks -/

theorem maskAnd (p q : Prop) [Decidable p] [Decidable q] : mask p &&& mask q = mask (p ∧ q) := by
  unfold mask
  by_cases hp : p <;> by_cases hq : q <;> simp [hp, hq]

theorem maskNot (p : Prop) [Decidable p] : ~~~ mask p = mask (¬ p) := by
  unfold mask
  by_cases hp : p <;> simp [hp]

theorem mask_zero (p : Prop) [Decidable p] : mask p = 0#32 ↔ ¬ p := by
  unfold mask
  by_cases hp : p <;> simp [hp]

theorem ones_and (x : BitVec 32) : 0xFFFFFFFF#32 &&& x = x := by
  have : (0xFFFFFFFF#32) = BitVec.allOnes 32 := by decide
  rw [this, BitVec.allOnes_and]

theorem mask_and_ (p : Prop) [Decidable p] (x : BitVec 32) : mask p &&& x = if p then x else 0#32 := by
  unfold mask
  by_cases hp : p
  · rw [if_pos hp, if_pos hp, BitVec.allOnes_and]
  · rw [if_neg hp, if_neg hp, BitVec.zero_and]

theorem ctSelect_zero (x y : BitVec 32) : ctSelect 0#32 x y = y := by
  rw [ctSelect, BitVec.zero_and, BitVec.not_zero, BitVec.allOnes_and, BitVec.zero_or]

theorem not_zero_and (x : BitVec 32) : ~~~ 0#32 &&& x = x := by
  rw [BitVec.not_zero, BitVec.allOnes_and]

theorem widen_eq (b c : Byte) : b.setWidth 32 = c.setWidth 32 ↔ b = c := by
  constructor
  · intro h
    have := congrArg BitVec.toNat h
    simp only [BitVec.toNat_setWidth] at this
    have h1 := b.isLt
    have h2 := c.isLt
    apply BitVec.eq_of_toNat_eq
    omega
  · rintro rfl; rfl

theorem isZero_byte (b : Byte) : ctIsZero (b.setWidth 32) = mask (b = 0#8) := by
  rw [ctIsZero_spec]
  exact Tls.Cbc.mask_iff (widen_eq b 0#8)

theorem equal_byte (b c : Byte) : ctEqual (b.setWidth 32) (c.setWidth 32) = mask (b = c) := by
  rw [ctEqual_spec]
  exact Tls.Cbc.mask_iff (widen_eq b c)

/-! ## OAEP -/

theorem oaepScan_stuck (i : BitVec 32) (l : List Byte) (x : BitVec 32) (hx : x ≠ 0#32) : oaepScan i l x = x := by
  induction l generalizing i with
  | nil => rfl
  | cons b r ih =>
    rw [oaepScan, ctIsZero_spec, ctSelect_spec, if_neg hx]
    exact ih _

theorem oaepScan_zeros (i : BitVec 32) (n : Nat) : oaepScan i (List.replicate n 0#8) 0#32 = 0#32 := by
  induction n generalizing i with
  | zero => rfl
  | succ n ih =>
    rw [List.replicate_succ, oaepScan, isZero_byte, ctIsZero_spec, ctSelect_spec, maskNot, mask_and_, if_pos rfl,
      if_neg (by simp)]
    exact ih _

theorem oaepScan_hit (i : BitVec 32) (n : Nat) (b : Byte) (r : List Byte) (hi : 0 < i.toNat) (hb : b ≠ 0#8)
    (h : i.toNat + n < 2 ^ 32) : (oaepScan i (List.replicate n 0#8 ++ b :: r) 0#32).toNat = i.toNat + n := by
  induction n generalizing i with
  | zero =>
    rw [List.replicate_zero, List.nil_append, oaepScan, isZero_byte, ctIsZero_spec, ctSelect_spec, maskNot, mask_and_,
      if_pos rfl, if_pos hb, oaepScan_stuck]
    · rfl
    · intro e; rw [e] at hi; simp at hi
  | succ n ih =>
    rw [List.replicate_succ, List.cons_append, oaepScan, isZero_byte, ctIsZero_spec, ctSelect_spec, maskNot, mask_and_,
      if_pos rfl, if_neg (by simp)]
    have e : (i + 1#32).toNat = i.toNat + 1 := by
      rw [BitVec.toNat_add]; simp; omega
    rw [ih _ (by omega) (by omega), e]
    omega

theorem zeros_or (l : List Byte) :
    l = List.replicate l.length 0#8 ∨ ∃ n b r, b ≠ 0#8 ∧ l = List.replicate n 0#8 ++ b :: r := by
  induction l with
  | nil => left; rfl
  | cons x xs ih =>
    by_cases hx : x = 0#8
    · subst hx
      rcases ih with h | ⟨n, b, r, hb, h⟩
      · left
        rw [List.length_cons, List.replicate_succ, ← h]
      · right
        exact ⟨n + 1, b, r, hb, by rw [h, List.replicate_succ, List.cons_append]⟩
    · right
      exact ⟨0, x, xs, hx, rfl⟩

theorem zeros_unique (n m : Nat) (b c : Byte) (r s : List Byte) (hb : b ≠ 0#8) (hc : c ≠ 0#8)
    (h : List.replicate n 0#8 ++ b :: r = List.replicate m 0#8 ++ c :: s) : n = m ∧ b = c ∧ r = s := by
  induction n generalizing m with
  | zero =>
    cases m with
    | zero => simp only [List.replicate_zero, List.nil_append, List.cons.injEq] at h; exact ⟨rfl, h.1, h.2⟩
    | succ m =>
      simp only [List.replicate_zero, List.nil_append, List.replicate_succ, List.cons_append, List.cons.injEq] at h
      exact absurd h.1 hb
  | succ n ih =>
    cases m with
    | zero =>
      simp only [List.replicate_zero, List.nil_append, List.replicate_succ, List.cons_append, List.cons.injEq] at h
      exact absurd h.1.symm hc
    | succ m =>
      simp only [List.replicate_succ, List.cons_append, List.cons.injEq, true_and] at h
      obtain ⟨h1, h2, h3⟩ := ih m h
      exact ⟨by omega, h2, h3⟩

theorem oaepVerifyDb_none (H : Hash) (label db : List Byte) (v : BitVec 32) (hl : H.size < db.length)
    (hz : db.drop H.size = List.replicate (db.drop H.size).length 0#8) :
    oaepVerifyDb H label db v = .ok (1#32, 0#32) := by
  unfold oaepVerifyDb
  dsimp only
  rw [hz, oaepScan_zeros]
  obtain ⟨a, r, rfl⟩ : ∃ a r, db = a :: r := List.exists_cons_of_ne_nil (by intro e; rw [e] at hl; simp at hl)
  simp [ctIsZero_spec, mask]

theorem oaepVerifyDb_hit (H : Hash) (label l m : List Byte) (n : Nat) (b : Byte) (p : Prop) [Decidable p]
    (hl : l.length = H.size) (hb : b ≠ 0#8) (hlen : (l ++ (List.replicate n 0#8 ++ b :: m)).length < 2 ^ 32) :
    oaepVerifyDb H label (l ++ (List.replicate n 0#8 ++ b :: m)) (mask p) =
      .ok (BitVec.ofNat 32 (H.size + n + 1), mask (p ∧ l = H.h label ∧ b = 1#8)) := by
  have hp := H.pos
  have hlen' : H.size + n + 1 + m.length < 2 ^ 32 := by
    simp only [List.length_append, List.length_replicate, List.length_cons] at hlen; omega
  unfold oaepVerifyDb
  dsimp only
  rw [List.take_left' hl, List.drop_left' hl]
  have hi : (BitVec.ofNat 32 H.size).toNat = H.size := by rw [BitVec.toNat_ofNat]; omega
  have hs := oaepScan_hit (BitVec.ofNat 32 H.size) n b m (by omega) hb (by omega)
  rw [hi] at hs
  have hs' : oaepScan (BitVec.ofNat 32 H.size) (List.replicate n 0#8 ++ b :: m) 0#32 = BitVec.ofNat 32 (H.size + n) := by
    apply BitVec.eq_of_toNat_eq
    rw [hs, BitVec.toNat_ofNat]; omega
  rw [hs']
  have hx : (BitVec.ofNat 32 (H.size + n)).toNat = H.size + n := by rw [BitVec.toNat_ofNat]; omega
  have hget : (l ++ (List.replicate n 0#8 ++ b :: m))[(BitVec.ofNat 32 (H.size + n)).toNat]? = some b := by
    rw [hx, ← List.append_assoc, List.getElem?_append_right (by simp; omega)]
    have : H.size + n - (l ++ List.replicate n 0#8).length = 0 := by simp; omega
    rw [this]; rfl
  rw [hget]
  dsimp only
  rw [ctMemcmp_spec _ _ (by rw [hl, H.len]), ctIsZero_spec, ctLt_spec, maskNot]
  have : ctEqual (b.setWidth 32) 1#32 = mask (b = 1#8) := equal_byte b 1#8
  rw [this, maskAnd, maskAnd, maskAnd, maskAnd]
  congr 2
  · apply BitVec.eq_of_toNat_eq
    rw [BitVec.toNat_add, hx, BitVec.toNat_ofNat]; simp
  · apply Tls.Cbc.mask_iff
    constructor
    · rintro ⟨⟨⟨⟨h1, h2⟩, -⟩, -⟩, h5⟩; exact ⟨h1, h2, h5⟩
    · rintro ⟨h1, h2, h5⟩
      refine ⟨⟨⟨⟨h1, h2⟩, ?_⟩, ?_⟩, h5⟩
      · intro e
        have := congrArg BitVec.toNat e
        rw [hx] at this
        simp at this
        omega
      · rw [hx, BitVec.toNat_ofNat]
        simp only [List.length_append, List.length_replicate, List.length_cons]
        omega

theorem ctCopy_eq (p : Prop) [Decidable p] (n : Nat) (src msg : List Byte) (h1 : n ≤ src.length)
    (h2 : n ≤ msg.length) : ctCopy (mask p) n src msg = .ok (if p then src.take n ++ msg.drop n else msg) := by
  induction n generalizing src msg with
  | zero => simp [ctCopy]
  | succ n ih =>
    obtain ⟨a, src, rfl⟩ : ∃ a r, src = a :: r := List.exists_cons_of_ne_nil (by intro e; rw [e] at h1; simp at h1)
    obtain ⟨c, msg, rfl⟩ : ∃ a r, msg = a :: r := List.exists_cons_of_ne_nil (by intro e; rw [e] at h2; simp at h2)
    simp only [List.length_cons] at h1 h2
    rw [ctCopy, ih src msg (by omega) (by omega), ctSelect8_spec]
    simp only [bind, Except.bind]
    by_cases hp : p <;> simp [hp]

/-- The unmasked data block of an OAEP block `b0 ‖ maskedSeed ‖ maskedDB`. -/
def oaepDb (H M : Hash) (ms mdb : List Byte) : List Byte :=
  xorB (Spec.mgf1 M (xorB (Spec.mgf1 M mdb H.size) ms) mdb.length) mdb

theorem oaepDb_length (H M : Hash) (ms mdb : List Byte) : (oaepDb H M ms mdb).length = mdb.length := by
  unfold oaepDb
  rw [xorB_length, mgf_length]; omega

/-- What the decoder computes. -/
theorem verifyOaep_cases (H M : Hash) (hH : H.size ≤ 64) (hM : M.size ≤ 64) (label ms mdb buf : List Byte) (b0 : Byte)
    (hms : ms.length = H.size) (hk : 2 * H.size + 2 ≤ (b0 :: (ms ++ mdb)).length)
    (hk2 : (b0 :: (ms ++ mdb)).length ≤ 2048) (hbuf : 0 < buf.length) (hbuf2 : buf.length < 2 ^ 32) :
    (∃ n m, b0 = 0#8 ∧ oaepDb H M ms mdb = H.h label ++ (List.replicate n 0#8 ++ 1#8 :: m) ∧ m.length ≤ buf.length ∧
      verifyOaep H M label (b0 :: (ms ++ mdb)) buf = ⟨none, m ++ buf.drop m.length, m.length⟩) ∨
    ((∀ n m, b0 = 0#8 → oaepDb H M ms mdb = H.h label ++ (List.replicate n 0#8 ++ 1#8 :: m) → buf.length < m.length) ∧
      verifyOaep H M label (b0 :: (ms ++ mdb)) buf = ⟨some .norVerify, buf, buf.length⟩) := by
  have hp := H.pos
  have hlen : (b0 :: (ms ++ mdb)).length = H.size + mdb.length + 1 := by simp; omega
  rw [hlen] at hk hk2
  have hdl : H.size + mdb.length + 1 - H.size - 1 = mdb.length := by omega
  have hdb := oaepDb_length H M ms mdb
  have hck : oaepVerifyCheck buf.length (H.size + mdb.length + 1) H.size = .ok () := by
    unfold oaepVerifyCheck maxLen maxMd
    rw [if_neg (by omega), if_neg (by omega), if_neg (by omega)]
  have hcap : (BitVec.ofNat 32 buf.length).toNat = buf.length := by rw [BitVec.toNat_ofNat]; omega
  -- bring the code to the data block
  have key : ∀ (off : Nat) (p : Prop) [Decidable p], off ≤ mdb.length →
      oaepVerifyDb H label (oaepDb H M ms mdb) (mask (b0 = 0#8)) = .ok (BitVec.ofNat 32 off, mask p) →
      verifyOaep H M label (b0 :: (ms ++ mdb)) buf =
        (if p ∧ mdb.length - off ≤ buf.length then
          ⟨none, (oaepDb H M ms mdb).drop off ++ buf.drop (mdb.length - off), mdb.length - off⟩
        else ⟨some .norVerify, buf, buf.length⟩) := by
    intro off p _ hoff hv
    unfold verifyOaep
    rw [hlen, if_neg (by omega), hdl, hck]
    simp only [bind, Except.bind]
    rw [List.take_left' hms, List.drop_left' hms, mgf1_ok M hM _ _ hp]
    dsimp only
    rw [mgf1_ok M hM _ _ (by omega)]
    dsimp only
    rw [ones_and, isZero_byte]
    have hfold : xorB (Spec.mgf1 M (xorB (Spec.mgf1 M mdb H.size) ms) mdb.length) mdb = oaepDb H M ms mdb := rfl
    rw [hfold, hv]
    dsimp only
    have hoffn : (BitVec.ofNat 32 off).toNat = off := by rw [BitVec.toNat_ofNat]; omega
    have hav : (BitVec.ofNat 32 mdb.length - BitVec.ofNat 32 off).toNat = mdb.length - off := by
      rw [BitVec.toNat_sub, hoffn, BitVec.toNat_ofNat]; omega
    rw [ctGe_spec, hav, hcap, maskAnd, ctSelect_spec, ctSelect_spec, ctIsZero_spec]
    have hn : (if mdb.length - off ≤ buf.length then BitVec.ofNat 32 mdb.length - BitVec.ofNat 32 off
        else BitVec.ofNat 32 buf.length).toNat = min (mdb.length - off) buf.length := by
      split
      · rw [hav]; omega
      · rw [hcap]; omega
    rw [hn, hoffn, ctCopy_eq _ _ _ _ (by rw [List.length_drop, hdb]; omega) (by omega)]
    dsimp only
    by_cases hc : p ∧ mdb.length - off ≤ buf.length
    · rw [if_pos hc, if_pos hc, if_pos hc, hav]
      have : min (mdb.length - off) buf.length = mdb.length - off := by omega
      rw [this, List.take_of_length_le (by rw [List.length_drop, hdb])]
      congr 1
      rw [if_pos]
      rw [mask_zero]
      rw [mask_zero]
      simp only [not_not]
      exact hc
    · rw [if_neg hc, if_neg hc, if_neg hc, hcap]
      congr 1
      rw [if_neg]
      rw [mask_zero, mask_zero]
      simp only [not_not]
      exact hc
  rcases zeros_or ((oaepDb H M ms mdb).drop H.size) with hz | ⟨n, b, r, hb, hz⟩
  · right
    have hv := oaepVerifyDb_none H label (oaepDb H M ms mdb) (mask (b0 = 0#8)) (by omega) hz
    have h0 : (0#32) = mask False := by simp [mask]
    rw [h0] at hv
    refine ⟨?_, ?_⟩
    · intro n m _ hd
      exfalso
      rw [hd, List.drop_left' (H.len _)] at hz
      have : (1#8) ∈ List.replicate n 0#8 ++ 1#8 :: m := by simp
      rw [hz, List.mem_replicate] at this
      exact absurd this.2 (by decide)
    · rw [key 1 False (by omega) hv, if_neg (by simp)]
  · have hsplit : oaepDb H M ms mdb = (oaepDb H M ms mdb).take H.size ++ (List.replicate n 0#8 ++ b :: r) := by
      rw [← hz, List.take_append_drop]
    have htl : ((oaepDb H M ms mdb).take H.size).length = H.size := by rw [List.length_take]; omega
    generalize (oaepDb H M ms mdb).take H.size = l at hsplit htl
    have hll := congrArg List.length hsplit
    rw [hdb] at hll
    have hll' : mdb.length = H.size + n + 1 + r.length := by
      rw [hll]; simp; omega
    have hv := oaepVerifyDb_hit H label l r n b (b0 = 0#8) htl hb (by rw [← hll]; omega)
    rw [← hsplit] at hv
    have hkey := key (H.size + n + 1) _ (by omega) hv
    have hdrop : (oaepDb H M ms mdb).drop (H.size + n + 1) = r := by
      have : l ++ (List.replicate n 0#8 ++ b :: r) = (l ++ List.replicate n 0#8 ++ [b]) ++ r := by simp
      rw [hsplit, this, List.drop_left' (by simp; omega)]
    have hav : mdb.length - (H.size + n + 1) = r.length := by omega
    rw [hdrop, hav] at hkey
    by_cases hc : (b0 = 0#8 ∧ l = H.h label ∧ b = 1#8) ∧ r.length ≤ buf.length
    · left
      rw [if_pos hc] at hkey
      obtain ⟨⟨h1, h2, h3⟩, h4⟩ := hc
      exact ⟨n, r, h1, by rw [hsplit, h2, h3], h4, hkey⟩
    · right
      rw [if_neg hc] at hkey
      refine ⟨?_, hkey⟩
      intro n' m hb0 hd
      rw [hsplit] at hd
      obtain ⟨e1, e2⟩ := List.append_inj hd (by rw [htl, H.len])
      obtain ⟨-, e3, e4⟩ := zeros_unique _ _ _ _ _ _ hb (by decide) e2
      subst e4
      by_contra hcon
      exact hc ⟨⟨hb0, e1, e3⟩, by omega⟩

/-- The data block has the required form exactly when the block is an RFC encoding. -/
theorem oaep_inv (H M : Hash) (label ms mdb m : List Byte) (b0 : Byte) (hms : ms.length = H.size) :
    (∃ seed, Spec.oaep H M label seed m (b0 :: (ms ++ mdb)).length = some (b0 :: (ms ++ mdb))) ↔
      b0 = 0#8 ∧ ∃ n, oaepDb H M ms mdb = H.h label ++ (List.replicate n 0#8 ++ 1#8 :: m) := by
  have hlen : (b0 :: (ms ++ mdb)).length = H.size + mdb.length + 1 := by simp; omega
  rw [hlen]
  constructor
  · rintro ⟨seed, hs⟩
    unfold Spec.oaep at hs
    split at hs
    · cases hs
    rename_i hc
    have hc1 : m.length + 2 * H.size + 2 ≤ H.size + mdb.length + 1 := by omega
    have hc2 : seed.length = H.size := by
      by_contra h; exact hc (Or.inr h)
    injection hs with hs
    have hdl : H.size + mdb.length + 1 - H.size - 1 = mdb.length := by omega
    rw [hdl] at hs
    have hdbl : (H.h label ++ List.replicate (H.size + mdb.length + 1 - m.length - 2 * H.size - 2) 0#8 ++ [1#8] ++ m).length
        = mdb.length := by
      simp only [List.length_append, List.length_replicate, H.len, List.length_singleton]; omega
    generalize hdb : H.h label ++ List.replicate (H.size + mdb.length + 1 - m.length - 2 * H.size - 2) 0#8 ++ [1#8] ++ m
      = db at hs hdbl
    change [0#8] ++ xorB seed (Spec.mgf1 M (xorB db (Spec.mgf1 M seed mdb.length)) H.size) ++
      xorB db (Spec.mgf1 M seed mdb.length) = _ at hs
    rw [List.append_assoc, List.singleton_append] at hs
    injection hs with h0 hs
    have hxl : (xorB seed (Spec.mgf1 M (xorB db (Spec.mgf1 M seed mdb.length)) H.size)).length = H.size := by
      rw [xorB_length, mgf_length]; omega
    obtain ⟨e1, e2⟩ := List.append_inj hs (by rw [hxl, hms])
    refine ⟨h0.symm, H.size + mdb.length + 1 - m.length - 2 * H.size - 2, ?_⟩
    rw [e2] at e1
    have hseed : xorB (Spec.mgf1 M mdb H.size) ms = seed := by
      rw [← e1, xorB_comm seed, xorB_invol _ _ (by rw [mgf_length, hc2])]
    unfold oaepDb
    rw [hseed]
    have : xorB (Spec.mgf1 M seed mdb.length) mdb = db := by
      conv => lhs; rw [← e2]
      rw [e2]
      have hx : xorB db (Spec.mgf1 M seed mdb.length) = mdb := e2
      rw [← hx, hx]
      calc xorB (Spec.mgf1 M seed mdb.length) mdb
          = xorB (Spec.mgf1 M seed mdb.length) (xorB (Spec.mgf1 M seed mdb.length) db) := by
            rw [xorB_comm _ db, hx]
        _ = db := xorB_invol _ _ (by rw [mgf_length, hdbl])
    rw [this, ← hdb]
    simp
  · rintro ⟨rfl, n, hd⟩
    have hl := congrArg List.length hd
    rw [oaepDb_length] at hl
    simp only [List.length_append, List.length_replicate, H.len, List.length_cons] at hl
    refine ⟨xorB (Spec.mgf1 M mdb H.size) ms, ?_⟩
    have hsl : (xorB (Spec.mgf1 M mdb H.size) ms).length = H.size := by rw [xorB_length, mgf_length]; omega
    unfold Spec.oaep
    rw [if_neg (by rw [hsl]; omega)]
    have hdl : H.size + mdb.length + 1 - H.size - 1 = mdb.length := by omega
    have hn : H.size + mdb.length + 1 - m.length - 2 * H.size - 2 = n := by omega
    dsimp only
    rw [hdl, hn]
    have hdb : H.h label ++ List.replicate n 0#8 ++ [1#8] ++ m = oaepDb H M ms mdb := by rw [hd]; simp
    rw [hdb]
    have hmd : Spec.xor (oaepDb H M ms mdb) (Spec.mgf1 M (xorB (Spec.mgf1 M mdb H.size) ms) mdb.length) = mdb := by
      show xorB _ _ = _
      unfold oaepDb
      rw [xorB_comm, xorB_invol _ _ (by rw [mgf_length])]
    rw [hmd]
    have : Spec.xor (xorB (Spec.mgf1 M mdb H.size) ms) (Spec.mgf1 M mdb H.size) = ms := by
      show xorB _ _ = _
      rw [xorB_comm, xorB_invol _ _ (by rw [mgf_length, hms])]
    rw [this]
    rfl

theorem setOaep_eq (H M : Hash) (hH : H.size ≤ 64) (hM : M.size ≤ 64) (label seed msg : List Byte) (k : Nat)
    (hk : k ≤ 2048) (hs : seed.length = H.size) (pad : List Byte) :
    setOaep H M label seed msg k = .ok pad ↔ Spec.oaep H M label seed msg k = some pad := by
  have hp := H.pos
  unfold setOaep oaepSetCheck Spec.oaep maxLen maxMd
  by_cases hc : k < msg.length + 2 * H.size + 2
  · rw [if_pos (Or.inl hc)]
    constructor
    · intro h
      exfalso
      by_cases c1 : k > 2048 ∨ msg.length > 2048 ∨ H.size > 64
      · rw [if_pos c1] at h; cases h
      rw [if_neg c1] at h
      by_cases c2 : k = 0 ∨ H.size = 0
      · rw [if_pos c2] at h; cases h
      rw [if_neg c2, if_pos (by omega)] at h
      cases h
    · intro h; cases h
  · rw [if_neg (by omega), if_neg (by omega), if_neg (by omega), if_neg (by omega)]
    simp only [bind, Except.bind]
    rw [if_neg (by omega), mgf1_ok M hM _ _ (by omega)]
    dsimp only
    rw [mgf1_ok M hM _ _ (by omega)]
    constructor
    · intro h
      injection h with h
      rw [← h]
      rfl
    · intro h
      injection h with h
      rw [← h]
      rfl

/-! ## PKCS#1 v1.5 for signatures -/

theorem identifier_spec (id : MdId) (hid : id ≠ .other) (d : List Byte) (hd : d.length = Spec.hashSize id) :
    ∃ alg, identifier id = .ok alg ∧ alg ++ d = Spec.digestInfo id d ∧ alg.length + d.length ≤ 83 := by
  cases id <;> first
    | exact absurd rfl hid
    | refine ⟨_, rfl, ?_, ?_⟩ <;> simp [Spec.hashSize] at hd <;> simp [Spec.digestInfo, Spec.der, Spec.oid, hd]

theorem mdSize_eq (id : MdId) : mdSize id = Spec.hashSize id := by cases id <;> rfl

theorem setType1_eq (id : MdId) (hid : id ≠ .other) (d : List Byte) (hd : d.length = Spec.hashSize id) (k : Nat)
    (hk : k ≤ 2048) (pad : List Byte) :
    setType1 id d k = .ok pad ↔ Spec.type1 id d k = some pad := by
  obtain ⟨alg, ha, he, hl⟩ := identifier_spec id hid d hd
  have hpos : d.length ≠ 0 := by
    rw [hd]; cases id <;> simp [Spec.hashSize] at hid ⊢
  unfold setType1 Spec.type1 pkcsLengthCheck maxLen
  rw [ha, ← he]
  simp only [bind, Except.bind]
  rw [if_neg (by omega), if_neg hpos, List.length_append]
  by_cases hc : k < alg.length + d.length + 11
  · rw [if_pos (by omega), if_pos hc]
    constructor <;> intro h <;> cases h
  · rw [if_neg (by omega), if_neg hc]
    dsimp only
    rw [if_neg (by omega), if_neg (by omega)]
    have : k - d.length - alg.length - 3 = k - (alg.length + d.length) - 3 := by omega
    rw [this]
    constructor
    · intro h
      injection h with h
      rw [← h]; simp
    · intro h
      injection h with h
      rw [← h]; simp

theorem ff_unique (n m : Nat) (s t : List Byte)
    (h : List.replicate n 0xff#8 ++ 0#8 :: s = List.replicate m 0xff#8 ++ 0#8 :: t) : n = m ∧ s = t := by
  induction n generalizing m with
  | zero =>
    cases m with
    | zero => simpa using h
    | succ m => simp [List.replicate_succ] at h
  | succ n ih =>
    cases m with
    | zero => simp [List.replicate_succ] at h
    | succ m =>
      simp only [List.replicate_succ, List.cons_append, List.cons.injEq, true_and] at h
      obtain ⟨h1, h2⟩ := ih m h
      exact ⟨by omega, h2⟩

theorem digestInfo_inj (i j : MdId) (hi : i ≠ .other) (hj : j ≠ .other) (d e : List Byte)
    (hd : d.length = Spec.hashSize i) (he : e.length = Spec.hashSize j)
    (h : Spec.digestInfo i d = Spec.digestInfo j e) : i = j ∧ d = e := by
  cases i <;> cases j <;> first
    | exact absurd rfl hi
    | exact absurd rfl hj
    | (simp [Spec.hashSize] at hd he
       simp [Spec.digestInfo, Spec.der, Spec.oid, hd, he] at h
       first
         | done
         | exact ⟨rfl, h⟩)

/-! ## PKCS#1 v1.5 for encryption -/

theorem t2Scan_stuck (i z : BitVec 32) (l : List Byte) : t2Scan i l (z, 0#32) = (z, 0#32) := by
  induction l generalizing i with
  | nil => rfl
  | cons b r ih =>
    rw [t2Scan, isZero_byte, ctSelect_spec, BitVec.zero_and]
    have : ctSelect 0#32 i z = z := ctSelect_zero _ _
    rw [this, ite_self]
    exact ih _

theorem t2Scan_none (i z : BitVec 32) (l : List Byte) (h : ∀ b ∈ l, b ≠ 0#8) :
    t2Scan i l (z, ~~~ 0#32) = (z, ~~~ 0#32) := by
  induction l generalizing i with
  | nil => rfl
  | cons b r ih =>
    have hb : b ≠ 0#8 := h b (by simp)
    rw [t2Scan, isZero_byte, ctSelect_spec, if_neg hb]
    have : ~~~ 0#32 &&& mask (b = 0#8) = mask (b = 0#8) := not_zero_and _
    rw [this, ctSelect_spec, if_neg hb]
    exact ih _ (fun c hc => h c (by simp [hc]))

theorem t2Scan_hit (i z : BitVec 32) (ps m : List Byte) (h : ∀ b ∈ ps, b ≠ 0#8) :
    t2Scan i (ps ++ 0#8 :: m) (z, ~~~ 0#32) = (i + BitVec.ofNat 32 ps.length, 0#32) := by
  induction ps generalizing i with
  | nil =>
    rw [List.nil_append, t2Scan, isZero_byte, ctSelect_spec, if_pos rfl]
    have : ~~~ 0#32 &&& mask (0#8 = 0#8) = mask (0#8 = 0#8) := not_zero_and _
    rw [this, ctSelect_spec, if_pos rfl, t2Scan_stuck]
    simp
  | cons b r ih =>
    have hb : b ≠ 0#8 := h b (by simp)
    rw [List.cons_append, t2Scan, isZero_byte, ctSelect_spec, if_neg hb]
    have : ~~~ 0#32 &&& mask (b = 0#8) = mask (b = 0#8) := not_zero_and _
    rw [this, ctSelect_spec, if_neg hb, ih _ (fun c hc => h c (by simp [hc]))]
    congr 1
    rw [List.length_cons, BitVec.ofNat_add, BitVec.add_assoc, BitVec.add_comm 1#32]

theorem nonzero_or (l : List Byte) :
    (∀ b ∈ l, b ≠ 0#8) ∨ ∃ ps m, (∀ b ∈ ps, b ≠ 0#8) ∧ l = ps ++ 0#8 :: m := by
  induction l with
  | nil => left; simp
  | cons x xs ih =>
    by_cases hx : x = 0#8
    · right; exact ⟨[], xs, by simp, by rw [hx]; rfl⟩
    · rcases ih with h | ⟨ps, m, h, e⟩
      · left
        intro b hb
        rcases List.mem_cons.1 hb with rfl | hb
        · exact hx
        · exact h b hb
      · right
        refine ⟨x :: ps, m, ?_, by rw [e, List.cons_append]⟩
        intro b hb
        rcases List.mem_cons.1 hb with rfl | hb
        · exact hx
        · exact h b hb

theorem nonzero_unique (p q m n : List Byte) (hp : ∀ b ∈ p, b ≠ 0#8) (hq : ∀ b ∈ q, b ≠ 0#8)
    (h : p ++ 0#8 :: m = q ++ 0#8 :: n) : p = q ∧ m = n := by
  induction p generalizing q with
  | nil =>
    cases q with
    | nil => simpa using h
    | cons y ys =>
      simp only [List.nil_append, List.cons_append, List.cons.injEq] at h
      exact absurd h.1.symm (hq y (by simp))
  | cons x xs ih =>
    cases q with
    | nil =>
      simp only [List.nil_append, List.cons_append, List.cons.injEq] at h
      exact absurd h.1 (hp x (by simp))
    | cons y ys =>
      simp only [List.cons_append, List.cons.injEq] at h
      obtain ⟨e1, e2⟩ := ih ys (fun b hb => hp b (by simp [hb])) (fun b hb => hq b (by simp [hb])) h.2
      exact ⟨by rw [h.1, e1], e2⟩

theorem type2_unique (em m n : List Byte) (h1 : Spec.Type2 em m) (h2 : Spec.Type2 em n) : m = n := by
  obtain ⟨p, hp, -, hp3⟩ := h1
  obtain ⟨q, hq, -, hq3⟩ := h2
  rw [hp] at hq
  simp only [List.cons_append, List.nil_append, List.append_assoc, List.cons.injEq, true_and] at hq
  exact (nonzero_unique p q m n hp3 hq3 hq).2

/-- The validity mask of both decoders, and where the message starts. -/
theorem t2_valid (a b : Byte) (rest : List Byte) (hlen : rest.length + 2 < 2 ^ 32) :
    (∃ ps m, rest = ps ++ 0#8 :: m ∧ (∀ b ∈ ps, b ≠ 0#8) ∧
      t2Scan 2#32 rest (0#32, ~~~ 0#32) = (BitVec.ofNat 32 (2 + ps.length), 0#32) ∧
      ctEqual (a.setWidth 32) 0#32 &&& ctEqual (b.setWidth 32) 2#32 &&&
        ~~~ (t2Scan 2#32 rest (0#32, ~~~ 0#32)).2 &&& ctGe (t2Scan 2#32 rest (0#32, ~~~ 0#32)).1 10#32 =
        mask (a = 0#8 ∧ b = 2#8 ∧ 8 ≤ ps.length)) ∨
    ((∀ b ∈ rest, b ≠ 0#8) ∧ t2Scan 2#32 rest (0#32, ~~~ 0#32) = (0#32, ~~~ 0#32) ∧
      ctEqual (a.setWidth 32) 0#32 &&& ctEqual (b.setWidth 32) 2#32 &&&
        ~~~ (t2Scan 2#32 rest (0#32, ~~~ 0#32)).2 &&& ctGe (t2Scan 2#32 rest (0#32, ~~~ 0#32)).1 10#32 = 0#32) := by
  have ea : ctEqual (a.setWidth 32) 0#32 = mask (a = 0#8) := equal_byte a 0#8
  have eb : ctEqual (b.setWidth 32) 2#32 = mask (b = 2#8) := equal_byte b 2#8
  rcases nonzero_or rest with h | ⟨ps, m, h, e⟩
  · right
    refine ⟨h, t2Scan_none _ _ _ h, ?_⟩
    rw [t2Scan_none _ _ _ h]
    simp
  · left
    have hs := t2Scan_hit 2#32 0#32 ps m h
    rw [← e] at hs
    have h2 : 2#32 + BitVec.ofNat 32 ps.length = BitVec.ofNat 32 (2 + ps.length) := by rw [BitVec.ofNat_add]
    rw [h2] at hs
    refine ⟨ps, m, e, h, hs, ?_⟩
    rw [hs, ea, eb]
    dsimp only
    have : ~~~ (0#32) = mask True := by simp [mask]
    rw [this, ctGe_spec, maskAnd, maskAnd, maskAnd]
    apply Tls.Cbc.mask_iff
    have hl : ps.length + 1 + m.length + 2 < 2 ^ 32 := by
      have := hlen; rw [e] at this; simp at this; omega
    have hx : (BitVec.ofNat 32 (2 + ps.length)).toNat = 2 + ps.length := by rw [BitVec.toNat_ofNat]; omega
    rw [hx]
    have h10 : (10#32).toNat = 10 := rfl
    rw [h10]
    constructor
    · rintro ⟨⟨⟨h1, h2⟩, -⟩, h4⟩; exact ⟨h1, h2, by omega⟩
    · rintro ⟨h1, h2, h4⟩; exact ⟨⟨⟨h1, h2⟩, trivial⟩, by omega⟩

theorem type2_of (a b : Byte) (ps m : List Byte) (h : ∀ b ∈ ps, b ≠ 0#8) (n : List Byte) :
    Spec.Type2 (a :: b :: (ps ++ 0#8 :: m)) n ↔ (a = 0#8 ∧ b = 2#8 ∧ 8 ≤ ps.length) ∧ n = m := by
  constructor
  · rintro ⟨q, hq, hq2, hq3⟩
    simp only [List.cons_append, List.nil_append, List.append_assoc, List.cons.injEq] at hq
    obtain ⟨e1, e2⟩ := nonzero_unique ps q m n h hq3 hq.2.2
    exact ⟨⟨hq.1, hq.2.1, by rw [e1]; exact hq2⟩, e2.symm⟩
  · rintro ⟨⟨rfl, rfl, h8⟩, rfl⟩
    exact ⟨ps, by simp, h8, h⟩

theorem type2_not (a b : Byte) (rest n : List Byte) (h : ∀ b ∈ rest, b ≠ 0#8) : ¬ Spec.Type2 (a :: b :: rest) n := by
  rintro ⟨q, hq, -, -⟩
  simp only [List.cons_append, List.nil_append, List.append_assoc, List.cons.injEq] at hq
  exact h 0#8 (by rw [hq.2.2]; simp) rfl

theorem verifyType2_cases (inp buf : List Byte) (h2 : 2 ≤ inp.length) (hl : inp.length < 2 ^ 32) :
    (∃ m, Spec.Type2 inp m ∧ m.length ≤ buf.length ∧
      verifyType2 inp buf = ⟨none, m ++ buf.drop m.length, m.length⟩) ∨
    ((∀ m, Spec.Type2 inp m → buf.length < m.length) ∧
      verifyType2 inp buf = ⟨some .norVerify, buf, buf.length⟩) := by
  obtain ⟨a, r, rfl⟩ : ∃ a r, inp = a :: r := List.exists_cons_of_ne_nil (by intro e; rw [e] at h2; simp at h2)
  obtain ⟨b, rest, rfl⟩ : ∃ a t, r = a :: t := List.exists_cons_of_ne_nil (by intro e; rw [e] at h2; simp at h2)
  simp only [List.length_cons] at hl
  rcases t2_valid a b rest hl with ⟨ps, m, e, hps, hs, hv⟩ | ⟨hn, hs, hv⟩
  · have hll : rest.length = ps.length + 1 + m.length := by rw [e]; simp; omega
    have hz : (BitVec.ofNat 32 (2 + ps.length) + 1#32).toNat = 3 + ps.length := by
      rw [BitVec.toNat_add, BitVec.toNat_ofNat]; simp; omega
    have hnn : (BitVec.ofNat 32 (a :: b :: rest).length - (BitVec.ofNat 32 (2 + ps.length) + 1#32)).toNat = m.length := by
      rw [BitVec.toNat_sub, hz, BitVec.toNat_ofNat]; simp; omega
    unfold verifyType2
    dsimp only
    rw [hv, hs, hnn, hz]
    subst e
    by_cases hc : a = 0#8 ∧ b = 2#8 ∧ 8 ≤ ps.length
    · rw [if_neg (by rw [mask_zero]; simpa using hc)]
      by_cases hb : m.length > buf.length
      · right
        rw [if_pos hb]
        refine ⟨?_, rfl⟩
        intro n hn
        obtain ⟨-, rfl⟩ := (type2_of a b ps m hps n).1 hn
        exact hb
      · left
        rw [if_neg hb, if_neg (by simp; omega)]
        refine ⟨m, (type2_of a b ps m hps m).2 ⟨hc, rfl⟩, by omega, ?_⟩
        have : a :: b :: (ps ++ 0#8 :: m) = (a :: b :: ps ++ [0#8]) ++ m := by simp
        rw [this, List.drop_left' (by simp; omega), List.take_of_length_le (by omega)]
    · right
      rw [if_pos (by rw [mask_zero]; exact hc)]
      exact ⟨fun n hn => absurd ((type2_of a b ps m hps n).1 hn).1 hc, rfl⟩
  · right
    unfold verifyType2
    dsimp only
    rw [hv, if_pos rfl]
    exact ⟨fun n hn' => absurd hn' (type2_not a b rest n hn), rfl⟩

theorem tlsOut_zero (inp : List Byte) (sl z : BitVec 32) (n : Nat) (i : BitVec 32) (h : inp ≠ []) :
    tlsOut inp 0#32 sl z n i = .ok (List.replicate n 0#8) := by
  induction n generalizing i with
  | zero => rfl
  | succ n ih =>
    obtain ⟨a, r, rfl⟩ := List.exists_cons_of_ne_nil h
    rw [tlsOut, BitVec.zero_and]
    have e1 : ctSelect 0#32 (z + i) 0#32 = 0#32 := by simp [ctSelect]
    have e2 : ctSelect8 0#32 a 0#8 = 0#8 := by
      have := ctSelect8_spec False a 0#8
      simpa [mask] using this
    rw [e1, ih]
    simp only [bind, Except.bind, BitVec.toNat_ofNat, Nat.zero_mod, List.getElem?_cons_zero, e2, List.replicate_succ]

theorem tlsOut_valid (pre m : List Byte) (n j : Nat) (h : pre.length + m.length < 2 ^ 32) (hp : pre ≠ [])
    (hj : n + j < 2 ^ 32) :
    tlsOut (pre ++ m) (BitVec.allOnes 32) (BitVec.ofNat 32 m.length) (BitVec.ofNat 32 pre.length) n (BitVec.ofNat 32 j) =
      .ok ((m.drop j).take n ++ List.replicate (n - (m.length - j)) 0#8) := by
  induction n generalizing j with
  | zero => simp [tlsOut]
  | succ n ih =>
    rw [tlsOut, BitVec.allOnes_and, ctLt_spec, ctSelect_spec]
    have hjn : (BitVec.ofNat 32 j).toNat = j := by rw [BitVec.toNat_ofNat]; omega
    have hmn : (BitVec.ofNat 32 m.length).toNat = m.length := by rw [BitVec.toNat_ofNat]; omega
    have hj1 : BitVec.ofNat 32 j + 1#32 = BitVec.ofNat 32 (j + 1) := by rw [BitVec.ofNat_add]
    rw [hjn, hmn, hj1, ih (j + 1) (by omega)]
    by_cases hlt : j < m.length
    · have hidx : (BitVec.ofNat 32 pre.length + BitVec.ofNat 32 j).toNat = pre.length + j := by
        rw [← BitVec.ofNat_add, BitVec.toNat_ofNat]; omega
      have hget : (pre ++ m)[pre.length + j]? = some m[j] := by
        rw [List.getElem?_append_right (by omega), Nat.add_sub_cancel_left, List.getElem?_eq_getElem hlt]
      rw [if_pos hlt, hidx, hget]
      simp only [bind, Except.bind, ctSelect8_spec, if_pos hlt]
      rw [List.drop_eq_getElem_cons hlt, List.take_succ_cons, List.cons_append]
      have : n + 1 - (m.length - j) = n - (m.length - (j + 1)) := by omega
      rw [this]
    · rw [if_neg hlt]
      obtain ⟨a, r, rfl⟩ := List.exists_cons_of_ne_nil hp
      simp only [bind, Except.bind, ctSelect8_spec, if_neg hlt, BitVec.toNat_ofNat, Nat.zero_mod, List.cons_append,
        List.getElem?_cons_zero]
      rw [List.drop_eq_nil_of_le (as := m) (i := j) (by omega), List.drop_eq_nil_of_le (as := m) (i := j + 1) (by omega)]
      have e1 : n + 1 - (m.length - j) = n + 1 := by omega
      have e2 : n - (m.length - (j + 1)) = n := by omega
      rw [e1, e2]
      simp [List.replicate_succ]

theorem verifyType2Tls_cases (inp buf : List Byte) (h2 : 2 ≤ inp.length) (hl : inp.length < 2 ^ 32)
    (hb : buf.length < 2 ^ 32) :
    (∃ m, Spec.Type2 inp m ∧ m.length ≤ buf.length ∧
      verifyType2Tls inp buf = ⟨none, m ++ List.replicate (buf.length - m.length) 0#8, m.length⟩) ∨
    ((∀ m, Spec.Type2 inp m → buf.length < m.length) ∧
      verifyType2Tls inp buf = ⟨some .norVerify, List.replicate buf.length 0#8, buf.length⟩) := by
  obtain ⟨a, r, rfl⟩ : ∃ a r, inp = a :: r := List.exists_cons_of_ne_nil (by intro e; rw [e] at h2; simp at h2)
  obtain ⟨b, rest, rfl⟩ : ∃ a t, r = a :: t := List.exists_cons_of_ne_nil (by intro e; rw [e] at h2; simp at h2)
  simp only [List.length_cons] at hl
  have hcap : (BitVec.ofNat 32 buf.length).toNat = buf.length := by rw [BitVec.toNat_ofNat]; omega
  rcases t2_valid a b rest hl with ⟨ps, m, e, hps, hs, hv⟩ | ⟨hn, hs, hv⟩
  · have hll : rest.length = ps.length + 1 + m.length := by rw [e]; simp; omega
    have hz : BitVec.ofNat 32 (2 + ps.length) + 1#32 = BitVec.ofNat 32 (3 + ps.length) := by
      rw [← BitVec.ofNat_add]; congr 1; omega
    have hnn : BitVec.ofNat 32 (a :: b :: rest).length - BitVec.ofNat 32 (3 + ps.length) = BitVec.ofNat 32 m.length := by
      apply BitVec.eq_of_toNat_eq
      rw [BitVec.toNat_sub, BitVec.toNat_ofNat, BitVec.toNat_ofNat, BitVec.toNat_ofNat]; simp; omega
    have hmn : (BitVec.ofNat 32 m.length).toNat = m.length := by rw [BitVec.toNat_ofNat]; omega
    unfold verifyType2Tls
    dsimp only
    rw [hv, hs]
    dsimp only
    rw [hz, hnn, ctGt_spec, hmn, hcap, maskNot, maskAnd, ctSelect_spec, ctIsZero_spec]
    subst e
    by_cases hc : (a = 0#8 ∧ b = 2#8 ∧ 8 ≤ ps.length) ∧ ¬ buf.length < m.length
    · left
      refine ⟨m, (type2_of a b ps m hps m).2 ⟨hc.1, rfl⟩, by omega, ?_⟩
      have hmask : mask ((a = 0#8 ∧ b = 2#8 ∧ 8 ≤ ps.length) ∧ ¬ buf.length < m.length) = BitVec.allOnes 32 := by
        unfold mask; rw [if_pos hc]
      have hsplit : a :: b :: (ps ++ 0#8 :: m) = (a :: b :: ps ++ [0#8]) ++ m := by simp
      have hpl : 3 + ps.length = (a :: b :: ps ++ [0#8]).length := by simp; omega
      have := tlsOut_valid (a :: b :: ps ++ [0#8]) m buf.length 0 (by rw [← hpl]; omega) (by simp) (by omega)
      rw [hmask, hsplit, hpl, this, if_pos hc, hmn]
      dsimp only
      rw [List.drop_zero, List.take_of_length_le (by omega), Nat.sub_zero]
      congr 1
    · right
      refine ⟨?_, ?_⟩
      · intro n hn
        obtain ⟨h1, rfl⟩ := (type2_of a b ps m hps n).1 hn
        by_contra hcon
        exact hc ⟨h1, hcon⟩
      · have hmask : mask ((a = 0#8 ∧ b = 2#8 ∧ 8 ≤ ps.length) ∧ ¬ buf.length < m.length) = 0#32 := (mask_zero _).2 hc
        rw [hmask, tlsOut_zero _ _ _ _ _ (by simp), if_neg hc, hcap]
        dsimp only
        congr 1
  · right
    unfold verifyType2Tls
    dsimp only
    rw [hv, BitVec.zero_and, tlsOut_zero _ _ _ _ _ (by simp)]
    refine ⟨fun n hn' => absurd hn' (type2_not a b rest n hn), ?_⟩
    dsimp only
    have : ∀ x, ctSelect 0#32 x (BitVec.ofNat 32 buf.length) = BitVec.ofNat 32 buf.length := by
      intro x; exact ctSelect_zero _ _
    rw [this, hcap]
    congr 1

theorem fixPs_ok (rnd ps out : List Byte) (h : fixPs rnd ps = .ok out) :
    out.length = ps.length ∧ ∀ b ∈ out, b ≠ 0#8 := by
  induction ps generalizing rnd out with
  | nil => simp only [fixPs, Except.ok.injEq] at h; subst h; simp
  | cons p ps ih =>
    have hnz : ∀ (rnd : List Byte) b r, nextNonZero rnd = .ok (b, r) → b ≠ 0#8 := by
      intro rnd
      induction rnd with
      | nil => intro b r h; cases h
      | cons x xs ihx =>
        intro b r h
        simp only [nextNonZero] at h
        split at h
        · exact ihx b r h
        · rename_i hx
          injection h with h; injection h with h1 h2
          rw [← h1]; exact hx
    simp only [fixPs] at h
    split at h
    · rename_i hp
      cases hr : fixPs rnd ps with
      | error e => rw [hr] at h; cases h
      | ok r =>
        rw [hr] at h
        simp only [bind, Except.bind, Except.ok.injEq] at h
        subst h
        obtain ⟨h1, h2⟩ := ih _ _ hr
        refine ⟨by simp [h1], ?_⟩
        intro b hb
        rcases List.mem_cons.1 hb with rfl | hb
        · exact hp
        · exact h2 b hb
    · cases hn : nextNonZero rnd with
      | error e => rw [hn] at h; cases h
      | ok q =>
        rw [hn] at h
        simp only [bind, Except.bind] at h
        cases hr : fixPs q.2 ps with
        | error e => rw [hr] at h; cases h
        | ok r =>
          rw [hr] at h
          simp only [Except.ok.injEq] at h
          subst h
          obtain ⟨h1, h2⟩ := ih _ _ hr
          refine ⟨by simp [h1], ?_⟩
          intro b hb
          rcases List.mem_cons.1 hb with rfl | hb
          · exact hnz _ _ _ hn
          · exact h2 b hb

end Verif.Crypto.RsaPad
