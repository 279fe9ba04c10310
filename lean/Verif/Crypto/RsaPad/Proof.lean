import Verif.Crypto.RsaPad.Spec
import Verif.Crypto.Kdf.Proof
import Verif.Crypto.Modes.StreamProof
import Verif.Crypto.Modes.BlockProof
import Verif.Crypto.Gcm.Proof
import Verif.Bsl.Bytes.Props
import Verif.Tls.Cbc.Proof

namespace Verif.Crypto.RsaPad

open Verif.Common Verif.Bsl.Bytes Verif.Crypto.Modes Verif.Crypto.Kdf

/-! ## MGF1 -/

theorem mgfLoop_eq (H : Hash) (seed : List Byte) (n : Nat) : ∀ (d i out : Nat) (acc : List Byte),
    n - out ≤ d → acc = (blocks (fun j => H.h (seed ++ beBytes 4 (j - 1))) i).take n → out = min n (i * H.size) →
    ∃ j, n ≤ j * H.size ∧
      mgfLoop H seed n i out acc = (blocks (fun j => H.h (seed ++ beBytes 4 (j - 1))) j).take n := by
  have hp := H.pos
  have hT : ∀ i, ((fun j => H.h (seed ++ beBytes 4 (j - 1))) (i + 1)).length = H.size := fun i => H.len _
  intro d
  induction d with
  | zero =>
    intro i out acc hd ha ho
    refine ⟨i, by omega, ?_⟩
    rw [mgfLoop, if_neg (by omega), ha]
  | succ d ih =>
    intro i out acc hd ha ho
    rw [mgfLoop]
    by_cases hlt : out < n
    · rw [if_pos hlt]
      have hi : out = i * H.size := by omega
      apply ih
      · split <;> omega
      · have := take_append_blocks (fun j => H.h (seed ++ beBytes 4 (j - 1))) i n
        rw [← this, ← ha]
        congr 1
        have hal : acc.length = out := by rw [ha, taken_length _ H.size i n hT, ho]
        rw [hal, Nat.add_sub_cancel]
        have hl := H.len (seed ++ beBytes 4 i)
        split
        · rw [List.take_of_length_le (by omega), List.take_of_length_le (by omega)]
        · rfl
      · have : (i + 1) * H.size = i * H.size + H.size := by ring
        split <;> omega
    · rw [if_neg hlt]
      exact ⟨i, by omega, ha⟩

theorem mgfLoop_spec (H : Hash) (seed : List Byte) (n : Nat) :
    mgfLoop H seed n 0 0 [] = Spec.mgf1 H seed n := by
  obtain ⟨j, hj, e⟩ := mgfLoop_eq H seed n n 0 0 [] (by omega) (by simp [blocks]) (by simp)
  rw [e, blocks_ceil (L := H.size) _ n H.pos (fun i => H.len _) j hj]
  rfl

theorem mgf_length (H : Hash) (seed : List Byte) (n : Nat) : (Spec.mgf1 H seed n).length = n := by
  obtain ⟨j, hj, e⟩ := mgfLoop_eq H seed n n 0 0 [] (by omega) (by simp [blocks]) (by simp)
  rw [← mgfLoop_spec, e, taken_length _ H.size j n (fun i => H.len _)]
  omega

theorem mgf1_ok (H : Hash) (hs : H.size ≤ 64) (seed : List Byte) (n : Nat) (hn : 0 < n) :
    mgf1 H seed n = .ok (Spec.mgf1 H seed n) := by
  unfold mgf1
  rw [if_neg (by unfold maxMd; omega), if_neg (by omega), mgfLoop_spec]

/-! ## PSS -/

/-- `clearTop` as a total function. -/
def clr (msBit : Nat) : List Byte → List Byte
  | [] => []
  | b :: r => (if msBit = 0 then b else b &&& (0xff#8 >>> (8 - msBit))) :: r

theorem clearTop_cons (ms : Nat) (l : List Byte) (h : l ≠ []) : clearTop ms l = .ok (clr ms l) := by
  cases l with
  | nil => exact absurd rfl h
  | cons b r => simp only [clearTop, clr]; split <;> simp_all

theorem clr_length (ms : Nat) (l : List Byte) : (clr ms l).length = l.length := by
  cases l <;> rfl

theorem clr_append (ms : Nat) (a b : List Byte) (h : a ≠ []) : clr ms (a ++ b) = clr ms a ++ b := by
  cases a with
  | nil => exact absurd rfl h
  | cons x r => rfl

theorem byte_mask : ∀ (m : Fin 8) (b : BitVec 8), m.val ≠ 0 →
    b &&& (0xff#8 >>> (8 - m.val)) = BitVec.ofNat 8 (b.toNat % 2 ^ m.val) := by decide +kernel

theorem zeroLeft_eq (modBits : Nat) (hm : 1 ≤ modBits) (l : List Byte) :
    Spec.zeroLeft (8 * ((modBits - 1 + 7) / 8) - (modBits - 1)) l = clr ((modBits - 1) % 8) l := by
  cases l with
  | nil => rfl
  | cons b r =>
    simp only [Spec.zeroLeft, clr]
    congr 1
    by_cases h : (modBits - 1) % 8 = 0
    · rw [if_pos h]
      have : 8 - (8 * ((modBits - 1 + 7) / 8) - (modBits - 1)) = 8 := by omega
      rw [this]
      apply BitVec.eq_of_toNat_eq
      rw [BitVec.toNat_ofNat]
      have := b.isLt
      omega
    · rw [if_neg h]
      have : 8 - (8 * ((modBits - 1 + 7) / 8) - (modBits - 1)) = (modBits - 1) % 8 := by omega
      rw [this]
      exact (byte_mask ⟨(modBits - 1) % 8, by omega⟩ b h).symm

theorem xorB_zeros (m : List Byte) (k : Nat) (h : m.length = k) : xorB (List.replicate k 0#8) m = m := by
  subst h
  induction m with
  | nil => rfl
  | cons b r ih => rw [List.length_cons, List.replicate_succ, xorB_cons, ih]; simp

/-- `MaskDB` on a mask split before the salt. -/
theorem maskDB_eq (m1 m2 salt : List Byte) (ms k : Nat) (h1 : m1.length = k + 1) (h2 : m2.length = salt.length) :
    maskDB (m1 ++ m2) salt ms =
      .ok (clr ms (xorB (List.replicate k 0#8 ++ [1#8]) m1) ++ xorB m2 salt) := by
  obtain ⟨a, x, hx⟩ : ∃ a x, m1 = a ++ [x] := ⟨m1.dropLast, m1.getLast (by
    intro e; rw [e] at h1; simp at h1), (List.dropLast_concat_getLast _).symm⟩
  subst hx
  simp only [List.length_append, List.length_singleton] at h1
  have ha : a.length = k := by omega
  unfold maskDB
  rw [if_neg (by simp; omega)]
  dsimp only
  have e : (a ++ [x] ++ m2).length - salt.length - 1 = k := by simp; omega
  rw [e, List.append_assoc, List.take_left' ha, List.drop_left' ha]
  rw [List.singleton_append, xorB_cons]
  rw [Gcm.xorB_append _ _ _ _ (by simp [ha]), xorB_zeros a k ha]
  have e2 : xorB [1#8] [x] = [x ^^^ 1#8] := by
    rw [xorB_cons, BitVec.xor_comm]; rfl
  rw [e2]
  have : a ++ (x ^^^ 1#8) :: xorB m2 salt = (a ++ [x ^^^ 1#8]) ++ xorB m2 salt := by simp
  rw [this, clearTop_cons _ _ (by simp), clr_append _ _ _ (by simp)]

theorem xorB_invol (a b : List Byte) (h : a.length = b.length) : xorB a (xorB a b) = b := by
  induction a generalizing b with
  | nil => cases b with
    | nil => rfl
    | cons y ys => simp at h
  | cons x xs ih => cases b with
    | nil => simp at h
    | cons y ys =>
      rw [xorB_cons, xorB_cons, ih ys (by simpa using h), ← BitVec.xor_assoc]; simp

theorem pssCheck_ok (modBits hLen sl dataLen padLen : Nat) (hs : sl ≠ saltAuto) (hh : hLen ≤ 64) :
    pssLengthCheck modBits hLen sl dataLen padLen = .ok () ↔
      512 ≤ modBits ∧ modBits ≤ 16384 ∧ dataLen = hLen ∧ padLen = (modBits + 7) / 8 ∧
        hLen + sl + 2 ≤ (modBits - 1 + 7) / 8 := by
  unfold pssLengthCheck minBits maxBits bitsToBytes maxLen
  constructor
  · intro h
    split at h
    · cases h
    split at h
    · cases h
    split at h
    · cases h
    try rw [if_neg hs] at h
    split at h
    · cases h
    dsimp only at h
    split at h <;> split at h
    all_goals first | (cases h; done) | omega
  · rintro ⟨h1, h2, h3, h4, h5⟩
    rw [if_neg (by omega), if_neg (by omega), if_neg (by omega), if_neg hs, if_neg (by omega)]
    dsimp only
    rw [if_neg]
    by_cases h8 : (modBits - 1) % 8 = 0
    · rw [if_pos h8]; omega
    · rw [if_neg h8]; omega

theorem pssCheck_auto (modBits hLen dataLen padLen : Nat) (hh : hLen ≤ 64) :
    pssLengthCheck modBits hLen saltAuto dataLen padLen = .ok () ↔
      512 ≤ modBits ∧ modBits ≤ 16384 ∧ dataLen = hLen ∧ padLen = (modBits + 7) / 8 := by
  unfold pssLengthCheck minBits maxBits bitsToBytes maxLen
  constructor
  · intro h
    split at h
    · cases h
    split at h
    · cases h
    split at h
    · cases h
    omega
  · rintro ⟨h1, h2, h3, h4⟩
    rw [if_neg (by omega), if_neg (by omega), if_neg (by omega), if_pos rfl]

/-- The length of the encoded message as the code computes it. -/
theorem emLen_eq (modBits : Nat) (h : 512 ≤ modBits) :
    (if (modBits - 1) % 8 = 0 then bitsToBytes modBits - 1 else bitsToBytes modBits) = (modBits - 1 + 7) / 8 := by
  unfold bitsToBytes
  split <;> omega

/-- The RFC encoding in the shape the code builds it. -/
theorem spec_pss_eq (H M : Hash) (modBits : Nat) (hb : 512 ≤ modBits) (data salt : List Byte)
    (hl : H.size + salt.length + 2 ≤ (modBits - 1 + 7) / 8) (m1 m2 : List Byte) (k : Nat)
    (hk : k = (modBits - 1 + 7) / 8 - salt.length - H.size - 2) (h1 : m1.length = k + 1)
    (h2 : m2.length = salt.length)
    (hm : Spec.mgf1 M (H.h (List.replicate 8 0#8 ++ data ++ salt)) ((modBits - 1 + 7) / 8 - H.size - 1) = m1 ++ m2) :
    Spec.pss H M modBits data salt = some
      ((if (modBits - 1) % 8 = 0 then [0#8] else []) ++
        (clr ((modBits - 1) % 8) (xorB (List.replicate k 0#8 ++ [1#8]) m1) ++ xorB m2 salt) ++
        H.h (List.replicate 8 0#8 ++ data ++ salt) ++ [0xbc#8]) := by
  unfold Spec.pss
  dsimp only
  rw [if_neg (by omega), hm, zeroLeft_eq _ (by omega), ← hk]
  congr 4
  · by_cases h8 : (modBits - 1) % 8 = 0
    · rw [if_pos h8]
      have : (modBits + 7) / 8 - (modBits - 1 + 7) / 8 = 1 := by omega
      rw [this]; rfl
    · rw [if_neg h8]
      have : (modBits + 7) / 8 - (modBits - 1 + 7) / 8 = 0 := by omega
      rw [this]; rfl
  · have : Spec.xor (List.replicate k 0#8 ++ [1#8] ++ salt) (m1 ++ m2) =
        xorB (List.replicate k 0#8 ++ [1#8]) m1 ++ xorB m2 salt := by
      show xorB _ _ = _
      rw [Gcm.xorB_append _ _ _ _ (by simp [h1]), xorB_comm salt]
    rw [this, clr_append]
    intro e
    have := congrArg List.length e
    rw [xorB_length] at this
    simp [h1] at this

theorem split_at (l : List Byte) (n : Nat) (h : n ≤ l.length) :
    ∃ a b, l = a ++ b ∧ a.length = n ∧ b.length = l.length - n :=
  ⟨l.take n, l.drop n, (List.take_append_drop n l).symm, by rw [List.length_take]; omega, by simp⟩

/-- Encoding with a given salt is the RFC encoding. -/
theorem pssEncode_eq (H M : Hash) (hH : H.size ≤ 64) (hM : M.size ≤ 64) (modBits : Nat) (salt data : List Byte)
    (padLen : Nat) (hs : salt.length ≠ saltAuto) (pad : List Byte) :
    pssEncode H M modBits salt data padLen = .ok pad ↔
      512 ≤ modBits ∧ modBits ≤ 16384 ∧ data.length = H.size ∧ padLen = (modBits + 7) / 8 ∧
        Spec.pss H M modBits data salt = some pad := by
  unfold pssEncode
  cases hc : pssLengthCheck modBits H.size salt.length data.length padLen with
  | error e =>
    constructor
    · intro h; cases h
    · rintro ⟨h1, h2, h3, h4, h5⟩
      have : H.size + salt.length + 2 ≤ (modBits - 1 + 7) / 8 := by
        unfold Spec.pss at h5
        dsimp only at h5
        split at h5
        · cases h5
        · omega
      rw [(pssCheck_ok _ _ _ _ _ hs hH).2 ⟨h1, h2, h3, h4, this⟩] at hc
      cases hc
  | ok u =>
    obtain ⟨h1, h2, h3, h4, h5⟩ := (pssCheck_ok _ _ _ _ _ hs hH).1 hc
    simp only [bind, Except.bind]
    rw [emLen_eq _ h1, if_neg (by omega)]
    have hml := mgf_length M (H.h (List.replicate 8 0#8 ++ data ++ salt)) ((modBits - 1 + 7) / 8 - H.size - 1)
    obtain ⟨m1, m2, hm, hm1, hm2⟩ := split_at _ ((modBits - 1 + 7) / 8 - salt.length - H.size - 2 + 1)
      (by rw [hml]; omega : _ ≤ (Spec.mgf1 M (H.h (List.replicate 8 0#8 ++ data ++ salt))
        ((modBits - 1 + 7) / 8 - H.size - 1)).length)
    rw [hml] at hm2
    rw [mgf1_ok M hM _ _ (by omega), hm]
    dsimp only
    rw [maskDB_eq m1 m2 salt _ _ hm1 (by omega)]
    dsimp only
    rw [spec_pss_eq H M modBits h1 data salt h5 m1 m2 _ rfl hm1 (by omega) hm]
    constructor
    · intro h
      injection h with h
      exact ⟨h1, h2, h3, h4, by rw [h]⟩
    · rintro ⟨-, -, -, -, h⟩
      injection h with h
      rw [h]

theorem byte_flip : ∀ (m : Fin 8) (b : BitVec 8),
    (if m.val = 0 then b else b &&& (0xff#8 >>> (8 - m.val))) ^^^
      (if m.val = 0 then 1#8 ^^^ b else (1#8 ^^^ b) &&& (0xff#8 >>> (8 - m.val))) = 1#8 := by decide +kernel

theorem byte_top : ∀ (m : Fin 8) (b : BitVec 8), m.val ≠ 0 →
    (b &&& (0xff#8 >>> (8 - m.val))) >>> m.val = 0#8 := by decide +kernel

theorem autoSalt_skip (c t e : List Byte) : autoSalt (c ++ t) (c ++ e) = autoSalt t e := by
  induction c with
  | nil => rfl
  | cons x xs ih => simp only [List.cons_append, autoSalt]; rw [if_neg (by simp)]; exact ih

theorem autoSalt_lt (t e : List Byte) (s : Nat) (h : autoSalt t e = .ok s) : s < t.length := by
  induction t generalizing e with
  | nil => simp [autoSalt] at h
  | cons x xs ih =>
    cases e with
    | nil => simp [autoSalt] at h
    | cons y ys =>
      simp only [autoSalt] at h
      split at h
      · split at h
        · injection h with h; simp; omega
        · cases h
      · have := ih ys h
        simp; omega

theorem xorB_P (a : List Byte) (x : Byte) (k : Nat) (ha : a.length = k) :
    xorB (List.replicate k 0#8 ++ [1#8]) (a ++ [x]) = a ++ [1#8 ^^^ x] := by
  rw [Gcm.xorB_append _ _ _ _ (by simp [ha]), xorB_zeros a k ha]
  rfl

theorem last_split (m : List Byte) (k : Nat) (h : m.length = k + 1) :
    ∃ a x, m = a ++ [x] ∧ a.length = k := by
  have hne : m ≠ [] := by intro e; rw [e] at h; simp at h
  refine ⟨m.dropLast, m.getLast hne, (List.dropLast_concat_getLast _).symm, ?_⟩
  simp [h]

/-- The automatic salt length finds the separator. -/
theorem auto_complete (m1 m2 r : List Byte) (ms k : Nat) (hms : ms < 8) (h1 : m1.length = k + 1) :
    getVerifySaltLen (clr ms (xorB (List.replicate k 0#8 ++ [1#8]) m1) ++ r) (m1 ++ m2) ms = .ok m2.length := by
  obtain ⟨a, x, rfl, ha⟩ := last_split m1 k h1
  rw [xorB_P a x k ha]
  unfold getVerifySaltLen
  rw [clearTop_cons _ _ (by simp)]
  simp only [bind, Except.bind]
  rw [clr_append _ (a ++ [x]) _ (by simp)]
  cases a with
  | nil =>
    simp only [List.nil_append, clr, List.cons_append, autoSalt]
    have := byte_flip ⟨ms, hms⟩ x
    simp only at this
    rw [this]
    simp
  | cons a0 a' =>
    rw [clr_append _ (a0 :: a') _ (by simp), clr_append _ (a0 :: a') _ (by simp)]
    rw [List.append_assoc, List.append_assoc, autoSalt_skip]
    simp only [List.cons_append, List.nil_append, autoSalt]
    have : x ^^^ (1#8 ^^^ x) = 1#8 := by rw [BitVec.xor_comm 1#8 x, ← BitVec.xor_assoc]; simp
    rw [this]
    simp

theorem dbCheck_eq (m1 m2 E1 se t : List Byte) (k ms : Nat) (h1 : m1.length = k + 1)
    (hE : E1.length = k + 1) (h2 : m2.length = se.length) :
    dbCheck (m1 ++ m2) (E1 ++ se ++ t) (k + 1 + se.length) se.length ms =
      if clr ms (xorB (List.replicate k 0#8 ++ [1#8]) m1) = E1 then .ok (E1 ++ xorB m2 se, se.length)
      else .error .norVerify := by
  unfold dbCheck
  rw [if_neg (by omega)]
  have e1 : k + 1 + se.length - se.length = k + 1 := by omega
  rw [e1, List.append_assoc, List.drop_left' hE, List.take_left' rfl, maskDB_eq m1 m2 se ms k h1 h2]
  simp only [bind, Except.bind]
  have hl : (clr ms (xorB (List.replicate k 0#8 ++ [1#8]) m1)).length = k + 1 := by
    rw [clr_length, xorB_length]; simp [h1]
  rw [List.take_left' hl, List.take_left' hE]
  by_cases h : clr ms (xorB (List.replicate k 0#8 ++ [1#8]) m1) = E1
  · rw [if_neg (by simp [h]), if_pos h, h]
  · rw [if_pos h, if_neg h]

/-- The part of the verification after the mask has been computed, for a given salt length. -/
theorem tail_iff (H : Hash) (m1 m2 E h data : List Byte) (l : Byte) (k sl ms : Nat) (h1 : m1.length = k + 1)
    (h2 : m2.length = sl) (hE : E.length = k + 1 + sl) :
    ((do let r ← dbCheck (m1 ++ m2) (E ++ h ++ [l]) E.length sl ms
         verifyH H data ((r.1.drop (E.length - r.2)).take r.2) h) = (.ok () : Except Err Unit)) ↔
      ∃ salt, salt.length = sl ∧
        E = clr ms (xorB (List.replicate k 0#8 ++ [1#8]) m1) ++ xorB m2 salt ∧
        h = H.h (List.replicate 8 0#8 ++ data ++ salt) := by
  obtain ⟨E1, se, rfl, hE1, hse⟩ := split_at E (k + 1) (by omega)
  have hse' : se.length = sl := by omega
  subst hse'
  have e0 : (E1 ++ se).length = k + 1 + se.length := by simp [hE1]
  rw [e0]
  have e1 : E1 ++ se ++ h ++ [l] = E1 ++ se ++ (h ++ [l]) := by simp
  rw [e1, dbCheck_eq m1 m2 E1 se _ k ms h1 hE1 h2]
  have hcl : (clr ms (xorB (List.replicate k 0#8 ++ [1#8]) m1)).length = k + 1 := by
    rw [clr_length, xorB_length]; simp [h1]
  by_cases hc : clr ms (xorB (List.replicate k 0#8 ++ [1#8]) m1) = E1
  · rw [if_pos hc]
    simp only [bind, Except.bind]
    have e2 : k + 1 + se.length - se.length = k + 1 := by omega
    have hxl : (xorB m2 se).length = se.length := by rw [xorB_length]; omega
    rw [e2, List.drop_left' hE1, List.take_of_length_le (by omega)]
    unfold verifyH
    constructor
    · intro hv
      split at hv
      · cases hv
      · rename_i hh
        refine ⟨xorB m2 se, hxl, ?_, not_not.1 hh⟩
        rw [xorB_invol m2 se h2, hc]
    · rintro ⟨salt, hs, hEq, hh⟩
      rw [hc] at hEq
      have hEq := List.append_cancel_left hEq
      rw [hEq, xorB_invol m2 salt (by omega), if_neg (by simp only [not_not]; exact hh)]
  · rw [if_neg hc]
    simp only [bind, Except.bind]
    constructor
    · intro hv; cases hv
    · rintro ⟨salt, hs, hEq, -⟩
      exact absurd (List.append_inj_left hEq (by rw [hE1, hcl])).symm hc

theorem maskedLen (P m : List Byte) (ms k : Nat) (hP : P.length = k + 1) (h1 : m.length = k + 1) :
    (clr ms (xorB P m)).length = k + 1 := by
  rw [clr_length, xorB_length]; omega

/-- `getAndVerifyDB` followed by the hash comparison, on an encoded message `E ‖ h ‖ l`. -/
theorem db_iff (H M : Hash) (hM : M.size ≤ 64) (E h data : List Byte) (l : Byte) (sl ms : Nat) (hms : ms < 8)
    (hh : h.length = H.size) (hE : E ≠ []) (hsl : sl ≠ saltAuto → sl < E.length) :
    ((do let r ← getAndVerifyDB M (E ++ h ++ [l]) E.length sl ms
         verifyH H data ((r.1.drop (E.length - r.2)).take r.2) h) = (.ok () : Except Err Unit)) ↔
      ∃ salt k m1 m2, (sl ≠ saltAuto → salt.length = sl) ∧ E.length = k + 1 + salt.length ∧
        Spec.mgf1 M h E.length = m1 ++ m2 ∧ m1.length = k + 1 ∧
        E = clr ms (xorB (List.replicate k 0#8 ++ [1#8]) m1) ++ xorB m2 salt ∧
        h = H.h (List.replicate 8 0#8 ++ data ++ salt) := by
  have hEl : 0 < E.length := List.length_pos_iff.2 hE
  have hml := mgf_length M h E.length
  unfold getAndVerifyDB
  have e1 : (E ++ h ++ [l]).length - E.length - 1 = h.length := by simp
  rw [e1, List.append_assoc, List.drop_left' rfl, List.take_left' rfl, ← List.append_assoc,
    mgf1_ok M hM h _ hEl]
  simp only [bind, Except.bind]
  by_cases ha : sl = saltAuto
  · rw [if_pos ha]
    constructor
    · intro hv
      cases hg : getVerifySaltLen (E ++ h ++ [l]) (Spec.mgf1 M h E.length) ms with
      | error e => rw [hg] at hv; cases hv
      | ok s =>
        rw [hg] at hv
        dsimp only at hv
        have hs : s < E.length := by
          unfold getVerifySaltLen at hg
          rw [clearTop_cons _ _ (by intro e; rw [e] at hml; simp at hml; omega)] at hg
          have := autoSalt_lt _ _ _ hg
          rw [clr_length, hml] at this
          exact this
        obtain ⟨m1, m2, hm, hm1, hm2⟩ := split_at (Spec.mgf1 M h E.length) (E.length - s) (by omega)
        rw [hml] at hm2
        rw [hm] at hv
        obtain ⟨salt, h3, h4, h5⟩ := (tail_iff H m1 m2 E h data l (E.length - s - 1) s ms (by omega) (by omega)
          (by omega)).1 hv
        exact ⟨salt, E.length - s - 1, m1, m2, (fun h => absurd ha h), (by omega), hm, (by omega), h4, h5⟩
    · rintro ⟨salt, k, m1, m2, -, hk, hm, hm1, h4, h5⟩
      have hm2 : m2.length = salt.length := by
        have := congrArg List.length hm
        rw [hml, List.length_append] at this
        omega
      have hg : getVerifySaltLen (E ++ h ++ [l]) (Spec.mgf1 M h E.length) ms = .ok salt.length := by
        rw [hm, ← hm2]
        have := auto_complete m1 m2 (xorB m2 salt ++ h ++ [l]) ms k hms hm1
        rw [← this]
        congr 1
        conv => lhs; rw [h4]
        simp
      rw [hg]
      dsimp only
      rw [hm]
      exact (tail_iff H m1 m2 E h data l k salt.length ms hm1 hm2 hk).2 ⟨salt, rfl, h4, h5⟩
  · rw [if_neg ha]
    have hs := hsl ha
    obtain ⟨m1, m2, hm, hm1, hm2⟩ := split_at (Spec.mgf1 M h E.length) (E.length - sl) (by omega)
    rw [hml] at hm2
    have := tail_iff H m1 m2 E h data l (E.length - sl - 1) sl ms (by omega) (by omega) (by omega)
    rw [hm]
    refine Iff.trans this ⟨?_, ?_⟩
    · rintro ⟨salt, h3, h4, h5⟩
      exact ⟨salt, E.length - sl - 1, m1, m2, (fun _ => h3), (by clear this; omega), rfl, (by clear this; omega), h4, h5⟩
    · rintro ⟨salt, k, n1, n2, h3, hk, hn, hn1, h4, h5⟩
      have h3 := h3 ha
      have hk' : k = E.length - sl - 1 := by clear this; omega
      obtain ⟨rfl, rfl⟩ := List.append_inj hn (by clear this; omega)
      subst hk'
      exact ⟨salt, h3, h4, h5⟩

/-- `verifyCore` on a block split into its parts. -/
theorem core_shape (H M : Hash) (modBits sl : Nat) (data E h : List Byte) (z0 l : Byte) (hh : h.length = H.size)
    (hE : E ≠ []) :
    verifyCore H M modBits sl data ((if (modBits - 1) % 8 = 0 then [z0] else []) ++ E ++ h ++ [l]) =
      if l ≠ 0xbc#8 then .error .norVerify
      else if (if (modBits - 1) % 8 = 0 then z0 else E.head hE) >>> ((modBits - 1) % 8) ≠ 0#8 then
        .error .norVerify
      else (do
        let r ← getAndVerifyDB M (E ++ h ++ [l]) E.length sl ((modBits - 1) % 8)
        verifyH H data ((r.1.drop (E.length - r.2)).take r.2) h) := by
  have hl : (E ++ h ++ [l]).length - H.size - 1 = E.length := by simp; omega
  have hd : ((E ++ h ++ [l]).drop E.length).take H.size = h := by
    rw [List.append_assoc, List.drop_left' rfl, ← hh, List.take_left' rfl]
  have hnl : ¬ (E ++ h ++ [l]).length < H.size + 1 := by simp; omega
  obtain ⟨e0, E', rfl⟩ : ∃ a b, E = a :: b := List.exists_cons_of_ne_nil hE
  by_cases h8 : (modBits - 1) % 8 = 0
  · have hg : ([z0] ++ (e0 :: E') ++ h ++ [l]).getLast? = some l := List.getLast?_concat
    rw [if_pos h8, if_pos h8]
    unfold verifyCore
    rw [hg]
    have : [z0] ++ (e0 :: E') ++ h ++ [l] = z0 :: ((e0 :: E') ++ h ++ [l]) := by simp
    rw [this]
    dsimp only
    rw [if_pos h8, hl, hd, if_neg hnl]
  · have hg : ([] ++ (e0 :: E') ++ h ++ [l]).getLast? = some l := List.getLast?_concat
    rw [if_neg h8, if_neg h8]
    unfold verifyCore
    rw [hg]
    have : [] ++ (e0 :: E') ++ h ++ [l] = e0 :: (E' ++ h ++ [l]) := by simp
    rw [this]
    dsimp only
    have e : e0 :: (E' ++ h ++ [l]) = (e0 :: E') ++ h ++ [l] := by simp
    rw [if_neg h8, e, hl, hd, if_neg hnl]
    rfl

theorem spec_pss_room (H M : Hash) (modBits : Nat) (data salt pad : List Byte)
    (h : Spec.pss H M modBits data salt = some pad) : H.size + salt.length + 2 ≤ (modBits - 1 + 7) / 8 := by
  unfold Spec.pss at h
  dsimp only at h
  split at h
  · cases h
  · omega

/-- Verification after the length check: accepted exactly when the block is an RFC encoding. -/
theorem core_iff (H M : Hash) (hM : M.size ≤ 64) (modBits sl : Nat) (data pad : List Byte)
    (hb : 512 ≤ modBits) (hpad : pad.length = (modBits + 7) / 8)
    (hsl : sl ≠ saltAuto → H.size + sl + 2 ≤ (modBits - 1 + 7) / 8) :
    verifyCore H M modBits sl data pad = .ok () ↔
      ∃ salt, (sl ≠ saltAuto → salt.length = sl) ∧ Spec.pss H M modBits data salt = some pad := by
  have hms : (modBits - 1) % 8 < 8 := Nat.mod_lt _ (by omega)
  by_cases hroom : H.size + 2 ≤ (modBits - 1 + 7) / 8
  · -- split the block
    obtain ⟨z, r, rfl, hz, hr⟩ := split_at pad ((modBits + 7) / 8 - (modBits - 1 + 7) / 8) (by omega)
    obtain ⟨E, r2, rfl, hE, hr2⟩ := split_at r ((modBits - 1 + 7) / 8 - H.size - 1) (by omega)
    obtain ⟨h, r3, rfl, hh, hr3⟩ := split_at r2 H.size (by omega)
    obtain ⟨l, rfl⟩ : ∃ l, r3 = [l] := List.length_eq_one_iff.1 (by omega)
    have hEn : E ≠ [] := by intro e; rw [e] at hE; simp at hE; omega
    obtain ⟨z0, rfl⟩ : ∃ z0, z = (if (modBits - 1) % 8 = 0 then [z0] else []) := by
      by_cases h8 : (modBits - 1) % 8 = 0
      · obtain ⟨a, ha⟩ : ∃ a, z = [a] := List.length_eq_one_iff.1 (by omega)
        exact ⟨a, by rw [if_pos h8, ha]⟩
      · exact ⟨0, by rw [if_neg h8]; exact List.length_eq_zero_iff.1 (by omega)⟩
    rw [← List.append_assoc, ← List.append_assoc, core_shape H M modBits sl data E h z0 l hh hEn]
    have hslE : sl ≠ saltAuto → sl < E.length := by intro h; have := hsl h; omega
    constructor
    · intro hv
      by_cases hl : l ≠ 0xbc#8
      · rw [if_pos hl] at hv; cases hv
      rw [if_neg hl] at hv
      by_cases hp : (if (modBits - 1) % 8 = 0 then z0 else E.head hEn) >>> ((modBits - 1) % 8) ≠ 0#8
      · rw [if_pos hp] at hv; cases hv
      rw [if_neg hp] at hv
      obtain ⟨salt, k, m1, m2, h3, hk, hm, hm1, h4, h5⟩ := (db_iff H M hM E h data l sl ((modBits - 1) % 8) hms hh hEn hslE).1 hv
      have hm2 : m2.length = salt.length := by
        have := congrArg List.length hm
        rw [mgf_length, List.length_append] at this
        omega
      refine ⟨salt, h3, ?_⟩
      rw [h5, hE] at hm
      rw [spec_pss_eq H M modBits hb data salt (by omega) m1 m2 k (by omega) hm1 hm2 hm, ← h4, ← h5,
        not_not.1 hl]
      congr 4
      by_cases h8 : (modBits - 1) % 8 = 0
      · rw [if_pos h8, if_pos h8]
        rw [if_pos h8, h8] at hp
        have := not_not.1 hp
        simp only [BitVec.ushiftRight_zero] at this
        rw [this]
      · rw [if_neg h8, if_neg h8]
    · rintro ⟨salt, h3, hs⟩
      have hrm := spec_pss_room _ _ _ _ _ _ hs
      have hml := mgf_length M (H.h (List.replicate 8 0#8 ++ data ++ salt)) ((modBits - 1 + 7) / 8 - H.size - 1)
      obtain ⟨m1, m2, hm, hm1, hm2⟩ := split_at _ ((modBits - 1 + 7) / 8 - salt.length - H.size - 2 + 1)
        (by rw [hml]; omega : _ ≤ (Spec.mgf1 M (H.h (List.replicate 8 0#8 ++ data ++ salt))
          ((modBits - 1 + 7) / 8 - H.size - 1)).length)
      rw [hml] at hm2
      rw [spec_pss_eq H M modBits hb data salt hrm m1 m2 _ rfl hm1 (by omega) hm] at hs
      injection hs with hs
      obtain ⟨hs, hl⟩ := List.append_inj' hs rfl
      obtain ⟨hs, hhe⟩ := List.append_inj' hs (by rw [H.len, hh])
      have hcl : (clr ((modBits - 1) % 8) (xorB (List.replicate ((modBits - 1 + 7) / 8 - salt.length - H.size - 2) 0#8
          ++ [1#8]) m1)).length = (modBits - 1 + 7) / 8 - salt.length - H.size - 2 + 1 :=
        maskedLen _ _ _ _ (by simp) hm1
      have hxl : (xorB m2 salt).length = salt.length := by rw [xorB_length]; omega
      obtain ⟨hz', hEe⟩ := List.append_inj' hs (by rw [List.length_append, hcl, hxl]; omega)
      rw [if_neg (by injection hl with hl; simp [← hl]), if_neg]
      · refine (db_iff H M hM E h data l sl ((modBits - 1) % 8) hms hh hEn hslE).2 ⟨salt, (modBits - 1 + 7) / 8 - salt.length - H.size - 2, m1, m2, h3, by omega, ?_, hm1, hEe.symm,
          hhe.symm⟩
        rw [hE, ← hhe]; exact hm
      · rw [not_not]
        by_cases h8 : (modBits - 1) % 8 = 0
        · rw [if_pos h8, if_pos h8] at hz'
          rw [if_pos h8]
          injection hz' with hz'
          rw [← hz']
          exact BitVec.zero_ushiftRight
        · rw [if_neg h8]
          subst hEe
          obtain ⟨a, m1', rfl⟩ : ∃ a b, m1 = a :: b := List.exists_cons_of_ne_nil (by
            intro e; rw [e] at hm1; simp at hm1)
          have : ∃ c r, xorB (List.replicate ((modBits - 1 + 7) / 8 - salt.length - H.size - 2) 0#8
              ++ [1#8]) (a :: m1') = c :: r := List.exists_cons_of_ne_nil (by
            intro e
            have := congrArg List.length e
            rw [xorB_length] at this
            simp at this)
          obtain ⟨c, r, hc⟩ := this
          simp only [hc, clr, if_neg h8, List.cons_append, List.head_cons]
          exact byte_top ⟨_, hms⟩ c h8
  · constructor
    · intro hv
      exfalso
      unfold verifyCore at hv
      split at hv
      · rename_i l p0 p1 hl
        have hlen : (if (modBits - 1) % 8 = 0 then p1 else p0 :: p1).length = (modBits - 1 + 7) / 8 := by
          simp only [List.length_cons] at hpad
          split
          · omega
          · simp; omega
        dsimp only at hv
        rw [hlen] at hv
        by_cases c1 : l ≠ 0xbc#8
        · rw [if_pos c1] at hv; cases hv
        rw [if_neg c1] at hv
        by_cases c2 : p0 >>> ((modBits - 1) % 8) ≠ 0#8
        · rw [if_pos c2] at hv; cases hv
        rw [if_neg c2] at hv
        by_cases c3 : (modBits - 1 + 7) / 8 < H.size + 1
        · rw [if_pos c3] at hv; cases hv
        rw [if_neg c3] at hv
        have : (modBits - 1 + 7) / 8 - H.size - 1 = 0 := by omega
        rw [this] at hv
        unfold getAndVerifyDB mgf1 at hv
        split at hv
        · cases hv
        · cases hv
      · cases hv
    · rintro ⟨salt, -, hs⟩
      have := spec_pss_room _ _ _ _ _ _ hs
      omega

end Verif.Crypto.RsaPad
