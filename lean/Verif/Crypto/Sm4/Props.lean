import Verif.Crypto.Sm4.Mem
import Verif.Crypto.Modes.Cipher

/-!
# C36 (SM4): the block cipher is that of GB/T 32907-2016 and decryption inverts encryption
-/

namespace Verif.Crypto.Sm4

open Verif.Common

/-- The standard's example key. -/
def exKey : List Byte := [0x01, 0x23, 0x45, 0x67, 0x89, 0xab, 0xcd, 0xef,
  0xfe, 0xdc, 0xba, 0x98, 0x76, 0x54, 0x32, 0x10]

/-- The standard's example ciphertext of the key itself (GB/T 32907-2016 appendix A.1). -/
def exCt : List Byte := [0x68, 0x1e, 0xdf, 0x34, 0xd2, 0x06, 0x96, 0x5e,
  0x86, 0xb3, 0xe9, 0x4f, 0x53, 0x6e, 0x42, 0x46]

/-- The S-box table is the algebraic S-box of the standard: affine map, inversion in
`GF(2^8)`, affine map. -/
theorem sbox_algebraic (x : Byte) :
    Spec.sbox x = Spec.affine (Spec.ginv (Spec.affine x)) ∧
    (x ≠ 0 → Spec.gmul x (Spec.ginv x) = 1) := by
  have h : ∀ i : Fin 256, Spec.sbox (BitVec.ofFin i) =
      Spec.affine (Spec.ginv (Spec.affine (BitVec.ofFin i))) ∧
      (BitVec.ofFin i ≠ 0#8 → Spec.gmul (BitVec.ofFin i) (Spec.ginv (BitVec.ofFin i)) = 1) := by
    decide +kernel
  exact h x.toFin

/-- **Key schedule.** Setting a key fails exactly for a length other than 16; otherwise the
round keys are the standard's, and there are 32 of them. -/
theorem setKey_spec (key : List Byte) :
    (key.length ≠ 16 → setKey key = .err .keyLen) ∧
    (key.length = 16 → ∃ rk, Spec.roundKeys key = some rk ∧ rk.length = 32 ∧ setKey key = .ok rk) := by
  refine ⟨fun h => if_pos h, fun h => ?_⟩
  obtain ⟨q, h0, _⟩ := expand_load key h
  have hk : Spec.roundKeys key = some (Spec.schedule 32 0 (q.1 ^^^ Spec.FK.1,
      q.2.1 ^^^ Spec.FK.2.1, q.2.2.1 ^^^ Spec.FK.2.2.1, q.2.2.2 ^^^ Spec.FK.2.2.2)) := by
    unfold Spec.roundKeys; simp only [h0, Option.map_some]
  refine ⟨_, hk, schedule_length _ _ _, ?_⟩
  unfold setKey
  rw [if_neg (by simp [h]), expand_eq key h, hk]

/-- **Block function.** One block is encrypted as in the standard, decrypted with the round keys
in reverse order; no table or array is read out of bounds. -/
theorem block_spec (inp : List Byte) (rk : List (BitVec 32)) (hi : inp.length = 16)
    (hr : rk.length = 32) :
    block inp rk true = Spec.encrypt rk inp ∧ block inp rk false = Spec.decrypt rk inp := by
  rw [block_eq inp rk true (by omega) hr, block_eq inp rk false (by omega) hr,
    List.take_of_length_le (by omega)]
  exact ⟨rfl, rfl⟩

/-- **A whole call.** For a length that is a positive multiple of 16, input and output inside
memory, and output not after an overlapping input (so also in place), the call succeeds, the
output area holds the blocks of the input each encrypted (or decrypted), and nothing else
changes. -/
theorem crypt_spec (rk : List (BitVec 32)) (mem : List Byte) (src dst n : Nat) (enc : Bool)
    (hr : rk.length = 32) (hn : 0 < n) (hs : src + 16 * n ≤ mem.length)
    (hd : dst + 16 * n ≤ mem.length) (ho : dst ≤ src ∨ src + 16 * n ≤ dst) :
    ∃ out, Spec.ecb (if enc then Spec.encrypt rk else Spec.decrypt rk) n (mem.drop src) = some out ∧
      out.length = 16 * n ∧
      crypt rk mem src dst (16 * n) enc =
        .ok (mem.take dst ++ out ++ mem.drop (dst + 16 * n)) := by
  obtain ⟨o, h1, h2⟩ := blocks_eq rk enc src dst hr n 0 mem (by omega) (by omega) (by omega)
  obtain ⟨o', h3, h4⟩ := ecb_some rk enc n (mem.drop src) (by rw [List.length_drop]; omega)
  simp only [Nat.mul_zero, Nat.add_zero] at h1 h2
  have : Spec.fn rk enc = (if enc then Spec.encrypt rk else Spec.decrypt rk) := by
    funext l; cases enc <;> rfl
  rw [← this]
  obtain rfl : o = o' := by rw [h1] at h3; exact Option.some.inj h3
  refine ⟨o, h1, h4, ?_⟩
  unfold crypt
  rw [if_neg (by omega), if_neg (by omega), show 16 * n / 16 = n by omega, h2]

/-- **Round trip.** Encrypting and then decrypting in place gives the input back (in the output
area, with the rest of memory unchanged); and the same the other way round. -/
theorem crypt_roundtrip (rk : List (BitVec 32)) (mem : List Byte) (src dst n : Nat) (enc : Bool)
    (hr : rk.length = 32) (hn : 0 < n) (hs : src + 16 * n ≤ mem.length)
    (hd : dst + 16 * n ≤ mem.length) (ho : dst ≤ src ∨ src + 16 * n ≤ dst) :
    ∃ mem', crypt rk mem src dst (16 * n) enc = .ok mem' ∧
      crypt rk mem' dst dst (16 * n) (!enc) =
        .ok (mem.take dst ++ (mem.drop src).take (16 * n) ++ mem.drop (dst + 16 * n)) := by
  obtain ⟨o, h1, h2, h3⟩ := crypt_spec rk mem src dst n enc hr hn hs hd ho
  refine ⟨_, h3, ?_⟩
  have htl : (mem.take dst).length = dst := by rw [List.length_take]; omega
  generalize hm : mem.take dst ++ o ++ mem.drop (dst + 16 * n) = m'
  have hml : m'.length = mem.length := by
    rw [← hm, List.length_append, List.length_append, htl, h2, List.length_drop]; omega
  obtain ⟨o', h4, h5, h6⟩ := crypt_spec rk m' dst dst n (!enc) hr hn (by omega) (by omega) (by omega)
  have hdm : m'.drop dst = o ++ mem.drop (dst + 16 * n) := by
    have : ∀ k, k = (mem.take dst).length → m'.drop k = o ++ mem.drop (dst + 16 * n) := by
      intro k hk; rw [← hm, hk, List.append_assoc, List.drop_left]
    exact this dst htl.symm
  have hfn : ∀ e, (if e = true then Spec.encrypt rk else Spec.decrypt rk) = Spec.fn rk e := by
    intro e; funext l; cases e <;> rfl
  rw [hfn] at h1 h4
  rw [hdm, ecb_inv rk enc n _ _ _ (by rw [List.length_drop]; omega) h1] at h4
  rw [h6, ← Option.some.inj h4]
  have e1 : m'.take dst = mem.take dst := by
    have : ∀ k, k = (mem.take dst).length → m'.take k = mem.take dst := by
      intro k hk; rw [← hm, hk, List.append_assoc, List.take_left]
    exact this dst htl.symm
  have e2 : m'.drop (dst + 16 * n) = mem.drop (dst + 16 * n) := by
    rw [← hm, drop_ge (by rw [List.length_append, htl, h2]), List.length_append, htl, h2,
      Nat.sub_self, List.drop_zero]
  rw [e1, e2]

/-- **Rejected lengths.** -/
theorem crypt_rejects (rk : List (BitVec 32)) (mem : List Byte) (src dst len : Nat) (enc : Bool) :
    (len = 0 → crypt rk mem src dst len enc = .err .nullInput) ∧
    (len % 16 ≠ 0 → crypt rk mem src dst len enc = .err .msgLen) := by
  constructor
  · intro h; exact if_pos h
  · intro h; unfold crypt; rw [if_neg (by rintro rfl; exact h rfl), if_pos h]

/-- SM4 under any 32 round keys is a block cipher in the sense the mode theorems need. -/
def sm4Cipher (rk : List (BitVec 32)) (hr : rk.length = 32) : Verif.Crypto.Modes.Cipher where
  enc l := (block l rk true).getD []
  dec l := (block l rk false).getD []
  encLen l h := by
    obtain ⟨o, h1, h2⟩ := fn_some rk true l h
    rw [(block_spec l rk h hr).1]
    simp only [Spec.fn, if_true] at h1
    rw [h1]; exact h2
  decLen l h := by
    obtain ⟨o, h1, h2⟩ := fn_some rk false l h
    rw [(block_spec l rk h hr).2]
    simp only [Spec.fn, Bool.false_eq_true, if_false] at h1
    rw [h1]; exact h2
  inv l h := by
    obtain ⟨o, h1, h2⟩ := fn_some rk true l h
    have h3 := fn_inv rk true l o h h1
    simp only [Spec.fn, if_true] at h1
    rw [(block_spec l rk h hr).1, h1, Option.getD_some, (block_spec o rk h2 hr).2]
    simp only [Spec.fn, Bool.not_true, Bool.false_eq_true, if_false] at h3
    rw [h3]; rfl
  inv' l h := by
    obtain ⟨o, h1, h2⟩ := fn_some rk false l h
    have h3 := fn_inv rk false l o h h1
    simp only [Spec.fn, Bool.false_eq_true, if_false] at h1
    rw [(block_spec l rk h hr).2, h1, Option.getD_some, (block_spec o rk h2 hr).1]
    simp only [Spec.fn, Bool.not_false, if_true] at h3
    rw [h3]; rfl

/-- The example of the standard, through the model. -/
example : ((expand exKey).bind fun rk => block exKey rk true) = some exCt := by decide +kernel

/-- The hypotheses are met: a 40-byte memory, two blocks encrypted in place at offset 8. -/
example : (crypt (List.replicate 32 7) (List.replicate 40 0x5a) 8 8 32 true ≠ .oob) := by
  obtain ⟨o, -, -, h⟩ := crypt_spec (List.replicate 32 7) (List.replicate 40 0x5a) 8 8 2 true
    (by simp) (by omega) (by simp) (by simp) (by omega)
  rw [h]; simp

end Verif.Crypto.Sm4
