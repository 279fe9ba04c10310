import Verif.Crypto.Aes.Proof

namespace Verif.Crypto.Aes

open Verif.Common Verif.Bsl.Bytes
open Spec (word byte sbox invSbox gmul)

/-! ## The T-tables -/

theorem te0_fn : TabFn te0 fun x => word (gmul (sbox x) 2#8) (sbox x) (sbox x) (gmul (sbox x) 3#8) := by
  apply byte_all; decide +kernel
theorem te1_fn : TabFn te1 fun x => word (gmul (sbox x) 3#8) (gmul (sbox x) 2#8) (sbox x) (sbox x) := by
  apply byte_all; decide +kernel
theorem te2_fn : TabFn te2 fun x => word (sbox x) (gmul (sbox x) 3#8) (gmul (sbox x) 2#8) (sbox x) := by
  apply byte_all; decide +kernel
theorem te3_fn : TabFn te3 fun x => word (sbox x) (sbox x) (gmul (sbox x) 3#8) (gmul (sbox x) 2#8) := by
  apply byte_all; decide +kernel

theorem td0_fn : TabFn td0 fun x => word (gmul (invSbox x) 0xe#8) (gmul (invSbox x) 0x9#8)
    (gmul (invSbox x) 0xd#8) (gmul (invSbox x) 0xb#8) := by
  apply byte_all; decide +kernel
theorem td1_fn : TabFn td1 fun x => word (gmul (invSbox x) 0xb#8) (gmul (invSbox x) 0xe#8)
    (gmul (invSbox x) 0x9#8) (gmul (invSbox x) 0xd#8) := by
  apply byte_all; decide +kernel
theorem td2_fn : TabFn td2 fun x => word (gmul (invSbox x) 0xd#8) (gmul (invSbox x) 0xb#8)
    (gmul (invSbox x) 0xe#8) (gmul (invSbox x) 0x9#8) := by
  apply byte_all; decide +kernel
theorem td3_fn : TabFn td3 fun x => word (gmul (invSbox x) 0x9#8) (gmul (invSbox x) 0xd#8)
    (gmul (invSbox x) 0xb#8) (gmul (invSbox x) 0xe#8) := by
  apply byte_all; decide +kernel

/-- `InvMixColumns` of one word. -/
def imix (a b c d : Byte) : BitVec 32 := word
  (gmul a 0xe#8 ^^^ gmul b 0xb#8 ^^^ gmul c 0xd#8 ^^^ gmul d 0x9#8)
  (gmul a 0x9#8 ^^^ gmul b 0xe#8 ^^^ gmul c 0xb#8 ^^^ gmul d 0xd#8)
  (gmul a 0xd#8 ^^^ gmul b 0x9#8 ^^^ gmul c 0xe#8 ^^^ gmul d 0xb#8)
  (gmul a 0xb#8 ^^^ gmul b 0xd#8 ^^^ gmul c 0x9#8 ^^^ gmul d 0xe#8)

theorem dkWord_word (a b c d : Byte) : dkWord (word a b c d) = some (imix a b c d) := by
  unfold dkWord
  simp only [look24_word te1_fn, look16_word te1_fn, look8_word te1_fn, look0_word te1_fn,
    look0_word td0_fn, look0_word td1_fn, look0_word td2_fn, look0_word td3_fn,
    Option.bind_eq_bind, Option.bind_some, sbox_inv, word_xor, imix]

theorem encWord_word (a0 a1 a2 a3 b0 b1 b2 b3 c0 c1 c2 c3 d0 d1 d2 d3 : Byte) (k : BitVec 32) :
    encWord (word a0 a1 a2 a3) (word b0 b1 b2 b3) (word c0 c1 c2 c3) (word d0 d1 d2 d3) k =
    some (word
      (gmul (sbox a0) 2#8 ^^^ gmul (sbox b1) 3#8 ^^^ sbox c2 ^^^ sbox d3 ^^^ byte k 0)
      (sbox a0 ^^^ gmul (sbox b1) 2#8 ^^^ gmul (sbox c2) 3#8 ^^^ sbox d3 ^^^ byte k 1)
      (sbox a0 ^^^ sbox b1 ^^^ gmul (sbox c2) 2#8 ^^^ gmul (sbox d3) 3#8 ^^^ byte k 2)
      (gmul (sbox a0) 3#8 ^^^ sbox b1 ^^^ sbox c2 ^^^ gmul (sbox d3) 2#8 ^^^ byte k 3)) := by
  unfold encWord
  simp only [look24_word te0_fn, look16_word te1_fn, look8_word te2_fn, look0_word te3_fn,
    Option.bind_eq_bind, Option.bind_some, word_xor]
  conv_lhs => rw [← word_byte k]
  rw [word_xor]

theorem decWord_word (a0 a1 a2 a3 b0 b1 b2 b3 c0 c1 c2 c3 d0 d1 d2 d3 : Byte) (k : BitVec 32) :
    decWord (word a0 a1 a2 a3) (word b0 b1 b2 b3) (word c0 c1 c2 c3) (word d0 d1 d2 d3) k =
    some (imix (invSbox a0) (invSbox b1) (invSbox c2) (invSbox d3) ^^^ k) := by
  unfold decWord
  simp only [look24_word td0_fn, look16_word td1_fn, look8_word td2_fn, look0_word td3_fn,
    Option.bind_eq_bind, Option.bind_some, word_xor, imix]

theorem imix_xor (a b c d a' b' c' d' : Byte) :
    imix a b c d ^^^ imix a' b' c' d' = imix (a ^^^ a') (b ^^^ b') (c ^^^ c') (d ^^^ d') := by
  simp only [imix, word_xor, gmul_xor]
  congr 1 <;> ac_rfl

/-! ## Rounds -/

theorem encRound_eq (key : List (BitVec 32)) (w : Nat → Spec.Word) (i : Nat) (s : Spec.State)
    (hk : ∀ j, j < 4 → key[4 * i + j]? = some (w (4 * i + j))) :
    encRound key i (mk s) =
      some (mk (Spec.addRoundKey w i (Spec.mixColumns (Spec.shiftRows (Spec.subBytes s))))) := by
  unfold encRound
  simp only [hk 0 (by omega), hk 1 (by omega), hk 2 (by omega), hk 3 (by omega),
    Option.bind_eq_bind, Option.bind_some]
  simp only [Option.bind_some, mk, encWord_word, Option.some.injEq, St.mk.injEq,
    Spec.addRoundKey, Spec.mixColumns, Spec.shiftRows, Spec.subBytes, Fin.reduceAdd, zero_add,
    Fin.isValue, add_zero]
  refine ⟨?_, ?_, ?_, ?_⟩ <;> congr 1 <;> ac_rfl

/-- Word `k` of the decryption schedule is `InvMixColumns` of word `k` of the schedule. -/
def imixW (k : BitVec 32) : BitVec 32 := imix (byte k 0) (byte k 1) (byte k 2) (byte k 3)

theorem imix_col (s : Spec.State) (c : Fin 4) :
    imix (s 0 c) (s 1 c) (s 2 c) (s 3 c) = word (Spec.invMixColumns s 0 c) (Spec.invMixColumns s 1 c)
      (Spec.invMixColumns s 2 c) (Spec.invMixColumns s 3 c) := by
  simp only [imix, Spec.invMixColumns, Fin.reduceAdd, zero_add]
  congr 1 <;> ac_rfl

theorem decRound_eq (key : List (BitVec 32)) (w : Nat → Spec.Word) (i : Nat) (s : Spec.State)
    (hk : ∀ j, j < 4 → key[4 * i + j]? = some (imixW (w (4 * i + j)))) :
    decRound key i (mk s) = some (mk (Spec.invMixColumns
      (Spec.addRoundKey w i (Spec.invSubBytes (Spec.invShiftRows s))))) := by
  unfold decRound
  simp only [hk 0 (by omega), hk 1 (by omega), hk 2 (by omega), hk 3 (by omega),
    Option.bind_eq_bind, Option.bind_some]
  simp only [mk, decWord_word, imixW, imix_xor, Option.bind_some, ← imix_col]
  rfl

theorem tesearch_word (a0 a1 a2 a3 b0 b1 b2 b3 c0 c1 c2 c3 d0 d1 d2 d3 : Byte) :
    tesearch (word a0 a1 a2 a3) (word b0 b1 b2 b3) (word c0 c1 c2 c3) (word d0 d1 d2 d3) =
      some (word (sbox a0) (sbox b1) (sbox c2) (sbox d3)) := by
  unfold tesearch
  simp only [look24_word te2_fn, look16_word te3_fn, look8_word te0_fn, look0_word te1_fn,
    Option.bind_eq_bind, Option.bind_some, and0, and1, and2, and3, xor_parts]

theorem invssearch_word (a0 a1 a2 a3 b0 b1 b2 b3 c0 c1 c2 c3 d0 d1 d2 d3 : Byte) :
    invssearch (word a0 a1 a2 a3) (word b0 b1 b2 b3) (word c0 c1 c2 c3) (word d0 d1 d2 d3) =
      some (word (invSbox a0) (invSbox d1) (invSbox c2) (invSbox b3)) := by
  unfold invssearch
  simp only [look24_word invST_fn, look16_word invST_fn, look8_word invST_fn, look0_word invST_fn,
    Option.bind_eq_bind, Option.bind_some]
  rw [sh3, sh2, sh1, sh0 (invSbox b3), xor_parts]

theorem runRounds_append (f : Nat → St → Option St) (a b : List Nat) (s : St) :
    runRounds f (a ++ b) s = (runRounds f a s).bind (runRounds f b) := by
  induction a generalizing s with
  | nil => rfl
  | cons i a ih =>
    simp only [List.cons_append, runRounds, Option.bind_eq_bind]
    cases f i s with
    | none => rfl
    | some t => exact ih t

theorem runEnc_eq {key : List (BitVec 32)} {w : Nat → Spec.Word} {nr : Nat} (hk : Keys key w nr)
    (s : Spec.State) (n j : Nat) (h : j + n ≤ nr) :
    runRounds (encRound key) (List.range' (j + 1) n) (mk (Spec.rounds w j s)) =
      some (mk (Spec.rounds w (j + n) s)) := by
  induction n generalizing j with
  | zero => rfl
  | succ n ih =>
    rw [List.range'_succ, runRounds, encRound_eq key w (j + 1) _ (hk.at (j + 1) (by omega))]
    have := ih (j + 1) (by omega)
    rw [show j + 1 + n = j + (n + 1) by omega] at this
    exact this

theorem rounds_cases (rounds : Nat) (h : rounds = 10 ∨ rounds = 12 ∨ rounds = 14) :
    [1, 2, 3, 4, 5, 6, 7, 8, 9] ++ ((if rounds > 10 then [10, 11] else []) ++
      (if rounds > 12 then [12, 13] else [])) = List.range' 1 (rounds - 1) := by
  rcases h with rfl | rfl | rfl <;> rfl

theorem encryptTbox_eq {key : List (BitVec 32)} {w : Nat → Spec.Word} {nr : Nat} (hk : Keys key w nr)
    (hnr : nr = 10 ∨ nr = 12 ∨ nr = 14) (inp : List Byte) (h : inp.length = 16) :
    encryptTbox key nr inp = some (Spec.encrypt nr w inp h) := by
  have hr := runEnc_eq hk (Spec.addRoundKey w 0 (Spec.load inp h)) (nr - 1) 0 (by omega)
  rw [Nat.zero_add, Nat.zero_add, ← rounds_cases nr hnr, runRounds_append] at hr
  have hr2 : ∀ s, runRounds (encRound key) ((if nr > 10 then [10, 11] else []) ++
      (if nr > 12 then [12, 13] else [])) s =
      (runRounds (encRound key) (if nr > 10 then [10, 11] else []) s).bind
        (runRounds (encRound key) (if nr > 12 then [12, 13] else [])) := runRounds_append _ _ _
  unfold encryptTbox Spec.encrypt Spec.cipher
  rw [loadSt_eq inp h]
  simp only [Option.bind_eq_bind, Option.bind_some]
  rw [add_eq key w 0 _ (hk.at 0 (by omega)), Option.bind_some]
  simp only [Spec.rounds] at hr
  revert hr
  cases h1 : runRounds (encRound key) [1, 2, 3, 4, 5, 6, 7, 8, 9]
      (mk (Spec.addRoundKey w 0 (Spec.load inp h))) with
  | none => intro hr; cases hr
  | some s1 =>
    intro hr
    rw [Option.bind_some, hr2] at hr
    rw [Option.bind_some]
    revert hr
    cases h2 : runRounds (encRound key) (if nr > 10 then [10, 11] else []) s1 with
    | none => intro hr; cases hr
    | some s2 =>
      intro hr
      rw [Option.bind_some] at hr
      rw [Option.bind_some, hr, Option.bind_some]
      simp only [mk, tesearch_word, Option.bind_some]
      change (addRoundKey (mk (Spec.shiftRows (Spec.subBytes (Spec.rounds w (nr - 1)
        (Spec.addRoundKey w 0 (Spec.load inp h)))))) key nr).bind _ = _
      rw [add_eq key w nr _ (hk.at nr (by omega)), Option.bind_some, storeSt_eq]

/-- The array holds the decryption schedule: the middle rounds through `InvMixColumns`. -/
def DKeys (key : List (BitVec 32)) (w : Nat → Spec.Word) (nr : Nat) : Prop :=
  ∀ j, j < 4 * (nr + 1) → key[j]? = some (if 4 ≤ j ∧ j < 4 * nr then imixW (w j) else w j)

theorem runDec_eq {key : List (BitVec 32)} {w : Nat → Spec.Word} {nr : Nat} (hk : DKeys key w nr)
    (n : Nat) (s : Spec.State) (h : n < nr) :
    runRounds (decRound key) (List.range' 1 n).reverse (mk s) = some (mk (Spec.invRounds w n s)) := by
  induction n generalizing s with
  | zero => rfl
  | succ n ih =>
    rw [List.range'_1_concat, List.reverse_append, List.reverse_singleton, List.singleton_append,
      runRounds, decRound_eq key w (1 + n) _ (fun j hj => by
        rw [hk _ (by omega), if_pos (by omega)])]
    rw [Nat.add_comm 1 n]
    exact ih _ (by omega)

theorem rounds_cases' (rounds : Nat) (h : rounds = 10 ∨ rounds = 12 ∨ rounds = 14) :
    (if rounds > 12 then [13, 12] else []) ++ ((if rounds > 10 then [11, 10] else []) ++
      [9, 8, 7, 6, 5, 4, 3, 2, 1]) = (List.range' 1 (rounds - 1)).reverse := by
  rcases h with rfl | rfl | rfl <;> rfl

theorem decryptTbox_eq {key : List (BitVec 32)} {w : Nat → Spec.Word} {nr : Nat} (hk : DKeys key w nr)
    (hnr : nr = 10 ∨ nr = 12 ∨ nr = 14) (inp : List Byte) (h : inp.length = 16) :
    decryptTbox key nr inp = some (Spec.decrypt nr w inp h) := by
  have hr := runDec_eq hk (nr - 1) (Spec.addRoundKey w nr (Spec.load inp h)) (by omega)
  rw [← rounds_cases' nr hnr, runRounds_append] at hr
  have hr2 : ∀ s, runRounds (decRound key) ((if nr > 10 then [11, 10] else []) ++
      [9, 8, 7, 6, 5, 4, 3, 2, 1]) s =
      (runRounds (decRound key) (if nr > 10 then [11, 10] else []) s).bind
        (runRounds (decRound key) [9, 8, 7, 6, 5, 4, 3, 2, 1]) := runRounds_append _ _ _
  unfold decryptTbox Spec.decrypt Spec.invCipher
  rw [loadSt_eq inp h]
  simp only [Option.bind_eq_bind, Option.bind_some]
  rw [add_eq key w nr _ (fun j hj => by rw [hk _ (by omega), if_neg (by omega)]), Option.bind_some]
  revert hr
  cases h1 : runRounds (decRound key) (if nr > 12 then [13, 12] else [])
      (mk (Spec.addRoundKey w nr (Spec.load inp h))) with
  | none => intro hr; cases hr
  | some s1 =>
    intro hr
    rw [Option.bind_some, hr2] at hr
    rw [Option.bind_some]
    revert hr
    cases h2 : runRounds (decRound key) (if nr > 10 then [11, 10] else []) s1 with
    | none => intro hr; cases hr
    | some s2 =>
      intro hr
      rw [Option.bind_some] at hr
      rw [Option.bind_some, hr, Option.bind_some]
      simp only [mk, invssearch_word, Option.bind_some]
      change (addRoundKey (mk (Spec.invSubBytes (Spec.invShiftRows (Spec.invRounds w (nr - 1)
        (Spec.addRoundKey w nr (Spec.load inp h)))))) key 0).bind _ = _
      rw [add_eq key w 0 _ (fun j hj => by rw [hk _ (by omega), if_neg (by omega)]), Option.bind_some,
        storeSt_eq]

/-! ## The decryption schedule -/

theorem dkWord_eq (k : BitVec 32) : dkWord k = some (imixW k) := by
  conv_lhs => rw [← word_byte k]
  exact dkWord_word _ _ _ _

theorem mapM_dk (l : List (BitVec 32)) : l.mapM dkWord = some (l.map imixW) := by
  induction l with
  | nil => rfl
  | cons a l ih => rw [List.mapM_cons, dkWord_eq, ih]; rfl

theorem setDecryptKey_eq {key : List (BitVec 32)} {w : Nat → Spec.Word} {nr : Nat}
    (hk : Keys key w nr) (hl : key.length = 4 * (nr + 1)) (hnr : 0 < nr) :
    ∃ dk, setDecryptKeyTbox key nr = some dk ∧ dk.length = key.length ∧ DKeys dk w nr := by
  unfold setDecryptKeyTbox
  rw [mapM_dk]
  have e : key = key.take 4 ++ (key.drop 4).take (4 * (nr - 1)) ++ key.drop (4 + 4 * (nr - 1)) := by
    rw [← List.drop_drop, List.append_assoc, List.take_append_drop, List.take_append_drop]
  refine ⟨_, rfl, ?_, ?_⟩
  · conv_rhs => rw [e]
    simp only [List.length_append, List.length_map]
  · have l1 : (key.take 4).length = 4 := by rw [List.length_take]; omega
    have l2 : ((key.drop 4).take (4 * (nr - 1))).length = 4 * (nr - 1) := by
      rw [List.length_take, List.length_drop]; omega
    intro j hj
    have hj' := hk j hj
    rw [List.append_assoc, List.getElem?_append]
    rw [l1]
    by_cases c1 : j < 4
    · rw [if_pos c1, if_neg (by omega), List.getElem?_take, if_pos c1, hj']
    · rw [if_neg c1, List.getElem?_append, List.length_map, l2]
      by_cases c2 : j - 4 < 4 * (nr - 1)
      · rw [if_pos c2, if_pos (by omega), List.getElem?_map, List.getElem?_take, if_pos c2,
          List.getElem?_drop, show 4 + (j - 4) = j by omega, hj']
        rfl
      · rw [if_neg c2, if_neg (by omega), List.getElem?_drop,
          show 4 + 4 * (nr - 1) + (j - 4 - 4 * (nr - 1)) = j by omega, hj']

end Verif.Crypto.Aes
