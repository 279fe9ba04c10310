import Verif.Crypto.Aes.Model
import Verif.Crypto.Aes.SpecProof

namespace Verif.Crypto.Aes

open Verif.Common Verif.Bsl.Bytes
open Spec (word byte)

/-! ## Words and bytes -/

macro "bits32" : tactic => `(tactic| (apply BitVec.eq_of_getLsbD_eq; intro i hi; interval_cases i <;> simp [Spec.word, Spec.byte]))

theorem word_byte (w : BitVec 32) : word (byte w 0) (byte w 1) (byte w 2) (byte w 3) = w := by bits32
theorem byte_word0 (a b c d : Byte) : byte (word a b c d) 0 = a := by bits32
theorem byte_word1 (a b c d : Byte) : byte (word a b c d) 1 = b := by bits32
theorem byte_word2 (a b c d : Byte) : byte (word a b c d) 2 = c := by bits32
theorem byte_word3 (a b c d : Byte) : byte (word a b c d) 3 = d := by bits32

theorem word_xor (a b c d a' b' c' d' : Byte) :
    word a b c d ^^^ word a' b' c' d' = word (a ^^^ a') (b ^^^ b') (c ^^^ c') (d ^^^ d') := by bits32

theorem byte_xor (w w' : BitVec 32) (r : Fin 4) : byte (w ^^^ w') r = byte w r ^^^ byte w' r := by
  simp [Spec.byte, BitVec.extractLsb'_xor]

theorem and0 (a b c d : Byte) : word a b c d &&& 0xff000000#32 = word a 0 0 0 := by bits32
theorem and1 (a b c d : Byte) : word a b c d &&& 0x00ff0000#32 = word 0 b 0 0 := by bits32
theorem and2 (a b c d : Byte) : word a b c d &&& 0x0000ff00#32 = word 0 0 c 0 := by bits32
theorem and3 (a b c d : Byte) : word a b c d &&& 0x000000ff#32 = word 0 0 0 d := by bits32

theorem or_xor (a b c d : Byte) :
    word a 0 0 0 ||| word 0 b 0 0 ||| word 0 0 c 0 ||| word 0 0 0 d = word a b c d := by bits32
theorem xor_parts (a b c d : Byte) :
    word a 0 0 0 ^^^ word 0 b 0 0 ^^^ word 0 0 c 0 ^^^ word 0 0 0 d = word a b c d := by
  simp [word_xor]

theorem rot_word (a b c d : Byte) : rotl32 (word a b c d) 8 = word b c d a := by
  unfold rotl32; bits32
theorem rotr_word (a b c d : Byte) :
    (word a b c d >>> 8) ||| (word a b c d <<< 24) = word d a b c := by bits32

theorem sh3 (a : Byte) : a.setWidth 32 <<< 24 = word a 0 0 0 := by bits32
theorem sh2 (a : Byte) : a.setWidth 32 <<< 16 = word 0 a 0 0 := by bits32
theorem sh1 (a : Byte) : a.setWidth 32 <<< 8 = word 0 0 a 0 := by bits32
theorem sh0 (a : Byte) : a.setWidth 32 = word 0 0 0 a := by bits32

theorem putBe_word (a b c d : Byte) : putBe (word a b c d) = [a, b, c, d] := by
  simp only [putBe, uint32ToByte, byteAt]
  refine List.cons_eq_cons.2 ⟨?_, List.cons_eq_cons.2 ⟨?_, List.cons_eq_cons.2 ⟨?_,
    List.cons_eq_cons.2 ⟨?_, rfl⟩⟩⟩⟩ <;> bits32

theorem getBe_cons (a b c d : Byte) (l : List Byte) :
    byteToUint32 (a :: b :: c :: d :: l) = some (word a b c d) := by
  simp only [byteToUint32, Spec.word]

theorem idx24 (a b c d : Byte) : (word a b c d >>> 24).toNat = a.toNat := by
  have h : word a b c d >>> 24 = a.setWidth 32 := by bits32
  rw [h, BitVec.toNat_setWidth]; exact Nat.mod_eq_of_lt (by have := a.isLt; omega)
theorem idx16 (a b c d : Byte) : ((word a b c d >>> 16) &&& 0xff#32).toNat = b.toNat := by
  have h : (word a b c d >>> 16) &&& 0xff#32 = b.setWidth 32 := by bits32
  rw [h, BitVec.toNat_setWidth]; exact Nat.mod_eq_of_lt (by have := b.isLt; omega)
theorem idx8 (a b c d : Byte) : ((word a b c d >>> 8) &&& 0xff#32).toNat = c.toNat := by
  have h : (word a b c d >>> 8) &&& 0xff#32 = c.setWidth 32 := by bits32
  rw [h, BitVec.toNat_setWidth]; exact Nat.mod_eq_of_lt (by have := c.isLt; omega)
theorem idx0 (a b c d : Byte) : ((word a b c d >>> 0) &&& 0xff#32).toNat = d.toNat := by
  have h : (word a b c d >>> 0) &&& 0xff#32 = d.setWidth 32 := by bits32
  rw [h, BitVec.toNat_setWidth]; exact Nat.mod_eq_of_lt (by have := d.isLt; omega)

/-! ## Tables -/

/-- The table holds `f x` at index `x`. -/
def TabFn {w : Nat} (tab : List (BitVec w)) (f : Byte → BitVec w) : Prop :=
  ∀ x : Byte, tab[x.toNat]? = some (f x)

theorem look24_word {w : Nat} {tab : List (BitVec w)} {f : Byte → BitVec w} (h : TabFn tab f)
    (a b c d : Byte) : look24 tab (word a b c d) = some (f a) := by
  unfold look24; rw [idx24]; exact h a
theorem look16_word {w : Nat} {tab : List (BitVec w)} {f : Byte → BitVec w} (h : TabFn tab f)
    (a b c d : Byte) : look tab (word a b c d) 16 = some (f b) := by
  unfold look; rw [idx16]; exact h b
theorem look8_word {w : Nat} {tab : List (BitVec w)} {f : Byte → BitVec w} (h : TabFn tab f)
    (a b c d : Byte) : look tab (word a b c d) 8 = some (f c) := by
  unfold look; rw [idx8]; exact h c
theorem look0_word {w : Nat} {tab : List (BitVec w)} {f : Byte → BitVec w} (h : TabFn tab f)
    (a b c d : Byte) : look tab (word a b c d) 0 = some (f d) := by
  unfold look; rw [idx0]; exact h d

theorem aesS_fn : TabFn aesS Spec.sbox := by apply byte_all; decide +kernel
theorem invS_fn : TabFn invS Spec.invSbox := by apply byte_all; decide +kernel
theorem invST_fn : TabFn invST Spec.invSbox := by apply byte_all; decide +kernel

theorem search_word {tab : List Byte} {f : Byte → Byte} (h : TabFn tab f) (a b c d : Byte) :
    search tab (word a b c d) = some (word (f a) (f b) (f c) (f d)) := by
  unfold search
  simp only [look24_word h, look16_word h, look8_word h, look0_word h, Option.bind_eq_bind,
    Option.bind_some, BitVec.shiftLeft_zero]
  rfl

/-! ## States -/

/-- The words of a state. -/
def mk (s : Spec.State) : St :=
  ⟨word (s 0 0) (s 1 0) (s 2 0) (s 3 0), word (s 0 1) (s 1 1) (s 2 1) (s 3 1),
   word (s 0 2) (s 1 2) (s 2 2) (s 3 2), word (s 0 3) (s 1 3) (s 2 3) (s 3 3)⟩

theorem loadSt_eq (inp : List Byte) (h : inp.length = 16) :
    loadSt inp = some (mk (Spec.load inp h)) := by
  match inp, h with
  | [a0, a1, a2, a3, b0, b1, b2, b3, c0, c1, c2, c3, d0, d1, d2, d3], _ =>
    simp only [loadSt, getBe, List.drop_zero, List.drop_succ_cons, getBe_cons, Option.bind_eq_bind,
      Option.bind_some]
    rfl

theorem storeSt_eq (s : Spec.State) : storeSt (mk s) = Spec.store s := by
  simp only [storeSt, mk, putBe_word]
  rfl

theorem add_eq (key : List (BitVec 32)) (w : Nat → Spec.Word) (i : Nat) (s : Spec.State)
    (hk : ∀ j, j < 4 → key[4 * i + j]? = some (w (4 * i + j))) :
    addRoundKey (mk s) key i = some (mk (Spec.addRoundKey w i s)) := by
  unfold addRoundKey
  simp only [hk 0 (by omega), hk 1 (by omega), hk 2 (by omega), hk 3 (by omega),
    Option.bind_eq_bind, Option.bind_some]
  rw [← word_byte (w (4 * i + 0)), ← word_byte (w (4 * i + 1)), ← word_byte (w (4 * i + 2)),
    ← word_byte (w (4 * i + 3))]
  simp only [mk, word_xor]
  rfl

theorem sub_eq {tab : List Byte} {f : Byte → Byte} (h : TabFn tab f) (s : Spec.State) :
    subBytes tab (mk s) = some (mk fun r c => f (s r c)) := by
  simp only [subBytes, mk, search_word h, Option.bind_eq_bind, Option.bind_some]

theorem gather_word (a0 a1 a2 a3 b0 b1 b2 b3 c0 c1 c2 c3 d0 d1 d2 d3 : Byte) :
    gather (word a0 a1 a2 a3) (word b0 b1 b2 b3) (word c0 c1 c2 c3) (word d0 d1 d2 d3) =
      word a0 b1 c2 d3 := by
  unfold gather; rw [and0, and1, and2, and3, or_xor]

theorem shift_eq (s : Spec.State) : shiftRows (mk s) = mk (Spec.shiftRows s) := by
  simp only [shiftRows, mk, gather_word]
  rfl

theorem invShift_eq (s : Spec.State) : invShiftRows (mk s) = mk (Spec.invShiftRows s) := by
  simp only [invShiftRows, mk, gather_word]
  rfl

/-! ## Field arithmetic -/

theorem aesXtime_eq (x : Byte) : aesXtime x = Spec.xtime x := by
  revert x; apply byte_all; decide +kernel

theorem aesXtimes_eq (n : Nat) (x : Byte) : aesXtimes x n = Spec.xtime^[n] x := by
  induction n generalizing x with
  | zero => rfl
  | succ n ih => rw [aesXtimes, ih, aesXtime_eq, Function.iterate_succ_apply]

theorem bit_mul (y : Byte) (z : Byte) (r : Byte) (i : Nat) (hi : i < 8) :
    r ^^^ (((y >>> i) &&& 1#8) * z) = if y.getLsbD i then r ^^^ z else r := by
  have h : ∀ i : Fin 8, ∀ y : Fin 256, ((BitVec.ofFin y : Byte) >>> i.val) &&& 1#8 =
      if (BitVec.ofFin y : Byte).getLsbD i.val then 1#8 else 0#8 := by decide +kernel
  have := h ⟨i, hi⟩ y.toFin
  simp only [BitVec.ofFin_toFin] at this
  rw [this]
  split
  · simp
  · simp

theorem aesMul_eq (x y : Byte) : aesMul x y = Spec.gmul x y := by
  unfold aesMul Spec.gmul
  rw [show List.range 8 = [0, 1, 2, 3, 4, 5, 6, 7] from rfl]
  simp only [List.foldl_cons, List.foldl_nil, ← bit_mul y _ _ _ (show 0 < 8 by omega),
    ← bit_mul y _ _ _ (show 1 < 8 by omega), ← bit_mul y _ _ _ (show 2 < 8 by omega),
    ← bit_mul y _ _ _ (show 3 < 8 by omega), ← bit_mul y _ _ _ (show 4 < 8 by omega),
    ← bit_mul y _ _ _ (show 5 < 8 by omega), ← bit_mul y _ _ _ (show 6 < 8 by omega),
    ← bit_mul y _ _ _ (show 7 < 8 by omega), aesXtimes_eq]
  simp

theorem gmul_one (x : Byte) : Spec.gmul x 1#8 = x := by
  revert x; apply byte_all; decide +kernel

theorem mixColumn_eq (a b c d : Byte) :
    mixColumn aesY (word a b c d) = some (word
      (Spec.gmul a 2#8 ^^^ Spec.gmul b 3#8 ^^^ c ^^^ d) (a ^^^ Spec.gmul b 2#8 ^^^ Spec.gmul c 3#8 ^^^ d)
      (a ^^^ b ^^^ Spec.gmul c 2#8 ^^^ Spec.gmul d 3#8) (Spec.gmul a 3#8 ^^^ b ^^^ c ^^^ Spec.gmul d 2#8)) := by
  simp only [mixColumn, putBe_word, mixByte, aesY, List.getElem?_cons_succ, List.getElem?_cons_zero,
    Option.bind_eq_bind, Option.bind_some, Nat.reduceMul, Nat.reduceAdd, aesMul_eq, getBe,
    List.drop_zero, getBe_cons, BitVec.zero_xor, BitVec.ofNat_eq_ofNat, gmul_one]

theorem invMixColumn_eq (a b c d : Byte) :
    mixColumn aesInvY (word a b c d) = some (word
      (Spec.gmul a 0xe#8 ^^^ Spec.gmul b 0xb#8 ^^^ Spec.gmul c 0xd#8 ^^^ Spec.gmul d 0x9#8)
      (Spec.gmul a 0x9#8 ^^^ Spec.gmul b 0xe#8 ^^^ Spec.gmul c 0xb#8 ^^^ Spec.gmul d 0xd#8)
      (Spec.gmul a 0xd#8 ^^^ Spec.gmul b 0x9#8 ^^^ Spec.gmul c 0xe#8 ^^^ Spec.gmul d 0xb#8)
      (Spec.gmul a 0xb#8 ^^^ Spec.gmul b 0xd#8 ^^^ Spec.gmul c 0x9#8 ^^^ Spec.gmul d 0xe#8)) := by
  simp only [mixColumn, putBe_word, mixByte, aesInvY, List.getElem?_cons_succ, List.getElem?_cons_zero,
    Option.bind_eq_bind, Option.bind_some, Nat.reduceMul, Nat.reduceAdd, aesMul_eq, getBe,
    List.drop_zero, getBe_cons, BitVec.zero_xor, BitVec.ofNat_eq_ofNat]

theorem mk_congr {s t : Spec.State} (h : ∀ r c, s r c = t r c) : mk s = mk t := by
  rw [show s = t from funext fun r => funext fun c => h r c]

theorem mix_eq (s : Spec.State) : mixColumns (mk s) true = some (mk (Spec.mixColumns s)) := by
  simp only [mixColumns, mk, if_true, mixColumn_eq, Option.bind_eq_bind, Option.bind_some,
    Option.some.injEq, St.mk.injEq, Spec.mixColumns, Fin.reduceAdd, zero_add]
  refine ⟨?_, ?_, ?_, ?_⟩ <;> congr 1 <;> ac_rfl

theorem invMix_eq (s : Spec.State) : mixColumns (mk s) false = some (mk (Spec.invMixColumns s)) := by
  simp only [mixColumns, mk, Bool.false_eq_true, if_false, invMixColumn_eq, Option.bind_eq_bind, Option.bind_some,
    Option.some.injEq, St.mk.injEq, Spec.invMixColumns, Fin.reduceAdd, zero_add]
  refine ⟨?_, ?_, ?_, ?_⟩ <;> congr 1 <;> ac_rfl

/-! ## The S-box variant: whole blocks -/

/-- The array holds the schedule for `nr` rounds. -/
def Keys (key : List (BitVec 32)) (w : Nat → Spec.Word) (nr : Nat) : Prop :=
  ∀ j, j < 4 * (nr + 1) → key[j]? = some (w j)

theorem Keys.at {key : List (BitVec 32)} {w : Nat → Spec.Word} {nr : Nat} (h : Keys key w nr)
    (i : Nat) (hi : i ≤ nr) : ∀ j, j < 4 → key[4 * i + j]? = some (w (4 * i + j)) :=
  fun j hj => h _ (by omega)

theorem encLoop_eq {key : List (BitVec 32)} {w : Nat → Spec.Word} {nr : Nat} (hk : Keys key w nr)
    (s : Spec.State) (n j : Nat) (h : j + n ≤ nr) :
    encLoop key n (j + 1) (mk (Spec.rounds w j s)) = some (mk (Spec.rounds w (j + n) s)) := by
  induction n generalizing j with
  | zero => rfl
  | succ n ih =>
    unfold encLoop
    simp only [sub_eq aesS_fn, shift_eq, mix_eq, Option.bind_eq_bind, Option.bind_some]
    rw [add_eq key w _ _ (hk.at (j + 1) (by omega)), Option.bind_some]
    have := ih (j + 1) (by omega)
    rw [show j + 1 + n = j + (n + 1) by omega] at this
    exact this

theorem encryptSbox_eq {key : List (BitVec 32)} {w : Nat → Spec.Word} {nr : Nat} (hk : Keys key w nr)
    (inp : List Byte) (h : inp.length = 16) :
    encryptSbox key nr inp = some (Spec.encrypt nr w inp h) := by
  unfold encryptSbox Spec.encrypt Spec.cipher
  rw [loadSt_eq inp h]
  simp only [Option.bind_eq_bind, Option.bind_some]
  rw [add_eq key w 0 _ (hk.at 0 (by omega)), Option.bind_some]
  have := encLoop_eq hk (Spec.addRoundKey w 0 (Spec.load inp h)) (nr - 1) 0 (by omega)
  rw [Nat.zero_add, Nat.zero_add] at this
  rw [show mk (Spec.addRoundKey w 0 (Spec.load inp h)) =
    mk (Spec.rounds w 0 (Spec.addRoundKey w 0 (Spec.load inp h))) from rfl, this, Option.bind_some,
    sub_eq aesS_fn, Option.bind_some, shift_eq, add_eq key w nr _ (hk.at nr (by omega)),
    Option.bind_some, storeSt_eq]
  rfl

theorem decLoop_eq {key : List (BitVec 32)} {w : Nat → Spec.Word} {nr : Nat} (hk : Keys key w nr)
    (n : Nat) (s : Spec.State) (h : n ≤ nr) :
    decLoop key n (mk (Spec.invSubBytes (Spec.invShiftRows s))) =
      some (mk (Spec.invSubBytes (Spec.invShiftRows (Spec.invRounds w n s)))) := by
  induction n generalizing s with
  | zero => rfl
  | succ n ih =>
    unfold decLoop
    rw [add_eq key w _ _ (hk.at (n + 1) (by omega))]
    simp only [Option.bind_eq_bind, Option.bind_some, invMix_eq, invShift_eq, sub_eq invS_fn]
    exact ih _ (by omega)

theorem decryptSbox_eq {key : List (BitVec 32)} {w : Nat → Spec.Word} {nr : Nat} (hk : Keys key w nr)
    (inp : List Byte) (h : inp.length = 16) :
    decryptSbox key nr inp = some (Spec.decrypt nr w inp h) := by
  unfold decryptSbox Spec.decrypt Spec.invCipher
  rw [loadSt_eq inp h]
  simp only [Option.bind_eq_bind, Option.bind_some]
  rw [add_eq key w nr _ (hk.at nr (by omega)), Option.bind_some, invShift_eq, sub_eq invS_fn,
    Option.bind_some]
  have := decLoop_eq hk (nr - 1) (Spec.addRoundKey w nr (Spec.load inp h)) (by omega)
  rw [show (fun r c => Spec.invSbox (Spec.invShiftRows (Spec.addRoundKey w nr (Spec.load inp h)) r c)) =
    Spec.invSubBytes (Spec.invShiftRows (Spec.addRoundKey w nr (Spec.load inp h))) from rfl, this,
    Option.bind_some, add_eq key w 0 _ (hk.at 0 (by omega)), Option.bind_some, storeSt_eq]

end Verif.Crypto.Aes
