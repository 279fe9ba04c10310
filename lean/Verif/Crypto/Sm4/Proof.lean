import Verif.Crypto.Sm4.Model
import Verif.Crypto.Sm4.Spec
import Verif.Bsl.Bytes.Props
import Mathlib.Tactic.IntervalCases

namespace Verif.Crypto.Sm4

open Verif.Common Verif.Bsl.Bytes

/-! ## Words and bytes -/

theorem getBe_cons (a b c d : Byte) (l : List Byte) :
    byteToUint32 (a :: b :: c :: d :: l) = some (Spec.word a b c d) := by
  simp only [byteToUint32, Spec.word]

theorem putBe_eq (w : BitVec 32) :
    putBe w = [Spec.byte w 0, Spec.byte w 1, Spec.byte w 2, Spec.byte w 3] := by
  simp only [putBe, uint32ToByte, byteAt, Spec.byte]
  refine List.cons_eq_cons.2 ⟨?_, List.cons_eq_cons.2 ⟨?_, List.cons_eq_cons.2 ⟨?_,
    List.cons_eq_cons.2 ⟨?_, rfl⟩⟩⟩⟩ <;>
  · apply BitVec.eq_of_getLsbD_eq
    intro i hi
    interval_cases i <;> simp

theorem word_byte (w : BitVec 32) :
    Spec.word (Spec.byte w 0) (Spec.byte w 1) (Spec.byte w 2) (Spec.byte w 3) = w := by
  apply BitVec.eq_of_getLsbD_eq
  intro i hi
  interval_cases i <;> simp [Spec.word, Spec.byte]

theorem byte_word (a b c d : Byte) :
    Spec.byte (Spec.word a b c d) 0 = a ∧ Spec.byte (Spec.word a b c d) 1 = b ∧
    Spec.byte (Spec.word a b c d) 2 = c ∧ Spec.byte (Spec.word a b c d) 3 = d := by
  refine ⟨?_, ?_, ?_, ?_⟩ <;>
  · apply BitVec.eq_of_getLsbD_eq
    intro i hi
    interval_cases i <;> simp [Spec.word, Spec.byte]

theorem idx_eq (t : BitVec 32) (j : Nat) (hj : j < 4) :
    ((t >>> (24 - 8 * j)) &&& 0xff#32).toNat = (Spec.byte t j).toNat := by
  have h : (t >>> (24 - 8 * j)) &&& 0xff#32 = (Spec.byte t j).setWidth 32 := by
    apply BitVec.eq_of_getLsbD_eq
    intro i hi
    interval_cases j <;> interval_cases i <;> simp [Spec.byte]
  rw [h, BitVec.toNat_setWidth]
  exact Nat.mod_eq_of_lt (by have := (Spec.byte t j).isLt; omega)

/-! ## The linear layers are additive -/

theorem rotl_xor (x y : BitVec 32) (n : Nat) :
    (x ^^^ y).rotateLeft n = x.rotateLeft n ^^^ y.rotateLeft n := by
  apply BitVec.eq_of_getLsbD_eq
  intro i hi
  simp only [BitVec.getLsbD_rotateLeft, BitVec.getLsbD_xor]
  by_cases h : i < n % 32 <;> simp [hi, h]

theorem L_xor (x y : BitVec 32) : Spec.L (x ^^^ y) = Spec.L x ^^^ Spec.L y := by
  simp only [Spec.L, rotl_xor]; ac_rfl

theorem L'_xor (x y : BitVec 32) : Spec.L' (x ^^^ y) = Spec.L' x ^^^ Spec.L' y := by
  simp only [Spec.L', rotl_xor]; ac_rfl

theorem word_split (a b c d : Byte) :
    Spec.word a b c d = Spec.word a 0 0 0 ^^^ Spec.word 0 b 0 0 ^^^ Spec.word 0 0 c 0
      ^^^ Spec.word 0 0 0 d := by
  apply BitVec.eq_of_getLsbD_eq
  intro i hi
  interval_cases i <;> simp [Spec.word]

/-! ## The tables -/

theorem xbox3_eq : xbox3 = Spec.sboxTable.map fun s => Spec.L (Spec.word s 0 0 0) := by
  decide +kernel
theorem xbox2_eq : xbox2 = Spec.sboxTable.map fun s => Spec.L (Spec.word 0 s 0 0) := by
  decide +kernel
theorem xbox1_eq : xbox1 = Spec.sboxTable.map fun s => Spec.L (Spec.word 0 0 s 0) := by
  decide +kernel
theorem xbox0_eq : xbox0 = Spec.sboxTable.map fun s => Spec.L (Spec.word 0 0 0 s) := by
  decide +kernel
theorem kbox3_eq : kbox3 = Spec.sboxTable.map fun s => Spec.L' (Spec.word s 0 0 0) := by
  decide +kernel
theorem kbox2_eq : kbox2 = Spec.sboxTable.map fun s => Spec.L' (Spec.word 0 s 0 0) := by
  decide +kernel
theorem kbox1_eq : kbox1 = Spec.sboxTable.map fun s => Spec.L' (Spec.word 0 0 s 0) := by
  decide +kernel
theorem kbox0_eq : kbox0 = Spec.sboxTable.map fun s => Spec.L' (Spec.word 0 0 0 s) := by
  decide +kernel
theorem ck_eq : ck = (List.range 32).map Spec.CK := by decide +kernel

theorem look_map (f : Byte → BitVec 32) (t : BitVec 32) (j : Nat) (hj : j < 4) :
    look (Spec.sboxTable.map f) t (24 - 8 * j) = some (f (Spec.sbox (Spec.byte t j))) := by
  unfold look
  rw [idx_eq t j hj, List.getElem?_map, List.getElem?_eq_getElem
    (by rw [Spec.sboxTable_length]; exact (Spec.byte t j).isLt)]
  rfl

theorem round_eq (x0 x1 x2 x3 rk : BitVec 32) :
    round x0 x1 x2 x3 rk = some (Spec.F x0 x1 x2 x3 rk) := by
  unfold round
  have h3 := look_map (fun s => Spec.L (Spec.word s 0 0 0)) (x1 ^^^ x2 ^^^ x3 ^^^ rk) 0 (by omega)
  have h2 := look_map (fun s => Spec.L (Spec.word 0 s 0 0)) (x1 ^^^ x2 ^^^ x3 ^^^ rk) 1 (by omega)
  have h1 := look_map (fun s => Spec.L (Spec.word 0 0 s 0)) (x1 ^^^ x2 ^^^ x3 ^^^ rk) 2 (by omega)
  have h0 := look_map (fun s => Spec.L (Spec.word 0 0 0 s)) (x1 ^^^ x2 ^^^ x3 ^^^ rk) 3 (by omega)
  rw [← xbox3_eq] at h3; rw [← xbox2_eq] at h2; rw [← xbox1_eq] at h1; rw [← xbox0_eq] at h0
  simp only [Nat.mul_zero, Nat.sub_zero, Nat.mul_one, Nat.reduceMul, Nat.reduceSub] at h0 h1 h2 h3
  simp only [h0, h1, h2, h3, Option.bind_eq_bind, Option.bind_some, Spec.F, Spec.tau]
  conv_rhs => rw [word_split, L_xor, L_xor, L_xor]
  congr 1; ac_rfl

theorem kround_eq (x0 x1 x2 x3 c : BitVec 32) :
    kround x0 x1 x2 x3 c = some (x0 ^^^ Spec.L' (Spec.tau (x1 ^^^ x2 ^^^ x3 ^^^ c))) := by
  unfold kround
  have h3 := look_map (fun s => Spec.L' (Spec.word s 0 0 0)) (x1 ^^^ x2 ^^^ x3 ^^^ c) 0 (by omega)
  have h2 := look_map (fun s => Spec.L' (Spec.word 0 s 0 0)) (x1 ^^^ x2 ^^^ x3 ^^^ c) 1 (by omega)
  have h1 := look_map (fun s => Spec.L' (Spec.word 0 0 s 0)) (x1 ^^^ x2 ^^^ x3 ^^^ c) 2 (by omega)
  have h0 := look_map (fun s => Spec.L' (Spec.word 0 0 0 s)) (x1 ^^^ x2 ^^^ x3 ^^^ c) 3 (by omega)
  rw [← kbox3_eq] at h3; rw [← kbox2_eq] at h2; rw [← kbox1_eq] at h1; rw [← kbox0_eq] at h0
  simp only [Nat.mul_zero, Nat.sub_zero, Nat.mul_one, Nat.reduceMul, Nat.reduceSub] at h0 h1 h2 h3
  simp only [h0, h1, h2, h3, Option.bind_eq_bind, Option.bind_some, Spec.tau]
  conv_rhs => rw [word_split, L'_xor, L'_xor, L'_xor]
  congr 1; ac_rfl

/-! ## The round loops -/

/-- The model's state as the standard's quadruple. -/
def quad (x : St) : Spec.Quad := (x.x0, x.x1, x.x2, x.x3)
/-- And back. -/
def unquad (q : Spec.Quad) : St := ⟨q.1, q.2.1, q.2.2.1, q.2.2.2⟩

theorem iterate_append (a b : List (BitVec 32)) (x : Spec.Quad) :
    Spec.iterate (a ++ b) x = Spec.iterate b (Spec.iterate a x) := by
  induction a generalizing x with
  | nil => rfl
  | cons k a ih => obtain ⟨x0, x1, x2, x3⟩ := x; simp [Spec.iterate, ih]

theorem four_eq (rk : List (BitVec 32)) (i0 i1 i2 i3 : Nat) (x : St)
    (h0 : i0 < rk.length) (h1 : i1 < rk.length) (h2 : i2 < rk.length) (h3 : i3 < rk.length) :
    four rk i0 i1 i2 i3 x = some (unquad (Spec.iterate [rk[i0], rk[i1], rk[i2], rk[i3]] (quad x))) := by
  unfold four
  simp only [List.getElem?_eq_getElem h0, List.getElem?_eq_getElem h1,
    List.getElem?_eq_getElem h2, List.getElem?_eq_getElem h3, round_eq, Option.bind_eq_bind,
    Option.bind_some]
  rfl

theorem take4 (rk : List (BitVec 32)) (i : Nat) (h : i + 3 < rk.length) :
    rk.drop i = [rk[i], rk[i + 1], rk[i + 2], rk[i + 3]] ++ rk.drop (i + 4) := by
  rw [List.drop_eq_getElem_cons (by omega), List.drop_eq_getElem_cons (i := i + 1) (by omega),
    List.drop_eq_getElem_cons (i := i + 1 + 1) (by omega),
    List.drop_eq_getElem_cons (i := i + 1 + 1 + 1) (by omega)]
  rfl

theorem encLoop_eq (rk : List (BitVec 32)) (n i : Nat) (x : St) (h : rk.length = i + 4 * n) :
    encLoop rk n i x = some (unquad (Spec.iterate (rk.drop i) (quad x))) := by
  induction n generalizing i x with
  | zero => rw [List.drop_eq_nil_of_le (by omega)]; rfl
  | succ n ih =>
    unfold encLoop
    rw [four_eq rk _ _ _ _ x (by omega) (by omega) (by omega) (by omega)]
    simp only [Option.bind_eq_bind, Option.bind_some]
    rw [ih (i + 4) _ (by omega), take4 rk i (by omega), iterate_append]
    rfl

theorem decLoop_eq (rk : List (BitVec 32)) (n : Nat) (x : St) (h : 4 * n ≤ rk.length) :
    decLoop rk n x = some (unquad (Spec.iterate (rk.take (4 * n)).reverse (quad x))) := by
  induction n generalizing x with
  | zero => rfl
  | succ n ih =>
    unfold decLoop
    rw [four_eq rk _ _ _ _ x (by omega) (by omega) (by omega) (by omega)]
    simp only [Option.bind_eq_bind, Option.bind_some]
    rw [ih _ (by omega)]
    have : rk.take (4 * (n + 1)) = rk.take (4 * n) ++
        [rk[4 * n], rk[4 * n + 1], rk[4 * n + 2], rk[4 * n + 3]] := by
      have e := take4 rk (4 * n) (by omega)
      conv_lhs => rw [← List.take_append_drop (4 * n) rk, e]
      rw [← List.append_assoc, List.take_append_of_le_length (by simp; omega)]
      exact List.take_of_length_le (by simp; omega)
    rw [this, List.reverse_append, iterate_append]
    rfl

/-! ## Blocks -/

theorem list16 (l : List Byte) (h : 16 ≤ l.length) : ∃ a0 a1 a2 a3 b0 b1 b2 b3 c0 c1 c2 c3 d0 d1 d2 d3 r,
    l = a0 :: a1 :: a2 :: a3 :: b0 :: b1 :: b2 :: b3 :: c0 :: c1 :: c2 :: c3 :: d0 :: d1 :: d2 :: d3 :: r := by
  match l, h with
  | a0 :: a1 :: a2 :: a3 :: b0 :: b1 :: b2 :: b3 :: c0 :: c1 :: c2 :: c3 :: d0 :: d1 :: d2 :: d3 :: r, _ =>
    exact ⟨a0, a1, a2, a3, b0, b1, b2, b3, c0, c1, c2, c3, d0, d1, d2, d3, r, rfl⟩

theorem store_length (q : Spec.Quad) : (Spec.store q).length = 16 := by
  obtain ⟨a, b, c, d⟩ := q; rfl

theorem load_store (q : Spec.Quad) : Spec.load (Spec.store q) = some q := by
  obtain ⟨a, b, c, d⟩ := q
  simp [Spec.load, Spec.store, word_byte]

theorem store_load (l : List Byte) (h : l.length = 16) : ∃ q, Spec.load l = some q ∧ Spec.store q = l := by
  obtain ⟨a0, a1, a2, a3, b0, b1, b2, b3, c0, c1, c2, c3, d0, d1, d2, d3, r, rfl⟩ := list16 l (by omega)
  obtain rfl : r = [] := by
    cases r with
    | nil => rfl
    | cons _ _ => simp at h
  refine ⟨_, rfl, ?_⟩
  simp [Spec.store, byte_word]

theorem block_eq (inp : List Byte) (rk : List (BitVec 32)) (enc : Bool) (hi : 16 ≤ inp.length)
    (hr : rk.length = 32) :
    block inp rk enc = if enc then Spec.encrypt rk (inp.take 16) else Spec.decrypt rk (inp.take 16) := by
  obtain ⟨a0, a1, a2, a3, b0, b1, b2, b3, c0, c1, c2, c3, d0, d1, d2, d3, r, rfl⟩ := list16 inp hi
  unfold block
  simp only [getBe, List.drop_zero, List.drop_succ_cons, getBe_cons, Option.bind_eq_bind,
    Option.bind_some]
  rw [encLoop_eq rk 8 0 _ (by omega), decLoop_eq rk 8 _ (by omega),
    List.take_of_length_le (l := rk) (by omega)]
  cases enc <;>
  · simp only [if_true, if_false, Option.bind_some, Spec.encrypt, Spec.decrypt, Bool.false_eq_true,
      List.take_succ_cons, List.take_zero, Spec.load, Option.map_some, quad, putBe_eq, List.drop_zero]
    rfl

/-! ## The structure of the cipher -/

theorem iterate_rev (ks : List (BitVec 32)) (x : Spec.Quad) :
    Spec.iterate ks.reverse (Spec.R (Spec.iterate ks x)) = Spec.R x := by
  induction ks generalizing x with
  | nil => rfl
  | cons k ks ih =>
    obtain ⟨x0, x1, x2, x3⟩ := x
    rw [List.reverse_cons, iterate_append]
    simp only [Spec.iterate]
    rw [ih]
    simp only [Spec.R, Prod.mk.injEq, true_and, Spec.F]
    rw [show x3 ^^^ x2 ^^^ x1 ^^^ k = x1 ^^^ x2 ^^^ x3 ^^^ k by ac_rfl, BitVec.xor_assoc,
      BitVec.xor_self, BitVec.xor_zero]

theorem R_R (x : Spec.Quad) : Spec.R (Spec.R x) = x := by
  obtain ⟨x0, x1, x2, x3⟩ := x; rfl

theorem dec_enc (rk : List (BitVec 32)) (l : List Byte) (h : l.length = 16) :
    (Spec.encrypt rk l).bind (Spec.decrypt rk) = some l := by
  obtain ⟨q, h1, h2⟩ := store_load l h
  simp only [Spec.encrypt, Spec.decrypt, h1, Option.map_some, Option.bind_some, load_store,
    iterate_rev, R_R, h2]

theorem enc_dec (rk : List (BitVec 32)) (l : List Byte) (h : l.length = 16) :
    (Spec.decrypt rk l).bind (Spec.encrypt rk) = some l := by
  obtain ⟨q, h1, h2⟩ := store_load l h
  have := iterate_rev rk.reverse q
  rw [List.reverse_reverse] at this
  simp only [Spec.encrypt, Spec.decrypt, h1, Option.map_some, Option.bind_some, load_store,
    this, R_R, h2]

/-! ## The key schedule -/

theorem keyLoop_eq (n i : Nat) (x : St) (rk : List (BitVec 32)) (h : i + 4 * n = 32) :
    keyLoop n i x rk = some (rk ++ Spec.schedule (4 * n) i (quad x)) := by
  induction n generalizing i x rk with
  | zero => simp [keyLoop, Spec.schedule]
  | succ n ih =>
    have hc : ∀ j, j < 32 → ck[j]? = some (Spec.CK j) := by
      intro j hj
      rw [ck_eq, List.getElem?_map, List.getElem?_range hj]; rfl
    unfold keyLoop
    simp only [hc (i + 0) (by omega), hc (i + 1) (by omega), hc (i + 2) (by omega),
      hc (i + 3) (by omega), kround_eq, Option.bind_eq_bind, Option.bind_some]
    rw [ih (i + 4) _ _ (by omega), List.append_assoc, show 4 * (n + 1) = 4 * n + 1 + 1 + 1 + 1 by omega]
    simp only [quad, Spec.schedule, List.cons_append, List.nil_append, Nat.add_assoc, Nat.reduceAdd,
      Nat.add_zero]

theorem keyLoop8 (a b c d : BitVec 32) :
    keyLoop 8 0 ⟨a, b, c, d⟩ [] = some (Spec.schedule 32 0 (a, b, c, d)) := by
  have := keyLoop_eq 8 0 ⟨a, b, c, d⟩ [] (by omega)
  rw [List.nil_append] at this
  exact this

theorem expand_load (key : List Byte) (h : key.length = 16) : ∃ q, Spec.load key = some q ∧
    getBe key 0 = some q.1 ∧ getBe key 4 = some q.2.1 ∧ getBe key 8 = some q.2.2.1 ∧
    getBe key 12 = some q.2.2.2 := by
  obtain ⟨a0, a1, a2, a3, b0, b1, b2, b3, c0, c1, c2, c3, d0, d1, d2, d3, r, rfl⟩ := list16 key (by omega)
  obtain rfl : r = [] := by
    cases r with
    | nil => rfl
    | cons _ _ => simp at h
  exact ⟨_, rfl, getBe_cons _ _ _ _ _, getBe_cons _ _ _ _ _, getBe_cons _ _ _ _ _,
    getBe_cons _ _ _ _ _⟩

theorem expand_eq (key : List Byte) (h : key.length = 16) : expand key = Spec.roundKeys key := by
  obtain ⟨q, h0, h1, h2, h3, h4⟩ := expand_load key h
  have f0 : fk[0]? = some Spec.FK.1 := rfl
  have f1 : fk[1]? = some Spec.FK.2.1 := rfl
  have f2 : fk[2]? = some Spec.FK.2.2.1 := rfl
  have f3 : fk[3]? = some Spec.FK.2.2.2 := rfl
  unfold expand Spec.roundKeys
  simp only [h0, h1, h2, h3, h4, f0, f1, f2, f3, Option.bind_eq_bind, Option.bind_some,
    Option.map_some, keyLoop8]

theorem schedule_length (n i : Nat) (q : Spec.Quad) : (Spec.schedule n i q).length = n := by
  induction n generalizing i q with
  | zero => rfl
  | succ n ih => obtain ⟨a, b, c, d⟩ := q; simp [Spec.schedule, ih]

end Verif.Crypto.Sm4
