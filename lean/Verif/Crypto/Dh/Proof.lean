import Verif.Crypto.Dh.Spec
import Verif.Crypto.Rsa.KeyProof

/-! Lemmas on the Diffie-Hellman key exchange. -/
namespace Verif.Crypto.Dh
open Verif.Crypto.Bn Verif.Crypto.Sig Verif.Crypto.Sig.Spec Verif.Crypto.Rsa Spec

/-! ### The padding -/

theorem moveUp_spec (fill i : Nat) (buf : List UInt8) (h : i + fill ≤ buf.length) :
    ∃ r, moveUp fill i buf = some r ∧ r.length = buf.length ∧
      ∀ j, r[j]? = if fill ≤ j ∧ j < fill + i then buf[j - fill]? else buf[j]? := by
  induction i generalizing buf with
  | zero => exact ⟨buf, rfl, rfl, fun j => by rw [if_neg (by omega)]⟩
  | succ i ih =>
    unfold moveUp
    rw [List.getElem?_eq_getElem (show i < buf.length by omega)]
    dsimp only
    rw [if_pos (by omega)]
    obtain ⟨r, e, h1, h2⟩ := ih (buf.set (i + fill) buf[i]) (by rw [List.length_set]; omega)
    refine ⟨r, e, by rw [h1, List.length_set], fun j => ?_⟩
    rw [h2, List.getElem?_set, List.getElem?_set]
    by_cases hj : j = i + fill
    · subst hj
      rw [if_neg (by omega), if_pos rfl, if_pos (by omega), if_pos (by omega), Nat.add_sub_cancel, List.getElem?_eq_getElem (by omega)]
    · rw [if_neg (show ¬ i + fill = j by omega)]
      by_cases hr : fill ≤ j ∧ j < fill + i
      · rw [if_pos hr, if_neg (by omega), if_pos (by omega)]
      · rw [if_neg hr, if_neg (by omega)]

theorem zeroUp_spec (i n : Nat) (buf : List UInt8) (h : i + n ≤ buf.length) :
    ∃ r, zeroUp i n buf = some r ∧ r.length = buf.length ∧ ∀ j, r[j]? = if i ≤ j ∧ j < i + n then some 0 else buf[j]? := by
  induction n generalizing i buf with
  | zero => exact ⟨buf, rfl, rfl, fun j => by rw [if_neg (by omega)]⟩
  | succ n ih =>
    unfold zeroUp
    rw [if_pos (by omega)]
    obtain ⟨r, e, h1, h2⟩ := ih (i + 1) (buf.set i 0) (by rw [List.length_set]; omega)
    refine ⟨r, e, by rw [h1, List.length_set], fun j => ?_⟩
    rw [h2, List.getElem?_set]
    by_cases hj : j = i
    · subst hj
      rw [if_neg (by omega), if_pos rfl, if_pos (by omega), if_pos (by omega)]
    · rw [if_neg (show ¬ i = j by omega)]
      by_cases hr : i ≤ j ∧ j < i + (n + 1)
      · rw [if_pos hr, if_pos (by omega)]
      · rw [if_neg hr, if_neg (by omega)]

/-- The padding puts zeros in front and touches nothing behind. -/
theorem fillZero_spec (bs rest : List UInt8) (bytes : Nat) (h : bs.length ≤ bytes) (hb : bytes ≤ bs.length + rest.length) :
    fillZero (bs ++ rest) bs.length bytes =
      some (List.replicate (bytes - bs.length) 0 ++ bs ++ rest.drop (bytes - bs.length), bytes) := by
  unfold fillZero
  by_cases he : bs.length = bytes
  · rw [if_pos he, he, Nat.sub_self]
    rfl
  rw [if_neg he]
  obtain ⟨r1, e1, l1, h1⟩ := moveUp_spec (bytes - bs.length) bs.length (bs ++ rest) (by rw [List.length_append]; omega)
  obtain ⟨r2, e2, l2, h2⟩ := zeroUp_spec 0 (bytes - bs.length) r1 (by rw [l1, List.length_append]; omega)
  rw [e1]
  dsimp only
  rw [e2]
  dsimp only
  congr 2
  refine List.ext_getElem? fun j => ?_
  rw [h2, h1]
  simp only [List.getElem?_append, List.length_append, List.length_replicate, List.getElem?_replicate, List.getElem?_drop]
  by_cases c1 : j < bytes - bs.length
  · rw [if_pos (by omega), if_pos (by omega), if_pos c1, if_pos c1]
  · rw [if_neg (by omega)]
    by_cases c2 : j < bytes
    · rw [if_pos (by omega), if_pos (by omega), if_pos (by omega), if_neg c1]
    · rw [if_neg (by omega), if_neg (by omega), if_neg (by omega)]
      congr 1
      omega

theorem big_zeros (n : Nat) (bs : List UInt8) : Bn.Spec.bigEndian (List.replicate n 0 ++ bs) = Bn.Spec.bigEndian bs := by
  unfold Bn.Spec.bigEndian
  rw [List.map_append, numeral_append, List.map_replicate, show (0 : UInt8).toNat = 0 from rfl, numeral_replicate, Nat.zero_mul, Nat.zero_add]

/-! ### Numbers -/

theorem odd_is {a : Bn 32} {x : Nat} (ha : Is a x) : getBit a.data 0 = true ↔ x % 2 = 1 := by
  have hv : val a.data = x := ha.scalar
  rw [getBit_spec (by decide), hv, Nat.pow_zero, Nat.div_one]

theorem sub_two {p : Bn 32} {x : Nat} (hp : Is p x) (h : 1 < x) : Is (bnSubLimb bnZero p 2) (x - 2) := by
  obtain ⟨h1, h2⟩ := bn_subLimb (h := 32) (by decide) bnZero p 2 hp.1 rfl
  refine ⟨h2, ?_⟩
  rw [h1, hp.2, show ((2 : W 32).toNat : Int) = 2 from rfl]
  omega

theorem add_one {p : Bn 32} {x : Nat} (hp : Is p x) : Is (bnAddLimb p 1) (x + 1) := by
  obtain ⟨h1, h2⟩ := bn_addLimb (h := 32) (by decide) p 1 hp.1
  refine ⟨h2, ?_⟩
  rw [h1, hp.2, show ((1 : W 32).toNat : Int) = 1 from rfl]
  rfl

theorem bytes_is {a : Bn 32} {x n : Nat} (ha : Is a x) (h : Bn.Spec.IsByteLen n x) : bnBytes a = n := by
  have h1 := byteLen_iff a ha.1
  rw [ha.2, Int.natAbs_natCast] at h1
  exact Nat.le_antisymm (h1.2 _ h.1) (h.2 _ h1.1)

theorem toBytes_is {a : Bn 32} {x n : Nat} (ha : Is a x) (h : Bn.Spec.IsByteLen n x) : toBytes (binBits a.data) = n := by
  rw [bits_is ha]
  have key : ∀ m, (Bn.Spec.bits x + 7) / 8 ≤ m ↔ x < 256 ^ m := by
    intro m
    rw [show (256 : Nat) = 2 ^ 8 from rfl, ← pow_mul, ← bits_lt]
    omega
  unfold toBytes
  exact Nat.le_antisymm ((key n).mpr h.1) (h.2 _ ((key _).mp (Nat.le_refl _)))

/-! ### The parameters -/

theorem paraQOk_iff {q r : Bn 32} {n R : Nat} (hq : Is q n) (hr : Is r R) :
    paraQOk q r = true ↔ 2 ^ 159 ≤ n ∧ n % 2 = 1 ∧ n < R ∧ n ∣ R := by
  unfold paraQOk
  have m1 := bits_is hq
  have m2 : Bn.Spec.bits n < 160 ↔ n < 2 ^ 159 := by rw [← bits_lt]; omega
  have m3 := odd_is hq
  have m4 := (hq.cmp hr).1
  rw [m1]
  by_cases c1 : Bn.Spec.bits n < 160
  · rw [if_pos c1]
    have := m2.mp c1
    simp only [Bool.false_eq_true, false_iff, not_and]
    intro h; exact absurd this (Nat.not_lt.mpr h)
  rw [if_neg c1]
  have c1' : 2 ^ 159 ≤ n := Nat.not_lt.mp (fun h => c1 (m2.mpr h))
  by_cases c2 : n % 2 = 1
  · rw [if_neg (by rw [m3.mpr c2]; decide)]
    by_cases c3 : R ≤ n
    · rw [if_pos (m4.mpr c3)]
      simp only [Bool.false_eq_true, false_iff, not_and]
      intro _ _ h; exact absurd h (Nat.not_lt.mpr c3)
    · rw [if_neg (fun h => c3 (m4.mp h))]
      have h0 : 0 < n := Nat.lt_of_lt_of_le (Nat.pow_pos (by decide)) c1'
      obtain ⟨qq, rr, e, g⟩ := rem_is hr hq h0
      rw [e]
      dsimp only
      rw [decide_eq_true_iff, g.zero, ← Nat.dvd_iff_mod_eq_zero]
      exact ⟨fun h => ⟨c1', c2, Nat.not_le.mp c3, h⟩, fun h => h.2.2.2⟩
  · rw [if_pos (by rw [← Bool.not_eq_true, m3]; exact c2)]
    simp only [Bool.false_eq_true, false_iff, not_and]
    intro _ h; exact absurd h c2

theorem paraDataOk_iff {a : Para} {P G : Nat} {Q : Option Nat} (hp : Is a.p P) (hg : Is a.g G)
    (hq : (a.q = none ∧ Q = none) ∨ ∃ q n, a.q = some q ∧ Q = some n ∧ Is q n) : paraDataOk a = true ↔ Good P G Q := by
  unfold paraDataOk Good
  rw [bits_is hp]
  have m1 : Bn.Spec.bits P < 768 ↔ P < 2 ^ 767 := by rw [← bits_lt]; omega
  have m2 : Bn.Spec.bits P > 8192 ↔ ¬ P < 2 ^ 8192 := by rw [← bits_lt]; omega
  have m3 := odd_is hp
  by_cases c1 : Bn.Spec.bits P < 768 ∨ Bn.Spec.bits P > 8192
  · rw [if_pos c1]
    simp only [Bool.false_eq_true, false_iff]
    rintro ⟨⟨h1, h2⟩, -⟩
    rcases c1 with h | h
    · exact absurd (m1.mp h) (Nat.not_lt.mpr h1)
    · exact m2.mp h h2
  rw [if_neg c1]
  rw [m1, m2, not_or, not_not, Nat.not_lt] at c1
  have hP : 1 < P := Nat.lt_of_lt_of_le (Nat.one_lt_two_pow (by decide)) c1.1
  by_cases c2 : P % 2 = 1
  · rw [if_neg (by rw [m3.mpr c2]; decide)]
    simp only [hg.zero, isOne_iff hg]
    have hr := sub_one hp (by omega)
    by_cases c3 : G = 0 ∨ G = 1
    · rw [if_pos c3]
      simp only [Bool.false_eq_true, false_iff]
      rintro ⟨-, -, ⟨h, -⟩, -⟩
      omega
    · rw [if_neg c3]
      by_cases c4 : P - 1 ≤ G
      · rw [if_pos ((hg.cmp hr).1.mpr c4)]
        simp only [Bool.false_eq_true, false_iff]
        rintro ⟨-, -, ⟨-, h⟩, -⟩
        omega
      · rw [if_neg (fun h => c4 ((hg.cmp hr).1.mp h))]
        rcases hq with ⟨e1, rfl⟩ | ⟨q, n, e1, rfl, g⟩
        · rw [e1]
          exact ⟨fun _ => ⟨c1, c2, ⟨by omega, by omega⟩, fun n h => by cases h⟩, fun _ => rfl⟩
        · rw [e1]
          dsimp only
          rw [paraQOk_iff g hr]
          refine ⟨fun h => ⟨c1, c2, ⟨by omega, by omega⟩, fun n' e => ?_⟩, fun h => h.2.2.2 n rfl⟩
          cases e
          exact h
  · rw [if_pos (by rw [← Bool.not_eq_true, m3]; exact c2)]
    simp only [Bool.false_eq_true, false_iff]
    rintro ⟨-, h, -⟩
    exact c2 h

theorem xLimb_is {a : Para} {P G : Nat} {Q : Option Nat} (D : Domain a P G Q) : Is (xLimb a) (maxPrv P Q) := by
  have hP : 1 < P := Nat.lt_of_lt_of_le (Nat.one_lt_two_pow (by decide)) D.good.1.1
  unfold xLimb maxPrv
  rcases D.order with ⟨e1, rfl⟩ | ⟨q, n, e1, rfl, g⟩
  · rw [e1]
    exact sub_two D.modulus hP
  · rw [e1]
    have := (D.good.2.2.2 n rfl).1
    exact sub_one g (Nat.lt_of_lt_of_le (by decide) this)

theorem pubOk_iff {y r : Bn 32} {Y R : Nat} (hy : Is y Y) (hr : Is r R) : pubOk y r = true ↔ 1 < Y ∧ Y < R := by
  unfold pubOk
  have m := (hy.cmp hr).1
  simp only [hy.zero, isOne_iff hy]
  by_cases c1 : Y = 0 ∨ Y = 1
  · rw [if_pos c1]
    simp only [Bool.false_eq_true, false_iff]
    omega
  · rw [if_neg c1]
    by_cases c2 : R ≤ Y
    · rw [if_pos (m.mpr c2)]
      simp only [Bool.false_eq_true, false_iff]
      omega
    · rw [if_neg (fun h => c2 (m.mp h))]
      simp only [true_iff]
      omega

theorem level_is (b c : Nat) (h : b ≤ 8192) :
    (let bits := levelOf b
     let bits := if c ≥ bits then bits else c
     if bits < 80 then 0 else bits) =
    (let s := if b ≤ 1023 then 0 else if b ≤ 2047 then 80 else if b ≤ 3071 then 112 else if b ≤ 7679 then 128 else 192
     if min s c < 80 then 0 else min s c) := by
  have e : levelOf b = if b ≤ 1023 then 0 else if b ≤ 2047 then 80 else if b ≤ 3071 then 112 else if b ≤ 7679 then 128 else 192 := by
    unfold levelOf
    split_ifs <;> omega
  dsimp only
  rw [← e]
  generalize levelOf b = l
  have : (if c ≥ l then l else c) = min l c := by split_ifs <;> omega
  rw [this]

theorem secBits_is {p q : Bn 32} {P n : Nat} (hp : Is p P) (hq : Is q n) (hP : P < 2 ^ 8192) : secBits p q = strength P n := by
  unfold secBits strength
  rw [bits_is hp, bits_is hq]
  exact level_is _ _ ((bits_lt P 8192).mpr hP)

theorem two_pow (k : Nat) : ∃ r, bnLshift (bnLimb 1 : Bn 32) k = some r ∧ Is r (2 ^ k) := by
  have h1 : Is (bnLimb 1 : Bn 32) 1 := is_small 1 1 rfl (by decide)
  obtain ⟨r, e, e1, e2⟩ := bn_lshift (h := 32) (by decide) (bnLimb 1) k h1.1
  refine ⟨r, e, e2, ?_⟩
  rw [e1, h1.2]
  push_cast
  ring

end Verif.Crypto.Dh
