import Verif.Crypto.SigDer.Model
import Verif.Bsl.Asn1.LenProps
import Verif.Bsl.Asn1.IntProps
import Verif.Crypto.Sig.Proof

namespace Verif.Crypto.SigDer
open Verif.Common Verif.Bsl.Asn1 Verif.Crypto.Bn Verif.Crypto.Sig Verif.Crypto.Sig.Spec

/-- An item with the given tag and contents, and a length of at most four octets, not necessarily the shortest. -/
def Spec.Tlv (tag : Byte) (c data : List Byte) : Prop :=
  ∃ octs, Bsl.Asn1.Spec.IsLength octs c.length ∧ octs.length ≤ 5 ∧ data = tag :: (octs ++ c)

/-- A sequence of two INTEGERs with the values `r` and `s`. -/
def Spec.Encodes (data : List Byte) (r s : Nat) : Prop :=
  ∃ c1 c2 i1 i2, Bsl.Asn1.Spec.Legal c1 ∧ Bsl.Asn1.Spec.intVal c1 = r ∧ Bsl.Asn1.Spec.Legal c2 ∧ Bsl.Asn1.Spec.intVal c2 = s ∧
    Spec.Tlv 2 c1 i1 ∧ Spec.Tlv 2 c2 i2 ∧ Spec.Tlv 0x30 (i1 ++ i2) data

open Spec

theorem pn_iff (tag : Byte) (view m : List Byte) (used : Nat) (hb : view.length ≤ 2 ^ 26) :
    processNormal tag view = .ok (m, used) ↔ ∃ octs c rest, Bsl.Asn1.Spec.IsLength octs c.length ∧ octs.length ≤ 5 ∧
      view = tag :: (octs ++ (c ++ rest)) ∧ used = 1 + octs.length + (if constructed tag then 0 else c.length) ∧
      (if tag = 2 ∨ tag = 10 then decodeIntContent c else .ok c) = .ok m := by
  constructor
  · intro h
    unfold processNormal at h
    split at h
    · cases h
    · rename_i b temp
      split at h
      · cases h
      · rename_i ht
        split at h
        · cases h
        · rename_i len rest hd
          obtain ⟨octs, o1, o2, o3, o4, -⟩ := (decodeLen_iff _ _ _).1 hd
          rw [if_neg (by omega)] at h
          dsimp only at h
          refine ⟨octs, rest.take len.toNat, rest.drop len.toNat, ?_, o4, ?_, ?_, ?_⟩
          · rw [List.length_take, Nat.min_eq_left o3]; exact o1
          · rw [List.take_append_drop, ← o2, not_not.mp ht]
          · split at h
            · cases h
            · injection h with h; injection h with h1 h2
              rw [← h2, List.length_take, Nat.min_eq_left o3, o2]
              simp only [List.length_cons, List.length_append]
              omega
          · split at h
            · cases h
            · rename_i cc hc
              injection h with h; injection h with h1 h2
              rw [← h1]; exact hc
  · rintro ⟨octs, c, rest, o1, o2, rfl, rfl, hm⟩
    simp only [List.length_cons, List.length_append] at hb
    have hc : (BitVec.ofNat 32 c.length).toNat = c.length := by rw [BitVec.toNat_ofNat, Nat.mod_eq_of_lt (by omega)]
    have hd : decodeLen false (octs ++ (c ++ rest)) = .ok (BitVec.ofNat 32 c.length, c ++ rest) :=
      (decodeLen_iff _ _ _).2 ⟨octs, by rw [hc]; exact o1, rfl, by rw [hc, List.length_append]; omega, o2, fun _ => by rw [hc]; omega⟩
    unfold processNormal
    simp only [ne_eq, not_true, if_false, hd, hc]
    rw [if_neg (by rw [List.length_append]; omega), List.take_left, hm]
    simp only [List.length_cons, List.length_append]
    congr 2
    omega

theorem seq_con : constructed 0x30 = true := by decide
theorem int_con : constructed 2 = false := by decide

/-- What the template decoder accepts. -/
theorem decodeTempl_iff (data : List Byte) (hb : data.length ≤ 2 ^ 26) (m1 m2 : List Byte) (pos : Nat) :
    decodeTempl data signTempl 0 (data.length :: List.replicate 7 0) = .ok ([m1, m2], pos) ↔
      ∃ o o1 o2 c1 c2 x y, Bsl.Asn1.Spec.IsLength o1 c1.length ∧ o1.length ≤ 5 ∧ Bsl.Asn1.Spec.IsLength o2 c2.length ∧ o2.length ≤ 5 ∧
        Bsl.Asn1.Spec.IsLength o (((2 : Byte) :: (o1 ++ c1)) ++ ((2 : Byte) :: (o2 ++ c2)) ++ x).length ∧ o.length ≤ 5 ∧
        data = 0x30 :: (o ++ ((((2 : Byte) :: (o1 ++ c1)) ++ ((2 : Byte) :: (o2 ++ c2)) ++ x) ++ y)) ∧ pos + x.length + y.length = data.length ∧
        decodeIntContent c1 = .ok m1 ∧ decodeIntContent c2 = .ok m2 := by
  have v0 : (data.drop 0).take (data.length - 0) = data := by simp
  have e2 : (2 : Byte) = 2 ∨ (2 : Byte) = 10 := .inl rfl
  have e3 : ¬ ((0x30 : Byte) = 2 ∨ (0x30 : Byte) = 10) := by decide
  constructor
  · intro h
    unfold signTempl decodeTempl at h
    rw [if_neg (by decide)] at h
    simp only [List.getElem?_cons_zero, v0] at h
    split at h
    · cases h
    · rename_i c used hp
      obtain ⟨o, c', y, a1, a2, a3, a4, a5⟩ := (pn_iff _ _ _ _ hb).1 hp
      rw [if_neg e3] at a5
      injection a5 with a5
      subst a5
      rw [seq_con, if_pos rfl] at a4 h
      -- inside the sequence
      have hdl : data.length = 1 + o.length + c'.length + y.length := by rw [a3]; simp; omega
      unfold decodeTempl at h
      rw [if_neg (by decide)] at h
      simp only [List.replicate, List.set_cons_succ, List.set_cons_zero, List.getElem?_cons_succ, List.getElem?_cons_zero] at h
      have v1 : (data.drop (0 + used)).take (0 + used + c'.length - (0 + used)) = c' := by
        rw [a3, a4, show 0 + (1 + o.length + 0) = o.length + 1 by omega, List.drop_succ_cons, List.drop_left,
          show o.length + 1 + c'.length - (o.length + 1) = c'.length by omega, List.take_left]
      rw [v1] at h
      split at h
      · cases h
      · rename_i n1 used1 hp1
        obtain ⟨o1, c1, r1, b1, b2, b3, b4, b5⟩ := (pn_iff _ _ _ _ (by omega)).1 hp1
        rw [if_pos e2] at b5
        rw [int_con, if_neg (by decide)] at b4 h
        unfold decodeTempl at h
        rw [if_neg (by decide)] at h
        simp only [List.getElem?_cons_succ, List.getElem?_cons_zero] at h
        have v2 : (data.drop (0 + used + used1)).take (0 + used + c'.length - (0 + used + used1)) = r1 := by
          have q : data = ((0x30 : Byte) :: (o ++ (2 :: (o1 ++ c1)))) ++ (r1 ++ y) := by rw [a3, b3]; simp [List.append_assoc]
          have ql : ((0x30 : Byte) :: (o ++ (2 :: (o1 ++ c1)))).length = 0 + used + used1 := by simp; omega
          have cl : c'.length = used1 + r1.length := by rw [b3]; simp; omega
          rw [q, ← ql, List.drop_left, ql, show 0 + used + c'.length - (0 + used + used1) = r1.length by omega, List.take_left]
        rw [v2] at h
        have cl : c'.length = used1 + r1.length := by rw [b3]; simp; omega
        cases hp2 : processNormal 2 r1 with
        | error e => rw [hp2] at h; cases h
        | ok pr =>
          obtain ⟨n2, used2⟩ := pr
          obtain ⟨o2, c2, r2, d1, d2, d3, d4, d5⟩ := (pn_iff _ _ _ _ (by omega)).1 hp2
          rw [if_pos e2] at d5
          rw [int_con, if_neg (by decide)] at d4
          rw [hp2] at h
          simp only [int_con, if_neg (show ¬ (false = true) by decide), decodeTempl] at h
          injection h with h
          injection h with h1 h2
          injection h1 with h3 h4
          injection h4 with h5 h6
          subst h3 h5
          have rl : r1.length = used2 + r2.length := by rw [d3]; simp; omega
          refine ⟨o, o1, o2, c1, c2, r2, y, b1, b2, d1, d2, ?_, a2, ?_, by omega, b5, d5⟩
          · rw [show ((2 : Byte) :: (o1 ++ c1)) ++ ((2 : Byte) :: (o2 ++ c2)) ++ r2 = c' by rw [b3, d3]; simp [List.append_assoc]]
            exact a1
          · rw [show ((2 : Byte) :: (o1 ++ c1)) ++ ((2 : Byte) :: (o2 ++ c2)) ++ r2 = c' by rw [b3, d3]; simp [List.append_assoc]]
            exact a3
  · rintro ⟨o, o1, o2, c1, c2, x, y, b1, b2, d1, d2, a1, a2, a3, hpos, b5, d5⟩
    generalize hc' : ((2 : Byte) :: (o1 ++ c1)) ++ ((2 : Byte) :: (o2 ++ c2)) ++ x = c' at *
    have b3 : c' = 2 :: (o1 ++ (c1 ++ (2 :: (o2 ++ (c2 ++ x))))) := by rw [← hc']; simp [List.append_assoc]
    have hdl : data.length = 1 + o.length + c'.length + y.length := by rw [a3]; simp; omega
    have cl : c'.length = 1 + o1.length + c1.length + (1 + o2.length + c2.length + x.length) := by rw [b3]; simp; omega
    have p0 : processNormal 0x30 data = .ok (c', 1 + o.length) :=
      (pn_iff _ _ _ _ hb).2 ⟨o, c', y, a1, a2, a3, by rw [seq_con, if_pos rfl, Nat.add_zero], by rw [if_neg e3]⟩
    have p1 : processNormal 2 c' = .ok (m1, 1 + o1.length + c1.length) :=
      (pn_iff _ _ _ _ (by omega)).2 ⟨o1, c1, _, b1, b2, b3, by rw [int_con, if_neg (by decide)], by rw [if_pos e2]; exact b5⟩
    have p2 : processNormal 2 ((2 : Byte) :: (o2 ++ (c2 ++ x))) = .ok (m2, 1 + o2.length + c2.length) :=
      (pn_iff _ _ _ _ (by simp; omega)).2 ⟨o2, c2, x, d1, d2, rfl, by rw [int_con, if_neg (by decide)], by rw [if_pos e2]; exact d5⟩
    have v1 : (data.drop (0 + (1 + o.length))).take (0 + (1 + o.length) + c'.length - (0 + (1 + o.length))) = c' := by
      rw [a3, show 0 + (1 + o.length) = o.length + 1 by omega, List.drop_succ_cons, List.drop_left,
        show o.length + 1 + c'.length - (o.length + 1) = c'.length by omega, List.take_left]
    have v2 : (data.drop (0 + (1 + o.length) + (1 + o1.length + c1.length))).take
        (0 + (1 + o.length) + c'.length - (0 + (1 + o.length) + (1 + o1.length + c1.length))) = 2 :: (o2 ++ (c2 ++ x)) := by
      have q : data = ((0x30 : Byte) :: (o ++ (2 :: (o1 ++ c1)))) ++ (((2 : Byte) :: (o2 ++ (c2 ++ x))) ++ y) := by rw [a3, b3]; simp [List.append_assoc]
      have ql : ((0x30 : Byte) :: (o ++ (2 :: (o1 ++ c1)))).length = 0 + (1 + o.length) + (1 + o1.length + c1.length) := by simp; omega
      have rl : ((2 : Byte) :: (o2 ++ (c2 ++ x))).length = 1 + o2.length + c2.length + x.length := by simp; omega
      rw [q, ← ql, List.drop_left, ql, show 0 + (1 + o.length) + c'.length - (0 + (1 + o.length) + (1 + o1.length + c1.length)) =
        ((2 : Byte) :: (o2 ++ (c2 ++ x))).length by omega, List.take_left]
    unfold signTempl
    rw [decodeTempl, if_neg (by decide)]
    simp only [List.getElem?_cons_zero, v0, p0, seq_con, if_true]
    rw [decodeTempl, if_neg (by decide)]
    simp only [List.replicate, List.set_cons_succ, List.set_cons_zero, List.getElem?_cons_succ, List.getElem?_cons_zero, v1, p1, int_con]
    rw [if_neg (by decide), decodeTempl, if_neg (by decide)]
    simp only [List.getElem?_cons_succ, List.getElem?_cons_zero, v2, p2, int_con]
    rw [if_neg (by decide), decodeTempl]
    simp only
    congr 2
    omega

theorem bigEndian_map : ∀ c : List Byte, Bn.Spec.bigEndian (c.map UInt8.ofBitVec) = beVal c
  | [] => rfl
  | b :: c => by
    have ih := bigEndian_map c
    unfold Bn.Spec.bigEndian at ih ⊢
    rw [List.map_cons, List.map_cons, numeral_cons, ih, beVal_cons, List.length_map, List.length_map, Nat.mul_comm]
    rfl

theorem beVal_map : ∀ c : List UInt8, beVal (c.map UInt8.toBitVec) = Bn.Spec.bigEndian c
  | [] => rfl
  | b :: c => by
    have ih := beVal_map c
    unfold Bn.Spec.bigEndian at ih ⊢
    rw [List.map_cons, List.map_cons, numeral_cons, beVal_cons, ih, List.length_map, List.length_map, Nat.mul_comm]
    rfl

theorem bnOf_spec (c : List Byte) (h : c.length ≤ 2 ^ 26) : ∃ r, bnOf c = some r ∧ Is r (beVal c) := by
  have hb := bigEndian_lt (c.map UInt8.ofBitVec)
  rw [show (256 : Nat) = 2 ^ 8 from rfl, ← Nat.pow_mul, List.length_map] at hb
  obtain ⟨r, e, r1, r2⟩ := bin2Bn_exact _ (8 * c.length) (by omega) hb
  exact ⟨r, e, r2, by rw [r1, bigEndian_map]⟩

theorem shortest_le (m c : List Byte) (n : Nat) (h : Bsl.Asn1.Spec.Shortest m n) (hc : Bsl.Asn1.Spec.Legal c) (hn : Bsl.Asn1.Spec.intVal c = n) :
    m.length ≤ c.length := by
  refine h.2.2 c hc.1 ?_
  cases c with
  | nil => exact absurd rfl hc.1
  | cons b l =>
    have h0 : 0 ≤ Bsl.Asn1.Spec.intVal (b :: l) := by rw [hn]; omega
    have hb := (intVal_nonneg_iff b l).1 h0
    unfold Bsl.Asn1.Spec.intVal at hn
    simp only at hn
    rw [if_neg (by omega)] at hn
    exact_mod_cast hn

theorem decodeInt_some (c : List Byte) (n : Nat) (h : Bsl.Asn1.Spec.Legal c) (hn : Bsl.Asn1.Spec.intVal c = n) :
    ∃ m, decodeIntContent c = .ok m ∧ Bsl.Asn1.Spec.Shortest m n := by
  obtain ⟨s1, s2, s3⟩ := stripZeros_spec c h.1
  have hb : beVal c = n := by
    cases c with
    | nil => exact absurd rfl h.1
    | cons b l =>
      have h0 : 0 ≤ Bsl.Asn1.Spec.intVal (b :: l) := by rw [hn]; omega
      have hb := (intVal_nonneg_iff b l).1 h0
      unfold Bsl.Asn1.Spec.intVal at hn
      simp only at hn
      rw [if_neg (by omega)] at hn
      exact_mod_cast hn
  have hs := shortest_of _ s2 s3
  rw [s1, hb] at hs
  exact ⟨_, (decodeInt_iff c _ h.1).2 ⟨h, n, hn, hs⟩, hs⟩

theorem decodeInt_empty (m : List Byte) (h : decodeIntContent [] = .ok m) : m = [] := by
  unfold decodeIntContent at h
  rw [if_neg (by decide)] at h
  injection h with h
  exact h.symm

theorem intContent_len (buff c : List Byte) (hne : buff ≠ []) (hlen : buff.length < 2 ^ 32 - 1) (h : encodeIntContent buff = some c) :
    c.length ≤ buff.length + 1 := by
  obtain ⟨z, d, rfl, hd⟩ := split_zeros buff
  have hz : z + d.length ≠ 0 := by
    intro h
    have h1 : z = 0 := by omega
    have h2 : d = [] := List.eq_nil_of_length_eq_zero (by omega)
    subst h1 h2; simp at hne
  rw [encodeIntContent_zeros z d hd hz (by simpa using hlen), Option.some.injEq] at h
  rw [← h]
  simp only [List.length_append, List.length_replicate]
  cases d with
  | nil => simp [derOf]
  | cons b l => unfold derOf; simp only; split <;> simp only [List.length_cons] <;> omega

end Verif.Crypto.SigDer
