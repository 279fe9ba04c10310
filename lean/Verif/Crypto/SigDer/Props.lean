import Verif.Crypto.SigDer.Proof

/-! C69: the encoding of ECDSA, SM2 and DSA signatures. -/
namespace Verif.Crypto.SigDer
open Verif.Common Verif.Bsl.Asn1 Verif.Crypto.Bn Verif.Crypto.Sig Verif.Crypto.Sig.Spec

/-- An item in DER: its length has the shortest form. -/
def Spec.DerTlv (tag : Byte) (c data : List Byte) : Prop :=
  ∃ octs, Bsl.Asn1.Spec.IsLength octs c.length ∧ (∀ o', Bsl.Asn1.Spec.IsLength o' c.length → octs.length ≤ o'.length) ∧ data = tag :: (octs ++ c)

/-- The DER encoding of a signature (RFC 3279, 2.2.3): `SEQUENCE { r INTEGER, s INTEGER }`. -/
def Spec.Der (data : List Byte) (r s : Nat) : Prop :=
  ∃ c1 c2 i1 i2, Bsl.Asn1.Spec.Legal c1 ∧ Bsl.Asn1.Spec.intVal c1 = r ∧ Bsl.Asn1.Spec.Legal c2 ∧ Bsl.Asn1.Spec.intVal c2 = s ∧
    Spec.DerTlv 2 c1 i1 ∧ Spec.DerTlv 2 c2 i2 ∧ Spec.DerTlv 0x30 (i1 ++ i2) data

open Spec

/-- C69: decoding accepts exactly a sequence of two non-negative INTEGERs without anything before, between or after, and delivers their
values. -/
theorem decodeSign_exact (data : List Byte) (hb : data.length ≤ 2 ^ 26) :
    (∀ a b, decodeSign data = some (a, b) → ∃ r s, Is a r ∧ Is b s ∧ Encodes data r s) ∧
    (∀ r s, Encodes data r s → ∃ a b, decodeSign data = some (a, b) ∧ Is a r ∧ Is b s) := by
  constructor
  · intro a b h
    unfold decodeSign at h
    split at h
    · cases h
    · split at h
      · rename_i m1 m2 pos hd
        split at h
        · cases h
        · rename_i hz
          split at h
          · cases h
          · rename_i hp
            obtain ⟨o, o1, o2, c1, c2, x, y, b1, b2, d1, d2, a1, a2, a3, hpos, e1, e2⟩ := (decodeTempl_iff data hb _ _ _).1 hd
            have hx : x = [] := List.eq_nil_of_length_eq_zero (by omega)
            have hy : y = [] := List.eq_nil_of_length_eq_zero (by omega)
            subst hx hy
            rw [List.append_nil] at a1 a3
            rw [List.append_nil] at a3
            have n1 : c1 ≠ [] := by rintro rfl; rw [decodeInt_empty _ e1] at hz; exact hz (.inl rfl)
            have n2 : c2 ≠ [] := by rintro rfl; rw [decodeInt_empty _ e2] at hz; exact hz (.inr rfl)
            obtain ⟨l1, r, v1, s1⟩ := (decodeInt_iff c1 m1 n1).1 e1
            obtain ⟨l2, s, v2, s2⟩ := (decodeInt_iff c2 m2 n2).1 e2
            have hlen : c1.length + c2.length ≤ data.length := by rw [a3]; simp; omega
            obtain ⟨ra, f1, g1⟩ := bnOf_spec m1 (by have := shortest_le m1 c1 r s1 l1 v1; omega)
            obtain ⟨sb, f2, g2⟩ := bnOf_spec m2 (by have := shortest_le m2 c2 s s2 l2 v2; omega)
            rw [f1, f2] at h
            simp only [Option.some.injEq, Prod.mk.injEq] at h
            obtain ⟨rfl, rfl⟩ := h
            rw [s1.1] at g1
            rw [s2.1] at g2
            exact ⟨r, s, g1, g2, c1, c2, _, _, l1, v1, l2, v2, ⟨o1, b1, b2, rfl⟩, ⟨o2, d1, d2, rfl⟩, ⟨o, a1, a2, a3⟩⟩
      · cases h
  · rintro r s ⟨c1, c2, i1, i2, l1, v1, l2, v2, ⟨o1, b1, b2, rfl⟩, ⟨o2, d1, d2, rfl⟩, ⟨o, a1, a2, a3⟩⟩
    obtain ⟨m1, e1, s1⟩ := decodeInt_some c1 r l1 v1
    obtain ⟨m2, e2, s2⟩ := decodeInt_some c2 s l2 v2
    have hlen : c1.length + c2.length ≤ data.length := by rw [a3]; simp; omega
    have hd := (decodeTempl_iff data hb m1 m2 data.length).2 ⟨o, o1, o2, c1, c2, [], [], b1, b2, d1, d2, by rw [List.append_nil]; exact a1, a2,
      by rw [List.append_nil, List.append_nil]; exact a3, by simp, e1, e2⟩
    obtain ⟨ra, f1, g1⟩ := bnOf_spec m1 (by have := shortest_le m1 c1 r s1 l1 v1; omega)
    obtain ⟨sb, f2, g2⟩ := bnOf_spec m2 (by have := shortest_le m2 c2 s s2 l2 v2; omega)
    rw [s1.1] at g1
    rw [s2.1] at g2
    refine ⟨ra, sb, ?_, g1, g2⟩
    have h1 : m1.length ≠ 0 := fun h => s1.2.1 (List.eq_nil_of_length_eq_zero h)
    have h2 : m2.length ≠ 0 := fun h => s2.2.1 (List.eq_nil_of_length_eq_zero h)
    unfold decodeSign
    rw [if_neg (by rw [a3]; simp), hd]
    simp only
    rw [if_neg (by omega), if_neg (by simp), f1, f2]

theorem derTlv_item (tag : Byte) (c : List Byte) (h : c.length < 2 ^ 32) : DerTlv tag c (encodeItem tag c) := by
  have e : (BitVec.ofNat 32 c.length).toNat = c.length := by rw [BitVec.toNat_ofNat, Nat.mod_eq_of_lt h]
  obtain ⟨hv, -, -⟩ := encodeLength_valid (BitVec.ofNat 32 c.length)
  rw [e] at hv
  refine ⟨_, hv, fun o' ho => ?_, rfl⟩
  rcases encodeLength_shortest (BitVec.ofNat 32 c.length) o' (by rw [e]; exact ho) with h | h
  · omega
  · rw [h]

theorem derTlv_unique (tag : Byte) (c d : List Byte) (h : c.length < 2 ^ 32) (hd : DerTlv tag c d) : d = encodeItem tag c := by
  obtain ⟨octs, h1, h2, rfl⟩ := hd
  have e : (BitVec.ofNat 32 c.length).toNat = c.length := by rw [BitVec.toNat_ofNat, Nat.mod_eq_of_lt h]
  obtain ⟨hv, -, -⟩ := encodeLength_valid (BitVec.ofNat 32 c.length)
  rw [e] at hv
  rcases encodeLength_shortest (BitVec.ofNat 32 c.length) octs (by rw [e]; exact h1) with h' | h'
  · have := h2 _ hv
    omega
  · rw [← h']
    rfl

theorem item_len (tag : Byte) (c : List Byte) : (encodeItem tag c).length = 1 + lenOctetNum (BitVec.ofNat 32 c.length) + c.length ∧
    lenOctetNum (BitVec.ofNat 32 c.length) ≤ 5 := by
  obtain ⟨-, hl, h5⟩ := encodeLength_valid (BitVec.ofNat 32 c.length)
  rw [hl] at h5
  refine ⟨?_, h5⟩
  unfold encodeItem
  simp only [List.cons_append, List.length_cons, List.length_append, hl]
  omega

/-- C69: a pair of numbers has at most one DER encoding. -/
theorem der_unique (d d' : List Byte) (r s : Nat) (hd : d.length < 2 ^ 32) (hd' : d'.length < 2 ^ 32) (h : Der d r s) (h' : Der d' r s) : d = d' := by
  obtain ⟨c1, c2, i1, i2, l1, v1, l2, v2, t1, t2, t⟩ := h
  obtain ⟨c1', c2', i1', i2', l1', v1', l2', v2', t1', t2', t'⟩ := h'
  have e1 := legal_unique c1 c1' l1 l1' (by rw [v1, v1']) (by rw [v1]; omega)
  have e2 := legal_unique c2 c2' l2 l2' (by rw [v2, v2']) (by rw [v2]; omega)
  subst e1 e2
  have len : ∀ {tag c d}, DerTlv tag c d → c.length < d.length := by
    rintro tag c d ⟨o, -, -, rfl⟩
    simp
  have a := len t
  have a' := len t'
  rw [List.length_append] at a a'
  have b1 := len t1
  have b2 := len t2
  rw [derTlv_unique _ _ _ (by omega) t1, derTlv_unique _ _ _ (by omega) t2] at t
  rw [derTlv_unique _ _ _ (by omega) t1', derTlv_unique _ _ _ (by omega) t2'] at t'
  have g1 := derTlv_unique _ _ _ (by omega) t1
  have g2 := derTlv_unique _ _ _ (by omega) t2
  rw [derTlv_unique _ _ _ (by rw [List.length_append, ← g1, ← g2]; omega) t, derTlv_unique _ _ _ (by rw [List.length_append, ← g1, ← g2]; omega) t']

theorem buffer_spec (a : Bn 32) (r n : Nat) (h : Is a r) (h0 : 0 < r) (hr : r < 256 ^ n) :
    ∃ bs, bnBuffer a = some bs ∧ beVal bs = r ∧ bs ≠ [] ∧ bs.length ≤ n := by
  have hbl := byteLen_iff a h.1
  have hn : (Bn.Spec.int a).natAbs = r := by rw [h.2]; rfl
  rw [hn] at hbl
  have h1 : 1 ≤ bnBytes a := by
    rcases Nat.eq_zero_or_pos (bnBytes a) with e | e
    · have := hbl.1
      rw [e] at this
      simp at this
      omega
    · exact e
  obtain ⟨bs, e, v, l, -, -⟩ := (bn2Bin_exact a h.1 (bnBytes a) h1).1 (by rw [hn]; exact hbl.1)
  refine ⟨bs.map UInt8.toBitVec, by unfold bnBuffer; rw [e]; rfl, by rw [beVal_map, v, hn], ?_, ?_⟩
  · intro hc
    have : bs = [] := by simpa using hc
    rw [this, hn] at v
    have : r = 0 := v.symm
    omega
  · rw [List.length_map]
    have := hbl.2 n hr
    omega

/-- C69: encoding delivers the DER encoding of the two numbers, of at most `n + 1` and `m + 1` octets of contents, unless the buffer is too
small. -/
theorem encodeSign_der (a b : Bn 32) (r s n m : Nat) (ha : Is a r) (hb : Is b s) (r0 : 0 < r) (s0 : 0 < s) (hn : n ≤ 2 ^ 24) (hm : m ≤ 2 ^ 24)
    (hr : r < 256 ^ n) (hs : s < 256 ^ m) : ∃ out, Der out r s ∧ out.length ≤ n + m + 20 ∧
      (∃ c1 c2, out = encodeItem 0x30 (encodeItem 2 c1 ++ encodeItem 2 c2) ∧ c1.length ≤ n + 1 ∧ c2.length ≤ m + 1) ∧
      ∀ room, encodeSign a b room = if out.length ≤ room then some out else none := by
  obtain ⟨x, x1, x2, x3, x4⟩ := buffer_spec a r n ha r0 hr
  obtain ⟨y, y1, y2, y3, y4⟩ := buffer_spec b s m hb s0 hs
  obtain ⟨c1, p1, p2, p3⟩ := encodeInt_legal x x3 (by omega)
  obtain ⟨c2, q1, q2, q3⟩ := encodeInt_legal y y3 (by omega)
  have k1 := intContent_len x c1 x3 (by omega) p1
  have k2 := intContent_len y c2 y3 (by omega) q1
  obtain ⟨j1, j1'⟩ := item_len 2 c1
  obtain ⟨j2, j2'⟩ := item_len 2 c2
  obtain ⟨j3, j3'⟩ := item_len 0x30 (encodeItem 2 c1 ++ encodeItem 2 c2)
  have jl : (encodeItem 2 c1 ++ encodeItem 2 c2).length = (encodeItem 2 c1).length + (encodeItem 2 c2).length := List.length_append
  refine ⟨encodeItem 0x30 (encodeItem 2 c1 ++ encodeItem 2 c2),
    ⟨c1, c2, _, _, p2, by rw [p3, x2], q2, by rw [q3, y2], derTlv_item 2 c1 (by omega), derTlv_item 2 c2 (by omega), derTlv_item _ _ (by omega)⟩,
    by omega, ⟨c1, c2, rfl, by omega, by omega⟩, fun room => ?_⟩
  have na : ¬ (a.neg = true ∨ b.neg = true) := by
    rintro (h | h)
    · have := wf_val_pos (by decide) ha.wf h
      have e := ha.toInt
      unfold Bn.toInt at e
      rw [if_pos h] at e
      omega
    · have := wf_val_pos (by decide) hb.wf h
      have e := hb.toInt
      unfold Bn.toInt at e
      rw [if_pos h] at e
      omega
  unfold encodeSign
  rw [if_neg na, if_neg (by rw [ha.zero, hb.zero]; omega)]
  simp only [x1, y1, Option.bind_eq_bind, Option.bind_some]
  have ht : encodeTempl x y = some (encodeItem 0x30 (encodeItem 2 c1 ++ encodeItem 2 c2)) := by
    have t1 : encodeTlv 2 c1 = some (encodeItem 2 c1) := by unfold encodeTlv; rw [if_neg (by omega)]
    have t2 : encodeTlv 2 c2 = some (encodeItem 2 c2) := by unfold encodeTlv; rw [if_neg (by omega)]
    unfold encodeTempl
    simp only [p1, q1, t1, t2, Option.bind_eq_bind, Option.bind_some]
    rw [if_neg (by omega)]
    unfold encodeTlv
    rw [if_neg (by omega)]
  rw [ht, Option.bind_some]
  split
  · rw [if_neg (by omega)]
  · rw [if_pos (by omega)]

/-- C69: a number that is not positive is not encoded. -/
theorem encodeSign_positive (a b : Bn 32) (ha : Bn.Spec.WellFormed a) (hb : Bn.Spec.WellFormed b) (h : Bn.Spec.int a ≤ 0 ∨ Bn.Spec.int b ≤ 0) (room : Nat) :
    encodeSign a b room = none := by
  have key : ∀ x : Bn 32, Bn.Spec.WellFormed x → Bn.Spec.int x ≤ 0 → x.neg = true ∨ x.data.length = 0 := by
    intro x hx h0
    rw [zero_iff (by decide) x ((wf_iff (by decide) x).mp hx), ← int_eq]
    by_cases hn : x.neg = true
    · exact .inl hn
    · right
      rw [int_eq] at h0 ⊢
      unfold Bn.toInt at h0 ⊢
      rw [if_neg hn] at h0 ⊢
      omega
  unfold encodeSign
  split
  · rfl
  · split
    · rfl
    · rename_i h1 h2
      rcases h with h | h
      · rcases key a ha h with h | h
        · exact absurd (Or.inl h) h1
        · exact absurd (Or.inl h) h2
      · rcases key b hb h with h | h
        · exact absurd (Or.inr h) h1
        · exact absurd (Or.inr h) h2

theorem der_encodes (d : List Byte) (r s : Nat) (h : Der d r s) (hd : d.length ≤ 2 ^ 26) : Encodes d r s := by
  obtain ⟨c1, c2, i1, i2, l1, v1, l2, v2, t1, t2, t⟩ := h
  have len : ∀ {tag c d}, DerTlv tag c d → c.length < d.length := by
    rintro tag c d ⟨o, -, -, rfl⟩
    simp
  have conv : ∀ {tag c d}, c.length < 2 ^ 32 → DerTlv tag c d → Tlv tag c d := by
    intro tag c d hc ht
    rw [derTlv_unique tag c d hc ht]
    obtain ⟨hv, hl, h5⟩ := encodeLength_valid (BitVec.ofNat 32 c.length)
    rw [BitVec.toNat_ofNat, Nat.mod_eq_of_lt hc] at hv
    exact ⟨_, hv, h5, rfl⟩
  have a := len t
  rw [List.length_append] at a
  have b1 := len t1
  have b2 := len t2
  exact ⟨c1, c2, i1, i2, l1, v1, l2, v2, conv (by omega) t1, conv (by omega) t2, conv (by rw [List.length_append]; omega) t⟩

/-- C69: decoding an encoded signature gives the same numbers. -/
theorem decode_encode (a b : Bn 32) (r s n m : Nat) (ha : Is a r) (hb : Is b s) (r0 : 0 < r) (s0 : 0 < s) (hn : n ≤ 2 ^ 24) (hm : m ≤ 2 ^ 24)
    (hr : r < 256 ^ n) (hs : s < 256 ^ m) (room : Nat) (out : List Byte) (h : encodeSign a b room = some out) : decodeSign out = some (a, b) := by
  obtain ⟨o, hd, hl, -, he⟩ := encodeSign_der a b r s n m ha hb r0 s0 hn hm hr hs
  rw [he room] at h
  split at h
  · injection h with h
    subst h
    obtain ⟨a', b', e, ea, eb⟩ := (decodeSign_exact o (by omega)).2 r s (der_encodes o r s hd (by omega))
    rw [e, ea.eq ha, eb.eq hb]
  · cases h

theorem lenOctet_mono (x y : Nat) (h : x ≤ y) (hy : y < 2 ^ 32) : lenOctetNum (BitVec.ofNat 32 x) ≤ lenOctetNum (BitVec.ofNat 32 y) := by
  have ex : (BitVec.ofNat 32 x).toNat = x := by rw [BitVec.toNat_ofNat, Nat.mod_eq_of_lt (by omega)]
  have ey : (BitVec.ofNat 32 y).toNat = y := by rw [BitVec.toNat_ofNat, Nat.mod_eq_of_lt (by omega)]
  obtain ⟨hx, lx, -⟩ := encodeLength_valid (BitVec.ofNat 32 x)
  obtain ⟨hv, ly, l5⟩ := encodeLength_valid (BitVec.ofNat 32 y)
  rw [← lx, ← ly]
  by_contra hc
  rw [ey] at hv
  generalize hg : encodeLength (BitVec.ofNat 32 y) = L at *
  cases hv with
  | short bb hb =>
    have : encodeLength (BitVec.ofNat 32 x) = [(BitVec.ofNat 32 x).setWidth 8] := by
      unfold encodeLength
      rw [if_pos (by rw [ex]; omega)]
    rw [this] at hc
    simp at hc
  | long bb ds hb h1 =>
    -- the same number of octets holds the smaller number too
    have hlt : beVal ds < 256 ^ ds.length := beVal_lt ds
    have hlen : (beBytes ds.length x).length = ds.length := beBytes_length _ _
    have : Bsl.Asn1.Spec.IsLength (bb :: beBytes ds.length x) (beVal (beBytes ds.length x)) := .long bb _ (by rw [hlen]; exact hb) (by rw [hlen]; exact h1)
    rw [beVal_beBytes, Nat.mod_eq_of_lt (by omega)] at this
    rcases encodeLength_shortest (BitVec.ofNat 32 x) _ (by rw [ex]; exact this) with h' | h'
    · simp only [List.length_cons, hlen] at h' hc
      omega
    · rw [h'] at hc
      simp only [List.length_cons, hlen] at hc
      omega

theorem getEncodeLen_val (c t : BitVec 32) (h : getEncodeLen c = some t) : t.toNat = 1 + lenOctetNum c + c.toNat := by
  unfold getEncodeLen at h
  split at h
  · cases h
  · rename_i hn
    have h5 := (encodeLength_valid c).2.2
    rw [(encodeLength_valid c).2.1] at h5
    injection h with h
    have := c.isLt
    rw [← h, BitVec.toNat_add, BitVec.toNat_ofNat, Nat.mod_eq_of_lt (a := 1 + lenOctetNum c) (by omega), Nat.mod_eq_of_lt (by omega)]

/-- C69: a buffer of the length the library computes from the sizes of the two numbers is always large enough. -/
theorem signLen_enough (a b : Bn 32) (r s : Nat) (n m t : BitVec 32) (ha : Is a r) (hb : Is b s) (r0 : 0 < r) (s0 : 0 < s) (hn : n.toNat ≤ 2 ^ 24)
    (hm : m.toNat ≤ 2 ^ 24) (hr : r < 256 ^ n.toNat) (hs : s < 256 ^ m.toNat) (ht : signEncodeLen n m = some t) (room : Nat) (hroom : t.toNat ≤ room) :
    ∃ out, encodeSign a b room = some out := by
  obtain ⟨o, hd, hl, ⟨c1, c2, rfl, k1, k2⟩, he⟩ := encodeSign_der a b r s _ _ ha hb r0 s0 hn hm hr hs
  suffices h : (encodeItem 0x30 (encodeItem 2 c1 ++ encodeItem 2 c2)).length ≤ room from ⟨_, by rw [he room, if_pos h]⟩
  unfold signEncodeLen at ht
  split at ht
  · cases ht
  · split at ht
    · rename_i x y hx hy
      have n1 : (n + 1).toNat = n.toNat + 1 := by rw [BitVec.toNat_add, show (1 : BitVec 32).toNat = 1 from rfl, Nat.mod_eq_of_lt (by omega)]
      have m1 : (m + 1).toNat = m.toNat + 1 := by rw [BitVec.toNat_add, show (1 : BitVec 32).toNat = 1 from rfl, Nat.mod_eq_of_lt (by omega)]
      have vx := getEncodeLen_val _ _ hx
      have vy := getEncodeLen_val _ _ hy
      split at ht
      · cases ht
      · have vt := getEncodeLen_val _ _ ht
        have xy : (x + y).toNat = x.toNat + y.toNat := by rw [BitVec.toNat_add, Nat.mod_eq_of_lt (by omega)]
        obtain ⟨j1, j1'⟩ := item_len 2 c1
        obtain ⟨j2, j2'⟩ := item_len 2 c2
        obtain ⟨j3, j3'⟩ := item_len 0x30 (encodeItem 2 c1 ++ encodeItem 2 c2)
        have jl : (encodeItem 2 c1 ++ encodeItem 2 c2).length = (encodeItem 2 c1).length + (encodeItem 2 c2).length := List.length_append
        have back : ∀ z : BitVec 32, BitVec.ofNat 32 z.toNat = z := fun z => BitVec.eq_of_toNat_eq (by rw [BitVec.toNat_ofNat, Nat.mod_eq_of_lt z.isLt])
        have w1 := lenOctet_mono c1.length (n + 1).toNat (by omega) (by omega)
        have w2 := lenOctet_mono c2.length (m + 1).toNat (by omega) (by omega)
        rw [back] at w1 w2
        have w3 := lenOctet_mono (encodeItem 2 c1 ++ encodeItem 2 c2).length (x + y).toNat (by omega) (x + y).isLt
        rw [back] at w3
        omega
    · cases ht

/-- C69, what decoding accepts beyond DER: a length that is not the shortest. The two byte strings differ and give the same signature. -/
theorem decodeSign_not_unique : ∃ d d', d ≠ d' ∧ decodeSign d = decodeSign d' ∧ (decodeSign d).isSome = true :=
  ⟨[0x30, 6, 2, 1, 5, 2, 1, 7], [0x30, 0x81, 6, 2, 1, 5, 2, 1, 7], by decide, by decide +kernel, by decide +kernel⟩

theorem is_word (w : W 32) (n : Nat) (hn : w.toNat = n) (h0 : w ≠ 0) : Is ⟨false, [w]⟩ n := by
  refine ⟨⟨fun x h => ?_, fun h => by cases h⟩, ?_⟩
  · rw [show ([w] : List (W 32)).getLast? = some w from rfl] at h
    cases h
    exact h0
  · rw [← hn, int_eq]
    show ((val [w] : Nat) : Int) = _
    rw [val, val, Nat.mul_zero, Nat.add_zero]

/-! Cases that meet the hypotheses. -/
example : Is ⟨false, [200]⟩ 200 ∧ Is ⟨false, [0x1234]⟩ 0x1234 ∧ 200 < 256 ^ 1 ∧ 0x1234 < 256 ^ 2 :=
  ⟨is_word _ _ rfl (by decide), is_word _ _ rfl (by decide), by decide, by decide⟩
example : encodeSign ⟨false, [200]⟩ ⟨false, [0x1234]⟩ 10 = some [0x30, 8, 2, 2, 0, 200, 2, 2, 0x12, 0x34] := by decide +kernel
example : encodeSign ⟨false, [200]⟩ ⟨false, [0x1234]⟩ 9 = none := by decide +kernel
example : decodeSign [0x30, 8, 2, 2, 0, 200, 2, 2, 0x12, 0x34] = some (⟨false, [200]⟩, ⟨false, [0x1234]⟩) := by decide +kernel
example : decodeSign [0x30, 8, 2, 2, 0, 200, 2, 2, 0x12, 0x34, 0] = none := by decide +kernel
example : decodeSign [0x30, 7, 2, 2, 0, 200, 2, 2, 0x12, 0x34] = none := by decide +kernel
example : decodeSign [0x30, 7, 2, 1, 200, 2, 2, 0x12, 0x34] = none := by decide +kernel
example : signEncodeLen 32 32 = some 72 := by decide +kernel

end Verif.Crypto.SigDer
