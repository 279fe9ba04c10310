import Verif.Tls.Reass.Proof
/-! # Simulation between the reassembly code and its specification -/
namespace Verif.Tls.Reass
open Verif.Common Spec

/-- What the header parser extracts from a fragment. -/
def toInfo (f : Frag) : Info :=
  { type := f.type, length := f.length, seq := f.seq, off := f.off, fragLen := f.body.length, raw := f.encode }

def hdr9 (ty : Byte) (len seq off : Nat) : List Byte := ty :: (beBytes 3 len ++ beBytes 2 seq ++ beBytes 3 off)

@[simp] theorem hdr9_length (ty : Byte) (len seq off : Nat) : (hdr9 ty len seq off).length = 9 := by simp [hdr9]

theorem encode_eq (f : Frag) :
    f.encode = hdr9 f.type f.length f.seq f.off ++ beBytes 3 f.body.length ++ f.body := by
  simp [Frag.encode, hdr9]

theorem encode_take (f : Frag) : f.encode.take 12 = hdr9 f.type f.length f.seq f.off ++ beBytes 3 f.body.length := by
  rw [encode_eq, List.take_left' (by simp)]

theorem encode_drop (f : Frag) : f.encode.drop 12 = f.body := by
  rw [encode_eq, List.drop_left' (by simp)]

theorem encode_length (f : Frag) : f.encode.length = 12 + f.body.length := by
  rw [encode_eq]; simp; omega

theorem beBytes3 (a b c : Byte) : beBytes 3 (beVal [a, b, c]) = [a, b, c] := beBytes_beVal [a, b, c]
theorem beBytes2 (a b : Byte) : beBytes 2 (beVal [a, b]) = [a, b] := beBytes_beVal [a, b]

theorem length3 {l : List Byte} (h : l.length = 3) : ∃ a b c, l = [a, b, c] := by
  match l, h with
  | [a, b, c], _ => exact ⟨a, b, c, rfl⟩
theorem length2 {l : List Byte} (h : l.length = 2) : ∃ a b, l = [a, b] := by
  match l, h with
  | [a, b], _ => exact ⟨a, b, rfl⟩

theorem parseHeader_encode {cfg : Cfg} {f : Frag} (h : f.WF cfg) : parseHeader cfg f.encode = some (toInfo f) := by
  obtain ⟨ht, hl, hs, ho, hb, hm⟩ := h
  have e : f.encode = f.encode := rfl
  obtain ⟨l0, l1, l2, hL⟩ := length3 (beBytes_length 3 f.length)
  obtain ⟨s0, s1, hS⟩ := length2 (beBytes_length 2 f.seq)
  obtain ⟨o0, o1, o2, hO⟩ := length3 (beBytes_length 3 f.off)
  obtain ⟨f0, f1, f2, hF⟩ := length3 (beBytes_length 3 f.body.length)
  have vL : beVal [l0, l1, l2] = f.length := by
    rw [← hL, beVal_beBytes]; exact Nat.mod_eq_of_lt (by omega)
  have vS : beVal [s0, s1] = f.seq := by
    rw [← hS, beVal_beBytes]; exact Nat.mod_eq_of_lt (by omega)
  have vO : beVal [o0, o1, o2] = f.off := by
    rw [← hO, beVal_beBytes]; exact Nat.mod_eq_of_lt (by omega)
  have vF : beVal [f0, f1, f2] = f.body.length := by
    rw [← hF, beVal_beBytes]; exact Nat.mod_eq_of_lt (by omega)
  have henc : f.encode = f.type :: l0 :: l1 :: l2 :: s0 :: s1 :: o0 :: o1 :: o2 :: f0 :: f1 :: f2 :: f.body := by
    simp [Frag.encode, hL, hS, hO, hF]
  unfold parseHeader
  rw [if_neg (by rw [encode_length, hdrSize]; omega), henc]
  simp only
  rw [if_neg (by omega), vL, vS, vO, vF]
  rw [if_neg, if_neg (by omega), if_neg (by simp)]
  · simp [toInfo, henc]
  · rintro (hc | ⟨hc, hc2⟩)
    · omega
    · exact hb hc (List.eq_nil_of_length_eq_zero hc2)

theorem parseHeader_some {cfg : Cfg} {raw : List Byte} {i : Info} (h : parseHeader cfg raw = some i) :
    ∃ f : Frag, f.WF cfg ∧ raw = f.encode ∧ i = toInfo f := by
  unfold parseHeader at h
  by_cases h1 : raw.length < hdrSize
  · rw [if_pos h1] at h; exact absurd h (by simp)
  · rw [if_neg h1] at h
    split at h
    · rename_i t l0 l1 l2 s0 s1 o0 o1 o2 f0 f1 f2 body
      by_cases h2 : t.toNat ≥ 255
      · rw [if_pos h2] at h; exact absurd h (by simp)
      rw [if_neg h2] at h
      simp only at h
      by_cases h3 : beVal [f0, f1, f2] + beVal [o0, o1, o2] > beVal [l0, l1, l2] ∨
        (beVal [l0, l1, l2] ≠ 0 ∧ beVal [f0, f1, f2] = 0)
      · rw [if_pos h3] at h; exact absurd h (by simp)
      rw [if_neg h3] at h
      by_cases h4 : beVal [l0, l1, l2] > cfg.maxLen t
      · rw [if_pos h4] at h; exact absurd h (by simp)
      rw [if_neg h4] at h
      by_cases h5 : beVal [f0, f1, f2] ≠ body.length
      · rw [if_pos h5] at h; exact absurd h (by simp)
      rw [if_neg h5] at h
      have h5 : beVal [f0, f1, f2] = body.length := Decidable.not_not.1 h5
      have henc : (t :: l0 :: l1 :: l2 :: s0 :: s1 :: o0 :: o1 :: o2 :: f0 :: f1 :: f2 :: body) =
          Frag.encode { type := t, length := beVal [l0, l1, l2], seq := beVal [s0, s1], off := beVal [o0, o1, o2],
                        body := body } := by
        simp only [Frag.encode, beBytes3, beBytes2, ← h5]
        simp
      refine ⟨{ type := t, length := beVal [l0, l1, l2], seq := beVal [s0, s1], off := beVal [o0, o1, o2],
                body := body }, ?_, henc, ?_⟩
      · refine ⟨by simp only; omega, ?_, ?_, ?_, ?_, ?_⟩
        · have := beVal_lt [l0, l1, l2]
          simp only [List.length_cons, List.length_nil] at this ⊢
          omega
        · have := beVal_lt [s0, s1]
          simp only [List.length_cons, List.length_nil] at this ⊢
          omega
        · simp only; omega
        · intro hne hnil
          simp only at hne hnil
          subst hnil
          apply h3; right; exact ⟨hne, h5⟩
        · simp only; omega
      · rw [← Option.some.inj h, toInfo, ← henc]
        simp [h5]
    · exact absurd h (by simp)

theorem byteAt_append (fs : List Frag) (f : Frag) (i : Nat) :
    byteAt (fs ++ [f]) i = if f.off ≤ i ∧ i < f.off + f.body.length then f.body[i - f.off]? else byteAt fs i := by
  simp [byteAt, List.foldl_append]

theorem byteAt_isSome_append (fs : List Frag) (f : Frag) (i : Nat) :
    (byteAt (fs ++ [f]) i).isSome = ((byteAt fs i).isSome || decide (f.off ≤ i ∧ i < f.off + f.body.length)) := by
  rw [byteAt_append]
  by_cases h : f.off ≤ i ∧ i < f.off + f.body.length
  · rw [if_pos h, List.getElem?_eq_getElem (by omega)]; simp [h]
  · rw [if_neg h, decide_eq_false h]; simp

/-- What a queue entry of message `(ty, len, seq)` holds after the fragments `fs`. -/
structure NodeInv (ty : Byte) (len seq : Nat) (n : Node) (fs : List Frag) : Prop where
  hty : n.type = ty
  hseq : n.seq = seq
  hlen : n.msgLen = 12 + len
  small : len < 2 ^ 24
  msgLen : n.msg.length = 12 + len
  bmLen : n.bitmap.length = (len + 7) / 8
  frags : ∀ f ∈ fs, f.type = ty ∧ f.length = len ∧ f.seq = seq ∧ f.off + f.body.length ≤ len
  bits : ∀ j, bit n.bitmap j = (byteAt fs j).isSome
  high : ∀ j, len ≤ j → byteAt fs j = none
  body : ∀ j b, byteAt fs j = some b → n.msg[12 + j]? = some b
  hdr : (∃ f ∈ fs, f.off = 0) → ∀ i < 9, n.msg[i]? = (hdr9 ty len seq 0)[i]?
  fin : n.complete = true → ∀ i < 3, n.msg[9 + i]? = (beBytes 3 len)[i]?
  compl : n.complete = true ↔ fs ≠ [] ∧ ∀ j < len, (byteAt fs j).isSome

theorem nodeNew_inv {cfg : Cfg} {f : Frag} (h : f.WF cfg) : NodeInv f.type f.length f.seq (nodeNew (toInfo f)) [] := by
  refine ⟨rfl, rfl, rfl, h.2.1, by simp [nodeNew, toInfo, hdrSize], ?_, by simp, ?_, by simp [byteAt], by simp [byteAt],
    by simp, by simp [nodeNew], by simp [nodeNew]⟩
  · by_cases h0 : f.length = 0
    · simp [nodeNew, toInfo, h0]
    · simp [nodeNew, toInfo, h0]
  · intro j
    simp only [byteAt, List.foldl_nil, Option.isSome_none]
    unfold bit nodeNew toInfo
    simp only
    by_cases h0 : f.length = 0
    · simp [h0]
    · rw [if_pos h0, List.getElem?_replicate]
      by_cases hj : j / 8 < (f.length + 7) / 8
      · rw [if_pos hj]; simp
      · rw [if_neg hj]

/-- The header step of `ReassembleMsg`. -/
theorem reassembleMsg_header {cfg : Cfg} {n : Node} {fs : List Frag} {f : Frag} (hwf : f.WF cfg)
    (hn : NodeInv f.type f.length f.seq n fs) :
    ∃ msg1, reassembleMsg (toInfo f) n = reassembleBody (toInfo f) { n with msg := msg1 } ∧
      msg1.length = n.msg.length ∧ (∀ i, 12 ≤ i → msg1[i]? = n.msg[i]?) ∧
      ((∃ g ∈ fs ++ [f], g.off = 0) → ∀ i < 9, msg1[i]? = (hdr9 f.type f.length f.seq 0)[i]?) ∧
      (f.length = 0 → ∀ i < 3, msg1[9 + i]? = (beBytes 3 f.length)[i]?) := by
  obtain ⟨_, hl, _, ho, _, _⟩ := hwf
  have hle := hn.hlen
  have hml := hn.msgLen
  unfold reassembleMsg
  simp only
  rw [if_neg (by
    simp only [toInfo, hdrSize]
    rw [hle]
    rintro (h | h | h)
    · omega
    · exact h hn.hty
    · omega)]
  by_cases h0 : f.off = 0
  · rw [if_pos (by simpa [toInfo] using h0), if_neg (by simp [hdrSize, hle])]
    have htk : (toInfo f).raw.take hdrSize = hdr9 f.type f.length f.seq 0 ++ beBytes 3 f.body.length := by
      rw [← h0]; exact encode_take f
    rw [htk]
    obtain ⟨msg1, hw, hlen, hget⟩ := writeAt_some (buf := n.msg) (off := 0)
      (data := hdr9 f.type f.length f.seq 0 ++ beBytes 3 f.body.length) (by simp; omega)
    rw [hw]
    refine ⟨msg1, rfl, hlen, ?_, ?_, ?_⟩
    · intro i hi
      rw [hget, if_neg (by simp; omega)]
    · intro _ i hi
      rw [hget, if_pos (by simp; omega), List.getElem?_append_left (by simp; omega)]; simp
    · intro hz i hi
      have hb : f.body.length = 0 := by omega
      rw [hget, if_pos (by simp; omega), List.getElem?_append_right (by simp), hb, hz]
      simp
  · rw [if_neg (by simpa [toInfo] using h0)]
    refine ⟨n.msg, rfl, rfl, fun _ _ => rfl, ?_, ?_⟩
    · rintro ⟨g, hg, hg0⟩
      apply hn.hdr
      rw [List.mem_append, List.mem_singleton] at hg
      rcases hg with hg | hg
      · exact ⟨g, hg, hg0⟩
      · subst hg; exact absurd hg0 h0
    · intro hz; omega

theorem reassembleBody_inv {n n1 : Node} {fs : List Frag} {f : Frag} (hl : f.length < 2 ^ 24)
    (ho : f.off + f.body.length ≤ f.length) (hbn : f.length ≠ 0 → f.body ≠ [])
    (hn : NodeInv f.type f.length f.seq n fs) (h1t : n1.type = n.type) (h1s : n1.seq = n.seq)
    (h1l : n1.msgLen = n.msgLen) (h1b : n1.bitmap = n.bitmap) (h1c : n1.complete = n.complete)
    (hlen1 : n1.msg.length = n.msg.length) (hhi1 : ∀ i, 12 ≤ i → n1.msg[i]? = n.msg[i]?)
    (hhdr1 : (∃ g ∈ fs ++ [f], g.off = 0) → ∀ i < 9, n1.msg[i]? = (hdr9 f.type f.length f.seq 0)[i]?)
    (hz1 : f.length = 0 → ∀ i < 3, n1.msg[9 + i]? = (beBytes 3 f.length)[i]?) :
    ∃ n', reassembleBody (toInfo f) n1 = .ok n' ∧ NodeInv f.type f.length f.seq n' (fs ++ [f]) := by
  have hle : n1.msgLen = 12 + f.length := h1l.trans hn.hlen
  have hml : n1.msg.length = 12 + f.length := hlen1.trans hn.msgLen
  have hbm : n1.bitmap.length = (f.length + 7) / 8 := by rw [h1b]; exact hn.bmLen
  have hfr : ∀ g ∈ fs ++ [f], g.type = f.type ∧ g.length = f.length ∧ g.seq = f.seq ∧ g.off + g.body.length ≤ f.length := by
    intro g hg
    rw [List.mem_append, List.mem_singleton] at hg
    rcases hg with hg | hg
    · exact hn.frags g hg
    · subst hg; exact ⟨rfl, rfl, rfl, ho⟩
  have hhigh : ∀ j, f.length ≤ j → byteAt (fs ++ [f]) j = none := by
    intro j hj
    rw [byteAt_append, if_neg (by omega)]
    exact hn.high j hj
  unfold reassembleBody
  by_cases hzero : n1.msgLen = hdrSize
  · have hz : f.length = 0 := by unfold hdrSize at hzero; omega
    have hb0 : f.body.length = 0 := by omega
    rw [if_pos hzero]
    refine ⟨_, rfl, h1t.trans hn.hty, h1s.trans hn.hseq, hle, hl, hml, hbm, hfr, ?_, hhigh, ?_, ?_, ?_, ?_⟩
    · intro j
      rw [byteAt_isSome_append, decide_eq_false (by omega), Bool.or_false]
      have := hn.bits j
      rw [← h1b] at this
      exact this
    · intro j b hj
      rw [hhigh j (by omega)] at hj; exact absurd hj (by simp)
    · exact hhdr1
    · intro _; exact hz1 hz
    · simp [hz]
  · rw [if_neg hzero]
    have hpos : 0 < f.length := by unfold hdrSize at hzero; omega
    have hbpos : 0 < f.body.length := List.length_pos_iff.2 (hbn (by omega))
    have hnf : ¬ (toInfo f).fragLen > n1.msgLen - (hdrSize + (toInfo f).off) := by
      show ¬ f.body.length > n1.msgLen - (12 + f.off)
      omega
    rw [if_neg hnf]
    have hbody : ((toInfo f).raw.drop hdrSize).take (toInfo f).fragLen = f.body := by
      show (f.encode.drop 12).take f.body.length = f.body
      rw [encode_drop, List.take_length]
    rw [hbody]
    obtain ⟨msg2, hw2, hlen2, hget2⟩ := writeAt_some (buf := n1.msg) (off := 12 + f.off) (data := f.body)
      (by omega)
    have hw2' : writeAt n1.msg (hdrSize + (toInfo f).off) f.body = some msg2 := hw2
    obtain ⟨bm, hset, hbl, hbits⟩ := setReassBitMap_spec (m := n1.bitmap) (off := f.off) (len := f.body.length)
      hbpos (by omega) (by omega)
    have hset' : setReassBitMap n1.bitmap (toInfo f).off (toInfo f).fragLen = some bm := hset
    have hbits' : ∀ j, bit bm j = (byteAt (fs ++ [f]) j).isSome := by
      intro j; rw [hbits, byteAt_isSome_append, h1b, hn.bits]
    have hml' : n1.msgLen - hdrSize = f.length := by unfold hdrSize; omega
    obtain ⟨b, hc, hcb⟩ := isReassComplete_spec (m := bm) (n := f.length) hpos (by omega) (by omega)
      (fun j hj => by rw [hbits', hhigh j hj]; rfl)
    have hcov : b = true ↔ ∀ j < f.length, (byteAt (fs ++ [f]) j).isSome := by
      rw [hcb]
      constructor
      · intro h j hj; rw [← hbits']; exact h j hj
      · intro h j hj; rw [hbits']; exact h j hj
    have hbody2 : ∀ j c, byteAt (fs ++ [f]) j = some c → msg2[12 + j]? = some c := by
      intro j c hj
      rw [byteAt_append] at hj
      rw [hget2]
      by_cases hr : f.off ≤ j ∧ j < f.off + f.body.length
      · rw [if_pos hr] at hj
        have e : 12 + j - (12 + f.off) = j - f.off := by omega
        rw [if_pos (by omega), ← hj, e]
      · rw [if_neg hr] at hj
        rw [if_neg (by omega), hhi1 _ (by omega)]
        exact hn.body j c hj
    have hlow2 : ∀ i < 12, msg2[i]? = n1.msg[i]? := by
      intro i hi
      rw [hget2, if_neg (by omega)]
    rw [hw2', hset', hml']
    show ∃ n', (match isReassComplete bm f.length with
      | none => RRes.oob
      | some false => RRes.ok { n1 with msg := msg2, bitmap := bm }
      | some true =>
        match writeAt msg2 9 (beBytes 3 (toInfo f).length) with
        | none => RRes.oob
        | some msg' => RRes.ok { n1 with msg := msg', bitmap := bm, complete := true }) = RRes.ok n' ∧ _
    rw [hc]
    cases b with
    | false =>
      refine ⟨_, rfl, h1t.trans hn.hty, h1s.trans hn.hseq, hle, hl, hlen2.trans hml, hbl.trans hbm, hfr, hbits', hhigh,
        hbody2, ?_, ?_, ?_⟩
      · intro h0 i hi
        have := hhdr1 h0 i hi
        rw [← hlow2 i (by omega)] at this
        exact this
      · intro hcomp
        exfalso
        have h1 := (hn.compl.1 (h1c ▸ hcomp)).2
        have : false = true := hcov.2 (fun j hj => by
          rw [byteAt_isSome_append, h1 j hj]; rfl)
        exact absurd this (by simp)
      · constructor
        · intro hcomp
          have h1 := (hn.compl.1 (h1c ▸ hcomp)).2
          exact ⟨by simp, fun j hj => by rw [byteAt_isSome_append, h1 j hj]; rfl⟩
        · intro h
          exact absurd (hcov.2 h.2) (by simp)
    | true =>
      obtain ⟨msg3, hw3, hlen3, hget3⟩ := writeAt_some (buf := msg2) (off := 9) (data := beBytes 3 f.length)
        (by simp; omega)
      have hw3' : writeAt msg2 9 (beBytes 3 (toInfo f).length) = some msg3 := hw3
      rw [beBytes_length] at hget3
      refine ⟨{ n1 with msg := msg3, bitmap := bm, complete := true }, ?_, h1t.trans hn.hty, h1s.trans hn.hseq, hle, hl, (hlen3.trans hlen2).trans hml, hbl.trans hbm, hfr,
        hbits', hhigh, ?_, ?_, ?_, ?_⟩
      · show (match writeAt msg2 9 (beBytes 3 (toInfo f).length) with
          | none => RRes.oob
          | some msg' => RRes.ok { n1 with msg := msg', bitmap := bm, complete := true }) = _
        rw [hw3']
      · intro j c hj
        show msg3[12 + j]? = _
        rw [hget3, if_neg (by omega)]; exact hbody2 j c hj
      · intro h0 i hi
        show msg3[i]? = _
        rw [hget3, if_neg (by omega), hlow2 i (by omega)]; exact hhdr1 h0 i hi
      · intro _ i hi
        show msg3[9 + i]? = _
        have e : 9 + i - 9 = i := by omega
        rw [hget3, if_pos (by omega), e]
      · exact ⟨fun _ => ⟨by simp, hcov.1 rfl⟩, fun _ => rfl⟩

theorem reassembleMsg_inv {cfg : Cfg} {n : Node} {fs : List Frag} {f : Frag} (hwf : f.WF cfg)
    (hn : NodeInv f.type f.length f.seq n fs) :
    ∃ n', reassembleMsg (toInfo f) n = .ok n' ∧ NodeInv f.type f.length f.seq n' (fs ++ [f]) := by
  obtain ⟨msg1, hr, hlen1, hhi1, hhdr1, hz1⟩ := reassembleMsg_header hwf hn
  rw [hr]
  exact reassembleBody_inv hwf.2.1 hwf.2.2.2.1 hwf.2.2.2.2.1 hn rfl rfl rfl rfl rfl hlen1 hhi1 hhdr1 hz1

/-! ## The queue -/

theorem getNode_seq {q : List Node} {x : Nat} {n : Node} (h : getNode q x = some n) : n.seq = x := by
  have := List.find?_some h
  simpa using this

theorem getNode_putNode {n : Node} : ∀ {q : List Node} (x : Nat), (∃ m, getNode q n.seq = some m) →
    getNode (putNode n q) x = if x = n.seq then some n else getNode q x
  | [], x, ⟨m, h⟩ => by simp [getNode] at h
  | a :: q, x, ⟨m, h⟩ => by
    unfold putNode
    by_cases ha : a.seq = n.seq
    · rw [if_pos (by simpa using ha)]
      by_cases hx : x = n.seq
      · subst hx; simp [getNode]
      · rw [if_neg hx]
        have h1 : ¬ n.seq = x := fun e => hx e.symm
        have h2 : ¬ a.seq = x := fun e => hx (e.symm.trans ha)
        simp [getNode, h1, h2]
    · rw [if_neg (by simpa using ha)]
      have h' : ∃ m, getNode q n.seq = some m := ⟨m, by simpa [getNode, ha] using h⟩
      have ih := getNode_putNode (q := q) x h'
      by_cases hx : a.seq = x
      · subst hx; rw [if_neg ha]; simp [getNode]
      · have e1 : getNode (a :: putNode n q) x = getNode (putNode n q) x := by simp [getNode, hx]
        have e2 : getNode (a :: q) x = getNode q x := by simp [getNode, hx]
        rw [e1, e2, ih]

theorem putNode_seqs (n : Node) : ∀ q : List Node, (putNode n q).map Node.seq = q.map Node.seq
  | [] => rfl
  | a :: q => by
    unfold putNode
    by_cases ha : a.seq = n.seq
    · rw [if_pos (by simpa using ha)]; simp [ha]
    · rw [if_neg (by simpa using ha)]; simp [putNode_seqs n q]

theorem getNode_none_iff {q : List Node} {x : Nat} : getNode q x = none ↔ x ∉ q.map Node.seq := by
  unfold getNode
  rw [List.find?_eq_none]
  simp

theorem getNode_eraseP : ∀ {q : List Node} (x y : Nat), (q.map Node.seq).Nodup →
    getNode (q.eraseP (fun m => m.seq == x)) y = if y = x then none else getNode q y
  | [], x, y, _ => by simp [getNode]
  | a :: q, x, y, h => by
    rw [List.map_cons, List.nodup_cons] at h
    by_cases ha : a.seq = x
    · rw [List.eraseP_cons_of_pos (by simpa using ha)]
      by_cases hy : y = x
      · subst hy; rw [if_pos rfl, getNode_none_iff, ← ha]; exact h.1
      · rw [if_neg hy]
        have : ¬ a.seq = y := fun e => hy (e.symm.trans ha)
        simp [getNode, this]
    · rw [List.eraseP_cons_of_neg (by simpa using ha)]
      have ih := getNode_eraseP (q := q) x y h.2
      by_cases hy : a.seq = y
      · subst hy; rw [if_neg ha]; simp [getNode]
      · have e1 : getNode (a :: q.eraseP (fun m => m.seq == x)) y = getNode (q.eraseP (fun m => m.seq == x)) y := by
          simp [getNode, hy]
        have e2 : getNode (a :: q) y = getNode q y := by simp [getNode, hy]
        rw [e1, e2, ih]

theorem eraseP_nodup {q : List Node} (x : Nat) (h : (q.map Node.seq).Nodup) :
    ((q.eraseP (fun m => m.seq == x)).map Node.seq).Nodup :=
  h.sublist ((List.eraseP_sublist).map _)

/-- The held fragments of message number `x`. -/
def ofSeq (fs : List Frag) (x : Nat) : List Frag := fs.filter (fun g => g.seq == x)

/-- Concrete and specification state agree. -/
structure Rel (s : State) (t : Spec.State) : Prop where
  expect : s.expect = t.expect
  nodup : (s.queue.map Node.seq).Nodup
  node : ∀ x, (getNode s.queue x = none ∧ ofSeq t.held x = []) ∨
    (∃ n ty len, getNode s.queue x = some n ∧ NodeInv ty len x n (ofSeq t.held x) ∧ ofSeq t.held x ≠ [])

theorem mapM_range_some {g : Nat → Option Byte} : ∀ {n : Nat} {body : List Byte},
    (List.range n).mapM g = some body ↔ body.length = n ∧ ∀ i < n, g i = body[i]?
  | 0, body => by
    simp only [List.range_zero, List.mapM_nil, Option.pure_def, Option.some.injEq]
    constructor
    · rintro rfl; simp
    · rintro ⟨h, _⟩; exact (List.eq_nil_of_length_eq_zero h).symm
  | n + 1, body => by
    rw [List.range_succ, List.mapM_append]
    simp only [List.mapM_cons, List.mapM_nil, Option.pure_def, Option.bind_eq_bind]
    constructor
    · intro h
      rw [Option.bind_eq_some_iff] at h
      obtain ⟨b1, h1, h2⟩ := h
      rw [Option.bind_eq_some_iff] at h2
      obtain ⟨b2, h2, h3⟩ := h2
      rw [Option.bind_eq_some_iff] at h2
      obtain ⟨c, hc, h4⟩ := h2
      simp at h4 h3
      subst h4 h3
      obtain ⟨hl, hg⟩ := mapM_range_some.1 h1
      refine ⟨by simp [hl], fun i hi => ?_⟩
      by_cases hin : i < n
      · rw [List.getElem?_append_left (by omega), hg i hin]
      · have : i = n := by omega
        subst this
        rw [List.getElem?_append_right (by omega), hc]; simp [hl]
    · rintro ⟨hl, hg⟩
      obtain ⟨b1, c, rfl⟩ : ∃ b1 c, body = b1 ++ [c] :=
        ⟨body.dropLast, body.getLast (by intro h; simp [h] at hl), (List.dropLast_concat_getLast _).symm⟩
      have hl1 : b1.length = n := by simpa using hl
      have h1 : (List.range n).mapM g = some b1 := mapM_range_some.2 ⟨hl1, fun i hi => by
        rw [hg i (by omega), List.getElem?_append_left (by omega)]⟩
      have h2 : g n = some c := by
        rw [hg n (by omega), List.getElem?_append_right (by omega)]; simp [hl1]
      rw [h1]; simp [h2]

theorem mapM_range_none {g : Nat → Option Byte} {n : Nat} : (List.range n).mapM g = none ↔ ∃ i < n, g i = none := by
  constructor
  · intro h
    apply Classical.byContradiction
    intro hc
    have hall : ∀ i < n, (g i).isSome := by
      intro i hi
      cases hgi : g i with
      | none => exact absurd ⟨i, hi, hgi⟩ hc
      | some _ => rfl
    let body := (List.range n).map (fun i => (g i).getD 0)
    have : (List.range n).mapM g = some body := mapM_range_some.2 ⟨by simp [body], fun i hi => by
      have := hall i hi
      obtain ⟨b, hb⟩ := Option.isSome_iff_exists.1 this
      simp [body, hi, hb]⟩
    rw [h] at this; exact absurd this (by simp)
  · rintro ⟨i, hi, hg⟩
    cases hm : (List.range n).mapM g with
    | none => rfl
    | some body =>
      obtain ⟨hl, h2⟩ := mapM_range_some.1 hm
      rw [h2 i hi, List.getElem?_eq_none_iff] at hg
      omega

theorem list_reverse_rec {α : Type} {P : List α → Prop} (h0 : P []) (h1 : ∀ l a, P l → P (l ++ [a])) (l : List α) :
    P l := by
  have : ∀ l : List α, P l.reverse := by
    intro l
    induction l with
    | nil => exact h0
    | cons a l ih => rw [List.reverse_cons]; exact h1 _ _ ih
  have h := this l.reverse
  rwa [List.reverse_reverse] at h

/-- A byte is only ever covered by one of the fragments. -/
theorem byteAt_mem : ∀ {fs : List Frag} {i : Nat} {b : Byte}, byteAt fs i = some b →
    ∃ f ∈ fs, f.off ≤ i ∧ i < f.off + f.body.length ∧ f.body[i - f.off]? = some b := by
  intro fs
  induction fs using list_reverse_rec with
  | h0 => intro i b h; simp [byteAt] at h
  | h1 fs f ih =>
    intro i b h
    rw [byteAt_append] at h
    by_cases hc : f.off ≤ i ∧ i < f.off + f.body.length
    · rw [if_pos hc] at h; exact ⟨f, by simp, hc.1, hc.2, h⟩
    · rw [if_neg hc] at h
      obtain ⟨g, hg, h1⟩ := ih h
      exact ⟨g, by simp [hg], h1⟩

theorem msg_eq {ty : Byte} {len x : Nat} {n : Node} {fs : List Frag} {body : List Byte} (hn : NodeInv ty len x n fs)
    (hc : n.complete = true) (ha : assemble len fs = some body) : n.msg.take n.msgLen = encodeMsg ty x body := by
  obtain ⟨hl, hg⟩ := mapM_range_some.1 ha
  obtain ⟨hne, hall⟩ := hn.compl.1 hc
  have hfull : n.msg.take n.msgLen = n.msg := by
    rw [hn.hlen, ← hn.msgLen, List.take_length]
  have henc : encodeMsg ty x body = hdr9 ty len x 0 ++ beBytes 3 len ++ body := by
    unfold encodeMsg; rw [encode_eq]; simp only [hl]
  have h0 : ∃ f ∈ fs, f.off = 0 := by
    by_cases hz : len = 0
    · obtain ⟨f, hf⟩ := List.exists_mem_of_ne_nil fs hne
      exact ⟨f, hf, by have := (hn.frags f hf).2.2.2; omega⟩
    · obtain ⟨b, hb⟩ := Option.isSome_iff_exists.1 (hall 0 (by omega))
      obtain ⟨f, hf, h1, _⟩ := byteAt_mem hb
      exact ⟨f, hf, by omega⟩
  rw [hfull, henc]
  apply List.ext_getElem?
  intro i
  by_cases h9 : i < 9
  · rw [hn.hdr h0 i h9, List.append_assoc, List.getElem?_append_left (by simpa using h9)]
  · by_cases h12 : i < 12
    · have := hn.fin hc (i - 9) (by omega)
      have e : 9 + (i - 9) = i := by omega
      rw [e] at this
      rw [this, List.append_assoc, List.getElem?_append_right (by simp; omega),
        List.getElem?_append_left (by simp; omega), hdr9_length]
    · by_cases hin : i < 12 + len
      · have h1 := hg (i - 12) (by omega)
        obtain ⟨b, hb⟩ := Option.isSome_iff_exists.1 (hall (i - 12) (by omega))
        have h2 := hn.body (i - 12) b hb
        have e : 12 + (i - 12) = i := by omega
        rw [e] at h2
        rw [h2, List.getElem?_append_right (by simp; omega), ← hb, h1]
        simp
      · rw [List.getElem?_eq_none (by rw [hn.msgLen]; omega), List.getElem?_eq_none (by simp; omega)]

theorem getMsg_ready {s : State} {t : Spec.State} (h : Rel s t) :
    (ready t = none ∧ getMsg s.expect s.queue = none) ∨
    (∃ m, ready t = some m ∧ getMsg s.expect s.queue = some (m, s.queue.eraseP (fun n => n.seq == s.expect))) := by
  have hN := h.node s.expect
  unfold ready getMsg
  rw [← h.expect]
  rcases hN with ⟨hg, hf⟩ | ⟨n, ty, len, hg, hn, hne⟩
  · left
    rw [hg]
    unfold ofSeq at hf
    rw [hf]; exact ⟨rfl, rfl⟩
  · rw [hg]
    have hfd : t.held.filter (fun g => g.seq == s.expect) = ofSeq t.held s.expect := rfl
    rw [hfd]
    cases hos : ofSeq t.held s.expect with
    | nil => exact absurd hos hne
    | cons f fs =>
      rw [hos] at hn
      obtain ⟨e1, e2, e3, _⟩ := hn.frags f (by simp)
      simp only [e1, e2, e3]
      cases ha : assemble len (f :: fs) with
      | none =>
        left
        obtain ⟨i, hi, hi2⟩ := mapM_range_none.1 ha
        have : n.complete = false := by
          cases hcc : n.complete with
          | false => rfl
          | true =>
            have := (hn.compl.1 hcc).2 i hi
            rw [hi2] at this; exact absurd this (by simp)
        rw [this]
        exact ⟨rfl, by simp⟩
      | some body =>
        right
        obtain ⟨hl, hg2⟩ := mapM_range_some.1 ha
        have hc : n.complete = true := hn.compl.2 ⟨by simp, fun j hj => by
          rw [hg2 j hj, List.getElem?_eq_getElem (by omega)]; rfl⟩
        refine ⟨encodeMsg ty s.expect body, rfl, ?_⟩
        rw [hc, ← msg_eq hn hc ha]
        simp

theorem ofSeq_append (fs : List Frag) (f : Frag) (x : Nat) :
    ofSeq (fs ++ [f]) x = if f.seq = x then ofSeq fs x ++ [f] else ofSeq fs x := by
  unfold ofSeq
  rw [List.filter_append]
  by_cases hx : f.seq = x
  · simp [hx]
  · simp [hx]

theorem rel_put {s : State} {t : Spec.State} {cfg : Cfg} {f : Frag} {q : List Node} {n : Node} (hwf : f.WF cfg)
    (hexp : s.expect = t.expect) (hnd : (q.map Node.seq).Nodup) (hg : getNode q f.seq = some n)
    (hother : ∀ x, x ≠ f.seq → (getNode q x = none ∧ ofSeq t.held x = []) ∨
      (∃ n ty len, getNode q x = some n ∧ NodeInv ty len x n (ofSeq t.held x) ∧ ofSeq t.held x ≠ []))
    (hn : NodeInv f.type f.length f.seq n (ofSeq t.held f.seq)) :
    ∃ n', reassembleMsg (toInfo f) n = .ok n' ∧
      Rel { s with queue := putNode n' q } { t with held := t.held ++ [f] } := by
  obtain ⟨n', hr, hn'⟩ := reassembleMsg_inv hwf hn
  refine ⟨n', hr, hexp, ?_, ?_⟩
  · show ((putNode n' q).map Node.seq).Nodup
    rw [putNode_seqs]; exact hnd
  · intro x
    show (getNode (putNode n' q) x = none ∧ ofSeq (t.held ++ [f]) x = []) ∨ _
    have hgp := getNode_putNode (n := n') (q := q) x ⟨n, by rw [hn'.hseq]; exact hg⟩
    rw [hn'.hseq] at hgp
    by_cases hx : x = f.seq
    · right
      rw [if_pos hx] at hgp
      subst hx
      refine ⟨n', f.type, f.length, hgp, ?_, ?_⟩
      · show NodeInv f.type f.length f.seq n' (ofSeq (t.held ++ [f]) f.seq)
        rw [ofSeq_append, if_pos rfl]; exact hn'
      · show ofSeq (t.held ++ [f]) f.seq ≠ []
        rw [ofSeq_append, if_pos rfl]; simp
    · rw [if_neg hx] at hgp
      rw [ofSeq_append, if_neg (fun e => hx e.symm), hgp]
      exact hother x hx

theorem hold_sim {cfg : Cfg} {s : State} {t : Spec.State} {f : Frag} (hwf : f.WF cfg) (h : Rel s t) :
    (append s.expect (toInfo f) s.queue).1 = (hold f t).1 ∧
    Rel { s with queue := (append s.expect (toInfo f) s.queue).2 } (hold f t).2 := by
  have hseq : (toInfo f).seq = f.seq := rfl
  unfold append hold
  rw [hseq, maxExceed, ← h.expect]
  by_cases hfar : f.seq > s.expect + 10
  · rw [if_pos hfar, if_pos hfar]; exact ⟨rfl, h⟩
  rw [if_neg hfar, if_neg hfar]
  have hhead : t.held.find? (fun g => g.seq == f.seq) = (ofSeq t.held f.seq).head? := by
    unfold ofSeq; rw [List.head?_filter]
  rw [hhead]
  rcases h.node f.seq with ⟨hg, hf⟩ | ⟨n, ty, len, hg, hn, hne⟩
  · have hg2 : getNode (s.queue ++ [nodeNew (toInfo f)]) f.seq = some (nodeNew (toInfo f)) := by
      unfold getNode at hg ⊢
      rw [List.find?_append, hg]
      simp [nodeNew, toInfo]
    obtain ⟨n', hr, hrel⟩ := rel_put (s := s) (t := t) (q := s.queue ++ [nodeNew (toInfo f)])
      (n := nodeNew (toInfo f)) hwf h.expect
      (by
        rw [List.map_append, List.nodup_append]
        refine ⟨h.nodup, by simp, ?_⟩
        intro a ha b hb
        have hb : b = f.seq := by simpa [nodeNew, toInfo] using hb
        subst hb
        rintro rfl
        exact getNode_none_iff.1 hg ha)
      hg2
      (by
        intro x hx
        have e : getNode (s.queue ++ [nodeNew (toInfo f)]) x = getNode s.queue x := by
          unfold getNode
          rw [List.find?_append]
          have : ¬ f.seq = x := fun e => hx e.symm
          simp [nodeNew, toInfo, this]
        rw [e]; exact h.node x)
      (by rw [hf]; exact nodeNew_inv hwf)
    rw [hg, hf]
    simp only [List.head?_nil]
    rw [hg2]
    simp only
    rw [hr]
    rw [h.expect] at hrel ⊢
    exact ⟨rfl, hrel⟩
  · rw [hg]
    simp only
    rw [hg]
    simp only
    cases hos : ofSeq t.held f.seq with
    | nil => exact absurd hos hne
    | cons g gs =>
      simp only [List.head?_cons]
      obtain ⟨e1, e2, e3, _⟩ := hn.frags g (by rw [hos]; simp)
      rw [e1, e2]
      by_cases hm : ty = f.type ∧ len = f.length
      · rw [if_pos hm]
        obtain ⟨rfl, rfl⟩ := hm
        obtain ⟨n', hr, hrel⟩ := rel_put (s := s) (t := t) (q := s.queue) (n := n) hwf h.expect h.nodup hg
          (fun x _ => h.node x) hn
        rw [hr]
        rw [h.expect] at hrel ⊢
        exact ⟨rfl, hrel⟩
      · rw [if_neg hm]
        have hinv : reassembleMsg (toInfo f) n = .invalidFragment := by
          unfold reassembleMsg
          apply if_pos
          right
          show n.type ≠ f.type ∨ n.msgLen - 12 ≠ f.length
          rw [hn.hty, hn.hlen]
          by_cases h1 : ty = f.type
          · right; intro hc; exact hm ⟨h1, by omega⟩
          · left; exact h1
        rw [hinv]
        exact ⟨rfl, h⟩

theorem rel_expect {s : State} {t : Spec.State} (h : Rel s t) (e : Nat) :
    Rel { s with expect := e } { t with expect := e } := ⟨rfl, h.nodup, h.node⟩

theorem consume_sim {cfg : Cfg} {s : State} {t : Spec.State} {st : Step} {m : List Byte} (h : Rel s t) :
    (consume cfg st m s).1 = (deliver cfg st.parseOk m t).1 ∧ Rel (consume cfg st m s).2 (deliver cfg st.parseOk m t).2 := by
  unfold consume deliver
  rw [h.expect]
  cases hp : st.parseOk with
  | false => simp; exact h
  | true =>
    simp only [Bool.not_true, Bool.false_eq_true, if_false, false_or]
    by_cases hc : cfg.dtls13 = true ∧ t.expect = 65535
    · rw [if_pos hc, if_pos hc]; exact ⟨rfl, h⟩
    · rw [if_neg hc, if_neg hc]
      refine ⟨rfl, ?_⟩
      exact rel_expect h _

/-- The event a record amounts to: a well formed fragment, or garbage. -/
def Matches (cfg : Cfg) (st : Step) (e : Bool × Option Frag) : Prop :=
  e.1 = st.parseOk ∧
  match e.2 with
  | some f => f.WF cfg ∧ st.record = f.encode
  | none => ¬ ∃ f : Frag, f.WF cfg ∧ st.record = f.encode

theorem poll_sim {cfg : Cfg} {s : State} {t : Spec.State} {st : Step} {e : Bool × Option Frag} (hm : Matches cfg st e)
    (h : Rel s t) :
    (poll cfg st s).1 = (Spec.poll cfg e.1 e.2 t).1 ∧ Rel (poll cfg st s).2 (Spec.poll cfg e.1 e.2 t).2 := by
  obtain ⟨h1, h2⟩ := hm
  unfold poll Spec.poll
  rw [h1]
  rcases getMsg_ready h with ⟨hr, hg⟩ | ⟨m, hr, hg⟩
  · rw [hr, hg]
    simp only
    cases he : e.2 with
    | none =>
      rw [he] at h2
      simp only at h2
      have : parseHeader cfg st.record = none := by
        cases hp : parseHeader cfg st.record with
        | none => rfl
        | some i =>
          obtain ⟨f, hf, hraw, _⟩ := parseHeader_some hp
          exact absurd ⟨f, hf, hraw⟩ h2
      rw [this]
      exact ⟨rfl, h⟩
    | some f =>
      rw [he] at h2
      simp only at h2
      obtain ⟨hwf, hraw⟩ := h2
      rw [hraw, parseHeader_encode hwf]
      simp only
      have e1 : (toInfo f).seq = f.seq := rfl
      have e2 : (toInfo f).fragLen = f.body.length := rfl
      have e3 : (toInfo f).length = f.length := rfl
      have e4 : (toInfo f).type = f.type := rfl
      by_cases hs : f.seq = s.expect
      · rw [if_neg (show ¬ (toInfo f).seq ≠ s.expect from fun hc => hc hs),
          if_pos (show f.seq = t.expect by rw [← h.expect]; exact hs), e2, e3]
        by_cases hfull : f.body.length = f.length
        · rw [if_neg (by simpa using hfull), if_pos hfull]
          have henc : (toInfo f).raw = encodeMsg f.type f.seq f.body := by
            show f.encode = _
            have ho : f.off = 0 := by have := hwf.2.2.2.1; omega
            simp [encodeMsg, Frag.encode, hfull, ho]
          rw [henc]
          exact consume_sim h
        · rw [if_pos hfull, if_neg hfull]
          exact hold_sim hwf h
      · rw [if_pos (by rw [e1]; exact hs), if_neg (by rw [← h.expect]; exact hs)]
        unfold disorder
        rw [e1, e4, ← h.expect]
        by_cases hfin : s.expect = 0 ∧ f.type = 20#8 ∧ ¬ cfg.dtls13 = true
        · rw [if_pos hfin, if_pos hfin]; exact ⟨rfl, h⟩
        · rw [if_neg hfin, if_neg hfin]
          by_cases hgt : f.seq > s.expect
          · rw [if_pos hgt, if_pos hgt]; exact hold_sim hwf h
          · rw [if_neg hgt, if_neg hgt]; exact ⟨rfl, h⟩
  · rw [hr, hg]
    simp only
    have hrel : Rel { s with queue := s.queue.eraseP (fun n => n.seq == s.expect) }
        { t with held := t.held.filter (fun g => g.seq != t.expect) } := by
      refine ⟨h.expect, eraseP_nodup _ h.nodup, ?_⟩
      intro x
      show (getNode (s.queue.eraseP (fun n => n.seq == s.expect)) x = none ∧
        ofSeq (t.held.filter (fun g => g.seq != t.expect)) x = []) ∨ _
      rw [getNode_eraseP _ _ h.nodup]
      by_cases hx : x = s.expect
      · left
        rw [if_pos hx]
        refine ⟨rfl, ?_⟩
        unfold ofSeq
        rw [List.filter_filter, List.filter_eq_nil_iff]
        intro a _
        rw [hx, h.expect]
        simp
      · rw [if_neg hx]
        have e : ofSeq (t.held.filter (fun g => g.seq != t.expect)) x = ofSeq t.held x := by
          unfold ofSeq
          rw [List.filter_filter]
          apply List.filter_congr
          intro a _
          by_cases ha : a.seq = x
          · have : ¬ x = t.expect := by rw [← h.expect]; exact hx
            simp [ha, this]
          · simp [ha]
        rw [e]
        exact h.node x
    exact consume_sim hrel

/-- The events a sequence of records amounts to. -/
def MatchesAll (cfg : Cfg) : List Step → List (Bool × Option Frag) → Prop
  | [], [] => True
  | st :: sts, e :: es => Matches cfg st e ∧ MatchesAll cfg sts es
  | _, _ => False

theorem run_sim {cfg : Cfg} : ∀ {sts : List Step} {es : List (Bool × Option Frag)} {s : State} {t : Spec.State},
    MatchesAll cfg sts es → Rel s t →
    (run cfg sts s).1 = (Spec.run cfg es t).1 ∧ Rel (run cfg sts s).2 (Spec.run cfg es t).2
  | [], [], s, t, _, h => ⟨rfl, h⟩
  | [], _ :: _, _, _, hf, _ => absurd hf (by simp [MatchesAll])
  | _ :: _, [], _, _, hf, _ => absurd hf (by simp [MatchesAll])
  | st :: sts, e :: es, s, t, ⟨h1, h2⟩, h => by
    obtain ⟨a, b⟩ := poll_sim h1 h
    obtain ⟨c, d⟩ := run_sim h2 b
    refine ⟨?_, d⟩
    show _ :: _ = _ :: _
    rw [a, c]

theorem rel_init : Rel init Spec.init := by
  refine ⟨rfl, by simp [init], fun x => ?_⟩
  left; simp [init, Spec.init, getNode, ofSeq]

theorem matches_exists (cfg : Cfg) (st : Step) : ∃ e, Matches cfg st e := by
  by_cases h : ∃ f : Frag, f.WF cfg ∧ st.record = f.encode
  · obtain ⟨f, hf⟩ := h
    exact ⟨(st.parseOk, some f), rfl, hf⟩
  · exact ⟨(st.parseOk, none), rfl, h⟩

end Verif.Tls.Reass
