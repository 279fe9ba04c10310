import Verif.Bsl.Pem.Proof
namespace Verif.Bsl.Pem
open Verif.Common

theorem hasBlock_pieces (t h l : List Byte) : Pieces [h, l] t ↔ Spec.HasBlock t h l := by
  constructor
  · intro hp
    obtain ⟨a, r1, rfl, h1⟩ := pieces_cons.mp hp
    obtain ⟨b, r2, rfl, h2⟩ := pieces_cons.mp h1
    exact ⟨a, b, r2, by simp only [List.append_assoc]⟩
  · rintro ⟨a, b, c, rfl⟩
    simp only [List.append_assoc]
    refine pieces_cons.mpr ⟨a, _, (List.append_assoc _ _ _).symm, ?_⟩
    exact pieces_cons.mpr ⟨b, _, (List.append_assoc _ _ _).symm, trivial⟩

theorem win_win (buf : List Byte) (off len : Nat) (a b c : List Byte) (h : win buf off len = a ++ b ++ c) :
    win buf (off + a.length) b.length = b := by
  have h1 : (win buf off len).drop a.length = b ++ c := by
    rw [h, List.append_assoc, List.drop_left]
  rw [win_drop] at h1
  have h2 : (win buf (off + a.length) (len - a.length)).take b.length = b := by rw [h1, List.take_left]
  have hl : b.length ≤ len - a.length := by
    have := congrArg List.length h1
    unfold win at this
    simp only [List.length_take, List.length_drop, List.length_append] at this
    omega
  unfold win at h2 ⊢
  rw [List.take_take, Nat.min_eq_left hl] at h2
  exact h2

theorem split_at {t n : List Byte} {i : Nat} (h : n <+: t.drop i) (hn : n ≠ []) :
    t = t.take i ++ n ++ t.drop (i + n.length) ∧ (t.take i).length = i := by
  have hl := prefix_len h hn
  obtain ⟨r, hr⟩ := h
  refine ⟨?_, by rw [List.length_take]; omega⟩
  have : t.drop (i + n.length) = r := by rw [← List.drop_drop, ← hr, List.drop_left]
  rw [this, List.append_assoc, hr, List.take_append_drop]

theorem block_found {W h l : List Byte} {i j : Nat} (hh : h ≠ []) (hl : l ≠ []) (hi : Spec.FirstAt W h i)
    (hj : Spec.FirstAt (W.drop (i + h.length)) l j) :
    Spec.Block W h l ((W.drop (i + h.length)).take j) (W.drop (i + h.length + (j + l.length))) := by
  obtain ⟨e1, l1⟩ := split_at hi.1 hh
  obtain ⟨e2, l2⟩ := split_at hj.1 hl
  refine ⟨W.take i, ?_, by rw [l1]; exact hi, ?_⟩
  · conv => lhs; rw [e1, e2]
    simp only [List.append_assoc, List.drop_drop]
  · rw [l2]
    rw [List.drop_drop] at e2
    rw [← e2]; exact hj

theorem block_pos {W h l body rest : List Byte} (hb : Spec.Block W h l body rest) :
    ∃ i, Spec.FirstAt W h i ∧ Spec.FirstAt (W.drop (i + h.length)) l body.length ∧
      W = W.take i ++ h ++ body ++ l ++ rest ∧ i + h.length + body.length + l.length + rest.length = W.length := by
  obtain ⟨pre, e, h1, h2⟩ := hb
  refine ⟨pre.length, h1, ?_, ?_, ?_⟩
  · have : W.drop (pre.length + h.length) = body ++ l ++ rest := by
      rw [e, ← List.length_append]
      simp only [List.append_assoc]
      rw [← List.append_assoc pre h, List.drop_left]
    rw [this]; exact h2
  · have : W.take pre.length = pre := by rw [e]; simp only [List.append_assoc, List.take_left]
    rw [this]; exact e
  · rw [e]; simp only [List.length_append]

/-- Locating a block: no access outside the memory block, and the exact outcome. -/
theorem getPemRealEncode_spec (buf : List Byte) (off len : Nat) (s : Symbol) (h : off + len ≤ buf.length)
    (hh : s.head ≠ []) (ht : s.tail ≠ []) :
    (∃ body rest, Spec.IsPem (win buf off len) ∧ Spec.Block (win buf off len) s.head s.tail body rest ∧
      ∃ l, getPemRealEncode buf off len s = .ok l ∧ l.realLen = body.length ∧
        l.realOff + body.length + s.tail.length + rest.length = off + len ∧
        win buf l.realOff l.realLen = body ∧
        l.nextLen = rest.length ∧ l.nextOff + rest.length = off + len ∧ win buf l.nextOff l.nextLen = rest) ∨
    ((getPemRealEncode buf off len s = .error .pemInvalid ∨ getPemRealEncode buf off len s = .error .symbolNotFound) ∧
      ¬ (Spec.IsPem (win buf off len) ∧ ∃ body rest, Spec.Block (win buf off len) s.head s.tail body rest)) := by
  have hWl := win_length h
  unfold getPemRealEncode
  by_cases hl : len < s.head.length + s.tail.length
  · right
    rw [if_pos hl]
    refine ⟨Or.inl rfl, ?_⟩
    rintro ⟨_, body, rest, hb⟩
    obtain ⟨i, _, _, _, h4⟩ := block_pos hb
    omega
  · rw [if_neg hl]
    obtain ⟨r, hr, hp⟩ := isPemFormat_spec buf off len h
    rw [hr]
    cases r with
    | false =>
      right
      refine ⟨Or.inl rfl, fun hx => ?_⟩
      have := hp.mpr hx.1
      cases this
    | true =>
      have hpem := hp.mp rfl
      simp only
      rcases memStr_spec buf s.head off len h hh with ⟨g, g'⟩ | ⟨i, g, g'⟩
      · right
        rw [g]
        refine ⟨Or.inr rfl, ?_⟩
        rintro ⟨_, body, rest, hb⟩
        obtain ⟨i, h1, _⟩ := block_pos hb
        exact g' ⟨i, h1.1⟩
      · rw [g]
        have hb1 := prefix_len g'.1 hh
        rw [hWl] at hb1
        simp only
        rcases memStr_rest buf s.tail off len (i + s.head.length) h (by omega) ht (off + i + s.head.length)
          (by omega) with ⟨k, k'⟩ | ⟨j, k, hb2, k'⟩
        · right
          rw [k]
          refine ⟨Or.inr rfl, ?_⟩
          rintro ⟨_, body, rest, hb⟩
          obtain ⟨i', h1, h2, _⟩ := block_pos hb
          rw [firstAt_unique h1 g'] at h2
          exact k' ⟨_, h2.1⟩
        · left
          have hbl := block_found hh ht g' k'
          have hlb : (((win buf off len).drop (i + s.head.length)).take j).length = j := by
            rw [List.length_take, List.length_drop, hWl]; omega
          have hlr : ((win buf off len).drop (i + s.head.length + (j + s.tail.length))).length
              = len - (i + s.head.length + (j + s.tail.length)) := by rw [List.length_drop, hWl]
          refine ⟨_, _, hpem, hbl, ?_⟩
          rw [k]
          refine ⟨_, rfl, ?_, ?_, ?_, ?_, ?_, ?_⟩
          · show off + (i + s.head.length + j) - (off + i + s.head.length) = _
            rw [hlb]; omega
          · show off + i + s.head.length + _ + _ + _ = _
            rw [hlb, hlr]; omega
          · show win buf (off + i + s.head.length) (off + (i + s.head.length + j) - (off + i + s.head.length)) = _
            rw [show off + (i + s.head.length + j) - (off + i + s.head.length) = j by omega, win_drop]
            unfold win
            rw [List.take_take, Nat.min_eq_left (by omega), Nat.add_assoc]
          · show sub32 len (off + (i + s.head.length + j) - off + s.tail.length) = _
            rw [sub32_eq (by omega), hlr]; omega
          · show off + (i + s.head.length + j) + s.tail.length + _ = _
            rw [hlr]; omega
          · show win buf (off + (i + s.head.length + j) + s.tail.length)
              (sub32 len (off + (i + s.head.length + j) - off + s.tail.length)) = _
            rw [sub32_eq (by omega), win_drop]
            congr 1 <;> omega

theorem getAsn1Encode_spec (buf : List Byte) (off len : Nat) (h : off + len ≤ buf.length) (hlen : len < 2 ^ 32) :
    getAsn1Encode buf off len ≠ .error .oob ∧
    ∀ m, getAsn1Encode buf off len = .ok m ↔
      Base64.Spec.strip (win buf off len) ≠ [] ∧ Base64.Spec.Denotes (Base64.Spec.strip (win buf off len)) m := by
  have hwl := win_length h
  have hn : ¬ (len + 3) / 4 * 3 > 2 ^ 32 - 1 := by omega
  have hd := fun m => Base64.decode_iff (win buf off len) m ((len + 3) / 4 * 3)
    (by unfold Base64.uint32Max; omega) (by rw [hwl]; exact Nat.le_refl _)
  unfold getAsn1Encode
  simp only [if_neg hn, if_neg (show ¬ off + len > buf.length by omega)]
  show (match Base64.decode (win buf off len) _ with | .error e => _ | .ok m => _) ≠ _ ∧ _
  constructor
  · split <;> simp
  · intro m
    rw [← hd m]
    show (match Base64.decode (win buf off len) _ with | .error e => _ | .ok m => _) = _ ↔ _
    split
    · rename_i e he; rw [he]; simp
    · rename_i m' he; rw [he]; simp

/-- The complete behaviour of decoding. -/
theorem decode_spec (buf : List Byte) (off len : Nat) (s : Symbol) (h : off + len ≤ buf.length)
    (hlen : len < 2 ^ 32) (hh : s.head ≠ []) (ht : s.tail ≠ []) :
    decodePemToAsn1 buf off len s ≠ .error .oob ∧
    ∀ d, decodePemToAsn1 buf off len s = .ok d ↔
      ∃ body rest, Spec.IsPem (win buf off len) ∧ Spec.Block (win buf off len) s.head s.tail body rest ∧
        Base64.Spec.strip body ≠ [] ∧ Base64.Spec.Denotes (Base64.Spec.strip body) d.asn1 ∧
        d.nextLen = rest.length ∧ d.nextOff + rest.length = off + len := by
  unfold decodePemToAsn1
  rcases getPemRealEncode_spec buf off len s h hh ht with
    ⟨body, rest, hp, hb, l, e1, e2, e3, e4, e5, e6, e7⟩ | ⟨he, hno⟩
  · rw [e1]
    have hlt : l.realLen < 2 ^ 32 := by
      obtain ⟨i, _, _, _, p4⟩ := block_pos hb
      rw [win_length h] at p4
      omega
    have hg := getAsn1Encode_spec buf l.realOff l.realLen (by omega) hlt
    rw [e4] at hg
    simp only
    constructor
    · split
      · rename_i e he; intro hc; cases hc; exact hg.1 he
      · simp
    · intro d
      constructor
      · intro hd
        split at hd
        · cases hd
        · rename_i m hm
          cases hd
          exact ⟨body, rest, hp, hb, ((hg.2 m).mp hm).1, ((hg.2 m).mp hm).2, e5, by omega⟩
      · rintro ⟨body', rest', _, hb', h1, h2, h3, h4⟩
        obtain ⟨i, p1, p2, p3, p4⟩ := block_pos hb
        obtain ⟨i', q1, q2, q3, q4⟩ := block_pos hb'
        have hii := firstAt_unique p1 q1
        subst hii
        have hbl := firstAt_unique p2 q2
        have hbody : body = body' ∧ rest = rest' := by
          have := p3.symm.trans q3
          simp only [List.append_assoc] at this
          have := List.append_cancel_left this
          have := List.append_cancel_left this
          obtain ⟨a, b⟩ := List.append_inj this hbl
          exact ⟨a, List.append_cancel_left b⟩
        obtain ⟨rfl, rfl⟩ := hbody
        rw [(hg.2 d.asn1).mpr ⟨h1, h2⟩]
        have : l.nextOff = d.nextOff := by omega
        simp only [this, e5, ← h3]
  · constructor
    · rcases he with he | he <;> rw [he] <;> simp
    · intro d
      constructor
      · intro hd
        rcases he with he | he <;> rw [he] at hd <;> cases hd
      · rintro ⟨body, rest, hp, hb, _⟩
        exact absurd ⟨hp, body, rest, hb⟩ hno

end Verif.Bsl.Pem
