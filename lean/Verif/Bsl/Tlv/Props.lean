import Verif.Bsl.Tlv.Model
import Verif.Bsl.Bytes.Props
/-! C13: TLV packing, parsing and searching. -/
namespace Verif.Bsl.Tlv
open Verif.Common Verif.Bsl.Bytes

/-- One TLV on the wire: 4-byte big-endian type, 4-byte big-endian length, value. -/
def Spec.one (t : BitVec 32) (v : List Byte) : List Byte := beBytes 4 t.toNat ++ beBytes 4 v.length ++ v

/-- A sequence of TLVs on the wire. -/
def Spec.seq (l : List (BitVec 32 × List Byte)) : List Byte := l.flatMap fun p => Spec.one p.1 p.2

theorem one_length (t : BitVec 32) (v : List Byte) : (Spec.one t v).length = 8 + v.length := by
  simp [Spec.one]; omega

theorem seq_cons (p : BitVec 32 × List Byte) (l : List (BitVec 32 × List Byte)) :
    Spec.seq (p :: l) = Spec.one p.1 p.2 ++ Spec.seq l := by simp [Spec.seq]

/-- Packing writes exactly the TLV when (and only when) it fits the buffer. -/
theorem pack_iff (t : BitVec 32) (v : List Byte) (bufLen : Nat) (h : bufLen < 2 ^ 32) (out : List Byte) :
    pack t v bufLen = .ok out ↔ out = Spec.one t v ∧ out.length ≤ bufLen := by
  unfold pack
  by_cases hb : bufLen < 8 ∨ v.length > sub32 bufLen 8
  · rw [if_pos hb]
    constructor
    · intro h; exact absurd h (by simp)
    · rintro ⟨rfl, hl⟩
      rw [one_length] at hl
      rcases hb with hb | hb
      · omega
      · unfold sub32 at hb; omega
  · rw [if_neg hb]
    have hv : ¬ bufLen < 8 ∧ v.length ≤ bufLen - 8 := by
      refine ⟨fun h => hb (.inl h), ?_⟩
      have h8 : ¬ bufLen < 8 := fun h => hb (.inl h)
      have := Nat.le_of_not_lt fun h => hb (.inr h)
      unfold sub32 at this; omega
    have e : uint32ToByte t ++ uint32ToByte (BitVec.ofNat 32 v.length) ++ v = Spec.one t v := by
      rw [Spec.one, uint32ToByte_spec, uint32ToByte_spec, BitVec.toNat_ofNat, Nat.mod_eq_of_lt (by omega)]
    rw [e]
    simp only [Except.ok.injEq]
    constructor
    · rintro rfl; refine ⟨rfl, ?_⟩; rw [one_length]; omega
    · exact fun h => h.1.symm

theorem parseHeader_eq (t l : BitVec 32) (r : List Byte) (n : Nat) (hn : 8 ≤ n) (hn2 : n < 2 ^ 32) :
    parseHeader (beBytes 4 t.toNat ++ beBytes 4 l.toNat ++ r) n =
      if l.toNat > n - 8 then .error .badParam else .ok (t, l) := by
  have h2 : (beBytes 4 t.toNat ++ beBytes 4 l.toNat ++ r).drop 4 = beBytes 4 l.toNat ++ r := by
    rw [List.append_assoc, List.drop_left' (by simp)]
  have h1 := load_store32 t (beBytes 4 l.toNat ++ r)
  have h3 := load_store32 l r
  rw [uint32ToByte_spec] at h1 h3
  unfold parseHeader
  rw [h2, h3, List.append_assoc, h1]
  have : sub32 n 8 = n - 8 := by unfold sub32; omega
  simp only [this]

theorem header_split (cur : List Byte) (h : 8 ≤ cur.length) :
    ∃ t l : BitVec 32, ∃ r, cur = beBytes 4 t.toNat ++ beBytes 4 l.toNat ++ r := by
  refine ⟨BitVec.ofNat 32 (beVal (cur.take 4)), BitVec.ofNat 32 (beVal ((cur.drop 4).take 4)), cur.drop 8, ?_⟩
  have e : ∀ x : List Byte, x.length = 4 → beBytes 4 (BitVec.ofNat 32 (beVal x)).toNat = x := by
    intro x hx
    have hlt := beVal_lt x
    have h3 := beBytes_beVal x
    rw [hx] at h3 hlt
    rw [BitVec.toNat_ofNat, Nat.mod_eq_of_lt (by simpa using hlt), h3]
  rw [e _ (by rw [List.length_take]; omega), e _ (by rw [List.length_take, List.length_drop]; omega)]
  rw [show cur.drop 8 = (cur.drop 4).drop 4 by rw [List.drop_drop], List.append_assoc, List.take_append_drop,
    List.take_append_drop]

theorem one_eq (t l : BitVec 32) (v : List Byte) (h : l.toNat = v.length) :
    Spec.one t v = beBytes 4 t.toNat ++ beBytes 4 l.toNat ++ v := by rw [Spec.one, h]

theorem sub32_eq {a b : Nat} (h : b ≤ a) (ha : a < 2 ^ 32) : sub32 a b = a - b := by
  unfold sub32; omega

theorem parseLoop_step (want t l : BitVec 32) (r : List Byte) (cap D fuel : Nat) (cur : List Byte)
    (hc : cur = beBytes 4 t.toNat ++ beBytes 4 l.toNat ++ r) (hlen : cur.length < 2 ^ 32)
    (hD : cur.length ≤ D) (hD2 : D < 2 ^ 32) :
    parseLoop want cap D (fuel + 1) cur cur.length =
      if l.toNat > r.length then .error .badParam
      else if want = t then
        if l.toNat > cap then .error .memcpyFail
        else .ok (r.take l.toNat, D - (r.length - l.toNat))
      else parseLoop want cap D fuel (r.drop l.toNat) (r.drop l.toNat).length := by
  have hcl : cur.length = 8 + r.length := by rw [hc]; simp; omega
  rw [parseLoop, if_pos (by omega)]
  have hp := parseHeader_eq t l r cur.length (by omega) hlen
  rw [← hc] at hp
  rw [hp, show cur.length - 8 = r.length by omega]
  by_cases hb : l.toNat > r.length
  · rw [if_pos hb, if_pos hb]
  · rw [if_neg hb, if_neg hb]
    have hd8 : cur.drop 8 = r := by rw [hc]; exact List.drop_left' (by simp)
    have hd : cur.drop (8 + l.toNat) = r.drop l.toNat := by rw [← List.drop_drop, hd8]
    have hs : sub32 cur.length ((8 + l.toNat) % 2 ^ 32) = r.length - l.toNat := by
      rw [Nat.mod_eq_of_lt (by omega), sub32_eq (by omega) hlen]; omega
    simp only [hs, hd8, hd]
    by_cases hw : want = t
    · rw [if_pos hw, if_pos hw]
      by_cases hcap : l.toNat > cap
      · rw [if_pos hcap, if_pos hcap]
      · rw [if_neg hcap, if_neg hcap, if_neg (by omega), sub32_eq (by omega) hD2]
    · rw [if_neg hw, if_neg hw, List.length_drop]

theorem findLoop_step (want t l : BitVec 32) (r : List Byte) (D fuel : Nat) (cur : List Byte)
    (hc : cur = beBytes 4 t.toNat ++ beBytes 4 l.toNat ++ r) (hr : r ≠ [])
    (hD : cur.length ≤ D) (hD2 : D < 2 ^ 32) :
    findLoop want D (fuel + 1) cur cur.length =
      if l.toNat > r.length then .error .badParam
      else if want = t then .ok (D - r.length, l.toNat)
      else findLoop want D fuel (r.drop l.toNat) (r.drop l.toNat).length := by
  have hcl : cur.length = 8 + r.length := by rw [hc]; simp; omega
  have hr0 : 0 < r.length := List.length_pos_iff.2 hr
  rw [findLoop, if_pos (by omega)]
  have hp := parseHeader_eq t l r cur.length (by omega) (by omega)
  rw [← hc] at hp
  rw [hp, show cur.length - 8 = r.length by omega]
  by_cases hb : l.toNat > r.length
  · rw [if_pos hb, if_pos hb]
  · rw [if_neg hb, if_neg hb]
    have hd8 : cur.drop 8 = r := by rw [hc]; exact List.drop_left' (by simp)
    have hd : cur.drop (8 + l.toNat) = r.drop l.toNat := by rw [← List.drop_drop, hd8]
    have hs : sub32 cur.length ((8 + l.toNat) % 2 ^ 32) = r.length - l.toNat := by
      rw [Nat.mod_eq_of_lt (by omega), sub32_eq (by omega) (by omega)]; omega
    simp only [hs, hd]
    by_cases hw : want = t
    · rw [if_pos hw, if_pos hw, sub32_eq hD hD2, Nat.mod_eq_of_lt (by omega)]
      congr 2; omega
    · rw [if_neg hw, if_neg hw, List.length_drop]

theorem parseLoop_iff (want : BitVec 32) (cap D fuel : Nat) (hD2 : D < 2 ^ 32) (cur : List Byte)
    (hD : cur.length ≤ D) (hf : cur.length < fuel) (v : List Byte) (rl : Nat) :
    parseLoop want cap D fuel cur cur.length = .ok (v, rl) ↔
      ∃ before rest, cur = Spec.seq before ++ (Spec.one want v ++ rest) ∧ (∀ p ∈ before, p.1 ≠ want) ∧
        v.length ≤ cap ∧ rl = D - rest.length := by
  induction fuel generalizing cur with
  | zero => omega
  | succ fuel ih =>
    by_cases h8 : 8 ≤ cur.length
    · obtain ⟨t, l, r, hc⟩ := header_split cur h8
      have hcl : cur.length = 8 + r.length := by rw [hc]; simp; omega
      rw [parseLoop_step want t l r cap D fuel cur hc (by omega) hD hD2]
      -- any decomposition of the data starts with the header just read
      have hstart : ∀ (t' : BitVec 32) (v' rest' : List Byte), cur = Spec.one t' v' ++ rest' →
          t' = t ∧ l.toNat = v'.length ∧ r = v' ++ rest' := by
        intro t' v' rest' h
        rw [hc, Spec.one] at h
        simp only [List.append_assoc] at h
        obtain ⟨h1, h2⟩ := List.append_inj h (by simp)
        obtain ⟨h3, h4⟩ := List.append_inj h2 (by simp)
        have hv : v'.length < 2 ^ 32 := by have := congrArg List.length h4; simp at this; omega
        refine ⟨BitVec.eq_of_toNat_eq (beBytes_inj (k := 4) ?_ ?_ h1.symm), beBytes_inj (k := 4) ?_ ?_ h3, h4⟩
        · exact t'.isLt
        · exact t.isLt
        · exact l.isLt
        · exact hv
      by_cases hb : l.toNat > r.length
      · rw [if_pos hb]
        constructor
        · intro h; exact absurd h (by simp)
        · rintro ⟨before, rest, h, _⟩
          cases before with
          | nil =>
            obtain ⟨_, h2, h3⟩ := hstart want v rest h
            have := congrArg List.length h3; simp at this; omega
          | cons p before =>
            rw [seq_cons, List.append_assoc] at h
            obtain ⟨_, h2, h3⟩ := hstart _ _ _ h
            have := congrArg List.length h3; simp at this; omega
      · rw [if_neg hb]
        by_cases hw : want = t
        · rw [if_pos hw]
          by_cases hcap : l.toNat > cap
          · rw [if_pos hcap]
            constructor
            · intro h; exact absurd h (by simp)
            · rintro ⟨before, rest, h, hne, hvc, _⟩
              cases before with
              | nil => obtain ⟨_, h2, _⟩ := hstart want v rest h; omega
              | cons p before =>
                rw [seq_cons, List.append_assoc] at h
                obtain ⟨h1, _, _⟩ := hstart _ _ _ h
                exact absurd (h1.trans hw.symm) (hne p (by simp))
          · rw [if_neg hcap]
            simp only [Except.ok.injEq, Prod.mk.injEq]
            constructor
            · rintro ⟨rfl, rfl⟩
              have hlt : l.toNat = (r.take l.toNat).length := by rw [List.length_take]; omega
              refine ⟨[], r.drop l.toNat, ?_, by simp, by omega, by rw [List.length_drop]⟩
              rw [one_eq want l _ hlt, hw]
              rw [List.append_assoc, List.take_append_drop, hc]; rfl
            · rintro ⟨before, rest, h, hne, hvc, rfl⟩
              cases before with
              | nil =>
                obtain ⟨_, h2, h3⟩ := hstart want v rest h
                rw [h2, h3]
                simp
              | cons p before =>
                rw [seq_cons, List.append_assoc] at h
                obtain ⟨h1, _, _⟩ := hstart _ _ _ h
                exact absurd (h1.trans hw.symm) (hne p (by simp))
        · rw [if_neg hw, ih (r.drop l.toNat) (by rw [List.length_drop]; omega) (by rw [List.length_drop]; omega)]
          constructor
          · rintro ⟨before, rest, h, hne, hvc, hrl⟩
            refine ⟨(t, r.take l.toNat) :: before, rest, ?_, ?_, hvc, hrl⟩
            · have hlt : l.toNat = (r.take l.toNat).length := by rw [List.length_take]; omega
              rw [seq_cons, one_eq t l _ hlt, List.append_assoc, ← h, List.append_assoc, List.take_append_drop, hc]
            · intro p hp
              rcases List.mem_cons.1 hp with rfl | hp
              · exact fun h => hw h.symm
              · exact hne p hp
          · rintro ⟨before, rest, h, hne, hvc, hrl⟩
            cases before with
            | nil => obtain ⟨h1, _, _⟩ := hstart want v rest h; exact absurd h1 hw
            | cons p before =>
              rw [seq_cons, List.append_assoc] at h
              obtain ⟨h1, h2, h3⟩ := hstart _ _ _ h
              refine ⟨before, rest, ?_, fun q hq => hne q (by simp [hq]), hvc, hrl⟩
              rw [h2, h3, List.drop_left' rfl]
    · rw [parseLoop, if_neg h8]
      constructor
      · intro h; exact absurd h (by simp)
      · rintro ⟨before, rest, h, _⟩
        have := congrArg List.length h
        rw [List.length_append, List.length_append, one_length] at this; omega

/-- Parsing succeeds exactly when the data starts with well-formed TLVs, the first of the wanted type fits the
caller's buffer, and then it returns that TLV's value and the number of bytes up to its end. Bytes after it are
ignored. -/
theorem parse_iff (want : BitVec 32) (data : List Byte) (h : data.length < 2 ^ 32) (cap : Nat) (v : List Byte)
    (rl : Nat) :
    parse want data cap = .ok (v, rl) ↔
      ∃ before rest, data = Spec.seq before ++ Spec.one want v ++ rest ∧ (∀ p ∈ before, p.1 ≠ want) ∧
        v.length ≤ cap ∧ rl = (Spec.seq before ++ Spec.one want v).length := by
  unfold parse
  rw [parseLoop_iff want cap data.length _ h data (Nat.le_refl _) (by omega)]
  constructor
  · rintro ⟨before, rest, hd, hne, hv, rfl⟩
    refine ⟨before, rest, by rw [hd, List.append_assoc], hne, hv, ?_⟩
    rw [hd]; simp only [List.length_append]; omega
  · rintro ⟨before, rest, hd, hne, hv, rfl⟩
    refine ⟨before, rest, by rw [hd, List.append_assoc], hne, hv, ?_⟩
    rw [hd]; simp only [List.length_append]; omega

theorem parseLoop_no_oob (want : BitVec 32) (cap D fuel : Nat) (hD2 : D < 2 ^ 32) (cur : List Byte)
    (hD : cur.length ≤ D) : parseLoop want cap D fuel cur cur.length ≠ .error .oob := by
  induction fuel generalizing cur with
  | zero => simp [parseLoop]
  | succ fuel ih =>
    by_cases h8 : 8 ≤ cur.length
    · obtain ⟨t, l, r, hc⟩ := header_split cur h8
      have hcl : cur.length = 8 + r.length := by rw [hc]; simp; omega
      rw [parseLoop_step want t l r cap D fuel cur hc (by omega) hD hD2]
      by_cases hb : l.toNat > r.length
      · rw [if_pos hb]; simp
      · rw [if_neg hb]
        by_cases hw : want = t
        · rw [if_pos hw]; split <;> simp
        · rw [if_neg hw]; exact ih _ (by rw [List.length_drop]; omega)
    · rw [parseLoop, if_neg h8]; simp

/-- No data makes parsing read outside the given length. -/
theorem parse_in_bounds (want : BitVec 32) (data : List Byte) (h : data.length < 2 ^ 32) (cap : Nat) :
    parse want data cap ≠ .error .oob :=
  parseLoop_no_oob want cap data.length _ h data (Nat.le_refl _)

theorem findLoop_iff (want : BitVec 32) (D fuel : Nat) (hD2 : D < 2 ^ 32) (cur : List Byte)
    (hD : cur.length ≤ D) (hf : cur.length < fuel) (off n : Nat) :
    findLoop want D fuel cur cur.length = .ok (off, n) ↔
      ∃ before v rest, cur = Spec.seq before ++ (Spec.one want v ++ rest) ∧ (∀ p ∈ before, p.1 ≠ want) ∧
        v ++ rest ≠ [] ∧ n = v.length ∧ off = D - (v ++ rest).length := by
  induction fuel generalizing cur with
  | zero => omega
  | succ fuel ih =>
    by_cases h8 : 8 < cur.length
    · obtain ⟨t, l, r, hc⟩ := header_split cur (by omega)
      have hcl : cur.length = 8 + r.length := by rw [hc]; simp; omega
      have hr : r ≠ [] := List.length_pos_iff.1 (by omega)
      rw [findLoop_step want t l r D fuel cur hc hr hD hD2]
      have hstart : ∀ (t' : BitVec 32) (v' rest' : List Byte), cur = Spec.one t' v' ++ rest' →
          t' = t ∧ l.toNat = v'.length ∧ r = v' ++ rest' := by
        intro t' v' rest' h
        rw [hc, Spec.one] at h
        simp only [List.append_assoc] at h
        obtain ⟨h1, h2⟩ := List.append_inj h (by simp)
        obtain ⟨h3, h4⟩ := List.append_inj h2 (by simp)
        have hv : v'.length < 2 ^ 32 := by have := congrArg List.length h4; simp at this; omega
        refine ⟨BitVec.eq_of_toNat_eq (beBytes_inj (k := 4) ?_ ?_ h1.symm), beBytes_inj (k := 4) ?_ ?_ h3, h4⟩
        · exact t'.isLt
        · exact t.isLt
        · exact l.isLt
        · exact hv
      by_cases hb : l.toNat > r.length
      · rw [if_pos hb]
        constructor
        · intro h; exact absurd h (by simp)
        · rintro ⟨before, v, rest, h, _⟩
          cases before with
          | nil =>
            obtain ⟨_, h2, h3⟩ := hstart want v rest h
            have := congrArg List.length h3; simp at this; omega
          | cons p before =>
            rw [seq_cons, List.append_assoc] at h
            obtain ⟨_, h2, h3⟩ := hstart _ _ _ h
            have := congrArg List.length h3; simp at this; omega
      · rw [if_neg hb]
        have hlt : l.toNat = (r.take l.toNat).length := by rw [List.length_take]; omega
        by_cases hw : want = t
        · rw [if_pos hw]
          simp only [Except.ok.injEq, Prod.mk.injEq]
          constructor
          · rintro ⟨rfl, rfl⟩
            refine ⟨[], r.take l.toNat, r.drop l.toNat, ?_, by simp, ?_, hlt, ?_⟩
            · rw [one_eq want l _ hlt, hw]
              rw [List.append_assoc, List.take_append_drop, hc]; rfl
            · rw [List.take_append_drop]; exact hr
            · rw [List.take_append_drop]
          · rintro ⟨before, v, rest, h, hne, hvc, rfl, rfl⟩
            cases before with
            | nil =>
              obtain ⟨_, h2, h3⟩ := hstart want v rest h
              rw [h2, h3]; simp
            | cons p before =>
              rw [seq_cons, List.append_assoc] at h
              obtain ⟨h1, _, _⟩ := hstart _ _ _ h
              exact absurd (h1.trans hw.symm) (hne p (by simp))
        · rw [if_neg hw, ih (r.drop l.toNat) (by rw [List.length_drop]; omega) (by rw [List.length_drop]; omega)]
          constructor
          · rintro ⟨before, v, rest, h, hne, hvc, hrl⟩
            refine ⟨(t, r.take l.toNat) :: before, v, rest, ?_, ?_, hvc, hrl⟩
            · rw [seq_cons, one_eq t l _ hlt, List.append_assoc, ← h, List.append_assoc, List.take_append_drop, hc]
            · intro p hp
              rcases List.mem_cons.1 hp with rfl | hp
              · exact fun h => hw h.symm
              · exact hne p hp
          · rintro ⟨before, v, rest, h, hne, hvc, hrl⟩
            cases before with
            | nil => obtain ⟨h1, _, _⟩ := hstart want v rest h; exact absurd h1 hw
            | cons p before =>
              rw [seq_cons, List.append_assoc] at h
              obtain ⟨h1, h2, h3⟩ := hstart _ _ _ h
              refine ⟨before, v, rest, ?_, fun q hq => hne q (by simp [hq]), hvc, hrl⟩
              rw [h2, h3, List.drop_left' rfl]
    · rw [findLoop, if_neg h8]
      constructor
      · intro h; exact absurd h (by simp)
      · rintro ⟨before, v, rest, h, _, hne, _⟩
        have := congrArg List.length h
        have h0 := List.length_pos_iff.2 hne
        simp only [List.length_append, one_length] at this h0; omega

/-- Searching finds the first TLV of the wanted type, unless it is an empty TLV at the very end of the data, and
returns the position and length of its value. -/
theorem findValuePos_iff (want : BitVec 32) (data : List Byte) (h : data.length < 2 ^ 32) (off n : Nat) :
    findValuePos want data = .ok (off, n) ↔
      ∃ before v rest, data = Spec.seq before ++ Spec.one want v ++ rest ∧ (∀ p ∈ before, p.1 ≠ want) ∧
        (v ≠ [] ∨ rest ≠ []) ∧ n = v.length ∧ off = (Spec.seq before).length + 8 := by
  unfold findValuePos
  rw [findLoop_iff want data.length _ h data (Nat.le_refl _) (by omega)]
  have e : ∀ v rest : List Byte, v ++ rest ≠ [] ↔ (v ≠ [] ∨ rest ≠ []) := by
    intro v rest
    cases v <;> simp
  constructor
  · rintro ⟨before, v, rest, hd, hne, hv, rfl, rfl⟩
    refine ⟨before, v, rest, by rw [hd, List.append_assoc], hne, (e _ _).1 hv, rfl, ?_⟩
    rw [hd]; simp only [List.length_append, one_length]; omega
  · rintro ⟨before, v, rest, hd, hne, hv, rfl, rfl⟩
    refine ⟨before, v, rest, by rw [hd, List.append_assoc], hne, (e _ _).2 hv, rfl, ?_⟩
    rw [hd]; simp only [List.length_append, one_length]; omega

/-- The position returned by a search is the position of the value inside the data. -/
theorem findValuePos_value (want : BitVec 32) (data : List Byte) (h : data.length < 2 ^ 32) (off n : Nat)
    (hf : findValuePos want data = .ok (off, n)) :
    off + n ≤ data.length ∧ ∃ before rest, data = Spec.seq before ++ Spec.one want ((data.drop off).take n) ++ rest ∧
      ∀ p ∈ before, p.1 ≠ want := by
  obtain ⟨before, v, rest, hd, hne, _, rfl, rfl⟩ := (findValuePos_iff want data h off n).1 hf
  have hv : (data.drop ((Spec.seq before).length + 8)).take v.length = v := by
    rw [hd, List.append_assoc, ← List.drop_drop, List.drop_left' rfl, Spec.one]
    rw [List.append_assoc (beBytes 4 want.toNat ++ beBytes 4 v.length), List.drop_left' (by simp),
      List.take_left' rfl]
  refine ⟨?_, before, rest, by rw [hv]; exact hd, hne⟩
  rw [hd]; simp only [List.length_append, one_length]; omega

/-- Pack then parse, and pack then search, with any well-formed TLVs of other types before it and anything
behind it. -/
theorem pack_parse (t : BitVec 32) (v : List Byte) (bufLen : Nat) (hb : bufLen < 2 ^ 32) (out : List Byte)
    (hp : pack t v bufLen = .ok out) (before : List (BitVec 32 × List Byte)) (hne : ∀ p ∈ before, p.1 ≠ t)
    (rest : List Byte) (hlen : (Spec.seq before ++ out ++ rest).length < 2 ^ 32) (cap : Nat) (hcap : v.length ≤ cap) :
    parse t (Spec.seq before ++ out ++ rest) cap = .ok (v, (Spec.seq before ++ out).length) := by
  obtain ⟨rfl, _⟩ := (pack_iff t v bufLen hb out).1 hp
  exact (parse_iff t _ hlen cap v _).2 ⟨before, rest, rfl, hne, hcap, rfl⟩

/-- Finding F-TLV-1 in DESIGN.md: an empty TLV at the end of the data is found by parsing but not by searching. -/
theorem find_misses_trailing_empty (t : BitVec 32) :
    pack t [] 8 = .ok (Spec.one t []) ∧ parse t (Spec.one t []) 0 = .ok ([], 8) ∧
      findValuePos t (Spec.one t []) = .error .noWantType := by
  refine ⟨(pack_iff t [] 8 (by decide) _).2 ⟨rfl, by rw [one_length]; decide⟩, ?_, ?_⟩
  · refine (parse_iff t _ (by rw [one_length]; decide) 0 [] 8).2 ⟨[], [], by simp [Spec.seq], by simp, by simp, ?_⟩
    simp [Spec.seq, one_length]
  · have hl := one_length t []
    unfold findValuePos
    rw [hl]; simp [findLoop]

-- Non-vacuity
example : pack 5 [1, 2, 3] 20 = .ok [0, 0, 0, 5, 0, 0, 0, 3, 1, 2, 3] := by decide +kernel
example : parse 5 (Spec.seq [(7, [9])] ++ Spec.one 5 [1, 2, 3] ++ [0xff]) 3 = .ok ([1, 2, 3], 20) := by decide +kernel
example : findValuePos 5 (Spec.seq [(7, [9])] ++ Spec.one 5 [1, 2, 3]) = .ok (17, 3) := by decide +kernel
example : parse 5 [0, 0, 0, 7, 0xff, 0xff, 0xff, 0xff, 0] 3 = .error .badParam := by decide +kernel

end Verif.Bsl.Tlv
