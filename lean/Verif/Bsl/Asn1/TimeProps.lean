import Verif.Bsl.Asn1.PrimModel
import Verif.Bsl.Time.Props
/-! C53: UTCTime and GeneralizedTime text. -/
namespace Verif.Bsl.Asn1
open Verif.Common Verif.Bsl.Time

/-- The two decimal digits of `n`, in ASCII. -/
def Spec.two (n : Nat) : List Byte := [BitVec.ofNat 8 (48 + n / 10), BitVec.ofNat 8 (48 + n % 10)]

/-- The text of a date, without the final `Z`: `YYMMDDhhmmss` (UTCTime) or `YYYYMMDDhhmmss` (GeneralizedTime). -/
def Spec.timeText (utc : Bool) (t : Date) : List Byte :=
  (if utc then Spec.two (t.year % 100) else Spec.two (t.year / 100) ++ Spec.two (t.year % 100)) ++
    Spec.two t.month ++ Spec.two t.day ++ Spec.two t.hour ++ Spec.two t.minute ++ Spec.two t.second

/-- The years a form can express when read: UTCTime is 1950 to 2049, GeneralizedTime has four digits. -/
def Spec.yearRange (utc : Bool) (y : Nat) : Prop := if utc then 1950 ≤ y ∧ y ≤ 2049 else y ≤ 9999

def isDigit (b : Byte) : Prop := 48 ≤ b.toNat ∧ b.toNat ≤ 57

theorem two_of_digits (a b : Byte) (ha : isDigit a) (hb : isDigit b) :
    Spec.two ((a.toNat - 48) * 10 + (b.toNat - 48)) = [a, b] := by
  obtain ⟨a1, a2⟩ := ha
  obtain ⟨b1, b2⟩ := hb
  unfold Spec.two
  have e1 : 48 + ((a.toNat - 48) * 10 + (b.toNat - 48)) / 10 = a.toNat := by omega
  have e2 : 48 + ((a.toNat - 48) * 10 + (b.toNat - 48)) % 10 = b.toNat := by omega
  rw [e1, e2]
  simp

theorem two_digits (n : Nat) (h : n < 100) : ∃ a b, Spec.two n = [a, b] ∧ isDigit a ∧ isDigit b ∧
    (a.toNat - 48) * 10 + (b.toNat - 48) = n := by
  refine ⟨_, _, rfl, ?_, ?_, ?_⟩
  · unfold isDigit; rw [BitVec.toNat_ofNat, Nat.mod_eq_of_lt (by omega)]; omega
  · unfold isDigit; rw [BitVec.toNat_ofNat, Nat.mod_eq_of_lt (by omega)]; omega
  · rw [BitVec.toNat_ofNat, Nat.mod_eq_of_lt (by omega), BitVec.toNat_ofNat, Nat.mod_eq_of_lt (by omega)]; omega

theorem checkTime_ok (n : Nat) (l : List Byte) (h : n ≤ l.length) :
    checkTime n l = .ok () ↔ ∀ b ∈ l.take n, isDigit b := by
  induction n generalizing l with
  | zero => simp [checkTime]
  | succ n ih =>
    match l with
    | [] => simp at h
    | b :: l =>
      rw [checkTime]
      simp only [List.length_cons] at h
      by_cases hb : b.toNat > 57 ∨ b.toNat < 48
      · rw [if_pos hb]
        simp only [reduceCtorEq, List.take_succ_cons, List.mem_cons, forall_eq_or_imp, false_iff]
        unfold isDigit; omega
      · rw [if_neg hb, ih l (by omega)]
        simp only [List.take_succ_cons, List.mem_cons, forall_eq_or_imp]
        unfold isDigit
        constructor
        · intro h; exact ⟨by omega, h⟩
        · intro h; exact h.2

theorem dec2 (a b : Byte) (l : List Byte) :
    decodeAsciiNum 2 0 (a :: b :: l) = some ((a.toNat - 48) * 10 + (b.toNat - 48), l) := by
  simp [decodeAsciiNum]

theorem dec4 (a b c d : Byte) (l : List Byte) :
    decodeAsciiNum 4 0 (a :: b :: c :: d :: l) =
      some (((a.toNat - 48) * 10 + (b.toNat - 48)) * 100 + ((c.toNat - 48) * 10 + (d.toNat - 48)), l) := by
  simp [decodeAsciiNum]; omega

/-- Year from two digits. -/
def utcYear (n : Nat) : Nat := if n < 50 then n + 2000 else n + 1900

theorem timeFields_utc (a b c d e f g h i j k l : Byte) (tl : List Byte) (old : Date) :
    timeFields true (a :: b :: c :: d :: e :: f :: g :: h :: i :: j :: k :: l :: tl) old =
      some ⟨utcYear ((a.toNat - 48) * 10 + (b.toNat - 48)), (c.toNat - 48) * 10 + (d.toNat - 48),
        (e.toNat - 48) * 10 + (f.toNat - 48), (g.toNat - 48) * 10 + (h.toNat - 48),
        (i.toNat - 48) * 10 + (j.toNat - 48), (k.toNat - 48) * 10 + (l.toNat - 48), old.milli, old.micro⟩ := by
  simp [timeFields, dec2, utcYear]

theorem timeFields_gen (a' b' a b c d e f g h i j k l : Byte) (tl : List Byte) (old : Date) :
    timeFields false (a' :: b' :: a :: b :: c :: d :: e :: f :: g :: h :: i :: j :: k :: l :: tl) old =
      some ⟨((a'.toNat - 48) * 10 + (b'.toNat - 48)) * 100 + ((a.toNat - 48) * 10 + (b.toNat - 48)),
        (c.toNat - 48) * 10 + (d.toNat - 48),
        (e.toNat - 48) * 10 + (f.toNat - 48), (g.toNat - 48) * 10 + (h.toNat - 48),
        (i.toNat - 48) * 10 + (j.toNat - 48), (k.toNat - 48) * 10 + (l.toNat - 48), old.milli, old.micro⟩ := by
  simp [timeFields, dec2, dec4]

theorem len12 (l : List Byte) (h : 12 ≤ l.length) : ∃ a b c d e f g h i j k m tl,
    l = a :: b :: c :: d :: e :: f :: g :: h :: i :: j :: k :: m :: tl := by
  match l, h with
  | a :: b :: c :: d :: e :: f :: g :: h :: i :: j :: k :: m :: tl, _ =>
    exact ⟨a, b, c, d, e, f, g, h, i, j, k, m, tl, rfl⟩

theorem pair_iff (a b : Byte) (n : Nat) :
    (n < 100 ∧ [a, b] = Spec.two n) ↔ (isDigit a ∧ isDigit b ∧ (a.toNat - 48) * 10 + (b.toNat - 48) = n) := by
  constructor
  · rintro ⟨h, ht⟩
    obtain ⟨a', b', q, da, db, v⟩ := two_digits n h
    rw [q] at ht
    simp only [List.cons.injEq, and_true] at ht
    obtain ⟨rfl, rfl⟩ := ht
    exact ⟨da, db, v⟩
  · rintro ⟨da, db, v⟩
    rw [← v]
    exact ⟨by unfold isDigit at da db; omega, (two_of_digits a b da db).symm⟩

theorem cons2_iff (a b : Byte) (l m : List Byte) (n : Nat) :
    a :: b :: l = Spec.two n ++ m ↔ [a, b] = Spec.two n ∧ l = m := by
  simp [Spec.two, and_assoc]

theorem utcYear_iff (n y : Nat) (h : n < 100) : utcYear n = y ↔ (1950 ≤ y ∧ y ≤ 2049) ∧ n = y % 100 := by
  unfold utcYear; split <;> omega

/-- The ten digits after the year. -/
theorem tail_iff (c d e f g h i j k m : Byte) (tmo td th tmi ts : Nat) :
    (tmo < 100 ∧ td < 100 ∧ th < 100 ∧ tmi < 100 ∧ ts < 100 ∧
      [c, d, e, f, g, h, i, j, k, m] = Spec.two tmo ++ (Spec.two td ++ (Spec.two th ++ (Spec.two tmi ++ Spec.two ts)))) ↔
    ((isDigit c ∧ isDigit d ∧ isDigit e ∧ isDigit f ∧ isDigit g ∧ isDigit h ∧ isDigit i ∧ isDigit j ∧ isDigit k ∧
      isDigit m) ∧ (c.toNat - 48) * 10 + (d.toNat - 48) = tmo ∧
        (e.toNat - 48) * 10 + (f.toNat - 48) = td ∧ (g.toNat - 48) * 10 + (h.toNat - 48) = th ∧
        (i.toNat - 48) * 10 + (j.toNat - 48) = tmi ∧ (k.toNat - 48) * 10 + (m.toNat - 48) = ts) := by
  rw [cons2_iff, cons2_iff, cons2_iff, cons2_iff]
  have p1 := pair_iff c d tmo
  have p2 := pair_iff e f td
  have p3 := pair_iff g h th
  have p4 := pair_iff i j tmi
  have p5 := pair_iff k m ts
  constructor
  · rintro ⟨a1, a2, a3, a4, a5, b1, b2, b3, b4, b5⟩
    obtain ⟨x1, y1, z1⟩ := p1.1 ⟨a1, b1⟩
    obtain ⟨x2, y2, z2⟩ := p2.1 ⟨a2, b2⟩
    obtain ⟨x3, y3, z3⟩ := p3.1 ⟨a3, b3⟩
    obtain ⟨x4, y4, z4⟩ := p4.1 ⟨a4, b4⟩
    obtain ⟨x5, y5, z5⟩ := p5.1 ⟨a5, b5⟩
    exact ⟨⟨x1, y1, x2, y2, x3, y3, x4, y4, x5, y5⟩, z1, z2, z3, z4, z5⟩
  · rintro ⟨⟨x1, y1, x2, y2, x3, y3, x4, y4, x5, y5⟩, z1, z2, z3, z4, z5⟩
    obtain ⟨a1, b1⟩ := p1.2 ⟨x1, y1, z1⟩
    obtain ⟨a2, b2⟩ := p2.2 ⟨x2, y2, z2⟩
    obtain ⟨a3, b3⟩ := p3.2 ⟨x3, y3, z3⟩
    obtain ⟨a4, b4⟩ := p4.2 ⟨x4, y4, z4⟩
    obtain ⟨a5, b5⟩ := p5.2 ⟨x5, y5, z5⟩
    exact ⟨a1, a2, a3, a4, a5, b1, b2, b3, b4, b5⟩

/-- Fields from digits, common part. -/
theorem timeFields_iff (utc : Bool) (val : List Byte) (old t : Date) (n : Nat) (hn : n = if utc then 12 else 14)
    (hlen : n ≤ val.length) :
    ((∀ b ∈ val.take n, isDigit b) ∧ timeFields utc val old = some t) ↔
      (val.take n = Spec.timeText utc t ∧ Spec.yearRange utc t.year ∧ t.month < 100 ∧ t.day < 100 ∧ t.hour < 100 ∧
        t.minute < 100 ∧ t.second < 100 ∧ t.milli = old.milli ∧ t.micro = old.micro) := by
  obtain ⟨ty, tmo, td, th, tmi, ts, tms, tus⟩ := t
  cases utc with
  | true =>
    simp only [if_true] at hn
    subst hn
    obtain ⟨a, b, c, d, e, f, g, h, i, j, k, m, tl, rfl⟩ := len12 val hlen
    rw [timeFields_utc]
    have tail := tail_iff c d e f g h i j k m tmo td th tmi ts
    simp only [List.take_succ_cons, List.take_zero, List.mem_cons, List.not_mem_nil, or_false, forall_eq_or_imp,
      forall_eq, Option.some.injEq, Date.mk.injEq, Spec.yearRange, if_true, Spec.timeText, List.append_assoc]
    rw [cons2_iff]
    constructor
    · rintro ⟨⟨ha, hb, ht⟩, e1, e2, e3, e4, e5, e6, e7, e8⟩
      obtain ⟨b1, b2, b3, b4, b5, b6⟩ := tail.2 ⟨ht, e2, e3, e4, e5, e6⟩
      obtain ⟨v1, v2⟩ := (pair_iff a b _).2 ⟨ha, hb, rfl⟩
      obtain ⟨w1, w2⟩ := (utcYear_iff _ _ v1).1 e1
      rw [w2] at v2
      exact ⟨⟨v2, b6⟩, w1, b1, b2, b3, b4, b5, e7.symm, e8.symm⟩
    · rintro ⟨⟨htxt, hrest⟩, hy, h1, h2, h3, h4, h5, e7, e8⟩
      obtain ⟨ht, e2, e3, e4, e5, e6⟩ := tail.1 ⟨h1, h2, h3, h4, h5, hrest⟩
      have hlt : ty % 100 < 100 := Nat.mod_lt _ (Nat.succ_pos 99)
      obtain ⟨ha, hb, v⟩ := (pair_iff a b _).1 ⟨hlt, htxt⟩
      rw [v]
      exact ⟨⟨ha, hb, ht⟩, (utcYear_iff _ _ hlt).2 ⟨hy, rfl⟩, e2, e3, e4, e5, e6, e7.symm, e8.symm⟩
  | false =>
    simp only [Bool.false_eq_true, if_false] at hn
    subst hn
    obtain ⟨a', b', rest, rfl⟩ : ∃ a' b' rest, val = a' :: b' :: rest := by
      match val, hlen with
      | a' :: b' :: rest, _ => exact ⟨a', b', rest, rfl⟩
    obtain ⟨a, b, c, d, e, f, g, h, i, j, k, m, tl, rfl⟩ := len12 rest (by simp only [List.length_cons] at hlen; omega)
    rw [timeFields_gen]
    have tail := tail_iff c d e f g h i j k m tmo td th tmi ts
    simp only [List.take_succ_cons, List.take_zero, List.mem_cons, List.not_mem_nil, or_false, forall_eq_or_imp,
      forall_eq, Option.some.injEq, Date.mk.injEq, Spec.yearRange, Bool.false_eq_true, if_false, Spec.timeText,
      List.append_assoc]
    rw [cons2_iff, cons2_iff]
    constructor
    · rintro ⟨⟨ha', hb', ha, hb, ht⟩, e1, e2, e3, e4, e5, e6, e7, e8⟩
      obtain ⟨b1, b2, b3, b4, b5, b6⟩ := tail.2 ⟨ht, e2, e3, e4, e5, e6⟩
      obtain ⟨u1, u2⟩ := (pair_iff a' b' _).2 ⟨ha', hb', rfl⟩
      obtain ⟨v1, v2⟩ := (pair_iff a b _).2 ⟨ha, hb, rfl⟩
      generalize (a'.toNat - 48) * 10 + (b'.toNat - 48) = y1 at *
      generalize (a.toNat - 48) * 10 + (b.toNat - 48) = y2 at *
      rw [show ty / 100 = y1 by omega, show ty % 100 = y2 by omega]
      exact ⟨⟨u2, v2, b6⟩, by omega, b1, b2, b3, b4, b5, e7.symm, e8.symm⟩
    · rintro ⟨⟨htxt', htxt, hrest⟩, hy, h1, h2, h3, h4, h5, e7, e8⟩
      obtain ⟨ht, e2, e3, e4, e5, e6⟩ := tail.1 ⟨h1, h2, h3, h4, h5, hrest⟩
      obtain ⟨ha', hb', v'⟩ := (pair_iff a' b' _).1 ⟨by omega, htxt'⟩
      obtain ⟨ha, hb, v⟩ := (pair_iff a b _).1 ⟨Nat.mod_lt _ (Nat.succ_pos 99), htxt⟩
      rw [v, v']
      exact ⟨⟨ha', hb', ha, hb, ht⟩, by omega, e2, e3, e4, e5, e6, e7.symm, e8.symm⟩

theorem timeFields_some (utc : Bool) (val : List Byte) (old : Date) (hlen : (if utc then 12 else 14) ≤ val.length) :
    ∃ t, timeFields utc val old = some t := by
  cases utc with
  | true =>
    obtain ⟨a, b, c, d, e, f, g, h, i, j, k, m, tl, rfl⟩ := len12 val hlen
    exact ⟨_, timeFields_utc ..⟩
  | false =>
    simp only [Bool.false_eq_true, if_false] at hlen
    obtain ⟨a', b', rest, rfl⟩ : ∃ a' b' rest, val = a' :: b' :: rest := by
      match val, hlen with
      | a' :: b' :: rest, _ => exact ⟨a', b', rest, rfl⟩
    obtain ⟨a, b, c, d, e, f, g, h, i, j, k, m, tl, rfl⟩ := len12 rest (by simp only [List.length_cons] at hlen; omega)
    exact ⟨_, timeFields_gen ..⟩

theorem timeText_length (utc : Bool) (t : Date) : (Spec.timeText utc t).length = if utc then 12 else 14 := by
  cases utc <;> rfl

theorem checkTime_not_oob (n : Nat) (l : List Byte) (h : n ≤ l.length) : checkTime n l ≠ .error .oob := by
  induction n generalizing l with
  | zero => simp [checkTime]
  | succ n ih =>
    match l with
    | [] => simp at h
    | b :: l =>
      rw [checkTime]
      simp only [List.length_cons] at h
      split
      · simp
      · exact ih l (by omega)

theorem valid_small (t : Date) (h : Time.Spec.Valid t) :
    t.month < 100 ∧ t.day < 100 ∧ t.hour < 100 ∧ t.minute < 100 ∧ t.second < 100 := by
  obtain ⟨_, _, h3, _, h5, h6, h7, h8, _⟩ := h
  have : Time.Spec.monthLen t.year t.month ≤ 31 := by
    unfold Time.Spec.monthLen; split <;> (try split) <;> (try split) <;> omega
  omega

/-- No text makes the time parser read outside its buffer. -/
theorem parseTime_in_bounds (utc : Bool) (val : List Byte) (old : Date) : parseTime utc val old ≠ .error .oob := by
  unfold parseTime
  simp only
  by_cases h1 : utc = true ∧ (val.length ≠ 12 ∧ val.length ≠ 13)
  · rw [if_pos h1]; simp
  · rw [if_neg h1]
    by_cases h2 : (!utc) = true ∧ (val.length ≠ 14 ∧ val.length ≠ 15)
    · rw [if_pos h2]; simp
    · rw [if_neg h2]
      have hlen : (if utc then 12 else 14) ≤ val.length := by cases utc <;> simp at h1 h2 ⊢ <;> omega
      have hs := timeFields_some utc val old hlen
      generalize (if utc = true then 12 else 14) = n at *
      split
      · simp
      · split
        · rename_i e he
          intro h
          simp only [Except.error.injEq] at h
          exact checkTime_not_oob _ _ hlen (h ▸ he)
        · obtain ⟨t, ht⟩ := hs
          rw [ht]
          simp only
          split <;> simp

/-- The texts the parser accepts are exactly the digit texts of calendar dates (of 1970 or later) in the year range
of the form, with or without a final `Z`; the result is that date, with the fraction fields of the caller's
structure. -/
theorem parseTime_iff (utc : Bool) (val : List Byte) (old t : Date) :
    parseTime utc val old = .ok t ↔
      Time.Spec.Valid t ∧ Spec.yearRange utc t.year ∧ t.milli = old.milli ∧ t.micro = old.micro ∧
        (val = Spec.timeText utc t ∨ val = Spec.timeText utc t ++ [0x5A]) := by
  have hn : ∃ n, n = if utc then 12 else 14 := ⟨_, rfl⟩
  obtain ⟨n, hn⟩ := hn
  have htl : (Spec.timeText utc t).length = n := by rw [timeText_length, hn]
  unfold parseTime
  simp only
  rw [← hn]
  by_cases hlen : val.length = n ∨ val.length = n + 1
  · rw [if_neg (by cases utc <;> simp at hn ⊢ <;> omega), if_neg (by cases utc <;> simp at hn ⊢ <;> omega)]
    by_cases hz : val.length = n + 1 ∧ val[val.length - 1]? ≠ some 0x5A
    · rw [if_pos hz]
      constructor
      · intro h; simp at h
      · rintro ⟨_, _, _, _, rfl | rfl⟩
        · omega
        · exact absurd (by simp) hz.2
    · rw [if_neg hz]
      have hle : n ≤ val.length := by omega
      have htake : ∀ x : List Byte, x.length = n → (val.take n = x ↔ val = x ∨ val = x ++ [0x5A]) := by
        intro x hx
        rcases hlen with hl | hl
        · rw [List.take_of_length_le (by omega)]
          constructor
          · exact .inl
          · rintro (h | h)
            · exact h
            · rw [h] at hl; simp at hl; omega
        · have hlast : val[val.length - 1]? = some 0x5A := by
            apply Classical.byContradiction; intro hc; exact hz ⟨hl, hc⟩
          constructor
          · intro h
            refine .inr ?_
            rw [← List.take_append_drop n val, h]
            congr 1
            rw [hl, Nat.add_sub_cancel] at hlast
            obtain ⟨hlt, hv⟩ := List.getElem?_eq_some_iff.1 hlast
            rw [List.drop_eq_getElem_cons hlt, hv, List.drop_of_length_le (by omega)]
          · rintro (h | h)
            · rw [h] at hl; omega
            · rw [h, ← hx, List.take_left]
      constructor
      · intro h
        split at h
        · simp at h
        · rename_i hc
          split at h
          · simp at h
          · rename_i t' ht'
            split at h
            · rename_i hchk
              simp only [Except.ok.injEq] at h
              subst h
              obtain ⟨h1, h2, _, _, _, _, _, h8, h9⟩ :=
                (timeFields_iff utc val old t' n hn hle).1 ⟨(checkTime_ok n val hle).1 hc, ht'⟩
              exact ⟨(dateTimeCheck_iff t').1 hchk, h2, h8, h9, (htake _ (by rw [timeText_length, hn])).1 h1⟩
            · simp at h
      · rintro ⟨hv, hy, hm, hu, htxt⟩
        obtain ⟨s1, s2, s3, s4, s5⟩ := valid_small t hv
        obtain ⟨hd, hf⟩ := (timeFields_iff utc val old t n hn hle).2
          ⟨(htake _ htl).2 htxt, hy, s1, s2, s3, s4, s5, hm, hu⟩
        rw [(checkTime_ok n val hle).2 hd]
        simp only [hf, (dateTimeCheck_iff t).2 hv, if_true]
  · constructor
    · intro h
      cases utc with
      | true =>
        simp at hn
        rw [if_pos (by simp; omega)] at h; simp at h
      | false =>
        simp at hn
        rw [if_neg (by simp), if_pos (by simp; omega)] at h; simp at h
    · rintro ⟨_, _, _, _, rfl | rfl⟩
      · omega
      · simp [htl] at hlen

theorem encodeNum2Ascii_two (n : Nat) (h : n < 100) : encodeNum2Ascii 2 n = Spec.two n := by
  simp only [encodeNum2Ascii, Spec.two, List.nil_append, List.cons_append]
  rw [Nat.mod_eq_of_lt (show n / 10 < 10 by omega), Nat.add_comm, Nat.add_comm (n % 10)]

theorem encodeNum2Ascii_four (n : Nat) (h : n < 10000) :
    encodeNum2Ascii 4 n = Spec.two (n / 100) ++ Spec.two (n % 100) := by
  simp only [encodeNum2Ascii, Spec.two, List.nil_append, List.cons_append]
  have e1 : n / 10 / 10 / 10 % 10 + 48 = 48 + n / 100 / 10 := by omega
  have e2 : n / 10 / 10 % 10 + 48 = 48 + n / 100 % 10 := by omega
  have e3 : n / 10 % 10 + 48 = 48 + n % 100 / 10 := by omega
  have e4 : n % 10 + 48 = 48 + n % 100 % 10 := by omega
  rw [e1, e2, e3, e4]

/-- The encoder succeeds exactly for calendar dates of 2000 to 2049 (UTCTime), of 1970 to 9999 (GeneralizedTime), and
writes the digits of the date followed by `Z`. -/
theorem encodeTimeContent_iff (utc : Bool) (t : Date) (out : List Byte) :
    encodeTimeContent utc t = .ok out ↔
      Time.Spec.Valid t ∧ (if utc then 2000 ≤ t.year ∧ t.year ≤ 2049 else t.year ≤ 9999) ∧
        out = Spec.timeText utc t ++ [0x5A] := by
  have henc : Time.Spec.Valid t → (utc = false → t.year ≤ 9999) →
      encodeTime utc t = Spec.timeText utc t ++ [0x5A] := by
    intro hv hy
    obtain ⟨s1, s2, s3, s4, s5⟩ := valid_small t hv
    unfold encodeTime Spec.timeText
    rw [encodeNum2Ascii_two _ s1, encodeNum2Ascii_two _ s2, encodeNum2Ascii_two _ s3, encodeNum2Ascii_two _ s4,
      encodeNum2Ascii_two _ s5, encodeNum2Ascii_two _ (Nat.mod_lt _ (by omega))]
    cases utc with
    | true => rfl
    | false => rw [encodeNum2Ascii_four _ (by have := hy rfl; omega)]
  unfold encodeTimeContent checkBslTime
  by_cases hv : Time.Spec.Valid t
  · have hc := (dateTimeCheck_iff t).2 hv
    rw [if_neg (by rw [hc]; simp)]
    cases utc with
    | true =>
      by_cases hy : t.year < 2000 ∨ t.year > 2049
      · rw [if_pos ⟨rfl, hy⟩]; simp; omega
      · rw [if_neg (by simp; omega), if_neg (by simp)]
        simp only [Except.ok.injEq, henc hv (by simp), hv, true_and, if_true]
        constructor
        · intro h; exact ⟨by omega, h.symm⟩
        · intro h; exact h.2.symm
    | false =>
      by_cases hy : t.year > 9999
      · rw [if_neg (by simp), if_pos ⟨rfl, hy⟩]; simp; omega
      · rw [if_neg (by simp), if_neg (by simp; omega)]
        simp only [Except.ok.injEq, henc hv (fun _ => by omega), hv, true_and, Bool.false_eq_true, if_false]
        constructor
        · intro h; exact ⟨by omega, h.symm⟩
        · intro h; exact h.2.symm
  · have hc : dateTimeCheck t = false := by
      cases hh : dateTimeCheck t with
      | true => exact absurd ((dateTimeCheck_iff t).1 hh) hv
      | false => rfl
    rw [if_pos hc]
    simp [hv]

/-- Round trip: what the encoder writes for a date is parsed back as that date. -/
theorem parseTime_encodeTime (utc : Bool) (t old : Date) (out : List Byte) (h : encodeTimeContent utc t = .ok out)
    (hm : old.milli = t.milli) (hu : old.micro = t.micro) : parseTime utc out old = .ok t := by
  obtain ⟨hv, hy, ho⟩ := (encodeTimeContent_iff utc t out).1 h
  refine (parseTime_iff utc out old t).2 ⟨hv, ?_, hm.symm, hu.symm, .inr ho⟩
  unfold Spec.yearRange
  cases utc with
  | true => simp at hy ⊢; omega
  | false => simpa using hy

/-- Finding F-ASN1-4: a UTCTime in the years 1950 to 1969, which X.509 allows, is never accepted. -/
theorem utcTime_before_1970_refused (t : Date) (hy : t.year < 1970) (old : Date) (val : List Byte) :
    parseTime true val old ≠ .ok t := by
  intro h
  have := ((parseTime_iff true val old t).1 h).1.1
  omega

/-- Finding F-ASN1-4 (continued): the UTCTime 991231235959Z is parsed but cannot be written again as UTCTime. -/
theorem utcTime_not_reencodable :
    ∃ val t, parseTime true val ⟨0, 0, 0, 0, 0, 0, 0, 0⟩ = .ok t ∧ ∀ out, encodeTimeContent true t ≠ .ok out := by
  refine ⟨Spec.timeText true ⟨1999, 12, 31, 23, 59, 59, 0, 0⟩ ++ [0x5A], ⟨1999, 12, 31, 23, 59, 59, 0, 0⟩, ?_, ?_⟩
  · exact (parseTime_iff _ _ _ _).2 ⟨by unfold Time.Spec.Valid; decide, by unfold Spec.yearRange; decide, rfl, rfl, .inr rfl⟩
  · intro out h
    have := ((encodeTimeContent_iff _ _ _).1 h).2.1
    simp at this

-- Non-vacuity.
example : encodeTimeContent true ⟨2024, 2, 29, 12, 30, 15, 0, 0⟩ =
    .ok [50, 52, 48, 50, 50, 57, 49, 50, 51, 48, 49, 53, 90] := by decide +kernel
example : parseTime false [49, 57, 55, 48, 49, 50, 51, 49, 50, 51, 53, 57, 53, 57, 90] ⟨0, 0, 0, 0, 0, 0, 0, 0⟩ =
    .ok ⟨1970, 12, 31, 23, 59, 59, 0, 0⟩ := by decide +kernel

end Verif.Bsl.Asn1
