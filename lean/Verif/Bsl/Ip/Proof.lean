import Verif.Bsl.Ip.Model
import Verif.Bsl.Ip.Spec
import Mathlib.Tactic.Ring
/-! Lemmas about the IP address parser. -/
namespace Verif.Bsl.Ip
open Verif.Common

/-! ### Strings -/

theorem split_first {c : Byte} : ∀ {p : List Byte}, c ∈ p → ∃ l d, p = l ++ c :: d ∧ c ∉ l
  | [], h => by simp at h
  | a :: as, h => by
    by_cases e : a = c
    · exact ⟨[], as, by rw [e]; rfl, by simp⟩
    · have : c ∈ as := by
        rcases List.mem_cons.mp h with h | h
        · exact absurd h.symm e
        · exact h
      obtain ⟨l, d, h1, h2⟩ := split_first this
      exact ⟨a :: l, d, by rw [h1]; rfl, by simp [h2, Ne.symm e]⟩

theorem split_last {c : Byte} {p : List Byte} (h : c ∈ p) : ∃ a b, p = a ++ c :: b ∧ c ∉ b := by
  obtain ⟨l, d, e, hl⟩ := split_first (List.mem_reverse.mpr h)
  refine ⟨d.reverse, l.reverse, ?_, by simpa using hl⟩
  have := congrArg List.reverse e
  simpa using this

theorem split_unique {c : Byte} : ∀ {a b x y : List Byte}, c ∉ a → c ∉ b → a ++ c :: x = b ++ c :: y →
    a = b ∧ x = y
  | [], [], x, y, _, _, h => by simpa using h
  | [], b :: bs, x, y, _, hb, h => by
    simp at h; exact absurd h.1 (fun e => hb (by rw [e]; simp))
  | a :: as, [], x, y, ha, _, h => by
    simp at h; exact absurd h.1.symm (fun e => ha (by rw [e]; simp))
  | a :: as, b :: bs, x, y, ha, hb, h => by
    simp only [List.cons_append, List.cons.injEq] at h
    obtain ⟨e1, e2⟩ := split_unique (fun e => ha (List.mem_cons_of_mem _ e))
      (fun e => hb (List.mem_cons_of_mem _ e)) h.2
    exact ⟨by rw [h.1, e1], e2⟩

/-! ### IPv4 -/

def IsDig (c : Byte) : Prop := 48 ≤ c.toNat ∧ c.toNat ≤ 57

theorem isDig_iff {c : Byte} : (0x30#8 ≤ c ∧ c ≤ 0x39#8) ↔ IsDig c := by
  rw [BitVec.le_def, BitVec.le_def]; rfl

/-- Value of a digit string continued from `n`. -/
def decFrom (n : Nat) (l : List Byte) : Nat := l.foldl (fun n c => n * 10 + (c.toNat - 0x30)) n

theorem decFrom_ge : ∀ (l : List Byte) (n : Nat), n ≤ decFrom n l
  | [], n => le_refl _
  | c :: cs, n => by
    have := decFrom_ge cs (n * 10 + (c.toNat - 0x30))
    rw [decFrom, List.foldl_cons]; rw [decFrom] at this; omega

theorem v4_seg : ∀ (g r : List Byte) (num : Nat) (seg out : List Byte), dot ∉ g → num ≤ 255 →
    seg.length ≤ 4 →
    (v4Loop (g ++ r) num seg out = v4Loop r (decFrom num g) (seg ++ g) out ∧
      (∀ c ∈ g, IsDig c) ∧ decFrom num g ≤ 255 ∧ seg.length + g.length ≤ 4) ∨
    (v4Loop (g ++ r) num seg out = none ∧
      ¬ ((∀ c ∈ g, IsDig c) ∧ decFrom num g ≤ 255 ∧ seg.length + g.length ≤ 4))
  | [], r, num, seg, out, _, hn, hs => by
    left; simp [decFrom, hn, hs]
  | c :: cs, r, num, seg, out, hd, hn, hs => by
    rw [List.cons_append, v4Loop, if_neg (fun e => hd (by rw [e]; simp))]
    by_cases c1 : 0x30#8 ≤ c ∧ c ≤ 0x39#8
    swap
    · right
      rw [if_neg c1]
      exact ⟨rfl, fun h => c1 (isDig_iff.mpr (h.1 c (by simp)))⟩
    rw [if_pos c1]
    dsimp only
    have hdf : decFrom num (c :: cs) = decFrom (num * 10 + (c.toNat - 0x30)) cs := rfl
    by_cases c2 : num * 10 + (c.toNat - 0x30) > 255
    · right
      rw [if_pos c2]
      refine ⟨rfl, fun h => ?_⟩
      have := decFrom_ge cs (num * 10 + (c.toNat - 0x30))
      rw [hdf] at h; omega
    rw [if_neg c2]
    by_cases c3 : seg.length > 3
    · right
      rw [if_pos c3]
      refine ⟨rfl, fun h => ?_⟩
      have := h.2.2
      rw [List.length_cons] at this; omega
    rw [if_neg c3]
    have hcs : (∀ x ∈ c :: cs, IsDig x) ↔ ∀ x ∈ cs, IsDig x := by
      simp [isDig_iff.mp c1]
    have hlen : (seg ++ [c]).length + cs.length = seg.length + (c :: cs).length := by
      simp; omega
    rcases v4_seg cs r (num * 10 + (c.toNat - 0x30)) (seg ++ [c]) out
      (fun e => hd (List.mem_cons_of_mem _ e)) (by omega) (by simp; omega) with h | h
    · left
      rw [h.1, hcs, hdf, ← hlen]
      exact ⟨by simp, h.2⟩
    · right
      rw [h.1, hcs, hdf, ← hlen]
      exact ⟨rfl, h.2⟩

theorem digit_toNat {d : Nat} (h : d < 10) : (Spec.digit d).toNat = 48 + d := by
  rw [Spec.digit, BitVec.toNat_ofNat]; omega

theorem digit_of {c : Byte} (h : IsDig c) : Spec.digit (c.toNat - 48) = c := by
  apply BitVec.eq_of_toNat_eq
  rw [digit_toNat (by unfold IsDig at h; omega)]
  unfold IsDig at h; omega

theorem dec_good {n : Nat} (h : n < 256) : (∀ c ∈ Spec.dec n, IsDig c) ∧ decFrom 0 (Spec.dec n) = n ∧
    (Spec.dec n).length ≤ 3 ∧ Spec.dec n ≠ [] ∧
    ((Spec.dec n).length > 1 → (Spec.dec n).head? ≠ some 0x30#8) := by
  have key : ∀ n : Fin 256, ((Spec.dec n.val).all (fun c => decide (48 ≤ c.toNat ∧ c.toNat ≤ 57)) = true) ∧
      decFrom 0 (Spec.dec n.val) = n.val ∧ (Spec.dec n.val).length ≤ 3 ∧ Spec.dec n.val ≠ [] ∧
      ((Spec.dec n.val).length > 1 → (Spec.dec n.val).head? ≠ some 0x30#8) := by decide +kernel
  obtain ⟨h1, h2⟩ := key ⟨n, h⟩
  refine ⟨?_, h2⟩
  intro c hc
  have := List.all_eq_true.mp h1 c hc
  unfold IsDig; simpa using this

theorem dot_not_digits {g : List Byte} (h : ∀ c ∈ g, IsDig c) : dot ∉ g := by
  intro hm; have := h dot hm; revert this; unfold IsDig; decide

/-- A segment of digits that passes the checks is a decimal number below 256. -/
theorem seg_dec {g : List Byte} (h1 : ∀ c ∈ g, IsDig c) (h2 : decFrom 0 g ≤ 255) (h3 : g ≠ [])
    (h4 : g.length > 1 → g.head? ≠ some 0x30#8) : g = Spec.dec (decFrom 0 g) := by
  have hz : ∀ c : Byte, IsDig c → c ≠ 0x30#8 → 49 ≤ c.toNat := by
    intro c hc hn
    have : c.toNat ≠ 48 := fun e => hn (BitVec.eq_of_toNat_eq e)
    unfold IsDig at hc; omega
  match g, h3 with
  | [a], _ => 
    have ha := h1 a (by simp)
    have hv : decFrom 0 [a] = a.toNat - 48 := by simp [decFrom]
    have : a.toNat - 48 < 10 := by unfold IsDig at ha; omega
    rw [hv, Spec.dec, if_pos this, digit_of ha]
  | [a, b], _ =>
    have ha := h1 a (by simp)
    have hb := h1 b (by simp)
    have hv : decFrom 0 [a, b] = (a.toNat - 48) * 10 + (b.toNat - 48) := by simp [decFrom]
    have ha' := hz a ha (by intro e; exact h4 (by simp) (by simp [e]))
    have hb2 : b.toNat - 48 < 10 := by unfold IsDig at hb; omega
    have ha2 : a.toNat - 48 < 10 := by unfold IsDig at ha; omega
    rw [hv, Spec.dec, if_neg (by omega), if_pos (by omega),
      show ((a.toNat - 48) * 10 + (b.toNat - 48)) / 10 = a.toNat - 48 by omega,
      show ((a.toNat - 48) * 10 + (b.toNat - 48)) % 10 = b.toNat - 48 by omega, digit_of ha, digit_of hb]
  | [a, b, c], _ =>
    have ha := h1 a (by simp)
    have hb := h1 b (by simp)
    have hc := h1 c (by simp)
    have hv : decFrom 0 [a, b, c] = ((a.toNat - 48) * 10 + (b.toNat - 48)) * 10 + (c.toNat - 48) := by
      simp [decFrom]
    have ha' := hz a ha (by intro e; exact h4 (by simp) (by simp [e]))
    have hb2 : b.toNat - 48 < 10 := by unfold IsDig at hb; omega
    have ha2 : a.toNat - 48 < 10 := by unfold IsDig at ha; omega
    have hc2 : c.toNat - 48 < 10 := by unfold IsDig at hc; omega
    rw [hv, Spec.dec, if_neg (by omega), if_neg (by omega),
      show (((a.toNat - 48) * 10 + (b.toNat - 48)) * 10 + (c.toNat - 48)) / 100 = a.toNat - 48 by omega,
      show (((a.toNat - 48) * 10 + (b.toNat - 48)) * 10 + (c.toNat - 48)) / 10 % 10 = b.toNat - 48 by omega,
      show (((a.toNat - 48) * 10 + (b.toNat - 48)) * 10 + (c.toNat - 48)) % 10 = c.toNat - 48 by omega,
      digit_of ha, digit_of hb, digit_of hc]
  | a :: b :: c :: d :: l, _ =>
    exfalso
    have ha := h1 a (by simp)
    have ha' := hz a ha (by intro e; exact h4 (by simp) (by simp [e]))
    have : decFrom 0 (a :: b :: c :: d :: l) = decFrom ((((a.toNat - 48) * 10 + (b.toNat - 48)) * 10 +
      (c.toNat - 48)) * 10 + (d.toNat - 48)) l := by simp [decFrom]
    have hge := decFrom_ge l ((((a.toNat - 48) * 10 + (b.toNat - 48)) * 10 +
      (c.toNat - 48)) * 10 + (d.toNat - 48))
    rw [this] at h2
    omega

/-- One segment followed by `r`, from the start of a segment. -/
theorem v4_first {g r out : List Byte} (hd : dot ∉ g) :
    (∃ v : Byte, g = Spec.dec v.toNat ∧ v4Loop (g ++ r) 0 [] out = v4Loop r v.toNat g out ∧
        (v4SegOk g out = true ↔ out.length < 4)) ∨
      ((v4Loop (g ++ r) 0 [] out = none ∨
        v4Loop (g ++ r) 0 [] out = v4Loop r (decFrom 0 g) g out ∧ v4SegOk g out = false) ∧
        ∀ v : Byte, g ≠ Spec.dec v.toNat) := by
  have hnot : ¬ ((∀ c ∈ g, IsDig c) ∧ decFrom 0 g ≤ 255 ∧ g.length ≤ 4 ∧ g ≠ [] ∧
      (g.length > 1 → g.head? ≠ some 0x30#8)) → ∀ v : Byte, g ≠ Spec.dec v.toNat := by
    rintro hn v rfl
    obtain ⟨a, b, c, d, e⟩ := dec_good v.isLt
    exact hn ⟨a, by rw [b]; have := v.isLt; omega, by omega, d, e⟩
  rcases v4_seg g r 0 [] out hd (by omega) (by simp) with ⟨h1, h2, h3, h4⟩ | ⟨h1, h2⟩
  · rw [List.nil_append] at h1
    simp only [List.length_nil, Nat.zero_add] at h4
    by_cases c : g ≠ [] ∧ (g.length > 1 → g.head? ≠ some 0x30#8)
    · left
      have hg := seg_dec h2 h3 c.1 c.2
      have hv : (BitVec.ofNat 8 (decFrom 0 g)).toNat = decFrom 0 g := by
        rw [BitVec.toNat_ofNat]; omega
      refine ⟨BitVec.ofNat 8 (decFrom 0 g), by rw [hv]; exact hg, by rw [hv]; exact h1, ?_⟩
      have hl : g.length ≠ 0 := by simpa using c.1
      have h5 : (decide (g.length > 1) && decide (g.head? = some 0x30#8)) = false := by
        rw [Bool.and_eq_false_iff]
        by_cases hl1 : g.length > 1
        · right; simpa using c.2 hl1
        · left; simpa using hl1
      simp only [v4SegOk, h5, hl, decide_false, Bool.false_or, Bool.not_false, Bool.and_true,
        Bool.not_eq_true', decide_eq_false_iff_not]
      omega
    · right
      refine ⟨Or.inr ⟨h1, ?_⟩, hnot (fun h => c h.2.2.2)⟩
      by_cases hg : g = []
      · simp [v4SegOk, hg]
      · have : ¬ (g.length > 1 → g.head? ≠ some 0x30#8) := fun h => c ⟨hg, h⟩
        push Not at this
        simp [v4SegOk, this.1, this.2]
  · right
    refine ⟨Or.inl h1, hnot ?_⟩
    rintro ⟨a, b, c, _⟩
    exact h2 ⟨a, b, by simpa using c⟩

/-- Decimal forms separated by dots. -/
def joinDec : List Byte → List Byte
  | [] => []
  | [v] => Spec.dec v.toNat
  | v :: w :: vs => Spec.dec v.toNat ++ dot :: joinDec (w :: vs)

theorem v4Loop_spec : ∀ (n : Nat) (s out res : List Byte), s.length ≤ n → out.length ≤ 4 →
    (v4Loop s 0 [] out = some res ↔
      ∃ vs, vs ≠ [] ∧ out.length + vs.length = 4 ∧ s = joinDec vs ∧ res = out ++ vs) := by
  intro n
  induction n with
  | zero =>
    intro s out res hs _
    have : s = [] := by simpa using hs
    subst this
    constructor
    · simp [v4Loop, v4SegOk]
    · rintro ⟨vs, h1, _, h3, _⟩
      exfalso
      match vs, h1 with
      | [v], _ => exact (dec_good v.isLt).2.2.2.1 h3.symm
      | v :: w :: vs, _ => simp [joinDec] at h3
  | succ n ih =>
    intro s out res hs hout
    by_cases hd : dot ∈ s
    · obtain ⟨g, r, rfl, hg⟩ := split_first hd
      rcases v4_first (r := dot :: r) (out := out) hg with ⟨v, e, h1, h2⟩ | ⟨h1, h2⟩
      · rw [h1, v4Loop, if_pos rfl]
        by_cases ho : out.length < 4
        · rw [if_pos (h2.mpr ho), ih r _ _ (by simp at hs; omega) (by simp; omega), BitVec.ofNat_toNat,
            BitVec.setWidth_eq]
          constructor
          · rintro ⟨vs, a, b, c, d⟩
            refine ⟨v :: vs, by simp, by simp at b ⊢; omega, ?_, by rw [d]; simp⟩
            cases vs with
            | nil => exact absurd rfl a
            | cons w vs => rw [joinDec, ← c, ← e]
          · rintro ⟨vs, a, b, c, d⟩
            match vs, a with
            | [w], _ =>
              exfalso
              have : dot ∈ Spec.dec w.toNat := by
                rw [joinDec] at c; rw [← c]; simp
              exact dot_not_digits (dec_good w.isLt).1 this
            | w :: x :: vs, _ =>
              rw [joinDec] at c
              obtain ⟨c1, c2⟩ := split_unique hg (dot_not_digits (dec_good w.isLt).1) c
              have hvw : v = w := by
                apply BitVec.eq_of_toNat_eq
                rw [← (dec_good v.isLt).2.1, ← e, c1, (dec_good w.isLt).2.1]
              exact ⟨x :: vs, by simp, by simp at b ⊢; omega, c2, by rw [d, hvw]; simp⟩
        · rw [if_neg (fun h => ho (h2.mp h))]
          constructor
          · simp
          · rintro ⟨vs, a, b, _⟩
            exfalso
            have : 0 < vs.length := List.length_pos_iff.mpr a
            omega
      · have hnone : v4Loop (g ++ dot :: r) 0 [] out = none := by
          rcases h1 with h1 | ⟨h1, h3⟩
          · exact h1
          · rw [h1, v4Loop, if_pos rfl, h3]; rfl
        rw [hnone]
        constructor
        · simp
        · rintro ⟨vs, a, b, c, d⟩
          exfalso
          match vs, a with
          | [w], _ =>
            have : dot ∈ Spec.dec w.toNat := by
              rw [joinDec] at c; rw [← c]; simp
            exact dot_not_digits (dec_good w.isLt).1 this
          | w :: x :: vs, _ =>
            rw [joinDec] at c
            exact h2 w (split_unique hg (dot_not_digits (dec_good w.isLt).1) c).1
    · rcases v4_first (r := []) (out := out) hd with ⟨v, e, h1, h2⟩ | ⟨h1, h2⟩
      · rw [List.append_nil] at h1
        rw [h1, v4Loop]
        have hj : (∃ vs, vs ≠ [] ∧ out.length + vs.length = 4 ∧ s = joinDec vs ∧ res = out ++ vs) ↔
            out.length = 3 ∧ res = out ++ [v] := by
          constructor
          · rintro ⟨vs, a, b, c, d⟩
            match vs, a with
            | [w], _ =>
              have hvw : v = w := by
                apply BitVec.eq_of_toNat_eq
                rw [← (dec_good v.isLt).2.1, ← e, c]; exact (dec_good w.isLt).2.1
              exact ⟨by simp at b; omega, by rw [d, hvw]⟩
            | w :: x :: vs, _ =>
              exact absurd (by rw [c, joinDec]; simp) hd
          · rintro ⟨a, b⟩
            exact ⟨[v], by simp, by simp [a], e, b⟩
        rw [hj, BitVec.ofNat_toNat, BitVec.setWidth_eq]
        dsimp only
        by_cases ho : out.length < 4
        · rw [if_pos (h2.mpr ho)]
          by_cases h3 : out.length = 3
          · rw [if_pos (by simp [h3])]; simp [h3, eq_comm]
          · rw [if_neg (by simp; omega)]; simp [h3]
        · rw [if_neg (fun h => ho (h2.mp h))]
          constructor
          · simp
          · rintro ⟨a, _⟩; omega
      · have hnone : v4Loop s 0 [] out = none := by
          rw [List.append_nil] at h1
          rcases h1 with h1 | ⟨h1, h3⟩
          · exact h1
          · rw [h1, v4Loop, h3]; rfl
        rw [hnone]
        constructor
        · simp
        · rintro ⟨vs, a, b, c, d⟩
          exfalso
          match vs, a with
          | [w], _ => exact h2 w c
          | w :: x :: vs, _ => exact absurd (by rw [c, joinDec]; simp) hd

theorem parseIpv4_spec {s out : List Byte} : parseIpv4 s = some out ↔ Spec.V4 s out := by
  rw [parseIpv4, v4Loop_spec s.length s [] out (le_refl _) (by simp)]
  constructor
  · rintro ⟨vs, _, h2, h3, h4⟩
    rw [List.nil_append] at h4
    subst h4
    simp only [List.length_nil, Nat.zero_add] at h2
    match out, h2 with
    | [a, b, c, d], _ => exact ⟨a, b, c, d, rfl, by rw [h3]; rfl⟩
  · rintro ⟨a, b, c, d, rfl, rfl⟩
    exact ⟨[a, b, c, d], by simp, by simp, rfl, rfl⟩

theorem v4_chars {s out : List Byte} (h : Spec.V4 s out) : colon ∉ s ∧ dot ∈ s ∧ s ≠ [] ∧ out.length = 4 := by
  obtain ⟨a, b, c, d, rfl, rfl⟩ := h
  have hc : ∀ v : Byte, colon ∉ Spec.dec v.toNat := by
    intro v hm
    have := (dec_good v.isLt).1 colon hm
    revert this; unfold IsDig; decide
  refine ⟨?_, ?_, by simp, rfl⟩
  · simp only [List.mem_append, List.mem_cons, not_or]
    exact ⟨hc a, by decide, hc b, by decide, hc c, by decide, hc d⟩
  · simp [dot]

/-! ### Searching backwards -/

theorem lastIdx_none {c : Byte} {d : List Byte} : ∀ i, c ∉ d.take i → lastIdx c d i = none
  | 0, _ => rfl
  | i + 1, h => by
    rw [lastIdx, if_neg, lastIdx_none i]
    · intro e; exact h (List.mem_of_mem_take (i := i) (by rw [List.take_take]; simpa using e))
    · intro e
      apply h
      rw [List.take_add_one, e]; simp

theorem lastIdx_app {c : Byte} {a b : List Byte} (r : List Byte) (h : c ∉ b) : ∀ n, n ≤ b.length →
    lastIdx c (a ++ c :: (b ++ r)) (a.length + 1 + n) = some a.length
  | 0, _ => by rw [Nat.add_zero, lastIdx]; simp
  | n + 1, hn => by
    rw [show a.length + 1 + (n + 1) = (a.length + 1 + n) + 1 by omega, lastIdx, if_neg,
      lastIdx_app r h n (by omega)]
    rw [List.getElem?_append_right (by omega), show a.length + 1 + n - a.length = n + 1 by omega,
      List.getElem?_cons_succ, List.getElem?_append_left (by omega)]
    intro e; exact h (List.mem_of_getElem? e)

theorem findIpv4_nodot {s : List Byte} (h : dot ∉ s) : findIpv4 s = some (s.length, []) := by
  rw [findIpv4, lastIdx_none s.length (fun e => h (List.mem_of_mem_take e))]

/-- What precedes the IPv4 part: nothing, or something that ends in a colon. -/
def Pre (a : List Byte) : Prop := a = [] ∨ ∃ a', a = a' ++ [colon]

theorem findIpv4_dot {s : List Byte} (h : dot ∈ s) : ∃ a q, s = a ++ q ∧ Pre a ∧
    findIpv4 s = (parseIpv4 q).map (fun b => (a.length, b)) ∧
    (∃ q0 post, q = q0 ++ dot :: post ∧ colon ∉ q0 ∧ dot ∉ post) := by
  obtain ⟨pre, post, rfl, hp⟩ := split_last h
  have hi : lastIdx dot (pre ++ dot :: post) (pre ++ dot :: post).length = some pre.length := by
    have := lastIdx_app (a := pre) [] hp post.length (le_refl _)
    rw [List.append_nil] at this
    rw [← this]; congr 1; simp; omega
  by_cases hc : colon ∈ pre
  · obtain ⟨a, q0, e, hq⟩ := split_last hc
    subst e
    have hj : lastIdx colon (a ++ colon :: q0 ++ dot :: post) ((a ++ colon :: q0).length + 1) =
        some a.length := by
      have := lastIdx_app (c := colon) (a := a) (b := q0 ++ [dot]) post
        (by simp only [List.mem_append, List.mem_singleton, not_or]; exact ⟨hq, by decide⟩)
        (q0.length + 1) (by simp)
      rw [← this]
      congr 1
      · simp
      · simp; omega
    refine ⟨a ++ [colon], q0 ++ dot :: post, by simp, Or.inr ⟨a, rfl⟩, ?_, q0, post, rfl, hq, hp⟩
    rw [findIpv4, hi]
    dsimp only
    rw [hj]
    dsimp only
    rw [show (a ++ colon :: q0 ++ dot :: post).drop (a.length + 1) = q0 ++ dot :: post by
      rw [show a ++ colon :: q0 ++ dot :: post = (a ++ [colon]) ++ (q0 ++ dot :: post) by simp,
        List.drop_left' (by simp)]]
    cases parseIpv4 (q0 ++ dot :: post) with
    | none => rfl
    | some b => simp
  · refine ⟨[], pre ++ dot :: post, rfl, Or.inl rfl, ?_, pre, post, rfl, hc, hp⟩
    have hj : lastIdx colon (pre ++ dot :: post) (pre.length + 1) = none := by
      apply lastIdx_none
      rw [show pre ++ dot :: post = (pre ++ [dot]) ++ post by simp, List.take_left' (by simp)]
      simp only [List.mem_append, List.mem_singleton, not_or]
      exact ⟨hc, by decide⟩
    rw [findIpv4, hi]
    dsimp only
    rw [hj]
    dsimp only
    rw [List.drop_zero]
    cases parseIpv4 (pre ++ dot :: post) with
    | none => rfl
    | some b => rfl

theorem pre_unique {a a' q q' : List Byte} (ha : Pre a) (ha' : Pre a') (hq : colon ∉ q) (hq' : colon ∉ q')
    (e : a ++ q = a' ++ q') : a = a' ∧ q = q' := by
  rcases ha with rfl | ⟨b, rfl⟩
  · rcases ha' with rfl | ⟨b', rfl⟩
    · exact ⟨rfl, by simpa using e⟩
    · exact absurd (by rw [List.nil_append] at e; rw [e]; simp) hq
  · rcases ha' with rfl | ⟨b', rfl⟩
    · exact absurd (by rw [List.nil_append] at e; rw [← e]; simp) hq'
    · have e2 := congrArg List.reverse e
      simp only [List.reverse_append, List.reverse_cons, List.reverse_nil, List.nil_append,
        List.cons_append] at e2
      obtain ⟨e3, e4⟩ := split_unique (by simpa using hq) (by simpa using hq') e2
      have e5 : q = q' := by simpa using congrArg List.reverse e3
      have e6 : b = b' := by simpa using congrArg List.reverse e4
      exact ⟨by rw [e6], e5⟩

/-- With an IPv4 part. -/
theorem findIpv4_v4 {a q v4 : List Byte} (ha : Pre a) (hq : Spec.V4 q v4) :
    findIpv4 (a ++ q) = some (a.length, v4) := by
  obtain ⟨hc, hd, _, _⟩ := v4_chars hq
  obtain ⟨a', q', e, hp, hf, q0, post, e2, hq0, hpost⟩ := findIpv4_dot (s := a ++ q) (by simp [hd])
  -- the last dot lies in `q`, so the two splits agree
  have hcq' : colon ∉ q' := by
    rw [e2]
    simp only [List.mem_append, List.mem_cons, not_or]
    refine ⟨hq0, by decide, ?_⟩
    intro hm
    obtain ⟨p1, p2, e3, _⟩ := split_first hm
    -- then `q` would be a part of what follows that colon
    rw [e2, e3] at e
    have e4 : a ++ q = (a' ++ q0 ++ dot :: p1) ++ colon :: p2 := by rw [e]; simp
    obtain ⟨d1, d2, e5, hd2⟩ := split_first hd
    -- reverse: first dot from the right
    have hq_rev : ∃ x y, q = x ++ dot :: y ∧ dot ∉ y ∧ colon ∉ y := by
      obtain ⟨x, y, e6, hy⟩ := split_last hd
      exact ⟨x, y, e6, hy, fun h => hc (by rw [e6]; simp [h])⟩
    obtain ⟨x, y, e6, hy, hcy⟩ := hq_rev
    have e7 : a ++ q = (a ++ x) ++ dot :: y := by rw [e6]; simp
    have e8 : a ++ q = (a' ++ q0) ++ dot :: post := by rw [e, e3]; simp
    have e9 := e7.symm.trans e8
    have e10 := congrArg List.reverse e9
    simp only [List.reverse_append, List.reverse_cons, List.append_assoc, List.cons_append,
      List.nil_append] at e10
    obtain ⟨e11, _⟩ := split_unique (by simpa using hy) (by simpa using hpost) e10
    have : y = post := by simpa using congrArg List.reverse e11
    exact hcy (by rw [this]; exact hm)
  obtain ⟨rfl, rfl⟩ := pre_unique ha hp hc hcq' e
  rw [hf, parseIpv4_spec.mpr hq]; rfl

theorem findIpv4_inv {s : List Byte} {n : Nat} {v4 : List Byte} (h : findIpv4 s = some (n, v4)) :
    (dot ∉ s ∧ n = s.length ∧ v4 = []) ∨
    ∃ a q, s = a ++ q ∧ n = a.length ∧ Pre a ∧ Spec.V4 q v4 := by
  by_cases hd : dot ∈ s
  · right
    obtain ⟨a, q, e, hp, hf, _⟩ := findIpv4_dot hd
    rw [hf] at h
    cases hq : parseIpv4 q with
    | none => rw [hq] at h; simp at h
    | some b =>
      rw [hq] at h
      simp only [Option.map_some, Option.some.injEq, Prod.mk.injEq] at h
      obtain ⟨rfl, rfl⟩ := h
      exact ⟨a, q, e, rfl, hp, parseIpv4_spec.mp hq⟩
  · left
    rw [findIpv4_nodot hd] at h
    simp only [Option.some.injEq, Prod.mk.injEq] at h
    exact ⟨hd, h.1.symm, h.2.symm⟩

/-! ### Hexadecimal groups -/

theorem isXdigit_iff {c : Byte} : isXdigit c = true ↔ Spec.IsHex c := by
  simp only [isXdigit, Spec.IsHex, Bool.or_eq_true, Bool.and_eq_true, decide_eq_true_eq, BitVec.le_def]
  simp only [BitVec.toNat_ofNat]
  norm_num
  tauto

theorem charToDigit_val : ∀ c : Byte, isXdigit c = true → (charToDigit c).toNat = Spec.hexVal c := by
  decide +kernel

theorem hexVal_lt : ∀ c : Byte, isXdigit c = true → Spec.hexVal c < 16 := by
  decide +kernel

/-- Value of a group as computed. -/
def bvVal (curr : BitVec 16) (g : List Byte) : BitVec 16 :=
  g.foldl (fun n c => (n <<< 4) ||| charToDigit c) curr

theorem shift_or {x d : BitVec 16} {k : Nat} (h : x.toNat < 16 ^ k) (hk : k < 4) (hd : d.toNat < 16) :
    ((x <<< 4) ||| d).toNat = 16 * x.toNat + d.toNat := by
  have hx : x.toNat < 4096 := lt_of_lt_of_le h (by
    calc 16 ^ k ≤ 16 ^ 3 := Nat.pow_le_pow_right (by norm_num) (by omega)
      _ = 4096 := by norm_num)
  rw [BitVec.toNat_or, BitVec.toNat_shiftLeft, Nat.shiftLeft_eq, Nat.mod_eq_of_lt (by omega)]
  have := Nat.shiftLeft_add_eq_or_of_lt (b := d.toNat) (i := 4) (by omega) x.toNat
  rw [Nat.shiftLeft_eq] at this
  rw [← this]; omega

theorem bvVal_spec : ∀ (g : List Byte) (curr : BitVec 16) (n k : Nat), curr.toNat = n → n < 16 ^ k →
    k + g.length ≤ 4 → (∀ c ∈ g, isXdigit c = true) →
    (bvVal curr g).toNat = g.foldl (fun n c => 16 * n + Spec.hexVal c) n
  | [], curr, n, k, h, _, _, _ => h
  | c :: cs, curr, n, k, h, hn, hk, hx => by
    rw [bvVal, List.foldl_cons, List.foldl_cons]
    have h1 := charToDigit_val c (hx c (by simp))
    have h2 := hexVal_lt c (hx c (by simp))
    have hk' : k < 4 := by rw [List.length_cons] at hk; omega
    have h3 := shift_or (x := curr) (d := charToDigit c) (k := k) (by rw [h]; exact hn) hk' (by omega)
    refine bvVal_spec cs _ _ (k + 1) (by rw [h3, h, h1]) ?_ (by rw [List.length_cons] at hk; omega)
      (fun x hxx => hx x (List.mem_cons_of_mem _ hxx))
    rw [pow_succ]; omega

theorem bvVal_group {g : List Byte} (h : Spec.IsGroup g) : bvVal 0#16 g = BitVec.ofNat 16 (Spec.groupVal g) := by
  apply BitVec.eq_of_toNat_eq
  have := bvVal_spec g 0#16 0 0 rfl (by simp) (by simpa using h.2.1)
    (fun c hc => isXdigit_iff.mpr (h.2.2 c hc))
  rw [BitVec.toNat_ofNat, Nat.mod_eq_of_lt]
  · exact this
  · rw [Spec.groupVal, ← this]; exact (bvVal 0#16 g).isLt

/-- A group in the loop. -/
theorem hex_run : ∀ (g r : List Byte) (st : V6), colon ∉ g → g ≠ [] →
    ((∀ c ∈ g, Spec.IsHex c) ∧ st.currLen + g.length ≤ 4 →
      ∃ c, c ≠ colon ∧ hexLoop (g ++ r) st = hexLoop r
        ⟨some c, st.segs, st.dc, bvVal st.curr g, st.currLen + g.length, true⟩) ∧
    (¬ ((∀ c ∈ g, Spec.IsHex c) ∧ st.currLen + g.length ≤ 4) → hexLoop (g ++ r) st = none)
  | [], _, _, _, h => absurd rfl h
  | c :: cs, r, st, hc, _ => by
    have hcc : c ≠ colon := fun e => hc (by rw [e]; simp)
    rw [List.cons_append, hexLoop, if_pos hcc]
    by_cases c1 : isXdigit c = true
    swap
    · rw [if_pos (by simpa using c1)]
      refine ⟨fun h => absurd (isXdigit_iff.mpr (h.1 c (by simp))) c1, fun _ => rfl⟩
    rw [if_neg (by simpa using c1)]
    by_cases c2 : st.currLen + 1 > 4
    · rw [if_pos c2]
      refine ⟨fun h => ?_, fun _ => rfl⟩
      have := h.2; rw [List.length_cons] at this; omega
    rw [if_neg c2]
    by_cases hcs : cs = []
    · subst hcs
      refine ⟨fun _ => ⟨c, hcc, rfl⟩, fun h => ?_⟩
      exfalso; apply h
      refine ⟨?_, by simp; omega⟩
      intro x hx; simp at hx; rw [hx]; exact isXdigit_iff.mp c1
    · have ih := hex_run cs r ⟨some c, st.segs, st.dc, (st.curr <<< 4) ||| charToDigit c, st.currLen + 1, true⟩
        (fun e => hc (List.mem_cons_of_mem _ e)) hcs
      have heq : ((∀ x ∈ c :: cs, Spec.IsHex x) ∧ st.currLen + (c :: cs).length ≤ 4) ↔
          ((∀ x ∈ cs, Spec.IsHex x) ∧ st.currLen + 1 + cs.length ≤ 4) := by
        rw [List.length_cons]
        constructor
        · rintro ⟨a, b⟩; exact ⟨fun x hx => a x (List.mem_cons_of_mem _ hx), by omega⟩
        · rintro ⟨a, b⟩
          refine ⟨fun x hx => ?_, by omega⟩
          rcases List.mem_cons.mp hx with rfl | hx
          · exact isXdigit_iff.mp c1
          · exact a x hx
      rw [heq]
      refine ⟨fun h => ?_, fun h => ih.2 h⟩
      obtain ⟨d, hd, h2⟩ := ih.1 h
      refine ⟨d, hd, ?_⟩
      rw [h2]
      simp only [List.length_cons]
      rw [show st.currLen + 1 + cs.length = st.currLen + (cs.length + 1) by omega]
      rfl

/-- The loop on colon-separated tokens, from the start of a token that follows a colon. -/
noncomputable def T : List (List Byte) → List (BitVec 16) → Option Nat → Option (List (BitVec 16) × Option Nat)
  | [], segs, dc => some (segs, dc)
  | [t], segs, dc =>
    open Classical in
    if t = [] then some (segs, dc)
    else if Spec.IsGroup t ∧ segs.length < 8 then some (segs ++ [bvVal 0#16 t], dc) else none
  | t :: t' :: ts, segs, dc =>
    open Classical in
    if t = [] then (if dc ≠ none then none else T (t' :: ts) segs (some segs.length))
    else if Spec.IsGroup t ∧ segs.length < 8 then T (t' :: ts) (segs ++ [bvVal 0#16 t]) dc else none

theorem isGroup_iff {g : List Byte} (h : g ≠ []) (z : Nat) (hz : z = 0) :
    Spec.IsGroup g ↔ (∀ c ∈ g, Spec.IsHex c) ∧ z + g.length ≤ 4 := by
  subst hz
  rw [Spec.IsGroup]; constructor
  · rintro ⟨_, a, b⟩; exact ⟨b, by omega⟩
  · rintro ⟨a, b⟩; exact ⟨h, by omega, a⟩

/-- A nonempty token at the front, whatever came before. -/
theorem hex_tok {t : List Byte} {ts : List (List Byte)} {prev : Option Byte} {segs : List (BitVec 16)}
    {dc : Option Nat} (ht : colon ∉ t) (hne : t ≠ [])
    (ih : ts ≠ [] → ∀ segs dc, hexLoop (Spec.join ts) ⟨some colon, segs, dc, 0#16, 0, false⟩ = T ts segs dc) :
    hexLoop (Spec.join (t :: ts)) ⟨prev, segs, dc, 0#16, 0, false⟩ = T (t :: ts) segs dc := by
  have run := fun r => hex_run t r ⟨prev, segs, dc, 0#16, 0, false⟩ ht hne
  dsimp only at run
  cases ts with
  | nil =>
    rw [Spec.join, T, if_neg hne]
    have run := run []
    rw [List.append_nil] at run
    by_cases hg : Spec.IsGroup t
    · obtain ⟨c, _, h⟩ := run.1 ((isGroup_iff hne 0 rfl).mp hg)
      rw [h, hexLoop]
      simp only [if_true]
      by_cases hl : segs.length < 8
      · rw [if_neg (by omega), if_pos ⟨hg, hl⟩]
      · rw [if_pos (by omega), if_neg (fun h => hl h.2)]
    · rw [run.2 (mt (isGroup_iff hne 0 rfl).mpr hg), if_neg (fun h => hg h.1)]
  | cons t' ts =>
    rw [Spec.join, T, if_neg hne]
    have run := run (colon :: Spec.join (t' :: ts))
    rw [show (0x3a#8 : Byte) = colon from rfl]
    by_cases hg : Spec.IsGroup t
    · obtain ⟨c, hc, h⟩ := run.1 ((isGroup_iff hne 0 rfl).mp hg)
      rw [h, hexLoop, if_neg (by simp), colonStep, if_neg (by simp), if_neg (by simpa using hc), colonEnd]
      by_cases hl : segs.length < 8
      · rw [if_neg (by simp; omega), if_pos ⟨hg, hl⟩, ← ih (by simp)]; rfl
      · rw [if_pos (by simp; omega), if_neg (fun h => hl h.2)]; rfl
    · rw [run.2 (mt (isGroup_iff hne 0 rfl).mpr hg), if_neg (fun h => hg h.1)]

theorem hexLoop_T : ∀ (ts : List (List Byte)) (segs : List (BitVec 16)) (dc : Option Nat),
    (∀ t ∈ ts, colon ∉ t) → ts ≠ [] →
    hexLoop (Spec.join ts) ⟨some colon, segs, dc, 0#16, 0, false⟩ = T ts segs dc
  | [], _, _, _, h => absurd rfl h
  | t :: ts, segs, dc, hc, _ => by
    by_cases ht : t = []
    · subst ht
      cases ts with
      | nil => simp [Spec.join, T, hexLoop]
      | cons t' ts =>
        rw [Spec.join, T, if_pos rfl, List.nil_append, hexLoop, if_neg (by decide), colonStep,
          if_neg (by simp), if_pos rfl]
        by_cases hd : dc ≠ none
        · rw [if_pos hd, if_pos hd]
        · rw [if_neg hd, if_neg hd]
          exact hexLoop_T (t' :: ts) segs (some segs.length)
            (fun x hx => hc x (List.mem_cons_of_mem _ hx)) (by simp)
    · exact hex_tok (hc t (by simp)) ht
        (fun hne segs dc => hexLoop_T ts segs dc (fun x hx => hc x (List.mem_cons_of_mem _ hx)) hne)

/-- From the beginning of the string. -/
theorem parseHex_nonempty {t : List Byte} {ts : List (List Byte)} (hc : ∀ x ∈ t :: ts, colon ∉ x) (ht : t ≠ []) :
    parseHex (Spec.join (t :: ts)) = T (t :: ts) [] none :=
  hex_tok (hc t (by simp)) ht
    (fun hne segs dc => hexLoop_T ts segs dc (fun x hx => hc x (List.mem_cons_of_mem _ hx)) hne)

theorem parseHex_dc {ts : List (List Byte)} (hc : ∀ x ∈ ts, colon ∉ x) (hne : ts ≠ []) :
    parseHex (Spec.join ([] :: [] :: ts)) = T ts [] (some 0) := by
  cases ts with
  | nil => exact absurd rfl hne
  | cons t ts =>
    rw [← hexLoop_T (t :: ts) _ _ hc (by simp)]
    simp only [Spec.join, List.nil_append]
    rw [parseHex, hexLoop, if_neg (by decide), colonStep, if_pos ⟨rfl, rfl⟩]

theorem parseHex_bad {ts : List (List Byte)} {t : List Byte} (hc : colon ∉ t) (h : t ≠ [] ∨ ts = []) :
    parseHex (Spec.join ([] :: t :: ts)) = none := by
  have hh : (Spec.join (t :: ts)).head? ≠ some colon := by
    cases t with
    | nil =>
      rcases h with h | rfl
      · exact absurd rfl h
      · simp [Spec.join]
    | cons x xs =>
      have hx : x ≠ colon := fun e => hc (by rw [e]; simp)
      cases ts with
      | nil => simpa [Spec.join] using hx
      | cons t' ts => simpa [Spec.join] using hx
  rw [Spec.join, List.nil_append, parseHex, hexLoop, if_neg (by decide), colonStep,
    if_neg (fun e => hh e.2), if_neg (by simp)]
  simp [colonEnd]

/-! ### What the token loop accepts -/

/-- Groups, then possibly one empty token. -/
def R (ts : List (List Byte)) (segs s' : List (BitVec 16)) : Prop :=
  ∃ gs tr, (tr = [] ∨ tr = [[]]) ∧ ts = gs ++ tr ∧ (∀ g ∈ gs, Spec.IsGroup g) ∧
    s' = segs ++ gs.map (bvVal 0#16) ∧ s'.length ≤ 8

theorem R_cons {t : List Byte} {ts : List (List Byte)} {segs s' : List (BitVec 16)} (ht : t ≠ []) :
    R (t :: ts) segs s' ↔ (Spec.IsGroup t ∧ segs.length < 8) ∧ R ts (segs ++ [bvVal 0#16 t]) s' := by
  constructor
  · rintro ⟨gs, tr, htr, e, hg, hs, hl⟩
    cases gs with
    | nil =>
      exfalso
      rcases htr with rfl | rfl
      · simp at e
      · simp at e; exact ht e.1
    | cons g gs =>
      simp only [List.cons_append, List.cons.injEq] at e
      obtain ⟨rfl, e⟩ := e
      refine ⟨⟨hg t (by simp), ?_⟩, gs, tr, htr, e, fun x hx => hg x (List.mem_cons_of_mem _ hx), ?_, hl⟩
      · rw [hs] at hl; simp at hl; omega
      · rw [hs]; simp
  · rintro ⟨⟨h1, h2⟩, gs, tr, htr, e, hg, hs, hl⟩
    refine ⟨t :: gs, tr, htr, by rw [e]; rfl, ?_, by rw [hs]; simp, hl⟩
    intro x hx
    rcases List.mem_cons.mp hx with rfl | hx
    · exact h1
    · exact hg x hx

theorem R_nil {ts : List (List Byte)} {segs s' : List (BitVec 16)} (h : segs.length ≤ 8) :
    R ([] :: ts) segs s' ↔ ts = [] ∧ s' = segs := by
  constructor
  · rintro ⟨gs, tr, htr, e, hg, hs, hl⟩
    cases gs with
    | nil =>
      rcases htr with rfl | rfl
      · simp at e
      · simp at e; exact ⟨e, by simpa using hs⟩
    | cons g gs =>
      simp only [List.cons_append, List.cons.injEq] at e
      exact absurd e.1.symm (hg g (by simp)).1
  · rintro ⟨rfl, rfl⟩
    exact ⟨[], [[]], Or.inr rfl, rfl, by simp, by simp, h⟩

theorem R_nil' {segs s' : List (BitVec 16)} (h : segs.length ≤ 8) : R [] segs s' ↔ s' = segs := by
  constructor
  · rintro ⟨gs, tr, htr, e, hg, hs, hl⟩
    have := (List.append_eq_nil_iff.mp e.symm).1
    rw [hs, this]; simp
  · rintro rfl; exact ⟨[], [], Or.inl rfl, rfl, by simp, by simp, h⟩

theorem T_cons {t : List Byte} {ts : List (List Byte)} {segs : List (BitVec 16)} {dc : Option Nat}
    (ht : t ≠ []) : (¬ (Spec.IsGroup t ∧ segs.length < 8) ∧ T (t :: ts) segs dc = none) ∨
      ((Spec.IsGroup t ∧ segs.length < 8) ∧ T (t :: ts) segs dc = T ts (segs ++ [bvVal 0#16 t]) dc) := by
  by_cases h : Spec.IsGroup t ∧ segs.length < 8
  · right
    refine ⟨h, ?_⟩
    cases ts with
    | nil =>
      have e : T [] (segs ++ [bvVal 0#16 t]) dc = some (segs ++ [bvVal 0#16 t], dc) := by rw [T]
      rw [e, T, if_neg ht, if_pos h]
    | cons t' ts => rw [T, if_neg ht, if_pos h]
  · left
    refine ⟨h, ?_⟩
    cases ts with
    | nil => rw [T, if_neg ht, if_neg h]
    | cons t' ts => rw [T, if_neg ht, if_neg h]

theorem T_some : ∀ (ts : List (List Byte)) (segs s' : List (BitVec 16)) (k : Nat) (d' : Option Nat),
    segs.length ≤ 8 → (T ts segs (some k) = some (s', d') ↔ d' = some k ∧ R ts segs s')
  | [], segs, s', k, d', h => by
    rw [T, R_nil' h]; simp only [Option.some.injEq, Prod.mk.injEq]; constructor
    · rintro ⟨rfl, rfl⟩; exact ⟨rfl, rfl⟩
    · rintro ⟨rfl, rfl⟩; exact ⟨rfl, rfl⟩
  | t :: ts, segs, s', k, d', h => by
    by_cases ht : t = []
    · subst ht
      rw [R_nil h]
      cases ts with
      | nil =>
        rw [T, if_pos rfl]; simp only [Option.some.injEq, Prod.mk.injEq, true_and]; constructor
        · rintro ⟨rfl, rfl⟩; exact ⟨rfl, rfl⟩
        · rintro ⟨rfl, rfl⟩; exact ⟨rfl, rfl⟩
      | cons t' ts => rw [T, if_pos rfl]; simp
    · rw [R_cons ht]
      rcases T_cons (ts := ts) (segs := segs) (dc := some k) ht with ⟨h1, h2⟩ | ⟨h1, h2⟩
      · rw [h2]; simp [h1]
      · rw [h2, T_some ts _ s' k d' (by simp; omega)]; simp [h1]

/-- Either no double colon, or one between groups. -/
def R2 (ts : List (List Byte)) (segs s' : List (BitVec 16)) (d' : Option Nat) : Prop :=
  (d' = none ∧ R ts segs s') ∨
  ∃ l r, ts = l ++ [] :: r ∧ r ≠ [] ∧ (∀ g ∈ l, Spec.IsGroup g) ∧ d' = some (segs.length + l.length) ∧
    R r (segs ++ l.map (bvVal 0#16)) s'

theorem R_le {ts : List (List Byte)} {segs s' : List (BitVec 16)} (h : R ts segs s') : segs.length ≤ 8 := by
  obtain ⟨gs, tr, _, _, _, hs, hl⟩ := h
  rw [hs] at hl; simp at hl; omega

theorem T_none : ∀ (ts : List (List Byte)) (segs s' : List (BitVec 16)) (d' : Option Nat),
    segs.length ≤ 8 → (T ts segs none = some (s', d') ↔ R2 ts segs s' d')
  | [], segs, s', d', h => by
    rw [T, R2, R_nil' h]; simp only [Option.some.injEq, Prod.mk.injEq]; constructor
    · rintro ⟨rfl, rfl⟩; exact Or.inl ⟨rfl, rfl⟩
    · rintro (⟨rfl, rfl⟩ | ⟨l, r, e, _⟩)
      · exact ⟨rfl, rfl⟩
      · simp at e
  | t :: ts, segs, s', d', h => by
    by_cases ht : t = []
    · subst ht
      cases ts with
      | nil =>
        rw [T, if_pos rfl, R2, R_nil h]; simp only [Option.some.injEq, Prod.mk.injEq, true_and]
        constructor
        · rintro ⟨rfl, rfl⟩; exact Or.inl ⟨rfl, rfl⟩
        · rintro (⟨rfl, rfl⟩ | ⟨l, r, e, hr, _⟩)
          · exact ⟨rfl, rfl⟩
          · exfalso
            cases l with
            | nil => simp at e; exact hr e
            | cons a l => simp at e
      | cons t' ts =>
        rw [T, if_pos rfl, if_neg (by simp), T_some _ _ _ _ _ h, R2, R_nil h]
        constructor
        · rintro ⟨rfl, hr⟩
          exact Or.inr ⟨[], t' :: ts, rfl, by simp, by simp, by simp, by simpa using hr⟩
        · rintro (⟨_, e, _⟩ | ⟨l, r, e, hr, hg, hd, hR⟩)
          · simp at e
          · cases l with
            | nil =>
              simp at e; subst e
              exact ⟨by simpa using hd, by simpa using hR⟩
            | cons a l =>
              simp only [List.cons_append, List.cons.injEq] at e
              exact absurd e.1.symm (hg a (by simp)).1
    · have key : R2 (t :: ts) segs s' d' ↔ (Spec.IsGroup t ∧ segs.length < 8) ∧
          R2 ts (segs ++ [bvVal 0#16 t]) s' d' := by
        rw [R2, R2, R_cons ht]
        constructor
        · rintro (⟨rfl, h1, h2⟩ | ⟨l, r, e, hr, hg, hd, hR⟩)
          · exact ⟨h1, Or.inl ⟨rfl, h2⟩⟩
          · cases l with
            | nil => simp at e; exact absurd e.1 ht
            | cons a l =>
              simp only [List.cons_append, List.cons.injEq] at e
              obtain ⟨rfl, e⟩ := e
              refine ⟨⟨hg t (by simp), ?_⟩, Or.inr ⟨l, r, e, hr, fun x hx => hg x (List.mem_cons_of_mem _ hx),
                by rw [hd]; simp; omega, by simpa using hR⟩⟩
              have := R_le hR
              simp at this; omega
        · rintro ⟨h1, ⟨rfl, h2⟩ | ⟨l, r, e, hr, hg, hd, hR⟩⟩
          · exact Or.inl ⟨rfl, h1, h2⟩
          · refine Or.inr ⟨t :: l, r, by rw [e]; rfl, hr, ?_, by rw [hd]; simp; omega, by simpa using hR⟩
            intro x hx
            rcases List.mem_cons.mp hx with rfl | hx
            · exact h1.1
            · exact hg x hx
      rw [key]
      rcases T_cons (ts := ts) (segs := segs) (dc := none) ht with ⟨h1, h2⟩ | ⟨h1, h2⟩
      · rw [h2]; simp [h1]
      · rw [h2, T_none ts _ s' d' (by simp; omega)]; simp [h1]

/-! ### Joining -/

theorem join_append : ∀ {l r : List (List Byte)}, l ≠ [] → r ≠ [] →
    Spec.join (l ++ r) = Spec.join l ++ colon :: Spec.join r
  | [], _, h, _ => absurd rfl h
  | [g], [], _, h => absurd rfl h
  | [g], r :: rs, _, _ => rfl
  | g :: g' :: gs, r, _, hr => by
    have := join_append (l := g' :: gs) (r := r) (by simp) hr
    simp only [List.cons_append] at this
    simp only [List.cons_append, Spec.join, this, List.append_assoc]

theorem join_snoc (ts : List (List Byte)) (q : List Byte) :
    Spec.join (ts ++ [[]]) ++ q = Spec.join (ts ++ [q]) := by
  by_cases h : ts = []
  · subst h; simp [Spec.join]
  · rw [join_append h (by simp), join_append h (by simp)]; simp [Spec.join]

theorem join_toks : ∀ (s : List Byte), ∃ ts, ts ≠ [] ∧ s = Spec.join ts ∧ ∀ t ∈ ts, colon ∉ t
  | [] => ⟨[[]], by simp, rfl, by simp⟩
  | c :: cs => by
    obtain ⟨ts, h1, h2, h3⟩ := join_toks cs
    cases ts with
    | nil => exact absurd rfl h1
    | cons t ts =>
      by_cases hc : c = colon
      · refine ⟨[] :: t :: ts, by simp, by rw [h2, hc]; rfl, ?_⟩
        intro x hx
        rcases List.mem_cons.mp hx with rfl | hx
        · simp
        · exact h3 x hx
      · refine ⟨(c :: t) :: ts, by simp, ?_, ?_⟩
        · rw [h2]; cases ts <;> rfl
        · intro x hx
          rcases List.mem_cons.mp hx with rfl | hx
          · simp only [List.mem_cons, not_or]; exact ⟨Ne.symm hc, h3 t (by simp)⟩
          · exact h3 x (List.mem_cons_of_mem _ hx)

theorem group_chars {g : List Byte} (h : Spec.IsGroup g) : colon ∉ g ∧ dot ∉ g := by
  constructor
  · intro hm; have := h.2.2 _ hm; revert this; unfold Spec.IsHex; decide
  · intro hm; have := h.2.2 _ hm; revert this; unfold Spec.IsHex; decide

theorem join_last : ∀ {gs : List (List Byte)}, gs ≠ [] → (∀ g ∈ gs, g ≠ [] ∧ colon ∉ g) →
    ∃ x c, Spec.join gs = x ++ [c] ∧ c ≠ colon
  | [], h, _ => absurd rfl h
  | [g], _, hg => by
    obtain ⟨h1, h2⟩ := hg g (by simp)
    refine ⟨g.dropLast, g.getLast h1, (List.dropLast_concat_getLast h1).symm, ?_⟩
    intro e; exact h2 (by rw [← e]; exact List.getLast_mem h1)
  | g :: g' :: gs, _, hg => by
    obtain ⟨x, c, e, hc⟩ := join_last (gs := g' :: gs) (by simp)
      (fun y hy => hg y (List.mem_cons_of_mem _ hy))
    exact ⟨g ++ colon :: x, c, by rw [Spec.join, e]; simp [colon], hc⟩

theorem join_nodot : ∀ {gs : List (List Byte)}, (∀ g ∈ gs, dot ∉ g) → dot ∉ Spec.join gs
  | [], _ => by simp [Spec.join]
  | [g], h => h g (by simp)
  | g :: g' :: gs, h => by
    have ih := join_nodot (gs := g' :: gs) (fun y hy => h y (List.mem_cons_of_mem _ hy))
    rw [Spec.join]
    simp only [List.mem_append, List.mem_cons, not_or]
    exact ⟨h g (by simp), by decide, ih⟩

/-- The test for a single trailing colon. -/
def Bad (s : List Byte) : Prop := s.length > 0 ∧ s.getLast? = some colon ∧
  (s.length = 1 ∨ s.dropLast.getLast? ≠ some colon)

theorem not_bad_snoc {x : List Byte} {c : Byte} (h : c ≠ colon) : ¬ Bad (x ++ [c]) := by
  rintro ⟨_, h2, _⟩
  rw [List.getLast?_concat] at h2
  exact h (Option.some.inj h2)

theorem not_bad_dc (x : List Byte) : ¬ Bad (x ++ [colon, colon]) := by
  rintro ⟨_, _, h3 | h3⟩
  · simp at h3
  · rw [show x ++ [colon, colon] = (x ++ [colon]) ++ [colon] by simp, List.dropLast_concat,
      List.getLast?_concat] at h3
    exact h3 rfl

theorem bad_single {x : List Byte} {c : Byte} (h : c ≠ colon) : Bad (x ++ [c] ++ [colon]) := by
  refine ⟨by simp, by rw [List.getLast?_concat], Or.inr ?_⟩
  rw [List.dropLast_concat, List.getLast?_concat]
  exact fun e => h (Option.some.inj e)

/-! ### Expansion -/

theorem groupBytes_spec : ∀ (vs : List Nat), groupBytes (vs.map (BitVec.ofNat 16)) = Spec.bytes vs
  | [] => rfl
  | v :: vs => by
    have ih := groupBytes_spec vs
    rw [groupBytes, Spec.bytes] at ih ⊢
    rw [List.map_cons, List.flatMap_cons, List.flatMap_cons, ih]
    congr 2
    · apply BitVec.eq_of_toNat_eq
      rw [BitVec.toNat_setWidth, BitVec.toNat_ushiftRight, BitVec.toNat_ofNat, Nat.shiftRight_eq_div_pow,
        BitVec.toNat_ofNat]
      omega
    · congr 1
      apply BitVec.eq_of_toNat_eq
      rw [BitVec.toNat_setWidth, BitVec.toNat_ofNat, BitVec.toNat_ofNat]
      omega

theorem v4Groups_spec (a b c d : Byte) : v4Groups [a, b, c, d] =
    [256 * a.toNat + b.toNat, 256 * c.toNat + d.toNat].map (BitVec.ofNat 16) := by
  have key : ∀ x y : Byte, (x.setWidth 16 <<< 8) ||| y.setWidth 16 =
      BitVec.ofNat 16 (256 * x.toNat + y.toNat) := by
    intro x y
    apply BitVec.eq_of_toNat_eq
    have hx := x.isLt
    have hy := y.isLt
    rw [BitVec.toNat_or, BitVec.toNat_shiftLeft, BitVec.toNat_setWidth, BitVec.toNat_setWidth,
      BitVec.toNat_ofNat, Nat.shiftLeft_eq, Nat.mod_eq_of_lt (by omega : x.toNat < 2 ^ 16),
      Nat.mod_eq_of_lt (by omega : y.toNat < 2 ^ 16), Nat.mod_eq_of_lt (by omega),
      Nat.mod_eq_of_lt (by omega)]
    have := Nat.shiftLeft_add_eq_or_of_lt (b := y.toNat) (i := 8) (by omega) x.toNat
    rw [Nat.shiftLeft_eq] at this
    rw [← this]; omega
  rw [v4Groups, key, key]; rfl

theorem map_bv {gs : List (List Byte)} (h : ∀ g ∈ gs, Spec.IsGroup g) :
    gs.map (bvVal 0#16) = (gs.map Spec.groupVal).map (BitVec.ofNat 16) := by
  rw [List.map_map]
  apply List.map_congr_left
  intro g hg
  exact bvVal_group (h g hg)

/-- What follows `ParseIpv6HexSegments`. -/
def finish (segs : List (BitVec 16)) (dc : Option Nat) (v4 : List Byte) : Option (List Byte) :=
  (expand segs dc v4).map groupBytes

/-- The values of the optional IPv4 part. -/
def v4Vals (v4 : List Byte) : List Nat :=
  match v4 with
  | [a, b, c, d] => [256 * a.toNat + b.toNat, 256 * c.toNat + d.toNat]
  | _ => []

theorem v4_cases {v4 : List Byte} (h : v4 = [] ∨ v4.length = 4) :
    v4Groups v4 = (v4Vals v4).map (BitVec.ofNat 16) ∧
    (if v4.isEmpty then 0 else 2) = (v4Vals v4).length := by
  rcases h with rfl | h
  · exact ⟨rfl, rfl⟩
  · match v4, h with
    | [a, b, c, d], _ => exact ⟨v4Groups_spec a b c d, rfl⟩

theorem finish_none {gs : List (List Byte)} {v4 out : List Byte} (hg : ∀ g ∈ gs, Spec.IsGroup g)
    (h4 : v4 = [] ∨ v4.length = 4) :
    finish (gs.map (bvVal 0#16)) none v4 = some out ↔
      gs.length + (v4Vals v4).length = 8 ∧ out = Spec.bytes (gs.map Spec.groupVal ++ v4Vals v4) := by
  obtain ⟨e1, e2⟩ := v4_cases h4
  rw [finish, expand]
  rw [e2, List.length_map]
  by_cases c : gs.length + (v4Vals v4).length = 8
  · rw [if_neg (not_not.mpr c), Option.map_some, e1, map_bv hg, ← List.map_append, groupBytes_spec]
    simp [c, eq_comm]
  · rw [if_pos c]; simp [c]

theorem finish_some {l r : List (List Byte)} {v4 out : List Byte} (hl : ∀ g ∈ l, Spec.IsGroup g)
    (hr : ∀ g ∈ r, Spec.IsGroup g) (h4 : v4 = [] ∨ v4.length = 4) :
    finish (l.map (bvVal 0#16) ++ r.map (bvVal 0#16)) (some l.length) v4 = some out ↔
      l.length + (r.length + (v4Vals v4).length) ≤ 7 ∧
      out = Spec.bytes (l.map Spec.groupVal ++
        List.replicate (8 - (l.length + (r.length + (v4Vals v4).length))) 0 ++
        (r.map Spec.groupVal ++ v4Vals v4)) := by
  obtain ⟨e1, e2⟩ := v4_cases h4
  rw [finish, expand]
  rw [e2, List.length_append, List.length_map, List.length_map]
  by_cases c : l.length + (r.length + (v4Vals v4).length) ≤ 7
  · rw [if_neg (by omega), Option.map_some, e1, map_bv hl, map_bv hr, List.take_left' (by simp),
      List.drop_left' (by simp)]
    have : List.replicate (8 - (l.length + r.length + (v4Vals v4).length)) (0#16) =
        (List.replicate (8 - (l.length + (r.length + (v4Vals v4).length))) 0).map (BitVec.ofNat 16) := by
      rw [List.map_replicate, Nat.add_assoc]
    rw [this, ← List.map_append, List.append_assoc _ (List.map _ (r.map _)), ← List.map_append,
      ← List.map_append, groupBytes_spec]
    simp [c, eq_comm]
  · rw [if_pos (by omega)]; simp [c]

/-- The part before an optional IPv4 part, and what comes of it. -/
def core (part v4 : List Byte) : Option (List Byte) :=
  match parseHex part with
  | none => none
  | some (segs, dc) => finish segs dc v4

theorem core_some {part v4 out : List Byte} : core part v4 = some out ↔
    ∃ segs dc, parseHex part = some (segs, dc) ∧ finish segs dc v4 = some out := by
  rw [core]
  cases parseHex part with
  | none => simp
  | some p => obtain ⟨a, b⟩ := p; simp

/-- All tokens lists the first pass accepts. -/
theorem parseHex_inv {ts : List (List Byte)} (hne : ts ≠ []) (hc : ∀ t ∈ ts, colon ∉ t)
    {segs : List (BitVec 16)} {dc : Option Nat} (h : parseHex (Spec.join ts) = some (segs, dc)) :
    (∃ gs tr, (tr = [] ∨ tr = [[]]) ∧ ts = gs ++ tr ∧ (∀ g ∈ gs, Spec.IsGroup g) ∧ dc = none ∧
      segs = gs.map (bvVal 0#16)) ∨
    (∃ l gs tr, (tr = [] ∨ tr = [[]]) ∧ gs ++ tr ≠ [] ∧
      (l ≠ [] ∧ ts = l ++ [] :: (gs ++ tr) ∨ l = [] ∧ ts = [] :: [] :: (gs ++ tr)) ∧
      (∀ g ∈ l, Spec.IsGroup g) ∧ (∀ g ∈ gs, Spec.IsGroup g) ∧ dc = some l.length ∧
      segs = l.map (bvVal 0#16) ++ gs.map (bvVal 0#16)) := by
  cases ts with
  | nil => exact absurd rfl hne
  | cons t ts =>
    by_cases ht : t = []
    · subst ht
      cases ts with
      | nil =>
        left
        rw [Spec.join, parseHex, hexLoop] at h
        simp at h
        exact ⟨[], [[]], Or.inr rfl, rfl, by simp, h.2.symm, by simp [h.1]⟩
      | cons t ts =>
        by_cases hb : t ≠ [] ∨ ts = []
        · rw [parseHex_bad (hc t (by simp)) hb] at h; simp at h
        · rw [not_or, not_not] at hb
          obtain ⟨rfl, hts⟩ := hb
          rw [parseHex_dc (fun x hx => hc x (by simp [hx])) hts, T_some _ _ _ _ _ (by simp)] at h
          obtain ⟨hd, gs, tr, htr, e, hg, hs, _⟩ := h
          right
          exact ⟨[], gs, tr, htr, by rw [← e]; exact hts, Or.inr ⟨rfl, by rw [e]⟩, by simp, hg,
            by simpa using hd, by simpa using hs⟩
    · rw [parseHex_nonempty hc ht, T_none _ _ _ _ (by simp)] at h
      rcases h with ⟨hd, gs, tr, htr, e, hg, hs, _⟩ | ⟨l, r, e, hr, hl, hd, gs, tr, htr, e2, hg, hs, _⟩
      · left; exact ⟨gs, tr, htr, e, hg, hd, by simpa using hs⟩
      · right
        refine ⟨l, gs, tr, htr, by rw [← e2]; exact hr, Or.inl ⟨?_, by rw [e, e2]⟩, hl, hg,
          by simpa using hd, by simpa using hs⟩
        rintro rfl
        simp at e; exact ht e.1

theorem parseHex_groups {gs tr : List (List Byte)} (htr : tr = [] ∨ tr = [[]]) (hne : gs ≠ [])
    (hg : ∀ g ∈ gs, Spec.IsGroup g) (h8 : gs.length ≤ 8) :
    parseHex (Spec.join (gs ++ tr)) = some (gs.map (bvVal 0#16), none) := by
  have hcol : ∀ x ∈ gs ++ tr, colon ∉ x := by
    intro x hx
    rcases List.mem_append.mp hx with hx | hx
    · exact (group_chars (hg x hx)).1
    · rcases htr with rfl | rfl
      · simp at hx
      · simp at hx; subst hx; simp
  cases gs with
  | nil => exact absurd rfl hne
  | cons t gs =>
    rw [List.cons_append] at hcol ⊢
    rw [parseHex_nonempty hcol (hg t (by simp)).1, T_none _ _ _ _ (by simp)]
    exact Or.inl ⟨rfl, t :: gs, tr, htr, rfl, hg, by simp, by simpa using h8⟩

theorem parseHex_double {l gs tr : List (List Byte)} (htr : tr = [] ∨ tr = [[]]) (hne : gs ++ tr ≠ [])
    (hl : ∀ g ∈ l, Spec.IsGroup g) (hg : ∀ g ∈ gs, Spec.IsGroup g) (h8 : l.length + gs.length ≤ 8) :
    parseHex (Spec.join l ++ colon :: colon :: Spec.join (gs ++ tr)) =
      some (l.map (bvVal 0#16) ++ gs.map (bvVal 0#16), some l.length) := by
  have hcol : ∀ x ∈ gs ++ tr, colon ∉ x := by
    intro x hx
    rcases List.mem_append.mp hx with hx | hx
    · exact (group_chars (hg x hx)).1
    · rcases htr with rfl | rfl
      · simp at hx
      · simp at hx; subst hx; simp
  have hR : R (gs ++ tr) (l.map (bvVal 0#16)) (l.map (bvVal 0#16) ++ gs.map (bvVal 0#16)) :=
    ⟨gs, tr, htr, rfl, hg, rfl, by simpa using h8⟩
  have hj2 : colon :: Spec.join (gs ++ tr) = Spec.join ([] :: (gs ++ tr)) := by
    cases h : gs ++ tr with
    | nil => exact absurd h hne
    | cons x xs => rfl
  cases l with
  | nil =>
    have hj : Spec.join [] ++ colon :: colon :: Spec.join (gs ++ tr) = Spec.join ([] :: [] :: (gs ++ tr)) := by
      rw [hj2]; rfl
    rw [hj, parseHex_dc hcol hne, T_some _ _ _ _ _ (by simp)]
    exact ⟨rfl, by simpa using hR⟩
  | cons t l =>
    rw [hj2, ← join_append (by simp) (by simp), List.cons_append]
    rw [parseHex_nonempty _ (hl t (by simp)).1, T_none _ _ _ _ (by simp)]
    · exact Or.inr ⟨t :: l, gs ++ tr, rfl, hne, hl, by simp, by simpa using hR⟩
    · intro x hx
      rw [← List.cons_append] at hx
      rcases List.mem_append.mp hx with hx | hx
      · exact (group_chars (hl x hx)).1
      · rcases List.mem_cons.mp hx with rfl | hx
        · simp
        · exact hcol x hx

theorem parseIpv6_eq {s : List Byte} (hb : ¬ Bad s) : parseIpv6 s =
    match findIpv4 s with
    | none => none
    | some (n, v4) => core (s.take n) (if n < s.length then v4 else []) := by
  unfold Bad at hb
  rw [parseIpv6, if_neg hb]
  cases findIpv4 s with
  | none => rfl
  | some p =>
    obtain ⟨n, v4⟩ := p
    dsimp only
    rw [core]
    cases parseHex (s.take n) with
    | none => rfl
    | some q =>
      obtain ⟨segs, dc⟩ := q
      dsimp only
      rw [finish]
      cases expand segs dc (if n < s.length then v4 else []) <;> rfl

theorem parseIpv6_bad {s : List Byte} (hb : Bad s) : parseIpv6 s = none := by
  unfold Bad at hb
  rw [parseIpv6, if_pos hb]

theorem parseIpv6_nov4 {s : List Byte} (hb : ¬ Bad s) (hd : dot ∉ s) : parseIpv6 s = core s [] := by
  rw [parseIpv6_eq hb, findIpv4_nodot hd]
  dsimp only
  rw [List.take_length, if_neg (by omega)]

theorem parseIpv6_v4 {a q v4 : List Byte} (ha : Pre a) (hq : Spec.V4 q v4) :
    parseIpv6 (a ++ q) = core a v4 := by
  obtain ⟨hc, _, hne, _⟩ := v4_chars hq
  have hb : ¬ Bad (a ++ q) := by
    rw [← List.dropLast_concat_getLast hne, ← List.append_assoc]
    apply not_bad_snoc
    intro e; exact hc (by rw [← e]; exact List.getLast_mem hne)
  rw [parseIpv6_eq hb, findIpv4_v4 ha hq]
  dsimp only
  rw [List.take_left' rfl, if_pos (by have := List.length_pos_iff.mpr hne; simp; omega)]

theorem join_dc_eq {l r : List (List Byte)} (hr : r ≠ []) :
    (l ≠ [] → Spec.join (l ++ [] :: r) = Spec.join l ++ colon :: colon :: Spec.join r) ∧
    Spec.join ([] :: [] :: r) = colon :: colon :: Spec.join r := by
  cases r with
  | nil => exact absurd rfl hr
  | cons x xs =>
    refine ⟨fun hl => ?_, rfl⟩
    rw [join_append hl (by simp)]; rfl

theorem parseIpv6_sound {s out : List Byte} (h : parseIpv6 s = some out) : Spec.V6 s out := by
  by_cases hb : Bad s
  · rw [parseIpv6_bad hb] at h; simp at h
  have gne : ∀ {gs : List (List Byte)}, (∀ g ∈ gs, Spec.IsGroup g) → ∀ g ∈ gs, g ≠ [] ∧ colon ∉ g :=
    fun hg g hm => ⟨(hg g hm).1, (group_chars (hg g hm)).1⟩
  rw [parseIpv6_eq hb] at h
  cases hf : findIpv4 s with
  | none => rw [hf] at h; simp at h
  | some p =>
    obtain ⟨n, v4⟩ := p
    rw [hf] at h
    dsimp only at h
    rcases findIpv4_inv hf with ⟨hd, rfl, rfl⟩ | ⟨a, q, rfl, rfl, ha, hq⟩
    · -- no IPv4 part
      rw [List.take_length, ite_self, core_some] at h
      obtain ⟨segs, dc, h1, h2⟩ := h
      obtain ⟨ts, hne, rfl, hc⟩ := join_toks s
      rcases parseHex_inv hne hc h1 with ⟨gs, tr, htr, rfl, hg, rfl, rfl⟩ |
        ⟨l, gs, tr, htr, hnt, hts, hl, hg, rfl, rfl⟩
      · rw [finish_none hg (Or.inl rfl)] at h2
        obtain ⟨h3, rfl⟩ := h2
        have hgn : gs ≠ [] := by rintro rfl; simp [v4Vals] at h3
        rcases htr with rfl | rfl
        · refine ⟨_, rfl, Or.inl ⟨gs, by simp, Or.inl ⟨hg, by simp [v4Vals]⟩, ?_⟩⟩
          simpa using h3
        · exfalso
          apply hb
          obtain ⟨x, c, e, hcc⟩ := join_last hgn (gne hg)
          rw [join_append hgn (by simp), e]
          exact bad_single hcc
      · rw [finish_some hl hg (Or.inl rfl)] at h2
        obtain ⟨h3, rfl⟩ := h2
        have hs : Spec.join ts = Spec.join l ++ colon :: colon :: Spec.join (gs ++ tr) := by
          rcases hts with ⟨hln, rfl⟩ | ⟨rfl, rfl⟩
          · exact (join_dc_eq hnt).1 hln
          · rw [(join_dc_eq (l := []) hnt).2]; rfl
        have hjr : Spec.join (gs ++ tr) = Spec.join gs := by
          rcases htr with rfl | rfl
          · simp
          · by_cases hgn : gs = []
            · subst hgn; rfl
            · exfalso
              apply hb
              obtain ⟨x, c, e, hcc⟩ := join_last hgn (gne hg)
              rw [hs, join_append hgn (by simp), e]
              have := bad_single (x := Spec.join l ++ colon :: colon :: x) hcc
              simpa [Spec.join] using this
        rw [hjr] at hs
        refine ⟨_, rfl, Or.inr ⟨l, gs, gs.map Spec.groupVal, hs, hl, Or.inl ⟨hg, rfl⟩, ?_, ?_⟩⟩
        · simpa [v4Vals] using h3
        · simp [v4Vals]
    · -- with an IPv4 part
      obtain ⟨_, _, hqne, hq4⟩ := v4_chars hq
      rw [List.take_left' rfl, if_pos (by have := List.length_pos_iff.mpr hqne; simp; omega),
        core_some] at h
      obtain ⟨segs, dc, h1, h2⟩ := h
      obtain ⟨w, x, y, z, rfl, _⟩ := id hq
      rcases ha with rfl | ⟨a', rfl⟩
      · exfalso
        rw [parseHex, hexLoop] at h1
        simp at h1
        obtain ⟨rfl, rfl⟩ := h1
        simp [finish, expand] at h2
      obtain ⟨ts, hne, rfl, hc⟩ := join_toks a'
      have hsn : Spec.join ts ++ [colon] = Spec.join (ts ++ [[]]) := by
        rw [join_append hne (by simp)]; rfl
      rw [hsn] at h1 ⊢
      rw [join_snoc]
      have hc' : ∀ t ∈ ts ++ [[]], colon ∉ t := by
        intro t ht
        rcases List.mem_append.mp ht with ht | ht
        · exact hc t ht
        · simp at ht; subst ht; simp
      have hlast : ∀ {pre gs tr : List (List Byte)}, ts ++ [[]] = pre ++ (gs ++ tr) → gs ++ tr ≠ [] →
          (tr = [] ∨ tr = [[]]) → (∀ g ∈ gs, Spec.IsGroup g) → tr = [[]] ∧ ts = pre ++ gs := by
        intro pre gs tr e hn htr hg
        rcases htr with rfl | rfl
        · exfalso
          rw [List.append_nil] at e hn
          have e2 := congrArg List.getLast? e
          rw [List.getLast?_concat, List.getLast?_append, List.getLast?_eq_some_getLast hn, Option.some_or] at e2
          have := hg _ (List.getLast_mem hn)
          exact this.1 (Option.some.inj e2).symm
        · rw [← List.append_assoc] at e
          exact ⟨rfl, (List.append_inj' e rfl).1⟩
      rcases parseHex_inv (by simp) hc' h1 with ⟨gs, tr, htr, e, hg, rfl, rfl⟩ |
        ⟨l, gs, tr, htr, hnt, hts, hl, hg, rfl, rfl⟩
      · rw [finish_none hg (Or.inr rfl)] at h2
        obtain ⟨h3, rfl⟩ := h2
        obtain ⟨_, rfl⟩ := hlast (pre := []) (by simpa using e) (by rw [← e]; simp) htr hg
        refine ⟨_, rfl, Or.inl ⟨ts ++ [q], rfl, Or.inr ⟨ts, q, w, x, y, z, rfl, hg, hq, rfl⟩, ?_⟩⟩
        simpa using h3
      · rw [finish_some hl hg (Or.inr rfl)] at h2
        obtain ⟨h3, rfl⟩ := h2
        have hs : Spec.join (ts ++ [q]) = Spec.join l ++ colon :: colon :: Spec.join (gs ++ [q]) := by
          rcases hts with ⟨hln, e⟩ | ⟨rfl, e⟩
          · obtain ⟨_, rfl⟩ := hlast (pre := l ++ [[]]) (by simpa using e) hnt htr hg
            rw [show l ++ [[]] ++ gs ++ [q] = l ++ [] :: (gs ++ [q]) by simp,
              (join_dc_eq (by simp)).1 hln]
          · obtain ⟨_, rfl⟩ := hlast (pre := [[], []]) (by simpa using e) hnt htr hg
            rw [show [[], []] ++ gs ++ [q] = [] :: [] :: (gs ++ [q]) by simp,
              (join_dc_eq (l := []) (by simp)).2]; rfl
        refine ⟨_, rfl, Or.inr ⟨l, gs ++ [q], gs.map Spec.groupVal ++ v4Vals [w, x, y, z], hs, hl,
          Or.inr ⟨gs, q, w, x, y, z, rfl, hg, hq, rfl⟩, ?_, ?_⟩⟩
        · simpa using h3
        · simp

theorem parseIpv6_complete {s out : List Byte} (h : Spec.V6 s out) : parseIpv6 s = some out := by
  have gne : ∀ {gs : List (List Byte)}, (∀ g ∈ gs, Spec.IsGroup g) → ∀ g ∈ gs, g ≠ [] ∧ colon ∉ g :=
    fun hg g hm => ⟨(hg g hm).1, (group_chars (hg g hm)).1⟩
  obtain ⟨vs, rfl, ⟨ts, rfl, hi, h8⟩ | ⟨l, r, vr, rfl, hl, hi, h7, rfl⟩⟩ := h
  · rcases hi with ⟨hg, rfl⟩ | ⟨gs, q, a, b, c, d, rfl, hg, hq, rfl⟩
    · have hne : ts ≠ [] := by rintro rfl; simp at h8
      obtain ⟨x, c, e, hc⟩ := join_last hne (gne hg)
      rw [parseIpv6_nov4 (by rw [e]; exact not_bad_snoc hc) (join_nodot (fun g hm => (group_chars (hg g hm)).2)),
        core_some]
      have hp := parseHex_groups (tr := []) (Or.inl rfl) hne hg (by simp at h8; omega)
      rw [List.append_nil] at hp
      refine ⟨_, _, hp, ?_⟩
      rw [finish_none hg (Or.inl rfl)]
      simpa [v4Vals] using h8
    · have hne : gs ≠ [] := by rintro rfl; simp at h8
      rw [← join_snoc, parseIpv6_v4 _ hq, core_some]
      · refine ⟨_, _, parseHex_groups (Or.inr rfl) hne hg (by simp at h8; omega), ?_⟩
        rw [finish_none hg (Or.inr rfl)]
        exact ⟨by simpa [v4Vals] using h8, rfl⟩
      · exact Or.inr ⟨Spec.join gs, by rw [join_append hne (by simp)]; rfl⟩
  · rw [show (0x3a#8 : Byte) = colon from rfl]
    rcases hi with ⟨hg, rfl⟩ | ⟨gs, q, a, b, c, d, rfl, hg, hq, rfl⟩
    · have hnd : dot ∉ Spec.join l ++ colon :: colon :: Spec.join r := by
        simp only [List.mem_append, List.mem_cons, not_or]
        exact ⟨join_nodot (fun g hm => (group_chars (hl g hm)).2), by decide, by decide,
          join_nodot (fun g hm => (group_chars (hg g hm)).2)⟩
      simp only [List.length_map] at h7
      by_cases hr : r = []
      · subst hr
        have hb : ¬ Bad (Spec.join l ++ colon :: colon :: Spec.join []) := not_bad_dc _
        rw [parseIpv6_nov4 hb hnd, core_some]
        refine ⟨_, _, parseHex_double (tr := [[]]) (gs := []) (Or.inr rfl) (by simp) hl (by simp)
          (by simp at h7 ⊢; omega), ?_⟩
        rw [finish_some hl (by simp) (Or.inl rfl)]
        simpa [v4Vals] using h7
      · obtain ⟨x, c, e, hc⟩ := join_last hr (gne hg)
        have hb : ¬ Bad (Spec.join l ++ colon :: colon :: Spec.join r) := by
          rw [e, show Spec.join l ++ colon :: colon :: (x ++ [c]) =
            (Spec.join l ++ colon :: colon :: x) ++ [c] by simp]
          exact not_bad_snoc hc
        rw [parseIpv6_nov4 hb hnd, core_some]
        have hp := parseHex_double (l := l) (tr := []) (gs := r) (Or.inl rfl) (by simpa using hr) hl hg
          (by omega)
        rw [List.append_nil] at hp
        refine ⟨_, _, hp, ?_⟩
        rw [finish_some hl hg (Or.inl rfl)]
        simpa [v4Vals] using h7
    · rw [show Spec.join l ++ colon :: colon :: Spec.join (gs ++ [q]) =
        (Spec.join l ++ colon :: colon :: Spec.join (gs ++ [[]])) ++ q by rw [← join_snoc]; simp,
        parseIpv6_v4 _ hq, core_some]
      · refine ⟨_, _, parseHex_double (Or.inr rfl) (by simp) hl hg (by simp at h7; omega), ?_⟩
        rw [finish_some hl hg (Or.inr rfl)]
        refine ⟨by simpa [v4Vals] using h7, ?_⟩
        simp [v4Vals]
      · right
        by_cases hgs : gs = []
        · subst hgs; exact ⟨Spec.join l ++ [colon], by simp [Spec.join]⟩
        · exact ⟨Spec.join l ++ colon :: colon :: Spec.join gs, by
            rw [join_append hgs (by simp)]; simp [Spec.join]⟩

theorem v6_colon {s out : List Byte} (h : Spec.V6 s out) : colon ∈ s := by
  obtain ⟨vs, _, ⟨ts, rfl, hi, h8⟩ | ⟨l, r, vr, rfl, _⟩⟩ := h
  · have hts : 2 ≤ ts.length := by
      rcases hi with ⟨_, rfl⟩ | ⟨gs, q, a, b, c, d, rfl, _, _, rfl⟩
      · simp at h8; omega
      · simp at h8 ⊢; omega
    match ts, hts with
    | g :: g' :: gs, _ => rw [Spec.join]; simp [colon]
  · simp [colon]

end Verif.Bsl.Ip
