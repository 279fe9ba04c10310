import Verif.Pki.Host.Model
import Verif.Pki.Host.Spec
import Mathlib.Tactic.Ring
/-! Lemmas about the identity-matching model. -/
namespace Verif.Pki.Host
open Verif.Common

theorem toInt_ne_zero {a : Byte} (h : a ≠ 0#8) : a.toInt ≠ 0 := by
  intro hc; apply h; apply BitVec.eq_of_toInt_eq; rw [hc]; rfl

theorem strcaseCmp_zero : ∀ (a b : List Byte), 0#8 ∉ a → 0#8 ∉ b →
    (strcaseCmp a b = 0 ↔ a.map low = b.map low)
  | [], [], _, _ => by simp [strcaseCmp]
  | x :: _, [], h, _ => by
    have : x.toInt ≠ 0 := toInt_ne_zero (fun e => h (by rw [e]; simp))
    simp [strcaseCmp, this]
  | [], y :: _, _, h => by
    have : y.toInt ≠ 0 := toInt_ne_zero (fun e => h (by rw [e]; simp))
    simp [strcaseCmp, this]
  | x :: as, y :: bs, ha, hb => by
    have ih := strcaseCmp_zero as bs (fun h => ha (List.mem_cons_of_mem _ h))
      (fun h => hb (List.mem_cons_of_mem _ h))
    rw [strcaseCmp]
    by_cases c : low x = low y
    · rw [if_neg (not_not.mpr c), ih]; simp [c]
    · rw [if_pos c]
      have hxy : x.toInt ≠ y.toInt := fun e => c (by rw [BitVec.eq_of_toInt_eq e])
      constructor
      · intro h; exact absurd (by omega) hxy
      · intro h; simp [c] at h

theorem strchr_none {c : Byte} : ∀ {p : List Byte}, strchr c p = none ↔ c ∉ p
  | [] => by simp [strchr]
  | a :: as => by
    rw [strchr]
    by_cases h : a = c
    · simp [h]
    · rw [if_neg h, strchr_none]; simp [Ne.symm h]

theorem strchr_app {c : Byte} : ∀ {l d : List Byte}, c ∉ l → strchr c (l ++ c :: d) = some (c :: d)
  | [], d, _ => by simp [strchr]
  | a :: as, d, h => by
    rw [List.cons_append, strchr, if_neg (fun e => h (by rw [e]; simp)),
      strchr_app (fun e => h (List.mem_cons_of_mem _ e))]

theorem split_first {c : Byte} : ∀ {p : List Byte}, c ∈ p → ∃ l d, p = l ++ c :: d ∧ c ∉ l
  | [], h => by simp at h
  | a :: as, h => by
    by_cases e : a = c
    · exact ⟨[], as, by rw [e]; rfl, by simp⟩
    · have : c ∈ as := by
        rcases List.mem_cons.mp h with h | h
        · exact absurd h.symm e
        · exact h
      obtain ⟨l, d, h1, h2⟩ := split_first this
      exact ⟨a :: l, d, by rw [h1]; rfl, by simp [h2, Ne.symm e]⟩

theorem findChar_none {c : Byte} : ∀ {p : List Byte}, findChar c p = none ↔ c ∉ p
  | [] => by simp [findChar]
  | a :: as => by
    rw [findChar]
    by_cases h : a = c
    · simp [h]
    · rw [if_neg h, Option.map_eq_none_iff, findChar_none]; simp [Ne.symm h]

theorem findChar_app {c : Byte} : ∀ {l d : List Byte}, c ∉ l → findChar c (l ++ c :: d) = some l.length
  | [], d, _ => by simp [findChar]
  | a :: as, d, h => by
    rw [List.cons_append, findChar, if_neg (fun e => h (by rw [e]; simp)),
      findChar_app (fun e => h (List.mem_cons_of_mem _ e))]
    rfl

theorem label_app {l d : List Byte} (h : dot ∉ l) : label (l ++ dot :: d) = l := by
  rw [label, strchr_app h]; simp

theorem label_nodot {p : List Byte} (h : dot ∉ p) : label p = p := by
  rw [label, strchr_none.mpr h]

theorem cmpAt_ok {p t : List Byte} {i j : Nat} (hp : i < p.length) (ht : j < t.length) :
    cmpAt p t i j = some (low p[i] == low t[j]) := by
  simp [cmpAt, List.getElem?_eq_getElem hp, List.getElem?_eq_getElem ht]

theorem prefixLoop_spec (p t : List Byte) : ∀ (n i : Nat), i + n ≤ p.length → i + n ≤ t.length →
    ∃ b, prefixLoop p t n i = some b ∧
      (b = true ↔ ((p.drop i).take n).map low = ((t.drop i).take n).map low)
  | 0, i, _, _ => ⟨true, by simp [prefixLoop]⟩
  | n + 1, i, hp, ht => by
    have hi : i < p.length := by omega
    have hj : i < t.length := by omega
    rw [List.drop_eq_getElem_cons hi, List.drop_eq_getElem_cons hj, List.take_succ_cons,
      List.take_succ_cons, List.map_cons, List.map_cons, prefixLoop, cmpAt_ok hi hj]
    by_cases e : low p[i] = low t[i]
    · obtain ⟨b, h1, h2⟩ := prefixLoop_spec p t n (i + 1) (by omega) (by omega)
      exact ⟨b, by simp [e, h1], by rw [h2]; simp [e]⟩
    · exact ⟨false, by simp [e], by simp [e]⟩

theorem suffixLoop_rev (s t : List Byte) : ∀ (n i : Nat), i + n ≤ s.length → i + n ≤ t.length →
    suffixLoop s t n i = prefixLoop s.reverse t.reverse n i
  | 0, i, _, _ => rfl
  | n + 1, i, hs, ht => by
    rw [suffixLoop, prefixLoop, cmpAt_ok (by omega) (by omega),
      cmpAt_ok (by rw [List.length_reverse]; omega) (by rw [List.length_reverse]; omega),
      List.getElem_reverse, List.getElem_reverse, suffixLoop_rev s t n (i + 1) (by omega) (by omega)]

theorem take_rev_map {s t : List Byte} (h : s.length ≤ t.length) :
    ((s.reverse.take s.length).map low = (t.reverse.take s.length).map low) ↔
      s.map low = (t.drop (t.length - s.length)).map low := by
  have h1 : s.reverse.take s.length = s.reverse := by
    rw [List.take_of_length_le (by simp)]
  have h2 : t.reverse.take s.length = (t.drop (t.length - s.length)).reverse := by
    rw [List.take_reverse]
  rw [h1, h2, List.map_reverse, List.map_reverse, List.reverse_inj]

/-- The wildcard label matcher on a label with a star. -/
theorem wildcard_spec {pre suf t : List Byte} (h : star ∉ pre) :
    ∃ b, wildcardMatchLabel (pre ++ star :: suf) t = some b ∧
      (b = true ↔ ∃ x y z, t = x ++ y ++ z ∧ pre.map low = x.map low ∧ suf.map low = z.map low) := by
  rw [wildcardMatchLabel, findChar_app h]
  dsimp only
  have hl : (pre ++ star :: suf).length - pre.length - 1 = suf.length := by simp
  have hd : (pre ++ star :: suf).drop (pre.length + 1) = suf := by simp
  rw [hl, hd]
  by_cases c : t.length < pre.length + suf.length
  · rw [if_pos c]
    refine ⟨false, rfl, by simp, ?_⟩
    rintro ⟨x, y, z, rfl, hx, hz⟩
    have := congrArg List.length hx
    have := congrArg List.length hz
    simp only [List.length_map, List.length_append] at *
    omega
  · rw [if_neg c]
    obtain ⟨b, h1, h2⟩ := prefixLoop_spec (pre ++ star :: suf) t pre.length 0 (by simp) (by omega)
    obtain ⟨b', h3, h4⟩ := prefixLoop_spec suf.reverse t.reverse suf.length 0 (by simp)
      (by rw [List.length_reverse]; omega)
    rw [← suffixLoop_rev suf t _ _ (by omega) (by omega)] at h3
    simp only [List.drop_zero] at h2 h4
    rw [take_rev_map (by omega)] at h4
    rw [List.take_left' rfl] at h2
    rw [h1, h3]
    refine ⟨b && b', by cases b <;> rfl, ?_⟩
    rw [Bool.and_eq_true, h2, h4]
    constructor
    · rintro ⟨e1, e2⟩
      refine ⟨t.take pre.length, (t.drop pre.length).take (t.length - suf.length - pre.length),
        t.drop (t.length - suf.length), ?_, e1, e2⟩
      conv_lhs => rw [← List.take_append_drop pre.length t]
      rw [List.append_assoc]
      congr 1
      conv_lhs => rw [← List.take_append_drop (t.length - suf.length - pre.length) (t.drop pre.length)]
      rw [List.drop_drop]
      congr 2
      omega
    · rintro ⟨x, y, z, rfl, e1, e2⟩
      have l1 := congrArg List.length e1
      have l2 := congrArg List.length e2
      simp only [List.length_map] at l1 l2
      constructor
      · rw [e1, l1, List.append_assoc, List.take_left' rfl]
      · rw [e2, l2, List.drop_left' (by simp; omega)]

theorem count_one {p : List Byte} (h : p.count star = 1) :
    ∃ pre suf, p = pre ++ star :: suf ∧ star ∉ pre ∧ star ∉ suf := by
  have hm : star ∈ p := by
    rw [← List.count_pos_iff]; omega
  obtain ⟨pre, suf, rfl, hp⟩ := split_first hm
  refine ⟨pre, suf, rfl, hp, ?_⟩
  rw [List.count_append, List.count_cons_self, List.count_eq_zero.mpr hp] at h
  exact List.count_eq_zero.mp (by omega)

theorem count_split {pre suf : List Byte} (h1 : star ∉ pre) (h2 : star ∉ suf) :
    (pre ++ star :: suf).count star = 1 := by
  rw [List.count_append, List.count_cons_self, List.count_eq_zero.mpr h1, List.count_eq_zero.mpr h2]

theorem low_dot {c : Byte} : low c = dot ↔ c = dot := by
  revert c; decide +kernel

theorem dot_mem_low {l : List Byte} : dot ∈ l.map low ↔ dot ∈ l := by
  rw [List.mem_map]
  constructor
  · rintro ⟨a, h, e⟩; rw [low_dot] at e; rwa [← e]
  · intro h; exact ⟨dot, h, low_dot.mpr rfl⟩

theorem low_fold (c : Byte) : low c = Spec.fold c := by
  revert c; decide +kernel

theorem eqIC_iff {a b : List Byte} : Spec.EqIC a b ↔ a.map low = b.map low := by
  rw [Spec.EqIC]
  have : low = Spec.fold := funext low_fold
  rw [this]

theorem split_unique {c : Byte} : ∀ {a b x y : List Byte}, c ∉ a → c ∉ b → a ++ c :: x = b ++ c :: y →
    a = b ∧ x = y
  | [], [], x, y, _, _, h => by simpa using h
  | [], b :: bs, x, y, _, hb, h => by
    simp at h; exact absurd h.1 (fun e => hb (by rw [e]; simp))
  | a :: as, [], x, y, ha, _, h => by
    simp at h; exact absurd h.1.symm (fun e => ha (by rw [e]; simp))
  | a :: as, b :: bs, x, y, ha, hb, h => by
    simp only [List.cons_append, List.cons.injEq] at h
    obtain ⟨e1, e2⟩ := split_unique (fun e => ha (List.mem_cons_of_mem _ e))
      (fun e => hb (List.mem_cons_of_mem _ e)) h.2
    exact ⟨by rw [h.1, e1], e2⟩

theorem eqIC_dot {a b : List Byte} (h : Spec.EqIC a b) : dot ∈ a ↔ dot ∈ b := by
  rw [eqIC_iff] at h; rw [← dot_mem_low, h, dot_mem_low]

theorem eqIC_split {a b x y : List Byte} (ha : dot ∉ a) (hb : dot ∉ b) :
    Spec.EqIC (a ++ dot :: x) (b ++ dot :: y) ↔ Spec.EqIC a b ∧ Spec.EqIC x y := by
  rw [eqIC_iff, eqIC_iff, eqIC_iff]
  have hd : low dot = dot := low_dot.mpr rfl
  simp only [List.map_append, List.map_cons, hd]
  constructor
  · intro h
    exact split_unique (fun e => ha (dot_mem_low.mp e)) (fun e => hb (dot_mem_low.mp e)) h
  · rintro ⟨h1, h2⟩; rw [h1, h2]

theorem tail_nostar {p h : List Byte} (t : Spec.Tail p h) : star ∉ p := by
  induction t with
  | same h _ => exact h
  | skip _ _ ih => simp only [List.mem_cons, not_or]; exact ⟨by decide, ih⟩

theorem tail_split {l lh p h : List Byte} (hl : dot ∉ l) (hlh : dot ∉ lh) :
    Spec.Tail (l ++ dot :: p) (lh ++ dot :: h) ↔
      (l = [] ∨ star ∉ l ∧ Spec.EqIC (l ++ dot :: p) (lh ++ dot :: h)) ∧ Spec.Tail p h := by
  constructor
  · intro t
    generalize ep : l ++ dot :: p = P at t
    generalize eh : lh ++ dot :: h = H at t
    cases t with
    | same h1 h2 =>
      subst ep eh
      refine ⟨Or.inr ⟨fun e => h1 (by simp [e]), h2⟩, ?_⟩
      exact .same (fun e => h1 (by simp [e])) ((eqIC_split hl hlh).mp h2).2
    | skip hd t =>
      obtain ⟨e1, e2⟩ := split_unique (b := []) hl (by simp) ep
      obtain ⟨_, e3⟩ := split_unique hlh hd eh
      subst e1 e2 e3
      exact ⟨Or.inl rfl, t⟩
  · rintro ⟨h1 | ⟨h1, h2⟩, t⟩
    · subst h1; exact .skip hlh t
    · refine .same ?_ h2
      have := tail_nostar t
      simp only [List.mem_append, List.mem_cons, not_or]
      exact ⟨h1, by decide, this⟩

theorem tail_nodot {p h : List Byte} (hp : dot ∉ p) : Spec.Tail p h ↔ star ∉ p ∧ Spec.EqIC p h := by
  constructor
  · intro t
    cases t with
    | same h1 h2 => exact ⟨h1, h2⟩
    | skip _ _ => simp at hp
  · rintro ⟨h1, h2⟩; exact .same h1 h2

theorem tail_dot_iff {p h : List Byte} (t : Spec.Tail p h) : dot ∈ p ↔ dot ∈ h := by
  cases t with
  | same _ h2 => exact eqIC_dot h2
  | skip _ _ => simp

theorem eqIC_nil {a : List Byte} : Spec.EqIC [] a ↔ a = [] := by
  rw [eqIC_iff]; simp [eq_comm]

theorem tail_empty {p h : List Byte} (e : ¬ (p ≠ [] ∧ h ≠ [])) :
    (p.isEmpty && h.isEmpty) = true ↔ Spec.Tail p h := by
  rw [Bool.and_eq_true, List.isEmpty_iff, List.isEmpty_iff]
  constructor
  · rintro ⟨rfl, rfl⟩; exact .same (by simp) rfl
  · intro t
    by_cases hp : p = []
    · subst hp
      cases t with
      | same _ h2 => exact ⟨rfl, eqIC_nil.mp h2⟩
    · have hh : h = [] := by
        by_contra hh; exact e ⟨hp, hh⟩
      subst hh
      generalize eh : ([] : List Byte) = H at t
      cases t with
      | same _ h2 => subst eh; rw [eqIC_iff] at h2; simp at h2; exact absurd h2 hp
      | skip _ _ => simp at eh

theorem strchr_some {p d : List Byte} (h : strchr dot p = some d) :
    ∃ l r, p = l ++ dot :: r ∧ dot ∉ l ∧ d = dot :: r := by
  have hm : dot ∈ p := by
    by_contra hn; rw [strchr_none.mpr hn] at h; simp at h
  obtain ⟨l, r, rfl, hl⟩ := split_first hm
  rw [strchr_app hl] at h
  exact ⟨l, r, rfl, hl, by simpa using h.symm⟩

/-- The loop from a label where no wildcard may be used. -/
theorem partialLoop_tail : ∀ (n k : Nat) (p h : List Byte), p.length ≤ n → 0#8 ∉ p → 0#8 ∉ h →
    ((label p).count star = 1 → k ≠ 0) →
    ∃ b, partialLoop k p h = some b ∧ (b = true ↔ Spec.Tail p h) := by
  intro n
  induction n with
  | zero =>
    intro k p h hl _ _ _
    have : p = [] := by simpa using hl
    subst this
    rw [partialLoop, if_neg (by simp)]
    exact ⟨_, rfl, tail_empty (by simp)⟩
  | succ n ih =>
    intro k p h hl hp hh hk
    rw [partialLoop]
    by_cases e : p ≠ [] ∧ h ≠ []
    swap
    · rw [if_neg e]; exact ⟨_, rfl, tail_empty e⟩
    rw [if_pos e]
    -- a star in the first label rules the specification out
    have hno : (label p).count star ≠ 0 → ¬ Spec.Tail p h := by
      intro hc t
      apply hc
      rw [List.count_eq_zero]
      intro hm
      apply tail_nostar t
      rw [label] at hm
      split at hm
      · exact hm
      · exact List.mem_of_mem_take hm
    by_cases c1 : (label p).count star > 1
    · rw [if_pos c1]
      exact ⟨false, rfl, by simp [hno (by omega)]⟩
    rw [if_neg c1]
    by_cases c2 : (label p).count star = 1
    · rw [labelGood, if_pos c2, if_pos (hk c2)]
      exact ⟨false, rfl, by simp [hno (by omega)]⟩
    have c0 : star ∉ label p := List.count_eq_zero.mp (by omega)
    rw [labelGood, if_neg c2]
    have hcmp := strcaseCmp_zero p h hp hh
    rw [← eqIC_iff] at hcmp
    by_cases hdp : dot ∈ p
    · obtain ⟨l, r, rfl, hl1⟩ := split_first hdp
      rw [label_app hl1] at *
      by_cases hdh : dot ∈ h
      · obtain ⟨lh, rh, rfl, hl2⟩ := split_first hdh
        rw [tail_split hl1 hl2]
        obtain ⟨b, h1, h2⟩ := ih (k + 1) r rh (by simp at hl; omega)
          (fun e => hp (by simp [e])) (fun e => hh (by simp [e])) (fun _ => by omega)
        by_cases c3 : l = [] ∨ Spec.EqIC (l ++ dot :: r) (lh ++ dot :: rh)
        · have hg : (!(decide (l.length > 0) && (strcaseCmp (l ++ dot :: r) (lh ++ dot :: rh) != 0))) = true := by
            rcases c3 with c3 | c3
            · simp [c3]
            · simp [hcmp.mpr c3]
          refine ⟨b, ?_, ?_⟩
          · rw [hg]
            simp only [Option.bind_eq_bind, Option.bind_some, if_true]
            split
            · rename_i h3 _; rw [strchr_app hl1] at h3; simp at h3
            · rename_i h3 h4
              rw [strchr_app hl1] at h3; rw [strchr_app hl2] at h4
              cases h3; cases h4
              rw [if_neg c2]; exact h1
            · rename_i h3 h4 h5; exact (h5 _ _ (strchr_app hl1) (strchr_app hl2)).elim
          · rw [h2]
            constructor
            · intro t; exact ⟨c3.imp id (fun x => ⟨c0, x⟩), t⟩
            · exact fun t => t.2
        · have hg : (!(decide (l.length > 0) && (strcaseCmp (l ++ dot :: r) (lh ++ dot :: rh) != 0))) = false := by
            rw [not_or] at c3
            have : 0 < l.length := List.length_pos_iff.mpr c3.1
            simp [this, mt hcmp.mp c3.2]
          rw [hg]
          refine ⟨false, by simp, ?_⟩
          constructor
          · simp
          · rintro ⟨h3 | h3, _⟩
            · exact absurd (Or.inl h3) c3
            · exact absurd (Or.inr h3.2) c3
      · refine ⟨false, ?_, ?_⟩
        · by_cases hg : (!(decide (l.length > 0) && (strcaseCmp (l ++ dot :: r) h != 0))) = true
          · rw [hg]
            simp only [Option.bind_eq_bind, Option.bind_some, if_true]
            split
            · rename_i h3 _; rw [strchr_app hl1] at h3; simp at h3
            · rename_i h3 h4; rw [strchr_none.mpr hdh] at h4; simp at h4
            · rfl
          · rw [Bool.eq_false_iff.mpr hg]; simp
        · constructor
          · simp
          · intro t; exact absurd ((tail_dot_iff t).mp hdp) hdh
    · rw [label_nodot hdp] at *
      rw [tail_nodot hdp]
      have hlen : p.length > 0 := List.length_pos_iff.mpr e.1
      by_cases c3 : Spec.EqIC p h
      · have hdh : dot ∉ h := fun x => hdp ((eqIC_dot c3).mpr x)
        have hg : (!(decide (p.length > 0) && (strcaseCmp p h != 0))) = true := by simp [hcmp.mpr c3]
        refine ⟨true, ?_, by simp [c0, c3]⟩
        rw [hg]
        simp only [Option.bind_eq_bind, Option.bind_some, if_true]
        split
        · rfl
        · rename_i h3 h4; rw [strchr_none.mpr hdp] at h3; simp at h3
        · rename_i h3 h4 h5; exact absurd (strchr_none.mpr hdh) (h4 (strchr_none.mpr hdp))
      · have hg : (!(decide (p.length > 0) && (strcaseCmp p h != 0))) = false := by
          simp [hlen, mt hcmp.mp c3]
        rw [hg]
        exact ⟨false, by simp, by simp [c3]⟩

theorem dot_app3 {x y z : List Byte} : dot ∉ x ++ y ++ z ↔ dot ∉ x ∧ dot ∉ y ∧ dot ∉ z := by
  simp only [List.mem_append, not_or, and_assoc]

theorem dot_star {pre suf : List Byte} : dot ∉ pre ++ star :: suf ↔ dot ∉ pre ∧ dot ∉ suf := by
  have : dot ≠ star := by decide
  simp only [List.mem_append, List.mem_cons, not_or]
  tauto

theorem loose_star_nodot {pre suf h : List Byte} (h1 : star ∉ pre)
    (hd : dot ∉ pre ++ star :: suf) (h2 : star ∉ suf) :
    Spec.PartialLoose (pre ++ star :: suf) h ↔
      dot ∉ h ∧ ∃ x y z, h = x ++ y ++ z ∧ Spec.EqIC pre x ∧ Spec.EqIC suf z := by
  constructor
  · rintro (t | ⟨pre', suf', rp, x, y, z, rh, e1, e2, d1, d2, d3, d4, d5, s1, s2, q1, q2, t⟩)
    · exact absurd (by simp) (tail_nostar t)
    · rcases t with ⟨rfl, rfl⟩ | ⟨p', h', rfl, rfl, _⟩
      · rw [List.append_nil] at e1 e2
        obtain ⟨rfl, rfl⟩ := split_unique h1 s1 e1
        subst e2
        exact ⟨dot_app3.mpr ⟨d3, d4, d5⟩, x, y, z, rfl, q1, q2⟩
      · exact absurd (by rw [e1]; simp) hd
  · rintro ⟨hh, x, y, z, rfl, q1, q2⟩
    obtain ⟨d3, d4, d5⟩ := dot_app3.mp hh
    obtain ⟨d1, d2⟩ := dot_star.mp hd
    exact Or.inr ⟨pre, suf, [], x, y, z, [], by simp, by simp, d1, d2, d3, d4, d5, h1, h2, q1, q2,
      Or.inl ⟨rfl, rfl⟩⟩

theorem loose_star_dot {pre suf r h : List Byte} (h1 : star ∉ pre)
    (hd : dot ∉ pre ++ star :: suf) (h2 : star ∉ suf) :
    Spec.PartialLoose (pre ++ star :: suf ++ dot :: r) h ↔
      ∃ lh rh, h = lh ++ dot :: rh ∧ dot ∉ lh ∧ Spec.Tail r rh ∧
        ∃ x y z, lh = x ++ y ++ z ∧ Spec.EqIC pre x ∧ Spec.EqIC suf z := by
  constructor
  · rintro (t | ⟨pre', suf', rp, x, y, z, rh, e1, e2, d1, d2, d3, d4, d5, s1, s2, q1, q2, t⟩)
    · exact absurd (by simp) (tail_nostar t)
    · rcases t with ⟨rfl, rfl⟩ | ⟨p', h', rfl, rfl, t⟩
      · rw [List.append_nil] at e1
        exact absurd (by rw [← e1]; simp) (dot_star.mpr ⟨d1, d2⟩)
      · obtain ⟨e3, e4⟩ := split_unique hd (dot_star.mpr ⟨d1, d2⟩) e1
        obtain ⟨e5, e6⟩ := split_unique h1 s1 e3
        subst e4 e5 e6 e2
        exact ⟨x ++ y ++ z, h', rfl, dot_app3.mpr ⟨d3, d4, d5⟩, t, x, y, z, rfl, q1, q2⟩
  · rintro ⟨lh, rh, rfl, hh, t, x, y, z, rfl, q1, q2⟩
    obtain ⟨d3, d4, d5⟩ := dot_app3.mp hh
    obtain ⟨d1, d2⟩ := dot_star.mp hd
    exact Or.inr ⟨pre, suf, dot :: r, x, y, z, dot :: rh, rfl, rfl, d1, d2, d3, d4, d5, h1, h2, q1, q2,
      Or.inr ⟨r, rh, rfl, rfl, t⟩⟩

theorem matchPartial_loose {p h : List Byte} (hp : 0#8 ∉ p) (hh : 0#8 ∉ h) (hne : h ≠ []) :
    ∃ b, matchPartial p h = some b ∧ (b = true ↔ Spec.PartialLoose p h) := by
  rw [matchPartial]
  by_cases c2 : (label p).count star = 1
  swap
  · obtain ⟨b, h1, h2⟩ := partialLoop_tail p.length 0 p h (le_refl _) hp hh (fun e => absurd e c2)
    refine ⟨b, h1, ?_⟩
    rw [h2, Spec.PartialLoose]
    constructor
    · exact Or.inl
    · rintro (t | ⟨pre, suf, rp, x, y, z, rh, e1, e2, d1, d2, d3, d4, d5, s1, s2, q1, q2, t⟩)
      · exact t
      · exfalso
        apply c2
        have hd := dot_star.mpr ⟨d1, d2⟩
        rcases t with ⟨rfl, rfl⟩ | ⟨p', h', rfl, rfl, t⟩
        · rw [e1, List.append_nil, label_nodot hd, count_split s1 s2]
        · rw [e1, label_app hd, count_split s1 s2]
  have hpne : p ≠ [] := by rintro rfl; simp [label, strchr] at c2
  rw [partialLoop, if_pos ⟨hpne, hne⟩, if_neg (by omega), labelGood, if_pos c2, if_neg (by simp)]
  obtain ⟨pre, suf, e, s1, s2⟩ := count_one c2
  rw [e]
  obtain ⟨b, w1, w2⟩ := wildcard_spec (suf := suf) (t := label h) s1
  rw [w1]
  by_cases hdp : dot ∈ p
  · obtain ⟨l, r, rfl, hl1⟩ := split_first hdp
    rw [label_app hl1] at e
    subst e
    rw [loose_star_dot s1 hl1 s2]
    by_cases hdh : dot ∈ h
    · obtain ⟨lh, rh, rfl, hl2⟩ := split_first hdh
      rw [label_app hl2] at w2
      obtain ⟨b', t1, t2⟩ := partialLoop_tail r.length 2 r rh (le_refl _)
        (fun e => hp (by simp [e])) (fun e => hh (by simp [e])) (fun _ => by omega)
      have hspec : (∃ lh' rh', lh ++ dot :: rh = lh' ++ dot :: rh' ∧ dot ∉ lh' ∧ Spec.Tail r rh' ∧
          ∃ x y z, lh' = x ++ y ++ z ∧ Spec.EqIC pre x ∧ Spec.EqIC suf z) ↔ b = true ∧ b' = true := by
        rw [w2, t2]
        constructor
        · rintro ⟨lh', rh', e1, d, t, x, y, z, e2, q⟩
          obtain ⟨rfl, rfl⟩ := split_unique hl2 d e1
          exact ⟨⟨x, y, z, e2, by simpa [eqIC_iff] using q⟩, t⟩
        · rintro ⟨⟨x, y, z, e2, q⟩, t⟩
          exact ⟨lh, rh, rfl, hl2, t, x, y, z, e2, by simpa [eqIC_iff] using q⟩
      rw [hspec]
      cases b with
      | false => exact ⟨false, by simp, by simp⟩
      | true =>
        refine ⟨b', ?_, by simp⟩
        simp only [Option.bind_eq_bind, Option.bind_some, if_true]
        split
        · rename_i h3 _; rw [strchr_app hl1] at h3; simp at h3
        · rename_i h3 h4
          rw [strchr_app hl1] at h3; rw [strchr_app hl2] at h4
          cases h3; cases h4
          rw [if_pos (count_split s1 s2)]; exact t1
        · rename_i h3 h4 h5; exact (h5 _ _ (strchr_app hl1) (strchr_app hl2)).elim
    · refine ⟨false, ?_, ?_⟩
      · cases b with
        | false => simp
        | true =>
          simp only [Option.bind_eq_bind, Option.bind_some, if_true]
          split
          · rename_i h3 _; rw [strchr_app hl1] at h3; simp at h3
          · rename_i h3 h4; rw [strchr_none.mpr hdh] at h4; simp at h4
          · rfl
      · constructor
        · simp
        · rintro ⟨lh, rh, rfl, _⟩; simp at hdh
  · rw [label_nodot hdp] at e c2
    subst e
    rw [loose_star_nodot s1 hdp s2]
    by_cases hdh : dot ∈ h
    · refine ⟨false, ?_, by simp [hdh]⟩
      cases b with
      | false => simp
      | true =>
        simp only [Option.bind_eq_bind, Option.bind_some, if_true]
        split
        · rename_i h3 h4; rw [strchr_none] at h4; exact absurd hdh h4
        · rename_i h3 h4; rw [strchr_none.mpr hdp] at h3; simp at h3
        · rfl
    · rw [label_nodot hdh] at w2
      refine ⟨b, ?_, ?_⟩
      · cases b with
        | false => simp
        | true =>
          simp only [Option.bind_eq_bind, Option.bind_some, if_true]
          split
          · rfl
          · rename_i h3 h4; rw [strchr_none.mpr hdp] at h3; simp at h3
          · rename_i h3 h4 h5; exact absurd (strchr_none.mpr hdh) (h4 (strchr_none.mpr hdp))
      · rw [w2]; simp only [eqIC_iff]; tauto

theorem eqIC_dot_cons {p' rh : List Byte} : Spec.EqIC (dot :: p') rh ↔
    ∃ h', rh = dot :: h' ∧ Spec.EqIC p' h' := by
  simp only [eqIC_iff]
  have hd : low dot = dot := low_dot.mpr rfl
  cases rh with
  | nil => simp
  | cons c h' =>
    simp only [List.map_cons, hd, List.cons.injEq]
    constructor
    · rintro ⟨e1, e2⟩; exact ⟨h', ⟨low_dot.mp e1.symm, rfl⟩, e2⟩
    · rintro ⟨h'', ⟨rfl, rfl⟩, e2⟩; exact ⟨hd.symm, e2⟩

theorem loose_partial {p h : List Byte} (hw : ¬ Spec.EmptyLabel p) :
    Spec.PartialLoose p h ↔ Spec.Partial p h := by
  have tw : ∀ {a b : List Byte}, (¬ ∃ r, a = dot :: r) → (Spec.Tail a b ↔ star ∉ a ∧ Spec.EqIC a b) := by
    intro a b ha
    constructor
    · intro t
      cases t with
      | same h1 h2 => exact ⟨h1, h2⟩
      | skip _ _ => exact absurd ⟨_, rfl⟩ ha
    · rintro ⟨h1, h2⟩; exact .same h1 h2
  rw [Spec.PartialLoose, Spec.Partial, tw (fun e => hw (Or.inl e))]
  apply or_congr Iff.rfl
  constructor
  · rintro ⟨pre, suf, rp, x, y, z, rh, e1, e2, d1, d2, d3, d4, d5, s1, s2, q1, q2, t⟩
    rcases t with ⟨rfl, rfl⟩ | ⟨p', h', rfl, rfl, t⟩
    · exact ⟨pre, suf, [], x, y, z, [], e1, e2, d1, d2, d3, d4, d5, s1, s2, by simp, q1, q2, rfl,
        Or.inl rfl⟩
    · rw [tw] at t
      · exact ⟨pre, suf, _, x, y, z, _, e1, e2, d1, d2, d3, d4, d5, s1, s2,
          by simp only [List.mem_cons, not_or]; exact ⟨by decide, t.1⟩, q1, q2,
          eqIC_dot_cons.mpr ⟨h', rfl, t.2⟩, Or.inr rfl⟩
      · rintro ⟨r, rfl⟩
        exact hw (Or.inr ⟨_, _, e1⟩)
  · rintro ⟨pre, suf, rp, x, y, z, rh, e1, e2, d1, d2, d3, d4, d5, s1, s2, s3, q1, q2, q3, t⟩
    refine ⟨pre, suf, rp, x, y, z, rh, e1, e2, d1, d2, d3, d4, d5, s1, s2, q1, q2, ?_⟩
    rcases t with rfl | t
    · exact Or.inl ⟨rfl, eqIC_nil.mp q3⟩
    · cases rp with
      | nil => simp at t
      | cons c p' =>
        simp only [List.head?_cons, Option.some.injEq] at t
        subst t
        obtain ⟨h', rfl, q4⟩ := eqIC_dot_cons.mp q3
        exact Or.inr ⟨p', h', rfl, rfl, .same (fun e => s3 (by simp [e])) q4⟩

theorem matchSingle_spec {p h : List Byte} (hp : 0#8 ∉ p) (hh : 0#8 ∉ h) :
    matchSingle p h = true ↔ Spec.Single p h := by
  rw [matchSingle, Spec.Single]
  by_cases hs : star ∈ p
  · obtain ⟨l, r, rfl, hl⟩ := split_first hs
    rw [strchr_app hl]
    dsimp only
    simp only [hs, not_true_eq_false, false_and, false_or]
    by_cases c : (star :: r).length ≠ (l ++ star :: r).length ∨ (star :: r).tail.head? ≠ some dot
    · rw [if_pos c]
      constructor
      · simp
      · rintro ⟨l', d, d', e1, _⟩
        exfalso
        cases l with
        | nil =>
          simp at e1; subst e1; simp at c
        | cons a l => simp at e1; exact hl (by rw [e1.1]; simp)
    · rw [if_neg c]
      rw [not_or, not_not, not_not] at c
      have hl0 : l = [] := by
        have := c.1; simp at this; exact this
      subst hl0
      obtain ⟨d, rfl⟩ : ∃ d, r = dot :: d := by
        cases r with
        | nil => simp at c
        | cons a r => simp at c; exact ⟨r, by rw [c]⟩
      by_cases hd : dot ∈ h
      swap
      · rw [strchr_none.mpr hd]
        constructor
        · simp
        · rintro ⟨l', d, d', _, rfl, _⟩; simp at hd
      obtain ⟨lh, rh, rfl, hl2⟩ := split_first hd
      rw [strchr_app hl2]
      dsimp only [List.tail_cons]
      have huniq : (∃ l d_1 d', [] ++ star :: dot :: d = star :: dot :: d_1 ∧ lh ++ dot :: rh = l ++ dot :: d' ∧
          dot ∉ l ∧ dot ∈ d' ∧ Spec.EqIC d_1 d') ↔ dot ∈ rh ∧ Spec.EqIC d rh := by
        constructor
        · rintro ⟨l', d1, d', e1, e2, h1, h2, h3⟩
          obtain ⟨rfl, rfl⟩ := split_unique hl2 h1 e2
          simp at e1; subst e1; exact ⟨h2, h3⟩
        · rintro ⟨h1, h2⟩; exact ⟨lh, d, rh, rfl, rfl, hl2, h1, h2⟩
      rw [huniq]
      by_cases hd2 : dot ∈ rh
      · obtain ⟨l3, r3, e3, hl3⟩ := split_first hd2
        have : strchr dot rh = some (dot :: r3) := by rw [e3, strchr_app hl3]
        rw [this]
        dsimp only
        have hz := strcaseCmp_zero (dot :: d) (dot :: rh) (fun e => hp (by simpa using Or.inr e))
          (fun e => hh (by simp at e ⊢; tauto))
        rw [← eqIC_iff, eqIC_dot_cons] at hz
        have hz' : (∃ h', dot :: rh = dot :: h' ∧ Spec.EqIC d h') ↔ Spec.EqIC d rh := by simp
        rw [hz'] at hz
        rw [beq_iff_eq, hz]; simp [hd2]
      · rw [strchr_none.mpr hd2]; simp [hd2]
  · rw [strchr_none.mpr hs]
    simp only [hs, not_false_eq_true, true_and, beq_iff_eq, strcaseCmp_zero p h hp hh, ← eqIC_iff]
    constructor
    · exact Or.inl
    · rintro (h1 | ⟨l, d, d', rfl, _⟩)
      · exact h1
      · simp at hs

theorem isPartial_iff (flags : BitVec 32) : isPartial flags = true ↔ flags.toNat % 2 = 1 := by
  rw [isPartial, bne_iff_ne, ne_eq, ← BitVec.toNat_inj, BitVec.toNat_and]
  simp [Nat.and_one_is_mod]

theorem matchPattern_spec {flags : BitVec 32} {p h : List Byte} (hp : 0#8 ∉ p) (hh : 0#8 ∉ h)
    (hne : h ≠ []) : ∃ b, matchPattern flags p h = some b ∧ (b = true ↔ Spec.Matches flags p h) := by
  rw [matchPattern, Spec.Matches]
  by_cases c : isPartial flags = true
  · rw [if_pos c, if_pos ((isPartial_iff flags).mp c)]; exact matchPartial_loose hp hh hne
  · rw [if_neg c, if_neg (mt (isPartial_iff flags).mpr c)]
    exact ⟨_, rfl, matchSingle_spec hp hh⟩

/-- Result of the SAN loop. -/
theorem sanLoop_spec {flags : BitVec 32} {host : List Byte} (hh : 0#8 ∉ host) (hne : host ≠ []) :
    ∀ (gs : List Gn) (ret : Ret), ret ≠ .success → ∃ r, sanLoop (matchPattern flags) host gs ret = some r ∧
      (r = .success ↔ ∃ g ∈ gs, g.ty = .dns ∧ 0#8 ∉ g.value ∧ Spec.Matches flags g.value host) ∧
      ((∃ g ∈ gs, g.ty = .dns) → r = .success ∨ r = .hostnameFail) ∧
      ((∀ g ∈ gs, g.ty ≠ .dns) → r = ret)
  | [], ret, hr => ⟨ret, rfl, by simp [hr], by simp, by simp⟩
  | g :: gs, ret, hr => by
    rw [sanLoop]
    by_cases c1 : g.ty = .dns
    swap
    · rw [if_pos c1]
      obtain ⟨r, h1, h2, h3, h4⟩ := sanLoop_spec hh hne gs ret hr
      refine ⟨r, h1, by simp [h2, c1], ?_, ?_⟩
      · intro h; apply h3; simpa [c1] using h
      · intro h; apply h4; intro x hx; exact h x (List.mem_cons_of_mem _ hx)
    rw [if_neg (by simp [c1])]
    obtain ⟨r, h1, h2, h3, h4⟩ := sanLoop_spec hh hne gs .hostnameFail (by simp)
    have hr' : r = .success ∨ r = .hostnameFail := by
      by_cases he : ∃ g ∈ gs, g.ty = .dns
      · exact h3 he
      · refine Or.inr (h4 ?_)
        intro x hx e; exact he ⟨x, hx, e⟩
    by_cases c2 : g.value.contains 0#8 = true
    · rw [if_pos c2]
      have : 0#8 ∈ g.value := by simpa using c2
      exact ⟨r, h1, by simp [h2, this], fun _ => hr', fun h => absurd c1 (h g (by simp))⟩
    · rw [if_neg c2]
      have hz : 0#8 ∉ g.value := by simpa using c2
      obtain ⟨b, m1, m2⟩ := matchPattern_spec (flags := flags) hz hh hne
      rw [m1]
      cases b with
      | true =>
        refine ⟨.success, by simp, ?_, by simp, fun h => absurd c1 (h g (by simp))⟩
        simp only [true_iff]
        exact ⟨g, by simp, c1, hz, m2.mp rfl⟩
      | false =>
        refine ⟨r, by simpa using h1, ?_, fun _ => hr', fun h => absurd c1 (h g (by simp))⟩
        have hm : ¬ Spec.Matches flags g.value host := fun h => by simpa using m2.mpr h
        simp [h2, hm]

theorem findCn_spec : ∀ {s : List (Bool × List Byte)} {cn : List Byte},
    findCn s = some cn ↔ ∃ before after, s = before ++ (true, cn) :: after ∧ ∀ x ∈ before, x.1 = false
  | [], cn => by simp [findCn]
  | (b, v) :: rest, cn => by
    rw [findCn]
    cases b with
    | true =>
      simp only [if_true]
      constructor
      · intro h; cases h; exact ⟨[], rest, rfl, by simp⟩
      · rintro ⟨before, after, e, h⟩
        cases before with
        | nil => simp at e; rw [e.1]
        | cons a l => simp at e; have := h a (by simp); rw [← e.1] at this; simp at this
    | false =>
      simp only [Bool.false_eq_true, if_false, findCn_spec]
      constructor
      · rintro ⟨before, after, rfl, h⟩
        refine ⟨(false, v) :: before, after, rfl, ?_⟩
        intro x hx
        rcases List.mem_cons.mp hx with rfl | hx
        · rfl
        · exact h x hx
      · rintro ⟨before, after, e, h⟩
        cases before with
        | nil => simp at e
        | cons a l =>
          simp at e
          exact ⟨l, after, e.2, fun x hx => h x (List.mem_cons_of_mem _ hx)⟩

theorem verifyCn_spec {cert : Cert} {flags : BitVec 32} {host : List Byte} (hh : 0#8 ∉ host)
    (hne : host ≠ []) : ∃ r, verifyCn (matchPattern flags) cert host = some r ∧
      (r = .success ↔ ∃ before cn after, cert.subject = before ++ (true, cn) :: after ∧
        (∀ x ∈ before, x.1 = false) ∧ 0#8 ∉ cn ∧ Spec.Matches flags cn host) := by
  rw [verifyCn]
  by_cases c : cert.subject = []
  · rw [if_pos c]; exact ⟨_, rfl, by simp [c]⟩
  rw [if_neg c]
  cases hf : findCn cert.subject with
  | none =>
    refine ⟨_, rfl, by simp, ?_⟩
    rintro ⟨b, cn, a, e1, e2, _⟩
    rw [findCn_spec.mpr ⟨b, a, e1, e2⟩] at hf; simp at hf
  | some cn =>
    have key : (∃ before cn after, cert.subject = before ++ (true, cn) :: after ∧
        (∀ x ∈ before, x.1 = false) ∧ 0#8 ∉ cn ∧ Spec.Matches flags cn host) ↔
        0#8 ∉ cn ∧ Spec.Matches flags cn host := by
      constructor
      · rintro ⟨b, cn', a, e1, e2, h⟩
        rw [findCn_spec.mpr ⟨b, a, e1, e2⟩] at hf; cases hf; exact h
      · intro h
        obtain ⟨b, a, e1, e2⟩ := findCn_spec.mp hf
        exact ⟨b, cn, a, e1, e2, h⟩
    rw [key]
    dsimp only
    by_cases c2 : cn.contains 0#8 = true
    · rw [if_pos c2]
      have : 0#8 ∈ cn := by simpa using c2
      exact ⟨_, rfl, by simp [this]⟩
    · rw [if_neg c2]
      have hz : 0#8 ∉ cn := by simpa using c2
      obtain ⟨b, m1, m2⟩ := matchPattern_spec (flags := flags) hz hh hne
      rw [m1]
      refine ⟨_, rfl, ?_⟩
      rw [← m2]
      cases b <;> simp [hz]

theorem verifyHostname_host {cert : Cert} {flags : BitVec 32} {host rest : List Byte} {len : Nat}
    (hh : 0#8 ∉ host) (hne : host ≠ []) (hlen : len = host.length % 2 ^ 32) (h0 : len ≠ 0)
    (hsan : cert.san ≠ .error .success) :
    ∃ r, verifyHostname cert flags (host ++ 0#8 :: rest) len = some r ∧
      (r = .success ↔ Spec.CertMatches cert flags host) := by
  rw [verifyHostname, if_neg h0, strlen, findChar_app hh]
  simp only [Option.bind_eq_bind, Option.bind_some]
  rw [if_neg (not_not.mpr hlen), List.take_left' rfl]
  obtain ⟨rc, c1, c2⟩ := verifyCn_spec (cert := cert) (flags := flags) hh hne
  rw [verifySan, Spec.CertMatches, ← c2]
  cases hs : cert.san with
  | error e =>
    have he : e ≠ .success := by rintro rfl; exact hsan hs
    simp only [Option.bind_some]
    by_cases c : e = .extNotFound
    · rw [if_pos c, c]; exact ⟨rc, c1, by simp⟩
    · rw [if_neg c]; refine ⟨e, rfl, ?_⟩; simp [he, c]
  | ok names =>
    obtain ⟨r, h1, h2, h3, h4⟩ := sanLoop_spec (flags := flags) hh hne names .extNotFound (by simp)
    dsimp only
    rw [h1]
    simp only [Option.bind_some]
    by_cases hd : ∃ g ∈ names, g.ty = .dns
    · have hr := h3 hd
      rw [if_neg (by rcases hr with h | h <;> simp [h])]
      refine ⟨r, rfl, ?_⟩
      rw [h2]
      constructor
      · rintro ⟨g, a, b, c, d⟩; exact Or.inl ⟨names, g, rfl, a, b, c, d⟩
      · rintro (⟨n, g, e, a, b, c, d⟩ | ⟨e | ⟨n, e, h⟩, _⟩)
        · cases e; exact ⟨g, a, b, c, d⟩
        · simp at e
        · cases e; obtain ⟨g, a, b⟩ := hd; exact absurd b (h g a)
    · have hd' : ∀ g ∈ names, g.ty ≠ .dns := fun g a b => hd ⟨g, a, b⟩
      rw [h4 hd', if_pos rfl]
      refine ⟨rc, c1, ?_⟩
      constructor
      · intro h; exact Or.inr ⟨Or.inr ⟨names, rfl, hd'⟩, h⟩
      · rintro (⟨n, g, e, a, b, _⟩ | ⟨_, h⟩)
        · cases e; exact absurd b (hd' g a)
        · exact h

/-! ### URI and SRV -/

theorem caseCmpView_spec : ∀ {l r : List Byte}, caseCmpView l r = true ↔ Spec.EqIC l r
  | [], [] => by simp [caseCmpView, Spec.EqIC]
  | [], b :: r => by simp [caseCmpView, Spec.EqIC]
  | a :: l, [] => by simp [caseCmpView, Spec.EqIC]
  | a :: l, b :: r => by
    have ih := caseCmpView_spec (l := l) (r := r)
    rw [eqIC_iff] at ih ⊢
    simp only [caseCmpView, Bool.and_eq_true, List.length_cons, beq_iff_eq, Nat.add_right_cancel_iff,
      List.zip_cons_cons, List.all_cons, List.map_cons, List.cons.injEq] at ih ⊢
    rw [← ih]; tauto

theorem findLast_none {c : Byte} {d : List Byte} (h : c ∉ d) : ∀ i, findLast c d i = none
  | 0 => rfl
  | i + 1 => by
    rw [findLast, if_neg, findLast_none h i]
    intro e; exact h (List.mem_of_getElem? e)

theorem findLast_app {c : Byte} {a b : List Byte} (h : c ∉ b) : ∀ n, n ≤ b.length →
    findLast c (a ++ c :: b) (a.length + 1 + n) = some a.length
  | 0, _ => by rw [Nat.add_zero, findLast]; simp
  | n + 1, hn => by
    rw [show a.length + 1 + (n + 1) = (a.length + 1 + n) + 1 by omega, findLast, if_neg,
      findLast_app h n (by omega)]
    rw [List.getElem?_append_right (by omega), show a.length + 1 + n - a.length = n + 1 by omega,
      List.getElem?_cons_succ]
    intro e; exact h (List.mem_of_getElem? e)

theorem split_last {c : Byte} : ∀ {p : List Byte}, c ∈ p → ∃ a b, p = a ++ c :: b ∧ c ∉ b := by
  intro p h
  obtain ⟨l, d, e, hl⟩ := split_first (List.mem_reverse.mpr h)
  refine ⟨d.reverse, l.reverse, ?_, by simpa using hl⟩
  have := congrArg List.reverse e
  simpa using this

theorem delim_model {auth : Bool} {c : Byte} {cs : List Byte} : uriPartEnd auth (c :: cs) =
    open Classical in if Spec.Delim auth c then 0 else uriPartEnd auth cs + 1 := by
  rw [uriPartEnd]
  unfold Spec.Delim quest hash slash semi
  cases auth <;> by_cases a1 : c = 0x3f#8 <;> by_cases a2 : c = 0x23#8 <;> by_cases a3 : c = 0x2f#8 <;>
    by_cases a4 : c = 0x3b#8 <;> simp [a1, a2, a3, a4]

theorem uriPartEnd_app {auth : Bool} : ∀ {part after : List Byte}, (∀ c ∈ part, ¬ Spec.Delim auth c) →
    (∀ c, after.head? = some c → Spec.Delim auth c) → uriPartEnd auth (part ++ after) = part.length
  | [], [], _, _ => rfl
  | [], c :: cs, _, h => by
    rw [List.nil_append, delim_model, if_pos (h c rfl)]; rfl
  | c :: part, after, h1, h2 => by
    rw [List.cons_append, delim_model, if_neg (h1 c (by simp)),
      uriPartEnd_app (fun x hx => h1 x (List.mem_cons_of_mem _ hx)) h2]
    rfl

theorem uriPart_split (auth : Bool) : ∀ (s : List Byte), ∃ part after, s = part ++ after ∧
    (∀ c ∈ part, ¬ Spec.Delim auth c) ∧ (∀ c, after.head? = some c → Spec.Delim auth c)
  | [] => ⟨[], [], rfl, by simp, by simp⟩
  | c :: cs => by
    by_cases h : Spec.Delim auth c
    · exact ⟨[], c :: cs, rfl, by simp, by intro x hx; simp at hx; rwa [← hx]⟩
    · obtain ⟨part, after, e, h1, h2⟩ := uriPart_split auth cs
      refine ⟨c :: part, after, by rw [e]; rfl, ?_, h2⟩
      intro x hx
      rcases List.mem_cons.mp hx with rfl | hx
      · exact h
      · exact h1 x hx

/-- Value of a digit string continued from `n`. -/
def decFrom (n : Nat) (l : List Byte) : Nat := l.foldl (fun n c => 10 * n + (c.toNat - 48)) n

theorem decFrom_ge : ∀ (l : List Byte) (n : Nat), n ≤ decFrom n l
  | [], n => le_refl _
  | c :: cs, n => by
    have := decFrom_ge cs (10 * n + (c.toNat - 48))
    rw [decFrom, List.foldl_cons]; rw [decFrom] at this; omega

theorem portLoop_spec : ∀ (l : List Byte) (n : Nat), n ≤ 65535 → (portLoop l n = true ↔
    (∀ c ∈ l, 48 ≤ c.toNat ∧ c.toNat ≤ 57) ∧ decFrom n l ≤ 65535)
  | [], n, h => by simp [portLoop, decFrom, h]
  | c :: cs, n, h => by
    rw [portLoop]
    have hdig : (0x30#8 ≤ c ∧ c ≤ 0x39#8) ↔ (48 ≤ c.toNat ∧ c.toNat ≤ 57) := by
      rw [BitVec.le_def, BitVec.le_def]; rfl
    by_cases c1 : 0x30#8 ≤ c ∧ c ≤ 0x39#8
    · rw [if_neg (not_not.mpr c1)]
      dsimp only
      have hd : decFrom n (c :: cs) = decFrom (n * 10 + (c.toNat - 0x30)) cs := by
        rw [decFrom, decFrom, List.foldl_cons]; congr 1; omega
      by_cases c2 : n * 10 + (c.toNat - 0x30) > 65535
      · rw [if_pos c2, hd]
        have := decFrom_ge cs (n * 10 + (c.toNat - 0x30))
        constructor
        · simp
        · rintro ⟨_, h⟩; omega
      · rw [if_neg c2, portLoop_spec cs _ (by omega), hd]
        rw [hdig] at c1
        simp [c1]
    · rw [if_pos c1]
      rw [hdig] at c1
      constructor
      · simp
      · rintro ⟨h, _⟩; exact absurd (h c (by simp)) c1

theorem checkUriPort_spec {l : List Byte} : checkUriPort l = true ↔
    l ≠ [] ∧ (∀ c ∈ l, 48 ≤ c.toNat ∧ c.toNat ≤ 57) ∧ Spec.decVal l ≤ 65535 := by
  rw [checkUriPort]
  cases l with
  | nil => simp
  | cons c cs =>
    rw [if_neg (by simp), portLoop_spec _ 0 (by omega)]
    simp only [ne_eq, reduceCtorEq, not_false_eq_true, true_and]
    rfl

/-- `[userinfo@]host[:port]` as the model takes it apart. -/
def hostOf (part : List Byte) : List Byte :=
  match findLast at_ part part.length with
  | none => part
  | some i => part.drop (i + 1)

theorem hostOf_spec {part hp : List Byte} (h : at_ ∉ hp)
    (e : part = hp ∨ ∃ u, part = u ++ at_ :: hp) : hostOf part = hp := by
  rw [hostOf]
  rcases e with rfl | ⟨u, rfl⟩
  · rw [findLast_none h]
  · have := findLast_app (a := u) h hp.length (le_refl _)
    rw [show (u ++ at_ :: hp).length = u.length + 1 + hp.length by simp; omega, this]
    dsimp only
    rw [show u ++ at_ :: hp = (u ++ [at_]) ++ hp by simp, List.drop_left' (by simp)]

theorem hostOf_exists (part : List Byte) : ∃ hp, at_ ∉ hp ∧ (part = hp ∨ ∃ u, part = u ++ at_ :: hp) := by
  by_cases h : at_ ∈ part
  · obtain ⟨a, b, e, hb⟩ := split_last h
    exact ⟨b, hb, Or.inr ⟨a, e⟩⟩
  · exact ⟨part, h, Or.inl rfl⟩

/-- The tail of `parseUriId` on the part without user information. -/
def portOf (scheme part : List Byte) : Option (List Byte × List Byte) :=
  match findChar colon part with
  | none => if part.length = 0 then none else some (scheme, part)
  | some j =>
    if checkUriPort (part.drop (j + 1)) then
      (if j = 0 then none else some (scheme, part.take j))
    else none

theorem portOf_spec {scheme hp s h : List Byte} : portOf scheme hp = some (s, h) ↔ s = scheme ∧
    (hp = h ∨ ∃ port, hp = h ++ colon :: port ∧ port ≠ [] ∧
      (∀ c ∈ port, 48 ≤ c.toNat ∧ c.toNat ≤ 57) ∧ Spec.decVal port ≤ 65535) ∧ colon ∉ h ∧ h ≠ [] := by
  rw [portOf]
  by_cases c : colon ∈ hp
  · obtain ⟨l, r, rfl, hl⟩ := split_first c
    rw [findChar_app hl]
    dsimp only
    rw [show (l ++ colon :: r).drop (l.length + 1) = r by simp, List.take_left' rfl]
    have huniq : (l ++ colon :: r = h ∨ ∃ port, l ++ colon :: r = h ++ colon :: port ∧ port ≠ [] ∧
        (∀ c ∈ port, 48 ≤ c.toNat ∧ c.toNat ≤ 57) ∧ Spec.decVal port ≤ 65535) ∧ colon ∉ h ∧ h ≠ [] ↔
        l = h ∧ checkUriPort r = true ∧ h ≠ [] := by
      rw [checkUriPort_spec]
      constructor
      · rintro ⟨rfl | ⟨port, e, p⟩, h1, h2⟩
        · simp at h1
        · obtain ⟨rfl, rfl⟩ := split_unique hl h1 e
          exact ⟨rfl, p, h2⟩
      · rintro ⟨rfl, p, h2⟩; exact ⟨Or.inr ⟨r, rfl, p⟩, hl, h2⟩
    rw [huniq]
    by_cases c2 : checkUriPort r = true
    · rw [if_pos c2]
      by_cases c3 : l.length = 0
      · rw [if_pos c3]
        have : l = [] := by simpa using c3
        subst this
        constructor
        · simp
        · rintro ⟨_, e, _, h⟩; exact absurd e.symm h
      · rw [if_neg c3]
        have : l ≠ [] := fun e => c3 (by rw [e]; rfl)
        simp only [Option.some.injEq, Prod.mk.injEq]
        constructor
        · rintro ⟨rfl, rfl⟩; exact ⟨rfl, rfl, c2, this⟩
        · rintro ⟨rfl, rfl, _⟩; exact ⟨rfl, rfl⟩
    · rw [if_neg c2]; simp [c2]
  · rw [findChar_none.mpr c]
    dsimp only
    by_cases c3 : hp.length = 0
    · rw [if_pos c3]
      have : hp = [] := by simpa using c3
      subst this
      constructor
      · simp
      · rintro ⟨_, rfl | ⟨p, e, _⟩, _, h⟩
        · exact absurd rfl h
        · simp at e
    · rw [if_neg c3]
      have hne : hp ≠ [] := fun e => c3 (by rw [e]; rfl)
      simp only [Option.some.injEq, Prod.mk.injEq]
      constructor
      · rintro ⟨rfl, rfl⟩; exact ⟨rfl, Or.inl rfl, c, hne⟩
      · rintro ⟨rfl, rfl | ⟨p, e, _⟩, _⟩
        · exact ⟨rfl, rfl⟩
        · exact absurd (by rw [e]; simp) c

theorem take_two_iff {r : List Byte} {a b : Byte} : r.take 2 = [a, b] ↔ ∃ t, r = a :: b :: t := by
  match r with
  | [] => simp
  | [x] => simp
  | x :: y :: t => simp

theorem parseUriId_eq {s rest : List Byte} (h : colon ∉ s) (hne : s ≠ []) (auth : Bool)
    (hauth : auth = decide (rest.take 2 = [slash, slash])) :
    parseUriId (s ++ colon :: rest) =
      portOf s (hostOf ((if auth then rest.drop 2 else rest).take
        (uriPartEnd auth (if auth then rest.drop 2 else rest)))) := by
  rw [parseUriId, findChar_app h]
  dsimp only
  rw [if_neg (by simpa using hne), show (s ++ colon :: rest).drop (s.length + 1) = rest by simp,
    List.take_left' rfl, ← hauth]
  rfl

theorem parseUriId_spec {uri s h : List Byte} : parseUriId uri = some (s, h) ↔ Spec.Uri uri s h := by
  constructor
  · intro hp
    by_cases c : colon ∈ uri
    swap
    · rw [parseUriId, findChar_none.mpr c] at hp; simp at hp
    obtain ⟨sc, rest, rfl, hsc⟩ := split_first c
    by_cases hne : sc = []
    · rw [parseUriId, findChar_app hsc, hne] at hp; simp at hp
    rw [parseUriId_eq hsc hne _ rfl] at hp
    by_cases ha : rest.take 2 = [slash, slash]
    · obtain ⟨t, rfl⟩ := take_two_iff.mp ha
      simp only [ha, decide_true, if_true] at hp
      obtain ⟨part, after, e, h1, h2⟩ := uriPart_split true t
      rw [show (slash :: slash :: t).drop 2 = t from rfl, e, uriPartEnd_app h1 h2,
        List.take_left' rfl] at hp
      obtain ⟨hp', a1, a2⟩ := hostOf_exists part
      rw [hostOf_spec a1 a2, portOf_spec] at hp
      obtain ⟨rfl, p1, p2, p3⟩ := hp
      exact ⟨true, _, part, after, hp', rfl, hsc, hne, Or.inl ⟨rfl, by rw [e]⟩, h1, h2, a2, a1, p1, p2, p3⟩
    · simp only [ha, decide_false, Bool.false_eq_true, if_false] at hp
      obtain ⟨part, after, e, h1, h2⟩ := uriPart_split false rest
      rw [e, uriPartEnd_app h1 h2, List.take_left' rfl] at hp
      obtain ⟨hp', a1, a2⟩ := hostOf_exists part
      rw [hostOf_spec a1 a2, portOf_spec] at hp
      obtain ⟨rfl, p1, p2, p3⟩ := hp
      exact ⟨false, _, part, after, hp', rfl, hsc, hne,
        Or.inr ⟨rfl, e, fun h => ha (take_two_iff.mpr h)⟩, h1, h2, a2, a1, p1, p2, p3⟩
  · rintro ⟨auth, rest, part, after, hp, rfl, hsc, hne, ha, h1, h2, a2, a1, p1, p2, p3⟩
    have hfin : portOf s (hostOf part) = some (s, h) := by
      rw [hostOf_spec a1 a2, portOf_spec]; exact ⟨rfl, p1, p2, p3⟩
    rcases ha with ⟨rfl, rfl⟩ | ⟨rfl, rfl, hn⟩
    · rw [parseUriId_eq hsc hne true (by simp)]
      simp only [if_true]
      rw [show (slash :: slash :: (part ++ after)).drop 2 = part ++ after from rfl,
        uriPartEnd_app h1 h2, List.take_left' rfl, hfin]
    · rw [parseUriId_eq hsc hne false (by
        rw [eq_comm, decide_eq_false_iff_not]; exact fun h => hn (take_two_iff.mp h))]
      simp only [Bool.false_eq_true, if_false]
      rw [uriPartEnd_app h1 h2, List.take_left' rfl, hfin]

theorem parseSrvId_spec {srv s d : List Byte} : parseSrvId srv = some (s, d) ↔ Spec.Srv srv s d := by
  cases srv with
  | nil => simp [parseSrvId, Spec.Srv]
  | cons c rest =>
    rw [parseSrvId, Spec.Srv, List.cons_append, List.cons.injEq]
    by_cases hu : c = under
    swap
    · simp [hu]
    rw [if_neg (by simp [hu])]
    by_cases hd : dot ∈ rest
    · obtain ⟨l, r, rfl, hl⟩ := split_first hd
      rw [findChar_app hl]
      dsimp only
      rw [show (l ++ dot :: r).drop (l.length + 1) = r by simp, List.take_left' rfl]
      have hlen : (l.length = 0 ∨ l.length + 2 ≥ (c :: (l ++ dot :: r)).length) ↔ l = [] ∨ r = [] := by
        rw [List.length_eq_zero_iff]
        apply or_congr Iff.rfl
        simp only [List.length_cons, List.length_append]
        rw [← List.length_eq_zero_iff]; omega
      by_cases hc : l = [] ∨ r = []
      · rw [if_pos (hlen.mpr hc)]
        constructor
        · simp
        · rintro ⟨⟨_, e⟩, h1, h2, h3⟩
          obtain ⟨rfl, rfl⟩ := split_unique hl h1 e
          rcases hc with h | h
          · exact absurd h h2
          · exact absurd h h3
      · rw [if_neg (mt hlen.mp hc)]
        rw [not_or] at hc
        simp only [Option.some.injEq, Prod.mk.injEq]
        constructor
        · rintro ⟨rfl, rfl⟩; exact ⟨⟨hu, rfl⟩, hl, hc.1, hc.2⟩
        · rintro ⟨⟨_, e⟩, h1, _⟩; exact split_unique hl h1 e
    · rw [findChar_none.mpr hd]
      constructor
      · simp
      · rintro ⟨⟨_, e⟩, _⟩; exact absurd (by rw [e]; simp) hd

theorem idLoop_spec {flags : BitVec 32} {ty : GnType} {parse : List Byte → Option (List Byte × List Byte)}
    {P : List Byte → List Byte → List Byte → Prop} {tag host : List Byte} {fail : Ret}
    (hP : ∀ v s d, parse v = some (s, d) ↔ P v s d) (hPne : ∀ v s d, P v s d → d ≠ [])
    (hh : 0#8 ∉ host) (hne : host ≠ []) (hf : fail ≠ .success) :
    ∀ (gs : List Gn), ∃ r, idLoop (matchPattern flags) ty parse tag host fail gs = some r ∧
      (r = .success ∨ r = fail) ∧
      (r = .success ↔ ∃ g t p, g ∈ gs ∧ g.ty = ty ∧ P g.value t p ∧ Spec.EqIC t tag ∧ 0#8 ∉ p ∧
        Spec.Matches flags p host)
  | [] => ⟨fail, rfl, Or.inr rfl, by simp [hf]⟩
  | g :: gs => by
    obtain ⟨r, h1, h2, h3⟩ := idLoop_spec hP hPne hh hne hf gs
    -- when the head entry does not match, the answer is that for the rest
    have skip : (¬ ∃ t p, g.ty = ty ∧ P g.value t p ∧ Spec.EqIC t tag ∧ 0#8 ∉ p ∧
        Spec.Matches flags p host) → (r = .success ↔ ∃ x t p, x ∈ g :: gs ∧ x.ty = ty ∧ P x.value t p ∧
          Spec.EqIC t tag ∧ 0#8 ∉ p ∧ Spec.Matches flags p host) := by
      intro hn
      rw [h3]
      constructor
      · rintro ⟨x, t, p, a, b⟩; exact ⟨x, t, p, List.mem_cons_of_mem _ a, b⟩
      · rintro ⟨x, t, p, a, b⟩
        rcases List.mem_cons.mp a with rfl | a
        · exact absurd ⟨t, p, b⟩ hn
        · exact ⟨x, t, p, a, b⟩
    rw [idLoop]
    by_cases c1 : g.ty = ty
    swap
    · rw [if_pos c1]
      exact ⟨r, h1, h2, skip (by rintro ⟨_, _, e, _⟩; exact c1 e)⟩
    rw [if_neg (not_not.mpr c1)]
    cases hp : parse g.value with
    | none =>
      refine ⟨r, h1, h2, skip ?_⟩
      rintro ⟨t, p, _, e, _⟩
      rw [(hP _ _ _).mpr e] at hp; simp at hp
    | some tp =>
      obtain ⟨t, p⟩ := tp
      have hPv := (hP _ _ _).mp hp
      have uniq : ∀ {t' p'}, P g.value t' p' → t' = t ∧ p' = p := by
        intro t' p' e
        rw [(hP _ _ _).mpr e] at hp; cases hp; exact ⟨rfl, rfl⟩
      dsimp only
      by_cases c2 : caseCmpView t tag = true
      swap
      · rw [if_pos (by simpa using c2)]
        refine ⟨r, h1, h2, skip ?_⟩
        rintro ⟨t', p', _, e, q, _⟩
        obtain ⟨rfl, rfl⟩ := uniq e
        exact c2 (caseCmpView_spec.mpr q)
      rw [if_neg (by simpa using c2), matchHostView]
      have hpne := hPne _ _ _ hPv
      have hvh : viewOk host = true := by
        simp only [viewOk, Bool.not_eq_true', Bool.or_eq_false_iff, beq_eq_false_iff_ne]
        exact ⟨by simpa using hne, by simpa using hh⟩
      by_cases c3 : 0#8 ∈ p
      · rw [if_pos (by simp [viewOk, c3])]
        refine ⟨r, by simpa using h1, h2, skip ?_⟩
        rintro ⟨t', p', _, e, _, z, _⟩
        obtain ⟨rfl, rfl⟩ := uniq e
        exact z c3
      · have hvp : viewOk p = true := by
          simp only [viewOk, Bool.not_eq_true', Bool.or_eq_false_iff, beq_eq_false_iff_ne]
          exact ⟨by simpa using hpne, by simpa using c3⟩
        rw [if_neg (by simp [hvp]), if_neg (by simp [hvh])]
        obtain ⟨b, m1, m2⟩ := matchPattern_spec (flags := flags) c3 hh hne
        rw [m1]
        cases b with
        | true =>
          refine ⟨.success, by simp, Or.inl rfl, ?_⟩
          simp only [true_iff]
          exact ⟨g, t, p, by simp, c1, hPv, caseCmpView_spec.mp c2, c3, m2.mp rfl⟩
        | false =>
          refine ⟨r, by simpa using h1, h2, skip ?_⟩
          rintro ⟨t', p', _, e, _, _, m⟩
          obtain ⟨rfl, rfl⟩ := uniq e
          simpa using m2.mpr m

theorem verifyId_spec {flags : BitVec 32} {ty : GnType} {parse : List Byte → Option (List Byte × List Byte)}
    {P : List Byte → List Byte → List Byte → Prop} {fail : Ret} {cert : Cert} {id rest : List Byte}
    (hP : ∀ v s d, parse v = some (s, d) ↔ P v s d) (hPne : ∀ v s d, P v s d → d ≠ [])
    (hPz : ∀ v s d, P v s d → ∀ c ∈ d, c ∈ v)
    (hz : 0#8 ∉ id) (hne : id ≠ []) (hlen : id.length < 2 ^ 32) (hf : fail ≠ .success) :
    ∃ r, verifyId ty parse fail cert flags (id ++ 0#8 :: rest) id.length = some r ∧
      (r = .success ↔ ∃ tag host, P id tag host ∧ Spec.IdMatches P ty cert flags tag host) := by
  rw [verifyId, if_neg (by simpa using hne), strlen, findChar_app hz]
  simp only [Option.bind_eq_bind, Option.bind_some]
  rw [if_neg (not_not.mpr (Nat.mod_eq_of_lt hlen).symm), List.take_left' rfl]
  cases hp : parse id with
  | none =>
    refine ⟨_, rfl, by simp, ?_⟩
    rintro ⟨t, d, e, _⟩
    rw [(hP _ _ _).mpr e] at hp; simp at hp
  | some td =>
    obtain ⟨t, d⟩ := td
    have hPid := (hP _ _ _).mp hp
    have key : (∃ tag host, P id tag host ∧ Spec.IdMatches P ty cert flags tag host) ↔
        Spec.IdMatches P ty cert flags t d := by
      constructor
      · rintro ⟨t', d', e, m⟩
        rw [(hP _ _ _).mpr e] at hp; cases hp; exact m
      · intro m; exact ⟨t, d, hPid, m⟩
    rw [key]
    dsimp only
    rw [Spec.IdMatches]
    cases hs : cert.san with
    | error e => exact ⟨fail, rfl, by simp [hf]⟩
    | ok names =>
      obtain ⟨r, h1, _, h3⟩ := idLoop_spec (flags := flags) (ty := ty) (tag := t) hP hPne
        (fun z => hz (hPz _ _ _ hPid _ z)) (hPne _ _ _ hPid) hf names
      refine ⟨r, h1, ?_⟩
      rw [h3]
      constructor
      · rintro ⟨g, t', p, h⟩; exact ⟨names, g, t', p, rfl, h⟩
      · rintro ⟨n, g, t', p, e, h⟩; cases e; exact ⟨g, t', p, h⟩

end Verif.Pki.Host
