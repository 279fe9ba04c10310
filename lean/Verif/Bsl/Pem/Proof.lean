import Verif.Bsl.Pem.Model
import Verif.Bsl.Pem.Spec
import Verif.Bsl.Base64.Props
namespace Verif.Bsl.Pem
open Verif.Common

theorem memchr_spec (buf : List Byte) (c : Byte) (cnt p : Nat) (h : p + cnt ≤ buf.length) :
    (memchr buf c p cnt = .ok none ∧ ∀ j, p ≤ j → j < p + cnt → buf[j]? ≠ some c) ∨
    ∃ q, memchr buf c p cnt = .ok (some q) ∧ p ≤ q ∧ q < p + cnt ∧ buf[q]? = some c ∧
      ∀ j, p ≤ j → j < q → buf[j]? ≠ some c := by
  induction cnt generalizing p with
  | zero => left; exact ⟨by simp [memchr], fun j h1 h2 => by omega⟩
  | succ n ih =>
    have hp : p < buf.length := by omega
    unfold memchr
    rw [List.getElem?_eq_getElem hp]
    by_cases hc : buf[p] = c
    · right
      refine ⟨p, by simp [hc], Nat.le_refl _, by omega, by rw [List.getElem?_eq_getElem hp, hc], ?_⟩
      intro j h1 h2; omega
    · simp only [hc, if_false]
      rcases ih (p + 1) (by omega) with ⟨h1, h2⟩ | ⟨q, h1, h2, h3, h4, h5⟩
      · left
        refine ⟨h1, fun j hj1 hj2 => ?_⟩
        by_cases hjp : j = p
        · subst hjp; rw [List.getElem?_eq_getElem hp]; simpa using hc
        · exact h2 j (by omega) (by omega)
      · right
        refine ⟨q, h1, by omega, by omega, h4, fun j hj1 hj2 => ?_⟩
        by_cases hjp : j = p
        · subst hjp; rw [List.getElem?_eq_getElem hp]; simpa using hc
        · exact h5 j (by omega) (by omega)

theorem occ_head {buf n : List Byte} {c : Byte} {r : List Byte} (hn : n = c :: r) {j : Nat}
    (h : n <+: buf.drop j) : buf[j]? = some c := by
  subst hn
  obtain ⟨t, ht⟩ := h
  have := congrArg (fun l => l[0]?) ht
  simpa using this.symm

theorem memStrLoop_spec (buf n : List Byte) (c : Byte) (r : List Byte) (hn : n = c :: r) (en : Nat)
    (hen : en + n.length ≤ buf.length) (k p : Nat) (hk : en + 1 - p ≤ k) :
    (memStrLoop buf n c en k p = .ok none ∧ ∀ j, p ≤ j → j ≤ en → ¬ n <+: buf.drop j) ∨
    ∃ q, memStrLoop buf n c en k p = .ok (some q) ∧ p ≤ q ∧ q ≤ en ∧ n <+: buf.drop q ∧
      ∀ j, p ≤ j → j < q → ¬ n <+: buf.drop j := by
  have hl : 0 < n.length := by rw [hn]; simp
  induction k generalizing p with
  | zero => left; exact ⟨rfl, fun j h1 h2 => by omega⟩
  | succ k ih =>
    unfold memStrLoop
    by_cases hp : p ≤ en
    · simp only [hp, if_true]
      rcases memchr_spec buf c (en - p + 1) p (by omega) with ⟨h1, h2⟩ | ⟨q, h1, h2, h3, h4, h5⟩
      · left
        simp only [h1]
        exact ⟨trivial, fun j hj1 hj2 ho => h2 j hj1 (by omega) (occ_head hn ho)⟩
      · simp only [h1]
        have hm : memeq buf q n = .ok ((buf.drop q).take n.length == n) := by
          unfold memeq; rw [if_pos (by omega)]
        rw [hm]
        by_cases he : (buf.drop q).take n.length = n
        · right
          have : ((buf.drop q).take n.length == n) = true := by simpa using he
          simp only [this]
          refine ⟨q, rfl, h2, by omega, List.prefix_iff_eq_take.mpr he.symm, fun j hj1 hj2 ho => ?_⟩
          exact h5 j hj1 hj2 (occ_head hn ho)
        · have : ((buf.drop q).take n.length == n) = false := by simpa using he
          simp only [this]
          have hno : ∀ j, p ≤ j → j < q + 1 → ¬ n <+: buf.drop j := by
            intro j hj1 hj2 ho
            by_cases hjq : j = q
            · subst hjq; exact he (List.prefix_iff_eq_take.mp ho).symm
            · exact h5 j hj1 (by omega) (occ_head hn ho)
          rcases ih (q + 1) (by omega) with ⟨g1, g2⟩ | ⟨q', g1, g2, g3, g4, g5⟩
          · left
            refine ⟨g1, fun j hj1 hj2 => ?_⟩
            by_cases hjq : j < q + 1
            · exact hno j hj1 hjq
            · exact g2 j (by omega) hj2
          · right
            refine ⟨q', g1, by omega, g3, g4, fun j hj1 hj2 => ?_⟩
            by_cases hjq : j < q + 1
            · exact hno j hj1 hjq
            · exact g5 j (by omega) hj2
    · left
      simp only [hp, if_false]
      exact ⟨trivial, fun j h1 h2 => by omega⟩

/-- The text seen through an offset and a length. -/
def win (buf : List Byte) (off len : Nat) : List Byte := (buf.drop off).take len

theorem win_length {buf : List Byte} {off len : Nat} (h : off + len ≤ buf.length) :
    (win buf off len).length = len := by
  unfold win; simp; omega

theorem win_drop (buf : List Byte) (off len i : Nat) :
    (win buf off len).drop i = win buf (off + i) (len - i) := by
  unfold win; rw [List.drop_take, List.drop_drop]

theorem prefix_win {buf n : List Byte} {off len : Nat} :
    n <+: win buf off len ↔ n.length ≤ len ∧ n <+: buf.drop off := by
  unfold win
  rw [List.prefix_take_iff]
  exact and_comm

theorem prefix_len {t n : List Byte} {i : Nat} (h : n <+: t.drop i) (hn : n ≠ []) :
    i + n.length ≤ t.length := by
  have := h.length_le
  have h0 : n.length ≠ 0 := fun hh => hn (List.length_eq_zero_iff.mp hh)
  rw [List.length_drop] at this
  omega

theorem memStr_spec (buf n : List Byte) (off len : Nat) (h : off + len ≤ buf.length) (hn : n ≠ []) :
    (memStr buf off len n = .ok none ∧ ¬ Spec.Occurs (win buf off len) n) ∨
    ∃ i, memStr buf off len n = .ok (some (off + i)) ∧ Spec.FirstAt (win buf off len) n i := by
  cases hnn : n with
  | nil => exact absurd hnn hn
  | cons c r =>
    rw [← hnn]
    have hl : 0 < n.length := by rw [hnn]; simp
    have hm : memStr buf off len n = if len < n.length then .ok none
        else memStrLoop buf n c (off + len - n.length) len off := by
      rw [hnn]; rfl
    have hocc : ∀ j, n <+: (win buf off len).drop j ↔ n.length ≤ len - j ∧ n <+: buf.drop (off + j) := by
      intro j; rw [win_drop, prefix_win]
    rw [hm]
    by_cases hlt : len < n.length
    · left
      simp only [hlt, if_true]
      refine ⟨trivial, ?_⟩
      rintro ⟨j, hj⟩
      have := ((hocc j).mp hj).1
      omega
    · simp only [hlt, if_false]
      rcases memStrLoop_spec buf n c r hnn (off + len - n.length) (by omega) len off (by omega) with
        ⟨g1, g2⟩ | ⟨q, g1, g2, g3, g4, g5⟩
      · left
        refine ⟨g1, ?_⟩
        rintro ⟨j, hj⟩
        obtain ⟨a, b⟩ := (hocc j).mp hj
        exact g2 (off + j) (by omega) (by omega) b
      · right
        refine ⟨q - off, by rw [g1]; congr 2; omega, (hocc _).mpr ⟨by omega, ?_⟩, fun j hj ho => ?_⟩
        · rwa [show off + (q - off) = q by omega]
        · obtain ⟨a, b⟩ := (hocc j).mp ho
          exact g5 (off + j) (by omega) (by omega) b

theorem firstAt_unique {t n : List Byte} {i j : Nat} (hi : Spec.FirstAt t n i) (hj : Spec.FirstAt t n j) :
    i = j := by
  rcases Nat.lt_trichotomy i j with h | h | h
  · exact absurd hi.1 (hj.2 i h)
  · exact h
  · exact absurd hj.1 (hi.2 j h)

theorem memStr_some {buf n : List Byte} {off len : Nat} (h : off + len ≤ buf.length) (hn : n ≠ []) {i : Nat}
    (hf : Spec.FirstAt (win buf off len) n i) : memStr buf off len n = .ok (some (off + i)) := by
  rcases memStr_spec buf n off len h hn with ⟨_, g⟩ | ⟨j, g1, g2⟩
  · exact absurd ⟨i, hf.1⟩ g
  · rw [g1, firstAt_unique hf g2]

theorem memStr_none {buf n : List Byte} {off len : Nat} (h : off + len ≤ buf.length) (hn : n ≠ [])
    (hf : ¬ Spec.Occurs (win buf off len) n) : memStr buf off len n = .ok none := by
  rcases memStr_spec buf n off len h hn with ⟨g, _⟩ | ⟨j, g1, g2⟩
  · exact g
  · exact absurd ⟨j, g2.1⟩ hf

theorem sub32_eq {a b : Nat} (h : b ≤ a) : sub32 a b = a - b := by
  unfold sub32; rw [if_pos h]

/-- First occurrence of each piece of a sequence, each searched after the previous one. -/
def findAll : List (List Byte) → List Byte → Bool → Prop
  | [], _, r => r = true
  | n :: ns, t, r =>
    (¬ Spec.Occurs t n ∧ r = false) ∨ ∃ i, Spec.FirstAt t n i ∧ findAll ns (t.drop (i + n.length)) r

theorem findAll_stop {n : List Byte} {ns : List (List Byte)} {t : List Byte} (h : ¬ Spec.Occurs t n) :
    findAll (n :: ns) t false := by
  unfold findAll; exact Or.inl ⟨h, rfl⟩

theorem findAll_step {n : List Byte} {ns : List (List Byte)} {t : List Byte} {r : Bool} {i : Nat}
    (h : Spec.FirstAt t n i) (h' : findAll ns (t.drop (i + n.length)) r) : findAll (n :: ns) t r := by
  unfold findAll; exact Or.inr ⟨i, h, h'⟩

/-- The pieces occur in this order without overlap. -/
def Pieces : List (List Byte) → List Byte → Prop
  | [], _ => True
  | n :: ns, t => ∃ i, n <+: t.drop i ∧ Pieces ns (t.drop (i + n.length))

theorem pieces_mono (ns : List (List Byte)) (t : List Byte) (k : Nat) (h : Pieces ns (t.drop k)) :
    Pieces ns t := by
  cases ns with
  | nil => trivial
  | cons n ns =>
    obtain ⟨i, h1, h2⟩ := h
    rw [List.drop_drop] at h1 h2
    exact ⟨k + i, h1, by rw [show k + i + n.length = k + (i + n.length) by omega]; exact h2⟩

theorem findAll_pieces (ns : List (List Byte)) (t : List Byte) (r : Bool) (h : findAll ns t r) :
    r = true ↔ Pieces ns t := by
  induction ns generalizing t with
  | nil => simp only [findAll] at h; simp [h, Pieces]
  | cons n ns ih =>
    rcases h with ⟨h1, h2⟩ | ⟨i, h1, h2⟩
    · subst h2
      simp only [Bool.false_eq_true, false_iff]
      rintro ⟨i, hi, _⟩
      exact h1 ⟨i, hi⟩
    · rw [ih _ h2]
      constructor
      · intro hp; exact ⟨i, h1.1, hp⟩
      · rintro ⟨j, hj, hp⟩
        have : i ≤ j := Nat.not_lt.mp (fun hlt => h1.2 j hlt hj)
        have := pieces_mono ns (t.drop (i + n.length)) (j - i) (by
          rw [List.drop_drop, show i + n.length + (j - i) = j + n.length by omega]; exact hp)
        exact this

theorem pieces_cons {n : List Byte} {ns : List (List Byte)} {t : List Byte} :
    Pieces (n :: ns) t ↔ ∃ a r, t = a ++ n ++ r ∧ Pieces ns r := by
  constructor
  · rintro ⟨i, ⟨r, hr⟩, hp⟩
    refine ⟨t.take i, r, ?_, ?_⟩
    · rw [List.append_assoc, hr, List.take_append_drop]
    · rw [← List.drop_drop, ← hr] at hp
      simpa using hp
  · rintro ⟨a, r, rfl, hp⟩
    refine ⟨a.length, ⟨r, by simp⟩, ?_⟩
    have : (a ++ n ++ r).drop (a.length + n.length) = r := by
      rw [← List.length_append]; simp
    rw [this]; exact hp

theorem isPem_pieces (t : List Byte) : Pieces [beginStr, dashStr, endStr, dashStr] t ↔ Spec.IsPem t := by
  have e1 : Spec.ascii "-----BEGIN" = beginStr := rfl
  have e2 : Spec.ascii "-----" = dashStr := rfl
  have e3 : Spec.ascii "-----END" = endStr := rfl
  unfold Spec.IsPem
  rw [e1, e2, e3]
  constructor
  · intro h
    obtain ⟨a, r1, rfl, h1⟩ := pieces_cons.mp h
    obtain ⟨b, r2, rfl, h2⟩ := pieces_cons.mp h1
    obtain ⟨c, r3, rfl, h3⟩ := pieces_cons.mp h2
    obtain ⟨d, r4, rfl, h4⟩ := pieces_cons.mp h3
    exact ⟨a, b, c, d, r4, by simp only [List.append_assoc]⟩
  · rintro ⟨a, b, c, d, e, rfl⟩
    simp only [List.append_assoc]
    refine pieces_cons.mpr ⟨a, _, (List.append_assoc _ _ _).symm, ?_⟩
    refine pieces_cons.mpr ⟨b, _, (List.append_assoc _ _ _).symm, ?_⟩
    refine pieces_cons.mpr ⟨c, _, (List.append_assoc _ _ _).symm, ?_⟩
    exact pieces_cons.mpr ⟨d, _, (List.append_assoc _ _ _).symm, trivial⟩

theorem pieces_length (ns : List (List Byte)) (t : List Byte) (hn : ∀ n ∈ ns, n ≠ []) (h : Pieces ns t) :
    (ns.map List.length).sum ≤ t.length := by
  induction ns generalizing t with
  | nil => simp
  | cons n ns ih =>
    obtain ⟨a, r, rfl, h1⟩ := pieces_cons.mp h
    have := ih r (fun n hn' => hn n (List.mem_cons_of_mem _ hn')) h1
    simp only [List.map_cons, List.sum_cons, List.length_append]
    omega

/-- `memStr` in the rest of the text after `i` bytes. -/
theorem memStr_rest (buf n : List Byte) (off len i : Nat) (h : off + len ≤ buf.length) 
    (hi : i ≤ len) (hn : n ≠ []) (p : Nat) (hp : p = off + i) :
    (searchRest buf off len p n = .ok none ∧ ¬ Spec.Occurs ((win buf off len).drop i) n) ∨
    ∃ j, searchRest buf off len p n = .ok (some (off + (i + j))) ∧ i + j + n.length ≤ len ∧
      Spec.FirstAt ((win buf off len).drop i) n j := by
  subst hp
  unfold searchRest
  rw [show off + i - off = i by omega, sub32_eq hi, win_drop]
  rcases memStr_spec buf n (off + i) (len - i) (by omega) hn with ⟨g, g'⟩ | ⟨j, g, g'⟩
  · exact Or.inl ⟨g, g'⟩
  · refine Or.inr ⟨j, by rw [g, Nat.add_assoc], ?_, g'⟩
    have hb := prefix_len g'.1 hn
    rw [win_length (by omega)] at hb
    omega

theorem nb : beginStr ≠ [] := by decide +kernel
theorem nd : dashStr ≠ [] := by decide +kernel
theorem ne' : endStr ≠ [] := by decide +kernel
theorem lb : beginStr.length = 10 := by decide +kernel
theorem ld : dashStr.length = 5 := by decide +kernel
theorem le' : endStr.length = 8 := by decide +kernel

theorem dashAfterEnd_spec (buf : List Byte) (off len i : Nat) (h : off + len ≤ buf.length) 
    (hi : i + 8 ≤ len) :
    ∃ r, dashAfterEnd buf off len (off + i) = .ok r ∧ findAll [dashStr] ((win buf off len).drop (i + 8)) r := by
  unfold dashAfterEnd
  rcases memStr_rest buf dashStr off len (i + 8) h hi nd (off + i + 8) (by omega) with
    ⟨k, k'⟩ | ⟨j, k, hb, k'⟩
  · rw [k]; exact ⟨false, rfl, findAll_stop k'⟩
  · rw [k]; exact ⟨true, rfl, findAll_step k' (by unfold findAll; rfl)⟩

theorem endAfterDash_spec (buf : List Byte) (off len i : Nat) (h : off + len ≤ buf.length) 
    (hi : i + 5 ≤ len) :
    ∃ r, endAfterDash buf off len (off + i) = .ok r ∧
      findAll [endStr, dashStr] ((win buf off len).drop (i + 5)) r := by
  unfold endAfterDash
  rcases memStr_rest buf endStr off len (i + 5) h hi ne' (off + i + 5) (by omega) with
    ⟨k, k'⟩ | ⟨j, k, hb, k'⟩
  · rw [k]; exact ⟨false, rfl, findAll_stop k'⟩
  · rw [k]
    rw [le'] at hb
    obtain ⟨r, h1, h2⟩ := dashAfterEnd_spec buf off len (i + 5 + j) h hb
    refine ⟨r, h1, findAll_step k' ?_⟩
    rw [List.drop_drop, le', ← Nat.add_assoc]
    exact h2

theorem dashAfterBegin_spec (buf : List Byte) (off len i : Nat) (h : off + len ≤ buf.length)
     (hi : i + 10 ≤ len) :
    ∃ r, dashAfterBegin buf off len (off + i) = .ok r ∧
      findAll [dashStr, endStr, dashStr] ((win buf off len).drop (i + 10)) r := by
  unfold dashAfterBegin
  rcases memStr_rest buf dashStr off len (i + 10) h hi nd (off + i + 10) (by omega) with
    ⟨k, k'⟩ | ⟨j, k, hb, k'⟩
  · rw [k]; exact ⟨false, rfl, findAll_stop k'⟩
  · rw [k]
    rw [ld] at hb
    obtain ⟨r, h1, h2⟩ := endAfterDash_spec buf off len (i + 10 + j) h hb
    refine ⟨r, h1, findAll_step k' ?_⟩
    rw [List.drop_drop, ld, ← Nat.add_assoc]
    exact h2

theorem isPemFormat_findAll (buf : List Byte) (off len : Nat) (h : off + len ≤ buf.length)
     (h28 : ¬ len < 10 + 8 + 2 * 5) :
    ∃ r, isPemFormat buf off len = .ok r ∧ findAll [beginStr, dashStr, endStr, dashStr] (win buf off len) r := by
  unfold isPemFormat
  rw [if_neg h28]
  rcases memStr_spec buf beginStr off len h nb with ⟨g, g'⟩ | ⟨i, g, g'⟩
  · rw [g]; exact ⟨false, rfl, findAll_stop g'⟩
  · rw [g]
    have hb1 := prefix_len g'.1 nb
    rw [win_length h, lb] at hb1
    obtain ⟨r, h1, h2⟩ := dashAfterBegin_spec buf off len i h hb1
    refine ⟨r, h1, findAll_step g' ?_⟩
    rw [lb]
    exact h2

theorem isPemFormat_spec (buf : List Byte) (off len : Nat) (h : off + len ≤ buf.length)  :
    ∃ r, isPemFormat buf off len = .ok r ∧ (r = true ↔ Spec.IsPem (win buf off len)) := by
  by_cases h28 : len < 10 + 8 + 2 * 5
  · refine ⟨false, by unfold isPemFormat; rw [if_pos h28], ?_⟩
    simp only [Bool.false_eq_true, false_iff]
    intro hp
    have hne : ∀ n ∈ [beginStr, dashStr, endStr, dashStr], n ≠ [] := by
      simp only [List.mem_cons, List.not_mem_nil, or_false]
      rintro n (rfl | rfl | rfl | rfl)
      · exact nb
      · exact nd
      · exact ne'
      · exact nd
    have hs := pieces_length _ _ hne ((isPem_pieces _).mpr hp)
    rw [win_length h] at hs
    simp only [List.map_cons, List.map_nil, List.sum_cons, List.sum_nil, lb, ld, le'] at hs
    omega
  · obtain ⟨r, h1, h2⟩ := isPemFormat_findAll buf off len h h28
    exact ⟨r, h1, by rw [findAll_pieces _ _ _ h2, isPem_pieces]⟩

end Verif.Bsl.Pem
