import Verif.Tls.Reass.Model
import Verif.Tls.Reass.Spec
/-! # Bitmap and buffer lemmas for DTLS reassembly -/
namespace Verif.Tls.Reass
open Verif.Common

theorem sub32_of_le {a b : Nat} (h : b ≤ a) (ha : a < 2 ^ 32) : sub32 a b = a - b := by
  unfold sub32; omega

/-- Bit `j` of a bitmap. -/
def bit (m : List Byte) (j : Nat) : Bool :=
  match m[j / 8]? with
  | some b => b.getLsbD (j % 8)
  | none => false

theorem writeAt_some {buf data : List Byte} {off : Nat} (h : off + data.length ≤ buf.length) :
    ∃ buf', writeAt buf off data = some buf' ∧ buf'.length = buf.length ∧
      ∀ i, buf'[i]? = if off ≤ i ∧ i < off + data.length then data[i - off]? else buf[i]? := by
  refine ⟨_, by unfold writeAt; rw [if_pos h], ?_, ?_⟩
  · simp only [List.length_append, List.length_take, List.length_drop]; omega
  · intro i
    by_cases h1 : i < off
    · rw [if_neg (by omega), List.append_assoc, List.getElem?_append_left (by simp; omega),
        List.getElem?_take, if_pos h1]
    · by_cases h2 : i < off + data.length
      · rw [if_pos (by omega), List.append_assoc, List.getElem?_append_right (by simp; omega),
          List.getElem?_append_left (by simp; omega)]
        congr 1; simp; omega
      · rw [if_neg (by omega), List.getElem?_append_right (by simp; omega), List.getElem?_drop]
        congr 1; simp; omega

theorem orAt_some {buf : List Byte} {k : Nat} (v : Byte) (h : k < buf.length) :
    ∃ buf', orAt buf k v = some buf' ∧ buf'.length = buf.length ∧
      ∀ j, bit buf' j = (bit buf j || (decide (j / 8 = k) && v.getLsbD (j % 8))) := by
  refine ⟨buf.set k (buf[k] ||| v), ?_, by simp, ?_⟩
  · unfold orAt; rw [List.getElem?_eq_getElem h]
  · intro j
    unfold bit
    by_cases hj : j / 8 = k
    · subst hj
      simp [h]
    · rw [List.getElem?_set_ne (by omega)]
      simp [hj]

theorem setBits_some : ∀ (n : Nat) (m : List Byte) (i : Nat), (i + n ≤ 8 * m.length) →
    ∃ m', setBits m i n = some m' ∧ m'.length = m.length ∧
      ∀ j, bit m' j = (bit m j || decide (i ≤ j ∧ j < i + n))
  | 0, m, i, _ => ⟨m, rfl, rfl, fun j => by
      rw [decide_eq_false (by omega), Bool.or_false]⟩
  | n + 1, m, i, h => by
    obtain ⟨m1, h1, hl1, hb1⟩ := orAt_some (buf := m) (k := i / 8) (1#8 <<< (i % 8)) (by omega)
    obtain ⟨m2, h2, hl2, hb2⟩ := setBits_some n m1 (i + 1) (by omega)
    refine ⟨m2, by simp only [setBits, h1, h2], by omega, fun j => ?_⟩
    rw [hb2, hb1, Bool.or_assoc]
    congr 1
    have hkey : (decide (j / 8 = i / 8) && (1#8 <<< (i % 8)).getLsbD (j % 8)) = decide (j = i) := by
      by_cases hj : j / 8 = i / 8
      · simp only [hj, decide_true, Bool.true_and]
        have hlt : i % 8 < 8 := by omega
        have hlt' : j % 8 < 8 := by omega
        have : ∀ a < 8, ∀ b < 8, (1#8 <<< a).getLsbD b = decide (b = a) := by decide
        rw [this _ hlt _ hlt']
        apply decide_eq_decide.2; omega
      · have : j ≠ i := by intro hc; subst hc; exact hj rfl
        simp [hj, this]
    rw [hkey]
    by_cases hji : j = i
    · subst hji
      have : (j ≤ j ∧ j < j + (n + 1)) := by omega
      simp [this]
    · rw [decide_eq_false hji, Bool.false_or]
      apply decide_eq_decide.2; omega

theorem startMask_spec : ∀ a < 8, ∃ s, startMask[a]? = some s ∧ ∀ b < 8, s.getLsbD b = decide (a ≤ b) := by
  intro a ha
  have : a = 0 ∨ a = 1 ∨ a = 2 ∨ a = 3 ∨ a = 4 ∨ a = 5 ∨ a = 6 ∨ a = 7 := by omega
  rcases this with h | h | h | h | h | h | h | h <;> subst h <;> exact ⟨_, rfl, by decide⟩

theorem endMask_spec : ∀ a < 8, ∃ s, endMask[a]? = some s ∧ ∀ b < 8, s.getLsbD b = decide (b ≤ a) := by
  intro a ha
  have : a = 0 ∨ a = 1 ∨ a = 2 ∨ a = 3 ∨ a = 4 ∨ a = 5 ∨ a = 6 ∨ a = 7 := by omega
  rcases this with h | h | h | h | h | h | h | h <;> subst h <;> exact ⟨_, rfl, by decide⟩

theorem range_arith {off fin j e : Nat} (h8 : off + 8 ≤ fin) (hc : ¬ (off / 8 + 1 ≤ j / 8 ∧ j / 8 < fin / 8))
    (he : e = fin + 1) :
    ((j / 8 = off / 8 ∧ off % 8 ≤ j % 8) ∨ (j / 8 = fin / 8 ∧ j % 8 ≤ fin % 8)) ↔ (off ≤ j ∧ j < e) := by
  subst he
  constructor
  · rintro (⟨h1, h2⟩ | ⟨h1, h2⟩)
    · constructor <;> omega
    · constructor <;> omega
  · rintro ⟨h1, h2⟩
    by_cases hk : j / 8 = off / 8
    · left; constructor <;> omega
    · right
      have : fin / 8 ≤ j / 8 := by
        apply Nat.le_of_not_lt; intro hlt; apply hc; constructor <;> omega
      constructor <;> omega

/-- `SetReassBitMap` sets exactly the bits of the fragment and stays inside the bitmap. -/
theorem setReassBitMap_spec {m : List Byte} {off len : Nat} (h0 : 0 < len) (h : off + len ≤ 8 * m.length)
    (h32 : off + len < 2 ^ 32) :
    ∃ m', setReassBitMap m off len = some m' ∧ m'.length = m.length ∧
      ∀ j, bit m' j = (bit m j || decide (off ≤ j ∧ j < off + len)) := by
  have e1 : sub32 (off + len) 1 = off + len - 1 := sub32_of_le (by omega) h32
  have e2 : sub32 (off + len - 1) off = len - 1 := by rw [sub32_of_le (by omega) (by omega)]; omega
  unfold setReassBitMap
  simp only [e1, e2]
  by_cases h8 : len - 1 < 8
  · rw [if_pos h8]
    have : len - 1 + 1 = len := by omega
    rw [this]
    exact setBits_some len m off h
  · rw [if_neg h8]
    obtain ⟨fin, hfin⟩ : ∃ x, off + len - 1 = x := ⟨_, rfl⟩
    rw [hfin]
    have hend : off + len = fin + 1 := by omega
    have h8' : off + 8 ≤ fin := by omega
    rw [hend] at h h32 ⊢
    clear h8 h0 e1 e2 hfin hend
    obtain ⟨sm, hsm, hsb⟩ := startMask_spec (off % 8) (Nat.mod_lt _ (by decide))
    obtain ⟨em, hem, heb⟩ := endMask_spec (fin % 8) (Nat.mod_lt _ (by decide))
    rw [hsm, hem]
    simp only
    have hso : off / 8 + 1 ≤ fin / 8 := by omega
    have heo : fin / 8 < m.length := by omega
    have heo32 : fin / 8 < 2 ^ 32 := by omega
    have e3 : sub32 (fin / 8) (off / 8) = fin / 8 - off / 8 := sub32_of_le (by omega) heo32
    have e4 : sub32 (fin / 8 - off / 8) 1 = fin / 8 - off / 8 - 1 := sub32_of_le (by omega) (by omega)
    rw [e3, e4]
    have hfinal : ∀ j, ¬ (off / 8 + 1 ≤ j / 8 ∧ j / 8 < fin / 8) →
      (((j / 8 = off / 8 ∧ off % 8 ≤ j % 8) ∨ (j / 8 = fin / 8 ∧ j % 8 ≤ fin % 8)) ↔ (off ≤ j ∧ j < fin + 1)) :=
      fun j hc => range_arith h8' hc rfl
    have hmid : ∀ j, (off / 8 + 1 ≤ j / 8 ∧ j / 8 < fin / 8) → off ≤ j ∧ j < fin + 1 := by
      intro j hj; constructor <;> omega
    clear e3 e4 h h32 h8' heo32
    revert hsb heb hso heo hfinal hmid
    generalize off / 8 = so
    generalize fin / 8 = eo
    generalize off % 8 = sr
    generalize fin % 8 = er
    intro hsb heb hso heo hfinal hmid
    obtain ⟨m1, h1, hl1, hb1⟩ := orAt_some (buf := m) (k := so) sm (by omega)
    rw [h1]
    simp only
    obtain ⟨m2, h2, hl2, hb2⟩ := writeAt_some (buf := m1) (off := so + 1)
      (data := List.replicate (eo - so - 1) 0xFF#8) (by rw [List.length_replicate]; omega)
    rw [h2]
    simp only
    obtain ⟨m3, h3, hl3, hb3⟩ := orAt_some (buf := m2) (k := eo) em (by omega)
    refine ⟨m3, h3, by omega, fun j => ?_⟩
    have hr : j % 8 < 8 := Nat.mod_lt _ (by decide)
    rw [hb3, heb _ hr]
    have hm2 : bit m2 j = if so + 1 ≤ j / 8 ∧ j / 8 < eo then true else bit m1 j := by
      have hff : ∀ b < 8, (0xFF#8).getLsbD b = true := by decide
      unfold bit
      rw [hb2]
      simp only [List.length_replicate]
      by_cases hc : so + 1 ≤ j / 8 ∧ j / 8 < eo
      · rw [if_pos hc, if_pos ⟨hc.1, by omega⟩, List.getElem?_replicate, if_pos (by omega)]
        simp only
        exact hff _ hr
      · rw [if_neg hc, if_neg (by intro hx; apply hc; exact ⟨hx.1, by omega⟩)]
    rw [hm2, hb1, hsb _ hr]
    by_cases hc : so + 1 ≤ j / 8 ∧ j / 8 < eo
    · rw [if_pos hc, decide_eq_true (hmid j hc)]; simp
    · rw [if_neg hc, Bool.or_assoc]
      congr 1
      rw [← Bool.decide_and, ← Bool.decide_and, ← Bool.decide_or]
      exact decide_eq_decide.2 (hfinal j hc)

theorem byte_ext {a b : Byte} (h : ∀ i < 8, a.getLsbD i = b.getLsbD i) : a = b :=
  BitVec.eq_of_getLsbD_eq (fun i hi => h i hi)

/-- `IsReassComplete` tests that every bit of the message is set. -/
theorem isReassComplete_spec {m : List Byte} {n : Nat} (h0 : 0 < n) (hn : n < 2 ^ 32) (hl : m.length = (n + 7) / 8)
    (hhi : ∀ j, n ≤ j → bit m j = false) :
    ∃ b, isReassComplete m n = some b ∧ (b = true ↔ ∀ j < n, bit m j = true) := by
  have e1 : sub32 n 1 = n - 1 := sub32_of_le (by omega) hn
  obtain ⟨em, hem, heb⟩ := endMask_spec ((n - 1) % 8) (by omega)
  have hk : (n - 1) / 8 < m.length := by omega
  have hlast : ∀ b < 8, bit m (8 * ((n - 1) / 8) + b) = (m[(n - 1) / 8]).getLsbD b := by
    intro b hb
    unfold bit
    have : (8 * ((n - 1) / 8) + b) / 8 = (n - 1) / 8 := by omega
    have e' : (8 * ((n - 1) / 8) + b) % 8 = b := by omega
    rw [this, e', List.getElem?_eq_getElem hk]
  unfold isReassComplete
  simp only [e1, hem, List.getElem?_eq_getElem hk]
  by_cases hc : m[(n - 1) / 8] ≠ em
  · rw [if_pos hc]
    refine ⟨false, rfl, by simp, fun hall => ?_⟩
    exfalso; apply hc
    apply byte_ext
    intro i hi
    rw [← hlast i hi, heb i hi]
    by_cases hi2 : 8 * ((n - 1) / 8) + i < n
    · rw [hall _ hi2]; symm; apply decide_eq_true; omega
    · rw [hhi _ (by omega)]; symm; apply decide_eq_false; omega
  · rw [if_neg hc]
    have hc : m[(n - 1) / 8] = em := Decidable.not_not.1 hc
    refine ⟨_, rfl, ?_⟩
    rw [List.all_eq_true]
    constructor
    · intro hall j hj
      by_cases hj2 : j / 8 = (n - 1) / 8
      · have := hlast (j % 8) (by omega)
        rw [hc, heb _ (by omega)] at this
        have e : 8 * ((n - 1) / 8) + j % 8 = j := by omega
        rw [e] at this
        rw [this]; apply decide_eq_true; omega
      · have hlt : j / 8 < (n - 1) / 8 := by omega
        have hmem : m[j / 8]'(by omega) ∈ m.take ((n - 1) / 8) := by
          rw [List.mem_take_iff_getElem]
          exact ⟨j / 8, by omega, rfl⟩
        have := hall _ hmem
        have hff : ∀ b < 8, (0xFF#8).getLsbD b = true := by decide
        unfold bit
        rw [List.getElem?_eq_getElem (by omega)]
        simp only
        rw [beq_iff_eq.1 this]
        exact hff _ (by omega)
    · intro hall x hx
      rw [List.mem_take_iff_getElem] at hx
      obtain ⟨i, hi, rfl⟩ := hx
      rw [beq_iff_eq]
      apply byte_ext
      intro b hb
      have hff : ∀ b < 8, (0xFF#8).getLsbD b = true := by decide
      rw [hff b hb]
      have := hall (8 * i + b) (by omega)
      unfold bit at this
      have e : (8 * i + b) / 8 = i := by omega
      have e' : (8 * i + b) % 8 = b := by omega
      rw [e, e', List.getElem?_eq_getElem (by omega)] at this
      exact this

end Verif.Tls.Reass
