import Verif.Tls.AntiReplay.Model
/-! Helper lemmas for the anti-replay window. -/
namespace Verif.Tls.AntiReplay

/-- Invariant linking a window to the list of sequence numbers recorded since the last reset. -/
structure Inv (w : Window) (hist : List (BitVec 64)) : Prop where
  le_top : ∀ s ∈ hist, s.toNat ≤ w.top.toNat
  top_mem : hist ≠ [] → w.top ∈ hist
  empty : hist = [] → w = reset
  bits : ∀ i : Nat, i < 64 →
    (w.window.getLsbD i = true ↔ ∃ s ∈ hist, s.toNat + i = w.top.toNat)

theorem inv_reset : Inv reset [] := by
  constructor <;> simp [reset]

theorem getLsbD_one_shl (b i : Nat) : (1#64 <<< b).getLsbD i = (decide (i < 64) && decide (i = b)) := by
  rw [BitVec.getLsbD_shiftLeft]
  by_cases h : i < b
  · have : i ≠ b := by omega
    simp [h, this]
  · by_cases h2 : i = b
    · subst h2; simp
    · have h3 : i - b ≠ 0 := by omega
      have : (1#64).getLsbD (i - b) = false := by
        rw [BitVec.getLsbD_one]; simp [h3]
      simp [this, h2]

theorem and_one_shl_ne_zero (x : BitVec 64) (b : Nat) (hb : b < 64) :
    ((x &&& (1#64 <<< b)) != 0#64) = x.getLsbD b := by
  by_cases h : x.getLsbD b = true
  · rw [h]
    simp only [bne_iff_ne, ne_eq]
    intro hc
    have := congrArg (fun y => y.getLsbD b) hc
    simp only [BitVec.getLsbD_and, getLsbD_one_shl, h] at this
    simp [hb] at this
  · have h' : x.getLsbD b = false := by simpa using h
    rw [h']
    simp only [bne_eq_false_iff_eq]
    apply BitVec.eq_of_getLsbD_eq
    intro i hi
    rw [BitVec.getLsbD_and, getLsbD_one_shl]
    by_cases hib : i = b
    · subst hib; simp [h']
    · simp [hib]

theorem check_iff {w : Window} {hist : List (BitVec 64)} (h : Inv w hist) (seq : BitVec 64) :
    check w seq = true ↔ seq ∈ hist ∨ ∃ s ∈ hist, seq.toNat + 64 ≤ s.toNat := by
  unfold check windowSize
  by_cases hgt : w.top < seq
  · rw [if_pos hgt]
    have hgt' : w.top.toNat < seq.toNat := hgt
    constructor
    · simp
    · rintro (hm | ⟨s, hs, hle⟩)
      · have := h.le_top _ hm; omega
      · have := h.le_top _ hs; omega
  · rw [if_neg hgt]
    have hle : seq.toNat ≤ w.top.toNat := by
      have : ¬ w.top.toNat < seq.toNat := hgt
      omega
    have hsub : (w.top - seq).toNat = w.top.toNat - seq.toNat := by
      rw [BitVec.toNat_sub_of_le (by exact hle)]
    by_cases hbig : 64#64 ≤ w.top - seq
    · simp only [if_pos hbig]
      have hbig' : 64 ≤ (w.top - seq).toNat := by simpa [BitVec.le_def] using hbig
      simp only [true_iff]
      right
      by_cases hne : hist = []
      · have := h.empty hne
        subst this
        have h0 : (reset.top).toNat = 0 := rfl
        omega
      · exact ⟨w.top, h.top_mem hne, by omega⟩
    · simp only [if_neg hbig]
      have hsmall : (w.top - seq).toNat < 64 := by
        have : ¬ 64 ≤ (w.top - seq).toNat := by simpa [BitVec.le_def] using hbig
        omega
      rw [BitVec.shiftLeft_eq', and_one_shl_ne_zero _ _ hsmall, h.bits _ hsmall]
      constructor
      · rintro ⟨s, hs, he⟩
        left
        have : s = seq := by apply BitVec.eq_of_toNat_eq; omega
        exact this ▸ hs
      · rintro (hm | ⟨s, hs, hl⟩)
        · exact ⟨seq, hm, by omega⟩
        · have := h.le_top _ hs; omega

theorem inv_update {w : Window} {hist : List (BitVec 64)} (h : Inv w hist) (seq : BitVec 64)
    (hb : seq.toNat + 64 < 2 ^ 64) (hnew : check w seq = false) :
    Inv (update w seq) (seq :: hist) := by
  have hchk : ¬ (check w seq = true) := by simp [hnew]
  rw [check_iff h] at hchk
  have hadd : (seq + 64#64).toNat = seq.toNat + 64 := by
    rw [BitVec.toNat_add]; simp; omega
  unfold update windowSize
  by_cases hold : seq + 64#64 ≤ w.top
  · exfalso
    have hold' : seq.toNat + 64 ≤ w.top.toNat := by
      have : (seq + 64#64).toNat ≤ w.top.toNat := hold
      omega
    apply hchk
    right
    by_cases hne : hist = []
    · have := h.empty hne
      subst this
      simp [reset] at hold'
    · exact ⟨w.top, h.top_mem hne, hold'⟩
  · rw [if_neg hold]
    by_cases hle : seq ≤ w.top
    · rw [if_pos hle]
      have hle' : seq.toNat ≤ w.top.toNat := hle
      have hsub : (w.top - seq).toNat = w.top.toNat - seq.toNat := by
        rw [BitVec.toNat_sub_of_le hle]
      refine ⟨?_, ?_, ?_, ?_⟩
      · intro s hs
        rcases List.mem_cons.mp hs with rfl | hs
        · exact hle'
        · exact h.le_top s hs
      · intro _
        by_cases hne : hist = []
        · have := h.empty hne
          subst this
          have : seq = 0#64 := by apply BitVec.eq_of_toNat_eq; simpa [reset] using hle'
          simp [reset, this]
        · exact List.mem_cons_of_mem _ (h.top_mem hne)
      · simp
      · intro i hi
        simp only [BitVec.shiftLeft_eq', BitVec.getLsbD_or, getLsbD_one_shl, Bool.or_eq_true,
          Bool.and_eq_true, decide_eq_true_eq, h.bits i hi, List.mem_cons]
        constructor
        · rintro (⟨s, hs, he⟩ | ⟨_, he⟩)
          · exact ⟨s, Or.inr hs, he⟩
          · exact ⟨seq, Or.inl rfl, by omega⟩
        · rintro ⟨s, rfl | hs, he⟩
          · right; exact ⟨hi, by omega⟩
          · left; exact ⟨s, hs, he⟩
    · rw [if_neg hle]
      have hlt : w.top.toNat < seq.toNat := by
        have : ¬ seq.toNat ≤ w.top.toNat := hle
        omega
      have hsub : (seq - w.top).toNat = seq.toNat - w.top.toNat := by
        rw [BitVec.toNat_sub_of_le]; simp only [BitVec.le_def]; omega
      have hone : ∀ i, (1#64).getLsbD i = decide (i = 0) := by
        intro i; rw [BitVec.getLsbD_one]; simp
      by_cases hbig : 64#64 ≤ seq - w.top
      · simp only [if_pos hbig]
        have hbig' : 64 ≤ (seq - w.top).toNat := by simpa [BitVec.le_def] using hbig
        refine ⟨?_, by simp, by simp, ?_⟩
        · intro s hs
          rcases List.mem_cons.mp hs with rfl | hs
          · exact Nat.le_refl _
          · have := h.le_top s hs; simp only; omega
        · intro i hi
          simp only [hone, decide_eq_true_eq, List.mem_cons]
          constructor
          · rintro rfl; exact ⟨seq, Or.inl rfl, by simp⟩
          · rintro ⟨s, rfl | hs, he⟩
            · omega
            · have := h.le_top s hs; omega
      · simp only [if_neg hbig]
        have hsm : (seq - w.top).toNat < 64 := by
          have : ¬ 64 ≤ (seq - w.top).toNat := by simpa [BitVec.le_def] using hbig
          omega
        refine ⟨?_, by simp, by simp, ?_⟩
        · intro s hs
          rcases List.mem_cons.mp hs with rfl | hs
          · exact Nat.le_refl _
          · have := h.le_top s hs; simp only; omega
        · intro i hi
          simp only [BitVec.shiftLeft_eq', BitVec.getLsbD_or, BitVec.getLsbD_shiftLeft, hone,
            Bool.or_eq_true, Bool.and_eq_true, decide_eq_true_eq, Bool.not_eq_true',
            decide_eq_false_iff_not, List.mem_cons]
          constructor
          · rintro (⟨⟨_, hge⟩, hbit⟩ | rfl)
            · obtain ⟨s, hs, he⟩ := (h.bits _ (by omega)).mp hbit
              exact ⟨s, Or.inr hs, by omega⟩
            · exact ⟨seq, Or.inl rfl, by simp⟩
          · rintro ⟨s, rfl | hs, he⟩
            · right; omega
            · left
              have := h.le_top s hs
              refine ⟨⟨hi, by omega⟩, (h.bits _ (by omega)).mpr ⟨s, hs, by omega⟩⟩

end Verif.Tls.AntiReplay
