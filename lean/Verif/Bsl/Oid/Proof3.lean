import Verif.Bsl.Oid.Proof2
/-!
# Object identifiers: the table and the registry
-/
namespace Verif.Bsl.Oid
open Verif.Common

/-- The rows are in increasing order of `cid`. -/
def Sorted (table : List Info) : Prop := ∀ (i j : Nat) (a b : Info), i < j → table[i]? = some a → table[j]? = some b → a.cid < b.cid

/-- A check of neighbours only. -/
def sortedCheck : List Info → Bool
  | [] => true
  | [_] => true
  | a :: b :: r => decide (a.cid < b.cid) && sortedCheck (b :: r)

theorem sortedCheck_sound (t : List Info) (h : sortedCheck t = true) : Sorted t := by
  have hmin : ∀ (r : List Info) (a : Info), sortedCheck (a :: r) = true → ∀ (j : Nat) (b : Info), r[j]? = some b → a.cid < b.cid := by
    intro r
    induction r with
    | nil => intro a _ j b hj; simp at hj
    | cons c r ih =>
      intro a h j b hj
      rw [sortedCheck, Bool.and_eq_true, decide_eq_true_eq] at h
      cases j with
      | zero =>
        have : c = b := by simpa using hj
        rw [← this]; exact h.1
      | succ j => exact Nat.lt_trans h.1 (ih c h.2 j b (by simpa using hj))
  induction t with
  | nil => intro i j a b _ hi; simp at hi
  | cons c r ih =>
    intro i j a b hij hi hj
    cases j with
    | zero => omega
    | succ j =>
      rw [List.getElem?_cons_succ] at hj
      cases i with
      | zero =>
        have : c = a := by simpa using hi
        rw [← this]; exact hmin r c h j b hj
      | succ i =>
        rw [List.getElem?_cons_succ] at hi
        refine ih ?_ i j a b (by omega) hi hj
        cases r with
        | nil => rfl
        | cons d r => rw [sortedCheck, Bool.and_eq_true] at h; exact h.2

theorem indexLoop_spec (t : List Info) (hs : Sorted t) (cid fuel lo hi : Nat) (hh : hi ≤ t.length) (hf : hi ≤ fuel + lo)
    (hlo : ∀ (i : Nat) e, i < lo → t[i]? = some e → e.cid < cid) (hhi : ∀ (i : Nat) e, hi ≤ i → t[i]? = some e → cid < e.cid) :
    (indexLoop t cid fuel lo hi = .ok none ∧ ∀ e ∈ t, e.cid ≠ cid) ∨
    ∃ i e, indexLoop t cid fuel lo hi = .ok (some i) ∧ t[i]? = some e ∧ e.cid = cid := by
  have hnone : hi ≤ lo → ∀ e ∈ t, e.cid ≠ cid := by
    intro h e he hc
    obtain ⟨i, hi', hie⟩ := List.mem_iff_getElem.mp he
    have hg : t[i]? = some e := by rw [List.getElem?_eq_getElem hi', hie]
    by_cases h1 : i < lo
    · have := hlo i e h1 hg; omega
    · have := hhi i e (by omega) hg; omega
  induction fuel generalizing lo hi with
  | zero => exact Or.inl ⟨rfl, hnone (by omega)⟩
  | succ fuel ih =>
    rw [indexLoop]
    by_cases h1 : lo < hi
    · rw [if_pos h1]
      simp only
      have hmid : (hi - 1 - lo) / 2 + lo < hi := by omega
      generalize hm : (hi - 1 - lo) / 2 + lo = mid at hmid ⊢
      have hge : lo ≤ mid := by omega
      have hg : t[mid]? = some t[mid] := List.getElem?_eq_getElem (by omega)
      rw [hg]
      simp only
      by_cases h2 : t[mid].cid = cid
      · rw [if_pos h2]
        exact Or.inr ⟨mid, _, rfl, hg, h2⟩
      · rw [if_neg h2]
        by_cases h3 : t[mid].cid > cid
        · rw [if_pos h3]
          have hhi' : ∀ (i : Nat) e, mid ≤ i → t[i]? = some e → cid < e.cid := by
            intro i e hi' he
            rcases Nat.eq_or_lt_of_le hi' with h4 | h4
            · subst h4; rw [hg] at he; cases he; exact h3
            · have := hs mid i _ _ h4 hg he; omega
          refine ih lo mid (by omega) (by omega) hlo hhi' ?_
          intro h e he hc
          obtain ⟨i, hi', hie⟩ := List.mem_iff_getElem.mp he
          have hg' : t[i]? = some e := by rw [List.getElem?_eq_getElem hi', hie]
          by_cases h5 : i < lo
          · have := hlo i e h5 hg'; omega
          · have := hhi' i e (by omega) hg'; omega
        · rw [if_neg h3]
          have hlo' : ∀ (i : Nat) e, i < mid + 1 → t[i]? = some e → e.cid < cid := by
            intro i e hi' he
            rcases Nat.eq_or_lt_of_le (Nat.le_of_lt_succ hi') with h4 | h4
            · subst h4; rw [hg] at he; cases he; omega
            · have := hs i mid _ _ h4 he hg; omega
          refine ih (mid + 1) hi (by omega) (by omega) hlo' hhi ?_
          intro h e he hc
          obtain ⟨i, hi', hie⟩ := List.mem_iff_getElem.mp he
          have hg' : t[i]? = some e := by rw [List.getElem?_eq_getElem hi', hie]
          by_cases h5 : i < mid + 1
          · have := hlo' i e h5 hg'; omega
          · have := hhi i e (by omega) hg'; omega
    · rw [if_neg h1]
      exact Or.inl ⟨rfl, hnone (by omega)⟩

theorem getOidIndex_spec (t : List Info) (hs : Sorted t) (cid : Nat) :
    (getOidIndex t cid = .ok none ∧ ∀ e ∈ t, e.cid ≠ cid) ∨
    ∃ i e, getOidIndex t cid = .ok (some i) ∧ t[i]? = some e ∧ e.cid = cid :=
  indexLoop_spec t hs cid t.length 0 t.length (Nat.le_refl _) (by omega) (by omega)
    (fun i e h he => by rw [List.getElem?_eq_none (by omega)] at he; cases he)

theorem sorted_unique {t : List Info} (hs : Sorted t) {a b : Info} (ha : a ∈ t) (hb : b ∈ t) (h : a.cid = b.cid) :
    a = b := by
  obtain ⟨i, hi, rfl⟩ := List.mem_iff_getElem.mp ha
  obtain ⟨j, hj, rfl⟩ := List.mem_iff_getElem.mp hb
  have gi : t[i]? = some t[i] := List.getElem?_eq_getElem hi
  have gj : t[j]? = some t[j] := List.getElem?_eq_getElem hj
  rcases Nat.lt_trichotomy i j with h1 | h1 | h1
  · have := hs i j _ _ h1 gi gj; omega
  · subst h1; rfl
  · have := hs j i _ _ h1 gj gi; omega

theorem table_sorted : Sorted oidTable := sortedCheck_sound _ (by decide +kernel)

/-- No two rows with the same octets. -/
def distinctOcts : List Info → Bool
  | [] => true
  | a :: r => r.all (fun b => !(decide (a.octs = b.octs))) && distinctOcts r

theorem distinctOcts_sound (t : List Info) (h : distinctOcts t = true) {a b : Info} (ha : a ∈ t) (hb : b ∈ t)
    (hab : a.octs = b.octs) : a = b := by
  induction t with
  | nil => cases ha
  | cons c r ih =>
    rw [distinctOcts, Bool.and_eq_true, List.all_eq_true] at h
    have hc : ∀ x ∈ r, c.octs ≠ x.octs := by
      intro x hx hh
      have := h.1 x hx
      rw [hh] at this
      simp at this
    rcases List.mem_cons.mp ha with ea | ha'
    · rcases List.mem_cons.mp hb with eb | hb'
      · rw [ea, eb]
      · exact absurd (ea ▸ hab) (hc b hb')
    · rcases List.mem_cons.mp hb with eb | hb'
      · exact absurd (eb ▸ hab).symm (hc a ha')
      · exact ih h.2 ha' hb'

theorem table_distinct : distinctOcts oidTable = true := by decide +kernel

theorem findOid_some {oid : List Nat} {t : List Info} {e : Info} (h : findOid oid t = some e) :
    e ∈ t ∧ e.octs = oid := by
  induction t with
  | nil => cases h
  | cons a r ih =>
    rw [findOid] at h
    split at h
    · rename_i h1
      cases h
      exact ⟨List.mem_cons_self, h1.2⟩
    · obtain ⟨h1, h2⟩ := ih h
      exact ⟨List.mem_cons_of_mem _ h1, h2⟩

theorem findOid_none {oid : List Nat} {t : List Info} (h : findOid oid t = none) : ∀ e ∈ t, e.octs ≠ oid := by
  induction t with
  | nil => intro e he; cases he
  | cons a r ih =>
    rw [findOid] at h
    split at h
    · cases h
    · rename_i h1
      intro e he hh
      rcases List.mem_cons.mp he with rfl | he
      · exact h1 ⟨by rw [hh], hh⟩
      · exact ih h e he hh

theorem findCid_some {cid : Nat} {t : List Info} {e : Info} (h : findCid cid t = some e) : e ∈ t ∧ e.cid = cid := by
  induction t with
  | nil => cases h
  | cons a r ih =>
    rw [findCid] at h
    split at h
    · rename_i h1
      cases h
      exact ⟨List.mem_cons_self, h1⟩
    · obtain ⟨h1, h2⟩ := ih h
      exact ⟨List.mem_cons_of_mem _ h1, h2⟩

theorem findCid_none {cid : Nat} {t : List Info} (h : findCid cid t = none) : ∀ e ∈ t, e.cid ≠ cid := by
  induction t with
  | nil => intro e he; cases he
  | cons a r ih =>
    rw [findCid] at h
    split at h
    · cases h
    · rename_i h1
      intro e he hh
      rcases List.mem_cons.mp he with rfl | he
      · exact h1 hh
      · exact ih h e he hh

theorem table_nonzero : ∀ e ∈ oidTable, e.cid ≠ 0 ∧ e.octs ≠ [] := by
  have : oidTable.all (fun e => decide (e.cid ≠ 0 ∧ e.octs ≠ [])) = true := by decide +kernel
  intro e he
  exact of_decide_eq_true (List.all_eq_true.mp this e he)

/-- What every history of registrations maintains. -/
structure Good (reg : Registry) : Prop where
  unique : ∀ a ∈ reg, ∀ b ∈ reg, a.cid = b.cid → a = b
  fresh : ∀ a ∈ reg, ∀ b ∈ oidTable, a.cid ≠ b.cid
  ok : ∀ a ∈ reg, a.cid ≠ 0 ∧ a.octs ≠ []

theorem mem_place {reg : Registry} {n : Nat} {x a : Info} :
    a ∈ reg.take n ++ x :: reg.drop n ↔ a = x ∨ a ∈ reg := by
  constructor
  · intro h
    rcases List.mem_append.mp h with h | h
    · exact Or.inr (List.mem_of_mem_take h)
    · rcases List.mem_cons.mp h with h | h
      · exact Or.inl h
      · exact Or.inr (List.mem_of_mem_drop h)
  · rintro (h | h)
    · subst h; simp
    · rw [← List.take_append_drop n reg] at h
      rcases List.mem_append.mp h with h | h
      · exact List.mem_append_left _ h
      · exact List.mem_append_right _ (List.mem_cons_of_mem _ h)

theorem create_good (p : Nat) (reg : Registry) (o : List Nat) (n : String) (c : Nat) (h : Good reg) :
    Good (create p reg o n c).2 := by
  unfold create
  split
  · exact h
  rename_i h0
  split
  · exact h
  rename_i h1
  split
  · exact h
  rename_i h2
  have e1 : findCid c oidTable = none := by simpa using h1
  have e2 : findCid c reg = none := by simpa using h2
  refine ⟨?_, ?_, ?_⟩
  · intro a ha b hb hab
    rcases mem_place.mp ha with rfl | ha
    · rcases mem_place.mp hb with rfl | hb
      · rfl
      · exact absurd hab.symm (findCid_none e2 b hb)
    · rcases mem_place.mp hb with rfl | hb
      · exact absurd hab (findCid_none e2 a ha)
      · exact h.unique a ha b hb hab
  · intro a ha b hb hab
    rcases mem_place.mp ha with rfl | ha
    · exact findCid_none e1 b hb hab.symm
    · exact h.fresh a ha b hb hab
  · intro a ha
    rcases mem_place.mp ha with rfl | ha
    · exact ⟨fun hh => h0 (Or.inr hh), fun hh => h0 (Or.inl hh)⟩
    · exact h.ok a ha

theorem create_mono (p : Nat) (reg : Registry) (o : List Nat) (n : String) (c : Nat) {a : Info} (h : a ∈ reg) :
    a ∈ (create p reg o n c).2 := by
  unfold create
  split
  · exact h
  split
  · exact h
  split
  · exact h
  exact mem_place.mpr (Or.inr h)

theorem getOid_spec (reg : Registry) (h : Good reg) (cid : Nat) (octs : List Nat) :
    getOid reg cid ≠ .error .oob ∧
    (getOid reg cid = .ok octs ↔ ∃ e ∈ oidTable ++ reg, e.cid = cid ∧ e.octs = octs) := by
  unfold getOid
  by_cases h0 : cid = 0
  · rw [if_pos h0]
    refine ⟨by simp, fun hh => (by cases hh), ?_⟩
    rintro ⟨e, he, hc, _⟩
    rcases List.mem_append.mp he with he | he
    · exact absurd (hc.trans h0) (table_nonzero e he).1
    · exact absurd (hc.trans h0) (h.ok e he).1
  rw [if_neg h0]
  rcases getOidIndex_spec oidTable table_sorted cid with ⟨h1, h2⟩ | ⟨i, e, h1, h2, h3⟩
  · rw [h1]
    simp only
    cases hf : findCid cid reg with
    | none =>
      refine ⟨by simp, fun hh => (by cases hh), ?_⟩
      rintro ⟨e, he, hc, _⟩
      rcases List.mem_append.mp he with he | he
      · exact absurd hc (h2 e he)
      · exact absurd hc (findCid_none hf e he)
    | some e =>
      obtain ⟨g1, g2⟩ := findCid_some hf
      refine ⟨by simp, fun hh => ?_, ?_⟩
      · injection hh with hh
        exact ⟨e, List.mem_append_right _ g1, g2, hh⟩
      · rintro ⟨e', he, hc, ho⟩
        rcases List.mem_append.mp he with he | he
        · exact absurd hc (h2 e' he)
        · rw [h.unique e g1 e' he (by rw [g2, hc])]
          show Except.ok e'.octs = _
          rw [ho]
  · rw [h1]
    simp only
    rw [h2]
    simp only
    have hm : e ∈ oidTable := List.mem_of_getElem? h2
    refine ⟨by simp, fun hh => ?_, ?_⟩
    · injection hh with hh
      exact ⟨e, List.mem_append_left _ hm, h3, hh⟩
    · rintro ⟨e', he, hc, ho⟩
      rcases List.mem_append.mp he with he | he
      · rw [sorted_unique table_sorted hm he (by rw [h3, hc]), ho]
      · exact absurd (hc.trans h3.symm) (h.fresh e' he e hm)

end Verif.Bsl.Oid
