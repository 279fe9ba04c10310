import Verif.Tls.Version.Spec
import Mathlib.Tactic.Tauto

namespace Verif.Tls.Version

open Verif.Common
open Spec

theorem vset_all {p : VSet → Prop} (h : ∀ a b t : Bool, p ⟨a, b, t⟩) (s : VSet) : p s := by
  cases s; exact h _ _ _

/-! ## Masks -/

theorem dgram_mask (dg : Bool) (o : VSet) (h : o ≠ ⟨false, false, false⟩) :
    has (o.mask dg) mDGRAM = dg := by
  revert h; revert o; apply vset_all; revert dg; decide

theorem mapBit_mask (dg : Bool) (e : VSet) (v : Nat) :
    mapBit dg v &&& e.mask dg = 0#32 ↔ ¬ Enabled dg e v := by
  unfold mapBit
  have h12 : ∀ (dg a b t : Bool), ((0x10#32 : Mask) &&& VSet.mask dg ⟨a, b, t⟩ = 0#32) ↔
      ¬ Enabled dg ⟨a, b, t⟩ 0x0303 := by decide
  have h13 : ∀ (dg a b t : Bool), ((0x20#32 : Mask) &&& VSet.mask dg ⟨a, b, t⟩ = 0#32) ↔
      ¬ Enabled dg ⟨a, b, t⟩ 0x0304 := by decide
  have hd13 : ∀ (dg a b t : Bool), ((0x20000000#32 : Mask) &&& VSet.mask dg ⟨a, b, t⟩ = 0#32) ↔
      ¬ Enabled dg ⟨a, b, t⟩ 0xfefc := by decide
  have hd12 : ∀ (dg a b t : Bool), ((0x40000000#32 : Mask) &&& VSet.mask dg ⟨a, b, t⟩ = 0#32) ↔
      ¬ Enabled dg ⟨a, b, t⟩ 0xfefd := by decide
  have ht : ∀ (dg a b t : Bool), ((if dg then bDTLCP11 else bTLCP11 : Mask) &&&
      VSet.mask dg ⟨a, b, t⟩ = 0#32) ↔ ¬ Enabled dg ⟨a, b, t⟩ 0x0101 := by decide
  obtain ⟨a, b, t⟩ := e
  split
  · rename_i h; subst h; exact h12 dg a b t
  split
  · rename_i h; subst h; exact h13 dg a b t
  split
  · rename_i h; subst h; exact hd13 dg a b t
  split
  · rename_i h; subst h; exact ht dg a b t
  split
  · rename_i h; subst h; exact hd12 dg a b t
  · rename_i h1 h2 h3 h4 h5
    constructor
    · intro _ h
      rcases h with ⟨h, _⟩ | ⟨h, _⟩ | ⟨h, _⟩
      · cases dg
        · exact h1 h
        · exact h5 h
      · cases dg
        · exact h2 h
        · exact h3 h
      · exact h4 h
    · intro _; exact BitVec.zero_and

/-- The bit of an enabled version is in the mask. -/
theorem mapBit_mask' (dg : Bool) (e : VSet) (v : Nat) (h : Enabled dg e v) :
    mapBit dg v &&& e.mask dg = mapBit dg v ∧ mapBit dg v ≠ 0#32 := by
  obtain ⟨a, b, t⟩ := e
  have k : ∀ (dg a b t : Bool), (a = true → mapBit dg (w12 dg) &&& VSet.mask dg ⟨a, b, t⟩ =
      mapBit dg (w12 dg) ∧ mapBit dg (w12 dg) ≠ 0#32) ∧
    (b = true → mapBit dg (w13 dg) &&& VSet.mask dg ⟨a, b, t⟩ =
      mapBit dg (w13 dg) ∧ mapBit dg (w13 dg) ≠ 0#32) ∧
    (t = true → mapBit dg wT &&& VSet.mask dg ⟨a, b, t⟩ =
      mapBit dg wT ∧ mapBit dg wT ≠ 0#32) := by decide
  rcases h with ⟨h, h'⟩ | ⟨h, h'⟩ | ⟨h, h'⟩ <;> subst h
  · exact (k dg a b t).1 h'
  · exact (k dg a b t).2.1 h'
  · exact (k dg a b t).2.2 h'

theorem minMax_mask (dg : Bool) (o e : VSet) (h : (e.v12 → o.v12) ∧ (e.v13 → o.v13) ∧ (e.tlcp → o.tlcp)) :
    changeMinMax (e.mask dg) (o.mask dg) = (lowest dg e, highest dg e) := by
  obtain ⟨a, b, t⟩ := e
  obtain ⟨a', b', t'⟩ := o
  revert h; revert dg a b t a' b' t'; decide +kernel

/-! ## Configuration operations -/

theorem forbid_mask (dg : Bool) (e : VSet) (m : Mask) :
    e.mask dg &&& ~~~m = (without dg e m).mask dg ∧
      ((without dg e m).v12 → e.v12) ∧ ((without dg e m).v13 → e.v13) ∧
      ((without dg e m).tlcp → e.tlcp) := by
  have hw : without dg e m = ⟨e.v12 && !has (mapBit dg (w12 dg)) m,
      e.v13 && !has (mapBit dg (w13 dg)) m, e.tlcp && !has (mapBit dg wT) m⟩ := by
    have k : ∀ dg : Bool, VSet.mask dg ⟨true, false, false⟩ = mapBit dg (w12 dg) ∧
        VSet.mask dg ⟨false, true, false⟩ = mapBit dg (w13 dg) ∧
        VSet.mask dg ⟨false, false, true⟩ = mapBit dg wT := by decide
    have hh : ∀ x : Mask, decide (x &&& m = 0#32) = !has x m := by
      intro x; unfold has
      by_cases h : x &&& m = 0#32 <;> simp [h]
    unfold without
    rw [(k dg).1, (k dg).2.1, (k dg).2.2, hh, hh, hh]
  rw [hw]
  refine ⟨?_, ?_, ?_, ?_⟩
  · have one : ∀ (i : Nat) (h : i < 32) (hne : BitVec.twoPow 32 i ≠ 0#32), BitVec.twoPow 32 i &&& ~~~m =
        if has (BitVec.twoPow 32 i) m then 0#32 else BitVec.twoPow 32 i := by
      intro i h hne
      unfold has
      rw [BitVec.twoPow_and, BitVec.twoPow_and]
      cases hm : m.getLsbD i
      · rw [BitVec.getLsbD_not, hm]; simp [h]
      · rw [BitVec.getLsbD_not, hm]; simp [hne]
    have e4 := one 4 (by omega) (by decide)
    have e5 := one 5 (by omega) (by decide)
    have e7 := one 7 (by omega) (by decide)
    have e8 := one 8 (by omega) (by decide)
    have e29 := one 29 (by omega) (by decide)
    have e30 := one 30 (by omega) (by decide)
    have t4 : BitVec.twoPow 32 4 = 0x10#32 := by decide
    have t5 : BitVec.twoPow 32 5 = 0x20#32 := by decide
    have t7 : BitVec.twoPow 32 7 = 0x80#32 := by decide
    have t8 : BitVec.twoPow 32 8 = 0x100#32 := by decide
    have t29 : BitVec.twoPow 32 29 = 0x20000000#32 := by decide
    have t30 : BitVec.twoPow 32 30 = 0x40000000#32 := by decide
    rw [t4] at e4; rw [t5] at e5; rw [t7] at e7; rw [t8] at e8; rw [t29] at e29; rw [t30] at e30
    have dist : ∀ x y : Mask, (x ||| y) &&& ~~~m = (x &&& ~~~m) ||| (y &&& ~~~m) := by
      intro x y; apply BitVec.eq_of_getLsbD_eq; intro i hi
      simp only [BitVec.getLsbD_and, BitVec.getLsbD_or, Bool.and_or_distrib_right]
    have m12 : mapBit dg (w12 dg) = if dg then 0x40000000#32 else 0x10#32 := by cases dg <;> decide
    have m13 : mapBit dg (w13 dg) = if dg then 0x20000000#32 else 0x20#32 := by cases dg <;> decide
    have mT : mapBit dg wT = if dg then 0x100#32 else 0x80#32 := by cases dg <;> decide
    obtain ⟨a, b, t⟩ := e
    unfold VSet.mask
    rw [dist, dist, m12, m13, mT]
    cases dg
    · simp only [Bool.false_eq_true, if_false]
      generalize has 0x10#32 m = x at *
      generalize has 0x20#32 m = y at *
      generalize has 0x80#32 m = z at *
      congr 1
      · congr 1
        · cases a <;> cases x <;> simp_all
        · cases b <;> cases y <;> simp_all
      · cases t <;> cases z <;> simp_all
    · simp only [if_true]
      generalize has 0x40000000#32 m = x at *
      generalize has 0x20000000#32 m = y at *
      generalize has 0x100#32 m = z at *
      congr 1
      · congr 1
        · cases a <;> cases x <;> simp_all
        · cases b <;> cases y <;> simp_all
      · cases t <;> cases z <;> simp_all
  · simp only [Bool.and_eq_true]; exact fun h => h.1
  · simp only [Bool.and_eq_true]; exact fun h => h.1
  · simp only [Bool.and_eq_true]; exact fun h => h.1

theorem valid_cases {v : Nat} (h : validVer v = true) :
    v ∈ [vTLS12, vTLS13, vDTLS12, vDTLS13, vTLCP] := by
  simp only [validVer, Bool.or_eq_true, beq_iff_eq] at h
  simp only [List.mem_cons, List.not_mem_nil, or_false]
  tauto

theorem check_valid {lo hi : Nat} (h : checkVersion lo hi = true) :
    validVer lo = true ∧ validVer hi = true := by
  unfold checkVersion at h
  split at h
  · simp at h
  · rename_i hn
    simp only [Bool.or_eq_true, Bool.not_eq_true', not_or, Bool.not_eq_false] at hn
    exact ⟨hn.1.1, hn.1.2⟩

theorem changeMask_spec (dg : Bool) (o : VSet) (lo hi : Nat) (h : checkVersion lo hi = true)
    (hne : o ≠ ⟨false, false, false⟩) :
    changeVersionMask (o.mask dg) lo hi =
      (if Spec.between dg o lo hi = ⟨false, false, false⟩ then none
       else some ((Spec.between dg o lo hi).mask dg)) := by
  obtain ⟨h1, h2⟩ := check_valid h
  have k : ∀ lo ∈ [vTLS12, vTLS13, vDTLS12, vDTLS13, vTLCP],
      ∀ hi ∈ [vTLS12, vTLS13, vDTLS12, vDTLS13, vTLCP], checkVersion lo hi = true →
      ∀ dg a b t : Bool, (⟨a, b, t⟩ : VSet) ≠ ⟨false, false, false⟩ →
      changeVersionMask (VSet.mask dg ⟨a, b, t⟩) lo hi =
      (if Spec.between dg ⟨a, b, t⟩ lo hi = ⟨false, false, false⟩ then none
       else some ((Spec.between dg ⟨a, b, t⟩ lo hi).mask dg)) := by decide +kernel
  obtain ⟨a, b, t⟩ := o
  exact k lo (valid_cases h1) hi (valid_cases h2) h dg a b t hne

theorem between_sub (dg : Bool) (o : VSet) (lo hi : Nat) :
    ((Spec.between dg o lo hi).v12 → o.v12) ∧ ((Spec.between dg o lo hi).v13 → o.v13) ∧
    ((Spec.between dg o lo hi).tlcp → o.tlcp) := by
  simp only [Spec.between, Bool.and_eq_true]
  exact ⟨fun h => h.1, fun h => h.1, fun h => h.1⟩

theorem setVersion_describes {c c' : Cfg} {dg : Bool} {o e : VSet} {lo hi : Nat}
    (hd : Describes c dg o e) (h : setVersion c lo hi = some c')
    (hearly : ¬ (c.minV = lo ∧ c.maxV = hi ∧ lo ≠ 0 ∧ hi ≠ 0)) :
    Describes c' dg o (Spec.between dg o (if lo = 0 then lowest dg o else lo)
      (if hi = 0 then highest dg o else hi)) ∧
    Spec.between dg o (if lo = 0 then lowest dg o else lo)
      (if hi = 0 then highest dg o else hi) ≠ ⟨false, false, false⟩ := by
  unfold setVersion at h
  rw [if_neg hearly] at h
  split at h
  · simp at h
  dsimp only at h
  rw [hd.origin, minMax_mask dg o o ⟨id, id, id⟩] at h
  dsimp only at h
  generalize (if lo = 0 then lowest dg o else lo) = lo' at h ⊢
  generalize (if hi = 0 then highest dg o else hi) = hi' at h ⊢
  cases hc : checkVersion lo' hi'
  · rw [hc] at h; simp at h
  rw [hc, changeMask_spec dg o lo' hi' hc hd.nonempty] at h
  simp only [Bool.not_true, Bool.false_eq_true, if_false] at h
  by_cases hb : between dg o lo' hi' = ⟨false, false, false⟩
  · rw [if_pos hb] at h; simp at h
  rw [if_neg hb] at h
  dsimp only at h
  rw [minMax_mask dg o _ (between_sub dg o lo' hi')] at h
  simp only [Option.some.injEq] at h
  subst h
  exact ⟨⟨rfl, rfl, hd.nonempty, between_sub dg o lo' hi', rfl, rfl⟩, hb⟩

theorem forbid_describes {c : Cfg} {dg : Bool} {o e : VSet} (hd : Describes c dg o e) (m : Mask) :
    Describes (setVersionForbid c m) dg o (without dg e m) := by
  obtain ⟨h1, h2, h3, h4⟩ := forbid_mask dg e m
  generalize without dg e m = e' at *
  have hs : (e'.v12 → o.v12) ∧ (e'.v13 → o.v13) ∧ (e'.tlcp → o.tlcp) :=
    ⟨fun h => hd.sub.1 (h2 h), fun h => hd.sub.2.1 (h3 h), fun h => hd.sub.2.2 (h4 h)⟩
  unfold setVersionForbid
  dsimp only
  rw [hd.version, h1, hd.origin, minMax_mask dg o e' hs]
  exact ⟨rfl, rfl, hd.nonempty, hs, rfl, rfl⟩

/-! ## The server -/

variable {c : Cfg} {dg : Bool} {o e : VSet}

theorem dgram_eq (hd : Describes c dg o e) : c.dgram = dg := by
  unfold Cfg.dgram; rw [hd.origin]; exact dgram_mask dg o hd.nonempty

theorem bit_zero (hd : Describes c dg o e) (v : Nat) :
    mapBit c.dgram v &&& c.version = 0#32 ↔ ¬ Enabled dg e v := by
  rw [dgram_eq hd, hd.version]; exact mapBit_mask dg e v

theorem selInner_eq (hd : Describes c dg o e) (v : Nat) (sv : List Nat) :
    selInner c v sv = if Enabled dg e v ∧ v ∈ sv then
      some (if is13 v && !c.kx then .error .unsupported else .ok v) else none := by
  induction sv with
  | nil => simp [selInner]
  | cons x t ih =>
    unfold selInner
    by_cases h : Enabled dg e v
    · by_cases hx : x = v
      · subst hx
        have hz : ¬ (x ≠ x ∨ mapBit c.dgram x &&& c.version = 0#32) := by
          rw [bit_zero hd]; simp [h]
        have hm : Enabled dg e x ∧ x ∈ x :: t := ⟨h, List.mem_cons_self⟩
        rw [if_neg hz, if_pos hm]
        by_cases hk : (is13 x && !c.kx) = true
        · rw [if_pos hk, if_pos hk]
        · rw [if_neg hk, if_neg hk]
      · rw [if_pos (Or.inl hx), ih]
        have : (v ∈ x :: t) ↔ v ∈ t := by simp [Ne.symm hx]
        simp only [this]
    · rw [if_pos (Or.inr ((bit_zero hd v).2 h)), ih, if_neg (by simp [h]), if_neg (by simp [h])]

/-- The intersection with what a legacy version offers. -/
theorem inter_eq (hd : Describes c dg o e) (l : Nat) :
    c.version &&& mapLegacy c l =
      if 0x0101 ≤ l ∧ l < 0x0300 then (if e.tlcp then mapBit dg wT else 0#32)
      else if (if dg then l ≤ 0xfefd else 0x0303 ≤ l) then (if e.v12 then mapBit dg (w12 dg) else 0#32)
      else 0#32 := by
  unfold mapLegacy
  rw [dgram_eq hd]
  have hm : ∀ dg a b t a' b' t' : Bool, (t → t') →
      VSet.mask dg ⟨a, b, t⟩ &&& (VSet.mask dg ⟨a', b', t'⟩ &&& mTLCP) =
        if t then mapBit dg wT else 0#32 := by decide +kernel
  have h12 : ∀ dg a b t : Bool, VSet.mask dg ⟨a, b, t⟩ &&& mapBit dg (w12 dg) =
      if a then mapBit dg (w12 dg) else 0#32 := by decide +kernel
  have hor : ∀ dg a b t : Bool,
      VSet.mask dg ⟨a, b, t⟩ &&& (mapBit dg vDTLS12 ||| mapBit dg vTLS12) =
      if a then mapBit dg (w12 dg) else 0#32 := by decide +kernel
  have hot : ∀ dg a b t : Bool,
      VSet.mask dg ⟨a, b, t⟩ &&& (0#32 ||| mapBit dg vTLS12) =
      if dg then 0#32 else if a then mapBit dg (w12 dg) else 0#32 := by decide +kernel
  have hod : ∀ dg a b t : Bool,
      VSet.mask dg ⟨a, b, t⟩ &&& mapBit dg vDTLS12 =
      if dg then (if a then mapBit dg (w12 dg) else 0#32) else 0#32 := by decide +kernel
  have hsub := hd.sub.2.2
  rw [hd.version, hd.origin]
  obtain ⟨a, b, t⟩ := e
  obtain ⟨a', b', t'⟩ := o
  simp only [vTLCP, vSSL30]
  by_cases hr : 0x0101 ≤ l ∧ l < 0x0300
  · rw [if_pos hr, if_pos hr]; exact hm _ _ _ _ _ _ _ hsub
  · rw [if_neg hr, if_neg hr]
    cases dg
    · simp only [Bool.not_false, if_true, decide_eq_true_eq, Bool.false_eq_true, if_false]
      by_cases c1 : l ≥ vDTLS12
      · have c2 : l ≥ vTLS12 := by simp only [vDTLS12, vTLS12] at *; omega
        rw [if_pos c1, if_pos c2, hor, if_pos (show 0x0303 ≤ l from c2)]
      · rw [if_neg c1]
        by_cases c2 : l ≥ vTLS12
        · rw [if_pos c2, hot, if_pos (show 0x0303 ≤ l from c2)]; rfl
        · rw [if_neg c2, if_neg (show ¬ 0x0303 ≤ l from c2)]; exact BitVec.and_zero
    · simp only [Bool.not_true, Bool.false_eq_true, if_false, decide_eq_true_eq, if_true]
      by_cases c1 : l ≤ vDTLS12
      · rw [if_pos c1, if_pos (show l ≤ 0xfefd from c1)]
        by_cases c2 : l ≤ vTLS12
        · rw [if_pos c2, hor]
        · rw [if_neg c2, hod]; rfl
      · have c2 : ¬ l ≤ vTLS12 := by simp only [vDTLS12, vTLS12] at *; omega
        rw [if_neg c1, if_neg c2, if_neg (show ¬ l ≤ 0xfefd from c1)]; exact BitVec.and_zero

/-- The configuration after a non-TLCP version was selected. -/
def dropTlcp (c : Cfg) : Cfg :=
  { c with version := c.version &&& ~~~mTLCP, origin := c.origin &&& ~~~mTLCP }

/-- The configuration after TLCP was selected. -/
def onlyTlcp (c : Cfg) : Cfg :=
  let c' := if has c.version mSTREAM then
      { c with version := c.version &&& ~~~mTLS, origin := c.origin &&& ~~~mTLS }
    else if has c.version mDGRAM then
      { c with version := c.version &&& ~~~mDTLS, origin := c.origin &&& ~~~mDTLS }
    else c
  let mm := changeMinMax c'.version c'.origin
  { c' with minV := mm.1, maxV := mm.2 }

theorem nego_eq (hd : Describes c dg o e) (l old : Nat) (hq : c.quic = false) :
    serverSelectNego c false old l =
      if 0x0101 ≤ l ∧ l < 0x0300 then
        (if e.tlcp then (if c.sec wT then .ok (wT, onlyTlcp c) else .error .unsecure)
         else .error .unsupported)
      else if (if dg then l ≤ 0xfefd else 0x0303 ≤ l) ∧ e.v12 = true then
        (if c.sec (w12 dg) then .ok (w12 dg, dropTlcp c) else .error .unsecure)
      else .error .unsupported := by
  unfold serverSelectNego checkReneg
  have hqv : ∀ v, (c.quic && v != vTLS13) = false := by simp [hq]
  simp only [Bool.false_eq_true, if_false, inter_eq hd l, hqv]
  have p12 : ∀ dg : Bool, mapBit dg (w12 dg) ≠ 0#32 ∧ pick (mapBit dg (w12 dg))
    [(bDTLS12, vDTLS12), (bTLS12, vTLS12), (bTLCP11, vTLCP), (bDTLCP11, vTLCP)] = some (w12 dg) := by
    decide
  have pT : ∀ dg : Bool, mapBit dg wT ≠ 0#32 ∧ pick (mapBit dg wT)
    [(bDTLS12, vDTLS12), (bTLS12, vTLS12), (bTLCP11, vTLCP), (bDTLCP11, vTLCP)] = some wT := by
    decide
  by_cases hr : 0x0101 ≤ l ∧ l < 0x0300
  · simp only [if_pos hr]
    cases ht : e.tlcp
    · simp
    · simp only [if_true, if_neg (pT dg).1, (pT dg).2]
      rw [if_pos (show wT = vTLCP from rfl)]
      cases hs : c.sec wT
      · simp
      · simp only [Bool.not_true, Bool.false_eq_true, if_false, if_true]
        rfl
  · simp only [if_neg hr]
    have hw : w12 dg ≠ vTLCP := by cases dg <;> decide
    by_cases ho : (if dg then l ≤ 0xfefd else 0x0303 ≤ l)
    · simp only [if_pos ho]
      cases h12 : e.v12
      · simp
      · simp only [if_true, if_neg (p12 dg).1, (p12 dg).2, if_neg hw]
        simp only [ho, and_self, if_true]
        cases hs : c.sec (w12 dg) <;> simp [dropTlcp]
    · simp only [if_neg ho, if_true]
      rw [if_neg (by simp [ho])]

theorem dropTlcp_describes (hd : Describes c dg o e) (h12 : e.v12 = true) :
    Describes (dropTlcp c) dg ⟨o.v12, o.v13, false⟩ ⟨e.v12, e.v13, false⟩ := by
  have k : ∀ dg a b t : Bool, VSet.mask dg ⟨a, b, t⟩ &&& ~~~mTLCP = VSet.mask dg ⟨a, b, false⟩ := by
    decide +kernel
  obtain ⟨a, b, t⟩ := e
  obtain ⟨a', b', t'⟩ := o
  have ho : a' = true := hd.sub.1 h12
  dsimp only at h12
  subst h12; subst ho
  refine ⟨?_, ?_, by simp, ⟨hd.sub.1, hd.sub.2.1, by simp⟩, hd.minV, ?_⟩
  · unfold dropTlcp; dsimp only; rw [hd.origin]; exact k _ _ _ _
  · unfold dropTlcp; dsimp only; rw [hd.version]; exact k _ _ _ _
  · unfold dropTlcp; dsimp only; rw [hd.maxV]; simp [highest]

theorem onlyTlcp_maxV (hd : Describes c dg o e) (ht : e.tlcp = true) :
    (onlyTlcp c).maxV = wT ∧ ((onlyTlcp c).dgram && !has (onlyTlcp c).origin mTLCP) = false := by
  have hs := hd.sub
  have k1 : ∀ a b a' b' : Bool,
      has (VSet.mask false ⟨a, b, true⟩) mSTREAM = true ∧
      changeMinMax (VSet.mask false ⟨a, b, true⟩ &&& ~~~mTLS)
        (VSet.mask false ⟨a', b', true⟩ &&& ~~~mTLS) = (wT, wT) ∧
      has (VSet.mask false ⟨a', b', true⟩ &&& ~~~mTLS) mTLCP = true := by decide +kernel
  have k2 : ∀ a b a' b' : Bool,
      has (VSet.mask true ⟨a, b, true⟩) mSTREAM = false ∧
      has (VSet.mask true ⟨a, b, true⟩) mDGRAM = true ∧
      changeMinMax (VSet.mask true ⟨a, b, true⟩ &&& ~~~mDTLS)
        (VSet.mask true ⟨a', b', true⟩ &&& ~~~mDTLS) = (wT, wT) ∧
      has (VSet.mask true ⟨a', b', true⟩ &&& ~~~mDTLS) mTLCP = true := by decide +kernel
  obtain ⟨a, b, t⟩ := e
  obtain ⟨a', b', t'⟩ := o
  have ho : t' = true := hs.2.2 ht
  dsimp only at ht
  subst ht; subst ho
  have hv := hd.version
  have ho := hd.origin
  unfold onlyTlcp
  cases dg
  · obtain ⟨x1, x2, x3⟩ := k1 a b a' b'
    simp only [hv, ho, x1, x2, x3, if_true, Bool.not_true, Bool.and_false, and_self]
  · obtain ⟨x1, x2, x3, x4⟩ := k2 a b a' b'
    simp only [hv, ho, x1, x2, x3, x4, if_true, Bool.not_true, Bool.and_false, and_self,
      Bool.false_eq_true, if_false]

theorem fallback_tlcp (hd : Describes c dg o e) (ht : e.tlcp = true) (s : Bool) :
    checkFallback (onlyTlcp c) wT s = true := by
  obtain ⟨h1, h2⟩ := onlyTlcp_maxV hd ht
  unfold checkFallback
  rw [h1, h2]
  cases s <;> simp

theorem fallback_12 (hd : Describes c dg o e) (h12 : e.v12 = true) (s : Bool) :
    checkFallback (dropTlcp c) (w12 dg) s = !(s && e.v13) := by
  have hd' := dropTlcp_describes hd h12
  have k : ∀ dg a b : Bool, has (VSet.mask dg ⟨a, b, false⟩) mTLCP = false := by decide +kernel
  unfold checkFallback
  rw [hd'.maxV, hd'.origin, dgram_eq hd', k]
  obtain ⟨a, b, t⟩ := e
  dsimp only at h12; subst h12
  cases s <;> cases dg <;> cases b <;> simp [highest, w12, w13]

/-- The pre-1.3 server. -/
theorem serverLegacy_eq (hd : Describes c dg o e) (l old : Nat) (s : Bool) (hq : c.quic = false) :
    serverLegacy c false old l s =
      if 0x0101 ≤ l ∧ l < 0x0300 then
        (if e.tlcp then (if c.sec wT then .ok (wT, onlyTlcp c) else .error .unsecure)
         else .error .unsupported)
      else if (if dg then l ≤ 0xfefd else 0x0303 ≤ l) ∧ e.v12 = true then
        (if c.sec (w12 dg) then
          (if s && e.v13 then .error .fallback else .ok (w12 dg, dropTlcp c)) else .error .unsecure)
      else .error .unsupported := by
  unfold serverLegacy
  rw [nego_eq hd l old hq]
  by_cases hr : 0x0101 ≤ l ∧ l < 0x0300
  · simp only [if_pos hr]
    cases ht : e.tlcp
    · simp
    · cases hs : c.sec wT
      · simp
      · simp only [if_true]
        rw [if_pos (fallback_tlcp hd ht s)]
  · simp only [if_neg hr]
    by_cases ho : (if dg then l ≤ 0xfefd else 0x0303 ≤ l) ∧ e.v12 = true
    · simp only [if_pos ho]
      cases hs : c.sec (w12 dg)
      · simp
      · simp only [if_true, fallback_12 hd ho.2 s]
        cases s && e.v13 <;> simp
    · simp only [if_neg ho]

/-- The pre-1.3 server on the wire value of a pre-1.3 version. -/
theorem serverLegacy_12 (hd : Describes c dg o e) (s : Bool) (hq : c.quic = false)
    (h12 : e.v12 = true) :
    serverLegacy c false 0 (w12 dg) s = if c.sec (w12 dg) then
          (if s && e.v13 then .error .fallback else .ok (w12 dg, dropTlcp c)) else .error .unsecure := by
  rw [serverLegacy_eq hd _ _ _ hq, if_neg (by cases dg <;> decide),
    if_pos ⟨by cases dg <;> decide, h12⟩]

theorem serverLegacy_T (hd : Describes c dg o e) (s : Bool) (hq : c.quic = false)
    (ht : e.tlcp = true) :
    serverLegacy c false 0 wT s = if c.sec wT then .ok (wT, onlyTlcp c) else .error .unsecure := by
  rw [serverLegacy_eq hd _ _ _ hq, if_pos (by decide), if_pos ht]

theorem checkSupport_eq (hd : Describes c dg o e) (hq : c.quic = false) (l : Nat) :
    checkSupport c l =
      if l = wT then (if e.tlcp then .ok wT else .error .unsupported)
      else if (if dg then l ≤ 0xfefd else 0x0303 ≤ l) ∧ e.v12 = true then .ok (w12 dg)
      else .error .unsupported := by
  have m12 : ∀ dg a b t : Bool, (mapBit dg (w12 dg) &&& VSet.mask dg ⟨a, b, t⟩ ==
    mapBit dg (w12 dg) && mapBit dg (w12 dg) != 0#32) = a := by decide +kernel
  have mT : ∀ dg a b t : Bool, (mapBit dg wT &&& VSet.mask dg ⟨a, b, t⟩ ==
    mapBit dg wT && mapBit dg wT != 0#32) = t := by decide +kernel
  unfold checkSupport
  dsimp only
  rw [dgram_eq hd, hd.version, hq]
  simp only [Bool.not_false, Bool.true_or, Bool.true_and]
  obtain ⟨a, b, t⟩ := e
  have hv : (if (if l ≥ vTLS13 ∧ dg = false then vTLS12 else l) ≤ vDTLS13 ∧
      (if l ≥ vTLS13 ∧ dg = false then vTLS12 else l) ≠ vTLCP ∧ dg = true then vDTLS12
      else (if l ≥ vTLS13 ∧ dg = false then vTLS12 else l)) =
      if l = wT then wT else if (if dg then l ≤ 0xfefd else 0x0303 ≤ l) then w12 dg else l := by
    simp only [vTLS13, vTLS12, vDTLS13, vDTLS12, vTLCP, wT, w12]
    cases dg <;> simp <;> (repeat' split) <;> omega
  rw [hv]
  clear hv
  by_cases h1 : l = wT
  · simp only [if_pos h1, mT]
  · simp only [if_neg h1]
    by_cases h2 : (if dg then l ≤ 0xfefd else 0x0303 ≤ l)
    · simp only [if_pos h2, m12, eq_true h2, true_and, if_true]
    · simp only [if_neg h2, h2, false_and, if_false]
      have hz : mapBit dg l = 0#32 := by
        have n : l ≠ vTLS12 ∧ l ≠ vTLS13 ∧ l ≠ vDTLS13 ∧ l ≠ vTLCP ∧ l ≠ vDTLS12 := by
          simp only [wT] at h1
          simp only [vTLS13, vTLS12, vDTLS13, vDTLS12, vTLCP]
          cases dg
          · simp only [Bool.false_eq_true, if_false] at h2; omega
          · simp only [if_true] at h2; omega
        unfold mapBit
        rw [if_neg n.1, if_neg n.2.1, if_neg n.2.2.1, if_neg n.2.2.2.1, if_neg n.2.2.2.2]
      rw [hz]; simp

theorem selOuter_eq (hd : Describes c dg o e) (hq : c.quic = false) (sv : List Nat) :
    selOuter c sv [vDTLS13, vDTLS12, vTLS13, vTLS12, vTLCP] =
      if e.v13 = true ∧ w13 dg ∈ sv then (if c.kx then .ok (w13 dg) else .error .unsupported)
      else if e.v12 = true ∧ w12 dg ∈ sv then .ok (w12 dg)
      else if e.tlcp = true ∧ wT ∈ sv then .ok wT
      else .error .unsupported := by
  simp only [selOuter, hq, Bool.false_and, Bool.false_eq_true, if_false, selInner_eq hd]
  have eT : Enabled dg e vTLCP ↔ e.tlcp = true := by
    cases dg <;> simp [Enabled, vTLCP, w12, w13, wT]
  have e12 : Enabled dg e vTLS12 ↔ (dg = false ∧ e.v12 = true) := by
    cases dg <;> simp [Enabled, vTLS12, w12, w13, wT]
  have e13 : Enabled dg e vTLS13 ↔ (dg = false ∧ e.v13 = true) := by
    cases dg <;> simp [Enabled, vTLS13, w12, w13, wT]
  have d12 : Enabled dg e vDTLS12 ↔ (dg = true ∧ e.v12 = true) := by
    cases dg <;> simp [Enabled, vDTLS12, w12, w13, wT]
  have d13 : Enabled dg e vDTLS13 ↔ (dg = true ∧ e.v13 = true) := by
    cases dg <;> simp [Enabled, vDTLS13, w12, w13, wT]
  have i1 : is13 vDTLS13 = true := by decide
  have i2 : is13 vTLS13 = true := by decide
  have i3 : is13 vDTLS12 = false := by decide
  have i4 : is13 vTLS12 = false := by decide
  have i5 : is13 vTLCP = false := by decide
  simp only [eT, e12, e13, d12, d13, i1, i2, i3, i4, i5, Bool.true_and, Bool.false_and,
    Bool.false_eq_true, if_false]
  cases dg
  · simp only [Bool.false_eq_true, false_and, if_false, true_and, w13, w12]
    change _ = if e.v13 = true ∧ vTLS13 ∈ sv then _ else if e.v12 = true ∧ vTLS12 ∈ sv then _ else
      if e.tlcp = true ∧ vTLCP ∈ sv then _ else _
    by_cases h1 : e.v13 = true ∧ vTLS13 ∈ sv
    · simp only [if_pos h1]; cases c.kx <;> rfl
    · simp only [if_neg h1]
      by_cases h2 : e.v12 = true ∧ vTLS12 ∈ sv
      · simp only [if_pos h2]; rfl
      · simp only [if_neg h2]
        by_cases h3 : e.tlcp = true ∧ vTLCP ∈ sv
        · simp only [if_pos h3]; rfl
        · simp only [if_neg h3]
  · simp only [Bool.true_eq_false, false_and, if_false, true_and, w13, w12, if_true]
    change _ = if e.v13 = true ∧ vDTLS13 ∈ sv then _ else if e.v12 = true ∧ vDTLS12 ∈ sv then _ else
      if e.tlcp = true ∧ vTLCP ∈ sv then _ else _
    by_cases h1 : e.v13 = true ∧ vDTLS13 ∈ sv
    · simp only [if_pos h1]; cases c.kx <;> rfl
    · simp only [if_neg h1]
      by_cases h2 : e.v12 = true ∧ vDTLS12 ∈ sv
      · simp only [if_pos h2]; rfl
      · simp only [if_neg h2]
        by_cases h3 : e.tlcp = true ∧ vTLCP ∈ sv
        · simp only [if_pos h3]; rfl
        · simp only [if_neg h3]

/-- Outcome of the pre-1.3 server for TLCP. -/
def outT (c : Cfg) (e : VSet) : Except Err (Nat × Cfg) :=
  if e.tlcp then (if c.sec wT then .ok (wT, onlyTlcp c) else .error .unsecure)
  else .error .unsupported

/-- Outcome of the pre-1.3 server for version 1.2. -/
def out12 (c : Cfg) (dg : Bool) (e : VSet) (s : Bool) : Except Err (Nat × Cfg) :=
  if e.v12 then (if c.sec (w12 dg) then
    (if s && e.v13 then .error .fallback else .ok (w12 dg, dropTlcp c)) else .error .unsecure)
  else .error .unsupported

theorem server_eq (hd : Describes c dg o e) (hq : c.quic = false) (ch : ClientHello) :
    server c ch =
      if e.v13 = true then
        if ch.sv = [] then
          if ch.legacy = wT then outT c e
          else if (if dg then ch.legacy ≤ 0xfefd else 0x0303 ≤ ch.legacy) then out12 c dg e ch.scsv
          else .error .unsupported
        else if ch.legacy ≠ w12 dg then .error .unsupported
        else if w13 dg ∈ ch.sv then (if c.kx then .ok (w13 dg, c) else .error .unsupported)
        else if e.v12 = true ∧ w12 dg ∈ ch.sv then out12 c dg e ch.scsv
        else if e.tlcp = true ∧ wT ∈ ch.sv then outT c e
        else .error .unsupported
      else if 0x0101 ≤ ch.legacy ∧ ch.legacy < 0x0300 then outT c e
      else if (if dg then ch.legacy ≤ 0xfefd else 0x0303 ≤ ch.legacy) then out12 c dg e ch.scsv
      else .error .unsupported := by
  unfold server
  rw [hd.maxV]
  by_cases h13 : e.v13 = true
  · rw [if_pos h13]
    have hm : highest dg e = w13 dg := by simp [highest, h13]
    rw [hm, if_neg (by cases dg <;> decide), if_pos (by cases dg <;> decide)]
    unfold server13 selectVersion
    by_cases hsv : ch.sv = []
    · simp only [if_pos hsv, checkSupport_eq hd hq]
      by_cases hl : ch.legacy = wT
      · simp only [if_pos hl]
        unfold outT
        cases ht : e.tlcp
        · simp
        · simp only [if_true]
          rw [if_pos (show wT = vTLCP ∨ _ from Or.inl rfl), serverLegacy_T hd _ hq ht]
      · simp only [if_neg hl]
        by_cases hn : (if dg then ch.legacy ≤ 0xfefd else 0x0303 ≤ ch.legacy)
        · unfold out12
          cases h12 : e.v12
          · simp
          · simp only [eq_true hn, and_self, if_true]
            rw [if_pos (by cases dg <;> decide), serverLegacy_12 hd _ hq h12]
        · simp only [eq_false hn, false_and, if_false]
    · simp only [if_neg hsv]
      have hl : (if c.dgram then vDTLS12 else vTLS12) = w12 dg := by
        rw [dgram_eq hd]; cases dg <;> rfl
      rw [hl]
      by_cases hlg : ch.legacy = w12 dg
      · simp only [hlg, ne_eq, not_true_eq_false, if_false, selOuter_eq hd hq, h13, true_and]
        by_cases g13 : w13 dg ∈ ch.sv
        · simp only [if_pos g13]
          cases hk : c.kx
          · simp
          · simp only [if_true]
            rw [if_neg (by cases dg <;> decide), if_pos (by cases dg <;> decide)]
        · simp only [if_neg g13]
          by_cases g12 : e.v12 = true ∧ w12 dg ∈ ch.sv
          · simp only [if_pos g12]
            rw [if_pos (by cases dg <;> decide), serverLegacy_12 hd _ hq g12.1]
            unfold out12
            rw [if_pos g12.1]
          · simp only [if_neg g12]
            by_cases gT : e.tlcp = true ∧ wT ∈ ch.sv
            · simp only [if_pos gT]
              rw [if_pos (show wT = vTLCP ∨ _ from Or.inl rfl), serverLegacy_T hd _ hq gT.1]
              unfold outT
              rw [if_pos gT.1]
            · simp only [if_neg gT]
      · simp only [ne_eq, hlg, not_false_eq_true, if_true]
  · rw [if_neg h13]
    have h13' : e.v13 = false := by simpa using h13
    unfold outT out12
    rw [serverLegacy_eq hd _ _ _ hq]
    by_cases hz : e.v12 = false ∧ e.tlcp = false
    · have hm : highest dg e = 0 := by simp [highest, h13', hz]
      rw [hm, if_neg (by decide), if_neg (by decide)]
      simp only [hz.1, hz.2, Bool.false_eq_true, if_false, ite_self]
    · have hm : highest dg e = vTLS12 ∨ highest dg e = vTLCP ∨ highest dg e = vDTLS12 := by
        unfold highest
        rw [if_neg h13]
        by_cases h12 : e.v12 = true
        · rw [if_pos h12]; cases dg
          · exact Or.inl rfl
          · exact Or.inr (Or.inr rfl)
        · rw [if_neg h12]
          have ht : e.tlcp = true := by
            cases h : e.tlcp
            · exact absurd ⟨by simpa using h12, h⟩ hz
            · rfl
          rw [if_pos ht]; exact Or.inr (Or.inl rfl)
      rw [if_pos hm]
      by_cases hr : 0x0101 ≤ ch.legacy ∧ ch.legacy < 0x0300
      · rw [if_pos hr, if_pos hr]
      · rw [if_neg hr, if_neg hr]
        by_cases hn : (if dg then ch.legacy ≤ 0xfefd else 0x0303 ≤ ch.legacy)
        · cases h12 : e.v12 <;> simp [eq_true hn]
        · simp [eq_false hn]

theorem distinct (dg : Bool) : w13 dg ≠ w12 dg ∧ w13 dg ≠ wT ∧ w12 dg ≠ wT := by
  cases dg <;> decide

theorem best_iff (dg : Bool) (e : VSet) (ch : ClientHello) (v : Nat) :
    Best dg e ch v ↔
      (v = w13 dg ∧ e.v13 = true ∧ Offered dg e ch (w13 dg)) ∨
      (v = w12 dg ∧ e.v12 = true ∧ Offered dg e ch (w12 dg) ∧
        ¬ (e.v13 = true ∧ Offered dg e ch (w13 dg))) ∨
      (v = wT ∧ e.tlcp = true ∧ Offered dg e ch wT ∧
        ¬ (e.v13 = true ∧ Offered dg e ch (w13 dg)) ∧
        ¬ (e.v12 = true ∧ Offered dg e ch (w12 dg))) := by
  have r13 : rank (w13 dg) = 3 := by cases dg <;> decide
  have r12 : rank (w12 dg) = 2 := by cases dg <;> decide
  have rT : rank wT = 1 := by decide
  unfold Best Enabled
  constructor
  · rintro ⟨h1, h2, h3⟩
    have a13 := h3 (w13 dg)
    have a12 := h3 (w12 dg)
    rcases h1 with ⟨h, h'⟩ | ⟨h, h'⟩ | ⟨h, h'⟩ <;> subst h
    · refine Or.inr (Or.inl ⟨rfl, h', h2, fun hh => ?_⟩)
      have := a13 (Or.inr (Or.inl ⟨rfl, hh.1⟩)) hh.2
      omega
    · exact Or.inl ⟨rfl, h', h2⟩
    · refine Or.inr (Or.inr ⟨rfl, h', h2, fun hh => ?_, fun hh => ?_⟩)
      · have := a13 (Or.inr (Or.inl ⟨rfl, hh.1⟩)) hh.2
        omega
      · have := a12 (Or.inl ⟨rfl, hh.1⟩) hh.2
        omega
  · rintro (⟨h, h', h2⟩ | ⟨h, h', h2, h3⟩ | ⟨h, h', h2, h3, h4⟩) <;> subst h
    · refine ⟨Or.inr (Or.inl ⟨rfl, h'⟩), h2, ?_⟩
      rintro v' (⟨g, _⟩ | ⟨g, _⟩ | ⟨g, _⟩) _ <;> subst g <;> omega
    · refine ⟨Or.inl ⟨rfl, h'⟩, h2, ?_⟩
      rintro v' (⟨g, _⟩ | ⟨g, g'⟩ | ⟨g, _⟩) go <;> subst g
      · omega
      · exact absurd ⟨g', go⟩ h3
      · omega
    · refine ⟨Or.inr (Or.inr ⟨rfl, h'⟩), h2, ?_⟩
      rintro v' (⟨g, g'⟩ | ⟨g, g'⟩ | ⟨g, _⟩) go <;> subst g
      · exact absurd ⟨g', go⟩ h4
      · exact absurd ⟨g', go⟩ h3
      · omega

theorem outT_ok (v : Nat) (c' : Cfg) : outT c e = .ok (v, c') ↔
    e.tlcp = true ∧ c.sec wT = true ∧ v = wT ∧ c' = onlyTlcp c := by
  unfold outT
  cases e.tlcp <;> cases c.sec wT <;> simp [eq_comm]

theorem out12_ok (s : Bool) (v : Nat) (c' : Cfg) : out12 c dg e s = .ok (v, c') ↔
    e.v12 = true ∧ c.sec (w12 dg) = true ∧ ¬ (s = true ∧ e.v13 = true) ∧ v = w12 dg ∧
      c' = dropTlcp c := by
  unfold out12
  cases e.v12 <;> cases c.sec (w12 dg) <;> cases s <;> cases e.v13 <;> simp [eq_comm]

theorem ite_cases {α : Type} {P : Prop} [Decidable P] {a b x : α} (h : (if P then a else b) = x) :
    a = x ∨ b = x := by
  split at h
  · exact Or.inl h
  · exact Or.inr h

theorem server_cases (hd : Describes c dg o e) (hq : c.quic = false) (ch : ClientHello) {v : Nat}
    {c' : Cfg} (h : server c ch = .ok (v, c')) :
    (v = w13 dg ∧ c' = c ∧ e.v13 = true) ∨ (v = w12 dg ∧ c' = dropTlcp c ∧ e.v12 = true) ∨
    (v = wT ∧ c' = onlyTlcp c ∧ e.tlcp = true) := by
  have g12 : out12 c dg e ch.scsv = .ok (v, c') → (v = w13 dg ∧ c' = c ∧ e.v13 = true) ∨
      (v = w12 dg ∧ c' = dropTlcp c ∧ e.v12 = true) ∨
      (v = wT ∧ c' = onlyTlcp c ∧ e.tlcp = true) := by
    rw [out12_ok]; rintro ⟨h1, _, _, h4, h5⟩; exact Or.inr (Or.inl ⟨h4, h5, h1⟩)
  have gT : outT c e = .ok (v, c') → (v = w13 dg ∧ c' = c ∧ e.v13 = true) ∨
      (v = w12 dg ∧ c' = dropTlcp c ∧ e.v12 = true) ∨
      (v = wT ∧ c' = onlyTlcp c ∧ e.tlcp = true) := by
    rw [outT_ok]; rintro ⟨h1, _, h4, h5⟩; exact Or.inr (Or.inr ⟨h4, h5, h1⟩)
  rw [server_eq hd hq] at h
  split at h
  · rename_i h13
    split at h
    · split at h
      · exact gT h
      · rcases ite_cases h with h | h
        · exact g12 h
        · simp at h
    · split at h
      · simp at h
      · split at h
        · split at h
          · have := Prod.mk.inj (Except.ok.inj h)
            exact Or.inl ⟨this.1.symm, this.2.symm, h13⟩
          · simp at h
        · split at h
          · exact g12 h
          · split at h
            · exact gT h
            · simp at h
  · split at h
    · exact gT h
    · rcases ite_cases h with h | h
      · exact g12 h
      · simp at h

theorem has13 (hd : Describes c dg o e) : has c.version (bTLS13 ||| bDTLS13) = e.v13 := by
  have k : ∀ dg a b t : Bool, has (VSet.mask dg ⟨a, b, t⟩) (bTLS13 ||| bDTLS13) = b := by
    decide +kernel
  rw [hd.version]; exact k _ _ _ _

theorem hello_13 (hd : Describes c dg o e) (rnd : List Byte) :
    serverHello c (w13 dg) rnd = ⟨w12 dg, some (w13 dg), rnd⟩ := by
  unfold serverHello
  rw [dgram_eq hd]
  cases dg <;> rfl

theorem hello_12 (hd : Describes c dg o e) (rnd : List Byte) :
    serverHello c (w12 dg) rnd = ⟨w12 dg, none,
      if e.v13 then rnd.take 24 ++ downgradeBytes ++ rnd.drop 32 else rnd⟩ := by
  unfold serverHello serverRandom
  rw [dgram_eq hd, has13 hd]
  cases dg <;> cases e.v13 <;> rfl

theorem hello_T (c : Cfg) (rnd : List Byte) : serverHello c wT rnd = ⟨wT, none, rnd⟩ := by
  unfold serverHello serverRandom
  cases c.dgram <;> cases has c.version (bTLS13 ||| bDTLS13) <;> rfl

theorem marked_take (rnd : List Byte) (h : 24 ≤ rnd.length) :
    Marked (rnd.take 24 ++ downgradeBytes ++ rnd.drop 32) := by
  unfold Marked
  have hl : (rnd.take 24).length = 24 := by simp; omega
  rw [List.append_assoc, List.drop_left' hl, List.take_left' (by rfl)]
  rfl

theorem reneg_version (hd : Describes c dg o e) (hq : c.quic = false) (old l : Nat) {v : Nat}
    {c' : Cfg} (h : serverSelectNego c true old l = .ok (v, c')) : v = old ∧ Enabled dg e old := by
  by_cases he : Enabled dg e old
  · refine ⟨?_, he⟩
    let c1 : Cfg := { c with version := mapBit dg old, minV := old, maxV := old }
    have hc1 : serverSelectNego c true old l = serverSelectNego c1 false old l := by
      have h1 : checkReneg c true old = some c1 := by
        unfold checkReneg
        rw [if_pos rfl]
        dsimp only
        rw [if_neg (by rw [bit_zero hd]; simpa using he)]
        show some _ = some c1
        simp only [c1, dgram_eq hd]
      have h2 : checkReneg c1 false old = some c1 := rfl
      unfold serverSelectNego
      rw [h1, h2]
    rw [hc1] at h
    have hq1 : c1.quic = false := hq
    have hsub := hd.sub
    have fin : ∀ e1 : VSet, mapBit dg old = e1.mask dg → lowest dg e1 = old → highest dg e1 = old →
        (e1.v12 → e.v12) ∧ (e1.v13 → e.v13) ∧ (e1.tlcp → e.tlcp) →
        (e1.tlcp = true → old = wT) → (e1.v12 = true → old = w12 dg) → v = old := by
      intro e1 m1 m2 m3 m4 m5 m6
      have hd1 : Describes c1 dg o e1 :=
        ⟨hd.origin, m1, hd.nonempty, ⟨fun h => hsub.1 (m4.1 h), fun h => hsub.2.1 (m4.2.1 h),
          fun h => hsub.2.2 (m4.2.2 h)⟩, m2.symm, m3.symm⟩
      rw [nego_eq hd1 l old hq1] at h
      split at h
      · split at h
        · rename_i ht
          split at h
          · rw [m5 ht]; exact (Prod.mk.inj (Except.ok.inj h)).1.symm
          · simp at h
        · simp at h
      · by_cases ht : (if dg then l ≤ 0xfefd else 0x0303 ≤ l) ∧ e1.v12 = true
        · rw [if_pos ht] at h
          split at h
          · rw [m6 ht.2]; exact (Prod.mk.inj (Except.ok.inj h)).1.symm
          · simp at h
        · rw [if_neg ht] at h; simp at h
    rcases he with ⟨h1, h2⟩ | ⟨h1, h2⟩ | ⟨h1, h2⟩ <;> subst h1
    · exact fin ⟨true, false, false⟩ (by cases dg <;> decide) rfl rfl (by simp [h2]) (by simp)
        (by simp)
    · exact fin ⟨false, true, false⟩ (by cases dg <;> decide) rfl rfl (by simp [h2]) (by simp)
        (by simp)
    · exact fin ⟨false, false, true⟩ (by cases dg <;> decide) rfl rfl (by simp [h2]) (by simp)
        (by simp)
  · exfalso
    unfold serverSelectNego checkReneg at h
    dsimp only at h
    rw [if_pos rfl, if_pos ((bit_zero hd old).2 he)] at h
    simp at h

/-! ## The client -/

/-- The first ClientHello. -/
theorem clientHello_eq (hd : Describes c dg o e) :
    clientHello c = some (if e.v13 = true then
      ⟨w12 dg, if e.v12 then [w13 dg, w12 dg] else [w13 dg], false⟩
      else ⟨highest dg e, [], false⟩) := by
  unfold clientHello
  rw [hd.minV, hd.maxV]
  obtain ⟨a, b, t⟩ := e
  cases dg <;> cases a <;> cases b <;> cases t <;> rfl

theorem clientCheck_ok (hd : Describes c dg o e) (hq : c.quic = false) (v w : Nat) :
    clientCheck c v = .ok w ↔ w = v ∧ c.sec v = true ∧
      (if dg then highest dg e ≤ v ∧ v ≤ lowest dg e else lowest dg e ≤ v ∧ v ≤ highest dg e) := by
  unfold clientCheck
  rw [dgram_eq hd, hd.minV, hd.maxV, hq]
  generalize lowest dg e = lo
  generalize highest dg e = hi
  cases dg
  · simp only [Bool.false_eq_true, if_false, false_and, or_false]
    by_cases h : v < lo ∨ v > hi
    · rw [if_pos h]; simp; omega
    · rw [if_neg h]
      have hr : lo ≤ v ∧ v ≤ hi := by omega
      cases c.sec v <;> simp [hr, eq_comm]
  · simp only [if_true]
    by_cases h : v > lo ∨ v < hi
    · rw [if_pos h]; simp; omega
    · rw [if_neg h]
      have hr : hi ≤ v ∧ v ≤ lo := by omega
      cases c.sec v <;> simp [hr, eq_comm]

/-- A client without 1.3 (`min` and `max` are then the same version). -/
theorem client_no13 (hd : Describes c dg o e) (hq : c.quic = false) (h13 : e.v13 = false)
    (hne : e.v12 = true ∨ e.tlcp = true) (sh : ServerHello) (w : Nat) (f : Flow) :
    client c sh = .ok (w, f) ↔
      f = .legacy ∧ w = sh.version ∧ c.sec w = true ∧ w = if e.v12 then w12 dg else wT := by
  have hm : highest dg e = (if e.v12 then w12 dg else wT) ∧
      lowest dg e = (if e.v12 then w12 dg else wT) := by
    unfold highest lowest
    rw [h13]
    rcases hne with h | h
    · simp [h]
    · cases e.v12 <;> simp [h]
  have hv : c.maxV = vTLS12 ∨ c.maxV = vTLCP ∨ c.maxV = vDTLS12 := by
    rw [hd.maxV, hm.1]
    cases e.v12
    · exact Or.inr (Or.inl rfl)
    · cases dg
      · exact Or.inl rfl
      · exact Or.inr (Or.inr rfl)
  unfold client
  rw [if_pos hv]
  have hk := clientCheck_ok hd hq sh.version
  rw [hm.1, hm.2] at hk
  generalize (if e.v12 then w12 dg else wT) = x at *
  constructor
  · intro h
    cases hc : clientCheck c sh.version with
    | error er => rw [hc] at h; simp at h
    | ok u =>
      rw [hc] at h
      have := Prod.mk.inj (Except.ok.inj h)
      obtain ⟨a1, a2, a3⟩ := (hk u).1 hc
      obtain ⟨rfl, rfl⟩ := this
      refine ⟨rfl, a1, a1 ▸ a2, ?_⟩
      rw [a1]
      split at a3 <;> omega
  · rintro ⟨rfl, h1, h2, h3⟩
    have : clientCheck c sh.version = .ok w := (hk w).2 ⟨h1, h1 ▸ h2, by
      rw [← h1, h3]; simp⟩
    rw [this]

/-- A client with 1.3. -/
theorem client_13 (hd : Describes c dg o e) (hq : c.quic = false) (h13 : e.v13 = true)
    (sh : ServerHello) (w : Nat) (f : Flow) :
    client c sh = .ok (w, f) ↔
      (f = .tls13 ∧ w = w13 dg ∧ sh.version = w12 dg ∧ sh.sv = some (w13 dg)) ∨
      (f = .legacy ∧ w = sh.version ∧ sh.sv = none ∧ c.sec w = true ∧
        ((w = w12 dg ∧ e.v12 = true ∧ ¬ Marked sh.random) ∨ w = w13 dg)) := by
  have hhi : highest dg e = w13 dg := by simp [highest, h13]
  have hlo : lowest dg e = if e.v12 then w12 dg else w13 dg := by
    cases h : e.v12 <;> simp [lowest, h13, h]
  have hv : ¬ (c.maxV = vTLS12 ∨ c.maxV = vTLCP ∨ c.maxV = vDTLS12) := by
    rw [hd.maxV, hhi]; cases dg <;> decide
  have hv' : c.maxV = vTLS13 ∨ c.maxV = vDTLS13 := by
    rw [hd.maxV, hhi]; cases dg <;> decide
  have hkk := clientCheck_ok hd hq sh.version
  rw [hhi, hlo] at hkk
  have hrange : (if dg = true then w13 dg ≤ sh.version ∧ sh.version ≤ (if e.v12 then w12 dg else w13 dg)
      else (if e.v12 then w12 dg else w13 dg) ≤ sh.version ∧ sh.version ≤ w13 dg) ↔
      ((sh.version = w12 dg ∧ e.v12 = true) ∨ sh.version = w13 dg) := by
    cases dg <;> cases e.v12 <;> simp [w12, w13] <;> omega
  simp only [hrange] at hkk
  have his : isDtls13Client c = dg := by
    unfold isDtls13Client
    have k : ∀ dg a b t : Bool, (dg && has (VSet.mask dg ⟨a, b, t⟩) bDTLS13) = (dg && b) := by
      decide +kernel
    rw [dgram_eq hd, hd.version]
    obtain ⟨a, b, t⟩ := e
    rw [k]
    dsimp only at h13
    subst h13; cases dg <;> rfl
  unfold client
  rw [if_neg hv, if_pos hv']
  unfold client13 getNegotiated
  rw [his, hq]
  cases hsv : sh.sv with
  | some x =>
    simp only [reduceCtorEq, false_and, and_false, or_false, Option.some.injEq]
    have h12w : (if dg = true then vDTLS12 else vTLS12) = w12 dg := by cases dg <;> rfl
    have h13w : (if dg = true then vDTLS13 else vTLS13) = w13 dg := by cases dg <;> rfl
    rw [h12w, h13w]
    by_cases h1 : sh.version = w12 dg
    · by_cases h2 : x = w13 dg
      · have h3 : is13 (w13 dg) = true := by cases dg <;> decide
        simp only [h1, h2, ne_eq, not_true_eq_false, if_false, h3, Bool.not_true, Bool.false_eq_true,
          Except.ok.injEq, Prod.mk.injEq, and_true]
        constructor
        · rintro ⟨rfl, rfl⟩; exact ⟨rfl, rfl⟩
        · rintro ⟨rfl, rfl⟩; exact ⟨rfl, rfl⟩
      · simp [h1, h2]
    · simp [h1]
  | none =>
    simp only [reduceCtorEq, and_false, false_or, true_and]
    have hdown : checkDowngrade sh 0 =
        if (sh.version = vTLS12 ∨ sh.version = vDTLS12) ∧ Marked sh.random then .error .unsupported
        else if sh.version = vTLS12 ∨ sh.version = vDTLS12 then .ok sh.version else .ok 0 := by
      unfold checkDowngrade Marked
      by_cases h1 : sh.version = vTLS12 ∨ sh.version = vDTLS12
      · rw [if_pos h1]
        by_cases h2 : (sh.random.drop 24).take 8 = downgradeBytes
        · rw [if_neg (by simp [h2]), if_pos ⟨h1, h2⟩]
        · rw [if_pos h2, if_neg (fun h => h2 h.2), if_pos h1]
      · rw [if_neg h1, if_neg (fun h => h1 h.1), if_neg h1]
    have hw : ∀ v, (v = w12 dg ∧ e.v12 = true) ∨ v = w13 dg → ¬ v < vTLS12 := by
      intro v h; cases dg <;> simp only [w12, w13, vTLS12, if_true, Bool.false_eq_true, if_false] at * <;> omega
    have h12v : sh.version = w12 dg → (sh.version = vTLS12 ∨ sh.version = vDTLS12) := by
      cases dg
      · exact fun h => Or.inl h
      · exact fun h => Or.inr h
    have h13v : sh.version = w13 dg → ¬ (sh.version = vTLS12 ∨ sh.version = vDTLS12) := by
      intro h; rw [h]; cases dg <;> decide
    have i12 : is13 vTLS12 = false := by decide
    have i12' : is13 vDTLS12 = false := by decide
    have i0 : is13 0 = false := by decide
    rw [hdown]
    simp only [Bool.false_eq_true, if_false]
    have hfin : ∀ r : Except Err Nat, (∀ y, r = .ok y → is13 y = false) → (r = .error .unsupported ∨ ∃ y, r = .ok y) →
        ((match r with
          | .error er => .error er
          | .ok v => if (!is13 v) = true then
              (match clientCheck c sh.version with
                | .error er => .error er
                | .ok w => .ok (w, Flow.legacy)) else .ok (v, .tls13)) = (.ok (w, f) : Except Err (Nat × Flow)) ↔
          (∃ y, r = .ok y) ∧ f = .legacy ∧ clientCheck c sh.version = .ok w) := by
      intro r hr hr'
      rcases hr' with rfl | ⟨y, rfl⟩
      · simp
      · simp only [hr y rfl, Bool.not_false, if_true]
        cases clientCheck c sh.version with
        | error er => simp
        | ok u => simp [eq_comm, and_comm]
    by_cases hlt : sh.version < vTLS12
    · simp only [if_pos hlt]
      constructor
      · intro h; simp at h
      · rintro ⟨_, h1, _, h3⟩
        have : (w = w12 dg ∧ e.v12 = true) ∨ w = w13 dg := by
          rcases h3 with h3 | h3
          · exact Or.inl ⟨h3.1, h3.2.1⟩
          · exact Or.inr h3
        rw [h1] at this
        exact absurd hlt (hw _ this)
    · simp only [if_neg hlt]
      refine (hfin _ ?_ ?_).trans ?_
      rotate_left 2
      · rw [hkk]
        by_cases hv12 : sh.version = vTLS12 ∨ sh.version = vDTLS12
        · by_cases hmk : Marked sh.random
          · rw [if_pos ⟨hv12, hmk⟩]
            simp only [reduceCtorEq, exists_false, false_and, hmk, not_true_eq_false, and_false, false_or, false_iff]
            rintro ⟨_, h1, _, h3⟩
            exact h13v (h1 ▸ h3) hv12
          · rw [if_neg (fun h => hmk h.2), if_pos hv12]
            simp only [Except.ok.injEq, exists_eq', true_and, hmk, not_false_eq_true, and_true]
            constructor
            · rintro ⟨h1, h2, h3, h4⟩; subst h2; exact ⟨h1, rfl, h3, h4⟩
            · rintro ⟨h1, h2, h3, h4⟩; subst h2; exact ⟨h1, rfl, h3, h4⟩
        · rw [if_neg (fun h => hv12 h.1), if_neg hv12]
          simp only [Except.ok.injEq, exists_eq', true_and]
          constructor
          · rintro ⟨h1, h2, h3, h4⟩; subst h2
            rcases h4 with h4 | h4
            · exact absurd (h12v h4.1) hv12
            · exact ⟨h1, rfl, h3, Or.inr h4⟩
          · rintro ⟨h1, h2, h3, h4⟩; subst h2
            rcases h4 with h4 | h4
            · exact absurd (h12v h4.1) hv12
            · exact ⟨h1, rfl, h3, Or.inr h4⟩
      · intro y hy
        split at hy
        · simp at hy
        · split at hy
          · rename_i h
            have := Except.ok.inj hy
            subst this
            rcases h with h | h <;> rw [h] <;> assumption
          · have := Except.ok.inj hy
            subst this; exact i0
      · split
        · exact Or.inl rfl
        · split
          · exact Or.inr ⟨_, rfl⟩
          · exact Or.inr ⟨_, rfl⟩

/-- The hello of a client with enabled versions `e`. -/
def helloOf (dg : Bool) (e : VSet) : ClientHello :=
  if e.v13 = true then ⟨w12 dg, if e.v12 then [w13 dg, w12 dg] else [w13 dg], false⟩
  else ⟨highest dg e, [], false⟩

set_option synthInstance.maxHeartbeats 400000 in
set_option synthInstance.maxSize 4000 in
theorem agree_fin : ∀ (dg a b t a' b' t' : Bool),
    (∃ v ∈ [w13 dg, w12 dg, wT], Usable dg ⟨a, b, t⟩ v ∧ Enabled dg ⟨a', b', t'⟩ v) →
    ∃ v ∈ [w13 dg, w12 dg, wT], Usable dg ⟨a, b, t⟩ v ∧ Enabled dg ⟨a', b', t'⟩ v ∧
      Offered dg ⟨a', b', t'⟩ (helloOf dg ⟨a, b, t⟩) v ∧
      (∀ v' ∈ [w13 dg, w12 dg, wT], Enabled dg ⟨a', b', t'⟩ v' →
        Offered dg ⟨a', b', t'⟩ (helloOf dg ⟨a, b, t⟩) v' → rank v' ≤ rank v) ∧
      (∀ v' ∈ [w13 dg, w12 dg, wT], Usable dg ⟨a, b, t⟩ v' →
        Enabled dg ⟨a', b', t'⟩ v' → rank v' ≤ rank v) ∧
      (v = w12 dg → b = true → b' = false ∧ a = true) ∧
      (b = false → v = if a then w12 dg else wT) ∧ (v = wT → b = false) := by
  decide +kernel

theorem enabled_mem {v : Nat} (h : Enabled dg e v) : v ∈ [w13 dg, w12 dg, wT] := by
  rcases h with ⟨h, _⟩ | ⟨h, _⟩ | ⟨h, _⟩ <;> simp [h]

end Verif.Tls.Version
