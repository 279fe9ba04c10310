import Verif.Crypto.Modes.Stream
import Mathlib.Tactic.Ring
import Mathlib.Tactic.Linarith

namespace Verif.Crypto.Modes

open Verif.Common

/-! ## Byte-at-a-time view -/

/-- Run a partial transducer over a list. -/
def foldB (step : σ → α → Option (σ × α)) : σ → List α → Option (σ × List α)
  | c, [] => some (c, [])
  | c, b :: bs => match step c b with
    | none => none
    | some (c1, o) => match foldB step c1 bs with
      | none => none
      | some (c2, os) => some (c2, o :: os)

/-- The continuation of one step. -/
def thenFold (step : σ → α → Option (σ × α)) (bs : List α) (r : Option (σ × α)) :
    Option (σ × List α) :=
  r.bind fun q => (foldB step q.1 bs).map fun z => (z.1, q.2 :: z.2)

theorem foldB_cons (step : σ → α → Option (σ × α)) (c : σ) (b : α) (bs : List α) :
    foldB step c (b :: bs) = thenFold step bs (step c b) := by
  simp only [foldB, thenFold]
  cases step c b with
  | none => rfl
  | some r =>
    simp only [Option.bind_some]
    cases foldB step r.1 bs with
    | none => rfl
    | some q => rfl

theorem foldB_append (step : σ → α → Option (σ × α)) (c : σ) (x y : List α) :
    foldB step c (x ++ y) = match foldB step c x with
      | none => none
      | some (c1, o) => match foldB step c1 y with
        | none => none
        | some (c2, os) => some (c2, o ++ os) := by
  induction x generalizing c with
  | nil =>
    simp only [List.nil_append, foldB]
    cases foldB step c y with
    | none => rfl
    | some r => rfl
  | cons b bs ih =>
    simp only [List.cons_append, foldB]
    cases step c b with
    | none => rfl
    | some r =>
      obtain ⟨c1, o⟩ := r
      simp only [ih]
      cases foldB step c1 bs with
      | none => rfl
      | some r2 =>
        obtain ⟨c2, os⟩ := r2
        simp only
        cases foldB step c2 y with
        | none => rfl
        | some r3 => rfl

theorem foldB_append_some {step : σ → α → Option (σ × α)} {c c1 : σ} {x y o : List α}
    (h : foldB step c x = some (c1, o)) :
    foldB step c (x ++ y) = (foldB step c1 y).map fun r => (r.1, o ++ r.2) := by
  rw [foldB_append, h]
  simp only
  cases foldB step c1 y with
  | none => rfl
  | some r => rfl

theorem foldB_length {step : σ → α → Option (σ × α)} {c c1 : σ} {x o : List α}
    (h : foldB step c x = some (c1, o)) : o.length = x.length := by
  induction x generalizing c o c1 with
  | nil => simp [foldB] at h; simp [h.2]
  | cons b bs ih =>
    simp only [foldB] at h
    split at h
    · cases h
    · split at h
      · cases h
      · rename_i h2
        simp only [Option.some.injEq, Prod.mk.injEq] at h
        rw [← h.2]
        simp [ih h2]

/-- A transducer inverse to another one at every step is inverse on every list. -/
theorem foldB_inverse {s t : σ → α → Option (σ × α)}
    (hst : ∀ c b c' o, s c b = some (c', o) → t c o = some (c', b))
    {c c' : σ} {x o : List α} (h : foldB s c x = some (c', o)) : foldB t c o = some (c', x) := by
  induction x generalizing c o c' with
  | nil => simp [foldB] at h; simp [h.1, h.2, foldB]
  | cons b bs ih =>
    simp only [foldB] at h
    split at h
    · cases h
    · rename_i c1 ob h1
      split at h
      · cases h
      · rename_i c2 os h2
        simp only [Option.some.injEq, Prod.mk.injEq] at h
        rw [← h.1, ← h.2]
        simp only [foldB, hst _ _ _ _ h1]
        rw [ih h2]

theorem xor_cancel (a b : Byte) : (a ^^^ b) ^^^ b = a := by
  rw [BitVec.xor_assoc, BitVec.xor_self, BitVec.xor_zero]

theorem xor_cancel_left (a b : Byte) : a ^^^ (a ^^^ b) = b := by
  rw [← BitVec.xor_assoc, BitVec.xor_self, BitVec.zero_xor]

theorem xorB_nil_left (b : List Byte) : xorB [] b = [] := rfl
theorem xorB_cons (x y : Byte) (a b : List Byte) : xorB (x :: a) (y :: b) = (x ^^^ y) :: xorB a b := rfl

theorem xorB_comm (a b : List Byte) : xorB a b = xorB b a := by
  unfold xorB
  induction a generalizing b with
  | nil => simp
  | cons x a ih => cases b with
    | nil => simp
    | cons y b => simp [ih, BitVec.xor_comm]

theorem xorB_length (a b : List Byte) : (xorB a b).length = min a.length b.length := by
  simp [xorB]

theorem incRev_length (n : Nat) (l : List Byte) : (incRev n l).length = l.length := by
  induction l generalizing n with
  | nil => rfl
  | cons b bs ih => simp [incRev, ih]

theorem incCounter_length (l : List Byte) : (incCounter l).length = l.length := by
  simp [incCounter, incRev_length]

theorem leVal_incRev (n : Nat) (l : List Byte) :
    leVal (incRev n l) = (leVal l + n) % 256 ^ l.length := by
  induction l generalizing n with
  | nil => simp [incRev, leVal, Nat.mod_one]
  | cons b bs ih =>
    simp only [incRev, leVal, List.length_cons, ih]
    have hb := b.isLt
    have e : (BitVec.ofNat 8 ((n + b.toNat) % 256)).toNat = (n + b.toNat) % 256 := by
      simp
    rw [e]
    have h1 : b.toNat + 256 * leVal bs + n
        = 256 * (leVal bs + (n + b.toNat) / 256) + (n + b.toNat) % 256 := by
      have := Nat.div_add_mod (n + b.toNat) 256
      omega
    rw [h1, Nat.pow_succ, Nat.mul_comm (256 ^ bs.length) 256, Nat.mod_mul]
    have h2 : (256 * (leVal bs + (n + b.toNat) / 256) + (n + b.toNat) % 256) % 256
        = (n + b.toNat) % 256 := by omega
    have h3 : (256 * (leVal bs + (n + b.toNat) / 256) + (n + b.toNat) % 256) / 256
        = leVal bs + (n + b.toNat) / 256 := by omega
    rw [h2, h3]

theorem beVal_reverse (l : List Byte) : beVal l.reverse = leVal l := by
  induction l with
  | nil => rfl
  | cons b bs ih =>
    rw [List.reverse_cons, beVal_append_singleton, ih, leVal]
    omega

theorem incCounter_eq (l : List Byte) :
    incCounter l = beBytes l.length ((beVal l + 1) % 256 ^ l.length) := by
  apply beVal_inj
  · simp [incCounter_length]
  · rw [beVal_beBytes, Nat.mod_mod, incCounter, beVal_reverse, leVal_incRev]
    rw [← beVal_reverse, List.reverse_reverse, List.length_reverse]

/-! ## The common shape of the three modes -/

/-- One byte: refill when the offset is 0, then use one pad byte. -/
def stepG (reload : SCtx → SCtx) (use : SCtx → Byte → Option (SCtx × Byte)) (c : SCtx) (b : Byte) :
    Option (SCtx × Byte) :=
  if c.off = 0 then use (reload c) b else use c b

/-- The "left over from last time" loops. -/
def lastG (use : SCtx → Byte → Option (SCtx × Byte)) :
    SCtx → List Byte → Option (SCtx × List Byte × List Byte)
  | c, [] => some (c, [], [])
  | c, b :: bs =>
    if c.off = 0 then some (c, [], b :: bs)
    else match use c b with
      | none => none
      | some (c1, k) => match lastG use c1 bs with
        | none => none
        | some (c', o, r) => some (c', k :: o, r)

theorem foldB_lastG (reload : SCtx → SCtx) (use : SCtx → Byte → Option (SCtx × Byte)) (c : SCtx)
    (inp : List Byte) :
    foldB (stepG reload use) c inp = match lastG use c inp with
      | none => none
      | some (c1, o, rest) => (foldB (stepG reload use) c1 rest).map fun r => (r.1, o ++ r.2) := by
  induction inp generalizing c with
  | nil => simp [foldB, lastG]
  | cons b bs ih =>
    by_cases h0 : c.off = 0
    · simp only [lastG, h0, if_true]
      cases foldB (stepG reload use) c (b :: bs) <;> simp
    · simp only [lastG, if_neg h0, foldB]
      have hs : stepG reload use c b = use c b := by simp [stepG, h0]
      rw [hs]
      cases use c b with
      | none => rfl
      | some r =>
        obtain ⟨c1, k⟩ := r
        simp only
        rw [ih c1]
        cases lastG use c1 bs with
        | none => rfl
        | some r2 =>
          obtain ⟨c2, o, rest⟩ := r2
          simp only
          cases foldB (stepG reload use) c2 rest with
          | none => rfl
          | some r3 => rfl

theorem lastG_rest {use : SCtx → Byte → Option (SCtx × Byte)} {c c1 : SCtx} {inp o rest : List Byte}
    (h : lastG use c inp = some (c1, o, rest)) : rest = [] ∨ c1.off = 0 := by
  induction inp generalizing c o with
  | nil => simp [lastG] at h; simp [h.2.2]
  | cons b bs ih =>
    simp only [lastG] at h
    split at h
    · rename_i h0
      simp only [Option.some.injEq, Prod.mk.injEq] at h
      right; rw [← h.1]; exact h0
    · split at h
      · cases h
      · split at h
        · cases h
        · rename_i h2
          simp only [Option.some.injEq, Prod.mk.injEq] at h
          rw [h.1, h.2.2] at h2
          exact ih h2

theorem lastG_ivLen {use : SCtx → Byte → Option (SCtx × Byte)}
    (hu : ∀ c b c' o, use c b = some (c', o) → c'.iv.length = c.iv.length)
    {c c1 : SCtx} {inp o rest : List Byte}
    (h : lastG use c inp = some (c1, o, rest)) : c1.iv.length = c.iv.length := by
  induction inp generalizing c o with
  | nil => simp [lastG] at h; simp [h.1]
  | cons b bs ih =>
    simp only [lastG] at h
    split at h
    · simp only [Option.some.injEq, Prod.mk.injEq] at h
      rw [h.1]
    · split at h
      · cases h
      · rename_i h1
        split at h
        · cases h
        · rename_i h2
          simp only [Option.some.injEq, Prod.mk.injEq] at h
          rw [h.1, h.2.2] at h2
          rw [ih h2, hu _ _ _ _ h1]

theorem foldB_ivLen {step : SCtx → Byte → Option (SCtx × Byte)}
    (hu : ∀ c b c' o, c.iv.length = 16 → step c b = some (c', o) → c'.iv.length = 16)
    {c c1 : SCtx} {inp o : List Byte} (hc : c.iv.length = 16)
    (h : foldB step c inp = some (c1, o)) : c1.iv.length = 16 := by
  induction inp generalizing c o with
  | nil => simp [foldB] at h; rw [← h.1]; exact hc
  | cons b bs ih =>
    simp only [foldB] at h
    split at h
    · cases h
    · rename_i h1
      split at h
      · cases h
      · rename_i h2
        simp only [Option.some.injEq, Prod.mk.injEq] at h
        rw [h.1] at h2
        exact ih (hu _ _ _ _ hc h1) h2

/-! ### CTR -/

def ctrReload (K : Cipher) (c : SCtx) : SCtx := { iv := incCounter c.iv, buf := K.enc c.iv, off := 0 }

def ctrUse (c : SCtx) (b : Byte) : Option (SCtx × Byte) :=
  match c.buf[c.off]? with
  | none => none
  | some k => some ({ c with off := (c.off + 1) % 16 }, b ^^^ k)

def ctrStep (K : Cipher) := stepG (ctrReload K) ctrUse

theorem ctrLast_eq (c : SCtx) (inp : List Byte) : ctrLast c inp = lastG ctrUse c inp := by
  induction inp generalizing c with
  | nil => rfl
  | cons b bs ih =>
    have e : (c.off + 1) &&& (16 - 1) = (c.off + 1) % 16 := by
      have := Nat.and_two_pow_sub_one_eq_mod (c.off + 1) 4
      simpa using this
    simp only [ctrLast, lastG, ctrUse, ih, e]
    split
    · rfl
    · cases c.buf[c.off]? with
      | none => rfl
      | some k => rfl

/-- Using the pad of CTR (`buf`) from `off` on. -/
theorem ctr_tail (K : Cipher) (iv buf : List Byte) (bs : List Byte) :
    ∀ (off : Nat) (b : Byte), buf.length = 16 → off + (b :: bs).length ≤ 16 →
    thenFold (ctrStep K) bs (ctrUse ⟨iv, buf, off⟩ b) = some (⟨iv, buf, (off + (b :: bs).length) % 16⟩, xorB (b :: bs) (buf.drop off)) := by
  induction bs with
  | nil =>
    intro off b hb hl
    simp only [List.length_cons, List.length_nil] at hl ⊢
    have ho : off < buf.length := by omega
    rw [List.drop_eq_getElem_cons ho, xorB_cons, xorB_nil_left]
    simp [thenFold, ctrUse, List.getElem?_eq_getElem ho, foldB]
  | cons b2 bs ih =>
    intro off b hb hl
    simp only [List.length_cons] at hl
    have ho : off < buf.length := by omega
    have hmod : (off + 1) % 16 = off + 1 := by omega
    simp only [ctrUse, List.getElem?_eq_getElem ho, hmod]
    rw [thenFold, Option.bind_some, foldB_cons]
    have hs : ctrStep K ⟨iv, buf, off + 1⟩ b2 = ctrUse ⟨iv, buf, off + 1⟩ b2 := by
      simp [ctrStep, stepG]
    rw [hs, ih (off + 1) b2 hb (by simp only [List.length_cons]; omega)]
    rw [List.drop_eq_getElem_cons ho]
    simp only [xorB_cons, List.length_cons, Option.map_some]
    have e : off + 1 + (bs.length + 1) = off + (bs.length + 1 + 1) := by omega
    rw [e]

theorem ctr_block (K : Cipher) (c : SCtx) (x : List Byte) (hiv : c.iv.length = 16)
    (h0 : c.off = 0) (h1 : 0 < x.length) (h2 : x.length ≤ 16) :
    foldB (ctrStep K) c x
      = some (⟨incCounter c.iv, K.enc c.iv, x.length % 16⟩, xorB x (K.enc c.iv)) := by
  cases x with
  | nil => simp at h1
  | cons b bs =>
    have hs : ctrStep K c b = ctrUse ⟨incCounter c.iv, K.enc c.iv, 0⟩ b := by
      simp [ctrStep, stepG, h0, ctrReload]
    rw [foldB_cons, hs]
    have := ctr_tail K (incCounter c.iv) (K.enc c.iv) bs 0 b (K.encLen _ hiv) (by omega)
    rw [Nat.zero_add, List.drop_zero] at this
    exact this

theorem ctrBlocks_eq (K : Cipher) (fuel : Nat) (c : SCtx) (inp : List Byte)
    (hiv : c.iv.length = 16) (h0 : c.off = 0) (hf : inp.length ≤ fuel) :
    foldB (ctrStep K) c inp = some (ctrBlocks K fuel c inp) := by
  have rem : ∀ (c : SCtx) (inp : List Byte), c.iv.length = 16 → c.off = 0 → inp.length < 16 →
      foldB (ctrStep K) c inp = some (ctrRem K c inp) := by
    intro c inp hiv h0 hl
    by_cases hz : inp.length = 0
    · have : inp = [] := List.eq_nil_of_length_eq_zero hz
      subst this
      simp [foldB, ctrRem]
    · rw [ctr_block K c inp hiv h0 (by omega) (by omega), Nat.mod_eq_of_lt hl]
      simp [ctrRem, hz]
  induction fuel generalizing c inp with
  | zero =>
    rw [rem c inp hiv h0 (by omega)]
    rfl
  | succ fuel ih =>
    by_cases hl : inp.length ≥ 16
    · simp only [ctrBlocks, if_pos hl]
      conv => lhs; rw [← List.take_append_drop 16 inp]
      have ht : (inp.take 16).length = 16 := by simp; omega
      rw [foldB_append_some (ctr_block K c (inp.take 16) hiv h0 (by omega) (by omega)), ht]
      have hd : (inp.drop 16).length ≤ fuel := by simp; omega
      have := ih { c with iv := incCounter c.iv, buf := K.enc c.iv } (inp.drop 16)
        (by simp [incCounter_length, hiv]) h0 hd
      obtain ⟨iv, buf, off⟩ := c
      simp only at h0 hiv this ⊢
      subst h0
      simp only [Nat.mod_self, this, Option.map_some]
    · simp only [ctrBlocks, if_neg hl]
      exact rem c inp hiv h0 (by omega)

theorem ctrUse_iv (c : SCtx) (b : Byte) (c' : SCtx) (o : Byte) (h : ctrUse c b = some (c', o)) :
    c'.iv.length = c.iv.length := by
  simp only [ctrUse] at h
  split at h
  · cases h
  · simp only [Option.some.injEq, Prod.mk.injEq] at h
    rw [← h.1]

theorem ctrCrypt_eq (K : Cipher) (c : SCtx) (inp : List Byte) (hiv : c.iv.length = 16) :
    ctrCrypt K c inp = foldB (ctrStep K) c inp := by
  rw [ctrStep, foldB_lastG, ← ctrLast_eq]
  unfold ctrCrypt
  cases hL : ctrLast c inp with
  | none => rfl
  | some r =>
    obtain ⟨c1, o, rest⟩ := r
    rw [ctrLast_eq] at hL
    simp only
    have hl := lastG_ivLen ctrUse_iv hL
    rcases lastG_rest hL with h | h
    · subst h
      simp [ctrBlocks, ctrRem, foldB]
    · have := ctrBlocks_eq K rest.length c1 rest (by omega) h (Nat.le_refl _)
      rw [ctrStep] at this
      rw [this]
      rfl

theorem ctrStep_ivLen (K : Cipher) (c : SCtx) (b : Byte) (c' : SCtx) (o : Byte)
    (hc : c.iv.length = 16) (h : ctrStep K c b = some (c', o)) : c'.iv.length = 16 := by
  simp only [ctrStep, stepG] at h
  split at h
  · rw [ctrUse_iv _ _ _ _ h]
    simp [ctrReload, incCounter_length, hc]
  · rw [ctrUse_iv _ _ _ _ h, hc]

theorem ctrStep_inv (K : Cipher) (c : SCtx) (b : Byte) (c' : SCtx) (o : Byte)
    (h : ctrStep K c b = some (c', o)) : ctrStep K c o = some (c', b) := by
  have hu : ∀ c b c' o, ctrUse c b = some (c', o) → ctrUse c o = some (c', b) := by
    intro c b c' o h
    simp only [ctrUse] at h ⊢
    split at h
    · cases h
    · rename_i k hk
      simp only [Option.some.injEq, Prod.mk.injEq] at h
      rw [← h.1, ← h.2, xor_cancel]
  simp only [ctrStep, stepG] at h ⊢
  split
  · rename_i h0
    rw [if_pos h0] at h
    exact hu _ _ _ _ h
  · rename_i h0
    rw [if_neg h0] at h
    exact hu _ _ _ _ h

/-! ### OFB -/

def ofbReload (K : Cipher) (c : SCtx) : SCtx := { c with iv := K.enc c.iv, off := 0 }

def ofbUse (c : SCtx) (b : Byte) : Option (SCtx × Byte) :=
  match c.iv[c.off]? with
  | none => none
  | some k => some ({ c with off := (c.off + 1) % 16 }, k ^^^ b)

def ofbStep (K : Cipher) := stepG (ofbReload K) ofbUse

theorem ofbLast_eq (c : SCtx) (inp : List Byte) : ofbLast c inp = lastG ofbUse c inp := by
  induction inp generalizing c with
  | nil => rfl
  | cons b bs ih =>
    simp only [ofbLast, lastG, ofbUse, ih]
    split
    · rfl
    · cases c.iv[c.off]? with
      | none => rfl
      | some k => rfl

theorem ofb_tail (K : Cipher) (iv buf : List Byte) (bs : List Byte) :
    ∀ (off : Nat) (b : Byte), iv.length = 16 → off + (b :: bs).length ≤ 16 →
    thenFold (ofbStep K) bs (ofbUse ⟨iv, buf, off⟩ b) = some (⟨iv, buf, (off + (b :: bs).length) % 16⟩, xorB (b :: bs) (iv.drop off)) := by
  induction bs with
  | nil =>
    intro off b hb hl
    simp only [List.length_cons, List.length_nil] at hl ⊢
    have ho : off < iv.length := by omega
    rw [List.drop_eq_getElem_cons ho, xorB_cons, xorB_nil_left, BitVec.xor_comm]
    simp [thenFold, ofbUse, List.getElem?_eq_getElem ho, foldB]
  | cons b2 bs ih =>
    intro off b hb hl
    simp only [List.length_cons] at hl
    have ho : off < iv.length := by omega
    have hmod : (off + 1) % 16 = off + 1 := by omega
    simp only [ofbUse, List.getElem?_eq_getElem ho, hmod]
    rw [thenFold, Option.bind_some, foldB_cons]
    have hs : ofbStep K ⟨iv, buf, off + 1⟩ b2 = ofbUse ⟨iv, buf, off + 1⟩ b2 := by
      simp [ofbStep, stepG]
    rw [hs, ih (off + 1) b2 hb (by simp only [List.length_cons]; omega)]
    rw [List.drop_eq_getElem_cons ho]
    simp only [xorB_cons, List.length_cons, Option.map_some]
    have e : off + 1 + (bs.length + 1) = off + (bs.length + 1 + 1) := by omega
    rw [e, BitVec.xor_comm b]

theorem ofb_block (K : Cipher) (c : SCtx) (x : List Byte) (hiv : c.iv.length = 16)
    (h0 : c.off = 0) (h1 : 0 < x.length) (h2 : x.length ≤ 16) :
    foldB (ofbStep K) c x
      = some (⟨K.enc c.iv, c.buf, x.length % 16⟩, xorB x (K.enc c.iv)) := by
  cases x with
  | nil => simp at h1
  | cons b bs =>
    have hs : ofbStep K c b = ofbUse ⟨K.enc c.iv, c.buf, 0⟩ b := by
      simp [ofbStep, stepG, h0, ofbReload]
    rw [foldB_cons, hs]
    have := ofb_tail K (K.enc c.iv) c.buf bs 0 b (K.encLen _ hiv) (by omega)
    rw [Nat.zero_add, List.drop_zero] at this
    exact this

theorem ofbBlocks_eq (K : Cipher) (fuel : Nat) (c : SCtx) (inp : List Byte)
    (hiv : c.iv.length = 16) (h0 : c.off = 0) (hf : inp.length ≤ fuel) :
    foldB (ofbStep K) c inp = some (ofbBlocks K fuel c inp) := by
  induction fuel generalizing c inp with
  | zero =>
    have : inp = [] := List.eq_nil_of_length_eq_zero (by omega)
    subst this
    rfl
  | succ fuel ih =>
    by_cases hz : inp.length = 0
    · have : inp = [] := List.eq_nil_of_length_eq_zero hz
      subst this
      simp [foldB, ofbBlocks]
    · by_cases hl : inp.length ≥ 16
      · simp only [ofbBlocks, if_neg hz, if_pos hl]
        conv => lhs; rw [← List.take_append_drop 16 inp]
        have ht : (inp.take 16).length = 16 := by simp; omega
        rw [foldB_append_some (ofb_block K c (inp.take 16) hiv h0 (by omega) (by omega)), ht]
        have hd : (inp.drop 16).length ≤ fuel := by simp; omega
        have := ih { c with iv := K.enc c.iv } (inp.drop 16) (K.encLen _ hiv) h0 hd
        obtain ⟨iv, buf, off⟩ := c
        simp only at h0 hiv this ⊢
        subst h0
        simp only [Nat.mod_self, this, Option.map_some]
      · simp only [ofbBlocks, if_neg hz, if_neg hl]
        rw [ofb_block K c inp hiv h0 (by omega) (by omega), Nat.mod_eq_of_lt (by omega)]

theorem ofbUse_iv (c : SCtx) (b : Byte) (c' : SCtx) (o : Byte) (h : ofbUse c b = some (c', o)) :
    c'.iv.length = c.iv.length := by
  simp only [ofbUse] at h
  split at h
  · cases h
  · simp only [Option.some.injEq, Prod.mk.injEq] at h
    rw [← h.1]

theorem ofbCrypt_eq (K : Cipher) (c : SCtx) (inp : List Byte) (hiv : c.iv.length = 16) :
    ofbCrypt K c inp = foldB (ofbStep K) c inp := by
  rw [ofbStep, foldB_lastG, ← ofbLast_eq]
  unfold ofbCrypt
  cases hL : ofbLast c inp with
  | none => rfl
  | some r =>
    obtain ⟨c1, o, rest⟩ := r
    rw [ofbLast_eq] at hL
    simp only
    have hl := lastG_ivLen ofbUse_iv hL
    rcases lastG_rest hL with h | h
    · subst h
      simp [ofbBlocks, foldB]
    · have := ofbBlocks_eq K rest.length c1 rest (by omega) h (Nat.le_refl _)
      rw [ofbStep] at this
      rw [this]
      rfl

theorem ofbStep_ivLen (K : Cipher) (c : SCtx) (b : Byte) (c' : SCtx) (o : Byte)
    (hc : c.iv.length = 16) (h : ofbStep K c b = some (c', o)) : c'.iv.length = 16 := by
  simp only [ofbStep, stepG] at h
  split at h
  · rw [ofbUse_iv _ _ _ _ h]
    simp [ofbReload, K.encLen _ hc]
  · rw [ofbUse_iv _ _ _ _ h, hc]

theorem ofbStep_inv (K : Cipher) (c : SCtx) (b : Byte) (c' : SCtx) (o : Byte)
    (h : ofbStep K c b = some (c', o)) : ofbStep K c o = some (c', b) := by
  have hu : ∀ c b c' o, ofbUse c b = some (c', o) → ofbUse c o = some (c', b) := by
    intro c b c' o h
    simp only [ofbUse] at h ⊢
    split at h
    · cases h
    · rename_i k hk
      simp only [Option.some.injEq, Prod.mk.injEq] at h
      rw [← h.1, ← h.2, xor_cancel_left]
  simp only [ofbStep, stepG] at h ⊢
  split
  · rename_i h0
    rw [if_pos h0] at h
    exact hu _ _ _ _ h
  · rename_i h0
    rw [if_neg h0] at h
    exact hu _ _ _ _ h

end Verif.Crypto.Modes
