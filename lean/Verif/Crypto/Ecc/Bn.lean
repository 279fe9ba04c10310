import Mathlib.Data.ZMod.Basic
import Mathlib.Algebra.Field.ZMod
import Mathlib.FieldTheory.Finite.Basic
import Verif.Crypto.Ecc.Spec
import Verif.Crypto.Bn.NistProps
import Verif.Crypto.Bn.GcdProps

/-! The field routines of the library, on big numbers of 64-bit words, and the proof that they calculate in the integers modulo
the prime. -/
namespace Verif.Crypto.Ecc
open Verif.Crypto.Bn

/-- The result of a reduction that can fail. -/
def exOpt {ε β : Type} : Except ε β → Option β
  | .ok r => some r
  | .error _ => none

/-- The result of a NIST or SM2 reduction. -/
def optEx {ε β : Type} : Option (Except ε β) → Option β
  | some (.ok r) => some r
  | _ => none

/-- `ECP_HalfPGet`, ecp_simple.c:163-179: `(p + 1) / 2`. The shift does not fail (`bn_rshift`). -/
def halfP (m : Bn 32) : Bn 32 := match bnRshift (bnAddLimb m 1) 1 with | some r => r | none => bnZero

/-- The routines with the modulus `m` (`para->p`) and the two routines of the method. All numbers have the room of the modulus
(`BN_Create(BN_Bits(para->p))`, ecc.c:29-45). -/
def bnFld (mul : Bn 32 → Bn 32 → Option (Bn 32)) (sqr : Bn 32 → Option (Bn 32)) (m : Bn 32) : Fld (Bn 32) where
  mul := mul
  sqr := sqr
  add := fun a b => exOpt (modAddQuick m.data.length m.data.length m a b)
  sub := fun a b => exOpt (modSubQuick m.data.length m.data.length m a b)
  modMul := fun a b => (bnModMul a b m).join
  modSqr := fun a => (bnModSqr a m).join
  modAdd := fun a b => (bnModAdd a b m).join
  modInv := fun a => (bnModInv a m).join
  subFromP := fun a => bnSub m a
  isZero := fun a => decide (a.data.length = 0)
  isOne := isOne
  eq := fun a b => decide (bnCmp a b = 0)
  zero := bnZero
  one := ⟨false, [1]⟩
  half := halfP m

/-- EC_METHOD_NIST, ecc_method.c:38-53. -/
def nistFld (m : Bn 32) : Fld (Bn 32) :=
  bnFld (fun a b => optEx (nistEccMul m.data.length m.data.length m a b)) (fun a => optEx (nistEccSqr m.data.length m a)) m

/-- EC_METHOD_SM2_NIST, ecc_method.c. -/
def sm2Fld (m : Bn 32) : Fld (Bn 32) :=
  bnFld (fun a b => optEx (sm2EccMul m.data.length m.data.length m a b)) (fun a => optEx (sm2EccSqr m.data.length m a)) m

section
variable {p : Nat} {m : Bn 32} (hm : Bn.Spec.int m = p)
include hm

theorem cast_mod (v : Int) : ((v % Bn.Spec.int m : Int) : ZMod p) = v := by rw [hm, ZMod.intCast_mod]

theorem isMod_res (hp : 0 < p) {r : Bn 32} {v : Int} (h : Bn.Spec.IsMod r v m) : Bn.Spec.Residue m r ∧ (Bn.Spec.int r : ZMod p) = v := by
  obtain ⟨h1, h2⟩ := h
  have e := Int.emod_nonneg v (b := Bn.Spec.int m) (by omega)
  have e' := Int.emod_lt_of_pos v (b := Bn.Spec.int m) (by omega)
  exact ⟨⟨h2, by omega, by omega⟩, by rw [h1, cast_mod hm]⟩

theorem res_inj {a b : Int} (ha : 0 ≤ a ∧ a < p) (hb : 0 ≤ b ∧ b < p) (h : (a : ZMod p) = b) : a = b := by
  have := (ZMod.intCast_eq_intCast_iff' a b p).mp h
  rwa [Int.emod_eq_of_lt ha.1 ha.2, Int.emod_eq_of_lt hb.1 hb.2] at this

end

theorem int_zero : Bn.Spec.int (bnZero : Bn 32) = 0 := int_of_nil rfl

theorem int_one : Bn.Spec.int (⟨false, [1]⟩ : Bn 32) = 1 := by
  decide +kernel

theorem wf_zero : Bn.Spec.WellFormed (bnZero : Bn 32) := (zero_isMod bnZero).2
theorem wf_one : Bn.Spec.WellFormed (⟨false, [1]⟩ : Bn 32) := ⟨fun x h => by rw [show (⟨false, [1]⟩ : Bn 32).data.getLast? = some 1 from rfl] at h; cases h; decide, fun h => by cases h⟩

theorem halfP_spec {p : Nat} {m : Bn 32} (hm : Bn.Spec.int m = p) (hw : Bn.Spec.WellFormed m) (hodd : p % 2 = 1) :
    Bn.Spec.int (halfP m) = ((p + 1) / 2 : Nat) ∧ Bn.Spec.WellFormed (halfP m) := by
  obtain ⟨h1, h2⟩ := bn_addLimb (by decide) m 1 hw
  obtain ⟨r, e, h3, h4⟩ := bn_rshift (j := 5) rfl (bnAddLimb m 1) 1 h2
  unfold halfP
  rw [e]
  refine ⟨?_, h4⟩
  have one : ((1 : W 32).toNat : Int) = 1 := by decide +kernel
  show Bn.Spec.int r = _
  rw [h3, h1, hm, one]
  rw [Int.tdiv_eq_ediv_of_nonneg (by omega)]
  omega

/-- The routines calculate in the field, if those of the method are right. -/
def bnImpl {p : Nat} [Fact p.Prime] (mul : Bn 32 → Bn 32 → Option (Bn 32)) (sqr : Bn 32 → Option (Bn 32)) (m : Bn 32)
    (hm : Bn.Spec.int m = p) (hw : Bn.Spec.WellFormed m) (h2 : 2 < p)
    (hmul : ∀ a b, Bn.Spec.Residue m a → Bn.Spec.Residue m b → ∃ r, mul a b = some r ∧ Bn.Spec.IsMod r (Bn.Spec.int a * Bn.Spec.int b) m)
    (hsqr : ∀ a, Bn.Spec.Residue m a → ∃ r, sqr a = some r ∧ Bn.Spec.IsMod r (Bn.Spec.int a ^ 2) m) :
    Spec.Impl (bnFld mul sqr m) (ZMod p) where
  ok := Bn.Spec.Residue m
  rep := fun a => (Bn.Spec.int a : ZMod p)
  mul := by
    intro a b ha hb
    obtain ⟨r, e, h⟩ := hmul a b ha hb
    obtain ⟨h1, h3⟩ := isMod_res hm (by omega) h
    exact ⟨r, e, h1, by rw [h3]; push_cast; rfl⟩
  sqr := by
    intro a ha
    obtain ⟨r, e, h⟩ := hsqr a ha
    obtain ⟨h1, h3⟩ := isMod_res hm (by omega) h
    exact ⟨r, e, h1, by rw [h3]; push_cast; ring⟩
  add := by
    intro a b ha hb
    obtain ⟨r, e, h⟩ := addQuick_exact m.data.length m.data.length m a b hw ha hb (le_refl _) (le_refl _)
    obtain ⟨h1, h3⟩ := isMod_res hm (by omega) h
    exact ⟨r, by show exOpt _ = _; rw [e]; rfl, h1, by rw [h3]; push_cast; rfl⟩
  sub := by
    intro a b ha hb
    obtain ⟨r, e, h⟩ := subQuick_exact m.data.length m.data.length m a b hw ha hb (le_refl _) (le_refl _)
    obtain ⟨h1, h3⟩ := isMod_res hm (by omega) h
    exact ⟨r, by show exOpt _ = _; rw [e]; rfl, h1, by rw [h3]; push_cast; rfl⟩
  modMul := by
    intro a b ha hb
    obtain ⟨r, e, h, hwr⟩ := bnModMul_spec (j := 5) rfl a b m ((wf_iff (by decide) a).1 ha.1) ((wf_iff (by decide) b).1 hb.1)
      ((wf_iff (by decide) m).1 hw) (by rw [← int_eq]; omega)
    obtain ⟨h1, h3⟩ := isMod_res hm (v := Bn.Spec.int a * Bn.Spec.int b) (by omega)
      ⟨by simpa only [int_eq] using h, (wf_iff (by decide) r).2 hwr⟩
    exact ⟨r, by show Option.join _ = _; rw [e]; rfl, h1, by rw [h3]; push_cast; rfl⟩
  modSqr := by
    intro a ha
    obtain ⟨r, e, h, hwr⟩ := bnModSqr_spec (j := 5) rfl a m ((wf_iff (by decide) a).1 ha.1)
      ((wf_iff (by decide) m).1 hw) (by rw [← int_eq]; omega)
    obtain ⟨h1, h3⟩ := isMod_res hm (v := Bn.Spec.int a * Bn.Spec.int a) (by omega)
      ⟨by simpa only [int_eq] using h, (wf_iff (by decide) r).2 hwr⟩
    exact ⟨r, by show Option.join _ = _; rw [e]; rfl, h1, by rw [h3]; push_cast; rfl⟩
  modAdd := by
    intro a b ha hb
    obtain ⟨r, e, h, hwr⟩ := bnModAdd_spec (j := 5) rfl a b m ((wf_iff (by decide) a).1 ha.1) ((wf_iff (by decide) b).1 hb.1)
      ((wf_iff (by decide) m).1 hw) (by rw [← int_eq]; omega)
    obtain ⟨h1, h3⟩ := isMod_res hm (v := Bn.Spec.int a + Bn.Spec.int b) (by omega)
      ⟨by simpa only [int_eq] using h, (wf_iff (by decide) r).2 hwr⟩
    exact ⟨r, by show Option.join _ = _; rw [e]; rfl, h1, by rw [h3]; push_cast; rfl⟩
  modInv := by
    intro a ha h0
    have hpr : p.Prime := Fact.out
    have hg : Int.gcd (Bn.Spec.int a) (Bn.Spec.int m) = 1 := by
      rw [hm, Int.gcd_comm, Int.gcd_def, Int.natAbs_natCast, ← Nat.coprime_iff_gcd_eq_one, Nat.Prime.coprime_iff_not_dvd hpr]
      intro hd
      exact h0 ((ZMod.intCast_zmod_eq_zero_iff_dvd _ p).mpr (Int.natCast_dvd.mpr hd))
    obtain ⟨r, e, h1, h3, h4, h5⟩ := (modInv_exact (j := 5) rfl a m ha.1 hw (by rw [hm]; omega)).1 hg
    refine ⟨r, by show Option.join _ = _; rw [e]; rfl, ⟨h5, h3, by omega⟩, ?_⟩
    have h6 : ((Bn.Spec.int r * Bn.Spec.int a : Int) : ZMod p) = 1 := by
      rw [← cast_mod hm, h1]; simp
    push_cast at h6
    exact eq_inv_of_mul_eq_one_left h6
  subFromP := by
    intro a ha h0
    obtain ⟨h1, h3⟩ := bn_sub (by decide) m a hw ha.1
    have : Bn.Spec.int a ≠ 0 := by intro e; rw [e] at h0; simp at h0
    obtain ⟨-, a1, a2⟩ := ha
    refine ⟨⟨h3, by show 0 ≤ Bn.Spec.int (bnSub m a); omega, by show Bn.Spec.int (bnSub m a) < _; omega⟩, ?_⟩
    show (Bn.Spec.int (bnSub m a) : ZMod p) = _
    rw [h1, hm]
    push_cast
    simp
  isZero := by
    intro a ha
    show decide (a.data.length = 0) = true ↔ _
    rw [decide_eq_true_iff, zero_iff (by decide) a ((wf_iff (by decide) a).1 ha.1), ← int_eq]
    constructor
    · intro e; rw [e]; simp
    · intro e
      exact res_inj hm ⟨ha.2.1, by have := ha.2.2; omega⟩ ⟨le_refl _, by omega⟩ (by rw [e]; simp)
  isOne := by
    intro a ha
    show isOne a = true ↔ _
    rw [isOne_iff (by decide) a ((wf_iff (by decide) a).1 ha.1), ← int_eq]
    constructor
    · intro e; rw [e]; simp
    · intro e
      exact res_inj hm ⟨ha.2.1, by have := ha.2.2; omega⟩ ⟨by omega, by omega⟩ (by rw [e]; simp)
  eq := by
    intro a b ha hb
    show decide (bnCmp a b = 0) = true ↔ _
    rw [decide_eq_true_iff, bn_cmp (by decide) a b ha.1 hb.1]
    constructor
    · intro e
      have : Bn.Spec.int a = Bn.Spec.int b := by
        split at e
        · omega
        · split at e <;> omega
      rw [this]
    · intro e
      have := res_inj hm ⟨ha.2.1, by have := ha.2.2; omega⟩ ⟨hb.2.1, by have := hb.2.2; omega⟩ e
      rw [if_neg (by omega), if_neg (by omega)]
  zero := ⟨⟨wf_zero, by show 0 ≤ Bn.Spec.int bnZero; rw [int_zero], by show Bn.Spec.int bnZero < _; rw [int_zero]; omega⟩,
    by show (Bn.Spec.int bnZero : ZMod p) = 0; rw [int_zero]; simp⟩
  one := ⟨⟨wf_one, by show 0 ≤ Bn.Spec.int ⟨false, [1]⟩; rw [int_one]; omega, by show Bn.Spec.int ⟨false, [1]⟩ < _; rw [int_one]; omega⟩,
    by show (Bn.Spec.int ⟨false, [1]⟩ : ZMod p) = 1; rw [int_one]; simp⟩
  half := by
    have hpr : p.Prime := Fact.out
    have hodd : p % 2 = 1 := by
      rcases hpr.eq_two_or_odd with h | h
      · omega
      · exact h
    obtain ⟨h1, h3⟩ := halfP_spec hm hw hodd
    refine ⟨⟨h3, by show 0 ≤ Bn.Spec.int (halfP m); omega, by show Bn.Spec.int (halfP m) < _; omega⟩, ?_⟩
    show 2 * (Bn.Spec.int (halfP m) : ZMod p) = 1
    rw [h1]
    have : 2 * ((p + 1) / 2) = p + 1 := by omega
    have h4 : ((2 * ((p + 1) / 2) : Nat) : ZMod p) = ((p + 1 : Nat) : ZMod p) := by rw [this]
    rw [Nat.cast_mul] at h4
    rw [Int.cast_natCast]
    push_cast at h4
    rw [h4]
    simp

/-- The routines of EC_METHOD_NIST calculate in the field of `p` elements. -/
def nistImpl {p : Nat} [Fact p.Prime] (m : Bn 32) (hm : Bn.Spec.int m = p) (hn : Bn.Spec.NistModulus m) (h2 : 2 < p) :
    Spec.Impl (nistFld m) (ZMod p) :=
  bnImpl _ _ m hm hn.1 h2
    (fun a b ha hb => by
      obtain ⟨r, e, h⟩ := nistMul_exact m.data.length m.data.length m a b hn ha hb (le_refl _) (le_refl _)
      exact ⟨r, by rw [e]; rfl, h⟩)
    (fun a ha => by
      obtain ⟨r, e, h⟩ := nistSqr_exact m.data.length m a hn ha (le_refl _)
      exact ⟨r, by rw [e]; rfl, h⟩)

/-- The routines of EC_METHOD_SM2_NIST calculate in the field of SM2. -/
def sm2Impl {p : Nat} [Fact p.Prime] (m : Bn 32) (hm : Bn.Spec.int m = p) (hs : Bn.Spec.int m = Bn.Spec.sm2)
    (hw : Bn.Spec.WellFormed m) (h2 : 2 < p) : Spec.Impl (sm2Fld m) (ZMod p) :=
  bnImpl _ _ m hm hw h2
    (fun a b ha hb => by
      obtain ⟨r, e, h⟩ := sm2Mul_exact m.data.length m.data.length m a b hw hs ha hb (le_refl _) (le_refl _)
      exact ⟨r, by rw [e]; rfl, h⟩)
    (fun a ha => by
      obtain ⟨r, e, h⟩ := sm2Sqr_exact m.data.length m a hw hs ha (le_refl _)
      exact ⟨r, by rw [e]; rfl, h⟩)

end Verif.Crypto.Ecc
