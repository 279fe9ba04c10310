import Verif.Crypto.Bn.ExpMulProof
import Verif.Crypto.Bn.MontProps
import Verif.Crypto.Bn.GcdProps

/-! C67: the product of two powers modulo an odd number. -/
namespace Verif.Crypto.Bn

variable {h : Nat}

theorem nonneg_of {a : Bn h} (hh : 0 < h) (ha : a.WF) (h0 : 0 ≤ a.toInt) : a.toInt = (val a.data : Int) ∧ a.neg = false := by
  obtain ⟨s, d⟩ := a
  cases s
  · exact ⟨rfl, rfl⟩
  · have := wf_val_pos hh ha rfl
    unfold Bn.toInt at h0
    simp at h0 this
    omega

theorem neg_of {a : Bn h} (hh : 0 < h) (ha : a.WF) : a.neg = true ↔ a.toInt < 0 := by
  obtain ⟨s, d⟩ := a
  cases s
  · constructor
    · intro e; cases e
    · intro e; unfold Bn.toInt at e; simp at e; omega
  · have := wf_val_pos hh ha rfl
    unfold Bn.toInt
    simp at this ⊢
    exact this

/-- C67: `BN_MontExpMul` is exact: for bases from 0 to the modulus and exponents that are not negative it delivers the product of the
powers modulo the modulus, except that a base zero gives zero even with the exponent zero; otherwise it reports an error. -/
theorem montExpMul_exact {j : Nat} (hj : h = 2 ^ j) (hw : 8 ≤ h + h) (m : Bn h) (hm : Spec.WellFormed m) (M : Mont h) (hM : montCreate m = some (some M))
    (a1 e1 a2 e2 : Bn h) (ha1 : Spec.WellFormed a1) (he1 : Spec.WellFormed e1) (ha2 : Spec.WellFormed a2) (he2 : Spec.WellFormed e2)
    (h1 : 0 ≤ Spec.int a1) (h2 : 0 ≤ Spec.int a2) :
    (0 ≤ Spec.int e1 → 0 ≤ Spec.int e2 → Spec.int a1 < Spec.int m → Spec.int a2 < Spec.int m →
      ∃ r, bnMontExpMul M a1 e1 a2 e2 = some r ∧ Spec.WellFormed r ∧
        ((Spec.int a1 ≠ 0 ∨ Spec.int e1 ≠ 0) → (Spec.int a2 ≠ 0 ∨ Spec.int e2 ≠ 0) →
          Spec.int r = Spec.int a1 ^ (Spec.int e1).toNat * Spec.int a2 ^ (Spec.int e2).toNat % Spec.int m) ∧
        (Spec.int a1 = 0 ∨ Spec.int a2 = 0 → Spec.int r = 0)) ∧
    (Spec.int e1 < 0 ∨ Spec.int e2 < 0 ∨ Spec.int m ≤ Spec.int a1 ∨ Spec.int m ≤ Spec.int a2 → bnMontExpMul M a1 e1 a2 e2 = none) := by
  have hh : 0 < h := by rw [hj]; exact Nat.pow_pos (by decide)
  rw [wf_iff hh] at hm ha1 he1 ha2 he2
  simp only [int_eq, wf_iff hh] at *
  obtain ⟨c1, c2⟩ := montCreate_ok hj m hm
  by_cases hmo : m.toInt % 2 = 1 ∧ 0 < m.toInt
  swap
  · rw [c2 hmo] at hM; cases hM
  obtain ⟨M', g1, g2, g3⟩ := c1 hmo
  rw [hM, Option.some.injEq, Option.some.injEq] at g1
  subst g1
  have hmv := (nonneg_of hh hm (by omega)).1
  rw [← g2] at hmv
  obtain ⟨v1, -⟩ := nonneg_of hh ha1 h1
  obtain ⟨v2, -⟩ := nonneg_of hh ha2 h2
  have cmp : ∀ a : Bn h, a.WF → (binCmp a.data M.mod ≥ 0 ↔ val M.mod ≤ val a.data) := by
    intro a ha
    rcases cmp_trich hh a.data M.mod ha.1 g3.norm with ⟨k1, k2⟩ | ⟨k1, k2⟩ | ⟨k1, k2⟩ <;> rw [k1] <;> constructor <;> intro hx <;> first | omega | (exact absurd hx (by decide)) | decide
  have zero : ∀ a : Bn h, a.WF → (a.data.length = 0 ↔ a.toInt = 0) := fun a ha => zero_iff hh a ha
  constructor
  · intro n1 n2 l1 l2
    obtain ⟨w1, s1⟩ := nonneg_of hh he1 n1
    obtain ⟨w2, s2⟩ := nonneg_of hh he2 n2
    unfold bnMontExpMul
    rw [if_neg (by rw [s1, s2]; decide), if_neg (by rw [cmp a1 ha1, cmp a2 ha2]; omega)]
    by_cases z : a1.data.length = 0 ∨ a2.data.length = 0
    · rw [if_pos z]
      rw [zero a1 ha1, zero a2 ha2] at z
      refine ⟨_, rfl, wf_zero, fun k1 k2 => ?_, fun _ => by rfl⟩
      have : a1.toInt ^ e1.toInt.toNat * a2.toInt ^ e2.toInt.toNat = 0 := by
        rcases z with z | z
        · rw [z, zero_pow (by have := k1.resolve_left (fun hx => hx z); omega), Int.zero_mul]
        · rw [z, zero_pow (by have := k2.resolve_left (fun hx => hx z); omega), Int.mul_zero]
      rw [this, Int.zero_emod]
      rfl
    · rw [if_neg z]
      rw [zero a1 ha1, zero a2 ha2] at z
      by_cases z1 : e1.data.length = 0
      · rw [if_pos z1]
        obtain ⟨r, r1, r2, r3⟩ := montExpCore_spec hj (by omega) g3 a2 e2 ha2 he2 s2 false
        refine ⟨r, r1, r3, fun _ _ => ?_, fun hx => absurd hx z⟩
        rw [r2, (zero e1 he1).mp z1, hmv]
        simp
      · rw [if_neg z1]
        by_cases z2 : e2.data.length = 0
        · rw [if_pos z2]
          obtain ⟨r, r1, r2, r3⟩ := montExpCore_spec hj (by omega) g3 a1 e1 ha1 he1 s1 false
          refine ⟨r, r1, r3, fun _ _ => ?_, fun hx => absurd hx z⟩
          rw [r2, (zero e2 he2).mp z2, hmv]
          simp
        · rw [if_neg z2]
          have enc : ∀ a : Bn h, a.WF → val a.data < val M.mod → ∃ b, montEnc M (padTo M a.data) = some b ∧ Rep M b (val a.data) := by
            intro a ha hlt
            have hl := len_le_of_le hh ha.1 (Nat.le_of_lt hlt)
            obtain ⟨b, x1, x2⟩ := montEnc_rep hh g3 (padTo M a.data) (by unfold padTo; rw [List.length_append, List.length_replicate]; omega)
            unfold padTo at x2
            rw [val_append, val_replicate, Nat.mul_zero, Nat.add_zero] at x2
            exact ⟨b, x1, x2⟩
          obtain ⟨b1, x1, x2⟩ := enc a1 ha1 (by omega)
          obtain ⟨b2, y1, y2⟩ := enc a2 ha2 (by omega)
          obtain ⟨r, r1, r2⟩ := montExpMulBin_spec hj (by omega) g3 b1 e1.data b2 e2.data _ _ x2 y2 he1.1 he2.1
            (fun hx => z1 (by rw [hx]; rfl)) (fun hx => z2 (by rw [hx]; rfl))
          obtain ⟨d, d1, d2, d3⟩ := montDec_val hh g3 r2
          obtain ⟨u1, u2⟩ := trim_spec d
          simp only [x1, y1, r1, d1, Option.bind_eq_bind, Option.bind_some]
          refine ⟨_, rfl, ⟨u2, fun hx => by cases hx⟩, fun _ _ => ?_, fun hx => absurd hx z⟩
          show ((val (trim d) : Nat) : Int) = _
          rw [u1, d3, v1, v2, w1, w2, hmv]
          push_cast
          simp
  · intro hx
    unfold bnMontExpMul
    by_cases hn : e1.neg = true ∨ e2.neg = true
    · rw [if_pos hn]
    · rw [if_neg hn, if_pos]
      rw [neg_of hh he1, neg_of hh he2] at hn
      rw [cmp a1 ha1, cmp a2 ha2]
      omega

/-- `3 ^ 200 * 5 ^ 7 mod 10007`, with 64-bit words. -/
example : ∃ M, montCreate (⟨false, [10007]⟩ : Bn 32) = some (some M) ∧
    bnMontExpMul M ⟨false, [3]⟩ ⟨false, [200]⟩ ⟨false, [5]⟩ ⟨false, [7]⟩ = some ⟨false, [BitVec.ofNat _ (3 ^ 200 * 5 ^ 7 % 10007)]⟩ := by
  refine ⟨_, rfl, ?_⟩
  decide +kernel
example : ∃ M, montCreate (⟨false, [10007]⟩ : Bn 32) = some (some M) ∧ bnMontExpMul M ⟨false, [3]⟩ ⟨false, [200]⟩ ⟨false, [10007]⟩ ⟨false, [7]⟩ = none := by
  refine ⟨_, rfl, ?_⟩
  decide +kernel

end Verif.Crypto.Bn
