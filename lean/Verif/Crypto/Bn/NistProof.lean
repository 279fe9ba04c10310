import Verif.Crypto.Bn.NistModel
import Verif.Crypto.Bn.ShiftProof
import Verif.Crypto.Bn.ApiProof
import Mathlib.Tactic.Ring
import Mathlib.Tactic.Linarith
import Mathlib.Tactic.IntervalCases
/-! Proofs about the reductions of bn_nistmod.c. -/
namespace Verif.Crypto.Bn

theorem loHi_toNat (t : W64) : (loHi t).toNat = 4294967296 * (lo t).toNat := by
  have := toNat_shl (h := 32) (by decide) t
  exact this

theorem loHi_or (t y : W64) (hy : y.toNat < 4294967296) : (loHi t ||| y).toNat = 4294967296 * (lo t).toNat + y.toNat := by
  have := toNat_shl_or (h := 32) (by decide) t y hy
  exact this

theorem mask_bits : ∀ i : Fin 64, (0 - hc : W64).getLsbD i.val = decide (32 ≤ i.val) := by decide

theorem hiHi_eq (t : W64) : hiHi t = loHi (hi t) := by
  apply BitVec.eq_of_getLsbD_eq
  intro i hi'
  have hm := mask_bits ⟨i, hi'⟩
  simp only at hm
  unfold hiHi loHi hi
  rw [BitVec.getLsbD_and, hm, BitVec.getLsbD_shiftLeft, BitVec.getLsbD_ushiftRight]
  by_cases h32 : 32 ≤ i
  · rw [show 32 + (i - 32) = i by omega]; simp [h32]; intro _; omega
  · simp [h32]

theorem lo_hi (t : W64) : (lo (hi t)).toNat = (hi t).toNat := by
  rw [toNat_lo (by decide)]; exact Nat.mod_eq_of_lt (hi_lt t)

theorem hiHi_toNat (t : W64) : (hiHi t).toNat = 4294967296 * (hi t).toNat := by
  rw [hiHi_eq, loHi_toNat, lo_hi]

theorem hiHi_or (t y : W64) (hy : y.toNat < 4294967296) : (hiHi t ||| y).toNat = 4294967296 * (hi t).toNat + y.toNat := by
  rw [hiHi_eq, loHi_or _ _ hy, lo_hi]

theorem lo_lt' (t : W64) : (lo t).toNat < 4294967296 := lo_lt (h := 32) (by decide) t
theorem hi_lt' (t : W64) : (hi t).toNat < 4294967296 := hi_lt (h := 32) t
theorem halves' (t : W64) : t.toNat = (lo t).toNat + 4294967296 * (hi t).toNat := halves (h := 32) (by decide) t

/-- What the reductions need of the two vector operations on `n` words, `M = 2^(64 n)`. -/
structure OpsOk (o : Ops) (n M : Nat) : Prop where
  add : ∀ a b, a.length = n → b.length = n → val (o.add a b).1 + M * (o.add a b).2.toNat = val a + val b ∧ (o.add a b).1.length = n
  sub : ∀ a b, a.length = n → b.length = n → val (o.sub a b).1 + val b = val a + M * (o.sub a b).2.toNat ∧ (o.sub a b).1.length = n
  bound : ∀ a : List W64, a.length = n → val a < M

theorem p256Add_spec (a b : List W64) (ha : a.length = 4) (hb : b.length = 4) :
    val (p256Add a b).1 + 2 ^ 256 * (p256Add a b).2.toNat = val a + val b ∧ (p256Add a b).1.length = 4 := by
  match a, b, ha, hb with
  | a :: as, b :: bs, ha, hb =>
    simp only [List.length_cons] at ha hb
    have e := addAB_spec (h := 32) (by decide) a b
    obtain ⟨i1, i2⟩ := binAdd_spec (h := 32) (by decide) as bs (addAB a b).1 (by omega)
    rw [show as.length = 3 by omega] at i1
    simp only [p256Add, val, List.length_cons]
    refine ⟨?_, by omega⟩
    omega

theorem p256Sub_spec (a b : List W64) (ha : a.length = 4) (hb : b.length = 4) :
    val (p256Sub a b).1 + val b = val a + 2 ^ 256 * (p256Sub a b).2.toNat ∧ (p256Sub a b).1.length = 4 := by
  match a, b, ha, hb with
  | a :: as, b :: bs, ha, hb =>
    simp only [List.length_cons] at ha hb
    have e := subAB_spec (h := 32) (by decide) a b
    obtain ⟨i1, i2⟩ := binSub_spec (h := 32) (by decide) as bs (subAB a b).1 (by omega)
    rw [show as.length = 3 by omega] at i1
    simp only [p256Sub, val, List.length_cons]
    refine ⟨?_, by omega⟩
    omega

theorem ops256_ok : OpsOk ops256 4 (2 ^ 256) where
  add := p256Add_spec
  sub := p256Sub_spec
  bound a ha := by have := val_lt a; rw [ha] at this; exact this

theorem ops384_ok : OpsOk ops384 6 39402006196394479212279040100143613805079739270465446667948293404245721771497210611414266254884915640806627990306816 where
  add a b ha hb := by
    obtain ⟨i1, i2⟩ := binAdd_spec (h := 32) (by decide) a b 0 (by omega)
    rw [ha] at i1 i2
    exact ⟨by simpa [ops384] using i1, i2⟩
  sub a b ha hb := by
    obtain ⟨i1, i2⟩ := binSub_spec (h := 32) (by decide) a b 0 (by omega)
    rw [ha] at i1 i2
    exact ⟨by simpa [ops384] using i1, i2⟩
  bound a ha := by have := val_lt a; rw [ha] at this; exact this

/-- The words and the carry stand for `V`. -/
def Holds (n M : Nat) (s : List W64 × Int) (V : Int) : Prop := s.1.length = n ∧ (val s.1 : Int) + M * s.2 = V

theorem holds_add {o : Ops} {n M : Nat} (ho : OpsOk o n M) {s : List W64 × Int} {V : Int} (hs : Holds n M s V) (l : List W64)
    (hl : l.length = n) : Holds n M (accAdd o s l) (V + val l) := by
  obtain ⟨h1, h2⟩ := hs
  obtain ⟨a1, a2⟩ := ho.add s.1 l h1 hl
  refine ⟨a2, ?_⟩
  simp only [accAdd]
  zify at a1
  rw [← h2, Int.mul_add]
  linarith

theorem holds_sub {o : Ops} {n M : Nat} (ho : OpsOk o n M) {s : List W64 × Int} {V : Int} (hs : Holds n M s V) (l : List W64)
    (hl : l.length = n) : Holds n M (accSub o s l) (V - val l) := by
  obtain ⟨h1, h2⟩ := hs
  obtain ⟨a1, a2⟩ := ho.sub s.1 l h1 hl
  refine ⟨a2, ?_⟩
  simp only [accSub]
  zify at a1
  rw [← h2, Int.mul_sub]
  linarith

theorem dbl_word (x c : W64) (hc : c.toNat ≤ 1) : ((x <<< 1) ||| c).toNat + 2 ^ 64 * (x >>> 63).toNat = 2 * x.toNat + c.toNat := by
  have e1 : (x <<< 1).toNat = (x.toNat % 2 ^ 63) * 2 ^ 1 := by
    rw [BitVec.toNat_shiftLeft, Nat.shiftLeft_eq]; have := x.isLt; simp only [Nat.reduceAdd] at this ⊢; omega
  rw [BitVec.toNat_or, e1, or_disjoint (by omega), toNat_shr]
  omega

theorem dblWords_spec : ∀ (l : List W64) (c : W64), c.toNat ≤ 1 →
    val (dblWords l c).1 + (2 ^ 64) ^ l.length * (dblWords l c).2.toNat = 2 * val l + c.toNat ∧ (dblWords l c).1.length = l.length
  | [], c, _ => by simp [dblWords, val]
  | x :: xs, c, hc => by
    have hx : (x >>> 63).toNat ≤ 1 := by rw [toNat_shr]; have := x.isLt; simp only [Nat.reduceAdd] at this; omega
    obtain ⟨i1, i2⟩ := dblWords_spec xs (x >>> 63) hx
    have e := dbl_word x c hc
    simp only [dblWords, val, List.length_cons, i2, and_true]
    rw [pow_succ ((2:Nat) ^ 64)]
    generalize ((2:Nat) ^ 64) ^ xs.length = P at *
    generalize (dblWords xs (x >>> 63)).1 = R at *
    generalize (dblWords xs (x >>> 63)).2 = C at *
    have i1' := congrArg (fun v => 2 ^ 64 * v) i1
    simp only [Nat.mul_add] at i1'
    rw [show P * 2 ^ 64 * C.toNat = 2 ^ 64 * (P * C.toNat) by ring]
    simp only [Nat.reduceAdd] at *
    omega

theorem holds_dbl {n M : Nat} (hM : (2 ^ 64) ^ n = M) {s : List W64 × Int} {V : Int} (hs : Holds n M s V) : Holds n M (accDbl s) (2 * V) := by
  obtain ⟨h1, h2⟩ := hs
  obtain ⟨a1, a2⟩ := dblWords_spec s.1 0 (by simp)
  rw [h1, hM] at a1
  refine ⟨by rw [← h1]; exact a2, ?_⟩
  simp only [accDbl]
  rw [show (0 : W64).toNat = 0 from rfl] at a1
  zify at a1
  rw [← h2, Int.mul_add]
  linarith

theorem cmp_ge {n : Nat} (a b : List W64) (ha : a.length = n) (hb : b.length = n) : binCmp a b ≥ 0 ↔ val b ≤ val a := by
  have e := cmpLoop_spec a b (by omega) a.length (Nat.le_refl _)
  simp only [List.take_length, show b.take a.length = b by rw [ha, ← hb, List.take_length]] at e
  obtain ⟨e1, e2, e3⟩ := e
  unfold binCmp
  rw [if_pos (by omega)]
  rcases Nat.lt_trichotomy (val a) (val b) with hlt | heq | hgt
  · rw [e1 hlt]; omega
  · rw [e2 heq]; omega
  · rw [e3 hgt]; omega

/-- The last step leaves the value reduced. -/
theorem fixLast_spec {o : Ops} {n M : Nat} (ho : OpsOk o n M) (mod r : List W64) (c : Int) (hm : mod.length = n) (hr : r.length = n)
    (hp : M ≤ 2 * val mod) (hlo : -(val mod : Int) ≤ val r + M * c) (hhi : (val r : Int) + M * c < 2 * val mod) :
    (fixLast o mod r c).length = n ∧ (val (fixLast o mod r c) : Int) = ((val r : Int) + M * c) % val mod := by
  have b1 := ho.bound r hr
  have b2 := ho.bound mod hm
  have hMc : 0 < M := by omega
  unfold fixLast
  by_cases hneg : c < 0
  · rw [if_pos hneg]
    obtain ⟨a1, a2⟩ := ho.add r mod hr hm
    refine ⟨a2, ?_⟩
    have b3 := ho.bound _ a2
    have hc1 : c = -1 := by
      by_contra hne
      have : c ≤ -2 := by omega
      have : (M : Int) * c ≤ M * (-2) := Int.mul_le_mul_of_nonneg_left this (by omega)
      omega
    subst hc1
    generalize hq : (o.add r mod).2.toNat = q at a1
    have hq' : q = 0 ∨ q = 1 ∨ 2 ≤ q := by omega
    rcases hq' with rfl | rfl | h2
    · exfalso; omega
    · rw [← Int.add_emod_right, Int.emod_eq_of_lt (by omega) (by omega)]; omega
    · have := Nat.mul_le_mul_left M h2; exfalso; omega
  · rw [if_neg hneg]
    by_cases hpos : c > 0 ∨ binCmp r mod ≥ 0
    · rw [if_pos hpos]
      obtain ⟨a1, a2⟩ := ho.sub r mod hr hm
      refine ⟨a2, ?_⟩
      have b3 := ho.bound _ a2
      rw [cmp_ge r mod hr hm] at hpos
      generalize hq : (o.sub r mod).2.toNat = q at a1
      have hq' : q = 0 ∨ q = 1 ∨ 2 ≤ q := by omega
      have hc1 : c = 0 ∨ c = 1 := by
        by_contra hne
        have : 2 ≤ c := by omega
        have : (M : Int) * 2 ≤ M * c := Int.mul_le_mul_of_nonneg_left this (by omega)
        omega
      rw [← Int.sub_emod_right]
      rcases hq' with rfl | rfl | h2
      · rcases hc1 with rfl | rfl
        · rw [Int.emod_eq_of_lt (by omega) (by omega)]; omega
        · exfalso; omega
      · rcases hc1 with rfl | rfl
        · exfalso; omega
        · rw [Int.emod_eq_of_lt (by omega) (by omega)]; omega
      · have := Nat.mul_le_mul_left M h2; exfalso; omega
    · rw [if_neg hpos]
      rw [cmp_ge r mod hr hm] at hpos
      have : c = 0 := by omega
      subst this
      refine ⟨hr, ?_⟩
      rw [Int.emod_eq_of_lt (by omega) (by omega)]; omega

/-- The table holds the multiples of the modulus, as far as they fit `M`. -/
def TabOk (tab : List (List W64)) (n M p K : Nat) : Prop :=
  ∀ i, i < K → ∃ m, tab[i]? = some m ∧ m.length = n ∧ val m + i * M = (i + 1) * p

theorem fixup_spec {o : Ops} {n M p K : Nat} (ho : OpsOk o n M) (tab : List (List W64)) (ht : TabOk tab n M p K) (hK : 0 < K)
    (hp : (K + 1) * (M - p) ≤ p) (hpM : p ≤ M) (r : List W64) (c : Int) (hr : r.length = n) (h1 : -(K : Int) ≤ c) (h2 : c ≤ K) :
    ∃ r', fixup o tab r c = some r' ∧ r'.length = n ∧ (val r' : Int) = ((val r : Int) + M * c) % p := by
  obtain ⟨mod, t0, t1, t2⟩ := ht 0 hK
  have hmod : val mod = p := by simpa using t2
  obtain ⟨D, hD⟩ : ∃ D, M = p + D := ⟨M - p, by omega⟩
  have hKD : (K + 1) * D ≤ p := by rw [hD, Nat.add_sub_cancel_left] at hp; exact hp
  rw [Nat.add_mul, Nat.one_mul] at hKD
  have b1 := ho.bound r hr
  have hM2 : M ≤ 2 * val mod := by omega
  unfold fixup
  rw [t0]
  simp only
  unfold fixCarry
  by_cases hpos : c > 0
  · rw [if_pos hpos]
    obtain ⟨k, rfl⟩ : ∃ k : Nat, c = (k : Int) + 1 := ⟨(c - 1).toNat, by omega⟩
    obtain ⟨m, m0, m1, m2⟩ := ht k (by omega)
    rw [show ((k : Int) + 1 - 1).toNat = k by omega, m0]
    obtain ⟨s1, s2⟩ := ho.sub r m hr m1
    have hkD : (k + 1) * D ≤ K * D := Nat.mul_le_mul_right D (by omega)
    have key : ((val (o.sub r m).1 : Int) + M * (1 - ((o.sub r m).2.toNat : Int))) = val r + M * ((k : Int) + 1) - p * ((k : Int) + 1) := by
      zify at s1 m2
      linarith
    have hexp : (val r : Int) + M * ((k : Int) + 1) - p * ((k : Int) + 1) = val r + ((k + 1) * D : Nat) := by
      rw [hD]; push_cast; ring
    obtain ⟨f1, f2⟩ := fixLast_spec ho mod (o.sub r m).1 (1 - ((o.sub r m).2.toNat : Int)) t1 s2 hM2 (by rw [key, hexp]; omega)
      (by rw [key, hexp]; omega)
    refine ⟨_, rfl, f1, ?_⟩
    rw [f2, key, hmod, Int.sub_mul_emod_self_left]
  · rw [if_neg hpos]
    by_cases hneg : c < 0
    · rw [if_pos hneg]
      obtain ⟨k, rfl⟩ : ∃ k : Nat, c = -((k : Int) + 1) := ⟨(-c - 1).toNat, by omega⟩
      obtain ⟨m, m0, m1, m2⟩ := ht k (by omega)
      rw [show (-(-((k : Int) + 1)) - 1).toNat = k by omega, m0]
      obtain ⟨s1, s2⟩ := ho.add r m hr m1
      have hkD : (k + 1) * D ≤ K * D := Nat.mul_le_mul_right D (by omega)
      have key : ((val (o.add r m).1 : Int) + M * (-(1 - ((o.add r m).2.toNat : Int)))) = val r + M * (-((k : Int) + 1)) + p * ((k : Int) + 1) := by
        zify at s1 m2
        linarith
      have hexp : (val r : Int) + M * (-((k : Int) + 1)) + p * ((k : Int) + 1) = val r - ((k + 1) * D : Nat) := by
        rw [hD]; push_cast; ring
      obtain ⟨f1, f2⟩ := fixLast_spec ho mod (o.add r m).1 (-(1 - ((o.add r m).2.toNat : Int))) t1 s2 hM2 (by rw [key, hexp]; omega)
        (by rw [key, hexp]; omega)
      refine ⟨_, rfl, f1, ?_⟩
      rw [f2, key, hmod, Int.add_mul_emod_self_left]
    · rw [if_neg hneg]
      have : c = 0 := by omega
      subst this
      obtain ⟨f1, f2⟩ := fixLast_spec ho mod r 0 t1 hr hM2 (by omega) (by omega)
      refine ⟨_, rfl, f1, ?_⟩
      rw [f2, hmod]

theorem reduceP256_spec (a0 a1 a2 a3 a4 a5 a6 a7 : W64) (rest : List W64) : ∃ s, reduceP256 (a0 :: a1 :: a2 :: a3 :: a4 :: a5 :: a6 :: a7 :: rest) = some s ∧ s.1.length = 4 ∧
    (∃ k : Int, (val s.1 : Int) + (2 ^ 256 : Nat) * s.2 = val [a0, a1, a2, a3, a4, a5, a6, a7] - 115792089210356248762697446949407573530086143415290314195533631308867097853951 * k) ∧ -(5 : Int) ≤ s.2 ∧ s.2 ≤ 5 := by
  have e0 : Holds 4 (2 ^ 256) ([0, hiHi a5, loHi a7 ||| hi a6, hi a7], 0) (val ([0, hiHi a5, loHi a7 ||| hi a6, hi a7] : List W64)) := ⟨rfl, by simp only [Int.mul_zero, Int.add_zero]⟩
  have e1 := holds_add ops256_ok e0 [0, loHi a6, a6, a7] rfl
  have e2 := holds_dbl (by norm_num) e1
  have e3 := holds_add ops256_ok e2 [a4, hiHi a6 ||| hi a5, a7, a7] rfl
  have e4 := holds_add ops256_ok e3 [loHi a5 ||| hi a4, lo a5, 0, loHi a4 ||| hi a6] rfl
  have e5 := holds_sub ops256_ok e4 [a7, a7, a5, hiHi a6 ||| hi a4] rfl
  have e6 := holds_sub ops256_ok e5 [loHi a7 ||| hi a6, loHi a4 ||| hi a6, loHi a5 ||| hi a4, loHi a6 ||| lo a4] rfl
  have e7 := holds_sub ops256_ok e6 [a6, hiHi a4 ||| hi a7, 0, hiHi a5] rfl
  have e8 := holds_sub ops256_ok e7 [loHi a6 ||| hi a5, 0, 0, loHi a5] rfl
  have e9 := holds_add ops256_ok e8 [a0, a1, a2, a3] rfl
  refine ⟨_, rfl, e9.1, ?_⟩
  have f := e9.2
  have fb := ops256_ok.bound _ e9.1
  clear e0 e1 e2 e3 e4 e5 e6 e7 e8 e9
  generalize (accAdd ops256 _ _) = s at *
  simp only [val, Nat.mul_zero, Nat.add_zero, BitVec.toNat_zero, Nat.zero_add, loHi_or _ _ (hi_lt' _), loHi_or _ _ (lo_lt' _), hiHi_or _ _ (hi_lt' _), hiHi_or _ _ (lo_lt' _), loHi_toNat, hiHi_toNat] at f
  have l0 := lo_lt' a0; have h0 := hi_lt' a0; have q0 := halves' a0
  have l1 := lo_lt' a1; have h1 := hi_lt' a1; have q1 := halves' a1
  have l2 := lo_lt' a2; have h2 := hi_lt' a2; have q2 := halves' a2
  have l3 := lo_lt' a3; have h3 := hi_lt' a3; have q3 := halves' a3
  have l4 := lo_lt' a4; have h4 := hi_lt' a4; have q4 := halves' a4
  have l5 := lo_lt' a5; have h5 := hi_lt' a5; have q5 := halves' a5
  have l6 := lo_lt' a6; have h6 := hi_lt' a6; have q6 := halves' a6
  have l7 := lo_lt' a7; have h7 := hi_lt' a7; have q7 := halves' a7
  simp only [q0, q1, q2, q3, q4, q5, q6, q7] at f
  refine ⟨⟨(1 : Int) * (lo a4).toNat + (4294967297 : Int) * (hi a4).toNat + (18446744078004518912 : Int) * (lo a5).toNat + (79228162532711081667253501951 : Int) * (hi a5).toNat + (340282367000166625977638945021017194495 : Int) * (lo a6).toNat + (1461501637671185285124623296161210883009696235519 : Int) * (hi a6).toNat + (6277101736848182401166692341332123086285927382448418586623 : Int) * (lo a7).toNat + (26959946673427741530053695850515137729844644212646842236464328081408 : Int) * (hi a7).toNat, ?_⟩, ?_⟩
  · rw [f]; simp only [val, Nat.mul_zero, Nat.add_zero]
    simp only [q0, q1, q2, q3, q4, q5, q6, q7]
    clear f fb q0 q1 q2 q3 q4 q5 q6 q7
    generalize (lo a0).toNat = x0 at *; generalize (hi a0).toNat = y0 at *
    generalize (lo a1).toNat = x1 at *; generalize (hi a1).toNat = y1 at *
    generalize (lo a2).toNat = x2 at *; generalize (hi a2).toNat = y2 at *
    generalize (lo a3).toNat = x3 at *; generalize (hi a3).toNat = y3 at *
    generalize (lo a4).toNat = x4 at *; generalize (hi a4).toNat = y4 at *
    generalize (lo a5).toNat = x5 at *; generalize (hi a5).toNat = y5 at *
    generalize (lo a6).toNat = x6 at *; generalize (hi a6).toNat = y6 at *
    generalize (lo a7).toNat = x7 at *; generalize (hi a7).toNat = y7 at *
    push_cast
    ring
  · clear q0 q1 q2 q3 q4 q5 q6 q7
    generalize (lo a0).toNat = x0 at *; generalize (hi a0).toNat = y0 at *
    generalize (lo a1).toNat = x1 at *; generalize (hi a1).toNat = y1 at *
    generalize (lo a2).toNat = x2 at *; generalize (hi a2).toNat = y2 at *
    generalize (lo a3).toNat = x3 at *; generalize (hi a3).toNat = y3 at *
    generalize (lo a4).toNat = x4 at *; generalize (hi a4).toNat = y4 at *
    generalize (lo a5).toNat = x5 at *; generalize (hi a5).toNat = y5 at *
    generalize (lo a6).toNat = x6 at *; generalize (hi a6).toNat = y6 at *
    generalize (lo a7).toNat = x7 at *; generalize (hi a7).toNat = y7 at *
    generalize val s.1 = v at *; generalize s.2 = c at *
    push_cast at f
    constructor <;> omega

theorem reduceSm2_spec (a0 a1 a2 a3 a4 a5 a6 a7 : W64) (rest : List W64) : ∃ s, reduceSm2 (a0 :: a1 :: a2 :: a3 :: a4 :: a5 :: a6 :: a7 :: rest) = some s ∧ s.1.length = 4 ∧
    (∃ k : Int, (val s.1 : Int) + (2 ^ 256 : Nat) * s.2 = val [a0, a1, a2, a3, a4, a5, a6, a7] - 115792089210356248756420345214020892766250353991924191454421193933289684991999 * k) ∧ -(13 : Int) ≤ s.2 ∧ s.2 ≤ 13 := by
  have e0 : Holds 4 (2 ^ 256) ([loHi a7 ||| hi a6, 0, 0, loHi a7], 0) (val ([loHi a7 ||| hi a6, 0, 0, loHi a7] : List W64)) := ⟨rfl, by simp only [Int.mul_zero, Int.add_zero]⟩
  have e1 := holds_add ops256_ok e0 [a7, hiHi a6, a7, a7] rfl
  have e2 := holds_add ops256_ok e1 [loHi a6 ||| hi a5, hiHi a5, a6, hiHi a6] rfl
  have e3 := holds_add ops256_ok e2 [a4, 0, loHi a5 ||| hi a4, loHi a6 ||| hi a5] rfl
  have e4 := holds_dbl (by norm_num) e3
  have e5 := holds_add ops256_ok e4 [a6, loHi a7, hi a7, hiHi a7] rfl
  have e6 := holds_add ops256_ok e5 [hi a7, loHi a4, 0, hiHi a5] rfl
  have e7 := holds_add ops256_ok e6 [a5, hiHi a7, 0, loHi a5] rfl
  have e8 := holds_add ops256_ok e7 [loHi a5 ||| hi a4, 0, 0, hiHi a4] rfl
  have e9 := holds_add ops256_ok e8 [hi a7, loHi a6, loHi a7 ||| hi a6, loHi a4 ||| hi a7] rfl
  have e10 := holds_sub ops256_ok e9 [loHi a6 ||| hi a5, hiHi a5 ||| hi a6, a6, lo a7] rfl
  have e11 := holds_sub ops256_ok e10 [a4, lo a7 + hi a4 + lo a4, loHi a5 ||| hi a4, hi a5] rfl
  have e12 := holds_add ops256_ok e11 [a0, a1, a2, a3] rfl
  refine ⟨_, rfl, e12.1, ?_⟩
  have f := e12.2
  have fb := ops256_ok.bound _ e12.1
  clear e0 e1 e2 e3 e4 e5 e6 e7 e8 e9 e10 e11 e12
  have hs : (lo a7 + hi a4 + lo a4 : W64).toNat = (lo a7).toNat + (hi a4).toNat + (lo a4).toNat := by
    have := lo_lt' a7; have := hi_lt' a4; have := lo_lt' a4
    rw [toNat_add_small, toNat_add_small] <;> try omega
    rw [toNat_add_small] <;> omega
  simp only [val, hs] at f
  generalize (accAdd ops256 _ _) = s at *
  simp only [val, Nat.mul_zero, Nat.add_zero, BitVec.toNat_zero, Nat.zero_add, loHi_or _ _ (hi_lt' _), loHi_or _ _ (lo_lt' _), hiHi_or _ _ (hi_lt' _), hiHi_or _ _ (lo_lt' _), loHi_toNat, hiHi_toNat] at f
  have l0 := lo_lt' a0; have h0 := hi_lt' a0; have q0 := halves' a0
  have l1 := lo_lt' a1; have h1 := hi_lt' a1; have q1 := halves' a1
  have l2 := lo_lt' a2; have h2 := hi_lt' a2; have q2 := halves' a2
  have l3 := lo_lt' a3; have h3 := hi_lt' a3; have q3 := halves' a3
  have l4 := lo_lt' a4; have h4 := hi_lt' a4; have q4 := halves' a4
  have l5 := lo_lt' a5; have h5 := hi_lt' a5; have q5 := halves' a5
  have l6 := lo_lt' a6; have h6 := hi_lt' a6; have q6 := halves' a6
  have l7 := lo_lt' a7; have h7 := hi_lt' a7; have q7 := halves' a7
  simp only [q0, q1, q2, q3, q4, q5, q6, q7] at f
  refine ⟨⟨(1 : Int) * (lo a4).toNat + (4294967297 : Int) * (hi a4).toNat + (18446744078004518913 : Int) * (lo a5).toNat + (79228162532711081671548469249 : Int) * (hi a5).toNat + (340282367000166625996085689103316680705 : Int) * (lo a6).toNat + (1461501637671185285203851458712368708759249223682 : Int) * (hi a6).toNat + (6277101736848182401506974708411517874814724153227578703874 : Int) * (lo a7).toNat + (26959946673427741531515197488526605382048662297373743378404898504706 : Int) * (hi a7).toNat, ?_⟩, ?_⟩
  · rw [f]; simp only [val, Nat.mul_zero, Nat.add_zero]
    simp only [q0, q1, q2, q3, q4, q5, q6, q7]
    clear f fb q0 q1 q2 q3 q4 q5 q6 q7
    generalize (lo a0).toNat = x0 at *; generalize (hi a0).toNat = y0 at *
    generalize (lo a1).toNat = x1 at *; generalize (hi a1).toNat = y1 at *
    generalize (lo a2).toNat = x2 at *; generalize (hi a2).toNat = y2 at *
    generalize (lo a3).toNat = x3 at *; generalize (hi a3).toNat = y3 at *
    generalize (lo a4).toNat = x4 at *; generalize (hi a4).toNat = y4 at *
    generalize (lo a5).toNat = x5 at *; generalize (hi a5).toNat = y5 at *
    generalize (lo a6).toNat = x6 at *; generalize (hi a6).toNat = y6 at *
    generalize (lo a7).toNat = x7 at *; generalize (hi a7).toNat = y7 at *
    push_cast
    ring
  · clear q0 q1 q2 q3 q4 q5 q6 q7
    generalize (lo a0).toNat = x0 at *; generalize (hi a0).toNat = y0 at *
    generalize (lo a1).toNat = x1 at *; generalize (hi a1).toNat = y1 at *
    generalize (lo a2).toNat = x2 at *; generalize (hi a2).toNat = y2 at *
    generalize (lo a3).toNat = x3 at *; generalize (hi a3).toNat = y3 at *
    generalize (lo a4).toNat = x4 at *; generalize (hi a4).toNat = y4 at *
    generalize (lo a5).toNat = x5 at *; generalize (hi a5).toNat = y5 at *
    generalize (lo a6).toNat = x6 at *; generalize (hi a6).toNat = y6 at *
    generalize (lo a7).toNat = x7 at *; generalize (hi a7).toNat = y7 at *
    generalize val s.1 = v at *; generalize s.2 = c at *
    push_cast at f
    constructor <;> omega

theorem reduceP384_spec (a0 a1 a2 a3 a4 a5 a6 a7 a8 a9 a10 a11 : W64) (rest : List W64) : ∃ s, reduceP384 (a0 :: a1 :: a2 :: a3 :: a4 :: a5 :: a6 :: a7 :: a8 :: a9 :: a10 :: a11 :: rest) = some s ∧ s.1.length = 6 ∧
    (∃ k : Int, (val s.1 : Int) + (39402006196394479212279040100143613805079739270465446667948293404245721771497210611414266254884915640806627990306816 : Nat) * s.2 = val [a0, a1, a2, a3, a4, a5, a6, a7, a8, a9, a10, a11] - 39402006196394479212279040100143613805079739270465446667948293404245721771496870329047266088258938001861606973112319 * k) ∧ -(5 : Int) ≤ s.2 ∧ s.2 ≤ 5 := by
  have e0 : Holds 6 (39402006196394479212279040100143613805079739270465446667948293404245721771497210611414266254884915640806627990306816) ([a6, a7, a8, a9, a10, a11], 0) (val ([a6, a7, a8, a9, a10, a11] : List W64)) := ⟨rfl, by simp only [Int.mul_zero, Int.add_zero]⟩
  have e1 := holds_add ops384_ok e0 [loHi a11 ||| hi a10, loHi a6 ||| hi a11, loHi a7 ||| hi a6, loHi a8 ||| hi a7, loHi a9 ||| hi a8, loHi a10 ||| hi a9] rfl
  have e2 := holds_add ops384_ok e1 [hiHi a11 ||| lo a10, loHi a10, a6, a7, a8, a9] rfl
  have e3 := holds_add ops384_ok e2 [0, hiHi a10, a10, a11, 0, 0] rfl
  have e4 := holds_add ops384_ok e3 [0, 0, a11, 0, 0, 0] rfl
  have e5 := holds_add ops384_ok e4 [0, 0, (loHi a11 ||| hi a10) <<< 1, ((loHi a11 ||| hi a10) >>> 63) ||| (hi a11 <<< 1), 0, 0] rfl
  have e6 := holds_sub ops384_ok e5 [loHi a6 ||| hi a11, loHi a7 ||| hi a6, loHi a8 ||| hi a7, loHi a9 ||| hi a8, loHi a10 ||| hi a9, loHi a11 ||| hi a10] rfl
  have e7 := holds_sub ops384_ok e6 [loHi a10, loHi a11 ||| hi a10, hi a11, 0, 0, 0] rfl
  have e8 := holds_sub ops384_ok e7 [0, hiHi a11, hi a11, 0, 0, 0] rfl
  have e9 := holds_add ops384_ok e8 [a0, a1, a2, a3, a4, a5] rfl
  refine ⟨_, rfl, e9.1, ?_⟩
  have f := e9.2
  have fb := ops384_ok.bound _ e9.1
  clear e0 e1 e2 e3 e4 e5 e6 e7 e8 e9
  have hd' : ((loHi a11 ||| hi a10) <<< 1 : W64).toNat + 2 ^ 64 * (((loHi a11 ||| hi a10) >>> 63) ||| (hi a11 <<< 1) : W64).toNat =
      2 * ((loHi a11 ||| hi a10).toNat + 2 ^ 64 * (hi a11).toNat) := by
    have hb : ((loHi a11 ||| hi a10) >>> 63 : W64).toNat ≤ 1 := by
      rw [toNat_shr]; have := (loHi a11 ||| hi a10 : W64).isLt; simp only [Nat.reduceAdd] at this; omega
    have h1 := dbl_word (loHi a11 ||| hi a10) 0 (by decide)
    have h2 := dbl_word (hi a11) ((loHi a11 ||| hi a10) >>> 63) hb
    have hz : (hi a11 >>> 63 : W64).toNat = 0 := by rw [toNat_shr]; have := hi_lt' a11; omega
    rw [BitVec.or_comm (hi a11 <<< 1)] at h2
    rw [show ∀ x : W64, x ||| 0 = x from fun x => BitVec.or_zero, show (0 : W64).toNat = 0 from rfl] at h1
    omega
  rw [loHi_or _ _ (hi_lt' _)] at hd'
  simp only [val, Nat.mul_zero, Nat.add_zero] at f
  generalize ((loHi a11 ||| hi a10) <<< 1 : W64).toNat = u at f hd'
  generalize (((loHi a11 ||| hi a10) >>> 63) ||| (hi a11 <<< 1) : W64).toNat = w at f hd'
  generalize (accAdd ops384 _ _) = s at *
  simp only [val, Nat.mul_zero, Nat.add_zero, BitVec.toNat_zero, Nat.zero_add, loHi_or _ _ (hi_lt' _), loHi_or _ _ (lo_lt' _), hiHi_or _ _ (hi_lt' _), hiHi_or _ _ (lo_lt' _), loHi_toNat, hiHi_toNat] at f
  have l0 := lo_lt' a0; have h0 := hi_lt' a0; have q0 := halves' a0
  have l1 := lo_lt' a1; have h1 := hi_lt' a1; have q1 := halves' a1
  have l2 := lo_lt' a2; have h2 := hi_lt' a2; have q2 := halves' a2
  have l3 := lo_lt' a3; have h3 := hi_lt' a3; have q3 := halves' a3
  have l4 := lo_lt' a4; have h4 := hi_lt' a4; have q4 := halves' a4
  have l5 := lo_lt' a5; have h5 := hi_lt' a5; have q5 := halves' a5
  have l6 := lo_lt' a6; have h6 := hi_lt' a6; have q6 := halves' a6
  have l7 := lo_lt' a7; have h7 := hi_lt' a7; have q7 := halves' a7
  have l8 := lo_lt' a8; have h8 := hi_lt' a8; have q8 := halves' a8
  have l9 := lo_lt' a9; have h9 := hi_lt' a9; have q9 := halves' a9
  have l10 := lo_lt' a10; have h10 := hi_lt' a10; have q10 := halves' a10
  have l11 := lo_lt' a11; have h11 := hi_lt' a11; have q11 := halves' a11
  simp only [q0, q1, q2, q3, q4, q5, q6, q7, q8, q9, q10, q11] at f
  refine ⟨⟨(1 : Int) * (lo a6).toNat + (4294967296 : Int) * (hi a6).toNat + (18446744073709551616 : Int) * (lo a7).toNat + (79228162514264337593543950336 : Int) * (hi a7).toNat + (340282366920938463463374607431768211456 : Int) * (lo a8).toNat + (1461501637330902918203684832716283019655932542976 : Int) * (hi a8).toNat + (6277101735386680763835789423207666416102355444464034512896 : Int) * (lo a9).toNat + (26959946667150639794667015087019630673637144422540572481103610249216 : Int) * (hi a9).toNat + (115792089237316195423570985008687907853269984665640564039457584007913129639937 : Int) * (lo a10).toNat + (497323236409786642155382248146820840100456150797347717440463976893159497012537670500353 : Int) * (hi a10).toNat + (2135987035920910082395021706169552114602704522356652769947041607822219725780658996767040091455488 : Int) * (lo a11).toNat + (9173994463960286046443283581208347763186259956673124494950355357547691504354018460442606923522169999720447 : Int) * (hi a11).toNat, ?_⟩, ?_⟩
  · rw [f]; simp only [val, Nat.mul_zero, Nat.add_zero]
    simp only [q0, q1, q2, q3, q4, q5, q6, q7, q8, q9, q10, q11]
    clear f fb q0 q1 q2 q3 q4 q5 q6 q7 q8 q9 q10 q11
    generalize (lo a0).toNat = x0 at *; generalize (hi a0).toNat = y0 at *
    generalize (lo a1).toNat = x1 at *; generalize (hi a1).toNat = y1 at *
    generalize (lo a2).toNat = x2 at *; generalize (hi a2).toNat = y2 at *
    generalize (lo a3).toNat = x3 at *; generalize (hi a3).toNat = y3 at *
    generalize (lo a4).toNat = x4 at *; generalize (hi a4).toNat = y4 at *
    generalize (lo a5).toNat = x5 at *; generalize (hi a5).toNat = y5 at *
    generalize (lo a6).toNat = x6 at *; generalize (hi a6).toNat = y6 at *
    generalize (lo a7).toNat = x7 at *; generalize (hi a7).toNat = y7 at *
    generalize (lo a8).toNat = x8 at *; generalize (hi a8).toNat = y8 at *
    generalize (lo a9).toNat = x9 at *; generalize (hi a9).toNat = y9 at *
    generalize (lo a10).toNat = x10 at *; generalize (hi a10).toNat = y10 at *
    generalize (lo a11).toNat = x11 at *; generalize (hi a11).toNat = y11 at *
    zify at hd'
    push_cast
    linarith
  · clear q0 q1 q2 q3 q4 q5 q6 q7 q8 q9 q10 q11
    generalize (lo a0).toNat = x0 at *; generalize (hi a0).toNat = y0 at *
    generalize (lo a1).toNat = x1 at *; generalize (hi a1).toNat = y1 at *
    generalize (lo a2).toNat = x2 at *; generalize (hi a2).toNat = y2 at *
    generalize (lo a3).toNat = x3 at *; generalize (hi a3).toNat = y3 at *
    generalize (lo a4).toNat = x4 at *; generalize (hi a4).toNat = y4 at *
    generalize (lo a5).toNat = x5 at *; generalize (hi a5).toNat = y5 at *
    generalize (lo a6).toNat = x6 at *; generalize (hi a6).toNat = y6 at *
    generalize (lo a7).toNat = x7 at *; generalize (hi a7).toNat = y7 at *
    generalize (lo a8).toNat = x8 at *; generalize (hi a8).toNat = y8 at *
    generalize (lo a9).toNat = x9 at *; generalize (hi a9).toNat = y9 at *
    generalize (lo a10).toNat = x10 at *; generalize (hi a10).toNat = y10 at *
    generalize (lo a11).toNat = x11 at *; generalize (hi a11).toNat = y11 at *
    generalize val s.1 = v at *; generalize s.2 = c at *
    push_cast at f
    constructor <;> omega


theorem tabP256_ok : TabOk tabP256 4 115792089237316195423570985008687907853269984665640564039457584007913129639936 115792089210356248762697446949407573530086143415290314195533631308867097853951 5 := by
  intro i hi
  interval_cases i <;> exact ⟨_, rfl, rfl, by decide +kernel⟩

theorem modP256_spec (a : List W64) (ha : 8 ≤ a.length) :
    ∃ r, modP256 a = some r ∧ r.length = 4 ∧ val r = val (a.take 8) % 115792089210356248762697446949407573530086143415290314195533631308867097853951 := by
  match a, ha with
  | a0 :: a1 :: a2 :: a3 :: a4 :: a5 :: a6 :: a7 :: rest, _ =>
    obtain ⟨s, s1, s2, ⟨k, s3⟩, s4, s5⟩ := reduceP256_spec a0 a1 a2 a3 a4 a5 a6 a7 rest
    obtain ⟨r, r1, r2, r3⟩ := fixup_spec ops256_ok tabP256 tabP256_ok (by decide) (by decide) (by decide) s.1 s.2 s2 s4 s5
    refine ⟨r, ?_, r2, ?_⟩
    · unfold modP256; rw [s1]; exact r1
    · rw [show List.take 8 (a0 :: a1 :: a2 :: a3 :: a4 :: a5 :: a6 :: a7 :: rest) = [a0, a1, a2, a3, a4, a5, a6, a7] from rfl]
      rw [s3, show ((115792089210356248762697446949407573530086143415290314195533631308867097853951 : Nat) : Int) = 115792089210356248762697446949407573530086143415290314195533631308867097853951 from rfl, Int.sub_mul_emod_self_left] at r3
      omega

theorem tabSm2_ok : TabOk tabSm2 4 115792089237316195423570985008687907853269984665640564039457584007913129639936 115792089210356248756420345214020892766250353991924191454421193933289684991999 13 := by
  intro i hi
  interval_cases i <;> exact ⟨_, rfl, rfl, by decide +kernel⟩

theorem modSm2_spec (a : List W64) (ha : 8 ≤ a.length) :
    ∃ r, modSm2 a = some r ∧ r.length = 4 ∧ val r = val (a.take 8) % 115792089210356248756420345214020892766250353991924191454421193933289684991999 := by
  match a, ha with
  | a0 :: a1 :: a2 :: a3 :: a4 :: a5 :: a6 :: a7 :: rest, _ =>
    obtain ⟨s, s1, s2, ⟨k, s3⟩, s4, s5⟩ := reduceSm2_spec a0 a1 a2 a3 a4 a5 a6 a7 rest
    obtain ⟨r, r1, r2, r3⟩ := fixup_spec ops256_ok tabSm2 tabSm2_ok (by decide) (by decide) (by decide) s.1 s.2 s2 s4 s5
    refine ⟨r, ?_, r2, ?_⟩
    · unfold modSm2; rw [s1]; exact r1
    · rw [show List.take 8 (a0 :: a1 :: a2 :: a3 :: a4 :: a5 :: a6 :: a7 :: rest) = [a0, a1, a2, a3, a4, a5, a6, a7] from rfl]
      rw [s3, show ((115792089210356248756420345214020892766250353991924191454421193933289684991999 : Nat) : Int) = 115792089210356248756420345214020892766250353991924191454421193933289684991999 from rfl, Int.sub_mul_emod_self_left] at r3
      omega

theorem tabP384_ok : TabOk tabP384 6 39402006196394479212279040100143613805079739270465446667948293404245721771497210611414266254884915640806627990306816 39402006196394479212279040100143613805079739270465446667948293404245721771496870329047266088258938001861606973112319 5 := by
  intro i hi
  interval_cases i <;> exact ⟨_, rfl, rfl, by decide +kernel⟩

theorem modP384_spec (a : List W64) (ha : 12 ≤ a.length) :
    ∃ r, modP384 a = some r ∧ r.length = 6 ∧ val r = val (a.take 12) % 39402006196394479212279040100143613805079739270465446667948293404245721771496870329047266088258938001861606973112319 := by
  match a, ha with
  | a0 :: a1 :: a2 :: a3 :: a4 :: a5 :: a6 :: a7 :: a8 :: a9 :: a10 :: a11 :: rest, _ =>
    obtain ⟨s, s1, s2, ⟨k, s3⟩, s4, s5⟩ := reduceP384_spec a0 a1 a2 a3 a4 a5 a6 a7 a8 a9 a10 a11 rest
    obtain ⟨r, r1, r2, r3⟩ := fixup_spec ops384_ok tabP384 tabP384_ok (by decide) (by decide) (by decide) s.1 s.2 s2 s4 s5
    refine ⟨r, ?_, r2, ?_⟩
    · unfold modP384; rw [s1]; exact r1
    · rw [show List.take 12 (a0 :: a1 :: a2 :: a3 :: a4 :: a5 :: a6 :: a7 :: a8 :: a9 :: a10 :: a11 :: rest) = [a0, a1, a2, a3, a4, a5, a6, a7, a8, a9, a10, a11] from rfl]
      rw [s3, show ((39402006196394479212279040100143613805079739270465446667948293404245721771496870329047266088258938001861606973112319 : Nat) : Int) = 39402006196394479212279040100143613805079739270465446667948293404245721771496870329047266088258938001861606973112319 from rfl, Int.sub_mul_emod_self_left] at r3
      omega

/-! ### P-224: the words are the two's complement of the value -/

def TC (r : List W64) (T : Int) : Prop := r.length = 4 ∧ (val r : Int) = T % 115792089237316195423570985008687907853269984665640564039457584007913129639936

theorem tc_self (r : List W64) (hr : r.length = 4) : TC r (val r) :=
  ⟨hr, by have := ops256_ok.bound r hr; omega⟩

theorem tc_add {r l : List W64} {T U : Int} (hr : TC r T) (hl : TC l U) : TC (p256Add r l).1 (T + U) := by
  obtain ⟨a1, a2⟩ := p256Add_spec r l hr.1 hl.1
  have b := ops256_ok.bound _ a2
  refine ⟨a2, ?_⟩
  have h1 := hr.2
  have h2 := hl.2
  omega

theorem tc_sub {r l : List W64} {T U : Int} (hr : TC r T) (hl : TC l U) : TC (p256Sub r l).1 (T - U) := by
  obtain ⟨a1, a2⟩ := p256Sub_spec r l hr.1 hl.1
  have b := ops256_ok.bound _ a2
  refine ⟨a2, ?_⟩
  have h1 := hr.2
  have h2 := hl.2
  omega

theorem low_byte (v : Nat) : v &&& 255 = v % 256 := by
  rw [show (255 : Nat) = 2 ^ 8 - 1 by decide, Nat.and_two_pow_sub_one_eq_mod]

theorem carry224_spec {r : List W64} {T : Int} (hr : TC r T) (h1 : -26959946667150639794667015087019630673637144422540572481103610249216 ≤ T) (h2 : T < 80879840001451919384001045261058892020911433267621717443310830747648) : carry224 r = some (T / 26959946667150639794667015087019630673637144422540572481103610249216) := by
  obtain ⟨hl, hv⟩ := hr
  match r, hl with
  | [x0, x1, x2, x3], _ =>
    unfold carry224
    rw [show ([x0, x1, x2, x3] : List W64)[3]? = some x3 from rfl]
    simp only
    have hb : (hi x3 &&& 0xFF).toNat = (hi x3).toNat % 256 := by rw [BitVec.toNat_and]; exact low_byte _
    rw [hb]
    have b0 := x0.isLt; have b1 := x1.isLt; have b2 := x2.isLt; have b3 := hi_lt' x3; have b4 := lo_lt' x3; have b5 := halves' x3
    simp only [val, Nat.mul_zero, Nat.add_zero, b5] at hv
    simp only [Nat.reduceAdd] at b0 b1 b2
    generalize (hi x3).toNat = y at *
    generalize (lo x3).toNat = z at *
    generalize x0.toNat = w0 at *; generalize x1.toNat = w1 at *; generalize x2.toNat = w2 at *
    push_cast at hv
    have hq : (y : Int) = T / 26959946667150639794667015087019630673637144422540572481103610249216 + (if T < 0 then 4294967296 else 0) := by
      split <;> omega
    split at hq
    · have : T / 26959946667150639794667015087019630673637144422540572481103610249216 = -1 := by omega
      rw [this] at hq ⊢
      rw [show y = 4294967295 by omega]
      rfl
    · have : 0 ≤ T / 26959946667150639794667015087019630673637144422540572481103610249216 := by omega
      have : T / 26959946667150639794667015087019630673637144422540572481103610249216 < 3 := by omega
      rw [if_pos (by omega)]
      congr 1
      omega

theorem reduceP224_spec (a0 a1 a2 a3 a4 a5 a6 : W64) (rest : List W64) : ∃ r T, reduceP224 (a0 :: a1 :: a2 :: a3 :: a4 :: a5 :: a6 :: rest) = some r ∧
    TC r T ∧ (∃ k : Int, T = val [a0, a1, a2, a3, a4, a5, a6] - 26959946667150639794667015087019630673557916260026308143510066298881 * k) ∧ -26959946667150639794667015087019630673637144422540572481103610249216 < T ∧ T < 80879840001451919384001045261058892020911433267621717443310830747648 := by
  have e := tc_add (tc_self [a0, a1, a2, lo a3] rfl) (tc_sub (tc_sub (tc_add (tc_self [0, hiHi a5, a6, 0] rfl) (tc_self [0, hiHi a3, a4, lo a5] rfl))
    (tc_self [loHi a4 ||| hi a3, loHi a5 ||| hi a4, loHi a6 ||| hi a5, hi a6] rfl)) (tc_self [loHi a6 ||| hi a5, hi a6, 0, 0] rfl))
  refine ⟨_, _, rfl, e, ?_⟩
  clear e
  simp only [val, Nat.mul_zero, Nat.add_zero, BitVec.toNat_zero, Nat.zero_add, loHi_or _ _ (hi_lt' _), loHi_or _ _ (lo_lt' _), hiHi_or _ _ (hi_lt' _), hiHi_or _ _ (lo_lt' _), loHi_toNat, hiHi_toNat]
  have l0 := lo_lt' a0; have h0 := hi_lt' a0; have q0 := halves' a0
  have l1 := lo_lt' a1; have h1 := hi_lt' a1; have q1 := halves' a1
  have l2 := lo_lt' a2; have h2 := hi_lt' a2; have q2 := halves' a2
  have l3 := lo_lt' a3; have h3 := hi_lt' a3; have q3 := halves' a3
  have l4 := lo_lt' a4; have h4 := hi_lt' a4; have q4 := halves' a4
  have l5 := lo_lt' a5; have h5 := hi_lt' a5; have q5 := halves' a5
  have l6 := lo_lt' a6; have h6 := hi_lt' a6; have q6 := halves' a6
  simp only [q0, q1, q2, q3, q4, q5, q6]
  clear q0 q1 q2 q3 q4 q5 q6
  refine ⟨⟨(1 : Int) * (hi a3).toNat + (4294967296 : Int) * (lo a4).toNat + (18446744073709551616 : Int) * (hi a4).toNat + (79228162514264337593543950336 : Int) * (lo a5).toNat + (340282366920938463463374607431768211457 : Int) * (hi a5).toNat + (1461501637330902918203684832716283019660227510272 : Int) * (lo a6).toNat + (6277101735386680763835789423207666416120802188537744064512 : Int) * (hi a6).toNat, ?_⟩, ?_⟩
  all_goals generalize (lo a0).toNat = x0 at *; generalize (hi a0).toNat = y0 at *
  all_goals generalize (lo a1).toNat = x1 at *; generalize (hi a1).toNat = y1 at *
  all_goals generalize (lo a2).toNat = x2 at *; generalize (hi a2).toNat = y2 at *
  all_goals generalize (lo a3).toNat = x3 at *; generalize (hi a3).toNat = y3 at *
  all_goals generalize (lo a4).toNat = x4 at *; generalize (hi a4).toNat = y4 at *
  all_goals generalize (lo a5).toNat = x5 at *; generalize (hi a5).toNat = y5 at *
  all_goals generalize (lo a6).toNat = x6 at *; generalize (hi a6).toNat = y6 at *
  · push_cast
    ring
  · push_cast
    constructor <;> omega

theorem tabP224_ok : ∃ m1 m2, tabP224[0]? = some m1 ∧ tabP224[1]? = some m2 ∧ m1.length = 4 ∧ m2.length = 4 ∧ val m1 = 26959946667150639794667015087019630673557916260026308143510066298881 ∧ val m2 = 53919893334301279589334030174039261347115832520052616287020132597762 :=
  ⟨_, _, rfl, rfl, rfl, rfl, by decide +kernel, by decide +kernel⟩

theorem modP224_spec (a : List W64) (ha : 7 ≤ a.length) :
    ∃ r, modP224 a = some r ∧ r.length = 4 ∧ val r = val (a.take 7) % 26959946667150639794667015087019630673557916260026308143510066298881 := by
  match a, ha with
  | a0 :: a1 :: a2 :: a3 :: a4 :: a5 :: a6 :: rest, _ =>
    obtain ⟨r, T, r1, r2, ⟨k, r3⟩, r4, r5⟩ := reduceP224_spec a0 a1 a2 a3 a4 a5 a6 rest
    obtain ⟨m1, m2, t1, t2, t3, t4, t5, t6⟩ := tabP224_ok
    have c1 := carry224_spec r2 (by omega) r5
    have hstep : ∃ r' T', fix224 r (T / 26959946667150639794667015087019630673637144422540572481103610249216) = some r' ∧ TC r' T' ∧ (∃ j : Int, T' = T - 26959946667150639794667015087019630673557916260026308143510066298881 * j) ∧ -158456325028528675187087900672 < T' ∧ T' < 26959946667150639794667015087019630673954057072597629831477786050560 := by
      have s1 := tc_self m1 t3
      have s2 := tc_self m2 t4
      rw [t5] at s1
      rw [t6] at s2
      have : T / 26959946667150639794667015087019630673637144422540572481103610249216 = -1 ∨ T / 26959946667150639794667015087019630673637144422540572481103610249216 = 0 ∨ T / 26959946667150639794667015087019630673637144422540572481103610249216 = 1 ∨ T / 26959946667150639794667015087019630673637144422540572481103610249216 = 2 := by omega
      unfold fix224
      rcases this with hq | hq | hq | hq <;> rw [hq]
      · refine ⟨_, _, by rw [if_neg (by decide), if_pos (by decide), show (-(-1) - 1 : Int).toNat = 0 from rfl, t1], tc_add r2 s1, ⟨-1, by push_cast; ring⟩, by push_cast; omega, by push_cast; omega⟩
      · exact ⟨_, T, rfl, r2, ⟨0, by ring⟩, by omega, by omega⟩
      · refine ⟨_, _, by rw [if_pos (by decide), show (1 - 1 : Int).toNat = 0 from rfl, t1], tc_sub r2 s1, ⟨1, by push_cast; ring⟩, by push_cast; omega, by push_cast; omega⟩
      · refine ⟨_, _, by rw [if_pos (by decide), show (2 - 1 : Int).toNat = 1 from rfl, t2], tc_sub r2 s2, ⟨2, by push_cast; ring⟩, by push_cast; omega, by push_cast; omega⟩
    obtain ⟨r', T', f1, f2, ⟨j, f3⟩, f4, f5⟩ := hstep
    have c2 := carry224_spec f2 (by omega) (by omega)
    have hm : (T' % 26959946667150639794667015087019630673557916260026308143510066298881 : Int) = val [a0, a1, a2, a3, a4, a5, a6] % 26959946667150639794667015087019630673557916260026308143510066298881 := by
      rw [f3, Int.sub_mul_emod_self_left, r3, Int.sub_mul_emod_self_left]
    have hlast : (fixLast ops256 m1 r' (T' / 26959946667150639794667015087019630673637144422540572481103610249216)).length = 4 ∧ (val (fixLast ops256 m1 r' (T' / 26959946667150639794667015087019630673637144422540572481103610249216)) : Int) = T' % 26959946667150639794667015087019630673557916260026308143510066298881 := by
      unfold fixLast
      have s1 := tc_self m1 t3
      rw [t5] at s1
      have hv := f2.2
      by_cases hn : T' / 26959946667150639794667015087019630673637144422540572481103610249216 < 0
      · rw [if_pos hn]
        have s := tc_add f2 s1
        refine ⟨s.1, ?_⟩
        change (val (p256Add r' m1).1 : Int) = _
        rw [s.2]; push_cast; omega
      · rw [if_neg hn]
        by_cases hp : T' / 26959946667150639794667015087019630673637144422540572481103610249216 > 0 ∨ binCmp r' m1 ≥ 0
        · rw [if_pos hp]
          rw [cmp_ge r' m1 f2.1 t3, t5] at hp
          have s := tc_sub f2 s1
          refine ⟨s.1, ?_⟩
          change (val (p256Sub r' m1).1 : Int) = _
          have h0 : 0 ≤ T' := by omega
          have hv' : (val r' : Int) = T' := by omega
          have hge : 26959946667150639794667015087019630673557916260026308143510066298881 ≤ T' := by omega
          rw [s.2, ← Int.sub_emod_right T' 26959946667150639794667015087019630673557916260026308143510066298881]
          push_cast
          rw [Int.emod_eq_of_lt (by omega) (by omega), Int.emod_eq_of_lt (by omega) (by omega)]
        · rw [if_neg hp]
          rw [cmp_ge r' m1 f2.1 t3, t5] at hp
          exact ⟨f2.1, by omega⟩
    refine ⟨fixLast ops256 m1 r' (T' / 26959946667150639794667015087019630673637144422540572481103610249216), ?_, hlast.1, ?_⟩
    · unfold modP224
      rw [r1]; simp only
      rw [c1]; simp only
      rw [f1]; simp only
      rw [c2, t1]
    · rw [show List.take 7 (a0 :: a1 :: a2 :: a3 :: a4 :: a5 :: a6 :: rest) = [a0, a1, a2, a3, a4, a5, a6] from rfl]
      have := hlast.2
      rw [hm] at this
      omega

/-! ### P-521 -/

theorem shift_word (x y : W64) : ((x >>> 9) ||| (y <<< 55)).toNat = x.toNat / 512 + 36028797018963968 * (y.toNat % 512) := by
  have e1 : (y <<< 55).toNat = (y.toNat % 512) * 2 ^ 55 := by
    rw [BitVec.toNat_shiftLeft, Nat.shiftLeft_eq]; have := y.isLt; simp only [Nat.reduceAdd] at this ⊢; omega
  have e2 : (x >>> 9).toNat = x.toNat / 512 := toNat_shr x 9
  rw [BitVec.or_comm, BitVec.toNat_or, e1, e2, or_disjoint]
  · omega
  · have := x.isLt; simp only [Nat.reduceAdd] at this; omega

theorem shift521_spec : ∀ (n : Nat) (l : List W64), n < l.length → ∃ t, shift521 n l = some t ∧ t.length = n + 1 ∧ val t = val (l.take (n + 1)) / 512
  | 0, x :: xs, _ => ⟨_, rfl, rfl, by
    have := toNat_shr x 9
    simp only [List.take_succ_cons, List.take_zero, val, Nat.mul_zero, Nat.add_zero]
    exact this⟩
  | n + 1, x :: y :: xs, hl => by
    obtain ⟨t, t1, t2, t3⟩ := shift521_spec n (y :: xs) (by simp only [List.length_cons] at hl ⊢; omega)
    refine ⟨((x >>> 9) ||| (y <<< 55)) :: t, by rw [shift521, t1], by simp [t2], ?_⟩
    have hm : val ((y :: xs).take (n + 1)) % 512 = y.toNat % 512 := by
      rw [List.take_succ_cons, val]
      simp only [Nat.reduceAdd]
      omega
    rw [List.take_succ_cons, val, val, t3, shift_word, ← hm]
    generalize val ((y :: xs).take (n + 1)) = V
    simp only [Nat.reduceAdd]
    omega
  | n + 1, [x], hl => by simp at hl
  | n, [], hl => by simp at hl

theorem low9 (v : Nat) : v &&& 511 = v % 512 := by
  rw [show (511 : Nat) = 2 ^ 9 - 1 by decide, Nat.and_two_pow_sub_one_eq_mod]

theorem modP521_val : val modP521 = 6864797660130609714981900799081393217269435300143305409394463459185543183397656052122559640661454554977296311391480858037121987999716643812574028291115057151 := by decide +kernel

theorem reduceP521_spec (a : List W64) (ha : 17 ≤ a.length) :
    ∃ r, reduceP521 a = some r ∧ r.length = 9 ∧ val r = val (a.take 17) % 6864797660130609714981900799081393217269435300143305409394463459185543183397656052122559640661454554977296311391480858037121987999716643812574028291115057152 + val (a.take 17) / 6864797660130609714981900799081393217269435300143305409394463459185543183397656052122559640661454554977296311391480858037121987999716643812574028291115057152 := by
  obtain ⟨t, t1, t2, t3⟩ := shift521_spec 8 (a.drop 8) (by rw [List.length_drop]; omega)
  have h8 : 8 < a.length := by omega
  have hl8 : (a.take 8).length = 8 := by rw [List.length_take]; omega
  have hsplit : a.take 17 = a.take 8 ++ (a.drop 8).take 9 := by rw [← List.take_add]
  have hval : val (a.take 17) = val (a.take 8) + 13407807929942597099574024998205846127479365820592393377723561443721764030073546976801874298166903427690031858186486050853753882811946569946433649006084096 * val ((a.drop 8).take 9) := by
    rw [hsplit, val_append, hl8]; rfl
  have hhead : val ((a.drop 8).take 9) % 512 = a[8].toNat % 512 := by
    rw [List.drop_eq_getElem_cons h8, List.take_succ_cons, val]
    simp only [Nat.reduceAdd]
    omega
  have hb1 := val_lt (a.take 8)
  rw [hl8] at hb1
  have hb2 := val_lt ((a.drop 8).take 9)
  rw [show ((a.drop 8).take 9).length = 9 by rw [List.length_take, List.length_drop]; omega] at hb2
  have hw : val (a.take 8 ++ [a[8] &&& 0x1ff]) = val (a.take 8) + 13407807929942597099574024998205846127479365820592393377723561443721764030073546976801874298166903427690031858186486050853753882811946569946433649006084096 * (a[8].toNat % 512) := by
    rw [val_append, hl8]
    have : (a[8] &&& 0x1ff : W64).toNat = a[8].toNat % 512 := by rw [BitVec.toNat_and]; exact low9 _
    rw [val, val, this]; rfl
  obtain ⟨i1, i2⟩ := binAdd_spec (h := 32) (by decide) t (a.take 8 ++ [a[8] &&& 0x1ff]) 0 (by simp [t2]; omega)
  refine ⟨_, by unfold reduceP521; rw [t1, List.getElem?_eq_getElem h8], by rw [i2, t2], ?_⟩
  have hb3 := val_lt (binAdd t (a.take 8 ++ [a[8] &&& 0x1ff]) 0).1
  rw [i2, t2] at hb3
  rw [t2, hw, t3, show (0 : W64).toNat = 0 from rfl] at i1
  rw [← hhead] at i1
  rw [hval]
  have n8 : (2 ^ (32 + 32)) ^ 8 = 13407807929942597099574024998205846127479365820592393377723561443721764030073546976801874298166903427690031858186486050853753882811946569946433649006084096 := by decide +kernel
  have n9 : (2 ^ (32 + 32)) ^ (8 + 1) = 247330401473104534060502521019647190035131349101211839914063056092897225106531867170316401061243044989597671426016139339351365034306751209967546155101893167916606772148699136 := by decide +kernel
  have n9' : (2 ^ (32 + 32)) ^ 9 = 247330401473104534060502521019647190035131349101211839914063056092897225106531867170316401061243044989597671426016139339351365034306751209967546155101893167916606772148699136 := by decide +kernel
  rw [n8] at hb1
  rw [n9'] at hb2
  rw [n9] at i1 hb3
  generalize val ((a.drop 8).take 9) = U at *
  generalize val (a.take 8) = V at *
  generalize (binAdd t (a.take 8 ++ [a[8] &&& 0x1ff]) 0).2.toNat = c at *
  generalize val (binAdd t (a.take 8 ++ [a[8] &&& 0x1ff]) 0).1 = R at *
  clear hw hval hhead t3
  have hq : (V + 13407807929942597099574024998205846127479365820592393377723561443721764030073546976801874298166903427690031858186486050853753882811946569946433649006084096 * U) / 6864797660130609714981900799081393217269435300143305409394463459185543183397656052122559640661454554977296311391480858037121987999716643812574028291115057152 = U / 512 := by
    apply Nat.div_eq_of_lt_le
    · omega
    · omega
  rw [hq]
  have hr := Nat.div_add_mod (V + 13407807929942597099574024998205846127479365820592393377723561443721764030073546976801874298166903427690031858186486050853753882811946569946433649006084096 * U) 6864797660130609714981900799081393217269435300143305409394463459185543183397656052122559640661454554977296311391480858037121987999716643812574028291115057152
  rw [hq] at hr
  omega

theorem modP521Red_spec (a : List W64) (ha : 17 ≤ a.length) (hlt : val (a.take 17) < 47125446914534694131579097993419809976955095716785201420286055195012674566357244479460731079205201122720511132925006540350105785156086431086764996857554304847155991333706718342307167456986269662311038377104760933477381254100896222805785374204495333936040246318307567782851014765052850751581472024524956029996236801) :
    ∃ r, modP521Red a = some r ∧ r.length = 9 ∧ val r = val (a.take 17) % 6864797660130609714981900799081393217269435300143305409394463459185543183397656052122559640661454554977296311391480858037121987999716643812574028291115057151 := by
  obtain ⟨r, r1, r2, r3⟩ := reduceP521_spec a ha
  have hc := cmp_ge r modP521 r2 rfl
  rw [modP521_val] at hc
  refine ⟨_, by unfold modP521Red; rw [r1], ?_⟩
  generalize val (a.take 17) = A at *
  by_cases hge : binCmp r modP521 ≥ 0
  · rw [if_pos hge]
    obtain ⟨s1, s2⟩ := binSub_spec (h := 32) (by decide) r modP521 0 (by rw [r2]; rfl)
    have hb := val_lt (binSub r modP521 0).1
    rw [s2, r2] at hb
    rw [r2, modP521_val, show (0 : W64).toNat = 0 from rfl] at s1
    have n9 : (2 ^ (32 + 32)) ^ 9 = 247330401473104534060502521019647190035131349101211839914063056092897225106531867170316401061243044989597671426016139339351365034306751209967546155101893167916606772148699136 := by decide +kernel
    rw [n9] at s1 hb
    refine ⟨by rw [s2, r2], ?_⟩
    rw [hc] at hge
    omega
  · rw [if_neg hge]
    rw [hc] at hge
    exact ⟨r2, by omega⟩

end Verif.Crypto.Bn
