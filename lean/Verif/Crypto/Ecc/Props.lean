import Verif.Crypto.Ecc.Mul
import Verif.Crypto.Ecc.Bn
import Verif.Crypto.Ecc.Prime

/-! C63: elliptic curve operations are the group law of the curve `y² = x³ - 3x + b`. -/
namespace Verif.Crypto.Ecc

/-- No multiple from 1 to 30 is the point at infinity. -/
def Spec.NoSmallOrder {F : Type} [Field F] [DecidableEq F] {b : F} (P : (Spec.Curve b).Point) : Prop :=
  ∀ j, 1 ≤ j → j ≤ 30 → j • P ≠ 0

/-- The triple has valid coordinates. -/
def Spec.Valid {α F : Type} [Field F] {S : Fld α} (I : Spec.Impl S F) (p : Pt α) : Prop := I.ok p.x ∧ I.ok p.y ∧ I.ok p.z

/-- `res` are the affine coordinates of a point; there are none for the point at infinity. -/
def Spec.AffineOf {α F : Type} [Field F] [DecidableEq F] {S : Fld α} (I : Spec.Impl S F) {b : F} (res : Option (Pt α)) :
    (Spec.Curve b).Point → Prop
  | .zero => res = none
  | .some x y _ => ∃ q, res = some q ∧ Spec.Valid I q ∧ I.rep q.x = x ∧ I.rep q.y = y ∧ I.rep q.z = 1

section
variable {α F : Type} [Field F] {S : Fld α} (I : Spec.Impl S F) [DecidableEq F] {b : F}

/-- C63: doubling, also at infinity and at a point of order two; the result may be the operand. -/
theorem double_exact (al : Bool) (r a : Pt α) (P : (Spec.Curve b).Point) (hr : Spec.Valid I r) (ha : Spec.Represents I a P) :
    ∃ q, pointDouble S al r a = some q ∧ Spec.Represents I q (P + P) := pointDouble_spec I al hr ha

/-- C63: doubling `m` times. -/
theorem multDouble_exact (al : Bool) (r a : Pt α) (P : (Spec.Curve b).Point) (m : Nat) (hr : Spec.Valid I r)
    (ha : Spec.Represents I a P) : ∃ q, pointMultDouble S al r a m = some q ∧ Spec.Represents I q (2 ^ m • P) :=
  pointMultDouble_spec I al m hr ha

/-- C63: addition, for all pairs of points: equal, opposite or at infinity. -/
theorem add_exact (al : Bool) (r a c : Pt α) (P Q : (Spec.Curve b).Point) (hr : Spec.Valid I r) (ha : Spec.Represents I a P)
    (hc : Spec.Represents I c Q) : ∃ q, pointAdd S al r a c = some q ∧ Spec.Represents I q (P + Q) :=
  pointAdd_spec I al hr ha hc

/-- C63: addition of a point with `Z = 1`. -/
theorem addAffine_exact (r a c : Pt α) (P Q : (Spec.Curve b).Point) (hr : Spec.Valid I r) (ha : Spec.Represents I a P)
    (hc : Spec.Represents I c Q) (h1 : I.rep c.z = 1) :
    ∃ q, pointAddAffine S r a c = some q ∧ Spec.Represents I q (P + Q) :=
  pointAddAffine_spec I hr ha hc h1

/-- C63: the affine coordinates of a point, and no result at infinity. -/
theorem toAffine_exact (a : Pt α) (P : (Spec.Curve b).Point) (ha : Spec.Represents I a P) :
    Spec.AffineOf I (eccPoint2Affine S a) P := by
  unfold eccPoint2Affine
  rcases P with _ | ⟨x, y, hp⟩
  · have : S.isZero a.z = true := (not_zero I ha).mpr rfl
    rw [if_pos this]
    rfl
  · have hz : ¬ S.isZero a.z = true := fun e => by cases (not_zero I ha).mp e
    rw [if_neg hz]
    have fin : ∀ q : Pt α, Spec.Represents I q (WeierstrassCurve.Affine.Point.some x y hp : (Spec.Curve b).Point) → I.rep q.z = 1 →
        I.rep q.x = x ∧ I.rep q.y = y := by
      intro q hq h1
      obtain ⟨-, -, -, -, e1, e2⟩ := hq
      rw [h1] at e1 e2
      exact ⟨by rw [e1]; ring, by rw [e2]; ring⟩
    by_cases ho : S.isOne a.z = true
    · rw [if_pos ho]
      have h1 := (I.isOne ha.2.2.1).mp ho
      obtain ⟨f1, f2⟩ := fin a ha h1
      exact ⟨a, rfl, Rep.ok I ha, f1, f2, h1⟩
    · rw [if_neg ho]
      obtain ⟨q, e, hq, h1⟩ := point2Affine_spec I ha (z_ne I ha hz)
      obtain ⟨f1, f2⟩ := fin q hq h1
      exact ⟨q, e, Rep.ok I hq, f1, f2, h1⟩

/-- C63: the comparison decides the equality of the points, whatever their coordinates. -/
theorem cmp_exact (a c : Pt α) (P Q : (Spec.Curve b).Point) (ha : Spec.Represents I a P) (hc : Spec.Represents I c Q) :
    pointCmp S a c = some (decide (P = Q)) := by
  unfold pointCmp
  have za := not_zero I ha
  have zc := not_zero I hc
  by_cases hP : P = 0
  · by_cases hQ : Q = 0
    · rw [if_pos ⟨za.mpr hP, zc.mpr hQ⟩, hP, hQ]; simp
    · rw [if_neg (fun h => hQ (zc.mp h.2)), if_pos (Or.inl (za.mpr hP))]
      have : ¬ P = Q := fun e => hQ (e ▸ hP)
      simp [this]
  · rw [if_neg (fun h => hP (za.mp h.1))]
    by_cases hQ : Q = 0
    · rw [if_pos (Or.inr (zc.mpr hQ))]
      have : ¬ P = Q := fun e => hP (e ▸ hQ)
      simp [this]
    · rw [if_neg (fun h => h.elim (fun h => hP (za.mp h)) (fun h => hQ (zc.mp h)))]
      have hza := z_ne I ha (fun e => hP (za.mp e))
      have hzc := z_ne I hc (fun e => hQ (zc.mp e))
      obtain ⟨p, e1, hp, px, py⟩ := jacMulZ_spec I ha hP hc.2.2.1 hzc
      obtain ⟨q, e2, hq, qx, qy⟩ := jacMulZ_spec I hc hQ ha.2.2.1 hza
      rw [e1, e2]
      show some (S.eq p.x q.x && S.eq p.y q.y) = _
      congr 1
      rw [Bool.eq_iff_iff, Bool.and_eq_true, I.eq hp.1 hq.1, I.eq hp.2.1 hq.2.1, decide_eq_true_iff, px, py, qx, qy]
      constructor
      · rintro ⟨h1, h2⟩
        exact jac_same ha.2.2.2 hc.2.2.2 hza hzc (by rw [← h1]; ring) (by rw [← h2]; ring)
      · rintro rfl
        rcases P with _ | ⟨x, y, hxy⟩
        · exact absurd rfl hP
        · obtain ⟨-, -, -, -, a1, a2⟩ := ha
          obtain ⟨-, -, -, -, c1, c2⟩ := hc
          exact ⟨by rw [a1, c1]; ring, by rw [a2, c2]; ring⟩

/-- C63: the check of a point accepts exactly the solutions of the equation; it refuses other coordinates than affine ones. -/
theorem onCurve_exact (ca cb : α) (hca : I.ok ca) (hcb : I.ok cb) (ha3 : I.rep ca = -3) (hb : I.rep cb = b) (a : Pt α)
    (ha : Spec.Valid I a) :
    pointOnCurve S ca cb a =
      if I.rep a.z = 1 then some (decide ((I.rep a.y) ^ 2 = (I.rep a.x) ^ 3 - 3 * I.rep a.x + b)) else none := by
  obtain ⟨hx, hy, hz⟩ := ha
  unfold pointOnCurve
  by_cases h0 : S.isZero a.z = true
  · rw [if_pos h0]
    rw [I.isZero hz] at h0
    rw [if_neg (by rw [h0]; exact zero_ne_one)]
  rw [if_neg h0]
  by_cases h1 : S.isOne a.z = true
  · rw [if_neg (by rw [h1]; simp), if_pos ((I.isOne hz).mp h1)]
    obtain ⟨x1, e1, o1, r1⟩ := I.modSqr hx
    obtain ⟨x2, e2, o2, r2⟩ := I.modAdd o1 hca
    obtain ⟨x3, e3, o3, r3⟩ := I.modMul o2 hx
    obtain ⟨x4, e4, o4, r4⟩ := I.modAdd o3 hcb
    obtain ⟨y1, e5, o5, r5⟩ := I.modSqr hy
    simp only [e1, e2, e3, e4, e5, Option.bind_eq_bind, Option.bind_some]
    congr 1
    rw [Bool.eq_iff_iff, I.eq o4 o5, decide_eq_true_iff, r5, r4, r3, r2, r1, ha3, hb]
    constructor
    · intro h; rw [pow_two, ← h]; ring
    · intro h; linear_combination -h
  · have h1' : S.isOne a.z = false := by simpa using h1
    rw [if_pos h1', if_neg (fun e => h1 ((I.isOne hz).mpr e))]

/-- C63: the multiplication `ECC_PointMul` gives `k` times the point, for every scalar and every random number except zero. -/
theorem mul_exact (r pt : Pt α) (k : Nat) (blind : α) (P : (Spec.Curve b).Point) (hr : Spec.Valid I r) (h : Spec.Represents I pt P)
    (hP : P ≠ 0) (hb : I.ok blind) (hb0 : I.rep blind ≠ 0) :
    ∃ q, eccPointMul S r k pt blind = some q ∧ Spec.Represents I q (k • P) := by
  unfold eccPointMul
  rw [if_neg (fun e => hP ((not_zero I h).mp e))]
  by_cases hk : k = 0
  · rw [if_pos hk, hk, zero_smul]
    exact ⟨_, rfl, hr.1, hr.2.1, I.zero.1, I.zero.2⟩
  · rw [if_neg hk]
    exact pointMul_spec I k hk h hP hb hb0

/-- C63: the point at infinity is refused, and so is the random number zero (with a scalar that is not zero). -/
theorem mul_refused (r pt : Pt α) (k : Nat) (blind : α) (P : (Spec.Curve b).Point) (h : Spec.Represents I pt P)
    (hb : I.ok blind) (hbad : P = 0 ∨ (k ≠ 0 ∧ I.rep blind = 0)) : eccPointMul S r k pt blind = none := by
  unfold eccPointMul
  by_cases hP : P = 0
  · rw [if_pos ((not_zero I h).mpr hP)]
  · rw [if_neg (fun e => hP ((not_zero I h).mp e))]
    rcases hbad with h0 | ⟨hk, h0⟩
    · exact absurd h0 hP
    rw [if_neg hk]
    unfold pointMul
    cases (if S.isOne pt.z = true then some pt else point2Affine S pt) with
    | none => rfl
    | some base =>
      dsimp only
      rw [pointBlind, if_pos ((I.isZero hb).mpr h0)]

/-- C63: the multiplication with windows (`ECP_PointMulFast`). -/
theorem mulFast_exact (k : Nat) (pt : Pt α) (P : (Spec.Curve b).Point) (hk : k ≠ 0) (h : Spec.Represents I pt P)
    (hP : Spec.NoSmallOrder P) : ∃ q, pointMulFast S k pt = some q ∧ Spec.Represents I q (k • P) :=
  pointMulFast_spec I k hk h hP

/-- C63: the double multiplication (`ECC_PointMulAdd`) gives `k1` times the generator plus `k2` times the point. -/
theorem mulAdd_exact (r g pt : Pt α) (k1 k2 : Nat) (G P : (Spec.Curve b).Point) (hr : Spec.Valid I r) (hg : Spec.Represents I g G)
    (h : Spec.Represents I pt P) (hG : Spec.NoSmallOrder G) (hP : Spec.NoSmallOrder P) :
    ∃ q, eccPointMulAdd S r g k1 k2 pt = some q ∧ Spec.Represents I q (k1 • G + k2 • P) := by
  unfold eccPointMulAdd
  rw [if_neg (fun e => hP 1 (by omega) (by omega) (by rw [one_smul]; exact (not_zero I h).mp e))]
  exact pointMulAdd_spec I k1 k2 hr hg hG h hP

/-- C63: points of the groups in use have no small order. -/
theorem noSmallOrder_of_prime (n : Nat) (hn : n.Prime) (h30 : 30 < n) (P : (Spec.Curve b).Point) (hP : P ≠ 0) (hnP : n • P = 0) :
    Spec.NoSmallOrder P := by
  intro j h1 h2 hj
  have hc : Nat.Coprime j n := ((Nat.Prime.coprime_iff_not_dvd hn).mpr (fun hd => by
    have := Nat.le_of_dvd (by omega) hd
    omega)).symm
  have d1 := addOrderOf_dvd_of_nsmul_eq_zero hj
  have d2 := addOrderOf_dvd_of_nsmul_eq_zero hnP
  have := Nat.dvd_gcd d1 d2
  rw [hc, Nat.dvd_one, AddMonoid.addOrderOf_eq_one_iff] at this
  exact hP this

theorem invertAll_none (ps : List (Pt α)) (p : Pt α) (hp : p ∈ ps) (hz : S.isZero p.z = true) : invertAll S ps = none := by
  induction ps with
  | nil => cases hp
  | cons q ps ih =>
    unfold invertAll
    rcases List.mem_cons.mp hp with rfl | hp
    · rw [pointInvert, if_pos hz]
    · rw [ih hp]
      cases pointInvert S q <;> rfl

/-- C63: the condition on small orders is needed: the routine fails on a point whose order is odd and at most 15. -/
theorem mulFast_small_order (k : Nat) (pt : Pt α) (P : (Spec.Curve b).Point) (h : Spec.Represents I pt P) (i : Nat) (hi : i < 7)
    (h0 : (3 + 2 * i) • P = 0) : pointMulFast S k pt = none := by
  have : preCompute S pt = none := by
    obtain ⟨dbl, e1, hd⟩ := pointDouble_spec I false (blank_ok I) h
    rw [← two_smul ℕ P] at hd
    obtain ⟨l, e2, hlen, h2⟩ := oddPoints_spec I hd 7 (p := pt) (j := 1) (by rwa [one_smul])
    have hm : l[i]'(by omega) ∈ pt :: l := List.mem_cons_of_mem _ (List.getElem_mem _)
    have hr := h2 i (by omega)
    rw [show 1 + 2 * (i + 1) = 3 + 2 * i by omega] at hr
    rw [preCompute, e1]
    dsimp only
    rw [e2]
    dsimp only
    rw [invertAll_none (S := S) _ _ hm ((not_zero I hr).mpr h0)]
  rw [pointMulFast, this]

end

/-- The items stand for the number: the sum of the digits, each shifted by the widths from its own on. -/
def Spec.codeValue : List (Int × Nat) → Int
  | [] => 0
  | (n, w) :: cs => n * 2 ^ (w + (cs.map Prod.snd).sum) + Spec.codeValue cs

theorem width_eq (c : Code) : width c = (c.map Prod.snd).sum := by
  induction c with
  | nil => rfl
  | cons x c ih => obtain ⟨n, w⟩ := x; simp only [width, ih, List.map_cons, List.sum_cons]

theorem value_eq (c : Code) : value c = Spec.codeValue c := by
  induction c with
  | nil => rfl
  | cons x c ih => obtain ⟨n, w⟩ := x; simp only [value, Spec.codeValue, ih, width_eq]

/-- C63: the recoding of every scalar stays within its arrays of `bits / 5 + 1` items, gives odd digits of at most 15 that stand
for the scalar, and the position of the highest one. -/
theorem recode_exact (k : Nat) : ∃ c B, recode k = some (c, B) ∧ (∀ x ∈ c, x.1 % 2 = 1 ∧ -15 ≤ x.1 ∧ x.1 ≤ 15) ∧
    Spec.codeValue c = k ∧ B = (c.map Prod.snd).sum := by
  obtain ⟨c, B, e, hg, hv, hw⟩ := recode_spec k
  exact ⟨c, B, e, hg.1, by rw [← value_eq]; exact hv, by rw [← width_eq]; exact hw.symm⟩

/-! ### The numbers of the library -/

section
variable {p : Nat} [Fact p.Prime]

/-- C63: with the numbers and the NIST reductions of the library (EC_METHOD_NIST): a multiplication followed by the conversion
to affine coordinates gives the coordinates of `k` times the point, reduced, and fails exactly if that is the point at
infinity. `x0`, `y0` are the coordinates of the point, `m` the prime of the curve. -/
theorem nist_mul_affine (m : Bn.Bn 32) (hm : Bn.Spec.int m = p) (hn : Bn.Spec.NistModulus m) (h2 : 2 < p) (b : ZMod p)
    (x0 y0 : ZMod p) (h0 : (Spec.Curve b).Nonsingular x0 y0) (k : Nat) (r pt : Pt (Bn.Bn 32)) (blind : Bn.Bn 32)
    (hr : Bn.Spec.Residue m r.x ∧ Bn.Spec.Residue m r.y ∧ Bn.Spec.Residue m r.z)
    (hpt : Bn.Spec.Residue m pt.x ∧ Bn.Spec.Residue m pt.y ∧ pt.z = ⟨false, [1]⟩)
    (hx : (Bn.Spec.int pt.x : ZMod p) = x0) (hy : (Bn.Spec.int pt.y : ZMod p) = y0)
    (hb : Bn.Spec.Residue m blind) (hb0 : Bn.Spec.int blind ≠ 0) :
    ∃ q, eccPointMul (nistFld m) r k pt blind = some q ∧
      match k • (WeierstrassCurve.Affine.Point.some x0 y0 h0 : (Spec.Curve b).Point) with
      | .zero => eccPoint2Affine (nistFld m) q = none
      | .some x y _ => ∃ a, eccPoint2Affine (nistFld m) q = some a ∧ Bn.Spec.Residue m a.x ∧ Bn.Spec.Residue m a.y ∧
          (Bn.Spec.int a.x : ZMod p) = x ∧ (Bn.Spec.int a.y : ZMod p) = y := by
  let I := nistImpl m hm hn h2
  have hz : I.ok pt.z ∧ I.rep pt.z = 1 := by rw [hpt.2.2]; exact I.one
  have hrep : Spec.Represents I pt (WeierstrassCurve.Affine.Point.some x0 y0 h0 : (Spec.Curve b).Point) := by
    refine ⟨hpt.1, hpt.2.1, hz.1, ?_, ?_, ?_⟩
    · rw [hz.2]; exact one_ne_zero
    · rw [hz.2]; show (Bn.Spec.int pt.x : ZMod p) = _; rw [hx]; ring
    · rw [hz.2]; show (Bn.Spec.int pt.y : ZMod p) = _; rw [hy]; ring
  have hbr : I.rep blind ≠ 0 := by
    intro e
    exact hb0 (res_inj hm ⟨hb.2.1, by have := hb.2.2; omega⟩ ⟨le_refl _, by omega⟩ (by rw [Int.cast_zero]; exact e))
  obtain ⟨q, e, hq⟩ := mul_exact I r pt k blind _ hr hrep (by intro h; cases h) hb hbr
  refine ⟨q, e, ?_⟩
  have ta := toAffine_exact I q _ hq
  revert ta
  cases k • (WeierstrassCurve.Affine.Point.some x0 y0 h0 : (Spec.Curve b).Point) with
  | zero => exact fun ta => ta
  | some x y h =>
    rintro ⟨a, e2, ha, h3, h4, -⟩
    exact ⟨a, e2, ha.1, ha.2.1, h3, h4⟩

/-- C63: … and `k1` times the generator plus `k2` times a point, for a verification. -/
theorem nist_mulAdd_affine (m : Bn.Bn 32) (hm : Bn.Spec.int m = p) (hn : Bn.Spec.NistModulus m) (h2 : 2 < p) (b : ZMod p)
    (k1 k2 : Nat) (r g pt : Pt (Bn.Bn 32)) (G P : (Spec.Curve b).Point)
    (hr : Bn.Spec.Residue m r.x ∧ Bn.Spec.Residue m r.y ∧ Bn.Spec.Residue m r.z)
    (hg : Spec.Represents (nistImpl m hm hn h2) g G) (hpt : Spec.Represents (nistImpl m hm hn h2) pt P)
    (hG : Spec.NoSmallOrder G) (hP : Spec.NoSmallOrder P) :
    ∃ q, eccPointMulAdd (nistFld m) r g k1 k2 pt = some q ∧
      match k1 • G + k2 • P with
      | .zero => eccPoint2Affine (nistFld m) q = none
      | .some x y _ => ∃ a, eccPoint2Affine (nistFld m) q = some a ∧ Bn.Spec.Residue m a.x ∧ Bn.Spec.Residue m a.y ∧
          (Bn.Spec.int a.x : ZMod p) = x ∧ (Bn.Spec.int a.y : ZMod p) = y := by
  obtain ⟨q, e, hq⟩ := mulAdd_exact (nistImpl m hm hn h2) r g pt k1 k2 G P hr hg hpt hG hP
  refine ⟨q, e, ?_⟩
  have ta := toAffine_exact _ q _ hq
  revert ta
  cases k1 • G + k2 • P with
  | zero => exact fun ta => ta
  | some x y h =>
    rintro ⟨a, e2, ha, h3, h4, -⟩
    exact ⟨a, e2, ha.1, ha.2.1, h3, h4⟩

/-- C63: the SM2 curve with its own reductions. -/
theorem sm2_mulAdd_affine (m : Bn.Bn 32) (hm : Bn.Spec.int m = p) (hs : Bn.Spec.int m = Bn.Spec.sm2) (hw : Bn.Spec.WellFormed m)
    (h2 : 2 < p) (b : ZMod p) (k1 k2 : Nat) (r g pt : Pt (Bn.Bn 32)) (G P : (Spec.Curve b).Point)
    (hr : Bn.Spec.Residue m r.x ∧ Bn.Spec.Residue m r.y ∧ Bn.Spec.Residue m r.z)
    (hg : Spec.Represents (sm2Impl m hm hs hw h2) g G) (hpt : Spec.Represents (sm2Impl m hm hs hw h2) pt P)
    (hG : Spec.NoSmallOrder G) (hP : Spec.NoSmallOrder P) :
    ∃ q, eccPointMulAdd (sm2Fld m) r g k1 k2 pt = some q ∧
      match k1 • G + k2 • P with
      | .zero => eccPoint2Affine (sm2Fld m) q = none
      | .some x y _ => ∃ a, eccPoint2Affine (sm2Fld m) q = some a ∧ Bn.Spec.Residue m a.x ∧ Bn.Spec.Residue m a.y ∧
          (Bn.Spec.int a.x : ZMod p) = x ∧ (Bn.Spec.int a.y : ZMod p) = y := by
  obtain ⟨q, e, hq⟩ := mulAdd_exact (sm2Impl m hm hs hw h2) r g pt k1 k2 G P hr hg hpt hG hP
  refine ⟨q, e, ?_⟩
  have ta := toAffine_exact _ q _ hq
  revert ta
  cases k1 • G + k2 • P with
  | zero => exact fun ta => ta
  | some x y h =>
    rintro ⟨a, e2, ha, h3, h4, -⟩
    exact ⟨a, e2, ha.1, ha.2.1, h3, h4⟩

end

/-! ### P-224, a concrete case -/

/-- Routines on natural numbers, to calculate examples. -/
def natFld (p : Nat) : Fld Nat where
  mul := fun a b => some (a * b % p)
  sqr := fun a => some (a * a % p)
  add := fun a b => some ((a + b) % p)
  sub := fun a b => some ((a + (p - b)) % p)
  modMul := fun a b => some (a * b % p)
  modSqr := fun a => some (a * a % p)
  modAdd := fun a b => some ((a + b) % p)
  modInv := fun a => some (powMod p a 600 (p - 2))
  subFromP := fun a => p - a
  isZero := fun a => decide (a = 0)
  isOne := fun a => decide (a = 1)
  eq := fun a b => decide (a = b)
  zero := 0
  one := 1
  half := (p + 1) / 2

def natImpl {p : Nat} [Fact p.Prime] (h2 : 2 < p) (h600 : p < 2 ^ 600) : Spec.Impl (natFld p) (ZMod p) where
  ok := fun a => a < p
  rep := fun a => (a : ZMod p)
  mul := fun _ _ => ⟨_, rfl, Nat.mod_lt _ (by omega), by rw [ZMod.natCast_mod]; push_cast; rfl⟩
  sqr := fun _ => ⟨_, rfl, Nat.mod_lt _ (by omega), by rw [ZMod.natCast_mod]; push_cast; rfl⟩
  add := fun _ _ => ⟨_, rfl, Nat.mod_lt _ (by omega), by rw [ZMod.natCast_mod]; push_cast; rfl⟩
  sub := fun _ hb => ⟨_, rfl, Nat.mod_lt _ (by omega), by
    rw [ZMod.natCast_mod, Nat.cast_add, Nat.cast_sub (le_of_lt hb)]; simp [sub_eq_add_neg]⟩
  modMul := fun _ _ => ⟨_, rfl, Nat.mod_lt _ (by omega), by rw [ZMod.natCast_mod]; push_cast; rfl⟩
  modSqr := fun _ => ⟨_, rfl, Nat.mod_lt _ (by omega), by rw [ZMod.natCast_mod]; push_cast; rfl⟩
  modAdd := fun _ _ => ⟨_, rfl, Nat.mod_lt _ (by omega), by rw [ZMod.natCast_mod]; push_cast; rfl⟩
  modInv := by
    intro a _ h0
    have e := powMod_eq p a 600 (p - 2) (by omega)
    refine ⟨_, rfl, by rw [e]; exact Nat.mod_lt _ (by omega), ?_⟩
    rw [e, ZMod.natCast_mod]
    have := ZMod.pow_card_sub_one_eq_one h0
    apply eq_inv_of_mul_eq_one_left
    rw [Nat.cast_pow, ← pow_succ, show p - 2 + 1 = p - 1 by omega]
    exact this
  subFromP := by
    intro a ha h0
    have : a ≠ 0 := by rintro rfl; simp at h0
    exact ⟨by show p - a < p; omega, by show ((p - a : Nat) : ZMod p) = _; rw [Nat.cast_sub (le_of_lt ha)]; simp⟩
  isZero := by
    intro a ha
    show decide (a = 0) = true ↔ _
    rw [decide_eq_true_iff, ZMod.natCast_eq_zero_iff]
    exact ⟨fun h => h ▸ dvd_zero _, fun h => Nat.eq_zero_of_dvd_of_lt h ha⟩
  isOne := by
    intro a ha
    show decide (a = 1) = true ↔ _
    rw [decide_eq_true_iff]
    constructor
    · rintro rfl; simp
    · intro h
      have h : (a : ZMod p) = ((1 : Nat) : ZMod p) := by rw [h]; simp
      rw [ZMod.natCast_eq_natCast_iff', Nat.mod_eq_of_lt ha, Nat.mod_eq_of_lt (by omega)] at h
      exact h
  eq := by
    intro a b ha hb
    show decide (a = b) = true ↔ _
    rw [decide_eq_true_iff, ZMod.natCast_eq_natCast_iff', Nat.mod_eq_of_lt ha, Nat.mod_eq_of_lt hb]
  zero := ⟨by show 0 < p; omega, by show ((0 : Nat) : ZMod p) = 0; simp⟩
  one := ⟨by show 1 < p; omega, by show ((1 : Nat) : ZMod p) = 1; simp⟩
  half := by
    have hodd : p % 2 = 1 := by
      rcases (Fact.out : p.Prime).eq_two_or_odd with h | h
      · omega
      · exact h
    refine ⟨by show (p + 1) / 2 < p; omega, ?_⟩
    show 2 * (((p + 1) / 2 : Nat) : ZMod p) = 1
    have h4 : ((2 * ((p + 1) / 2) : Nat) : ZMod p) = ((p + 1 : Nat) : ZMod p) := by rw [show 2 * ((p + 1) / 2) = p + 1 by omega]
    push_cast at h4
    rw [h4]
    simp

def p224 : Nat := 26959946667150639794667015087019630673557916260026308143510066298881
def b224 : Nat := 18958286285566608000408668544493926415504680968679321075787234672564
def gx224 : Nat := 19277929113566293071110308034699488026831934219452440156649784352033
def gy224 : Nat := 19926808758034470970197974370888749184205991990603949537637343198772

instance : Fact p224.Prime := ⟨p224_prime⟩

theorem nonsingular_of_nat (p : Nat) [Fact p.Prime] (x y b : Nat) (h3 : 3 ≤ p) (h : y * y % p = (x * x * x + (p - 3) * x + b) % p)
    (hy : ¬ p ∣ 2 * y) : (Spec.Curve (b : ZMod p)).Nonsingular x y := by
  rw [WeierstrassCurve.Affine.nonsingular_iff]
  have e := (ZMod.natCast_eq_natCast_iff' _ _ p).mpr h
  rw [Nat.cast_add, Nat.cast_add, Nat.cast_mul (p - 3), Nat.cast_sub h3] at e
  push_cast at e
  rw [ZMod.natCast_self] at e
  refine ⟨?_, Or.inr ?_⟩
  · rw [WeierstrassCurve.Affine.equation_iff]
    linear_combination e
  · intro e2
    apply hy
    rw [← ZMod.natCast_eq_zero_iff]
    push_cast
    linear_combination e2

theorem g224_on : (Spec.Curve (b224 : ZMod p224)).Nonsingular gx224 gy224 :=
  nonsingular_of_nat p224 gx224 gy224 b224 (by decide +kernel) (by decide +kernel) (by decide +kernel)

/-- The generator of P-224. -/
def G224 : (Spec.Curve (b224 : ZMod p224)).Point := .some gx224 gy224 g224_on

def natI224 : Spec.Impl (natFld p224) (ZMod p224) := natImpl (by decide +kernel) (by decide +kernel)

theorem g224_rep : Spec.Represents natI224 ⟨gx224, gy224, 1⟩ G224 := by
  have h1 : natI224.rep 1 = 1 := natI224.one.2
  refine ⟨?_, ?_, natI224.one.1, ?_, ?_, ?_⟩
  · show gx224 < p224; decide +kernel
  · show gy224 < p224; decide +kernel
  · dsimp only; rw [h1]; exact one_ne_zero
  · dsimp only; rw [h1]; show (gx224 : ZMod p224) = _; ring
  · dsimp only; rw [h1]; show (gy224 : ZMod p224) = _; ring

/-- `n + 1` times the generator, by additions. -/
def addN : Nat → Option (Pt Nat)
  | 0 => some ⟨gx224, gy224, 1⟩
  | n + 1 => match addN n with | none => none | some q => pointAddAffine (natFld p224) ⟨0, 0, 0⟩ q ⟨gx224, gy224, 1⟩

theorem addN_rep (n : Nat) : ∃ q, addN n = some q ∧ Spec.Represents natI224 q ((n + 1) • G224) := by
  induction n with
  | zero => exact ⟨_, rfl, by rw [zero_add, one_smul]; exact g224_rep⟩
  | succ n ih =>
    obtain ⟨q, e, h⟩ := ih
    obtain ⟨q', e', h'⟩ := addAffine_exact natI224 ⟨0, 0, 0⟩ q ⟨gx224, gy224, 1⟩ _ _
      ⟨natI224.zero.1, natI224.zero.1, natI224.zero.1⟩ h g224_rep natI224.one.2
    exact ⟨q', by rw [addN, e]; exact e', by rw [add_smul, one_smul]; exact h'⟩

theorem g224_chain : ∀ n < 30, (addN n).any (fun q => decide (q.z ≠ 0)) = true := by decide +kernel

/-- The generator has no small order. -/
theorem g224_noSmallOrder : Spec.NoSmallOrder G224 := by
  intro j h1 h2 hj
  obtain ⟨q, e, h⟩ := addN_rep (j - 1)
  have hc := g224_chain (j - 1) (by omega)
  rw [e] at hc
  rw [show j - 1 + 1 = j by omega, hj] at h
  have hz := (not_zero natI224 h).mpr rfl
  have hc : q.z ≠ 0 := by simpa using hc
  have hz : q.z = 0 := by simpa using (show decide (q.z = 0) = true from hz)
  exact hc hz

/-- The prime of P-224 and the coordinates of its generator as numbers of the library. -/
def bp224 : Bn.Bn 32 := ⟨false, [0x0000000000000001, 0xffffffff00000000, 0xffffffffffffffff, 0x00000000ffffffff]⟩
def bx224 : Bn.Bn 32 := ⟨false, [0x343280d6115c1d21, 0x4a03c1d356c21122, 0x6bb4bf7f321390b9, 0x00000000b70e0cbd]⟩
def by224 : Bn.Bn 32 := ⟨false, [0x44d5819985007e34, 0xcd4375a05a074764, 0xb5f723fb4c22dfe6, 0x00000000bd376388]⟩

theorem bp224_int : Bn.Spec.int bp224 = p224 := by decide +kernel

theorem bp224_nist : Bn.Spec.NistModulus bp224 :=
  ⟨⟨fun x h => by rw [show bp224.data.getLast? = some 0x00000000ffffffff from rfl] at h; cases h; decide, fun h => by cases h⟩,
    Or.inl (by decide +kernel)⟩

theorem bx224_res : Bn.Spec.Residue bp224 bx224 :=
  ⟨⟨fun x h => by rw [show bx224.data.getLast? = some 0x00000000b70e0cbd from rfl] at h; cases h; decide, fun h => by cases h⟩,
    by decide +kernel, by decide +kernel⟩

theorem by224_res : Bn.Spec.Residue bp224 by224 :=
  ⟨⟨fun x h => by rw [show by224.data.getLast? = some 0x00000000bd376388 from rfl] at h; cases h; decide, fun h => by cases h⟩,
    by decide +kernel, by decide +kernel⟩

theorem one_res : Bn.Spec.Residue bp224 ⟨false, [1]⟩ := ⟨wf_one, by decide +kernel, by decide +kernel⟩

def nistI224 : Spec.Impl (nistFld bp224) (ZMod p224) := nistImpl bp224 bp224_int bp224_nist (by decide +kernel)

theorem g224_bn_rep : Spec.Represents nistI224 ⟨bx224, by224, ⟨false, [1]⟩⟩ G224 := by
  have h1 : nistI224.rep ⟨false, [1]⟩ = 1 := nistI224.one.2
  have ex : Bn.Spec.int bx224 = gx224 := by decide +kernel
  have ey : Bn.Spec.int by224 = gy224 := by decide +kernel
  refine ⟨bx224_res, by224_res, one_res, ?_, ?_, ?_⟩
  · dsimp only; rw [h1]; exact one_ne_zero
  · dsimp only; rw [h1]; show (Bn.Spec.int bx224 : ZMod p224) = _; rw [ex]; simp
  · dsimp only; rw [h1]; show (Bn.Spec.int by224 : ZMod p224) = _; rw [ey]; simp

/-- With the numbers of the library, every multiple of the generator of P-224 is calculated. -/
example (k : Nat) : ∃ q, eccPointMul (nistFld bp224) ⟨⟨false, [1]⟩, ⟨false, [1]⟩, ⟨false, [1]⟩⟩ k ⟨bx224, by224, ⟨false, [1]⟩⟩ ⟨false, [1]⟩ = some q ∧
    Spec.Represents nistI224 q (k • G224) :=
  mul_exact nistI224 _ _ k _ G224 ⟨one_res, one_res, one_res⟩ g224_bn_rep (by intro h; cases h) one_res
    (by show nistI224.rep _ ≠ 0; rw [show nistI224.rep ⟨false, [1]⟩ = 1 from nistI224.one.2]; exact one_ne_zero)

example (k1 k2 : Nat) : ∃ q, eccPointMulAdd (nistFld bp224) ⟨⟨false, [1]⟩, ⟨false, [1]⟩, ⟨false, [1]⟩⟩ ⟨bx224, by224, ⟨false, [1]⟩⟩ k1 k2
      ⟨bx224, by224, ⟨false, [1]⟩⟩ = some q ∧ Spec.Represents nistI224 q (k1 • G224 + k2 • G224) :=
  mulAdd_exact nistI224 _ _ _ k1 k2 G224 G224 ⟨one_res, one_res, one_res⟩ g224_bn_rep g224_bn_rep g224_noSmallOrder g224_noSmallOrder

/-- The order of the generator: the model calculates the point at infinity. -/
theorem g224_order : 26959946667150639794667015087019625940457807714424391721682722368061 • G224 = 0 := by
  obtain ⟨q, e, h⟩ := mulFast_exact natI224 26959946667150639794667015087019625940457807714424391721682722368061 ⟨gx224, gy224, 1⟩ G224 (by decide +kernel) g224_rep g224_noSmallOrder
  apply (not_zero natI224 h).mp
  show decide (q.z = 0) = true
  have hc : (pointMulFast (natFld p224) 26959946667150639794667015087019625940457807714424391721682722368061 ⟨gx224, gy224, 1⟩).any (fun q => decide (q.z = 0)) = true := by decide +kernel
  rw [e] at hc
  exact hc

example : recode 1000 = some ([(1, 7), (-3, 3)], 10) := by decide +kernel

example : pointCmp (nistFld bp224) ⟨bx224, by224, ⟨false, [1]⟩⟩ ⟨bx224, by224, ⟨false, [1]⟩⟩ = some true := by
  rw [cmp_exact nistI224 _ _ G224 G224 g224_bn_rep g224_bn_rep]; simp

example : Spec.AffineOf nistI224 (eccPoint2Affine (nistFld bp224) ⟨bx224, by224, ⟨false, [1]⟩⟩) G224 :=
  toAffine_exact nistI224 _ _ g224_bn_rep

/-- The check accepts the generator of P-224 and refuses a wrong ordinate. -/
example : pointOnCurve (natFld p224) (p224 - 3) b224 ⟨gx224, gy224, 1⟩ = some true ∧
    pointOnCurve (natFld p224) (p224 - 3) b224 ⟨gx224, gy224 + 1, 1⟩ = some false := by decide +kernel

instance : Fact (Nat.Prime 11) := ⟨by norm_num⟩

/-- A point of order three, on which the multiplication with windows fails: `(9, 3)` on `y² = x³ - 3x` modulo 11. -/
example (k : Nat) : pointMulFast (natFld 11) k ⟨9, 3, 1⟩ = none := by
  let I : Spec.Impl (natFld 11) (ZMod 11) := natImpl (by norm_num) (by decide +kernel)
  let P : (Spec.Curve ((0 : Nat) : ZMod 11)).Point := .some (9 : Nat) (3 : Nat) (nonsingular_of_nat 11 9 3 0 (by norm_num) (by norm_num) (by norm_num))
  have h1 : I.rep 1 = 1 := I.one.2
  have hP : Spec.Represents I ⟨9, 3, 1⟩ P := by
    refine ⟨show 9 < 11 by norm_num, show 3 < 11 by norm_num, I.one.1, ?_, ?_, ?_⟩
    · dsimp only; rw [h1]; exact one_ne_zero
    · dsimp only; rw [h1]; show ((9 : Nat) : ZMod 11) = _; ring
    · dsimp only; rw [h1]; show ((3 : Nat) : ZMod 11) = _; ring
  refine mulFast_small_order I k _ P hP 0 (by omega) ?_
  obtain ⟨d, e1, hd⟩ := double_exact I false ⟨0, 0, 0⟩ _ P ⟨I.zero.1, I.zero.1, I.zero.1⟩ hP
  obtain ⟨t, e2, ht⟩ := add_exact I false ⟨0, 0, 0⟩ _ _ _ _ ⟨I.zero.1, I.zero.1, I.zero.1⟩ hd hP
  have hc : ((pointDouble (natFld 11) false ⟨0, 0, 0⟩ ⟨9, 3, 1⟩).bind fun d => pointAdd (natFld 11) false ⟨0, 0, 0⟩ d ⟨9, 3, 1⟩).any
      (fun q => decide (q.z = 0)) = true := by decide +kernel
  rw [e1, Option.bind_some, e2] at hc
  have : (3 + 2 * 0) • P = P + P + P := by abel
  rw [this]
  exact (not_zero I ht).mp hc

end Verif.Crypto.Ecc
