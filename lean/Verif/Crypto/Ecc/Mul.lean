import Verif.Crypto.Ecc.Proof
import Verif.Crypto.Ecc.Recode
import Mathlib.Tactic.Module

/-! Conversions and multiplications. -/
namespace Verif.Crypto.Ecc
open Spec WeierstrassCurve.Affine

variable {α F : Type} [Field F] {S : Fld α} (I : Impl S F) [DecidableEq F] {b : F}

theorem jac_scale {X Y Z c : F} {P : (Curve b).Point} (h : Jacobian X Y Z P) (hc : c ≠ 0) :
    Jacobian (X * c ^ 2) (Y * c ^ 3) (Z * c) P := by
  rcases P with _ | ⟨x, y, hp⟩
  · have h : Z = 0 := h
    show Z * c = 0
    rw [h, zero_mul]
  · obtain ⟨hz, hX, hY⟩ := h
    exact ⟨mul_ne_zero hz hc, by rw [hX]; ring, by rw [hY]; ring⟩

theorem point2Affine_spec {p : Pt α} {P : (Curve b).Point} (h : Represents I p P) (hz : I.rep p.z ≠ 0) :
    ∃ q, point2Affine S p = some q ∧ Represents I q P ∧ I.rep q.z = 1 := by
  obtain ⟨hx, hy, hz', hj⟩ := h
  obtain ⟨inv, e1, o1, r1⟩ := I.modInv hz' hz
  obtain ⟨zz, e2, o2, r2⟩ := I.modSqr o1
  obtain ⟨x, e3, o3, r3⟩ := I.modMul hx o2
  obtain ⟨zzz, e4, o4, r4⟩ := I.modMul o2 o1
  obtain ⟨y, e5, o5, r5⟩ := I.modMul hy o4
  refine ⟨⟨x, y, S.one⟩, by simp [point2Affine, e1, e2, e3, e4, e5], ⟨o3, o5, I.one.1, ?_⟩, I.one.2⟩
  have := jac_scale hj (inv_ne_zero hz)
  dsimp only
  rw [I.one.2, r5, r4, r3, r2, r1]
  convert this using 1
  · ring
  · ring
  · field_simp

theorem jacMulZ_spec {p : Pt α} {z : α} {P : (Curve b).Point} (h : Represents I p P) (hp : P ≠ 0) (hz : I.ok z)
    (hne : I.rep z ≠ 0) : ∃ q, jacMulZ S p z = some q ∧ Represents I q P ∧ I.rep q.x = I.rep p.x * I.rep z ^ 2 ∧
      I.rep q.y = I.rep p.y * I.rep z ^ 3 := by
  have hzz : ¬ S.isZero p.z = true := fun e => hp ((not_zero I h).mp e)
  obtain ⟨hx, hy, hz', hj⟩ := h
  obtain ⟨z', e1, o1, r1⟩ := I.modMul hz' hz
  obtain ⟨y, e2, o2, r2⟩ := I.modMul hy hz
  obtain ⟨t, e3, o3, r3⟩ := I.modSqr hz
  obtain ⟨x, e4, o4, r4⟩ := I.modMul hx o3
  obtain ⟨y', e5, o5, r5⟩ := I.modMul o2 o3
  have ex : I.rep x = I.rep p.x * I.rep z ^ 2 := by rw [r4, r3]; ring
  have ey : I.rep y' = I.rep p.y * I.rep z ^ 3 := by rw [r5, r2, r3]; ring
  refine ⟨⟨x, y', z'⟩, by simp [jacMulZ, hzz, e1, e2, e3, e4, e5], ⟨o4, o5, o1, ?_⟩, ex, ey⟩
  dsimp only
  rw [ex, ey, r1]
  exact jac_scale hj hne

theorem mulLoop_spec (k : Nat) {base : Pt α} {P : (Curve b).Point} (hb : Represents I base P) (h1 : I.rep base.z = 1)
    (i : Nat) {r t : Pt α} (hr : Represents I r ((k / 2 ^ i) • P)) (ht : OkPt I t) :
    ∃ q, mulLoop S k base i r t = some q ∧ Represents I q (k • P) := by
  induction i generalizing r t with
  | zero =>
    rw [pow_zero, Nat.div_one] at hr
    exact ⟨r, rfl, hr⟩
  | succ i ih =>
    unfold mulLoop
    obtain ⟨r1, e1, h2⟩ := pointDouble_spec I true (Rep.ok I hr) hr
    obtain ⟨t1, e2, h3⟩ := pointAddAffine_spec I ht h2 hb h1
    rw [e1]
    dsimp only
    rw [e2]
    dsimp only
    apply ih _ (Rep.ok I h3)
    have hd : k / 2 ^ (i + 1) = k / 2 ^ i / 2 := by rw [pow_succ, Nat.div_div_eq_div_mul]
    rw [hd] at h2 h3
    by_cases hbit : k.testBit i = true
    · rw [if_pos hbit]
      rw [Nat.testBit_eq_decide_div_mod_eq] at hbit
      have hbit : k / 2 ^ i % 2 = 1 := by simpa using hbit
      have : k / 2 ^ i = (k / 2 ^ i / 2 + k / 2 ^ i / 2) + 1 := by omega
      rw [this, add_smul, add_smul, one_smul]
      exact h3
    · rw [if_neg hbit]
      rw [Nat.testBit_eq_decide_div_mod_eq] at hbit
      have hbit : k / 2 ^ i % 2 = 0 := by simpa using hbit
      have : k / 2 ^ i = (k / 2 ^ i / 2 + k / 2 ^ i / 2) := by omega
      rw [this, add_smul]
      exact h2

theorem pointMul_spec (k : Nat) {pt : Pt α} {P : (Curve b).Point} {blind : α} (hk : k ≠ 0) (h : Represents I pt P) (hp : P ≠ 0)
    (hb : I.ok blind) (hb0 : I.rep blind ≠ 0) :
    ∃ q, pointMul S k pt blind = some q ∧ Represents I q (k • P) := by
  unfold pointMul
  obtain ⟨base, e, hbase, h1⟩ : ∃ base, (if S.isOne pt.z = true then some pt else point2Affine S pt) = some base ∧
      Represents I base P ∧ I.rep base.z = 1 := by
    by_cases ho : S.isOne pt.z = true
    · rw [if_pos ho]
      exact ⟨pt, rfl, h, (I.isOne h.2.2.1).mp ho⟩
    · rw [if_neg ho]
      exact point2Affine_spec I h (z_ne I h (fun e => hp ((not_zero I h).mp e)))
  rw [e]
  dsimp only
  have hbz : ¬ S.isZero blind = true := fun e => hb0 ((I.isZero hb).mp e)
  obtain ⟨r, e2, hr, -, -⟩ := jacMulZ_spec I hbase hp hb hb0
  rw [show pointBlind S base blind = some r by rw [pointBlind, if_neg hbz, e2]]
  dsimp only
  apply mulLoop_spec I k hbase h1 _ _ (blank_ok I)
  have : k / 2 ^ (bits k - 1) = 1 := by
    unfold bits
    rw [if_neg hk]
    have h1 := Nat.log2_self_le hk
    have h2 : k < 2 ^ (Nat.log2 k + 1) := Nat.lt_log2_self
    rw [Nat.add_sub_cancel, Nat.div_eq_iff (by positivity)]
    rw [pow_succ] at h2
    omega
  rw [this, one_smul]
  exact hr

/-! ### Tables -/

theorem oddPoints_spec {dbl : Pt α} {P : (Curve b).Point} (hd : Represents I dbl (2 • P)) (n : Nat) {p : Pt α} {j : Nat}
    (hp : Represents I p (j • P)) :
    ∃ l, oddPoints S dbl n p = some l ∧ l.length = n ∧
      ∀ i, (hi : i < l.length) → Represents I l[i] ((j + 2 * (i + 1)) • P) := by
  induction n generalizing p j with
  | zero => exact ⟨[], rfl, rfl, fun i hi => absurd hi (by simp)⟩
  | succ n ih =>
    obtain ⟨q, e, hq⟩ := pointAdd_spec I false (blank_ok I) hp hd
    rw [← add_smul] at hq
    obtain ⟨l, e2, hl, h2⟩ := ih hq
    refine ⟨q :: l, by simp only [oddPoints, e, e2], by simp [hl], ?_⟩
    intro i hi
    cases i with
    | zero => exact hq
    | succ i =>
      have := h2 i (by simpa using hi)
      rw [show j + 2 * (i + 1 + 1) = j + 2 + 2 * (i + 1) by omega]
      exact this

theorem pointInvert_spec {p : Pt α} {P : (Curve b).Point} (h : Represents I p P) (h1 : P ≠ 0) (h2 : P + P ≠ 0) :
    ∃ q, pointInvert S p = some q ∧ Represents I q (-P) := by
  have hz : ¬ S.isZero p.z = true := fun e => h1 ((not_zero I h).mp e)
  unfold pointInvert
  rw [if_neg hz]
  rcases P with _ | ⟨x, y, hp⟩
  · exact absurd rfl h1
  obtain ⟨hx, hy, hz', hzz, hX, hY⟩ := h
  have hy0 : y ≠ 0 := by
    rintro rfl
    exact h2 (Point.add_of_Y_eq rfl (by simp [negY]))
  have hY0 : I.rep p.y ≠ 0 := by rw [hY]; exact mul_ne_zero hy0 (pow_ne_zero _ hzz)
  obtain ⟨o, r⟩ := I.subFromP hy hY0
  refine ⟨_, rfl, hx, o, hz', ?_⟩
  rw [Point.neg_some]
  refine ⟨hzz, hX, ?_⟩
  dsimp only
  rw [r, hY]
  simp [negY]

theorem invertAll_spec {P : (Curve b).Point} (ps : List (Pt α)) (f : Nat → Nat)
    (h : ∀ i, (hi : i < ps.length) → Represents I ps[i] (f i • P))
    (h0 : ∀ i, i < ps.length → f i • P ≠ 0 ∧ (2 * f i) • P ≠ 0) :
    ∃ l, invertAll S ps = some l ∧ l.length = ps.length ∧ ∀ i, (hi : i < l.length) → Represents I l[i] (-(f i • P)) := by
  induction ps generalizing f with
  | nil => exact ⟨[], rfl, rfl, fun i hi => absurd hi (by simp)⟩
  | cons p ps ih =>
    obtain ⟨a1, a2⟩ := h0 0 (by simp)
    obtain ⟨q, e, hq⟩ := pointInvert_spec I (p := p) (h 0 (by simp)) a1 (by rwa [two_mul, add_smul] at a2)
    obtain ⟨l, e2, hl, h2⟩ := ih (fun i => f (i + 1)) (fun i hi => h (i + 1) (by simpa using hi))
      (fun i hi => h0 (i + 1) (by simpa using hi))
    refine ⟨q :: l, by simp only [invertAll, e, e2], by simp [hl], ?_⟩
    intro i hi
    cases i with
    | zero => exact hq
    | succ i => exact h2 i (by simpa using hi)

/-- No small multiple is zero. -/
def Large (P : (Curve b).Point) : Prop := ∀ j, 1 ≤ j → j ≤ 30 → j • P ≠ 0

theorem preCompute_spec {pt : Pt α} {P : (Curve b).Point} (h : Represents I pt P) (hl : Large P) :
    ∃ t, preCompute S pt = some t ∧ ∀ n : Int, n % 2 = 1 → -15 ≤ n → n ≤ 15 →
      ∃ q, look t n = some q ∧ Represents I q (n • P) := by
  obtain ⟨dbl, e1, hd⟩ := pointDouble_spec I false (blank_ok I) h
  rw [← two_smul ℕ P] at hd
  obtain ⟨l, e2, hlen, h2⟩ := oddPoints_spec I hd 7 (p := pt) (j := 1) (by rwa [one_smul])
  have hall : ∀ i, (hi : i < (pt :: l).length) → Represents I (pt :: l)[i] ((2 * i + 1) • P) := by
    intro i hi
    cases i with
    | zero => simpa using h
    | succ i =>
      have := h2 i (by simpa using hi)
      rw [show 2 * (i + 1) + 1 = 1 + 2 * (i + 1) by omega]
      exact this
  obtain ⟨m, e3, hm, h3⟩ := invertAll_spec I (P := P) (pt :: l) (fun i => 2 * i + 1) hall (by
    intro i hi
    simp only [List.length_cons, hlen] at hi
    exact ⟨hl _ (by omega) (by omega), hl _ (by omega) (by omega)⟩)
  refine ⟨(pt :: l) ++ m, by simp only [preCompute, e1, e2, e3], ?_⟩
  intro n hodd hlo hhi
  have hl8 : (pt :: l).length = 8 := by simp [hlen]
  by_cases hn : n < 0
  · obtain ⟨i, hi, hi8⟩ : ∃ i : Nat, n = -(2 * (i : Int) + 1) ∧ i < 8 := ⟨((-n - 1) / 2).toNat, by omega, by omega⟩
    have eo : numToOffset n = 8 + i := by
      unfold numToOffset
      rw [if_pos hn, hi]
      have : (-(2 * (i : Int) + 1) - 1) = 2 * (-(i + 1)) := by ring
      rw [this, Int.mul_tdiv_cancel_left _ (by omega)]
      omega
    have hlk : look ((pt :: l) ++ m) n = some (m[i]'(by omega)) := by
      unfold look
      rw [eo, if_neg (by omega), show ((8 : Int) + i).toNat = 8 + i by omega, List.getElem?_append_right (by omega), hl8,
        show 8 + i - 8 = i by omega, List.getElem?_eq_getElem (by omega)]
    refine ⟨_, hlk, ?_⟩
    have := h3 i (by omega)
    have en : n • P = -((2 * i + 1) • P) := by
      rw [← natCast_zsmul, hi, neg_smul]; push_cast; rfl
    rw [en]
    exact this
  · obtain ⟨i, hi, hi8⟩ : ∃ i : Nat, n = 2 * (i : Int) + 1 ∧ i < 8 := ⟨((n - 1) / 2).toNat, by omega, by omega⟩
    have eo : numToOffset n = i := by
      unfold numToOffset
      rw [if_neg hn, hi]
      have : (2 * (i : Int) + 1 - 1) = 2 * i := by ring
      rw [this, Int.mul_tdiv_cancel_left _ (by omega)]
    have hlk : look ((pt :: l) ++ m) n = some ((pt :: l)[i]'(by omega)) := by
      unfold look
      rw [eo, if_neg (by omega), show ((i : Int)).toNat = i by omega, List.getElem?_append_left (by omega),
        List.getElem?_eq_getElem (by omega)]
    refine ⟨_, hlk, ?_⟩
    have := hall i (by omega)
    have en : n • P = (2 * i + 1) • P := by
      rw [← natCast_zsmul, hi]; push_cast; rfl
    rw [en]
    exact this

/-- The table has all digits. -/
def Table (t : List (Pt α)) (P : (Curve b).Point) : Prop :=
  ∀ n : Int, n % 2 = 1 → -15 ≤ n → n ≤ 15 → ∃ q, look t n = some q ∧ Represents I q (n • P)

theorem fastLoop_spec {t : List (Pt α)} {P : (Curve b).Point} (ht : Table I t P) (c : Code)
    (hc : ∀ x ∈ c, x.1 % 2 = 1 ∧ -15 ≤ x.1 ∧ x.1 ≤ 15) {r : Pt α} {R : (Curve b).Point} (hr : Represents I r R) :
    ∃ q, fastLoop S t c r = some q ∧ Represents I q (((2 : Int) ^ width c) • R + value c • P) := by
  induction c generalizing r R with
  | nil => exact ⟨r, rfl, by simpa [width, value] using hr⟩
  | cons x c ih =>
    obtain ⟨n, w⟩ := x
    obtain ⟨o1, o2, o3⟩ := hc (n, w) (by simp)
    obtain ⟨q, e1, hq⟩ := ht n o1 o2 o3
    obtain ⟨r1, e2, hr1⟩ := pointAdd_spec I true (Rep.ok I hr) hr hq
    obtain ⟨r2, e3, hr2⟩ := pointMultDouble_spec I true w (Rep.ok I hr1) hr1
    obtain ⟨r3, e4, hr3⟩ := ih (fun x hx => hc x (List.mem_cons_of_mem _ hx)) hr2
    refine ⟨r3, by simp only [fastLoop, e1, e2, e3, e4], ?_⟩
    convert hr3 using 1
    simp only [width, value]
    rw [← natCast_zsmul (R + n • P), pow_add]
    push_cast
    module

theorem pointMulFast_spec (k : Nat) {pt : Pt α} {P : (Curve b).Point} (hk : k ≠ 0) (h : Represents I pt P) (hl : Large P) :
    ∃ q, pointMulFast S k pt = some q ∧ Represents I q (k • P) := by
  obtain ⟨t, e1, ht⟩ := preCompute_spec I h hl
  obtain ⟨c, B, e2, hg, hv, hw⟩ := recode_spec k
  cases c with
  | nil => exact absurd (by have : (0 : Int) = k := hv; omega) hk
  | cons x c =>
    obtain ⟨n, w⟩ := x
    obtain ⟨o1, o2, o3⟩ := hg.1 (n, w) (by simp)
    obtain ⟨r, e3, hr⟩ := ht n o1 o2 o3
    obtain ⟨r2, e4, hr2⟩ := pointMultDouble_spec I true w (Rep.ok I hr) hr
    obtain ⟨q, e5, hq⟩ := fastLoop_spec I ht c (fun x hx => hg.1 x (List.mem_cons_of_mem _ hx)) hr2
    refine ⟨q, by simp only [pointMulFast, e1, e2, e3, e4, e5], ?_⟩
    convert hq using 1
    rw [← natCast_zsmul, ← hv]
    simp only [value]
    rw [← natCast_zsmul (n • P), pow_add]
    push_cast
    module

/-! ### Two scalars -/

theorem width_drop (c : Code) (off : Nat) {n : Int} {w : Nat} (h : c[off]? = some (n, w)) :
    width (c.drop off) = w + width (c.drop (off + 1)) ∧
      value (c.drop off) = n * 2 ^ width (c.drop off) + value (c.drop (off + 1)) := by
  have hlt : off < c.length := (List.getElem?_eq_some_iff.mp h).1
  have he : c[off] = (n, w) := (List.getElem?_eq_some_iff.mp h).2
  rw [List.drop_eq_getElem_cons hlt, he]
  exact ⟨rfl, rfl⟩

theorem last_pos {c : Code} (hg : Good c) {off : Nat} {n : Int} {w : Nat} (h : c[off]? = some (n, w)) (hl : off + 1 < c.length) :
    0 < w := by
  have hm : (n, w) ∈ c.dropLast := by
    have : c.dropLast[off]? = some (n, w) := by
      rw [List.getElem?_dropLast, if_pos (by omega), h]
    exact List.mem_of_getElem? this
  exact hg.2 _ hm

/-- The place of a scalar in the loop: `B` bits are left. -/
structure Chan (c : Code) (B bit off : Nat) : Prop where
  le : off ≤ c.length
  next : off = c.length ∨ width (c.drop off) < B
  cur : B ≠ 0 → (0 < bit ∧ bit + width (c.drop off) = B) ∨
    (bit = 0 ∧ ∃ n w, off ≠ 0 ∧ c[off - 1]? = some (n, w) ∧ w + width (c.drop off) = B)

theorem curBit_spec {c : Code} {B bit off : Nat} (h : Chan c B bit off) (hB : B ≠ 0) :
    curBit c off bit = some (B - width (c.drop off)) ∧ width (c.drop off) < B := by
  have hlt : width (c.drop off) < B := by
    rcases h.next with e | e
    · rw [e, List.drop_length]; show 0 < B; omega
    · exact e
  refine ⟨?_, hlt⟩
  rcases h.cur hB with ⟨h1, h2⟩ | ⟨h1, n, w, h2, h3, h4⟩
  · rw [curBit, if_neg (by omega)]; congr 1; omega
  · rw [curBit, if_pos h1, wideBefore, if_neg h2, h3]; dsimp only; congr 1; omega

theorem addItem_spec {t : List (Pt α)} {P : (Curve b).Point} (ht : Table I t P) {c : Code} (hg : Good c) {B bit off d : Nat}
    (h : Chan c B bit off) (hB : B ≠ 0) (hd : d ≤ B - width (c.drop off)) {r : Pt α} {R : (Curve b).Point}
    (hr : Represents I r R) :
    ∃ r' off', addItem S t c (decide (d = B - width (c.drop off))) off r = some (r', off') ∧
      Chan c (B - d) (B - width (c.drop off) - d) off' ∧ ∃ R', Represents I r' R' ∧
        (2 : Int) ^ (B - d) • R' + value (c.drop off') • P = (2 : Int) ^ (B - d) • R + value (c.drop off) • P := by
  obtain ⟨-, hlt⟩ := curBit_spec h hB
  unfold addItem
  by_cases hc : decide (d = B - width (c.drop off)) = true ∧ off < c.length
  · rw [if_pos hc]
    have hd' : d = B - width (c.drop off) := by simpa using hc.1
    obtain ⟨n, w, hx'⟩ : ∃ n w, c[off]? = some (n, w) := ⟨_, _, List.getElem?_eq_getElem hc.2⟩
    rw [hx']
    dsimp only
    obtain ⟨o1, o2, o3⟩ := hg.1 (n, w) (List.mem_of_getElem? hx')
    obtain ⟨q, e1, hq⟩ := ht n o1 o2 o3
    obtain ⟨r1, e2, hr1⟩ := pointAdd_spec I true (Rep.ok I hr) hr hq
    obtain ⟨w1, w2⟩ := width_drop c off hx'
    have hBd : B - d = width (c.drop off) := by omega
    rw [e1]
    dsimp only
    rw [e2]
    refine ⟨r1, off + 1, rfl, ⟨by omega, ?_, ?_⟩, _, hr1, ?_⟩
    · by_cases hl : off + 1 < c.length
      · right
        have := last_pos hg hx' hl
        omega
      · left; omega
    · intro _
      right
      exact ⟨by omega, n, w, by omega, by simpa using hx', by omega⟩
    · rw [hBd, w2]
      module
  · rw [if_neg hc]
    refine ⟨r, off, rfl, ⟨h.le, ?_, ?_⟩, R, hr, rfl⟩
    · by_cases hl : off = c.length
      · left; exact hl
      · right
        have hne : d ≠ B - width (c.drop off) := fun e => hc ⟨by simpa using e, by have := h.le; omega⟩
        omega
    · intro hB'
      left
      by_cases hl : off = c.length
      · have : width (c.drop off) = 0 := by rw [hl, List.drop_length]; rfl
        omega
      · have hne : d ≠ B - width (c.drop off) := fun e => hc ⟨by simpa using e, by have := h.le; omega⟩
        omega

theorem maLoop_spec {tG tP : List (Pt α)} {G P : (Curve b).Point} (hG : Table I tG G) (hP : Table I tP P) {c1 c2 : Code}
    (g1 : Good c1) (g2 : Good c2) (fuel : Nat) {m : MA α} (hf : m.baseBits < fuel) (h1 : Chan c1 m.baseBits m.bit1 m.off1)
    (h2 : Chan c2 m.baseBits m.bit2 m.off2) {R : (Curve b).Point} (hr : Represents I m.r R) :
    ∃ q, maLoop S tG tP c1 c2 fuel m = some q ∧ Represents I q
      ((2 : Int) ^ m.baseBits • R + value (c1.drop m.off1) • G + value (c2.drop m.off2) • P) := by
  induction fuel generalizing m R with
  | zero => omega
  | succ fuel ih =>
    unfold maLoop
    by_cases hB : m.baseBits = 0
    · rw [if_pos hB]
      have e1 : m.off1 = c1.length := by
        rcases h1.next with e | e
        · exact e
        · omega
      have e2 : m.off2 = c2.length := by
        rcases h2.next with e | e
        · exact e
        · omega
      refine ⟨m.r, rfl, ?_⟩
      rw [e1, e2, hB, List.drop_length, List.drop_length]
      simpa [value] using hr
    · rw [if_neg hB]
      obtain ⟨b1, l1⟩ := curBit_spec h1 hB
      obtain ⟨b2, l2⟩ := curBit_spec h2 hB
      unfold maStep
      rw [b1, b2]
      dsimp only
      generalize hd : (if m.baseBits - width (c1.drop m.off1) < m.baseBits - width (c2.drop m.off2) then
        m.baseBits - width (c1.drop m.off1) else m.baseBits - width (c2.drop m.off2)) = d
      have d1 : d ≤ m.baseBits - width (c1.drop m.off1) := by rw [← hd]; split <;> omega
      have d2 : d ≤ m.baseBits - width (c2.drop m.off2) := by rw [← hd]; split <;> omega
      have d0 : 0 < d := by rw [← hd]; split <;> omega
      obtain ⟨r1, e1, hr1⟩ := pointMultDouble_spec I true d (Rep.ok I hr) hr
      obtain ⟨r2, off1, e2, k1, R2, hr2, q2⟩ := addItem_spec I hG g1 h1 hB d1 hr1
      obtain ⟨r3, off2, e3, k2, R3, hr3, q3⟩ := addItem_spec I hP g2 h2 hB d2 hr2
      rw [e1]
      dsimp only
      rw [e2]
      dsimp only
      rw [e3]
      dsimp only
      obtain ⟨q, e4, hq⟩ := ih (m := ⟨r3, m.baseBits - d, m.baseBits - width (c1.drop m.off1) - d,
        m.baseBits - width (c2.drop m.off2) - d, off1, off2⟩) (by dsimp only; omega) k1 k2 hr3
      refine ⟨q, e4, ?_⟩
      convert hq using 1
      dsimp only
      have hp : (2 : Int) ^ m.baseBits = 2 ^ (m.baseBits - d) * 2 ^ d := by
        rw [← pow_add]; congr 1; omega
      symm
      rw [add_right_comm, q3, add_right_comm, q2, ← natCast_zsmul R (2 ^ d), smul_smul, hp]
      push_cast
      rfl

theorem pointMulAdd_spec {r g pt : Pt α} {G P : (Curve b).Point} (k1 k2 : Nat) (hr : OkPt I r) (hg : Represents I g G)
    (hG : Large G) (hpt : Represents I pt P) (hP : Large P) :
    ∃ q, pointMulAdd S r g k1 k2 pt = some q ∧ Represents I q (k1 • G + k2 • P) := by
  unfold pointMulAdd
  by_cases h0 : k1 = 0 ∧ k2 = 0
  · rw [if_pos h0, h0.1, h0.2, zero_smul, zero_smul, add_zero]
    exact ⟨_, rfl, hr.1, hr.2.1, I.zero.1, I.zero.2⟩
  rw [if_neg h0]
  by_cases h1 : k1 = 0
  · rw [if_pos h1, h1, zero_smul, zero_add]
    exact pointMulFast_spec I k2 (by omega) hpt hP
  rw [if_neg h1]
  by_cases h2 : k2 = 0
  · rw [if_pos h2, h2, zero_smul, add_zero]
    exact pointMulFast_spec I k1 h1 hg hG
  rw [if_neg h2]
  obtain ⟨tG, e1, ht1⟩ := preCompute_spec I hg hG
  obtain ⟨tP, e2, ht2⟩ := preCompute_spec I hpt hP
  obtain ⟨c1, B1, e3, g1, v1, w1⟩ := recode_spec k1
  obtain ⟨c2, B2, e4, g2, v2, w2⟩ := recode_spec k2
  rw [e1, e2, e3, e4]
  dsimp only
  have key : ∀ m : MA α, ∀ R, Represents I m.r R → Chan c1 m.baseBits m.bit1 m.off1 → Chan c2 m.baseBits m.bit2 m.off2 →
      (2 : Int) ^ m.baseBits • R + value (c1.drop m.off1) • G + value (c2.drop m.off2) • P = k1 • G + k2 • P →
      ∃ q, maLoop S tG tP c1 c2 (m.baseBits + 1) m = some q ∧ Represents I q (k1 • G + k2 • P) := by
    intro m R hm a1 a2 hv
    rw [← hv]
    exact maLoop_spec I ht1 ht2 g1 g2 _ (by omega) a1 a2 hm
  rw [← natCast_zsmul, ← natCast_zsmul, ← v1, ← v2] at key ⊢
  cases hc1 : c1 with
  | nil => rw [hc1] at v1; exact absurd (by have : (0 : Int) = k1 := v1; omega) h1
  | cons x1 d1 =>
  cases hc2 : c2 with
  | nil => rw [hc2] at v2; exact absurd (by have : (0 : Int) = k2 := v2; omega) h2
  | cons x2 d2 =>
  obtain ⟨n1, m1⟩ := x1
  obtain ⟨n2, m2⟩ := x2
  have f1 : c1[0]? = some (n1, m1) := by rw [hc1]; rfl
  have f2 : c2[0]? = some (n2, m2) := by rw [hc2]; rfl
  rw [← hc1, ← hc2]
  obtain ⟨o1, o2, o3⟩ := g1.1 (n1, m1) (List.mem_of_getElem? f1)
  obtain ⟨p1, p2, p3⟩ := g2.1 (n2, m2) (List.mem_of_getElem? f2)
  obtain ⟨q1, l1, hq1⟩ := ht1 n1 o1 o2 o3
  obtain ⟨q2, l2, hq2⟩ := ht2 n2 p1 p2 p3
  obtain ⟨x1, y1⟩ := width_drop c1 0 f1
  obtain ⟨x2, y2⟩ := width_drop c2 0 f2
  rw [List.drop_zero, Nat.zero_add] at x1 y1 x2 y2
  have z1 : 1 = c1.length ∨ width (c1.drop 1) < width c1 := by
    by_cases hl : 0 + 1 < c1.length
    · right; have := last_pos g1 f1 hl; omega
    · left; rw [hc1] at hl ⊢; simp at hl ⊢; exact hl
  have z2 : 1 = c2.length ∨ width (c2.drop 1) < width c2 := by
    by_cases hl : 0 + 1 < c2.length
    · right; have := last_pos g2 f2 hl; omega
    · left; rw [hc2] at hl ⊢; simp at hl ⊢; exact hl
  have len1 : 1 ≤ c1.length := by rw [hc1]; simp
  have len2 : 1 ≤ c2.length := by rw [hc2]; simp
  have ch1 : Chan c1 (width c1) m1 1 := by
    refine ⟨len1, z1, fun _ => ?_⟩
    by_cases hm : m1 = 0
    · right; exact ⟨hm, n1, m1, by omega, f1, by omega⟩
    · left; omega
  have ch2 : Chan c2 (width c2) m2 1 := by
    refine ⟨len2, z2, fun _ => ?_⟩
    by_cases hm : m2 = 0
    · right; exact ⟨hm, n2, m2, by omega, f2, by omega⟩
    · left; omega
  unfold getFirst
  rw [f1, f2]
  dsimp only
  by_cases hb : B1 = B2
  · rw [if_pos hb, l1, l2]
    dsimp only
    obtain ⟨t, e5, ht⟩ := pointAdd_spec I false hr hq1 hq2
    rw [e5]
    dsimp only
    refine key ⟨t, B1, m1, m2, 1, 1⟩ _ ht (by rw [← w1]; exact ch1) (by rw [hb, ← w2]; exact ch2) ?_
    dsimp only
    rw [y1, y2, w1, w2, ← hb]
    module
  rw [if_neg hb]
  by_cases hb' : B1 > B2
  · rw [if_pos hb', l1]
    dsimp only
    refine key ⟨q1, B1, m1, B1 - B2, 1, 0⟩ _ hq1 (by rw [← w1]; exact ch1) ⟨by dsimp only; omega, ?_, ?_⟩ ?_
    · right; dsimp only; rw [List.drop_zero]; omega
    · intro _; left; dsimp only; rw [List.drop_zero]; omega
    · dsimp only
      rw [y1, w1, List.drop_zero]
      module
  · rw [if_neg hb', l2]
    dsimp only
    refine key ⟨q2, B2, B2 - B1, m2, 0, 1⟩ _ hq2 ⟨by dsimp only; omega, ?_, ?_⟩ (by rw [← w2]; exact ch2) ?_
    · right; dsimp only; rw [List.drop_zero]; omega
    · intro _; left; dsimp only; rw [List.drop_zero]; omega
    · dsimp only
      rw [y2, w2, List.drop_zero]
      module

end Verif.Crypto.Ecc
