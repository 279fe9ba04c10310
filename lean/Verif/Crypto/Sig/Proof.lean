import Verif.Crypto.Sig.Spec
namespace Verif.Crypto.Sig
open Verif.Crypto.Bn Verif.Crypto.Ecc Spec

/-! ### Numbers -/

theorem Spec.Is.wf {a : Bn 32} {x : Nat} (h : Is a x) : a.WF := (wf_iff (by decide) a).mp h.1
theorem Spec.Is.toInt {a : Bn 32} {x : Nat} (h : Is a x) : a.toInt = x := by rw [← int_eq]; exact h.2

theorem Spec.Is.mk' {a : Bn 32} {x : Nat} (h1 : a.WF) (h2 : a.toInt = x) : Is a x := ⟨(wf_iff (by decide) a).mpr h1, by rw [int_eq]; exact h2⟩

theorem Spec.Is.inj {a : Bn 32} {x y : Nat} (h : Is a x) (h' : Is a y) : x = y := by have := h.2; have := h'.2; omega

theorem Spec.Is.eq {a b : Bn 32} {x : Nat} (h : Is a x) (h' : Is b x) : a = b := bn_canonical (by decide) a b h.1 h'.1 (by rw [h.2, h'.2])

theorem Spec.Is.zero {a : Bn 32} {x : Nat} (h : Is a x) : a.data.length = 0 ↔ x = 0 := by
  rw [zero_iff (by decide) a h.wf, h.toInt]; omega

theorem Spec.Is.scalar {a : Bn 32} {x : Nat} (h : Is a x) : scalar a = x := by
  have h1 := h.toInt
  unfold Sig.scalar
  unfold Bn.toInt at h1
  split at h1
  · rename_i hn
    have := wf_val_pos (by decide) h.wf hn
    omega
  · omega

theorem Spec.Is.ne {a : Bn 32} {x : Nat} (h : Is a x) (h0 : 0 < x) : a.toInt ≠ 0 := by rw [h.toInt]; omega

theorem isZero' : Is (bnZero : Bn 32) 0 := ⟨Ecc.wf_zero, Ecc.int_zero⟩

theorem Spec.Is.mod {a n : Bn 32} {x N : Nat} (ha : Is a x) (hn : Is n N) (h0 : 0 < N) : ∃ r, (bnMod a n).join = some r ∧ Is r (x % N) := by
  obtain ⟨r, e, h1, h2⟩ := bn_mod (j := 5) rfl a n ha.1 hn.1 (by rw [hn.2]; omega)
  exact ⟨r, by rw [e]; rfl, h2, by rw [h1, ha.2, hn.2]; norm_cast⟩

theorem Spec.Is.mul {a b n : Bn 32} {x y N : Nat} (ha : Is a x) (hb : Is b y) (hn : Is n N) (h0 : 0 < N) :
    ∃ r, (bnModMul a b n).join = some r ∧ Is r (x * y % N) := by
  obtain ⟨r, e, h1, h2⟩ := bnModMul_spec (j := 5) rfl a b n ha.wf hb.wf hn.wf (hn.ne h0)
  exact ⟨r, by rw [e]; rfl, .mk' h2 (by rw [h1, ha.toInt, hb.toInt, hn.toInt]; norm_cast)⟩

theorem Spec.Is.add {a b n : Bn 32} {x y N : Nat} (ha : Is a x) (hb : Is b y) (hn : Is n N) (h0 : 0 < N) :
    ∃ r, (bnModAdd a b n).join = some r ∧ Is r ((x + y) % N) := by
  obtain ⟨r, e, h1, h2⟩ := bnModAdd_spec (j := 5) rfl a b n ha.wf hb.wf hn.wf (hn.ne h0)
  exact ⟨r, by rw [e]; rfl, .mk' h2 (by rw [h1, ha.toInt, hb.toInt, hn.toInt]; norm_cast)⟩

theorem Spec.Is.sub {a b n : Bn 32} {x y N : Nat} (ha : Is a x) (hb : Is b y) (hn : Is n N) (h0 : 0 < N) :
    ∃ r z, (bnModSub a b n).join = some r ∧ Is r z ∧ z < N ∧ (z + y) % N = x % N := by
  obtain ⟨r, e, h1, h2⟩ := bnModSub_spec (j := 5) rfl a b n ha.wf hb.wf hn.wf (hn.ne h0)
  rw [ha.toInt, hb.toInt, hn.toInt] at h1
  have g1 := Int.emod_nonneg ((x : Int) - y) (b := N) (by omega)
  have g2 := Int.emod_lt_of_pos ((x : Int) - y) (b := N) (by omega)
  refine ⟨r, (((x : Int) - y) % N).toNat, by rw [e]; rfl, .mk' h2 (by rw [h1]; omega), by omega, ?_⟩
  have : ((((((x : Int) - y) % N).toNat + y) % N : Nat) : Int) = ((x % N : Nat) : Int) := by
    push_cast
    rw [Int.toNat_of_nonneg g1, Int.emod_add_emod]
    congr 1; omega
  exact_mod_cast this

theorem Spec.Is.inv {a n : Bn 32} {x N : Nat} (ha : Is a x) (hn : Is n N) (h1 : 1 < N) :
    (Nat.Coprime x N → ∃ r w, (bnModInv a n).join = some r ∧ Is r w ∧ w < N ∧ w * x % N = 1) ∧
    (¬ Nat.Coprime x N → (bnModInv a n).join = none) := by
  obtain ⟨g1, g2⟩ := modInv_exact (j := 5) rfl a n ha.1 hn.1 (by rw [hn.2]; simpa using h1)
  rw [ha.2, hn.2] at g1 g2
  rw [Int.gcd_natCast_natCast] at g1 g2
  refine ⟨fun hc => ?_, fun hc => by rw [g2 hc]; rfl⟩
  obtain ⟨r, e, e1, e2, e3, e4⟩ := g1 hc
  refine ⟨r, (Bn.Spec.int r).toNat, by rw [e]; rfl, ⟨e4, by omega⟩, by simp only [Int.natAbs_natCast] at e3; omega, ?_⟩
  have : ((((Bn.Spec.int r).toNat * x) % N : Nat) : Int) = 1 := by
    push_cast
    rw [Int.toNat_of_nonneg e2]; exact e1
  exact_mod_cast this

theorem Spec.Is.cmp {a b : Bn 32} {x y : Nat} (ha : Is a x) (hb : Is b y) : (bnCmp a b ≥ 0 ↔ y ≤ x) ∧ (bnCmp a b = 0 ↔ x = y) := by
  rw [bn_cmp (by decide) a b ha.1 hb.1, ha.2, hb.2]
  constructor <;> split <;> (try split) <;> constructor <;> intro h <;> omega

/-- The quick sum when the first number is not reduced but has no more words than the modulus: right up to a multiple of the modulus. -/
theorem Spec.Is.addQuick {a b m : Bn 32} {x y N : Nat} (ha : Is a x) (hb : Is b y) (hm : Is m N) (hy : y < N) (hl : a.data.length ≤ m.data.length) :
    ∃ r z, exOpt (modAddQuick m.data.length m.data.length m a b) = some r ∧ Is r z ∧ z % N = (x + y) % N ∧ (x < N → z < N) := by
  have vx : val a.data = x := ha.scalar
  have vy : val b.data = y := hb.scalar
  have vm : val m.data = N := hm.scalar
  have hml := val_lt m.data
  rw [vm] at hml
  generalize hn : m.data.length = n at *
  have ea := val_words hl
  have eb := val_words (norm_len (n := n) hb.wf.1 (by omega))
  obtain ⟨s1, s2⟩ := binAdd_spec (h := 32) (by decide) (words n a.data) (words n b.data) 0 (by rw [words_len, words_len])
  rw [words_len] at s1 s2
  rw [ea, eb, show (0 : W64).toNat = 0 from rfl, vx, vy] at s1
  have hxl : x < (2 ^ (32 + 32)) ^ n := by
    have := val_lt (words n a.data)
    rwa [words_len, ea, vx] at this
  unfold modAddQuick
  simp only
  rw [hn, if_neg (by omega)]
  generalize hR : binAdd (words n a.data) (words n b.data) 0 = R at *
  have hc := cmp_ge R.1 m.data s2 hn
  rw [vm] at hc
  have hRb := val_lt R.1
  rw [s2] at hRb
  obtain ⟨d1, d2⟩ := binSub_spec (h := 32) (by decide) R.1 m.data 0 (by rw [s2, hn])
  have hDb := val_lt (binSub R.1 m.data 0).1
  rw [d2, s2] at hDb
  rw [s2, vm, show (0 : W64).toNat = 0 from rfl] at d1
  have fin : ∀ l : List W64, Is ⟨false, trim l⟩ (val l) := by
    intro l
    obtain ⟨t1, t2⟩ := trim_spec l
    exact .mk' ⟨t2, fun h => by cases h⟩ (by simp only [Bn.toInt, t1]; rfl)
  generalize (2 ^ (32 + 32)) ^ n = P at *
  have hcar : R.2 > 0 ↔ 0 < R.2.toNat := by rw [gt_iff_lt, BitVec.lt_def]; rfl
  by_cases hcond : R.2 > 0 ∨ binCmp R.1 m.data ≥ 0
  · rw [if_pos hcond]
    rw [hcar, hc] at hcond
    refine ⟨_, val (binSub R.1 m.data 0).1, rfl, fin _, ?_⟩
    have key : val (binSub R.1 m.data 0).1 + N = x + y := by
      have hge : N ≤ x + y := by
        rcases hcond with h | h
        · have := Nat.mul_le_mul_left P (show 1 ≤ R.2.toNat from h); omega
        · have := Nat.zero_le (P * R.2.toNat); omega
      have hq : R.2.toNat = 0 ∨ R.2.toNat = 1 ∨ 2 ≤ R.2.toNat := by omega
      have hq' : (binSub R.1 m.data 0).2.toNat = 0 ∨ (binSub R.1 m.data 0).2.toNat = 1 ∨ 2 ≤ (binSub R.1 m.data 0).2.toNat := by omega
      rcases hq with q | q | q
      · rw [q] at s1
        rcases hq' with q' | q' | q'
        · rw [q'] at d1; omega
        · rw [q'] at d1; omega
        · have := Nat.mul_le_mul_left P q'; omega
      · rw [q] at s1
        rcases hq' with q' | q' | q'
        · rw [q'] at d1; omega
        · rw [q'] at d1; omega
        · have := Nat.mul_le_mul_left P q'; omega
      · have := Nat.mul_le_mul_left P q; omega
    exact ⟨by rw [← key, Nat.add_mod_right], fun hx => by omega⟩
  · rw [if_neg hcond]
    rw [hcar, hc] at hcond
    have h0 : R.2.toNat = 0 := by omega
    rw [h0] at s1
    refine ⟨_, val R.1, rfl, fin _, ?_, fun _ => by omega⟩
    congr 1

/-! ### The hash as a number -/

theorem bigEndian_lt (l : List UInt8) : Bn.Spec.bigEndian l < 256 ^ l.length := by
  have := numeral_lt 256 (l.map UInt8.toNat) (by
    intro d hd
    obtain ⟨c, -, rfl⟩ := List.mem_map.mp hd
    exact c.toNat_lt)
  rwa [List.length_map] at this

theorem bigEndian_take (l : List UInt8) (m : Nat) (h : m ≤ l.length) :
    Bn.Spec.bigEndian (l.take m) = Bn.Spec.bigEndian l / 256 ^ (l.length - m) := by
  have e : Bn.Spec.bigEndian l = Bn.Spec.bigEndian (l.take m) * 256 ^ (l.length - m) + Bn.Spec.bigEndian (l.drop m) := by
    conv_lhs => rw [← List.take_append_drop m l]
    unfold Bn.Spec.bigEndian
    rw [List.map_append, numeral_append, List.length_map, List.length_drop]
  have hl := bigEndian_lt (l.drop m)
  rw [List.length_drop] at hl
  rw [e, Nat.add_comm, Nat.add_mul_div_right _ _ (Nat.pow_pos (by decide)), Nat.div_eq_of_lt hl, Nat.zero_add]

theorem bits2int_lt (q : Nat) (data : List UInt8) : bits2int q data < 2 ^ q := by
  have h := bigEndian_lt data
  rw [show (256 : Nat) = 2 ^ 8 from rfl, ← Nat.pow_mul] at h
  unfold bits2int
  split
  · rw [Nat.div_lt_iff_lt_mul (Nat.pow_pos (by decide)), ← Nat.pow_add]
    rwa [show q + (8 * data.length - q) = 8 * data.length by omega]
  · exact Nat.lt_of_lt_of_le h (Nat.pow_le_pow_right (by decide) (by omega))

theorem getBn_spec (n : Bn 32) (data : List UInt8) (h1 : data.length < 2 ^ 29) (h2 : binBits n.data ≤ 2 ^ 29) :
    ∃ e, getBnByData n data = some e ∧ Is e (bits2int (binBits n.data) data) := by
  have small : ∀ l : List UInt8, 8 * l.length ≤ 2 ^ 29 → Is (bin2BnVoid l) (Bn.Spec.bigEndian l) := by
    intro l hl
    have h := bigEndian_lt l
    rw [show (256 : Nat) = 2 ^ 8 from rfl, ← Nat.pow_mul] at h
    obtain ⟨r, e, r1, r2⟩ := bin2Bn_exact l (8 * l.length) hl h
    unfold bin2BnVoid
    rw [e]
    exact ⟨r2, r1⟩
  unfold getBnByData
  dsimp only
  generalize binBits n.data = q at *
  rw [Nat.mod_eq_of_lt (show 8 * data.length < 2 ^ 32 by omega)]
  unfold bits2int
  by_cases hq : 8 * data.length > q
  · rw [if_pos hq, Nat.mod_eq_of_lt (show 8 * ((q + 7) / 8) < 2 ^ 32 by omega), if_pos (show q < 8 * data.length from hq)]
    have hle : (q + 7) / 8 ≤ data.length := by omega
    have ht := small (data.take ((q + 7) / 8)) (by rw [List.length_take]; omega)
    rw [bigEndian_take data _ hle] at ht
    have hp : (256 : Nat) ^ (data.length - (q + 7) / 8) = 2 ^ (8 * (data.length - (q + 7) / 8)) := by rw [Nat.pow_mul]
    rw [hp] at ht
    by_cases hs : 8 * ((q + 7) / 8) > q
    · rw [if_pos hs]
      obtain ⟨r, e, e1, e2⟩ := bn_rshift (j := 5) rfl _ (8 - q % 8) ht.1
      refine ⟨r, e, e2, ?_⟩
      rw [e1, ht.2, Int.tdiv_eq_ediv_of_nonneg (Int.natCast_nonneg _)]
      have : 2 ^ (8 * data.length - q) = 2 ^ (8 * (data.length - (q + 7) / 8)) * 2 ^ (8 - q % 8) := by
        rw [← Nat.pow_add]; congr 1; omega
      rw [this, ← Nat.div_div_eq_div_mul]
      norm_cast
    · rw [if_neg hs]
      refine ⟨_, rfl, ?_⟩
      rwa [show 8 * data.length - q = 8 * (data.length - (q + 7) / 8) by omega]
  · rw [if_neg hq, List.take_length, Nat.mod_eq_of_lt (show 8 * data.length < 2 ^ 32 by omega), if_neg hq, if_neg (show ¬ q < 8 * data.length from hq)]
    exact ⟨_, rfl, small data (by omega)⟩

/-! ### Points -/

section
variable {p : Nat} [Fact p.Prime] {b : ZMod p} {c : Para} {G : (Ecc.Spec.Curve b).Point} {N : Nat} (D : Domain c p b G N)
include D

theorem smul_mod {P : (Ecc.Spec.Curve b).Point} (hP : N • P = 0) {u v : Nat} (h : u % N = v % N) : u • P = v • P := by
  have key : ∀ u : Nat, u • P = (u % N) • P := by
    intro u
    conv_lhs => rw [← Nat.mod_add_div u N]
    rw [add_smul, Nat.mul_comm, mul_smul, hP, nsmul_zero, add_zero]
  rw [key u, key v, h]

theorem newPoint_ok : Ecc.Spec.Valid D.I newPoint := by
  have : D.I.ok bnZero := (D.ok _).mpr ⟨0, (Fact.out : p.Prime).pos, isZero'⟩
  exact ⟨this, this, this⟩

theorem ord_of_mul {k : Nat} (hk : k < N) (h0 : k ≠ 0) : k • G ≠ 0 := by
  intro h
  have hc : Nat.Coprime k N := ((Nat.Prime.coprime_iff_not_dvd D.prime).mpr (fun hd => by
    have := Nat.le_of_dvd (by omega) hd
    omega)).symm
  have d1 := addOrderOf_dvd_of_nsmul_eq_zero h
  have d2 := addOrderOf_dvd_of_nsmul_eq_zero D.nsmul
  have := Nat.dvd_gcd d1 d2
  rw [hc, Nat.dvd_one, AddMonoid.addOrderOf_eq_one_iff] at this
  exact D.ne this

/-- The first coordinate of a represented point. -/
theorem getX_spec {pt : Pt (Bn 32)} {P : (Ecc.Spec.Curve b).Point} (h : Ecc.Spec.Represents D.I pt P) :
    (∀ x, xCoord P = some x → ∃ a, getPointX c.S pt = some a ∧ Is a x ∧ x < p) ∧ (xCoord P = none → getPointX c.S pt = none) := by
  have hA := toAffine_exact D.I pt P h
  unfold getPointX
  rcases P with _ | ⟨x, y, hxy⟩
  · refine ⟨fun x hx => (by cases hx), fun _ => ?_⟩
    rw [show eccPoint2Affine c.S pt = none from hA]
    rfl
  · obtain ⟨q, e, ⟨hq, -, -⟩, hx, -⟩ := hA
    refine ⟨fun x' hx' => ?_, fun h => by cases h⟩
    obtain ⟨v, hv, hv'⟩ := (D.ok _).mp hq
    rw [show xCoord (WeierstrassCurve.Affine.Point.some x y hxy : (Ecc.Spec.Curve b).Point) = some x.val from rfl, Option.some.injEq] at hx'
    have : x' = v := by
      rw [← hx', ← hx, D.rep, hv'.2, Int.cast_natCast, ZMod.val_natCast_of_lt hv]
    subst this
    exact ⟨q.x, by rw [e]; rfl, hv', hv⟩

theorem xCoord_some {P : (Ecc.Spec.Curve b).Point} (h : P ≠ 0) : ∃ x, xCoord P = some x := by
  rcases P with _ | ⟨x, y, hxy⟩
  · exact absurd rfl h
  · exact ⟨_, rfl⟩

/-- The multiplication of the generator by a drawn secret. -/
theorem drawn_mul {dr : Draw} {k : Nat} (h : Drawn p N dr k) {pt : Pt (Bn 32)} {P : (Ecc.Spec.Curve b).Point} (hpt : Ecc.Spec.Represents D.I pt P) (hP : P ≠ 0) :
    ∃ q, eccPointMul c.S newPoint (scalar dr.k) pt dr.blind = some q ∧ Ecc.Spec.Represents D.I q (k • P) := by
  obtain ⟨h1, h2, v, h3, h4, h5⟩ := h
  rw [h1.scalar]
  refine mul_exact D.I newPoint pt k dr.blind P (newPoint_ok D) hpt hP ((D.ok _).mpr ⟨v, h5, h3⟩) ?_
  rw [D.rep, h3.2, Int.cast_natCast]
  intro h0
  rw [ZMod.natCast_eq_zero_iff] at h0
  have := Nat.le_of_dvd h4 h0
  omega

theorem mulAdd_spec {pub : Pt (Bn 32)} {Q : (Ecc.Spec.Curve b).Point} (hQ : Ecc.Spec.Represents D.I pub Q) (hN : N • Q = 0) (h0 : Q ≠ 0) (u1 u2 : Nat) :
    ∃ q, eccPointMulAdd c.S newPoint c.g u1 u2 pub = some q ∧ Ecc.Spec.Represents D.I q (u1 • G + u2 • Q) :=
  mulAdd_exact D.I newPoint c.g pub u1 u2 G Q (newPoint_ok D) D.gen hQ (noSmallOrder_of_prime N D.prime D.big G D.ne D.nsmul)
    (noSmallOrder_of_prime N D.prime D.big Q h0 hN)

theorem coprime_lt {x : Nat} (h : x < N) (h0 : x ≠ 0) : Nat.Coprime x N :=
  ((Nat.Prime.coprime_iff_not_dvd D.prime).mpr (fun hd => by
    have := Nat.le_of_dvd (by omega) hd
    omega)).symm

/-! ### Verification -/

theorem checkSign_spec {r s : Bn 32} {rn sn : Nat} (hr : Is r rn) (hs : Is s sn) :
    checkSign c.n r s = true ↔ (0 < rn ∧ rn < N) ∧ (0 < sn ∧ sn < N) := by
  unfold checkSign
  simp only [(hr.cmp D.order).1, (hs.cmp D.order).1, hr.zero, hs.zero]
  split
  · simp only [Bool.false_eq_true, false_iff]; omega
  · split
    · simp only [Bool.false_eq_true, false_iff]; omega
    · simp only [true_iff]; omega

theorem ecdsaCore_spec {pub : Pt (Bn 32)} {Q : (Ecc.Spec.Curve b).Point} (hQ : Ecc.Spec.Represents D.I pub Q) (hN : N • Q = 0) (h0 : Q ≠ 0)
    {e r s : Bn 32} {en rn sn : Nat} (he : Is e en) (hr : Is r rn) (hs : Is s sn) :
    ecdsaCore c pub e r s = true ↔ EcdsaValid N G Q en rn sn := by
  have hN0 : 0 < N := D.prime.pos
  unfold ecdsaCore EcdsaValid
  by_cases hc : checkSign c.n r s = true
  · rw [if_pos hc]
    obtain ⟨c1, c2⟩ := (checkSign_spec D hr hs).mp hc
    obtain ⟨w, wn, e1, hw, -, hinv⟩ := (hs.inv D.order D.prime.one_lt).1 (coprime_lt D c2.2 (by omega))
    obtain ⟨u1, e2, hu1⟩ := he.mul hw D.order hN0
    obtain ⟨u2, e3, hu2⟩ := hr.mul hw D.order hN0
    obtain ⟨q, e4, hq⟩ := mulAdd_spec D hQ hN h0 (en * wn % N) (rn * wn % N)
    obtain ⟨g1, g2⟩ := getX_spec D hq
    have uniq : ∀ w', sn * w' % N = 1 → w' % N = wn % N := by
      intro w' h'
      have t1 : (wn * sn * w') % N = w' % N := by rw [Nat.mul_mod, hinv, Nat.one_mul, Nat.mod_mod]
      have t2 : (wn * sn * w') % N = wn % N := by rw [Nat.mul_assoc, Nat.mul_mod, h', Nat.mul_one, Nat.mod_mod]
      rw [← t1, t2]
    have eq : ecdsaPointX c pub e r s = (getPointX c.S q).bind fun x => (bnMod x c.n).join := by
      unfold ecdsaPointX
      simp only [e1, e2, e3, e4, Option.bind_eq_bind, Option.bind_some, hu1.scalar, hu2.scalar]
    rw [eq]
    have hval : (∃ w x, sn * w % N = 1 ∧ xCoord ((en * w % N) • G + (rn * w % N) • Q) = some x ∧ x % N = rn) ↔
        ∃ x, xCoord ((en * wn % N) • G + (rn * wn % N) • Q) = some x ∧ x % N = rn := by
      constructor
      · rintro ⟨w', x, h1, h2, h3⟩
        refine ⟨x, ?_, h3⟩
        have hw' := uniq w' h1
        rw [Nat.mul_mod, hw', ← Nat.mul_mod, Nat.mul_mod rn w', hw', ← Nat.mul_mod] at h2
        exact h2
      · rintro ⟨x, h2, h3⟩
        exact ⟨wn, x, by rw [Nat.mul_comm]; exact hinv, h2, h3⟩
    rw [hval]
    cases hx : xCoord ((en * wn % N) • G + (rn * wn % N) • Q) with
    | none =>
      rw [g2 hx]
      simp
    | some x =>
      obtain ⟨a, e5, ha, -⟩ := g1 x hx
      obtain ⟨v, e6, hv⟩ := ha.mod D.order hN0
      rw [e5, Option.bind_some, e6]
      simp only [decide_eq_true_eq]
      rw [(hv.cmp hr).2]
      constructor
      · intro h; exact ⟨c1, c2, x, rfl, h⟩
      · rintro ⟨-, -, x', h1, h2⟩
        rw [Option.some.injEq] at h1
        rw [h1]; exact h2
  · rw [if_neg hc]
    rw [checkSign_spec D hr hs] at hc
    simp only [Bool.false_eq_true, false_iff]
    tauto

theorem sm2Verify_spec {pub : Pt (Bn 32)} {Q : (Ecc.Spec.Curve b).Point} (hQ : Ecc.Spec.Represents D.I pub Q) (hN : N • Q = 0) (h0 : Q ≠ 0)
    {e r s : Bn 32} {en rn sn : Nat} (he : Is e en) (hr : Is r rn) (hs : Is s sn) :
    sm2Verify c pub e r s = true ↔ Sm2Valid N G Q en rn sn := by
  have hN0 : 0 < N := D.prime.pos
  unfold sm2Verify Sm2Valid
  by_cases hc : checkSign c.n r s = true
  · rw [if_pos hc]
    obtain ⟨c1, c2⟩ := (checkSign_spec D hr hs).mp hc
    have hlen : r.data.length ≤ c.n.data.length := by
      apply norm_len hr.wf.1
      have h1 : val r.data = rn := hr.scalar
      have h2 : val c.n.data = N := D.order.scalar
      have := val_lt c.n.data
      omega
    obtain ⟨t, tn, e1, ht, ht1, ht2⟩ := hr.addQuick hs D.order c2.2 hlen
    have htn : tn = (rn + sn) % N := by rw [← ht1, Nat.mod_eq_of_lt (ht2 c1.2)]
    subst htn
    unfold sm2PointX
    rw [e1, Option.bind_eq_bind, Option.bind_some]
    by_cases hz : (rn + sn) % N = 0
    · rw [if_pos (ht.zero.mpr hz)]
      simp only [Bool.false_eq_true, false_iff]
      tauto
    · rw [if_neg (fun h => hz (ht.zero.mp h)), hs.scalar, ht.scalar]
      obtain ⟨q, e4, hq⟩ := mulAdd_spec D hQ hN h0 sn ((rn + sn) % N)
      obtain ⟨g1, g2⟩ := getX_spec D hq
      rw [e4, Option.bind_eq_bind, Option.bind_some]
      cases hx : xCoord (sn • G + ((rn + sn) % N) • Q) with
      | none =>
        rw [g2 hx]
        simp
      | some x =>
        obtain ⟨a, e5, ha, -⟩ := g1 x hx
        obtain ⟨v, e6, hv⟩ := he.add ha D.order hN0
        rw [e5, Option.bind_some, e6]
        simp only [decide_eq_true_eq]
        rw [(hr.cmp hv).2]
        constructor
        · intro h; exact ⟨c1, c2, hz, x, rfl, h.symm⟩
        · rintro ⟨-, -, -, x', h1, h2⟩
          rw [Option.some.injEq] at h1
          rw [h1]; exact h2.symm
  · rw [if_neg hc]
    rw [checkSign_spec D hr hs] at hc
    simp only [Bool.false_eq_true, false_iff]
    tauto

end

end Verif.Crypto.Sig
