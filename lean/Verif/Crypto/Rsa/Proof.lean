import Verif.Crypto.Rsa.Spec
import Verif.Crypto.Bn.ExpMulProps
import Verif.Crypto.Sig.Proof
import Mathlib.FieldTheory.Finite.Basic
import Mathlib.Data.Nat.ChineseRemainder

/-! Proofs about the RSA primitives. -/
namespace Verif.Crypto.Rsa
open Verif.Crypto.Bn Verif.Crypto.Sig Verif.Crypto.Sig.Spec Spec

/-! ### Numbers -/

theorem pow_congr_le {p : Nat} (hp : p.Prime) (c a b : Nat) (ha : 0 < a) (hab : a ≤ b) (h : a ≡ b [MOD p - 1]) : c ^ a ≡ c ^ b [MOD p] := by
  obtain ⟨t, ht⟩ := (Nat.modEq_iff_dvd' hab).mp h
  obtain rfl : b = a + (p - 1) * t := by omega
  by_cases hd : p ∣ c
  · exact ((Nat.modEq_zero_iff_dvd).mpr (dvd_pow hd (by omega))).trans ((Nat.modEq_zero_iff_dvd).mpr (dvd_pow hd (by omega))).symm
  · have hf : c ^ (p - 1) ≡ 1 [MOD p] := by
      have := Nat.ModEq.pow_totient (((Nat.Prime.coprime_iff_not_dvd hp).mpr hd).symm)
      rwa [Nat.totient_prime hp] at this
    have := (hf.pow t).mul_left (c ^ a)
    rw [one_pow, Nat.mul_one, ← pow_mul, ← pow_add] at this
    exact this.symm

theorem pow_congr {p : Nat} (hp : p.Prime) (c a b : Nat) (ha : 0 < a) (hb : 0 < b) (h : a ≡ b [MOD p - 1]) : c ^ a ≡ c ^ b [MOD p] := by
  rcases Nat.le_total a b with hab | hab
  · exact pow_congr_le hp c a b ha hab h
  · exact (pow_congr_le hp c b a hb hab h.symm).symm

theorem crt_unique {p q a b : Nat} (hp : p.Prime) (hq : q.Prime) (hne : p ≠ q) (h1 : a ≡ b [MOD p]) (h2 : a ≡ b [MOD q]) : a ≡ b [MOD p * q] :=
  (Nat.modEq_and_modEq_iff_modEq_mul ((Nat.coprime_primes hp hq).mpr hne)).mp ⟨h1, h2⟩

theorem inverse_pos {P Q E D : Nat} (hP : P.Prime) (h2 : P ≠ 2) (h : Inverse P Q E D) : 0 < E * D ∧ E * D ≡ 1 [MOD P - 1] := by
  have h1 : E * D ≡ 1 [MOD P - 1] := Nat.ModEq.of_dvd (Nat.dvd_lcm_left _ _) h
  refine ⟨?_, h1⟩
  by_contra hc
  have hz : E * D = 0 := by omega
  rw [hz] at h1
  have := hP.two_le
  have hx : P - 1 ∣ 1 := (Nat.modEq_zero_iff_dvd).mp h1.symm
  have := Nat.le_of_dvd (by decide) hx
  omega

theorem inverse_symm {P Q E D : Nat} (h : Inverse P Q E D) : Inverse Q P E D := by
  unfold Inverse at *
  rwa [Nat.lcm_comm]

/-- Raising to one exponent and then to the other gives the number back. -/
theorem pow_inverse {P Q E D : Nat} (hP : P.Prime) (hQ : Q.Prime) (h2 : P ≠ 2) (h3 : Q ≠ 2) (hne : P ≠ Q) (h : Inverse P Q E D) (c : Nat) :
    c ^ (E * D) ≡ c [MOD P * Q] := by
  obtain ⟨p0, p1⟩ := inverse_pos hP h2 h
  obtain ⟨q0, q1⟩ := inverse_pos hQ h3 (inverse_symm h)
  have a := pow_congr hP c _ 1 p0 (by decide) p1
  have b := pow_congr hQ c _ 1 q0 (by decide) q1
  rw [pow_one] at a b
  exact crt_unique hP hQ hne a b

theorem crt_pos {P Q E D x : Nat} (hP : P.Prime) (h2 : P ≠ 2) (h : Inverse P Q E D) (hx : x ≡ D [MOD P - 1]) : 0 < x ∧ 0 < D := by
  obtain ⟨p0, p1⟩ := inverse_pos hP h2 h
  refine ⟨?_, Nat.pos_of_mul_pos_left p0⟩
  by_contra hc
  obtain rfl : x = 0 := by omega
  have h0 : E * D ≡ 0 [MOD P - 1] := by
    have := (hx.mul_left E).symm
    rwa [Nat.mul_zero] at this
  have h1 := (p1.symm.trans h0)
  have := hP.two_le
  have := Nat.le_of_dvd (by decide) ((Nat.modEq_zero_iff_dvd).mp h1)
  omega

/-- Garner's recombination. -/
theorem garner {P Q x y z w v : Nat} (hP : P.Prime) (hQ : Q.Prime) (hne : P ≠ Q) (hy : y < Q) (hz : (z + y) % P = x % P)
    (hv : v = z * w % P) (hw : w * Q ≡ 1 [MOD P]) (C : Nat) (h1 : x ≡ C [MOD P]) (h2 : y ≡ C [MOD Q]) : v * Q + y = C % (P * Q) := by
  have hv' : v < P := by rw [hv]; exact Nat.mod_lt _ hP.pos
  have hlt : v * Q + y < P * Q := by
    have : (v + 1) * Q ≤ P * Q := Nat.mul_le_mul_right _ hv'
    rw [Nat.add_mul] at this
    omega
  rw [← Nat.mod_eq_of_lt hlt]
  refine crt_unique hP hQ hne ?_ ?_
  · have : v * Q ≡ z [MOD P] := by
      rw [hv]
      have := (Nat.mod_modEq (z * w) P).mul_right Q
      refine this.trans ?_
      rw [Nat.mul_assoc]
      simpa using hw.mul_left z
    exact ((this.add_right y).trans (show z + y ≡ x [MOD P] from hz)).trans h1
  · refine Nat.ModEq.trans ?_ h2
    show (v * Q + y) % Q = y % Q
    rw [Nat.add_comm, Nat.add_mul_mod_self_right]

/-! ### Numbers of the library -/

theorem readInput_spec {n : Bn 32} {N : Nat} (hn : Is n N) (hN : N ≤ 2 ^ 16384) (input : List UInt8) :
    (Bn.Spec.bigEndian input < N → ∃ a, readInput n input = some a ∧ Is a (Bn.Spec.bigEndian input)) ∧
    (N ≤ Bn.Spec.bigEndian input → readInput n input = none) := by
  have big : ∀ a, bin2Bn input = some a → Is a (Bn.Spec.bigEndian input) := by
    intro a e
    by_cases hl : (skipZeros input).length ≤ 8 * maxWords
    · obtain ⟨r, e1, e2, e3⟩ := bin2Bn_some input hl
      rw [e] at e1
      cases e1
      exact .mk' e3 e2
    · exfalso
      unfold bin2Bn at e
      dsimp only at e
      have : maxWords = 8388608 := rfl
      rw [if_neg (by omega), if_pos (by split <;> omega)] at e
      cases e
  constructor
  · intro h
    obtain ⟨r, e, -⟩ := bin2Bn_exact input 16384 (by norm_num) (Nat.lt_of_lt_of_le h hN)
    have hr := big r e
    refine ⟨r, ?_, hr⟩
    unfold readInput
    rw [e]
    dsimp only
    rw [if_neg (by rw [(hr.cmp hn).1]; omega)]
  · intro h
    unfold readInput
    rcases e : bin2Bn input with _ | r
    · rfl
    · dsimp only
      rw [if_pos (by rw [((big r e).cmp hn).1]; exact h)]

theorem mont_is {n : Bn 32} {N : Nat} (hn : Is n N) (ho : N % 2 = 1) :
    ∃ M, montCreate n = some (some M) ∧ M.mod = n.data ∧ MontOk M ∧ ∀ (a e : Bn 32) (x y : Nat), Is a x → Is e y → ∀ ct, ∃ r,
      bnMontExp M a e ct = some (some r) ∧ Is r (x ^ y % N) := by
  have hc : Bn.Spec.int n % 2 = 1 ∧ 0 < Bn.Spec.int n := by rw [hn.2]; omega
  obtain ⟨M, e0, h⟩ := (montExp_exact (j := 5) rfl (by decide) n hn.1).1 hc
  obtain ⟨M', e1, e2, e3⟩ := (montCreate_ok (j := 5) rfl n hn.wf).1 (by rw [← int_eq]; exact hc)
  rw [e0] at e1
  cases e1
  refine ⟨M, e0, e2, e3, fun a e x y ha he ct => ?_⟩
  obtain ⟨r, f1, f2, f3⟩ := h a e ha.1 he.1 (by rw [he.2]; exact Int.natCast_nonneg _) ct
  refine ⟨r, f1, f3, ?_⟩
  rw [f2, ha.2, he.2, hn.2, Int.toNat_natCast]
  push_cast
  rfl

theorem write_spec {r : Bn 32} {x bits N : Nat} (hr : Is r x) (hx : x < N) (hN : N < 2 ^ bits) :
    ∃ bs, bn2BinFix r (toBytes bits) = some (some bs) ∧ bs.length = (bits + 7) / 8 ∧ Bn.Spec.bigEndian bs = x := by
  have h := (bn2BinFix_exact r hr.1 (toBytes bits)).1 (by
    rw [hr.2, Int.natAbs_natCast, show (256 : Nat) = 2 ^ 8 from rfl, ← Nat.pow_mul]
    refine Nat.lt_of_lt_of_le (Nat.lt_trans hx hN) (Nat.pow_le_pow_right (by decide) ?_)
    unfold toBytes
    omega)
  rw [hr.2, Int.natAbs_natCast] at h
  exact h

theorem len_le {a : Bn 32} {x bits : Nat} (ha : Is a x) (hx : x < 2 ^ bits) : a.data.length ≤ roomOf bits := by
  unfold roomOf
  by_contra hc
  have hne : a.data ≠ [] := by intro e; rw [e] at hc; simp at hc
  have hv : val a.data = x := ha.scalar
  obtain ⟨h1, h2, h3, h4, h5⟩ := binBits_spec (j := 5) rfl a.data ha.wf.1 hne
  rw [hv] at h2
  have := (Nat.pow_lt_pow_iff_right (a := 2) (by decide)).mp (Nat.lt_of_le_of_lt h2 hx)
  omega

theorem montMulCore_spec {n : Bn 32} {N : Nat} (hn : Is n N) {M : Mont 32} (hM : MontOk M) (hm : M.mod = n.data) (room : Nat) (hr : n.data.length ≤ room)
    (r a b : Bn 32) (x y : Nat) (hneg : r.neg = false) (ha : Is a x) (hb : Is b y) (hx : x < N) (hy : y < N) :
    ∃ z, montMulCore room M r a b = some (some z) ∧ Is z (x * y % N) := by
  have hh : 0 < 32 := by decide
  have hv : ∀ {c : Bn 32} {x : Nat}, Is c x → val c.data = x := fun h => h.scalar
  have hl : ∀ {c : Bn 32} {x : Nat}, Is c x → x < N → c.data.length ≤ M.mod.length := by
    intro c x hc hx
    rw [hm]
    exact len_le_of_le hh hc.wf.1 (by rw [hv hc, hv hn]; omega)
  have enc : ∀ {c : Bn 32} {x : Nat}, Is c x → x < N → ∃ d, montEnc M (padTo M c.data) = some d ∧ Rep M d x := by
    intro c x hc hx
    have h1 := hl hc hx
    obtain ⟨d, e1, e2⟩ := montEnc_rep hh hM (padTo M c.data) (by unfold padTo; rw [List.length_append, List.length_replicate]; omega)
    unfold padTo at e2
    rw [val_append, val_replicate, Nat.mul_zero, Nat.add_zero, hv hc] at e2
    exact ⟨d, e1, e2⟩
  obtain ⟨d1, e1, g1⟩ := enc ha hx
  obtain ⟨d2, e2, g2⟩ := enc hb hy
  have h1 := hl ha hx
  have h2 := hl hb hy
  have ht : (padTo M b.data).take M.mod.length = padTo M b.data :=
    List.take_of_length_le (by unfold padTo; rw [List.length_append, List.length_replicate]; omega)
  obtain ⟨d3, e3, g3⟩ := montMul_rep hh hM g1 g2
  obtain ⟨d4, e4, g4, g5⟩ := montDec_val hh hM g3
  have hmod : val M.mod = N := by rw [hm]; exact hv hn
  obtain ⟨t1, t2⟩ := trim_spec d4
  refine ⟨⟨r.neg, trim d4⟩, ?_, ?_⟩
  · unfold montMulCore
    rw [if_neg (by rw [hm] at h1 h2 ⊢; omega), ht, e1, e2]
    dsimp only
    rw [e3]
    dsimp only
    rw [e4]
  · rw [hneg]
    refine .mk' ⟨t2, fun h => by cases h⟩ ?_
    show ((val (trim d4) : Nat) : Int) = _
    rw [t1, g5, hmod]

theorem neg_false {a : Bn 32} {x : Nat} (h : Is a x) : a.neg = false :=
  (nonneg_of (by decide) h.wf (by rw [h.toInt]; exact Int.natCast_nonneg _)).2

theorem Is.mul' {a b : Bn 32} {x y : Nat} (room : Nat) (ha : Is a x) (hb : Is b y) : Is (bnMul room a b) (x * y) := by
  obtain ⟨h1, h2⟩ := bn_mul (by decide) room a b ha.1 hb.1
  exact ⟨h2, by rw [h1, ha.2, hb.2]; norm_cast⟩

theorem Is.add' {a b : Bn 32} {x y : Nat} (ha : Is a x) (hb : Is b y) : Is (bnAdd a b) (x + y) := by
  obtain ⟨h1, h2⟩ := bn_add (by decide) a b ha.1 hb.1
  exact ⟨h2, by rw [h1, ha.2, hb.2]; norm_cast⟩

section
variable {k : Prv} {P Q D : Nat} (K : PrvKey k P Q D)
include K

theorem odd_of {p : Nat} (hp : p.Prime) (h2 : p ≠ 2) : p % 2 = 1 := (hp.eq_two_or_odd).resolve_left h2

theorem P_lt : P < 2 ^ k.bits := by
  have := K.fits
  have h1 := K.primeQ.two_le
  have h2 := K.primeP.pos
  have : P * 2 ≤ P * Q := Nat.mul_le_mul_left _ h1
  omega

theorem crtDec_spec (C : Crt k P Q D) {c : Bn 32} {x : Nat} (hc : Is c x) : ∃ r, crtDec k c = some (some r) ∧ Is r (x ^ D % (P * Q)) := by
  obtain ⟨E, hE⟩ := K.inv
  obtain ⟨dp, hdp, cp⟩ := C.dP
  obtain ⟨dq, hdq, cq⟩ := C.dQ
  obtain ⟨w, hw, w1, w2⟩ := C.qInv
  obtain ⟨p0, D0⟩ := crt_pos K.primeP K.oddP hE cp
  obtain ⟨q0, -⟩ := crt_pos K.primeQ K.oddQ (inverse_symm hE) cq
  obtain ⟨MP, a1, a2, a3, a4⟩ := mont_is C.p (odd_of K K.primeP K.oddP)
  obtain ⟨MQ, b1, -, -, b4⟩ := mont_is C.q (odd_of K K.primeQ K.oddQ)
  obtain ⟨cP, f1, g1⟩ := hc.mod C.p K.primeP.pos
  obtain ⟨cQ, f2, g2⟩ := hc.mod C.q K.primeQ.pos
  obtain ⟨mP, f3, g3⟩ := a4 cP k.dP _ _ g1 hdp true
  obtain ⟨mQ, f4, g4⟩ := b4 cQ k.dQ _ _ g2 hdq true
  obtain ⟨r, z, f5, g5, g6, g7⟩ := g3.sub g4 C.p K.primeP.pos
  have hroom : k.p.data.length ≤ roomOf (k.bits + 1) :=
    len_le C.p (Nat.lt_of_lt_of_le (P_lt K) (Nat.pow_le_pow_right (by decide) (by omega)))
  obtain ⟨v, f6, g8⟩ := montMulCore_spec C.p a3 a2 (roomOf (k.bits + 1)) hroom r r k.qInv z w (neg_false g5) g5 hw g6 w1
  have hp : crtPowers k MP MQ c = some (r, mQ) := by
    unfold crtPowers
    simp only [f1, f2, f3, f4, f5, Option.bind_eq_bind, Option.bind_some, Option.join_some]
  refine ⟨bnAdd (bnMul (v.data.length + k.q.data.length) v k.q) mQ, ?_, ?_⟩
  · unfold crtDec
    rw [a1, b1]
    simp only [Option.join_some]
    rw [hp]
    simp only
    rw [f6]
  · have := Is.add' (Is.mul' (v.data.length + k.q.data.length) g8 C.q) g4
    rwa [garner K.primeP K.primeQ K.ne (Nat.mod_lt _ K.primeQ.pos) g7 rfl w2 (x ^ D)
      ((Nat.mod_modEq _ _).trans (((Nat.mod_modEq x P).pow dp).trans (pow_congr K.primeP x dp D p0 D0 cp)))
      ((Nat.mod_modEq _ _).trans (((Nat.mod_modEq x Q).pow dq).trans (pow_congr K.primeQ x dq D q0 D0 cq)))] at this

theorem N_pos : 1 < P * Q := by
  have h1 := K.primeP.two_le
  have h2 := K.primeQ.two_le
  have : 2 * 2 ≤ P * Q := Nat.mul_le_mul h1 h2
  omega

theorem D_pos : 0 < D := by
  obtain ⟨E, hE⟩ := K.inv
  exact Nat.pos_of_mul_pos_left (inverse_pos K.primeP K.oddP hE).1

theorem plainDec_spec {c : Bn 32} {x : Nat} (hc : Is c x) : ∃ r, plainDec k c = some (some r) ∧ Is r (x ^ D % (P * Q)) := by
  have hN := N_pos K
  have hD := D_pos K
  have hodd : P * Q % 2 = 1 := by
    rw [Nat.mul_mod, odd_of K K.primeP K.oddP, odd_of K K.primeQ K.oddQ]
  obtain ⟨M, a1, -, -, a4⟩ := mont_is K.modulus hodd
  obtain ⟨r, f, g⟩ := a4 c k.d _ _ hc K.exponent true
  refine ⟨r, ?_, g⟩
  unfold plainDec
  rw [if_neg (by rw [K.modulus.zero, K.exponent.zero]; omega), a1]
  exact f

theorem rawDec_spec (C : Crt k P Q D ∨ NoCrt k) {c : Bn 32} {x : Nat} (hc : Is c x) :
    ∃ r, rawDec k c = some (some r) ∧ Is r (x ^ D % (P * Q)) := by
  unfold rawDec
  rcases C with C | C
  · rw [if_neg (by rw [C.p.zero]; have := K.primeP.pos; omega)]
    exact crtDec_spec K C hc
  · rw [if_pos (by rw [C.1.zero])]
    exact plainDec_spec K hc

/-! ### Blinding -/

theorem subOne {p : Bn 32} {x : Nat} (hp : Is p x) (h : 0 < x) : Is (bnSubLimb bnZero p 1) (x - 1) := by
  obtain ⟨h1, h2⟩ := bn_subLimb (h := 32) (by decide) bnZero p 1 hp.1 rfl
  refine ⟨h2, ?_⟩
  rw [h1, hp.2, show ((1 : W 32).toNat : Int) = 1 from rfl]
  omega

theorem getPublicExp_spec (C : Crt k P Q D) : ∃ e E, getPublicExp k = some e ∧ Is e E ∧ Inverse P Q E D := by
  obtain ⟨E0, hE0⟩ := K.inv
  have hP := K.primeP.two_le
  have hQ := K.primeQ.two_le
  have h1 := subOne K C.p K.primeP.pos
  have h2 := subOne K C.q K.primeQ.pos
  generalize hr1 : bnSubLimb bnZero k.p 1 = r1 at h1
  generalize hr2 : bnSubLimb bnZero k.q 1 = r2 at h2
  have h3 := Is.mul' (r1.data.length + r2.data.length) h1 h2
  generalize hl : bnMul (r1.data.length + r2.data.length) r1 r2 = l at h3
  obtain ⟨u, e1, e2, e3⟩ := (gcd_exact (j := 5) rfl r1 r2 h1.1 h2.1).1 ⟨by rw [h1.2]; have := K.oddP; omega, by rw [h2.2]; have := K.oddQ; omega⟩
  rw [h1.2, h2.2, Int.gcd_natCast_natCast] at e2
  have hu : Is u (Nat.gcd (P - 1) (Q - 1)) := ⟨e3, e2⟩
  have hg : 0 < Nat.gcd (P - 1) (Q - 1) := Nat.gcd_pos_of_pos_left _ (by omega)
  obtain ⟨qq, rr, d1, d2, d3, d4, d5⟩ := bnDiv_spec (j := 5) rfl l u h3.wf hu.wf (hu.ne hg)
  have hq : Is qq (Nat.lcm (P - 1) (Q - 1)) := by
    refine .mk' d4 ?_
    rw [d2, h3.toInt, hu.toInt, Int.tdiv_eq_ediv_of_nonneg (Int.natCast_nonneg _)]
    norm_cast
  have hP2 := K.oddP
  have hlcm : 1 < Nat.lcm (P - 1) (Q - 1) := by
    have := Nat.le_of_dvd (Nat.lcm_pos (by omega) (by omega)) (Nat.dvd_lcm_left (P - 1) (Q - 1))
    omega
  have hcop : Nat.Coprime D (Nat.lcm (P - 1) (Q - 1)) := by
    have : Nat.gcd (E0 * D) (Nat.lcm (P - 1) (Q - 1)) = Nat.gcd 1 (Nat.lcm (P - 1) (Q - 1)) := Nat.ModEq.gcd_eq hE0
    rw [Nat.gcd_one_left] at this
    exact Nat.Coprime.coprime_mul_left this
  obtain ⟨r, w, f1, f2, f3, f4⟩ := (K.exponent.inv hq hlcm).1 hcop
  refine ⟨r, w, ?_, f2, ?_⟩
  · unfold getPublicExp
    simp only [hr1, hr2, hl, e1, d1, f1, Option.bind_eq_bind, Option.bind_some, Option.join_some]
  · show w * D % _ = 1 % _
    rw [f4, Nat.mod_eq_of_lt hlcm]

/-- The numbers of the blinding: the second undoes what the private operation makes of the first. -/
def BlindOk (N D : Nat) : Blind → Prop
  | .unset => True
  | .broken => True
  | .pair r rInv => ∃ x y, Is r x ∧ Is rInv y ∧ x ^ D * y ≡ 1 [MOD N]

theorem blindExp_spec (C : Crt k P Q D ∨ NoCrt k) (hx : HasExp k) : ∃ e E, blindExp k = some e ∧ Is e E ∧ Inverse P Q E D := by
  obtain ⟨E, h1, h2⟩ := K.pub
  unfold blindExp
  by_cases hz : k.e.data.length = 0
  · rw [if_pos hz]
    rcases C with C | C
    · exact getPublicExp_spec K C
    · exact absurd C (hx.resolve_left (fun h => h (by have := h1.zero.mp hz; rw [this] at h1; exact h1)))
  · rw [if_neg hz]
    exact ⟨_, E, rfl, h1, h2.resolve_left (fun h => hz (h1.zero.mpr h))⟩

theorem noExp_spec (C : NoCrt k) (hz : k.e.data.length = 0) : blindExp k = none := by
  unfold blindExp
  rw [if_pos hz]
  have hp : k.p = bnZero := C.1.eq isZero'
  have hq : k.q = bnZero := C.2.eq isZero'
  have e1 : (bnGcd (bnSubLimb bnZero (bnZero : Bn 32) 1) (bnSubLimb bnZero bnZero 1)).join = some ⟨false, [1]⟩ := by decide +kernel
  have e2 : (bnDiv (bnMul ((bnSubLimb bnZero (bnZero : Bn 32) 1).data.length + (bnSubLimb bnZero (bnZero : Bn 32) 1).data.length)
      (bnSubLimb bnZero (bnZero : Bn 32) 1) (bnSubLimb bnZero bnZero 1)) ⟨false, [1]⟩).join = some (⟨false, [1]⟩, bnZero) := by decide +kernel
  have h1 : Bn.Spec.WellFormed (⟨false, [1]⟩ : Bn 32) := (wf_iff (by decide) _).mpr ⟨by decide, fun h => by cases h⟩
  have e3 := modInv_one (j := 5) rfl k.d ⟨false, [1]⟩ K.exponent.1 h1 (by rw [int_eq]; decide)
  unfold getPublicExp
  simp only [hp, hq, e1, e2, e3, Option.bind_eq_bind, Option.bind_some, Option.join_none]

theorem blindCreate_spec {e : Bn 32} {E : Nat} (he : Is e E) (hE : Inverse P Q E D) (v : Env) {u : Nat} {r : Bn 32} (hr : v.rand = some r) (hu : Is r u) :
    (Nat.Coprime u (P * Q) → ∃ a b, blindCreate v e k.n = some (a, b) ∧ BlindOk (P * Q) D (.pair a b)) ∧
    (¬ Nat.Coprime u (P * Q) → blindCreate v e k.n = none) := by
  have hN := N_pos K
  constructor
  · intro hc
    obtain ⟨b, w, f1, f2, f3, f4⟩ := (hu.inv K.modulus hN).1 hc
    obtain ⟨a, g1, g2, g3⟩ := (modExp_exact (j := 5) rfl (by decide) r e k.n hu.1 he.1 K.modulus.1 v.consttime).1
      (by rw [K.modulus.2]; omega) (by rw [he.2]; exact Int.natCast_nonneg _)
    refine ⟨a, b, ?_, u ^ E % (P * Q), w, ⟨g3, ?_⟩, f2, ?_⟩
    · unfold blindCreate
      simp only [hr, f1, g1, Option.bind_eq_bind, Option.bind_some, Option.join_some]
    · rw [g2, hu.2, he.2, K.modulus.2, Int.toNat_natCast]; push_cast; rfl
    · have h1 : (u ^ E % (P * Q)) ^ D ≡ u [MOD P * Q] := by
        refine ((Nat.mod_modEq _ _).pow D).trans ?_
        rw [← pow_mul]
        exact pow_inverse K.primeP K.primeQ K.oddP K.oddQ K.ne hE u
      refine (h1.mul_right w).trans ?_
      show u * w % _ = 1 % _
      rw [Nat.mul_comm, f4, Nat.mod_eq_of_lt hN]
  · intro hc
    unfold blindCreate
    simp only [hr, (hu.inv K.modulus hN).2 hc, Option.bind_eq_bind, Option.bind_some, Option.bind_none]

theorem blindConvert_spec {r rInv c : Bn 32} {x : Nat} (hok : BlindOk (P * Q) D (.pair r rInv)) (hc : Is c x) :
    ∃ r' i' c' y w z, blindConvert k.n r rInv c = some ((r', i'), c') ∧ BlindOk (P * Q) D (.pair r' i') ∧ Is c' y ∧ Is i' w ∧
      y = x * z % (P * Q) ∧ z ^ D * w ≡ 1 [MOD P * Q] := by
  have hN := N_pos K
  obtain ⟨a, b, h1, h2, h3⟩ := hok
  obtain ⟨r', f1, g1⟩ := h1.mul h1 K.modulus (by omega)
  obtain ⟨i', f2, g2⟩ := h2.mul h2 K.modulus (by omega)
  obtain ⟨c', f3, g3⟩ := hc.mul g1 K.modulus (by omega)
  have key : (a * a % (P * Q)) ^ D * (b * b % (P * Q)) ≡ 1 [MOD P * Q] := by
    refine (((Nat.mod_modEq (a * a) _).pow D).mul (Nat.mod_modEq (b * b) _)).trans ?_
    have := h3.mul h3
    rwa [show a ^ D * b * (a ^ D * b) = (a * a) ^ D * (b * b) by rw [mul_pow]; ring] at this
  refine ⟨r', i', c', _, _, _, ?_, ⟨_, _, g1, g2, key⟩, g3, g2, rfl, key⟩
  unfold blindConvert blindUpdate
  simp only [f1, f2, f3, Option.bind_eq_bind, Option.bind_some, Option.join_some]

end

end Verif.Crypto.Rsa
