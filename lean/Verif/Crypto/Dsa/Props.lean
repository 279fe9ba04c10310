import Verif.Crypto.Dsa.Model
import Verif.Crypto.Bn.ExpMulProps
import Verif.Crypto.Sig.Sign

/-! C68: DSA signatures (FIPS 186-4, section 4). -/
namespace Verif.Crypto.Dsa.Spec
open Verif.Crypto.Bn Verif.Crypto.Sig Verif.Crypto.Sig.Spec

/-- `(r, s)` is the DSA signature of the number `e` with the key `x` and the secret `k`. -/
def DsaSign (p q g x e k r s : Nat) : Prop :=
  r = g ^ k % p % q ∧ r ≠ 0 ∧ s ≠ 0 ∧ s < q ∧ k * s % q = (e + x * r) % q

/-- `(r, s)` is a valid DSA signature of `e` for the public key `y`. -/
def DsaValid (p q g y e r s : Nat) : Prop :=
  (0 < r ∧ r < q) ∧ (0 < s ∧ s < q) ∧ ∃ w, s * w % q = 1 ∧ g ^ (e * w % q) * y ^ (r * w % q) % p % q = r

/-- The parameters: `g` generates a group of the prime order `q` modulo the odd number `p`. -/
structure Domain (c : Para) (p q g : Nat) : Prop where
  modulus : Is c.p p
  odd : p % 2 = 1
  order : Is c.q q
  prime : q.Prime
  fits : q < 2 ^ 16384
  gen : Is c.g g
  pos : 0 < g
  lt : g < p
  pow : g ^ q % p = 1

/-- What the random generator delivers: a secret and a blinding number, both from 1 to the order. -/
def Drawn (q : Nat) (dr : Draw) (k : Nat) : Prop := Is dr.k k ∧ 0 < k ∧ k < q ∧ ∃ v, Is dr.blind v ∧ 0 < v ∧ v < q

end Verif.Crypto.Dsa.Spec

namespace Verif.Crypto.Dsa
open Verif.Crypto.Bn Verif.Crypto.Sig Verif.Crypto.Sig.Spec Spec

section
variable {c : Para} {p q g : Nat} (D : Domain c p q g)
include D

theorem order_bits : binBits c.q.data = Bn.Spec.bits q ∧ binBits c.q.data ≤ 16384 := by
  have h := D.order
  have hn : c.q.data ≠ [] := by
    intro e
    have := h.zero.mp (by rw [e]; rfl)
    have := D.prime.pos
    omega
  obtain ⟨h1, h2, h3, h4, h5⟩ := binBits_spec (j := 5) rfl c.q.data h.wf.1 hn
  refine ⟨by rw [bn_bits (j := 5) rfl c.q h.1, h.2]; rfl, ?_⟩
  have hv : val c.q.data = q := h.scalar
  rw [hv] at h2
  have : 2 ^ (binBits c.q.data - 1) < 2 ^ 16384 := Nat.lt_of_le_of_lt h2 D.fits
  have := (Nat.pow_lt_pow_iff_right (a := 2) (by decide)).mp this
  omega

/-- C68: the data become the number of their leftmost bytes, as many as the order has. -/
theorem dsaBits_exact (data : List UInt8) : Is (dsaBits2Int c.q data) (bits2int (8 * ((Bn.Spec.bits q + 7) / 8)) data) := by
  obtain ⟨b1, b2⟩ := order_bits D
  have small : ∀ l : List UInt8, 8 * l.length ≤ 2 ^ 29 → Is (bin2BnVoid l) (Bn.Spec.bigEndian l) := by
    intro l hl
    have h := bigEndian_lt l
    rw [show (256 : Nat) = 2 ^ 8 from rfl, ← Nat.pow_mul] at h
    obtain ⟨r, e, r1, r2⟩ := bin2Bn_exact l (8 * l.length) hl h
    unfold bin2BnVoid
    rw [e]
    exact ⟨r2, r1⟩
  unfold dsaBits2Int bnBytes
  dsimp only
  rw [b1] at *
  generalize Bn.Spec.bits q = n at *
  unfold bits2int
  by_cases hc : data.length < (n + 7) / 8
  · rw [if_pos hc, if_neg (by omega), List.take_length]
    exact small data (by omega)
  · rw [if_neg hc]
    have h := small (data.take ((n + 7) / 8)) (by rw [List.length_take]; omega)
    rw [bigEndian_take data _ (by omega)] at h
    split
    · rwa [show 8 * data.length - 8 * ((n + 7) / 8) = 8 * (data.length - (n + 7) / 8) by omega, Nat.pow_mul]
    · rwa [show data.length - (n + 7) / 8 = 0 by omega, pow_zero, Nat.div_one] at h

/-- C68: that is the number of FIPS 186-4, the leftmost bits, as many as the order has, when these are whole bytes. -/
theorem dsaBits_standard (data : List UInt8) (h8 : Bn.Spec.bits q % 8 = 0) : Is (dsaBits2Int c.q data) (bits2int (Bn.Spec.bits q) data) := by
  have h := dsaBits_exact D data
  rwa [show 8 * ((Bn.Spec.bits q + 7) / 8) = Bn.Spec.bits q by omega] at h

/-- C68, what is wrong at the boundary of `dsaBits_standard`: for an order of another length the number is not the one of FIPS 186-4
whenever the data are longer than the order and that number is not zero. -/
theorem dsaBits_wrong (data : List UInt8) (h8 : Bn.Spec.bits q % 8 ≠ 0) (hl : Bn.Spec.bits q < 8 * data.length)
    (h0 : bits2int (Bn.Spec.bits q) data ≠ 0) : ¬ Is (dsaBits2Int c.q data) (bits2int (Bn.Spec.bits q) data) := by
  intro h
  have e := h.inj (dsaBits_exact D data)
  generalize Bn.Spec.bits q = n at *
  unfold bits2int at e h0
  rw [if_pos hl] at e h0
  have key : Bn.Spec.bigEndian data / 2 ^ (8 * data.length - n) = (if 8 * ((n + 7) / 8) < 8 * data.length then
      Bn.Spec.bigEndian data / 2 ^ (8 * data.length - 8 * ((n + 7) / 8)) else Bn.Spec.bigEndian data) / 2 ^ (8 * ((n + 7) / 8) - n) := by
    split
    · rw [Nat.div_div_eq_div_mul, ← Nat.pow_add]; congr 2; omega
    · congr 2; omega
  rw [← e] at key
  generalize Bn.Spec.bigEndian data / 2 ^ (8 * data.length - n) = v at *
  have h1 : 1 ≤ 8 * ((n + 7) / 8) - n := by omega
  have h2 : 2 ^ 1 ≤ 2 ^ (8 * ((n + 7) / 8) - n) := Nat.pow_le_pow_right (by decide) h1
  have h3 : v / 2 ^ (8 * ((n + 7) / 8) - n) < v := Nat.div_lt_self (by omega) (by omega)
  omega

theorem coprime_q {x : Nat} (h : x < q) (h0 : x ≠ 0) : Nat.Coprime x q :=
  ((Nat.Prime.coprime_iff_not_dvd D.prime).mpr (fun hd => by
    have := Nat.le_of_dvd (by omega) hd
    omega)).symm

theorem mont_ok : ∃ M, montCreate c.p = some (some M) ∧ ∀ k : Bn 32, ∀ kn : Nat, Is k kn →
    ∃ r, (bnMontExp M c.g k true).join = some r ∧ Is r (g ^ kn % p) := by
  obtain ⟨M, e, hx⟩ := (montExp_exact (j := 5) rfl (by decide) c.p D.modulus.1).1 (by
    rw [D.modulus.2]
    have := D.odd
    omega)
  refine ⟨M, e, fun k kn hk => ?_⟩
  obtain ⟨r, r1, r2, r3⟩ := hx c.g k D.gen.1 hk.1 (by rw [hk.2]; omega) true
  refine ⟨r, by rw [r1]; rfl, r3, ?_⟩
  rw [r2, D.gen.2, hk.2, D.modulus.2, Int.toNat_natCast]
  push_cast
  rfl

theorem dsaRound_spec {x d : Bn 32} {xn en : Nat} (hx : Is x xn) (he : Is d en) {M : Mont 32} (hM : montCreate c.p = some (some M)) (dr : Draw) (k : Nat)
    (h : Drawn q dr k) : RoundOk (DsaSign p q g xn en) (dsaRound c M x d) dr k := by
  have hq0 := D.prime.pos
  obtain ⟨hk, k0, kq, v, hv, v0, vq⟩ := h
  obtain ⟨M', e0, hexp⟩ := mont_ok D
  rw [hM, Option.some.injEq, Option.some.injEq] at e0
  subst e0
  obtain ⟨a, a1, a2⟩ := hexp dr.k k hk
  obtain ⟨r, r1, r2⟩ := a2.mod D.order hq0
  unfold RoundOk dsaRound
  simp only [a1, r1, Option.bind_eq_bind, Option.bind_some]
  generalize hrn : g ^ k % p % q = rn at *
  by_cases hr0 : rn = 0
  · rw [if_pos (r2.zero.mpr hr0)]
    refine .inr ⟨rfl, ?_⟩
    rintro rn' sn ⟨h1, h2, -⟩
    exact h2 (by rw [h1, hrn, hr0])
  · rw [if_neg (fun e => hr0 (r2.zero.mp e))]
    obtain ⟨s1, f1, g1⟩ := hv.mul hx D.order hq0
    obtain ⟨s2, f2, g2⟩ := g1.mul r2 D.order hq0
    obtain ⟨s3, f3, g3⟩ := hv.mul he D.order hq0
    obtain ⟨s4, f4, g4⟩ := g2.add g3 D.order hq0
    obtain ⟨k2, w, f5, g5, -, hw⟩ := (hk.inv D.order D.prime.one_lt).1 (coprime_q D kq (by omega))
    obtain ⟨s5, f6, g6⟩ := g4.mul g5 D.order hq0
    obtain ⟨b2, u, f7, g7, -, hu⟩ := (hv.inv D.order D.prime.one_lt).1 (coprime_q D vq (by omega))
    obtain ⟨s, f8, g8⟩ := g6.mul g7 D.order hq0
    unfold calcS
    simp only [f1, f2, f3, f4, f5, f6, f7, f8, Option.bind_eq_bind, Option.bind_some]
    have hw' : w * k ≡ 1 [MOD q] := by show w * k % q = 1 % q; rw [hw, Nat.mod_eq_of_lt D.prime.one_lt]
    have hu' : u * v ≡ 1 [MOD q] := by show u * v % q = 1 % q; rw [hu, Nat.mod_eq_of_lt D.prime.one_lt]
    generalize hsn : ((v * xn % q * rn % q + v * en % q) % q * w % q * u % q) = sn at *
    -- k s = e + x r modulo q
    have hks : k * sn ≡ en + xn * rn [MOD q] := by
      have t1 : sn ≡ (v * xn * rn + v * en) * w * u [MOD q] := by
        rw [← hsn]
        refine (Nat.mod_modEq _ _).trans (Nat.ModEq.mul_right u ((Nat.mod_modEq _ _).trans (Nat.ModEq.mul_right w ((Nat.mod_modEq _ _).trans ?_))))
        exact Nat.ModEq.add ((Nat.mod_modEq _ _).trans (Nat.ModEq.mul_right rn (Nat.mod_modEq _ _))) (Nat.mod_modEq _ _)
      have t2 : k * sn ≡ k * ((v * xn * rn + v * en) * w * u) [MOD q] := Nat.ModEq.mul_left k t1
      rw [show k * ((v * xn * rn + v * en) * w * u) = (en + xn * rn) * ((w * k) * (u * v)) by ring] at t2
      have t3 := Nat.ModEq.mul_left (en + xn * rn) (Nat.ModEq.mul hw' hu')
      rw [Nat.mul_one] at t3
      exact t2.trans t3
    by_cases hs0 : sn = 0
    · rw [if_pos (g8.zero.mpr hs0)]
      refine .inr ⟨rfl, ?_⟩
      rintro rn' sn' ⟨h1, h2, h3, h4, h5⟩
      rw [hrn] at h1
      subst h1
      have t : k * sn' ≡ k * sn [MOD q] := Nat.ModEq.trans h5 hks.symm
      have t' : sn' ≡ sn [MOD q] := Nat.ModEq.cancel_left_of_coprime (by rw [Nat.gcd_comm]; exact coprime_q D kq (by omega)) t
      have t'' : sn' % q = sn % q := t'
      rw [hs0, Nat.zero_mod, Nat.mod_eq_of_lt h4] at t''
      exact h3 t''
    · rw [if_neg (fun e => hs0 (g8.zero.mp e))]
      exact .inl ⟨r, s, rn, sn, rfl, r2, g8, hrn.symm, hr0, hs0, by rw [← hsn]; exact Nat.mod_lt _ hq0, hks⟩

theorem forall2_take' {α β : Type} {R : α → β → Prop} : ∀ (n : Nat) {l : List α} {m : List β}, List.Forall₂ R l m → List.Forall₂ R (l.take n) (m.take n)
  | 0, _, _, _ => by simpa using List.Forall₂.nil
  | n + 1, _, _, .nil => by simpa using List.Forall₂.nil
  | n + 1, _, _, .cons h t => by simpa using List.Forall₂.cons h (forall2_take' n t)

theorem dsaSign_num {x : Bn 32} {xn : Nat} (hx : Is x xn) (data : List UInt8) (draws : List Draw) (ks : List Nat) (hk : List.Forall₂ (Drawn q) draws ks)
    (en : Nat) (he : Is (dsaBits2Int c.q data) en) :
    (∃ r s rn sn, dsaSign c x data draws = some (r, s) ∧ Is r rn ∧ Is s sn ∧ First (DsaSign p q g xn en) (ks.take 100) rn sn) ∨
      (dsaSign c x data draws = none ∧ ∀ rn sn, ¬ First (DsaSign p q g xn en) (ks.take 100) rn sn) := by
  obtain ⟨M, e0, -⟩ := mont_ok D
  have h := rounds_spec (P := Drawn q) (fun dr k h => dsaRound_spec D hx he e0 dr k h) (forall2_take' D dsaTryMax hk)
  unfold dsaSign
  rw [e0]
  exact h

/-- C68: DSA delivers the signature of the first of at most 100 secrets that gives one, and fails if none does. -/
theorem dsaSign_exact (h8 : Bn.Spec.bits q % 8 = 0) (x : Bn 32) (xn : Nat) (hx : Is x xn) (data : List UInt8) (draws : List Draw) (ks : List Nat)
    (hk : List.Forall₂ (Drawn q) draws ks) :
    let sign := DsaSign p q g xn (bits2int (Bn.Spec.bits q) data)
    (∃ r s rn sn, dsaSign c x data draws = some (r, s) ∧ Is r rn ∧ Is s sn ∧ First sign (ks.take 100) rn sn) ∨
      (dsaSign c x data draws = none ∧ ∀ rn sn, ¬ First sign (ks.take 100) rn sn) :=
  dsaSign_num D hx data draws ks hk _ (dsaBits_standard D data h8)

theorem dsaVerify_num (y : Bn 32) (yn : Nat) (hy : Is y yn) (y0 : 0 < yn) (yp : yn < p) (data : List UInt8) (r s : Bn 32) (rn sn : Nat) (hr : Is r rn) (hs : Is s sn)
    (en : Nat) (he : Is (dsaBits2Int c.q data) en) : dsaVerify c y data r s = true ↔ DsaValid p q g yn en rn sn := by
  have hq0 := D.prime.pos
  unfold dsaVerify DsaValid
  simp only [(hr.cmp D.order).1, (hs.cmp D.order).1, hr.zero, hs.zero]
  by_cases c1 : q ≤ rn ∨ q ≤ sn
  · rw [if_pos c1]
    exact ⟨fun h => Bool.noConfusion h, fun h => by omega⟩
  · rw [if_neg c1]
    by_cases c2 : rn = 0 ∨ sn = 0
    · rw [if_pos c2]
      exact ⟨fun h => Bool.noConfusion h, fun h => by omega⟩
    · rw [if_neg c2]
      obtain ⟨M, e0, -⟩ := mont_ok D
      obtain ⟨w, wn, f1, g1, -, hw⟩ := (hs.inv D.order D.prime.one_lt).1 (coprime_q D (by omega) (by omega))
      obtain ⟨u1, f2, g2⟩ := he.mul g1 D.order hq0
      obtain ⟨u2, f3, g3⟩ := hr.mul g1 D.order hq0
      obtain ⟨v, f4, v1, v2, -⟩ := (montExpMul_exact (j := 5) rfl (by decide) c.p D.modulus.1 M e0 c.g u1 y u2 D.gen.1 g2.1 hy.1 g3.1
        (by rw [D.gen.2]; omega) (by rw [hy.2]; omega)).1 (by rw [g2.2]; omega) (by rw [g3.2]; omega)
        (by rw [D.gen.2, D.modulus.2]; exact_mod_cast D.lt) (by rw [hy.2, D.modulus.2]; exact_mod_cast yp)
      have hv : Is v (g ^ (en * wn % q) * yn ^ (rn * wn % q) % p) := by
        refine ⟨v1, ?_⟩
        rw [v2 (Or.inl (by rw [D.gen.2]; have := D.pos; omega)) (Or.inl (by rw [hy.2]; omega)), D.gen.2, hy.2, g2.2, g3.2, D.modulus.2, Int.toNat_natCast, Int.toNat_natCast]
        push_cast
        rfl
      obtain ⟨t, f5, g5⟩ := hv.mod D.order hq0
      have hp : dsaPower c y (dsaBits2Int c.q data) r s = some t := by
        unfold dsaPower
        simp only [e0, f1, f2, f3, f4, f5, Option.bind_eq_bind, Option.bind_some, Option.join_some]
      rw [hp]
      simp only [decide_eq_true_iff, (g5.cmp hr).2]
      constructor
      · intro h
        exact ⟨by omega, by omega, wn, by rw [Nat.mul_comm]; exact hw, h⟩
      · rintro ⟨-, -, w', hw', h⟩
        have hww : w' ≡ wn [MOD q] := by
          refine Nat.ModEq.cancel_left_of_coprime (c := sn) (by rw [Nat.gcd_comm]; exact coprime_q D (by omega) (by omega)) ?_
          show sn * w' % q = sn * wn % q
          rw [hw', Nat.mul_comm, hw]
        have h1 : en * w' % q = en * wn % q := Nat.ModEq.mul_left en hww
        have h2 : rn * w' % q = rn * wn % q := Nat.ModEq.mul_left rn hww
        rw [h1, h2] at h
        exact h

/-- C68: DSA verification accepts exactly the valid signatures. -/
theorem dsaVerify_exact (h8 : Bn.Spec.bits q % 8 = 0) (y : Bn 32) (yn : Nat) (hy : Is y yn) (y0 : 0 < yn) (yp : yn < p) (data : List UInt8) (r s : Bn 32)
    (rn sn : Nat) (hr : Is r rn) (hs : Is s sn) :
    dsaVerify c y data r s = true ↔ DsaValid p q g yn (bits2int (Bn.Spec.bits q) data) rn sn :=
  dsaVerify_num D y yn hy y0 yp data r s rn sn hr hs _ (dsaBits_standard D data h8)

/-- C68: with a public key that is zero or not below the modulus nothing is accepted. -/
theorem dsaVerify_bad_key (y : Bn 32) (yn : Nat) (hy : Is y yn) (hbad : yn = 0 ∨ p ≤ yn) (data : List UInt8) (r s : Bn 32) (rn sn : Nat)
    (hr : Is r rn) (hs : Is s sn) : dsaVerify c y data r s = false := by
  have hq0 := D.prime.pos
  unfold dsaVerify
  simp only [(hr.cmp D.order).1, (hs.cmp D.order).1, hr.zero, hs.zero]
  by_cases c1 : q ≤ rn ∨ q ≤ sn
  · rw [if_pos c1]
  rw [if_neg c1]
  by_cases c2 : rn = 0 ∨ sn = 0
  · rw [if_pos c2]
  rw [if_neg c2]
  obtain ⟨M, e0, -⟩ := mont_ok D
  obtain ⟨w, wn, f1, g1, -, hw⟩ := (hs.inv D.order D.prime.one_lt).1 (coprime_q D (by omega) (by omega))
  have he := dsaBits_exact D data
  obtain ⟨u1, f2, g2⟩ := he.mul g1 D.order hq0
  obtain ⟨u2, f3, g3⟩ := hr.mul g1 D.order hq0
  have r0 : ¬ 0 = rn := by omega
  have y0 : ¬ p ≤ yn → yn = 0 := by omega
  have hm := montExpMul_exact (j := 5) rfl (by decide) c.p D.modulus.1 M e0 c.g u1 y u2 D.gen.1 g2.1 hy.1 g3.1
    (by rw [D.gen.2]; omega) (by rw [hy.2]; omega)
  by_cases hp : p ≤ yn
  · have f4 := hm.2 (.inr (.inr (.inr (by rw [hy.2, D.modulus.2]; exact_mod_cast hp))))
    have hd : dsaPower c y (dsaBits2Int c.q data) r s = none := by
      unfold dsaPower
      simp only [e0, f1, f2, f3, f4, Option.bind_eq_bind, Option.bind_some, Option.join_some, Option.bind_none]
    rw [hd]
  · have y0 := y0 hp
    obtain ⟨v, f4, v1, -, v2⟩ := hm.1 (by rw [g2.2]; exact Int.natCast_nonneg _) (by rw [g3.2]; exact Int.natCast_nonneg _)
      (by rw [D.gen.2, D.modulus.2]; exact_mod_cast D.lt) (by rw [hy.2, D.modulus.2]; exact_mod_cast Nat.lt_of_not_le hp)
    have hv : Is v 0 := ⟨v1, v2 (.inr (by rw [hy.2, y0]; rfl))⟩
    obtain ⟨t, f5, g5⟩ := hv.mod D.order hq0
    have hd : dsaPower c y (dsaBits2Int c.q data) r s = some t := by
      unfold dsaPower
      simp only [e0, f1, f2, f3, f4, f5, Option.bind_eq_bind, Option.bind_some, Option.join_some]
    rw [hd]
    simp only [(g5.cmp hr).2, Nat.zero_mod]
    exact decide_eq_false r0

theorem pow_mod_q (a b : Nat) (h : a % q = b % q) : g ^ a % p = g ^ b % p := by
  have hp1 : 1 < p := by have := D.pos; have := D.lt; omega
  have key : ∀ a : Nat, g ^ a ≡ g ^ (a % q) [MOD p] := by
    intro a
    conv_lhs => rw [← Nat.div_add_mod a q]
    rw [pow_add, pow_mul]
    have h1 : g ^ q ≡ 1 [MOD p] := by show g ^ q % p = 1 % p; rw [D.pow, Nat.mod_eq_of_lt hp1]
    have := Nat.ModEq.mul_right (g ^ (a % q)) (h1.pow (a / q))
    rwa [one_pow, Nat.one_mul] at this
  have := (key a).trans ((by rw [h] : g ^ (a % q) ≡ g ^ (b % q) [MOD p]).trans (key b).symm)
  exact this

theorem dsa_valid {x en k r s : Nat} (h : DsaSign p q g x en k r s) : DsaValid p q g (g ^ x % p) en r s := by
  obtain ⟨h1, h2, h3, h4, h5⟩ := h
  have hq0 := D.prime.pos
  obtain ⟨w, -, hw⟩ := Nat.exists_mul_mod_eq_one_of_coprime (coprime_q D h4 h3) D.prime.one_lt
  refine ⟨⟨by omega, by rw [h1]; exact Nat.mod_lt _ hq0⟩, ⟨by omega, h4⟩, w, hw, ?_⟩
  conv_rhs => rw [h1]
  congr 1
  have e1 : g ^ (en * w % q) * (g ^ x % p) ^ (r * w % q) ≡ g ^ (en * w % q + x * (r * w % q)) [MOD p] := by
    rw [pow_add, pow_mul]
    exact Nat.ModEq.mul_left _ ((Nat.mod_modEq _ _).pow _)
  refine Eq.trans e1 (pow_mod_q D _ _ ?_)
  have hw' : s * w ≡ 1 [MOD q] := by show s * w % q = 1 % q; rw [hw, Nat.mod_eq_of_lt D.prime.one_lt]
  have t1 : en * w % q + x * (r * w % q) ≡ en * w + x * (r * w) [MOD q] := Nat.ModEq.add (Nat.mod_modEq _ _) (Nat.ModEq.mul_left x (Nat.mod_modEq _ _))
  have t2 : k * s * w ≡ (en + x * r) * w [MOD q] := Nat.ModEq.mul_right w h5
  have t3 : k * s * w ≡ k * 1 [MOD q] := by rw [Nat.mul_assoc]; exact Nat.ModEq.mul_left k hw'
  rw [show en * w + x * (r * w) = (en + x * r) * w by ring] at t1
  rw [Nat.mul_one] at t3
  exact t1.trans (t2.symm.trans t3)

/-- C68: every DSA signature that the code delivers is accepted with the public key of the signer, whatever the length of the order is. -/
theorem dsa_sign_verifies (x : Bn 32) (xn : Nat) (hx : Is x xn) (data : List UInt8) (draws : List Draw) (ks : List Nat)
    (hk : List.Forall₂ (Drawn q) draws ks) (y : Bn 32) (hy : Is y (g ^ xn % p)) (r s : Bn 32) (h : dsaSign c x data draws = some (r, s)) :
    dsaVerify c y data r s = true := by
  have hp1 : 1 < p := by have := D.pos; have := D.lt; omega
  have y0 : 0 < g ^ xn % p := by
    rcases Nat.eq_zero_or_pos (g ^ xn % p) with h0 | h0
    · exfalso
      have hc : Nat.Coprime g p := by
        have : g * g ^ (q - 1) % p = 1 := by
          rw [← Nat.pow_succ', show (q - 1).succ = q by have := D.prime.pos; omega, D.pow]
        exact Nat.coprime_of_mul_modEq_one (g ^ (q - 1)) (by show _ % _ = _ % _; rw [this, Nat.mod_eq_of_lt hp1])
      have hd := Nat.dvd_of_mod_eq_zero h0
      have := Nat.Coprime.eq_one_of_dvd (Nat.Coprime.pow_right xn hc.symm) hd
      omega
    · exact h0
  rcases dsaSign_num D hx data draws ks hk _ (dsaBits_exact D data) with ⟨r', s', rn, sn, e, hr, hs, hf⟩ | ⟨e, -⟩
  · rw [e, Option.some.injEq, Prod.mk.injEq] at h
    obtain ⟨rfl, rfl⟩ := h
    obtain ⟨k, -, hsig⟩ := first_mem hf
    exact (dsaVerify_num D y _ hy y0 (Nat.mod_lt _ (by omega)) data _ _ rn sn hr hs _ (dsaBits_exact D data)).mpr (dsa_valid D hsig)
  · rw [e] at h
    cases h

end

/-! ### A case that meets the hypotheses: `p = 503`, `q = 251`, `g = 4`. -/

theorem is_small (w : W 32) (n : Nat) (hn : w.toNat = n) (h0 : w ≠ 0) : Is ⟨false, [w]⟩ n := by
  refine ⟨⟨fun x h => ?_, fun h => by cases h⟩, ?_⟩
  · rw [show ([w] : List (W 32)).getLast? = some w from rfl] at h
    cases h
    exact h0
  · rw [← hn, int_eq]
    show ((val [w] : Nat) : Int) = _
    rw [val, val, Nat.mul_zero, Nat.add_zero]

def exC : Para := ⟨⟨false, [503]⟩, ⟨false, [251]⟩, ⟨false, [4]⟩⟩

theorem exDomain : Domain exC 503 251 4 :=
  ⟨is_small _ _ rfl (by decide), rfl, is_small _ _ rfl (by decide), by norm_num,
    Nat.lt_of_lt_of_le (show 251 < 2 ^ 8 by decide) (Nat.pow_le_pow_right (by decide) (by decide)), is_small _ _ rfl (by decide), by decide, by decide, by decide +kernel⟩

def exDraws : List Draw := [⟨⟨false, [100]⟩, ⟨false, [17]⟩⟩]

theorem exDraws_ok : List.Forall₂ (Drawn 251) exDraws [100] :=
  .cons ⟨is_small _ _ rfl (by decide), by decide, by decide, 17, is_small _ _ rfl (by decide), by decide, by decide⟩ .nil

example : Bn.Spec.bits 251 % 8 = 0 := by decide
example : Is ⟨false, [504]⟩ 504 ∧ 503 ≤ 504 := ⟨is_small _ _ rfl (by decide), by decide⟩
example : ∃ r s, dsaSign exC ⟨false, [42]⟩ [0xab, 0xcd] exDraws = some (r, s) ∧
    dsaVerify exC ⟨false, [BitVec.ofNat _ (4 ^ 42 % 503)]⟩ [0xab, 0xcd] r s = true ∧
    dsaVerify exC ⟨false, [BitVec.ofNat _ (4 ^ 42 % 503)]⟩ [0xac, 0xcd] r s = false := by
  have h : (dsaSign exC ⟨false, [42]⟩ [0xab, 0xcd] exDraws).any (fun x =>
      dsaVerify exC ⟨false, [BitVec.ofNat _ (4 ^ 42 % 503)]⟩ [0xab, 0xcd] x.1 x.2 &&
      !dsaVerify exC ⟨false, [BitVec.ofNat _ (4 ^ 42 % 503)]⟩ [0xac, 0xcd] x.1 x.2) = true := by decide +kernel
  rcases hs : dsaSign exC ⟨false, [42]⟩ [0xab, 0xcd] exDraws with _ | ⟨r, s⟩
  · rw [hs] at h; cases h
  · rw [hs] at h
    simp only [Option.any_some, Bool.and_eq_true, Bool.not_eq_true'] at h
    exact ⟨r, s, rfl, h.1, h.2⟩

/-- An order of seven bits: the number is 0xab although the standard takes the seven leftmost bits, 0x55. -/
example : dsaBits2Int ⟨false, [113]⟩ [0xab, 0xcd] = ⟨false, [0xab]⟩ ∧ bits2int (Bn.Spec.bits 113) [0xab, 0xcd] = 0x55 := by decide +kernel

end Verif.Crypto.Dsa
