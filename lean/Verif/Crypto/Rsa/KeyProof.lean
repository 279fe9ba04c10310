import Verif.Crypto.Rsa.KeySpec
import Verif.Crypto.Rsa.Props

/-! Lemmas on the setting of RSA keys. -/
namespace Verif.Crypto.Rsa
open Verif.Crypto.Bn Verif.Crypto.Sig Verif.Crypto.Sig.Spec Spec

theorem bin_is {x : List UInt8} {a : Bn 32} (e : bin2Bn x = some a) : Is a (Bn.Spec.bigEndian x) := by
  by_cases hl : (skipZeros x).length ≤ 8 * maxWords
  · obtain ⟨r, e1, e2, e3⟩ := bin2Bn_some x hl
    rw [e] at e1
    cases e1
    exact .mk' e3 e2
  · exfalso
    unfold bin2Bn at e
    dsimp only at e
    have : maxWords = 8388608 := rfl
    rw [if_neg (by omega), if_pos (by split <;> omega)] at e
    cases e

theorem bin_some {x : List UInt8} (h : Bn.Spec.bigEndian x < 2 ^ 16384) : ∃ a, bin2Bn x = some a ∧ Is a (Bn.Spec.bigEndian x) := by
  obtain ⟨r, e, -⟩ := bin2Bn_exact x 16384 (by norm_num) h
  exact ⟨r, e, bin_is e⟩

theorem big_lt {x : List UInt8} (h : x.length ≤ 2048) : Bn.Spec.bigEndian x < 2 ^ 16384 := by
  have h1 := numeral_lt 256 (x.map UInt8.toNat) (by
    intro d hd
    obtain ⟨c, _, rfl⟩ := List.mem_map.mp hd
    exact c.toNat_lt)
  rw [List.length_map] at h1
  refine Nat.lt_of_lt_of_le h1 ?_
  rw [show (256 : Nat) = 2 ^ 8 from rfl, ← pow_mul]
  exact Nat.pow_le_pow_right (by decide) (by omega)

theorem bits_is {n : Bn 32} {N : Nat} (hn : Is n N) : binBits n.data = Bn.Spec.bits N := by
  rw [bn_bits (j := 5) rfl n hn.1, hn.2]
  rfl

theorem bits_lt (N b : Nat) : Bn.Spec.bits N ≤ b ↔ N < 2 ^ b := by
  unfold Bn.Spec.bits
  by_cases h : N = 0
  · rw [if_pos h, h]
    exact ⟨fun _ => Nat.pow_pos (by decide), fun _ => Nat.zero_le _⟩
  · rw [if_neg h]
    exact Nat.log2_lt h

theorem modulusOk_iff {n : Bn 32} {N : Nat} (hn : Is n N) (hN : N < 2 ^ 16384) : modulusOk n = true ↔ 2 ^ 511 ≤ N := by
  unfold modulusOk
  rw [bits_is hn]
  have h1 := (bits_lt N 16384).mpr hN
  have h2 := bits_lt N 511
  rw [← Nat.not_lt, ← h2]
  simp only [Bool.not_eq_true', Bool.or_eq_false_iff, decide_eq_false_iff_not]
  constructor
  · rintro ⟨_, h⟩; clear h2; omega
  · intro h; clear h2; exact ⟨by omega, by omega⟩

theorem isOne_iff {a : Bn 32} {x : Nat} (ha : Is a x) : isOne a = true ↔ x = 1 := by
  unfold isOne
  rw [decide_eq_true_iff]
  have h1 : Is (⟨false, [1]⟩ : Bn 32) 1 := is_small 1 1 rfl (by decide)
  constructor
  · rintro rfl; exact ha.inj h1
  · rintro rfl; exact ha.eq h1

theorem cmp_le {a b : Bn 32} {x y : Nat} (ha : Is a x) (hb : Is b y) : bnCmp a b ≤ 0 ↔ x ≤ y := by
  rw [bn_cmp (by decide) a b ha.1 hb.1, ha.2, hb.2]
  split <;> (try split) <;> constructor <;> intro h <;> omega

/-- What the checks of `n` and `d` accept. -/
theorem readND_spec (i : PrvIn) (h1 : i.n.length ≤ 2048) (h2 : i.d.length ≤ i.n.length) :
    (2 ^ 511 ≤ Bn.Spec.bigEndian i.n ∧ 1 < Bn.Spec.bigEndian i.d ∧ Bn.Spec.bigEndian i.d < Bn.Spec.bigEndian i.n →
      ∃ n d, readND i = some (n, d) ∧ Is n (Bn.Spec.bigEndian i.n) ∧ Is d (Bn.Spec.bigEndian i.d)) ∧
    (¬ (2 ^ 511 ≤ Bn.Spec.bigEndian i.n ∧ 1 < Bn.Spec.bigEndian i.d ∧ Bn.Spec.bigEndian i.d < Bn.Spec.bigEndian i.n) → readND i = none) := by
  obtain ⟨n, e1, g1⟩ := bin_some (big_lt h1)
  obtain ⟨d, e2, g2⟩ := bin_some (big_lt (Nat.le_trans h2 h1))
  have m1 := modulusOk_iff g1 (big_lt h1)
  have m2 := isOne_iff g2
  have m3 := cmp_le g1 g2
  have m4 := g2.zero
  unfold readND
  rw [e1, e2]
  dsimp only
  constructor
  · rintro ⟨a1, a2, a3⟩
    refine ⟨n, d, ?_, g1, g2⟩
    rw [if_neg (by rw [m1.mpr a1]; decide), if_neg (by rw [m2, m4]; omega), if_neg (by rw [m3]; omega)]
  · intro h
    by_cases a1 : 2 ^ 511 ≤ Bn.Spec.bigEndian i.n
    · rw [if_neg (by rw [m1.mpr a1]; decide)]
      by_cases a2 : 1 < Bn.Spec.bigEndian i.d
      · rw [if_neg (by rw [m2, m4]; omega), if_pos (by rw [m3, ← Nat.not_lt]; exact fun a3 => h ⟨a1, a2, a3⟩)]
      · rw [if_pos (by rw [m2, m4]; omega)]
    · rw [if_pos (by rw [← Bool.not_eq_true, m1]; exact a1)]

theorem readE_spec {n : Bn 32} {N : Nat} (hn : Is n N) (h0 : 0 < N) (hN : N < 2 ^ 16384) (e : Option (List UInt8)) :
    (valOf e < N → ∃ r, readE n e = some r ∧ Is r (valOf e)) ∧ (¬ valOf e < N → readE n e = none) := by
  cases e with
  | none => exact ⟨fun _ => ⟨_, rfl, isZero'⟩, fun h => absurd h0 h⟩
  | some e =>
    unfold readE valOf
    dsimp only
    constructor
    · intro h
      obtain ⟨r, e1, g1⟩ := bin_some (Nat.lt_trans h hN)
      rw [e1]
      dsimp only
      exact ⟨r, by rw [if_neg (by rw [cmp_le hn g1]; omega)], g1⟩
    · intro h
      cases e1 : bin2Bn e with
      | none => rfl
      | some r =>
        dsimp only
        rw [if_pos (by rw [cmp_le hn (bin_is e1)]; omega)]

theorem sub_one {p : Bn 32} {x : Nat} (hp : Is p x) (h : 0 < x) : Is (bnSubLimb bnZero p 1) (x - 1) := by
  obtain ⟨h1, h2⟩ := bn_subLimb (h := 32) (by decide) bnZero p 1 hp.1 rfl
  refine ⟨h2, ?_⟩
  rw [h1, hp.2, show ((1 : W 32).toNat : Int) = 1 from rfl]
  omega

theorem rem_is {a b : Bn 32} {x y : Nat} (ha : Is a x) (hb : Is b y) (h : 0 < y) : ∃ q r, (bnDiv a b).join = some (q, r) ∧ Is r (x % y) := by
  obtain ⟨q, r, d1, d2, d3, d4, d5⟩ := bnDiv_spec (j := 5) rfl a b ha.wf hb.wf (hb.ne h)
  refine ⟨q, r, by rw [d1]; rfl, .mk' d5 ?_⟩
  rw [d3, ha.toInt, hb.toInt, Int.tmod_eq_emod_of_nonneg (Int.natCast_nonneg _)]
  norm_cast

/-- The computed numbers of the Chinese remainder theorem. -/
theorem calcCrt_spec {p q d : Bn 32} {P Q D : Nat} (hp : Is p P) (hq : Is q Q) (hd : Is d D) (h0 : 0 < P) (h1 : 0 < Q) :
    (1 < P ∧ 1 < Q ∧ Nat.Coprime Q P → ∃ dP dQ qInv x, calcCrt p q d = some (dP, dQ, qInv) ∧ Is dP (D % (P - 1)) ∧ Is dQ (D % (Q - 1)) ∧
      Is qInv x ∧ x < P ∧ x * Q % P = 1) ∧
    (¬ (1 < P ∧ 1 < Q ∧ Nat.Coprime Q P) → calcCrt p q d = none) := by
  have s1 := sub_one hp h0
  have s2 := sub_one hq h1
  unfold calcCrt
  constructor
  · rintro ⟨a1, a2, a3⟩
    obtain ⟨r, w, f1, f2, f3, f4⟩ := (hq.inv hp a1).1 a3
    obtain ⟨q1, r1, e1, g1⟩ := rem_is hd s1 (by omega)
    obtain ⟨q2, r2, e2, g2⟩ := rem_is hd s2 (by omega)
    refine ⟨r1, r2, r, w, ?_, g1, g2, f2, f3, f4⟩
    simp only [f1, e1, e2, Option.bind_eq_bind, Option.bind_some]
  · intro h
    by_cases a1 : 1 < P
    · by_cases a3 : Nat.Coprime Q P
      · obtain ⟨r, w, f1, f2, f3, f4⟩ := (hq.inv hp a1).1 a3
        obtain ⟨q1, r1, e1, g1⟩ := rem_is hd s1 (by omega)
        have hz : bnDiv d (bnSubLimb bnZero q 1) = none :=
          bnDiv_zero _ _ (List.length_eq_zero_iff.mp (s2.zero.mpr (by
            by_contra hc; exact h ⟨a1, by omega, a3⟩)))
        simp only [f1, e1, hz, Option.bind_eq_bind, Option.bind_some, Option.join_none, Option.bind_none]
      · simp only [(hq.inv hp a1).2 a3, Option.bind_eq_bind, Option.bind_none]
    · have hz : bnModInv q p = none := modInv_one (j := 5) rfl q p hq.1 hp.1 (by rw [hp.2]; omega)
      simp only [hz, Option.join_none, Option.bind_eq_bind, Option.bind_none]

/-- The modulus of a new key is the product and the private exponent the inverse. -/
theorem calcND_spec {p q e : Bn 32} {P Q E : Nat} (hp : Is p P) (hq : Is q Q) (he : Is e E) (h1 : 2 < P) (h2 : 2 < Q) :
    (Nat.Coprime E (Nat.lcm (P - 1) (Q - 1)) → ∃ n d D, calcND p q e = some (n, d) ∧ Is n (P * Q) ∧ Is d D ∧ Inverse P Q E D) ∧
    (¬ Nat.Coprime E (Nat.lcm (P - 1) (Q - 1)) → calcND p q e = none) := by
  have s1 := sub_one hp (by omega)
  have s2 := sub_one hq (by omega)
  have hn := Is.mul' (p.data.length + q.data.length) hp hq
  unfold calcND
  generalize bnSubLimb bnZero p 1 = r1 at s1 ⊢
  generalize bnSubLimb bnZero q 1 = r2 at s2 ⊢
  have h3 := Is.mul' (r1.data.length + r2.data.length) s1 s2
  obtain ⟨u, e1, e2, e3⟩ := (gcd_exact (j := 5) rfl r1 r2 s1.1 s2.1).1 ⟨by rw [s1.2]; omega, by rw [s2.2]; omega⟩
  rw [s1.2, s2.2, Int.gcd_natCast_natCast] at e2
  have hu : Is u (Nat.gcd (P - 1) (Q - 1)) := ⟨e3, e2⟩
  have hg : 0 < Nat.gcd (P - 1) (Q - 1) := Nat.gcd_pos_of_pos_left _ (by omega)
  obtain ⟨qq, rr, d1, d2, d3, d4, d5⟩ := bnDiv_spec (j := 5) rfl _ u h3.wf hu.wf (hu.ne hg)
  have hqq : Is qq (Nat.lcm (P - 1) (Q - 1)) := by
    refine .mk' d4 ?_
    rw [d2, h3.toInt, hu.toInt, Int.tdiv_eq_ediv_of_nonneg (Int.natCast_nonneg _)]
    norm_cast
  have hlcm : 1 < Nat.lcm (P - 1) (Q - 1) := by
    have := Nat.le_of_dvd (Nat.lcm_pos (by omega) (by omega)) (Nat.dvd_lcm_left (P - 1) (Q - 1))
    omega
  constructor
  · intro hc
    obtain ⟨r, w, f1, f2, f3, f4⟩ := (he.inv hqq hlcm).1 hc
    refine ⟨_, r, w, ?_, hn, f2, ?_⟩
    · simp only [e1, d1, f1, Option.bind_eq_bind, Option.bind_some, Option.join_some]
    · show E * w % _ = 1 % _
      rw [Nat.mul_comm, f4, Nat.mod_eq_of_lt hlcm]
  · intro hc
    simp only [e1, d1, (he.inv hqq hlcm).2 hc, Option.bind_eq_bind, Option.bind_some, Option.join_some, Option.bind_none]

theorem pairCheck_spec {n e d : Bn 32} {P Q E D : Nat} (hP : P.Prime) (hQ : Q.Prime) (h2 : P ≠ 2) (h3 : Q ≠ 2) (hne : P ≠ Q) (hn : Is n (P * Q))
    (he : Is e E) (hd : Is d D) (h : Inverse P Q E D) : pairCheck n e d = true := by
  have o1 := hP.eq_two_or_odd.resolve_left h2
  have o2 := hQ.eq_two_or_odd.resolve_left h3
  have hodd : P * Q % 2 = 1 := by rw [Nat.mul_mod, o1, o2]
  obtain ⟨M, a1, -, -, a4⟩ := mont_is hn hodd
  have v2 : Is (⟨false, [2]⟩ : Bn 32) 2 := is_small 2 2 rfl (by decide)
  obtain ⟨x, e1, g1⟩ := a4 ⟨false, [2]⟩ e _ _ v2 he false
  obtain ⟨y, e2, g2⟩ := a4 x d _ _ g1 hd true
  have hPQ : 2 < P * Q := by
    have := hP.two_le
    have := hQ.two_le
    have : 3 * 3 ≤ P * Q := Nat.mul_le_mul (by omega) (by omega)
    omega
  unfold pairCheck
  simp only [a1, e1, e2, Option.join_some]
  rw [decide_eq_true_iff, (v2.cmp g2).2]
  have : (2 ^ E % (P * Q)) ^ D ≡ 2 [MOD P * Q] := by
    refine ((Nat.mod_modEq _ _).pow D).trans ?_
    rw [← pow_mul]
    exact pow_inverse hP hQ h2 h3 hne h 2
  have h5 : (2 ^ E % (P * Q)) ^ D % (P * Q) = 2 % (P * Q) := this
  rw [h5, Nat.mod_eq_of_lt hPQ]

end Verif.Crypto.Rsa
