import Verif.Crypto.Paillier.Spec
import Verif.Crypto.Rsa.KeyProof
import Verif.Crypto.Dh.Proof
import Verif.Crypto.Sig.Props
import Mathlib.FieldTheory.Finite.Basic
import Mathlib.Tactic.Ring
import Mathlib.Tactic.LinearCombination

/-! Proofs about the model of the Paillier cryptosystem. -/
namespace Verif.Crypto.Paillier
open Verif.Crypto.Bn Verif.Crypto.Sig Verif.Crypto.Sig.Spec Verif.Crypto.Rsa Spec

/-! ### Arithmetic -/

/-- The binomial theorem up to the square of `N`. -/
theorem binom (N k m : Nat) : (1 + k * N) ^ m ≡ 1 + m * k * N [MOD N * N] := by
  induction m with
  | zero => simp [Nat.ModEq.refl]
  | succ m ih =>
    rw [pow_succ]
    refine (ih.mul_right _).trans ?_
    rw [show (1 + m * k * N) * (1 + k * N) = 1 + (m + 1) * k * N + N * N * (m * k * k) by ring]
    show _ % _ = _ % _
    rw [Nat.add_mul_mod_self_left]

theorem val_mod (N m : Nat) (h : 1 < N) : (1 + m * N) % (N * N) = 1 + m % N * N := by
  have h1 : 1 + m * N = 1 + m % N * N + N * N * (m / N) := by
    conv_lhs => rw [← Nat.mod_add_div m N]
    ring
  rw [h1, Nat.add_mul_mod_self_left]
  apply Nat.mod_eq_of_lt
  have h2 : m % N + 1 ≤ N := Nat.mod_lt _ (by omega)
  have h3 := Nat.mul_le_mul_right N h2
  rw [Nat.add_mul] at h3
  omega

/-- The function `L` of the scheme. -/
theorem log_val (N m : Nat) (h : 1 < N) : ((1 + m * N) % (N * N) - 1) / N = m % N := by
  rw [val_mod N m h, Nat.add_sub_cancel_left, Nat.mul_div_cancel _ (by omega)]

/-- Carmichael's theorem for a product of two primes. -/
theorem carmichael {P Q R : Nat} (hP : P.Prime) (hQ : Q.Prime) (hne : P ≠ Q) (hR : Nat.Coprime R (P * Q)) :
    R ^ Nat.lcm (P - 1) (Q - 1) ≡ 1 [MOD P * Q] := by
  have key : ∀ {p : Nat}, p.Prime → Nat.Coprime R p → p - 1 ∣ Nat.lcm (P - 1) (Q - 1) → R ^ Nat.lcm (P - 1) (Q - 1) ≡ 1 [MOD p] := by
    rintro p hp hc ⟨t, ht⟩
    rw [ht, pow_mul]
    have h1 := Nat.ModEq.pow_totient hc
    rw [Nat.totient_prime hp] at h1
    simpa using h1.pow t
  exact (Nat.modEq_and_modEq_iff_modEq_mul ((Nat.coprime_primes hP hQ).mpr hne)).mp
    ⟨key hP (Nat.Coprime.coprime_mul_right_right hR) (Nat.dvd_lcm_left _ _), key hQ (Nat.Coprime.coprime_mul_left_right hR) (Nat.dvd_lcm_right _ _)⟩

/-- A number that is one modulo `N` is of order `N` modulo its square. -/
theorem lift {N a : Nat} (h : 1 < N) (ha : a ≡ 1 [MOD N]) : a ^ N ≡ 1 [MOD N * N] := by
  have h1 : a % N = 1 := by rw [← Nat.mod_eq_of_lt h]; exact ha
  have h2 : a = 1 + a / N * N := by
    conv_lhs => rw [← Nat.mod_add_div a N, h1]
    ring
  rw [h2]
  refine (binom N _ N).trans ?_
  rw [show 1 + N * (a / N) * N = 1 + N * N * (a / N) by ring]
  show _ % _ = _ % _
  rw [Nat.add_mul_mod_self_left]

/-- What decryption computes from an encryption. -/
theorem decrypt_val {P Q L U M R C : Nat} (hP : P.Prime) (hQ : Q.Prime) (hne : P ≠ Q) (hs : Secret P Q L U)
    (hc : Encrypts (P * Q) (P * Q + 1) M R C) :
    ((C ^ L % (P * Q * (P * Q)) - 1) / (P * Q)) * U % (P * Q) = M % (P * Q) := by
  obtain ⟨h1, rfl⟩ := hc
  obtain ⟨hL, hU⟩ := hs
  have hc' := carmichael hP hQ hne h1
  rw [← hL] at hc'
  have hN : 1 < P * Q := Nat.lt_of_lt_of_le hP.one_lt (Nat.le_mul_of_pos_right _ hQ.pos)
  generalize P * Q = N at *
  have e1 : ((N + 1) ^ M * R ^ N % (N * N)) ^ L ≡ 1 + M * L * N [MOD N * N] := by
    refine ((Nat.mod_modEq _ _).pow L).trans ?_
    rw [mul_pow, ← pow_mul, ← pow_mul, Nat.mul_comm N L, pow_mul R L N]
    have a1 := binom N 1 (M * L)
    rw [Nat.one_mul, Nat.mul_one, Nat.add_comm 1 N] at a1
    simpa using a1.mul (lift hN hc')
  have e2 : ((N + 1) ^ M * R ^ N % (N * N)) ^ L % (N * N) = (1 + M * L * N) % (N * N) := e1
  rw [e2, log_val _ _ hN, Nat.mul_mod, Nat.mod_mod, ← Nat.mul_mod, Nat.mul_assoc, Nat.mul_comm L U, Nat.mul_mod, hU, Nat.mul_one, Nat.mod_mod]

theorem encrypts_coprime {N M R C : Nat} (h : Encrypts N (N + 1) M R C) : Nat.Coprime C N := by
  obtain ⟨h1, rfl⟩ := h
  have a : Nat.Coprime ((N + 1) ^ M * R ^ N) (N * N) := by
    refine Nat.Coprime.mul_left (Nat.Coprime.pow_left _ ?_) (Nat.Coprime.pow_left _ (h1.mul_right h1))
    have : Nat.Coprime (N + 1) N := by simp
    exact this.mul_right this
  have : Nat.Coprime ((N + 1) ^ M * R ^ N % (N * N)) (N * N) := by
    show Nat.gcd _ _ = 1
    rw [← Nat.gcd_rec, Nat.gcd_comm]
    exact a
  exact Nat.Coprime.coprime_mul_right_right this

/-! ### Numbers -/

theorem exp_is {a e n : Bn 32} {x E N : Nat} (ha : Is a x) (he : Is e E) (hn : Is n N) (h0 : 0 < N) :
    ∃ r, (bnModExp a e n false).join = some r ∧ Is r (x ^ E % N) := by
  obtain ⟨y, g1, g2, g3⟩ := (modExp_exact (j := 5) rfl (by decide) a e n ha.1 he.1 hn.1 false).1
    (by rw [hn.2]; omega) (by rw [he.2]; exact Int.natCast_nonneg _)
  refine ⟨y, by rw [g1]; rfl, g3, ?_⟩
  rw [g2, ha.2, he.2, hn.2, Int.toNat_natCast]; push_cast; rfl

theorem gcd_is {a n : Bn 32} {x N : Nat} (ha : Is a x) (hn : Is n N) (h0 : 0 < N) :
    (x = 0 → (bnGcd a n).join = none) ∧ (x ≠ 0 → ∃ t, (bnGcd a n).join = some t ∧ (isOne t = true ↔ Nat.Coprime x N)) := by
  obtain ⟨q1, q2⟩ := gcd_exact (j := 5) rfl a n ha.1 hn.1
  constructor
  · intro h
    rw [q2 (.inl (by rw [ha.2]; exact_mod_cast h))]
    rfl
  · intro h
    obtain ⟨t, t1, t2, t3⟩ := q1 ⟨by rw [ha.2]; exact_mod_cast h, by rw [hn.2]; omega⟩
    rw [ha.2, hn.2, Int.gcd_natCast_natCast] at t2
    have ht : Is t (Nat.gcd x N) := ⟨t3, t2⟩
    exact ⟨t, by rw [t1]; rfl, isOne_iff ht⟩

theorem quot_is {a b : Bn 32} {x y : Nat} (ha : Is a x) (hb : Is b y) (h : 0 < y) : ∃ q r, (bnDiv a b).join = some (q, r) ∧ Is q (x / y) := by
  obtain ⟨q, r, d1, d2, d3, d4, d5⟩ := bnDiv_spec (j := 5) rfl a b ha.wf hb.wf (hb.ne h)
  refine ⟨q, r, by rw [d1]; rfl, .mk' d4 ?_⟩
  rw [d2, ha.toInt, hb.toInt, Int.tdiv_eq_ediv_of_nonneg (Int.natCast_nonneg _)]
  norm_cast

theorem sqr_is {a : Bn 32} {x : Nat} (ha : Is a x) : ∃ r, bnSqr a = some r ∧ Is r (x * x) := by
  obtain ⟨r, e, h1, h2⟩ := bn_sqr (h := 32) (by decide) a ha.1
  refine ⟨r, e, h2, ?_⟩
  rw [h1, ha.2, pow_two]; norm_cast

theorem lcm_is {a b : Bn 32} {x y : Nat} (ha : Is a x) (hb : Is b y) (h1 : 0 < x) (h2 : 0 < y) :
    ∃ r, (bnLcm false a b).join = some r ∧ Is r (Nat.lcm x y) := by
  obtain ⟨u, e1, e2, e3⟩ := (gcd_exact (j := 5) rfl a b ha.1 hb.1).1 ⟨by rw [ha.2]; omega, by rw [hb.2]; omega⟩
  rw [ha.2, hb.2, Int.gcd_natCast_natCast] at e2
  have hu : Is u (Nat.gcd x y) := ⟨e3, e2⟩
  have hg : 0 < Nat.gcd x y := Nat.gcd_pos_of_pos_left _ h1
  have ho := isOne_iff hu
  unfold bnLcm
  rw [e1]
  dsimp only
  by_cases c : isOne u = true
  · rw [if_neg (by simp [c])]
    refine ⟨_, rfl, ?_⟩
    have := ho.mp c
    rw [Nat.lcm, this, Nat.div_one]
    exact Is.mul' _ ha hb
  · rw [if_pos (by simpa using c)]
    obtain ⟨q, r, d1, d2, d3, d4, d5⟩ := bnDiv_spec (j := 5) rfl a u ha.wf hu.wf (hu.ne hg)
    have hq : Is q (x / Nat.gcd x y) := by
      refine .mk' d4 ?_
      rw [d2, ha.toInt, hu.toInt, Int.tdiv_eq_ediv_of_nonneg (Int.natCast_nonneg _)]
      norm_cast
    rw [d1]
    dsimp only
    simp only [Bool.false_eq_true, if_false]
    refine ⟨_, rfl, ?_⟩
    rw [Nat.lcm, Nat.mul_comm x y, Nat.mul_div_assoc _ (Nat.gcd_dvd_left x y), Nat.mul_comm y]
    exact Is.mul' _ hq hb

theorem short_is {a : Bn 32} {x len : Nat} (ha : Is a x) (h1 : 1 ≤ len) :
    (x < 256 ^ len → ∃ bs, bn2Bin a len = some (some bs) ∧ Short bs x ∧ bs.length ≤ len) ∧ (256 ^ len ≤ x → bn2Bin a len = none) := by
  obtain ⟨g1, g2⟩ := bn2Bin_exact a ha.1 len h1
  rw [ha.2, Int.natAbs_natCast] at g1 g2
  refine ⟨fun h => ?_, g2⟩
  obtain ⟨bs, e, f1, f2, f3, f4⟩ := g1 h
  exact ⟨bs, e, ⟨f1, fun h => f3 (by exact_mod_cast h), fun h => f4 (by exact_mod_cast h)⟩, f2⟩

theorem fits_sq {N : Nat} (h : N < 2 ^ 32768) : N * N < 2 ^ 65536 := by
  have : (2 : Nat) ^ 65536 = 2 ^ 32768 * 2 ^ 32768 := by rw [← pow_add]
  rw [this]
  exact Nat.mul_lt_mul'' h h

theorem big_some {x : List UInt8} {n : Nat} (hn : n ≤ 2 ^ 29) (h : Bn.Spec.bigEndian x < 2 ^ n) : ∃ a, bin2Bn x = some a ∧ Is a (Bn.Spec.bigEndian x) := by
  obtain ⟨r, e, -⟩ := bin2Bn_exact x n hn h
  exact ⟨r, e, bin_is e⟩

theorem cipherOk_iff {c n2 : Bn 32} {C N : Nat} (hc : Is c C) (hn : Is n2 (N * N)) (h1 : 1 < N) :
    cipherOk c n2 = true ↔ C < N * N ∧ Nat.Coprime C N := by
  have h0 : 0 < N * N := Nat.mul_pos (by omega) (by omega)
  have hco : Nat.Coprime C (N * N) ↔ Nat.Coprime C N :=
    ⟨fun h => Nat.Coprime.coprime_mul_right_right h, fun h => h.mul_right h⟩
  unfold cipherOk
  simp only [(hc.cmp hn).1, neg_false hc, Bool.false_eq_true, or_false]
  by_cases c1 : N * N ≤ C
  · rw [if_pos c1]
    simp only [Bool.false_eq_true, false_iff]
    omega
  · rw [if_neg c1]
    obtain ⟨g1, g2⟩ := gcd_is hc hn h0
    by_cases c2 : C = 0
    · rw [g1 c2]
      simp only [Bool.false_eq_true, false_iff, c2, Nat.coprime_zero_left]
      omega
    · obtain ⟨t, e, i⟩ := g2 c2
      rw [e]
      dsimp only
      rw [i, hco]
      exact ⟨fun h => ⟨by omega, h⟩, fun h => h.2⟩

end Verif.Crypto.Paillier
