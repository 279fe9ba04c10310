import Mathlib.NumberTheory.LucasPrimality
import Mathlib.NumberTheory.LucasLehmer
import Mathlib.Tactic.NormNum.Prime
import Verif.Crypto.Bn.NistProps

/-! Primality of the moduli of P-224 and P-521. -/
namespace Verif.Crypto.Ecc

def powMod (m b : Nat) : Nat → Nat → Nat
  | 0, _ => 1 % m
  | n + 1, e =>
    if e = 0 then 1 % m
    else
      let h := powMod m b n (e / 2)
      if e % 2 = 1 then h * h % m * b % m else h * h % m

theorem powMod_eq (m b n e : Nat) (h : e < 2 ^ n) : powMod m b n e = b ^ e % m := by
  induction n generalizing e with
  | zero =>
    have : e = 0 := by simpa using h
    subst this; simp [powMod]
  | succ n ih =>
    unfold powMod
    by_cases he : e = 0
    · subst he; simp
    · rw [if_neg he, ih (e / 2) (by rw [pow_succ] at h; omega)]
      dsimp only
      have hsq : b ^ (e / 2) % m * (b ^ (e / 2) % m) % m = b ^ (e / 2 + e / 2) % m := by
        rw [← Nat.mul_mod, ← pow_add]
      by_cases ho : e % 2 = 1
      · rw [if_pos ho, hsq, Nat.mod_mul_mod, ← pow_succ]
        congr 2; omega
      · rw [if_neg ho, hsq]
        congr 2; omega

/-- A number is prime if a residue has the order `p - 1`; `fs` are the prime factors of `p - 1`. -/
theorem prime_of_cert (n p a : Nat) (fs : List Nat) (hp : 1 < p) (hn : p < 2 ^ n) (hprod : fs.prod = p - 1) (hfs : ∀ q ∈ fs, q.Prime)
    (h1 : powMod p a n (p - 1) = 1) (h2 : ∀ q ∈ fs, powMod p a n ((p - 1) / q) ≠ 1) : p.Prime := by
  refine lucas_primality p (a : ZMod p) ?_ ?_
  · rw [powMod_eq _ _ _ _ (by omega)] at h1
    have : ((a ^ (p - 1) : Nat) : ZMod p) = ((1 : Nat) : ZMod p) := by
      rw [ZMod.natCast_eq_natCast_iff', h1, Nat.mod_eq_of_lt hp]
    push_cast at this
    exact this
  · intro q hq hd he
    rw [← hprod] at hd
    obtain ⟨f, hf, hqf⟩ := (Prime.dvd_prod_iff hq.prime).mp hd
    have : q = f := (Nat.prime_dvd_prime_iff_eq hq (hfs f hf)).mp hqf
    subst this
    apply h2 q hf
    rw [powMod_eq _ _ _ _ (lt_of_le_of_lt (Nat.div_le_self _ _) (by omega))]
    have h3 : ((a ^ ((p - 1) / q) : Nat) : ZMod p) = ((1 : Nat) : ZMod p) := by push_cast; exact he
    rw [ZMod.natCast_eq_natCast_iff', Nat.mod_eq_of_lt hp] at h3
    exact h3

theorem prime_f6 : Nat.Prime 67280421310721 :=
  prime_of_cert 46 67280421310721 3 [2, 2, 2, 2, 2, 2, 2, 2, 5, 47, 373, 2998279] (by norm_num) (by norm_num) (by norm_num)
    (by
      intro q hq
      simp only [List.mem_cons, List.not_mem_nil, or_false] at hq
      rcases hq with rfl | rfl | rfl | rfl | rfl | rfl | rfl | rfl | rfl | rfl | rfl | rfl <;> norm_num)
    (by decide +kernel) (by decide +kernel)

/-- The modulus of P-224 is prime. -/
theorem p224_prime : Nat.Prime 26959946667150639794667015087019630673557916260026308143510066298881 :=
  prime_of_cert 224 _ 22 (List.replicate 96 2 ++ [3, 5, 17, 257, 641, 65537, 274177, 6700417, 67280421310721])
    (by norm_num) (by norm_num) (by decide +kernel)
    (by
      intro q hq
      rw [List.mem_append] at hq
      rcases hq with hq | hq
      · rw [(List.mem_replicate.mp hq).2]; exact Nat.prime_two
      · simp only [List.mem_cons, List.not_mem_nil, or_false] at hq
        rcases hq with rfl | rfl | rfl | rfl | rfl | rfl | rfl | rfl | rfl
        · norm_num
        · norm_num
        · norm_num
        · norm_num
        · norm_num
        · norm_num
        · norm_num
        · norm_num
        · exact prime_f6)
    (by decide +kernel) (by decide +kernel)

/-- The modulus of P-521 is prime. -/
theorem p521_prime : Nat.Prime (2 ^ 521 - 1) := lucas_lehmer_sufficiency 521 (by norm_num) (by norm_num)

end Verif.Crypto.Ecc
