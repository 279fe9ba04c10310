import Verif.Crypto.Mlkem.CodecModel
import Mathlib.Tactic.IntervalCases
import Mathlib.Tactic.Ring
/-! Sampling: rejection sampling of the matrix entries and the centred binomial distribution. -/
namespace Verif.Crypto.Mlkem

namespace Spec
/-- The candidates that FIPS 203, Algorithm 7, reads from a byte string: two 12-bit numbers per three bytes. -/
def candidates : List Nat → List Nat
  | b0 :: b1 :: b2 :: rest => (b0 + 256 * (b1 % 16)) :: (b1 / 16 + 16 * b2) :: candidates rest
  | _ => []
/-- The coefficients sampled from a byte string: the candidates below `q`, in order. -/
def accepted (bs : List Nat) : List Nat := (candidates bs).filter (· < 3329)
/-- Bit `n` of a byte array, least significant bit first. -/
def bit (buf : Nat → Nat) (n : Nat) : Int := (buf (n / 8) / 2 ^ (n % 8) % 2 : Nat)
/-- FIPS 203, Algorithm 8, for `eta = 2` and `eta = 3`: coefficient `x`. -/
def cbd2 (buf : Nat → Nat) (x : Nat) : Int :=
  (bit buf (4 * x) + bit buf (4 * x + 1)) - (bit buf (4 * x + 2) + bit buf (4 * x + 3))
/-- See `cbd2`. -/
def cbd3 (buf : Nat → Nat) (x : Nat) : Int :=
  (bit buf (6 * x) + bit buf (6 * x + 1) + bit buf (6 * x + 2)) -
    (bit buf (6 * x + 3) + bit buf (6 * x + 4) + bit buf (6 * x + 5))
end Spec
open Spec

/-- What `Parse` keeps: the accepted candidates so far. -/
def Acc (l : List Nat) (s : Poly × Nat) : Prop :=
  s.2 = min 256 l.length ∧ ∀ x (h : x < l.length), x < 256 → s.1 x = (l[x] : Nat)

theorem acc_full {l : List Nat} {s : Poly × Nat} (h : Acc l s) (hs : ¬ s.2 < 256) (l' : List Nat) : Acc (l ++ l') s := by
  obtain ⟨h1, h2⟩ := h
  refine ⟨by rw [List.length_append]; omega, fun x hx hx2 => ?_⟩
  have hl : x < l.length := by omega
  rw [List.getElem_append_left hl]
  exact h2 x hl hx2

theorem parseOne_acc {l : List Nat} {a : Poly} {cur : Nat} (h : Acc l (a, cur)) (hc : cur < 256) (d : Nat) (hd : d < 4096) :
    Acc (l ++ [d].filter (· < 3329)) (parseOne a cur d) := by
  obtain ⟨h1, h2⟩ := h
  simp only at h1 h2
  have hcl : cur = l.length := by omega
  unfold parseOne
  by_cases hq : d < 3329
  · have hm : (u32 ((q - 1 - (d : Int)) / 2 ^ 31)).toNat = 0 := by
      unfold u32 q; norm_num; omega
    have hand : d &&& (0xFFFFFFFF - 0) = d := by
      rw [show (0xFFFFFFFF - 0 : Nat) = 2 ^ 32 - 1 by norm_num, Nat.and_two_pow_sub_one_eq_mod]
      exact Nat.mod_eq_of_lt (by omega)
    simp only [hm, hand]
    rw [show [d].filter (· < 3329) = [d] by simp [hq]]
    refine ⟨by simp only [List.length_append, List.length_singleton]; omega, fun x hx hx2 => ?_⟩
    simp only [upd]
    by_cases hx3 : x = cur
    · subst hx3
      rw [if_pos rfl]
      simp [hcl]
    · rw [if_neg hx3]
      rw [List.length_append, List.length_singleton] at hx
      rw [List.getElem_append_left (by omega)]
      exact h2 x (by omega) hx2
  · have hm : (u32 ((q - 1 - (d : Int)) / 2 ^ 31)).toNat = 4294967295 := by
      unfold u32 q; norm_num; omega
    simp only [hm]
    rw [show [d].filter (· < 3329) = [] by simp; omega, List.append_nil]
    refine ⟨by simp only; omega, fun x hx hx2 => ?_⟩
    simp only [upd]
    rw [if_neg (by omega)]
    exact h2 x hx hx2

theorem cand_bits (b0 b1 b2 : Nat) (h1 : b1 < 256) (h2 : b2 < 256) :
    b0 + (b1 &&& 0x0f) <<< 8 = b0 + 256 * (b1 % 16) ∧ b1 >>> 4 + b2 <<< 4 = b1 / 16 + 16 * b2 := by
  constructor
  · rw [show (0x0f : Nat) = 2 ^ 4 - 1 by norm_num, Nat.and_two_pow_sub_one_eq_mod, Nat.shiftLeft_eq]
    norm_num
    omega
  · rw [Nat.shiftRight_eq_div_pow, Nat.shiftLeft_eq]
    norm_num
    omega

theorem parseRound_acc {l : List Nat} {a : Poly} {cur : Nat} (h : Acc l (a, cur)) (hc : cur < 256) (b0 b1 b2 : Nat)
    (h0 : b0 < 256) (h1 : b1 < 256) (h2 : b2 < 256) :
    Acc (l ++ [b0 + 256 * (b1 % 16), b1 / 16 + 16 * b2].filter (· < 3329)) (parseRound a cur b0 b1 b2) := by
  obtain ⟨e1, e2⟩ := cand_bits b0 b1 b2 h1 h2
  unfold parseRound
  simp only [e1, e2]
  have s1 := parseOne_acc h hc (b0 + 256 * (b1 % 16)) (by omega)
  rw [show [b0 + 256 * (b1 % 16), b1 / 16 + 16 * b2].filter (· < 3329) =
    [b0 + 256 * (b1 % 16)].filter (· < 3329) ++ [b1 / 16 + 16 * b2].filter (· < 3329) by
      rw [← List.filter_append]; rfl, ← List.append_assoc]
  generalize parseOne a cur (b0 + 256 * (b1 % 16)) = p at s1 ⊢
  obtain ⟨a', cur'⟩ := p
  simp only
  split
  · next hc' => exact parseOne_acc s1 hc' _ (by omega)
  · next hc' => exact acc_full s1 hc' _

theorem parse_acc (l : List Nat) (s : Poly × Nat) (h : Acc l s) (bs : List Nat) (hb : ∀ b ∈ bs, b < 256) :
    Acc (l ++ accepted bs) (parse s bs) := by
  induction s, bs using parse.induct generalizing l with
  | case1 s b0 b1 b2 rest hc ih =>
    unfold parse
    rw [if_pos hc]
    have hb' : ∀ b ∈ rest, b < 256 := fun b hm => hb b (by simp [hm])
    have := parseRound_acc (a := s.1) (cur := s.2) h hc b0 b1 b2 (hb b0 (by simp)) (hb b1 (by simp)) (hb b2 (by simp))
    have := ih _ this hb'
    rw [List.append_assoc] at this
    have e : accepted (b0 :: b1 :: b2 :: rest) =
        [b0 + 256 * (b1 % 16), b1 / 16 + 16 * b2].filter (· < 3329) ++ accepted rest := by
      unfold accepted
      rw [← List.filter_append]
      rfl
    rw [e]
    exact this
  | case2 s b0 b1 b2 rest hc =>
    unfold parse
    rw [if_neg hc]
    exact acc_full h hc _
  | case3 bs s hne =>
    have e : accepted bs = [] ∧ parse s bs = s := by
      match bs, hne with
      | [], _ => exact ⟨rfl, rfl⟩
      | [x], _ => exact ⟨rfl, rfl⟩
      | [x, y], _ => exact ⟨rfl, rfl⟩
      | x :: y :: z :: w, h => exact absurd rfl (h x y z w)
    rw [e.1, e.2, List.append_nil]
    exact h

theorem sample_acc (l : List Nat) (s : Poly × Nat) (h : Acc l s) (blks : List (List Nat))
    (hb : ∀ blk ∈ blks, ∀ b ∈ blk, b < 256) :
    (∀ p, sampleNtt s blks = some p → ∃ c, Acc (l ++ (blks.map accepted).flatten) (p, c) ∧ c = 256) ∧
    (sampleNtt s blks = none → (l ++ (blks.map accepted).flatten).length < 256) := by
  induction blks generalizing l s with
  | nil =>
    simp only [sampleNtt, List.map_nil, List.flatten_nil, List.append_nil]
    have := h.1
    split
    · next hc => exact ⟨fun p hp => by simp at hp, fun _ => by omega⟩
    · next hc =>
      refine ⟨fun p hp => ?_, fun hn => by simp at hn⟩
      simp only [Option.some.injEq] at hp
      subst hp
      exact ⟨s.2, h, by omega⟩
  | cons blk rest ih =>
    simp only [sampleNtt, List.map_cons, List.flatten_cons]
    split
    · next hc =>
      have := ih _ _ (parse_acc l s h blk (hb blk (by simp))) (fun b hm => hb b (by simp [hm]))
      rwa [List.append_assoc] at this
    · next hc =>
      refine ⟨fun p hp => ?_, fun hn => by simp at hn⟩
      simp only [Option.some.injEq] at hp
      subst hp
      have h1 := h.1
      exact ⟨s.2, acc_full h hc _, by omega⟩

theorem candidates_append (a b : List Nat) (h : a.length % 3 = 0) : candidates (a ++ b) = candidates a ++ candidates b := by
  induction a using candidates.induct with
  | case1 b0 b1 b2 rest ih =>
    simp only [List.length_cons] at h
    simp only [List.cons_append, candidates]
    rw [ih (by omega)]
  | case2 l hne =>
    match l with
    | [] => rfl
    | [x] => simp at h
    | [x, y] => simp at h
    | x :: y :: z :: w => exact absurd rfl (hne x y z w)

theorem accepted_flatten (blks : List (List Nat)) (h : ∀ b ∈ blks, b.length % 3 = 0) :
    (blks.map accepted).flatten = accepted blks.flatten := by
  induction blks with
  | nil => rfl
  | cons b rest ih =>
    rw [List.map_cons, List.flatten_cons, List.flatten_cons, ih (fun x hx => h x (by simp [hx]))]
    unfold accepted
    rw [candidates_append _ _ (h b (by simp)), List.filter_append]

/-! ## Centred binomial -/

theorem mask_step (a r m : Nat) (hr : r < 8) : (8 * a + r) &&& (8 * m + 1) = 8 * (a &&& m) + r % 2 := by
  have h1 : ((8 * a + r) &&& (8 * m + 1)) / 2 ^ 3 = a &&& m := by
    rw [Nat.and_div_two_pow]
    congr 1 <;> omega
  have h2 : ((8 * a + r) &&& (8 * m + 1)) % 2 ^ 3 = r % 2 := by
    rw [Nat.and_mod_two_pow, show (8 * a + r) % 2 ^ 3 = r by omega, show (8 * m + 1) % 2 ^ 3 = 2 ^ 1 - 1 by omega,
      Nat.and_two_pow_sub_one_eq_mod]
  omega

theorem mask_step4 (a r m : Nat) (hr : r < 4) : (4 * a + r) &&& (4 * m + 1) = 4 * (a &&& m) + r % 2 := by
  have h1 : ((4 * a + r) &&& (4 * m + 1)) / 2 ^ 2 = a &&& m := by
    rw [Nat.and_div_two_pow]
    congr 1 <;> omega
  have h2 : ((4 * a + r) &&& (4 * m + 1)) % 2 ^ 2 = r % 2 := by
    rw [Nat.and_mod_two_pow, show (4 * a + r) % 2 ^ 2 = r by omega, show (4 * m + 1) % 2 ^ 2 = 2 ^ 1 - 1 by omega,
      Nat.and_two_pow_sub_one_eq_mod]
  omega

/-- The mask with the lowest bit of each of `n` groups of three. -/
def m8 : Nat → Nat
  | 0 => 0
  | n + 1 => 8 * m8 n + 1
/-- The mask with the lowest bit of each of `n` groups of two. -/
def m4 : Nat → Nat
  | 0 => 0
  | n + 1 => 4 * m4 n + 1

theorem m8_step (x n : Nat) : x &&& m8 (n + 1) = 8 * (x / 8 &&& m8 n) + x % 2 := by
  have := mask_step (x / 8) (x % 8) (m8 n) (by omega)
  rw [Nat.div_add_mod] at this
  rw [m8, this]
  omega

theorem m4_step (x n : Nat) : x &&& m4 (n + 1) = 4 * (x / 4 &&& m4 n) + x % 2 := by
  have := mask_step4 (x / 4) (x % 4) (m4 n) (by omega)
  rw [Nat.div_add_mod] at this
  rw [m4, this]
  omega

theorem sum3_step (x n : Nat) : (x &&& m8 (n + 1)) + (x / 2 &&& m8 (n + 1)) + (x / 4 &&& m8 (n + 1)) =
    8 * ((x / 8 &&& m8 n) + (x / 8 / 2 &&& m8 n) + (x / 8 / 4 &&& m8 n)) + (x % 2 + x / 2 % 2 + x / 4 % 2) := by
  rw [m8_step, m8_step, m8_step, show x / 2 / 8 = x / 8 / 2 by omega, show x / 4 / 8 = x / 8 / 4 by omega]
  omega

theorem sum3 (g : Nat) : ∀ (n x : Nat), g < n →
    ((x &&& m8 n) + (x / 2 &&& m8 n) + (x / 4 &&& m8 n)) / 8 ^ g % 4 =
      x / 8 ^ g % 2 + x / 8 ^ g / 2 % 2 + x / 8 ^ g / 4 % 2 := by
  induction g with
  | zero =>
    intro n x hn
    obtain ⟨n, rfl⟩ : ∃ k, n = k + 1 := ⟨n - 1, by omega⟩
    rw [sum3_step, Nat.pow_zero, Nat.div_one, Nat.div_one]
    omega
  | succ g ih =>
    intro n x hn
    obtain ⟨n, rfl⟩ : ∃ k, n = k + 1 := ⟨n - 1, by omega⟩
    rw [sum3_step, show 8 ^ (g + 1) = 8 * 8 ^ g by rw [Nat.pow_succ, Nat.mul_comm], ← Nat.div_div_eq_div_mul,
      ← Nat.div_div_eq_div_mul x, ← ih n (x / 8) (by omega)]
    congr 2
    omega

theorem sum2_step (x n : Nat) : (x &&& m4 (n + 1)) + (x / 2 &&& m4 (n + 1)) =
    4 * ((x / 4 &&& m4 n) + (x / 4 / 2 &&& m4 n)) + (x % 2 + x / 2 % 2) := by
  rw [m4_step, m4_step, show x / 2 / 4 = x / 4 / 2 by omega]
  omega

theorem sum2 (g : Nat) : ∀ (n x : Nat), g < n →
    ((x &&& m4 n) + (x / 2 &&& m4 n)) / 4 ^ g % 4 = x / 4 ^ g % 2 + x / 4 ^ g / 2 % 2 := by
  induction g with
  | zero =>
    intro n x hn
    obtain ⟨n, rfl⟩ : ∃ k, n = k + 1 := ⟨n - 1, by omega⟩
    rw [sum2_step, Nat.pow_zero, Nat.div_one, Nat.div_one]
    omega
  | succ g ih =>
    intro n x hn
    obtain ⟨n, rfl⟩ : ∃ k, n = k + 1 := ⟨n - 1, by omega⟩
    rw [sum2_step, show 4 ^ (g + 1) = 4 * 4 ^ g by rw [Nat.pow_succ, Nat.mul_comm], ← Nat.div_div_eq_div_mul,
      ← Nat.div_div_eq_div_mul x, ← ih n (x / 4) (by omega)]
    congr 2
    omega

theorem and3 (x : Nat) : x &&& 3 = x % 4 := Nat.and_two_pow_sub_one_eq_mod x 2

theorem pack2 (a b : Nat) (ha : a < 256) : a ||| b <<< 8 = a + 256 * b := by
  rw [Nat.or_comm, ← Nat.shiftLeft_add_eq_or_of_lt (show a < 2 ^ 8 by omega), Nat.shiftLeft_eq]
  omega

theorem pack3 (a b c : Nat) (ha : a < 256) (hb : b < 256) :
    a ||| b <<< 8 ||| c <<< 16 = a + 256 * b + 65536 * c := by
  rw [pack2 a b ha, Nat.or_comm, ← Nat.shiftLeft_add_eq_or_of_lt (show a + 256 * b < 2 ^ 16 by omega), Nat.shiftLeft_eq]
  omega

/-- The bits of a little-endian word. -/
theorem bit2 (b0 b1 : Nat) (h0 : b0 < 256) (k : Nat) :
    (b0 + 256 * b1) / 2 ^ k % 2 = if k < 8 then b0 / 2 ^ k % 2 else b1 / 2 ^ (k - 8) % 2 := by
  split
  · next h =>
    have : b1 * 256 = b1 * 2 ^ (7 - k) * 2 * 2 ^ k := by
      rw [Nat.mul_assoc, Nat.mul_assoc, show 2 * 2 ^ k = 2 ^ (k + 1) by rw [Nat.pow_succ, Nat.mul_comm], ← Nat.pow_add,
        show 7 - k + (k + 1) = 8 by omega]
    rw [Nat.mul_comm 256, this, Nat.add_mul_div_right _ _ (Nat.two_pow_pos k)]
    omega
  · next h =>
    obtain ⟨j, rfl⟩ : ∃ j, k = 8 + j := ⟨k - 8, by omega⟩
    rw [Nat.pow_add, ← Nat.div_div_eq_div_mul, show (b0 + 256 * b1) / 2 ^ 8 = b1 by omega, Nat.add_sub_cancel_left]

theorem bit3 (b0 b1 b2 : Nat) (h0 : b0 < 256) (h1 : b1 < 256) (k : Nat) :
    (b0 + 256 * b1 + 65536 * b2) / 2 ^ k % 2 =
      if k < 8 then b0 / 2 ^ k % 2 else if k < 16 then b1 / 2 ^ (k - 8) % 2 else b2 / 2 ^ (k - 16) % 2 := by
  rw [show b0 + 256 * b1 + 65536 * b2 = b0 + 256 * (b1 + 256 * b2) by ring, bit2 _ _ h0]
  split
  · rfl
  · next h =>
    rw [bit2 _ _ h1]
    by_cases h2 : k < 16
    · rw [if_pos h2, if_pos (by omega)]
    · rw [if_neg h2, if_neg (by omega), show k - 8 - 8 = k - 16 by omega]

theorem bit_lo (buf : Nat → Nat) (i k : Nat) (hk : k < 16) (h : ∀ n, buf n < 256) :
    Spec.bit buf (16 * i + k) = ((buf (2 * i) + 256 * buf (2 * i + 1)) / 2 ^ k % 2 : Nat) := by
  unfold Spec.bit
  rw [bit2 _ _ (h _)]
  by_cases h8 : k < 8
  · rw [if_pos h8, show (16 * i + k) / 8 = 2 * i by omega, show (16 * i + k) % 8 = k by omega]
  · rw [if_neg h8, show (16 * i + k) / 8 = 2 * i + 1 by omega, show (16 * i + k) % 8 = k - 8 by omega]

theorem bit_hi (buf : Nat → Nat) (i k : Nat) (hk : k < 24) (h : ∀ n, buf n < 256) :
    Spec.bit buf (24 * i + k) =
      ((buf (3 * i) + 256 * buf (3 * i + 1) + 65536 * buf (3 * i + 2)) / 2 ^ k % 2 : Nat) := by
  unfold Spec.bit
  rw [bit3 _ _ _ (h _) (h _)]
  by_cases h8 : k < 8
  · rw [if_pos h8, show (24 * i + k) / 8 = 3 * i by omega, show (24 * i + k) % 8 = k by omega]
  · rw [if_neg h8]
    by_cases h16 : k < 16
    · rw [if_pos h16, show (24 * i + k) / 8 = 3 * i + 1 by omega, show (24 * i + k) % 8 = k - 8 by omega]
    · rw [if_neg h16, show (24 * i + k) / 8 = 3 * i + 2 by omega, show (24 * i + k) % 8 = k - 16 by omega]

theorem pow8 (g : Nat) : 2 ^ (3 * g) = 8 ^ g := by rw [Nat.pow_mul]
theorem pow4 (g : Nat) : 2 ^ (2 * g) = 4 ^ g := by rw [Nat.pow_mul]

theorem cbd_two (buf : Nat → Nat) (h : ∀ n, buf n < 256) (x : Nat) : cbd 2 buf x = some (Spec.cbd2 buf x) := by
  obtain ⟨i, j, rfl, hj⟩ : ∃ i j, x = 4 * i + j ∧ j < 4 := ⟨x / 4, x % 4, by omega⟩
  unfold cbd Spec.cbd2
  simp only
  rw [show (4 * i + j) / 4 = i by omega, show (4 * i + j) % 4 = j by omega, pack2 _ _ (h _)]
  rw [show 4 * (4 * i + j) = 16 * i + 4 * j by ring, Nat.add_assoc, Nat.add_assoc, Nat.add_assoc]
  rw [bit_lo buf i (4 * j) (by omega) h, bit_lo buf i (4 * j + 1) (by omega) h, bit_lo buf i (4 * j + 2) (by omega) h,
    bit_lo buf i (4 * j + 3) (by omega) h]
  generalize buf (2 * i) + 256 * buf (2 * i + 1) = w
  rw [show (0x5555 : Nat) = m4 8 by decide, and3, and3, Nat.shiftRight_eq_div_pow, Nat.shiftRight_eq_div_pow,
    Nat.shiftRight_eq_div_pow]
  rw [show 4 * j = 2 * (2 * j) by ring, show 2 * (2 * j) + 2 = 2 * (2 * j + 1) by ring, pow4, pow4, Nat.pow_one,
    sum2 _ _ _ (by omega), sum2 _ _ _ (by omega)]
  rw [Nat.div_div_eq_div_mul, Nat.div_div_eq_div_mul, ← pow4, ← pow4, ← Nat.pow_succ, ← Nat.pow_succ]
  rw [show 2 * (2 * j) + 3 = (2 * (2 * j + 1)).succ by omega]
  push_cast
  rfl

theorem cbd_three (buf : Nat → Nat) (h : ∀ n, buf n < 256) (x : Nat) : cbd 3 buf x = some (Spec.cbd3 buf x) := by
  obtain ⟨i, j, rfl, hj⟩ : ∃ i j, x = 4 * i + j ∧ j < 4 := ⟨x / 4, x % 4, by omega⟩
  unfold cbd Spec.cbd3
  simp only
  rw [show (4 * i + j) / 4 = i by omega, show (4 * i + j) % 4 = j by omega, pack3 _ _ _ (h _) (h _)]
  rw [show 6 * (4 * i + j) = 24 * i + 6 * j by ring]
  simp only [Nat.add_assoc (24 * i)]
  rw [bit_hi buf i (6 * j) (by omega) h, bit_hi buf i (6 * j + 1) (by omega) h, bit_hi buf i (6 * j + 2) (by omega) h,
    bit_hi buf i (6 * j + 3) (by omega) h, bit_hi buf i (6 * j + 4) (by omega) h, bit_hi buf i (6 * j + 5) (by omega) h]
  generalize buf (3 * i) + 256 * buf (3 * i + 1) + 65536 * buf (3 * i + 2) = w
  rw [show (0x00249249 : Nat) = m8 8 by decide, and3, and3]
  simp only [Nat.shiftRight_eq_div_pow, Nat.pow_one, show 2 ^ 2 = 4 by decide]
  rw [show 6 * j = 3 * (2 * j) by ring, show 3 * (2 * j) + 3 = 3 * (2 * j + 1) by ring, pow8, pow8,
    sum3 _ _ _ (by omega), sum3 _ _ _ (by omega)]
  simp only [Nat.div_div_eq_div_mul]
  rw [show 8 ^ (2 * j) * 2 = 2 ^ (3 * (2 * j) + 1) by rw [← pow8, Nat.pow_succ],
    show 8 ^ (2 * j) * 4 = 2 ^ (3 * (2 * j) + 2) by rw [← pow8, Nat.pow_add],
    show 8 ^ (2 * j + 1) * 2 = 2 ^ (3 * (2 * j) + 4) by
      rw [← pow8, ← Nat.pow_succ]; congr 1,
    show 8 ^ (2 * j + 1) * 4 = 2 ^ (3 * (2 * j) + 5) by
      rw [← pow8, show 4 = 2 ^ 2 by decide, ← Nat.pow_add]; congr 1]
  push_cast
  rfl

theorem bit_range (buf : Nat → Nat) (n : Nat) : 0 ≤ Spec.bit buf n ∧ Spec.bit buf n ≤ 1 := by
  unfold Spec.bit
  omega

theorem cbd_range (eta : Nat) (he : eta = 2 ∨ eta = 3) (buf : Nat → Nat) (h : ∀ n, buf n < 256) (x : Nat) :
    ∃ v, cbd eta buf x = some v ∧ -3 ≤ v ∧ v ≤ 3 := by
  rcases he with rfl | rfl
  · refine ⟨_, cbd_two buf h x, ?_⟩
    unfold Spec.cbd2
    have := bit_range buf (4 * x); have := bit_range buf (4 * x + 1)
    have := bit_range buf (4 * x + 2); have := bit_range buf (4 * x + 3)
    omega
  · refine ⟨_, cbd_three buf h x, ?_⟩
    unfold Spec.cbd3
    have := bit_range buf (6 * x); have := bit_range buf (6 * x + 1); have := bit_range buf (6 * x + 2)
    have := bit_range buf (6 * x + 3); have := bit_range buf (6 * x + 4); have := bit_range buf (6 * x + 5)
    omega

end Verif.Crypto.Mlkem
