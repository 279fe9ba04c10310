import Verif.Crypto.Mlkem.Arith
/-! Compression and decompression. -/
namespace Verif.Crypto.Mlkem

namespace Spec
/-- FIPS 203, (4.7): `Compress_d(x) = round(2^d / q · x) mod 2^d` of the residue of `x` modulo `q = 3329`; the
rounding `round(n / m) = ⌊(2n + m) / (2m)⌋` is to nearest (ties, which do not occur, up). -/
def compress (d : Nat) (x : Int) : Int := ((2 * 2 ^ d * (x % 3329) + 3329) / (2 * 3329)) % 2 ^ d
/-- FIPS 203, (4.8): `Decompress_d(y) = round(q / 2^d · y)`. -/
def decompress (d : Nat) (y : Int) : Int := (2 * 3329 * y + 2 ^ d) / (2 * 2 ^ d)
end Spec

theorem div4 (y k : Int) (hy : 0 ≤ y ∧ y < 6658) (hk : k = (32 * y + 3329) / 6658) :
    (y * 41285360 + 4294967296) / 8589934592 = k := by omega
theorem div5 (y k : Int) (hy : 0 ≤ y ∧ y < 6658) (hk : k = (64 * y + 3329) / 6658) :
    (y * 82570720 + 4294967296) / 8589934592 = k := by omega
theorem div10 (y k : Int) (hy : 0 ≤ y ∧ y < 6658) (hk : k = (2048 * y + 3329) / 6658) :
    (y * 2642263040 + 4294967296) / 8589934592 = k := by omega
theorem div11 (y k : Int) (hy : 0 ≤ y ∧ y ≤ 3360) (hk : k = (4096 * y + 3329) / 6658) :
    (y * 5284526080 + 4294967296) / 8589934592 = k := by omega
theorem div1 (y k : Int) (hy : 0 ≤ y ∧ y < 6658) (hk : k = (4 * y + 3329) / 6658) :
    (y * 1290168 + 1073741824) / 2147483648 = k := by omega

theorem and_pow_sub_one (x : Int) (hx : 0 ≤ x) (n : Nat) :
    ((x.toNat &&& (2 ^ n - 1) : Nat) : Int) = x % 2 ^ n := by
  rw [Nat.and_two_pow_sub_one_eq_mod]
  push_cast
  rw [Int.toNat_of_nonneg hx]

/-- Reduction of the argument to `[0, 3360]`: the residue itself, or the residue plus `q`. -/
theorem adj (x : Int) (hx : -3329 ≤ x ∧ x < 6658) :
    0 ≤ x + (if x < 0 then q else 0) ∧ x + (if x < 0 then q else 0) < 6658 ∧
    (x + (if x < 0 then q else 0) = x % 3329 ∨
      (x + (if x < 0 then q else 0) = x % 3329 + 3329 ∧ x + (if x < 0 then q else 0) ≤ max x 3360)) := by
  unfold q
  split <;> omega

theorem divQ64_eq (mul n : Nat) (M : Int) (hM : M = mul) (hm : mul < 8589934592) (hn : n ≤ 12) (y x : Int)
    (hyx : y = x + (if x < 0 then q else 0)) (hy : 0 ≤ y ∧ y < 6658) :
    divQ64 mul (2 ^ n - 1) x = ((y * M + 4294967296) / 8589934592) % 2 ^ n := by
  unfold divQ64
  rw [← hyx]
  have h0 : 0 ≤ y * M ∧ y * M < 57191784214528 := by
    constructor
    · exact mul_nonneg hy.1 (by omega)
    · have h1 : y * M ≤ 6657 * M := mul_le_mul_of_nonneg_right (by omega) (by omega)
      omega
  have e1 : u64 y = y := by unfold u64; omega
  have e2 : u64 (y * M) = y * M := by unfold u64; omega
  have e3 : u64 (y * M + 2 ^ 32) = y * M + 4294967296 := by unfold u64; omega
  simp only [← hM, e1, e2, e3]
  rw [show ((2:Int)^33) = 8589934592 by decide, and_pow_sub_one _ (by omega)]
  have hp : (0:Int) < 2 ^ n ∧ (2:Int) ^ n ≤ 2 ^ 12 :=
    ⟨by positivity, pow_le_pow_right₀ (by norm_num) hn⟩
  have h2 := Int.emod_nonneg ((y * M + 4294967296) / 8589934592) (b := 2 ^ n) (by omega)
  have h3 := Int.emod_lt_of_pos ((y * M + 4294967296) / 8589934592) (b := 2 ^ n) hp.1
  rw [i16_id (by omega)]

theorem fin_core (A B y z : Int) (hAB : A = 2 * B) (h : y = z ∨ y = z + 3329) :
    (A * y + 3329) / 6658 % B = (A * z + 3329) / 6658 % B := by
  rcases h with rfl | rfl
  · rfl
  · rw [show A * (z + 3329) + 3329 = A * z + 3329 + B * 6658 by rw [hAB]; ring,
      Int.add_mul_ediv_right _ _ (by norm_num), Int.add_emod_right]

theorem compress_spec (d : Nat) (hd : d = 1 ∨ d = 4 ∨ d = 5 ∨ d = 10 ∨ d = 11) (x : Int)
    (hx : -3329 ≤ x ∧ x ≤ 3360 ∨ (d ≠ 11 ∧ -3329 ≤ x ∧ x < 6658)) :
    compress d x = some (Spec.compress d x) := by
  obtain ⟨h0, h1, h2⟩ := adj x (by omega)
  obtain ⟨y, hyx⟩ : ∃ y, y = x + (if x < 0 then q else 0) := ⟨_, rfl⟩
  rw [← hyx] at h0 h1 h2
  unfold Spec.compress
  rcases hd with rfl | rfl | rfl | rfl | rfl
  · show some (divQ1 x) = _
    have : divQ1 x = ((4 * (x % 3329) + 3329) / 6658) % 2 := by
      have e := div1 y _ ⟨h0, h1⟩ rfl
      unfold divQ1
      rw [← hyx]
      have e1 : u32 y = y := by unfold u32; omega
      have e2 : u32 (u32 (y * 1290168) + 2 ^ 30) = (y * 1290168 + 1073741824) % 4294967296 := by
        unfold u32; omega
      simp only [e1, e2]
      rw [show (1 : Nat) = 2 ^ 1 - 1 from rfl, and_pow_sub_one _ (by omega)]
      rw [show ((2:Int)^31) = 2147483648 by decide, show ((2:Int)^1) = 2 by decide]
      rw [i16_id (by omega)]
      have e3 : ∀ N : Int, N % 4294967296 / 2147483648 % 2 = N / 2147483648 % 2 := by intro N; omega
      rw [e3, e]
      clear e e1 e2 e3
      exact fin_core 4 2 _ _ rfl (h2.imp_right And.left)
    rw [this]; norm_num
  · show some (divQ64 41285360 15 x) = _
    rw [show (15 : Nat) = 2 ^ 4 - 1 by norm_num]
    rw [divQ64_eq 41285360 4 41285360 (by norm_num) (by norm_num) (by decide) y x hyx ⟨h0, h1⟩, div4 y _ ⟨h0, h1⟩ rfl]
    congr 1
    norm_num
    exact fin_core 32 16 _ _ rfl (h2.imp_right And.left)
  · show some (divQ64 82570720 31 x) = _
    rw [show (31 : Nat) = 2 ^ 5 - 1 by norm_num]
    rw [divQ64_eq 82570720 5 82570720 (by norm_num) (by norm_num) (by decide) y x hyx ⟨h0, h1⟩, div5 y _ ⟨h0, h1⟩ rfl]
    congr 1
    norm_num
    exact fin_core 64 32 _ _ rfl (h2.imp_right And.left)
  · show some (divQ64 2642263040 1023 x) = _
    rw [show (1023 : Nat) = 2 ^ 10 - 1 by norm_num]
    rw [divQ64_eq 2642263040 10 2642263040 (by norm_num) (by norm_num) (by decide) y x hyx ⟨h0, h1⟩,
      div10 y _ ⟨h0, h1⟩ rfl]
    congr 1
    norm_num
    exact fin_core 2048 1024 _ _ rfl (h2.imp_right And.left)
  · show some (divQ64 5284526080 2047 x) = _
    rw [show (2047 : Nat) = 2 ^ 11 - 1 by norm_num]
    have hy3 : y ≤ 3360 := by
      rcases h2 with h2 | ⟨_, h2⟩
      · omega
      · have : x ≤ 3360 := by omega
        omega
    rw [divQ64_eq 5284526080 11 5284526080 (by norm_num) (by norm_num) (by decide) y x hyx ⟨h0, h1⟩,
      div11 y _ ⟨h0, hy3⟩ rfl]
    congr 1
    norm_num
    exact fin_core 4096 2048 _ _ rfl (h2.imp_right And.left)

theorem u32_id {x : Int} (h : 0 ≤ x ∧ x ≤ 4294967295) : u32 x = x := by unfold u32; omega

theorem decompress_spec (d : Nat) (hd : d = 1 ∨ d = 4 ∨ d = 5 ∨ d = 10 ∨ d = 11) (y : Int)
    (hy : 0 ≤ y ∧ y < 2 ^ d) : decompress d y = Spec.decompress d y ∧
      0 ≤ decompress d y ∧ decompress d y < 3329 := by
  have key : ∀ n : Nat, n ≤ 11 → 1 ≤ n → ∀ (P : Int), P = 2 ^ n → 0 ≤ y → y < P → 
      decompress n y = i16 (u32 (y * 3329 / P + (y * 3329 % P) / 2 ^ (n - 1))) := by
    intro n hn1 hn2 P hP h0 h1
    have hP2 : P ≤ 2048 := by
      have : (2:Int)^n ≤ 2 ^ 11 := pow_le_pow_right₀ (by norm_num) hn1
      omega
    unfold decompress
    have e1 : u32 y = y := by unfold u32; omega
    have e2 : u32 (y * q) = y * 3329 := by unfold u32 q; omega
    simp only [e1, e2, Nat.one_shiftLeft]
    rw [Nat.shiftRight_eq_div_pow]
    push_cast
    rw [and_pow_sub_one _ (by omega), hP]
  rcases hd with rfl | rfl | rfl | rfl | rfl
  · rw [key 1 (by decide) (by decide) 2 (by norm_num) hy.1 (by omega)]
    have hy' : 0 ≤ y ∧ y < 2 := by norm_num at hy; exact hy
    have e : y * 3329 / 2 + (y * 3329 % 2) / 2 ^ (1 - 1) = (6658 * y + 2) / 4 := by
      norm_num
      have hd : y * 3329 % 2 / 1 = 0 ∨ y * 3329 % 2 / 1 = 1 := by omega
      rcases hd with hd | hd <;> omega
    have e2 : 0 ≤ (6658 * y + 2) / 4 ∧ (6658 * y + 2) / 4 < 3329 := by omega
    unfold Spec.decompress
    rw [e, u32_id (by omega), i16_id (by omega)]
    exact ⟨by norm_num, e2⟩
  · rw [key 4 (by decide) (by decide) 16 (by norm_num) hy.1 (by omega)]
    have hy' : 0 ≤ y ∧ y < 16 := by norm_num at hy; exact hy
    have e : y * 3329 / 16 + (y * 3329 % 16) / 2 ^ (4 - 1) = (6658 * y + 16) / 32 := by
      norm_num
      have hd : y * 3329 % 16 / 8 = 0 ∨ y * 3329 % 16 / 8 = 1 := by omega
      rcases hd with hd | hd <;> omega
    have e2 : 0 ≤ (6658 * y + 16) / 32 ∧ (6658 * y + 16) / 32 < 3329 := by omega
    unfold Spec.decompress
    rw [e, u32_id (by omega), i16_id (by omega)]
    exact ⟨by norm_num, e2⟩
  · rw [key 5 (by decide) (by decide) 32 (by norm_num) hy.1 (by omega)]
    have hy' : 0 ≤ y ∧ y < 32 := by norm_num at hy; exact hy
    have e : y * 3329 / 32 + (y * 3329 % 32) / 2 ^ (5 - 1) = (6658 * y + 32) / 64 := by
      norm_num
      have hd : y * 3329 % 32 / 16 = 0 ∨ y * 3329 % 32 / 16 = 1 := by omega
      rcases hd with hd | hd <;> omega
    have e2 : 0 ≤ (6658 * y + 32) / 64 ∧ (6658 * y + 32) / 64 < 3329 := by omega
    unfold Spec.decompress
    rw [e, u32_id (by omega), i16_id (by omega)]
    exact ⟨by norm_num, e2⟩
  · rw [key 10 (by decide) (by decide) 1024 (by norm_num) hy.1 (by omega)]
    have hy' : 0 ≤ y ∧ y < 1024 := by norm_num at hy; exact hy
    have e : y * 3329 / 1024 + (y * 3329 % 1024) / 2 ^ (10 - 1) = (6658 * y + 1024) / 2048 := by
      norm_num
      have hd : y * 3329 % 1024 / 512 = 0 ∨ y * 3329 % 1024 / 512 = 1 := by omega
      rcases hd with hd | hd <;> omega
    have e2 : 0 ≤ (6658 * y + 1024) / 2048 ∧ (6658 * y + 1024) / 2048 < 3329 := by omega
    unfold Spec.decompress
    rw [e, u32_id (by omega), i16_id (by omega)]
    exact ⟨by norm_num, e2⟩
  · rw [key 11 (by decide) (by decide) 2048 (by norm_num) hy.1 (by omega)]
    have hy' : 0 ≤ y ∧ y < 2048 := by norm_num at hy; exact hy
    have e : y * 3329 / 2048 + (y * 3329 % 2048) / 2 ^ (11 - 1) = (6658 * y + 2048) / 4096 := by
      norm_num
      have hd : y * 3329 % 2048 / 1024 = 0 ∨ y * 3329 % 2048 / 1024 = 1 := by omega
      rcases hd with hd | hd <;> omega
    have e2 : 0 ≤ (6658 * y + 2048) / 4096 ∧ (6658 * y + 2048) / 4096 < 3329 := by omega
    unfold Spec.decompress
    rw [e, u32_id (by omega), i16_id (by omega)]
    exact ⟨by norm_num, e2⟩

end Verif.Crypto.Mlkem
