import Verif.Crypto.Mlkem.Model
import Mathlib.Data.ZMod.Basic
import Mathlib.Tactic.Ring
import Mathlib.RingTheory.Coprime.Lemmas
import Mathlib.Tactic.Linarith
/-! The modular reductions, compression and decompression. -/
namespace Verif.Crypto.Mlkem

theorem i16_id {x : Int} (h : -32768 ≤ x ∧ x ≤ 32767) : i16 x = x := by unfold i16; omega
theorem i32_id {x : Int} (h : -2147483648 ≤ x ∧ x ≤ 2147483647) : i32 x = x := by unfold i32; omega

/-- Barrett: no wrap happens; the result is the argument minus a multiple of `q`, in a window of width `q` around
`- 894 a / 2^27`. -/
theorem barrett_spec (a : Int) (h : -2147000000 ≤ a ∧ a ≤ 2147000000) :
    ∃ T, barrett a = a - 3329 * T ∧
      -223405408256 ≤ 134217728 * barrett a + 894 * a ∧ 134217728 * barrett a + 894 * a ≤ 223405408256 := by
  obtain ⟨T, hT⟩ : ∃ T : Int, T = (40318 * a + 67108864) / 134217728 := ⟨_, rfl⟩
  have h1 : 134217728 * T ≤ 40318 * a + 67108864 ∧ 40318 * a + 67108864 < 134217728 * T + 134217728 := by omega
  have hr : barrett a = a - 3329 * T := by
    unfold barrett q
    simp only [show ((2:Int)^26) = 67108864 by decide,
      show ((2:Int)^27) = 134217728 by decide, show ((134217728:Int) + 3329/2)/3329 = 40318 by decide]
    rw [← hT]
    rw [i32_id (x := T) (by omega), i32_id (x := T * 3329) (by omega), i32_id (by omega), i16_id (by omega)]
    omega
  refine ⟨T, hr, ?_, ?_⟩ <;> omega

theorem barrett_dvd (a : Int) (h : -2147000000 ≤ a ∧ a ≤ 2147000000) : 3329 ∣ (a - barrett a) := by
  obtain ⟨T, h1, _⟩ := barrett_spec a h
  exact ⟨T, by omega⟩

theorem barrett_range_small (a : Int) (h : -75000 ≤ a ∧ a ≤ 75000) : -1664 ≤ barrett a ∧ barrett a ≤ 1664 := by
  obtain ⟨T, h1, h2, h3⟩ := barrett_spec a (by omega)
  omega

/-- What it means for a table entry to be the Plantard form of `z`. -/
def PlantardForm (zeta z : Int) : Prop := (zeta * 3329) % 4294967296 = (-(z * 4294967296)) % 3329

instance (zeta z : Int) : Decidable (PlantardForm zeta z) := by unfold PlantardForm; infer_instance

theorem u32_mul (x y : Int) : u32 (u32 x * u32 y) = u32 (x * y) := by
  unfold u32; rw [← Int.mul_emod]

theorem prod_bound (a c : Int) (ha : -32768 ≤ a ∧ a ≤ 32767) (hc : 0 ≤ c ∧ c < 3329) :
    -109051904 ≤ a * c ∧ a * c ≤ 109051904 := by
  constructor
  · have := mul_le_mul_of_nonneg_right ha.1 hc.1; omega
  · have := mul_le_mul_of_nonneg_right ha.2 hc.1; omega

theorem dvd_core (d e : Int) (h : 4294967296 * d = 3329 * e) : 3329 ∣ d := by
  have h1 : (3329 : Int) ∣ 4294967296 * d := ⟨e, h⟩
  have h2 : IsCoprime (3329 : Int) 4294967296 := by
    rw [Int.isCoprime_iff_gcd_eq_one]; decide
  exact h2.dvd_of_dvd_mul_left h1

theorem plantard_core (p m y : Int) (hp : -2147483648 ≤ p ∧ p < 2147483648)
    (hy : -109051904 ≤ y ∧ y ≤ 109051904) (hm : p * 3329 = y + 4294967296 * m) :
    i16 (i32 ((p / 65536 + 8) * 3329) / 65536) = m := by
  obtain ⟨t, ht⟩ : ∃ t, t = p / 65536 := ⟨_, rfl⟩
  have h1 : 65536 * t ≤ p ∧ p < 65536 * t + 65536 := by omega
  rw [← ht]
  rw [i32_id (x := (t + 8) * 3329) (by omega)]
  have h2 : (t + 8) * 3329 / 65536 = m := by omega
  rw [h2, i16_id (by omega)]

theorem plantard_range (p m y : Int) (hp : -2147483648 ≤ p ∧ p < 2147483648)
    (hy : -109051904 ≤ y ∧ y ≤ 109051904) (hm : p * 3329 = y + 4294967296 * m) : -1664 ≤ m ∧ m ≤ 1664 := by
  omega

theorem signed_product (y : Int) :
    ∃ n, y = i32 (u32 y) + 4294967296 * n ∧ -2147483648 ≤ i32 (u32 y) ∧ i32 (u32 y) < 2147483648 := by
  refine ⟨(y + 2147483648) / 4294967296, ?_⟩
  unfold i32 u32
  omega

/-- Plantard multiplication by a table constant, for every 16-bit argument. -/
theorem plantard_spec (a zeta z : Int) (ha : -32768 ≤ a ∧ a ≤ 32767) (hz : PlantardForm zeta z) :
    3329 ∣ (plantard (u32 (u32 a * u32 zeta)) - a * z) ∧
    -1664 ≤ plantard (u32 (u32 a * u32 zeta)) ∧ plantard (u32 (u32 a * u32 zeta)) ≤ 1664 := by
  rw [u32_mul]
  unfold PlantardForm at hz
  -- c = zeta q mod 2^32, in [0, q)
  obtain ⟨c, hc⟩ : ∃ c, c = (zeta * 3329) % 4294967296 := ⟨_, rfl⟩
  have hc0 : 0 ≤ c ∧ c < 3329 := by rw [hc, hz]; omega
  obtain ⟨w, hw⟩ : ∃ w, zeta * 3329 = c + 4294967296 * w := ⟨zeta * 3329 / 4294967296, by
    rw [hc]; exact (Int.emod_add_mul_ediv _ _).symm⟩
  obtain ⟨m1, hm1⟩ : ∃ m1, -(z * 4294967296) = c + 3329 * m1 := ⟨(-(z * 4294967296)) / 3329, by
    rw [hc, hz]; exact (Int.emod_add_mul_ediv _ _).symm⟩
  -- p = the signed product
  obtain ⟨p, hp⟩ : ∃ p, p = i32 (u32 (a * zeta)) := ⟨_, rfl⟩
  obtain ⟨n, hn⟩ := signed_product (a * zeta)
  rw [← hp] at hn
  have hy : -109051904 ≤ a * c ∧ a * c ≤ 109051904 := prod_bound a c ha hc0
  -- p q = a c + 2^32 m
  obtain ⟨m, hm⟩ : ∃ m, p * 3329 = a * c + 4294967296 * m := by
    refine ⟨a * w - 3329 * n, ?_⟩
    have h1 : a * zeta * 3329 = a * c + 4294967296 * (a * w) := by
      rw [Int.mul_assoc, hw]; ring
    have h2 : a * zeta * 3329 = p * 3329 + 4294967296 * (3329 * n) := by rw [hn.1]; ring
    linarith
  have hr : plantard (u32 (a * zeta)) = m := by
    unfold plantard q
    rw [← hp]
    simp only [show ((2:Int)^16) = 65536 by decide, show ((2:Int)^3) = 8 by decide]
    exact plantard_core p m (a * c) hn.2 hy hm
  rw [hr]
  have h3 : 4294967296 * (m - a * z) = 3329 * (p + a * m1) := by
    have : a * (-(z * 4294967296)) = a * (c + 3329 * m1) := by rw [hm1]
    linarith
  exact ⟨dvd_core _ _ h3, plantard_range p m (a * c) hn.2 hy hm⟩

theorem and_mask (x n : Nat) : x &&& (2 ^ n - 1) = x % 2 ^ n := Nat.and_two_pow_sub_one_eq_mod x n

end Verif.Crypto.Mlkem
