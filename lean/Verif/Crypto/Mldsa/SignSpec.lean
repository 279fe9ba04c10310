import Verif.Crypto.Mldsa.SignAux
/-! The commitment encoding and what a successful round of signing gives. -/
namespace Verif.Crypto.Mldsa
open Finset
open Verif.Crypto.Mlkem (Poly i32 u32 u8 upd Fits PackedBits)

/-- `w1Encode` (FIPS 204, Algorithm 28): the coefficients of the `k` polynomials as one string of bits, `d` bits each,
least significant bit first, cut into bytes. -/
def Spec.w1Bytes (d k : Nat) (w1 : Nat → Nat → Int) : List Nat :=
  (List.range (32 * d * k)).map fun n => ∑ b ∈ range 8,
    if (w1 ((8 * n + b) / (256 * d)) ((8 * n + b) / d % 256)).toNat.testBit ((8 * n + b) % d) then 2 ^ b else 0

theorem w1Bytes_congr {d k : Nat} (hd : 0 < d) {f g : Nat → Nat → Int} (h : ∀ i, i < k → ∀ x, x < 256 → f i x = g i x) :
    Spec.w1Bytes d k f = Spec.w1Bytes d k g := by
  unfold Spec.w1Bytes
  apply List.map_congr_left
  intro n hn
  rw [List.mem_range] at hn
  apply sum_congr rfl
  intro b hb
  rw [mem_range] at hb
  rw [h _ _ _ (Nat.mod_lt _ (by decide))]
  rw [Nat.div_lt_iff_lt_mul (by omega)]
  have : k * (256 * d) = 8 * (32 * d * k) := by ring
  omega

theorem byte_of_bits (v : Nat) (hv : v < 256) : v = ∑ b ∈ range 8, if v.testBit b then 2 ^ b else 0 := by
  revert v; decide +kernel

theorem packed_byte {d : Nat} {f r : Nat → Nat} (h : PackedBits d f r) (hr : ∀ i, r i < 256) (n : Nat) (hn : n < 32 * d) :
    r n = ∑ b ∈ range 8, if (f ((8 * n + b) / d)).testBit ((8 * n + b) % d) then 2 ^ b else 0 := by
  rw [byte_of_bits (r n) (hr n)]
  apply sum_congr rfl
  intro b hb
  rw [h n b hn (mem_range.1 hb)]

theorem u8_lt (x : Nat) : u8 x < 256 := by unfold u8; omega
theorem enc6_lt (t : Nat → Nat) (i : Nat) : enc6 t i < 256 := by unfold enc6; simp only; split <;> exact u8_lt _
theorem enc4_lt (t : Nat → Nat) (i : Nat) : enc4 t i < 256 := u8_lt _

theorem w1_src {d : Nat} (hd : d = 6 ∨ d = 4) (w : Poly) (hw : ∀ x, x < 256 → 0 ≤ w x ∧ w x < 2 ^ d) :
    ∃ r, byteEncode d w = some r ∧ ∀ n, n < 32 * d →
      r n = ∑ b ∈ range 8, if (w ((8 * n + b) / d)).toNat.testBit ((8 * n + b) % d) then 2 ^ b else 0 := by
  have key : ∀ (m : Nat), m < 256 → w32 (w m) = (w m).toNat := by
    intro m hm
    have := hw m hm
    have : w m < 2 ^ 32 := lt_of_lt_of_le this.2 (by rcases hd with rfl | rfl <;> norm_num)
    unfold w32 u32; norm_num at this ⊢; omega
  have fits : Fits d (fun i => w32 (w i)) := by
    intro m hm
    simp only [key m hm]
    have := hw m hm
    have e : ((2 ^ d : Nat) : Int) = 2 ^ d := by push_cast; rfl
    omega
  have fin : ∀ r : Nat → Nat, PackedBits d (fun i => w32 (w i)) r → (∀ i, r i < 256) → ∀ n, n < 32 * d →
      r n = ∑ b ∈ range 8, if (w ((8 * n + b) / d)).toNat.testBit ((8 * n + b) % d) then 2 ^ b else 0 := by
    intro r h1 h2 n hn
    rw [packed_byte h1 h2 n hn]
    apply sum_congr rfl
    intro b hb
    rw [mem_range] at hb
    rw [key]
    rcases hd with rfl | rfl <;> omega
  rcases hd with rfl | rfl
  · exact ⟨_, rfl, fin _ (enc6_packed _ fits) (enc6_lt _)⟩
  · exact ⟨_, rfl, fin _ (enc4_packed _ fits) (enc4_lt _)⟩

theorem w1Encode_eq {p : Params} (hp : p ∈ paramTable) (buf : Nat → Nat) (w1 : Nat → Poly)
    (hw : ∀ i, i < p.k → ∀ x, x < 256 → 0 ≤ w1 i x ∧ w1 i x < 2 ^ w1Bits p) :
    bytes (w1Encode p buf w1) 0 (w1Len p) = Spec.w1Bytes (w1Bits p) p.k w1 := by
  have hd : w1Bits p = 6 ∨ w1Bits p = 4 := by unfold w1Bits; split <;> simp
  have hl : w1Len p = 32 * w1Bits p * p.k := by rcases param_cases hp with rfl | rfl | rfl <;> rfl
  unfold bytes Spec.w1Bytes
  rw [hl]
  apply List.map_congr_left
  intro n hn
  rw [List.mem_range] at hn
  have h32 : 0 < 32 * w1Bits p := by rcases hd with h | h <;> omega
  have hi : n / (32 * w1Bits p) < p.k := by
    rw [Nat.div_lt_iff_lt_mul h32, Nat.mul_comm]; exact hn
  obtain ⟨r, hr, hv⟩ := w1_src hd (w1 (n / (32 * w1Bits p))) (hw _ hi)
  have := (packLoop_eq (w1Bits p) (fun i => byteEncode (w1Bits p) (w1 i)) buf 0 p.k).2.2 _ r hi hr (n % (32 * w1Bits p))
    (Nat.mod_lt _ h32)
  rw [Nat.zero_add, Nat.div_add_mod] at this
  unfold w1Encode
  rw [Nat.zero_add, this, hv _ (Nat.mod_lt _ h32)]
  apply sum_congr rfl
  intro b hb
  rw [mem_range] at hb
  have e1 : (8 * n + b) / (256 * w1Bits p) = n / (32 * w1Bits p) := by rcases hd with h | h <;> rw [h] <;> omega
  have e2 : (8 * n + b) / w1Bits p % 256 = (8 * (n % (32 * w1Bits p)) + b) / w1Bits p := by
    rcases hd with h | h <;> rw [h] <;> omega
  have e3 : (8 * n + b) % w1Bits p = (8 * (n % (32 * w1Bits p)) + b) % w1Bits p := by
    rcases hd with h | h <;> rw [h] <;> omega
  rw [e1, e2, e3]

/-- The high parts fit the encoding. -/
theorem decompose_high_range {p : Params} (hp : p ∈ paramTable) (r : Int) :
    0 ≤ (Spec.decompose p.gamma2 r).1 ∧ (Spec.decompose p.gamma2 r).1 < (Spec.q - 1) / (2 * p.gamma2) := by
  rcases param_cases hp with rfl | rfl | rfl <;>
  · simp only [mldsa44, mldsa65, mldsa87, Spec.decompose, Spec.cmod, Spec.q]
    norm_num
    split_ifs <;> simp only <;> omega

theorem m_le {p : Params} (hp : p ∈ paramTable) : (Spec.q - 1) / (2 * (p.gamma2 : Int)) ≤ 2 ^ w1Bits p ∧ 0 < (Spec.q - 1) / (2 * (p.gamma2 : Int)) := by
  rcases param_cases hp with rfl | rfl | rfl <;> decide

theorem useHint_range {p : Params} (hp : p ∈ paramTable) (h : Nat) (r : Int) :
    0 ≤ Spec.useHint p.gamma2 h r ∧ Spec.useHint p.gamma2 h r < (Spec.q - 1) / (2 * p.gamma2) := by
  have h1 := decompose_high_range hp r
  have h2 := (m_le hp).2
  unfold Spec.useHint
  simp only
  split
  · exact ⟨Int.emod_nonneg _ (by omega), Int.emod_lt_of_pos _ h2⟩
  · split
    · exact ⟨Int.emod_nonneg _ (by omega), Int.emod_lt_of_pos _ h2⟩
    · exact h1

theorem challenge_eq {p : Params} (hp : p ∈ paramTable) (P : Prims) (mu : List Nat) (buf : Nat → Nat) (w1 : Nat → Poly)
    (hw : ∀ i, i < p.k → ∀ x, x < 256 → 0 ≤ w1 i x ∧ w1 i x < (Spec.q - 1) / (2 * p.gamma2)) :
    challenge P p mu buf w1 = P.shake256 (mu ++ Spec.w1Bytes (w1Bits p) p.k w1) := by
  unfold challenge
  rw [w1Encode_eq hp buf w1 (fun i hi x hx => ⟨(hw i hi x hx).1, lt_of_lt_of_le (hw i hi x hx).2 (m_le hp).1⟩)]

/-! ## The mask -/

theorem expandMask_range {P : Prims} (hP : ∀ m n, P.shake256 m n < 256) {p : Params} (hp : p ∈ paramTable) (rho2 : Nat → Nat)
    (u i x : Nat) (hx : x < 256) : -(p.gamma1 : Int) < expandMask P p rho2 u i x ∧ expandMask P p rho2 u i x ≤ p.gamma1 := by
  have := signature_z_range hp (P.shake256 (bytes rho2 0 64 ++ [(u + i) % 2 ^ 16 % 2 ^ 8, ((u + i) % 2 ^ 16) >>> 8])) (hP _) 0 0 x hx
  have e : (sigDecode p (P.shake256 (bytes rho2 0 64 ++ [(u + i) % 2 ^ 16 % 2 ^ 8, ((u + i) % 2 ^ 16) >>> 8])) 0).1 0 = expandMask P p rho2 u i := by
    unfold sigDecode unpackAt expandMask
    simp only [Nat.mul_zero, Nat.zero_add]
    rfl
  rw [e] at this
  exact this

theorem checkAll_spec (n : Nat) (z : Nat → Poly) (t : Nat) (ht : 1 ≤ t ∧ t ≤ 2147483648)
    (hz : ∀ i, i < n → ∀ x, x < 256 → -2147483648 ≤ z i x ∧ z i x ≤ 2147483647) :
    checkAll n z t = true ↔ ∀ i, i < n → ∀ x, x < 256 → |z i x| < t := by
  unfold checkAll
  rw [List.all_eq_true]
  constructor
  · intro h i hi
    exact (norm_check (z i) t (hz i hi) ht).1 (h i (List.mem_range.2 hi))
  · intro h i hi
    rw [List.mem_range] at hi
    exact (norm_check (z i) t (hz i hi) ht).2 (h i hi)

end Verif.Crypto.Mldsa
