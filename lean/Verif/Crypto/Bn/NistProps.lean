import Verif.Crypto.Bn.NistProof
import Verif.Crypto.Bn.ApiProps
/-! C23: the fast reductions for the NIST primes and for SM2's prime, and the modular operations built on them, are exact.
Words have 64 bits. -/
namespace Verif.Crypto.Bn

namespace Spec

/-- The primes, FIPS 186-4 D.2 and GB/T 32918.5. -/
def p224 : Nat := 2 ^ 224 - 2 ^ 96 + 1
def p256 : Nat := 2 ^ 256 - 2 ^ 224 + 2 ^ 192 + 2 ^ 96 - 1
def p384 : Nat := 2 ^ 384 - 2 ^ 128 - 2 ^ 96 + 2 ^ 32 - 1
def p521 : Nat := 2 ^ 521 - 1
def sm2 : Nat := 2 ^ 256 - 2 ^ 224 - 2 ^ 96 + 2 ^ 64 - 1

/-- A residue the callers may pass: in the library's form, not negative, less than the modulus. -/
def Residue (m a : Bn 32) : Prop := WellFormed a ∧ 0 ≤ int a ∧ int a < int m

/-- The result of a modular operation: the residue of `v`, in the library's form. -/
def IsMod (r : Bn 32) (v : Int) (m : Bn 32) : Prop := int r = v % int m ∧ WellFormed r

end Spec

theorem p224_eq : Spec.p224 = 26959946667150639794667015087019630673557916260026308143510066298881 := by decide +kernel
theorem p256_eq : Spec.p256 = 115792089210356248762697446949407573530086143415290314195533631308867097853951 := by decide +kernel
theorem p384_eq : Spec.p384 = 39402006196394479212279040100143613805079739270465446667948293404245721771496870329047266088258938001861606973112319 := by decide +kernel
theorem p521_eq : Spec.p521 = 6864797660130609714981900799081393217269435300143305409394463459185543183397656052122559640661454554977296311391480858037121987999716643812574028291115057151 := by decide +kernel
theorem sm2_eq : Spec.sm2 = 115792089210356248756420345214020892766250353991924191454421193933289684991999 := by decide +kernel

/-! ### The reductions -/

/-- C23: every number of 512 bits is reduced modulo the prime of P-256. -/
theorem modP256_exact (a : List W64) (ha : a.length = 8) :
    ∃ r, modP256 a = some r ∧ r.length = 4 ∧ Spec.num r = Spec.num a % Spec.p256 := by
  obtain ⟨r, r1, r2, r3⟩ := modP256_spec a (by omega)
  rw [List.take_of_length_le (by omega)] at r3
  exact ⟨r, r1, r2, by rw [num_eq, num_eq, p256_eq, r3]⟩

/-- C23: … modulo the prime of SM2. -/
theorem modSm2_exact (a : List W64) (ha : a.length = 8) :
    ∃ r, modSm2 a = some r ∧ r.length = 4 ∧ Spec.num r = Spec.num a % Spec.sm2 := by
  obtain ⟨r, r1, r2, r3⟩ := modSm2_spec a (by omega)
  rw [List.take_of_length_le (by omega)] at r3
  exact ⟨r, r1, r2, by rw [num_eq, num_eq, sm2_eq, r3]⟩

/-- C23: every number of 768 bits is reduced modulo the prime of P-384. -/
theorem modP384_exact (a : List W64) (ha : a.length = 12) :
    ∃ r, modP384 a = some r ∧ r.length = 6 ∧ Spec.num r = Spec.num a % Spec.p384 := by
  obtain ⟨r, r1, r2, r3⟩ := modP384_spec a (by omega)
  rw [List.take_of_length_le (by omega)] at r3
  exact ⟨r, r1, r2, by rw [num_eq, num_eq, p384_eq, r3]⟩

/-- C23: every number of 448 bits is reduced modulo the prime of P-224. -/
theorem modP224_exact (a : List W64) (ha : a.length = 7) :
    ∃ r, modP224 a = some r ∧ r.length = 4 ∧ Spec.num r = Spec.num a % Spec.p224 := by
  obtain ⟨r, r1, r2, r3⟩ := modP224_spec a (by omega)
  rw [List.take_of_length_le (by omega)] at r3
  exact ⟨r, r1, r2, by rw [num_eq, num_eq, p224_eq, r3]⟩

/-- C23: every number of 17 words below the square of the prime of P-521 is reduced. -/
theorem modP521_exact (a : List W64) (ha : a.length = 17) (hlt : Spec.num a < Spec.p521 ^ 2) :
    ∃ r, modP521Red a = some r ∧ r.length = 9 ∧ Spec.num r = Spec.num a % Spec.p521 := by
  rw [num_eq, p521_eq] at hlt
  have hp : (6864797660130609714981900799081393217269435300143305409394463459185543183397656052122559640661454554977296311391480858037121987999716643812574028291115057151 : Nat) ^ 2 = 47125446914534694131579097993419809976955095716785201420286055195012674566357244479460731079205201122720511132925006540350105785156086431086764996857554304847155991333706718342307167456986269662311038377104760933477381254100896222805785374204495333936040246318307567782851014765052850751581472024524956029996236801 := by decide +kernel
  rw [hp] at hlt
  obtain ⟨r, r1, r2, r3⟩ := modP521Red_spec a (by omega) (by rw [List.take_of_length_le (by omega)]; exact hlt)
  rw [List.take_of_length_le (by omega)] at r3
  exact ⟨r, r1, r2, by rw [num_eq, num_eq, p521_eq, r3]⟩

/-- The bound cannot be dropped: from `p * (2^521 + 1)`, a number of 1042 bits, the reduction leaves `p` itself. -/
theorem modP521_needs_bound : ∃ a : List W64, a.length = 17 ∧ Spec.num a = Spec.p521 * (2 ^ 521 + 1) ∧
    ∃ r, modP521Red a = some r ∧ Spec.num r = Spec.p521 ∧ Spec.num a % Spec.p521 = 0 := by
  refine ⟨List.replicate 16 (-1) ++ [0x3ffff], by decide, by decide +kernel, ?_⟩
  refine ⟨_, rfl, by decide +kernel, by decide +kernel⟩

example : ∃ a : List W64, a.length = 8 ∧ (modP256 a).map Spec.num = some (Spec.num a % Spec.p256) ∧ Spec.p256 < Spec.num a :=
  ⟨[1, 2, 3, 4, 5, 6, 7, -1], by decide, by decide +kernel, by decide +kernel⟩
example : ∃ a : List W64, a.length = 17 ∧ Spec.num a < Spec.p521 ^ 2 ∧ Spec.p521 < Spec.num a :=
  ⟨List.replicate 16 (-1) ++ [0x1ffff], by decide, by decide +kernel, by decide +kernel⟩

/-! ### The modular operations -/

theorem val_take_of_lt {X : List W64} {k : Nat} (hk : k ≤ X.length) (hx : val X < (2 ^ (32 + 32)) ^ k) : val (X.take k) = val X := by
  have e : val X = val (X.take k) + (2 ^ (32 + 32)) ^ k * val (X.drop k) := by
    conv_lhs => rw [← List.take_append_drop k X]
    rw [val_append, List.length_take, Nat.min_eq_left hk]
  generalize (2 ^ (32 + 32)) ^ k = P at *
  rcases Nat.eq_zero_or_pos (val (X.drop k)) with h0 | h0
  · rw [h0] at e; omega
  · have := Nat.mul_le_mul_left P (show 1 ≤ val (X.drop k) from h0); omega

theorem words_len (n : Nat) (l : List W64) : (words n l).length = n := by simp [words]

theorem val_words {n : Nat} {l : List W64} (hl : l.length ≤ n) : val (words n l) = val l := by
  unfold words
  rw [List.take_append, List.take_of_length_le hl, val_append, List.take_replicate, val_replicate, Nat.mul_zero, Nat.add_zero]

theorem norm_len {l : List W64} (hn : Norm l) {n : Nat} (hv : val l < (2 ^ (32 + 32)) ^ n) : l.length ≤ n := by
  by_contra hlt
  have hne : l ≠ [] := by intro h0; rw [h0] at hlt; simp at hlt
  have h1 := norm_le hn hne
  have h2 := Nat.pow_le_pow_right (n := 2 ^ (32 + 32)) (by decide) (show n ≤ l.length - 1 by omega)
  omega

theorem wideMul_spec {room n : Nat} (hn : 0 < n) (hr : 2 * n ≤ room) {a b : List W64} (ha : a.length ≤ n) (hb : b.length ≤ n) :
    ∃ x, wideMul room n a b = some x ∧ x.length = room ∧ val x = val a * val b := by
  have hne : words n b ≠ [] := by intro h0; have := words_len n b; rw [h0] at this; simp at this; omega
  obtain ⟨m1, m2, _⟩ := mul_exact (h := 32) (by decide) (2 * n) (words n a) (words n b) hne (by rw [words_len, words_len]; omega)
  refine ⟨_, by unfold wideMul; rw [if_neg (by omega)], by simp [m1]; omega, ?_⟩
  rw [val_append, val_replicate, Nat.mul_zero, Nat.add_zero, ← num_eq, m2, num_eq, num_eq, val_words ha, val_words hb]

theorem wideSqr_spec {room n : Nat} (hn : 0 < n) (hr : 2 * n ≤ room) {a : List W64} (ha : a.length ≤ n) :
    ∃ x, wideSqr room n a = some x ∧ x.length = room ∧ val x = val a * val a := by
  have hne : words n a ≠ [] := by intro h0; have := words_len n a; rw [h0] at this; simp at this; omega
  obtain ⟨r, size, m0, m1, m2, _⟩ := binSqr_spec (h := 32) (by decide) (2 * n) (words n a) hne (by rw [words_len])
  refine ⟨_, by unfold wideSqr; rw [if_neg (by omega), m0], by simp [m1]; omega, ?_⟩
  rw [val_append, val_replicate, Nat.mul_zero, Nat.add_zero, m2, val_words ha]

/-- What a reduction must do for the modulus `p` with buffers of `room` words. -/
def RedOk (red : List W64 → Option (List W64)) (room p : Nat) : Prop :=
  ∀ x : List W64, x.length = room → val x < p ^ 2 → ∃ r, red x = some r ∧ val r = val x % p

theorem redOk_of {red : List W64 → Option (List W64)} {room p w : Nat} (hw : w ≤ room) (hp : p ^ 2 ≤ (2 ^ (32 + 32)) ^ w)
    (h : ∀ x : List W64, w ≤ x.length → val (x.take w) < p ^ 2 → ∃ r, red x = some r ∧ val r = val (x.take w) % p) : RedOk red room p := by
  intro x hx hv
  have e := val_take_of_lt (X := x) (k := w) (by omega) (by omega)
  obtain ⟨r, r1, r2⟩ := h x (by omega) (by rw [e]; exact hv)
  exact ⟨r, r1, by rw [r2, e]⟩

theorem redP224 : RedOk modP224 18 26959946667150639794667015087019630673557916260026308143510066298881 := redOk_of (w := 7) (by decide) (by decide +kernel) fun x hx _ => by
  obtain ⟨r, r1, _, r3⟩ := modP224_spec x hx; exact ⟨r, r1, r3⟩
theorem redP256 : RedOk modP256 18 115792089210356248762697446949407573530086143415290314195533631308867097853951 := redOk_of (w := 8) (by decide) (by decide +kernel) fun x hx _ => by
  obtain ⟨r, r1, _, r3⟩ := modP256_spec x hx; exact ⟨r, r1, r3⟩
theorem redP384 : RedOk modP384 18 39402006196394479212279040100143613805079739270465446667948293404245721771496870329047266088258938001861606973112319 := redOk_of (w := 12) (by decide) (by decide +kernel) fun x hx _ => by
  obtain ⟨r, r1, _, r3⟩ := modP384_spec x hx; exact ⟨r, r1, r3⟩
theorem redP521 : RedOk modP521Red 18 6864797660130609714981900799081393217269435300143305409394463459185543183397656052122559640661454554977296311391480858037121987999716643812574028291115057151 := redOk_of (w := 17) (by decide) (by decide +kernel) fun x hx hv => by
  obtain ⟨r, r1, _, r3⟩ := modP521Red_spec x hx (by
    have hp : (6864797660130609714981900799081393217269435300143305409394463459185543183397656052122559640661454554977296311391480858037121987999716643812574028291115057151 : Nat) ^ 2 = 47125446914534694131579097993419809976955095716785201420286055195012674566357244479460731079205201122720511132925006540350105785156086431086764996857554304847155991333706718342307167456986269662311038377104760933477381254100896222805785374204495333936040246318307567782851014765052850751581472024524956029996236801 := by decide +kernel
    rw [← hp]; exact hv)
  exact ⟨r, r1, r3⟩
theorem redSm2 : RedOk modSm2 8 115792089210356248756420345214020892766250353991924191454421193933289684991999 := redOk_of (w := 8) (by decide) (by decide +kernel) fun x hx _ => by
  obtain ⟨r, r1, _, r3⟩ := modSm2_spec x hx; exact ⟨r, r1, r3⟩

theorem trim_isMod {r : List W64} {m : Bn 32} {v p : Nat} (hm : Spec.int m = p) (hr : val r = v % p) :
    Spec.IsMod ⟨false, trim r⟩ (v : Int) m := by
  obtain ⟨t1, t2⟩ := trim_spec r
  refine ⟨?_, (normal_iff _).2 t2, fun h => by cases h⟩
  rw [hm, int_eq]
  simp only [Bn.toInt, t1, hr]
  push_cast
  simp

theorem residue_val {m a : Bn 32} {p : Nat} (hm : Spec.int m = p) (ha : Spec.Residue m a) : Norm a.data ∧ Spec.int a = val a.data ∧ val a.data < p := by
  obtain ⟨⟨h1, h2⟩, h3, h4⟩ := ha
  have e : Spec.int a = val a.data := by
    unfold Spec.int at h3 ⊢
    rw [num_eq] at h2 h3 ⊢
    split
    · rename_i hn; have := h2 hn; rw [if_pos hn] at h3; omega
    · rfl
  refine ⟨(normal_iff _).1 h1, e, ?_⟩
  rw [e, hm] at h4; omega

theorem mod_len {m : Bn 32} (hw : Spec.WellFormed m) {p n : Nat} (hm : Spec.int m = p) (hlo : (2 ^ (32 + 32)) ^ (n - 1) ≤ p) (hhi : p < (2 ^ (32 + 32)) ^ n)
    (hn : 0 < n) : m.data.length = n ∧ val m.data = p ∧ m.data ≠ [] ∧ Norm m.data := by
  obtain ⟨h1, h2⟩ := hw
  have hpos : 0 < p := Nat.lt_of_lt_of_le (Nat.pow_pos (by decide)) hlo
  have e : val m.data = p := by
    unfold Spec.int at hm
    rw [num_eq] at hm h2
    split at hm
    · rename_i hn; have := h2 hn; omega
    · omega
  have h3 := (normal_iff _).1 h1
  have hlen := norm_len h3 (n := n) (by omega)
  have hge := val_lt m.data
  refine ⟨?_, e, ?_, h3⟩
  · by_contra hne
    have := Nat.pow_le_pow_right (n := 2 ^ (32 + 32)) (by decide) (show m.data.length ≤ n - 1 by omega)
    omega
  · intro h0; rw [h0] at e; simp [val] at e; omega

theorem finish_mul {red : List W64 → Option (List W64)} {room p n : Nat} (hred : RedOk red room p) {m a b : Bn 32} (hm : Spec.int m = p)
    (hn : m.data.length = n) (hnpos : 0 < n) (hr : 2 * n ≤ room) (hp : p < (2 ^ (32 + 32)) ^ n) (ha : Spec.Residue m a) (hb : Spec.Residue m b) :
    ∃ r, finish (redProduct red (wideMul room m.data.length a.data b.data)) = some (.ok r) ∧ Spec.IsMod r (Spec.int a * Spec.int b) m := by
  obtain ⟨a1, a2, a3⟩ := residue_val hm ha
  obtain ⟨b1, b2, b3⟩ := residue_val hm hb
  obtain ⟨x, x1, x2, x3⟩ := wideMul_spec hnpos hr (norm_len a1 (n := n) (by omega)) (norm_len b1 (n := n) (by omega))
  obtain ⟨r, r1, r2⟩ := hred x x2 (by rw [x3, pow_two]; exact Nat.mul_lt_mul_of_lt_of_lt a3 b3)
  refine ⟨⟨false, trim r⟩, by rw [hn, x1]; simp only [redProduct]; rw [r1]; rfl, ?_⟩
  have := trim_isMod hm r2
  rw [x3] at this
  rw [a2, b2]
  push_cast at this
  exact this

theorem finish_sqr {red : List W64 → Option (List W64)} {room p n : Nat} (hred : RedOk red room p) {m a : Bn 32} (hm : Spec.int m = p)
    (hn : m.data.length = n) (hnpos : 0 < n) (hr : 2 * n ≤ room) (hp : p < (2 ^ (32 + 32)) ^ n) (ha : Spec.Residue m a) :
    ∃ r, finish (redProduct red (wideSqr room m.data.length a.data)) = some (.ok r) ∧ Spec.IsMod r (Spec.int a ^ 2) m := by
  obtain ⟨a1, a2, a3⟩ := residue_val hm ha
  obtain ⟨x, x1, x2, x3⟩ := wideSqr_spec hnpos hr (norm_len a1 (n := n) (by omega))
  obtain ⟨r, r1, r2⟩ := hred x x2 (by rw [x3, pow_two]; exact Nat.mul_lt_mul_of_lt_of_lt a3 a3)
  refine ⟨⟨false, trim r⟩, by rw [hn, x1]; simp only [redProduct]; rw [r1]; rfl, ?_⟩
  have := trim_isMod hm r2
  rw [x3] at this
  rw [a2, pow_two]
  push_cast at this
  exact this

theorem int_of_nil {a : Bn 32} (h : a.data.length = 0) : Spec.int a = 0 := by
  have : a.data = [] := List.eq_nil_of_length_eq_zero h
  unfold Spec.int; rw [this]; split <;> rfl

theorem zero_isMod (m : Bn 32) : Spec.IsMod bnZero 0 m := by
  refine ⟨?_, ?_, ?_⟩
  · simp [Spec.int, bnZero, Spec.num, Spec.number]
  · intro x hx; cases hx
  · intro h; cases h

/-- The moduli: the four primes with a reduction of their own, or any number of 192 bits. -/
def Spec.NistModulus (m : Bn 32) : Prop :=
  Spec.WellFormed m ∧ (Spec.int m = Spec.p224 ∨ Spec.int m = Spec.p256 ∨ Spec.int m = Spec.p384 ∨ Spec.int m = Spec.p521 ∨
    (2 ^ 191 ≤ Spec.int m ∧ Spec.int m < 2 ^ 192))

theorem bits_of {m : Bn 32} (hw : Spec.WellFormed m) {p k : Nat} (hm : Spec.int m = p) (h1 : 2 ^ k ≤ p) (h2 : p < 2 ^ (k + 1)) : binBits m.data = k + 1 := by
  rw [bn_bits (j := 5) rfl m hw, hm]
  unfold Spec.bits
  rw [Int.natAbs_natCast, if_neg (by have := Nat.pow_pos (n := k) (show 0 < 2 by decide); omega), (Nat.log2_eq_iff (by have := Nat.pow_pos (n := k) (show 0 < 2 by decide); omega)).2 ⟨h1, h2⟩]

/-- The dispatch. -/
theorem nist_cases {m : Bn 32} (hm : Spec.NistModulus m) :
    (∃ red p n, Spec.int m = (p : Nat) ∧ nistRed (binBits m.data) = some red ∧ RedOk red 18 p ∧ m.data.length = n ∧ 0 < n ∧ 2 * n ≤ 18 ∧ p < (2 ^ (32 + 32)) ^ n) ∨
    (nistRed (binBits m.data) = none ∧ binBits m.data = 192 ∧ Spec.int m ≠ 0) := by
  obtain ⟨hw, h | h | h | h | ⟨h1, h2⟩⟩ := hm
  · left
    rw [p224_eq] at h
    have hb := bits_of hw h (k := 223) (by decide +kernel) (by decide +kernel)
    obtain ⟨l1, _⟩ := mod_len hw h (n := 4) (by decide +kernel) (by decide +kernel) (by decide)
    exact ⟨modP224, _, 4, h, by rw [hb]; rfl, redP224, l1, by decide, by decide, by decide +kernel⟩
  · left
    rw [p256_eq] at h
    have hb := bits_of hw h (k := 255) (by decide +kernel) (by decide +kernel)
    obtain ⟨l1, _⟩ := mod_len hw h (n := 4) (by decide +kernel) (by decide +kernel) (by decide)
    exact ⟨modP256, _, 4, h, by rw [hb]; rfl, redP256, l1, by decide, by decide, by decide +kernel⟩
  · left
    rw [p384_eq] at h
    have hb := bits_of hw h (k := 383) (by decide +kernel) (by decide +kernel)
    obtain ⟨l1, _⟩ := mod_len hw h (n := 6) (by decide +kernel) (by decide +kernel) (by decide)
    exact ⟨modP384, _, 6, h, by rw [hb]; rfl, redP384, l1, by decide, by decide, by decide +kernel⟩
  · left
    rw [p521_eq] at h
    have hb := bits_of hw h (k := 520) (by decide +kernel) (by decide +kernel)
    obtain ⟨l1, _⟩ := mod_len hw h (n := 9) (by decide +kernel) (by decide +kernel) (by decide)
    exact ⟨modP521Red, _, 9, h, by rw [hb]; rfl, redP521, l1, by decide, by decide, by decide +kernel⟩
  · right
    obtain ⟨p, hp⟩ : ∃ p : Nat, Spec.int m = p := ⟨(Spec.int m).toNat, by omega⟩
    rw [hp] at h1 h2
    have hb := bits_of hw hp (k := 191) (by exact_mod_cast h1) (by exact_mod_cast h2)
    rw [hb]
    exact ⟨rfl, rfl, by omega⟩

/-- C23: the product of two residues modulo a NIST prime, or modulo any number of 192 bits. -/
theorem nistMul_exact (ra rb : Nat) (m a b : Bn 32) (hm : Spec.NistModulus m) (ha : Spec.Residue m a) (hb : Spec.Residue m b)
    (hra : m.data.length ≤ ra) (hrb : m.data.length ≤ rb) :
    ∃ r, nistEccMul ra rb m a b = some (.ok r) ∧ Spec.IsMod r (Spec.int a * Spec.int b) m := by
  unfold nistEccMul
  rw [if_neg (by omega)]
  by_cases h0 : b.data.length = 0 ∨ a.data.length = 0
  · rw [if_pos h0]
    refine ⟨bnZero, rfl, ?_⟩
    have : Spec.int a * Spec.int b = 0 := by rcases h0 with h | h <;> rw [int_of_nil h] <;> simp
    rw [this]; exact zero_isMod m
  · rw [if_neg h0]
    rcases nist_cases hm with ⟨red, p, n, c1, c2, c3, c4, c5, c6, c7⟩ | ⟨c1, c2, c3⟩
    · rw [c2]
      exact finish_mul c3 c1 c4 c5 c6 c7 ha hb
    · rw [c1]
      simp only
      rw [if_pos c2]
      obtain ⟨r, r1, r2, r3⟩ := bnModMul_spec (j := 5) rfl a b m ((wf_iff (by decide) a).1 ha.1) ((wf_iff (by decide) b).1 hb.1) ((wf_iff (by decide) m).1 hm.1)
        (by rw [← int_eq]; exact c3)
      refine ⟨r, by rw [r1]; rfl, ?_, (wf_iff (by decide) r).2 r3⟩
      rw [int_eq, r2]; simp only [int_eq]

/-- C23: the square. -/
theorem nistSqr_exact (ra : Nat) (m a : Bn 32) (hm : Spec.NistModulus m) (ha : Spec.Residue m a) (hra : m.data.length ≤ ra) :
    ∃ r, nistEccSqr ra m a = some (.ok r) ∧ Spec.IsMod r (Spec.int a ^ 2) m := by
  unfold nistEccSqr
  rw [if_neg (by omega)]
  by_cases h0 : a.data.length = 0
  · rw [if_pos h0]
    refine ⟨bnZero, rfl, ?_⟩
    rw [int_of_nil h0]; exact zero_isMod m
  · rw [if_neg h0]
    rcases nist_cases hm with ⟨red, p, n, c1, c2, c3, c4, c5, c6, c7⟩ | ⟨c1, c2, c3⟩
    · rw [c2]
      exact finish_sqr c3 c1 c4 c5 c6 c7 ha
    · rw [c1]
      simp only
      rw [if_pos c2]
      obtain ⟨r, r1, r2, r3⟩ := bnModSqr_spec (j := 5) rfl a m ((wf_iff (by decide) a).1 ha.1) ((wf_iff (by decide) m).1 hm.1)
        (by rw [← int_eq]; exact c3)
      refine ⟨r, by rw [r1]; rfl, ?_, (wf_iff (by decide) r).2 r3⟩
      rw [int_eq, r2]; simp only [int_eq, pow_two]

/-- C23: a modulus of another size is refused, unless an operand is zero. -/
theorem nistMul_refused (ra rb : Nat) (m a b : Bn 32) (hm : Spec.WellFormed m) (hra : m.data.length ≤ ra) (hrb : m.data.length ≤ rb)
    (ha : Spec.WellFormed a) (hb : Spec.WellFormed b) (ha0 : Spec.int a ≠ 0) (hb0 : Spec.int b ≠ 0)
    (hs : Spec.bits (Spec.int m).natAbs ∉ [192, 224, 256, 384, 521]) :
    nistEccMul ra rb m a b = some (.error .quickModData) := by
  rw [← bn_bits (j := 5) rfl m hm] at hs
  simp only [List.mem_cons, List.not_mem_nil, or_false, not_or] at hs
  obtain ⟨s1, s2, s3, s4, s5⟩ := hs
  unfold nistEccMul
  rw [if_neg (by omega), if_neg (by rintro (h | h); exacts [hb0 (int_of_nil h), ha0 (int_of_nil h)])]
  unfold nistRed
  rw [if_neg s2, if_neg s3, if_neg s4, if_neg s5]
  simp only
  rw [if_neg s1]

/-- C23: the product modulo SM2's prime. -/
theorem sm2Mul_exact (ra rb : Nat) (m a b : Bn 32) (hw : Spec.WellFormed m) (hm : Spec.int m = Spec.sm2) (ha : Spec.Residue m a) (hb : Spec.Residue m b)
    (hra : m.data.length ≤ ra) (hrb : m.data.length ≤ rb) :
    ∃ r, sm2EccMul ra rb m a b = some (.ok r) ∧ Spec.IsMod r (Spec.int a * Spec.int b) m := by
  unfold sm2EccMul
  rw [if_neg (by omega)]
  by_cases h0 : a.data.length = 0 ∨ b.data.length = 0
  · rw [if_pos h0]
    refine ⟨bnZero, rfl, ?_⟩
    have : Spec.int a * Spec.int b = 0 := by rcases h0 with h | h <;> rw [int_of_nil h] <;> simp
    rw [this]; exact zero_isMod m
  · rw [if_neg h0]
    rw [sm2_eq] at hm
    obtain ⟨l1, _⟩ := mod_len hw hm (n := 4) (by decide +kernel) (by decide +kernel) (by decide)
    exact finish_mul redSm2 hm l1 (by decide) (by decide) (by decide +kernel) ha hb

/-- C23: the square modulo SM2's prime. -/
theorem sm2Sqr_exact (ra : Nat) (m a : Bn 32) (hw : Spec.WellFormed m) (hm : Spec.int m = Spec.sm2) (ha : Spec.Residue m a) (hra : m.data.length ≤ ra) :
    ∃ r, sm2EccSqr ra m a = some (.ok r) ∧ Spec.IsMod r (Spec.int a ^ 2) m := by
  unfold sm2EccSqr
  rw [if_neg (by omega)]
  by_cases h0 : a.data.length = 0
  · rw [if_pos h0]
    refine ⟨bnZero, rfl, ?_⟩
    rw [int_of_nil h0]; exact zero_isMod m
  · rw [if_neg h0]
    rw [sm2_eq] at hm
    obtain ⟨l1, _⟩ := mod_len hw hm (n := 4) (by decide +kernel) (by decide +kernel) (by decide)
    exact finish_sqr redSm2 hm l1 (by decide) (by decide) (by decide +kernel) ha

/-- C23: the quick sum of two residues, modulo any positive number. -/
theorem addQuick_exact (ra rb : Nat) (m a b : Bn 32) (hw : Spec.WellFormed m) (ha : Spec.Residue m a) (hb : Spec.Residue m b)
    (hra : m.data.length ≤ ra) (hrb : m.data.length ≤ rb) :
    ∃ r, modAddQuick ra rb m a b = .ok r ∧ Spec.IsMod r (Spec.int a + Spec.int b) m := by
  obtain ⟨p, hp⟩ : ∃ p : Nat, Spec.int m = p := ⟨(Spec.int m).toNat, by have h1 := ha.2.1; have h2 := ha.2.2; omega⟩
  obtain ⟨a1, a2, a3⟩ := residue_val hp ha
  obtain ⟨b1, b2, b3⟩ := residue_val hp hb
  have hmv : val m.data = p := by
    have h1 := ha.2.1
    have h2 := ha.2.2
    unfold Spec.int at hp h1 h2
    rw [num_eq] at hp
    split at hp
    · have := hw.2 ‹_›; rw [num_eq] at this; omega
    · omega
  have hml := val_lt m.data
  rw [hmv] at hml
  generalize hn : m.data.length = n at *
  have ea := val_words (norm_len a1 (n := n) (by omega))
  have eb := val_words (norm_len b1 (n := n) (by omega))
  obtain ⟨s1, s2⟩ := binAdd_spec (h := 32) (by decide) (words n a.data) (words n b.data) 0 (by rw [words_len, words_len])
  rw [words_len] at s1 s2
  rw [ea, eb, show (0 : W64).toNat = 0 from rfl] at s1
  unfold modAddQuick
  simp only
  rw [hn, if_neg (by omega)]
  refine ⟨_, rfl, ?_⟩
  rw [a2, b2, ← Int.natCast_add]
  apply trim_isMod hp
  generalize hR : binAdd (words n a.data) (words n b.data) 0 = R at *
  have hc := cmp_ge R.1 m.data s2 hn
  rw [hmv] at hc
  have hRb := val_lt R.1
  rw [s2] at hRb
  obtain ⟨d1, d2⟩ := binSub_spec (h := 32) (by decide) R.1 m.data 0 (by rw [s2, hn])
  have hDb := val_lt (binSub R.1 m.data 0).1
  rw [d2, s2] at hDb
  rw [s2, hmv, show (0 : W64).toNat = 0 from rfl] at d1
  generalize (2 ^ (32 + 32)) ^ n = P at *
  have hcar : R.2 > 0 ↔ 0 < R.2.toNat := by rw [gt_iff_lt, BitVec.lt_def]; rfl
  by_cases hcond : R.2 > 0 ∨ binCmp R.1 m.data ≥ 0
  · rw [if_pos hcond]
    rw [hcar, hc] at hcond
    have hge : p ≤ val a.data + val b.data := by
      rcases hcond with h | h
      · have := Nat.mul_le_mul_left P (show 1 ≤ R.2.toNat from h); omega
      · have := Nat.zero_le (P * R.2.toNat); omega
    rw [Nat.mod_eq_sub_mod hge, Nat.mod_eq_of_lt (by omega)]
    have hq : R.2.toNat = 0 ∨ R.2.toNat = 1 ∨ 2 ≤ R.2.toNat := by omega
    have hq' : (binSub R.1 m.data 0).2.toNat = 0 ∨ (binSub R.1 m.data 0).2.toNat = 1 ∨ 2 ≤ (binSub R.1 m.data 0).2.toNat := by omega
    rcases hq with q | q | q
    · rw [q] at s1
      rcases hq' with q' | q' | q'
      · rw [q'] at d1; omega
      · rw [q'] at d1; omega
      · have := Nat.mul_le_mul_left P q'; omega
    · rw [q] at s1
      rcases hq' with q' | q' | q'
      · rw [q'] at d1; omega
      · rw [q'] at d1; omega
      · have := Nat.mul_le_mul_left P q'; omega
    · have := Nat.mul_le_mul_left P q; omega
  · rw [if_neg hcond]
    rw [hcar, hc] at hcond
    have : R.2.toNat = 0 := by omega
    rw [this] at s1
    rw [Nat.mod_eq_of_lt (by omega)]
    omega

/-- C23: the quick difference. -/
theorem subQuick_exact (ra rb : Nat) (m a b : Bn 32) (hw : Spec.WellFormed m) (ha : Spec.Residue m a) (hb : Spec.Residue m b)
    (hra : m.data.length ≤ ra) (hrb : m.data.length ≤ rb) :
    ∃ r, modSubQuick ra rb m a b = .ok r ∧ Spec.IsMod r (Spec.int a - Spec.int b) m := by
  obtain ⟨p, hp⟩ : ∃ p : Nat, Spec.int m = p := ⟨(Spec.int m).toNat, by have h1 := ha.2.1; have h2 := ha.2.2; omega⟩
  obtain ⟨a1, a2, a3⟩ := residue_val hp ha
  obtain ⟨b1, b2, b3⟩ := residue_val hp hb
  have hmv : val m.data = p := by
    have h1 := ha.2.1
    have h2 := ha.2.2
    unfold Spec.int at hp h1 h2
    rw [num_eq] at hp
    split at hp
    · have := hw.2 ‹_›; rw [num_eq] at this; omega
    · omega
  have hml := val_lt m.data
  rw [hmv] at hml
  generalize hn : m.data.length = n at *
  have ea := val_words (norm_len a1 (n := n) (by omega))
  have eb := val_words (norm_len b1 (n := n) (by omega))
  obtain ⟨s1, s2⟩ := binSub_spec (h := 32) (by decide) (words n a.data) (words n b.data) 0 (by rw [words_len, words_len])
  rw [words_len] at s1 s2
  rw [ea, eb, show (0 : W64).toNat = 0 from rfl] at s1
  obtain ⟨c1, c2, c3⟩ := binCmp_spec (h := 32) (by decide) a.data b.data a1 b1
  unfold modSubQuick
  simp only
  rw [hn, if_neg (by omega)]
  refine ⟨_, rfl, ?_⟩
  generalize hR : binSub (words n a.data) (words n b.data) 0 = R at *
  have hRb := val_lt R.1
  rw [s2] at hRb
  obtain ⟨d1, d2⟩ := binAdd_spec (h := 32) (by decide) R.1 m.data 0 (by rw [s2, hn])
  have hDb := val_lt (binAdd R.1 m.data 0).1
  rw [d2, s2] at hDb
  rw [s2, hmv, show (0 : W64).toNat = 0 from rfl] at d1
  generalize (2 ^ (32 + 32)) ^ n = P at *
  have hq : R.2.toNat = 0 ∨ R.2.toNat = 1 ∨ 2 ≤ R.2.toNat := by omega
  rw [a2, b2]
  by_cases hlt : val a.data < val b.data
  · rw [if_pos (by rw [c1 hlt]; decide)]
    have hmain : val (binAdd R.1 m.data 0).1 = (val a.data + p - val b.data) % p := by
      rw [Nat.mod_eq_of_lt (by omega)]
      have hq' : (binAdd R.1 m.data 0).2.toNat = 0 ∨ (binAdd R.1 m.data 0).2.toNat = 1 ∨ 2 ≤ (binAdd R.1 m.data 0).2.toNat := by omega
      rcases hq with q | q | q
      · rw [q] at s1; omega
      · rw [q] at s1
        rcases hq' with q' | q' | q'
        · rw [q'] at d1; omega
        · rw [q'] at d1; omega
        · have := Nat.mul_le_mul_left P q'; omega
      · have := Nat.mul_le_mul_left P q; omega
    have := trim_isMod hp hmain
    refine ⟨?_, this.2⟩
    rw [this.1, hp, show ((val a.data + p - val b.data : Nat) : Int) = ((val a.data : Int) - val b.data) + p by omega, Int.add_emod_right]
  · rw [if_neg (by
      rcases Nat.lt_trichotomy (val a.data) (val b.data) with h | h | h
      · omega
      · rw [c2 h]; decide
      · rw [c3 h]; decide)]
    have hmain : val R.1 = (val a.data - val b.data) % p := by
      rw [Nat.mod_eq_of_lt (by omega)]
      rcases hq with q | q | q
      · rw [q] at s1; omega
      · rw [q] at s1; omega
      · have := Nat.mul_le_mul_left P q; omega
    have := trim_isMod hp hmain
    refine ⟨?_, this.2⟩
    rw [this.1, show ((val a.data - val b.data : Nat) : Int) = (val a.data : Int) - val b.data by omega]

/-! ### The hypotheses are met -/

/-- The prime of P-256 and two residues: `-1` and `-1`, whose product is `1`. -/
def exP256 : Bn 32 := ⟨false, [0xffffffffffffffff, 0x00000000ffffffff, 0, 0xffffffff00000001]⟩
def exMinus : Bn 32 := ⟨false, [0xfffffffffffffffe, 0x00000000ffffffff, 0, 0xffffffff00000001]⟩
def exSm2 : Bn 32 := ⟨false, [0xffffffffffffffff, 0xffffffff00000000, 0xffffffffffffffff, 0xfffffffeffffffff]⟩
def exMinusSm2 : Bn 32 := ⟨false, [0xfffffffffffffffe, 0xffffffff00000000, 0xffffffffffffffff, 0xfffffffeffffffff]⟩

theorem exP256_modulus : Spec.NistModulus exP256 :=
  ⟨⟨fun x h => by rw [show exP256.data.getLast? = some 0xffffffff00000001 from rfl] at h; cases h; decide, fun h => by cases h⟩, Or.inr (Or.inl (by decide +kernel))⟩

theorem exMinus_residue : Spec.Residue exP256 exMinus :=
  ⟨⟨fun x h => by rw [show exMinus.data.getLast? = some 0xffffffff00000001 from rfl] at h; cases h; decide, fun h => by cases h⟩, by decide +kernel, by decide +kernel⟩

example : ∃ r, nistEccMul 4 4 exP256 exMinus exMinus = some (.ok r) ∧ r.data = [1] := ⟨⟨false, [1]⟩, by decide +kernel, rfl⟩
example : ∃ r, modAddQuick 4 4 exP256 exMinus exMinus = .ok r ∧ Spec.int r = Spec.p256 - 2 :=
  ⟨_, rfl, by decide +kernel⟩
example : Spec.WellFormed exSm2 ∧ Spec.int exSm2 = Spec.sm2 ∧ Spec.Residue exSm2 exMinusSm2 :=
  ⟨⟨fun x h => by rw [show exSm2.data.getLast? = some 0xfffffffeffffffff from rfl] at h; cases h; decide, fun h => by cases h⟩, by decide +kernel,
    ⟨fun x h => by rw [show exMinusSm2.data.getLast? = some 0xfffffffeffffffff from rfl] at h; cases h; decide, fun h => by cases h⟩, by decide +kernel, by decide +kernel⟩
example : ∃ r, sm2EccMul 4 4 exSm2 exMinusSm2 exMinusSm2 = some (.ok r) ∧ r.data = [1] := ⟨⟨false, [1]⟩, by decide +kernel, rfl⟩
/-- A modulus of 128 bits is refused. -/
example : nistEccMul 4 4 ⟨false, [5, 0xf000000000000000]⟩ exMinus exMinus = some (.error .quickModData) := by decide +kernel

end Verif.Crypto.Bn
