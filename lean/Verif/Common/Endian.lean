import Verif.Common.Bits
/-! Big- and little-endian numbers: the mathematical definitions used by specifications. -/
namespace Verif.Common

/-- Number denoted by a big-endian byte string. -/
def beVal (l : List Byte) : Nat := l.foldl (fun n b => 256 * n + b.toNat) 0

/-- The `k`-byte big-endian representation of `n` (modulo `256 ^ k`). -/
def beBytes : Nat → Nat → List Byte
  | 0, _ => []
  | k + 1, n => beBytes k (n / 256) ++ [BitVec.ofNat 8 n]

/-- Number denoted by a little-endian byte string. -/
def leVal : List Byte → Nat
  | [] => 0
  | b :: l => b.toNat + 256 * leVal l

/-- The `k`-byte little-endian representation of `n` (modulo `256 ^ k`). -/
def leBytes : Nat → Nat → List Byte
  | 0, _ => []
  | k + 1, n => BitVec.ofNat 8 n :: leBytes k (n / 256)

theorem beVal_append_singleton (l : List Byte) (b : Byte) : beVal (l ++ [b]) = 256 * beVal l + b.toNat := by
  simp [beVal, List.foldl_append]

@[simp] theorem beVal_nil : beVal [] = 0 := rfl

@[simp] theorem beBytes_length (k n : Nat) : (beBytes k n).length = k := by
  induction k generalizing n with
  | zero => rfl
  | succ k ih => simp [beBytes, ih]

@[simp] theorem leBytes_length (k n : Nat) : (leBytes k n).length = k := by
  induction k generalizing n with
  | zero => rfl
  | succ k ih => simp [leBytes, ih]

theorem beVal_beBytes (k n : Nat) : beVal (beBytes k n) = n % 256 ^ k := by
  induction k generalizing n with
  | zero => simp [beBytes, Nat.mod_one]
  | succ k ih =>
    rw [beBytes, beVal_append_singleton, ih]
    simp only [BitVec.toNat_ofNat]
    have h : (256 : Nat) ^ (k + 1) = 256 * 256 ^ k := by rw [Nat.pow_succ, Nat.mul_comm]
    rw [h, Nat.mod_mul, Nat.add_comm]

theorem leVal_leBytes (k n : Nat) : leVal (leBytes k n) = n % 256 ^ k := by
  induction k generalizing n with
  | zero => simp [leBytes, leVal, Nat.mod_one]
  | succ k ih =>
    rw [leBytes, leVal, ih]
    simp only [BitVec.toNat_ofNat]
    have h : (256 : Nat) ^ (k + 1) = 256 * 256 ^ k := by rw [Nat.pow_succ, Nat.mul_comm]
    rw [h, Nat.mod_mul]

theorem beVal_lt (l : List Byte) : beVal l < 256 ^ l.length := by
  rw [← List.reverse_reverse l]
  induction l.reverse with
  | nil => simp
  | cons b r ih =>
    rw [List.reverse_cons, beVal_append_singleton]
    have hb := b.isLt
    simp only [List.length_append, List.length_reverse, List.length_cons, List.length_nil] at ih ⊢
    rw [Nat.zero_add, Nat.pow_succ]
    have : beVal r.reverse + 1 ≤ 256 ^ r.length := ih
    omega

theorem leVal_lt (l : List Byte) : leVal l < 256 ^ l.length := by
  induction l with
  | nil => simp [leVal]
  | cons b r ih =>
    have hb := b.isLt
    simp only [leVal, List.length_cons, Nat.pow_succ]
    omega

theorem beBytes_beVal (l : List Byte) : beBytes l.length (beVal l) = l := by
  rw [← List.reverse_reverse l]
  induction l.reverse with
  | nil => simp [beBytes]
  | cons b r ih =>
    have hb := b.isLt
    rw [List.reverse_cons, beVal_append_singleton]
    have hl : (r.reverse ++ [b]).length = r.reverse.length + 1 := by simp
    rw [hl, beBytes]
    have h1 : (256 * beVal r.reverse + b.toNat) / 256 = beVal r.reverse := by omega
    have h2 : BitVec.ofNat 8 (256 * beVal r.reverse + b.toNat) = b := by
      apply BitVec.eq_of_toNat_eq
      simp only [BitVec.toNat_ofNat]; omega
    rw [h1, h2, ih]

theorem leBytes_leVal (l : List Byte) : leBytes l.length (leVal l) = l := by
  induction l with
  | nil => rfl
  | cons b r ih =>
    have hb := b.isLt
    simp only [leVal, List.length_cons, leBytes]
    have h1 : (b.toNat + 256 * leVal r) / 256 = leVal r := by omega
    have h2 : BitVec.ofNat 8 (b.toNat + 256 * leVal r) = b := by
      apply BitVec.eq_of_toNat_eq
      simp only [BitVec.toNat_ofNat]; omega
    rw [h1, h2, ih]

theorem beBytes_inj {k m n : Nat} (hm : m < 256 ^ k) (hn : n < 256 ^ k) (h : beBytes k m = beBytes k n) :
    m = n := by
  have := congrArg beVal h
  rw [beVal_beBytes, beVal_beBytes, Nat.mod_eq_of_lt hm, Nat.mod_eq_of_lt hn] at this
  exact this

theorem leBytes_inj {k m n : Nat} (hm : m < 256 ^ k) (hn : n < 256 ^ k) (h : leBytes k m = leBytes k n) :
    m = n := by
  have := congrArg leVal h
  rw [leVal_leBytes, leVal_leBytes, Nat.mod_eq_of_lt hm, Nat.mod_eq_of_lt hn] at this
  exact this

theorem beVal_inj {a b : List Byte} (hl : a.length = b.length) (h : beVal a = beVal b) : a = b := by
  rw [← beBytes_beVal a, ← beBytes_beVal b, hl, h]

theorem leVal_inj {a b : List Byte} (hl : a.length = b.length) (h : leVal a = leVal b) : a = b := by
  rw [← leBytes_leVal a, ← leBytes_leVal b, hl, h]

theorem leVal_append (a b : List Byte) : leVal (a ++ b) = leVal a + 256 ^ a.length * leVal b := by
  induction a with
  | nil => simp [leVal]
  | cons x a ih =>
    simp only [List.cons_append, leVal, ih, List.length_cons, Nat.pow_succ]
    rw [Nat.mul_add, Nat.mul_comm (256 ^ a.length) 256, Nat.mul_assoc, Nat.add_assoc]

theorem beVal_append (a b : List Byte) : beVal (a ++ b) = 256 ^ b.length * beVal a + beVal b := by
  rw [← List.reverse_reverse b]
  induction b.reverse with
  | nil => simp
  | cons x r ih =>
    rw [List.reverse_cons, ← List.append_assoc, beVal_append_singleton, beVal_append_singleton, ih]
    simp only [List.length_append, List.length_reverse, List.length_cons, List.length_nil, Nat.zero_add,
      Nat.pow_succ]
    rw [Nat.mul_add, Nat.mul_comm (256 ^ r.length) 256, Nat.mul_assoc, Nat.add_assoc]

theorem beVal_cons (x : Byte) (l : List Byte) : beVal (x :: l) = 256 ^ l.length * x.toNat + beVal l := by
  have := beVal_append [x] l
  simpa [beVal] using this

end Verif.Common
