import Verif.Crypto.Md.Sha2

/-!
# FIPS 180-4: the SHA-2 block functions
-/

namespace Verif.Crypto.Md.Spec

open Verif.Common Sha2

/-- FIPS 180-4 section 4.1.2/4.1.3: the six functions of a SHA-2 family member. -/
structure Family (n : Nat) where
  S0 : BitVec n → BitVec n
  S1 : BitVec n → BitVec n
  s0 : BitVec n → BitVec n
  s1 : BitVec n → BitVec n
  K : Nat → BitVec n
  rounds : Nat

def ch (x y z : BitVec n) : BitVec n := (x &&& y) ^^^ (~~~x &&& z)
def maj (x y z : BitVec n) : BitVec n := (x &&& y) ^^^ (x &&& z) ^^^ (y &&& z)

/-- FIPS 180-4 (4.4)-(4.7). -/
def family32 (K : Nat → BitVec 32) : Family 32 where
  S0 x := x.rotateRight 2 ^^^ x.rotateRight 13 ^^^ x.rotateRight 22
  S1 x := x.rotateRight 6 ^^^ x.rotateRight 11 ^^^ x.rotateRight 25
  s0 x := x.rotateRight 7 ^^^ x.rotateRight 18 ^^^ (x >>> 3)
  s1 x := x.rotateRight 17 ^^^ x.rotateRight 19 ^^^ (x >>> 10)
  K := K
  rounds := 64

/-- FIPS 180-4 (4.10)-(4.13). -/
def family64 (K : Nat → BitVec 64) : Family 64 where
  S0 x := x.rotateRight 28 ^^^ x.rotateRight 34 ^^^ x.rotateRight 39
  S1 x := x.rotateRight 14 ^^^ x.rotateRight 18 ^^^ x.rotateRight 41
  s0 x := x.rotateRight 1 ^^^ x.rotateRight 8 ^^^ (x >>> 7)
  s1 x := x.rotateRight 19 ^^^ x.rotateRight 61 ^^^ (x >>> 6)
  K := K
  rounds := 80

/-- Section 6.2.2 step 1: the message schedule. -/
def W (F : Family n) (M : Nat → BitVec n) (t : Nat) : BitVec n :=
  if t < 16 then M t
  else F.s1 (W F M (t - 2)) + W F M (t - 7) + F.s0 (W F M (t - 15)) + W F M (t - 16)

/-- Section 6.2.2 step 3. -/
def step (F : Family n) (s : St n) (w k : BitVec n) : St n :=
  let T1 := s.h + F.S1 s.e + ch s.e s.f s.g + k + w
  let T2 := F.S0 s.a + maj s.a s.b s.c
  ⟨T1 + T2, s.a, s.b, s.c, s.d + T1, s.e, s.f, s.g⟩

/-- The first `t` rounds. -/
def rounds (F : Family n) (M : Nat → BitVec n) (s : St n) : Nat → St n
  | 0 => s
  | t + 1 => step F (rounds F M s t) (W F M t) (F.K t)

/-- Section 6.2.2: one block `M`. -/
def block (F : Family n) (H : St n) (M : Nat → BitVec n) : St n :=
  let s := rounds F M H F.rounds
  ⟨H.a + s.a, H.b + s.b, H.c + s.c, H.d + s.d, H.e + s.e, H.f + s.f, H.g + s.g, H.h + s.h⟩

/-- Section 5.2: the block of bytes as big endian words of `k` bytes. -/
def words (k : Nat) (n : Nat) (d : List Byte) (i : Nat) : BitVec n :=
  BitVec.ofNat n (beVal ((d.drop (k * i)).take k))

/-- The primes below 410 (the first eighty). -/
def primes : List Nat :=
  (List.range 410).filter fun p => 2 ≤ p && (List.range p).all fun d => d < 2 || p % d ≠ 0

/-- `k` is the first `n` bits of the fractional part of the `e`-th root of `p`: for some integer `c`,
`c + k / 2^n ≤ p^(1/e) < c + (k + 1) / 2^n`. -/
def FracRoot (e n p k : Nat) : Prop :=
  k < 2 ^ n ∧ ∃ c, (c * 2 ^ n + k) ^ e ≤ p * 2 ^ (n * e) ∧ p * 2 ^ (n * e) < (c * 2 ^ n + k + 1) ^ e

end Verif.Crypto.Md.Spec
