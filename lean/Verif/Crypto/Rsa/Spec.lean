import Verif.Crypto.Rsa.Model
import Verif.Crypto.Sig.Spec
import Mathlib.Data.Nat.Prime.Basic
import Mathlib.Data.Nat.ModEq

/-! Specification of the RSA primitives (RFC 8017, 3 and 5.1). -/
namespace Verif.Crypto.Rsa.Spec
open Verif.Crypto.Bn Verif.Crypto.Sig.Spec

/-- A public key with the odd modulus `N` and the exponent `E`; the length of the context is enough for the modulus. -/
structure PubKey (k : Pub) (N E : Nat) : Prop where
  modulus : Is k.n N
  odd : N % 2 = 1
  exponent : Is k.e E
  fits : N < 2 ^ k.bits
  len : k.bits ≤ 16384

/-- `E` and `D` are exponents that undo each other modulo the product of the primes `P` and `Q`. -/
def Inverse (P Q E D : Nat) : Prop := E * D ≡ 1 [MOD Nat.lcm (P - 1) (Q - 1)]

/-- A private key for the product of the two odd primes `P` and `Q` with the exponent `D`; the public exponent may be missing. -/
structure PrvKey (k : Prv) (P Q D : Nat) : Prop where
  primeP : P.Prime
  primeQ : Q.Prime
  oddP : P ≠ 2
  oddQ : Q ≠ 2
  ne : P ≠ Q
  modulus : Is k.n (P * Q)
  exponent : Is k.d D
  fits : P * Q < 2 ^ k.bits
  len : k.bits ≤ 16384
  inv : ∃ E, Inverse P Q E D
  pub : ∃ E, Is k.e E ∧ (E = 0 ∨ Inverse P Q E D)

/-- The key has the numbers of the Chinese remainder theorem (RFC 8017, 3.2). -/
structure Crt (k : Prv) (P Q D : Nat) : Prop where
  p : Is k.p P
  q : Is k.q Q
  dP : ∃ x, Is k.dP x ∧ x ≡ D [MOD P - 1]
  dQ : ∃ x, Is k.dQ x ∧ x ≡ D [MOD Q - 1]
  qInv : ∃ x, Is k.qInv x ∧ x < P ∧ x * Q ≡ 1 [MOD P]

/-- The key has no primes. -/
def NoCrt (k : Prv) : Prop := Is k.p 0 ∧ Is k.q 0

/-- The key has a public exponent or the primes to compute it. -/
def HasExp (k : Prv) : Prop := ¬ Is k.e 0 ∨ ¬ NoCrt k

/-- The random generator delivers numbers. -/
def Drawn (ops : List (Env × List UInt8)) : Prop := ∀ op ∈ ops, ∀ r, op.1.rand = some r → ∃ u, Is r u

end Verif.Crypto.Rsa.Spec
