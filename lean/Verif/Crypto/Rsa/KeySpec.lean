import Verif.Crypto.Rsa.KeyModel
import Verif.Crypto.Rsa.Spec

/-! Specification of the setting of RSA keys. -/
namespace Verif.Crypto.Rsa.Spec
open Verif.Crypto.Bn Verif.Crypto.Sig.Spec

/-- The value of a member that may be missing. -/
def valOf (x : Option (List UInt8)) : Nat :=
  match x with
  | none => 0
  | some x => Bn.Spec.bigEndian x

/-- What is asked of the modulus and the exponents: 512 to 16384 bits, `1 < d < n` and `e < n`. -/
def Ranges (i : PrvIn) : Prop :=
  i.n.length ≤ 2048 ∧ i.d.length ≤ i.n.length ∧ 2 ^ 511 ≤ Bn.Spec.bigEndian i.n ∧ 1 < Bn.Spec.bigEndian i.d ∧
    Bn.Spec.bigEndian i.d < Bn.Spec.bigEndian i.n ∧ valOf i.e < Bn.Spec.bigEndian i.n

/-- The key holds the given modulus and exponents, and the length of the context is that of the modulus. -/
def Holds (i : PrvIn) (k : Prv) : Prop :=
  Is k.n (Bn.Spec.bigEndian i.n) ∧ Is k.d (Bn.Spec.bigEndian i.d) ∧ Is k.e (valOf i.e) ∧ k.bits = Bn.Spec.bits (Bn.Spec.bigEndian i.n)

/-- Which members are given: none of the optional ones, the primes, or all. -/
def NoPrimes (i : PrvIn) : Prop := i.p = none ∧ i.q = none ∧ i.dP = none ∧ i.dQ = none ∧ i.qInv = none
def Primes (i : PrvIn) (p q : List UInt8) : Prop := i.p = some p ∧ i.q = some q ∧ i.dP = none ∧ i.dQ = none ∧ i.qInv = none
def Full (i : PrvIn) (p q dP dQ qInv : List UInt8) : Prop := i.p = some p ∧ i.q = some q ∧ i.dP = some dP ∧ i.dQ = some dQ ∧ i.qInv = some qInv

/-- A private key of RFC 8017, 3.2: the modulus is the product of two different odd primes and the exponents undo each other. -/
structure Rfc (i : PrvIn) (P Q : Nat) : Prop where
  primeP : P.Prime
  primeQ : Q.Prime
  oddP : P ≠ 2
  oddQ : Q ≠ 2
  ne : P ≠ Q
  modulus : Bn.Spec.bigEndian i.n = P * Q
  inv : ∃ E, Inverse P Q E (Bn.Spec.bigEndian i.d)
  pub : valOf i.e = 0 ∨ Inverse P Q (valOf i.e) (Bn.Spec.bigEndian i.d)

end Verif.Crypto.Rsa.Spec
