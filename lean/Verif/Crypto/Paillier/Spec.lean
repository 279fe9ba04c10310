import Verif.Crypto.Paillier.Model
import Verif.Crypto.Sig.Spec
import Verif.Crypto.Bn.ConvProps

/-! Specification of the Paillier cryptosystem (Paillier 1999; ISO/IEC 18033-6). -/
namespace Verif.Crypto.Paillier.Spec
open Verif.Crypto.Bn Verif.Crypto.Sig.Spec

/-- The public key holds the modulus, the base and the square of the modulus. -/
structure PubKey (k : Pub) (N G : Nat) : Prop where
  modulus : Is k.n N
  base : Is k.g G
  square : Is k.n2 (N * N)
  big : 1 < N
  fits : N < 2 ^ 32768

/-- The private key holds the modulus, its square and the two secret numbers. -/
structure PrvKey (k : Prv) (N L U : Nat) : Prop where
  modulus : Is k.n N
  lambda : Is k.lambda L
  mu : Is k.mu U
  square : Is k.n2 (N * N)
  big : 1 < N
  fits : N < 2 ^ 32768

/-- The secret numbers of the primes `P` and `Q`: the least common multiple of `P - 1` and `Q - 1`, and its inverse. -/
def Secret (P Q L U : Nat) : Prop := L = Nat.lcm (P - 1) (Q - 1) ∧ U * L % (P * Q) = 1

/-- `C` is an encryption of `M` with the random number `R`, for the modulus `N` and the base `G`. -/
def Encrypts (N G M R C : Nat) : Prop := Nat.Coprime R N ∧ C = G ^ M * R ^ N % (N * N)

/-- The bytes of a number in big-endian order, as few as there can be, but one at least. -/
def Short (bs : List UInt8) (v : Nat) : Prop :=
  Bn.Spec.bigEndian bs = v ∧ (v ≠ 0 → Bn.Spec.IsByteLen bs.length v) ∧ (v = 0 → bs = [0])

end Verif.Crypto.Paillier.Spec
