import Verif.Crypto.Elgamal.Model
import Verif.Crypto.Paillier.Spec

/-! Specification of ElGamal encryption (ISO/IEC 18033-6), for any modulus. -/
namespace Verif.Crypto.Elgamal.Spec
open Verif.Crypto.Bn Verif.Crypto.Sig.Spec

/-- The public key holds the modulus, the base, its power and the order. -/
structure PubKey (k : Pub) (P G Y Q : Nat) : Prop where
  modulus : Is k.p P
  base : Is k.g G
  power : Is k.y Y
  order : Is k.q Q
  big : 1 < P
  order_big : 2 < Q

/-- The private key holds the modulus and the exponent. -/
structure PrvKey (k : Prv) (P X : Nat) : Prop where
  modulus : Is k.p P
  exponent : Is k.x X
  big : 1 < P
  fits : P < 2 ^ 32768

/-- `(A, B)` is an encryption of `M` with the random number `R`. -/
def Encrypts (P G Y M R A B : Nat) : Prop := A = G ^ R % P ∧ B = M * Y ^ R % P

end Verif.Crypto.Elgamal.Spec
