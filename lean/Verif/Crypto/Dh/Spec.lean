import Verif.Crypto.Dh.Model
import Verif.Crypto.Sig.Spec
import Verif.Crypto.Bn.ConvProps
import Mathlib.Data.Nat.ModEq

/-! Specification of the finite-field Diffie-Hellman key exchange (NIST SP 800-56A, 5.6 and 5.7.1.1). -/
namespace Verif.Crypto.Dh.Spec
open Verif.Crypto.Bn Verif.Crypto.Sig.Spec

/-- Numbers that are taken as parameters: the modulus, the generator and, if there is one, the order of the subgroup. -/
def Good (P G : Nat) (Q : Option Nat) : Prop :=
  (2 ^ 767 ≤ P ∧ P < 2 ^ 8192) ∧ P % 2 = 1 ∧ (1 < G ∧ G < P - 1) ∧
  ∀ n, Q = some n → 2 ^ 159 ≤ n ∧ n % 2 = 1 ∧ n < P - 1 ∧ n ∣ P - 1

/-- The parameters hold these numbers, and they are good ones. -/
structure Domain (a : Para) (P G : Nat) (Q : Option Nat) : Prop where
  modulus : Is a.p P
  gen : Is a.g G
  order : (a.q = none ∧ Q = none) ∨ ∃ q n, a.q = some q ∧ Q = some n ∧ Is q n
  good : Good P G Q

/-- The greatest private key: one less than the order of the subgroup or, when it is not known, than that of the group. -/
def maxPrv (P : Nat) : Option Nat → Nat
  | some n => n - 1
  | none => P - 2

/-- A public key that is taken: not one of the trivial elements and, unless all elements are known to do, of the subgroup. -/
def Valid (a : Para) (P : Nat) (Q : Option Nat) (Y : Nat) : Prop :=
  (1 < Y ∧ Y < P - 1) ∧ ∀ n, Q = some n → a.safe = false → Y ^ n % P = 1

/-- The security strength of parameters by the lengths of the modulus and of the order (NIST SP 800-57, 5.6.1.1); zero below 80 bits. -/
def strength (P n : Nat) : Nat :=
  let b := Bn.Spec.bits P
  let s := if b ≤ 1023 then 0 else if b ≤ 2047 then 80 else if b ≤ 3071 then 112 else if b ≤ 7679 then 128 else 192
  if min s (Bn.Spec.bits n / 2) < 80 then 0 else min s (Bn.Spec.bits n / 2)

/-- The private keys that are taken when they are generated. With a strength they are those below the order and below `2 ^ (2 * strength)`;
without one they are those that have a public key which is not trivial. -/
def Wanted (P G : Nat) (Q : Option Nat) (X : Nat) : Prop :=
  match Q with
  | some n => if strength P n ≠ 0 then X < 2 ^ (2 * strength P n) ∧ X < n else 1 < G ^ X % P ∧ G ^ X % P < P - 1
  | none => 1 < G ^ X % P ∧ G ^ X % P < P - 1

/-- The first of the candidates that is wanted. -/
def FirstOf (W : Nat → Prop) : List Nat → Nat → Prop
  | [], _ => False
  | X :: Xs, r => (W X ∧ r = X) ∨ (¬ W X ∧ FirstOf W Xs r)

/-- The bytes of a number in big-endian order, with leading zeros up to the length. -/
def Encodes (bs : List UInt8) (len v : Nat) : Prop := bs.length = len ∧ Bn.Spec.bigEndian bs = v

end Verif.Crypto.Dh.Spec
