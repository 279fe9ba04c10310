import Verif.Crypto.Ecc.Props
import Verif.Crypto.Bn.ConvProps
import Verif.Crypto.Sig.Model

/-! Specification of the signatures: FIPS 186-5 (ECDSA), GB/T 32918.2 (SM2). Points are those of Mathlib, numbers are natural. -/
namespace Verif.Crypto.Sig.Spec
open Verif.Crypto.Bn Verif.Crypto.Ecc

/-- The object is the normalised one of the number. -/
def Is (a : Bn 32) (v : Nat) : Prop := Bn.Spec.WellFormed a ∧ Bn.Spec.int a = v

section
variable {p : Nat} [Fact p.Prime] {b : ZMod p}

/-- The first coordinate of a point, as a number below `p`; the point at infinity has none. -/
def xCoord : (Ecc.Spec.Curve b).Point → Option Nat
  | .zero => none
  | .some x _ _ => some x.val

/-- `(r, s)` is the ECDSA signature of the number `e` with the key `d` and the secret `k`. -/
def EcdsaSign (N : Nat) (G : (Ecc.Spec.Curve b).Point) (d e k r s : Nat) : Prop :=
  (∃ x, xCoord (k • G) = some x ∧ r = x % N) ∧ r ≠ 0 ∧ s ≠ 0 ∧ s < N ∧ k * s % N = (e + d * r) % N

/-- `(r, s)` is a valid ECDSA signature of `e` for the public key `Q`. -/
def EcdsaValid (N : Nat) (G Q : (Ecc.Spec.Curve b).Point) (e r s : Nat) : Prop :=
  (0 < r ∧ r < N) ∧ (0 < s ∧ s < N) ∧
  ∃ w x, s * w % N = 1 ∧ xCoord ((e * w % N) • G + (r * w % N) • Q) = some x ∧ x % N = r

/-- `(r, s)` is the SM2 signature of `e` with the key `d` and the secret `k`: `s = (k - r d) / (1 + d)`. -/
def Sm2Sign (N : Nat) (G : (Ecc.Spec.Curve b).Point) (d e k r s : Nat) : Prop :=
  (∃ x, xCoord (k • G) = some x ∧ r = (e + x) % N) ∧ r ≠ 0 ∧ r + k ≠ N ∧ s ≠ 0 ∧ s < N ∧ ((1 + d) * s + r * d) % N = k % N

/-- `(r, s)` is a valid SM2 signature of `e` for the public key `Q`. -/
def Sm2Valid (N : Nat) (G Q : (Ecc.Spec.Curve b).Point) (e r s : Nat) : Prop :=
  (0 < r ∧ r < N) ∧ (0 < s ∧ s < N) ∧ (r + s) % N ≠ 0 ∧
  ∃ x, xCoord (s • G + ((r + s) % N) • Q) = some x ∧ (e + x) % N = r

end

/-- The signature of the first of the secrets that gives one. -/
def First (sign : Nat → Nat → Nat → Prop) : List Nat → Nat → Nat → Prop
  | [], _, _ => False
  | k :: ks, r, s => sign k r s ∨ ((∀ r' s', ¬ sign k r' s') ∧ First sign ks r s)

/-- The leftmost `qlen` bits of the data as a number (`bits2int`, RFC 6979, 2.3.2). -/
def bits2int (qlen : Nat) (data : List UInt8) : Nat :=
  if qlen < 8 * data.length then Bn.Spec.bigEndian data / 2 ^ (8 * data.length - qlen) else Bn.Spec.bigEndian data

/-- The parameters are those of a group of prime order `N` with the generator `G` on the curve `y² = x³ - 3x + b` over the integers
modulo `p`, and the field routines are right. -/
structure Domain (c : Para) (p : Nat) [Fact p.Prime] (b : ZMod p) (G : (Ecc.Spec.Curve b).Point) (N : Nat) where
  I : Ecc.Spec.Impl c.S (ZMod p)
  ok : ∀ a, I.ok a ↔ ∃ x : Nat, x < p ∧ Is a x
  rep : ∀ a, I.rep a = (Bn.Spec.int a : ZMod p)
  modulus : Is c.p p
  order : Is c.n N
  gen : Ecc.Spec.Represents I c.g G
  prime : N.Prime
  big : 30 < N
  fits : N < 2 ^ 1024
  nsmul : N • G = 0
  ne : G ≠ 0

/-- What the random generator delivers: a secret below the order and a blinding number that is not zero. -/
def Drawn (p N : Nat) (dr : Draw) (k : Nat) : Prop := Is dr.k k ∧ k < N ∧ ∃ v, Is dr.blind v ∧ 0 < v ∧ v < p

end Verif.Crypto.Sig.Spec
