import Verif.Crypto.Modes.Cipher

/-! Specification of CMAC (NIST SP 800-38B, RFC 4493) and of CBC-MAC with zero padding (ISO/IEC 9797-1, algorithm 1, padding 1). -/
namespace Verif.Crypto.Cmac.Spec
open Verif.Common Verif.Crypto.Modes

/-- The blocks of a message: all but the last are full, the last one has 1 to `n` bytes, and only the empty message has an empty last block. -/
structure Split (n : Nat) (m : List Byte) (bs : List (List Byte)) (last : List Byte) : Prop where
  full : ∀ b ∈ bs, b.length = n
  whole : m = bs.flatten ++ last
  short : last.length ≤ n
  empty : last = [] → bs = []

/-- The chaining value after the blocks. -/
def cbcChain (E : List Byte → List Byte) (n : Nat) (bs : List (List Byte)) : List Byte :=
  bs.foldl (fun d b => E (xorB b d)) (List.replicate n 0)

/-- Multiplication by x in the field of 2^(8n) elements, SP 800-38B 6.1. -/
def double (n x : Nat) : Nat :=
  if x < 2 ^ (8 * n - 1) then 2 * x else (2 * x % 2 ^ (8 * n)) ^^^ (if n = 16 then 0x87 else 0x1B)

/-- `k1` and `k2` are the two subkeys. -/
structure Subkeys (E : List Byte → List Byte) (n : Nat) (k1 k2 : List Byte) : Prop where
  len1 : k1.length = n
  len2 : k2.length = n
  first : beVal k1 = double n (beVal (E (List.replicate n 0)))
  second : beVal k2 = double n (beVal k1)

/-- `t` is the CMAC of `m`. -/
def IsCmac (E : List Byte → List Byte) (n : Nat) (m t : List Byte) : Prop :=
  ∃ bs last k1 k2, Split n m bs last ∧ Subkeys E n k1 k2 ∧
    t = E (xorB (if last.length = n then xorB last k1 else xorB (last ++ 0x80 :: List.replicate (n - last.length - 1) 0) k2) (cbcChain E n bs))

/-- `t` is the CBC-MAC of `m`. -/
def IsCbcMac (E : List Byte → List Byte) (n : Nat) (m t : List Byte) : Prop :=
  ∃ bs last, Split n m bs last ∧ t = E (xorB (last ++ List.replicate (n - last.length) 0) (cbcChain E n bs))

end Verif.Crypto.Cmac.Spec
