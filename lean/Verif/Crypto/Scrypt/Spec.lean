import Verif.Common.Bits
import Verif.Common.Endian
import Mathlib.Logic.Function.Iterate

/-! scrypt as RFC 7914 defines it, on byte strings. -/
namespace Verif.Crypto.Scrypt.Spec
open Verif.Common

/-- The quarter-round of Salsa20 on the words number `a`, `b`, `c`, `d`: `z1 = y1 ^ ((y0 + y3) <<< 7)`, `z2 = y2 ^ ((z1 + y0) <<< 9)`,
`z3 = y3 ^ ((z2 + z1) <<< 13)`, `z0 = y0 ^ ((z3 + z2) <<< 18)`. -/
def quarter (a b c d : Fin 16) (x : Fin 16 → BitVec 32) : Fin 16 → BitVec 32 :=
  let z1 := x b ^^^ (x a + x d).rotateLeft 7
  let z2 := x c ^^^ (z1 + x a).rotateLeft 9
  let z3 := x d ^^^ (z2 + z1).rotateLeft 13
  let z0 := x a ^^^ (z3 + z2).rotateLeft 18
  fun i => if i = a then z0 else if i = b then z1 else if i = c then z2 else if i = d then z3 else x i

/-- A column round: the word matrix is row by row, and each column starts on the diagonal. -/
def columnRound (x : Fin 16 → BitVec 32) : Fin 16 → BitVec 32 :=
  quarter 15 3 7 11 (quarter 10 14 2 6 (quarter 5 9 13 1 (quarter 0 4 8 12 x)))

/-- A row round. -/
def rowRound (x : Fin 16 → BitVec 32) : Fin 16 → BitVec 32 :=
  quarter 15 12 13 14 (quarter 10 11 8 9 (quarter 5 6 7 4 (quarter 0 1 2 3 x)))

/-- Word number `i` of 64 bytes, little endian. -/
def word (t : List Byte) (i : Fin 16) : BitVec 32 := BitVec.ofNat 32 (leVal ((t.drop (4 * i.val)).take 4))

/-- Salsa20/8 (section 3): four double rounds, then the input is added word by word. -/
def salsa208 (t : List Byte) : List Byte :=
  let x := (fun x => rowRound (columnRound x))^[4] (word t)
  (List.finRange 16).flatMap fun i => leBytes 4 (x i + word t i).toNat

def xor (a b : List Byte) : List Byte := List.zipWith (· ^^^ ·) a b

/-- `B[i]`: the 64-byte block number `i`. -/
def blk (B : List Byte) (i : Nat) : List Byte := (B.drop (64 * i)).take 64

/-- `X` of section 4 after `i` steps: first `B[2r - 1]`, then `Salsa (X xor B[i])`. `Y[i]` is its value after step `i`. -/
def X (r : Nat) (B : List Byte) : Nat → List Byte
  | 0 => blk B (2 * r - 1)
  | i + 1 => salsa208 (xor (X r B i) (blk B i))

def Y (r : Nat) (B : List Byte) (i : Nat) : List Byte := X r B (i + 1)

/-- scryptBlockMix (section 4): `Y[0], Y[2], …, Y[2r-2], Y[1], Y[3], …, Y[2r-1]`. -/
def blockMix (r : Nat) (B : List Byte) : List Byte :=
  (List.range r).flatMap (fun i => Y r B (2 * i)) ++ (List.range r).flatMap (fun i => Y r B (2 * i + 1))

/-- Integerify (section 5): the last 64-byte block as a little-endian integer. -/
def integerify (r : Nat) (X : List Byte) : Nat := leVal (blk X (2 * r - 1))

/-- scryptROMix (section 5): `V[i]` is `B` after `i` steps of scryptBlockMix. -/
def roMix (N r : Nat) (B : List Byte) : List Byte :=
  let V := fun i => (blockMix r)^[i] B
  (fun X => blockMix r (xor X (V (integerify r X % N))))^[N] (V N)

/-- scrypt (section 6). -/
def scrypt (prf : List Byte → List Byte → Nat → Option (List Byte)) (P S : List Byte) (N r p dkLen : Nat) : Option (List Byte) := do
  let B ← prf P S (p * 128 * r)
  prf P ((List.range p).flatMap fun i => roMix N r ((B.drop (i * (128 * r))).take (128 * r))) dkLen

/-- What section 2 and section 6 require of the parameters: `N` a power of two larger than 1 and less than `2^(128 * r / 8)`, and
`p` at most `((2^32 - 1) * 32) / (128 * r)`. -/
def Allowed (N r p : Nat) : Prop :=
  0 < r ∧ 0 < p ∧ 1 < N ∧ (∃ k, N = 2 ^ k) ∧ N < 2 ^ (128 * r / 8) ∧ p ≤ (2 ^ 32 - 1) * 32 / (128 * r)

end Verif.Crypto.Scrypt.Spec
