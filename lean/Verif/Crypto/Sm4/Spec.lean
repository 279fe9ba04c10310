import Verif.Common.Bits
import Mathlib.Logic.Function.Iterate

/-!
# SM4 as in GB/T 32907-2016 (GM/T 0002-2012)
-/

namespace Verif.Crypto.Sm4.Spec

open Verif.Common

/-- A 32-bit word. -/
abbrev Word := BitVec 32

/-- The S-box table of the standard (6.2 a). -/
def sboxTable : List Byte := [
  0xd6, 0x90, 0xe9, 0xfe, 0xcc, 0xe1, 0x3d, 0xb7,
  0x16, 0xb6, 0x14, 0xc2, 0x28, 0xfb, 0x2c, 0x05,
  0x2b, 0x67, 0x9a, 0x76, 0x2a, 0xbe, 0x04, 0xc3,
  0xaa, 0x44, 0x13, 0x26, 0x49, 0x86, 0x06, 0x99,
  0x9c, 0x42, 0x50, 0xf4, 0x91, 0xef, 0x98, 0x7a,
  0x33, 0x54, 0x0b, 0x43, 0xed, 0xcf, 0xac, 0x62,
  0xe4, 0xb3, 0x1c, 0xa9, 0xc9, 0x08, 0xe8, 0x95,
  0x80, 0xdf, 0x94, 0xfa, 0x75, 0x8f, 0x3f, 0xa6,
  0x47, 0x07, 0xa7, 0xfc, 0xf3, 0x73, 0x17, 0xba,
  0x83, 0x59, 0x3c, 0x19, 0xe6, 0x85, 0x4f, 0xa8,
  0x68, 0x6b, 0x81, 0xb2, 0x71, 0x64, 0xda, 0x8b,
  0xf8, 0xeb, 0x0f, 0x4b, 0x70, 0x56, 0x9d, 0x35,
  0x1e, 0x24, 0x0e, 0x5e, 0x63, 0x58, 0xd1, 0xa2,
  0x25, 0x22, 0x7c, 0x3b, 0x01, 0x21, 0x78, 0x87,
  0xd4, 0x00, 0x46, 0x57, 0x9f, 0xd3, 0x27, 0x52,
  0x4c, 0x36, 0x02, 0xe7, 0xa0, 0xc4, 0xc8, 0x9e,
  0xea, 0xbf, 0x8a, 0xd2, 0x40, 0xc7, 0x38, 0xb5,
  0xa3, 0xf7, 0xf2, 0xce, 0xf9, 0x61, 0x15, 0xa1,
  0xe0, 0xae, 0x5d, 0xa4, 0x9b, 0x34, 0x1a, 0x55,
  0xad, 0x93, 0x32, 0x30, 0xf5, 0x8c, 0xb1, 0xe3,
  0x1d, 0xf6, 0xe2, 0x2e, 0x82, 0x66, 0xca, 0x60,
  0xc0, 0x29, 0x23, 0xab, 0x0d, 0x53, 0x4e, 0x6f,
  0xd5, 0xdb, 0x37, 0x45, 0xde, 0xfd, 0x8e, 0x2f,
  0x03, 0xff, 0x6a, 0x72, 0x6d, 0x6c, 0x5b, 0x51,
  0x8d, 0x1b, 0xaf, 0x92, 0xbb, 0xdd, 0xbc, 0x7f,
  0x11, 0xd9, 0x5c, 0x41, 0x1f, 0x10, 0x5a, 0xd8,
  0x0a, 0xc1, 0x31, 0x88, 0xa5, 0xcd, 0x7b, 0xbd,
  0x2d, 0x74, 0xd0, 0x12, 0xb8, 0xe5, 0xb4, 0xb0,
  0x89, 0x69, 0x97, 0x4a, 0x0c, 0x96, 0x77, 0x7e,
  0x65, 0xb9, 0xf1, 0x09, 0xc5, 0x6e, 0xc6, 0x84,
  0x18, 0xf0, 0x7d, 0xec, 0x3a, 0xdc, 0x4d, 0x20,
  0x79, 0xee, 0x5f, 0x3e, 0xd7, 0xcb, 0x39, 0x48]

theorem sboxTable_length : sboxTable.length = 256 := by decide +kernel

/-- `Sbox(x)`. -/
def sbox (x : Byte) : Byte := sboxTable[x.toNat]'(by rw [sboxTable_length]; exact x.isLt)

/-- A word from its four bytes, first byte most significant. -/
def word (a b c d : Byte) : Word :=
  (a.setWidth 32 <<< 24) ||| (b.setWidth 32 <<< 16) ||| (c.setWidth 32 <<< 8) ||| d.setWidth 32

/-- Byte `j` of a word, `j = 0` the most significant. -/
def byte (w : Word) (j : Nat) : Byte := w.extractLsb' (24 - 8 * j) 8

/-- The nonlinear layer: the S-box on each byte (6.2 a). -/
def tau (w : Word) : Word :=
  word (sbox (byte w 0)) (sbox (byte w 1)) (sbox (byte w 2)) (sbox (byte w 3))

/-- The linear layer of encryption, `L(B) = B ^ (B <<< 2) ^ (B <<< 10) ^ (B <<< 18) ^ (B <<< 24)`
(6.2 b). -/
def L (b : Word) : Word :=
  b ^^^ b.rotateLeft 2 ^^^ b.rotateLeft 10 ^^^ b.rotateLeft 18 ^^^ b.rotateLeft 24

/-- The linear layer of the key schedule, `L'(B) = B ^ (B <<< 13) ^ (B <<< 23)` (7.3 a). -/
def L' (b : Word) : Word := b ^^^ b.rotateLeft 13 ^^^ b.rotateLeft 23

/-- The round function `F` (6.1). -/
def F (x0 x1 x2 x3 rk : Word) : Word := x0 ^^^ L (tau (x1 ^^^ x2 ^^^ x3 ^^^ rk))

/-- Four consecutive words of the sequence `X_0, X_1, ...`. -/
abbrev Quad := Word × Word × Word × Word

/-- The 32 iterations (7.1), for a list of round keys: from `(X_i, .., X_{i+3})` to the last four
words. -/
def iterate : List Word → Quad → Quad
  | [], x => x
  | rk :: rks, (x0, x1, x2, x3) => iterate rks (x1, x2, x3, F x0 x1 x2 x3 rk)

/-- The reverse transformation `R` (7.1). -/
def R : Quad → Quad
  | (a, b, c, d) => (d, c, b, a)

/-- Four words from 16 bytes. -/
def load : List Byte → Option Quad
  | [a0, a1, a2, a3, b0, b1, b2, b3, c0, c1, c2, c3, d0, d1, d2, d3] =>
    some (word a0 a1 a2 a3, word b0 b1 b2 b3, word c0 c1 c2 c3, word d0 d1 d2 d3)
  | _ => none

/-- Four words as 16 bytes. -/
def store : Quad → List Byte
  | (a, b, c, d) => [a, b, c, d].flatMap fun w => [byte w 0, byte w 1, byte w 2, byte w 3]

/-- Encryption of a block under round keys `rk_0, .., rk_31` (7.1). -/
def encrypt (rks : List Word) (blk : List Byte) : Option (List Byte) :=
  (load blk).map fun x => store (R (iterate rks x))

/-- Decryption: the round keys in reverse order (7.2). -/
def decrypt (rks : List Word) (blk : List Byte) : Option (List Byte) :=
  (load blk).map fun x => store (R (iterate rks.reverse x))

/-- The fixed parameters `CK_i`, with bytes `ck_{i,j} = (4 i + j) * 7 mod 256` (7.3 c). -/
def CK (i : Nat) : Word :=
  word (BitVec.ofNat 8 ((4 * i + 0) * 7)) (BitVec.ofNat 8 ((4 * i + 1) * 7))
    (BitVec.ofNat 8 ((4 * i + 2) * 7)) (BitVec.ofNat 8 ((4 * i + 3) * 7))

/-- The system parameters `FK` (7.3 b). -/
def FK : Quad := (0xa3b1bac6, 0x56aa3350, 0x677d9197, 0xb27022dc)

/-- The key schedule (7.3) from round `i` on, for `n` rounds: `rk_i = K_{i+4} =
K_i ^ T'(K_{i+1} ^ K_{i+2} ^ K_{i+3} ^ CK_i)`. -/
def schedule : Nat → Nat → Quad → List Word
  | 0, _, _ => []
  | n + 1, i, (k0, k1, k2, k3) =>
    let rk := k0 ^^^ L' (tau (k1 ^^^ k2 ^^^ k3 ^^^ CK i))
    rk :: schedule n (i + 1) (k1, k2, k3, rk)

/-- The 32 round keys of a 16-byte key. -/
def roundKeys (key : List Byte) : Option (List Word) :=
  (load key).map fun m =>
    schedule 32 0 (m.1 ^^^ FK.1, m.2.1 ^^^ FK.2.1, m.2.2.1 ^^^ FK.2.2.1, m.2.2.2 ^^^ FK.2.2.2)

/-! The algebraic description of the S-box. -/

/-- Multiplication by `x` in `GF(2)[x] / (x^8 + x^7 + x^6 + x^5 + x^4 + x^2 + 1)`. -/
def xtime (a : Byte) : Byte := (a <<< 1) ^^^ (if a.msb then 0xf5 else 0)

/-- Multiplication in that field: the sum of `x^i * a` over the bits `i` of `b`. -/
def gmul (a b : Byte) : Byte :=
  (List.range 8).foldl (fun r i => if b.getLsbD i then r ^^^ (xtime^[i] a) else r) 0

/-- Inversion `a^254` (with `0` mapped to `0`): `254 = 2 + 4 + 8 + 16 + 32 + 64 + 128`. -/
def ginv (a : Byte) : Byte :=
  ((List.range 7).foldl (fun (sq, r) _ => let s := gmul sq sq; (s, gmul r s)) (a, 1)).2

/-- The affine map of the S-box: bit `i` of the result is the parity of the bits of `x` selected
by `0xA7` rotated left `i` times, then `0xD3` is added. -/
def affine (x : Byte) : Byte :=
  (List.range 8).foldl (fun r i =>
    let sel := BitVec.rotateLeft (0xA7 : Byte) i &&& x
    let par := (List.range 8).foldl (fun p j => p ^^ sel.getLsbD j) false
    if par then r ^^^ (1 <<< i) else r) 0xD3

end Verif.Crypto.Sm4.Spec
