import Verif.Common.Bits
import Verif.Common.Endian

/-! Model of scrypt: /repo/crypto/scrypt/src/scrypt.c. Pointers are not NULL and the allocation succeeds. The three parts of the
one allocation (`b`, `v`, `y`) are separate lists. PBKDF2 is a parameter: the code calls it through the pointer `pbkdf2Prf`. -/
namespace Verif.Crypto.Scrypt
open Verif.Common

/-- `DATA32_XOR`, crypt_utils.h: byte by byte, which is what the word-wise loop does on whole words. -/
def xorBytes (a b : List Byte) : List Byte := List.zipWith (· ^^^ ·) a b

/-- `ROTL32`, crypt_utils.h:364. -/
def rotl (x : BitVec 32) (n : Nat) : BitVec 32 := (x <<< n) ||| (x >>> (32 - n))

/-- One statement `x[k] ^= ROTL32(x[i] + x[j], s)` of scrypt.c:105-136. -/
def stmt (x : List (BitVec 32)) (q : Nat × Nat × Nat × Nat) : List (BitVec 32) :=
  x.set q.1 (x.getD q.1 0 ^^^ rotl (x.getD q.2.1 0 + x.getD q.2.2.1 0) q.2.2.2)

/-- The 32 statements of the loop body, scrypt.c:105-136, as `(k, i, j, s)`. -/
def body : List (Nat × Nat × Nat × Nat) :=
  [(4, 0, 12, 7), (8, 4, 0, 9), (12, 8, 4, 13), (0, 12, 8, 18),
   (9, 5, 1, 7), (13, 9, 5, 9), (1, 13, 9, 13), (5, 1, 13, 18),
   (14, 10, 6, 7), (2, 14, 10, 9), (6, 2, 14, 13), (10, 6, 2, 18),
   (3, 15, 11, 7), (7, 3, 15, 9), (11, 7, 3, 13), (15, 11, 7, 18),
   (1, 0, 3, 7), (2, 1, 0, 9), (3, 2, 1, 13), (0, 3, 2, 18),
   (6, 5, 4, 7), (7, 6, 5, 9), (4, 7, 6, 13), (5, 4, 7, 18),
   (11, 10, 9, 7), (8, 11, 10, 9), (9, 8, 11, 13), (10, 9, 8, 18),
   (12, 15, 14, 7), (13, 12, 15, 9), (14, 13, 12, 13), (15, 14, 13, 18)]

/-- The loop `for (i = 8; i > 0; i -= 2)`, scrypt.c:104-137. -/
def rounds (i : Nat) (x : List (BitVec 32)) : List (BitVec 32) :=
  if 0 < i then rounds (i - 2) (body.foldl stmt x) else x
termination_by i

/-- `SALSA_INPUT_TO_HOST`, scrypt.c:38-56. -/
def words (t : List Byte) : List (BitVec 32) :=
  (List.range 16).map fun i => BitVec.ofNat 32 (leVal ((t.drop (4 * i)).take 4))

/-- `SCRYPT_Salsa20WordSpecification`, scrypt.c:97-139, with `SALSA_OUTPUT_TO_LE32`, :59-77. -/
def salsa (t : List Byte) : List Byte :=
  let x := rounds 8 (words t)
  (List.range 16).flatMap fun i => leBytes 4 (x.getD i 0 + (words t).getD i 0).toNat

/-- The 64 bytes at `b + off`. -/
def at64 (b : List Byte) (off : Nat) : List Byte := (b.drop off).take 64

/-- The iterations of `SCRYPT_BlockMix`, scrypt.c:168-183, `k` of them from number `i` on; `prev` is the block xored in first. The
result is what is written from `y0` and from `y1` on. The first iteration, written out before the loop in the code, is the same
with `prev` the last block of `b`. -/
def mixLoop (b : List Byte) : Nat → Nat → List Byte → List Byte × List Byte
  | 0, _, _ => ([], [])
  | k + 1, i, prev =>
    let y0 := salsa (xorBytes prev (at64 b (128 * i)))
    let y1 := salsa (xorBytes y0 (at64 b (128 * i + 64)))
    let rest := mixLoop b k (i + 1) y1
    (y0 ++ rest.1, y1 ++ rest.2)

/-- `SCRYPT_BlockMix`, scrypt.c:141-186. -/
def blockMix (r : Nat) (b : List Byte) : List Byte :=
  let m := mixLoop b r 0 (at64 b (128 * r - 64))
  m.1 ++ m.2

/-- The first loop of `SCRYPT_ROMix`, scrypt.c:195-198: `v` and the new `b`. -/
def fill (r : Nat) : Nat → List Byte → List Byte → List Byte × List Byte
  | 0, v, b => (v, b)
  | k + 1, v, b => fill r k (v ++ b) (blockMix r b)

/-- One iteration of the second loop, scrypt.c:201-205; the index into `v` is a 32-bit product. -/
def step (n r : Nat) (v b : List Byte) : List Byte :=
  let blockSize := 128 * r
  let j := leVal ((b.drop (blockSize - 64)).take 4) &&& (n - 1)
  blockMix r (xorBytes b ((v.drop (j * blockSize % 2 ^ 32)).take blockSize))

/-- The second loop, scrypt.c:200-206. -/
def mixes (n r : Nat) (v : List Byte) : Nat → List Byte → List Byte
  | 0, b => b
  | k + 1, b => mixes n r v k (step n r v b)

/-- `SCRYPT_ROMix`, scrypt.c:189-207. -/
def roMix (n r : Nat) (b : List Byte) : List Byte :=
  let f := fill r n [] b
  mixes n r f.1 n f.2

/-- `SCRYPT_CheckParam`, scrypt.c:209-241, on 32-bit arguments: `true` is `CRYPT_SUCCESS`. In the last size check `n * 128 * r` and
`128 * r` are 32-bit products and the sum is a 64-bit one. -/
def checkParam (n r p len : Nat) : Bool :=
  if r = 0 ∨ p = 0 ∨ n ≤ 1 ∨ n &&& (n - 1) ≠ 0 then false
  else if p > (2 ^ 30 - 1) / r then false
  else if r ≤ 3 ∧ n ≥ 2 ^ (16 * r) then false
  else if r > ((2 ^ 32 - 1) / 128) / p ∨ n > ((2 ^ 32 - 1) / 128) / r then false
  else if (p * 128 * r % 2 ^ 64 + n * 128 * r % 2 ^ 32 + 128 * r % 2 ^ 32) % 2 ^ 64 > 2 ^ 32 - 1 then false
  else if len = 0 then false
  else true

/-- `sumLen` of `CRYPT_SCRYPT`, scrypt.c:280-283: 32-bit arithmetic. -/
def sumLen (n r p : Nat) : Nat :=
  let blockSize := 128 * r % 2 ^ 32
  let bLen := blockSize * p % 2 ^ 32
  (bLen + blockSize * n % 2 ^ 32 + blockSize) % 2 ^ 32

/-- The loop over the blocks of `CRYPT_SCRYPT`, scrypt.c:295-298. -/
def roMixAll (n r : Nat) : Nat → List Byte → List Byte
  | 0, b => b
  | k + 1, b => roMix n r (b.take (128 * r)) ++ roMixAll n r k (b.drop (128 * r))

/-- `CRYPT_SCRYPT`, scrypt.c:262-305, and `CRYPT_SCRYPT_Derive`, :425-488, which does the same with the fields of its context. `prf`
is PBKDF2 with one iteration: password, salt, output length; `none` is an error. -/
def scrypt (prf : List Byte → List Byte → Nat → Option (List Byte)) (key salt : List Byte) (n r p len : Nat) : Option (List Byte) :=
  if checkParam n r p len then do
    let b ← prf key salt (128 * r % 2 ^ 32 * p % 2 ^ 32)
    prf key (roMixAll n r p b) len
  else none

end Verif.Crypto.Scrypt
