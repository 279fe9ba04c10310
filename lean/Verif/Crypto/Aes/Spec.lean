import Verif.Common.Bits
import Mathlib.Logic.Function.Iterate

/-!
# AES as in FIPS 197
-/

namespace Verif.Crypto.Aes.Spec

open Verif.Common

/-- A 32-bit word. -/
abbrev Word := BitVec 32

/-! ## The field `GF(2^8)`, FIPS 197 section 4 -/

/-- Multiplication by `x` modulo `x^8 + x^4 + x^3 + x + 1` (4.2.1). -/
def xtime (a : Byte) : Byte := (a <<< 1) ^^^ (if a.msb then 0x1b else 0)

/-- Multiplication: the sum of `x^i * a` over the bits `i` of `b` (4.2). -/
def gmul (a b : Byte) : Byte :=
  (List.range 8).foldl (fun r i => if b.getLsbD i then r ^^^ (xtime^[i] a) else r) 0

/-- The multiplicative inverse `a^254`, with `0` mapped to itself. -/
def ginv (a : Byte) : Byte :=
  ((List.range 7).foldl (fun (sq, r) _ => let s := gmul sq sq; (s, gmul r s)) (a, 1)).2

/-! ## The S-box, 5.1.1 and 5.3.2 -/

/-- `b'_i = b_i + b_{i+4} + b_{i+5} + b_{i+6} + b_{i+7} + c_i` of the inverse, with `c = 0x63`. -/
def sbox (x : Byte) : Byte :=
  let b := ginv x
  b ^^^ b.rotateLeft 4 ^^^ b.rotateLeft 3 ^^^ b.rotateLeft 2 ^^^ b.rotateLeft 1 ^^^ 0x63

/-- The inverse S-box: inverse affine map, then the multiplicative inverse. -/
def invSbox (y : Byte) : Byte :=
  ginv (y.rotateLeft 1 ^^^ y.rotateLeft 3 ^^^ y.rotateLeft 6 ^^^ 0x05)

/-! ## The state, 3.4: `s r c` is the byte in row `r`, column `c` -/

abbrev State := Fin 4 → Fin 4 → Byte

def subBytes (s : State) : State := fun r c => sbox (s r c)
def invSubBytes (s : State) : State := fun r c => invSbox (s r c)

/-- Row `r` is shifted left cyclically by `r` (5.1.2). -/
def shiftRows (s : State) : State := fun r c => s r (c + r)
def invShiftRows (s : State) : State := fun r c => s r (c - r)

/-- `s'_{r,c} = {02} s_{r,c} + {03} s_{r+1,c} + s_{r+2,c} + s_{r+3,c}`, rows modulo 4 (5.1.3). -/
def mixColumns (s : State) : State := fun r c =>
  gmul (s r c) 2#8 ^^^ gmul (s (r + 1) c) 3#8 ^^^ s (r + 2) c ^^^ s (r + 3) c

/-- `s'_{r,c} = {0e} s_{r,c} + {0b} s_{r+1,c} + {0d} s_{r+2,c} + {09} s_{r+3,c}` (5.3.3). -/
def invMixColumns (s : State) : State := fun r c =>
  gmul (s r c) 0x0e#8 ^^^ gmul (s (r + 1) c) 0x0b#8 ^^^ gmul (s (r + 2) c) 0x0d#8 ^^^ gmul (s (r + 3) c) 0x09#8

/-- Byte `r` of a word, `r = 0` the most significant. -/
def byte (w : Word) (r : Fin 4) : Byte := w.extractLsb' (24 - 8 * r.val) 8

/-- A word from its four bytes, first byte most significant. -/
def word (a b c d : Byte) : Word :=
  (a.setWidth 32 <<< 24) ||| (b.setWidth 32 <<< 16) ||| (c.setWidth 32 <<< 8) ||| d.setWidth 32

/-- AddRoundKey for round `i` with key schedule `w`: column `c` is xored with `w[4 i + c]` (5.1.4). -/
def addRoundKey (w : Nat → Word) (i : Nat) (s : State) : State :=
  fun r c => s r c ^^^ byte (w (4 * i + c.val)) r

/-! ## Cipher and inverse cipher, figures 5 and 12 -/

/-- Rounds `1..n` of the cipher. -/
def rounds (w : Nat → Word) : Nat → State → State
  | 0, s => s
  | n + 1, s => addRoundKey w (n + 1) (mixColumns (shiftRows (subBytes (rounds w n s))))

/-- `Cipher` with `nr` rounds. -/
def cipher (nr : Nat) (w : Nat → Word) (s : State) : State :=
  addRoundKey w nr (shiftRows (subBytes (rounds w (nr - 1) (addRoundKey w 0 s))))

/-- Rounds `n..1` of the inverse cipher. -/
def invRounds (w : Nat → Word) : Nat → State → State
  | 0, s => s
  | n + 1, s =>
    invRounds w n (invMixColumns (addRoundKey w (n + 1) (invSubBytes (invShiftRows s))))

/-- `InvCipher` with `nr` rounds. -/
def invCipher (nr : Nat) (w : Nat → Word) (s : State) : State :=
  addRoundKey w 0 (invSubBytes (invShiftRows (invRounds w (nr - 1) (addRoundKey w nr s))))

/-! ## Blocks: `s[r,c] = in[r + 4c]`, `out[r + 4c] = s[r,c]` (3.4) -/

def load (b : List Byte) (h : b.length = 16) : State := fun r c => b[r.val + 4 * c.val]'(by omega)
def store (s : State) : List Byte :=
  [s 0 0, s 1 0, s 2 0, s 3 0, s 0 1, s 1 1, s 2 1, s 3 1,
   s 0 2, s 1 2, s 2 2, s 3 2, s 0 3, s 1 3, s 2 3, s 3 3]

/-- Encryption of a 16-byte block. -/
def encrypt (nr : Nat) (w : Nat → Word) (b : List Byte) (h : b.length = 16) : List Byte :=
  store (cipher nr w (load b h))
/-- Decryption of a 16-byte block. -/
def decrypt (nr : Nat) (w : Nat → Word) (b : List Byte) (h : b.length = 16) : List Byte :=
  store (invCipher nr w (load b h))

/-! ## Key expansion, 5.2 -/

/-- `SubWord`. -/
def subWord (w : Word) : Word :=
  word (sbox (byte w 0)) (sbox (byte w 1)) (sbox (byte w 2)) (sbox (byte w 3))
/-- `RotWord`: `[a0,a1,a2,a3]` to `[a1,a2,a3,a0]`. -/
def rotWord (w : Word) : Word := word (byte w 1) (byte w 2) (byte w 3) (byte w 0)
/-- `Rcon[i] = [x^(i-1), 0, 0, 0]`. -/
def rcon (i : Nat) : Word := word (xtime^[i - 1] 1) 0 0 0

/-- `w` is the key schedule of a key of `nk` words for `nr` rounds (figure 11). -/
def IsSchedule (nk nr : Nat) (key : List Byte) (w : Nat → Word) : Prop :=
  (∀ i, i < nk → ∃ a b c d, key[4 * i]? = some a ∧ key[4 * i + 1]? = some b ∧
    key[4 * i + 2]? = some c ∧ key[4 * i + 3]? = some d ∧ w i = word a b c d) ∧
  (∀ i, nk ≤ i → i < 4 * (nr + 1) →
    w i = w (i - nk) ^^^
      (if i % nk = 0 then subWord (rotWord (w (i - 1))) ^^^ rcon (i / nk)
       else if 6 < nk ∧ i % nk = 4 then subWord (w (i - 1))
       else w (i - 1)))

end Verif.Crypto.Aes.Spec
