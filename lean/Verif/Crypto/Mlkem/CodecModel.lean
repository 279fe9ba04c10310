import Verif.Crypto.Mlkem.Model
/-! Model of the bit packing of `/repo/crypto/mlkem/src/ml_kem_pke.c` and of the byte-level K-PKE operations.

A byte array and a `uint16_t` array are functions of the index.  Each loop writes every output index once, from
inputs it does not change, so it is written as a function of the output index: output byte `idx` belongs to
iteration `idx / w` and is the `idx % w`-th byte that iteration stores.  The index `idx % w` is matched with a
catch-all for its last value. -/
namespace Verif.Crypto.Mlkem

/-- Conversion to `uint8_t`. -/
def u8 (x : Nat) : Nat := x % 2 ^ 8

/-- `EncodeBits1`, ml_kem_pke.c:58-66: the inner loop ors the bits `j = 1 … n`. -/
def encodeBits1Loop (f : Nat → Nat) (i : Nat) : Nat → Nat
  | 0 => u8 (f (8 * i))
  | j + 1 => u8 (u8 (f (8 * i + (j + 1)) <<< (j + 1)) ||| encodeBits1Loop f i j)

/-- `EncodeBits1`, ml_kem_pke.c:58-66. -/
def encodeBits1 (f : Nat → Nat) (i : Nat) : Nat := encodeBits1Loop f i 7

/-- `EncodeBits4`, ml_kem_pke.c:68-73. -/
def encodeBits4 (f : Nat → Nat) (i : Nat) : Nat := u8 (u8 (f (2 * i)) ||| u8 (f (2 * i + 1)) <<< 4)

/-- `EncodeBits5`, ml_kem_pke.c:75-89. -/
def encodeBits5 (f : Nat → Nat) (idx : Nat) : Nat :=
  let x := 8 * (idx / 5)
  match idx % 5 with
  | 0 => u8 (f x ||| f (x + 1) <<< 5)
  | 1 => u8 (f (x + 1) >>> 3 ||| f (x + 2) <<< 2 ||| f (x + 3) <<< 7)
  | 2 => u8 (f (x + 3) >>> 1 ||| f (x + 4) <<< 4)
  | 3 => u8 (f (x + 4) >>> 4 ||| f (x + 5) <<< 1 ||| f (x + 6) <<< 6)
  | _ => u8 (f (x + 6) >>> 2 ||| f (x + 7) <<< 3)

/-- `EncodeBits10`, ml_kem_pke.c:91-105. -/
def encodeBits10 (f : Nat → Nat) (idx : Nat) : Nat :=
  let x := 4 * (idx / 5)
  match idx % 5 with
  | 0 => u8 (f x)
  | 1 => u8 (f x >>> 8 ||| f (x + 1) <<< 2)
  | 2 => u8 (f (x + 1) >>> 6 ||| f (x + 2) <<< 4)
  | 3 => u8 (f (x + 2) >>> 4 ||| f (x + 3) <<< 6)
  | _ => u8 (f (x + 3) >>> 2)

/-- `EncodeBits11`, ml_kem_pke.c:107-127. -/
def encodeBits11 (f : Nat → Nat) (idx : Nat) : Nat :=
  let x := 8 * (idx / 11)
  match idx % 11 with
  | 0 => u8 (f x)
  | 1 => u8 (f x >>> 8 ||| f (x + 1) <<< 3)
  | 2 => u8 (f (x + 1) >>> 5 ||| f (x + 2) <<< 6)
  | 3 => u8 (f (x + 2) >>> 2)
  | 4 => u8 (f (x + 2) >>> 10 ||| f (x + 3) <<< 1)
  | 5 => u8 (f (x + 3) >>> 7 ||| f (x + 4) <<< 4)
  | 6 => u8 (f (x + 4) >>> 4 ||| f (x + 5) <<< 7)
  | 7 => u8 (f (x + 5) >>> 1)
  | 8 => u8 (f (x + 5) >>> 9 ||| f (x + 6) <<< 2)
  | 9 => u8 (f (x + 6) >>> 6 ||| f (x + 7) <<< 5)
  | _ => u8 (f (x + 7) >>> 3)

/-- `EncodeBits12`, ml_kem_pke.c:129-142. -/
def encodeBits12 (f : Nat → Nat) (idx : Nat) : Nat :=
  let t0 := f (2 * (idx / 3))
  let t1 := f (2 * (idx / 3) + 1)
  match idx % 3 with
  | 0 => u8 (t0 >>> 0)
  | 1 => u8 (t0 >>> 8 ||| t1 <<< 4)
  | _ => u8 (t1 >>> 4)

/-- `polyF[i] += (polyF[i] >> 15) & MLKEM_Q`, ml_kem_pke.c:163-166: the arithmetic shift of an `int16_t` by 15 is
-1 for a negative number and 0 otherwise. -/
def addQ (a : Poly) : Poly := fun i => i16 (a i + (if a i < 0 then q else 0))

/-- `ByteEncode`, ml_kem_pke.c:145-172; `none`: the `default` case, nothing is written. -/
def byteEncode (bit : Nat) (a : Poly) : Option (Nat → Nat) :=
  match bit with
  | 1 => some (encodeBits1 (fun i => u16 (a i)))
  | 4 => some (encodeBits4 (fun i => u16 (a i)))
  | 5 => some (encodeBits5 (fun i => u16 (a i)))
  | 10 => some (encodeBits10 (fun i => u16 (a i)))
  | 11 => some (encodeBits11 (fun i => u16 (a i)))
  | 12 => some (encodeBits12 (fun i => u16 (addQ a i)))
  | _ => none

/-- `DecodeBits1`, ml_kem_pke.c:174-184. -/
def decodeBits1 (a : Nat → Nat) (idx : Nat) : Nat := (a (idx / 8) >>> (idx % 8)) &&& 0x01

/-- `DecodeBits4`, ml_kem_pke.c:186-194. -/
def decodeBits4 (a : Nat → Nat) (idx : Nat) : Nat :=
  match idx % 2 with
  | 0 => a (idx / 2) &&& 0xF
  | _ => (a (idx / 2) >>> 4) &&& 0xF

/-- `DecodeBits5`, ml_kem_pke.c:196-214. -/
def decodeBits5 (a : Nat → Nat) (idx : Nat) : Nat :=
  let y := 5 * (idx / 8)
  match idx % 8 with
  | 0 => (a y >>> 0) &&& 0x1F
  | 1 => (a y >>> 5 ||| a (y + 1) <<< 3) &&& 0x1F
  | 2 => (a (y + 1) >>> 2) &&& 0x1F
  | 3 => (a (y + 1) >>> 7 ||| a (y + 2) <<< 1) &&& 0x1F
  | 4 => (a (y + 2) >>> 4 ||| a (y + 3) <<< 4) &&& 0x1F
  | 5 => (a (y + 3) >>> 1) &&& 0x1F
  | 6 => (a (y + 3) >>> 6 ||| a (y + 4) <<< 2) &&& 0x1F
  | _ => (a (y + 4) >>> 3) &&& 0x1F

/-- `DecodeBits10`, ml_kem_pke.c:216-230. -/
def decodeBits10 (a : Nat → Nat) (idx : Nat) : Nat :=
  let y := 5 * (idx / 4)
  match idx % 4 with
  | 0 => (a y >>> 0 ||| a (y + 1) <<< 8) &&& 0x3FF
  | 1 => (a (y + 1) >>> 2 ||| a (y + 2) <<< 6) &&& 0x3FF
  | 2 => (a (y + 2) >>> 4 ||| a (y + 3) <<< 4) &&& 0x3FF
  | _ => (a (y + 3) >>> 6 ||| a (y + 4) <<< 2) &&& 0x3FF

/-- `DecodeBits11`, ml_kem_pke.c:232-252. -/
def decodeBits11 (a : Nat → Nat) (idx : Nat) : Nat :=
  let y := 11 * (idx / 8)
  match idx % 8 with
  | 0 => (a y >>> 0 ||| a (y + 1) <<< 8) &&& 0x7FF
  | 1 => (a (y + 1) >>> 3 ||| a (y + 2) <<< 5) &&& 0x7FF
  | 2 => (a (y + 2) >>> 6 ||| a (y + 3) <<< 2 ||| a (y + 4) <<< 10) &&& 0x7FF
  | 3 => (a (y + 4) >>> 1 ||| a (y + 5) <<< 7) &&& 0x7FF
  | 4 => (a (y + 5) >>> 4 ||| a (y + 6) <<< 4) &&& 0x7FF
  | 5 => (a (y + 6) >>> 7 ||| a (y + 7) <<< 1 ||| a (y + 8) <<< 9) &&& 0x7FF
  | 6 => (a (y + 8) >>> 2 ||| a (y + 9) <<< 6) &&& 0x7FF
  | _ => (a (y + 9) >>> 5 ||| a (y + 10) <<< 3) &&& 0x7FF

/-- The two values of one round of `DecodeBits12`, ml_kem_pke.c:259-260. -/
def decodeBits12At (a : Nat → Nat) (idx : Nat) : Nat :=
  let i := idx / 2
  match idx % 2 with
  | 0 => (a (3 * i) >>> 0 ||| a (3 * i + 1) <<< 8) &&& 0xFFF
  | _ => (a (3 * i + 1) >>> 4 ||| a (3 * i + 2) <<< 4) &&& 0xFFF

/-- The loop of `DecodeBits12`, ml_kem_pke.c:257-269, with `n` rounds left: does it run to the end?  What it has
stored when it stops early is not modelled: the callers discard it. -/
def decode12Loop (a : Nat → Nat) (i : Nat) : Nat → Bool
  | 0 => true
  | n + 1 =>
    if (decodeBits12At a (2 * i) : Int) ≥ q ∨ (decodeBits12At a (2 * i + 1) : Int) ≥ q then false
    else decode12Loop a (i + 1) n

/-- `DecodeBits12`, ml_kem_pke.c:254-271; `none` is `CRYPT_MLKEM_DECODE_KEY_OVERFLOW`. -/
def decodeBits12 (a : Nat → Nat) : Option Poly :=
  if decode12Loop a 0 128 then some (fun idx => (decodeBits12At a idx : Int)) else none

/-- `ByteDecode` for the widths it is called with, ml_kem_pke.c:274-298; `none`: nothing is written. -/
def byteDecode (bit : Nat) (a : Nat → Nat) : Option Poly :=
  match bit with
  | 1 => some (fun i => (decodeBits1 a i : Int))
  | 4 => some (fun i => (decodeBits4 a i : Int))
  | 5 => some (fun i => (decodeBits5 a i : Int))
  | 10 => some (fun i => (decodeBits10 a i : Int))
  | 11 => some (fun i => (decodeBits11 a i : Int))
  | _ => none

end Verif.Crypto.Mlkem
