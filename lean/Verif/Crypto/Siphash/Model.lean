import Verif.Common.Bits
import Verif.Common.Endian

/-! Model of SipHash: /repo/crypto/siphash/src/siphash.c. Pointers are not NULL. `none` is an error that is returned, with the context unchanged. -/
namespace Verif.Crypto.Siphash
open Verif.Common

/-- The four words of the state. -/
structure St where
  v0 : BitVec 64
  v1 : BitVec 64
  v2 : BitVec 64
  v3 : BitVec 64
  deriving DecidableEq

/-- `struct SIPHASH_Ctx`, siphash.c:39-55. -/
structure Ctx where
  st : St
  start : St
  cRounds : Nat
  dRounds : Nat
  hashSize : Nat
  acc : Nat
  offset : Nat
  rem : List Byte
  deriving DecidableEq

/-- The first `n` steps of the loop of `BytesToUint64LittleEndian`, siphash.c:57-64. -/
def load (b : List Byte) : Nat → BitVec 64
  | 0 => 0
  | n + 1 => load b n ||| ((b.getD n 0).setWidth 64 <<< (n * 8))

/-- `Uint64ToBytesLittleEndian`, siphash.c:66-71. -/
def store (x : BitVec 64) : List Byte := (List.range 8).map fun i => (x >>> (i * 8)).setWidth 8

/-- The cases of `DealLastWord` from `n` down, siphash.c:77-102. -/
def dealFrom (w : BitVec 64) (b : List Byte) : Nat → BitVec 64
  | 0 => w
  | n + 1 => dealFrom (w ||| ((b.getD n 0).setWidth 64 <<< (8 * n))) b n

/-- `DealLastWord`, siphash.c:73-104. -/
def dealLast (w : BitVec 64) (b : List Byte) (n : Nat) : BitVec 64 := if n ≤ 7 then dealFrom w b n else w

/-- `LROT_UINT64`, siphash.c:30. -/
def lrot (x : BitVec 64) (k : Nat) : BitVec 64 := x <<< k ||| x >>> (64 - k)

/-- `SiproundOperation`, siphash.c:106-122. -/
def sipround (s : St) : St :=
  let s := { s with v0 := s.v0 + s.v1 }
  let s := { s with v1 := lrot s.v1 13 }
  let s := { s with v1 := s.v1 ^^^ s.v0 }
  let s := { s with v0 := lrot s.v0 32 }
  let s := { s with v2 := s.v2 + s.v3 }
  let s := { s with v3 := lrot s.v3 16 }
  let s := { s with v3 := s.v3 ^^^ s.v2 }
  let s := { s with v0 := s.v0 + s.v3 }
  let s := { s with v3 := lrot s.v3 21 }
  let s := { s with v3 := s.v3 ^^^ s.v0 }
  let s := { s with v2 := s.v2 + s.v1 }
  let s := { s with v1 := lrot s.v1 17 }
  let s := { s with v1 := s.v1 ^^^ s.v2 }
  { s with v2 := lrot s.v2 32 }

/-- The loops over `SiproundOperation`, siphash.c:127-129, 290-292 and 299-301. -/
def rounds : Nat → St → St
  | 0, s => s
  | n + 1, s => rounds n (sipround s)

/-- `UpdateInternalState`, siphash.c:124-131. -/
def updateState (w : BitVec 64) (s : St) (n : Nat) : St :=
  let s := rounds n { s with v3 := s.v3 ^^^ w }
  { s with v0 := s.v0 ^^^ w }

/-- `CRYPT_SIPHASH_Reinit`, siphash.c:307-321. -/
def reinit (c : Ctx) : Ctx := { c with st := c.start, acc := 0, offset := 0, rem := List.replicate 8 0 }

/-- `CRYPT_SIPHASH_Init`, siphash.c:174-211. -/
def init (c : Ctx) (key : List Byte) : Option Ctx :=
  if key.length ≠ 16 then none
  else if ¬ (c.hashSize = 8 ∨ c.hashSize = 16) then none
  else
    let k0 := load key 8
    let k1 := load (key.drop 8) 8
    let s : St := ⟨k0 ^^^ 0x736f6d6570736575, k1 ^^^ 0x646f72616e646f6d, k0 ^^^ 0x6c7967656e657261, k1 ^^^ 0x7465646279746573⟩
    let s := if c.hashSize = 16 then { s with v1 := s.v1 ^^^ 0xee } else s
    some { c with st := s, start := s, acc := 0, offset := 0, rem := List.replicate 8 0 }

/-- `memcpy(r + i, x, ...)`. -/
def put (r : List Byte) (i : Nat) (x : List Byte) : List Byte := r.take i ++ x ++ r.drop (i + x.length)

/-- The loop of `CRYPT_SIPHASH_Update`, siphash.c:251-258, for at most `fuel` words, and the copy of the rest, lines 259-262. -/
def words : Nat → Ctx → List Byte → Ctx
  | 0, c, _ => c
  | fuel + 1, c, inp =>
    if inp.length ≥ 8 then words fuel { c with st := updateState (load inp 8) c.st c.cRounds } (inp.drop 8)
    else { c with rem := put c.rem 0 inp, offset := inp.length }

/-- `CRYPT_SIPHASH_Update`, siphash.c:219-264. -/
def update (c : Ctx) (inp : List Byte) : Option Ctx :=
  if inp.length > 2 ^ 32 - 1 - c.acc then none
  else
    let c := { c with acc := c.acc + inp.length }
    if c.offset ≠ 0 then
      let space := 8 - c.offset
      if inp.length < space then some { c with rem := put c.rem c.offset inp, offset := c.offset + inp.length }
      else
        let rem := put c.rem c.offset (inp.take space)
        some (words (inp.length + 1) { c with rem := rem, st := updateState (load rem 8) c.st c.cRounds } (inp.drop space))
    else some (words (inp.length + 1) c inp)

/-- `CRYPT_SIPHASH_Final`, siphash.c:266-305, for a buffer of `len` bytes: the context and the result. -/
def final (c : Ctx) (len : Nat) : Option (Ctx × List Byte) :=
  if len < c.hashSize then none
  else
    let w := dealLast (BitVec.ofNat 64 c.acc <<< 56) c.rem c.offset
    let s := updateState w c.st c.cRounds
    let s := { s with v2 := s.v2 ^^^ (if c.hashSize = 8 then 0xff else 0xee) }
    let s := rounds c.dRounds s
    let out := store (s.v0 ^^^ s.v1 ^^^ s.v2 ^^^ s.v3)
    if c.hashSize = 8 then some ({ c with st := s }, out)
    else
      let s := rounds c.dRounds { s with v1 := s.v1 ^^^ 0xdd }
      some ({ c with st := s }, out ++ store (s.v0 ^^^ s.v1 ^^^ s.v2 ^^^ s.v3))

end Verif.Crypto.Siphash
