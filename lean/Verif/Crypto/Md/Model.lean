import Verif.Common.Endian
import Verif.Common.Bits

/-!
# Model of the streaming layer of the Merkle–Damgård hashes

`crypto/sha2/src/sha2_256.c` (SHA-224/256), `crypto/sha2/src/sha2_512.c` (SHA-384/512),
`crypto/sha1/src/sha1.c`, `crypto/md5/src/md5.c`, `crypto/sm3/src/sm3_public.c`.

The compression function is a parameter `comp : σ → List Byte → σ` (one block).  The models return
`none` where the code would write outside its block buffer.
-/

namespace Verif.Crypto.Md

open Verif.Common

/-- Return codes (`crypt_errno.h`). -/
inductive Err
  | overflow | outBuff
  deriving DecidableEq, Repr

/-- `CRYPT_SHA2_256_Ctx`, `CRYPT_SHA2_512_Ctx`, `CRYPT_SHA1_Ctx`, `CRYPT_MD5_Ctx`, `CRYPT_SM3_Ctx`
(`crypt_sha2.h`, `crypt_sha1.h`, `crypt_md5.h`, `crypt_sm3.h`): chaining value, block buffer, number of
buffered bytes, bit length in two words, error flag. -/
structure Ctx (σ : Type) (W : Nat) where
  h : σ
  block : List Byte
  num : Nat
  lo : BitVec W
  hi : BitVec W
  err : Bool

/-- `CRYPT_*_Init`: everything zero, initial chaining value (`sha2_256.c:57-79`, `sha2_512.c:84-105`,
`sha1.c:54-72`, `md5.c:48-62`, `sm3_public.c:46-63`). -/
def init (W : Nat) (iv : σ) (B : Nat) : Ctx σ W := ⟨iv, List.replicate B 0#8, 0, 0, 0, false⟩

/-- `SHA256CompressMultiBlocks` and its siblings: `n` consecutive blocks
(`noasm_sha256.c:124-133`, `noasm_sha512.c:80-147`, `noasm_md5.c:104-210`, `noasm_sm3.c:117-285`). -/
def multi (comp : σ → List Byte → σ) (B : Nat) : Nat → σ → List Byte → σ
  | 0, h, _ => h
  | n + 1, h, d => multi comp B n (comp h (d.take B)) (d.drop B)

/-- `memcpy(block + off, src, src.length)`, `none` when it would leave the buffer. -/
def copyTo (block : List Byte) (off : Nat) (src : List Byte) : Option (List Byte) :=
  if off + src.length ≤ block.length then
    some (block.take off ++ src ++ block.drop (off + src.length))
  else none

/-! ## Bit counters -/

/-- The second half of the 32-bit counters: `hNum + (nbytes >> 29)`, `sha2_256.c:153-161`,
`sha1.c:125-134`, `md5.c:88-95`, `sm3_public.c:89-96`.  `true`: overflow reported. -/
def addHi (c : Ctx σ 32) (hi cnt0 n : BitVec 32) : Ctx σ 32 × Bool :=
  let cnt1 := hi + (n >>> 29)
  if cnt1 < hi then ({ c with hi := hi }, true) else ({ c with hi := cnt1, lo := cnt0 }, false)

/-- `CheckIsCorrupted` / `SHA1_CheckIsCorrupted` / `IsInputOverflow`, `sha2_256.c:143-162`,
`sha1.c:115-135`, `md5.c:79-96`, `sm3_public.c:80-97`. -/
def addLen32 (c : Ctx σ 32) (n : BitVec 32) : Ctx σ 32 × Bool :=
  let cnt0 := c.lo + (n <<< 3)
  if cnt0 < c.lo then
    let hi := c.hi + 1#32
    if hi = 0#32 then ({ c with hi := hi }, true) else addHi c hi cnt0 n
  else addHi c c.hi cnt0 n

/-- `Add128Bit` with `num2h = 0` under `CheckIsCorrupted`, `sha2_512.c:30-65` (`nbytes` is a
`uint32_t`, so the high word of the bit count is zero). -/
def addLen64 (c : Ctx σ 64) (n : BitVec 32) : Ctx σ 64 × Bool :=
  let num2l := (n.setWidth 64) <<< 3
  let suml := c.lo + num2l
  let carry := suml < c.lo
  let sumh := if carry then c.hi + 1#64 else c.hi
  if carry ∧ sumh ≤ c.hi then (c, true) else ({ c with hi := sumh, lo := suml }, false)

/-! ## Update -/

/-- Whole blocks straight from the input, rest into the empty buffer: `sha2_256.c:195-208`,
`md5.c:141-155`, `sm3_public.c:144-158`. -/
def absorb (comp : σ → List Byte → σ) (B : Nat) (c : Ctx σ W) (d : List Byte) : Option (Ctx σ W) :=
  let n := d.length / B
  let h := if n > 0 then multi comp B n c.h d else c.h
  let rest := d.drop (n * B)
  if rest.length ≠ 0 then
    match copyTo c.block 0 rest with
    | none => none
    | some b => some { c with h := h, block := b, num := rest.length }
  else some { c with h := h }

/-- `CRYPT_SHA2_256_Update`, after the parameter checks, `sha2_256.c:171-208`. -/
def body256 (comp : σ → List Byte → σ) (B : Nat) (c : Ctx σ W) (d : List Byte) : Option (Ctx σ W) :=
  if d.length = 0 then some c
  else if d.length < B - c.num then
    match copyTo c.block c.num d with
    | none => none
    | some b => some { c with block := b, num := c.num + d.length }
  else if c.num ≠ 0 ∧ d.length ≥ B - c.num then
    match copyTo c.block c.num (d.take (B - c.num)) with
    | none => none
    | some b =>
      absorb comp B { c with h := comp c.h b, num := 0, block := List.replicate B 0#8 } (d.drop (B - c.num))
  else absorb comp B c d

/-- The end of `CRYPT_SHA2_512_Update`, `sha2_512.c:193-204`: the rest is found by stepping over all the
data and back by `dataLen & (B - 1)`. -/
def absorb512 (comp : σ → List Byte → σ) (B : Nat) (c : Ctx σ W) (d : List Byte) : Option (Ctx σ W) :=
  let h := multi comp B (d.length / B) c.h d
  let r := d.length &&& (B - 1)
  let rest := d.drop (d.length - r)
  if r ≠ 0 then
    match copyTo c.block 0 rest with
    | none => none
    | some b => some { c with h := h, block := b, num := r }
  else some { c with h := h }

/-- `CRYPT_SHA2_512_Update`, after the parameter checks, `sha2_512.c:170-204`. -/
def body512 (comp : σ → List Byte → σ) (B : Nat) (c : Ctx σ W) (d : List Byte) : Option (Ctx σ W) :=
  if d.length = 0 then some c
  else
    let n := B - c.num
    if d.length < n then
      match copyTo c.block c.num d with
      | none => none
      | some b => some { c with block := b, num := c.num + d.length }
    else if c.num ≠ 0 then
      match copyTo c.block c.num (d.take n) with
      | none => none
      | some b => absorb512 comp B { c with h := comp c.h b, num := 0, block := b } (d.drop n)
    else absorb512 comp B c d

/-- `SHA1_Step`, `noasm_sha1.c:56-188`: as long as a whole block is left; returns the chaining value and
the unprocessed data.  Fuel: any bound on the number of blocks. -/
def step1 (comp : σ → List Byte → σ) (B : Nat) : Nat → σ → List Byte → σ × List Byte
  | 0, h, d => (h, d)
  | f + 1, h, d => if d.length ≥ B then step1 comp B f (comp h (d.take B)) (d.drop B) else (h, d)

/-- The end of `CRYPT_SHA1_Update`, `sha1.c:185-193`. -/
def absorb1 (comp : σ → List Byte → σ) (B : Nat) (c : Ctx σ W) (d : List Byte) : Option (Ctx σ W) :=
  let r := step1 comp B d.length c.h d
  if r.2.length ≠ 0 then
    match copyTo c.block 0 r.2 with
    | none => none
    | some b => some { c with h := r.1, block := b, num := r.2.length }
  else some { c with h := r.1 }

/-- `CRYPT_SHA1_Update`, after the parameter checks, `sha1.c:163-193`. -/
def body1 (comp : σ → List Byte → σ) (B : Nat) (c : Ctx σ W) (d : List Byte) : Option (Ctx σ W) :=
  let left := B - c.num
  if d.length < left then
    match copyTo c.block c.num d with
    | none => none
    | some b => some { c with block := b, num := c.num + d.length }
  else if c.num ≠ 0 then
    match copyTo c.block c.num (d.take left) with
    | none => none
    | some b => absorb1 comp B { c with h := comp c.h b, num := 0, block := b } (d.drop left)
  else absorb1 comp B c d

/-- `CRYPT_MD5_Update` and `CRYPT_SM3_Update`, after the parameter checks, `md5.c:118-155`,
`sm3_public.c:121-158`. -/
def bodyM (comp : σ → List Byte → σ) (B : Nat) (c : Ctx σ W) (d : List Byte) : Option (Ctx σ W) :=
  if d.length = 0 then some c
  else
    let left := B - c.num
    if c.num ≠ 0 then
      if d.length < left then
        match copyTo c.block c.num d with
        | none => none
        | some b => some { c with block := b, num := c.num + d.length }
      else
        match copyTo c.block c.num (d.take left) with
        | none => none
        | some b => absorb comp B { c with h := comp c.h b, num := 0, block := b } (d.drop left)
    else absorb comp B c d

/-- The shape of `CRYPT_*_Update`: sticky error flag, length check, data.  `sticky` is false for MD5 and
SM3, which keep no error flag (`md5.c:98-111`, `sm3_public.c:99-112`). -/
def updateWith (sticky : Bool) (addLen : Ctx σ W → BitVec 32 → Ctx σ W × Bool)
    (body : Ctx σ W → List Byte → Option (Ctx σ W)) (c : Ctx σ W) (d : List Byte) :
    Option (Ctx σ W × Except Err Unit) :=
  if c.err then some (c, .error .overflow)
  else
    let r := addLen c (BitVec.ofNat 32 d.length)
    if r.2 then some ({ r.1 with err := sticky }, .error .overflow)
    else match body r.1 d with
      | none => none
      | some c1 => some (c1, .ok ())

/-- `CRYPT_SHA2_256_Update`, `sha2_256.c:164-209`. -/
def update256 (comp : σ → List Byte → σ) := updateWith true addLen32 (body256 (W := 32) comp 64)
/-- `CRYPT_SHA2_512_Update`, `sha2_512.c:163-205`. -/
def update512 (comp : σ → List Byte → σ) := updateWith true addLen64 (body512 (W := 64) comp 128)
/-- `CRYPT_SHA1_Update`, `sha1.c:157-194`. -/
def update1 (comp : σ → List Byte → σ) := updateWith true addLen32 (body1 (W := 32) comp 64)
/-- `CRYPT_MD5_Update`, `md5.c:113-156`, and `CRYPT_SM3_Update`, `sm3_public.c:114-159`. -/
def updateM (comp : σ → List Byte → σ) := updateWith false addLen32 (bodyM (W := 32) comp 64)

/-! ## Final -/

/-- `block[n++] = 0x80`. -/
def putByte (block : List Byte) (n : Nat) (b : Byte) : Option (List Byte) := copyTo block n [b]

/-- `memset(block + off, 0, len)`. -/
def zeroAt (block : List Byte) (off len : Nat) : Option (List Byte) :=
  copyTo block off (List.replicate len 0#8)

/-- The padding of `CRYPT_SHA2_256_Final` and `CRYPT_SHA2_512_Final`, `sha2_256.c:237-256`,
`sha2_512.c:234-253`: `L` is the size of the length field, `len` its bytes. -/
def pad2 (comp : σ → List Byte → σ) (B L : Nat) (len : List Byte) (c : Ctx σ W) : Option σ :=
  match putByte c.block c.num 0x80#8 with
  | none => none
  | some p =>
    let n := c.num + 1
    if n > B - L then
      match zeroAt p n (B - n) with
      | none => none
      | some p1 =>
        let h := comp c.h p1
        match zeroAt p1 0 (B - L) with
        | none => none
        | some p2 => (copyTo p2 (B - L) len).map (comp h)
    else
      match zeroAt p n (B - L - n) with
      | none => none
      | some p2 => (copyTo p2 (B - L) len).map (comp c.h)

/-- The padding of `CRYPT_MD5_Final` and `CRYPT_SM3_Final`, `md5.c:179-195`, `sm3_public.c:183-199`. -/
def padM (comp : σ → List Byte → σ) (B : Nat) (len : List Byte) (c : Ctx σ W) : Option σ :=
  match putByte c.block c.num 0x80#8 with
  | none => none
  | some p =>
    let num := c.num + 1
    let left := B - num
    if left < 8 then
      match zeroAt p num left with
      | none => none
      | some p1 =>
        let h := comp c.h p1
        match zeroAt p1 0 (B - 8) with
        | none => none
        | some p2 => (copyTo p2 (B - 8) len).map (comp h)
    else
      match zeroAt p num (left - 8) with
      | none => none
      | some p2 => (copyTo p2 (B - 8) len).map (comp c.h)

/-- The second part of the padding of `CRYPT_SHA1_Final`, `sha1.c:234-248`. -/
def pad1Tail (comp : σ → List Byte → σ) (B : Nat) (len : List Byte) (h : σ) (p : List Byte) (count : Nat) :
    Option σ :=
  let padLen := B - count
  if padLen < 8 then
    match zeroAt p count padLen with
    | none => none
    | some p1 =>
      match zeroAt p1 0 (B - 8) with
      | none => none
      | some p2 => (copyTo p2 56 len).map (comp (comp h p1))
  else
    match zeroAt p count (padLen - 8) with
    | none => none
    | some p2 => (copyTo p2 56 len).map (comp h)

/-- The padding of `CRYPT_SHA1_Final`, `sha1.c:225-248`: a block completed by the `0x80` byte alone is
compressed first. -/
def pad1 (comp : σ → List Byte → σ) (B : Nat) (len : List Byte) (c : Ctx σ W) : Option σ :=
  match putByte c.block c.num 0x80#8 with
  | none => none
  | some p =>
    let count := c.num + 1
    if count = B then pad1Tail comp B len (comp c.h p) p 0 else pad1Tail comp B len c.h p count

/-- The shape of `CRYPT_*_Final`: output size, error flag, padding, output.  The context afterwards is
not modelled (the next call has to be `Init`, `crypto/eal/src/eal_md.c`). -/
def finalWith (pad : Ctx σ W → Option σ) (out : σ → List Byte) (outLen cap : Nat) (c : Ctx σ W) :
    Option (Except Err (List Byte)) :=
  if cap < outLen then some (.error .outBuff)
  else if c.err then some (.error .overflow)
  else (pad c).map fun h => .ok ((out h).take outLen)

/-- `CRYPT_SHA2_256_Final`, `sha2_256.c:230-265`. -/
def final256 (comp : σ → List Byte → σ) (out : σ → List Byte) (outLen cap : Nat) (c : Ctx σ 32) :=
  finalWith (fun c => pad2 comp 64 8 (beBytes 4 c.hi.toNat ++ beBytes 4 c.lo.toNat) c) out outLen cap c
/-- `CRYPT_SHA2_512_Final`, `sha2_512.c:227-264`. -/
def final512 (comp : σ → List Byte → σ) (out : σ → List Byte) (outLen cap : Nat) (c : Ctx σ 64) :=
  finalWith (fun c => pad2 comp 128 16 (beBytes 8 c.hi.toNat ++ beBytes 8 c.lo.toNat) c) out outLen cap c
/-- `CRYPT_SHA1_Final`, `sha1.c:216-257`. -/
def final1 (comp : σ → List Byte → σ) (out : σ → List Byte) (outLen cap : Nat) (c : Ctx σ 32) :=
  finalWith (fun c => pad1 comp 64 (beBytes 4 c.hi.toNat ++ beBytes 4 c.lo.toNat) c) out outLen cap c
/-- `CRYPT_MD5_Final`, `md5.c:174-204` (little endian, low word first). -/
def finalMd5 (comp : σ → List Byte → σ) (out : σ → List Byte) (outLen cap : Nat) (c : Ctx σ 32) :=
  finalWith (fun c => padM comp 64 (leBytes 4 c.lo.toNat ++ leBytes 4 c.hi.toNat) c) out outLen cap c
/-- `CRYPT_SM3_Final`, `sm3_public.c:176-212`. -/
def finalSm3 (comp : σ → List Byte → σ) (out : σ → List Byte) (outLen cap : Nat) (c : Ctx σ 32) :=
  finalWith (fun c => padM comp 64 (beBytes 4 c.hi.toNat ++ beBytes 4 c.lo.toNat) c) out outLen cap c

/-- A caller feeding pieces: a sequence of `CRYPT_EAL_MdUpdate`, stopping at the first error. -/
def updateAll (upd : Ctx σ W → List Byte → Option (Ctx σ W × Except Err Unit)) :
    Ctx σ W → List (List Byte) → Option (Ctx σ W × Except Err Unit)
  | c, [] => some (c, .ok ())
  | c, x :: xs => match upd c x with
    | none => none
    | some (c1, .error e) => some (c1, .error e)
    | some (c1, .ok _) => updateAll upd c1 xs

end Verif.Crypto.Md
