import Verif.Crypto.Modes.Cipher
import Verif.Bsl.Bytes.Model

/-!
# Model of GCM, `crypto/modes/src/modes_gcm.c` and `crypto/modes/src/noasm_ghash.c`

The portable (non-assembler) build: `AES_GCM_Update` forwards to `MODES_GCM_Update`
(`noasm_aes_gcm.c`).  Block cipher: the abstract `Cipher` of `Verif.Crypto.Modes`.
-/

namespace Verif.Crypto.Gcm

open Verif.Common
open Verif.Crypto.Modes (Cipher xorB)

/-- Return codes (`crypt_errno.h`). -/
inductive Err
  | nullInput | invalidArg | useCount | aadRepeat | cryptLen | ctrlTagLen | tagLen | tag | buffLen
  deriving DecidableEq, Repr

/-! ## GHASH -/

/-- `MODES_GCM_GF128` (`crypt_modes_gcm.h`): high and low 64 bits. -/
structure GF where
  h : BitVec 64
  l : BitVec 64
  deriving DecidableEq, Repr

def GF.xor (a b : GF) : GF := ⟨a.h ^^^ b.h, a.l ^^^ b.l⟩

/-- `TABLE_P4_BITS`, `noasm_ghash.c:25-30`. -/
def p4Bits : List (BitVec 64) :=
  [0x0000000000000000#64, 0x1c20000000000000#64, 0x3840000000000000#64, 0x2460000000000000#64,
   0x7080000000000000#64, 0x6ca0000000000000#64, 0x48c0000000000000#64, 0x54e0000000000000#64,
   0xe100000000000000#64, 0xfd20000000000000#64, 0xd940000000000000#64, 0xc560000000000000#64,
   0x9180000000000000#64, 0x8da0000000000000#64, 0xa9c0000000000000#64, 0xb5e0000000000000#64]

/-- One halving of `GcmTableGen4bit`, `noasm_ghash.c:47-50`. -/
def halve (x : GF) : GF :=
  ⟨(x.h >>> 1) ^^^ ((x.l &&& 1#64) * 0xE100000000000000#64), (x.h <<< 63) ||| (x.l >>> 1)⟩

/-- `hTable[i] = v`. -/
def setT (t : Nat → GF) (i : Nat) (v : GF) : Nat → GF := fun j => if j = i then v else t j

/-- `Uint64FromBeBytes`. -/
def be64 (b : List Byte) : BitVec 64 := BitVec.ofNat 64 (beVal b)

/-- The inner loop of the second part of `GcmTableGen4bit`, `noasm_ghash.c:53-56`: `j` from 1 below
`i`. -/
def tblInner (t : Nat → GF) (i : Nat) : Nat → GF :=
  (List.range i).foldl (fun t j => if j ≥ 1 then setT t (i + j) ((t i).xor (t j)) else t) t

/-- `GcmTableGen4bit`, `noasm_ghash.c:33-58`.  The 16-entry array is a function of the index; entries
not written keep their previous value `old`. -/
def tableGen (old : Nat → GF) (key : List Byte) : Nat → GF :=
  let t := setT old 0 ⟨0, 0⟩
  let t := setT t 8 ⟨be64 (key.take 8), be64 (key.drop 8)⟩
  let t := [4, 2, 1].foldl (fun t i => setT t i (halve (t (i * 2)))) t
  [1, 2, 4, 8].foldl tblInner t

/-- Shift right by four bits with reduction, `noasm_ghash.c:79-83`, `:91-94`.  `none`: table index out
of range. -/
def shift4 (x : GF) : Option GF :=
  match p4Bits[(x.l &&& 0xf#64).toNat]? with
  | none => none
  | some p => some ⟨(x.h >>> 4) ^^^ p, (x.h <<< 60) ||| (x.l >>> 4)⟩

/-- The `while (1)` loop of `GcmHashMultiBlock`, `noasm_ghash.c:71-95`, over the bytes
`t[cnt] ^ tempIn[cnt]` from `cnt = 15` down. -/
def mulLoop (tb : Nat → GF) : GF → List Byte → Option GF
  | x, [] => some x
  | x, b :: bs =>
    let l := (b &&& 0xf#8).toNat
    let h := ((b >>> 4) &&& 0xf#8).toNat
    match shift4 (x.xor (tb l)) with
    | none => none
    | some x1 =>
      let x2 := x1.xor (tb h)
      match bs with
      | [] => some x2
      | _ :: _ => match shift4 x2 with
        | none => none
        | some x3 => mulLoop tb x3 bs

/-- `GcmHashMultiBlock`, `noasm_ghash.c:61-102`.  Fuel: number of blocks. -/
def hashBlocks (tb : Nat → GF) : Nat → List Byte → List Byte → Option (List Byte)
  | 0, t, _ => some t
  | n + 1, t, inp =>
    match mulLoop tb ⟨0, 0⟩ (xorB t (inp.take 16)).reverse with
    | none => none
    | some x => hashBlocks tb n (beBytes 8 x.h.toNat ++ beBytes 8 x.l.toNat) (inp.drop 16)

/-- `GcmHashMultiBlock` called on a whole number of blocks. -/
def ghash (tb : Nat → GF) (t inp : List Byte) : Option (List Byte) :=
  hashBlocks tb (inp.length / 16) t inp

/-! ## The mode -/

/-- `MODES_CipherGCMCtx` and the fields of `MODES_GCM_Ctx` (`crypt_modes_gcm.h:42-66`). -/
structure Ctx where
  iv : List Byte
  ghash : List Byte
  hTable : Nat → GF
  aadLen : Nat
  lastLen : Nat
  cryptCnt : Nat
  last : List Byte
  remCt : List Byte
  ek0 : List Byte
  plaintextLen : Nat
  tagLen : Nat
  enc : Bool
  vfyTag : List Byte

/-- `MODES_GCM_SetKey` / `MODES_GCM_InitHashTable`, `modes_gcm.c:30-60`. -/
def setKey (K : Cipher) (c : Ctx) : Ctx :=
  { c with hTable := tableGen c.hTable (K.enc (List.replicate 16 0#8)), tagLen := 16 }

/-- The 32-bit counter step `ctr++` on the last four bytes of the IV, `modes_gcm.c:132-134` and
`:245, :256-257, :307, :318-319`. -/
def inc32 (iv : List Byte) : List Byte :=
  iv.take 12 ++ beBytes 4 ((beVal (iv.drop 12) + 1) % 2 ^ 32)

/-- Pad a partial block with zeros, `modes_gcm.c:108-112`, `:172-178`, and hash it. -/
def hashTail (tb : Nat → GF) (t tail : List Byte) : Option (List Byte) :=
  if tail.length > 0 then ghash tb t (tail ++ List.replicate (16 - tail.length) 0#8) else some t

/-- Whole blocks, then the zero-padded rest: the common shape of `modes_gcm.c:101-113` and
`:166-178`. -/
def hashPadded (tb : Nat → GF) (t x : List Byte) : Option (List Byte) :=
  let blockLen := x.length / 16 * 16
  let t1 := if blockLen > 0 then ghash tb t (x.take blockLen) else some t
  match t1 with
  | none => none
  | some t1 => hashTail tb t1 (x.drop blockLen)

/-- The pre-counter block, `modes_gcm.c:89-118`. -/
def preCounter (tb : Nat → GF) (iv : List Byte) : Option (List Byte) :=
  if iv.length = 12 then some (iv ++ [0x00#8, 0x00#8, 0x00#8, 0x01#8])
  else
    match hashPadded tb (List.replicate 16 0#8) iv with
    | none => none
    | some t =>
      ghash tb t (List.replicate 8 0#8 ++ beBytes 8 ((iv.length <<< 3) % 2 ^ 64))

/-- `MODES_GCM_SetIv`, `modes_gcm.c:78-147`. -/
def setIv (K : Cipher) (c : Ctx) (iv : List Byte) : Option (Ctx × Except Err Unit) :=
  if iv.length = 0 then some (c, .error .nullInput)
  else if c.cryptCnt = 2 ^ 32 - 1 then some (c, .error .useCount)
  else
    match preCounter c.hTable iv with
    | none => none
    | some j0 =>
      some ({ c with
        iv := inc32 j0, ek0 := K.enc j0, ghash := List.replicate 16 0#8, aadLen := 0,
        last := List.replicate 16 0#8, lastLen := 0, plaintextLen := 0,
        remCt := List.replicate 16 0#8 }, .ok ())

/-- `MODES_GCM_InitCtx`, `modes_gcm.c:472-491` (`CRYPT_EAL_CipherInit`).  A rejected IV de-initialises
the context; the model keeps it and reports the error. -/
def initCtx (K : Cipher) (c : Ctx) (iv : List Byte) (enc : Bool) : Option (Ctx × Except Err Unit) :=
  match setIv K (setKey K c) iv with
  | none => none
  | some (c1, .error e) => some (c1, .error e)
  | some (c1, .ok _) => some ({ c1 with enc := enc }, .ok ())

/-- `CRYPT_CTRL_SET_IV` / `CRYPT_CTRL_REINIT_STATUS`, `modes_gcm.c:413-420`: a new IV also clears the
expected tag. -/
def reinit (K : Cipher) (c : Ctx) (iv : List Byte) : Option (Ctx × Except Err Unit) :=
  match setIv K c iv with
  | none => none
  | some (c1, .error e) => some (c1, .error e)
  | some (c1, .ok _) => some ({ c1 with vfyTag := [] }, .ok ())

/-- `SetAad`, `modes_gcm.c:154-181`. -/
def setAad (c : Ctx) (aad : List Byte) : Option (Ctx × Except Err Unit) :=
  if c.aadLen ≠ 0 ∨ c.plaintextLen ≠ 0 then some (c, .error .aadRepeat)
  else
    match hashPadded c.hTable c.ghash aad with
    | none => none
    | some g => some ({ c with ghash := g, aadLen := aad.length }, .ok ())

/-- `GCM_MAX_COMBINED_LENGTH`, `crypt_modes_gcm.h:38`. -/
def maxLen : Nat := 2 ^ 36 - 32

/-- Overwrite part of an array: `memcpy(dst + off, src, src.length)`. -/
def putAt (dst : List Byte) (off : Nat) (src : List Byte) : List Byte :=
  dst.take off ++ src ++ dst.drop (off + src.length)

/-- `MODES_GCM_LastHandle`, `modes_gcm.c:215-237`: context, output, number of bytes used. -/
def lastHandle (c : Ctx) (inp : List Byte) : Option (Ctx × List Byte × Nat) :=
  if c.lastLen > 0 then
    let n := if c.lastLen < inp.length then c.lastLen else inp.length
    let off := 16 - c.lastLen
    let out := xorB (inp.take n) (c.last.drop off)
    let rem := putAt c.remCt off (if c.enc then out else inp.take n)
    let c1 := { c with remCt := rem, lastLen := c.lastLen - n }
    if c1.lastLen = 0 then
      match ghash c.hTable c.ghash rem with
      | none => none
      | some g => some ({ c1 with ghash := g }, out, n)
    else some (c1, out, n)
  else some (c, [], 0)

/-- The counter loop of `GcmMultiBlockCrypt`, `modes_gcm.c:245-263`: IV, last keystream block,
output. -/
def multiLoop (K : Cipher) : Nat → List Byte → List Byte → List Byte → List Byte × List Byte × List Byte
  | 0, iv, last, _ => (iv, last, [])
  | n + 1, iv, _, inp =>
    let ks := K.enc iv
    let r := multiLoop K n (inc32 iv) ks (inp.drop 16)
    (r.1, r.2.1, xorB (inp.take 16) ks ++ r.2.2)

/-- `GcmMultiBlockCrypt`, `modes_gcm.c:239-269`. -/
def multiCrypt (K : Cipher) (c : Ctx) (inp : List Byte) : Option (Ctx × List Byte) :=
  let r := multiLoop K (inp.length / 16) c.iv c.last inp
  match ghash c.hTable c.ghash (if c.enc then r.2.2 else inp) with
  | none => none
  | some g => some ({ c with iv := r.1, last := r.2.1, ghash := g }, r.2.2)

/-- The tail of `MODES_GCM_Crypt`, `modes_gcm.c:304-323`. -/
def remCrypt (K : Cipher) (c : Ctx) (inp : List Byte) : Ctx × List Byte :=
  if inp.length > 0 then
    let ks := K.enc c.iv
    let out := xorB inp ks
    ({ c with last := ks, remCt := putAt c.remCt 0 (if c.enc then out else inp),
              iv := inc32 c.iv, lastLen := 16 - inp.length }, out)
  else ({ c with lastLen := 0 }, [])

/-- `MODES_GCM_Crypt`, `modes_gcm.c:272-326`. -/
def crypt (K : Cipher) (c : Ctx) (inp : List Byte) : Option (Ctx × Except Err (List Byte)) :=
  if c.plaintextLen + inp.length > maxLen then some (c, .error .cryptLen)
  else
    match lastHandle { c with plaintextLen := c.plaintextLen + inp.length } inp with
    | none => none
    | some (c1, o1, n) =>
      if n = inp.length then some (c1, .ok o1)
      else
        let rest := inp.drop n
        let mbl := rest.length / 16 * 16
        let m := if mbl > 0 then multiCrypt K c1 (rest.take mbl) else some (c1, [])
        match m with
        | none => none
        | some (c2, o2) =>
          let r := remCrypt K c2 (rest.drop mbl)
          some (r.1, .ok (o1 ++ o2 ++ r.2))

/-- `MODES_GCM_Update` through `MODES_CipherStreamProcess`, `modes_gcm.c:493-497`, `modes.c:578-598`:
`CRYPT_EAL_CipherUpdate` with room for `cap` bytes. -/
def update (K : Cipher) (c : Ctx) (inp : List Byte) (cap : Nat) :
    Option (Ctx × Except Err (List Byte)) :=
  if inp.length = 0 then some (c, .ok [])
  else if inp.length > cap then some (c, .error .buffLen)
  else crypt K c inp

/-- `GcmPad`, `modes_gcm.c:328-343`. -/
def pad (c : Ctx) : Option (List Byte) :=
  let g := if c.lastLen ≠ 0 then
      ghash c.hTable c.ghash (c.remCt.take (16 - c.lastLen) ++ List.replicate c.lastLen 0#8)
    else some c.ghash
  match g with
  | none => none
  | some g =>
    ghash c.hTable g
      (beBytes 8 ((c.aadLen <<< 3) % 2 ^ 64) ++ beBytes 8 ((c.plaintextLen <<< 3) % 2 ^ 64))

/-- `SetTagLen`, `modes_gcm.c:345-371`. -/
def setTagLen (c : Ctx) (n : Nat) : Ctx × Except Err Unit :=
  if n = 4 ∨ n = 8 ∨ (n ≥ 12 ∧ n ≤ 16) then ({ c with tagLen := n }, .ok ()) else (c, .error .ctrlTagLen)

/-- `GetTag`, `modes_gcm.c:373-395`; `cryptCnt` is a `uint32_t`. -/
def getTag (c : Ctx) (len : Nat) : Option (Ctx × Except Err (List Byte)) :=
  if len ≠ c.tagLen then some (c, .error .tagLen)
  else
    match pad c with
    | none => none
    | some g => some ({ c with cryptCnt := (c.cryptCnt + 1) % 2 ^ 32 }, .ok (xorB (g.take len) c.ek0))

/-- `MODES_SetVfyTag`, `modes.c:122-140`: the tag to be checked by `Final`. -/
def setTag (c : Ctx) (tag : List Byte) : Ctx × Except Err Unit :=
  if c.enc ∨ tag.length = 0 then (c, .error .invalidArg)
  else if tag.length > 16 then (c, .error .tagLen)
  else ({ c with vfyTag := tag }, .ok ())

/-- `MODES_GCM_Final` = `MODES_AeadCheckTag`, `modes.c:142-163`: `CRYPT_EAL_CipherFinal`. -/
def final (c : Ctx) : Option (Ctx × Except Err Unit) :=
  if c.enc then some (c, .ok ())
  else
    match getTag c c.vfyTag.length with
    | none => none
    | some (c1, .error e) => some (c1, .error e)
    | some (c1, .ok t) => 
      if Verif.Bsl.Bytes.ctMemcmp t c.vfyTag = 0#32 then some (c1, .error .tag) else some (c1, .ok ())

/-- A caller feeding data in pieces, each with enough room: a sequence of `CRYPT_EAL_CipherUpdate`. -/
def updateAll (K : Cipher) : Ctx → List (List Byte) → Option (Ctx × Except Err (List Byte))
  | c, [] => some (c, .ok [])
  | c, x :: xs =>
    match update K c x x.length with
    | none => none
    | some (c1, .error e) => some (c1, .error e)
    | some (c1, .ok o) => match updateAll K c1 xs with
      | none => none
      | some (c2, .error e) => some (c2, .error e)
      | some (c2, .ok os) => some (c2, .ok (o ++ os))

end Verif.Crypto.Gcm
