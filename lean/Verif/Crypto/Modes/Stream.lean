import Verif.Crypto.Modes.Cipher

/-!
# Stream-like modes: CTR, OFB, CFB

`crypto/modes/src/modes_ctr.c`, `modes_ofb.c`, `modes_cfb.c`, `modes_local.h`, and the entry point
`MODES_CipherStreamProcess` of `modes.c`.

A result `none` is an access outside `iv[16]` / `buf[16]`.  Input and output are byte strings; the
functions write every output byte at the index of the input byte it comes from, after reading it, so
the same result is produced when `in == out`.
-/

namespace Verif.Crypto.Modes

open Verif.Common

/-- `MODE_IncCounter` loop, `crypto/modes/src/modes_local.h:74-85`, on the reversed counter: from
the last byte up, `carry += c[i]; c[i] = carry & 0xff; carry >>= 8`. -/
def incRev : Nat → List Byte → List Byte
  | _, [] => []
  | carry, b :: bs =>
    let c := carry + b.toNat
    BitVec.ofNat 8 (c % 256) :: incRev (c / 256) bs

/-- `MODE_IncCounter`, `crypto/modes/src/modes_local.h:74-85`, initial carry 1. -/
def incCounter (c : List Byte) : List Byte := (incRev 1 c.reverse).reverse

/-- The fields of `MODES_CipherCommonCtx` used by CTR/OFB/CFB
(`crypto/modes/include/crypt_modes.h`): `iv`, `buf`, `offset`. -/
structure SCtx where
  iv : List Byte
  buf : List Byte
  off : Nat
  deriving DecidableEq, Repr

/-- Effect of `MODES_SetIv` (`modes.c:521-537`) on the modelled fields: the length must be the block
size; the offset is cleared; `buf` is untouched. -/
def setIv (c : SCtx) (iv : List Byte) : SCtx × Except Err Unit :=
  if iv.length = 16 then ({ c with iv := iv, off := 0 }, .ok ()) else (c, .error .ivLen)

/-- `MODES_CTR_LastHandle`, `modes_ctr.c:25-41`: use up the rest of `buf`.  Returns context, output
and unread input. -/
def ctrLast : SCtx → List Byte → Option (SCtx × List Byte × List Byte)
  | c, [] => some (c, [], [])
  | c, b :: bs =>
    if c.off = 0 then some (c, [], b :: bs)
    else match c.buf[c.off]? with
      | none => none
      | some k => match ctrLast { c with off := (c.off + 1) &&& (16 - 1) } bs with
        | none => none
        | some (c', o, r) => some (c', (b ^^^ k) :: o, r)

/-- `MODES_CTR_RemHandle`, `modes_ctr.c:43-62`: the final partial block. -/
def ctrRem (K : Cipher) (c : SCtx) (inp : List Byte) : SCtx × List Byte :=
  if inp.length = 0 then (c, [])
  else
    let buf := K.enc c.iv
    ({ iv := incCounter c.iv, buf := buf, off := inp.length }, xorB inp buf)

/-- The `while (left >= blockSize)` loop of `MODES_CTR_Crypt`, `modes_ctr.c:72-83`, followed by
`MODES_CTR_RemHandle`.  `fuel` bounds the iterations (callers pass the input length). -/
def ctrBlocks (K : Cipher) : Nat → SCtx → List Byte → SCtx × List Byte
  | 0, c, inp => ctrRem K c inp
  | fuel + 1, c, inp =>
    if inp.length ≥ 16 then
      let buf := K.enc c.iv
      let r := ctrBlocks K fuel { c with iv := incCounter c.iv, buf := buf } (inp.drop 16)
      (r.1, xorB (inp.take 16) buf ++ r.2)
    else ctrRem K c inp

/-- `MODES_CTR_Crypt`, `modes_ctr.c:64-86`. -/
def ctrCrypt (K : Cipher) (c : SCtx) (inp : List Byte) : Option (SCtx × List Byte) :=
  match ctrLast c inp with
  | none => none
  | some (c1, o, rest) =>
    let r := ctrBlocks K rest.length c1 rest
    some (r.1, o ++ r.2)

/-- First loop of `MODES_OFB_Crypt`, `modes_ofb.c:39-44`. -/
def ofbLast : SCtx → List Byte → Option (SCtx × List Byte × List Byte)
  | c, [] => some (c, [], [])
  | c, b :: bs =>
    if c.off = 0 then some (c, [], b :: bs)
    else match c.iv[c.off]? with
      | none => none
      | some k => match ofbLast { c with off := (c.off + 1) % 16 } bs with
        | none => none
        | some (c', o, r) => some (c', (k ^^^ b) :: o, r)

/-- Second loop of `MODES_OFB_Crypt`, `modes_ofb.c:46-63`. -/
def ofbBlocks (K : Cipher) : Nat → SCtx → List Byte → SCtx × List Byte
  | 0, c, _ => (c, [])
  | fuel + 1, c, inp =>
    if inp.length = 0 then (c, [])
    else
      let iv := K.enc c.iv
      if inp.length ≥ 16 then
        let r := ofbBlocks K fuel { c with iv := iv } (inp.drop 16)
        (r.1, xorB (inp.take 16) iv ++ r.2)
      else ({ c with iv := iv, off := inp.length }, xorB inp iv)

/-- `MODES_OFB_Crypt`, `modes_ofb.c:25-66`. -/
def ofbCrypt (K : Cipher) (c : SCtx) (inp : List Byte) : Option (SCtx × List Byte) :=
  match ofbLast c inp with
  | none => none
  | some (c1, o, rest) =>
    let r := ofbBlocks K rest.length c1 rest
    some (r.1, o ++ r.2)

/-- First loop of `MODES_CFB_BytesEncrypt` (`modes_cfb.c:45-50`) and `MODES_CFB128_BytesEncrypt`
(`:104-109`), and with `enc = false` of the decryption functions (`:159-165`, `:219-225`). -/
def cfbLast (enc : Bool) : SCtx → List Byte → Option (SCtx × List Byte × List Byte)
  | c, [] => some (c, [], [])
  | c, b :: bs =>
    if c.off = 0 then some (c, [], b :: bs)
    else match c.iv[c.off]? with
      | none => none
      | some k =>
        let o := k ^^^ b
        match cfbLast enc { c with iv := c.iv.set c.off (if enc then o else b),
                                   off := (c.off + 1) % 16 } bs with
        | none => none
        | some (c', os, r) => some (c', o :: os, r)

/-- Second loop of `MODES_CFB_BytesEncrypt` / `MODES_CFB_BytesDecrypt`, `modes_cfb.c:52-90`,
`:167-205`: encrypt the register into `buf`, shift it left by `fb` bytes (`memmove`), and append the
ciphertext bytes; on a short tail the register is completed with unused keystream and `offset`
points at it. -/
def cfbBlocks (K : Cipher) (enc : Bool) (fb : Nat) : Nat → SCtx → List Byte → SCtx × List Byte
  | 0, c, _ => (c, [])
  | fuel + 1, c, inp =>
    if inp.length = 0 then (c, [])
    else
      let tmp := K.enc c.iv
      let hd := c.iv.drop fb
      if inp.length ≥ fb then
        let seg := inp.take fb
        let out := xorB seg tmp
        let r := cfbBlocks K enc fb fuel
          { c with iv := hd ++ (if enc then out else seg), buf := tmp } (inp.drop fb)
        (r.1, out ++ r.2)
      else
        let out := xorB inp tmp
        ({ iv := hd ++ (if enc then out else inp) ++ (tmp.drop inp.length).take (fb - inp.length),
           buf := tmp, off := 16 - fb + inp.length }, out)

/-- Loops of `MODES_CFB128_BytesEncrypt` / `MODES_CFB128_BytesDecrypt`, `modes_cfb.c:110-141`,
`:226-261`: the register is encrypted in place and overwritten with the ciphertext. -/
def cfb128Blocks (K : Cipher) (enc : Bool) : Nat → SCtx → List Byte → SCtx × List Byte
  | 0, c, _ => (c, [])
  | fuel + 1, c, inp =>
    if inp.length ≥ 16 then
      let iv := K.enc c.iv
      let seg := inp.take 16
      let out := xorB iv seg
      let r := cfb128Blocks K enc fuel { c with iv := if enc then out else seg } (inp.drop 16)
      (r.1, out ++ r.2)
    else if inp.length > 0 then
      let iv := K.enc c.iv
      let out := xorB iv inp
      ({ c with iv := (if enc then out else inp) ++ iv.drop inp.length, off := inp.length }, out)
    else (c, [])

/-- The bit loop of `MODES_CFB_BitCrypt` with `Cfb1Crypt` inlined, `modes_cfb.c:265-323`: for one bit,
encrypt the register, shift it left by one bit, append the ciphertext bit.  `iv` is shifted as a
whole: `iv[i] = iv[i] << 1 | iv[i+1] >> 7`, the last byte takes `bit`. -/
def shl1 : List Byte → Bool → List Byte
  | [], _ => []
  | [x], bit => [(x <<< 1) ||| (if bit then 1#8 else 0#8)]
  | x :: y :: r, bit => ((x <<< 1) ||| (y >>> 7)) :: shl1 (y :: r) bit

/-- One bit of `MODES_CFB_BitCrypt`: `Cfb1Crypt` on the byte `0x80` or `0`, `modes_cfb.c:265-298`;
only the top bit of the output byte is used. -/
def cfb1Bit (K : Cipher) (enc : Bool) (c : SCtx) (b : Bool) : Option (SCtx × Bool) :=
  let tmp := K.enc c.iv
  match tmp[0]? with
  | none => none
  | some t =>
    let inB : Byte := if b then 0x80#8 else 0#8
    let outB := t ^^^ inB
    let fbBit := if enc then (outB >>> 7) != 0#8 else (inB >>> 7) != 0#8
    some ({ c with iv := shl1 c.iv fbBit, buf := tmp }, (outB >>> 7) != 0#8)

/-- The eight iterations of `MODES_CFB_BitCrypt` for one byte (`pos` from 7 down to 0):
bit `pos` is read with `in & (1 << pos)`, and stored after clearing it in `out`. -/
def cfb1Byte (K : Cipher) (enc : Bool) (b : Byte) : Nat → SCtx → Byte → Option (SCtx × Byte)
  | 0, c, o => some (c, o)
  | pos + 1, c, o =>
    match cfb1Bit K enc c ((b &&& ((1 : Byte) <<< pos)) != 0#8) with
    | none => none
    | some (c', bit) =>
      cfb1Byte K enc b pos c'
        ((o &&& ~~~((1 : Byte) <<< pos)) ||| ((if bit then (1 : Byte) else 0) <<< pos))

/-- `MODES_CFB_BitCrypt`, `modes_cfb.c:301-323`.  The previous contents of `out` are cleared bit by
bit; the model starts each output byte from an arbitrary value `junk`. -/
def cfb1Crypt (K : Cipher) (enc : Bool) (junk : Byte) : SCtx → List Byte → Option (SCtx × List Byte)
  | c, [] => some (c, [])
  | c, b :: bs =>
    match cfb1Byte K enc b 8 c junk with
    | none => none
    | some (c1, o) => match cfb1Crypt K enc junk c1 bs with
      | none => none
      | some (c2, os) => some (c2, o :: os)

/-- `MODES_CFB_Encrypt` / `MODES_CFB_Decrypt`, `modes_cfb.c:325-381`; `feedbackBits` is one of
1, 8, 64, 128.  Outer `none`: out of bounds. -/
def cfbCrypt (K : Cipher) (enc : Bool) (bits : Nat) (junk : Byte) (c : SCtx) (inp : List Byte) :
    Option (SCtx × Except Err (List Byte)) :=
  if inp.length = 0 then some (c, .error .nullInput)
  else if bits = 1 then
    if inp.length > (2 ^ 32 - 1) / 8 then some (c, .error .inputLen)
    else match cfb1Crypt K enc junk c inp with
      | none => none
      | some (c', o) => some (c', .ok o)
  else if bits = 8 ∨ bits = 64 then
    match cfbLast enc c inp with
    | none => none
    | some (c1, o, rest) =>
      let r := cfbBlocks K enc (bits / 8) rest.length c1 rest
      some (r.1, .ok (o ++ r.2))
  else if bits = 128 then
    match cfbLast enc c inp with
    | none => none
    | some (c1, o, rest) =>
      let r := cfb128Blocks K enc rest.length c1 rest
      some (r.1, .ok (o ++ r.2))
  else some (c, .error .feedbackSize)

/-- Which stream mode an `Update` runs. -/
inductive StreamMode
  | ctr | ofb
  | cfb (enc : Bool) (bits : Nat)
  deriving DecidableEq, Repr

/-- The processing function behind `processFuncs` in `MODES_CipherStreamProcess`. -/
def streamCrypt (K : Cipher) (m : StreamMode) (junk : Byte) (c : SCtx) (inp : List Byte) :
    Option (SCtx × Except Err (List Byte)) :=
  match m with
  | .ctr => (ctrCrypt K c inp).map fun r => (r.1, .ok r.2)
  | .ofb => (ofbCrypt K c inp).map fun r => (r.1, .ok r.2)
  | .cfb enc bits => cfbCrypt K enc bits junk c inp

/-- `MODES_CipherStreamProcess`, `modes.c:578-598`: `CRYPT_EAL_CipherUpdate` for a stream mode with an
output buffer of `cap` bytes. -/
def streamUpdate (K : Cipher) (m : StreamMode) (junk : Byte) (c : SCtx) (inp : List Byte)
    (cap : Nat) : Option (SCtx × Except Err (List Byte)) :=
  if inp.length = 0 then some (c, .ok [])
  else if inp.length > cap then some (c, .error .modeBuffLen)
  else streamCrypt K m junk c inp

/-- A caller feeding a message in pieces, each with enough room (`cap = inp.length`), collecting the
output.  (Driver for the statements: a sequence of `CRYPT_EAL_CipherUpdate` calls.) -/
def streamAll (K : Cipher) (m : StreamMode) (junk : Byte) :
    SCtx → List (List Byte) → Option (SCtx × Except Err (List Byte))
  | c, [] => some (c, .ok [])
  | c, x :: xs =>
    match streamUpdate K m junk c x x.length with
    | none => none
    | some (c1, .error e) => some (c1, .error e)
    | some (c1, .ok o) => match streamAll K m junk c1 xs with
      | none => none
      | some (c2, .error e) => some (c2, .error e)
      | some (c2, .ok os) => some (c2, .ok (o ++ os))

end Verif.Crypto.Modes
