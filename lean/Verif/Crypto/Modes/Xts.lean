import Verif.Crypto.Modes.Cipher

/-!
# Model of XTS mode, `crypto/modes/src/modes_xts.c`

`MODES_XTS_Update` hands every input to `MODES_XTS_Encrypt/Decrypt` directly
(`MODES_CipherStreamProcess`, `modes.c:578-598`).  The 16-byte tweak lives in the context.  `sm4`
selects between the two doubling routines as `ciphMeth->algId == CRYPT_SYM_SM4` does.
-/

namespace Verif.Crypto.Modes

open Verif.Common

/-- `GF128Mul`, little-endian build, `modes_xts.c:116-126`: the tweak as two native `uint64_t`.
Simplification: `none`-free because the array is always 16 bytes. -/
def gfMul (a : List Byte) : List Byte :=
  let t0 : BitVec 64 := BitVec.ofNat 64 (leVal (a.take 8))
  let t1 : BitVec 64 := BitVec.ofNat 64 (leVal (a.drop 8))
  let c : BitVec 8 := (t1 >>> 63).setWidth 8 &&& 0xff#8
  let t1' := t1 <<< 1 ||| t0 >>> 63
  let t0' := t0 <<< 1
  let t0'' := if c ≠ 0 then t0' ^^^ 0x87#64 else t0'
  leBytes 8 t0''.toNat ++ leBytes 8 t1'.toNat

/-- Loop of `GF128Mul`, big-endian build, `modes_xts.c:104-108`: new bytes and the final `out`. -/
def gfMulBELoop : Byte → List Byte → List Byte × Byte
  | out, [] => ([], out)
  | inn, x :: xs =>
    let out := (x >>> 7) &&& 1#8
    let r := gfMulBELoop out xs
    (((x <<< 1) + inn) :: r.1, r.2)

/-- `GF128Mul`, big-endian build, `modes_xts.c:98-112`. -/
def gfMulBE (a : List Byte) : List Byte :=
  let r := gfMulBELoop 0#8 a
  match r.1 with
  | [] => []
  | y :: ys => if r.2.toNat > 0 then (y ^^^ 0x87#8) :: ys else y :: ys

/-- Loop of `GF128Mul_GM`, `modes_xts.c:134-138`. -/
def gfMulGMLoop : Byte → List Byte → List Byte × Byte
  | out, [] => ([], out)
  | inn, x :: xs =>
    let out := (x <<< 7) &&& 0x80#8
    let r := gfMulGMLoop out xs
    (((x >>> 1) + inn) :: r.1, r.2)

/-- `GF128Mul_GM`, `modes_xts.c:129-142`; `SM4_XTS_POLYNOMIAL = 0xE1` (`modes_xts.c:33`). -/
def gfMulGM (a : List Byte) : List Byte :=
  let r := gfMulGMLoop 0#8 a
  match r.1 with
  | [] => []
  | y :: ys => if r.2.toNat > 0 then (y ^^^ 0xE1#8) :: ys else y :: ys

/-- The doubling step used by the mode, `modes_xts.c:178-182, 213-217, 273-277, 283-287`. -/
def tweakNext (sm4 : Bool) (t : List Byte) : List Byte := if sm4 then gfMulGM t else gfMul t

/-- `BlockCrypt`, `modes_xts.c:144-162`. -/
def xtsBlock (K : Cipher) (enc : Bool) (inp t : List Byte) : List Byte :=
  let pp := xorB inp t
  let pp := if enc then K.enc pp else K.dec pp
  xorB pp t

/-- `BlocksCrypt`, `modes_xts.c:164-187`: tweak, output so far, unread input.  Fuel: input length. -/
def xtsBlocks (K : Cipher) (sm4 enc : Bool) : Nat → List Byte → List Byte → List Byte × List Byte × List Byte
  | 0, t, inp => (t, [], inp)
  | f + 1, t, inp =>
    if inp.length ≥ 2 * 16 then
      let o := xtsBlock K enc (inp.take 16) t
      let r := xtsBlocks K sm4 enc f (tweakNext sm4 t) (inp.drop 16)
      (r.1, o ++ r.2.1, r.2.2)
    else (t, [], inp)

/-- The byte loop of the encryption's ciphertext stealing, `modes_xts.c:225-228`: bytes stored at
`tmpOut` and bytes collected in `pp`.  When the caller encrypts in place (`inPlace`), `tmpOut` and
`tmpIn` are the same memory, so `tmpIn[i]` is read after `tmpOut[i]` was overwritten. -/
def stealEnc (inPlace : Bool) (lastBlock tail : List Byte) : List Byte × List Byte :=
  let stored := lastBlock.take tail.length
  (stored, if inPlace then stored else tail)

/-- `MODES_XTS_Encrypt`, `modes_xts.c:189-246`: new tweak and output. -/
def xtsEncrypt (K : Cipher) (sm4 inPlace : Bool) (t inp : List Byte) :
    Except Err (List Byte × List Byte) :=
  if inp.length < 16 then .error .modeBuffLen
  else
    let r := xtsBlocks K sm4 true inp.length t inp
    let last := xtsBlock K true (r.2.2.take 16) r.1
    let tail := r.2.2.drop 16
    let t' := tweakNext sm4 r.1
    if tail.length = 0 then .ok (t', r.2.1 ++ last)
    else
      let s := stealEnc inPlace last tail
      let pp := s.2 ++ last.drop tail.length
      .ok (t', r.2.1 ++ (xtsBlock K true pp t' ++ s.1))

/-- The byte loop of the decryption's ciphertext stealing, `modes_xts.c:292-295`: `pp[i]` goes to the
output before `tmpIn[i + 16]` is read into `pp[i]`.  Bytes stored at `tmpOut + 16`, new prefix of
`pp`. -/
def stealDec (inPlace : Bool) (pp tail : List Byte) : List Byte × List Byte :=
  let stored := pp.take tail.length
  (stored, if inPlace then stored else tail)

/-- `MODES_XTS_Decrypt`, `modes_xts.c:248-308`. -/
def xtsDecrypt (K : Cipher) (sm4 inPlace : Bool) (t inp : List Byte) :
    Except Err (List Byte × List Byte) :=
  if inp.length < 16 then .error .modeBuffLen
  else
    let r := xtsBlocks K sm4 false inp.length t inp
    if r.2.2.length = 16 then
      .ok (tweakNext sm4 r.1, r.2.1 ++ xtsBlock K false r.2.2 r.1)
    else
      let t2 := r.1
      let t' := tweakNext sm4 r.1
      let pp := xtsBlock K false (r.2.2.take 16) t'
      let tail := r.2.2.drop 16
      let s := stealDec inPlace pp tail
      let pp' := s.2 ++ pp.drop tail.length
      .ok (t', r.2.1 ++ (xtsBlock K false pp' t2 ++ s.1))

/-- `MODES_XTS_SetIv`, `modes_xts.c:323-346`: the first tweak is the IV encrypted under key 2. -/
def xtsSetIv (K2 : Cipher) (iv : List Byte) : Except Err (List Byte) :=
  if iv.length ≠ 16 then .error .ivLen else .ok (K2.enc iv)

/-- Key checks, `MODES_XTS_CheckPara` (AES) and `MODES_XTS_SetEncryptKey`, `modes_xts.c:41-73`: key
length 32 or 64 bytes and the two halves different.  Result: the two keys. -/
def xtsSplitKey (key : List Byte) : Except Err (List Byte × List Byte) :=
  if key.length ≠ 32 ∧ key.length ≠ 64 then .error .keyLen
  else
    let h := key.length >>> 1
    if key.take h = (key.drop h).take h then .error .key
    else .ok (key.take h, (key.drop h).take h)

/-- `MODES_XTS_MAX_DATA_UNIT_BYTES`, `modes_xts.c:31-32`. -/
def xtsMaxUnit : Nat := 2 ^ 20 * 16

/-- The context fields used by updates: `enc`, `tweak`, `totalLen` (`modes_local.h`). -/
structure XCtx where
  enc : Bool
  tweak : List Byte
  total : Nat

/-- `XTS_CheckUpdateParam` and `MODES_XTS_UpdateEx`, `modes_xts.c:515-567`, with
`MODES_CipherStreamProcess` inlined: `CRYPT_EAL_CipherUpdate` on an XTS context with room for `cap`
bytes.  `dataLen` is 0 throughout for this mode.  `uint32_t` subtraction as in C. -/
def xtsUpdate (K : Cipher) (sm4 inPlace : Bool) (c : XCtx) (inp : List Byte) (cap : Nat) :
    XCtx × Except Err (List Byte) :=
  if cap < inp.length then (c, .error .ealBuffLen)
  else if inp.length > (xtsMaxUnit + 2 ^ 32 - c.total) % 2 ^ 32 then (c, .error .cryptLen)
  else if inp.length = 0 then (c, .ok [])
  else
    match (if c.enc then xtsEncrypt K sm4 inPlace c.tweak inp else xtsDecrypt K sm4 inPlace c.tweak inp) with
    | .error e => (c, .error e)
    | .ok (t, o) => ({ c with tweak := t, total := c.total + inp.length }, .ok o)

end Verif.Crypto.Modes
