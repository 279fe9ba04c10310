import Verif.Common.Bits
import Verif.Bsl.Bytes.Model
import Verif.Crypto.Modes.Cipher
/-! Model of `crypto/modes/src/modes_aes_wrap.c`: key wrap and unwrap.

A memory area is the list of its bytes; a read or write outside one is `none`.  The keyed block cipher is
the abstract `Cipher` of `Verif.Crypto.Modes.Cipher`.  In every function below `in` is read completely
before `out` is first written, so the two being separate lists also covers overlapping buffers. -/
namespace Verif.Crypto.Wrap
open Verif.Common Verif.Crypto.Modes

/-- `CRYPT_WRAP_MAX_INPUT_LEN` (`crypto/modes/include/crypt_modes_aes_wrap.h:35`). -/
def maxInput : Nat := 2 ^ 32 - 1 - 2 * 8

/-- Reading `n` bytes at offset `off`. -/
def rd (m : List Byte) (off n : Nat) : Option (List Byte) :=
  if off + n ≤ m.length then some ((m.drop off).take n) else none

/-- Writing bytes at offset `off` (`memcpy`, `memmove`, `memset`). -/
def wr (m : List Byte) (off : Nat) (d : List Byte) : Option (List Byte) :=
  if off + d.length ≤ m.length then some (m.take off ++ (d ++ m.drop (off + d.length))) else none

/-- Return codes. -/
inductive Ret where
  | success | inputLen | buffLen | decError | ivLen | nullInput
deriving DecidableEq, Repr

/-- `MODES_CipherWRAPCtx` (`crypto/modes/include/crypt_modes_aes_wrap.h`): padding flag and IV field, 8
bytes of which the padding variant uses the first 4. -/
structure Ctx where
  flagPad : Bool
  iv : List Byte

/-- `WRAP_ResetDefaultIV` (`crypto/modes/src/modes_aes_wrap.c:46-53`). -/
def resetIv (c : Ctx) : Ctx :=
  if c.flagPad then { c with iv := [0xa6#8, 0x59#8, 0x59#8, 0xa6#8] ++ c.iv.drop 4 }
  else { c with iv := List.replicate 8 0xa6#8 }

/-- `MODES_WRAP_NewCtx` (`crypto/modes/src/modes_aes_wrap.c:329-353`), the fields modelled. -/
def newCtx (isPad : Bool) : Ctx := resetIv ⟨isPad, List.replicate 8 0#8⟩

/-- `WRAP_SetIV` (`crypto/modes/src/modes_aes_wrap.c:301-312`); `none` is a NULL `val`. -/
def setIv (c : Ctx) (val : Option (List Byte)) : Ret × Ctx :=
  match val with
  | none => (.success, resetIv c)
  | some v =>
    if (c.flagPad ∧ v.length ≠ 4) ∨ (¬ c.flagPad ∧ v.length ≠ 8) then (.ivLen, c)
    else (.success, { c with iv := v ++ c.iv.drop v.length })

/-- `WRAP_GetIV` (`crypto/modes/src/modes_aes_wrap.c:314-327`) into a buffer of `len` bytes: the bytes
stored. -/
def getIv (c : Ctx) (len : Nat) : Ret × List Byte :=
  if c.flagPad ∧ len ≥ 4 then (.success, c.iv.take 4)
  else if ¬ c.flagPad ∧ len ≥ 8 then (.success, c.iv.take 8)
  else (.ivLen, [])

/-- `WRAP_DataBytesXor` (`crypto/modes/src/modes_aes_wrap.c:76-86`) applied at offset
`AES_WRAP_T_LEN_BYTE_OFFSET` = 4 of an 8-byte array. -/
def dataBytesXor (a : List Byte) (val : BitVec 32) : List Byte :=
  let t : Byte := (val &&& 0xff#32).setWidth 8
  let a := a.modify 7 (· ^^^ t)
  if t.setWidth 32 = val then a
  else
    let a := a.modify 6 (· ^^^ ((val >>> 8) &&& 0xff#32).setWidth 8)
    let a := a.modify 5 (· ^^^ ((val >>> 16) &&& 0xff#32).setWidth 8)
    a.modify 4 (· ^^^ ((val >>> 24) &&& 0xff#32).setWidth 8)

/-- The inner loop of `WRAP_Encrypt` (`crypto/modes/src/modes_aes_wrap.c:103-113`), `n` iterations; `a`
is the first half of `encBuf`. -/
def encPass (C : Cipher) : Nat → Nat → BitVec 32 → List Byte → List Byte →
    Option (BitVec 32 × List Byte × List Byte)
  | 0, _, t, a, out => some (t, a, out)
  | n + 1, ptr, t, a, out => do
    let r ← rd out ptr 8
    let b := C.enc (a ++ r)
    let out ← wr out ptr (b.drop 8)
    encPass C n (ptr + 8) (t + 1#32) (dataBytesXor (b.take 8) t) out

/-- The outer loop of `WRAP_Encrypt` (`crypto/modes/src/modes_aes_wrap.c:101-114`), `j` iterations. -/
def encRounds (C : Cipher) (inLen : Nat) : Nat → BitVec 32 → List Byte → List Byte →
    Option (BitVec 32 × List Byte × List Byte)
  | 0, t, a, out => some (t, a, out)
  | j + 1, t, a, out => do
    let (t, a, out) ← encPass C ((inLen + 7) / 8) 8 t a out
    encRounds C inLen j t a out

/-- `WRAP_Encrypt` (`crypto/modes/src/modes_aes_wrap.c:89-117`). -/
def wrapEncrypt (C : Cipher) (out : List Byte) (inLen : Nat) (iv : List Byte) : Option (Ret × List Byte) :=
  if inLen < 16 ∨ inLen > maxInput ∨ inLen % 8 ≠ 0 then some (.inputLen, out)
  else do
    let (_, a, out) ← encRounds C inLen 6 1#32 iv out
    let out ← wr out 0 a
    some (.success, out)

/-- The inner loop of `WRAP_Decrypt` (`crypto/modes/src/modes_aes_wrap.c:133-145`), `n` iterations.
Simplified: the pointer value formed after the last iteration, 8 bytes before `out`, is never used and is
0 here. -/
def decPass (C : Cipher) : Nat → Nat → BitVec 32 → List Byte → List Byte →
    Option (BitVec 32 × List Byte × List Byte)
  | 0, _, t, a, out => some (t, a, out)
  | n + 1, ptr, t, a, out => do
    let r ← rd out ptr 8
    let b := C.dec (dataBytesXor a t ++ r)
    let out ← wr out ptr (b.drop 8)
    decPass C n (ptr - 8) (t - 1#32) (b.take 8) out

/-- The outer loop of `WRAP_Decrypt` (`crypto/modes/src/modes_aes_wrap.c:131-146`), `j` iterations. -/
def decRounds (C : Cipher) (outLen : Nat) : Nat → BitVec 32 → List Byte → List Byte →
    Option (BitVec 32 × List Byte × List Byte)
  | 0, t, a, out => some (t, a, out)
  | j + 1, t, a, out => do
    let (t, a, out) ← decPass C ((outLen + 7) / 8) (outLen - 8) t a out
    decRounds C outLen j t a out

/-- `WRAP_Decrypt` (`crypto/modes/src/modes_aes_wrap.c:120-157`): return code, `aiv` (padding variant)
and `out`. -/
def wrapDecrypt (C : Cipher) (c : Ctx) (inp out : List Byte) : Option (Ret × List Byte × List Byte) := do
  let outLen := inp.length - 8
  let a ← rd inp 0 8
  let d ← rd inp 8 outLen
  let out ← wr out 0 d
  let (_, a, out) ← decRounds C outLen 6 (BitVec.ofNat 32 (6 * (outLen / 8))) a out
  if c.flagPad then some (.success, a, out)
  else if Bsl.Bytes.ctMemcmp c.iv a = 0#32 then do
    let out ← wr out 0 (List.replicate outLen 0#8)
    some (.decError, [], out)
  else some (.success, [], out)

/-- `WRAP_EncryptPad`, the encryption proper (`crypto/modes/src/modes_aes_wrap.c:183-188`). -/
def encryptPadCore (C : Cipher) (out : List Byte) (inLen padLen : Nat) (aiv : List Byte) :
    Option (Ret × List Byte) :=
  if inLen ≤ 8 then do
    let out ← wr out 0 aiv
    let b ← rd out 0 16
    let out ← wr out 0 (C.enc b)
    some (.success, out)
  else wrapEncrypt C out (inLen + padLen) aiv

/-- `WRAP_EncryptPad` (`crypto/modes/src/modes_aes_wrap.c:160-195`): return code, `out`, `*outLen`. -/
def encryptPad (C : Cipher) (c : Ctx) (inp out : List Byte) (outLen : Nat) : Option (Ret × List Byte × Nat) :=
  if inp.length = 0 ∨ inp.length > maxInput then some (.inputLen, out, outLen)
  else
    let padLen := if inp.length % 8 ≠ 0 then 8 - inp.length % 8 else 0
    if outLen < inp.length + padLen + 8 then some (.buffLen, out, outLen)
    else do
      let out ← wr out 8 inp
      let out ← wr out (inp.length + 8) (List.replicate padLen 0#8)
      let aiv := dataBytesXor (c.iv.take 4 ++ List.replicate 4 0#8) (BitVec.ofNat 32 inp.length)
      let (ret, out) ← encryptPadCore C out inp.length padLen aiv
      if ret ≠ .success then do
        let out ← wr out 0 (List.replicate outLen 0#8)
        some (ret, out, outLen)
      else some (.success, out, inp.length + padLen + 8)

/-- `DecryptResultGetLen` (`crypto/modes/src/modes_aes_wrap.c:197-219`): the plaintext length, or `none`
inside for `CRYPT_MODES_WRAP_DEC_ERROR`.  `byteToUint32` is the expression of `:205-206`. -/
def resultLen (c : Ctx) (plaintext aiv : List Byte) (padLen inLen : Nat) : Option (Option Nat) :=
  if Bsl.Bytes.ctMemcmp (aiv.take 4) (c.iv.take 4) = 0#32 then some none
  else do
    let v ← Bsl.Bytes.byteToUint32 (aiv.drop 4)
    if v.toNat > padLen ∨ v.toNat ≤ inLen - 16 then some none
    else do
      let r ← rd plaintext v.toNat (padLen - v.toNat)
      let z ← rd (List.replicate 8 0#8) 0 (padLen - v.toNat)
      if Bsl.Bytes.ctMemcmp r z = 0#32 then some none else some (some v.toNat)

/-- `WRAP_DecryptPad`, the decryption proper (`crypto/modes/src/modes_aes_wrap.c:230-244`): return code,
`aiv`, `out` and `padLen`. -/
def decryptPadCore (C : Cipher) (c : Ctx) (inp out : List Byte) :
    Option (Ret × List Byte × List Byte × Nat) :=
  if inp.length = 16 then do
    let b := C.dec inp
    let out ← wr out 0 (b.drop 8)
    some (.success, b.take 8, out, 8)
  else do
    let (ret, aiv, out) ← wrapDecrypt C c inp out
    some (ret, aiv, out, inp.length - 8)

/-- `WRAP_DecryptPad` (`crypto/modes/src/modes_aes_wrap.c:222-250`). -/
def decryptPad (C : Cipher) (c : Ctx) (inp out : List Byte) (outLen : Nat) : Option (Ret × List Byte × Nat) := do
  let (ret, aiv, out, padLen) ← decryptPadCore C c inp out
  if ret ≠ .success then some (ret, out, outLen)
  else do
    let r ← resultLen c out aiv padLen inp.length
    match r with
    | some n => some (.success, out, n)
    | none => do
      let out ← wr out 0 (List.replicate outLen 0#8)
      some (.decError, out, outLen)

/-- `MODE_WRAP_Encrypt` (`crypto/modes/src/modes_aes_wrap.c:252-276`); `outLen` is `*outLen`. -/
def encrypt (C : Cipher) (c : Ctx) (inp out : List Byte) (outLen : Nat) : Option (Ret × List Byte × Nat) :=
  if c.flagPad = false then
    if outLen < inp.length + 8 then some (.buffLen, out, outLen)
    else do
      let out ← wr out 8 inp
      let (ret, out) ← wrapEncrypt C out inp.length c.iv
      if ret ≠ .success then do
        let out ← wr out 0 (List.replicate outLen 0#8)
        some (ret, out, outLen)
      else some (.success, out, inp.length + 8)
  else encryptPad C c inp out outLen

/-- `MODE_WRAP_Decrypt` (`crypto/modes/src/modes_aes_wrap.c:278-299`). -/
def decrypt (C : Cipher) (c : Ctx) (inp out : List Byte) (outLen : Nat) : Option (Ret × List Byte × Nat) :=
  if inp.length < 16 ∨ inp.length > maxInput ∨ inp.length % 8 ≠ 0 then some (.inputLen, out, outLen)
  else if outLen < inp.length - 8 then some (.buffLen, out, outLen)
  else if c.flagPad = false then do
    let (ret, _, out) ← wrapDecrypt C c inp out
    some (ret, out, inp.length - 8)
  else decryptPad C c inp out outLen

end Verif.Crypto.Wrap
