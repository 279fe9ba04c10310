import Verif.Common.Bits
import Verif.Common.Endian
import Verif.Bsl.Bytes.Model
import Verif.Crypto.Sm4.Tables

/-!
# Model of the portable SM4 block cipher

`crypto/sm4/src/crypt_sm4.c` and `crypto/sm4/src/sm4_key.c` (the build without assembly).
Reads outside an array are `none`.
-/

namespace Verif.Crypto.Sm4

open Verif.Common Verif.Bsl.Bytes

/-- `GET_UINT32_BE(p, i)`, `crypto/include/crypt_utils.h:78-84`. -/
def getBe (p : List Byte) (i : Nat) : Option (BitVec 32) := byteToUint32 (p.drop i)

/-- `PUT_UINT32_BE(v, p, i)`, `crypto/include/crypt_utils.h:58-64`: the four bytes written. -/
def putBe (v : BitVec 32) : List Byte := uint32ToByte v

/-- A table look-up `tab[(t >> s) & 0xff]`; reading outside the table is `none`. -/
def look (tab : List (BitVec 32)) (t : BitVec 32) (s : Nat) : Option (BitVec 32) :=
  tab[((t >>> s) &&& 0xff#32).toNat]?

/-- `CRYPT_SM4_ROUND`, `crypto/sm4/src/crypt_sm4.c:189-196`: the new value of `x0`. -/
def round (x0 x1 x2 x3 rk : BitVec 32) : Option (BitVec 32) := do
  let t := x1 ^^^ x2 ^^^ x3 ^^^ rk
  let a ← look xbox3 t 24
  let b ← look xbox2 t 16
  let c ← look xbox1 t 8
  let d ← look xbox0 t 0
  some (x0 ^^^ a ^^^ b ^^^ c ^^^ d)

/-- The four working words `x[0..3]`. -/
structure St where
  x0 : BitVec 32
  x1 : BitVec 32
  x2 : BitVec 32
  x3 : BitVec 32
  deriving DecidableEq, Repr

/-- Four consecutive `CRYPT_SM4_ROUND`s with round keys at the given indices: the body of the
loops of `ENC_ROUND_FUNCTION`/`DEC_ROUND_FUNCTION`, `crypto/sm4/src/crypt_sm4.c:201-204`,
`:210-213`. -/
def four (rk : List (BitVec 32)) (i0 i1 i2 i3 : Nat) (x : St) : Option St := do
  let k0 ← rk[i0]?
  let y0 ← round x.x0 x.x1 x.x2 x.x3 k0
  let k1 ← rk[i1]?
  let y1 ← round x.x1 x.x2 x.x3 y0 k1
  let k2 ← rk[i2]?
  let y2 ← round x.x2 x.x3 y0 y1 k2
  let k3 ← rk[i3]?
  let y3 ← round x.x3 y0 y1 y2 k3
  some ⟨y0, y1, y2, y3⟩

/-- `ENC_ROUND_FUNCTION`, `crypto/sm4/src/crypt_sm4.c:199-205`: `for (i = 0; i < 32; i += 4)`;
`n` iterations are left and the loop variable is `i`. -/
def encLoop (rk : List (BitVec 32)) : Nat → Nat → St → Option St
  | 0, _, x => some x
  | n + 1, i, x => do encLoop rk n (i + 4) (← four rk (i + 0) (i + 1) (i + 2) (i + 3) x)

/-- `DEC_ROUND_FUNCTION`, `crypto/sm4/src/crypt_sm4.c:208-214`: `for (i = 28; i >= 0; i -= 4)`;
`n` iterations are left, so the loop variable is `4 * (n - 1)`. -/
def decLoop (rk : List (BitVec 32)) : Nat → St → Option St
  | 0, x => some x
  | n + 1, x => do decLoop rk n (← four rk (4 * n + 3) (4 * n + 2) (4 * n + 1) (4 * n + 0) x)

/-- `SM4_Crypt`, `crypto/sm4/src/crypt_sm4.c:217-236`: the 16 bytes written to `out`. -/
def block (inp : List Byte) (rk : List (BitVec 32)) (enc : Bool) : Option (List Byte) := do
  let x0 ← getBe inp 0
  let x1 ← getBe inp 4
  let x2 ← getBe inp 8
  let x3 ← getBe inp 12
  let x ← if enc then encLoop rk 8 0 ⟨x0, x1, x2, x3⟩ else decLoop rk 8 ⟨x0, x1, x2, x3⟩
  some (putBe x.x3 ++ putBe x.x2 ++ putBe x.x1 ++ putBe x.x0)

/-- Return codes. -/
inductive Err
  | nullInput | msgLen | keyLen
  deriving DecidableEq, Repr

/-- The result of a call: an error code, or success with the produced bytes; `oob` is a read
outside an array. -/
inductive Res (α : Type)
  | err (e : Err)
  | ok (a : α)
  | oob
  deriving DecidableEq, Repr

/-- `CRYPT_SM4_Crypt`'s block loop, `crypto/sm4/src/crypt_sm4.c:252-254`, over memory: block `i`
is read from offset `src + 16 * i` and written at `dst + 16 * i` of the same memory, so
`src = dst` is the in-place call. -/
def blocks (rk : List (BitVec 32)) (enc : Bool) (src dst : Nat) :
    Nat → Nat → List Byte → Option (List Byte)
  | 0, _, mem => some mem
  | n + 1, i, mem => do
    let o ← block (mem.drop (src + 16 * i)) rk enc
    if dst + 16 * i + 16 ≤ mem.length then
      blocks rk enc src dst n (i + 1) (mem.take (dst + 16 * i) ++ o ++ mem.drop (dst + 16 * i + 16))
    else none

/-- `CRYPT_SM4_Crypt`, `crypto/sm4/src/crypt_sm4.c:238-261` (`CRYPT_SM4_Encrypt` and
`CRYPT_SM4_Decrypt` `:263-271` fix `enc`): the memory after the call.  Pointers are offsets into
`mem` and never NULL here. -/
def crypt (rk : List (BitVec 32)) (mem : List Byte) (src dst length : Nat) (enc : Bool) :
    Res (List Byte) :=
  if length = 0 then .err .nullInput
  else if length % 16 ≠ 0 then .err .msgLen
  else match blocks rk enc src dst (length / 16) 0 mem with
    | some m => .ok m
    | none => .oob

/-- `KROUND`, `crypto/sm4/src/sm4_key.c:186-194`: the new `k0`, which is also the round key. -/
def kround (k0 k1 k2 k3 c : BitVec 32) : Option (BitVec 32) := do
  let t := k1 ^^^ k2 ^^^ k3 ^^^ c
  let a ← look kbox3 t 24
  let b ← look kbox2 t 16
  let c ← look kbox1 t 8
  let d ← look kbox0 t 0
  some (k0 ^^^ a ^^^ b ^^^ c ^^^ d)

/-- `KROUND_FUNCTION`, `crypto/sm4/src/sm4_key.c:197-203`: `n` iterations left, loop variable
`i`; the round keys written so far are `rk`. -/
def keyLoop : Nat → Nat → St → List (BitVec 32) → Option (List (BitVec 32))
  | 0, _, _, rk => some rk
  | n + 1, i, x, rk => do
    let c0 ← ck[i + 0]?
    let y0 ← kround x.x0 x.x1 x.x2 x.x3 c0
    let c1 ← ck[i + 1]?
    let y1 ← kround x.x1 x.x2 x.x3 y0 c1
    let c2 ← ck[i + 2]?
    let y2 ← kround x.x2 x.x3 y0 y1 c2
    let c3 ← ck[i + 3]?
    let y3 ← kround x.x3 y0 y1 y2 c3
    keyLoop n (i + 4) ⟨y0, y1, y2, y3⟩ (rk ++ [y0, y1, y2, y3])

/-- `CRYPT_SM4_SetKey` past its checks, `crypto/sm4/src/sm4_key.c:217-223`. -/
def expand (key : List Byte) : Option (List (BitVec 32)) := do
  let k0 ← getBe key 0
  let f0 ← fk[0]?
  let k1 ← getBe key 4
  let f1 ← fk[1]?
  let k2 ← getBe key 8
  let f2 ← fk[2]?
  let k3 ← getBe key 12
  let f3 ← fk[3]?
  keyLoop 8 0 ⟨k0 ^^^ f0, k1 ^^^ f1, k2 ^^^ f2, k3 ^^^ f3⟩ []

/-- `CRYPT_SM4_SetKey`, `crypto/sm4/src/sm4_key.c:205-230`: the round keys stored in `ctx->rk`. -/
def setKey (key : List Byte) : Res (List (BitVec 32)) :=
  if key.length ≠ 16 then .err .keyLen
  else match expand key with
    | some rk => .ok rk
    | none => .oob

end Verif.Crypto.Sm4
