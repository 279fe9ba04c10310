import Verif.Crypto.Mac.Model

/-!
# Model of the key derivation functions

`crypto/hkdf/src/hkdf.c`, `crypto/pbkdf2/src/pbkdf2.c`, `crypto/kdf/src/kdf_tls12.c`, over an abstract MAC
method table (`EAL_MacMethod`).  Null-pointer checks and allocation failures are left out.  A derivation
gives `ok out`, or an error; `Kdf.fault` marks a write or read outside a buffer, or a loop that does not
come to its end.
-/

namespace Verif.Crypto.Kdf

open Verif.Common

/-- `EAL_MacMethod` (`crypto/include/eal_mac_local.h`): a MAC object.  The flag is success; `final` gets the
capacity `*len` and delivers a tag, whose length it stores back in `*len`. -/
structure Macm where
  C : Type
  init : C → List Byte → C × Bool
  update : C → List Byte → C × Bool
  final : C → Nat → C × Option (List Byte)
  reinit : C → C
  deinit : C → C

/-- Outcome of a derivation. -/
inductive Out
  | ok (out : List Byte)
  | param        -- `CRYPT_*_PARAM_ERROR`, `CRYPT_NULL_INPUT` (length 0)
  | overflow     -- `CRYPT_HKDF_DKLEN_OVERFLOW`
  | mac          -- a MAC call failed
  | fault        -- memory error or no end
  deriving DecidableEq, Repr

/-- `HKDF_MAX_HMACSIZE`, `PBKDF2_MAX_BLOCKSIZE`, `KDFTLS12_MAX_BLOCKSIZE` (all 64). -/
def maxTag : Nat := 64

/-! ## HKDF -/

/-- `CRYPT_HKDF_Extract`, `hkdf.c:78-108`; `cap` is `*prkLen`. -/
def extract (M : Macm) (c : M.C) (key salt : List Byte) (cap : Nat) : M.C × Out :=
  let i := M.init (M.deinit c) salt
  if i.2 then
    let u := M.update i.1 key
    if u.2 then
      let f := M.final u.1 cap
      match f.2 with
      | some t => (M.deinit f.1, .ok t)
      | none => (M.deinit f.1, .mac)
    else (M.deinit u.1, .mac)
  else (M.deinit i.1, .mac)

/-- Body of the loop of `CRYPT_HKDF_Expand` after the optional `reinit` and `update(hash)`,
`hkdf.c:166-168`. -/
def expandBlock (M : Macm) (info : List Byte) (c : M.C) (counter : Byte) (cap : Nat) : M.C × Option (List Byte) :=
  let u1 := M.update c info
  if u1.2 then
    let u2 := M.update u1.1 [counter]
    if u2.2 then M.final u2.1 cap else (u2.1, none)
  else (u1.1, none)

/-- The optional chaining step, `hkdf.c:162-165`. -/
def expandChain (M : Macm) (first : Bool) (c : M.C) (hash : List Byte) (hashLen : Nat) : M.C × Bool :=
  if first then (c, true) else M.update (M.reinit c) (hash.take hashLen)

/-- The loop of `CRYPT_HKDF_Expand`, `hkdf.c:161-172`: `k` rounds to go.  `hash` is the 64-byte buffer,
whose first `hashLen` bytes are used. -/
def expandLoop (M : Macm) (info : List Byte) (outLen : Nat) :
    Nat → Bool → M.C → Byte → List Byte → Nat → List Byte → M.C × Out
  | 0, _, c, _, _, _, out => (c, .ok out)
  | k + 1, first, c, counter, hash, hashLen, out =>
    let a := expandChain M first c hash hashLen
    if a.2 then
      let f := expandBlock M info a.1 counter hashLen
      match f.2 with
      | none => (f.1, .mac)
      | some t =>
        if t.length ≤ maxTag then
          let hl := if t.length > outLen - out.length then outLen - out.length else t.length
          expandLoop M info outLen k false f.1 (counter + 1#8) t hl (out ++ t.take hl)
        else (f.1, .fault)
    else (a.1, .mac)

/-- `CRYPT_HKDF_Expand` with `HKDF_ExpandParamCheck`, `hkdf.c:110-182`. -/
def expand (M : Macm) (c : M.C) (mdSize : Nat) (prk info : List Byte) (outLen : Nat) : M.C × Out :=
  if outLen = 0 then (c, .param)
  else if mdSize = 0 then (c, .param)
  else if outLen > mdSize * 255 then (c, .overflow)
  else
    let i := M.init (M.deinit c) prk
    if i.2 then
      let r := expandLoop M info outLen ((outLen + mdSize - 1) / mdSize) true i.1 1#8 [] mdSize []
      (M.deinit r.1, r.2)
    else (M.deinit i.1, .mac)

/-- `CRYPT_HKDF`, `hkdf.c:184-198`. -/
def hkdf (M : Macm) (c : M.C) (mdSize : Nat) (key salt info : List Byte) (outLen : Nat) : M.C × Out :=
  match extract M c key salt maxTag with
  | (c1, .ok prk) => expand M c1 mdSize prk info outLen
  | r => r

/-! ## PBKDF2 -/

/-- `CRYPT_PBKDF2_U1`, `pbkdf2.c:72-95`; `CRYPT_HTONL` makes the counter big endian. -/
def u1 (M : Macm) (c : M.C) (salt : List Byte) (i : BitVec 32) (cap : Nat) : M.C × Option (List Byte) :=
  let a := M.update (M.reinit c) salt
  if a.2 then
    let b := M.update a.1 (beBytes 4 i.toNat)
    if b.2 then M.final b.1 cap else (b.1, none)
  else (a.1, none)

/-- `CRYPT_PBKDF2_Un`, `pbkdf2.c:97-114`, without the final xor: the next `u`.  `cap` and the length of
the data are the same variable `*blockSize`. -/
def un (M : Macm) (c : M.C) (u : List Byte) (blockSize : Nat) : M.C × Option (List Byte) :=
  let a := M.update (M.reinit c) (u.take blockSize)
  if a.2 then M.final a.1 blockSize else (a.1, none)

/-- `DATA_XOR(t, u, t, len)`. -/
def dataXor (t u : List Byte) : List Byte := List.zipWith (· ^^^ ·) t u

/-- The loop of `CRYPT_PBKDF2_CalcT`, `pbkdf2.c:132-139`; `k` rounds to go. -/
def calcLoop (M : Macm) : Nat → M.C → List Byte → List Byte → M.C × Option (List Byte)
  | 0, c, _, t => (c, some t)
  | k + 1, c, u, t =>
    let f := un M c u u.length
    match f.2 with
    | none => (f.1, none)
    | some u' => calcLoop M k f.1 u' (dataXor t u')

/-- `CRYPT_PBKDF2_CalcT`, `pbkdf2.c:116-147`; the result is `t[0 .. *tlen)`. -/
def calcT (M : Macm) (c : M.C) (salt : List Byte) (iterCnt : Nat) (i : BitVec 32) (tlen : Nat) :
    M.C × Option (List Byte) :=
  let f := u1 M c salt i maxTag
  match f.2 with
  | none => (f.1, none)
  | some u =>
    let r := calcLoop M (iterCnt - 1) f.1 u u
    match r.2 with
    | none => (r.1, none)
    | some t => (r.1, some (t.take (if tlen > t.length then t.length else tlen)))

/-- The loop of `CRYPT_PBKDF2_GenDk`, `pbkdf2.c:164-174`.  Every round makes progress when tags are not
empty; the first argument bounds the number of rounds, running out is a `fault`. -/
def genLoop (M : Macm) (salt : List Byte) (iterCnt : Nat) :
    Nat → M.C → BitVec 32 → Nat → List Byte → M.C × Out
  | 0, c, _, curLen, out => if curLen > 0 then (c, .fault) else (c, .ok out)
  | k + 1, c, i, curLen, out =>
    if curLen > 0 then
      let f := calcT M c salt iterCnt i curLen
      match f.2 with
      | none => (f.1, .mac)
      | some t => genLoop M salt iterCnt k f.1 (i + 1#32) (curLen - t.length) (out ++ t)
    else (c, .ok out)

/-- `CRYPT_PBKDF2_GenDk`, `pbkdf2.c:149-176`. -/
def genDk (M : Macm) (c : M.C) (password salt : List Byte) (iterCnt dkLen : Nat) : M.C × Out :=
  let i := M.init c password
  if i.2 then genLoop M salt iterCnt dkLen i.1 1#32 dkLen [] else (i.1, .mac)

/-- `CRYPT_PBKDF2_Derive`, `pbkdf2.c:371-410`, and `CRYPT_PBKDF2_HMAC`, `:178-231`: the same checks. -/
def pbkdf2 (M : Macm) (c : M.C) (mdSize : Nat) (password salt : List Byte) (iterCnt len : Nat) : M.C × Out :=
  if mdSize = 0 then (c, .param)
  else if len = 0 ∨ iterCnt = 0 then (c, .param)
  else genDk M c password salt iterCnt len

/-! ## TLS 1.2 PRF -/

/-- `KDF_Hmac`, `kdf_tls12.c:64-72`. -/
def kdfHmac (M : Macm) (c : M.C) (data : List Byte) (len : Nat) : M.C × Option (List Byte) :=
  let a := M.update (M.reinit c) (data.take len)
  if a.2 then M.final a.1 len else (a.1, none)

/-- First round, `kdf_tls12.c:86-90`. -/
def phashFirst (M : Macm) (c : M.C) (key label seed : List Byte) (cap : Nat) : M.C × Option (List Byte) :=
  let i := M.init c key
  if i.2 then
    let a := M.update i.1 label
    if a.2 then
      let b := M.update a.1 seed
      if b.2 then M.final b.1 cap else (b.1, none)
    else (a.1, none)
  else (i.1, none)

/-- Output block, `kdf_tls12.c:95-99`. -/
def phashOut (M : Macm) (c : M.C) (next label seed : List Byte) (cap : Nat) : M.C × Option (List Byte) :=
  let a := M.update (M.reinit c) next
  if a.2 then
    let b := M.update a.1 label
    if b.2 then
      let d := M.update b.1 seed
      if d.2 then M.final d.1 cap else (d.1, none)
    else (b.1, none)
  else (a.1, none)

/-- The next `A(i)`, `kdf_tls12.c:85-93`. -/
def phashNext (M : Macm) (c : M.C) (key label seed : List Byte) (total : Nat) (next : List Byte) (nextLen : Nat) :
    M.C × Option (List Byte) :=
  if total = 0 then phashFirst M c key label seed nextLen else kdfHmac M c next nextLen

/-- The loop of `KDF_PHASH`, `kdf_tls12.c:84-104`; the first argument bounds the rounds. -/
def phashLoop (M : Macm) (key label seed : List Byte) (len : Nat) :
    Nat → M.C → List Byte → Nat → Nat → List Byte → M.C × Out
  | 0, c, _, _, _, out => if len > out.length then (c, .fault) else (c, .ok out)
  | k + 1, c, next, nextLen, outTmpLen, out =>
    if len > out.length then
      let a := phashNext M c key label seed out.length next nextLen
      match a.2 with
      | none => (a.1, .mac)
      | some next' =>
        let b := phashOut M a.1 next' label seed outTmpLen
        match b.2 with
        | none => (b.1, .mac)
        | some t =>
          let cpy := if t.length > len - out.length then len - out.length else t.length
          phashLoop M key label seed len k b.1 next' next'.length t.length (out ++ t.take cpy)
    else (c, .ok out)

/-- `CRYPT_KDFTLS12_Derive` and `KDF_PHASH`, `kdf_tls12.c:75-112`, `:188-218`. -/
def tls12 (M : Macm) (c : M.C) (key label seed : List Byte) (len : Nat) : M.C × Out :=
  if len = 0 then (c, .param)
  else
    let r := phashLoop M key label seed len len c [] maxTag maxTag []
    (M.deinit r.1, r.2)

/-! ## HMAC as a method table -/

/-- `EAL_MacMethod` of HMAC (`eal_mac_method.c`). -/
def hmacMeth (m : Mac.Md) : Macm where
  C := Mac.HCtx m
  init c key := match Mac.hmacInit m key with
    | some r => r
    | none => (c, false)
  update c d := Mac.hmacUpdate m c d
  final c cap := Mac.hmacFinal m c cap
  reinit c := Mac.hmacReinit m c
  deinit _ := Mac.hmacDeinit m

end Verif.Crypto.Kdf
