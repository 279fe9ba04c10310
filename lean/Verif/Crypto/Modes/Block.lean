import Verif.Crypto.Modes.Cipher

/-!
# ECB and CBC with padding behind Update / Final

`crypto/modes/src/modes_cbc.c`, `modes_ecb.c` and the block framework of `modes.c`
(`MODES_CipherUpdate`, `MODES_CipherFinal`, `MODES_BlockPadding`, `MODES_BlockUnPadding`).

Input and output buffers are taken not to overlap (see `DESIGN.md`, findings, for what happens when
they do and data is cached).  Every function that can fail returns the context as it is left by the
failure.
-/

namespace Verif.Crypto.Modes

open Verif.Common

/-- `CRYPT_PaddingType`, `include/crypto/crypt_types.h`. -/
inductive Pad
  | none | zeros | iso7816 | x923 | pkcs5 | pkcs7
  deriving DecidableEq, Repr

/-- Block modes of the framework. -/
inductive BMode
  | ecb | cbc
  deriving DecidableEq, Repr

/-- `MODES_CipherCtx` as used by ECB/CBC: chaining value, cached partial block (`data[0..dataLen)`),
direction and padding. -/
structure BCtx where
  enc : Bool
  pad : Pad
  iv : List Byte
  data : List Byte
  deriving DecidableEq, Repr

/-- Loop of `MODES_CBC_Encrypt`, `modes_cbc.c:49-63`; the chaining value is the last ciphertext block.
Returns the final chaining value and the output. -/
def cbcEncLoop (K : Cipher) : Nat → List Byte → List Byte → List Byte × List Byte
  | 0, iv, _ => (iv, [])
  | fuel + 1, iv, inp =>
    if inp.length ≥ 16 then
      let o := K.enc (xorB (inp.take 16) iv)
      let r := cbcEncLoop K fuel o (inp.drop 16)
      (r.1, o ++ r.2)
    else (iv, [])

/-- Loops of `MODES_CBC_Decrypt`, `modes_cbc.c:92-124`; the two variants (`in != out`, `in == out`)
compute the same values. -/
def cbcDecLoop (K : Cipher) : Nat → List Byte → List Byte → List Byte × List Byte
  | 0, iv, _ => (iv, [])
  | fuel + 1, iv, inp =>
    if inp.length ≥ 16 then
      let o := xorB iv (K.dec (inp.take 16))
      let r := cbcDecLoop K fuel (inp.take 16) (inp.drop 16)
      (r.1, o ++ r.2)
    else (iv, [])

/-- Loop of `MODES_ECB_Crypt`, `modes_ecb.c:40-53`: output and number of bytes left over. -/
def ecbLoop (K : Cipher) (enc : Bool) : Nat → List Byte → List Byte × Nat
  | 0, inp => ([], inp.length)
  | fuel + 1, inp =>
    if inp.length ≥ 16 then
      let o := if enc then K.enc (inp.take 16) else K.dec (inp.take 16)
      let r := ecbLoop K enc fuel (inp.drop 16)
      (o ++ r.1, r.2)
    else ([], inp.length)

/-- `blockUpdate`: `MODES_CBC_Encrypt` (`modes_cbc.c:34-71`), `MODES_CBC_Decrypt` (`:73-127`),
`MODES_ECB_Crypt` (`modes_ecb.c:27-59`), on the chaining value.  (`MODES_ECB_Crypt` reports a bad
length only after processing the full blocks; the caller discards the output.) -/
def blockCrypt (K : Cipher) (m : BMode) (enc : Bool) (iv inp : List Byte) :
    List Byte × Except Err (List Byte) :=
  match m with
  | .cbc =>
    if inp.length % 16 ≠ 0 then (iv, .error .inputLen)
    else if enc then let r := cbcEncLoop K inp.length iv inp; (r.1, .ok r.2)
    else let r := cbcDecLoop K inp.length iv inp; (r.1, .ok r.2)
  | .ecb =>
    if inp.length = 0 then (iv, .error .nullInput)
    else
      let r := ecbLoop K enc inp.length inp
      if r.2 > 0 then (iv, .error .inputLen) else (iv, .ok r.1)

/-- `MODES_BlockPadding`, `modes.c:287-329`, for the non-XTS algorithms: completes `data` to a block
(`dataLen` becomes 16), or for no padding demands a whole number of blocks. -/
def blockPadding (p : Pad) (data : List Byte) : Except Err (List Byte) :=
  let n := 16 - data.length
  match p with
  | .none => if data.length % 16 ≠ 0 then .error .inputLen else .ok data
  | .zeros => .ok (data ++ List.replicate n 0#8)
  | .iso7816 => .ok (data ++ 0x80#8 :: List.replicate (n - 1) 0#8)
  | .x923 => .ok (data ++ List.replicate (n - 1) 0#8 ++ [BitVec.ofNat 8 n])
  | .pkcs5 | .pkcs7 => .ok (data ++ List.replicate n (BitVec.ofNat 8 n))

/-- The scan of `UnPaddingISO7816`, `modes.c:207-209`: walk down over zero bytes. -/
def isoScan (pad : List Byte) : Nat → Option Nat
  | 0 => if pad[0]? = none then none else some 0
  | len + 1 => match pad[len + 1]? with
    | none => none
    | some b => if b = 0#8 then isoScan pad len else some (len + 1)

/-- `UnPaddingISO7816`, `modes.c:203-218`.  Outer `none`: out-of-bounds read. -/
def unpadIso (pad : List Byte) : Option (Except Err Nat) :=
  match isoScan pad (16 - 1) with
  | none => none
  | some len => match pad[len]? with
    | none => none
    | some b => if b = 0x80#8 then some (.ok len) else some (.error .dataError)

/-- Loop of `UnPaddingX923` / `UnPaddingPkcs`, `modes.c:229-231`, `:251-253`:
`check |= f(pad[i]) * (i >= pos)` for `i` in `[i, n)`, in 32-bit arithmetic. -/
def padCheck (f : Byte → BitVec 32) (pos : Nat) : Nat → List Byte → BitVec 32 → BitVec 32
  | _, [], check => check
  | i, b :: bs, check =>
    padCheck f pos (i + 1) bs (check ||| (f b * (if i ≥ pos then 1#32 else 0#32)))

/-- `padLen - len` in `uint32_t`. -/
def subU32 (a b : Nat) : Nat := (a + 2 ^ 32 - b) % 2 ^ 32

/-- `UnPaddingX923`, `modes.c:220-240`. -/
def unpadX923 (pad : List Byte) : Option (Except Err Nat) :=
  match pad[16 - 1]? with
  | none => none
  | some lb =>
    let len := lb.toNat
    let check0 : BitVec 32 := if len = 0 ∨ len > 16 then 1 else 0
    let check := padCheck (fun b => b.setWidth 32) (subU32 16 len) 0 (pad.take (16 - 1)) check0
    if check ≠ 0 then some (.error .dataError) else some (.ok (subU32 16 len))

/-- `UnPaddingPkcs`, `modes.c:242-262`. -/
def unpadPkcs (pad : List Byte) : Option (Except Err Nat) :=
  match pad[16 - 1]? with
  | none => none
  | some lb =>
    let len := lb.toNat
    let check0 : BitVec 32 := if len = 0 ∨ len > 16 then 1 else 0
    let check := padCheck (fun b => b.setWidth 32 ^^^ lb.setWidth 32) (subU32 16 len) 0
      (pad.take 16) check0
    if check ≠ 0 then some (.error .dataError) else some (.ok (subU32 16 len))

/-- `MODES_BlockUnPadding`, `modes.c:264-285`: number of plaintext bytes in the last block. -/
def blockUnPadding (p : Pad) (pad : List Byte) (dataLen : Nat) : Option (Except Err Nat) :=
  match p with
  | .iso7816 => unpadIso pad
  | .x923 => unpadX923 pad
  | .pkcs5 | .pkcs7 => unpadPkcs pad
  | .none | .zeros => some (.ok dataLen)

/-- `MODES_CipherUpdateCache`, `modes.c:331-374`: complete and process the cached block.  Result:
context, unread input, and the output produced so far (`*outLen` is its length), or an error. -/
def updateCache (K : Cipher) (m : BMode) (c : BCtx) (inp : List Byte) (cap : Nat) :
    BCtx × List Byte × Except Err (List Byte) :=
  let take := if c.data.length > 0 then min inp.length (16 - c.data.length) else 0
  let c1 := { c with data := c.data ++ inp.take take }
  let rest := inp.drop take
  if c1.data.length ≠ 16 then (c1, rest, .ok [])
  else if c.enc = false ∧ rest.length = 0 ∧ c.pad ≠ .none then (c1, rest, .ok [])
  else if cap < 16 then (c1, rest, .error .ealBuffLen)
  else match blockCrypt K m c.enc c1.iv c1.data with
    | (iv, .error e) => ({ c1 with iv := iv }, rest, .error e)
    | (iv, .ok o) => ({ c1 with iv := iv, data := [] }, rest, .ok o)

/-- `MODES_CipherUpdate`, `modes.c:433-483`, after the length-overflow check (input lengths here stay
below `2^32 - 16`): `CRYPT_EAL_CipherUpdate` with room for `cap` bytes. -/
def update (K : Cipher) (m : BMode) (c : BCtx) (inp : List Byte) (cap : Nat) :
    BCtx × Except Err (List Byte) :=
  match updateCache K m c inp cap with
  | (c1, _, .error e) => (c1, .error e)
  | (c1, rest, .ok o1) =>
    if rest.length = 0 then (c1, .ok o1)
    else
      let left0 := rest.length % 16
      let len0 := rest.length - left0
      let hold : Bool := decide (len0 > 0 ∧ c.enc = false ∧ c.pad ≠ .none ∧ left0 = 0)
      let left := if hold then 16 else left0
      let len := if hold then len0 - 16 else len0
      if len > 0 then
        if len > cap - o1.length then (c1, .error .ealBuffLen)
        else match blockCrypt K m c.enc c1.iv (rest.take len) with
          | (iv, .error e) => ({ c1 with iv := iv }, .error e)
          | (iv, .ok o2) =>
            ({ c1 with iv := iv, data := if left > 0 then rest.drop len else c1.data }, .ok (o1 ++ o2))
      else ({ c1 with data := if left > 0 then rest.drop len else c1.data }, .ok o1)

/-- `MODES_CipherFinal`, `modes.c:376-431`: `CRYPT_EAL_CipherFinal` with room for `cap` bytes.
Outer `none`: out-of-bounds read while removing the padding. -/
def final (K : Cipher) (m : BMode) (c : BCtx) (cap : Nat) : Option (BCtx × Except Err (List Byte)) :=
  if c.enc then
    if c.pad ≠ .none ∧ cap < 16 then some (c, .error .ealBuffLen)
    else match blockPadding c.pad c.data with
      | .error e => some (c, .error e)
      | .ok d =>
        if d.length = 0 then some ({ c with data := d }, .ok [])
        else match blockCrypt K m true c.iv d with
          | (iv, .error e) => some ({ c with iv := iv, data := d }, .error e)
          | (iv, .ok o) => some ({ c with iv := iv, data := [] }, .ok o)
  else
    if c.data.length = 0 then some (c, .ok [])
    else match blockCrypt K m false c.iv c.data with
      | (iv, .error e) => some ({ c with iv := iv }, .error e)
      | (iv, .ok t) => match blockUnPadding c.pad t c.data.length with
        | none => none
        | some (.error e) => some ({ c with iv := iv }, .error e)
        | some (.ok n) =>
          if n > cap then some ({ c with iv := iv }, .error .ealBuffLen)
          else some ({ c with iv := iv, data := [] }, .ok (t.take n))

/-- A caller feeding a message in pieces with ample output room and then finishing: the sequence
`Update* ; Final`, outputs concatenated.  Room per call: input length + 16. -/
def runAll (K : Cipher) (m : BMode) : BCtx → List (List Byte) → Option (Except Err (List Byte))
  | c, [] => (final K m c 16).map (·.2)
  | c, x :: xs =>
    match update K m c x (x.length + 16) with
    | (_, .error e) => some (.error e)
    | (c1, .ok o) => match runAll K m c1 xs with
      | none => none
      | some (.error e) => some (.error e)
      | some (.ok os) => some (.ok (o ++ os))

end Verif.Crypto.Modes
