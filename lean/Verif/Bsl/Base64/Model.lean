import Verif.Common.Bits
/-
Model of /repo/bsl/base64/src/bsl_base64.c.
Buffers are byte lists; a pointer/length pair becomes one list.  `NULL` arguments are not modelled
(they are rejected with BSL_NULL_INPUT by every entry point); allocation failure is not modelled.
-/
namespace Verif.Bsl.Base64
open Verif.Common

/-- Return codes used by the module (names without prefix). `oob` is not a C return code: it stands for
an out-of-bounds table read, i.e. undefined behaviour. -/
inductive Err where
  | nullInput | bufNotEnough | invalidArg | invalid | header | dataAfterPadding
  | invalidEncode | invalidCharacter | illegallyModified | oob
deriving DecidableEq, Repr

/-- `base64Letter`, /repo/bsl/base64/src/bsl_base64.c:65. -/
def letterTable : List Byte :=
  "ABCDEFGHIJKLMNOPQRSTUVWXYZabcdefghijklmnopqrstuvwxyz0123456789+/".toList.map
    (fun c => BitVec.ofNat 8 c.toNat)

/-- Read of `base64Letter[i]` (bounds-checked), /repo/bsl/base64/src/bsl_base64.c:72. -/
def letter (i : Byte) : Except Err Byte :=
  match letterTable[i.toNat]? with
  | some c => .ok c
  | none => .error .oob

/-- `BASE64_DECODE_MAP_TABLE`, /repo/bsl/base64/src/bsl_base64.c:31-43, row by row. -/
def decodeTable : List Byte := [
  67, 67, 67, 67, 67, 67, 67, 67, 67, 67, 64, 67, 67, 64, 67, 67, 67, 67, 67, 67, 67, 67, 67,
  67, 67, 67, 67, 67, 67, 67, 67, 67, 64, 67, 67, 67, 67, 67, 67, 67, 67, 67, 67, 62, 67, 66,
  67, 63, 52, 53, 54, 55, 56, 57, 58, 59, 60, 61, 67, 67, 67, 65, 67, 67, 67, 0,  1,  2,  3,
  4,  5,  6,  7,  8,  9,  10, 11, 12, 13, 14, 15, 16, 17, 18, 19, 20, 21, 22, 23, 24, 25, 67,
  67, 67, 67, 67, 67, 26, 27, 28, 29, 30, 31, 32, 33, 34, 35, 36, 37, 38, 39, 40, 41, 42, 43,
  44, 45, 46, 47, 48, 49, 50, 51, 67, 67, 67, 67, 67, 67, 67, 67, 67, 67, 67, 67, 67, 67, 67,
  67, 67, 67, 67, 67, 67, 67, 67, 67, 67, 67, 67, 67, 67, 67, 67, 67, 67, 67, 67, 67, 67, 67,
  67, 67, 67, 67, 67, 67, 67, 67, 67, 67, 67, 67, 67, 67, 67, 67, 67, 67, 67, 67, 67, 67, 67,
  67, 67, 67, 67, 67, 67, 67, 67, 67, 67, 67, 67, 67, 67, 67, 67, 67, 67, 67, 67, 67, 67, 67,
  67, 67, 67, 67, 67, 67, 67, 67, 67, 67, 67, 67, 67, 67, 67, 67, 67, 67, 67, 67, 67, 67, 67,
  67, 67, 67, 67, 67, 67, 67, 67, 67, 67, 67, 67, 67, 67, 67, 67, 67, 67, 67, 67, 67, 67, 67,
  67, 67, 67]

theorem decodeTable_length : decodeTable.length = 256 := by decide +kernel

/-- `BASE64_DECODE_MAP_TABLE[(uint8_t)c]`; always in range because the table has 256 entries. -/
def dec (c : Byte) : Byte := decodeTable[c.toNat]'(by
  have := c.isLt; rw [decodeTable_length]; omega)

/-- `BslBase64ArithEncodeProc`, /repo/bsl/base64/src/bsl_base64.c:61-107.
Returns the characters stored; the C code additionally stores a terminating NUL after them. -/
def encodeProc : List Byte → Except Err (List Byte)
  | b0 :: b1 :: b2 :: rest => do
    let c0 ← letter ((b0 >>> 2) &&& 0x3F#8)
    let c1 ← letter (((b0 &&& 0x3#8) <<< 4) ||| ((b1 &&& 0xF0#8) >>> 4))
    let c2 ← letter (((b1 &&& 0x0F#8) <<< 2) ||| ((b2 &&& 0xC0#8) >>> 6))
    let c3 ← letter (b2 &&& 0x3F#8)
    let r ← encodeProc rest
    return c0 :: c1 :: c2 :: c3 :: r
  | [b0, b1] => do
    let c0 ← letter ((b0 >>> 2) &&& 0x3F#8)
    let c1 ← letter (((b0 &&& 0x3#8) <<< 4) ||| ((b1 &&& 0xF0#8) >>> 4))
    let c2 ← letter ((b1 &&& 0x0F#8) <<< 2)
    return [c0, c1, c2, 0x3D#8]
  | [b0] => do
    let c0 ← letter ((b0 >>> 2) &&& 0x3F#8)
    let c1 ← letter ((b0 &&& 0x3#8) <<< 4)
    return [c0, c1, 0x3D#8, 0x3D#8]
  | [] => return []

/-- `UINT32_MAX` -/
def uint32Max : Nat := 2 ^ 32 - 1

/-- `BSL_BASE64_Encode`, /repo/bsl/base64/src/bsl_base64.c:188-204. `dstLen` is `*dstBufLen` on entry;
on success the result is the text (its length is `*dstBufLen` on exit). -/
def encode (src : List Byte) (dstLen : Nat) : Except Err (List Byte) :=
  if src.length = 0 then .error .nullInput
  else
    let needLen := (src.length + 2) / 3 * 4 + 1
    if needLen > uint32Max ∨ dstLen < needLen then .error .bufNotEnough
    else encodeProc src

/-- `BslBase64DecodeRemoveBlank`, /repo/bsl/base64/src/bsl_base64.c:206-216. -/
def removeBlank (buf : List Byte) : List Byte := buf.filter (fun c => dec c != 64#8)

/-- `BslBase64DecodeCheckAndRmvEqualSign`, /repo/bsl/base64/src/bsl_base64.c:218-252.
The loop index `i` is replaced by the remaining suffix: `i == len - 1` iff the rest is empty and
`i == len - 2` iff the rest has one element (the caller guarantees `len ≥ 4`, so `len - 2` does not
underflow). Returns the characters before the first `=` (the new `*bufLen`). -/
def checkAndRmvEqualSign : List Byte → Except Err (List Byte)
  | [] => .ok []
  | c :: rest =>
    if dec c > 65#8 then .error .invalidCharacter
    else if dec c = 65#8 then
      match rest with
      | [] => .ok []
      | [d] => if d = 0x3D#8 then .ok [] else .error .invalidCharacter
      | _ => .error .invalidCharacter
    else
      match checkAndRmvEqualSign rest with
      | .ok p => .ok (c :: p)
      | .error e => .error e

/-- `BslBase64Normalization`, /repo/bsl/base64/src/bsl_base64.c:254-263. -/
def normalization (src : List Byte) : Except Err (List Byte) :=
  let f := removeBlank src
  if f.length = 0 ∨ f.length % 4 ≠ 0 then .error .invalidEncode
  else checkAndRmvEqualSign f

/-- `BslBase64DecodeBuffer`, /repo/bsl/base64/src/bsl_base64.c:266-303. -/
def decodeBuffer : List Byte → List Byte
  | a :: b :: c :: d :: e :: rest =>
    ((dec a <<< 2) ||| (dec b >>> 4)) :: ((dec b <<< 4) ||| (dec c >>> 2)) ::
      ((dec c <<< 6) ||| dec d) :: decodeBuffer (e :: rest)
  | [a, b, c, d] =>
    [(dec a <<< 2) ||| (dec b >>> 4), (dec b <<< 4) ||| (dec c >>> 2), (dec c <<< 6) ||| dec d]
  | [a, b, c] => [(dec a <<< 2) ||| (dec b >>> 4), (dec b <<< 4) ||| (dec c >>> 2)]
  | [a, b] => [(dec a <<< 2) ||| (dec b >>> 4)]
  | [_] => []
  | [] => []

/-- `BSL_BASE64_Decode` with `BslBase64ArithDecodeProc`,
/repo/bsl/base64/src/bsl_base64.c:305-333, 336-359. -/
def decode (src : List Byte) (dstLen : Nat) : Except Err (List Byte) :=
  let needLen := (src.length + 3) / 4 * 3
  if needLen > uint32Max ∨ dstLen < needLen then .error .bufNotEnough
  else
    match normalization src with
    | .error e => .error e
    | .ok buf => .ok (decodeBuffer buf)

/-! ### Streaming contexts -/

/-- `struct BASE64_ControlBlock`, /repo/bsl/base64/include/bsl_base64_internal.h. `buf` holds the first
`num` bytes of the C buffer, so `num = buf.length` (bytes beyond `num` are never read).
`length` (48 when encoding) is a constant after `EncodeInit`. -/
structure Ctx where
  buf : List Byte
  /-- the `BSL_BASE64_FLAGS_NO_NEWLINE` bit of `flags` -/
  noNewline : Bool
  paddingCnt : Nat
deriving DecidableEq, Repr

/-- `BSL_BASE64_EncodeInit`/`BSL_BASE64_DecodeInit`, :361-371 and :445-456. -/
def ctxInit : Ctx := { buf := [], noNewline := false, paddingCnt := 0 }

/-- `BSL_BASE64_SetFlags` with `BSL_BASE64_FLAGS_NO_NEWLINE`, :566-574. -/
def setNoNewline (ctx : Ctx) : Ctx := { ctx with noNewline := true }

/-- Characters emitted for one full 48-byte block: `BslBase64EncodeBlock`, :110-132. -/
def encodeBlock (noNewline : Bool) (block : List Byte) : Except Err (List Byte) := do
  let t ← encodeProc block
  return if noNewline then t else t ++ [0x0A#8]

/-- The `while (*srcBufLen >= ctx->length)` loop of `BslBase64EncodeProcess`, :149-154:
output and unprocessed tail. -/
def encodeBlocks (noNewline : Bool) (src : List Byte) : Except Err (List Byte × List Byte) :=
  if _h : 48 ≤ src.length then do
    let t ← encodeBlock noNewline (src.take 48)
    let (ts, tail) ← encodeBlocks noNewline (src.drop 48)
    return (t ++ ts, tail)
  else .ok ([], src)
termination_by src.length
decreasing_by simp; omega

/-- `BSL_BASE64_EncodeUpdate` with `BslBase64EncodeProcess`, :134-155 and :373-412. -/
def encodeUpdate (ctx : Ctx) (src : List Byte) (dstLen : Nat) : Except Err (Ctx × List Byte) :=
  if src.length = 0 then .error .nullInput
  else
    let inLen := src.length + ctx.buf.length
    let needLen := inLen / 48 * 65 + 1
    if needLen > uint32Max ∨ dstLen < needLen then .error .bufNotEnough
    else if src.length < 48 - ctx.buf.length then .ok ({ ctx with buf := ctx.buf ++ src }, [])
    else if ctx.buf.length ≠ 0 then do
      let remainLen := 48 - ctx.buf.length
      let t ← encodeBlock ctx.noNewline (ctx.buf ++ src.take remainLen)
      let (ts, tail) ← encodeBlocks ctx.noNewline (src.drop remainLen)
      return ({ ctx with buf := tail }, t ++ ts)
    else do
      let (ts, tail) ← encodeBlocks ctx.noNewline src
      return ({ ctx with buf := tail }, ts)

/-- `BSL_BASE64_EncodeFinal`, :414-443. -/
def encodeFinal (ctx : Ctx) (dstLen : Nat) : Except Err (Ctx × List Byte) :=
  if ctx.buf.length = 0 then .ok (ctx, [])
  else
    let needLen := (ctx.buf.length + 2) / 3 * 4 + 1 + (if ctx.noNewline then 0 else 1)
    if dstLen < needLen then .error .bufNotEnough
    else do
      let t ← encodeProc ctx.buf
      return ({ ctx with buf := [] }, if ctx.noNewline then t else t ++ [0x0A#8])

/-- `BslBase64DecodeCheck`, :157-186: new padding count or error. -/
def decodeCheck (c : Byte) (paddingCnt : Nat) : Except Err Nat :=
  if dec c = 66#8 then .error .header
  else if dec c > 66#8 then .error .invalidArg
  else if dec c = 65#8 ∧ ¬ paddingCnt < 2 then .error .invalid
  else
    let padding := if dec c = 65#8 then 1 else 0
    if paddingCnt > 0 ∧ dec c < 64#8 then .error .dataAfterPadding
    else .ok (paddingCnt + padding)

/-- Loop body of `BSL_BASE64_DecodeUpdate` over the characters, :481-516.
`num`/`tmpBuf` are `buf`; returns the new buffer, padding count and the decoded bytes. -/
def decodeLoop : List Byte → List Byte → Nat → Except Err (List Byte × Nat × List Byte)
  | [], buf, pad => .ok (buf, pad, [])
  | c :: cs, buf, pad =>
    match decodeCheck c pad with
    | .error e => .error e
    | .ok pad' =>
      if dec c < 64#8 ∧ buf.length ≥ 64 then .error .illegallyModified
      else
        let buf' := if dec c < 64#8 then buf ++ [c] else buf
        if buf'.length = 64 then
          match decodeLoop cs [] pad' with
          | .error e => .error e
          | .ok (b, p, out) => .ok (b, p, decodeBuffer buf' ++ out)
        else decodeLoop cs buf' pad'

/-- `BSL_BASE64_DecodeUpdate`, :458-520. On error the C code leaves a partially updated context that the
caller must discard; only the error is modelled. -/
def decodeUpdate (ctx : Ctx) (src : List Byte) (dstLen : Nat) : Except Err (Ctx × List Byte) :=
  if src.length = 0 then .error .nullInput
  else
    let inLen := src.length + ctx.buf.length
    let needLen := inLen / 64 * 48
    if needLen > uint32Max ∨ dstLen < needLen then .error .bufNotEnough
    else
      match decodeLoop src ctx.buf ctx.paddingCnt with
      | .error e => .error e
      | .ok (b, p, out) => .ok ({ ctx with buf := b, paddingCnt := p }, out)

/-- `BSL_BASE64_DecodeFinal`, :522-564. -/
def decodeFinal (ctx : Ctx) (dstLen : Nat) : Except Err (Ctx × List Byte) :=
  let remain := ctx.buf.length % 4
  if ctx.paddingCnt > 2 ∨ (remain + ctx.paddingCnt) % 4 ≠ 0 then .error .invalidEncode
  else if ctx.buf.length = 0 then .ok (ctx, [])
  else if dstLen < (ctx.buf.length + 3) / 4 * 3 then .error .bufNotEnough
  else .ok ({ ctx with buf := [] }, decodeBuffer ctx.buf)

/-- A whole streaming encode: init, optional SetFlags, one update per chunk, final.
Every call gets `dstLen` bytes of output space. -/
def encodeStream (noNewline : Bool) (chunks : List (List Byte)) (dstLen : Nat) :
    Except Err (List Byte) := do
  let rec go (ctx : Ctx) : List (List Byte) → Except Err (List Byte)
    | [] => do
      let (_, t) ← encodeFinal ctx dstLen
      return t
    | c :: cs => do
      let (ctx', t) ← encodeUpdate ctx c dstLen
      let ts ← go ctx' cs
      return t ++ ts
  go { ctxInit with noNewline := noNewline } chunks

/-- A whole streaming decode: init, one update per chunk, final. -/
def decodeStream (chunks : List (List Byte)) (dstLen : Nat) : Except Err (List Byte) := do
  let rec go (ctx : Ctx) : List (List Byte) → Except Err (List Byte)
    | [] => do
      let (_, t) ← decodeFinal ctx dstLen
      return t
    | c :: cs => do
      let (ctx', t) ← decodeUpdate ctx c dstLen
      let ts ← go ctx' cs
      return t ++ ts
  go ctxInit chunks

end Verif.Bsl.Base64
