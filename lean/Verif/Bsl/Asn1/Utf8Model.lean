import Verif.Bsl.Asn1.Model
/-! Model of the conversion of ASN.1 string types to UTF-8, /repo/bsl/asn1/src/bsl_asn1.c:1441-1629.
Output memory is a list of bytes; a store outside the allocated bytes gives `Err.oobWrite`. -/
namespace Verif.Bsl.Asn1.Utf8
open Verif.Common Verif.Bsl.Asn1

/-- Outcomes other than `BSL_SUCCESS`; `oobRead` / `oobWrite` are accesses outside a buffer. -/
inductive Err
  | invalidCodePoint | lenOverflow | unsupportedTag | invalidLen | oobRead | oobWrite
deriving DecidableEq, Repr

/-- `IsUnicodeScalarValue`, /repo/bsl/asn1/src/bsl_asn1.c:1441-1453. -/
def isScalar (cp : BitVec 32) : Bool :=
  if cp.toNat > 0x10FFFF then false
  else if cp.toNat ≥ 0xD800 && cp.toNat ≤ 0xDFFF then false
  else true

/-- `g_utf8FormTable` (length, lead prefix, smallest code point), /repo/bsl/asn1/src/bsl_asn1.c:1484-1489. The
mask column is not used by the code. -/
def formTable : List (Nat × Byte × Nat) :=
  [(1, 0x00, 0x0), (2, 0xC0, 0x80), (3, 0xE0, 0x800), (4, 0xF0, 0x10000)]

/-- The table search of `CodePointToUtf8`, /repo/bsl/asn1/src/bsl_asn1.c:1503-1510: from the last entry to the
first, the first one whose smallest code point is not above the code point. -/
def findForm (cp : BitVec 32) : Nat × Byte :=
  match formTable.reverse.find? (fun f => cp.toNat ≥ f.2.2) with
  | some (len, p, _) => (len, p)
  | none => (0, 0)

/-- `buf[i] = b` on memory of `buf.length` bytes. -/
def store (buf : List Byte) (i : Nat) (b : Byte) : Except Err (List Byte) :=
  if i < buf.length then .ok (buf.set i b) else .error .oobWrite

/-- The loop of `CodePointToUtf8`, /repo/bsl/asn1/src/bsl_asn1.c:1515-1522 (`i` counts down to 1); `pos` is the
offset of `out` in the allocated buffer. Returns the remaining code point bits and the buffer. -/
def contLoop : Nat → BitVec 32 → List Byte → Nat → Except Err (BitVec 32 × List Byte)
  | 0, cp, buf, _ => .ok (cp, buf)
  | i + 1, cp, buf, pos =>
    match store buf (pos + (i + 1)) ((0x80#32 ||| (cp &&& 0x3F#32)).setWidth 8) with
    | .error e => .error e
    | .ok buf => contLoop i (cp >>> 6) buf pos

/-- `CodePointToUtf8`, /repo/bsl/asn1/src/bsl_asn1.c:1493-1525. `out = none` is the sizing call (`out == NULL`),
`some (buf, pos)` the writing call. Returns `needLen` and the buffer. -/
def codePointToUtf8 (cp : BitVec 32) (out : Option (List Byte × Nat)) : Except Err (Nat × Option (List Byte)) :=
  match out with
  | none => if isScalar cp = false then .error .invalidCodePoint else .ok ((findForm cp).1, none)
  | some (buf, pos) =>
    match contLoop ((findForm cp).1 - 1) cp buf pos with
    | .error e => .error e
    | .ok (rest, buf) =>
      match store buf pos (((findForm cp).2.setWidth 32 ||| rest).setWidth 8) with
      | .error e => .error e
      | .ok buf => .ok ((findForm cp).1, some buf)

theorem readLen_length {i : Nat} {acc r : BitVec 32} {l rest : List Byte} (h : readLen i acc l = some (r, rest)) :
    rest.length + i = l.length := by
  induction i generalizing acc l with
  | zero => simp only [readLen, Option.some.injEq, Prod.mk.injEq] at h; rw [h.2]; rfl
  | succ i ih =>
    cases l with
    | nil => simp [readLen] at h
    | cons b l => rw [readLen] at h; have := ih h; simp only [List.length_cons]; omega

/-- `out += needLen` when `out` is not `NULL`, /repo/bsl/asn1/src/bsl_asn1.c:1548-1550. -/
def advance (out : Option (List Byte × Nat)) (buf : Option (List Byte)) (needLen : Nat) : Option (List Byte × Nat) :=
  match out, buf with
  | some (_, pos), some buf => some (buf, pos + needLen)
  | _, _ => none

/-- `EncodeCodePointToUtf8`, /repo/bsl/asn1/src/bsl_asn1.c:1527-1556, with `charSize = k + 1`; the inner loop
:1536-1540 is the same big-endian accumulation as in `BSL_ASN1_DecodeLen`. -/
def encodeCodePoints (k : Nat) (data : List Byte) (out : Option (List Byte × Nat)) (outLen : Nat) :
    Except Err (Nat × Option (List Byte × Nat)) :=
  if data.length = 0 then .ok (outLen, out)
  else
    match h : readLen (k + 1) 0 data with
    | none => .error .oobRead
    | some (cp, rest) =>
      match codePointToUtf8 cp out with
      | .error e => .error e
      | .ok (needLen, buf) =>
        if outLen > 2 ^ 32 - 1 - needLen then .error .lenOverflow
        else
          encodeCodePoints k rest
            (advance out buf needLen)
            (outLen + needLen)
termination_by data.length
decreasing_by have := readLen_length h; omega

/-- `ConvertToUtf8String`, /repo/bsl/asn1/src/bsl_asn1.c:1558-1577 (allocation failure is not modelled). -/
def convertToUtf8String (k : Nat) (data : List Byte) : Except Err (List Byte) :=
  match encodeCodePoints k data none 0 with
  | .error e => .error e
  | .ok (len, _) =>
    match encodeCodePoints k data (some (List.replicate len 0, 0)) 0 with
    | .error e => .error e
    | .ok (len, some (buf, _)) => .ok (buf.take len)
    | .ok (_, none) => .error .oobWrite

/-- `GetAndValidateCharSize`, /repo/bsl/asn1/src/bsl_asn1.c:1579-1605. -/
def getCharSize (tag : Byte) (len : Nat) : Except Err Nat :=
  if tag = 0x0C then .ok 0
  else if tag = 0x13 ∨ tag = 0x16 ∨ tag = 0x14 then .ok 1
  else if tag = 0x1E then (if len % 2 ≠ 0 then .error .invalidLen else .ok 2)
  else if tag = 0x1C then (if len % 4 ≠ 0 then .error .invalidLen else .ok 4)
  else .error .unsupportedTag

/-- `BSL_ASN1_ToUtf8String`, /repo/bsl/asn1/src/bsl_asn1.c:1607-1629; the result is the contents of the
UTF8String. -/
def toUtf8String (tag : Byte) (data : List Byte) : Except Err (List Byte) :=
  match getCharSize tag data.length with
  | .error e => .error e
  | .ok charSize =>
    if data.length = 0 then .ok []
    else if tag = 0x0C then .ok data
    else convertToUtf8String (charSize - 1) data

end Verif.Bsl.Asn1.Utf8
