import Verif.Common.Endian
/-!
# Reading records from a stream

/repo/tls/record/src/rec_read.c (stream protocols), rec_buf.c and the buffer sizes of record.c, for a build with
`HITLS_TLS_PROTO_TLS13`, `HITLS_TLS_PROTO_TLCP11` and `HITLS_TLS_FEATURE_RECORD_SIZE_LIMIT`.  The transport is a list of
events.  Allocation failures, alerts, callbacks and the copies of already delivered records (`RecDerefBufList`) are not
modelled.  Sizes are natural numbers: nothing exceeds 2^17.
-/
namespace Verif.Tls.RecRead
open Verif.Common

/-- `RecBuf`, /repo/tls/record/src/rec_buf.h: `bufSize` is the length of `buf`. -/
structure Buf where
  buf : List Byte
  start : Nat
  stop : Nat
deriving DecidableEq, Repr

/-- What the transport has in store for the following calls of `BSL_UIO_Read`: bytes, "nothing yet" (success with
`recvLen` zero), end of stream, an error. -/
inductive Io where
  | data (bs : List Byte)
  | again
  | eof
  | fail
deriving DecidableEq, Repr

/-- The members of the context the functions use.  `version` is `negotiatedInfo.version`, `tlcp` is
`IS_SUPPORT_TLCP(originVersionMask)`, `readCb` is `recReadCb != NULL`, `hasSuite` is `suiteInfo != NULL` of the read state,
`hsCtx` is `hsCtx != NULL`. -/
structure Ctx where
  version : Nat
  maxVersion : Nat
  tlcp : Bool
  readCb : Bool
  hasSuite : Bool
  hsCtx : Bool
  recordSizeLimit : Nat
  inbufferSize : Nat
  readAhead : Bool
deriving DecidableEq, Repr

/-- `RecHdr` and the body. -/
structure Rec where
  type : Byte
  version : Nat
  body : List Byte
deriving DecidableEq, Repr

/-- Results.  `oob` is an access outside a buffer, `stuck` an exhausted recursion bound. -/
inductive Ret where
  | ok
  | again
  | eof
  | io
  | unexpected
  | badVersion
  | overflow
  | oob
  | stuck
deriving DecidableEq, Repr

/-- One `BSL_UIO_Read` of at most `n` bytes, /repo/bsl/uio/src/uio_abstraction.c:204-224: the status, the bytes received
and the remaining events.  A request of zero bytes is an error. -/
def uioRead (n : Nat) : List Io → Ret × List Byte × List Io
  | io =>
    if n = 0 then (.io, [], io)
    else
      match io with
      | [] => (.ok, [], [])
      | .again :: r => (.ok, [], r)
      | .eof :: r => (.eof, [], r)
      | .fail :: r => (.io, [], r)
      | .data bs :: r => if bs.length ≤ n then (.ok, bs, r) else (.ok, bs.take n, .data (bs.drop n) :: r)

/-- Stores bytes at a position. -/
def splice (buf : List Byte) (pos : Nat) (bs : List Byte) : List Byte :=
  buf.take pos ++ bs ++ buf.drop (pos + bs.length)

/-- The `do` loop of `StreamRead`, /repo/tls/record/src/rec_read.c:1625-1651.  `fuel` bounds the recursion. -/
def readLoop (len upper : Nat) : Nat → Buf → List Io → Ret × Buf × List Io
  | 0, b, io => (.stuck, b, io)
  | fuel + 1, b, io =>
    if upper > b.buf.length then (.oob, b, io)
    else
      match uioRead (upper - b.stop) io with
      | (.ok, bs, io') =>
        if bs.length = 0 then (.again, b, io')
        else
          let b' := { b with buf := splice b.buf b.stop bs, stop := b.stop + bs.length }
          if b'.stop - b'.start < len then readLoop len upper fuel b' io' else (.ok, b', io')
      | (e, _, io') => (e, b, io')

/-- The loop moving the data leftwards, /repo/tls/record/src/rec_read.c:1614-1616, from index `i`, `n` bytes to go; `none`
is an access outside the buffer. -/
def moveLoop (start : Nat) : Nat → Nat → List Byte → Option (List Byte)
  | 0, _, buf => some buf
  | n + 1, i, buf =>
    match buf[start + i]? with
    | none => none
    | some x => if i < buf.length then moveLoop start n (i + 1) (buf.set i x) else none

/-- `StreamRead` after the test for enough data, /repo/tls/record/src/rec_read.c:1612-1651. -/
def streamFill (readAhead : Bool) (len : Nat) (b : Buf) (io : List Io) : Ret × Buf × List Io :=
  let upper := if readAhead = false ∧ b.buf.length ≥ b.start + len - b.stop then b.start + len else b.buf.length
  readLoop len upper len b io

/-- The move of `StreamRead`, /repo/tls/record/src/rec_read.c:1612-1620. -/
def shift (len : Nat) (b : Buf) : Option Buf :=
  if b.buf.length - b.stop < len then
    match moveLoop b.start (b.stop - b.start) 0 b.buf with
    | none => none
    | some buf => some ⟨buf, 0, b.stop - b.start⟩
  else some b

/-- The reset of an empty buffer, /repo/tls/record/src/rec_read.c:1603-1606. -/
def reset (b : Buf) : Buf := if b.stop - b.start = 0 then { b with start := 0, stop := 0 } else b

/-- `StreamRead`, /repo/tls/record/src/rec_read.c:1599-1654. -/
def streamRead (readAhead : Bool) (len : Nat) (b : Buf) (io : List Io) : Ret × Buf × List Io :=
  if b.stop - b.start ≥ len then (.ok, reset b, io)
  else
    match shift len (reset b) with
    | none => (.oob, reset b, io)
    | some b' => streamFill readAhead len b' io

/-- `GET_VERSION_FROM_CTX`, /repo/tls/include/tls.h:440. -/
def Ctx.current (c : Ctx) : Nat := if c.version > 0 then c.version else c.maxVersion

/-- `IS_TLS13_FAMILY_VERSION`, /repo/tls/include/tls.h:43. -/
def tls13Family (v : Nat) : Bool := v = 0x0304 || v = 0xfefc

/-- `RecCastUintToRecType` for a stream, /repo/tls/record/src/rec_read.c:207-247: `true` unless the result is
`REC_TYPE_UNKNOWN`. -/
def knownType (c : Ctx) (t : Byte) : Bool :=
  if t = 20 ∨ t = 21 ∨ t = 22 ∨ t = 23 ∨ t = 26 then
    if tls13Family c.current && c.hasSuite then
      if t ≠ 23 ∧ t ≠ 21 ∧ (t ≠ 20 ∨ c.hsCtx = false) then false else true
    else true
  else false

/-- `VersionProcess`, /repo/tls/record/src/rec_read.c:1508-1528. -/
def versionProcess (c : Ctx) (v : Nat) (t : Byte) : Bool :=
  if c.version = 0x0304 ∧ v ≠ 0x0303 then false
  else if c.version ≠ 0x0304 ∧ v ≠ c.version then
    if v / 256 = c.version / 256 ∧ t = 21 then true else false
  else true

/-- `TlsCheckVersionField`, /repo/tls/record/src/rec_read.c:1530-1548. -/
def checkVersion (c : Ctx) (v : Nat) (t : Byte) : Bool :=
  if c.version = 0 then
    if v / 256 ≠ 3 ∧ v ≠ 0x0101 then false else true
  else versionProcess c v t

/-- `RecGetReadBufferSize` for a stream, /repo/tls/record/src/record.c:133-161: header, plaintext and overhead (256 + 64)
less the difference of the record size limit. -/
def readBufferSize (c : Ctx) : Nat :=
  let size := 5 + 16384 + (256 + 64)
  if c.recordSizeLimit ≠ 0 ∧ c.recordSizeLimit ≤ 16384 then
    let size := size - (16384 - c.recordSizeLimit)
    if tls13Family c.current then size - 1 else size
  else size

/-- `RecBufResize`, /repo/tls/record/src/rec_buf.c:46-65. -/
def resize (b : Buf) (size : Nat) : Option Buf :=
  if b.buf.length = size ∨ b.stop - b.start > size then some b
  else if b.stop > b.buf.length ∨ b.start > b.stop then none
  else some ⟨(b.buf.drop b.start).take (b.stop - b.start) ++ List.replicate (size - (b.stop - b.start)) 0#8, 0, b.stop - b.start⟩

/-- `TlsCheckRecordHeader`, /repo/tls/record/src/rec_read.c:1550-1583. -/
def checkHeader (c : Ctx) (t : Byte) (v n : Nat) (b : Buf) : Ret × Buf :=
  if knownType c t = false ∧ (c.readCb = false ∨ c.tlcp = false) then (.unexpected, b)
  else if checkVersion c v t = false then (.badVersion, b)
  else if n + 5 > readBufferSize c then (.overflow, b)
  else
    match (if n + 5 > b.buf.length then resize b (n + 5) else some b) with
    | none => (.oob, b)
    | some b' => if tls13Family c.version && decide (n > 16384 + 256) then (.overflow, b') else (.ok, b')

/-- The header at `start`: type, version and length; `none` is an access outside the buffer. -/
def header (b : Buf) : Option (Byte × Nat × Nat) :=
  match b.buf.drop b.start with
  | t :: v1 :: v0 :: n1 :: n0 :: _ => some (t, beVal [v1, v0], beVal [n1, n0])
  | _ => none

/-- The second half of `TryReadOneTlsRecord`, /repo/tls/record/src/rec_read.c:1698-1713. -/
def readBody (c : Ctx) (t : Byte) (v n : Nat) (b : Buf) (io : List Io) : (Ret × Option Rec) × Buf × List Io :=
  match streamRead c.readAhead (5 + n) b io with
  | (.ok, b', io') =>
    if b'.start + 5 + n > b'.buf.length then ((.oob, none), b', io')
    else ((.ok, some ⟨t, v, (b'.buf.drop (b'.start + 5)).take n⟩), { b' with start := b'.start + (5 + n) }, io')
  | (e, b', io') => ((e, none), b', io')

/-- `TryReadOneTlsRecord`, /repo/tls/record/src/rec_read.c:1668-1714. -/
def tryRead (c : Ctx) (b : Buf) (io : List Io) : (Ret × Option Rec) × Buf × List Io :=
  match streamRead c.readAhead 5 b io with
  | (.ok, b1, io1) =>
    match header b1 with
    | none => ((.oob, none), b1, io1)
    | some (t, v, n) =>
      match checkHeader c t v n b1 with
      | (.ok, b2) => readBody c t v n b2 io1
      | (e, b2) => ((e, none), b2, io1)
  | (e, b1, io1) => ((e, none), b1, io1)

/-- `RecIoBufInit` for reading, /repo/tls/record/src/record.c:88-106: the new buffer. -/
def newBuf (c : Ctx) : Buf :=
  ⟨List.replicate (if c.inbufferSize ≠ 0 then c.inbufferSize else readBufferSize c) 0#8, 0, 0⟩

/-- The buffer of a connection and the records delivered. -/
structure State where
  inBuf : Option Buf
  delivered : List Rec
deriving DecidableEq, Repr

/-- `RecIoBufInit` for reading, /repo/tls/record/src/record.c:88-106. -/
def ensure (c : Ctx) : Option Buf → Buf
  | none => newBuf c
  | some b => b

/-- `RecIoBufInit` and `TryReadOneTlsRecord` in `TlsRecordRead`, /repo/tls/record/src/rec_read.c:1785-1837; `release` tells
whether `RecTryFreeRecBuf` (record.c:62-78) follows a delivered record. -/
def readStep (c : Ctx) (release : Bool) (s : State) (io : List Io) : Ret × State × List Io :=
  match tryRead c (ensure c s.inBuf) io with
  | ((.ok, some r), b', io') =>
    (.ok, ⟨if release ∧ b'.start = b'.stop then none else some b', s.delivered ++ [r]⟩, io')
  | ((e, _), b', io') => (e, ⟨some b', s.delivered⟩, io')

/-- A history of calls. -/
def run : List (Ctx × Bool) → State → List Io → State × List Io
  | [], s, io => (s, io)
  | (c, release) :: r, s, io => run r (readStep c release s io).2.1 (readStep c release s io).2.2

/-! ## After the record has been read -/

/-- `EmptyRecordProcess`, /repo/tls/record/src/rec_read.c:291-311, with the reset of `RecordDecrypt` (:561-565): the new
value of the `uint32_t` counter, and whether the connection goes on. -/
def countEmpty (max : BitVec 32) (hasSuite : Bool) (t : Byte) (textLen : Nat) (cnt : BitVec 32) : Bool × BitVec 32 :=
  if textLen = 0 then
    if hasSuite then (false, cnt)
    else if t = 21 ∨ t = 23 then (false, cnt)
    else if (cnt + 1#32).toNat > max.toNat then (false, cnt + 1#32)
    else (true, cnt + 1#32)
  else (true, 0#32)

/-- `REC_GetMaxReadSize`, /repo/tls/record/src/rec_read.c:250-260. -/
def maxReadSize (c : Ctx) : Nat :=
  if c.recordSizeLimit ≠ 0 then
    if tls13Family c.current then c.recordSizeLimit - 1 else c.recordSizeLimit
  else 16384

/-- `ProcessDecryptedRecord` for a stream, /repo/tls/record/src/rec_read.c:264-289; `recvCcs` is `isRecvCCS`. -/
def processDecrypted (c : Ctx) (recvCcs : Bool) (t : Byte) (dataLen : Nat) : Ret :=
  if dataLen > maxReadSize c then .overflow
  else if t ≠ 23 ∧ dataLen = 0 then .unexpected
  else if c.version ≠ 0x0304 ∧ recvCcs = true ∧ t ≠ 22 then .unexpected
  else .ok

end Verif.Tls.RecRead
