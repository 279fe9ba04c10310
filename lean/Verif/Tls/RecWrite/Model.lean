import Verif.Common.Bits
/-!
Model of the record write path, /repo/tls/record/src/rec_write.c.

The state keeps, besides the C fields, three ghost fields that the C code does not have and that no C step
reads: `gen` (which key generation is active), `sealed` (log of every protected record) and `wire` (bytes
accepted by the transport). Record protection (`encryptPreProcess`, `calCiphertextLen`, `LengthCheck`,
header packing and `RecConnEncrypt`) is the parameter `protect`; `none` stands for any of its failures.
Simplifications: buffer (de)allocation (`RecIoBufInit`, `RecTryFreeRecBuf`) always succeeds; QUIC mode and the
flight buffer are not modelled; `CheckEncryptionLimits` only flags a key update for later and is skipped.
-/
namespace Verif.Tls.RecWrite
open Verif.Common

/-- Result codes. -/
inductive Ret where
  | success | snWrapping | ioException | ioBusy | protectFail | derefFail
deriving DecidableEq, Repr

/-- One protected record. -/
structure Rec where
  gen : Nat
  seq : BitVec 64
  type : Byte
  data : List Byte
  bytes : List Byte
deriving DecidableEq, Repr

/-- Record protection under key generation `gen` with sequence number `seq`. -/
abbrev Protect := (gen : Nat) → (seq : BitVec 64) → (type : Byte) → (data : List Byte) → Option (List Byte)

/-- Write side of the connection: `RecConnState.seq`, `RecConnState.isWrapped`
(/repo/tls/record/src/rec_conn.h:72-86), and the bytes `outBuf[start, end)`. -/
structure State where
  gen : Nat
  seq : BitVec 64
  isWrapped : Bool
  pending : List Byte
  wire : List Byte
  sealed : List Rec

/-- `REC_TLS_SN_MAX_VALUE`, /repo/tls/record/src/rec_header.h:29. -/
def tlsSnMax : BitVec 64 := BitVec.allOnes 64

/-- Outcome of one `BSL_UIO_Write`: `none` = error, `some n` = success with `sendLen = n` (the transport
contract bounds `n` by the request). -/
abbrev Io := Option Nat

/-- `StreamWrite`, /repo/tls/record/src/rec_write.c:443-475; the outcomes of the successive
`BSL_UIO_Write` calls are consumed from the list (an exhausted list means the transport is busy).
Result: code, bytes still in `outBuf`, bytes put on the wire. -/
def streamWrite : List Io → List Byte → Ret × List Byte × List Byte
  | [], buf => (.ioBusy, buf, [])
  | none :: _, buf => (.ioException, buf, [])
  | some n :: rest, buf =>
    let sendLen := min n buf.length
    if sendLen = 0 then (.ioBusy, buf, [])
    else if sendLen < buf.length then
      let r := streamWrite rest (buf.drop sendLen)
      (r.1, r.2.1, buf.take sendLen ++ r.2.2)
    else (.success, [], buf)

/-- `SendRecord`, /repo/tls/record/src/rec_write.c:519-536. -/
def sendRecord (io : List Io) (s : State) : Ret × State :=
  let r := streamWrite io s.pending
  let s1 := { s with pending := r.2.1, wire := s.wire ++ r.2.2 }
  if r.1 ≠ .success then (r.1, s1) else (.success, { s1 with seq := s.seq + 1#64 })

/-- `TlsRecordWrite` with `SequenceCompare`, /repo/tls/record/src/rec_write.c:558-570, 589-644. -/
def tlsRecordWrite (protect : Protect) (io : List Io) (type : Byte) (data : List Byte) (s : State) : Ret × State :=
  if s.isWrapped then (.snWrapping, s)
  else
    let s := if s.seq = tlsSnMax then { s with isWrapped := true } else s
    if s.pending ≠ [] then sendRecord io s
    else match protect s.gen s.seq type data with
      | none => (.protectFail, s)
      | some bytes =>
        sendRecord io { s with pending := bytes, sealed := s.sealed ++ [⟨s.gen, s.seq, type, data, bytes⟩] }

/-- `REC_OutBufFlush` (stream transports), /repo/tls/record/src/rec_write.c:538-556. -/
def outBufFlush (io : List Io) (s : State) : Ret × State :=
  if s.pending = [] then (.success, s) else sendRecord io s

/-- `REC_ActivePendingState(isOut = true)`, /repo/tls/record/src/record.c:701-761, for stream transports: a
freshly allocated state (`isWrapped = false`) with sequence number 0 becomes current; `outBuf` is not touched. -/
def activate (s : State) : State := { s with gen := s.gen + 1, seq := 0#64, isWrapped := false }

/-- API calls that reach the write side. -/
inductive Op where
  | write (io : List Io) (type : Byte) (data : List Byte)
  | flush (io : List Io)
  | activate

/-- One call. -/
def step (protect : Protect) (s : State) : Op → State
  | .write io t d => (tlsRecordWrite protect io t d s).2
  | .flush io => (outBufFlush io s).2
  | .activate => activate s

/-- A history of calls. -/
def run (protect : Protect) (s : State) (ops : List Op) : State := ops.foldl (step protect) s

/-- A new connection. -/
def init : State := ⟨0, 0#64, false, [], [], []⟩

/-! ## Datagram transports -/

/-- Write side for DTLS; `sent` logs the records the transport took. -/
structure DState where
  gen : Nat
  seq : BitVec 64
  sealed : List Rec
  sent : List Rec

/-- `REC_DTLS_SN_MAX_VALUE`, /repo/tls/record/src/rec_header.h:38. -/
def dtlsSnMax : Nat := 0xFFFFFFFFFFFF

/-- `DatagramWrite`, /repo/tls/record/src/rec_write.c:113-145. -/
def datagramWrite (io : Io) (total : Nat) : Ret :=
  match io with
  | none => .ioException
  | some n => if n ≠ 0 ∧ n ≠ total then .ioException else if n = 0 then .ioBusy else .success

/-- `DtlsRecordWrite` with `DtlsTrySendMessage`, /repo/tls/record/src/rec_write.c:241-278, 302-412; `derefOk`
tells whether `RecDerefBufList` (which allocates) succeeds. -/
def dtlsRecordWrite (protect : Protect) (io : Io) (derefOk : Bool) (type : Byte) (data : List Byte)
    (s : DState) : Ret × DState :=
  if s.seq.toNat > dtlsSnMax then (.snWrapping, s)
  else match protect s.gen s.seq type data with
    | none => (.protectFail, s)
    | some bytes =>
      let r : Rec := ⟨s.gen, s.seq, type, data, bytes⟩
      let s := { s with sealed := s.sealed ++ [r] }
      match datagramWrite io bytes.length with
      | .success =>
        let s := { s with sent := s.sent ++ [r] }
        if derefOk then (.success, { s with seq := s.seq + 1#64 }) else (.derefFail, s)
      | e => (e, s)

/-- `REC_ActivePendingState(isOut = true)` for datagram transports, /repo/tls/record/src/record.c:724-743 (the
epoch number is not modelled; `gen` names the key). -/
def dtlsActivate (s : DState) : DState := { s with gen := s.gen + 1, seq := 0#64 }

inductive DOp where
  | write (io : Io) (derefOk : Bool) (type : Byte) (data : List Byte)
  | activate

def dstep (protect : Protect) (s : DState) : DOp → DState
  | .write io d t x => (dtlsRecordWrite protect io d t x s).2
  | .activate => dtlsActivate s

def drun (protect : Protect) (s : DState) (ops : List DOp) : DState := ops.foldl (dstep protect) s

def dinit : DState := ⟨0, 0#64, [], []⟩

end Verif.Tls.RecWrite
