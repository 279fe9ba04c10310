import Verif.Common.Endian
/-!
# Model of DTLS handshake message reassembly

`/repo/tls/handshake/reass/src/hs_reass.c`, the header check of `/repo/tls/handshake/parse/src/parse.c` and the
read loop of `/repo/tls/handshake/recv/src/hs_state_recv.c`.

Writes outside an allocated buffer are a distinct outcome (`none`, surfacing as `Out.oob`).

Not modelled: allocation failure, `HS_ReSizeMsgBuf`, alerts, SCTP transport, the reset of the expected number by a
repeated initial ClientHello, messages received in the "unexpected handshaking" (renegotiation) state.
-/
namespace Verif.Tls.Reass
open Verif.Common

/-- `DTLS_HS_MSG_HEADER_SIZE` — tls/handshake/common/include/hs_msg.h:33. -/
def hdrSize : Nat := 12
/-- `MAX_NUM_EXCEED_EXPECT` — hs_reass.c:32. -/
def maxExceed : Nat := 10
/-- `g_startMaskMap` — hs_reass.c:34. -/
def startMask : List Byte := [0xFF, 0xFE, 0xFC, 0xF8, 0xF0, 0xE0, 0xC0, 0x80]
/-- `g_endMaskMap` — hs_reass.c:35. -/
def endMask : List Byte := [0x1, 0x3, 0x7, 0xF, 0x1F, 0x3F, 0x7F, 0xFF]

/-- `uint32_t` subtraction. -/
def sub32 (a b : Nat) : Nat := (a + 2 ^ 32 - b) % 2 ^ 32

/-- `buf[k] |= v` with a bounds check; an access outside the buffer is `none`. -/
def orAt (buf : List Byte) (k : Nat) (v : Byte) : Option (List Byte) :=
  match buf[k]? with
  | some b => some (buf.set k (b ||| v))
  | none => none

/-- `memcpy(&buf[off], data, len)`; a copy that leaves the buffer is `none`. -/
def writeAt (buf : List Byte) (off : Nat) (data : List Byte) : Option (List Byte) :=
  if off + data.length ≤ buf.length then some (buf.take off ++ data ++ buf.drop (off + data.length)) else none

/-- The bit loop of `SetReassBitMap` — hs_reass.c:45-48; `n` iterations from bit `i`. -/
def setBits (m : List Byte) (i : Nat) : Nat → Option (List Byte)
  | 0 => some m
  | n + 1 => match orAt m (i / 8) (1#8 <<< (i % 8)) with
    | some m' => setBits m' (i + 1) n
    | none => none

/-- `SetReassBitMap` — hs_reass.c:37-60. All index arithmetic is `uint32_t`. -/
def setReassBitMap (m : List Byte) (off len : Nat) : Option (List Byte) :=
  let start := off
  let fin := sub32 (off + len) 1
  if sub32 fin start < 8 then
    setBits m start (sub32 fin start + 1)
  else
    let startOffset := start / 8
    let endOffset := fin / 8
    match startMask[start % 8]?, endMask[fin % 8]? with
    | some sm, some em =>
      match orAt m startOffset sm with
      | none => none
      | some m1 =>
        let copyLen := sub32 (sub32 endOffset startOffset) 1
        match writeAt m1 (startOffset + 1) (List.replicate copyLen 0xFF#8) with
        | none => none
        | some m2 => orAt m2 endOffset em
    | _, _ => none

/-- `IsReassComplete` — hs_reass.c:62-78. `none` is a read outside the bitmap. -/
def isReassComplete (m : List Byte) (msgLen : Nat) : Option Bool :=
  let maxIndex := sub32 msgLen 1
  match m[maxIndex / 8]?, endMask[maxIndex % 8]? with
  | some b, some e =>
    if b ≠ e then some false else some ((m.take (maxIndex / 8)).all (· == 0xFF#8))
  | _, _ => none

/-- `HS_ReassQueue` entry — tls/handshake/reass/include/hs_reass.h. -/
structure Node where
  type : Byte
  seq : Nat
  complete : Bool
  msgLen : Nat
  msg : List Byte
  bitmap : List Byte
deriving Repr, DecidableEq

/-- `HS_MsgInfo` as filled by the DTLS header parser. -/
structure Info where
  type : Byte
  length : Nat
  seq : Nat
  off : Nat
  fragLen : Nat
  raw : List Byte
deriving Repr, DecidableEq

/-- The negotiated version and `HS_MaxMessageSize` (already capped by `HITLS_HS_BUFFER_SIZE_LIMIT`, parse.c:275-278). -/
structure Cfg where
  dtls13 : Bool
  maxLen : Byte → Nat

/-- `DtlsParseHsMsgHeader` — parse.c:295-323 together with `CheckHsMsgLen` :270-292 and the length test of
`ReadDtlsHsMessage` (hs_state_recv.c:630-637): `raw` is what the record layer handed over for this message, and it
must be exactly header plus fragment. `HS_MSG_TYPE_END` is 255 (hs_msg.h:74). `none` is any of the error returns. -/
def parseHeader (cfg : Cfg) (raw : List Byte) : Option Info :=
  if raw.length < hdrSize then none else
  match raw with
  | t :: l0 :: l1 :: l2 :: s0 :: s1 :: o0 :: o1 :: o2 :: f0 :: f1 :: f2 :: body =>
    if t.toNat ≥ 255 then none else
    let length := beVal [l0, l1, l2]
    let off := beVal [o0, o1, o2]
    let fragLen := beVal [f0, f1, f2]
    if fragLen + off > length ∨ (length ≠ 0 ∧ fragLen = 0) then none else
    if length > cfg.maxLen t then none else
    if fragLen ≠ body.length then none else
    some { type := t, length, seq := beVal [s0, s1], off, fragLen, raw }
  | _ => none

/-- `GetReassNode` — hs_reass.c:131-148. -/
def getNode (q : List Node) (seq : Nat) : Option Node := q.find? (fun n => n.seq == seq)

/-- `ReassNodeNew` — hs_reass.c:150-195 (the node; the caller appends it at the tail). -/
def nodeNew (i : Info) : Node :=
  { type := i.type, seq := i.seq, complete := false, msgLen := hdrSize + i.length,
    msg := List.replicate (hdrSize + i.length) 0#8,
    bitmap := if i.length ≠ 0 then List.replicate ((i.length + 7) / 8) 0#8 else [] }

/-- Result of `ReassembleMsg`. -/
inductive RRes where
  | ok (n : Node)
  | invalidFragment
  | memcpyFail (n : Node)
  | oob
deriving Repr, DecidableEq

/-- The second half of `ReassembleMsg` — hs_reass.c:226-250. -/
def reassembleBody (i : Info) (n : Node) : RRes :=
  if n.msgLen = hdrSize then .ok { n with complete := true } else
  if i.fragLen > n.msgLen - (hdrSize + i.off) then .memcpyFail n else
  match writeAt n.msg (hdrSize + i.off) ((i.raw.drop hdrSize).take i.fragLen) with
  | none => .oob
  | some msg =>
    match setReassBitMap n.bitmap i.off i.fragLen with
    | none => .oob
    | some bm =>
      match isReassComplete bm (n.msgLen - hdrSize) with
      | none => .oob
      | some false => .ok { n with msg := msg, bitmap := bm }
      | some true =>
        match writeAt msg 9 (beBytes 3 i.length) with
        | none => .oob
        | some msg' => .ok { n with msg := msg', bitmap := bm, complete := true }

/-- `ReassembleMsg` — hs_reass.c:197-251. -/
def reassembleMsg (i : Info) (n : Node) : RRes :=
  let bufOffset := hdrSize + i.off
  if n.msgLen < bufOffset ∨ n.type ≠ i.type ∨ n.msgLen - hdrSize ≠ i.length then .invalidFragment else
  if i.off = 0 then
    if hdrSize > n.msgLen then .memcpyFail n else
    match writeAt n.msg 0 (i.raw.take hdrSize) with
    | none => .oob
    | some msg => reassembleBody i { n with msg := msg }
  else reassembleBody i n

/-- Store an updated node in place of the first node with its sequence number (the C code updates through the
pointer `GetReassNode` returned). -/
def putNode (n : Node) : List Node → List Node
  | [] => []
  | m :: q => if m.seq == n.seq then n :: q else m :: putNode n q

/-- Outcome of one pass of the read loop. -/
inductive Out where
  | msg (bytes : List Byte)   -- a complete message reached the parser and was accepted
  | idle                      -- nothing complete yet
  | err                       -- an error return (fatal alert)
  | oob                       -- memory access outside a buffer
deriving Repr, DecidableEq

/-- `HS_ReassAppend` — hs_reass.c:253-276. -/
def append (expect : Nat) (i : Info) (q : List Node) : Out × List Node :=
  if i.seq > expect + maxExceed then (.idle, q) else
  let q' := match getNode q i.seq with
    | some _ => q
    | none => q ++ [nodeNew i]
  match getNode q' i.seq with
  | none => (.oob, q')
  | some n =>
    match reassembleMsg i n with
    | .ok n' => (.idle, putNode n' q')
    | .memcpyFail n' => (.err, putNode n' q')
    | .invalidFragment => (.err, q')
    | .oob => (.oob, q')

/-- `HS_GetReassMsg` — hs_reass.c:278-321: the complete message with the expected number, removed from the queue. -/
def getMsg (expect : Nat) (q : List Node) : Option (List Byte × List Node) :=
  match getNode q expect with
  | none => none
  | some n => if n.complete then some (n.msg.take n.msgLen, q.eraseP (fun m => m.seq == expect)) else none

/-- Receive state: `expectRecvSeq` (`uint16_t`) and the reassembly queue. -/
structure State where
  expect : Nat
  queue : List Node
deriving Repr

/-- One pass: the record the record layer would hand over, and whether the body parser accepts a complete message. -/
structure Step where
  record : List Byte
  parseOk : Bool

/-- `DtlsCheckAndParseMsg` — hs_state_recv.c:569-602: deliver and advance the expected number.
`DTLS_HS_MSG_SEQ_MAX` is 65535. -/
def consume (cfg : Cfg) (st : Step) (bytes : List Byte) (s : State) : Out × State :=
  if !st.parseOk then (.err, s) else
  if cfg.dtls13 ∧ s.expect = 65535 then (.err, s) else
  (.msg bytes, { s with expect := (s.expect + 1) % 65536 })

/-- `DtlsDisorderMsgProcess` — hs_state_recv.c:500-536 (UDP). `FINISHED` is 20. -/
def disorder (cfg : Cfg) (i : Info) (s : State) : Out × State :=
  if s.expect = 0 ∧ i.type = 20#8 ∧ ¬ cfg.dtls13 then (.idle, s) else
  if i.seq > s.expect then
    let r := append s.expect i s.queue
    (r.1, { s with queue := r.2 })
  else (.idle, s)

/-- `DtlsGetCompleteHandshakeMsg` and `DtlsReadAndParseHandshakeMsg` — hs_state_recv.c:658-755. -/
def poll (cfg : Cfg) (st : Step) (s : State) : Out × State :=
  match getMsg s.expect s.queue with
  | some (bytes, q) => consume cfg st bytes { s with queue := q }
  | none =>
    match parseHeader cfg st.record with
    | none => (.err, s)
    | some i =>
      if i.seq ≠ s.expect then disorder cfg i s
      else if i.fragLen ≠ i.length then
        let r := append s.expect i s.queue
        (r.1, { s with queue := r.2 })
      else consume cfg st i.raw s

/-- `HS_ReassQueueInit` and a fresh handshake context. -/
def init : State := { expect := 0, queue := [] }

/-- The outputs of a history of passes. -/
def run (cfg : Cfg) : List Step → State → List Out × State
  | [], s => ([], s)
  | st :: rest, s =>
    let r := poll cfg st s
    let t := run cfg rest r.2
    (r.1 :: t.1, t.2)

end Verif.Tls.Reass
