import Verif.Bsl.Tlv.Model
import Verif.Common.Endian
/-!
# Serialisation of sessions

/repo/tls/feature/session/src/session_enc.c and session_dec.c, on top of the TLV model.  Native integers are stored as
they lie in memory; the model is that of a little-endian host.  A peer certificate is its DER encoding: the library's
`CERT_CTRL_GET_ENCODE_LEN` reports its length and `SAL_CERT_X509Encode` stores it; `SAL_CERT_X509Parse` accepts the
encodings selected by a parameter.  Allocation failures and NULL arguments are not modelled.
-/
namespace Verif.Tls.Session
open Verif.Common Verif.Bsl Verif.Bsl.Bytes

/-- The members of `struct TlsSessCtx` (/repo/tls/feature/session/src/session_type.h:51-88) that are serialised.  Arrays
with a size member are lists; a NULL `peerCert` is `none`. -/
structure Sess where
  version : BitVec 16
  cipherSuite : BitVec 16
  masterKey : List Byte
  peerCert : Option (List Byte)
  startTime : BitVec 64
  timeout : BitVec 64
  hostName : List Byte
  sessionIdCtx : List Byte
  sessionId : List Byte
  haveExtMasterSecret : Bool
  verifyResult : BitVec 32
  ticketAgeAdd : BitVec 32
deriving DecidableEq, Repr

/-- A new session: `BSL_SAL_Calloc` in `HITLS_SESS_New`. -/
def fresh : Sess := ⟨0, 0, [], none, 0, 0, [], [], [], false, 0, 0⟩

/-- `SessionObjType`, /repo/tls/feature/session/src/session_enc.h:30-43. -/
inductive Obj where
  | version | cipherSuite | masterSecret | peerCert | startTime | timeout | hostName | sessionIdCtx | sessionId
  | extMasterSecret | verifyResult | ageAdd
deriving DecidableEq, Repr

/-- The numbers of `SessionObjType`. -/
def Obj.code : Obj → BitVec 32
  | version => 0x0101#32 | cipherSuite => 0x0102#32 | masterSecret => 0x0103#32 | peerCert => 0x0104#32
  | startTime => 0x0106#32 | timeout => 0x0107#32 | hostName => 0x0108#32 | sessionIdCtx => 0x0109#32
  | sessionId => 0x010A#32 | extMasterSecret => 0x010B#32 | verifyResult => 0x010C#32 | ageAdd => 0x010D#32

/-- `OBJ_LIST` of both files: session_enc.c:405-420, session_dec.c:332-347. -/
def objList : List Obj :=
  [.version, .cipherSuite, .masterSecret, .peerCert, .startTime, .timeout, .hostName, .sessionIdCtx, .sessionId,
   .extMasterSecret, .verifyResult, .ageAdd]

/-- Failures: `enc`, `dec` are the error codes of one object, `ticket` is `HITLS_SESS_ERR_DECODE_TICKET`, `oob` an access
outside a buffer. -/
inductive Err where
  | enc (o : Obj)
  | dec (o : Obj)
  | ticket
  | oob
deriving DecidableEq, Repr

/-- The value of the `BSL_Tlv` of an object, `none` when the function returns without writing; `EncSessObj*`,
/repo/tls/feature/session/src/session_enc.c:38-399.  For the peer certificate see `encPeerCert`. -/
def encValue (s : Sess) : Obj → Option (List Byte)
  | .version => some (leBytes 2 s.version.toNat)
  | .cipherSuite => some (leBytes 2 s.cipherSuite.toNat)
  | .masterSecret => some s.masterKey
  | .peerCert => none
  | .startTime => some (leBytes 8 s.startTime.toNat)
  | .timeout => some (leBytes 8 s.timeout.toNat)
  | .hostName => if s.hostName.length = 0 then none else some s.hostName
  | .sessionIdCtx => if s.sessionIdCtx.length = 0 then none else some s.sessionIdCtx
  | .sessionId => if s.sessionId.length = 0 then none else some s.sessionId
  | .extMasterSecret => some [if s.haveExtMasterSecret then 1#8 else 0#8]
  | .verifyResult => some (leBytes 4 s.verifyResult.toNat)
  | .ageAdd => some (leBytes 4 s.ticketAgeAdd.toNat)

/-- `GetPeertCertSize`, /repo/tls/feature/session/src/session_enc.c:312-331; `uint32_t` sum. -/
def peerCertSize (cert : List Byte) : Nat := if cert.length = 0 then 0 else (cert.length + 3) % 2 ^ 32

/-- `EncSessObjPeerCert` with a buffer and `PackCertToBuf`, /repo/tls/feature/session/src/session_enc.c:278-310, 333-376. -/
def encPeerCert (s : Sess) (length : Nat) : Except Err (List Byte) :=
  match s.peerCert with
  | none => .ok []
  | some cert =>
    if peerCertSize cert = 0 then .ok []
    else if length < 8 ∨ peerCertSize cert > Tlv.sub32 length 8 then .error (.enc .peerCert)
    else if peerCertSize cert - 3 ≠ cert.length then .error (.enc .peerCert)
    else .ok (uint32ToByte Obj.peerCert.code ++ uint32ToByte (BitVec.ofNat 32 (peerCertSize cert)) ++
      (uint24ToByte (BitVec.ofNat 32 cert.length) ++ cert))

/-- One object with a buffer of `length` bytes: the bytes written. -/
def encObj (s : Sess) (o : Obj) (length : Nat) : Except Err (List Byte) :=
  if o = .peerCert then encPeerCert s length
  else
    match encValue s o with
    | none => .ok []
    | some v =>
      match Tlv.pack o.code v length with
      | .error _ => .error (.enc o)
      | .ok b => .ok b

/-- One object without a buffer: `*encLen`. -/
def encObjSize (s : Sess) (o : Obj) : Nat :=
  if o = .peerCert then
    match s.peerCert with
    | none => 0
    | some cert => if peerCertSize cert = 0 then 0 else (8 + peerCertSize cert) % 2 ^ 32
  else
    match encValue s o with
    | none => 0
    | some v => (8 + v.length) % 2 ^ 32

/-- `SESS_GetTotalEncodeSize`, /repo/tls/feature/session/src/session_enc.c:422-440; the `uint32_t` sum wraps. -/
def totalEncodeSize (s : Sess) : Nat := objList.foldl (fun off o => (off + encObjSize s o) % 2 ^ 32) 0

/-- The loop of `SESS_Encode`, /repo/tls/feature/session/src/session_enc.c:457-465; `out` are the `offset` bytes written. -/
def encLoop (s : Sess) (length : Nat) : List Obj → List Byte → Except Err (List Byte)
  | [], out => .ok out
  | o :: r, out =>
    match encObj s o (Tlv.sub32 length out.length) with
    | .error e => .error e
    | .ok b => encLoop s length r (out ++ b)

/-- `SESS_Encode`, /repo/tls/feature/session/src/session_enc.c:442-469; `*usedLen` is the length of the result. -/
def encode (s : Sess) (length : Nat) : Except Err (List Byte) := encLoop s length objList []

/-- Capacity of the variable or array the value is copied to, /repo/tls/feature/session/src/session_dec.c:43-326. -/
def capacity : Obj → Nat
  | .version => 2 | .cipherSuite => 2 | .masterSecret => 512 | .peerCert => 0 | .startTime => 8 | .timeout => 8
  | .hostName => 0 | .sessionIdCtx => 32 | .sessionId => 32 | .extMasterSecret => 1 | .verifyResult => 4 | .ageAdd => 4

/-- The assignment after a successful `BSL_TLV_Parse`; the integer variables start at zero, so a short value fills the low
bytes. -/
def store (s : Sess) (v : List Byte) : Obj → Sess
  | .version => { s with version := BitVec.ofNat 16 (leVal v) }
  | .cipherSuite => { s with cipherSuite := BitVec.ofNat 16 (leVal v) }
  | .masterSecret => { s with masterKey := v }
  | .peerCert => { s with peerCert := some v }
  | .startTime => { s with startTime := BitVec.ofNat 64 (leVal v) }
  | .timeout => { s with timeout := BitVec.ofNat 64 (leVal v) }
  | .hostName => { s with hostName := v }
  | .sessionIdCtx => { s with sessionIdCtx := v }
  | .sessionId => { s with sessionId := v }
  | .extMasterSecret => { s with haveExtMasterSecret := decide (leVal v ≠ 0) }
  | .verifyResult => { s with verifyResult := BitVec.ofNat 32 (leVal v) }
  | .ageAdd => { s with ticketAgeAdd := BitVec.ofNat 32 (leVal v) }

/-- The objects other than the host name and the certificate, /repo/tls/feature/session/src/session_dec.c:43-130, 175-243,
310-326: the session and `*readLen`. -/
def decSimple (s : Sess) (o : Obj) (data : List Byte) : Except Err (Sess × Nat) :=
  match Tlv.parse o.code data (capacity o) with
  | .error .oob => .error .oob
  | .error _ => .error (.dec o)
  | .ok (v, n) => .ok (store s v o, n)

/-- `DecSessObjHostName`, /repo/tls/feature/session/src/session_dec.c:133-172. -/
def decHostName (s : Sess) (data : List Byte) : Except Err (Sess × Nat) :=
  match byteToUint32 (data.drop 4) with
  | none => .error .oob
  | some tlvLen =>
    if tlvLen.toNat > 0xff ∨ tlvLen.toNat = 0 then .error (.dec .hostName)
    else
      match Tlv.parse Obj.hostName.code data tlvLen.toNat with
      | .error .oob => .error .oob
      | .error _ => .error (.dec .hostName)
      | .ok (v, n) => if v.getLast? ≠ some 0#8 then .error (.dec .hostName) else .ok (store s v .hostName, n)

/-- `ParseBufToCert`, /repo/tls/feature/session/src/session_dec.c:245-289; `certOk` tells the encodings the certificate
parser accepts. -/
def parseBufToCert (certOk : List Byte → Bool) (s : Sess) (buf : List Byte) : Except Err Sess :=
  if buf.length < 3 then .error (.dec .peerCert)
  else
    match byteToUint24 buf with
    | none => .error .oob
    | some certLen =>
      if certLen.toNat ≠ buf.length - 3 then .error (.dec .peerCert)
      else if certOk (buf.drop 3) then .ok (store s (buf.drop 3) .peerCert)
      else .error (.dec .peerCert)

/-- `DecSessObjPeerCert`, /repo/tls/feature/session/src/session_dec.c:291-308. -/
def decPeerCert (certOk : List Byte → Bool) (s : Sess) (data : List Byte) : Except Err (Sess × Nat) :=
  match byteToUint32 (data.drop 4) with
  | none => .error .oob
  | some tlvLen =>
    if tlvLen.toNat = 0 ∨ tlvLen.toNat > Tlv.sub32 data.length 8 then .error (.dec .peerCert)
    else if (data.drop 8).length < tlvLen.toNat then .error .oob
    else
      match parseBufToCert certOk s ((data.drop 8).take tlvLen.toNat) with
      | .error e => .error e
      | .ok s' => .ok (s', (tlvLen.toNat + 8) % 2 ^ 32)

/-- The call through `OBJ_LIST`. -/
def decObj (certOk : List Byte → Bool) (s : Sess) (o : Obj) (data : List Byte) : Except Err (Sess × Nat) :=
  if o = .peerCert then decPeerCert certOk s data
  else if o = .hostName then decHostName s data
  else decSimple s o data

/-- The loop of `SESS_Decode` and the final test, /repo/tls/feature/session/src/session_dec.c:364-391; `data` is the text at
`curPos`, its length is `length - offset`. -/
def decLoop (certOk : List Byte → Bool) : List Obj → List Byte → Sess → Except Err Sess
  | [], data, s => if data.length ≠ 0 then .error .ticket else .ok s
  | o :: r, data, s =>
    if data.length < 8 then .error .ticket
    else
      match byteToUint32 data with
      | none => .error .oob
      | some type =>
        if o.code ≠ type then decLoop certOk r data s
        else
          match decObj certOk s o data with
          | .error e => .error e
          | .ok (s', n) => if n > data.length then .error .oob else decLoop certOk r (data.drop n) s'

/-- `SESS_Decode`, /repo/tls/feature/session/src/session_dec.c:349-392. -/
def decode (certOk : List Byte → Bool) (s : Sess) (data : List Byte) : Except Err Sess := decLoop certOk objList data s

end Verif.Tls.Session
