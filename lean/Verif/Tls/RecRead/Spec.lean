import Verif.Tls.RecRead.Model
/-!
# Reading records from a stream: specification
-/
namespace Verif.Tls.RecRead.Spec
open Verif.Common

/-- All bytes the transport will ever deliver. -/
def stream (io : List Io) : List Byte :=
  io.flatMap fun e =>
    match e with
    | .data bs => bs
    | _ => []

/-- The bytes that can be had without interruption. -/
def avail : List Io → List Byte
  | .data (a :: bs) :: r => (a :: bs) ++ avail r
  | _ => []

/-- The interruption after these bytes. -/
def interrupt : List Io → Ret
  | .data (_ :: _) :: r => interrupt r
  | .eof :: _ => .eof
  | .fail :: _ => .io
  | _ => .again

/-- The bytes received but not consumed. -/
def pending (b : Buf) : List Byte := (b.buf.drop b.start).take (b.stop - b.start)

/-- The same for a connection. -/
def pendingOf (s : State) : List Byte :=
  match s.inBuf with
  | none => []
  | some b => pending b

/-- A record on the wire. -/
def wire (r : Rec) : List Byte := [r.type] ++ beBytes 2 r.version ++ beBytes 2 r.body.length ++ r.body

/-- The wire form of an optional record. -/
def wireOpt : Option Rec → List Byte
  | none => []
  | some r => wire r

/-- TLS 1.3 is negotiated, or is about to be. -/
def Tls13 (v : Nat) : Prop := v = 0x0304 ∨ v = 0xfefc

instance (v : Nat) : Decidable (Tls13 v) := by unfold Tls13; infer_instance

/-- The record types: change cipher spec, alert, handshake, application data, ACK; in protected TLS 1.3 only application data,
alerts and, during the handshake, change cipher spec. -/
def TypeOk (c : Ctx) (t : Byte) : Prop :=
  t ∈ [20#8, 21#8, 22#8, 23#8, 26#8] ∧
  (Tls13 (if c.version > 0 then c.version else c.maxVersion) → c.hasSuite = true →
    t = 23 ∨ t = 21 ∨ (t = 20 ∧ c.hsCtx = true))

/-- The versions: before negotiation any 3.x or the TLCP version; in TLS 1.3 the version of TLS 1.2; otherwise the
negotiated one, or for alerts one with the same major version. -/
def VersionOk (c : Ctx) (v : Nat) (t : Byte) : Prop :=
  if c.version = 0 then v / 256 = 3 ∨ v = 0x0101
  else if c.version = 0x0304 then v = 0x0303
  else v = c.version ∨ (t = 21 ∧ v / 256 = c.version / 256)

/-- The longest body: the negotiated or default plaintext limit and 320 bytes, in TLS 1.3 at most 2^14 + 256. -/
def LengthOk (c : Ctx) (n : Nat) : Prop :=
  (c.recordSizeLimit = 0 ∨ 16384 < c.recordSizeLimit → n ≤ 16384 + 320) ∧
  (c.recordSizeLimit ≠ 0 → c.recordSizeLimit ≤ 16384 →
    n + (if c.version = 0x0304 ∨ c.version = 0xfefc ∨ (c.version = 0 ∧ (c.maxVersion = 0x0304 ∨ c.maxVersion = 0xfefc))
      then 1 else 0) ≤ c.recordSizeLimit + 320) ∧
  (Tls13 c.version → n ≤ 16384 + 256)

/-- An acceptable header.  An application may take records of other types in TLCP by a callback. -/
def Accepts (c : Ctx) (t : Byte) (v n : Nat) : Prop :=
  (TypeOk c t ∨ (c.readCb = true ∧ c.tlcp = true)) ∧ VersionOk c v t ∧ LengthOk c n

/-- What a read yields for the bytes at hand. -/
inductive Next (c : Ctx) (int : Ret) : List Byte → Ret → Option Rec → Prop
  /-- A whole record with an acceptable header. -/
  | record (t : Byte) (v : Nat) (body rest : List Byte) : v < 2 ^ 16 → body.length < 2 ^ 16 → Accepts c t v body.length →
      Next c int (wire ⟨t, v, body⟩ ++ rest) .ok (some ⟨t, v, body⟩)
  /-- Not yet a header. -/
  | short (s : List Byte) : s.length < 5 → Next c int s int none
  /-- An acceptable header, but not yet the body. -/
  | partialBody (t : Byte) (v n : Nat) (rest : List Byte) : v < 2 ^ 16 → n < 2 ^ 16 → Accepts c t v n → rest.length < n →
      Next c int ([t] ++ beBytes 2 v ++ beBytes 2 n ++ rest) int none
  /-- A header that is not acceptable. -/
  | rejected (t : Byte) (v n : Nat) (rest : List Byte) (e : Ret) : v < 2 ^ 16 → n < 2 ^ 16 → ¬ Accepts c t v n →
      e = .unexpected ∨ e = .badVersion ∨ e = .overflow →
      Next c int ([t] ++ beBytes 2 v ++ beBytes 2 n ++ rest) e none

end Verif.Tls.RecRead.Spec
