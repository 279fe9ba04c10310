import Verif.Common.Endian
import Verif.Tls.Reass.Model
/-!
# Specification of DTLS reassembly

The receiver holds a list of fragments in arrival order; a message is assembled byte by byte from the last fragment
that carried each byte.
-/
namespace Verif.Tls.Reass.Spec
open Verif.Common

/-- A fragment: `body` is bytes `off …` of message number `seq`, which has type `type` and `length` bytes. -/
structure Frag where
  type : Byte
  length : Nat
  seq : Nat
  off : Nat
  body : List Byte
deriving Repr, DecidableEq

/-- RFC 6347 §4.2.2 wire format of a fragment. -/
def Frag.encode (f : Frag) : List Byte :=
  f.type :: (beBytes 3 f.length ++ beBytes 2 f.seq ++ beBytes 3 f.off ++ beBytes 3 f.body.length ++ f.body)

/-- The wire format of a whole message (a single fragment). -/
def encodeMsg (type : Byte) (seq : Nat) (body : List Byte) : List Byte :=
  Frag.encode { type, length := body.length, seq, off := 0, body }

/-- A fragment the receiver accepts as well formed. -/
def Frag.WF (cfg : Cfg) (f : Frag) : Prop :=
  f.type.toNat < 255 ∧ f.length < 2 ^ 24 ∧ f.seq < 2 ^ 16 ∧ f.off + f.body.length ≤ f.length ∧
    (f.length ≠ 0 → f.body ≠ []) ∧ f.length ≤ cfg.maxLen f.type

/-- Byte `i` of the message, as carried by the last of `fs` that covers it. -/
def byteAt (fs : List Frag) (i : Nat) : Option Byte :=
  fs.foldl (fun acc f => if f.off ≤ i ∧ i < f.off + f.body.length then f.body[i - f.off]? else acc) none

/-- All `n` bytes, if each is covered. -/
def assemble (n : Nat) (fs : List Frag) : Option (List Byte) := (List.range n).mapM (byteAt fs)

/-- Receiver state: the number expected next and the fragments held. -/
structure State where
  expect : Nat
  held : List Frag

/-- Hold a fragment: ignored if it is too far ahead, an error if it disagrees with a held fragment of the same
message. -/
def hold (f : Frag) (s : State) : Out × State :=
  if f.seq > s.expect + 10 then (.idle, s) else
  match s.held.find? (fun g => g.seq == f.seq) with
  | some g => if g.type = f.type ∧ g.length = f.length then (.idle, { s with held := s.held ++ [f] }) else (.err, s)
  | none => (.idle, { s with held := s.held ++ [f] })

/-- The message with the expected number, if it is complete. -/
def ready (s : State) : Option (List Byte) :=
  match s.held.filter (fun g => g.seq == s.expect) with
  | [] => none
  | f :: fs => (assemble f.length (f :: fs)).map (encodeMsg f.type f.seq)

/-- Deliver a message and go to the next number. -/
def deliver (cfg : Cfg) (parseOk : Bool) (m : List Byte) (s : State) : Out × State :=
  if !parseOk ∨ (cfg.dtls13 ∧ s.expect = 65535) then (.err, s)
  else (.msg m, { s with expect := (s.expect + 1) % 65536 })

/-- One pass: a complete message is delivered first; otherwise the incoming record (`none` when malformed) is handled. -/
def poll (cfg : Cfg) (parseOk : Bool) (rec : Option Frag) (s : State) : Out × State :=
  match ready s with
  | some m => deliver cfg parseOk m { s with held := s.held.filter (fun g => g.seq != s.expect) }
  | none =>
    match rec with
    | none => (.err, s)
    | some f =>
      if f.seq = s.expect then
        if f.body.length = f.length then deliver cfg parseOk (encodeMsg f.type f.seq f.body) s else hold f s
      else if s.expect = 0 ∧ f.type = 20#8 ∧ ¬ cfg.dtls13 then (.idle, s)
      else if f.seq > s.expect then hold f s
      else (.idle, s)

def init : State := { expect := 0, held := [] }

def run (cfg : Cfg) : List (Bool × Option Frag) → State → List Out × State
  | [], s => ([], s)
  | e :: rest, s =>
    let r := poll cfg e.1 e.2 s
    let t := run cfg rest r.2
    (r.1 :: t.1, t.2)

end Verif.Tls.Reass.Spec
