import Verif.Tls.Session.Model
import Verif.Bsl.Tlv.Props
/-!
# Specification of serialised sessions

A serialised session is a sequence of objects, each a TLV.
-/
namespace Verif.Tls.Session.Spec
open Verif.Common Verif.Bsl

/-- The serialisation of a sequence of objects. -/
def wire (items : List (Obj × List Byte)) : List Byte := Tlv.Spec.seq (items.map fun p => (p.1.code, p.2))

/-- The objects of a session: one for every member, except empty names, identifiers and certificates; a certificate is
preceded by its 24-bit length. -/
def items (s : Sess) : List (Obj × List Byte) :=
  [(.version, leBytes 2 s.version.toNat), (.cipherSuite, leBytes 2 s.cipherSuite.toNat), (.masterSecret, s.masterKey)] ++
  (match s.peerCert with
    | some (a :: c) => [(.peerCert, beBytes 3 (a :: c).length ++ (a :: c))]
    | _ => []) ++
  [(.startTime, leBytes 8 s.startTime.toNat), (.timeout, leBytes 8 s.timeout.toNat)] ++
  (if s.hostName = [] then [] else [(.hostName, s.hostName)]) ++
  (if s.sessionIdCtx = [] then [] else [(.sessionIdCtx, s.sessionIdCtx)]) ++
  (if s.sessionId = [] then [] else [(.sessionId, s.sessionId)]) ++
  [(.extMasterSecret, [if s.haveExtMasterSecret then 1#8 else 0#8]), (.verifyResult, leBytes 4 s.verifyResult.toNat),
   (.ageAdd, leBytes 4 s.ticketAgeAdd.toNat)]

/-- The values a decoder accepts for an object. -/
def Admissible (certOk : List Byte → Bool) (o : Obj) (v : List Byte) : Prop :=
  match o with
  | .version | .cipherSuite => v.length ≤ 2
  | .masterSecret => v.length ≤ 512
  | .peerCert => ∃ c, v = beBytes 3 c.length ++ c ∧ c.length < 2 ^ 24 ∧ certOk c = true
  | .startTime | .timeout => v.length ≤ 8
  | .hostName => v.length ≤ 255 ∧ v.getLast? = some 0#8
  | .sessionIdCtx | .sessionId => v.length ≤ 32
  | .extMasterSecret => v.length ≤ 1
  | .verifyResult | .ageAdd => v.length ≤ 4

/-- The effect of an object on a session. -/
def assign (s : Sess) (p : Obj × List Byte) : Sess :=
  match p.1 with
  | .version => { s with version := BitVec.ofNat 16 (leVal p.2) }
  | .cipherSuite => { s with cipherSuite := BitVec.ofNat 16 (leVal p.2) }
  | .masterSecret => { s with masterKey := p.2 }
  | .peerCert => { s with peerCert := some (p.2.drop 3) }
  | .startTime => { s with startTime := BitVec.ofNat 64 (leVal p.2) }
  | .timeout => { s with timeout := BitVec.ofNat 64 (leVal p.2) }
  | .hostName => { s with hostName := p.2 }
  | .sessionIdCtx => { s with sessionIdCtx := p.2 }
  | .sessionId => { s with sessionId := p.2 }
  | .extMasterSecret => { s with haveExtMasterSecret := decide (leVal p.2 ≠ 0) }
  | .verifyResult => { s with verifyResult := BitVec.ofNat 32 (leVal p.2) }
  | .ageAdd => { s with ticketAgeAdd := BitVec.ofNat 32 (leVal p.2) }

/-- The sessions whose serialisation can be read back. -/
structure Limits (certOk : List Byte → Bool) (s : Sess) : Prop where
  key : s.masterKey.length ≤ 512
  cert : ∀ c, s.peerCert = some c → c ≠ [] ∧ c.length < 2 ^ 24 ∧ certOk c = true
  host : s.hostName = [] ∨ s.hostName.length ≤ 255 ∧ s.hostName.getLast? = some 0#8
  ctx : s.sessionIdCtx.length ≤ 32
  id : s.sessionId.length ≤ 32

end Verif.Tls.Session.Spec
