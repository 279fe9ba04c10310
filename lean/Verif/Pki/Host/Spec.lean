import Verif.Common.Bits
import Verif.Pki.Host.Model
/-! Specification of host-name matching, stated on byte strings.  Only the byte constants `dot` and `star`
are taken from the model. -/
namespace Verif.Pki.Host.Spec
open Verif.Common

/-- The lower-case form of an ASCII letter; every other byte is itself. -/
def fold (c : Byte) : Byte :=
  if c.toNat ≥ 65 ∧ c.toNat ≤ 90 then BitVec.ofNat 8 (c.toNat + 32) else c

/-- Equality of strings ignoring the case of ASCII letters. -/
def EqIC (a b : List Byte) : Prop := a.map fold = b.map fold

/-- RFC 9525: the name has no `*` and equals the host name ignoring case, or it is `*.` and a domain of at
least two labels, and the host name is one label (without a dot), a dot and that domain ignoring case. -/
def Single (p h : List Byte) : Prop :=
  (star ∉ p ∧ EqIC p h) ∨
  ∃ l d d', p = star :: dot :: d ∧ h = l ++ dot :: d' ∧ dot ∉ l ∧ dot ∈ d' ∧ EqIC d d'

/-- RFC 6125 with a partial wildcard: the name has no `*` and equals the host name ignoring case, or its
first label is `pre*suf`, it has no other `*`, the first label of the host name starts with `pre` and ends
with `suf`, and whatever follows the first labels is equal, all ignoring case. -/
def Partial (p h : List Byte) : Prop :=
  (star ∉ p ∧ EqIC p h) ∨
  ∃ pre suf rp x y z rh, p = pre ++ star :: suf ++ rp ∧ h = x ++ y ++ z ++ rh ∧
    dot ∉ pre ∧ dot ∉ suf ∧ dot ∉ x ∧ dot ∉ y ∧ dot ∉ z ∧ star ∉ pre ∧ star ∉ suf ∧ star ∉ rp ∧
    EqIC pre x ∧ EqIC suf z ∧ EqIC rp rh ∧ (rp = [] ∨ rp.head? = some dot)

/-- What follows the first label, as the code compares it: an *empty* label of the name is not compared
with anything, it stands for any label of the host name. -/
inductive Tail : List Byte → List Byte → Prop
  | same {p h} : star ∉ p → EqIC p h → Tail p h
  | skip {l p h} : dot ∉ l → Tail p h → Tail (dot :: p) (l ++ dot :: h)

/-- The comparison the code makes for every name, empty labels included. -/
def PartialLoose (p h : List Byte) : Prop :=
  Tail p h ∨
  ∃ pre suf rp x y z rh, p = pre ++ star :: suf ++ rp ∧ h = x ++ y ++ z ++ rh ∧
    dot ∉ pre ∧ dot ∉ suf ∧ dot ∉ x ∧ dot ∉ y ∧ dot ∉ z ∧ star ∉ pre ∧ star ∉ suf ∧
    EqIC pre x ∧ EqIC suf z ∧
    (rp = [] ∧ rh = [] ∨ ∃ p' h', rp = dot :: p' ∧ rh = dot :: h' ∧ Tail p' h')

/-- The name has an empty label: a dot in front, or two dots in a row. -/
def EmptyLabel (p : List Byte) : Prop := (∃ r, p = dot :: r) ∨ ∃ a r, p = a ++ dot :: dot :: r

/-- The rule the caller selects with `HITLS_X509_FLAG_VFY_WITH_PARTIAL_WILDCARD` (bit 0 of `flags`). -/
def Matches (flags : BitVec 32) (p h : List Byte) : Prop :=
  if flags.toNat % 2 = 1 then PartialLoose p h else Single p h

/-- A certificate speaks for a host name: some dNSName of its subjectAltName, free of NUL, matches; or it
has no subjectAltName, or one without any dNSName, and the first common name of the subject, free of
NUL, matches. -/
def CertMatches (cert : Cert) (flags : BitVec 32) (host : List Byte) : Prop :=
  (∃ names g, cert.san = .ok names ∧ g ∈ names ∧ g.ty = .dns ∧ 0#8 ∉ g.value ∧
    Matches flags g.value host) ∨
  ((cert.san = .error .extNotFound ∨ ∃ names, cert.san = .ok names ∧ ∀ g ∈ names, g.ty ≠ .dns) ∧
    ∃ before cn after, cert.subject = before ++ (true, cn) :: after ∧ (∀ x ∈ before, x.1 = false) ∧
      0#8 ∉ cn ∧ Matches flags cn host)

/-- Decimal value of a digit string. -/
def decVal (l : List Byte) : Nat := l.foldl (fun n c => 10 * n + (c.toNat - 48)) 0

/-- Where the host part of a URI ends: `?`, `#`, `/`, and without an authority also `;`. -/
def Delim (auth : Bool) (c : Byte) : Prop :=
  c = 0x3f#8 ∨ c = 0x23#8 ∨ c = 0x2f#8 ∨ (auth = false ∧ c = 0x3b#8)

/-- `uri` is `scheme:part…` or `scheme://part…`, where `part` is `[userinfo@]host[:port]` and ends at the
first delimiter; the port is a decimal number of at most 65535. -/
def Uri (uri scheme host : List Byte) : Prop :=
  ∃ auth rest part after hp, uri = scheme ++ colon :: rest ∧ colon ∉ scheme ∧ scheme ≠ [] ∧
    (auth = true ∧ rest = slash :: slash :: (part ++ after) ∨
      auth = false ∧ rest = part ++ after ∧ ¬ ∃ r, rest = slash :: slash :: r) ∧
    (∀ c ∈ part, ¬ Delim auth c) ∧ (∀ c, after.head? = some c → Delim auth c) ∧
    (part = hp ∨ ∃ userinfo, part = userinfo ++ at_ :: hp) ∧ at_ ∉ hp ∧
    (hp = host ∨ ∃ port, hp = host ++ colon :: port ∧ port ≠ [] ∧
      (∀ c ∈ port, 48 ≤ c.toNat ∧ c.toNat ≤ 57) ∧ decVal port ≤ 65535) ∧
    colon ∉ host ∧ host ≠ []

/-- `srv` is `_service.domain`, neither part empty; the service has no dot. -/
def Srv (srv service domain : List Byte) : Prop :=
  srv = under :: service ++ dot :: domain ∧ dot ∉ service ∧ service ≠ [] ∧ domain ≠ []

/-- A certificate speaks for a URI or SRV identity: some subjectAltName entry of that type parses to the
same scheme (service) ignoring case and a host (domain) free of NUL that matches. -/
def IdMatches (parse : List Byte → List Byte → List Byte → Prop) (ty : GnType) (cert : Cert)
    (flags : BitVec 32) (tag host : List Byte) : Prop :=
  ∃ names g t p, cert.san = .ok names ∧ g ∈ names ∧ g.ty = ty ∧ parse g.value t p ∧ EqIC t tag ∧
    0#8 ∉ p ∧ Matches flags p host

end Verif.Pki.Host.Spec
