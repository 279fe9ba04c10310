import Verif.Pki.Path.Model

/-!
# X.509 path validation: specification

Says, without the verifier's loops, when a list of certificates (end entity
first, trust anchor last) is an acceptable certification path: RFC 5280 section
6.1 restricted to what openHiTLS checks.  Only the *data* types of the model
(`Cert`, `Crl`, `Env`, `Store`, `Cfg`) are used here.
-/

namespace Verif.Pki.Path.Spec
open Verif.Common

/-- Key usage bits as they lie in the library's 16-bit mask (hitls_pki_types.h:39-47). -/
def digitalSignature : Nat := 7
def nonRepudiation : Nat := 6
def keyEncipherment : Nat := 5
def dataEncipherment : Nat := 4
def keyAgreement : Nat := 3
def keyCertSign : Nat := 2
def crlSign : Nat := 1
def encipherOnly : Nat := 0
def decipherOnly : Nat := 15

/-- The certificate may be used for `bit`: it has no keyUsage extension, or the
extension has the bit. -/
def MayUse (c : Cert) (bit : Nat) : Prop :=
  ∀ ku, c.keyUsage = some ku → ku.testBit bit = true

/-- The subject's authority key identifier agrees with the issuer's
certificate: nothing is compared when either identifier is missing. -/
def KeyIdAgrees (ski : Option (List Byte)) (issuerName : Name) (serial : List Byte)
    (aki : Option Aki) : Prop :=
  ∀ s a, ski = some s → aki = some a →
    (a.kid ≠ [] → s = a.kid) ∧
    (∀ g, a.issuer = some g → g = some issuerName) ∧
    (a.serial ≠ [] → a.serial = serial)

/-- `d` can be the issuer of `c`: names chain, key identifiers agree (v3 only)
and the key of `d` is of the type the signature algorithm of `c` needs. -/
def Issued (env : Env) (d c : Cert) : Prop :=
  d.subject = c.issuer ∧
  (d.version = 2 → c.version = 2 → KeyIdAgrees d.ski d.issuer d.serial c.aki) ∧
  env.algOk d.key c.sigAlgTbs = true

/-- The signature on `c` verifies under the key of `d`, and the algorithm named
inside the signed part is the one used. -/
def SignedBy (env : Env) (d c : Cert) : Prop :=
  c.sigAlgTbs = c.sigAlg ∧ env.verify d.key c.sigAlg c.tbs c.sig = true

/-- `c` is a trust anchor: loaded in the store or found in a CA directory. -/
def Trusted (st : Store) (c : Cert) : Prop :=
  c ∈ st.certs ∨ ∃ n, c ∈ st.dir n

/-- The instant against which validity is judged. -/
def RefTime (cfg : Cfg) (t : Int) : Prop :=
  cfg.time = some t ∨ (cfg.time = none ∧ cfg.disableTime = false ∧ t = cfg.now)

/-- `c` is within its validity period at `t`, bounds included. -/
def ValidAt (c : Cert) (t : Int) : Prop :=
  ∃ nb na, c.notBefore = some nb ∧ c.notAfter = some na ∧ nb ≤ t ∧ t ≤ na

/-- Critical extensions the library knows how to process. -/
def Understood (cfg : Cfg) (oid : Nat) : Prop :=
  oid ∈ [14, 15, 17, 19, 35, 37] ∨ (oid = 31 ∧ cfg.crlLite = false)

/-- The certificate is marked as a CA. -/
def IsCa (c : Cert) : Prop := c.bcons = true ∧ c.isCa = true

/-- Number of certificates that are not self-issued among the intermediates
below position `i` (positions 1 .. i-1). -/
def intermediatesBelow (chain : List Cert) (i : Nat) : Nat :=
  ((chain.take i).drop 1).countP (fun c => decide (c.subject ≠ c.issuer))

/-- Key usages that make a certificate acceptable for a purpose (any one of them). -/
def purposeBits : Nat → List Nat
  | 1 => [digitalSignature, nonRepudiation, keyEncipherment, dataEncipherment, keyAgreement]
  | 2 => [digitalSignature, nonRepudiation, keyEncipherment, dataEncipherment, keyAgreement]
  | 3 => [digitalSignature, nonRepudiation]
  | 4 => [keyEncipherment]
  | 5 => [digitalSignature]
  | 6 => [digitalSignature, nonRepudiation]
  | 7 => [digitalSignature, nonRepudiation]
  | _ => []

/-- The extended key usage a purpose needs (last arc of id-kp): 1 serverAuth,
2 clientAuth, 3 codeSigning, 4 emailProtection, 8 timeStamping, 9 OCSPSigning. -/
def purposeEku : Nat → Nat
  | 1 => 1
  | 2 => 2
  | 3 => 4
  | 4 => 4
  | 5 => 3
  | 6 => 9
  | 7 => 8
  | _ => 0

/-- The end entity may serve the requested purpose (0 and 8 = any purpose). -/
def PurposeOk (purpose : Nat) (c : Cert) : Prop :=
  purpose = 0 ∨ purpose = 8 ∨
  (purpose ≤ 7 ∧
    (∀ ku, c.keyUsage = some ku → ∃ b ∈ purposeBits purpose, ku.testBit b = true) ∧
    (∀ l, c.eku = some l → purposeEku purpose ∈ l))

/-- Extension rules for one certificate. -/
structure ExtRules (env : Env) (cfg : Cfg) (c : Cert) : Prop where
  /-- v1 and v2 certificates carry no extensions -/
  old : c.version < 2 → c.exts = []
  /-- a critical extension is one the library processes -/
  critical : 2 ≤ c.version → ∀ e ∈ c.exts, e.2 = true → Understood cfg e.1
  /-- post-quantum signature keys: some signing usage and no encryption usage -/
  pqc : 2 ≤ c.version → env.kind c.key = .pqcSig → ∀ ku, c.keyUsage = some ku →
    (∃ b ∈ [digitalSignature, nonRepudiation, keyCertSign, crlSign], ku.testBit b = true) ∧
    (∀ b ∈ [keyEncipherment, dataEncipherment, keyAgreement, encipherOnly, decipherOnly],
      ku.testBit b = false)
  /-- ML-KEM keys: keyEncipherment and nothing else -/
  kem : 2 ≤ c.version → env.kind c.key = .mlKem → ∀ ku, c.keyUsage = some ku →
    ku = 2 ^ keyEncipherment

/-- `crl` speaks for `parent` at the reference time. -/
structure Applies (crl : Crl) (parent : Cert) (time : Option Int) : Prop where
  name : crl.issuer = parent.subject
  keyId : parent.version = 2 → crl.version = 1 →
    KeyIdAgrees parent.ski parent.issuer parent.serial crl.aki
  fresh : ∀ t, time = some t → ∃ tu, crl.thisUpdate = some tu ∧ tu ≤ t ∧
    ∀ nu, crl.nextUpdate = some nu → ∃ n, nu = some n ∧ t ≤ n

/-- Lite-mode revocation verdict: the parent may sign CRLs, some CRL of the parent
applies, and every CRL that applies has understood critical extensions, carries
a correct signature of the parent and does not list the certificate. -/
structure NotRevoked (env : Env) (crls : List Crl) (c parent : Cert) (time : Option Int) : Prop where
  signer : MayUse parent crlSign
  found : ∃ crl ∈ crls, Applies crl parent time
  clean : ∀ crl ∈ crls, Applies crl parent time →
    (∀ e ∈ crl.exts, e.2 = true → e.1 = 35 ∨ e.1 = 20) ∧
    crl.sigAlgTbs = crl.sigAlg ∧ env.algOk parent.key crl.sigAlgTbs = true ∧
    env.verify parent.key crl.sigAlg crl.tbs crl.sig = true ∧
    c.serial ∉ crl.revoked

/-- All per-path conditions. `chain[0]` is the end entity, the last element the
trust anchor. -/
structure Conforms (env : Env) (cfg : Cfg) (st : Store) (chain : List Cert) : Prop where
  /-- every key is strong enough -/
  keyBits : ∀ n, cfg.secBits = some n → ∀ c ∈ chain, n ≤ env.keyBits c.key
  /-- every known signature hash below the anchor is strong enough -/
  hashBits : ∀ n, cfg.secBits = some n → ∀ i c, chain[i]? = some c → i + 1 < chain.length →
    env.hashBits c.sigAlg = 0 ∨ n ≤ env.hashBits c.sigAlg
  ext : ∀ c ∈ chain, ExtRules env cfg c
  /-- intermediates are v3 CA certificates -/
  interCa : ∀ i c, chain[i]? = some c → 1 ≤ i → i + 1 < chain.length → c.version = 2 ∧ IsCa c
  /-- a v3 anchor of a path of two or more certificates is a CA certificate -/
  anchorCa : ∀ i c, chain[i]? = some c → 1 ≤ i → i + 1 = chain.length → c.version = 2 → IsCa c
  /-- every issuer may sign certificates -/
  certSign : ∀ i c, chain[i]? = some c → 1 ≤ i → MayUse c keyCertSign
  /-- every pathLenConstraint is respected -/
  pathLen : ∀ i c, chain[i]? = some c → 1 ≤ i → 0 ≤ c.pathLen →
    (intermediatesBelow chain i : Int) ≤ c.pathLen
  purpose : ∀ c, chain[0]? = some c → PurposeOk cfg.purpose c
  /-- there is a reference time unless time checking is off -/
  clock : cfg.time = none → cfg.disableTime = false → 0 < cfg.now
  validity : ∀ t, RefTime cfg t → ∀ c ∈ chain, ValidAt c t
  /-- every certificate is signed by the next one -/
  signed : ∀ i c d, chain[i]? = some c → chain[i + 1]? = some d → SignedBy env d c
  /-- the anchor is signed by itself, unless it is a partial-chain anchor -/
  anchorSigned : ∀ i c, chain[i]? = some c → i + 1 = chain.length →
    SignedBy env c c ∨ (cfg.partialChain = true ∧ 1 ≤ i)
  /-- revocation: the end entity, or everything below the anchor -/
  revocation : ∀ i c p, chain[i]? = some c → chain[i + 1]? = some p →
    cfg.crlAll = true ∨ (cfg.crlDev = true ∧ i = 0) → ∀ time,
    (∀ t, time = some t ↔ RefTime cfg t) →
    if cfg.crlLite then NotRevoked env st.crls c p time else cfg.crlFull c p i time = .ok ()
  host : ∀ c, chain[0]? = some c → cfg.hostOk c = .ok ()

/-- The callback never turns an error into success. -/
def Strict (cfg : Cfg) : Prop := ∀ e d, cfg.cb e d ≠ none

end Verif.Pki.Path.Spec
