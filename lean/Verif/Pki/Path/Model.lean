import Verif.Common.Endian

/-!
# X.509 certification path building and validation (model)

Models `HITLS_X509_CertVerify` and everything it calls, from
`/repo/pki/x509_verify/src/hitls_x509_verify.c`, with the trust-store look-up of
`/repo/pki/x509_verify/src/hitls_x509_store.c` and the issuer test of
`/repo/pki/x509_cert/src/hitls_x509_cert.c`.

Simplifications, common to the whole file:
* certificates arrive already parsed; a `Cert` is the record of the fields the
  verifier reads; distinguished names are in canonical form, so
  `HITLS_X509_CmpNameNode` is equality;
* allocation, locking and reference counting never fail;
* primitive cryptography is an `Env` of functions (which key verifies which
  signature, how many security bits a key has, ...), about which nothing is
  assumed;
* the non-lite CRL engine (`HITLS_X509_CheckCertCrl`, :2009-2085) and the host
  name check (`X509_CheckHost`, :2502-2528) are parameters.
-/

namespace Verif.Pki.Path
open Verif.Common

/-- A distinguished name in canonical form. -/
abbrev Name := List Byte

/-- The authority key identifier as `HITLS_X509_CheckAki` reads it
(hitls_x509_common.c:1129-1174): empty `kid`/`serial` = absent; `issuer` is the
list of general names, of which only the first directory name counts
(`X509_CheckAuthCertIssuer` :1110-1127): `some none` = no directory name. -/
structure Aki where
  kid : List Byte
  issuer : Option (Option Name)
  serial : List Byte
  deriving DecidableEq

/-- One parsed certificate: `HITLS_X509_Cert` restricted to the fields the
verifier reads.  `version` is 0, 1, 2 for v1, v2, v3 (hitls_pki_types.h:34-36).
`notBefore`/`notAfter` are the UTC seconds, `none` when the date does not
convert.  `bcons`/`keyUsage`/`eku` being absent models the cleared bit of
`extFlags`.  `pathLen` is negative when there is no pathLenConstraint. -/
structure Cert where
  version : Nat
  serial : List Byte
  subject : Name
  issuer : Name
  key : List Byte
  tbs : List Byte
  sigAlgTbs : List Byte
  sigAlg : List Byte
  sig : List Byte
  notBefore : Option Int
  notAfter : Option Int
  ski : Option (List Byte)
  aki : Option Aki
  bcons : Bool
  isCa : Bool
  pathLen : Int
  keyUsage : Option Nat
  eku : Option (List Nat)
  exts : List (Nat × Bool)
  deriving DecidableEq

/-- One parsed CRL, restricted to what `HITLS_X509_CheckCertCrlLite` reads.
`version` 1 is a v2 CRL; `nextUpdate` is `none` when absent, `some none` when it
does not convert. -/
structure Crl where
  version : Nat
  issuer : Name
  aki : Option Aki
  tbs : List Byte
  sigAlgTbs : List Byte
  sigAlg : List Byte
  sig : List Byte
  thisUpdate : Option Int
  nextUpdate : Option (Option Int)
  revoked : List (List Byte)
  exts : List (Nat × Bool)

/-- What the public key of a certificate is for (CRYPT_EAL_PkeyGetId, :1216, :1265). -/
inductive KeyKind | pqcSig | mlKem | other
  deriving DecidableEq

/-- Error codes of include/pki/hitls_pki_errno.h that the path verifier returns. -/
inductive Err
  | chainCount0 | issueNotFound | rootNotFound | depthLimit
  | secBits | extRequireV3 | extKu | criticalExt
  | invalidCa | interVersion | interBcons | noCertSign | pathLenExceeded
  | purposeUnmatch | invalidPurpose
  | timeSys | getNotBefore | notBeforeFuture | getNotAfter | expired
  | getThisUpdate | thisUpdateFuture | getNextUpdate | nextUpdateExpired
  | crlNoSign | akiSki | crlAlg | crlSignFail | revoked | crlNotFound
  | sigAlgMismatch | signFail | host | other (n : Nat)
  deriving DecidableEq

/-- Primitive operations: `algOk key alg` is `HITLS_X509_CheckAlg`, `verify key alg
tbs sig` is `HITLS_X509_CheckSignature`, `keyBits` is `CRYPT_EAL_PkeyGetSecurityBits`,
`hashBits` is `HITLS_X509_GetSignMdAlg` followed by `HITLS_X509_GetHashAlgSecBits`
(0 when unknown, :1099-1124), `kind` is `CRYPT_EAL_PkeyGetId`. -/
structure Env where
  algOk : List Byte → List Byte → Bool
  verify : List Byte → List Byte → List Byte → List Byte → Bool
  keyBits : List Byte → Nat
  hashBits : List Byte → Nat
  kind : List Byte → KeyKind

/-- `HITLS_X509_Store`: the loaded trust anchors, the files of the CA directories
by (hashed) subject name in the order they are tried (hitls_x509_store.c:356-388),
and the CRLs. -/
structure Store where
  certs : List Cert
  dir : Name → List Cert
  crls : List Crl

/-- The callback: `none` = the callback returned success and overruled the
error, `some e` = it returned `e`. -/
abbrev Callback := Err → Nat → Option Err

/-- `VerifyCbDefault` (:66-70). -/
def defaultCb : Callback := fun e _ => some e

/-- `verifyParam` and the clock.  `time`/`disableTime` model the flags
FLAG_TIME and FLAG_DISABLE_TIME_CHECK; `secBits` the flag FLAG_SECBITS. -/
structure Cfg where
  maxDepth : Nat
  partialChain : Bool
  secBits : Option Nat
  purpose : Nat
  time : Option Int
  disableTime : Bool
  now : Int
  crlAll : Bool
  crlDev : Bool
  crlLite : Bool
  crlFull : Cert → Cert → Nat → Option Int → Except Err Unit
  hostOk : Cert → Except Err Unit
  cb : Callback
  cbFinal : Option Err

/-- The macro `VFYCBK_FAIL_IF` (:87-97). -/
def failIf (cb : Callback) (cond : Bool) (depth : Nat) (e : Err) : Except Err Unit :=
  if cond then
    match cb e depth with
    | none => .ok ()
    | some r => .error r
  else .ok ()

/-- `if (ret != HITLS_PKI_SUCCESS) return ret;` -/
def bindE {α β : Type} (x : Except Err α) (f : α → Except Err β) : Except Err β :=
  match x with
  | .error e => .error e
  | .ok a => f a

/-- `(extFlags & KUSAGE) != 0 && (keyUsage & mask) == 0`, as at :2223, :2413 and :2092. -/
def kuLacks (c : Cert) (mask : Nat) : Bool :=
  match c.keyUsage with
  | some ku => decide (ku &&& mask = 0)
  | none => false

/-- `(extFlags & EXKUSAGE) != 0 && !OidInList(...)` (:2231-2235, `OidInList` :2198-2215). -/
def ekuLacks (c : Cert) (eku : Nat) : Bool :=
  match c.eku with
  | some l => !l.contains eku
  | none => false

/-- `isSelfIssued` (hitls_x509_cert.c:282). -/
def selfIssued (c : Cert) : Bool := c.subject == c.issuer

/-- `HITLS_X509_CheckAki` (hitls_x509_common.c:1129-1174): `ski` and `issuerName`,
`serial` of the issuer against the `aki` of the subject. -/
def checkAki (ski : Option (List Byte)) (issuerName : Name) (serial : List Byte)
    (aki : Option Aki) : Bool :=
  match ski, aki with
  | some s, some a =>
    (a.kid.isEmpty || s == a.kid) &&
    (match a.issuer with
     | none => true
     | some none => false
     | some (some n) => n == issuerName) &&
    (a.serial.isEmpty || a.serial == serial)
  | _, _ => true

/-- `HITLS_X509_CheckIssuedWithoutName` (hitls_x509_cert.c:813-823). -/
def issuedNoName (env : Env) (issue subj : Cert) : Bool :=
  (!(issue.version == 2 && subj.version == 2) ||
    checkAki issue.ski issue.issuer issue.serial subj.aki) &&
  env.algOk issue.key subj.sigAlgTbs

/-- `HITLS_X509_CheckIssued` (hitls_x509_cert.c:825-829). -/
def checkIssued (env : Env) (issue subj : Cert) : Bool :=
  issue.subject == subj.issuer && issuedNoName env issue subj

/-- `HITLS_X509_CheckSelfSignedSignature` (hitls_x509_cert.c:831-842). -/
def selfSignedSig (env : Env) (c : Cert) : Bool :=
  c.sigAlgTbs == c.sigAlg && env.verify c.key c.sigAlg c.tbs c.sig

/-- `HITLS_X509_IsSelfSigned` (hitls_x509_cert.c:844-851). -/
def isSelfSigned (env : Env) (c : Cert) : Bool :=
  selfIssued c && issuedNoName env c c && selfSignedSig env c

/-- `HITLS_X509_CertCmp(...) == 0` (:189-206). -/
def sameCert (a b : Cert) : Bool :=
  a.subject == b.subject && a.tbs == b.tbs && a.sigAlgTbs == b.sigAlgTbs && a.sig == b.sig

/-- `X509_SetCA` (hitls_x509_store.c:63-109): an equal certificate is kept,
a new one goes to the front. -/
def setCa (certs : List Cert) (c : Cert) : List Cert :=
  if certs.any (sameCert · c) then certs else c :: certs

/-- The directory loop of `HITLS_X509_GetCertBySubjectDer` with
`CheckAndAddIssuerCert` (hitls_x509_store.c:318-388): each candidate that
passes the issuer test is added to the store, and the store is searched again. -/
def loadIssuer (env : Env) (cert : Cert) : List Cert → List Cert → Option Cert × List Cert
  | certs, [] => (none, certs)
  | certs, f :: fs =>
    if checkIssued env f cert then
      let certs' := setCa certs f
      match certs'.find? (checkIssued env · cert) with
      | some i => (some i, certs')
      | none => loadIssuer env cert certs' fs
    else loadIssuer env cert certs fs

/-- `HITLS_X509_StoreFindIssuerInTrust` (hitls_x509_store.c:422-494). Returns the
issuer and the (possibly grown) list of trusted certificates. -/
def findInTrust (env : Env) (dir : Name → List Cert) (certs : List Cert) (cert : Cert) :
    Option Cert × List Cert :=
  match certs.find? (checkIssued env · cert) with
  | some i => (some i, certs)
  | none => loadIssuer env cert certs (dir cert.issuer)

/-- `X509_FindIssueCert` (:929-962): the trust store first, then the peer's
certificates in order, skipping copies of the certificate itself. The flag says
whether the issuer came from the trust store. -/
def findIssuer (env : Env) (dir : Name → List Cert) (certs peer : List Cert) (cert : Cert) :
    Option (Cert × Bool) × List Cert :=
  match findInTrust env dir certs cert with
  | (some i, certs') => (some (i, true), certs')
  | (none, certs') =>
    match peer.find? (fun t => !sameCert t cert && checkIssued env t cert) with
    | some i => (some (i, false), certs')
    | none => (none, certs')

/-- `X509_BuildChain` with `isVfy = true` (:965-1026). `fuel` is `maxFindNum`
(100 at the call).  `chain` is the list built so far, end entity first. Returns
the root (`none` when the C leaves `*root` NULL) and the chain without it. -/
def buildLoop (env : Env) (cfg : Cfg) (dir : Name → List Cert) (peer : List Cert) :
    Nat → List Cert → Cert → List Cert → Except Err (Option Cert × List Cert)
  | 0, _, _, chain => .ok (none, chain)
  | fuel + 1, certs, cur, chain =>
    match findIssuer env dir certs peer cur with
    | (none, _) => .error .issueNotFound
    | (some (issue, trusted), certs') =>
      bindE (failIf cfg.cb (decide (chain.length + 1 > cfg.maxDepth)) (chain.length - 1) .depthLimit) fun _ =>
        if cfg.partialChain && trusted then .ok (some issue, chain)
        else if selfIssued issue && issuedNoName env issue issue && trusted then
          .ok (some issue, chain)
        else if selfIssued issue && issuedNoName env issue issue && selfSignedSig env issue then
          .ok (none, chain)
        else buildLoop env cfg dir peer fuel certs' issue (chain ++ [issue])

/-- `HITLS_X509_CertChainBuildWithRoot(true, ...)` (:1044-1073). -/
def buildChain (env : Env) (cfg : Cfg) (st : Store) (peer : List Cert) (cert : Cert) :
    Except Err (List Cert) :=
  match buildLoop env cfg st.dir peer 100 st.certs cert [cert] with
  | .error e => .error e
  | .ok (none, _) => .error .rootNotFound
  | .ok (some root, chain) => .ok (if sameCert cert root then chain else chain ++ [root])

/-- `HITLS_X509_TrvList` (:109-123) with the position passed as the depth. -/
def trvList (f : α → Nat → Except Err Unit) : List α → Nat → Except Err Unit
  | [], _ => .ok ()
  | c :: cs, d =>
    bindE (f c d) fun _ => trvList f cs (d + 1)

/-- `HITLS_X509_SecBitsCheck` (:1150-1157). -/
def secBitsCheck (env : Env) (cfg : Cfg) (n : Nat) (c : Cert) (depth : Nat) : Except Err Unit :=
  failIf cfg.cb (decide (env.keyBits c.key < n)) depth .secBits

/-- `HITLS_X509_HashAlgSecBitsCheck` (:1126-1148). -/
def hashBitsCheck (env : Env) (cfg : Cfg) (n chainLen : Nat) (c : Cert) (depth : Nat) :
    Except Err Unit :=
  if chainLen = 0 ∨ depth ≥ chainLen - 1 then .ok ()
  else if env.hashBits c.sigAlg = 0 then .ok ()
  else failIf cfg.cb (decide (env.hashBits c.sigAlg < n)) depth .secBits

/-- Extension identifiers (BSL_CID_CE_*), by the last arc of id-ce. -/
def ceSki : Nat := 14
def ceKeyUsage : Nat := 15
def ceSan : Nat := 17
def ceBcons : Nat := 19
def ceCrlNumber : Nat := 20
def ceDeltaCrl : Nat := 27
def ceIdp : Nat := 28
def ceCrlDp : Nat := 31
def ceAki : Nat := 35
def ceEku : Nat := 37

/-- `HITLS_X509_CheckCertExtNode` (:1169-1191). The depth seen by the callback is
the one set by the caller (:1291). -/
def extNodeCheck (cfg : Cfg) (certDepth : Nat) (e : Nat × Bool) (_ : Nat) : Except Err Unit :=
  let supported := e.1 == ceKeyUsage || e.1 == ceBcons || e.1 == ceEku || e.1 == ceSan ||
    e.1 == ceAki || e.1 == ceSki || (!cfg.crlLite && e.1 == ceCrlDp)
  if !supported && e.2 then
    match cfg.cb .criticalExt certDepth with
    | none => .ok ()
    | some _ => .error .criticalExt
  else .ok ()

/-- `CheckPqcSigKeyUsage` (:1209-1258). -/
def pqcKuCheck (env : Env) (c : Cert) : Except Err Unit :=
  if env.kind c.key = .pqcSig then
    match c.keyUsage with
    | none => .ok ()
    | some ku =>
      if ku &&& (0x80 ||| 0x40 ||| 0x04 ||| 0x02) = 0 then .error .extKu
      else if ku &&& (0x20 ||| 0x10 ||| 0x08 ||| 0x01 ||| 0x8000) ≠ 0 then .error .extKu
      else .ok ()
  else .ok ()

/-- `CheckMlKemKeyUsage` (:1262-1283). -/
def kemKuCheck (env : Env) (c : Cert) : Except Err Unit :=
  if env.kind c.key = .mlKem then
    match c.keyUsage with
    | none => .ok ()
    | some ku => if ku ≠ 0x20 then .error .extKu else .ok ()
  else .ok ()

/-- `HITLS_X509_CheckCertExt` (:1286-1314). -/
def certExtCheck (env : Env) (cfg : Cfg) (c : Cert) (depth : Nat) : Except Err Unit :=
  if c.version < 2 then
    failIf cfg.cb (decide (c.exts.length > 0)) depth .extRequireV3
  else
    bindE (pqcKuCheck env c) fun _ =>
      bindE (kemKuCheck env c) fun _ => trvList (extNodeCheck cfg depth) c.exts 0

/-- `HITLS_X509_VerifyParamAndExt` (:1316-1331). -/
def verifyParamAndExt (env : Env) (cfg : Cfg) (chain : List Cert) : Except Err Unit :=
  bindE (match cfg.secBits with
    | none => Except.ok ()
    | some n =>
      bindE (trvList (secBitsCheck env cfg n) chain 0) fun _ =>
      trvList (hashBitsCheck env cfg n chain.length) chain 0) fun _ =>
  trvList (certExtCheck env cfg) chain 0

/-- The table of `X509_VerifyUsageEE` (:2256-2317): acceptable keyUsage bits and
the required extended key usage (BSL_CID_KP_*, by the last arc of id-kp). -/
def purposeReq : Nat → Option (Nat × Nat)
  | 1 => some (0x80 ||| 0x20 ||| 0x08 ||| 0x40 ||| 0x10, 1)
  | 2 => some (0x80 ||| 0x08 ||| 0x20 ||| 0x40 ||| 0x10, 2)
  | 3 => some (0x80 ||| 0x40, 4)
  | 4 => some (0x20, 4)
  | 5 => some (0x80, 3)
  | 6 => some (0x80 ||| 0x40, 9)
  | 7 => some (0x80 ||| 0x40, 8)
  | _ => none

/-- `X509_VerifyExtKeyUsage` (:2217-2237) with `OidInList` (:2198-2215). -/
def extKeyUsageCheck (c : Cert) (mask eku : Nat) : Except Err Unit :=
  if kuLacks c mask then
    .error .purposeUnmatch
  else if ekuLacks c eku then
    .error .purposeUnmatch
  else .ok ()

/-- `X509_VerifyUsageEE` (:2246-2322). -/
def usageEe (cfg : Cfg) (c : Cert) : Except Err Unit :=
  if cfg.purpose = 0 ∨ cfg.purpose = 8 then .ok ()
  else match purposeReq cfg.purpose with
    | none => .error .invalidPurpose
    | some (mask, eku) => extKeyUsageCheck c mask eku

/-- The CA half of the loop body of `X509_CheckExt` (:2391-2431): returns the new
`maxPathLen`. -/
def caCheck (cfg : Cfg) (c : Cert) (depth rootDepth : Nat) (maxPathLen : Int) : Except Err Int :=
  bindE ((if depth = rootDepth then
      failIf cfg.cb (c.version == 2 && (!c.bcons || !c.isCa)) depth .invalidCa
    else
      bindE (failIf cfg.cb (c.version != 2) depth .interVersion) fun _ => failIf cfg.cb (!c.bcons || !c.isCa) depth .interBcons)) fun _ =>
    bindE (failIf cfg.cb (kuLacks c 0x04) depth .noCertSign) fun _ =>
      bindE ((if selfIssued c then Except.ok maxPathLen
        else bindE (failIf cfg.cb (decide (maxPathLen ≤ 0)) depth .pathLenExceeded) fun _ => .ok (maxPathLen - 1))) fun m => .ok (if c.pathLen ≥ 0 ∧ c.pathLen < m then c.pathLen else m)

/-- The loop of `X509_CheckExt` (:2380-2440) over the reversed chain: the depth
of the head is the number of certificates after it. -/
def checkExtLoop (cfg : Cfg) (rootDepth : Nat) : List Cert → Int → Except Err Unit
  | [], _ => .ok ()
  | [c], _ =>
    match usageEe cfg c with
    | .ok () => .ok ()
    | .error e => failIf cfg.cb true 0 e
  | c :: c' :: rest, m =>
    bindE (caCheck cfg c (rest.length + 1) rootDepth m) fun m' =>
    checkExtLoop cfg rootDepth (c' :: rest) m'

/-- `X509_CheckExt` (:2380-2440). -/
def checkExt (cfg : Cfg) (chain : List Cert) : Except Err Unit :=
  checkExtLoop cfg (chain.length - 1) chain.reverse ((chain.length : Int) - 1)

/-- `GetCheckTime` (:2531-2545). -/
def getCheckTime (cfg : Cfg) : Except Err (Option Int) :=
  match cfg.time with
  | some t => .ok (some t)
  | none =>
    if cfg.disableTime then .ok none
    else if cfg.now ≤ 0 then .error .timeSys
    else .ok (some cfg.now)

/-- `HITLS_X509_CheckCertTime` (:830-850). A date that does not convert leaves
0 behind when the callback overrules the failure. -/
def certTime (cb : Callback) (c : Cert) (depth : Nat) (time : Option Int) : Except Err Unit :=
  match time with
  | none => .ok ()
  | some t =>
    bindE (failIf cb c.notBefore.isNone depth .getNotBefore) fun _ =>
      bindE (failIf cb (decide (c.notBefore.getD 0 > t)) depth .notBeforeFuture) fun _ =>
        bindE (failIf cb c.notAfter.isNone depth .getNotAfter) fun _ => failIf cb (decide (c.notAfter.getD 0 < t)) depth .expired

/-- `HITLS_X509_CheckCrlTime` (:852-878). -/
def crlTime (cb : Callback) (c : Crl) (depth : Nat) (time : Option Int) : Except Err Unit :=
  match time with
  | none => .ok ()
  | some t =>
    bindE (failIf cb c.thisUpdate.isNone depth .getThisUpdate) fun _ =>
      bindE (failIf cb (decide (c.thisUpdate.getD 0 > t)) depth .thisUpdateFuture) fun _ =>
        match c.nextUpdate with
        | none => .ok ()
        | some nu =>
          bindE (failIf cb nu.isNone depth .getNextUpdate) fun _ => failIf cb (decide (nu.getD 0 < t)) depth .nextUpdateExpired

/-- `HITLS_X509_CheckCrlExtNode` (:1193-1207) in lite mode: only AKI and the CRL
number are understood. -/
def crlExtBad (c : Crl) : Bool :=
  c.exts.any (fun e => !(e.1 == ceAki || e.1 == ceCrlNumber) && e.2)

/-- The loop of `HITLS_X509_CheckCertCrlLite` (:2097-2142). `found` is
`ret == HITLS_PKI_SUCCESS`. -/
def crlLiteLoop (env : Env) (cfg : Cfg) (cert parent : Cert) (depth : Nat) (time : Option Int) :
    List Crl → Bool → Except Err Bool
  | [], found => .ok found
  | crl :: rest, found =>
    if crl.issuer ≠ parent.subject then crlLiteLoop env cfg cert parent depth time rest found
    else if parent.version == 2 && crl.version == 1 &&
        !checkAki parent.ski parent.issuer parent.serial crl.aki &&
        (cfg.cb .akiSki depth).isSome then
      crlLiteLoop env cfg cert parent depth time rest found
    else match crlTime cfg.cb crl depth time with
      | .error _ => crlLiteLoop env cfg cert parent depth time rest found
      | .ok () =>
        bindE (failIf cfg.cb (crlExtBad crl) depth .criticalExt) fun _ =>
        bindE (failIf cfg.cb (crl.sigAlgTbs != crl.sigAlg) depth .sigAlgMismatch) fun _ =>
        bindE (failIf cfg.cb (!env.algOk parent.key crl.sigAlgTbs) depth .crlAlg) fun _ =>
        bindE (failIf cfg.cb (!env.verify parent.key crl.sigAlg crl.tbs crl.sig) depth .crlSignFail) fun _ =>
        bindE (failIf cfg.cb (crl.revoked.contains cert.serial) depth .revoked) fun _ =>
          crlLiteLoop env cfg cert parent depth time rest (!crl.revoked.contains cert.serial)

/-- `HITLS_X509_CheckCertCrlLite` (:2088-2146). -/
def crlLite (env : Env) (cfg : Cfg) (st : Store) (cert parent : Cert) (depth : Nat)
    (time : Option Int) : Except Err Unit :=
  bindE (failIf cfg.cb (kuLacks parent 0x02) depth .crlNoSign) fun _ =>
    bindE (crlLiteLoop env cfg cert parent depth time st.crls false) fun found => failIf cfg.cb (!found) depth .crlNotFound

/-- The loop of `HITLS_X509_VerifyCrl` (:2167-2190) over consecutive pairs. -/
def crlLoop (env : Env) (cfg : Cfg) (st : Store) (time : Option Int) :
    List Cert → Nat → Except Err Unit
  | c :: p :: rest, depth =>
    bindE ((if cfg.crlLite then crlLite env cfg st c p depth time
           else cfg.crlFull c p depth time)) fun _ => if cfg.crlAll then crlLoop env cfg st time (p :: rest) (depth + 1) else .ok ()
  | _, _ => .ok ()

/-- `HITLS_X509_VerifyCrl` (:2149-2196). -/
def verifyCrl (env : Env) (cfg : Cfg) (st : Store) (chain : List Cert) (time : Option Int) :
    Except Err Unit :=
  if !cfg.crlAll && !cfg.crlDev then .ok ()
  else if chain.length = 1 then .ok ()
  else crlLoop env cfg st time chain 0

/-- The `while` of `X509_VerifyChainCert` (:2345-2365) over the reversed chain. -/
def chainSigLoop (env : Env) (cfg : Cfg) (time : Option Int) : Cert → List Cert → Except Err Unit
  | _, [] => .ok ()
  | issue, cur :: rest =>
    bindE (certTime cfg.cb cur rest.length time) fun _ =>
    bindE (failIf cfg.cb (cur.sigAlgTbs != cur.sigAlg) rest.length .sigAlgMismatch) fun _ =>
    bindE (failIf cfg.cb (!env.verify issue.key cur.sigAlg cur.tbs cur.sig) rest.length .signFail) fun _ => chainSigLoop env cfg time cur rest

/-- `X509_VerifyChainCert` (:2324-2367): the last certificate is checked against
its own key, unless it is a partial-chain anchor that is not self-signed. -/
def verifyChainCert (env : Env) (cfg : Cfg) (chain : List Cert) (time : Option Int) :
    Except Err Unit :=
  match chain.reverse with
  | [] => .ok ()
  | anchor :: rest =>
    if cfg.partialChain && !isSelfSigned env anchor && decide (0 < rest.length) then
      bindE (certTime cfg.cb anchor rest.length time) fun _ => chainSigLoop env cfg time anchor rest
    else chainSigLoop env cfg time anchor (anchor :: rest)

/-- `HITLS_X509_CertVerify` (:2547-2599): `.ok chain` when it returns success,
with the chain it built. -/
def certVerify (env : Env) (cfg : Cfg) (st : Store) (peer : List Cert) : Except Err (List Cert) :=
  match peer with
  | [] => .error .chainCount0
  | cert :: _ =>
    bindE (buildChain env cfg st peer cert) fun chain =>
    bindE (verifyParamAndExt env cfg chain) fun _ =>
    bindE (checkExt cfg chain) fun _ =>
    bindE (getCheckTime cfg) fun time =>
    bindE (verifyCrl env cfg st chain time) fun _ =>
    bindE (verifyChainCert env cfg chain time) fun _ =>
    bindE (match chain with
      | [] => Except.ok ()
      | c :: _ => cfg.hostOk c) fun _ =>
    match cfg.cbFinal with
    | some e => .error e
    | none => .ok chain

end Verif.Pki.Path
