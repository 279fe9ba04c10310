import Verif.Common.Bits
import Verif.Bsl.Ip.Model
/-! Model of certificate identity matching: `pki/x509_common/src/hitls_x509_util.c` and the helpers it
calls in `bsl/sal/src/sal_string.c`.

A NUL-terminated string is the list of the bytes before its NUL, so a `char *` into it is a suffix of the
list and `*p == '\0'` is `p = []`.  Length-delimited views are lists too.  An access outside the bytes a
function was given is the distinct outcome `none` of the `Option` results.  Allocation failure and the
error stack are not modelled. -/
namespace Verif.Pki.Host
open Verif.Common

/-- `'.'`, `'*'`, `':'`, `'/'`, `'?'`, `'#'`, `';'`, `'@'`, `'_'` as bytes. -/
def dot : Byte := 0x2e#8
def star : Byte := 0x2a#8
def colon : Byte := 0x3a#8
def slash : Byte := 0x2f#8
def quest : Byte := 0x3f#8
def hash : Byte := 0x23#8
def semi : Byte := 0x3b#8
def at_ : Byte := 0x40#8
def under : Byte := 0x5f#8

/-- `tolower` in the "C" locale, and the same folding written out in `BSL_SAL_StrcaseCmp`
(`bsl/sal/src/sal_string.c:38-43`).  Simplified: no other locale is modelled. -/
def low (c : Byte) : Byte := if 0x41#8 ≤ c ∧ c ≤ 0x5a#8 then c + 0x20#8 else c

/-- `BSL_SAL_StrcaseCmp` on non-NULL strings (`bsl/sal/src/sal_string.c:26-49`): advance while the folded
bytes agree, then the difference of the two bytes it stopped at (`char` is signed, NUL at the end). -/
def strcaseCmp : List Byte → List Byte → Int
  | [], [] => 0
  | a :: _, [] => a.toInt - 0
  | [], b :: _ => 0 - b.toInt
  | a :: as, b :: bs => if low a ≠ low b then a.toInt - b.toInt else strcaseCmp as bs

/-- `strchr`: the suffix that starts at the first occurrence (used at
`pki/x509_common/src/hitls_x509_util.c:74,86,88,109,110`). -/
def strchr (c : Byte) : List Byte → Option (List Byte)
  | [] => none
  | a :: as => if a = c then some (a :: as) else strchr c as

/-- `memchr`/`FindCharInView`: offset of the first occurrence
(`pki/x509_common/src/hitls_x509_util.c:42`, `:181-189`). -/
def findChar (c : Byte) : List Byte → Option Nat
  | [] => none
  | a :: as => if a = c then some 0 else (findChar c as).map (· + 1)

/-- One comparison `tolower(p[i]) != tolower(t[j])` of the loops at
`pki/x509_common/src/hitls_x509_util.c:54` and `:62`; `none` is a read outside either array. -/
def cmpAt (p t : List Byte) (i j : Nat) : Option Bool := do
  let a ← p[i]?
  let b ← t[j]?
  pure (low a == low b)

/-- The prefix loop (`pki/x509_common/src/hitls_x509_util.c:53-57`): `n` iterations from `i`. -/
def prefixLoop (p t : List Byte) : Nat → Nat → Option Bool
  | 0, _ => some true
  | n + 1, i => do
    let e ← cmpAt p t i i
    if e then prefixLoop p t n (i + 1) else some false

/-- The suffix loop (`pki/x509_common/src/hitls_x509_util.c:60-65`): `n` iterations from `i`; `s` is the
suffix of the pattern label. -/
def suffixLoop (s t : List Byte) : Nat → Nat → Option Bool
  | 0, _ => some true
  | n + 1, i => do
    let e ← cmpAt s t (s.length - 1 - i) (t.length - 1 - i)
    if e then suffixLoop s t n (i + 1) else some false

/-- `WildcardMatchLabel` (`pki/x509_common/src/hitls_x509_util.c:40-68`). -/
def wildcardMatchLabel (p t : List Byte) : Option Bool :=
  match findChar star p with
  | none => some false
  | some prefixLen =>
    let suffixLen := p.length - prefixLen - 1
    if t.length < prefixLen + suffixLen then some false
    else do
      let e ← prefixLoop p t prefixLen 0
      if e then suffixLoop (p.drop (prefixLen + 1)) t suffixLen 0 else some false

/-- `MatchWithSingleWildcard` (`pki/x509_common/src/hitls_x509_util.c:72-98`); `true` is
`HITLS_PKI_SUCCESS`, `false` is `HITLS_X509_ERR_VFY_HOSTNAME_FAIL`. -/
def matchSingle (pattern hostname : List Byte) : Bool :=
  match strchr star pattern with
  | none => strcaseCmp pattern hostname == 0
  | some s =>
    -- `pDot != pattern || *(pDot + 1) != '.'`
    if s.length ≠ pattern.length ∨ s.tail.head? ≠ some dot then false
    else
      match strchr dot hostname with
      | none => false
      | some hDot =>
        match strchr dot hDot.tail with
        | none => false
        | some _ => strcaseCmp s.tail hDot == 0

/-- The bytes of `p` before its first dot, or all of it: `p[0 .. pLen)` with `pLen` of
`pki/x509_common/src/hitls_x509_util.c:109-113`. -/
def label (p : List Byte) : List Byte :=
  match strchr dot p with
  | none => p
  | some d => p.take (p.length - d.length)

theorem strchr_tail_lt : ∀ {c : Byte} {p d : List Byte}, strchr c p = some d → d.tail.length < p.length
  | _, [], _, h => by simp [strchr] at h
  | c, a :: as, d, h => by
    rw [strchr] at h
    split at h
    · cases h; simp
    · have := strchr_tail_lt h; rw [List.length_cons]; omega

/-- The comparison of one label (`pki/x509_common/src/hitls_x509_util.c:125-136`): `true` when the
function does not return there. -/
def labelGood (labelCount : Nat) (p h : List Byte) : Option Bool :=
  if (label p).count star = 1 then
    (if labelCount ≠ 0 then some false else wildcardMatchLabel (label p) (label h))
  else some (!((label p).length > 0 && strcaseCmp p h != 0))

/-- The loop of `MatchWithPartialWildcard` (`pki/x509_common/src/hitls_x509_util.c:107-148`) with loop
variables `labelCount`, `p`, `h`, and the test after it (`:149-152`). -/
def partialLoop (labelCount : Nat) (p h : List Byte) : Option Bool :=
  if p ≠ [] ∧ h ≠ [] then
    if (label p).count star > 1 then some false
    else do
      let good ← labelGood labelCount p h
      if good then
        match hp : strchr dot p, strchr dot h with
        | none, none => some true
        | some pDot, some hDot =>
          partialLoop (if (label p).count star = 1 then labelCount + 2 else labelCount + 1) pDot.tail hDot.tail
        | _, _ => some false
      else some false
  else some (p.isEmpty && h.isEmpty)
termination_by p.length
decreasing_by exact strchr_tail_lt hp

/-- `MatchWithPartialWildcard` (`pki/x509_common/src/hitls_x509_util.c:102-153`). -/
def matchPartial (pattern hostname : List Byte) : Option Bool := partialLoop 0 pattern hostname

/-- `flags & HITLS_X509_FLAG_VFY_WITH_PARTIAL_WILDCARD` (`include/pki/hitls_pki_types.h:471`). -/
def isPartial (flags : BitVec 32) : Bool := (flags &&& 1#32) != 0#32

/-- `HITLS_X509_MatchPattern` on non-NULL strings (`pki/x509_common/src/hitls_x509_util.c:316-325`), and
the selection of `matchCb` at `:397-402`, `:467-468`, `:520-521`. -/
def matchPattern (flags : BitVec 32) (pattern hostname : List Byte) : Option Bool :=
  if isPartial flags then matchPartial pattern hostname else some (matchSingle pattern hostname)

/-! ### Entry points -/

/-- The return codes told apart by callers. -/
inductive Ret where
  | success | extNotFound | hostnameFail | invalidParam | ipFail | uriFail | srvFail | cnNotFound
  | other (code : Nat)
deriving DecidableEq

/-- `HITLS_X509_GeneralName.type`, the values compared in this file. -/
inductive GnType where
  | dns | ip | uri | srv | otherName (n : Nat)
deriving DecidableEq

/-- `HITLS_X509_GeneralName` (`include/pki/hitls_pki_types.h`): type and value bytes. -/
structure Gn where
  ty : GnType
  value : List Byte

/-- What the two `HITLS_X509_CertCtrl` queries of this file answer about a certificate: `san` is
`HITLS_X509_EXT_GET_SAN` (the names, or the error returned), `subject` is the list of
(is the attribute a CN, value) pairs of the subject in order, see
`pki/x509_cert/src/hitls_x509_cert.c:547-583`.  Simplified: decoding the certificate is not modelled here. -/
structure Cert where
  san : Except Ret (List Gn)
  subject : List (Bool × List Byte)

/-- `X509_VerifyHostnameWithSan`'s loop (`pki/x509_common/src/hitls_x509_util.c:336-361`); `ret` is the
variable of that name. -/
def sanLoop (m : List Byte → List Byte → Option Bool) (host : List Byte) : List Gn → Ret → Option Ret
  | [], ret => some ret
  | g :: gs, ret =>
    if g.ty ≠ .dns then sanLoop m host gs ret
    else if g.value.contains 0#8 then sanLoop m host gs .hostnameFail
    else do
      let r ← m g.value host
      if r then some .success else sanLoop m host gs .hostnameFail

/-- `X509_VerifyHostnameWithSan` (`pki/x509_common/src/hitls_x509_util.c:327-365`). -/
def verifySan (m : List Byte → List Byte → Option Bool) (cert : Cert) (host : List Byte) : Option Ret :=
  match cert.san with
  | .error e => some e
  | .ok names => sanLoop m host names .extNotFound

/-- `X509_GetCNStrFromList`'s loop (`pki/x509_cert/src/hitls_x509_cert.c:557-580`). -/
def findCn : List (Bool × List Byte) → Option (List Byte)
  | [] => none
  | (isCn, v) :: rest => if isCn then some v else findCn rest

/-- `X509_VerifyHostnameWithCn` (`pki/x509_common/src/hitls_x509_util.c:367-384`) with
`X509_GetCNStrFromList` (`pki/x509_cert/src/hitls_x509_cert.c:547-583`). -/
def verifyCn (m : List Byte → List Byte → Option Bool) (cert : Cert) (host : List Byte) : Option Ret :=
  if cert.subject = [] then some .invalidParam
  else match findCn cert.subject with
    | none => some .cnNotFound
    | some cn =>
      if cn.contains 0#8 then some .hostnameFail
      else do
        let r ← m cn host
        some (if r then .success else .hostnameFail)

/-- `strlen` of the bytes readable at a pointer; `none` when no NUL is among them. -/
def strlen (mem : List Byte) : Option Nat := findChar 0#8 mem

/-- `X509_VerifyHostname` on non-NULL arguments (`pki/x509_common/src/hitls_x509_util.c:386-413`).
`mem` is the memory readable at `hostname`. -/
def verifyHostname (cert : Cert) (flags : BitVec 32) (mem : List Byte) (hostnameLen : Nat) : Option Ret :=
  if hostnameLen = 0 then some .invalidParam
  else do
    let n ← strlen mem
    if hostnameLen ≠ n % 2 ^ 32 then some .invalidParam
    else
      let host := mem.take n
      let r ← verifySan (matchPattern flags) cert host
      if r = .extNotFound then verifyCn (matchPattern flags) cert host
      else some r

/-! ### URI and SRV identities -/

/-- `CaseCmpView` (`pki/x509_common/src/hitls_x509_util.c:153-164`). -/
def caseCmpView (l r : List Byte) : Bool :=
  l.length == r.length && (l.zip r).all (fun x => low x.1 == low x.2)

/-- `FindLastCharInView` (`pki/x509_common/src/hitls_x509_util.c:191-199`): `findLast c d i` looks at
`d[i-1], …, d[0]`. -/
def findLast (c : Byte) (d : List Byte) : Nat → Option Nat
  | 0 => none
  | i + 1 => if d[i]? = some c then some i else findLast c d i

/-- `FindUriPartEnd` (`pki/x509_common/src/hitls_x509_util.c:201-215`). -/
def uriPartEnd (isAuthority : Bool) : List Byte → Nat
  | [] => 0
  | c :: cs =>
    if c = quest ∨ c = hash then 0
    else if isAuthority ∧ c = slash then 0
    else if ¬ isAuthority ∧ (c = slash ∨ c = semi) then 0
    else uriPartEnd isAuthority cs + 1

/-- `CheckUriPort`'s loop (`pki/x509_common/src/hitls_x509_util.c:223-231`). -/
def portLoop : List Byte → Nat → Bool
  | [], _ => true
  | c :: cs, n =>
    if ¬ (0x30#8 ≤ c ∧ c ≤ 0x39#8) then false
    else
      let n' := n * 10 + (c.toNat - 0x30)
      if n' > 65535 then false else portLoop cs n'

/-- `CheckUriPort` (`pki/x509_common/src/hitls_x509_util.c:217-233`). -/
def checkUriPort (port : List Byte) : Bool :=
  if port.length = 0 then false else portLoop port 0

/-- `ParseUriId` (`pki/x509_common/src/hitls_x509_util.c:235-274`): scheme and host, `none` for
`HITLS_X509_ERR_INVALID_PARAM`. -/
def parseUriId (uri : List Byte) : Option (List Byte × List Byte) :=
  match findChar colon uri with
  | none => none
  | some k =>
    if k = 0 then none
    else
      let scheme := uri.take k
      let rest := uri.drop (k + 1)
      let isAuthority : Bool := decide (rest.take 2 = [slash, slash])
      let hostStart := if isAuthority then rest.drop 2 else rest
      let part := hostStart.take (uriPartEnd isAuthority hostStart)
      let part := match findLast at_ part part.length with
        | none => part
        | some i => part.drop (i + 1)
      match findChar colon part with
      | none => if part.length = 0 then none else some (scheme, part)
      | some j =>
        if checkUriPort (part.drop (j + 1)) then
          (if j = 0 then none else some (scheme, part.take j))
        else none

/-- `ParseSrvId` (`pki/x509_common/src/hitls_x509_util.c:276-294`): service and domain. -/
def parseSrvId (srv : List Byte) : Option (List Byte × List Byte) :=
  match srv with
  | [] => none
  | c :: rest =>
    if c ≠ under then none
    else match findChar dot rest with
      | none => none
      | some k =>
        if k = 0 ∨ k + 2 ≥ srv.length then none
        else some (rest.take k, rest.drop (k + 1))

/-- `CopyViewToString`'s test (`pki/x509_common/src/hitls_x509_util.c:166-170`) -/
def viewOk (v : List Byte) : Bool := !(v.length == 0 || v.contains 0#8)

/-- `MatchHostView` (`pki/x509_common/src/hitls_x509_util.c:296-314`). -/
def matchHostView (m : List Byte → List Byte → Option Bool) (presented reference : List Byte) :
    Option Bool :=
  if !viewOk presented then some false
  else if !viewOk reference then some false
  else m presented reference

/-- The SAN loop shared by `X509_VerifyUriId` and `X509_VerifySrvId`
(`pki/x509_common/src/hitls_x509_util.c:478-501`, `:531-554`). -/
def idLoop (m : List Byte → List Byte → Option Bool) (ty : GnType)
    (parse : List Byte → Option (List Byte × List Byte)) (tag host : List Byte) (fail : Ret) :
    List Gn → Option Ret
  | [] => some fail
  | g :: gs =>
    if g.ty ≠ ty then idLoop m ty parse tag host fail gs
    else match parse g.value with
      | none => idLoop m ty parse tag host fail gs
      | some (pTag, pHost) =>
        if !caseCmpView pTag tag then idLoop m ty parse tag host fail gs
        else do
          let r ← matchHostView m pHost host
          if r then some .success else idLoop m ty parse tag host fail gs

/-- `X509_VerifyUriId` / `X509_VerifySrvId` (`pki/x509_common/src/hitls_x509_util.c:452-503`,
`:505-556`), which differ only in the parser, the name type and the error code. -/
def verifyId (ty : GnType) (parse : List Byte → Option (List Byte × List Byte)) (fail : Ret)
    (cert : Cert) (flags : BitVec 32) (mem : List Byte) (len : Nat) : Option Ret :=
  if len = 0 then some .invalidParam
  else do
    let n ← strlen mem
    if len ≠ n % 2 ^ 32 then some .invalidParam
    else
      match parse (mem.take len) with
      | none => some .invalidParam
      | some (tag, host) =>
        match cert.san with
        | .error _ => some fail
        | .ok names => idLoop (matchPattern flags) ty parse tag host fail names

/-- The SAN loop of `X509_VerifyIp` (`pki/x509_common/src/hitls_x509_util.c:435-446`). -/
def ipLoop (addr : List Byte) : List Gn → Ret
  | [] => .ipFail
  | g :: gs =>
    if g.ty ≠ .ip then ipLoop addr gs
    else if addr.length = g.value.length ∧ g.value = addr then .success
    else ipLoop addr gs

/-- `X509_VerifyIp` on non-NULL arguments (`pki/x509_common/src/hitls_x509_util.c:415-450`).  Unlike its
siblings it compares `strlen` without truncating it, and reports every failing SAN query as a missing
extension. -/
def verifyIp (cert : Cert) (mem : List Byte) (ipLen : Nat) : Option Ret := do
  let n ← strlen mem
  if n ≠ ipLen then some .invalidParam
  else match Verif.Bsl.Ip.parseIp (mem.take n) with
    | none => some .invalidParam
    | some addr => match cert.san with
      | .error _ => some .extNotFound
      | .ok names => some (ipLoop addr names)

/-- `HITLS_X509_VerifyIdentity` (`pki/x509_common/src/hitls_x509_util.c:558-572`); the type codes are
those of `include/pki/hitls_pki_x509.h:27-30`. -/
def verifyIdentity (cert : Cert) (flags : BitVec 32) (type : Nat) (mem : List Byte) (len : Nat) :
    Option Ret :=
  if type = 1 then verifyHostname cert flags mem len
  else if type = 2 then verifyIp cert mem len
  else if type = 3 then verifyId .uri parseUriId .uriFail cert flags mem len
  else if type = 4 then verifyId .srv parseSrvId .srvFail cert flags mem len
  else some .invalidParam

end Verif.Pki.Host
