import Verif.Common.Bits

/-!
# Protocol version configuration and negotiation

Models of `tls/config/src/config.c`, `tls/config/src/config_check.c`,
`tls/handshake/recv/src/recv_client_hello.c`, `tls/handshake/recv/src/recv_server_hello.c`,
`tls/handshake/send/src/send_server_hello.c` and the version parts of the hello packers.
Versions are the 16-bit wire values, as `Nat`; version masks are 32-bit words.
Built with `HITLS_TLS_CONFIG_VERSION`, renegotiation, TLS 1.3, DTLS 1.3, TLCP, QUIC and the security
callback.  Alerts and logging are not modelled.
-/

namespace Verif.Tls.Version

open Verif.Common

abbrev Mask := BitVec 32

/-! ## Constants -/

/-- `hitls_config.h:39`. -/
def vTLCP : Nat := 0x0101
/-- `hitls_config.h:51`. -/
def vSSL30 : Nat := 0x0300
/-- `hitls_config.h:69`. -/
def vTLS12 : Nat := 0x0303
/-- `hitls_config.h:75`. -/
def vTLS13 : Nat := 0x0304
/-- `hitls_config.h:93`. -/
def vDTLS12 : Nat := 0xfefd
/-- `hitls_config.h:99`. -/
def vDTLS13 : Nat := 0xfefc

/-- `hitls_type.h:140`. -/
def bTLS12 : Mask := 0x10#32
/-- `hitls_type.h:141`. -/
def bTLS13 : Mask := 0x20#32
/-- `hitls_type.h:142`. -/
def bTLCP11 : Mask := 0x80#32
/-- `hitls_type.h:144`. -/
def bDTLS12 : Mask := 0x40000000#32
/-- `hitls_type.h:145`. -/
def bDTLS13 : Mask := 0x20000000#32
/-- `hitls_type.h:146`. -/
def bDTLCP11 : Mask := 0x100#32
/-- `TLS_VERSION_MASK`, `hitls_type.h:147`. -/
def mTLS : Mask := 0x30#32
/-- `DTLS_VERSION_MASK`, `hitls_type.h:150`. -/
def mDTLS : Mask := 0x60000000#32
/-- `STREAM_VERSION_BITS`, `hitls_type.h:152-154`. -/
def mSTREAM : Mask := 0xbf#32
/-- `DATAGRAM_VERSION_BITS`, `hitls_type.h:155`. -/
def mDGRAM : Mask := 0xe0000100#32
/-- `TLCP_VERSION_BITS`, `hitls_type.h:157`. -/
def mTLCP : Mask := 0x180#32

/-- `(m & b) != 0`, the `IS_SUPPORT_*` macros, `tls.h:45-51`. -/
def has (m b : Mask) : Bool := m &&& b != 0#32

/-- `IS_TLS13_FAMILY_VERSION`, `tls.h:43`. -/
def is13 (v : Nat) : Bool := v == vTLS13 || v == vDTLS13

/-- `IS_DTLS_VERSION`, `tls.h:42`: bit 3 of the version. -/
def isDtlsVer (v : Nat) : Bool := v / 8 % 2 == 1

/-! ## Configuration -/

/-- The version fields of `TLS_Config` (`tls_config.h`), with what the negotiation consults: QUIC
mode, the answer of `IsTls13KeyExchAvailable` (`recv_client_hello.c:2482-2496`: a PSK callback or a
certificate is set) and the version security callback (`SECURITY_SslCheck` with
`HITLS_SECURITY_SECOP_VERSION`). -/
structure Cfg where
  version : Mask
  origin : Mask
  minV : Nat
  maxV : Nat
  quic : Bool
  kx : Bool
  sec : Nat → Bool

/-- `IS_SUPPORT_DATAGRAM(originVersionMask)`. -/
def Cfg.dgram (c : Cfg) : Bool := has c.origin mDGRAM

/-- `MapVersion2VersionBit`, `config.c:658-686`. -/
def mapBit (isDatagram : Bool) (v : Nat) : Mask :=
  if v = vTLS12 then bTLS12
  else if v = vTLS13 then bTLS13
  else if v = vDTLS13 then bDTLS13
  else if v = vTLCP then (if isDatagram then bDTLCP11 else bTLCP11)
  else if v = vDTLS12 then bDTLS12
  else 0#32

/-- The loop of `ChangeMinMaxVersion`, `config.c:723-733`, over the table `:713-717`:
`acc` is the pair of versions found so far (`found`), the loop stops at the first gap. -/
def minMaxLoop (inter : Mask) : List (Mask × Nat) → Option (Nat × Nat) → Option (Nat × Nat)
  | [], acc => acc
  | (b, v) :: t, acc =>
    if inter &&& b = b then
      match acc with
      | none => minMaxLoop inter t (some (v, v))
      | some (lo, _) => minMaxLoop inter t (some (lo, v))
    else match acc with
      | none => minMaxLoop inter t none
      | some p => some p

/-- `ChangeMinMaxVersion`, `config.c:707-742`: minimum and maximum version. -/
def changeMinMax (versionMask origin : Mask) : Nat × Nat :=
  let m := if (has versionMask mTLS || has versionMask mDTLS) && has versionMask mTLCP
    then versionMask &&& ~~~mTLCP else versionMask
  match minMaxLoop (m &&& origin) [(bTLS12, vTLS12), (bTLS13, vTLS13), (bDTLS12, vDTLS12),
      (bDTLS13, vDTLS13), (bTLCP11, vTLCP), (bDTLCP11, vTLCP)] none with
  | some p => p
  | none => (0, 0)

/-- `CFG_IsValidVersion`, `config_check.c:32-45`. -/
def validVer (v : Nat) : Bool :=
  v == vTLS12 || v == vTLS13 || v == vDTLS12 || v == vDTLS13 || v == vTLCP

/-- `CheckVersion`, `config_check.c:201-235`: `true` for success. -/
def checkVersion (lo hi : Nat) : Bool :=
  if !validVer lo || !validVer hi || isDtlsVer lo != isDtlsVer hi then false
  else if isDtlsVer hi && decide (hi > lo) then false
  else if !isDtlsVer hi && decide (hi < lo) then false
  else if (lo == vTLCP || hi == vTLCP) && lo != hi then false
  else true

/-- The loop of `ChangeVersionMask`, `config.c:752-755`, over `n` versions from `v`. -/
def orLoop (dg : Bool) : Nat → Nat → Mask → Mask
  | 0, _, m => m
  | n + 1, v, m => orLoop dg n (v + 1) (m ||| mapBit dg v)

/-- `ChangeVersionMask`, `config.c:744-766`: the new mask, or none on error. -/
def changeVersionMask (origin : Mask) (lo hi : Nat) : Option Mask :=
  let b := if isDtlsVer hi then hi else lo
  let e := if isDtlsVer hi then lo else hi
  let m := orLoop (has origin mDGRAM) (e + 1 - b) b 0#32
  if m &&& origin = 0#32 then none else some (m &&& origin)

/-- `HITLS_CFG_SetVersion`, `config.c:795-827`: the new configuration, `none` when an error code is
returned (the configuration is then unchanged). -/
def setVersion (c : Cfg) (lo hi : Nat) : Option Cfg :=
  if c.minV = lo ∧ c.maxV = hi ∧ lo ≠ 0 ∧ hi ≠ 0 then some c
  else if (lo < vSSL30 ∧ lo ≠ 0) ∨ (lo = vSSL30 ∧ c.minV ≠ vSSL30) ∨ (hi ≤ vSSL30 ∧ hi ≠ 0) then none
  else
    let mm := changeMinMax c.origin c.origin
    let lo' := if lo = 0 then mm.1 else lo
    let hi' := if hi = 0 then mm.2 else hi
    if !checkVersion lo' hi' then none
    else match changeVersionMask c.origin lo' hi' with
      | none => none
      | some m =>
        let mm' := changeMinMax m c.origin
        some { c with version := m, minV := mm'.1, maxV := mm'.2 }

/-- `HITLS_CFG_SetVersionForbid`, `config.c:831-841`. -/
def setVersionForbid (c : Cfg) (no : Mask) : Cfg :=
  let m := c.version &&& ~~~no
  let mm := changeMinMax m c.origin
  { c with version := m, minV := mm.1, maxV := mm.2 }

/-! ## Server -/

/-- Error codes of the negotiation. -/
inductive Err
  | unsupported | unsecure | fallback
  deriving DecidableEq, Repr

/-- `MapLegacyVersionToBits`, `recv_client_hello.c:613-629`. -/
def mapLegacy (c : Cfg) (v : Nat) : Mask :=
  if vTLCP ≤ v ∧ v < vSSL30 then c.origin &&& mTLCP
  else
    let t (w : Nat) : Bool := if !c.dgram then decide (v ≥ w) else decide (v ≤ w)
    let m := if t vDTLS12 then mapBit c.dgram vDTLS12 else 0#32
    if t vTLS12 then m ||| mapBit c.dgram vTLS12 else m

/-- `CheckRenegotiatedVersion`, `config.c:689-704`: the context's configuration after it; `old` is
`negotiatedInfo.version`. -/
def checkReneg (c : Cfg) (reneg : Bool) (old : Nat) : Option Cfg :=
  if reneg then
    let b := mapBit c.dgram old
    if b &&& c.version = 0#32 then none
    else some { c with version := b, minV := old, maxV := old }
  else some c

/-- The table loop of `ServerSelectNegoVersion`, `recv_client_hello.c:663-672`. -/
def pick (inter : Mask) : List (Mask × Nat) → Option Nat
  | [] => none
  | (b, v) :: t => if has inter b then some v else pick inter t

/-- `ServerSelectNegoVersion`, `recv_client_hello.c:639-716`: the negotiated version and the
context's configuration afterwards. -/
def serverSelectNego (c0 : Cfg) (reneg : Bool) (old legacy : Nat) : Except Err (Nat × Cfg) :=
  match checkReneg c0 reneg old with
  | none => .error .unsupported
  | some c =>
    let inter := c.version &&& mapLegacy c legacy
    if inter = 0#32 then .error .unsupported
    else
      let v := match pick inter [(bDTLS12, vDTLS12), (bTLS12, vTLS12), (bTLCP11, vTLCP),
          (bDTLCP11, vTLCP)] with
        | some v => v
        | none => old
      if c.quic && v != vTLS13 then .error .unsupported
      else if !c.sec v then .error .unsecure
      else if v = vTLCP then
        let c' := if has c.version mSTREAM then
            { c with version := c.version &&& ~~~mTLS, origin := c.origin &&& ~~~mTLS }
          else if has c.version mDGRAM then
            { c with version := c.version &&& ~~~mDTLS, origin := c.origin &&& ~~~mDTLS }
          else c
        let mm := changeMinMax c'.version c'.origin
        .ok (v, { c' with minV := mm.1, maxV := mm.2 })
      else .ok (v, { c with version := c.version &&& ~~~mTLCP, origin := c.origin &&& ~~~mTLCP })

/-- `ServerCheckVersionDowngrade`, `recv_client_hello.c:1370-1394`: `true` when the handshake goes
on; `scsv` is `haveFallBackScsvCipher`. -/
def checkFallback (c : Cfg) (v : Nat) (scsv : Bool) : Bool :=
  if !scsv then true
  else if c.dgram && !has c.origin mTLCP then !decide (v > c.maxV)
  else !decide (v < c.maxV)

/-- The version part of `ServerCheckAndProcessClientHello`, `recv_client_hello.c:1397-1413`. -/
def serverLegacy (c : Cfg) (reneg : Bool) (old legacy : Nat) (scsv : Bool) : Except Err (Nat × Cfg) :=
  match serverSelectNego c reneg old legacy with
  | .error e => .error e
  | .ok (v, c') => if checkFallback c' v scsv then .ok (v, c') else .error .fallback

/-- `CheckSupportVersion`, `recv_client_hello.c:2460-2480`. -/
def checkSupport (c : Cfg) (v0 : Nat) : Except Err Nat :=
  let v1 := if v0 ≥ vTLS13 ∧ c.dgram = false then vTLS12 else v0
  let v := if v1 ≤ vDTLS13 ∧ v1 ≠ vTLCP ∧ c.dgram = true then vDTLS12 else v1
  let b := mapBit c.dgram v
  if (!c.quic || v == vTLS13) && b &&& c.version == b && b != 0#32 then .ok v
  else .error .unsupported

/-- The inner loop of `SelectVersion`, `recv_client_hello.c:2540-2560`: for one version `v` of the
table, the first entry of the client's list equal to it decides. -/
def selInner (c : Cfg) (v : Nat) : List Nat → Option (Except Err Nat)
  | [] => none
  | x :: t =>
    if x ≠ v ∨ mapBit c.dgram v &&& c.version = 0#32 then selInner c v t
    else if is13 v && !c.kx then some (.error .unsupported)
    else some (.ok v)

/-- The outer loop, `recv_client_hello.c:2532-2561`. -/
def selOuter (c : Cfg) (sv : List Nat) : List Nat → Except Err Nat
  | [] => .error .unsupported
  | v :: t =>
    if c.quic && v != vTLS13 then selOuter c sv t
    else match selInner c v sv with
      | some r => r
      | none => selOuter c sv t

/-- `SelectVersion`, `recv_client_hello.c:2498-2568`; `sv` is the client's supported_versions list
(empty when the extension is absent). -/
def selectVersion (c : Cfg) (legacy : Nat) (sv : List Nat) : Except Err Nat :=
  if sv = [] then checkSupport c legacy
  else if legacy ≠ (if c.dgram then vDTLS12 else vTLS12) then .error .unsupported
  else selOuter c sv [vDTLS13, vDTLS12, vTLS13, vTLS12, vTLCP]

/-- What the server reads of a ClientHello. -/
structure ClientHello where
  legacy : Nat
  sv : List Nat
  scsv : Bool

/-- The version part of `Tls13ServerRecvClientHelloProcess`, `recv_client_hello.c:2634-2696`, with
the assignment of `Tls13ServerBasicCheckClientHello`, `:2287`, for the first ClientHello
(`haveHrr` false, no renegotiation). -/
def server13 (c : Cfg) (ch : ClientHello) : Except Err (Nat × Cfg) :=
  match selectVersion c ch.legacy ch.sv with
  | .error e => .error e
  | .ok v =>
    if v = vTLCP ∨ v = vTLS12 ∨ v = vDTLS12 then serverLegacy c false 0 v ch.scsv
    else if v = vTLS13 ∨ v = vDTLS13 then .ok (v, c)
    else .error .unsupported

/-- The dispatch on the version in `HS_RecvMsgProcess`, `hs_state_recv.c:860-897`, for the first
ClientHello of a connection: `GET_VERSION_FROM_CTX` (`tls.h:440`) is then the maximum version. -/
def server (c : Cfg) (ch : ClientHello) : Except Err (Nat × Cfg) :=
  if c.maxV = vTLS12 ∨ c.maxV = vTLCP ∨ c.maxV = vDTLS12 then serverLegacy c false 0 ch.legacy ch.scsv
  else if c.maxV = vTLS13 ∨ c.maxV = vDTLS13 then server13 c ch
  else .error .unsupported

/-- `g_tls12Downgrade`, `hs_common.c:64-66`. -/
def downgradeBytes : List Byte := [0x44#8, 0x4f#8, 0x57#8, 0x4e#8, 0x47#8, 0x52#8, 0x44#8, 0x01#8]

/-- What a client reads of a ServerHello; `sv` is the supported_versions extension. -/
structure ServerHello where
  version : Nat
  sv : Option Nat
  random : List Byte

/-- `ServerSendServerHelloProcess`, `send_server_hello.c:157-178`, with `DowngradeServerRandom`,
`:124-144`: the random of a pre-1.3 ServerHello; `rnd` are the 32 bytes drawn. -/
def serverRandom (c : Cfg) (v : Nat) (rnd : List Byte) : List Byte :=
  if has c.version (bTLS13 ||| bDTLS13) then
    if v = vTLS12 ∨ v = vDTLS12 then rnd.take 24 ++ downgradeBytes ++ rnd.drop 32 else rnd
  else rnd

/-- The ServerHello sent for a negotiated version: `pack_server_hello.c:37-50` (the legacy version
field), `pack_extensions.c:1364-1383` (the extension, via `Tls13NeedPack` `:130-139`). The TLS 1.3
handshake draws its random without change (`Tls13ServerSendServerHelloProcess`). -/
def serverHello (c : Cfg) (v : Nat) (rnd : List Byte) : ServerHello :=
  { version := if v = vTLS13 then vTLS12 else if v = vDTLS13 then vDTLS12 else v
    sv := if (if c.dgram then v == vDTLS13 else decide (v ≥ vTLS13)) then some v else none
    random := if is13 v then rnd else serverRandom c v rnd }

/-! ## Client -/

/-- The version fields of the first ClientHello: `pack_client_hello.c:193-204` and
`PackClientSupportedVersions`, `pack_extensions.c:655-712` (sent when the maximum is a TLS 1.3
version, `:968`, `:993`; without QUIC).  `none`: the internal-error exit `:678-683`. -/
def clientHello (c : Cfg) : Option ClientHello :=
  if is13 c.maxV then
    if c.minV < vSSL30 then none
    else if c.maxV = vDTLS13 then
      some ⟨vDTLS12, (List.range (c.minV + 1 - c.maxV)).map (c.maxV + ·), false⟩
    else some ⟨vTLS12, (List.range (c.maxV + 1 - c.minV)).map (c.maxV - ·), false⟩
  else some ⟨c.maxV, [], false⟩

/-- `CheckDowngradeRandom`, `recv_server_hello.c:1009-1039`: the assigned version (`old` is the
value before the call). -/
def checkDowngrade (sh : ServerHello) (old : Nat) : Except Err Nat :=
  if sh.version = vTLS12 ∨ sh.version = vDTLS12 then
    if (sh.random.drop 24).take 8 ≠ downgradeBytes then .ok sh.version
    else .error .unsupported
  else .ok old

/-- `IsDtls13ClientVersionCtx`, `recv_server_hello.c:796-800`. -/
def isDtls13Client (c : Cfg) : Bool := c.dgram && has c.version bDTLS13

/-- `GetNegotiatedVersion`, `recv_server_hello.c:1040-1096`. -/
def getNegotiated (c : Cfg) (sh : ServerHello) (old : Nat) : Except Err Nat :=
  match sh.sv with
  | none =>
    if sh.version < vTLS12 then .error .unsupported
    else if c.quic then .error .unsupported
    else checkDowngrade sh old
  | some x =>
    if sh.version ≠ (if isDtls13Client c then vDTLS12 else vTLS12) then .error .unsupported
    else if x ≠ (if isDtls13Client c then vDTLS13 else vTLS13) then .error .unsupported
    else .ok x

/-- `ClientCheckVersion`, `recv_server_hello.c:545-600`, on a first handshake. -/
def clientCheck (c : Cfg) (v : Nat) : Except Err Nat :=
  if c.dgram then
    if v > c.minV ∨ v < c.maxV then .error .unsupported
    else if !c.sec v then .error .unsecure else .ok v
  else if (v < c.minV ∨ v > c.maxV) ∨ (c.quic = true ∧ v ≠ vTLS13) then .error .unsupported
  else if !c.sec v then .error .unsecure else .ok v

/-- Which handshake the client goes on with. -/
inductive Flow
  | tls13 | legacy
  deriving DecidableEq, Repr

/-- The version part of `Tls13ClientRecvServerHelloProcess`, `recv_server_hello.c:1344-1383`, and of
`ClientRecvServerHelloProcess`, `:748-753`. -/
def client13 (c : Cfg) (sh : ServerHello) : Except Err (Nat × Flow) :=
  match getNegotiated c sh 0 with
  | .error e => .error e
  | .ok v =>
    if !is13 v then
      match clientCheck c sh.version with
      | .error e => .error e
      | .ok w => .ok (w, .legacy)
    else .ok (v, .tls13)

/-- The dispatch, `hs_state_recv.c:860-897`, for the first ServerHello. -/
def client (c : Cfg) (sh : ServerHello) : Except Err (Nat × Flow) :=
  if c.maxV = vTLS12 ∨ c.maxV = vTLCP ∨ c.maxV = vDTLS12 then
    match clientCheck c sh.version with
    | .error e => .error e
    | .ok w => .ok (w, .legacy)
  else if c.maxV = vTLS13 ∨ c.maxV = vDTLS13 then client13 c sh
  else .error .unsupported

end Verif.Tls.Version
