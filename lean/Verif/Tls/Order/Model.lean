/-
Model of the handshake state machine of openHiTLS over a stream transport (TLS 1.2, TLCP and
TLS 1.3, initial handshake, client and server): which message is accepted in which state, what is
checked on the way, and what is sent.

Sources: tls/handshake/parse/src/parse.c (message type check), tls/handshake/recv/src/*.c
(processing), tls/handshake/send/src/*.c (sending), tls/ccs/src/change_cipher_spec.c.

What is abstracted: the outcome of parsing, of extension checks and of every cryptographic check
is an input of the event (`ok`, `chainOk`, `sigOk`, `macOk`), so the theorems hold for every
behaviour of these checks.  DTLS, renegotiation and post-handshake messages are not modelled, and
neither are QUIC, early alerts and I/O that would block (a blocked call simply is no event).
-/

namespace Verif.Tls.Order

/-- The negotiated protocol.  `HITLS_VERSION_TLS12`, `HITLS_VERSION_TLCP_DTLCP11`,
`HITLS_VERSION_TLS13`. -/
inductive Ver | tls12 | tlcp | tls13
deriving DecidableEq, Repr

/-- Key exchange algorithms, `HITLS_KeyExchAlgo` (include/tls/hitls_type.h).  `rsa` stands for the
three whose ServerKeyExchange is absent: RSA, static DH and static ECDH; `ecc` is TLCP's. -/
inductive Kx | rsa | ecdhe | dhe | psk | dhePsk | ecdhePsk | rsaPsk | ecc
deriving DecidableEq, Repr

/-- Outcome of hello processing: for the client what a ServerHello it has accepted says, for the
server what it has chosen for a ClientHello it has accepted.  The choice itself is the subject of
other models (version: `Verif.Tls.Version`); here every choice is possible. -/
structure Hello where
  /-- negotiated version -/
  ver : Ver
  /-- negotiatedInfo.cipherSuiteInfo.kxAlg -/
  kx : Kx
  /-- negotiatedInfo.cipherSuiteInfo.authAlg == HITLS_AUTH_NULL -/
  anon : Bool
  /-- negotiatedInfo.cipherSuiteInfo.authAlg == HITLS_AUTH_PSK -/
  authPsk : Bool
  /-- negotiatedInfo.isResume: TLS 1.2 session resumption; TLS 1.3: the selected key is a ticket -/
  resume : Bool
  /-- negotiatedInfo.isTicket (TLS 1.2) -/
  ticket : Bool
  /-- TLS 1.3: a pre-shared key is selected (kxCtx->pskInfo13.psk != NULL) -/
  psk : Bool
  /-- client: the message is a HelloRetryRequest; server: it needs to send one -/
  hrr : Bool
  /-- server: ClientHello carries post_handshake_auth -/
  pha : Bool
deriving DecidableEq, Repr

/-- The combinations of the cipher suite table g_cipherSuiteList, tls/config/src/cipher_suite.c:55-1700
(kxAlg, authAlg, version range): authAlg is HITLS_AUTH_PSK for PSK, DHE_PSK and ECDHE_PSK and for no
other, HITLS_AUTH_NULL only occurs with DHE and ECDHE, the TLCP suites use ECDHE and ECC, the
latter is only used there.  TLS 1.3 suites say nothing about key exchange and authentication. -/
def suiteOk (h : Hello) : Bool :=
  h.ver == .tls13 ||
    (h.authPsk == (h.kx == .psk || h.kx == .dhePsk || h.kx == .ecdhePsk) &&
     (!h.anon || h.kx == .dhe || h.kx == .ecdhe) &&
     (if h.ver == .tlcp then (h.kx == .ecdhe || h.kx == .ecc) && !h.anon else h.kx != .ecc))

/-- A received handshake message, with the results of the checks made on it. -/
inductive Msg
  | helloRequest
  | clientHello (h : Hello)
  | serverHello (h : Hello)
  | encryptedExtensions
  /-- `empty`: certCount == 0; `chainOk`: SAL_CERT_VerifyCertChain succeeds -/
  | certificate (empty chainOk : Bool)
  /-- `sigOk`: the signature over the parameters verifies (ParseServerEcdhe and others) -/
  | serverKeyExchange (sigOk : Bool)
  | certificateRequest
  | serverHelloDone
  | clientKeyExchange
  /-- `sigOk`: VERIFY_VerifySignData succeeds -/
  | certificateVerify (sigOk : Bool)
  | newSessionTicket
  /-- `macOk`: CheckFinishedVerifyData succeeds -/
  | finished (macOk : Bool)
  /-- any other handshake type, such as KeyUpdate -/
  | other
deriving DecidableEq, Repr

/-- A message the endpoint sends. -/
inductive Out
  | clientHello | helloRetryRequest | serverHello | encryptedExtensions
  | certificate (empty : Bool) | serverKeyExchange | certificateRequest | serverHelloDone
  | clientKeyExchange | certificateVerify | newSessionTicket | ccs | finished
deriving DecidableEq, Repr

/-- One entry of the conversation as seen on the wire by the endpoint. -/
inductive Item
  | tx (m : Out)
  | rx (m : Msg)
  | rxCcs
deriving DecidableEq, Repr

/-- Handshake states, tls/include/hs_ctx.h `HITLS_HandshakeState` (the ones reachable here).
`s…` is TRY_SEND_…, `r…` is TRY_RECV_…. -/
inductive St
  | sClientHello | sHelloRetryRequest | sServerHello | sEncryptedExtensions | sCertificate
  | sServerKeyExchange | sCertificateRequest | sServerHelloDone | sClientKeyExchange
  | sCertificateVerify | sNewSessionTicket | sChangeCipherSpec | sFinish
  | rClientHello | rServerHello | rEncryptedExtensions | rCertificate | rServerKeyExchange
  | rCertificateRequest | rServerHelloDone | rClientKeyExchange | rCertificateVerify
  | rNewSessionTicket | rFinish
  | connected
deriving DecidableEq, Repr

/-- The configuration (`ctx->config.tlsConfig` and the session set by the user). -/
structure Cfg where
  isClient : Bool
  /-- maxVersion is TLS 1.3 -/
  max13 : Bool
  /-- maxVersion is TLCP (when not `max13`) -/
  maxTlcp : Bool
  /-- client: ctx->session != NULL, offered for resumption -/
  session : Bool
  /-- client: a TLS 1.3 pre-shared key (ticket or external) was offered -/
  pskOffered : Bool
  /-- client: the session ticket extension was sent -/
  ticketOffered : Bool
  isSupportClientVerify : Bool
  isSupportNoClientCert : Bool
  isSupportVerifyNone : Bool
  isSupportPostHandshakeAuth : Bool
  /-- pskIdentityHint != NULL -/
  pskHint : Bool
  isMiddleBoxCompat : Bool
  ticketNums : Nat
  /-- SAL_CERT_GetCurrentCert(certMgrCtx) != NULL -/
  haveCert : Bool
deriving DecidableEq, Repr

/-- The part of `TLS_Ctx` the state machine reads and writes. -/
structure S where
  st : St
  /-- GET_VERSION_FROM_CTX: tls/include/tls.h:440-441 (the configured maximum until negotiated) -/
  ver : Ver
  kx : Kx := .rsa
  anon : Bool := false
  authPsk : Bool := false
  isResume : Bool := false
  isTicket : Bool := false
  psk : Bool := false
  haveHrr : Bool := false
  /-- phaState == PHA_EXTENSION -/
  phaExt : Bool := false
  isNeedClientCert : Bool := false
  /-- hsCtx->peerCert != NULL -/
  peerCert : Bool := false
  /-- ccsCtx->isReady, ccsRecvflag, isAllowActiveCipher, activeCipherFlag -/
  ready : Bool := false
  recvCcs : Bool := false
  allow : Bool := false
  active : Bool := false
  sentTickets : Nat := 0
  /-- hsCtx->ccsNextState -/
  ccsNext : St := .sFinish
deriving DecidableEq, Repr

/-- State before the first step: HsInitChangeState, tls/handshake/sm/src/hs_init.c:100-112 (no
renegotiation). -/
def init (c : Cfg) : S where
  st := if c.isClient then .sClientHello else .rClientHello
  ver := if c.max13 then .tls13 else if c.maxTlcp then .tlcp else .tls12

/-- CCS_Ctrl with CCS_CMD_RECV_READY, tls/ccs/src/change_cipher_spec.c:106-108. -/
def ccsReady (s : S) : S := { s with ready := true }

/-- CCS_Ctrl with CCS_CMD_RECV_EXIT_READY, change_cipher_spec.c:109-114. -/
def ccsExit (s : S) : S := { s with ready := false, recvCcs := false, allow := false, active := false }

/-- CCS_Ctrl with CCS_CMD_RECV_ACTIVE_CIPHER_SPEC, change_cipher_spec.c:115-129.  `active` says that
REC_ActivePendingState has switched the read keys; it is assumed to succeed. -/
def ccsActive (s : S) : S :=
  { s with allow := true, active := s.active || s.recvCcs }

/-- IsNeedServerKeyExchange, tls/handshake/common/src/hs_common.c:424-452. -/
def isNeedServerKeyExchange (c : Cfg) (s : S) : Bool :=
  if s.kx == .psk || s.kx == .rsaPsk then (if c.isClient then true else c.pskHint)
  else if s.ver == .tlcp then true
  else s.kx != .rsa

/-- IsNeedCertPrepare, hs_common.c:454-479. -/
def isNeedCertPrepare (s : S) : Bool :=
  if s.kx == .psk || s.kx == .dhePsk || s.kx == .ecdhePsk then false
  else !s.anon

/-- Is the endpoint reading?  HS_DoHandshake reads records in the TRY_RECV_ states only. -/
def St.isRecv : St → Bool
  | .rClientHello | .rServerHello | .rEncryptedExtensions | .rCertificate | .rServerKeyExchange
  | .rCertificateRequest | .rServerHelloDone | .rClientKeyExchange | .rCertificateVerify
  | .rNewSessionTicket | .rFinish => true
  | _ => false

/-- The state whose table entry names this message type: g_checkHsMsgTypeList,
tls/handshake/parse/src/parse.c:187-216. -/
def expected : St → Msg → Bool
  | .rClientHello, .clientHello _ => true
  | .rServerHello, .serverHello _ => true
  | .rEncryptedExtensions, .encryptedExtensions => true
  | .rCertificate, .certificate _ _ => true
  | .rServerKeyExchange, .serverKeyExchange _ => true
  | .rCertificateRequest, .certificateRequest => true
  | .rServerHelloDone, .serverHelloDone => true
  | .rClientKeyExchange, .clientKeyExchange => true
  | .rCertificateVerify, .certificateVerify _ => true
  | .rNewSessionTicket, .newSessionTicket => true
  | .rFinish, .finished _ => true
  | _, _ => false

/-- The callbacks of the table that let another message through and move to its state:
CheckServerHelloType (datagram only, so nothing here), CheckServerKeyExchangeType and
CheckCertificateRequestType, parse.c:58-141. -/
def checkCb (s : S) (m : Msg) : Option St :=
  match s.st, m with
  | .rServerKeyExchange, .certificateRequest =>
    if s.kx == .psk || s.kx == .rsaPsk then some .rCertificateRequest else none
  | .rServerKeyExchange, .serverHelloDone =>
    if s.kx == .psk || s.kx == .rsaPsk then some .rServerHelloDone else none
  | .rCertificateRequest, .certificate _ _ =>
    if s.ver == .tls13 then some .rCertificate else none
  | .rCertificateRequest, .serverHelloDone =>
    if s.ver == .tls13 then none else some .rServerHelloDone
  | _, _ => none

/-- CheckHsMsgType, parse.c:218-275: the state in which the message is then processed, or `none`
for the fatal unexpected_message alert.  (The HelloRequest case is in `rx`.) -/
def checkHsMsgType (s : S) (m : Msg) : Option S := do
  let s ← if expected s.st m then some s else (checkCb s m).map fun st => { s with st := st }
  match m with
  | .finished _ => if s.ver != .tls13 && !s.recvCcs then none else some s
  | _ => some s

/-- ClientRecvServerHelloProcess, tls/handshake/recv/src/recv_server_hello.c:748-793, with
ClientCheckIfResumeFromSession (:690-707: only a client that has a session resumes) and
ClientCheckTicketExternsion (:307-328). -/
def clientServerHello12 (c : Cfg) (s : S) (h : Hello) : Option S := do
  if h.resume && !c.session then none
  else if h.ticket && !c.ticketOffered then none
  else
    let s := { s with ver := h.ver, kx := h.kx, anon := h.anon, authPsk := h.authPsk,
                      isResume := h.resume, isTicket := h.ticket }
    if s.isResume then
      if s.isTicket then some { s with st := .rNewSessionTicket }
      else some { ccsActive (ccsReady s) with st := .rFinish }
    else
      let s := ccsExit s
      if !isNeedCertPrepare s then some { s with st := .rServerKeyExchange }
      else some { s with st := .rCertificate }

/-- Tls13ClientRecvServerHelloProcess, recv_server_hello.c:1344-1382: dispatch on the negotiated
version; Tls13ClientRecvHelloRetryRequestProcess (:979-1008, a second HelloRetryRequest is refused
at :813-820); Tls13ProcessServerHello (:1271-1342) with ClientProcessPreSharedKey (:1157-1215: the
selected key must be one that was offered).  A client whose maximum is below TLS 1.3 runs
ClientRecvServerHelloProcess directly and refuses a ServerHello for TLS 1.3 (:545-588). -/
def clientServerHello (c : Cfg) (s : S) (h : Hello) : Option S :=
  if h.ver == .tls13 then
    if !c.max13 then none
    else if h.hrr then
      if s.haveHrr then none
      else some { s with ver := .tls13, haveHrr := true, st := .sClientHello }
    else if h.psk && !c.pskOffered then none
    else some { s with ver := .tls13, kx := h.kx, psk := h.psk, isResume := h.resume,
                       st := .rEncryptedExtensions }
  else clientServerHello12 c s h

/-- Tls13ServerRecvClientHelloProcess, recv_client_hello.c:2634-2699, with
Tls13ServerProcessClientHello (:2590-2632) and ServerRecvClientHelloProcess (:1560-1631).  After a
HelloRetryRequest the version must stay (:2652-2658) and no second one is needed, because the
second ClientHello must carry the requested share (:1681-1691). -/
def serverClientHello (c : Cfg) (s : S) (h : Hello) : Option S :=
  if h.ver == .tls13 && !c.max13 then none
  else if s.haveHrr && h.ver != s.ver then none
  else if h.ver == .tls13 then
    let s := ccsReady s
    if h.hrr then
      if s.haveHrr then none
      else some { s with ver := .tls13, st := .sHelloRetryRequest }
    else
      some { s with ver := .tls13, kx := h.kx, psk := h.psk, isResume := h.resume,
                    phaExt := c.isSupportClientVerify && h.pha, st := .sServerHello }
  else
    some { s with ver := h.ver, kx := h.kx, anon := h.anon, authPsk := h.authPsk,
                  isResume := h.resume, isTicket := h.ticket, st := .sServerHello }

/-- RecvCertificateProcess, recv_certificate.c:319-376 (TLS 1.2, TLCP). -/
def recvCertificate12 (c : Cfg) (s : S) (empty chainOk : Bool) : Option S :=
  if empty then
    if !c.isClient && (c.isSupportClientVerify && c.isSupportNoClientCert) then
      some { s with st := .rClientKeyExchange }
    else none
  else
    let s := { s with peerCert := true }
    if !chainOk && !c.isSupportVerifyNone then none
    else if c.isClient then
      if isNeedServerKeyExchange c s then some { s with st := .rServerKeyExchange }
      else some { s with st := .rCertificateRequest }
    else some { s with st := .rClientKeyExchange }

/-- Tls13RecvCertificateProcess and ProcessEmptyCert, recv_certificate.c:408-490. -/
def recvCertificate13 (c : Cfg) (s : S) (empty chainOk : Bool) : Option S :=
  if empty then
    if c.isClient then none
    else if c.isSupportClientVerify && c.isSupportNoClientCert then some { s with st := .rFinish }
    else none
  else
    let s := { s with peerCert := true }
    if !chainOk && !c.isSupportVerifyNone then none
    else some { s with st := .rCertificateVerify }

/-- Is the ServerKeyExchange signed?  Not for plain PSK, RSA_PSK, (EC)DHE_PSK and anonymous suites:
ParseServerKeyExchange, tls/handshake/parse/src/parse_server_key_exchange.c:515-560, :268-306,
:346-396. -/
def skeSigned (s : S) : Bool :=
  match s.kx with
  | .ecdhe | .dhe => !s.anon
  | .ecc => true
  | _ => false

/-- RecvFinishedProcess, recv_finished.c:244-283: the verify data must match; the client then
leaves the CCS state. -/
def recvFinished (c : Cfg) (s : S) (macOk : Bool) : Option S :=
  if !macOk then none
  else if c.isClient then some (ccsExit s) else some s

/-- Processing of a message that passed the type check: ProcessHandshakeMsg
(tls/handshake/recv/src/hs_state_recv.c:218-288) below TLS 1.3 and
Tls13ProcessReceivedHandshakeMsg (:314-365) for TLS 1.3, with the `*Process` functions inlined
where they are short:
recv_encrypted_extensions.c:217-231, recv_server_key_exchange.c:30-80, recv_cert_request.c:35-68 and
:127-162, recv_server_hello_done.c:23-38, recv_client_key_exchange.c:181-216,
recv_cert_verify.c:33-82, recv_new_session_ticket.c:94-134, recv_finished.c:330-462. -/
def process (c : Cfg) (s : S) (m : Msg) : Option S :=
  match s.st, m with
  | .rClientHello, .clientHello h => if c.isClient || !suiteOk h then none else serverClientHello c s h
  | .rServerHello, .serverHello h => if !c.isClient || !suiteOk h then none else clientServerHello c s h
  | .rEncryptedExtensions, .encryptedExtensions =>
    if s.ver != .tls13 then none
    else if s.psk then some { s with st := .rFinish } else some { s with st := .rCertificateRequest }
  | .rCertificate, .certificate e ok =>
    if s.ver == .tls13 then recvCertificate13 c s e ok else recvCertificate12 c s e ok
  | .rServerKeyExchange, .serverKeyExchange sigOk =>
    if s.ver == .tls13 then none
    else if skeSigned s && !sigOk then none
    else if s.kx == .rsa then none
    else some { s with st := .rCertificateRequest }
  | .rCertificateRequest, .certificateRequest =>
    if s.ver == .tls13 then some { s with isNeedClientCert := true, st := .rCertificate }
    else if !s.peerCert then none
    else some { s with isNeedClientCert := true, st := .rServerHelloDone }
  | .rServerHelloDone, .serverHelloDone =>
    if s.ver == .tls13 then none
    else if s.isNeedClientCert then some { s with st := .sCertificate }
    else some { s with st := .sClientKeyExchange }
  | .rClientKeyExchange, .clientKeyExchange =>
    if s.ver == .tls13 then none
    else if s.isNeedClientCert && s.peerCert then some { s with st := .rCertificateVerify }
    else some { ccsActive (ccsReady s) with st := .rFinish }
  | .rCertificateVerify, .certificateVerify sigOk =>
    if !(s.peerCert && sigOk) then none
    else if s.ver == .tls13 then some { s with st := .rFinish }
    else some { ccsActive (ccsReady s) with st := .rFinish }
  | .rNewSessionTicket, .newSessionTicket =>
    if s.ver == .tls13 then none
    else some { ccsActive (ccsReady s) with st := .rFinish }
  | .rFinish, .finished macOk =>
    if s.ver == .tls13 then
      if c.isClient then
        (recvFinished c s macOk).map fun s =>
          if s.isNeedClientCert then { s with st := .sCertificate } else { s with st := .sFinish }
      else
        (recvFinished c (ccsExit s) macOk).map fun s =>
          if s.sentTickets < c.ticketNums then { s with st := .sNewSessionTicket }
          else { s with st := .connected }
    else
      if c.isClient then
        (recvFinished c s macOk).map fun s =>
          if s.isResume then { ccsExit s with st := .sChangeCipherSpec }
          else { s with st := .connected }
      else
        (recvFinished c s macOk).map fun s =>
          if s.isResume then { ccsExit s with st := .connected }
          else if s.isTicket then { s with st := .sNewSessionTicket }
          else { s with st := .sChangeCipherSpec }
  | _, _ => none

/-- One received handshake message: Tls12TryRecvHandShakeMsg / Tls13TryRecvHandShakeMsg,
hs_state_recv.c:439-478, with the HelloRequest cases of CheckHsMsgType (parse.c:225-233) and of
ProcessReceivedHandshakeMsg (hs_state_recv.c:290-301): a client ignores it, for a server it is
unexpected.  `ok = false`: parsing or a check not modelled here failed, which ends the handshake.
`none`: the handshake has failed (fatal alert); nothing is accepted afterwards. -/
def rx (c : Cfg) (s : S) (m : Msg) (ok : Bool) : Option S :=
  if !s.st.isRecv || !ok then none
  else if m == .helloRequest && c.isClient then some s
  else (checkHsMsgType s m).bind fun s => process c s m

/-- One received plaintext ChangeCipherSpec record: ProcessPlainCCS, change_cipher_spec.c:172-219.
`ok`: one byte with the value 1. -/
def rxCcs (s : S) (ok : Bool) : Option S :=
  if !s.st.isRecv then none
  else if !s.ready then none
  else if !ok then none
  else if s.recvCcs && s.ver != .tls13 then none
  else some { s with active := s.active || s.allow, recvCcs := true }

/-- ServerChangeStateAfterSendHello, send_server_hello.c:86-122. -/
def afterServerHello (c : Cfg) (s : S) : S :=
  if s.isResume then
    if s.isTicket then { s with st := .sNewSessionTicket } else { s with st := .sChangeCipherSpec }
  else if !isNeedCertPrepare s then
    if s.kx == .psk then
      if c.pskHint then { s with st := .sServerKeyExchange } else { s with st := .sServerHelloDone }
    else { s with st := .sServerKeyExchange }
  else { s with st := .sCertificate }

/-- The compatibility CCS of TLS 1.3 (RFC 8446 D.4). -/
def compat (b : Bool) : List Item := if b then [.tx .ccs] else []

/-- One message sent: ProcessSendHandshakeMsg, hs_state_send.c:107-152, and
Tls13ProcessSendHandshakeMsg, :257-315, with the `*Process` functions of tls/handshake/send/src
inlined: send_client_hello.c:95-113 and :656-712, send_server_hello.c:250-363,
send_encrypted_extensions.c:92-106, send_cert_request.c:53-112, send_certificate.c:33-182,
send_cert_verify.c:58-86, send_server_key_exchange.c:283-312, send_server_hello_done.c:63-68,
send_client_key_exchange.c:159-172, send_new_session_ticket.c:35-72 and :160-206,
send_change_cipher_spec.c:29-52, send_finished.c:57-104, :190-310, :330-366, :470-546.
In the initial handshake certReqSendTime is 0, so the once-only test passes. -/
def tx (c : Cfg) (s : S) : Option (S × List Item) :=
  match s.st with
  | .sClientHello =>
    if !c.isClient then none
    else
      let s := if c.max13 && !s.recvCcs then ccsReady s else s
      some ({ s with st := .rServerHello }, [.tx .clientHello])
  | .sHelloRetryRequest =>
    let s := { s with haveHrr := true }
    if c.isMiddleBoxCompat then
      some ({ ccsReady s with ccsNext := .rClientHello, st := .sChangeCipherSpec },
        [.tx .helloRetryRequest])
    else some ({ s with st := .rClientHello }, [.tx .helloRetryRequest])
  | .sServerHello =>
    if s.ver == .tls13 then
      if c.isMiddleBoxCompat && !s.haveHrr then
        some ({ s with ccsNext := .sEncryptedExtensions, st := .sChangeCipherSpec },
          [.tx .serverHello])
      else some ({ s with st := .sEncryptedExtensions }, [.tx .serverHello])
    else some (afterServerHello c s, [.tx .serverHello])
  | .sEncryptedExtensions =>
    if s.psk then some ({ s with st := .sFinish }, [.tx .encryptedExtensions])
    else if c.isSupportClientVerify && (!s.phaExt || !c.isSupportPostHandshakeAuth) then
      some ({ s with st := .sCertificateRequest }, [.tx .encryptedExtensions])
    else some ({ s with st := .sCertificate }, [.tx .encryptedExtensions])
  | .sCertificateRequest =>
    let s := { s with isNeedClientCert := true }
    if s.ver == .tls13 then some ({ s with st := .sCertificate }, [.tx .certificateRequest])
    else some ({ s with st := .sServerHelloDone }, [.tx .certificateRequest])
  | .sCertificate =>
    if c.isClient then
      if s.ver == .tls13 then
        some ({ s with st := if c.haveCert then .sCertificateVerify else .sFinish },
          compat (c.isMiddleBoxCompat && !s.haveHrr) ++ [.tx (.certificate (!c.haveCert))])
      else some ({ s with st := .sClientKeyExchange }, [.tx (.certificate (!c.haveCert))])
    else if !c.haveCert then none
    else if s.ver == .tls13 then
      some ({ s with st := .sCertificateVerify }, [.tx (.certificate false)])
    else if isNeedServerKeyExchange c s then
      some ({ s with st := .sServerKeyExchange }, [.tx (.certificate false)])
    else if c.isSupportClientVerify then
      some ({ s with st := .sCertificateRequest }, [.tx (.certificate false)])
    else some ({ s with st := .sServerHelloDone }, [.tx (.certificate false)])
  | .sServerKeyExchange =>
    if !s.anon && !s.authPsk && c.isSupportClientVerify && c.haveCert then
      some ({ s with st := .sCertificateRequest }, [.tx .serverKeyExchange])
    else if s.ver == .tlcp && s.kx == .ecdhe then
      some ({ s with st := .sCertificateRequest }, [.tx .serverKeyExchange])
    else some ({ s with st := .sServerHelloDone }, [.tx .serverKeyExchange])
  | .sServerHelloDone =>
    if s.isNeedClientCert then some ({ s with st := .rCertificate }, [.tx .serverHelloDone])
    else some ({ s with st := .rClientKeyExchange }, [.tx .serverHelloDone])
  | .sClientKeyExchange =>
    if s.isNeedClientCert && c.haveCert then
      some ({ s with st := .sCertificateVerify }, [.tx .clientKeyExchange])
    else some ({ s with st := .sChangeCipherSpec }, [.tx .clientKeyExchange])
  | .sCertificateVerify =>
    if s.ver == .tls13 then some ({ s with st := .sFinish }, [.tx .certificateVerify])
    else some ({ s with st := .sChangeCipherSpec }, [.tx .certificateVerify])
  | .sNewSessionTicket =>
    if s.ver == .tls13 then
      let s := { s with sentTickets := s.sentTickets + 1 }
      if s.sentTickets ≥ c.ticketNums || s.isResume then
        some ({ s with st := .connected }, [.tx .newSessionTicket])
      else some ({ s with st := .sNewSessionTicket }, [.tx .newSessionTicket])
    else some ({ s with st := .sChangeCipherSpec }, [.tx .newSessionTicket])
  | .sChangeCipherSpec =>
    if s.ver == .tls13 then some ({ s with st := s.ccsNext }, [.tx .ccs])
    else some ({ s with st := .sFinish }, [.tx .ccs])
  | .sFinish =>
    if s.ver == .tls13 then
      if c.isClient then
        some ({ s with st := .connected },
          compat (c.isMiddleBoxCompat && !s.haveHrr && !s.isNeedClientCert) ++ [.tx .finished])
      else
        some ({ s with st := if s.isNeedClientCert then .rCertificate else .rFinish },
          [.tx .finished])
    else if c.isClient then
      if s.isResume then some ({ ccsExit s with st := .connected }, [.tx .finished])
      else if s.isTicket then some ({ s with st := .rNewSessionTicket }, [.tx .finished])
      else some ({ ccsActive (ccsReady s) with st := .rFinish }, [.tx .finished])
    else
      if s.isResume then some ({ ccsReady (ccsActive s) with st := .rFinish }, [.tx .finished])
      else some ({ ccsExit s with st := .connected }, [.tx .finished])
  | _ => none

/-- What can happen next: a message arrives, a ChangeCipherSpec arrives, or the endpoint sends. -/
inductive Ev
  | rx (m : Msg) (ok : Bool)
  | ccs (ok : Bool)
  | tx
deriving DecidableEq, Repr

/-- One step of HS_DoHandshake (tls/handshake/sm/src/hs_sm.c), with what it puts on or takes from
the wire. -/
def step (c : Cfg) (s : S) : Ev → Option (S × List Item)
  | .rx m ok => (rx c s m ok).map fun s' => (s', [.rx m])
  | .ccs ok => (rxCcs s ok).map fun s' => (s', [.rxCcs])
  | .tx => tx c s

/-- The handshake driven by a list of events; the conversation so far is accumulated. -/
def run (c : Cfg) : List Ev → S × List Item → Option (S × List Item)
  | [], x => some x
  | e :: es, (s, log) =>
    match step c s e with
    | none => none
    | some (s', out) => run c es (s', log ++ out)

end Verif.Tls.Order
