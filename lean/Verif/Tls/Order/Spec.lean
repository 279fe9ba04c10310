/-
The message flows of RFC 5246 (figures 1 and 2, sections 7.3, 7.4), RFC 4279/5489 (PSK suites),
GB/T 38636 (TLCP) and RFC 8446 (figures 1-3, section 4), written as lists of messages in the order
in which an endpoint sends (`tx`) and receives (`rx`) them.  Nothing here refers to the states of
the implementation.
-/
import Verif.Tls.Order.Model

namespace Verif.Tls.Order.Spec
open Verif.Tls.Order

/-- The conversation without what may appear at any place: HelloRequest (RFC 5246 7.4.1.1, ignored
by a client in a handshake), received ChangeCipherSpec records (treated separately) and, in TLS 1.3,
the compatibility ChangeCipherSpec records that are sent (RFC 8446 D.4). -/
def core (v : Ver) (log : List Item) : List Item :=
  log.filter fun i => i != .rx .helloRequest && i != .rxCcs && (v != .tls13 || i != .tx .ccs)

/-- Keep the messages if the condition holds. -/
def opt (b : Bool) (l : List Item) : List Item := if b then l else []

/-- The server proves its identity with a certificate (RFC 5246 A.5, RFC 4279 2, RFC 5489 2). -/
def certAuth (h : Hello) : Bool :=
  h.kx != .psk && h.kx != .dhePsk && h.kx != .ecdhePsk && !h.anon

/-- ServerKeyExchange is mandatory: (EC)DHE with or without PSK, and every TLCP suite. -/
def skeRequired (h : Hello) : Bool :=
  h.kx == .ecdhe || h.kx == .dhe || h.kx == .dhePsk || h.kx == .ecdhePsk || h.kx == .ecc

/-- ServerKeyExchange may be present (an identity hint, RFC 4279 2). -/
def skeOptional (h : Hello) : Bool := h.kx == .psk || h.kx == .rsaPsk

/-- ServerKeyExchange is signed (RFC 5246 7.4.3). -/
def skeSigned (h : Hello) : Bool := (h.kx == .ecdhe || h.kx == .dhe) && !h.anon || h.kx == .ecc

/-- What a client says and hears before the ServerHello that counts: its ClientHello, or, with
TLS 1.3, a HelloRetryRequest in between. -/
inductive ClientStart : List Item → Prop
  | plain : ClientStart [.tx .clientHello]
  | retry (h : Hello) (hv : h.ver = .tls13) (hr : h.hrr = true) :
      ClientStart [.tx .clientHello, .rx (.serverHello h), .tx .clientHello]

/-- Complete TLS 1.2 / TLCP handshake, client side.  `ok`: outcome of the certificate chain
verification; `ske`: ServerKeyExchange, if any, with the outcome of its signature check; `cr`: the
server requests a certificate. -/
structure Client12Full (c : Cfg) (h : Hello) (l : List Item) where
  start : List Item
  ok : Bool
  ske : Option Bool
  cr : Bool
  hstart : ClientStart start
  hok : ok = true ∨ c.isSupportVerifyNone = true
  hske_some : skeRequired h = true → ske.isSome = true
  hske_none : ske.isSome = true → skeRequired h = true ∨ skeOptional h = true
  hsig : skeSigned h = true → ske = some true
  hcr : cr = true → certAuth h = true
  flow : l = start ++ [.rx (.serverHello h)]
    ++ opt (certAuth h) [.rx (.certificate false ok)]
    ++ (ske.map fun b => Item.rx (.serverKeyExchange b)).toList
    ++ opt cr [.rx .certificateRequest]
    ++ [.rx .serverHelloDone]
    ++ opt cr [.tx (.certificate (!c.haveCert))]
    ++ [.tx .clientKeyExchange]
    ++ opt (cr && c.haveCert) [.tx .certificateVerify]
    ++ [.tx .ccs, .tx .finished]
    ++ opt h.ticket [.rx .newSessionTicket]
    ++ [.rx (.finished true)]

/-- Abbreviated TLS 1.2 / TLCP handshake, client side. -/
structure Client12Resume (c : Cfg) (h : Hello) (l : List Item) where
  start : List Item
  hstart : ClientStart start
  hsession : c.session = true
  flow : l = start ++ [.rx (.serverHello h)]
    ++ opt h.ticket [.rx .newSessionTicket]
    ++ [.rx (.finished true), .tx .ccs, .tx .finished]

/-- TLS 1.3 handshake, client side. -/
structure Client13 (c : Cfg) (h : Hello) (l : List Item) where
  start : List Item
  ok : Bool
  cr : Bool
  hstart : ClientStart start
  hhrr : h.hrr = false
  hpsk : h.psk = true → c.pskOffered = true
  hok : ok = true ∨ c.isSupportVerifyNone = true
  hcr : cr = true → h.psk = false
  flow : l = start ++ [.rx (.serverHello h), .rx .encryptedExtensions]
    ++ opt cr [.rx .certificateRequest]
    ++ opt (!h.psk) [.rx (.certificate false ok), .rx (.certificateVerify true)]
    ++ [.rx (.finished true)]
    ++ opt cr [.tx (.certificate (!c.haveCert))]
    ++ opt (cr && c.haveCert) [.tx .certificateVerify]
    ++ [.tx .finished]

/-- A completed handshake, client side. -/
inductive Client (c : Cfg) (h : Hello) (log : List Item) : Prop
  | full12 (hv : h.ver ≠ .tls13) (hr : h.resume = false) (f : Client12Full c h (core h.ver log))
  | resume12 (hv : h.ver ≠ .tls13) (hr : h.resume = true) (f : Client12Resume c h (core h.ver log))
  | tls13 (hv : h.ver = .tls13) (f : Client13 c h (core h.ver log))

/-- The server's answer to a client certificate request: an empty certificate message only if the
configuration lets clients go without, otherwise a certificate whose chain was verified, unless
verification errors are to be ignored. -/
def ClientCertOk (c : Cfg) (empty ok : Bool) : Prop :=
  if empty = true then c.isSupportClientVerify = true ∧ c.isSupportNoClientCert = true
  else ok = true ∨ c.isSupportVerifyNone = true

/-- Complete TLS 1.2 / TLCP handshake, server side. -/
structure Server12Full (c : Cfg) (h : Hello) (l : List Item) where
  ske : Bool
  cr : Bool
  empty : Bool
  ok : Bool
  hske : ske = (skeRequired h || (skeOptional h && c.pskHint))
  hcr : cr = (certAuth h &&
    (c.isSupportClientVerify || (h.ver == .tlcp && h.kx == .ecdhe)))
  hcert : cr = true → ClientCertOk c empty ok
  flow : l = [.rx (.clientHello h), .tx .serverHello]
    ++ opt (certAuth h) [.tx (.certificate false)]
    ++ opt ske [.tx .serverKeyExchange]
    ++ opt cr [.tx .certificateRequest]
    ++ [.tx .serverHelloDone]
    ++ opt cr [.rx (.certificate empty ok)]
    ++ [.rx .clientKeyExchange]
    ++ opt (cr && !empty) [.rx (.certificateVerify true)]
    ++ [.rx (.finished true)]
    ++ opt h.ticket [.tx .newSessionTicket]
    ++ [.tx .ccs, .tx .finished]

/-- Abbreviated TLS 1.2 / TLCP handshake, server side. -/
structure Server12Resume (h : Hello) (l : List Item) where
  flow : l = [.rx (.clientHello h), .tx .serverHello]
    ++ opt h.ticket [.tx .newSessionTicket]
    ++ [.tx .ccs, .tx .finished, .rx (.finished true)]

/-- TLS 1.3 handshake, server side, followed by `n` tickets. -/
structure Server13 (c : Cfg) (h : Hello) (l : List Item) where
  start : List Item
  cr : Bool
  empty : Bool
  ok : Bool
  n : Nat
  hstart : start = [] ∨
    ∃ h0 : Hello, h0.ver = .tls13 ∧ start = [.rx (.clientHello h0), .tx .helloRetryRequest]
  hhrr : h.hrr = false
  hcr : cr = (!h.psk && (c.isSupportClientVerify &&
    (!(h.pha && c.isSupportPostHandshakeAuth))))
  hcert : cr = true → ClientCertOk c empty ok
  hn : n ≤ c.ticketNums
  flow : l = start ++ [.rx (.clientHello h), .tx .serverHello, .tx .encryptedExtensions]
    ++ opt cr [.tx .certificateRequest]
    ++ opt (!h.psk) [.tx (.certificate false), .tx .certificateVerify]
    ++ [.tx .finished]
    ++ opt cr [.rx (.certificate empty ok)]
    ++ opt (cr && !empty) [.rx (.certificateVerify true)]
    ++ [.rx (.finished true)]
    ++ List.replicate n (.tx .newSessionTicket)

/-- A completed handshake, server side. -/
inductive Server (c : Cfg) (h : Hello) (log : List Item) : Prop
  | full12 (hv : h.ver ≠ .tls13) (hr : h.resume = false) (f : Server12Full c h (core h.ver log))
  | resume12 (hv : h.ver ≠ .tls13) (hr : h.resume = true) (f : Server12Resume h (core h.ver log))
  | tls13 (hv : h.ver = .tls13) (f : Server13 c h (core h.ver log))

end Verif.Tls.Order.Spec
