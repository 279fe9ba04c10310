/-
C38: an endpoint reports an established connection only after a conforming sequence of handshake
messages.  Specification: `Spec.lean`.  Everything is stated for the run of an endpoint from its
initial state over an arbitrary list of events, that is for every peer (or attacker) and every
outcome of the checks.
-/
import Verif.Tls.Order.ProofN

namespace Verif.Tls.Order
open Spec

theorem mem_of_core {v : Ver} {i : Item} {log : List Item} (h : i ∈ core v log) : i ∈ log :=
  (List.mem_filter.mp h).1

/-- Whatever the peer sends, a client that reports an established connection has had a complete
conversation of one of the forms of the specification. -/
theorem client_order (c : Cfg) (hc : c.isClient = true) (evs : List Ev) (s : S) (log : List Item)
    (hrun : run c evs (init c, []) = some (s, log)) (hconn : s.st = .connected) :
    ∃ h, Client c h log := by
  have := cinv_run hc evs _ _ _ _ (cinv_init c hc) hrun
  unfold CInv at this
  rw [hconn] at this
  exact this

/-- The same for a server. -/
theorem server_order (c : Cfg) (hc : c.isClient = false) (evs : List Ev) (s : S) (log : List Item)
    (hrun : run c evs (init c, []) = some (s, log)) (hconn : s.st = .connected) :
    ∃ h, Server c h log := by
  have := sinv_run hc evs _ _ _ _ (sinv_init c hc) hrun
  unfold SInv at this
  rw [hconn] at this
  exact this

/-- Neither side reports an established connection before it has verified the peer's Finished. -/
theorem finished_verified (c : Cfg) (evs : List Ev) (s : S) (log : List Item)
    (hrun : run c evs (init c, []) = some (s, log)) (hconn : s.st = .connected) :
    .rx (.finished true) ∈ log := by
  cases hc : c.isClient with
  | true =>
    obtain ⟨h, hh⟩ := client_order c hc evs s log hrun hconn
    cases hh with
    | full12 hv hr f => exact mem_of_core (v := h.ver) (by rw [f.flow]; simp)
    | resume12 hv hr f => exact mem_of_core (v := h.ver) (by rw [f.flow]; simp)
    | tls13 hv f => exact mem_of_core (v := h.ver) (by rw [f.flow]; simp)
  | false =>
    obtain ⟨h, hh⟩ := server_order c hc evs s log hrun hconn
    cases hh with
    | full12 hv hr f => exact mem_of_core (v := h.ver) (by rw [f.flow]; simp)
    | resume12 hv hr f => exact mem_of_core (v := h.ver) (by rw [f.flow]; simp)
    | tls13 hv f => exact mem_of_core (v := h.ver) (by rw [f.flow]; simp)

/-- A client that verifies certificates and completes a handshake that resumes nothing and whose
suite is neither anonymous nor PSK has accepted a certificate whose chain verified, and a signature
made with its key: in TLS 1.3 a CertificateVerify, below it, if the key exchange is ephemeral or
TLCP's, a signed ServerKeyExchange. -/
theorem client_authenticates_server (c : Cfg) (hc : c.isClient = true)
    (hvn : c.isSupportVerifyNone = false) (evs : List Ev) (s : S) (log : List Item)
    (hrun : run c evs (init c, []) = some (s, log)) (hconn : s.st = .connected) :
    ∃ h, .rx (.serverHello h) ∈ log ∧
      (h.ver = .tls13 → h.psk = false →
        .rx (.certificate false true) ∈ log ∧ .rx (.certificateVerify true) ∈ log) ∧
      (h.ver = .tls13 → h.psk = true → c.pskOffered = true) ∧
      (h.ver ≠ .tls13 → h.resume = false → certAuth h = true →
        .rx (.certificate false true) ∈ log ∧
        (Spec.skeSigned h = true → .rx (.serverKeyExchange true) ∈ log)) ∧
      (h.ver ≠ .tls13 → h.resume = true → c.session = true) := by
  obtain ⟨h, hh⟩ := client_order c hc evs s log hrun hconn
  refine ⟨h, ?_⟩
  cases hh with
  | full12 hv hr f =>
    have hok : f.ok = true := f.hok.resolve_right (by simp [hvn])
    refine ⟨mem_of_core (v := h.ver) (by rw [f.flow]; simp), fun e => absurd e hv,
      fun e => absurd e hv, fun _ _ ha => ⟨mem_of_core (v := h.ver) ?_, fun hs =>
        mem_of_core (v := h.ver) ?_⟩, fun _ e => ?_⟩
    · rw [f.flow]; simp [ha, opt, hok]
    · rw [f.flow, f.hsig hs]; simp
    · rw [hr] at e; cases e
  | resume12 hv hr f =>
    refine ⟨mem_of_core (v := h.ver) (by rw [f.flow]; simp), fun e => absurd e hv,
      fun e => absurd e hv, fun _ e => ?_, fun _ _ => f.hsession⟩
    rw [hr] at e; cases e
  | tls13 hv f =>
    have hok : f.ok = true := f.hok.resolve_right (by simp [hvn])
    refine ⟨mem_of_core (v := h.ver) (by rw [f.flow]; simp), fun _ hp =>
      ⟨mem_of_core (v := h.ver) ?_, mem_of_core (v := h.ver) ?_⟩, fun _ => f.hpsk,
      fun e => absurd hv e, fun e => absurd hv e⟩
    · rw [f.flow]; simp [hp, opt, hok]
    · rw [f.flow]; simp [hp, opt]

/-- A server that is told to require client certificates, and that completes a handshake which
resumes nothing, whose suite is authenticated by certificate and for which authentication has not
been put off to after the handshake, has accepted a client certificate whose chain verified and a
CertificateVerify that verified. -/
theorem server_authenticates_client (c : Cfg) (hc : c.isClient = false)
    (hcv : c.isSupportClientVerify = true) (hno : c.isSupportNoClientCert = false)
    (hvn : c.isSupportVerifyNone = false) (evs : List Ev) (s : S) (log : List Item)
    (hrun : run c evs (init c, []) = some (s, log)) (hconn : s.st = .connected) :
    ∃ h, .rx (.clientHello h) ∈ log ∧
      (h.ver = .tls13 → h.psk = false → (h.pha && c.isSupportPostHandshakeAuth) = false →
        .rx (.certificate false true) ∈ log ∧ .rx (.certificateVerify true) ∈ log) ∧
      (h.ver ≠ .tls13 → h.resume = false → certAuth h = true →
        .rx (.certificate false true) ∈ log ∧ .rx (.certificateVerify true) ∈ log) := by
  obtain ⟨h, hh⟩ := server_order c hc evs s log hrun hconn
  refine ⟨h, ?_⟩
  have key : ∀ e ok, ClientCertOk c e ok → e = false ∧ ok = true := by
    intro e ok h
    cases e <;> simp [ClientCertOk, hno, hvn] at h
    exact ⟨rfl, h⟩
  cases hh with
  | full12 hv hr f =>
    refine ⟨mem_of_core (v := h.ver) (by rw [f.flow]; simp), fun e => absurd e hv, fun _ _ ha => ?_⟩
    have hcr : f.cr = true := by rw [f.hcr, ha, hcv]; rfl
    obtain ⟨he, hok⟩ := key _ _ (f.hcert hcr)
    refine ⟨mem_of_core (v := h.ver) ?_, mem_of_core (v := h.ver) ?_⟩
    · rw [f.flow]; simp [opt, hcr, he, hok]
    · rw [f.flow]; simp [opt, hcr, he]
  | resume12 hv hr f =>
    refine ⟨mem_of_core (v := h.ver) (by rw [f.flow]; simp), fun e => absurd e hv, fun _ e => ?_⟩
    rw [hr] at e; cases e
  | tls13 hv f =>
    refine ⟨mem_of_core (v := h.ver) (by rw [f.flow]; simp), fun _ hp hpha => ?_, fun e => absurd hv e⟩
    have hcr : f.cr = true := by rw [f.hcr, hp, hcv, hpha]; rfl
    obtain ⟨he, hok⟩ := key _ _ (f.hcert hcr)
    refine ⟨mem_of_core (v := h.ver) ?_, mem_of_core (v := h.ver) ?_⟩
    · rw [f.flow]; simp [opt, hcr, he, hok]
    · rw [f.flow]; simp [opt, hcr, he]

/-- Below TLS 1.3 the Finished that completes the handshake follows a ChangeCipherSpec, with nothing
but ignored HelloRequests in between; only a client that also supports TLS 1.3 and resumes a session
may have taken the ChangeCipherSpec earlier (see `ccs_before_serverHello_witness`). -/
theorem ccs_then_finished (c : Cfg) (evs : List Ev) (s : S) (log : List Item)
    (hrun : run c evs (init c, []) = some (s, log)) (hconn : s.st = .connected)
    (hver : s.ver ≠ .tls13) :
    ∃ a mid d, log = a ++ .rxCcs :: mid ++ .rx (.finished true) :: d ∧
      ∀ i ∈ mid, i = .rx .helloRequest ∨
        (c.isClient = true ∧ c.max13 = true ∧ s.isResume = true) := by
  have := (inv_run evs _ _ _ _ (inv_init c) hrun).2
  unfold KInv at this
  rw [hconn] at this
  exact this hver

/-- And it is the only ChangeCipherSpec accepted in the handshake, unless the endpoint is a client
that also supports TLS 1.3 (which ignores compatibility records sent before the ServerHello). -/
theorem ccs_once (c : Cfg) (evs : List Ev) (s : S) (log : List Item)
    (hrun : run c evs (init c, []) = some (s, log)) (hconn : s.st = .connected)
    (hver : s.ver ≠ .tls13) (hm : ¬ (c.isClient = true ∧ c.max13 = true)) :
    List.count .rxCcs log = 1 := by
  have := ninv_run evs _ _ _ _ (inv_init c) (ninv_init c) hrun hm (.inl hver)
  rcases this with h | h
  · obtain ⟨a, mid, d, hl, -⟩ := ccs_then_finished c evs s log hrun hconn hver
    rw [hl] at h
    simp at h
  · exact h.1

/-- Below TLS 1.3 a Finished is only ever accepted when the keys of this handshake protect what is
read. -/
theorem finished_under_new_keys (c : Cfg) (evs : List Ev) (s s' : S) (log : List Item) (b ok : Bool)
    (hrun : run c evs (init c, []) = some (s, log)) (hver : s.ver ≠ .tls13)
    (hfin : rx c s (.finished b) ok = some s') : s.active = true := by
  have := (inv_run evs _ _ _ _ (inv_init c) hrun).2
  obtain ⟨hst, hccs⟩ := rx_finished_ccs hfin
  unfold KInv at this
  rw [hst] at this
  obtain ⟨-, -, h, -⟩ := this hver
  rw [h]
  exact hccs.resolve_left hver

/-- Below TLS 1.3 nothing makes an endpoint read with the new keys before they are agreed (the
attack of CVE-2014-0224): a server does so after the ClientKeyExchange or, resuming, after its own
Finished; a client after its own Finished or, resuming, after the ServerHello. -/
theorem keys_not_early (c : Cfg) (evs : List Ev) (s s' : S) (log out : List Item) (e : Ev)
    (hrun : run c evs (init c, []) = some (s, log)) (hstep : step c s e = some (s', out))
    (hver : s'.ver ≠ .tls13) (hb : s.active = false) (ha : s'.active = true) :
    if c.isClient then
      .tx .finished ∈ log ++ out ∨
        ∃ h, .rx (.serverHello h) ∈ log ++ out ∧ h.resume = true ∧ c.session = true
    else .rx .clientKeyExchange ∈ log ++ out ∨ .tx .finished ∈ log ++ out := by
  have hi := inv_run evs _ _ _ _ (inv_init c) hrun
  have hi' := inv_step hi hstep
  have hst : s'.st = .rFinish := (step_active hi.2 hstep hver ha).resolve_left (by simp [hb])
  obtain ⟨hm, -⟩ := hi'
  unfold SInv CInv at hm
  rw [hst] at hm
  rcases hm with ⟨hc, hm⟩ | ⟨hc, hm⟩
  · rw [if_neg (by simp [hc])]
    rcases hm with ⟨h, e, ok, h12, -, hcore⟩ | ⟨h, hng, -, hcore⟩ | ⟨h, start, e, ok, h13, -⟩
    · exact .inl (mem_of_core (v := h.ver) (by rw [hcore]; simp [a8, a7]))
    · exact .inr (mem_of_core (v := h.ver) (by rw [hcore]; simp))
    · exact absurd h13.1 hver
  · rw [if_pos hc]
    rcases hm with ⟨h, start, ok, ske, cr, -, -, hcore⟩ | ⟨h, start, hng, hr, -, hse, hcore⟩ |
      ⟨h, start, ok, cr, h13, -⟩
    · exact .inl (mem_of_core (v := h.ver) (by rw [hcore]; simp))
    · exact .inr ⟨h, mem_of_core (v := h.ver) (by rw [hcore]; simp [p1]), hr, hse⟩
    · exact absurd h13.1.1 hver

/-! ### The hypotheses are met: concrete conversations -/

section examples

private def cli : Cfg where
  isClient := true
  max13 := true
  maxTlcp := false
  session := true
  pskOffered := false
  ticketOffered := true
  isSupportClientVerify := false
  isSupportNoClientCert := false
  isSupportVerifyNone := false
  isSupportPostHandshakeAuth := false
  pskHint := false
  isMiddleBoxCompat := true
  ticketNums := 2
  haveCert := true

private def srv : Cfg := { cli with isClient := false, isSupportClientVerify := true }

private def hello : Hello where
  ver := .tls12
  kx := .ecdhe
  anon := false
  authPsk := false
  resume := false
  ticket := false
  psk := false
  hrr := false
  pha := false

private def hello13 : Hello := { hello with ver := .tls13 }

private def final (c : Cfg) (evs : List Ev) : Option (St × Ver) :=
  (run c evs (init c, [])).map fun x => (x.1.st, x.1.ver)

/-- TLS 1.2 with ECDHE, a client certificate and a ticket. -/
example : final cli [.tx, .rx (.serverHello { hello with ticket := true }) true,
    .rx (.certificate false true) true, .rx (.serverKeyExchange true) true,
    .rx .certificateRequest true, .rx .helloRequest true, .rx .serverHelloDone true, .tx, .tx, .tx,
    .tx, .tx, .rx .newSessionTicket true, .ccs true, .rx (.finished true) true]
    = some (.connected, .tls12) := by decide

/-- TLS 1.2 with plain PSK and without ServerKeyExchange. -/
example : final cli [.tx, .rx (.serverHello { hello with kx := .psk, authPsk := true }) true,
    .rx .serverHelloDone true, .tx, .tx, .tx, .ccs true, .rx (.finished true) true]
    = some (.connected, .tls12) := by decide

/-- TLS 1.2 resumption. -/
example : final cli [.tx, .rx (.serverHello { hello with resume := true }) true, .ccs true,
    .rx (.finished true) true, .tx, .tx] = some (.connected, .tls12) := by decide

/-- TLS 1.3 with a retry, a compatibility ChangeCipherSpec and a client certificate. -/
example : final cli [.tx, .rx (.serverHello { hello13 with hrr := true }) true, .tx, .ccs true,
    .rx (.serverHello hello13) true, .rx .encryptedExtensions true, .rx .certificateRequest true,
    .rx (.certificate false true) true, .rx (.certificateVerify true) true,
    .rx (.finished true) true, .tx, .tx, .tx] = some (.connected, .tls13) := by decide

/-- TLCP with ECC, server side, with a required client certificate. -/
example : final srv [.rx (.clientHello { hello with ver := .tlcp, kx := .ecc }) true, .tx, .tx, .tx,
    .tx, .tx, .rx (.certificate false true) true, .rx .clientKeyExchange true,
    .rx (.certificateVerify true) true, .ccs true, .rx (.finished true) true, .tx, .tx]
    = some (.connected, .tlcp) := by decide

/-- TLS 1.2 resumption with a ticket, server side. -/
example : final srv [.rx (.clientHello { hello with resume := true, ticket := true }) true, .tx, .tx,
    .tx, .tx, .ccs true, .rx (.finished true) true] = some (.connected, .tls12) := by decide

/-- TLS 1.3, server side, with a retry, a client certificate and two tickets. -/
example : final srv [.rx (.clientHello { hello13 with hrr := true }) true, .tx, .tx, .ccs true,
    .rx (.clientHello hello13) true, .tx, .tx, .tx, .tx, .tx, .tx,
    .rx (.certificate false true) true, .rx (.certificateVerify true) true,
    .rx (.finished true) true, .tx, .tx] = some (.connected, .tls13) := by decide

/-- Skipping the certificate, the key exchange or the ChangeCipherSpec ends the handshake. -/
example : final cli [.tx, .rx (.serverHello hello) true, .rx (.serverKeyExchange true) true] = none ∧
    final cli [.tx, .rx (.serverHello hello) true, .rx (.certificate false true) true,
      .rx .serverHelloDone true] = none ∧
    final cli [.tx, .rx (.serverHello { hello with resume := true }) true,
      .rx (.finished true) true] = none ∧
    final cli [.tx, .rx (.serverHello hello) true, .ccs true] = none := by decide

/-- The premises of `keys_not_early` are met. -/
example : ∃ s log s' out, run cli [.tx, .rx (.serverHello { hello with resume := true }) true]
      (init cli, []) = some (s, log) ∧ step cli s (.ccs true) = some (s', out) ∧
      s'.ver ≠ .tls13 ∧ s.active = false ∧ s'.active = true :=
  ⟨_, _, _, _, rfl, rfl, by decide, rfl, rfl⟩

/-! ### Conversations that are accepted although the protocol, or a user's expectation, rules them out -/

/-- A client that supports TLS 1.3 and resumes a TLS 1.2 session takes a ChangeCipherSpec that
arrives before the ServerHello for the one that must precede the Finished. -/
theorem ccs_before_serverHello_witness :
    ∃ c evs s log, run c evs (init c, []) = some (s, log) ∧ s.st = .connected ∧ s.ver = .tls12 ∧
      log = [.tx .clientHello, .rxCcs, .rx (.serverHello { hello with resume := true }),
        .rx (.finished true), .tx .ccs, .tx .finished] :=
  ⟨cli, [.tx, .ccs true, .rx (.serverHello { hello with resume := true }) true,
    .rx (.finished true) true, .tx, .tx], _, _, rfl, rfl, rfl, rfl⟩

/-- After a HelloRetryRequest, which only TLS 1.3 has, the client still lets the server select
TLS 1.2 (RFC 8446 4.1.4: the version selected must stay the same). -/
theorem retry_then_tls12_witness :
    ∃ c evs s log h0 h, run c evs (init c, []) = some (s, log) ∧ s.st = .connected ∧
      s.ver = .tls12 ∧ h0.ver = .tls13 ∧ h0.hrr = true ∧ h.ver = .tls12 ∧
      .rx (.serverHello h0) ∈ log ∧ .rx (.serverHello h) ∈ log :=
  ⟨cli, [.tx, .rx (.serverHello { hello13 with hrr := true }) true, .tx,
    .rx (.serverHello hello) true, .rx (.certificate false true) true,
    .rx (.serverKeyExchange true) true, .rx .serverHelloDone true, .tx, .tx, .tx, .ccs true,
    .rx (.finished true) true], _, _, { hello13 with hrr := true }, hello, rfl, rfl, rfl, rfl, rfl,
    rfl, by decide, by decide⟩

/-- A server that requires client certificates completes the handshake without one when the suite
is anonymous, and in TLS 1.3 with a pre-shared key. -/
theorem no_client_certificate_witness :
    ∃ c evs s log evs' s' log', c.isClient = false ∧ c.isSupportClientVerify = true ∧
      c.isSupportNoClientCert = false ∧ c.isSupportVerifyNone = false ∧
      run c evs (init c, []) = some (s, log) ∧ s.st = .connected ∧ s.ver = .tls12 ∧
      run c evs' (init c, []) = some (s', log') ∧ s'.st = .connected ∧ s'.ver = .tls13 ∧
      s'.isResume = false ∧
      .rx (.certificate false true) ∉ log ∧ .rx (.certificate false true) ∉ log' :=
  ⟨srv, [.rx (.clientHello { hello with anon := true }) true, .tx, .tx, .tx,
    .rx .clientKeyExchange true, .ccs true, .rx (.finished true) true, .tx, .tx], _, _,
    [.rx (.clientHello { hello13 with psk := true }) true, .tx, .tx, .tx, .tx,
     .rx (.finished true) true, .tx, .tx], _, _, rfl, rfl, rfl, rfl, rfl, rfl, rfl, rfl, rfl, rfl,
    rfl, by decide, by decide⟩

end examples

end Verif.Tls.Order
