import Verif.Tls.Order.Proof

namespace Verif.Tls.Order
open Spec

/-! ### Server -/

def skeN (c : Cfg) (h : Hello) : Bool := skeRequired h || (skeOptional h && c.pskHint)
def crN (c : Cfg) (h : Hello) : Bool :=
  certAuth h && (c.isSupportClientVerify || (h.ver == .tlcp && h.kx == .ecdhe))
def crN13 (c : Cfg) (h : Hello) : Bool :=
  !h.psk && (c.isSupportClientVerify && !(h.pha && c.isSupportPostHandshakeAuth))

def a1 (h : Hello) : List Item := [.rx (.clientHello h), .tx .serverHello]
def a2 (h : Hello) : List Item := a1 h ++ opt (certAuth h) [.tx (.certificate false)]
def a3 (c : Cfg) (h : Hello) : List Item := a2 h ++ opt (skeN c h) [.tx .serverKeyExchange]
def a4 (c : Cfg) (h : Hello) : List Item := a3 c h ++ opt (crN c h) [.tx .certificateRequest]
def a5 (c : Cfg) (h : Hello) : List Item := a4 c h ++ [.tx .serverHelloDone]
def a6 (c : Cfg) (h : Hello) (e ok : Bool) : List Item :=
  a5 c h ++ opt (crN c h) [.rx (.certificate e ok)]
def a7 (c : Cfg) (h : Hello) (e ok : Bool) : List Item := a6 c h e ok ++ [.rx .clientKeyExchange]
def a8 (c : Cfg) (h : Hello) (e ok : Bool) : List Item :=
  a7 c h e ok ++ opt (crN c h && !e) [.rx (.certificateVerify true)]
def a9 (c : Cfg) (h : Hello) (e ok : Bool) : List Item := a8 c h e ok ++ [.rx (.finished true)]

def b1 (start : List Item) (h : Hello) : List Item :=
  start ++ [.rx (.clientHello h), .tx .serverHello, .tx .encryptedExtensions]
def b2 (c : Cfg) (start : List Item) (h : Hello) : List Item :=
  b1 start h ++ opt (crN13 c h) [.tx .certificateRequest]
def b3 (c : Cfg) (start : List Item) (h : Hello) : List Item :=
  b2 c start h ++ opt (!h.psk) [.tx (.certificate false), .tx .certificateVerify]
def b5 (c : Cfg) (start : List Item) (h : Hello) (e ok : Bool) : List Item :=
  b3 c start h ++ [.tx .finished] ++ opt (crN13 c h) [.rx (.certificate e ok)]
def b6 (c : Cfg) (start : List Item) (h : Hello) (e ok : Bool) : List Item :=
  b5 c start h e ok ++ opt (crN13 c h && !e) [.rx (.certificateVerify true)]

def retryL (h0 : Hello) : List Item := [.rx (.clientHello h0), .tx .helloRetryRequest]

def SStart (start : List Item) : Prop :=
  start = [] ∨ ∃ h0 : Hello, h0.ver = .tls13 ∧ start = [.rx (.clientHello h0), .tx .helloRetryRequest]

/-- Nothing about the client certificate has happened yet. -/
def fresh (s : S) : Prop := s.isNeedClientCert = false ∧ s.peerCert = false

def s13 (c : Cfg) (s : S) (h : Hello) (start : List Item) : Prop :=
  s.ver = .tls13 ∧ h.ver = .tls13 ∧ s.psk = h.psk ∧ h.hrr = false ∧ SStart start ∧
    s.phaExt = (c.isSupportClientVerify && h.pha)

def s12 (s : S) (h : Hello) : Prop := neg s h ∧ h.resume = false

/-- Invariant of the server. -/
def SInv (c : Cfg) (s : S) (log : List Item) : Prop :=
  match s.st with
  | .rClientHello => fresh s ∧ s.sentTickets = 0 ∧
      ((s.haveHrr = false ∧ ∀ v, core v log = []) ∨
       (s.haveHrr = true ∧ s.ver = .tls13 ∧ ∃ h0 : Hello, h0.ver = .tls13 ∧
          core .tls13 log = retryL h0))
  | .sHelloRetryRequest => fresh s ∧ s.sentTickets = 0 ∧ s.ver = .tls13 ∧
      ∃ h0 : Hello, h0.ver = .tls13 ∧ core .tls13 log = [.rx (.clientHello h0)]
  | .sServerHello => fresh s ∧
      ((∃ h, neg s h ∧ core h.ver log = [.rx (.clientHello h)]) ∨
       (∃ h start, s13 c s h start ∧ s.sentTickets = 0 ∧
          core h.ver log = start ++ [.rx (.clientHello h)]))
  | .sEncryptedExtensions => fresh s ∧ ∃ h start, s13 c s h start ∧ s.sentTickets = 0 ∧
      core h.ver log = start ++ [.rx (.clientHello h), .tx .serverHello]
  | .sCertificateRequest => s.peerCert = false ∧
      ((∃ h, s12 s h ∧ crN c h = true ∧ core h.ver log = a3 c h) ∨
       (∃ h start, s13 c s h start ∧ s.sentTickets = 0 ∧ crN13 c h = true ∧ h.psk = false ∧
          core h.ver log = b1 start h))
  | .sCertificate =>
      (fresh s ∧ ∃ h, s12 s h ∧ certAuth h = true ∧ core h.ver log = a1 h) ∨
      (s.peerCert = false ∧ ∃ h start, s13 c s h start ∧ s.sentTickets = 0 ∧ h.psk = false ∧
        s.isNeedClientCert = crN13 c h ∧ core h.ver log = b2 c start h)
  | .sServerKeyExchange => fresh s ∧ ∃ h, s12 s h ∧ skeN c h = true ∧
      (certAuth h = true → c.haveCert = true) ∧ core h.ver log = a2 h
  | .sServerHelloDone => s.peerCert = false ∧ ∃ h, s12 s h ∧ s.isNeedClientCert = crN c h ∧
      core h.ver log = a4 c h
  | .sCertificateVerify => s.peerCert = false ∧ ∃ h start, s13 c s h start ∧ s.sentTickets = 0 ∧
      h.psk = false ∧ s.isNeedClientCert = crN13 c h ∧
      core h.ver log = b2 c start h ++ [.tx (.certificate false)]
  | .rCertificate => s.peerCert = false ∧
      ((∃ h, s12 s h ∧ s.isNeedClientCert = true ∧ crN c h = true ∧ core h.ver log = a5 c h) ∨
       (∃ h start, s13 c s h start ∧ s.sentTickets = 0 ∧ crN13 c h = true ∧
          core h.ver log = b3 c start h ++ [.tx .finished]))
  | .rClientKeyExchange => ∃ h e ok, s12 s h ∧ (crN c h = true → ClientCertOk c e ok) ∧
      s.isNeedClientCert = crN c h ∧ s.peerCert = (crN c h && !e) ∧ core h.ver log = a6 c h e ok
  | .rCertificateVerify =>
      (∃ h e ok, s12 s h ∧ (crN c h = true → ClientCertOk c e ok) ∧ (crN c h && !e) = true ∧
        core h.ver log = a7 c h e ok) ∨
      (∃ h start e ok, s13 c s h start ∧ s.sentTickets = 0 ∧ (crN13 c h = true → ClientCertOk c e ok) ∧
        (crN13 c h && !e) = true ∧ core h.ver log = b5 c start h e ok)
  | .rFinish =>
      (∃ h e ok, s12 s h ∧ (crN c h = true → ClientCertOk c e ok) ∧ core h.ver log = a8 c h e ok) ∨
      (∃ h, neg s h ∧ h.resume = true ∧
        core h.ver log = a1 h ++ opt h.ticket [.tx .newSessionTicket] ++ [.tx .ccs, .tx .finished]) ∨
      (∃ h start e ok, s13 c s h start ∧ s.sentTickets = 0 ∧ (crN13 c h = true → ClientCertOk c e ok) ∧
        core h.ver log = b6 c start h e ok)
  | .sNewSessionTicket =>
      (∃ h e ok, s12 s h ∧ (crN c h = true → ClientCertOk c e ok) ∧ h.ticket = true ∧
        core h.ver log = a9 c h e ok) ∨
      (∃ h, neg s h ∧ h.resume = true ∧ h.ticket = true ∧ core h.ver log = a1 h) ∨
      (∃ h start e ok n, s13 c s h start ∧ (crN13 c h = true → ClientCertOk c e ok) ∧
        s.sentTickets = n ∧ n < c.ticketNums ∧
        core h.ver log = b6 c start h e ok ++ [.rx (.finished true)]
          ++ List.replicate n (.tx .newSessionTicket))
  | .sChangeCipherSpec =>
      (∃ h e ok, s12 s h ∧ (crN c h = true → ClientCertOk c e ok) ∧
        core h.ver log = a9 c h e ok ++ opt h.ticket [.tx .newSessionTicket]) ∨
      (∃ h, neg s h ∧ h.resume = true ∧
        core h.ver log = a1 h ++ opt h.ticket [.tx .newSessionTicket]) ∨
      (s.ver = .tls13 ∧ s.ccsNext = .rClientHello ∧ fresh s ∧ s.sentTickets = 0 ∧
        s.haveHrr = true ∧ ∃ h0 : Hello, h0.ver = .tls13 ∧ core .tls13 log = retryL h0) ∨
      (s.ccsNext = .sEncryptedExtensions ∧ fresh s ∧ ∃ h start, s13 c s h start ∧ s.sentTickets = 0 ∧
        core h.ver log = start ++ [.rx (.clientHello h), .tx .serverHello])
  | .sFinish =>
      (∃ h e ok, s12 s h ∧ (crN c h = true → ClientCertOk c e ok) ∧
        core h.ver log = a9 c h e ok ++ opt h.ticket [.tx .newSessionTicket] ++ [.tx .ccs]) ∨
      (∃ h, neg s h ∧ h.resume = true ∧
        core h.ver log = a1 h ++ opt h.ticket [.tx .newSessionTicket] ++ [.tx .ccs]) ∨
      (s.peerCert = false ∧ ∃ h start, s13 c s h start ∧ s.sentTickets = 0 ∧
        s.isNeedClientCert = crN13 c h ∧ core h.ver log = b3 c start h)
  | .connected => ∃ h, Server c h log
  | _ => False

theorem sinv_init (c : Cfg) (hc : c.isClient = false) : SInv c (init c) [] := by
  simp [init, hc, SInv, fresh]

theorem server_congr {c : Cfg} {h : Hello} {log log' : List Item}
    (e : core h.ver log' = core h.ver log) (x : Server c h log) : Server c h log' := by
  cases x with
  | full12 hv hr f => exact .full12 hv hr (by rw [e]; exact f)
  | resume12 hv hr f => exact .resume12 hv hr (by rw [e]; exact f)
  | tls13 hv f => exact .tls13 hv (by rw [e]; exact f)

theorem sinv_core {c : Cfg} {s : S} {log log' : List Item} (h : SInv c s log)
    (e : ∀ v, core v log' = core v log) : SInv c s log' := by
  unfold SInv at h ⊢
  simp only [e]
  cases hst : s.st <;> simp only [hst] at h ⊢ <;> first | exact h | skip
  obtain ⟨h0, hh⟩ := h
  exact ⟨h0, server_congr (e _) hh⟩

theorem sinv_jump {c : Cfg} {s : S} {m : Msg} {st : St} {log : List Item} (hi : SInv c s log)
    (h : checkCb s m = some st) : False := by
  unfold checkCb at h
  unfold SInv at hi
  split at h <;> first | (cases h; done) | (rename_i heq; rw [heq] at hi; exact hi)

theorem sinv_hello {c : Cfg} {s s' : S} {hh : Hello} {log : List Item} (hi : SInv c s log)
    (hst : s.st = .rClientHello) (hsu : suiteOk hh = true)
    (h : serverClientHello c s hh = some s') : SInv c s' (log ++ [.rx (.clientHello hh)]) := by
  unfold SInv at hi
  rw [hst] at hi
  obtain ⟨hfr, htn, hcore⟩ := hi
  unfold serverClientHello at h
  split at h
  · cases h
  · split at h
    · cases h
    · rename_i hkeep
      split at h
      · rename_i hv
        simp only [beq_iff_eq] at hv
        dsimp only at h
        split at h
        · rename_i hr
          split at h
          · cases h
          · rename_i hr'
            cases h
            refine ⟨hfr, htn, rfl, hh, hv, ?_⟩
            rcases hcore with ⟨-, hcore⟩ | ⟨hx, -⟩
            · rw [core_rx _ _ _ (by simp), hcore]; rfl
            · exact absurd hx hr'
        · rename_i hr
          have hr' : hh.hrr = false := by simpa using hr
          cases h
          refine ⟨hfr, .inr ?_⟩
          rcases hcore with ⟨-, hcore⟩ | ⟨-, -, h0, h0v, hcore⟩
          · refine ⟨hh, [], ⟨rfl, hv, rfl, hr', .inl rfl, rfl⟩, htn, ?_⟩
            rw [core_rx _ _ _ (by simp), hcore]
          · refine ⟨hh, retryL h0, ⟨rfl, hv, rfl, hr', .inr ⟨h0, h0v, rfl⟩, rfl⟩, htn, ?_⟩
            rw [core_rx _ _ _ (by simp), hv, hcore]
      · rename_i hv
        simp only [beq_iff_eq] at hv
        cases h
        refine ⟨hfr, .inl ⟨hh, ⟨rfl, hv, rfl, rfl, rfl, rfl, rfl, hsu⟩, ?_⟩⟩
        rcases hcore with ⟨-, hcore⟩ | ⟨hx, hvv, -⟩
        · rw [core_rx _ _ _ (by simp), hcore]; rfl
        · simp [hx, hvv, hv] at hkeep

theorem sinv_process {c : Cfg} {s s' : S} {m : Msg} {log : List Item} (hc : c.isClient = false)
    (hi : SInv c s log) (h : process c s m = some s') : SInv c s' (log ++ [.rx m]) := by
  unfold process at h
  split at h
  · rename_i hst
    split at h
    · cases h
    · rename_i hsu
      exact sinv_hello hi hst (by simpa [hc] using hsu) h
  · rw [if_pos (by simp [hc])] at h; cases h
  · rename_i hst; unfold SInv at hi; rw [hst] at hi; exact hi.elim
  · -- Certificate
    rename_i e ok hst
    unfold SInv at hi
    rw [hst] at hi
    obtain ⟨hpc, hi⟩ := hi
    rcases hi with ⟨hh, h12, hn, hcr, hcore⟩ | ⟨hh, start, h13, htn, hcr, hcore⟩
    · rw [if_neg (by rw [h12.1.1]; simpa using h12.1.2.1)] at h
      have hcore' : core hh.ver (log ++ [.rx (.certificate e ok)]) = a6 c hh e ok := by
        rw [core_rx _ _ _ (by simp), hcore]; simp [a6, opt, hcr]
      unfold recvCertificate12 at h
      split at h
      · rename_i he
        subst he
        split at h
        · rename_i hno
          cases h
          simp only [hc, Bool.not_false, Bool.true_and, Bool.and_eq_true] at hno
          exact ⟨hh, true, ok, h12, fun _ => by simp [ClientCertOk, hno], hn.trans hcr.symm,
            by simpa using hpc, hcore'⟩
        · cases h
      · rename_i he
        simp only [Bool.not_eq_true] at he
        subst he
        dsimp only at h
        simp only [hc, Bool.false_eq_true, if_false] at h
        split at h
        · cases h
        · rename_i hok
          have hok' : ok = true ∨ c.isSupportVerifyNone = true := by
            revert hok; cases ok <;> simp
          cases h
          exact ⟨hh, false, ok, h12, fun _ => by simpa [ClientCertOk] using hok',
            hn.trans hcr.symm, by simp [hcr], hcore'⟩
    · rw [if_pos (by simp [h13.1])] at h
      have hcore' : core hh.ver (log ++ [.rx (.certificate e ok)]) = b5 c start hh e ok := by
        rw [core_rx _ _ _ (by simp), hcore]; simp [b5, opt, hcr]
      unfold recvCertificate13 at h
      split at h
      · rename_i he
        subst he
        rw [if_neg (by simp [hc])] at h
        split at h
        · rename_i hno
          cases h
          simp only [Bool.and_eq_true] at hno
          refine .inr (.inr ⟨hh, start, true, ok, h13, htn, fun _ => by simp [ClientCertOk, hno], ?_⟩)
          rw [hcore']; simp [b6, opt]
        · cases h
      · rename_i he
        simp only [Bool.not_eq_true] at he
        subst he
        dsimp only at h
        split at h
        · cases h
        · rename_i hok
          have hok' : ok = true ∨ c.isSupportVerifyNone = true := by
            revert hok; cases ok <;> simp
          cases h
          exact .inr ⟨hh, start, false, ok, h13, htn, fun _ => by simpa [ClientCertOk] using hok',
            by simp [hcr], hcore'⟩
  · rename_i hst; unfold SInv at hi; rw [hst] at hi; exact hi.elim
  · rename_i hst; unfold SInv at hi; rw [hst] at hi; exact hi.elim
  · rename_i hst; unfold SInv at hi; rw [hst] at hi; exact hi.elim
  · -- ClientKeyExchange
    rename_i hst
    unfold SInv at hi
    rw [hst] at hi
    obtain ⟨hh, e, ok, h12, hcc, hn, hpc, hcore⟩ := hi
    have hcore' : core hh.ver (log ++ [.rx .clientKeyExchange]) = a7 c hh e ok := by
      rw [core_rx _ _ _ (by simp), hcore]; rfl
    split at h
    · cases h
    · split at h
      · rename_i hb
        cases h
        simp only [Bool.and_eq_true] at hb
        exact .inl ⟨hh, e, ok, h12, hcc, hpc ▸ hb.2, hcore'⟩
      · rename_i hb
        cases h
        refine .inl ⟨hh, e, ok, h12, hcc, ?_⟩
        rw [hcore', a8]
        rw [hn, hpc] at hb
        have : (crN c hh && !e) = false := by
          revert hb; cases crN c hh <;> cases e <;> simp
        simp [this, opt]
  · -- CertificateVerify
    rename_i sigOk hst
    unfold SInv at hi
    rw [hst] at hi
    split at h
    · cases h
    · rename_i hsg
      have hsg' : sigOk = true := by
        revert hsg; cases sigOk <;> simp
      subst hsg'
      rcases hi with ⟨hh, e, ok, h12, hcc, hb, hcore⟩ | ⟨hh, start, e, ok, h13, htn, hcc, hb, hcore⟩
      · rw [if_neg (by rw [h12.1.1]; simpa using h12.1.2.1)] at h
        cases h
        refine .inl ⟨hh, e, ok, h12, hcc, ?_⟩
        rw [core_rx _ _ _ (by simp), hcore, a8, hb]; rfl
      · rw [if_pos (by simp [h13.1])] at h
        cases h
        refine .inr (.inr ⟨hh, start, e, ok, h13, htn, hcc, ?_⟩)
        rw [core_rx _ _ _ (by simp), hcore, b6, hb]; rfl
  · rename_i hst; unfold SInv at hi; rw [hst] at hi; exact hi.elim
  · -- Finished
    rename_i macOk hst
    have hmac : macOk = true := by
      cases macOk
      · simp [recvFinished] at h
      · rfl
    subst hmac
    simp only [recvFinished, hc, if_false, Bool.not_true, Bool.false_eq_true,
      Option.map_some] at h
    unfold SInv at hi
    rw [hst] at hi
    rcases hi with ⟨hh, e, ok, h12, hcc, hcore⟩ | ⟨hh, hng, hr, hcore⟩ |
      ⟨hh, start, e, ok, h13, htn, hcc, hcore⟩
    · rw [if_neg (by rw [h12.1.1]; simpa using h12.1.2.1)] at h
      rw [if_neg (by rw [h12.1.2.2.2.2.2.1, h12.2]; simp)] at h
      have hcore' : core hh.ver (log ++ [.rx (.finished true)]) = a9 c hh e ok := by
        rw [core_rx _ _ _ (by simp), hcore]; rfl
      split at h
      · rename_i ht
        cases h
        exact .inl ⟨hh, e, ok, h12, hcc, h12.1.2.2.2.2.2.2.1 ▸ ht, hcore'⟩
      · rename_i ht
        cases h
        have ht' : hh.ticket = false := by rw [← h12.1.2.2.2.2.2.2.1]; simpa using ht
        refine .inl ⟨hh, e, ok, h12, hcc, ?_⟩
        rw [hcore', ht']; simp [opt]
    · rw [if_neg (by rw [hng.1]; simpa using hng.2.1)] at h
      rw [if_pos (by rw [hng.2.2.2.2.2.1, hr])] at h
      cases h
      refine ⟨hh, .resume12 hng.2.1 hr ⟨?_⟩⟩
      rw [core_rx _ _ _ (by simp), hcore]
      simp [a1]
    · rw [if_pos (by simp [h13.1])] at h
      have hcore' := core_rx hh.ver log (.finished true) (by simp)
      rw [hcore] at hcore'
      split at h
      · rename_i hlt
        cases h
        have hlt' : s.sentTickets < c.ticketNums := hlt
        refine .inr (.inr ⟨hh, start, e, ok, 0, h13, hcc, htn, by omega, ?_⟩)
        rw [hcore']; simp
      · cases h
        refine ⟨hh, .tls13 h13.2.1 ⟨start, crN13 c hh, e, ok, 0, h13.2.2.2.2.1, h13.2.2.2.1, rfl,
          hcc, Nat.zero_le _, ?_⟩⟩
        rw [hcore']
        simp [b6, b5, b3, b2, b1]
  · cases h

theorem sinv_tx {c : Cfg} {s s' : S} {out log : List Item} (hc : c.isClient = false)
    (hi : SInv c s log) (h : tx c s = some (s', out)) : SInv c s' (log ++ out) := by
  unfold tx at h
  split at h
  · rw [if_pos (by simp [hc])] at h; cases h
  · -- HelloRetryRequest
    rename_i hst
    unfold SInv at hi
    rw [hst] at hi
    obtain ⟨hfr, htn, hv, h0, h0v, hcore⟩ := hi
    have hcore' : core .tls13 (log ++ [.tx .helloRetryRequest]) = retryL h0 := by
      rw [core_tx _ _ _ (by simp), hcore]; rfl
    dsimp only at h
    split at h
    · cases h
      exact .inr (.inr (.inl ⟨hv, rfl, hfr, htn, rfl, h0, h0v, hcore'⟩))
    · cases h
      exact ⟨hfr, htn, .inr ⟨rfl, hv, h0, h0v, hcore'⟩⟩
  · -- ServerHello
    rename_i hst
    unfold SInv at hi
    rw [hst] at hi
    obtain ⟨hfr, hi⟩ := hi
    rcases hi with ⟨hh, hng, hcore⟩ | ⟨hh, start, h13, htn, hcore⟩
    · rw [if_neg (by rw [hng.1]; simpa using hng.2.1)] at h
      cases h
      have hcore' : core hh.ver (log ++ [.tx .serverHello]) = a1 hh := by
        rw [core_tx _ _ _ (by simp), hcore]; rfl
      unfold afterServerHello
      split
      · rename_i hr
        have hr' : hh.resume = true := hng.2.2.2.2.2.1 ▸ hr
        split
        · rename_i ht
          exact .inr (.inl ⟨hh, hng, hr', hng.2.2.2.2.2.2.1 ▸ ht, hcore'⟩)
        · rename_i ht
          have ht' : hh.ticket = false := by rw [← hng.2.2.2.2.2.2.1]; simpa using ht
          refine .inr (.inl ⟨hh, hng, hr', ?_⟩)
          rw [hcore', ht']; simp [opt]
      · rename_i hr
        have hr' : hh.resume = false := by rw [← hng.2.2.2.2.2.1]; simpa using hr
        have hkx := hng.2.2.1
        have han := hng.2.2.2.1
        have hsu := hng.2.2.2.2.2.2.2
        have hvb : (hh.ver == Ver.tls13) = false := by simpa using hng.2.1
        simp only [suiteOk, hvb, Bool.false_or, Bool.and_eq_true] at hsu
        split
        · rename_i hcp
          simp only [isNeedCertPrepare, hkx, han] at hcp
          have hca : certAuth hh = false := by
            unfold certAuth
            revert hcp
            cases hh.kx <;> cases hh.anon <;> simp
          have ha2 : a2 hh = a1 hh := by simp [a2, hca, opt]
          split
          · rename_i hk
            rw [hkx] at hk
            simp only [beq_iff_eq] at hk
            split
            · rename_i hhint
              exact ⟨hfr, hh, ⟨hng, hr'⟩, by simp [skeN, skeOptional, hk, hhint], by simp [hca],
                by rw [hcore', ha2]⟩
            · rename_i hhint
              refine ⟨hfr.2, hh, ⟨hng, hr'⟩, ?_, ?_⟩
              · simp only [crN, hca, Bool.false_and]; exact hfr.1
              · rw [hcore', a4, a3, ha2]
                simp [skeN, skeOptional, skeRequired, hk, hhint, crN, hca, opt]
          · rename_i hk
            rw [hkx] at hk
            refine ⟨hfr, hh, ⟨hng, hr'⟩, ?_, by simp [hca], by rw [hcore', ha2]⟩
            have h2 := hsu.1.2
            unfold skeN skeRequired skeOptional
            revert hcp h2 hk
            cases hh.kx <;> cases hh.anon <;> simp
        · rename_i hcp
          simp only [isNeedCertPrepare, hkx, han] at hcp
          refine .inl ⟨hfr, hh, ⟨hng, hr'⟩, ?_, hcore'⟩
          unfold certAuth
          revert hcp
          cases hh.kx <;> cases hh.anon <;> simp
    · rw [if_pos (by simp [h13.1])] at h
      have hcore' : core hh.ver (log ++ [.tx .serverHello]) =
          start ++ [.rx (.clientHello hh), .tx .serverHello] := by
        rw [core_tx _ _ _ (by simp), hcore]; simp
      split at h
      · cases h
        exact .inr (.inr (.inr ⟨rfl, hfr, hh, start, h13, htn, hcore'⟩))
      · cases h
        exact ⟨hfr, hh, start, h13, htn, hcore'⟩
  · -- EncryptedExtensions
    rename_i hst
    unfold SInv at hi
    rw [hst] at hi
    obtain ⟨hfr, hh, start, h13, htn, hcore⟩ := hi
    have hcore' : core hh.ver (log ++ [.tx .encryptedExtensions]) = b1 start hh := by
      rw [core_tx _ _ _ (by simp), hcore]; simp [b1]
    have hpsk := h13.2.2.1
    have hpha := h13.2.2.2.2.2
    split at h
    · rename_i hp
      cases h
      have hp' : hh.psk = true := hpsk ▸ hp
      have hcr : crN13 c hh = false := by simp [crN13, hp']
      refine .inr (.inr ⟨hfr.2, hh, start, h13, htn, hcr ▸ hfr.1, ?_⟩)
      rw [hcore', b3, b2]; simp [hp', hcr, opt]
    · rename_i hp
      have hp' : hh.psk = false := by rw [← hpsk]; simpa using hp
      split at h
      · rename_i hcv
        cases h
        refine ⟨hfr.2, .inr ⟨hh, start, h13, htn, ?_, hp', hcore'⟩⟩
        rw [hpha] at hcv
        unfold crN13
        rw [hp']
        revert hcv
        cases c.isSupportClientVerify <;> cases hh.pha <;> cases c.isSupportPostHandshakeAuth <;> simp
      · rename_i hcv
        cases h
        have hcr : crN13 c hh = false := by
          rw [hpha] at hcv
          unfold crN13
          rw [hp']
          revert hcv
          cases c.isSupportClientVerify <;> cases hh.pha <;> cases c.isSupportPostHandshakeAuth <;> simp
        refine .inr ⟨hfr.2, hh, start, h13, htn, hp', hcr ▸ hfr.1, ?_⟩
        rw [hcore', b2, hcr]; simp [opt]
  · -- CertificateRequest
    rename_i hst
    unfold SInv at hi
    rw [hst] at hi
    obtain ⟨hpc, hi⟩ := hi
    dsimp only at h
    rcases hi with ⟨hh, h12, hcr, hcore⟩ | ⟨hh, start, h13, htn, hcr, hp, hcore⟩
    · rw [if_neg (by rw [h12.1.1]; simpa using h12.1.2.1)] at h
      cases h
      refine ⟨hpc, hh, h12, hcr.symm, ?_⟩
      rw [core_tx _ _ _ (by simp), hcore, a4, hcr]; rfl
    · rw [if_pos (by simp [h13.1])] at h
      cases h
      refine .inr ⟨hpc, hh, start, h13, htn, hp, hcr.symm, ?_⟩
      rw [core_tx _ _ _ (by simp), hcore, b2, hcr]; rfl
  · -- Certificate
    rename_i hst
    unfold SInv at hi
    rw [hst] at hi
    rw [if_neg (by simp [hc])] at h
    split at h
    · cases h
    · rename_i hcert
      have hcert' : c.haveCert = true := by simpa using hcert
      rcases hi with ⟨hfr, hh, h12, hca, hcore⟩ | ⟨hpc, hh, start, h13, htn, hp, hn, hcore⟩
      · rw [if_neg (by rw [h12.1.1]; simpa using h12.1.2.1)] at h
        have hcore' : core hh.ver (log ++ [.tx (.certificate false)]) = a2 hh := by
          rw [core_tx _ _ _ (by simp), hcore, a2, hca]; rfl
        have hkx := h12.1.2.2.1
        have hv := h12.1.1
        have hsu := h12.1.2.2.2.2.2.2.2
        have hvn := h12.1.2.1
        have hske : isNeedServerKeyExchange c s = skeN c hh := by
          simp only [isNeedServerKeyExchange, hc, hkx, hv]
          unfold skeN skeRequired skeOptional
          unfold suiteOk at hsu
          revert hsu hvn
          cases hh.kx <;> cases hh.ver <;> cases c.pskHint <;> simp
        split at h
        · rename_i hs
          cases h
          exact ⟨hfr, hh, h12, hske ▸ hs, fun _ => hcert', hcore'⟩
        · rename_i hs
          have hs' : skeN c hh = false := by rw [← hske]; simpa using hs
          have hx : ¬ (hh.ver = .tlcp ∧ hh.kx = .ecdhe) := by
            rintro ⟨-, hk⟩
            simp [skeN, skeRequired, hk] at hs'
          have hx' : (hh.ver == Ver.tlcp && hh.kx == Kx.ecdhe) = false := by
            simpa using hx
          split at h
          · rename_i hcv
            cases h
            refine ⟨hfr.2, .inl ⟨hh, h12, by simp [crN, hca, hcv], ?_⟩⟩
            rw [hcore', a3, hs']; simp [opt]
          · rename_i hcv
            cases h
            have hcr : crN c hh = false := by simp only [crN, hx']; simp [hcv]
            refine ⟨hfr.2, hh, h12, hcr ▸ hfr.1, ?_⟩
            rw [hcore', a4, a3, hs', hcr]; simp [opt]
      · rw [if_pos (by simp [h13.1])] at h
        cases h
        refine ⟨hpc, hh, start, h13, htn, hp, hn, ?_⟩
        rw [core_tx _ _ _ (by simp), hcore]
  · -- ServerKeyExchange
    rename_i hst
    unfold SInv at hi
    rw [hst] at hi
    obtain ⟨hfr, hh, h12, hs, hcert, hcore⟩ := hi
    have hcore' : core hh.ver (log ++ [.tx .serverKeyExchange]) = a3 c hh := by
      rw [core_tx _ _ _ (by simp), hcore, a3, hs]; rfl
    have hkx := h12.1.2.2.1
    have han := h12.1.2.2.2.1
    have hap := h12.1.2.2.2.2.1
    have hv := h12.1.1
    have hsu := h12.1.2.2.2.2.2.2.2
    have hvb : (hh.ver == Ver.tls13) = false := by simpa using h12.1.2.1
    simp only [suiteOk, hvb, Bool.false_or, Bool.and_eq_true, beq_iff_eq] at hsu
    have hca : certAuth hh = (!hh.anon && !hh.authPsk) := by
      rw [hsu.1.1]
      unfold certAuth
      cases hh.kx <;> cases hh.anon <;> rfl
    split at h
    · rename_i hb
      cases h
      simp only [Bool.and_eq_true, han, hap] at hb
      refine ⟨hfr.2, .inl ⟨hh, h12, ?_, hcore'⟩⟩
      rw [crN, hca, hb.1.1.1, hb.1.1.2, hb.1.2]; rfl
    · rename_i hb
      rw [han, hap, ← hca] at hb
      split at h
      · rename_i ht
        cases h
        rw [hv, hkx] at ht
        have hca' : certAuth hh = true := by
          have h3 := hsu.2
          simp only [Bool.and_eq_true, beq_iff_eq] at ht
          rw [if_pos ht.1] at h3
          simp only [Bool.and_eq_true] at h3
          simp [certAuth, ht.2]
          simpa using h3.2
        refine ⟨hfr.2, .inl ⟨hh, h12, ?_, hcore'⟩⟩
        rw [crN, hca', ht]; simp
      · rename_i ht
        cases h
        rw [hv, hkx] at ht
        have hcr : crN c hh = false := by
          unfold crN
          simp only [Bool.not_eq_true] at ht
          rw [ht]
          revert hb hcert
          cases certAuth hh <;> cases c.isSupportClientVerify <;> cases c.haveCert <;> simp
        refine ⟨hfr.2, hh, h12, hcr ▸ hfr.1, ?_⟩
        rw [hcore', a4, hcr]; simp [opt]
  · -- ServerHelloDone
    rename_i hst
    unfold SInv at hi
    rw [hst] at hi
    obtain ⟨hpc, hh, h12, hn, hcore⟩ := hi
    have hcore' : core hh.ver (log ++ [.tx .serverHelloDone]) = a5 c hh := by
      rw [core_tx _ _ _ (by simp), hcore]; rfl
    split at h
    · rename_i hb
      cases h
      exact ⟨hpc, .inl ⟨hh, h12, hb, hn ▸ hb, hcore'⟩⟩
    · rename_i hb
      cases h
      have hcr : crN c hh = false := by rw [← hn]; simpa using hb
      refine ⟨hh, true, true, h12, by simp [hcr], hn, ?_, ?_⟩
      · simpa [hcr] using hpc
      · rw [hcore', a6, hcr]; simp [opt]
  · rename_i hst; unfold SInv at hi; rw [hst] at hi; exact hi.elim
  · -- CertificateVerify
    rename_i hst
    unfold SInv at hi
    rw [hst] at hi
    obtain ⟨hpc, hh, start, h13, htn, hp, hn, hcore⟩ := hi
    rw [if_pos (by simp [h13.1])] at h
    cases h
    refine .inr (.inr ⟨hpc, hh, start, h13, htn, hn, ?_⟩)
    rw [core_tx _ _ _ (by simp), hcore, b3, hp]; simp [opt]
  · -- NewSessionTicket
    rename_i hst
    unfold SInv at hi
    rw [hst] at hi
    rcases hi with ⟨hh, e, ok, h12, hcc, ht, hcore⟩ | ⟨hh, hng, hr, ht, hcore⟩ |
      ⟨hh, start, e, ok, n, h13, hcc, hn, hlt, hcore⟩
    · rw [if_neg (by rw [h12.1.1]; simpa using h12.1.2.1)] at h
      cases h
      refine .inl ⟨hh, e, ok, h12, hcc, ?_⟩
      rw [core_tx _ _ _ (by simp), hcore, ht]; rfl
    · rw [if_neg (by rw [hng.1]; simpa using hng.2.1)] at h
      cases h
      refine .inr (.inl ⟨hh, hng, hr, ?_⟩)
      rw [core_tx _ _ _ (by simp), hcore, ht]; rfl
    · rw [if_pos (by simp [h13.1])] at h
      have hcore' : core hh.ver (log ++ [.tx .newSessionTicket]) =
          b6 c start hh e ok ++ [.rx (.finished true)]
          ++ List.replicate (n + 1) (.tx .newSessionTicket) := by
        rw [core_tx _ _ _ (by simp), hcore, List.replicate_succ']; simp
      dsimp only at h
      split at h
      · cases h
        refine ⟨hh, .tls13 h13.2.1 ⟨start, crN13 c hh, e, ok, n + 1, h13.2.2.2.2.1, h13.2.2.2.1, rfl,
          hcc, hlt, ?_⟩⟩
        rw [hcore']
        simp [b6, b5, b3, b2, b1]
      · rename_i hb
        cases h
        simp only [Bool.or_eq_true, decide_eq_true_eq, not_or] at hb
        refine .inr (.inr ⟨hh, start, e, ok, n + 1, h13, hcc, by rw [hn], by omega, hcore'⟩)
  · -- ChangeCipherSpec
    rename_i hst
    unfold SInv at hi
    rw [hst] at hi
    rcases hi with ⟨hh, e, ok, h12, hcc, hcore⟩ | ⟨hh, hng, hr, hcore⟩ |
      ⟨hv, hnx, hfr, htn, hhr, h0, h0v, hcore⟩ | ⟨hnx, hfr, hh, start, h13, htn, hcore⟩
    · rw [if_neg (by rw [h12.1.1]; simpa using h12.1.2.1)] at h
      cases h
      refine .inl ⟨hh, e, ok, h12, hcc, ?_⟩
      rw [core_tx_ccs _ _ h12.1.2.1, hcore]
    · rw [if_neg (by rw [hng.1]; simpa using hng.2.1)] at h
      cases h
      refine .inr (.inl ⟨hh, hng, hr, ?_⟩)
      rw [core_tx_ccs _ _ hng.2.1, hcore]
    · rw [if_pos (by simp [hv]), hnx] at h
      cases h
      refine ⟨hfr, htn, .inr ⟨hhr, hv, h0, h0v, ?_⟩⟩
      rw [core_tx_ccs13, List.append_nil, hcore]
    · rw [if_pos (by simp [h13.1]), hnx] at h
      cases h
      refine ⟨hfr, hh, start, h13, htn, ?_⟩
      rw [h13.2.1] at hcore ⊢
      rw [core_tx_ccs13, List.append_nil, hcore]
  · -- Finished
    rename_i hst
    unfold SInv at hi
    rw [hst] at hi
    rcases hi with ⟨hh, e, ok, h12, hcc, hcore⟩ | ⟨hh, hng, hr, hcore⟩ |
      ⟨hpc, hh, start, h13, htn, hn, hcore⟩
    · rw [if_neg (by rw [h12.1.1]; simpa using h12.1.2.1), if_neg (by simp [hc]),
        if_neg (by rw [h12.1.2.2.2.2.2.1, h12.2]; simp)] at h
      cases h
      refine ⟨hh, .full12 h12.1.2.1 h12.2 ⟨skeN c hh, crN c hh, e, ok, rfl, rfl, hcc, ?_⟩⟩
      rw [core_tx _ _ _ (by simp), hcore]
      simp [a9, a8, a7, a6, a5, a4, a3, a2, a1]
    · rw [if_neg (by rw [hng.1]; simpa using hng.2.1), if_neg (by simp [hc]),
        if_pos (by rw [hng.2.2.2.2.2.1, hr])] at h
      cases h
      refine .inr (.inl ⟨hh, hng, hr, ?_⟩)
      rw [core_tx _ _ _ (by simp), hcore]; simp
    · rw [if_pos (by simp [h13.1]), if_neg (by simp [hc])] at h
      cases h
      have hcore' := core_tx hh.ver log .finished (by simp)
      rw [hcore] at hcore'
      cases hcr : crN13 c hh with
      | true =>
        rw [hcr] at hn
        simp only [hn, if_true]
        exact ⟨hpc, .inr ⟨hh, start, h13, htn, hcr, hcore'⟩⟩
      | false =>
        rw [hcr] at hn
        simp only [hn, Bool.false_eq_true, if_false]
        refine .inr (.inr ⟨hh, start, true, true, h13, htn, by simp [hcr], ?_⟩)
        rw [hcore', b6, b5, hcr]; simp [opt]
  · cases h

theorem sinv_step {c : Cfg} {s s' : S} {e : Ev} {out log : List Item} (hc : c.isClient = false)
    (hi : SInv c s log) (h : step c s e = some (s', out)) : SInv c s' (log ++ out) := by
  cases e with
  | tx => exact sinv_tx hc hi h
  | ccs ok =>
    simp only [step] at h
    cases hr : rxCcs s ok with
    | none => simp [hr] at h
    | some s1 =>
      simp only [hr, Option.map_some, Option.some.injEq, Prod.mk.injEq] at h
      obtain ⟨h1, h2⟩ := h
      subst h1 h2
      have : SInv c s1 log := by
        unfold rxCcs at hr
        repeat' split at hr
        all_goals first | cases hr; done | skip
        cases hr
        exact hi
      exact sinv_core this fun v => core_ccs v log
  | rx m ok =>
    simp only [step] at h
    cases hr : rx c s m ok with
    | none => simp [hr] at h
    | some s1 =>
      simp only [hr, Option.map_some, Option.some.injEq, Prod.mk.injEq] at h
      obtain ⟨h1, h2⟩ := h
      subst h1 h2
      rcases rx_cases hr with ⟨-, hcl, -⟩ | ⟨-, -, h1⟩ | ⟨-, st, hcb, h1⟩
      · rw [hc] at hcl; cases hcl
      · exact sinv_process hc hi h1
      · exact (sinv_jump hi hcb).elim

theorem sinv_run {c : Cfg} (hc : c.isClient = false) (evs : List Ev) (s s' : S)
    (log log' : List Item) (hi : SInv c s log) (h : run c evs (s, log) = some (s', log')) :
    SInv c s' log' := by
  induction evs generalizing s log with
  | nil => cases h; exact hi
  | cons e es ih =>
    unfold run at h
    split at h
    · cases h
    · rename_i s1 out hs
      exact ih s1 _ (sinv_step hc hi hs) h

end Verif.Tls.Order
