import Verif.Tls.Order.Spec

namespace Verif.Tls.Order
open Spec

theorem core_append (v : Ver) (a b : List Item) : core v (a ++ b) = core v a ++ core v b := by
  simp [core]

@[simp] theorem core_nil (v : Ver) : core v [] = [] := rfl

/-! ### Received messages -/

theorem rx_cases {c : Cfg} {s s' : S} {m : Msg} {ok : Bool} (h : rx c s m ok = some s') :
    (m = .helloRequest ∧ c.isClient = true ∧ s' = s) ∨
    (m ≠ .helloRequest ∧ expected s.st m = true ∧ process c s m = some s') ∨
    (m ≠ .helloRequest ∧ ∃ st, checkCb s m = some st ∧ process c { s with st := st } m = some s') := by
  unfold rx at h
  split at h
  · cases h
  · split at h
    · rename_i h2
      simp only [Bool.and_eq_true, beq_iff_eq] at h2
      cases h
      exact .inl ⟨h2.1, h2.2, rfl⟩
    · cases hc : checkHsMsgType s m with
      | none => rw [hc] at h; cases h
      | some s1 =>
        rw [hc] at h
        change process c s1 m = some s' at h
        unfold checkHsMsgType at hc
        have hm : m ≠ .helloRequest := by
          intro hm
          subst hm
          cases hst : s.st <;> simp [expected, checkCb, hst] at hc
        cases he : expected s.st m with
        | true =>
          have : s1 = s := by
            simp only [he, if_true] at hc
            cases m <;> simp at hc <;> first | exact hc.symm | exact hc.2.symm
          subst this
          exact .inr (.inl ⟨hm, rfl, h⟩)
        | false =>
          simp only [he] at hc
          cases hcb : checkCb s m with
          | none => simp [hcb] at hc
          | some st =>
            have : s1 = { s with st := st } := by
              simp only [hcb] at hc
              cases m <;> simp at hc <;> first | exact hc.symm | exact hc.2.symm
            subst this
            exact .inr (.inr ⟨hm, st, rfl, h⟩)

/-- Finished below TLS 1.3 is only processed after a ChangeCipherSpec. -/
theorem rx_finished_ccs {c : Cfg} {s s' : S} {b ok : Bool} (h : rx c s (.finished b) ok = some s') :
    s.st = .rFinish ∧ (s.ver = .tls13 ∨ s.recvCcs = true) := by
  unfold rx at h
  split at h
  · cases h
  · rw [if_neg (by simp)] at h
    cases hc : checkHsMsgType s (.finished b) with
    | none => rw [hc] at h; cases h
    | some s1 =>
      unfold checkHsMsgType at hc
      cases hst : s.st <;> simp [expected, checkCb, hst] at hc
      refine ⟨rfl, ?_⟩
      have := hc.1
      by_cases hv : s.ver = .tls13
      · exact .inl hv
      · exact .inr (this hv)

/-! ### Client -/

/-- The negotiated parameters are those of the ServerHello (TLS 1.2, TLCP). -/
def neg (s : S) (h : Hello) : Prop :=
  s.ver = h.ver ∧ h.ver ≠ .tls13 ∧ s.kx = h.kx ∧ s.anon = h.anon ∧ s.authPsk = h.authPsk ∧
    s.isResume = h.resume ∧ s.isTicket = h.ticket ∧ suiteOk h = true

def neg13 (s : S) (h : Hello) : Prop :=
  s.ver = .tls13 ∧ h.ver = .tls13 ∧ s.psk = h.psk ∧ h.hrr = false

def skeOk (h : Hello) (ske : Option Bool) : Prop :=
  (skeRequired h = true → ske.isSome = true) ∧
  (ske.isSome = true → skeRequired h = true ∨ skeOptional h = true) ∧
  (Spec.skeSigned h = true → ske = some true)

def skeL (ske : Option Bool) : List Item := (ske.map fun b => Item.rx (.serverKeyExchange b)).toList

/-- What the client knows about a full handshake below TLS 1.3 once the certificate part is over. -/
def cFull (c : Cfg) (s : S) (h : Hello) (start : List Item) (ok : Bool) : Prop :=
  neg s h ∧ h.resume = false ∧ ClientStart start ∧ (ok = true ∨ c.isSupportVerifyNone = true) ∧
    s.peerCert = certAuth h

def cK (s : S) (h : Hello) (ske : Option Bool) (cr : Bool) : Prop :=
  skeOk h ske ∧ (cr = true → certAuth h = true) ∧ s.isNeedClientCert = cr

def p1 (start : List Item) (h : Hello) : List Item := start ++ [.rx (.serverHello h)]
def p2 (start : List Item) (h : Hello) (ok : Bool) : List Item :=
  p1 start h ++ opt (certAuth h) [.rx (.certificate false ok)]
def p4 (start : List Item) (h : Hello) (ok : Bool) (ske : Option Bool) (cr : Bool) : List Item :=
  p2 start h ok ++ skeL ske ++ opt cr [.rx .certificateRequest]
def p6 (c : Cfg) (start : List Item) (h : Hello) (ok : Bool) (ske : Option Bool) (cr : Bool) :
    List Item :=
  p4 start h ok ske cr ++ [.rx .serverHelloDone] ++ opt cr [.tx (.certificate (!c.haveCert))]
def p8 (c : Cfg) (start : List Item) (h : Hello) (ok : Bool) (ske : Option Bool) (cr : Bool) :
    List Item :=
  p6 c start h ok ske cr ++ [.tx .clientKeyExchange] ++ opt (cr && c.haveCert) [.tx .certificateVerify]

def q1 (start : List Item) (h : Hello) : List Item :=
  start ++ [.rx (.serverHello h), .rx .encryptedExtensions]
def q2 (start : List Item) (h : Hello) (cr : Bool) : List Item :=
  q1 start h ++ opt cr [.rx .certificateRequest]
def q3 (start : List Item) (h : Hello) (ok cr : Bool) : List Item :=
  q2 start h cr ++ opt (!h.psk) [.rx (.certificate false ok), .rx (.certificateVerify true)]

def c13 (c : Cfg) (s : S) (h : Hello) (start : List Item) : Prop :=
  neg13 s h ∧ ClientStart start ∧ (h.psk = true → c.pskOffered = true)

/-- Invariant of the client. -/
def CInv (c : Cfg) (s : S) (log : List Item) : Prop :=
  match s.st with
  | .sClientHello => s.peerCert = false ∧ s.isNeedClientCert = false ∧
      ((s.haveHrr = false ∧ ∀ v, core v log = []) ∨
       (s.haveHrr = true ∧ ∃ h : Hello, h.ver = .tls13 ∧ h.hrr = true ∧
          ∀ v, core v log = [.tx .clientHello, .rx (.serverHello h)]))
  | .rServerHello => s.peerCert = false ∧ s.isNeedClientCert = false ∧
      ∃ start, ClientStart start ∧ (s.haveHrr = false → start = [.tx .clientHello]) ∧
        ∀ v, core v log = start
  | .rEncryptedExtensions => ∃ h start, c13 c s h start ∧ s.isNeedClientCert = false ∧
      core h.ver log = p1 start h
  | .rCertificate => (∃ h start, neg s h ∧ h.resume = false ∧ ClientStart start ∧
        certAuth h = true ∧ s.isNeedClientCert = false ∧ core h.ver log = p1 start h) ∨
      (∃ h start cr, c13 c s h start ∧ h.psk = false ∧ s.isNeedClientCert = cr ∧
        core h.ver log = q2 start h cr)
  | .rServerKeyExchange => ∃ h start ok, cFull c s h start ok ∧ s.isNeedClientCert = false ∧
      (skeRequired h = true ∨ skeOptional h = true) ∧ core h.ver log = p2 start h ok
  | .rCertificateRequest => (∃ h start ok ske, cFull c s h start ok ∧ cK s h ske false ∧
        core h.ver log = p4 start h ok ske false) ∨
      (∃ h start, c13 c s h start ∧ h.psk = false ∧ s.isNeedClientCert = false ∧
        core h.ver log = q1 start h)
  | .rServerHelloDone => ∃ h start ok ske cr, cFull c s h start ok ∧ cK s h ske cr ∧
      core h.ver log = p4 start h ok ske cr
  | .sCertificate => (∃ h start ok ske cr, cFull c s h start ok ∧ cK s h ske cr ∧ cr = true ∧
        core h.ver log = p4 start h ok ske cr ++ [.rx .serverHelloDone]) ∨
      (∃ h start ok cr, c13 c s h start ∧ (ok = true ∨ c.isSupportVerifyNone = true) ∧
        h.psk = false ∧ cr = true ∧ s.isNeedClientCert = cr ∧
        core h.ver log = q3 start h ok cr ++ [.rx (.finished true)])
  | .sClientKeyExchange => ∃ h start ok ske cr, cFull c s h start ok ∧ cK s h ske cr ∧
      core h.ver log = p6 c start h ok ske cr
  | .sCertificateVerify => (∃ h start ok ske cr, cFull c s h start ok ∧ cK s h ske cr ∧
        cr = true ∧ c.haveCert = true ∧
        core h.ver log = p6 c start h ok ske cr ++ [.tx .clientKeyExchange]) ∨
      (∃ h start ok cr, c13 c s h start ∧ (ok = true ∨ c.isSupportVerifyNone = true) ∧
        h.psk = false ∧ cr = true ∧ s.isNeedClientCert = cr ∧ c.haveCert = true ∧
        core h.ver log = q3 start h ok cr ++ [.rx (.finished true), .tx (.certificate (!c.haveCert))])
  | .sChangeCipherSpec => (∃ h start ok ske cr, cFull c s h start ok ∧ cK s h ske cr ∧
        core h.ver log = p8 c start h ok ske cr) ∨
      (∃ h start, neg s h ∧ h.resume = true ∧ ClientStart start ∧ c.session = true ∧
        core h.ver log = p1 start h ++ opt h.ticket [.rx .newSessionTicket] ++ [.rx (.finished true)])
  | .sFinish => (∃ h start ok ske cr, cFull c s h start ok ∧ cK s h ske cr ∧
        core h.ver log = p8 c start h ok ske cr ++ [.tx .ccs]) ∨
      (∃ h start, neg s h ∧ h.resume = true ∧ ClientStart start ∧ c.session = true ∧
        core h.ver log = p1 start h ++ opt h.ticket [.rx .newSessionTicket]
          ++ [.rx (.finished true), .tx .ccs]) ∨
      (∃ h start ok cr, c13 c s h start ∧ (ok = true ∨ c.isSupportVerifyNone = true) ∧
        (cr = true → h.psk = false) ∧
        core h.ver log = q3 start h ok cr ++ [.rx (.finished true)]
          ++ opt cr [.tx (.certificate (!c.haveCert))] ++ opt (cr && c.haveCert) [.tx .certificateVerify])
  | .rNewSessionTicket => (∃ h start ok ske cr, cFull c s h start ok ∧ cK s h ske cr ∧
        h.ticket = true ∧
        core h.ver log = p8 c start h ok ske cr ++ [.tx .ccs, .tx .finished]) ∨
      (∃ h start, neg s h ∧ h.resume = true ∧ ClientStart start ∧ c.session = true ∧
        h.ticket = true ∧ core h.ver log = p1 start h)
  | .rCertificateVerify => ∃ h start ok cr, c13 c s h start ∧
      (ok = true ∨ c.isSupportVerifyNone = true) ∧ h.psk = false ∧ s.isNeedClientCert = cr ∧
      core h.ver log = q2 start h cr ++ [.rx (.certificate false ok)]
  | .rFinish => (∃ h start ok ske cr, cFull c s h start ok ∧ cK s h ske cr ∧
        core h.ver log = p8 c start h ok ske cr ++ [.tx .ccs, .tx .finished]
          ++ opt h.ticket [.rx .newSessionTicket]) ∨
      (∃ h start, neg s h ∧ h.resume = true ∧ ClientStart start ∧ c.session = true ∧
        core h.ver log = p1 start h ++ opt h.ticket [.rx .newSessionTicket]) ∨
      (∃ h start ok cr, c13 c s h start ∧ (ok = true ∨ c.isSupportVerifyNone = true) ∧
        (cr = true → h.psk = false) ∧ s.isNeedClientCert = cr ∧ core h.ver log = q3 start h ok cr)
  | .connected => ∃ h, Client c h log
  | _ => False

theorem cinv_init (c : Cfg) (hc : c.isClient = true) : CInv c (init c) [] := by
  simp [init, hc, CInv]

/-- A received message that is ignored changes nothing. -/
theorem core_ignored (v : Ver) (log : List Item) :
    core v (log ++ [.rx .helloRequest]) = core v log := by simp [core_append, core]

theorem core_ccs (v : Ver) (log : List Item) : core v (log ++ [.rxCcs]) = core v log := by
  simp [core_append, core]

theorem core_rx (v : Ver) (log : List Item) (m : Msg) (h : m ≠ .helloRequest) :
    core v (log ++ [.rx m]) = core v log ++ [.rx m] := by
  simp [core_append, core, h]

theorem core_tx (v : Ver) (log : List Item) (m : Out) (h : m ≠ .ccs) :
    core v (log ++ [.tx m]) = core v log ++ [.tx m] := by
  simp [core_append, core, h]

theorem core_tx_ccs (v : Ver) (log : List Item) (h : v ≠ .tls13) :
    core v (log ++ [.tx .ccs]) = core v log ++ [.tx .ccs] := by
  simp [core_append, core, h]

theorem core_tx_ccs13 (log : List Item) (l : List Item) :
    core .tls13 (log ++ (.tx .ccs :: l)) = core .tls13 (log ++ l) := by
  simp [core_append, core]

theorem core_compat13 (log : List Item) (b : Bool) (l : List Item) :
    core .tls13 (log ++ (compat b ++ l)) = core .tls13 (log ++ l) := by
  cases b
  · simp [compat]
  · exact core_tx_ccs13 log l

theorem client_congr {c : Cfg} {h : Hello} {log log' : List Item}
    (e : core h.ver log' = core h.ver log) (x : Client c h log) : Client c h log' := by
  cases x with
  | full12 hv hr f => exact .full12 hv hr (by rw [e]; exact f)
  | resume12 hv hr f => exact .resume12 hv hr (by rw [e]; exact f)
  | tls13 hv f => exact .tls13 hv (by rw [e]; exact f)

/-- The invariant only looks at the core of the log. -/
theorem cinv_core {c : Cfg} {s : S} {log log' : List Item} (h : CInv c s log)
    (e : ∀ v, core v log' = core v log) : CInv c s log' := by
  unfold CInv at h ⊢
  simp only [e]
  cases hst : s.st <;> simp only [hst] at h ⊢ <;> first | exact h | skip
  obtain ⟨h0, hh⟩ := h
  exact ⟨h0, client_congr (e _) hh⟩

/-- The invariant does not look at the flags of the CCS machinery. -/
theorem cinv_flags {c : Cfg} {s : S} {log : List Item} (r f a k : Bool) (h : CInv c s log) :
    CInv c { s with ready := r, recvCcs := f, allow := a, active := k } log := h

theorem cinv_jump {c : Cfg} {s : S} {m : Msg} {st : St} {log : List Item} (hi : CInv c s log)
    (h : checkCb s m = some st) : CInv c { s with st := st } log := by
  unfold checkCb at h
  unfold CInv at hi
  split at h
  · rename_i heq
    rw [heq] at hi
    obtain ⟨hh, start, ok, hf, hn, hs, hcore⟩ := hi
    split at h
    · rename_i hk
      cases h
      refine .inl ⟨hh, start, ok, none, hf, ⟨⟨?_, ?_, ?_⟩, by simp, hn⟩, ?_⟩
      all_goals obtain ⟨⟨-, -, hk', -⟩, -⟩ := hf
      · rw [hk'] at hk; intro h; cases hkk : hh.kx <;> simp [skeRequired, hkk] at h hk
      · simp
      · rw [hk'] at hk; intro h; cases hkk : hh.kx <;> simp [Spec.skeSigned, hkk] at h hk
      · simpa [p4, skeL, opt] using hcore
    · cases h
  · rename_i heq
    rw [heq] at hi
    obtain ⟨hh, start, ok, hf, hn, hs, hcore⟩ := hi
    split at h
    · rename_i hk
      cases h
      refine ⟨hh, start, ok, none, false, hf, ⟨⟨?_, ?_, ?_⟩, by simp, hn⟩, ?_⟩
      all_goals obtain ⟨⟨-, -, hk', -⟩, -⟩ := hf
      · rw [hk'] at hk; intro h; cases hkk : hh.kx <;> simp [skeRequired, hkk] at h hk
      · simp
      · rw [hk'] at hk; intro h; cases hkk : hh.kx <;> simp [Spec.skeSigned, hkk] at h hk
      · simpa [p4, skeL, opt] using hcore
    · cases h
  · rename_i heq
    rw [heq] at hi
    split at h
    · rename_i hk
      cases h
      rcases hi with ⟨hh, start, ok, ske, ⟨⟨h1, h2, -⟩, -⟩, -⟩ | ⟨hh, start, h13, hp, hn, hcore⟩
      · rw [h1] at hk
        simp [h2] at hk
      · exact .inr ⟨hh, start, false, h13, hp, hn, by simpa [q2, opt] using hcore⟩
    · cases h
  · rename_i heq
    rw [heq] at hi
    split at h
    · cases h
    · rename_i hk
      cases h
      rcases hi with ⟨hh, start, ok, ske, hf, hck, hcore⟩ | ⟨hh, start, h13, hp, hn, hcore⟩
      · exact ⟨hh, start, ok, ske, false, hf, hck, hcore⟩
      · simp [h13.1.1] at hk
  · cases h

theorem cinv_hello {c : Cfg} {s s' : S} {hh : Hello} {log : List Item} (hi : CInv c s log)
    (hst : s.st = .rServerHello) (hsu : suiteOk hh = true)
    (h : clientServerHello c s hh = some s') : CInv c s' (log ++ [.rx (.serverHello hh)]) := by
  unfold CInv at hi
  rw [hst] at hi
  obtain ⟨hpc, hnc, start, hstart, hhrr, hcore⟩ := hi
  have hcore' : ∀ v, core v (log ++ [.rx (.serverHello hh)]) = p1 start hh := fun v => by
    rw [core_rx _ _ _ (by simp), hcore]; rfl
  unfold clientServerHello at h
  split at h
  · rename_i hv
    simp only [beq_iff_eq] at hv
    split at h
    · cases h
    · split at h
      · rename_i hr
        split at h
        · cases h
        · rename_i hr'
          cases h
          refine ⟨hpc, hnc, .inr ⟨rfl, hh, hv, hr, fun v => ?_⟩⟩
          rw [hcore', p1, hhrr (by simpa using hr')]
          rfl
      · rename_i hr
        split at h
        · cases h
        · rename_i hp
          cases h
          refine ⟨hh, start, ⟨⟨rfl, hv, rfl, by simpa using hr⟩, hstart, ?_⟩, hnc, hcore' _⟩
          intro hps
          simpa [hps] using hp
  · rename_i hv
    simp only [beq_iff_eq] at hv
    unfold clientServerHello12 at h
    split at h
    · cases h
    · rename_i hse
      split at h
      · cases h
      · dsimp only at h
        split at h
        · rename_i hres
          have hse' : c.session = true := by simpa [hres] using hse
          split at h
          · rename_i htk
            cases h
            exact .inr ⟨hh, start, ⟨rfl, hv, rfl, rfl, rfl, rfl, rfl, hsu⟩, hres, hstart, hse', htk,
              hcore' _⟩
          · rename_i htk
            cases h
            refine .inr (.inl ⟨hh, start, ⟨rfl, hv, rfl, rfl, rfl, rfl, rfl, hsu⟩, hres, hstart,
              hse', ?_⟩)
            rw [hcore']
            simp [opt, htk]
        · rename_i hres
          have hres' : hh.resume = false := by simpa using hres
          split at h
          · rename_i hcp
            cases h
            have hca : certAuth hh = false := by
              simp only [isNeedCertPrepare, ccsExit] at hcp
              unfold certAuth
              revert hcp
              cases hh.kx <;> cases hh.anon <;> simp
            refine ⟨hh, start, true, ⟨⟨rfl, hv, rfl, rfl, rfl, rfl, rfl, hsu⟩, hres', hstart,
              .inl rfl, ?_⟩, hnc, ?_, ?_⟩
            · rw [hca]; exact hpc
            · have hvb : (hh.ver == Ver.tls13) = false := by simpa using hv
              simp only [suiteOk, hvb, Bool.false_or, Bool.and_eq_true] at hsu
              simp only [isNeedCertPrepare, ccsExit] at hcp
              have h2 := hsu.1.2
              unfold skeRequired skeOptional
              revert hcp h2
              cases hh.kx <;> cases hh.anon <;> simp
            · rw [hcore']
              simp [p2, hca, opt]
          · rename_i hcp
            cases h
            refine .inl ⟨hh, start, ⟨rfl, hv, rfl, rfl, rfl, rfl, rfl, hsu⟩, hres', hstart, ?_, hnc,
              hcore' _⟩
            simp only [isNeedCertPrepare, ccsExit] at hcp
            unfold certAuth
            revert hcp
            cases hh.kx <;> cases hh.anon <;> simp

theorem cinv_process {c : Cfg} {s s' : S} {m : Msg} {log : List Item} (hc : c.isClient = true)
    (hi : CInv c s log) (h : process c s m = some s') : CInv c s' (log ++ [.rx m]) := by
  unfold process at h
  split at h
  · rw [if_pos (by simp [hc])] at h; cases h
  · rename_i hst
    split at h
    · cases h
    · rename_i hsu
      exact cinv_hello hi hst (by simpa [hc] using hsu) h
  · -- EncryptedExtensions
    rename_i hst
    unfold CInv at hi
    rw [hst] at hi
    obtain ⟨hh, start, h13, hn, hcore⟩ := hi
    have hcore' : core hh.ver (log ++ [.rx .encryptedExtensions]) = q1 start hh := by
      rw [core_rx _ _ _ (by simp), hcore]; simp [p1, q1]
    split at h
    · cases h
    · split at h
      · rename_i hp
        cases h
        have hp' : hh.psk = true := h13.1.2.2.1 ▸ hp
        refine .inr (.inr ⟨hh, start, true, false, h13, .inl rfl, by simp, hn, ?_⟩)
        rw [hcore']
        simp [q3, q2, opt, hp']
      · rename_i hp
        cases h
        have hp' : hh.psk = false := h13.1.2.2.1 ▸ (by simpa using hp)
        exact .inr ⟨hh, start, h13, hp', hn, hcore'⟩
  · -- Certificate
    rename_i e ok hst
    unfold CInv at hi
    rw [hst] at hi
    rcases hi with ⟨hh, start, hng, hres, hstart, hca, hn, hcore⟩ | ⟨hh, start, cr, h13, hp, hn, hcore⟩
    · rw [if_neg (by rw [hng.1]; simpa using hng.2.1)] at h
      unfold recvCertificate12 at h
      split at h
      · simp [hc] at h
      · rename_i he
        simp only [Bool.not_eq_true] at he
        subst he
        have hcore' : core hh.ver (log ++ [.rx (.certificate false ok)]) = p2 start hh ok := by
          rw [core_rx _ _ _ (by simp), hcore]; simp [p2, opt, hca]
        dsimp only at h
        split at h
        · cases h
        · rename_i hok
          have hok' : ok = true ∨ c.isSupportVerifyNone = true := by
            revert hok; cases ok <;> simp
          have hkx := hng.2.2.1
          split at h
          · rename_i hns
            cases h
            refine ⟨hh, start, ok, ⟨hng, hres, hstart, hok', hca.symm⟩, hn, ?_, hcore'⟩
            have hsu := hng.2.2.2.2.2.2.2
            have hv := hng.1
            simp only [isNeedServerKeyExchange, hc, hkx, hv] at hns
            simp only [suiteOk] at hsu
            unfold skeRequired skeOptional
            revert hns hsu
            cases hh.kx <;> cases hh.ver <;> simp
          · rename_i hns
            cases h
            have hr : hh.kx = .rsa := by
              simp only [isNeedServerKeyExchange, hc, hkx] at hns
              revert hns
              cases hh.kx <;> simp
            refine .inl ⟨hh, start, ok, none, ⟨hng, hres, hstart, hok', hca.symm⟩,
              ⟨⟨?_, ?_, ?_⟩, by simp, hn⟩, ?_⟩
            · simp [skeRequired, hr]
            · simp
            · simp [Spec.skeSigned, hr]
            · rw [hcore']; simp [p4, skeL, opt]
    · rw [if_pos (by simp [h13.1.1])] at h
      unfold recvCertificate13 at h
      split at h
      · simp [hc] at h
      · rename_i he
        simp only [Bool.not_eq_true] at he
        subst he
        dsimp only at h
        split at h
        · cases h
        · rename_i hok
          have hok' : ok = true ∨ c.isSupportVerifyNone = true := by
            revert hok; cases ok <;> simp
          cases h
          refine ⟨hh, start, ok, cr, h13, hok', hp, hn, ?_⟩
          rw [core_rx _ _ _ (by simp), hcore]
  · -- ServerKeyExchange
    rename_i sigOk hst
    unfold CInv at hi
    rw [hst] at hi
    obtain ⟨hh, start, ok, hf, hn, hs, hcore⟩ := hi
    split at h
    · cases h
    · split at h
      · cases h
      · rename_i hsg
        split at h
        · cases h
        · cases h
          refine .inl ⟨hh, start, ok, some sigOk, hf, ⟨⟨by simp, fun _ => hs, ?_⟩, by simp, hn⟩, ?_⟩
          · intro hsn
            have hkx := hf.1.2.2.1
            have han := hf.1.2.2.2.1
            simp only [Order.skeSigned, hkx, han] at hsg
            unfold Spec.skeSigned at hsn
            revert hsg hsn
            cases hh.kx <;> cases hh.anon <;> cases sigOk <;> simp
          · rw [core_rx _ _ _ (by simp), hcore]; simp [p4, skeL, opt]
  · -- CertificateRequest
    rename_i hst
    unfold CInv at hi
    rw [hst] at hi
    rcases hi with ⟨hh, start, ok, ske, hf, hck, hcore⟩ | ⟨hh, start, h13, hp, hn, hcore⟩
    · rw [if_neg (by rw [hf.1.1]; simpa using hf.1.2.1)] at h
      split at h
      · cases h
      · rename_i hpc
        cases h
        refine ⟨hh, start, ok, ske, true, hf, ⟨hck.1, fun _ => ?_, rfl⟩, ?_⟩
        · rw [← hf.2.2.2.2]; simpa using hpc
        · rw [core_rx _ _ _ (by simp), hcore]; simp [p4, opt]
    · rw [if_pos (by simp [h13.1.1])] at h
      cases h
      refine .inr ⟨hh, start, true, h13, hp, rfl, ?_⟩
      rw [core_rx _ _ _ (by simp), hcore]; simp [q2, opt]
  · -- ServerHelloDone
    rename_i hst
    unfold CInv at hi
    rw [hst] at hi
    obtain ⟨hh, start, ok, ske, cr, hf, hck, hcore⟩ := hi
    have hcore' := core_rx hh.ver log .serverHelloDone (by simp)
    rw [hcore] at hcore'
    split at h
    · cases h
    · split at h
      · rename_i hn
        cases h
        exact .inl ⟨hh, start, ok, ske, cr, hf, hck, hck.2.2 ▸ hn, hcore'⟩
      · rename_i hn
        cases h
        have hcr : cr = false := by rw [← hck.2.2]; simpa using hn
        refine ⟨hh, start, ok, ske, cr, hf, hck, ?_⟩
        rw [hcore', p6, hcr]; simp [opt]
  · rename_i hst; unfold CInv at hi; rw [hst] at hi; exact hi.elim
  · -- CertificateVerify
    rename_i sigOk hst
    unfold CInv at hi
    rw [hst] at hi
    obtain ⟨hh, start, ok, cr, h13, hok, hp, hn, hcore⟩ := hi
    split at h
    · cases h
    · rename_i hsg
      have hsg' : sigOk = true := by
        revert hsg; cases sigOk <;> simp
      subst hsg'
      rw [if_pos (by simp [h13.1.1])] at h
      cases h
      refine .inr (.inr ⟨hh, start, ok, cr, h13, hok, fun _ => hp, hn, ?_⟩)
      rw [core_rx _ _ _ (by simp), hcore]; simp [q3, opt, hp]
  · -- NewSessionTicket
    rename_i hst
    unfold CInv at hi
    rw [hst] at hi
    split at h
    · cases h
    · cases h
      rcases hi with ⟨hh, start, ok, ske, cr, hf, hck, ht, hcore⟩ | ⟨hh, start, hng, hr, hstart, hse, ht, hcore⟩
      · refine .inl ⟨hh, start, ok, ske, cr, hf, hck, ?_⟩
        rw [core_rx _ _ _ (by simp), hcore]; simp [opt, ht]
      · refine .inr (.inl ⟨hh, start, hng, hr, hstart, hse, ?_⟩)
        rw [core_rx _ _ _ (by simp), hcore]; simp [opt, ht]
  · -- Finished
    rename_i macOk hst
    have hmac : macOk = true := by
      cases macOk
      · simp [recvFinished] at h
      · rfl
    subst hmac
    simp only [recvFinished, hc, if_true, Bool.not_true, Bool.false_eq_true, if_false,
      Option.map_some] at h
    unfold CInv at hi
    rw [hst] at hi
    rcases hi with ⟨hh, start, ok, ske, cr, hf, hck, hcore⟩ | ⟨hh, start, hng, hr, hstart, hse, hcore⟩ |
      ⟨hh, start, ok, cr, h13, hok, hp, hn, hcore⟩
    · rw [if_neg (by rw [hf.1.1]; simpa using hf.1.2.1)] at h
      rw [if_neg (by
        show ¬ s.isResume = true
        rw [hf.1.2.2.2.2.2.1, hf.2.1]; simp)] at h
      cases h
      refine ⟨hh, .full12 hf.1.2.1 hf.2.1 ⟨start, ok, ske, cr, hf.2.2.1, hf.2.2.2.1, hck.1.1,
        hck.1.2.1, hck.1.2.2, hck.2.1, ?_⟩⟩
      rw [core_rx _ _ _ (by simp), hcore]
      simp [p8, p6, p4, p2, p1, skeL]
    · rw [if_neg (by rw [hng.1]; simpa using hng.2.1)] at h
      rw [if_pos (by
        show s.isResume = true
        rw [hng.2.2.2.2.2.1, hr])] at h
      cases h
      refine .inr ⟨hh, start, hng, hr, hstart, hse, ?_⟩
      rw [core_rx _ _ _ (by simp), hcore]
    · rw [if_pos (by simp [h13.1.1])] at h
      have hcore' := core_rx hh.ver log (.finished true) (by simp)
      rw [hcore] at hcore'
      split at h
      · rename_i hnc
        cases h
        have hcr : cr = true := hn ▸ hnc
        exact .inr ⟨hh, start, ok, cr, h13, hok, hp hcr, hcr, hn, hcore'⟩
      · rename_i hnc
        cases h
        have hcr : cr = false := by rw [← hn]; simpa [ccsExit] using hnc
        refine .inr (.inr ⟨hh, start, ok, cr, h13, hok, hp, ?_⟩)
        rw [hcore']; simp [opt, hcr]
  · cases h

theorem cinv_tx {c : Cfg} {s s' : S} {out log : List Item} (hc : c.isClient = true)
    (hi : CInv c s log) (h : tx c s = some (s', out)) : CInv c s' (log ++ out) := by
  unfold tx at h
  split at h
  · -- ClientHello
    rename_i hst
    rw [if_neg (by simp [hc])] at h
    unfold CInv at hi
    rw [hst] at hi
    obtain ⟨hpc, hn, hcore⟩ := hi
    have key : ∀ t : S, t.peerCert = false → t.isNeedClientCert = false → t.haveHrr = s.haveHrr →
        CInv c { t with st := .rServerHello } (log ++ [.tx .clientHello]) := by
      intro t h1 h2 h3
      refine ⟨h1, h2, ?_⟩
      rcases hcore with ⟨hr, hcore⟩ | ⟨hr, hh, hv, hhr, hcore⟩
      · refine ⟨_, .plain, fun _ => rfl, fun v => ?_⟩
        rw [core_tx _ _ _ (by simp), hcore]; rfl
      · refine ⟨_, .retry hh hv hhr, fun hf => ?_, fun v => ?_⟩
        · simp only [h3, hr] at hf; cases hf
        · rw [core_tx _ _ _ (by simp), hcore]; rfl
    dsimp only at h
    split at h
    · cases h
      exact key (ccsReady s) hpc hn rfl
    · cases h
      exact key s hpc hn rfl
  · rename_i hst; unfold CInv at hi; rw [hst] at hi; exact hi.elim
  · rename_i hst; unfold CInv at hi; rw [hst] at hi; exact hi.elim
  · rename_i hst; unfold CInv at hi; rw [hst] at hi; exact hi.elim
  · rename_i hst; unfold CInv at hi; rw [hst] at hi; exact hi.elim
  · -- Certificate
    rename_i hst
    unfold CInv at hi
    rw [hst] at hi
    rw [if_pos hc] at h
    rcases hi with ⟨hh, start, ok, ske, cr, hf, hck, hcr, hcore⟩ |
      ⟨hh, start, ok, cr, h13, hok, hp, hcr, hn, hcore⟩
    · rw [if_neg (by rw [hf.1.1]; simpa using hf.1.2.1)] at h
      cases h
      refine ⟨hh, start, ok, ske, cr, hf, hck, ?_⟩
      rw [core_tx _ _ _ (by simp), hcore]; simp [p6, opt, hcr]
    · rw [if_pos (by simp [h13.1.1])] at h
      cases h
      have hcore' : core hh.ver (log ++ (compat (c.isMiddleBoxCompat && !s.haveHrr) ++
          [.tx (.certificate (!c.haveCert))])) =
          q3 start hh ok cr ++ [.rx (.finished true), .tx (.certificate (!c.haveCert))] := by
        have hv := h13.1.2.1
        rw [hv] at hcore ⊢
        rw [core_compat13, core_tx _ _ _ (by simp), hcore]
        simp
      cases hcert : c.haveCert with
      | true =>
        rw [hcert] at hcore'
        refine .inr ⟨hh, start, ok, cr, h13, hok, hp, hcr, hn, hcert, ?_⟩
        rw [hcert]
        exact hcore'
      | false =>
        rw [hcert] at hcore'
        refine .inr (.inr ⟨hh, start, ok, cr, h13, hok, fun _ => hp, ?_⟩)
        rw [hcert, hcore']
        simp [opt, hcr]
  · rename_i hst; unfold CInv at hi; rw [hst] at hi; exact hi.elim
  · rename_i hst; unfold CInv at hi; rw [hst] at hi; exact hi.elim
  · -- ClientKeyExchange
    rename_i hst
    unfold CInv at hi
    rw [hst] at hi
    obtain ⟨hh, start, ok, ske, cr, hf, hck, hcore⟩ := hi
    have hcore' := core_tx hh.ver log .clientKeyExchange (by simp)
    rw [hcore] at hcore'
    have hn := hck.2.2
    split at h
    · rename_i hb
      cases h
      simp only [Bool.and_eq_true, hn] at hb
      exact .inl ⟨hh, start, ok, ske, cr, hf, hck, hb.1, hb.2, hcore'⟩
    · rename_i hb
      cases h
      rw [hn] at hb
      refine .inl ⟨hh, start, ok, ske, cr, hf, hck, ?_⟩
      rw [hcore', p8]
      simp only [Bool.not_eq_true] at hb
      simp [opt, hb]
  · -- CertificateVerify
    rename_i hst
    unfold CInv at hi
    rw [hst] at hi
    rcases hi with ⟨hh, start, ok, ske, cr, hf, hck, hcr, hcert, hcore⟩ |
      ⟨hh, start, ok, cr, h13, hok, hp, hcr, hn, hcert, hcore⟩
    · rw [if_neg (by rw [hf.1.1]; simpa using hf.1.2.1)] at h
      cases h
      refine .inl ⟨hh, start, ok, ske, cr, hf, hck, ?_⟩
      rw [core_tx _ _ _ (by simp), hcore]; simp [p8, opt, hcr, hcert]
    · rw [if_pos (by simp [h13.1.1])] at h
      cases h
      refine .inr (.inr ⟨hh, start, ok, cr, h13, hok, fun _ => hp, ?_⟩)
      rw [core_tx _ _ _ (by simp), hcore]; simp [opt, hcr, hcert]
  · rename_i hst; unfold CInv at hi; rw [hst] at hi; exact hi.elim
  · -- ChangeCipherSpec
    rename_i hst
    unfold CInv at hi
    rw [hst] at hi
    rcases hi with ⟨hh, start, ok, ske, cr, hf, hck, hcore⟩ | ⟨hh, start, hng, hr, hstart, hse, hcore⟩
    · rw [if_neg (by rw [hf.1.1]; simpa using hf.1.2.1)] at h
      cases h
      refine .inl ⟨hh, start, ok, ske, cr, hf, hck, ?_⟩
      rw [core_tx_ccs _ _ hf.1.2.1, hcore]
    · rw [if_neg (by rw [hng.1]; simpa using hng.2.1)] at h
      cases h
      refine .inr (.inl ⟨hh, start, hng, hr, hstart, hse, ?_⟩)
      rw [core_tx_ccs _ _ hng.2.1, hcore]; simp
  · -- Finished
    rename_i hst
    unfold CInv at hi
    rw [hst] at hi
    rcases hi with ⟨hh, start, ok, ske, cr, hf, hck, hcore⟩ |
      ⟨hh, start, hng, hr, hstart, hse, hcore⟩ | ⟨hh, start, ok, cr, h13, hok, hp, hcore⟩
    · rw [if_neg (by rw [hf.1.1]; simpa using hf.1.2.1), if_pos hc,
        if_neg (by rw [hf.1.2.2.2.2.2.1, hf.2.1]; simp)] at h
      have hcore' := core_tx hh.ver log .finished (by simp)
      rw [hcore] at hcore'
      split at h
      · rename_i ht
        cases h
        refine .inl ⟨hh, start, ok, ske, cr, hf, hck, hf.1.2.2.2.2.2.2.1 ▸ ht, ?_⟩
        rw [hcore']; simp
      · rename_i ht
        cases h
        have ht' : hh.ticket = false := by rw [← hf.1.2.2.2.2.2.2.1]; simpa using ht
        refine .inl ⟨hh, start, ok, ske, cr, hf, hck, ?_⟩
        rw [hcore', ht']; simp [opt]
    · rw [if_neg (by rw [hng.1]; simpa using hng.2.1), if_pos hc,
        if_pos (by rw [hng.2.2.2.2.2.1, hr])] at h
      cases h
      refine ⟨hh, .resume12 hng.2.1 hr ⟨start, hstart, hse, ?_⟩⟩
      rw [core_tx _ _ _ (by simp), hcore]; simp [p1]
    · rw [if_pos (by simp [h13.1.1]), if_pos hc] at h
      cases h
      refine ⟨hh, .tls13 h13.1.2.1 ⟨start, ok, cr, h13.2.1, h13.1.2.2.2, h13.2.2, hok, hp, ?_⟩⟩
      have hv := h13.1.2.1
      rw [hv] at hcore ⊢
      rw [core_compat13, core_tx _ _ _ (by simp), hcore]
      simp [q3, q2, q1]
  · cases h

theorem cinv_step {c : Cfg} {s s' : S} {e : Ev} {out log : List Item} (hc : c.isClient = true)
    (hi : CInv c s log) (h : step c s e = some (s', out)) : CInv c s' (log ++ out) := by
  cases e with
  | tx => exact cinv_tx hc hi h
  | ccs ok =>
    simp only [step] at h
    cases hr : rxCcs s ok with
    | none => simp [hr] at h
    | some s1 =>
      simp only [hr, Option.map_some, Option.some.injEq, Prod.mk.injEq] at h
      obtain ⟨h1, h2⟩ := h
      subst h1 h2
      have : CInv c s1 log := by
        unfold rxCcs at hr
        repeat' split at hr
        all_goals first | cases hr; done | skip
        cases hr
        exact hi
      exact cinv_core this fun v => core_ccs v log
  | rx m ok =>
    simp only [step] at h
    cases hr : rx c s m ok with
    | none => simp [hr] at h
    | some s1 =>
      simp only [hr, Option.map_some, Option.some.injEq, Prod.mk.injEq] at h
      obtain ⟨h1, h2⟩ := h
      subst h1 h2
      rcases rx_cases hr with ⟨hm, -, h1⟩ | ⟨-, -, h1⟩ | ⟨-, st, hcb, h1⟩
      · subst hm h1
        exact cinv_core hi fun v => core_ignored v log
      · exact cinv_process hc hi h1
      · exact cinv_process hc (cinv_jump hi hcb) h1

theorem cinv_run {c : Cfg} (hc : c.isClient = true) (evs : List Ev) (s s' : S)
    (log log' : List Item) (hi : CInv c s log) (h : run c evs (s, log) = some (s', log')) :
    CInv c s' log' := by
  induction evs generalizing s log with
  | nil => cases h; exact hi
  | cons e es ih =>
    unfold run at h
    split at h
    · cases h
    · rename_i s1 out hs
      exact ih s1 _ (cinv_step hc hi hs) h

end Verif.Tls.Order
