import Verif.Tls.Order.ProofS

namespace Verif.Tls.Order
open Spec

/-! ### ChangeCipherSpec -/

/-- The one situation in which a ChangeCipherSpec may come early. -/
def exc (c : Cfg) (s : S) : Prop := c.isClient = true ∧ c.max13 = true ∧ s.isResume = true

def off (s : S) : Prop := s.ready = false ∧ s.recvCcs = false ∧ s.allow = false ∧ s.active = false

def CcsOk (c : Cfg) (s : S) (log : List Item) : Prop :=
  ∃ a mid, log = a ++ .rxCcs :: mid ∧ ∀ i ∈ mid, i = .rx .helloRequest ∨ exc c s

def FinOk (c : Cfg) (s : S) (log : List Item) : Prop :=
  ∃ a mid d, log = a ++ .rxCcs :: mid ++ .rx (.finished true) :: d ∧
    ∀ i ∈ mid, i = .rx .helloRequest ∨ exc c s

def KInv (c : Cfg) (s : S) (log : List Item) : Prop :=
  match s.st with
  | .sClientHello | .rServerHello | .rClientHello =>
      (c.isClient = true → s.allow = false ∧ s.active = false ∧
        (s.recvCcs = true → .rxCcs ∈ log) ∧ (c.max13 = false → off s)) ∧
      (c.isClient = false → s.haveHrr = false → off s) ∧
      (c.isClient = false → s.haveHrr = true → s.ver = .tls13)
  | .sHelloRetryRequest => s.ver = .tls13 ∧ c.isClient = false
  | .rFinish => s.ver ≠ .tls13 → s.ready = true ∧ s.allow = true ∧ s.active = s.recvCcs ∧
      (s.recvCcs = true → CcsOk c s log)
  | .rNewSessionTicket => s.ver ≠ .tls13 → s.allow = false ∧ s.active = false ∧
      (s.recvCcs = true → .rxCcs ∈ log) ∧ (¬ exc c s → off s)
  | .sNewSessionTicket | .sChangeCipherSpec | .sFinish =>
      s.ver ≠ .tls13 → (c.isClient = s.isResume → FinOk c s log) ∧
        (c.isClient ≠ s.isResume → off s)
  | .connected => s.ver ≠ .tls13 → FinOk c s log
  | _ => s.ver ≠ .tls13 → off s

theorem FinOk.append {c : Cfg} {s s' : S} {log out : List Item} (h : FinOk c s log)
    (e : s'.isResume = s.isResume) : FinOk c s' (log ++ out) := by
  obtain ⟨a, mid, d, h1, h2⟩ := h
  refine ⟨a, mid, d ++ out, by rw [h1]; simp, fun i hi => ?_⟩
  unfold exc
  rw [e]
  exact h2 i hi

theorem CcsOk.fin {c : Cfg} {s s' : S} {log : List Item} (h : CcsOk c s log)
    (e : s'.isResume = s.isResume) : FinOk c s' (log ++ [.rx (.finished true)]) := by
  obtain ⟨a, mid, h1, h2⟩ := h
  refine ⟨a, mid, [], by rw [h1], fun i hi => ?_⟩
  unfold exc
  rw [e]
  exact h2 i hi

theorem CcsOk.hello {c : Cfg} {s : S} {log : List Item} (h : CcsOk c s log) :
    CcsOk c s (log ++ [.rx .helloRequest]) := by
  obtain ⟨a, mid, h1, h2⟩ := h
  refine ⟨a, mid ++ [.rx .helloRequest], by rw [h1]; simp, fun i hi => ?_⟩
  simp only [List.mem_append, List.mem_singleton] at hi
  rcases hi with hi | hi
  · exact h2 i hi
  · exact .inl hi

theorem CcsOk.of_exc {c : Cfg} {s : S} {log : List Item} (he : exc c s) (h : .rxCcs ∈ log) :
    CcsOk c s log := by
  obtain ⟨a, mid, h1⟩ := List.append_of_mem h
  exact ⟨a, mid, h1, fun i _ => .inr he⟩

theorem kinv_init (c : Cfg) : KInv c (init c) [] := by
  cases hc : c.isClient <;> simp [init, KInv, hc, off]

theorem kinv_helloRequest {c : Cfg} {s : S} {log : List Item} (h : KInv c s log) :
    KInv c s (log ++ [.rx .helloRequest]) := by
  unfold KInv at h ⊢
  cases hst : s.st <;> simp only [hst] at h ⊢ <;>
    (try simp only [List.mem_append, List.mem_singleton, reduceCtorEq, or_false]) <;>
    first
    | exact h
    | exact fun hv => (h hv).append rfl
    | exact fun hv => ⟨fun he => ((h hv).1 he).append rfl, (h hv).2⟩
    | exact fun hv => ⟨(h hv).1, (h hv).2.1, (h hv).2.2.1, fun hr => ((h hv).2.2.2 hr).hello⟩

theorem kinv_ccs {c : Cfg} {s s' : S} {ok : Bool} {log : List Item} (hi : KInv c s log)
    (h : rxCcs s ok = some s') : KInv c s' (log ++ [.rxCcs]) := by
  unfold rxCcs at h
  split at h
  · cases h
  · rename_i hrecv
    split at h
    · cases h
    · rename_i hready
      split at h
      · cases h
      · split at h
        · cases h
        · rename_i hdup
          cases h
          simp only [Bool.not_eq_true', Bool.not_eq_false] at hready hrecv
          unfold KInv at hi ⊢
          cases hst : s.st <;> simp only [hst] at hi ⊢ <;> simp [hst, St.isRecv] at hrecv
          case rFinish =>
            intro hv
            obtain ⟨h1, h2, h3, -⟩ := hi hv
            refine ⟨h1, h2, by simp [h2], fun _ => ⟨log, [], rfl, by simp⟩⟩
          case rNewSessionTicket =>
            intro hv
            obtain ⟨h1, h2, h3, h4⟩ := hi hv
            refine ⟨h1, by simp [h1, h2], by simp, fun he => ?_⟩
            have := h4 he
            rw [this.1] at hready; cases hready
          case rClientHello | rServerHello =>
            obtain ⟨h1, h2, h3⟩ := hi
            refine ⟨fun hc => ?_, fun hc hr => ?_, h3⟩
            · obtain ⟨h4, h5, h6, h7⟩ := h1 hc
              refine ⟨h4, by simp [h4, h5], by simp, fun hx => ?_⟩
              rw [(h7 hx).1] at hready; cases hready
            · rw [(h2 hc hr).1] at hready; cases hready
          all_goals
            intro hv
            have := hi hv
            rw [this.1] at hready; cases hready

theorem kinv_jump {c : Cfg} {s : S} {m : Msg} {st : St} {log : List Item} (hi : KInv c s log)
    (h : checkCb s m = some st) : KInv c { s with st := st } log := by
  unfold checkCb at h
  unfold KInv at hi
  split at h
  any_goals (cases h; done)
  all_goals
    rename_i heq
    rw [heq] at hi
    split at h
    any_goals (cases h; done)
    all_goals (cases h; exact hi)

theorem kinv_hello_c {c : Cfg} {s s' : S} {hh : Hello} {log : List Item} (hc : c.isClient = true)
    (hi : KInv c s log)
    (hst : s.st = .rServerHello) (h : clientServerHello c s hh = some s') :
    KInv c s' (log ++ [.rx (.serverHello hh)]) := by
  unfold KInv at hi
  rw [hst] at hi
  obtain ⟨h1, h2, h3, h4⟩ := hi.1 hc
  unfold clientServerHello at h
  split at h
  · split at h
    · cases h
    · rename_i hm
      split at h
      · split at h
        · cases h
        · cases h
          refine ⟨fun _ => ⟨h1, h2, fun hr => by simp [h3 hr], fun hx => ?_⟩, fun hx => ?_,
            fun hx => ?_⟩
          · simp [hx] at hm
          · rw [hc] at hx; cases hx
          · rw [hc] at hx; cases hx
      · split at h
        · cases h
        · cases h
          intro hv
          exact absurd rfl hv
  · rename_i hv13
    unfold clientServerHello12 at h
    split at h
    · cases h
    · split at h
      · cases h
      · dsimp only at h
        split at h
        · rename_i hr
          have key : ¬ exc c { s with isResume := hh.resume } → off s := by
            intro hx
            apply h4
            cases hm : c.max13 with
            | true => exact absurd ⟨hc, hm, hr⟩ hx
            | false => rfl
          split at h
          · cases h
            intro _
            exact ⟨h1, h2, fun hx => by simp [h3 hx], key⟩
          · cases h
            intro _
            refine ⟨rfl, rfl, by simp [ccsReady, ccsActive, h2], fun hx => ?_⟩
            refine CcsOk.of_exc ?_ (by simp [h3 hx])
            refine Classical.byContradiction fun hn => ?_
            have := (key hn).2.1
            have hx' : s.recvCcs = true := hx
            rw [this] at hx'; cases hx'
        · split at h
          · cases h; exact fun _ => ⟨rfl, rfl, rfl, rfl⟩
          · cases h; exact fun _ => ⟨rfl, rfl, rfl, rfl⟩

theorem kinv_hello_s {c : Cfg} {s s' : S} {hh : Hello} {log : List Item} (hc : c.isClient = false)
    (hi : KInv c s log)
    (hst : s.st = .rClientHello) (h : serverClientHello c s hh = some s') :
    KInv c s' (log ++ [.rx (.clientHello hh)]) := by
  unfold KInv at hi
  rw [hst] at hi
  obtain ⟨-, h4, h5⟩ := hi
  unfold serverClientHello at h
  split at h
  · cases h
  · rename_i hmx
    split at h
    · cases h
    · rename_i hkeep
      split at h
      · rename_i hv
        dsimp only at h
        split at h
        · split at h
          · cases h
          · cases h
            exact ⟨rfl, hc⟩
        · cases h
          intro hv
          exact absurd rfl hv
      · rename_i hv
        cases h
        intro _
        cases hr : s.haveHrr with
        | false => exact h4 hc hr
        | true =>
          have := h5 hc hr
          simp [hr, this] at hkeep
          simp [hkeep] at hv

theorem off_active {s : S} (h : off s) : (ccsActive (ccsReady s)).ready = true ∧
    (ccsActive (ccsReady s)).allow = true ∧
    (ccsActive (ccsReady s)).active = (ccsActive (ccsReady s)).recvCcs ∧
    (ccsActive (ccsReady s)).recvCcs = false := by
  obtain ⟨h1, h2, h3, h4⟩ := h
  simp [ccsActive, ccsReady, h2, h4]

theorem kinv_process {c : Cfg} {s s' : S} {m : Msg} {log : List Item}
    (hi : KInv c s log) (hfin : ∀ b, m = .finished b → s.ver = .tls13 ∨ s.recvCcs = true)
    (h : process c s m = some s') : KInv c s' (log ++ [.rx m]) := by
  unfold process at h
  split at h
  · rename_i hst
    split at h
    · cases h
    · rename_i hsu
      simp only [Bool.or_eq_true, not_or, Bool.not_eq_true] at hsu
      exact kinv_hello_s hsu.1 hi hst h
  · rename_i hst
    split at h
    · cases h
    · rename_i hsu
      simp only [Bool.or_eq_true, not_or, Bool.not_eq_true', Bool.not_eq_false] at hsu
      exact kinv_hello_c hsu.1 hi hst h
  · split at h
    · cases h
    · rename_i hv
      have hv' : s.ver = .tls13 := by simpa using hv
      split at h <;> (cases h; exact fun hx => absurd hv' hx)
  · rename_i hst
    unfold KInv at hi
    rw [hst] at hi
    split at h
    · rename_i hv
      have hv' : s.ver = .tls13 := by simpa using hv
      unfold recvCertificate13 at h
      dsimp only at h
      repeat' split at h
      any_goals (cases h; done)
      all_goals (cases h; exact fun hx => absurd hv' hx)
    · unfold recvCertificate12 at h
      dsimp only at h
      repeat' split at h
      any_goals (cases h; done)
      all_goals (cases h; exact hi)
  · rename_i hst
    unfold KInv at hi
    rw [hst] at hi
    repeat' split at h
    any_goals (cases h; done)
    all_goals (cases h; exact hi)
  · rename_i hst
    unfold KInv at hi
    rw [hst] at hi
    repeat' split at h
    any_goals (cases h; done)
    all_goals (cases h; exact hi)
  · rename_i hst
    unfold KInv at hi
    rw [hst] at hi
    repeat' split at h
    any_goals (cases h; done)
    all_goals (cases h; exact hi)
  · rename_i hst
    unfold KInv at hi
    rw [hst] at hi
    split at h
    · cases h
    · split at h
      · cases h; exact hi
      · cases h
        intro hv
        obtain ⟨h1, h2, h3, h4⟩ := off_active (hi hv)
        exact ⟨h1, h2, h3, fun hx => by
          have hx' : (ccsActive (ccsReady s)).recvCcs = true := hx
          rw [h4] at hx'; cases hx'⟩
  · rename_i hst
    unfold KInv at hi
    rw [hst] at hi
    split at h
    · cases h
    · split at h
      · rename_i hv
        have hv' : s.ver = .tls13 := by simpa using hv
        cases h; exact fun hx => absurd hv' hx
      · cases h
        intro hv
        obtain ⟨h1, h2, h3, h4⟩ := off_active (hi hv)
        exact ⟨h1, h2, h3, fun hx => by
          have hx' : (ccsActive (ccsReady s)).recvCcs = true := hx
          rw [h4] at hx'; cases hx'⟩
  · rename_i hst
    unfold KInv at hi
    rw [hst] at hi
    split at h
    · cases h
    · cases h
      intro hv
      obtain ⟨h1, h2, h3, h4⟩ := hi hv
      refine ⟨rfl, rfl, by simp [ccsActive, ccsReady, h2], fun hx => ?_⟩
      have hx' : s.recvCcs = true := hx
      refine CcsOk.of_exc ?_ (by simp [h3 hx'])
      refine Classical.byContradiction fun hn => ?_
      have := (h4 hn).2.1
      rw [this] at hx'; cases hx'
  · rename_i macOk hst
    have hmac : macOk = true := by
      cases macOk
      · simp [recvFinished] at h
      · rfl
    subst hmac
    unfold KInv at hi
    rw [hst] at hi
    split at h
    · rename_i hv
      have hv' : s.ver = .tls13 := by simpa using hv
      cases hc : c.isClient <;>
        simp only [recvFinished, hc, if_true, if_false, Bool.not_true, Bool.false_eq_true,
          Option.map_some] at h <;> split at h <;> cases h <;> exact fun hx => absurd hv' hx
    · rename_i hv
      have hv' : s.ver ≠ .tls13 := by simpa using hv
      obtain ⟨-, -, -, hok⟩ := hi hv'
      have hok := hok ((hfin true rfl).resolve_left hv')
      cases hc : c.isClient with
      | true =>
        simp only [recvFinished, hc, if_true, Bool.not_true, Bool.false_eq_true, if_false,
          Option.map_some] at h
        split at h
        · rename_i hr
          have hr' : s.isResume = true := hr
          cases h
          exact fun _ => ⟨fun _ => hok.fin rfl, fun hx => absurd (hc.trans hr'.symm) hx⟩
        · cases h
          exact fun _ => hok.fin rfl
      | false =>
        simp only [recvFinished, hc, if_false, Bool.not_true, Bool.false_eq_true,
          Option.map_some] at h
        split at h
        · cases h
          exact fun _ => hok.fin rfl
        · rename_i hr
          have hr' : s.isResume = false := by simpa using hr
          split at h
          · cases h
            exact fun _ => ⟨fun _ => hok.fin rfl, fun hx => absurd (hc.trans hr'.symm) hx⟩
          · cases h
            exact fun _ => ⟨fun _ => hok.fin rfl, fun hx => absurd (hc.trans hr'.symm) hx⟩
  · cases h

theorem kinv_tx {c : Cfg} {s s' : S} {out log : List Item}
    (hm : (c.isClient = false ∧ SInv c s log) ∨ (c.isClient = true ∧ CInv c s log))
    (hi : KInv c s log) (h : tx c s = some (s', out)) : KInv c s' (log ++ out) := by
  unfold tx at h
  unfold SInv CInv at hm
  unfold KInv at hi
  split at h
  · rename_i hst
    rw [hst] at hi
    obtain ⟨h1, h2, h3⟩ := hi
    split at h
    · cases h
    · rename_i hc
      have hc' : c.isClient = true := by simpa using hc
      obtain ⟨h1, h4, h5, h6⟩ := h1 hc'
      dsimp only at h
      have hno : ∀ P : Prop, c.isClient = false → P := fun P hx => by rw [hc'] at hx; cases hx
      split at h
      · rename_i hb
        simp only [Bool.and_eq_true] at hb
        cases h
        refine ⟨fun _ => ⟨h1, h4, fun hr => by simp [h5 hr], fun hx => ?_⟩, fun hx => hno _ hx,
          fun hx => hno _ hx⟩
        rw [hx] at hb; cases hb.1
      · cases h
        exact ⟨fun _ => ⟨h1, h4, fun hr => by simp [h5 hr], h6⟩, fun hx => hno _ hx,
          fun hx => hno _ hx⟩
  · rename_i hst
    rw [hst] at hi
    obtain ⟨h0, h1⟩ := hi
    dsimp only at h
    split at h
    · cases h
      exact fun hx => absurd h0 hx
    · cases h
      refine ⟨fun hx => ?_, fun _ hx => ?_, fun _ _ => h0⟩
      · rw [h1] at hx; cases hx
      · cases hx
  · rename_i hst
    rw [hst] at hi hm
    obtain ⟨hcl, -⟩ := hm.resolve_right fun hx => hx.2
    split at h
    · rename_i hv
      have hv' : s.ver = .tls13 := by simpa using hv
      split at h <;> cases h <;> exact fun hx => absurd hv' hx
    · cases h
      unfold afterServerHello
      split
      · rename_i hr
        split <;> exact fun hx => ⟨fun e => (by rw [hcl] at e; rw [hr] at e; cases e), fun _ => hi hx⟩
      · repeat' split
        all_goals exact hi
  · rename_i hst
    rw [hst] at hi hm
    obtain ⟨-, -, hh, start, h13, -⟩ := hm.resolve_right fun hx => hx.2
    repeat' split at h
    all_goals (cases h; exact fun hx => absurd h13.1 hx)
  · rename_i hst
    rw [hst] at hi
    dsimp only at h
    split at h <;> cases h <;> exact hi
  · rename_i hst
    rw [hst] at hi
    split at h
    · split at h
      · rename_i hv
        have hv' : s.ver = .tls13 := by simpa using hv
        cases h
        cases c.haveCert <;> exact fun hx => absurd hv' hx
      · cases h; exact hi
    · repeat' split at h
      any_goals (cases h; done)
      all_goals (cases h; exact hi)
  · rename_i hst
    rw [hst] at hi
    repeat' split at h
    all_goals (cases h; exact hi)
  · rename_i hst
    rw [hst] at hi
    repeat' split at h
    all_goals (cases h; exact hi)
  · rename_i hst
    rw [hst] at hi hm
    obtain ⟨hcl, hh, start, ok, ske, cr, hf, -⟩ := hm.resolve_left fun hx => hx.2
    have hr : s.isResume = false := hf.1.2.2.2.2.2.1.trans hf.2.1
    split at h
    · cases h; exact hi
    · cases h
      exact fun hv => ⟨fun e => (by rw [hcl] at e; rw [hr] at e; cases e), fun _ => hi hv⟩
  · rename_i hst
    rw [hst] at hi hm
    split at h
    · rename_i hv
      have hv' : s.ver = .tls13 := by simpa using hv
      cases h; exact fun hx => absurd hv' hx
    · rename_i hv
      have hv' : s.ver ≠ .tls13 := by simpa using hv
      cases h
      rcases hm with ⟨-, -, hh, start, h13, -⟩ | ⟨hcl, hm⟩
      · exact absurd h13.1 hv'
      · rcases hm with ⟨hh, start, ok, ske, cr, hf, -⟩ | ⟨hh, start, ok, cr, h13, -⟩
        · have hr : s.isResume = false := hf.1.2.2.2.2.2.1.trans hf.2.1
          exact fun hv => ⟨fun e => (by rw [hcl] at e; rw [hr] at e; cases e), fun _ => hi hv⟩
        · exact absurd h13.1.1 hv'
  · rename_i hst
    rw [hst] at hi
    split at h
    · rename_i hv
      have hv' : s.ver = .tls13 := by simpa using hv
      dsimp only at h
      split at h <;> cases h <;> exact fun hx => absurd hv' hx
    · cases h
      exact fun hv => ⟨fun e => ((hi hv).1 e).append rfl, (hi hv).2⟩
  · rename_i hst
    rw [hst] at hi hm
    split at h
    · rename_i hv
      have hv' : s.ver = .tls13 := by simpa using hv
      cases h
      rcases hm with ⟨hcl, hm⟩ | ⟨hcl, hm⟩
      · rcases hm with ⟨hh, e, ok, h12, -⟩ | ⟨hh, hng, -⟩ | ⟨-, hnx, -, -, hhr, -⟩ | ⟨hnx, -⟩
        · exact absurd (h12.1.1.symm.trans hv') h12.1.2.1
        · exact absurd (hng.1.symm.trans hv') hng.2.1
        · rw [hnx]
          refine ⟨fun hx => ?_, fun _ hx => ?_, fun _ _ => hv'⟩
          · rw [hcl] at hx; cases hx
          · have hx' : s.haveHrr = false := hx
            rw [hhr] at hx'; cases hx'
        · rw [hnx]
          exact fun hx => absurd hv' hx
      · rcases hm with ⟨hh, start, ok, ske, cr, hf, -⟩ | ⟨hh, start, hng, -⟩
        · exact absurd (hf.1.1.symm.trans hv') hf.1.2.1
        · exact absurd (hng.1.symm.trans hv') hng.2.1
    · cases h
      exact fun hv => ⟨fun e => ((hi hv).1 e).append rfl, (hi hv).2⟩
  · rename_i hst
    rw [hst] at hi
    split at h
    · rename_i hv
      have hv' : s.ver = .tls13 := by simpa using hv
      split at h
      · cases h
        exact fun hx => absurd hv' hx
      · cases h
        cases s.isNeedClientCert <;> exact fun hx => absurd hv' hx
    · split at h
      · rename_i hcl
        split at h
        · rename_i hr
          cases h
          exact fun hv => ((hi hv).1 (hcl.trans hr.symm)).append rfl
        · rename_i hr
          have hr' : s.isResume = false := by simpa using hr
          have hne : c.isClient ≠ s.isResume := by rw [hcl, hr']; simp
          split at h
          · cases h
            intro hv
            have := (hi hv).2 hne
            refine ⟨this.2.2.1, this.2.2.2, fun hx => ?_, fun _ => this⟩
            have hx' : s.recvCcs = true := hx
            rw [this.2.1] at hx'; cases hx'
          · cases h
            intro hv
            obtain ⟨h1, h2, h3, h4⟩ := off_active ((hi hv).2 hne)
            exact ⟨h1, h2, h3, fun hx => by
              have hx' : (ccsActive (ccsReady s)).recvCcs = true := hx
              rw [h4] at hx'; cases hx'⟩
      · rename_i hcl
        have hcl' : c.isClient = false := by simpa using hcl
        split at h
        · rename_i hr
          have hne : c.isClient ≠ s.isResume := by rw [hcl', hr]; simp
          cases h
          intro hv
          obtain ⟨h1, h2, h3, h4⟩ := (hi hv).2 hne
          refine ⟨rfl, rfl, ?_, fun hx => ?_⟩
          · simp [ccsReady, ccsActive, h2, h4]
          · have hx' : s.recvCcs = true := hx
            rw [h2] at hx'; cases hx'
        · rename_i hr
          have hr' : s.isResume = false := by simpa using hr
          cases h
          exact fun hv => ((hi hv).1 (hcl'.trans hr'.symm)).append rfl
  · cases h

theorem kinv_step {c : Cfg} {s s' : S} {e : Ev} {out log : List Item}
    (hm : (c.isClient = false ∧ SInv c s log) ∨ (c.isClient = true ∧ CInv c s log))
    (hi : KInv c s log) (h : step c s e = some (s', out)) : KInv c s' (log ++ out) := by
  cases e with
  | tx => exact kinv_tx hm hi h
  | ccs ok =>
    simp only [step] at h
    cases hr : rxCcs s ok with
    | none => simp [hr] at h
    | some s1 =>
      simp only [hr, Option.map_some, Option.some.injEq, Prod.mk.injEq] at h
      obtain ⟨h1, h2⟩ := h
      subst h1 h2
      exact kinv_ccs hi hr
  | rx m ok =>
    simp only [step] at h
    cases hr : rx c s m ok with
    | none => simp [hr] at h
    | some s1 =>
      simp only [hr, Option.map_some, Option.some.injEq, Prod.mk.injEq] at h
      obtain ⟨h1, h2⟩ := h
      subst h1 h2
      have hfin : ∀ b, m = .finished b → s.ver = .tls13 ∨ s.recvCcs = true := by
        intro b hb
        subst hb
        exact (rx_finished_ccs hr).2
      rcases rx_cases hr with ⟨hm1, -, hs⟩ | ⟨-, -, h1⟩ | ⟨-, st, hcb, h1⟩
      · subst hm1 hs
        exact kinv_helloRequest hi
      · exact kinv_process hi hfin h1
      · exact kinv_process (kinv_jump hi hcb) hfin h1

theorem process_active {c : Cfg} {s s' : S} {m : Msg} (h : process c s m = some s')
    (ha : s'.active = true) : s.active = true ∨ s'.st = .rFinish := by
  unfold process serverClientHello clientServerHello clientServerHello12 recvCertificate12
    recvCertificate13 recvFinished at h
  dsimp only at h
  split at h
  any_goals (cases h; done)
  all_goals
    repeat' split at h
    all_goals try (first
      | (cases h; done) | (cases h; exact .inr rfl) | (cases h; exact .inl ha)
      | (cases h; cases ha; done))
    all_goals try simp only [Option.map_some, Option.some.injEq, Option.map_none, reduceCtorEq] at h
    all_goals repeat' split at h
    all_goals first
      | (subst h; exact .inl ha)
      | (subst h; cases ha; done)

theorem tx_active {c : Cfg} {s s' : S} {out : List Item} (h : tx c s = some (s', out))
    (ha : s'.active = true) : s.active = true ∨ s'.st = .rFinish := by
  unfold tx afterServerHello at h
  dsimp only at h
  split at h
  any_goals (cases h; done)
  all_goals
    repeat' split at h
    all_goals try (first
      | (cases h; done) | (cases h; exact .inr rfl) | (cases h; exact .inl ha)
      | (cases h; cases ha; done))

theorem step_active {c : Cfg} {s s' : S} {e : Ev} {out log : List Item} (hi : KInv c s log)
    (h : step c s e = some (s', out)) (hver : s'.ver ≠ .tls13) (ha : s'.active = true) :
    s.active = true ∨ s'.st = .rFinish := by
  cases e with
  | tx => exact tx_active h ha
  | ccs ok =>
    simp only [step] at h
    cases hr : rxCcs s ok with
    | none => simp [hr] at h
    | some s1 =>
      simp only [hr, Option.map_some, Option.some.injEq, Prod.mk.injEq] at h
      obtain ⟨h1, -⟩ := h
      subst h1
      unfold rxCcs at hr
      split at hr
      · cases hr
      · rename_i hrecv
        repeat' split at hr
        any_goals (cases hr; done)
        cases hr
        simp only [Bool.or_eq_true] at ha
        rcases ha with ha | ha
        · exact .inl ha
        · have hver' : s.ver ≠ .tls13 := hver
          unfold KInv at hi
          simp only [Bool.not_eq_true', Bool.not_eq_false] at hrecv
          refine .inr ?_
          show s.st = .rFinish
          cases hst : s.st <;> simp [hst, St.isRecv] at hrecv <;> simp only [hst] at hi
          case rFinish => rfl
          case rNewSessionTicket => rw [(hi hver').1] at ha; cases ha
          case rServerHello | rClientHello =>
            exfalso
            obtain ⟨h1, h2, h3⟩ := hi
            cases hc : c.isClient with
            | true => rw [(h1 hc).1] at ha; cases ha
            | false =>
              cases hh : s.haveHrr with
              | true => exact hver' (h3 hc hh)
              | false => rw [(h2 hc hh).2.2.1] at ha; cases ha
          all_goals (rw [(hi hver').2.2.1] at ha; cases ha)
  | rx m ok =>
    simp only [step] at h
    cases hr : rx c s m ok with
    | none => simp [hr] at h
    | some s1 =>
      simp only [hr, Option.map_some, Option.some.injEq, Prod.mk.injEq] at h
      obtain ⟨h1, -⟩ := h
      subst h1
      rcases rx_cases hr with ⟨-, -, hs⟩ | ⟨-, -, h1⟩ | ⟨-, st, hcb, h1⟩
      · subst hs; exact .inl ha
      · exact process_active h1 ha
      · have := process_active h1 ha
        exact this

/-- All invariants of a reachable state. -/
def Inv (c : Cfg) (s : S) (log : List Item) : Prop :=
  ((c.isClient = false ∧ SInv c s log) ∨ (c.isClient = true ∧ CInv c s log)) ∧ KInv c s log

theorem inv_init (c : Cfg) : Inv c (init c) [] := by
  refine ⟨?_, kinv_init c⟩
  cases hc : c.isClient with
  | false => exact .inl ⟨rfl, sinv_init c hc⟩
  | true => exact .inr ⟨rfl, cinv_init c hc⟩

theorem inv_step {c : Cfg} {s s' : S} {e : Ev} {out log : List Item}
    (hi : Inv c s log) (h : step c s e = some (s', out)) : Inv c s' (log ++ out) := by
  refine ⟨?_, kinv_step hi.1 hi.2 h⟩
  rcases hi.1 with ⟨hc, hi⟩ | ⟨hc, hi⟩
  · exact .inl ⟨hc, sinv_step hc hi h⟩
  · exact .inr ⟨hc, cinv_step hc hi h⟩

theorem inv_run {c : Cfg} (evs : List Ev) (s s' : S)
    (log log' : List Item) (hi : Inv c s log) (h : run c evs (s, log) = some (s', log')) :
    Inv c s' log' := by
  induction evs generalizing s log with
  | nil => cases h; exact hi
  | cons e es ih =>
    unfold run at h
    split at h
    · cases h
    · rename_i s1 out hs
      exact ih s1 _ (inv_step hi hs) h

end Verif.Tls.Order
