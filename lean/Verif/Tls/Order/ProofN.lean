import Verif.Tls.Order.ProofK

namespace Verif.Tls.Order
open Spec

/-! ### At most one ChangeCipherSpec -/

def preHello (s : S) : Prop :=
  s.st = .sClientHello ∨ s.st = .rServerHello ∨ (s.st = .rClientHello ∧ s.haveHrr = false)

def post (c : Cfg) (s : S) : Prop :=
  ((s.st = .sNewSessionTicket ∨ s.st = .sChangeCipherSpec ∨ s.st = .sFinish) ∧
    c.isClient = s.isResume) ∨ s.st = .connected

def NInv (c : Cfg) (s : S) (log : List Item) : Prop :=
  ¬ (c.isClient = true ∧ c.max13 = true) → (s.ver ≠ .tls13 ∨ preHello s) →
    .rxCcs ∉ log ∨ (List.count .rxCcs log = 1 ∧ ((s.st = .rFinish ∧ s.recvCcs = true) ∨ post c s))

theorem ninv_init (c : Cfg) : NInv c (init c) [] := fun _ _ => .inl (by simp)

theorem process_finished {c : Cfg} {s s' : S} {b : Bool} (hv : s.ver ≠ .tls13)
    (h : process c s (.finished b) = some s') : post c s' ∧ s'.ver = s.ver := by
  unfold process at h
  split at h <;> (first | (cases h; done) | (rename_i hm; cases hm; done) | skip)
  rename_i b' hst hm
  have : (s.ver == Ver.tls13) = false := by simpa using hv
  simp only [this, Bool.false_eq_true, if_false] at h
  unfold recvFinished at h
  repeat' split at h
  all_goals first
    | (simp at h; done)
    | (simp only [Option.map_some, Option.some.injEq] at h
       rename_i hc
       split at h
       · subst h; rename_i hr; simp_all [post, ccsExit]
       · first
         | (subst h; rename_i hr; simp_all [post, ccsExit]; done)
         | (split at h <;> (subst h; rename_i hr _; simp_all [post, ccsExit])))

theorem process_back {c : Cfg} {s s' : S} {m : Msg} (h : process c s m = some s')
    (hp : s'.ver ≠ .tls13 ∨ preHello s') : s.ver ≠ .tls13 ∨ preHello s := by
  unfold process recvCertificate13 recvCertificate12 recvFinished at h
  split at h
  · rename_i hst
    split at h
    · cases h
    · unfold serverClientHello at h
      split at h
      · cases h
      · split at h
        · cases h
        · rename_i hk
          cases hh : s.haveHrr with
          | false => exact .inr (.inr (.inr ⟨hst, hh⟩))
          | true =>
            left
            dsimp only at h
            split at h
            · rename_i hv
              split at h
              · split at h
                · cases h
                · rename_i hx; exact absurd hh hx
              · cases h
                simp [preHello] at hp
            · rename_i hv
              cases h
              intro hx
              simp [hh, hx] at hk
              simp [hk] at hv
  · rename_i hst
    exact .inr (.inr (.inl hst))
  all_goals
    try dsimp only at h
    repeat' split at h
    all_goals first
      | (cases h; done)
      | (cases h; exact hp.elim .inl fun hx => by simp [preHello] at hx)
      | (simp at h; done)
      | (simp only [Option.map_some, Option.some.injEq] at h
         repeat' split at h
         all_goals (subst h; exact hp.elim .inl fun hx => by simp [preHello] at hx))

theorem tx_back {c : Cfg} {s s' : S} {out log : List Item}
    (hm : (c.isClient = false ∧ SInv c s log) ∨ (c.isClient = true ∧ CInv c s log))
    (h : tx c s = some (s', out))
    (hp : s'.ver ≠ .tls13 ∨ preHello s') : s.ver ≠ .tls13 ∨ preHello s := by
  unfold tx afterServerHello at h
  dsimp only at h
  split at h
  · rename_i hst; exact .inr (.inl hst)
  case h_12 =>
    rename_i hst
    unfold SInv CInv at hm
    rw [hst] at hm
    split at h
    · rename_i hv
      have hv' : s.ver = .tls13 := by simpa using hv
      cases h
      rcases hm with ⟨hcl, hm⟩ | ⟨hcl, hm⟩
      · rcases hm with ⟨hh, e, ok, h12, -⟩ | ⟨hh, hng, -⟩ | ⟨-, hnx, -, -, hhr, -⟩ | ⟨hnx, -⟩
        · exact absurd (h12.1.1.symm.trans hv') h12.1.2.1
        · exact absurd (hng.1.symm.trans hv') hng.2.1
        · refine hp.elim .inl fun hx => ?_
          simp [preHello, hnx, hhr] at hx
        · refine hp.elim .inl fun hx => ?_
          simp [preHello, hnx] at hx
      · rcases hm with ⟨hh, start, ok, ske, cr, hf, -⟩ | ⟨hh, start, hng, -⟩
        · exact absurd (hf.1.1.symm.trans hv') hf.1.2.1
        · exact absurd (hng.1.symm.trans hv') hng.2.1
    · cases h
      exact hp.elim .inl fun hx => by simp [preHello] at hx
  all_goals
    repeat' split at h
    all_goals first
      | (cases h; done)
      | (cases h; exact hp.elim .inl fun hx => by simp [preHello] at hx)
      | skip
  all_goals
    cases h
    refine hp.elim .inl fun hx => ?_
    simp [preHello] at hx
    try (split at hx <;> simp at hx)

theorem tx_no_ccs {c : Cfg} {s s' : S} {out : List Item} (h : tx c s = some (s', out)) :
    .rxCcs ∉ out := by
  unfold tx at h
  dsimp only at h
  repeat' split at h
  all_goals first | (cases h; done) | (cases h; simp; done) | skip
  all_goals (cases h; simp [compat]; try (split <;> simp))

theorem tx_post {c : Cfg} {s s' : S} {out : List Item} (h : tx c s = some (s', out))
    (hv : s.ver ≠ .tls13) (hp : post c s) : post c s' := by
  have hv' : (s.ver == Ver.tls13) = false := by simpa using hv
  rcases hp with ⟨hst, he⟩ | hst
  · unfold tx at h
    rcases hst with hst | hst | hst <;> simp only [hst, hv', Bool.false_eq_true, if_false] at h
    · cases h; exact .inl ⟨.inr (.inl rfl), he⟩
    · cases h; exact .inl ⟨.inr (.inr rfl), he⟩
    · repeat' split at h
      all_goals first
        | (cases h; exact .inr rfl)
        | (exfalso; simp_all; done)
  · unfold tx at h
    simp only [hst] at h
    cases h

theorem ninv_step {c : Cfg} {s s' : S} {e : Ev} {out log : List Item} (hi : Inv c s log)
    (hn : NInv c s log) (h : step c s e = some (s', out)) : NInv c s' (log ++ out) := by
  intro hm hp
  cases e with
  | tx =>
    have h : tx c s = some (s', out) := h
    have hb := tx_back hi.1 h hp
    have ho := tx_no_ccs h
    rcases hn hm hb with hn | ⟨hcnt, hn⟩
    · exact .inl (by simp [hn, ho])
    · refine .inr ⟨by simp [hcnt, List.count_eq_zero.mpr ho], .inr ?_⟩
      rcases hn with ⟨hst, -⟩ | hpost
      · unfold tx at h
        simp only [hst] at h
        cases h
      · refine tx_post h ?_ hpost
        rcases hb with hb | hb
        · exact hb
        · rcases hpost with ⟨h1, -⟩ | h1 <;> rcases hb with hb | hb | ⟨hb, -⟩ <;> rw [hb] at h1 <;>
            simp at h1
  | ccs ok =>
    simp only [step] at h
    cases hr : rxCcs s ok with
    | none => simp [hr] at h
    | some s1 =>
      simp only [hr, Option.map_some, Option.some.injEq, Prod.mk.injEq] at h
      obtain ⟨h1, h2⟩ := h
      subst h1 h2
      have hk := hi.2
      unfold rxCcs at hr
      split at hr
      · cases hr
      · rename_i hrecv
        split at hr
        · cases hr
        · rename_i hready
          split at hr
          · cases hr
          · split at hr
            · cases hr
            · rename_i hdup
              cases hr
              simp only [Bool.not_eq_true', Bool.not_eq_false] at hrecv hready
              have hb : s.ver ≠ .tls13 ∨ preHello s := hp
              unfold KInv at hk
              have hst : s.st = .rFinish ∧ s.ver ≠ .tls13 := by
                cases hst : s.st <;> simp [hst, St.isRecv] at hrecv <;> simp only [hst] at hk
                case rFinish => exact ⟨rfl, hb.resolve_right (by simp [preHello, hst])⟩
                case rNewSessionTicket =>
                  have := hk (hb.resolve_right (by simp [preHello, hst]))
                  have := (this.2.2.2 fun hx => hm ⟨hx.1, hx.2.1⟩).1
                  rw [hready] at this; cases this
                case rServerHello | rClientHello =>
                  exfalso
                  obtain ⟨h1, h2, h3⟩ := hk
                  cases hc : c.isClient with
                  | true =>
                    have hx : c.max13 = false := by
                      cases hx : c.max13 with
                      | false => rfl
                      | true => exact absurd ⟨hc, hx⟩ hm
                    have := ((h1 hc).2.2.2 hx).1
                    rw [hready] at this; cases this
                  | false =>
                    cases hh : s.haveHrr with
                    | false =>
                      have := (h2 hc hh).1
                      rw [hready] at this; cases this
                    | true =>
                      rcases hb with hb | hb
                      · exact hb (h3 hc hh)
                      · have := hi.1
                        simp_all [preHello, SInv]
                all_goals
                  have := (hk (hb.resolve_right (by simp [preHello, hst]))).1
                  rw [hready] at this; cases this
              have hrc : s.recvCcs = false := by
                cases hx : s.recvCcs with
                | false => rfl
                | true => simp [hx, hst.2] at hdup
              refine .inr ⟨?_, .inl ⟨hst.1, rfl⟩⟩
              rcases hn hm hb with hn | ⟨-, hn⟩
              · simp [List.count_eq_zero.mpr hn]
              · rcases hn with ⟨-, hx⟩ | hx
                · rw [hrc] at hx; cases hx
                · simp [post, hst.1] at hx
  | rx m ok =>
    simp only [step] at h
    cases hr : rx c s m ok with
    | none => simp [hr] at h
    | some s1 =>
      simp only [hr, Option.map_some, Option.some.injEq, Prod.mk.injEq] at h
      obtain ⟨h1, h2⟩ := h
      subst h1 h2
      have hrecv : s.st.isRecv = true := by
        cases hx : s.st.isRecv with
        | true => rfl
        | false => simp [rx, hx] at hr
      have hb : s.ver ≠ .tls13 ∨ preHello s := by
        rcases rx_cases hr with ⟨-, -, hs⟩ | ⟨-, -, h1⟩ | ⟨-, st, hcb, h1⟩
        · subst hs; exact hp
        · exact process_back h1 hp
        · refine (process_back h1 hp).elim .inl fun hx => ?_
          unfold checkCb at hcb
          repeat' split at hcb
          all_goals first | (cases hcb; done) | (cases hcb; simp [preHello] at hx)
      rcases hn hm hb with hn | ⟨hcnt, hn⟩
      · exact .inl (by simp [hn])
      · refine .inr ⟨by simp [hcnt], ?_⟩
        rcases hn with ⟨hst, hrc⟩ | hpost
        · have hv : s.ver ≠ .tls13 := hb.resolve_right (by simp [preHello, hst])
          rcases rx_cases hr with ⟨-, -, hs⟩ | ⟨-, he, h1⟩ | ⟨-, st, hcb, h1⟩
          · subst hs; exact .inl ⟨hst, hrc⟩
          · rw [hst] at he
            cases m <;> simp [expected] at he
            exact .inr (process_finished hv h1).1
          · unfold checkCb at hcb
            rw [hst] at hcb
            cases m <;> simp at hcb
        · rcases hpost with ⟨h1, -⟩ | h1
          · rcases h1 with h1 | h1 | h1 <;> rw [h1] at hrecv <;> cases hrecv
          · rw [h1] at hrecv; cases hrecv

theorem ninv_run {c : Cfg} (evs : List Ev) (s s' : S)
    (log log' : List Item) (hi : Inv c s log) (hn : NInv c s log)
    (h : run c evs (s, log) = some (s', log')) : NInv c s' log' := by
  induction evs generalizing s log with
  | nil => cases h; exact hn
  | cons e es ih =>
    unfold run at h
    split at h
    · cases h
    · rename_i s1 out hs
      exact ih s1 _ (inv_step hi hs) (ninv_step hi hn hs) h

end Verif.Tls.Order
