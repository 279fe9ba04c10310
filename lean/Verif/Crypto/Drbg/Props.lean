import Verif.Crypto.Drbg.Model
/-! C19: random bytes come only from a generator that is seeded, not failed, not over-used and seeded in this process. -/
namespace Verif.Crypto.Drbg
open Verif.Common

/-! ### Specification: conditions on the trace of the mechanism and the entropy source -/

/-- What a trace (newest event first) says about the generator: the process of the last seeding, the number of outputs since,
whether it happened during the current request, and its entropy input. `none`: not seeded, or seeding has failed since. -/
structure Spec.Live where
  proc : Nat
  gens : Nat
  fresh : Bool
  ent : List Byte

def Spec.live : List Ev → Option Spec.Live
  | [] => none
  | .inst p _ _ ent _ _ :: _ => some ⟨p, 0, true, ent⟩
  | .reseed p _ _ ent _ :: tr => (Spec.live tr).map fun _ => ⟨p, 0, true, ent⟩
  | .seedFail :: _ => none
  | .uninst :: _ => none
  | .gen _ _ _ _ _ _ ok :: tr => (Spec.live tr).map fun l => { l with gens := if ok then l.gens + 1 else l.gens }
  | .request :: tr => (Spec.live tr).map fun l => { l with fresh := false }

/-- The time of the last seeding that happened while a time limit was set; 0 if there is none. -/
def Spec.stamp : List Ev → Nat
  | [] => 0
  | .inst _ t true _ _ _ :: _ => t
  | .reseed _ t true _ _ :: _ => t
  | _ :: tr => Spec.stamp tr

/-- Every use of the mechanism for output was allowed at its time. -/
def Spec.Good (cfg : Cfg) : List Ev → Prop
  | [] => True
  | .gen proc pr interval intervalTime t _ _ :: tr =>
    (∃ l, Spec.live tr = some l ∧ l.proc = proc ∧ (l.gens = 0 ∨ l.gens < interval) ∧ (pr = true → l.fresh = true) ∧
      (intervalTime ≠ 0 → l.fresh = true ∨ (t + 2 ^ 64 - Spec.stamp tr) % 2 ^ 64 ≤ intervalTime) ∧
      cfg.entMin ≤ l.ent.length) ∧ Spec.Good cfg tr
  | _ :: tr => Spec.Good cfg tr

/-- The process ids that the forks of a history give. -/
def Spec.pids : List Op → List Nat
  | [] => []
  | .fork pid :: ops => pid :: Spec.pids ops
  | _ :: ops => Spec.pids ops

/-! ### Proof -/

/-- `past`: process ids of the ancestors of the running process. -/
structure Inv (cfg : Cfg) (past : List Nat) (c : Ctx) : Prop where
  good : Spec.Good cfg c.tr
  stamp : c.lastTime = Spec.stamp c.tr
  interval : c.interval < 2 ^ 32 - 1
  fork : c.forkId ∈ past ∨ c.forkId = c.pid
  live : c.st = .ready → ∃ l, Spec.live c.tr = some l ∧ c.ctr = l.gens + 1 ∧ c.ctr < 2 ^ 32 ∧
    (c.forkId = c.pid → c.pid ∉ past → l.proc = c.proc) ∧ cfg.entMin ≤ l.ent.length

theorem getEntropy_min {cfg : Cfg} {b : Bool} {r : Option (List Byte)} {e : List Byte} (h : getEntropy cfg b r = some e) :
    cfg.entMin ≤ e.length := by
  unfold getEntropy at h
  cases r with
  | none => cases h
  | some x =>
    cases b <;> simp at h <;> obtain ⟨h, rfl⟩ := h <;> omega

/-- What an operation may change besides the trace and the state proper. -/
structure Same (c c' : Ctx) : Prop where
  pid : c'.pid = c.pid
  proc : c'.proc = c.proc
  interval : c'.interval = c.interval
  intervalTime : c'.intervalTime = c.intervalTime
  pr : c'.pr = c.pr

theorem Same.refl (c : Ctx) : Same c c := ⟨rfl, rfl, rfl, rfl, rfl⟩
theorem Same.trans {a b c : Ctx} (h1 : Same a b) (h2 : Same b c) : Same a c :=
  ⟨h2.pid.trans h1.pid, h2.proc.trans h1.proc, h2.interval.trans h1.interval, h2.intervalTime.trans h1.intervalTime, h2.pr.trans h1.pr⟩

theorem failed_inv {cfg : Cfg} {past : List Nat} {c : Ctx} (h : Inv cfg past c) :
    Inv cfg past { c with st := .error, tr := .seedFail :: c.tr } :=
  ⟨h.good, h.stamp, h.interval, h.fork, fun hc => by cases hc⟩

/-- `fresh`: seeded since the last request event. -/
def Fresh (c : Ctx) : Prop := ∃ l, Spec.live c.tr = some l ∧ l.fresh = true ∧ l.gens = 0

theorem instantiate_inv {cfg : Cfg} {past : List Nat} {c : Ctx} (h : Inv cfg past c) (e : Env) (pers : List Byte) :
    Inv cfg past (instantiate cfg e c pers).1 ∧ Same c (instantiate cfg e c pers).1 ∧
      ((instantiate cfg e c pers).2 = true → (instantiate cfg e c pers).1.st = .ready ∧ Fresh (instantiate cfg e c pers).1) := by
  unfold instantiate
  by_cases h1 : pers.length > cfg.maxPers
  · rw [if_pos h1]; exact ⟨h, Same.refl c, fun hc => by cases hc⟩
  · rw [if_neg h1]
    by_cases h2 : c.st ≠ .uninit
    · rw [if_pos h2]; exact ⟨h, Same.refl c, fun hc => by cases hc⟩
    · rw [if_neg h2]
      simp only
      cases hn : getNonce cfg e.nonce with
      | none => exact ⟨failed_inv h, ⟨rfl, rfl, rfl, rfl, rfl⟩, fun hc => by cases hc⟩
      | some q =>
        obtain ⟨nonce, add⟩ := q
        simp only
        cases he : getEntropy cfg add e.entI with
        | none => exact ⟨failed_inv h, ⟨rfl, rfl, rfl, rfl, rfl⟩, fun hc => by cases hc⟩
        | some ent =>
          simp only
          cases hok : e.okI with
          | false => exact ⟨failed_inv h, ⟨rfl, rfl, rfl, rfl, rfl⟩, fun hc => by cases hc⟩
          | true =>
            simp only [Bool.true_eq_false, if_false]
            refine ⟨⟨h.good, ?_, h.interval, h.fork, fun _ => ⟨_, rfl, rfl, by simp, fun _ _ => rfl, getEntropy_min he⟩⟩,
              ⟨rfl, rfl, rfl, rfl, rfl⟩, fun _ => ⟨by trivial, _, rfl, rfl, rfl⟩⟩
            simp only
            by_cases ht : c.intervalTime ≠ 0
            · simp [ht, Spec.stamp]
            · simp only [if_neg ht, decide_eq_false ht, Spec.stamp]; exact h.stamp

theorem uninst_inv {cfg : Cfg} {past : List Nat} {c : Ctx} (h : Inv cfg past c) : Inv cfg past (uninstantiate c) :=
  ⟨h.good, h.stamp, h.interval, h.fork, fun hc => by cases hc⟩

theorem restart_inv {cfg : Cfg} {past : List Nat} {c : Ctx} (h : Inv cfg past c) (e : Env) (hst : c.st ≠ .ready) :
    Inv cfg past (restart cfg e c).1 ∧ Same c (restart cfg e c).1 ∧
      ((restart cfg e c).2 = true → (restart cfg e c).1.st = .ready ∧ Fresh (restart cfg e c).1) := by
  unfold restart
  by_cases h1 : c.st = .error
  · rw [if_pos h1]
    simp only [uninstantiate, if_true]
    obtain ⟨i1, i2, i3⟩ := instantiate_inv (uninst_inv h) e []
    exact ⟨i1, Same.trans (b := uninstantiate c) ⟨rfl, rfl, rfl, rfl, rfl⟩ i2, i3⟩
  · rw [if_neg h1]
    have h2 : c.st = .uninit := by
      cases hs : c.st with
      | uninit => rfl
      | ready => exact absurd hs hst
      | error => exact absurd hs h1
    simp only [h2, if_true]
    exact instantiate_inv h e []

theorem ensure_inv {cfg : Cfg} {past : List Nat} {c : Ctx} (h : Inv cfg past c) (e : Env) :
    Inv cfg past (if c.st ≠ .ready then restart cfg e c else (c, true)).1 ∧
    Same c (if c.st ≠ .ready then restart cfg e c else (c, true)).1 ∧
      ((if c.st ≠ .ready then restart cfg e c else (c, true)).2 = true →
        (if c.st ≠ .ready then restart cfg e c else (c, true)).1.st = .ready) := by
  by_cases hst : c.st ≠ .ready
  · rw [if_pos hst]
    obtain ⟨h1, h2, h3⟩ := restart_inv h e hst
    exact ⟨h1, h2, fun hc => (h3 hc).1⟩
  · rw [if_neg hst]
    exact ⟨h, Same.refl c, fun _ => Decidable.not_not.1 hst⟩

theorem reseed_inv {cfg : Cfg} {past : List Nat} {c : Ctx} (h : Inv cfg past c) (e : Env) (adin : List Byte) :
    Inv cfg past (reseed cfg e c adin).1 ∧ Same c (reseed cfg e c adin).1 ∧
      ((reseed cfg e c adin).2 = true → (reseed cfg e c adin).1.st = .ready ∧ Fresh (reseed cfg e c adin).1 ∧
        (reseed cfg e c adin).1.forkId = c.pid ∧ ∀ l, Spec.live (reseed cfg e c adin).1.tr = some l → l.proc = c.proc) := by
  unfold reseed
  by_cases h1 : adin.length > cfg.maxAdin
  · rw [if_pos h1]; exact ⟨h, Same.refl c, fun hc => by cases hc⟩
  · rw [if_neg h1]
    unfold reseedBody
    obtain ⟨i1, i2, i3⟩ := ensure_inv h e
    generalize (if c.st ≠ .ready then restart cfg e c else (c, true)) = q at i1 i2 i3
    obtain ⟨d, ok⟩ := q
    simp only at i1 i2 i3 ⊢
    cases ok with
    | false => exact ⟨i1, i2, fun hc => by cases hc⟩
    | true =>
      simp only [Bool.true_eq_false, if_false]
      have hready := i3 rfl
      obtain ⟨l, l1, _⟩ := i1.live hready
      cases he : getEntropy cfg false e.entR with
      | none => exact ⟨failed_inv i1, Same.trans i2 ⟨rfl, rfl, rfl, rfl, rfl⟩, fun hc => by cases hc⟩
      | some ent =>
        simp only
        cases hok : e.okR with
        | false => exact ⟨failed_inv i1, Same.trans i2 ⟨rfl, rfl, rfl, rfl, rfl⟩, fun hc => by cases hc⟩
        | true =>
          simp only [Bool.true_eq_false, if_false]
          have hlive : Spec.live (.reseed d.proc e.tR (decide (d.intervalTime ≠ 0)) ent adin :: d.tr) = some ⟨d.proc, 0, true, ent⟩ := by
            simp [Spec.live, l1]
          refine ⟨⟨i1.good, ?_, i1.interval, .inr rfl, fun _ => ⟨_, hlive, rfl, by simp, fun _ _ => rfl, getEntropy_min he⟩⟩,
            Same.trans i2 ⟨rfl, rfl, rfl, rfl, rfl⟩, fun _ => ⟨by trivial, ⟨_, hlive, rfl, rfl⟩, i2.pid, ?_⟩⟩
          · simp only
            by_cases ht : d.intervalTime ≠ 0
            · simp [ht, Spec.stamp]
            · simp only [if_neg ht, decide_eq_false ht, Spec.stamp]; exact i1.stamp
          · intro l hl
            simp only [hlive, Option.some.injEq] at hl
            subst hl; exact i2.proc

theorem request_inv {cfg : Cfg} {past : List Nat} {c : Ctx} (h : Inv cfg past c) : Inv cfg past { c with tr := .request :: c.tr } := by
  refine ⟨h.good, h.stamp, h.interval, h.fork, fun hc => ?_⟩
  obtain ⟨l, l1, l2, l3, l4, l5⟩ := h.live hc
  exact ⟨{ l with fresh := false }, by simp [Spec.live, l1], l2, l3, l4, l5⟩

theorem generate_inv {cfg : Cfg} {past : List Nat} {c : Ctx} (h : Inv cfg past c) (hp : c.pid ∉ past) (e : Env) (n : Nat)
    (adin : List Byte) (pr : Bool) :
    Inv cfg past (generate cfg e c n adin pr).1 ∧ Same c (generate cfg e c n adin pr).1 := by
  unfold generate
  have h0 := request_inv h
  have hs0 : Same c { c with tr := .request :: c.tr } := ⟨rfl, rfl, rfl, rfl, rfl⟩
  generalize ({ c with tr := .request :: c.tr } : Ctx) = c0 at h0 hs0
  simp only
  by_cases h1 : n > cfg.maxRequest ∨ adin.length > cfg.maxAdin
  · rw [if_pos h1]; exact ⟨h0, hs0⟩
  · rw [if_neg h1]
    obtain ⟨i1, i2, i3⟩ := ensure_inv h0 e
    generalize (if c0.st ≠ .ready then restart cfg e c0 else (c0, true)) = q at i1 i2 i3
    obtain ⟨c1, ok⟩ := q
    simp only at i1 i2 i3 ⊢
    have hs1 := hs0.trans i2
    cases ok with
    | false => exact ⟨i1, hs1⟩
    | true =>
      simp only [Bool.true_eq_false, if_false]
      have hready := i3 rfl
      -- after the reseed decision
      have key : ∃ c2 ok2, (if isNeedReseed e c1 pr then reseed cfg e c1 adin else (c1, true)) = (c2, ok2) ∧ Inv cfg past c2 ∧ Same c1 c2 ∧
          (ok2 = true → c2.st = .ready ∧ ∃ l, Spec.live c2.tr = some l ∧ l.proc = c2.proc ∧ (l.gens = 0 ∨ l.gens < c2.interval) ∧
            (pr = true → l.fresh = true) ∧
            (c2.intervalTime ≠ 0 → l.fresh = true ∨ (e.tChk + 2 ^ 64 - Spec.stamp c2.tr) % 2 ^ 64 ≤ c2.intervalTime)) := by
        cases hnr : isNeedReseed e c1 pr with
        | true =>
          simp only [if_true]
          obtain ⟨r1, r2, r3⟩ := reseed_inv i1 e adin
          refine ⟨_, _, rfl, r1, r2, fun hok => ?_⟩
          obtain ⟨s1, ⟨l, l1, l2, l3⟩, s3, s4⟩ := r3 hok
          exact ⟨s1, l, l1, (s4 l l1).trans r2.proc.symm, .inl l3, fun _ => l2, fun _ => .inl l2⟩
        | false =>
          simp only [Bool.false_eq_true, if_false]
          refine ⟨_, _, rfl, i1, Same.refl c1, fun _ => ⟨hready, ?_⟩⟩
          obtain ⟨l, l1, l2, l3, l4, l5⟩ := i1.live hready
          unfold isNeedReseed at hnr
          by_cases hf : c1.forkId ≠ c1.pid
          · rw [if_pos hf] at hnr; cases hnr
          · rw [if_neg hf] at hnr
            cases pr with
            | true => simp at hnr
            | false =>
              simp only [Bool.false_eq_true, if_false] at hnr
              by_cases hc : c1.ctr > c1.interval
              · rw [if_pos hc] at hnr; cases hnr
              · rw [if_neg hc] at hnr
                refine ⟨l, l1, l4 (Decidable.not_not.1 hf) (by rw [hs1.pid]; exact hp), .inr (by omega), (fun hx => by cases hx), fun ht => .inr ?_⟩
                rw [if_pos ht] at hnr
                simp only [decide_eq_false_iff_not] at hnr
                rw [← i1.stamp]; omega
      obtain ⟨c2, ok2, k1, k2, k3, k4⟩ := key
      rw [k1]
      simp only
      have hs2 := hs1.trans k3
      cases ok2 with
      | false => exact ⟨k2, hs2⟩
      | true =>
        simp only [Bool.true_eq_false, if_false]
        obtain ⟨m1, l, m2, m3, m4, m5, m6⟩ := k4 rfl
        obtain ⟨l', n1, n2, n3, n4, n5⟩ := k2.live m1
        rw [m2, Option.some.injEq] at n1
        subst n1
        have hgood : Spec.Good cfg (.gen c2.proc pr c2.interval c2.intervalTime e.tChk n e.okG :: c2.tr) :=
          ⟨⟨l, m2, m3, m4, m5, m6, n5⟩, k2.good⟩
        have hint := k2.interval
        cases hok : e.okG with
        | false =>
          rw [hok] at hgood
          refine ⟨⟨hgood, k2.stamp, hint, k2.fork, fun _ => ⟨l, ?_, n2, n3, n4, n5⟩⟩, hs2.trans ⟨rfl, rfl, rfl, rfl, rfl⟩⟩
          simp [Spec.live, m2]
        | true =>
          rw [hok] at hgood
          simp only [Bool.true_eq_false, if_false]
          have hlt : c2.ctr + 1 < 2 ^ 32 := by rcases m4 with m4 | m4 <;> omega
          refine ⟨⟨hgood, k2.stamp, hint, k2.fork, fun _ => ⟨{ l with gens := l.gens + 1 }, ?_, ?_, ?_, n4, n5⟩⟩,
            hs2.trans ⟨rfl, rfl, rfl, rfl, rfl⟩⟩
          · simp [Spec.live, m2]
          · show (c2.ctr + 1) % 2 ^ 32 = l.gens + 1 + 1
            rw [Nat.mod_eq_of_lt hlt]; omega
          · show (c2.ctr + 1) % 2 ^ 32 < 2 ^ 32
            exact Nat.mod_lt _ (by decide)

theorem genLoop_inv {cfg : Cfg} {past : List Nat} (env : Nat → Env) (adin : List Byte) : ∀ (fuel i left block : Nat) (c : Ctx),
    Inv cfg past c → c.pid ∉ past → Inv cfg past (genLoop cfg env adin fuel i left block c).1 ∧ Same c (genLoop cfg env adin fuel i left block c).1
  | 0, _, _, _, c, h, _ => ⟨h, Same.refl c⟩
  | fuel + 1, i, left, block, c, h, hp => by
    rw [genLoop]
    by_cases h0 : left = 0
    · rw [if_pos h0]; exact ⟨h, Same.refl c⟩
    · rw [if_neg h0]
      simp only
      obtain ⟨i1, i2⟩ := generate_inv h hp (env i) (if left > block then block else left) adin c.pr
      generalize generate cfg (env i) c (if left > block then block else left) adin c.pr = q at i1 i2
      obtain ⟨c1, ok⟩ := q
      simp only at i1 i2 ⊢
      cases ok with
      | false => exact ⟨i1, i2⟩
      | true =>
        simp only [Bool.true_eq_false, if_false]
        obtain ⟨j1, j2⟩ := genLoop_inv env adin fuel (i + 1) _ _ c1 i1 (by rw [i2.pid]; exact hp)
        exact ⟨j1, i2.trans j2⟩

theorem run_inv {cfg : Cfg} : ∀ (ops : List Op) (past : List Nat) (c : Ctx), Inv cfg past c → (c.pid :: past).Nodup →
    (∀ p ∈ Spec.pids ops, p ∉ c.pid :: past) → (Spec.pids ops).Nodup → Spec.Good cfg (run cfg c ops).tr
  | [], _, c, h, _, _, _ => h.good
  | op :: ops, past, c, h, hn, hnew, hnd => by
    rw [run]
    have hp : c.pid ∉ past := (List.nodup_cons.1 hn).1
    have fin : ∀ c', Inv cfg past c' → Same c c' → Spec.pids (op :: ops) = Spec.pids ops → Spec.Good cfg (run cfg c' ops).tr := by
      intro c' h' hs he
      refine run_inv ops past c' h' (by rw [hs.pid]; exact hn) ?_ (by rw [← he]; exact hnd)
      intro p hpp; rw [hs.pid]; exact hnew p (by rw [he]; exact hpp)
    cases op with
    | instantiate p e => obtain ⟨i1, i2, _⟩ := instantiate_inv h e p; exact fin _ i1 i2 rfl
    | reseed a e => obtain ⟨i1, i2, _⟩ := reseed_inv h e a; exact fin _ i1 i2 rfl
    | generate n a pr e => obtain ⟨i1, i2⟩ := generate_inv h hp e n a pr; exact fin _ i1 i2 rfl
    | generateBytes n a env =>
      have : Inv cfg past (generateBytes cfg env c n a).1 ∧ Same c (generateBytes cfg env c n a).1 := by
        unfold generateBytes
        split
        · exact ⟨h, Same.refl c⟩
        · exact genLoop_inv env a _ _ _ _ c h hp
      exact fin _ this.1 this.2 rfl
    | uninstantiate => exact fin _ (uninst_inv h) ⟨rfl, rfl, rfl, rfl, rfl⟩ rfl
    | setInterval v =>
      have hi : Inv cfg past (setInterval c v) ∧ (setInterval c v).pid = c.pid := by
        unfold setInterval
        split
        · exact ⟨h, rfl⟩
        · exact ⟨⟨h.good, h.stamp, by simp only; omega, h.fork, h.live⟩, rfl⟩
      refine run_inv ops past _ hi.1 ?_ ?_ hnd
      · show ((setInterval c v).pid :: past).Nodup
        rw [hi.2]; exact hn
      · show ∀ p ∈ Spec.pids ops, p ∉ (setInterval c v).pid :: past
        rw [hi.2]; exact hnew
    | setIntervalTime v =>
      exact run_inv ops past { c with intervalTime := v } ⟨h.good, h.stamp, h.interval, h.fork, h.live⟩ hn hnew hnd
    | setPr v =>
      exact run_inv ops past { c with pr := v } ⟨h.good, h.stamp, h.interval, h.fork, h.live⟩ hn hnew hnd
    | fork pid =>
      have hpid := hnew pid (by simp [Spec.pids])
      have hnd' := List.nodup_cons.1 hnd
      refine run_inv ops (c.pid :: past) { c with pid := pid, proc := c.proc + 1 } ⟨h.good, h.stamp, h.interval, .inl ?_, ?_⟩ ?_ ?_ hnd'.2
      · rcases h.fork with hf | hf
        · exact List.mem_cons_of_mem _ hf
        · rw [hf]; exact List.mem_cons_self
      · intro hst
        obtain ⟨l, l1, l2, l3, l4, l5⟩ := h.live hst
        refine ⟨l, l1, l2, l3, fun hx _ => ?_, l5⟩
        exfalso
        simp only at hx
        apply hpid
        rw [← hx]
        rcases h.fork with hf | hf
        · exact List.mem_cons_of_mem _ hf
        · rw [hf]; exact List.mem_cons_self
      · exact List.nodup_cons.2 ⟨hpid, hn⟩
      · intro p hpp hc
        rcases List.mem_cons.1 hc with rfl | hc
        · exact hnd'.1 hpp
        · exact hnew p (by simp [Spec.pids, hpp]) hc

/-- C19. For every history of calls on a new context, with arbitrary failures of the entropy source and of the mechanism and
with forks, in which no process id comes back: every output of the mechanism was preceded by a successful seeding in the same
process with at least the required amount of entropy, with no failed seeding and no uninstantiation in between, and with
fewer outputs in between than the reseed interval; the seeding belongs to the same request if prediction resistance is
asked for or the time limit has run out. -/
theorem output_allowed (cfg : Cfg) (interval intervalTime pid : Nat) (ops : List Op) (hi : interval < 2 ^ 32 - 1)
    (hpid : (pid :: Spec.pids ops).Nodup) : Spec.Good cfg (run cfg (new interval intervalTime pid) ops).tr := by
  have h := List.nodup_cons.1 hpid
  refine run_inv ops [] _ ⟨trivial, rfl, hi, .inr rfl, fun hc => by cases hc⟩ (by simp) ?_ h.2
  intro p hp hc
  simp only [List.mem_singleton] at hc
  subst hc
  exact h.1 hp

def envOk : Env := ⟨some [1#8], some [2#8], some [3#8], true, true, true, 0, 0, 0⟩
def cfgEx : Cfg := ⟨1, 8, 1, 8, true, 8, 8, 8⟩

/-- The number of bytes that the events of a trace have produced. -/
def Spec.produced : List Ev → Nat
  | [] => 0
  | .gen _ _ _ _ _ len true :: tr => len + Spec.produced tr
  | _ :: tr => Spec.produced tr

/-- `c'` is reached from `c` by events that produce `n` bytes. -/
def Adds (c c' : Ctx) (n : Nat) : Prop := ∃ evs, c'.tr = evs ++ c.tr ∧ Spec.produced evs = n

theorem produced_append (a b : List Ev) : Spec.produced (a ++ b) = Spec.produced a + Spec.produced b := by
  induction a with
  | nil => simp [Spec.produced]
  | cons e a ih =>
    rw [List.cons_append]
    cases e with
    | gen p pr i it t len ok => cases ok <;> simp [Spec.produced, ih, Nat.add_assoc]
    | _ => simp [Spec.produced, ih]

theorem Adds.trans {a b c : Ctx} {m n : Nat} (h1 : Adds a b m) (h2 : Adds b c n) : Adds a c (m + n) := by
  obtain ⟨x, x1, x2⟩ := h1
  obtain ⟨y, y1, y2⟩ := h2
  exact ⟨y ++ x, by rw [y1, x1, List.append_assoc], by rw [produced_append]; omega⟩

theorem Adds.refl (c : Ctx) : Adds c c 0 := ⟨[], rfl, rfl⟩

theorem instantiate_adds (cfg : Cfg) (e : Env) (c : Ctx) (p : List Byte) : Adds c (instantiate cfg e c p).1 0 := by
  unfold instantiate
  split
  · exact Adds.refl c
  · split
    · exact Adds.refl c
    · simp only
      split
      · exact ⟨[.seedFail], rfl, rfl⟩
      · split
        · exact ⟨[.seedFail], rfl, rfl⟩
        · split
          · exact ⟨[.seedFail], rfl, rfl⟩
          · exact ⟨[_], rfl, rfl⟩

theorem restart_adds (cfg : Cfg) (e : Env) (c : Ctx) : Adds c (restart cfg e c).1 0 := by
  unfold restart
  have h1 : Adds c (if c.st = .error then uninstantiate c else c) 0 := by
    split
    · exact ⟨[.uninst], rfl, rfl⟩
    · exact Adds.refl c
  simp only
  generalize (if c.st = .error then uninstantiate c else c) = d at h1
  split
  · exact h1.trans (instantiate_adds cfg e d [])
  · exact h1

theorem ensure_adds (cfg : Cfg) (e : Env) (c : Ctx) : Adds c (if c.st ≠ .ready then restart cfg e c else (c, true)).1 0 := by
  split
  · exact restart_adds cfg e c
  · exact Adds.refl c

theorem reseed_adds (cfg : Cfg) (e : Env) (c : Ctx) (a : List Byte) : Adds c (reseed cfg e c a).1 0 := by
  unfold reseed
  split
  · exact Adds.refl c
  · unfold reseedBody
    have h1 := ensure_adds cfg e c
    generalize (if c.st ≠ .ready then restart cfg e c else (c, true)) = q at h1
    obtain ⟨d, ok⟩ := q
    simp only at h1 ⊢
    split
    · exact h1
    · split
      · exact h1.trans ⟨[.seedFail], rfl, rfl⟩
      · split
        · exact h1.trans ⟨[.seedFail], rfl, rfl⟩
        · rename_i ent _ _
          refine h1.trans (n := 0) ⟨[.reseed d.proc e.tR (decide (d.intervalTime ≠ 0)) ent a], ?_, rfl⟩
          rfl

theorem generate_adds {cfg : Cfg} {e : Env} {c : Ctx} {n : Nat} {a : List Byte} {pr : Bool}
    (h : (generate cfg e c n a pr).2 = true) : Adds c (generate cfg e c n a pr).1 n ∧ n ≤ cfg.maxRequest := by
  unfold generate at h ⊢
  have h0 : Adds c { c with tr := .request :: c.tr } 0 := ⟨[.request], rfl, rfl⟩
  generalize ({ c with tr := .request :: c.tr } : Ctx) = c0 at h0 h ⊢
  simp only at h ⊢
  by_cases hl : n > cfg.maxRequest ∨ a.length > cfg.maxAdin
  · rw [if_pos hl] at h; cases h
  · rw [if_neg hl] at h ⊢
    refine ⟨?_, by omega⟩
    have h1 := h0.trans (ensure_adds cfg e c0)
    generalize (if c0.st ≠ .ready then restart cfg e c0 else (c0, true)) = q at h h1
    obtain ⟨c1, ok⟩ := q
    simp only at h h1 ⊢
    cases ok with
    | false => cases h
    | true =>
      simp only [Bool.true_eq_false, if_false] at h ⊢
      have h2 : Adds c1 (if isNeedReseed e c1 pr then reseed cfg e c1 a else (c1, true)).1 0 := by
        split
        · exact reseed_adds cfg e c1 a
        · exact Adds.refl c1
      have h2 := h1.trans h2
      generalize (if isNeedReseed e c1 pr then reseed cfg e c1 a else (c1, true)) = q at h h2
      obtain ⟨c2, ok⟩ := q
      simp only at h h2 ⊢
      cases ok with
      | false => cases h
      | true =>
        simp only [Bool.true_eq_false, if_false] at h ⊢
        cases hg : e.okG with
        | false => rw [hg] at h; cases h
        | true =>
          simp only [Bool.true_eq_false, if_false]
          have := h2.trans (n := n) (c := { c2 with ctr := (c2.ctr + 1) % 2 ^ 32, tr := .gen c2.proc pr c2.interval c2.intervalTime e.tChk n true :: c2.tr })
            ⟨[_], rfl, rfl⟩
          simpa using this

theorem genLoop_adds {cfg : Cfg} (env : Nat → Env) (a : List Byte) : ∀ (fuel i left block : Nat) (c : Ctx),
    (genLoop cfg env a fuel i left block c).2 = true → Adds c (genLoop cfg env a fuel i left block c).1 left
  | 0, _, left, _, c, h => by
    rw [genLoop] at h ⊢
    simp only [decide_eq_true_eq] at h
    subst h; exact Adds.refl c
  | fuel + 1, i, left, block, c, h => by
    rw [genLoop] at h ⊢
    by_cases h0 : left = 0
    · rw [if_pos h0]; subst h0; exact Adds.refl c
    · rw [if_neg h0] at h ⊢
      simp only at h ⊢
      cases hg : (generate cfg (env i) c (if left > block then block else left) a c.pr).2 with
      | false => rw [hg] at h; cases h
      | true =>
        have h1 := (generate_adds hg).1
        simp only [hg, Bool.true_eq_false, if_false] at h ⊢
        have h2 := h1.trans (genLoop_adds env a fuel _ _ _ _ h)
        have : (if left > block then block else left) + (left - if left > block then block else left) = left := by split <;> omega
        rwa [this] at h2

/-- C19. When a request for `n` bytes succeeds, the mechanism has produced exactly `n` bytes during it. -/
theorem generateBytes_complete (cfg : Cfg) (env : Nat → Env) (c : Ctx) (n : Nat) (adin : List Byte)
    (h : (generateBytes cfg env c n adin).2 = true) :
    ∃ evs, (generateBytes cfg env c n adin).1.tr = evs ++ c.tr ∧ Spec.produced evs = n := by
  unfold generateBytes at h ⊢
  split at h
  · cases h
  · rw [if_neg (by assumption)]
    exact genLoop_adds env adin _ _ _ _ _ h

example : (generateBytes cfgEx (fun _ => envOk) (new 100 0 1) 20 []).2 = true ∧
    (generateBytes cfgEx (fun _ => envOk) (new 100 0 1) 20 []).1.tr.length = 7 := by decide +kernel

/-- If the source and the mechanism never fail, a request within the limits succeeds, from every state. -/
theorem generate_succeeds (cfg : Cfg) (e : Env) (c : Ctx) (n : Nat) (adin : List Byte) (pr : Bool)
    (hn : n ≤ cfg.maxRequest) (ha : adin.length ≤ cfg.maxAdin)
    (hnonce : ∃ q, getNonce cfg e.nonce = some q ∧ (getEntropy cfg q.2 e.entI).isSome = true)
    (hr : (getEntropy cfg false e.entR).isSome = true) (hI : e.okI = true) (hR : e.okR = true) (hG : e.okG = true) :
    (generate cfg e c n adin pr).2 = true ∧ ∃ p i it t tr, (generate cfg e c n adin pr).1.tr = .gen p pr i it t n true :: tr := by
  obtain ⟨q, q1, q2⟩ := hnonce
  obtain ⟨ei, hei⟩ := Option.isSome_iff_exists.1 q2
  obtain ⟨er, her⟩ := Option.isSome_iff_exists.1 hr
  have hinst : ∀ c : Ctx, c.st = .uninit → (instantiate cfg e c []).2 = true ∧ (instantiate cfg e c []).1.st = .ready := by
    intro c hc
    unfold instantiate
    simp [hc, q1, hei, hI]
  have hrestart : ∀ c : Ctx, c.st ≠ .ready → (restart cfg e c).2 = true ∧ (restart cfg e c).1.st = .ready := by
    intro c hc
    unfold restart
    cases hs : c.st with
    | ready => exact absurd hs hc
    | uninit => simp only [reduceCtorEq, if_false, hs, if_true]; exact hinst c hs
    | error => simp only [if_true, uninstantiate]; exact hinst _ rfl
  have hens : ∀ c : Ctx, ∃ c', (if c.st ≠ .ready then restart cfg e c else (c, true)) = (c', true) ∧ c'.st = .ready := by
    intro c
    by_cases hc : c.st ≠ .ready
    · rw [if_pos hc]; exact ⟨_, Prod.ext rfl (hrestart c hc).1, (hrestart c hc).2⟩
    · rw [if_neg hc]; exact ⟨c, rfl, Decidable.not_not.1 hc⟩
  have hres : ∀ c : Ctx, c.st = .ready → (reseed cfg e c adin).2 = true := by
    intro c hc
    unfold reseed reseedBody
    simp [hc, her, hR, Nat.not_lt.2 ha]
  unfold generate
  simp only
  rw [if_neg (by omega)]
  obtain ⟨c1, e1, e2⟩ := hens { c with tr := .request :: c.tr }
  simp only at e1
  rw [e1]
  simp only [Bool.true_eq_false, if_false]
  have : ∃ c2, (if isNeedReseed e c1 pr then reseed cfg e c1 adin else (c1, true)) = (c2, true) := by
    cases isNeedReseed e c1 pr with
    | true => exact ⟨_, Prod.ext rfl (hres c1 e2)⟩
    | false => exact ⟨c1, rfl⟩
  obtain ⟨c2, e3⟩ := this
  rw [e3]
  simp only [hG, Bool.true_eq_false, if_false]
  exact ⟨trivial, _, _, _, _, _, rfl⟩

/-! ### A process id that comes back -/

/-- The hypothesis on process ids is needed: a context that is forked twice, so that the second child gets the process id of
the process that seeded it, gives output without a seeding in that child. -/
theorem pid_reuse : ¬ Spec.Good cfgEx (run cfgEx (new 100 0 1)
    [.generate 4 [] false envOk, .fork 2, .fork 1, .generate 4 [] false envOk]).tr := by
  intro h
  have := h.1
  obtain ⟨l, l1, l2, _⟩ := this
  have hl : Spec.live (run cfgEx (new 100 0 1) [.generate 4 [] false envOk, .fork 2, .fork 1, .generate 4 [] false envOk]).tr.tail =
      some ⟨0, 1, false, [2#8]⟩ := rfl
  have l1' : some l = some (⟨0, 1, false, [2#8]⟩ : Spec.Live) := l1.symm.trans hl
  simp only [Option.some.injEq] at l1'
  rw [l1'] at l2
  exact absurd l2 (by decide)

-- Non-vacuity: seeding, a failed reseed, recovery in a forked process.
example : ((run cfgEx (new 1 0 1) [.generate 4 [] false envOk, .reseed [] { envOk with entR := none }, .fork 2,
    .generate 3 [] false envOk]).tr.map fun e => match e with | .gen p _ _ _ _ n _ => n * 10 + p | .inst .. => 1 | .reseed .. => 2 | .seedFail => 3 | _ => 0) =
    [31, 2, 1, 0, 0, 3, 40, 1, 0] ∧ (1 :: Spec.pids [.generate 4 [] false envOk, .reseed [] { envOk with entR := none }, .fork 2,
    .generate 3 [] false envOk]).Nodup := by decide +kernel

end Verif.Crypto.Drbg
