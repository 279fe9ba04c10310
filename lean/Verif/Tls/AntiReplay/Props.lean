import Verif.Tls.AntiReplay.Proof
/-!
C01: DTLS anti-replay. The specification below does not use the window at all: it is the list of
sequence numbers accepted since the last reset.
-/
namespace Verif.Tls.AntiReplay

/-- Specification: replays are the numbers already accepted, or at least 64 older than one accepted. -/
def IsReplay (accepted : List Nat) (seq : Nat) : Prop :=
  seq ∈ accepted ∨ ∃ s ∈ accepted, seq + 64 ≤ s

/-- Specification of the receiver: the sequence numbers accepted since the last reset, newest first. -/
inductive SpecStep (accepted : List Nat) : Event → List Nat → Bool → Prop
  | accept (seq : BitVec 64) : ¬ IsReplay accepted seq.toNat →
      SpecStep accepted (.record seq true) (seq.toNat :: accepted) true
  | forged (seq : BitVec 64) : SpecStep accepted (.record seq false) accepted false
  | replay (seq : BitVec 64) (auth : Bool) : IsReplay accepted seq.toNat →
      SpecStep accepted (.record seq auth) accepted false
  | reset : SpecStep accepted .reset [] false

/-- An event is within the sequence-number space that cannot wrap (DTLS numbers are < 2^48). -/
def Event.InRange : Event → Prop
  | .record seq _ => seq.toNat + 64 < 2 ^ 64
  | .reset => True

/-- Outputs of the modelled receiver over a history. -/
def outputs (w : Window) : List Event → List Bool
  | [] => []
  | e :: es => (step w e).2 :: outputs (step w e).1 es

/-- Outputs of the specification over a history. -/
inductive SpecRun : List Nat → List Event → List Bool → Prop
  | nil (acc) : SpecRun acc [] []
  | cons {acc acc' e b es bs} : SpecStep acc e acc' b → SpecRun acc' es bs →
      SpecRun acc (e :: es) (b :: bs)

theorem mem_map_toNat (hist : List (BitVec 64)) (seq : BitVec 64) :
    seq.toNat ∈ hist.map BitVec.toNat ↔ seq ∈ hist := by
  simp only [List.mem_map]
  constructor
  · rintro ⟨a, ha, he⟩
    exact (BitVec.eq_of_toNat_eq he) ▸ ha
  · intro h; exact ⟨seq, h, rfl⟩

theorem isReplay_iff_check {w hist} (h : Inv w hist) (seq : BitVec 64) :
    IsReplay (hist.map BitVec.toNat) seq.toNat ↔ check w seq = true := by
  rw [check_iff h]
  unfold IsReplay
  rw [mem_map_toNat]
  constructor
  · rintro (h | ⟨s, hs, hl⟩)
    · exact Or.inl h
    · obtain ⟨a, ha, rfl⟩ := List.mem_map.mp hs
      exact Or.inr ⟨a, ha, hl⟩
  · rintro (h | ⟨s, hs, hl⟩)
    · exact Or.inl h
    · exact Or.inr ⟨s.toNat, List.mem_map.mpr ⟨s, hs, rfl⟩, hl⟩

theorem specRun_of_inv {w hist} (h : Inv w hist) (es : List Event) (hr : ∀ e ∈ es, e.InRange) :
    SpecRun (hist.map BitVec.toNat) es (outputs w es) := by
  induction es generalizing w hist with
  | nil => exact .nil _
  | cons e es ih =>
    have hre : e.InRange := hr e (by simp)
    have hres : ∀ e ∈ es, e.InRange := fun e he => hr e (by simp [he])
    unfold outputs
    cases e with
    | reset =>
      exact .cons .reset (ih inv_reset hres)
    | record seq auth =>
      by_cases hc : check w seq = true
      · have hs : step w (.record seq auth) = (w, false) := by simp [step, hc]
        rw [hs]
        exact .cons (.replay seq auth ((isReplay_iff_check h seq).mpr hc)) (ih h hres)
      · have hc' : check w seq = false := by simpa using hc
        cases auth with
        | false =>
          have hs : step w (.record seq false) = (w, false) := by simp [step, hc']
          rw [hs]
          exact .cons (.forged seq) (ih h hres)
        | true =>
          have hs : step w (.record seq true) = (update w seq, true) := by simp [step, hc']
          rw [hs]
          refine .cons (.accept seq (fun hcon => hc ((isReplay_iff_check h seq).mp hcon))) ?_
          have := ih (inv_update h seq hre hc') hres
          simpa using this

/-- **C01.** For every history of record arrivals and resets with non-wrapping sequence numbers, the
receiver driven by the 64-bit window accepts exactly what the set-based specification accepts:
a number is refused iff it was accepted before, is at least 64 older than an accepted one,
or the record is not authentic. -/
theorem antiReplay_refines_spec (es : List Event) (hr : ∀ e ∈ es, e.InRange) :
    SpecRun [] es (outputs reset es) :=
  specRun_of_inv inv_reset es hr

/-- Histories used as concrete instances (non-vacuity): reordering, replay, jump, old record. -/
def sampleHistory : List Event :=
  [.record 5#64 true, .record 3#64 true, .record 5#64 true, .record 100#64 true,
   .record 36#64 true, .record 37#64 true, .record 37#64 true, .record 200#64 false,
   .record 101#64 true, .reset, .record 5#64 true]

example : (∀ e ∈ sampleHistory, e.InRange) ∧ outputs reset sampleHistory =
    [true, true, false, true, false, true, false, false, true, false, true] := by
  constructor
  · intro e he
    simp [sampleHistory] at he
    rcases he with rfl | rfl | rfl | rfl | rfl | rfl | rfl | rfl | rfl | rfl | rfl <;>
      simp [Event.InRange]
  · decide

/-- Sequence numbers accepted by the receiver over a history, newest first, with no reset inside. -/
def acceptedOf (w : Window) : List Event → List Nat → List Nat
  | [], acc => acc
  | .record s a :: es, acc =>
    acceptedOf (step w (.record s a)).1 es (if (step w (.record s a)).2 then s.toNat :: acc else acc)
  | .reset :: es, _ => acceptedOf reset es []

theorem accepted_nodup_aux {w hist} (h : Inv w hist) (hn : (hist.map BitVec.toNat).Nodup)
    (es : List Event) (hr : ∀ e ∈ es, e.InRange) :
    (acceptedOf w es (hist.map BitVec.toNat)).Nodup := by
  induction es generalizing w hist with
  | nil => simpa [acceptedOf] using hn
  | cons e es ih =>
    have hres : ∀ e ∈ es, e.InRange := fun e he => hr e (by simp [he])
    cases e with
    | reset =>
      have := ih inv_reset (by simp) hres
      simpa [acceptedOf] using this
    | record seq auth =>
      have hre : seq.toNat + 64 < 2 ^ 64 := hr (.record seq auth) (by simp)
      unfold acceptedOf step
      by_cases hc : check w seq = true
      · simp only [hc, if_true]
        simpa using ih h hn hres
      · have hc' : check w seq = false := by simpa using hc
        cases auth with
        | false => simp only [hc']; simpa using ih h hn hres
        | true =>
          simp only [hc']
          have hm : seq.toNat ∉ hist.map BitVec.toNat := by
            rw [mem_map_toNat]
            intro hm
            exact hc ((check_iff h seq).mpr (Or.inl hm))
          have := ih (inv_update h seq hre hc') (by simpa using ⟨by simpa using hm, hn⟩) hres
          simpa using this

/-- **C01 (headline).** In every history, no sequence number is accepted twice within one epoch. -/
theorem antiReplay_no_duplicate (es : List Event) (hr : ∀ e ∈ es, e.InRange) :
    (acceptedOf reset es []).Nodup := by
  simpa using accepted_nodup_aux inv_reset (hist := []) (by simp) es hr

example : acceptedOf reset (sampleHistory.take 9) [] = [101, 37, 100, 3, 5] := by decide

/-- The range hypothesis of C01 is necessary for the 64-bit code: a number within 64 of 2^64 is
accepted again and again (the addition `seq + 64` wraps). DTLS 1.2 numbers are 48-bit, so this is
not reachable there. -/
theorem antiReplay_wrap_counterexample :
    outputs reset [.record 100#64 true, .record (BitVec.allOnes 64) true,
      .record (BitVec.allOnes 64) true] = [true, true, true] := by
  decide

end Verif.Tls.AntiReplay
