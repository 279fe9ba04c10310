import Verif.Tls.RecWrite.Model
/-!
# C02, C51 — sequence numbers of written records
-/
namespace Verif.Tls.RecWrite
open Verif.Common

/-- A protected record is never empty (it starts with its header). -/
def Protect.NonEmpty (p : Protect) : Prop := ∀ g q t d b, p g q t d = some b → b ≠ []

/-- `a` was protected before `b`: under an earlier key, or under the same key with a smaller number. -/
def Before (a b : Rec) : Prop := a.gen < b.gen ∨ (a.gen = b.gen ∧ a.seq.toNat < b.seq.toNat)

theorem streamWrite_spec : ∀ (io : List Io) (buf : List Byte), buf ≠ [] →
    (streamWrite io buf).2.2 ++ (streamWrite io buf).2.1 = buf ∧
      ((streamWrite io buf).1 = .success ↔ (streamWrite io buf).2.1 = [])
  | [], buf, h => by simp [streamWrite, h]
  | none :: _, buf, h => by simp [streamWrite, h]
  | some n :: rest, buf, h => by
    unfold streamWrite
    simp only
    by_cases h0 : min n buf.length = 0
    · rw [if_pos h0]; simp [h]
    · rw [if_neg h0]
      by_cases h1 : min n buf.length < buf.length
      · rw [if_pos h1]
        have hne : buf.drop (min n buf.length) ≠ [] := by
          intro hc
          have := congrArg List.length hc
          rw [List.length_drop, List.length_nil] at this
          omega
        have ih := streamWrite_spec rest (buf.drop (min n buf.length)) hne
        refine ⟨?_, ih.2⟩
        rw [List.append_assoc, ih.1, List.take_append_drop]
      · rw [if_neg h1]; simp

/-- The invariant of the write side. -/
structure Inv (s : State) : Prop where
  bytes : s.wire ++ s.pending = (s.sealed.map Rec.bytes).flatten
  gens : ∀ r ∈ s.sealed, r.gen ≤ s.gen
  ordered : s.sealed.Pairwise Before
  below : s.isWrapped = false → ∀ r ∈ s.sealed, r.gen = s.gen →
    r.seq.toNat ≤ s.seq.toNat ∧ (s.pending = [] → r.seq.toNat < s.seq.toNat)
  nomax : s.isWrapped = false → s.pending ≠ [] → s.seq ≠ tlsSnMax

theorem init_inv : Inv init := by
  constructor <;> simp [init]

theorem sendRecord_inv (io : List Io) (s : State) (hne : s.pending ≠ []) (h : Inv s) : Inv (sendRecord io s).2 := by
  obtain ⟨hcat, hret⟩ := streamWrite_spec io s.pending hne
  unfold sendRecord
  simp only
  by_cases hs : (streamWrite io s.pending).1 = .success
  · have hp := hret.1 hs
    rw [if_neg (by simpa using hs)]
    simp only
    rw [hp, List.append_nil] at hcat
    refine ⟨?_, h.gens, h.ordered, ?_, ?_⟩
    · simp only [hp, List.append_nil, hcat]; exact h.bytes
    · intro hw r hr hg
      have := (h.below hw r hr hg).1
      have hmax := h.nomax hw hne
      have hlt : s.seq.toNat ≠ 2 ^ 64 - 1 := by
        intro hc
        apply hmax
        apply BitVec.eq_of_toNat_eq
        rw [hc]; rfl
      have hb := s.seq.isLt
      have : (s.seq + 1#64).toNat = s.seq.toNat + 1 := by
        rw [BitVec.toNat_add]; simp only [BitVec.toNat_ofNat]; omega
      simp only
      omega
    · intro _ hc; exact absurd hp hc
  · have hp : (streamWrite io s.pending).2.1 ≠ [] := fun hc => hs (hret.2 hc)
    rw [if_pos hs]
    refine ⟨?_, h.gens, h.ordered, ?_, ?_⟩
    · simp only [List.append_assoc, hcat]; exact h.bytes
    · intro hw r hr hg
      exact ⟨(h.below hw r hr hg).1, fun hc => absurd hc hp⟩
    · intro hw _; exact h.nomax hw hne

theorem step_inv (protect : Protect) (hp : protect.NonEmpty) (s : State) (op : Op) (h : Inv s) :
    Inv (step protect s op) := by
  cases op with
  | activate =>
    simp only [step, activate]
    refine ⟨h.bytes, fun r hr => Nat.le_succ_of_le (h.gens r hr), h.ordered, ?_, ?_⟩
    · intro _ r hr hg
      have := h.gens r hr
      simp only at hg
      omega
    · intro _ _ hc
      have hd : (0#64) ≠ tlsSnMax := by decide
      exact hd hc
  | flush io =>
    simp only [step, outBufFlush]
    by_cases he : s.pending = []
    · rw [if_pos he]; exact h
    · rw [if_neg he]; exact sendRecord_inv io s he h
  | write io t d =>
    simp only [step, tlsRecordWrite]
    by_cases hw : s.isWrapped = true
    · rw [if_pos hw]; exact h
    · rw [if_neg hw]
      have hwf : s.isWrapped = false := by simpa using hw
      generalize hs1 : (if s.seq = tlsSnMax then { s with isWrapped := true } else s) = s1
      have h1 : Inv s1 ∧ s1.pending = s.pending ∧ s1.seq = s.seq ∧ s1.gen = s.gen ∧ s1.sealed = s.sealed ∧
          (s1.isWrapped = false → s.seq ≠ tlsSnMax) ∧ s1.wire = s.wire := by
        subst hs1
        split
        · refine ⟨⟨h.bytes, h.gens, h.ordered, ?_, ?_⟩, rfl, rfl, rfl, rfl, ?_, rfl⟩
          · intro hc; exact absurd hc (by simp)
          · intro hc; exact absurd hc (by simp)
          · intro hc; exact absurd hc (by simp)
        · rename_i hm; exact ⟨h, rfl, rfl, rfl, rfl, fun _ => hm, rfl⟩
      obtain ⟨hi1, e1, e2, e3, e4, e5, e6⟩ := h1
      by_cases hpe : s1.pending = []
      · simp only [hpe, ne_eq, not_true_eq_false, if_false]
        cases hpr : protect s1.gen s1.seq t d with
        | none => exact hi1
        | some b =>
          simp only
          have hbne := hp _ _ _ _ _ hpr
          apply sendRecord_inv
          · exact hbne
          · have hbl := h.below hwf
            rw [← e4, ← e3, ← e2, ← e1] at hbl
            refine ⟨?_, ?_, ?_, ?_, ?_⟩
            · have := hi1.bytes
              rw [hpe, List.append_nil] at this
              simp [this]
            · intro r hr
              simp only [List.mem_append, List.mem_singleton] at hr
              rcases hr with hr | rfl
              · exact hi1.gens r hr
              · exact Nat.le_refl _
            · simp only
              rw [List.pairwise_append]
              refine ⟨hi1.ordered, List.pairwise_singleton _ _, ?_⟩
              intro a ha b hb
              simp only [List.mem_singleton] at hb
              subst hb
              have hga := hi1.gens a ha
              by_cases hg : a.gen = s1.gen
              · exact Or.inr ⟨hg, (hbl a ha hg).2 hpe⟩
              · exact Or.inl (by simp only; omega)
            · intro _ r hr hg
              simp only [List.mem_append, List.mem_singleton] at hr
              rcases hr with hr | rfl
              · exact ⟨(hbl r hr hg).1, fun hc => absurd hc hbne⟩
              · exact ⟨Nat.le_refl _, fun hc => absurd hc hbne⟩
            · intro hc _
              simp only at hc ⊢
              rw [e2]; exact e5 hc
      · simp only [ne_eq, hpe, not_false_eq_true, if_true]
        exact sendRecord_inv io s1 hpe hi1

theorem run_inv (protect : Protect) (hp : protect.NonEmpty) (ops : List Op) : Inv (run protect init ops) := by
  unfold run
  generalize hs : init = s
  have h : Inv s := hs ▸ init_inv
  clear hs
  induction ops generalizing s with
  | nil => exact h
  | cons o os ih => exact ih _ (step_inv protect hp s o h)

/-- C02. In every history of writes, flushes and key changes, with arbitrary transport behaviour, every record
that is protected has a larger number than all records protected before under the same key. -/
theorem seq_strictly_increasing (protect : Protect) (hp : protect.NonEmpty) (ops : List Op) :
    (run protect init ops).sealed.Pairwise Before := (run_inv protect hp ops).ordered

/-- C02. Hence no (key, sequence number) pair — no AEAD nonce — is used for two records. -/
theorem nonce_never_reused (protect : Protect) (hp : protect.NonEmpty) (ops : List Op) :
    ((run protect init ops).sealed.map (fun r => (r.gen, r.seq))).Nodup := by
  rw [List.Nodup, List.pairwise_map]
  apply (seq_strictly_increasing protect hp ops).imp
  intro a b hab hc
  simp only [Prod.mk.injEq] at hc
  rcases hab with h | ⟨_, h⟩
  · omega
  · rw [hc.2] at h; omega

/-- C02. What the transport has accepted, followed by what is still buffered, is exactly the sequence of
protected records: nothing is lost, repeated or reordered by partial or blocked sends. -/
theorem wire_is_records (protect : Protect) (hp : protect.NonEmpty) (ops : List Op) :
    (run protect init ops).wire ++ (run protect init ops).pending =
      ((run protect init ops).sealed.map Rec.bytes).flatten := (run_inv protect hp ops).bytes

/-- C02. Once the number 2^64 - 1 has been used, every further write under that key is refused and changes
nothing. -/
theorem refuse_after_max (protect : Protect) (io : List Io) (t : Byte) (d : List Byte) (s : State)
    (h : s.isWrapped = true) : tlsRecordWrite protect io t d s = (.snWrapping, s) := by
  simp [tlsRecordWrite, h]

/-- C02. A record protected with the last number latches the refusal. -/
theorem max_latches (protect : Protect) (io : List Io) (t : Byte) (d : List Byte) (s : State)
    (h : s.seq = tlsSnMax) : (tlsRecordWrite protect io t d s).2.isWrapped = true := by
  unfold tlsRecordWrite
  by_cases hw : s.isWrapped = true
  · rw [if_pos hw]; exact hw
  · rw [if_neg hw]
    simp only [h, if_true]
    have hsend : ∀ s' : State, (sendRecord io s').2.isWrapped = s'.isWrapped := by
      intro s'; unfold sendRecord; simp only; split <;> rfl
    by_cases hpe : s.pending = []
    · simp only [hpe, ne_eq, not_true_eq_false, if_false]
      cases protect s.gen tlsSnMax t d with
      | none => rfl
      | some b => simp only; rw [hsend]
    · simp only [ne_eq, hpe, not_false_eq_true, if_true]
      rw [hsend]

/-- The invariant behind contiguous numbering (no key change). -/
structure Inv2 (s : State) : Prop where
  seqs : s.sealed.map (fun r => r.seq.toNat) = List.range s.sealed.length
  next : s.isWrapped = false → s.seq.toNat + (if s.pending = [] then 0 else 1) = s.sealed.length

theorem sendRecord_inv2 (io : List Io) (s : State) (hne : s.pending ≠ []) (hi : Inv s) (h : Inv2 s) :
    Inv2 (sendRecord io s).2 := by
  obtain ⟨hcat, hret⟩ := streamWrite_spec io s.pending hne
  unfold sendRecord
  simp only
  by_cases hs : (streamWrite io s.pending).1 = .success
  · have hp := hret.1 hs
    rw [if_neg (by simpa using hs)]
    refine ⟨h.seqs, ?_⟩
    intro hw
    have hn := h.next hw
    rw [if_neg hne] at hn
    have hmax := hi.nomax hw hne
    have hlt : s.seq.toNat ≠ 2 ^ 64 - 1 := by
      intro hc
      apply hmax
      apply BitVec.eq_of_toNat_eq
      rw [hc]; rfl
    have hb := s.seq.isLt
    have : (s.seq + 1#64).toNat = s.seq.toNat + 1 := by
      rw [BitVec.toNat_add]; simp only [BitVec.toNat_ofNat]; omega
    simp only [hp, if_true]
    omega
  · have hp : (streamWrite io s.pending).2.1 ≠ [] := fun hc => hs (hret.2 hc)
    rw [if_pos hs]
    refine ⟨h.seqs, ?_⟩
    intro hw
    have hn := h.next hw
    rw [if_neg hne] at hn
    simp only [if_neg hp]
    exact hn

theorem step_inv2 (protect : Protect) (hp : protect.NonEmpty) (s : State) (op : Op) (hop : op ≠ .activate)
    (hi : Inv s) (h : Inv2 s) : Inv2 (step protect s op) := by
  cases op with
  | activate => exact absurd rfl hop
  | flush io =>
    simp only [step, outBufFlush]
    by_cases he : s.pending = []
    · rw [if_pos he]; exact h
    · rw [if_neg he]; exact sendRecord_inv2 io s he hi h
  | write io t d =>
    simp only [step, tlsRecordWrite]
    by_cases hw : s.isWrapped = true
    · rw [if_pos hw]; exact h
    · rw [if_neg hw]
      have hwf : s.isWrapped = false := by simpa using hw
      have hn := h.next hwf
      by_cases hpe : s.pending = []
      · rw [if_pos hpe, Nat.add_zero] at hn
        have key : ∀ w : Bool, (w = false → s.seq ≠ tlsSnMax) →
            Inv2 ((match protect s.gen s.seq t d with
              | none => (Ret.protectFail, { s with isWrapped := w })
              | some bytes => sendRecord io { s with isWrapped := w, pending := bytes, sealed := s.sealed ++ [(⟨s.gen, s.seq, t, d, bytes⟩ : Rec)] })).2 := by
          intro w hwm
          cases hpr : protect s.gen s.seq t d with
          | none =>
            refine ⟨h.seqs, fun _ => ?_⟩
            simp only [hpe, if_true]
            omega
          | some b =>
            have hbne := hp _ _ _ _ _ hpr
            simp only
            apply sendRecord_inv2
            · exact hbne
            · -- re-use the general step invariant
              have hbl := hi.below hwf
              refine ⟨?_, ?_, ?_, ?_, ?_⟩
              · have := hi.bytes
                rw [hpe, List.append_nil] at this
                simp [this]
              · intro r hr
                simp only [List.mem_append, List.mem_singleton] at hr
                rcases hr with hr | rfl
                · exact hi.gens r hr
                · exact Nat.le_refl _
              · simp only
                rw [List.pairwise_append]
                refine ⟨hi.ordered, List.pairwise_singleton _ _, ?_⟩
                intro a ha b hb
                simp only [List.mem_singleton] at hb
                subst hb
                have hga := hi.gens a ha
                by_cases hg : a.gen = s.gen
                · exact Or.inr ⟨hg, (hbl a ha hg).2 hpe⟩
                · exact Or.inl (by simp only; omega)
              · intro _ r hr hg
                simp only [List.mem_append, List.mem_singleton] at hr
                rcases hr with hr | rfl
                · exact ⟨(hbl r hr hg).1, fun hc => absurd hc hbne⟩
                · exact ⟨Nat.le_refl _, fun hc => absurd hc hbne⟩
              · intro hc _; exact hwm hc
            · refine ⟨?_, ?_⟩
              · simp only [List.map_append, h.seqs, List.map_cons, List.map_nil, List.length_append,
                  List.length_singleton, List.range_succ]
                rw [hn]
              · intro _
                simp only [if_neg hbne, List.length_append, List.length_singleton]
                omega
        by_cases hm : s.seq = tlsSnMax
        · have := key true (by simp)
          simp only [if_pos hm, hpe, ne_eq, not_true_eq_false, if_false] at this ⊢
          exact this
        · have := key false (fun _ => hm)
          simp only [if_neg hm, hpe, ne_eq, not_true_eq_false, if_false]
          have hse : { s with isWrapped := false } = s := by rw [← hwf]
          rw [hse] at this
          simp only [hwf] at this ⊢
          exact this
      · by_cases hm : s.seq = tlsSnMax
        · exact absurd hm (hi.nomax hwf hpe)
        · simp only [if_neg hm, ne_eq, hpe, not_false_eq_true, if_true]
          exact sendRecord_inv2 io s hpe hi h

/-- C02. Under one key the numbers used are exactly 0, 1, 2, …, in order and without gaps, for every transport
behaviour — which is what the receiver's implicit counter needs. -/
theorem seq_contiguous (protect : Protect) (hp : protect.NonEmpty) (ops : List Op) (hops : ∀ o ∈ ops, o ≠ .activate) :
    (run protect init ops).sealed.map (fun r => r.seq.toNat) =
      List.range (run protect init ops).sealed.length := by
  have : ∀ (ops : List Op) (s : State), (∀ o ∈ ops, o ≠ .activate) → Inv s → Inv2 s →
      Inv2 (ops.foldl (step protect) s) := by
    intro ops
    induction ops with
    | nil => intro s _ _ h; exact h
    | cons o os ih =>
      intro s ho hi h
      exact ih _ (fun x hx => ho x (by simp [hx])) (step_inv protect hp s o hi)
        (step_inv2 protect hp s o (ho o (by simp)) hi h)
  exact (this ops init hops init_inv ⟨by simp [init], by simp [init]⟩).seqs

/-- A protection function and a history with a blocked and a partial send. -/
def toyProtect : Protect := fun g q t d => some (BitVec.ofNat 8 g :: q.setWidth 8 :: t :: d)

example : toyProtect.NonEmpty := by intro g q t d b h; simp only [toyProtect, Option.some.injEq] at h; rw [← h]; simp

example : (run toyProtect init [.write [some 2, some 0] 23#8 [1#8, 2#8], .flush [some 1], .write [some 9] 23#8 [1#8, 2#8],
    .write [some 9] 23#8 [3#8], .activate, .write [some 9] 22#8 []]).sealed.map (fun r => (r.gen, r.seq)) =
    [(0, 0#64), (0, 1#64), (1, 0#64)] := by decide

/-! ## Datagram transports (C51) -/

/-- Assumptions under which the claim holds: the transport never takes part of a datagram, and the buffer list
copy after a successful send does not fail. -/
def DOp.Benign : DOp → Prop
  | .write _ derefOk _ _ => derefOk = true
  | .activate => True

structure DInv (s : DState) : Prop where
  gens : ∀ r ∈ s.sent, r.gen ≤ s.gen
  ordered : s.sent.Pairwise Before
  below : ∀ r ∈ s.sent, r.gen = s.gen → r.seq.toNat < s.seq.toNat
  bound : s.seq.toNat ≤ dtlsSnMax + 1
  small : ∀ r ∈ s.sent, r.seq.toNat ≤ dtlsSnMax

theorem dstep_inv (protect : Protect) (s : DState) (op : DOp) (hb : op.Benign) (h : DInv s) :
    DInv (dstep protect s op) := by
  cases op with
  | activate =>
    simp only [dstep, dtlsActivate]
    refine ⟨fun r hr => Nat.le_succ_of_le (h.gens r hr), h.ordered, ?_, by simp, h.small⟩
    intro r hr hg
    have := h.gens r hr
    simp only at hg
    omega
  | write io d t x =>
    simp only [DOp.Benign] at hb
    subst hb
    simp only [dstep, dtlsRecordWrite]
    by_cases hm : s.seq.toNat > dtlsSnMax
    · rw [if_pos hm]; exact h
    · rw [if_neg hm]
      cases hp : protect s.gen s.seq t x with
      | none => exact h
      | some b =>
        simp only
        have hsame : DInv { s with sealed := s.sealed ++ [⟨s.gen, s.seq, t, x, b⟩] } :=
          ⟨h.gens, h.ordered, h.below, h.bound, h.small⟩
        cases hd : datagramWrite io b.length with
        | success =>
          simp only [if_true]
          have hsn : dtlsSnMax = 0xFFFFFFFFFFFF := rfl
          have hinc : (s.seq + 1#64).toNat = s.seq.toNat + 1 := by
            rw [BitVec.toNat_add]; simp only [BitVec.toNat_ofNat]
            rw [hsn] at hm; omega
          refine ⟨?_, ?_, ?_, ?_, ?_⟩
          · intro r hr
            simp only [List.mem_append, List.mem_singleton] at hr
            rcases hr with hr | rfl
            · exact h.gens r hr
            · exact Nat.le_refl _
          · simp only
            rw [List.pairwise_append]
            refine ⟨h.ordered, List.pairwise_singleton _ _, ?_⟩
            intro a ha b hb
            simp only [List.mem_singleton] at hb
            subst hb
            have hga := h.gens a ha
            by_cases hg : a.gen = s.gen
            · exact Or.inr ⟨hg, h.below a ha hg⟩
            · exact Or.inl (by simp only; omega)
          · intro r hr hg
            simp only [List.mem_append, List.mem_singleton] at hr
            simp only [hinc]
            rcases hr with hr | rfl
            · have := h.below r hr hg; omega
            · simp only; omega
          · simp only [hinc]; omega
          · intro r hr
            simp only [List.mem_append, List.mem_singleton] at hr
            rcases hr with hr | rfl
            · exact h.small r hr
            · simp only; omega
        | snWrapping => exact hsame
        | ioException => exact hsame
        | ioBusy => exact hsame
        | protectFail => exact hsame
        | derefFail => exact hsame

/-- C51 (partial: assumes the receive-buffer copy after a successful send does not fail). In every history of
DTLS writes and key changes, with arbitrary transport outcomes, records taken whole by the transport have strictly
increasing numbers under one key, never above 2^48 - 1. -/
theorem dtls_seq_increasing_partial (protect : Protect) (ops : List DOp) (hb : ∀ o ∈ ops, o.Benign) :
    (drun protect dinit ops).sent.Pairwise Before ∧ ∀ r ∈ (drun protect dinit ops).sent, r.seq.toNat < 2 ^ 48 := by
  have : ∀ (ops : List DOp) (s : DState), (∀ o ∈ ops, o.Benign) → DInv s → DInv (ops.foldl (dstep protect) s) := by
    intro ops
    induction ops with
    | nil => intro s _ h; exact h
    | cons o os ih =>
      intro s ho h
      exact ih _ (fun x hx => ho x (by simp [hx])) (dstep_inv protect s o (ho o (by simp)) h)
  have hi := this ops dinit hb ⟨by simp [dinit], by simp [dinit], by simp [dinit], by simp [dinit, dtlsSnMax], by simp [dinit]⟩
  refine ⟨hi.ordered, fun r hr => ?_⟩
  have := hi.small r hr
  simp only [dtlsSnMax] at this
  omega

/-- C51, finding. Without that assumption the claim is false: when the datagram has been sent but the buffer-list
copy then fails (out of memory), the number is not advanced and the next, different, record is sent under the same
key and number. -/
theorem dtls_nonce_reuse_after_deref_failure :
    ∃ ops : List DOp, ∃ a b, (drun toyProtect dinit ops).sent = [a, b] ∧ a.gen = b.gen ∧ a.seq = b.seq ∧
      a.data ≠ b.data := by
  refine ⟨[.write (some 4) false 23#8 [1#8], .write (some 4) true 23#8 [2#8]], ⟨0, 0#64, 23#8, [1#8], [0#8, 0#8, 23#8, 1#8]⟩,
    ⟨0, 0#64, 23#8, [2#8], [0#8, 0#8, 23#8, 2#8]⟩, ?_, rfl, rfl, by decide⟩
  decide

/-- C51, finding. A blocked or failed datagram send discards the protected record without advancing the number:
two different plaintexts are then protected under the same key and number (only the second is sent). -/
theorem dtls_sealed_twice_after_busy :
    ∃ ops : List DOp, (∀ o ∈ ops, o.Benign) ∧ ∃ a b, (drun toyProtect dinit ops).sealed = [a, b] ∧ a.gen = b.gen ∧
      a.seq = b.seq ∧ a.data ≠ b.data := by
  refine ⟨[.write (some 0) true 23#8 [1#8], .write (some 4) true 23#8 [2#8]], ?_,
    ⟨0, 0#64, 23#8, [1#8], [0#8, 0#8, 23#8, 1#8]⟩, ⟨0, 0#64, 23#8, [2#8], [0#8, 0#8, 23#8, 2#8]⟩, ?_, rfl, rfl, by decide⟩
  · intro o ho
    simp only [List.mem_cons, List.not_mem_nil, or_false] at ho
    rcases ho with rfl | rfl <;> rfl
  · decide

example : (drun toyProtect dinit [.write (some 4) true 23#8 [1#8], .write (some 0) true 23#8 [2#8],
    .write (some 4) true 23#8 [2#8]]).sent.map (fun r => r.seq) = [0#64, 1#64] := by decide

end Verif.Tls.RecWrite
