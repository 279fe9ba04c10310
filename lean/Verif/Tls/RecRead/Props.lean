import Verif.Tls.RecRead.Proof
/-!
# Reading records from a stream: theorems
-/
namespace Verif.Tls.RecRead.Props
open Verif.Common Verif.Tls.RecRead Spec

/-- A connection whose buffer is consistent; `HITLS_CFG_SetRecInbufferSize` (/repo/tls/config/src/config_feature.c:616-629)
admits sizes from 512. -/
def Good (s : State) : Prop := ∀ b, s.inBuf = some b → Inv b ∧ 5 ≤ b.buf.length

/-- Admissible configurations. -/
def CtxOk (c : Ctx) : Prop := c.inbufferSize = 0 ∨ 512 ≤ c.inbufferSize

theorem readBufferSize_ge (c : Ctx) : 5 ≤ readBufferSize c := by
  unfold readBufferSize
  simp only
  split
  · split <;> omega
  · omega

theorem newBuf_good (c : Ctx) (hc : CtxOk c) : Inv (newBuf c) ∧ 5 ≤ (newBuf c).buf.length ∧ pending (newBuf c) = [] := by
  have := readBufferSize_ge c
  unfold newBuf Inv pending
  simp only [List.length_replicate]
  refine ⟨⟨Nat.le_refl _, Nat.zero_le _⟩, ?_, by simp⟩
  rcases hc with h | h <;> split <;> omega

theorem readStep_spec (c : Ctx) (hc : CtxOk c) (release : Bool) (s : State) (hs : Good s) (io : List Io) :
    ∃ r o s' io', readStep c release s io = (r, s', io') ∧ Good s' ∧ s'.delivered = s.delivered ++ o.toList ∧
      Next c (interrupt io) (pendingOf s ++ avail io) r o ∧
      wireOpt o ++ pendingOf s' ++ stream io' = pendingOf s ++ stream io ∧
      (c.readAhead = false → Lean (pendingOf s) → (r = .ok → pendingOf s' = []) ∧ Lean (pendingOf s')) ∧
      (r = .again ∨ r = .eof ∨ r = .io → pendingOf s' = pendingOf s ++ avail io) := by
  obtain ⟨b, hb, hI, h5, hp⟩ : ∃ b, ensure c s.inBuf = b ∧ Inv b ∧ 5 ≤ b.buf.length ∧
      pending b = pendingOf s := by
    unfold pendingOf
    cases h : s.inBuf with
    | none => exact ⟨_, rfl, (newBuf_good c hc).1, (newBuf_good c hc).2.1, (newBuf_good c hc).2.2⟩
    | some b => exact ⟨b, rfl, (hs b h).1, (hs b h).2, rfl⟩
  obtain ⟨r, o, b', io', e1, e2, e3⟩ := tryRead_spec c b io hI h5
  obtain ⟨i1, i2, i3, i4, i5, i6⟩ := e2
  unfold readStep
  rw [hb, e1]
  rw [hp] at i3 i5 i6 e3
  by_cases hr : r = .ok
  · subst hr
    obtain ⟨x, rfl⟩ := Option.isSome_iff_exists.mp (i4.mp rfl)
    simp only
    refine ⟨.ok, some x, _, io', rfl, ?_, rfl, i3, ?_, ?_, by simp⟩
    · intro b'' hb''
      simp only at hb''
      split at hb''
      · cases hb''
      · injection hb'' with hb''; subst hb''; exact ⟨i1, by omega⟩
    · rw [← i5]
      unfold pendingOf
      simp only
      split
      · rename_i he
        split at he
        · rename_i hh
          have : pending b' = [] := by unfold pending; rw [hh.2]; simp
          rw [this]
        · cases he
      · rename_i b'' he
        split at he
        · cases he
        · injection he with he; rw [he]
    · intro hra hl
      have hh := (e3 hra hl).1 rfl
      have hz : pendingOf ⟨if release ∧ b'.start = b'.stop then none else some b', s.delivered ++ [x]⟩ = [] := by
        unfold pendingOf
        simp only
        split
        · rfl
        · rename_i b'' he
          split at he
          · cases he
          · injection he with he; rw [← he]; exact hh
      exact ⟨fun _ => hz, by rw [hz]; exact Or.inl (by simp)⟩
  · have ho : o = none := by
      cases o with
      | none => rfl
      | some x => exact absurd (i4.mpr rfl) hr
    subst ho
    have hstep : (match ((r, (none : Option Rec)), b', io') with
        | ((.ok, some r), b', io') =>
          ((.ok, ⟨if release ∧ b'.start = b'.stop then none else some b', s.delivered ++ [r]⟩, io') : Ret × State × List Io)
        | ((e, _), b', io') => (e, ⟨some b', s.delivered⟩, io')) = (r, ⟨some b', s.delivered⟩, io') := by
      cases r <;> rfl
    refine ⟨r, none, ⟨some b', s.delivered⟩, io', hstep, ?_, by simp, i3, i5, ?_, i6⟩
    · intro b'' hb''
      injection hb'' with hb''; subst hb''; exact ⟨i1, by omega⟩
    · intro hra hl
      exact ⟨fun h => absurd h hr, (e3 hra hl).2⟩

/-! ## One call -/

/-- Every call yields what the bytes at hand call for: a record when one with an acceptable header is complete, the
interruption of the transport when bytes are missing, an error when the header is not acceptable.  How the transport splits
the bytes does not matter. -/
theorem read_exact (c : Ctx) (hc : CtxOk c) (release : Bool) (s : State) (hs : Good s) (io : List Io) :
    ∃ o, Next c (interrupt io) (pendingOf s ++ avail io) (readStep c release s io).1 o ∧
      (readStep c release s io).2.1.delivered = s.delivered ++ o.toList ∧ Good (readStep c release s io).2.1 := by
  obtain ⟨r, o, s', io', e1, e2, e3, e4, _⟩ := readStep_spec c hc release s hs io
  rw [e1]; exact ⟨o, e4, e3, e2⟩

theorem next_record {c : Ctx} {int : Ret} {s : List Byte} {r : Ret} {o : Option Rec} (h : Next c int s r o) (t : Byte)
    (v : Nat) (body rest : List Byte) (hs : s = wire ⟨t, v, body⟩ ++ rest) (hv : v < 2 ^ 16) (hb : body.length < 2 ^ 16)
    (hacc : Accepts c t v body.length) : r = .ok ∧ o = some ⟨t, v, body⟩ := by
  have key : ∀ (t' : Byte) (v' n' : Nat) (rest' : List Byte), v' < 2 ^ 16 → n' < 2 ^ 16 →
      [t'] ++ beBytes 2 v' ++ beBytes 2 n' ++ rest' = wire ⟨t, v, body⟩ ++ rest →
      t' = t ∧ v' = v ∧ n' = body.length ∧ rest' = body ++ rest := by
    intro t' v' n' rest' hv' hn' he
    unfold wire at he
    simp only [List.append_assoc] at he
    obtain ⟨a1, a2⟩ := List.append_inj he rfl
    obtain ⟨b1, b2⟩ := List.append_inj a2 (by rw [beBytes_length, beBytes_length])
    obtain ⟨c1, c2⟩ := List.append_inj b2 (by rw [beBytes_length, beBytes_length])
    have d1 := congrArg beVal b1
    have d2 := congrArg beVal c1
    rw [beVal_beBytes, beVal_beBytes] at d1 d2
    rw [Nat.mod_eq_of_lt (by omega), Nat.mod_eq_of_lt (by omega)] at d1 d2
    exact ⟨by simpa using a1, d1, d2, c2⟩
  cases h with
  | record t' v' body' rest' h1 h2 h3 =>
    have := key t' v' body'.length (body' ++ rest') h1 h2 (by rw [← hs]; unfold wire; simp only [List.append_assoc])
    obtain ⟨rfl, rfl, hl, hr⟩ := this
    obtain ⟨rfl, _⟩ := List.append_inj hr hl
    exact ⟨rfl, rfl⟩
  | short _ h1 =>
    exfalso
    rw [hs] at h1
    unfold wire at h1
    simp only [List.length_append, List.length_cons, List.length_nil, beBytes_length] at h1
    omega
  | partialBody t' v' n' rest' h1 h2 h3 h4 =>
    exfalso
    obtain ⟨_, _, hn, hr⟩ := key t' v' n' rest' h1 h2 hs
    rw [hr, List.length_append] at h4
    omega
  | rejected t' v' n' rest' _ h1 h2 h3 h4 =>
    exfalso
    obtain ⟨rfl, rfl, rfl, _⟩ := key t' v' n' rest' h1 h2 hs
    exact h3 hacc

/-- A complete record with an acceptable header is always delivered. -/
theorem delivers (c : Ctx) (hc : CtxOk c) (release : Bool) (s : State) (hs : Good s) (io : List Io) (x : Rec)
    (rest : List Byte) (hw : pendingOf s ++ avail io = wire x ++ rest) (hv : x.version < 2 ^ 16)
    (hb : x.body.length < 2 ^ 16) (hacc : Accepts c x.type x.version x.body.length) :
    (readStep c release s io).1 = .ok ∧ (readStep c release s io).2.1.delivered = s.delivered ++ [x] := by
  obtain ⟨o, e1, e2, _⟩ := read_exact c hc release s hs io
  obtain ⟨f1, f2⟩ := next_record e1 x.type x.version x.body rest hw hv hb hacc
  exact ⟨f1, by rw [e2, f2]; rfl⟩

/-- No access outside the buffer, whatever arrives. -/
theorem read_in_bounds (c : Ctx) (hc : CtxOk c) (release : Bool) (s : State) (hs : Good s) (io : List Io) :
    (readStep c release s io).1 ≠ .oob ∧ (readStep c release s io).1 ≠ .stuck := by
  obtain ⟨o, e1, _⟩ := read_exact c hc release s hs io
  generalize (readStep c release s io).1 = r at e1
  have hi := interrupt_cases io
  generalize interrupt io = i at e1 hi
  generalize pendingOf s ++ avail io = w at e1
  cases e1 with
  | record => exact ⟨by simp, by simp⟩
  | short => rcases hi with h | h | h <;> rw [h] <;> exact ⟨by simp, by simp⟩
  | partialBody => rcases hi with h | h | h <;> rw [h] <;> exact ⟨by simp, by simp⟩
  | rejected _ _ _ _ _ _ _ _ he => rcases he with h | h | h <;> rw [h] <;> exact ⟨by simp, by simp⟩

/-- A call that is interrupted keeps the bytes it received, for the next call. -/
theorem interrupted_keeps (c : Ctx) (hc : CtxOk c) (release : Bool) (s : State) (hs : Good s) (io : List Io)
    (h : (readStep c release s io).1 = .again ∨ (readStep c release s io).1 = .eof ∨ (readStep c release s io).1 = .io) :
    pendingOf (readStep c release s io).2.1 = pendingOf s ++ avail io := by
  obtain ⟨r, o, s', io', e1, _, _, _, _, _, e7⟩ := readStep_spec c hc release s hs io
  rw [e1] at h ⊢
  exact e7 h

/-! ## Histories -/

/-- A new connection. -/
def start : State := ⟨none, []⟩

theorem start_good : Good start := by intro b h; cases h

theorem run_spec (calls : List (Ctx × Bool)) (hc : ∀ p ∈ calls, CtxOk p.1) (s : State) (hs : Good s) (io : List Io) :
    Good (run calls s io).1 ∧ ∃ new : List Rec, (run calls s io).1.delivered = s.delivered ++ new ∧
      new.flatMap wire ++ pendingOf (run calls s io).1 ++ stream (run calls s io).2 = pendingOf s ++ stream io ∧
      (∀ x ∈ new, x.version < 2 ^ 16 ∧ x.body.length < 2 ^ 16 ∧ ∃ p ∈ calls, Accepts p.1 x.type x.version x.body.length) ∧
      ((∀ p ∈ calls, p.1.readAhead = false) → Lean (pendingOf s) → Lean (pendingOf (run calls s io).1)) := by
  induction calls generalizing s io with
  | nil => exact ⟨hs, [], by simp [run], by simp [run], by simp, fun _ h => h⟩
  | cons p l ih =>
    obtain ⟨c, release⟩ := p
    obtain ⟨r, o, s1, io1, e1, e2, e3, e4, e5, e6, _⟩ := readStep_spec c (hc (c, release) (by simp)) release s hs io
    have hrun : run ((c, release) :: l) s io = run l s1 io1 := by rw [run, e1]
    obtain ⟨g1, new, g2, g3, g4, g5⟩ := ih (fun q hq => hc q (List.mem_cons_of_mem _ hq)) s1 e2 io1
    rw [hrun]
    refine ⟨g1, o.toList ++ new, by rw [g2, e3, List.append_assoc], ?_, ?_, ?_⟩
    · rw [← e5]
      have : o.toList.flatMap wire = wireOpt o := by cases o <;> simp [wireOpt]
      rw [List.flatMap_append, this, List.append_assoc, List.append_assoc, List.append_assoc, ← List.append_assoc (new.flatMap wire),
        g3]
    · intro x hx
      rcases List.mem_append.mp hx with hx | hx
      · have hox : o = some x := by simpa [Option.mem_toList] using hx
        subst hox
        generalize pendingOf s ++ avail io = w at e4
        cases e4 with
        | record t v body rest h1 h2 h3 => exact ⟨h1, h2, (c, release), by simp, h3⟩
      · obtain ⟨h1, h2, p, hp, h3⟩ := g4 x hx
        exact ⟨h1, h2, p, List.mem_cons_of_mem _ hp, h3⟩
    · intro hra hl
      exact g5 (fun q hq => hra q (List.mem_cons_of_mem _ hq)) (e6 (hra (c, release) (by simp)) hl).2

/-- Nothing is lost, duplicated or reordered: over every history the delivered records, the bytes in the buffer and those
still in the transport make up the stream. -/
theorem stream_conserved (calls : List (Ctx × Bool)) (hc : ∀ p ∈ calls, CtxOk p.1) (io : List Io) :
    (run calls start io).1.delivered.flatMap wire ++ pendingOf (run calls start io).1 ++ stream (run calls start io).2 =
      stream io := by
  obtain ⟨_, new, h2, h3, _⟩ := run_spec calls hc start start_good io
  rw [h2]; exact h3

/-- Only records with acceptable headers are delivered. -/
theorem only_accepted (calls : List (Ctx × Bool)) (hc : ∀ p ∈ calls, CtxOk p.1) (io : List Io) (x : Rec)
    (hx : x ∈ (run calls start io).1.delivered) : ∃ p ∈ calls, Accepts p.1 x.type x.version x.body.length := by
  obtain ⟨_, new, h2, _, h4, _⟩ := run_spec calls hc start start_good io
  rw [h2] at hx
  exact (h4 x hx).2.2

theorem wire_prefix (a b : List Rec) (ha : ∀ x ∈ a, x.version < 2 ^ 16 ∧ x.body.length < 2 ^ 16)
    (hb : ∀ x ∈ b, x.version < 2 ^ 16 ∧ x.body.length < 2 ^ 16) (ra rb : List Byte)
    (h : a.flatMap wire ++ ra = b.flatMap wire ++ rb) : a <+: b ∨ b <+: a := by
  induction a generalizing b with
  | nil => exact Or.inl (List.nil_prefix)
  | cons x a ih =>
    cases b with
    | nil => exact Or.inr (List.nil_prefix)
    | cons y b =>
      have hx := ha x (by simp)
      have hy := hb y (by simp)
      rw [List.flatMap_cons, List.flatMap_cons, List.append_assoc, List.append_assoc] at h
      have h0 := h
      unfold wire at h
      simp only [List.append_assoc] at h
      obtain ⟨a1, a2⟩ := List.append_inj h rfl
      obtain ⟨b1, b2⟩ := List.append_inj a2 (by rw [beBytes_length, beBytes_length])
      obtain ⟨c1, c2⟩ := List.append_inj b2 (by rw [beBytes_length, beBytes_length])
      have d1 := congrArg beVal b1
      have d2 := congrArg beVal c1
      rw [beVal_beBytes, beVal_beBytes] at d1 d2
      rw [Nat.mod_eq_of_lt (by omega), Nat.mod_eq_of_lt (by omega)] at d1 d2
      obtain ⟨f1, f2⟩ := List.append_inj c2 d2
      have hxy : x = y := by
        obtain ⟨xt, xv, xb⟩ := x
        obtain ⟨yt, yv, yb⟩ := y
        simp only [List.cons.injEq, and_true] at a1 d1 f1
        rw [a1, d1, f1]
      subst hxy
      have h1 : a.flatMap wire ++ ra = b.flatMap wire ++ rb := List.append_cancel_left h0
      rcases ih b (fun z hz => ha z (List.mem_cons_of_mem _ hz)) (fun z hz => hb z (List.mem_cons_of_mem _ hz)) h1 with h2 | h2
      · exact Or.inl ((List.prefix_cons_inj x).mpr h2)
      · exact Or.inr ((List.prefix_cons_inj x).mpr h2)

/-- The records depend on the bytes only: two connections that are given the same stream, in whatever pieces and with
whatever interruptions, deliver the same records, one of them perhaps fewer so far. -/
theorem fragmentation (calls₁ calls₂ : List (Ctx × Bool)) (h₁ : ∀ p ∈ calls₁, CtxOk p.1) (h₂ : ∀ p ∈ calls₂, CtxOk p.1)
    (io₁ io₂ : List Io) (hs : stream io₁ = stream io₂) :
    (run calls₁ start io₁).1.delivered <+: (run calls₂ start io₂).1.delivered ∨
    (run calls₂ start io₂).1.delivered <+: (run calls₁ start io₁).1.delivered := by
  obtain ⟨_, n1, a2, a3, a4, _⟩ := run_spec calls₁ h₁ start start_good io₁
  obtain ⟨_, n2, b2, b3, b4, _⟩ := run_spec calls₂ h₂ start start_good io₂
  rw [a2, b2]
  show n1 <+: n2 ∨ n2 <+: n1
  refine wire_prefix n1 n2 (fun x hx => ⟨(a4 x hx).1, (a4 x hx).2.1⟩) (fun x hx => ⟨(b4 x hx).1, (b4 x hx).2.1⟩)
    (pendingOf (run calls₁ start io₁).1 ++ stream (run calls₁ start io₁).2)
    (pendingOf (run calls₂ start io₂).1 ++ stream (run calls₂ start io₂).2) ?_
  rw [← List.append_assoc, ← List.append_assoc, a3, b3, hs]

/-- Without read-ahead the library takes no byte beyond the current record from the transport: after a delivered record its
buffer is empty. -/
theorem no_read_ahead (calls : List (Ctx × Bool)) (hc : ∀ p ∈ calls, CtxOk p.1) (hra : ∀ p ∈ calls, p.1.readAhead = false)
    (io : List Io) (c : Ctx) (hcc : CtxOk c) (hcr : c.readAhead = false) (release : Bool)
    (hok : (readStep c release (run calls start io).1 (run calls start io).2).1 = .ok) :
    pendingOf (readStep c release (run calls start io).1 (run calls start io).2).2.1 = [] := by
  obtain ⟨hg, _, _, _, _, hl⟩ := run_spec calls hc start start_good io
  have hlean := hl hra (Or.inl (by decide))
  obtain ⟨r, o, s', io', e1, _, _, _, _, e6, _⟩ := readStep_spec c hcc release _ hg (run calls start io).2
  rw [e1] at hok ⊢
  exact (e6 hcr hlean).1 hok

/-! ## After reading -/

/-- The counter over a sequence of records (type and length), until one is refused. -/
def countAll (max : BitVec 32) (hasSuite : Bool) : List (Byte × Nat) → BitVec 32 → Bool × BitVec 32
  | [], cnt => (true, cnt)
  | (t, n) :: r, cnt =>
    if (countEmpty max hasSuite t n cnt).1 then countAll max hasSuite r (countEmpty max hasSuite t n cnt).2
    else (false, (countEmpty max hasSuite t n cnt).2)

theorem empties (max : BitVec 32) (suite : Bool) (l : List (Byte × Nat)) (cnt : BitVec 32) (hz : ∀ p ∈ l, p.2 = 0)
    (h : (countAll max suite l cnt).1 = true) (hc : cnt.toNat ≤ max.toNat) (hm : max.toNat < 2 ^ 32 - 1) :
    l.length + cnt.toNat ≤ max.toNat ∧ (l ≠ [] → suite = false ∧ ∀ p ∈ l, p.1 ≠ 21 ∧ p.1 ≠ 23) := by
  induction l generalizing cnt with
  | nil => exact ⟨by simpa using hc, fun h => absurd rfl h⟩
  | cons p r ih =>
    obtain ⟨t, n⟩ := p
    have hn : n = 0 := hz (t, n) (by simp)
    subst hn
    rw [countAll] at h
    unfold countEmpty at h
    rw [if_pos rfl] at h
    cases suite with
    | true => simp at h
    | false =>
      simp only [Bool.false_eq_true, if_false] at h
      by_cases ht : t = 21 ∨ t = 23
      · rw [if_pos ht] at h; simp at h
      · rw [if_neg ht] at h
        by_cases hgt : (cnt + 1#32).toNat > max.toNat
        · rw [if_pos hgt] at h; simp at h
        · rw [if_neg hgt] at h
          simp only [if_true] at h
          have hadd : (cnt + 1#32).toNat = cnt.toNat + 1 := by
            rw [BitVec.toNat_add]
            have : (1#32).toNat = 1 := rfl
            rw [this, Nat.mod_eq_of_lt (by omega)]
          obtain ⟨g1, g2⟩ := ih (cnt + 1#32) (fun q hq => hz q (List.mem_cons_of_mem _ hq)) h (by omega)
          refine ⟨by rw [hadd] at g1; simp only [List.length_cons]; omega, fun _ => ⟨rfl, ?_⟩⟩
          intro q hq
          rcases List.mem_cons.mp hq with rfl | hq
          · exact ⟨fun h' => ht (Or.inl h'), fun h' => ht (Or.inr h')⟩
          · exact (g2 (List.ne_nil_of_mem hq)).2 q hq

theorem countAll_append (max : BitVec 32) (suite : Bool) (a b : List (Byte × Nat)) (cnt : BitVec 32) :
    countAll max suite (a ++ b) cnt =
      if (countAll max suite a cnt).1 then countAll max suite b (countAll max suite a cnt).2
      else (false, (countAll max suite a cnt).2) := by
  induction a generalizing cnt with
  | nil => simp [countAll]
  | cons p r ih =>
    obtain ⟨t, n⟩ := p
    rw [List.cons_append, countAll, countAll]
    by_cases h : (countEmpty max suite t n cnt).1 = true
    · rw [if_pos h, if_pos h, ih]
    · rw [if_neg h, if_neg h]; simp

theorem countAll_le (max : BitVec 32) (suite : Bool) (l : List (Byte × Nat)) (cnt : BitVec 32) (hc : cnt.toNat ≤ max.toNat)
    (h : (countAll max suite l cnt).1 = true) : (countAll max suite l cnt).2.toNat ≤ max.toNat := by
  induction l generalizing cnt with
  | nil => exact hc
  | cons p r ih =>
    obtain ⟨t, n⟩ := p
    rw [countAll] at h ⊢
    by_cases h1 : (countEmpty max suite t n cnt).1 = true
    · rw [if_pos h1] at h ⊢
      refine ih _ ?_ h
      unfold countEmpty at h1 ⊢
      by_cases hn : n = 0
      · rw [if_pos hn] at h1 ⊢
        cases suite with
        | true => simp at h1
        | false =>
          simp only [Bool.false_eq_true, if_false] at h1 ⊢
          by_cases ht : t = 21 ∨ t = 23
          · rw [if_pos ht] at h1; simp at h1
          · rw [if_neg ht] at h1 ⊢
            by_cases hgt : (cnt + 1#32).toNat > max.toNat
            · rw [if_pos hgt] at h1; simp at h1
            · rw [if_neg hgt]; simp only; omega
      · rw [if_neg hn]; simp
    · rw [if_neg h1] at h; simp at h

/-- However the records arrive, a connection that goes on has never taken more than the configured number of empty records in
a row, and none at all under protection. -/
theorem empty_bounded (max : BitVec 32) (hm : max.toNat < 2 ^ 32 - 1) (suite : Bool) (before mid after : List (Byte × Nat))
    (hz : ∀ p ∈ mid, p.2 = 0) (h : (countAll max suite (before ++ mid ++ after) 0#32).1 = true) :
    mid.length ≤ max.toNat ∧ (mid ≠ [] → suite = false ∧ ∀ p ∈ mid, p.1 ≠ 21 ∧ p.1 ≠ 23) := by
  rw [countAll_append] at h
  have h1 : (countAll max suite (before ++ mid) 0#32).1 = true := by
    cases hq : (countAll max suite (before ++ mid) 0#32).1 with
    | true => rfl
    | false => rw [hq] at h; simp at h
  rw [countAll_append] at h1
  have h2 : (countAll max suite before 0#32).1 = true := by
    cases hq : (countAll max suite before 0#32).1 with
    | true => rfl
    | false => rw [hq] at h1; simp at h1
  rw [if_pos h2] at h1
  have hle := countAll_le max suite before 0#32 (by simp) h2
  have := empties max suite mid _ hz h1 hle hm
  exact ⟨by omega, this.2⟩

/-- A decrypted record is passed on exactly when its content is within the plaintext limit, not empty unless application
data, and, between change cipher spec and Finished before TLS 1.3, of the handshake. -/
theorem plaintext_accepted_iff (c : Ctx) (ccs : Bool) (t : Byte) (n : Nat) :
    processDecrypted c ccs t n = .ok ↔
      (c.recordSizeLimit = 0 → n ≤ 16384) ∧
      (c.recordSizeLimit ≠ 0 →
        n + (if Tls13 (if c.version > 0 then c.version else c.maxVersion) then 1 else 0) ≤ c.recordSizeLimit) ∧
      (n = 0 → t = 23) ∧ (c.version ≠ 0x0304 → ccs = true → t = 22) := by
  have hcur : (if c.version > 0 then c.version else c.maxVersion) = c.current := rfl
  rw [hcur]
  unfold processDecrypted
  have hmax : n > maxReadSize c ↔ ¬ ((c.recordSizeLimit = 0 → n ≤ 16384) ∧
      (c.recordSizeLimit ≠ 0 → n + (if Tls13 c.current then 1 else 0) ≤ c.recordSizeLimit)) := by
    unfold maxReadSize
    by_cases hl : c.recordSizeLimit = 0
    · rw [if_neg (by simpa using hl)]
      constructor
      · intro h hh; have := hh.1 hl; omega
      · intro h
        apply Decidable.byContradiction
        intro hn
        exact h ⟨fun _ => by omega, fun h' => absurd hl h'⟩
    · rw [if_pos hl]
      by_cases hf : tls13Family c.current = true
      · rw [if_pos hf, if_pos ((tls13_iff _).mp hf)]
        constructor
        · intro h hh; have := hh.2 hl; omega
        · intro h
          apply Decidable.byContradiction
          intro hn
          exact h ⟨fun h' => absurd h' hl, fun _ => by omega⟩
      · rw [if_neg hf, if_neg (fun h => hf ((tls13_iff _).mpr h))]
        constructor
        · intro h hh; have := hh.2 hl; omega
        · intro h
          apply Decidable.byContradiction
          intro hn
          exact h ⟨fun h' => absurd h' hl, fun _ => by omega⟩
  by_cases h1 : n > maxReadSize c
  · rw [if_pos h1]
    constructor
    · intro h; cases h
    · rintro ⟨a, b, _, _⟩; exact absurd ⟨a, b⟩ (hmax.mp h1)
  · rw [if_neg h1]
    have hab := Decidable.of_not_not (fun hh => h1 (hmax.mpr hh))
    by_cases h2 : t ≠ 23 ∧ n = 0
    · rw [if_pos h2]
      constructor
      · intro h; cases h
      · rintro ⟨_, _, h, _⟩; exact absurd (h h2.2) h2.1
    · rw [if_neg h2]
      by_cases h3 : c.version ≠ 0x0304 ∧ ccs = true ∧ t ≠ 22
      · rw [if_pos h3]
        constructor
        · intro h; cases h
        · rintro ⟨_, _, _, h⟩; exact absurd (h h3.1 h3.2.1) h3.2.2
      · rw [if_neg h3]
        refine ⟨fun _ => ⟨hab.1, hab.2, ?_, ?_⟩, fun _ => rfl⟩
        · intro hn; exact Decidable.byContradiction fun ht => h2 ⟨ht, hn⟩
        · intro hv hc; exact Decidable.byContradiction fun ht => h3 ⟨hv, hc, ht⟩

/-! ## Concrete cases -/

/-- A TLS 1.2 connection. -/
def ctx12 : Ctx := ⟨0x0303, 0x0303, false, false, true, false, 0, 512, false⟩

example : CtxOk ctx12 := Or.inr (by decide)

/-- Two records in five pieces with an interruption: two calls deliver both, one is interrupted. -/
example : (run [(ctx12, false), (ctx12, true), (ctx12, true)] start
      [.data [23, 3], .again, .data [3, 0, 2, 7], .data [8, 23, 3, 3, 0], .data [1, 9]]).1.delivered =
    [⟨23, 0x0303, [7, 8]⟩, ⟨23, 0x0303, [9]⟩] := by decide +kernel

/-- The same with read-ahead. -/
example : (run [({ ctx12 with readAhead := true }, false), ({ ctx12 with readAhead := true }, true)] start
      [.data [23, 3, 3, 0, 2, 7, 8, 23, 3, 3, 0, 1, 9]]).1 =
    ⟨none, [⟨23, 0x0303, [7, 8]⟩, ⟨23, 0x0303, [9]⟩]⟩ := by decide +kernel

/-- A record of version 3.2 is refused, an alert of that version is not. -/
example : (readStep ctx12 false start [.data [23, 3, 2, 0, 1, 0]]).1 = .badVersion ∧
    (readStep ctx12 false start [.data [21, 3, 2, 0, 1, 0]]).1 = .ok := by decide +kernel

/-- A record that is too long is refused from its header. -/
example : (readStep ctx12 false start [.data [23, 3, 3, 0x41, 0x41]]).1 = .overflow ∧
    (readStep ctx12 false start [.data [23, 3, 3, 0x41, 0x40]]).1 = .again := by decide +kernel

example : (countAll 3#32 false [(22, 0), (22, 0), (22, 0)] 0#32).1 = true ∧
    (countAll 3#32 false [(22, 0), (22, 0), (22, 0), (22, 0)] 0#32).1 = false ∧
    (countAll 3#32 false [(22, 0), (22, 0), (22, 0), (22, 5), (22, 0)] 0#32).1 = true := by decide

example : processDecrypted ctx12 false 23 16384 = .ok ∧ processDecrypted ctx12 false 23 16385 = .overflow := by decide

end Verif.Tls.RecRead.Props
