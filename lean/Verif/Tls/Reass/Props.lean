import Verif.Tls.Reass.SpecProof
/-!
# C04 — DTLS handshake reassembly

For every sequence of records handed over by the network — any order, overlap, duplication, interleaving of
messages, garbage — and every verdict of the message body parser.
-/
namespace Verif.Tls.Reass
open Verif.Common Spec

/-- Fragment `f` arrived in one of the records of the history. -/
def Received (cfg : Cfg) (sts : List Step) (f : Frag) : Prop := f.WF cfg ∧ ∃ st ∈ sts, st.record = f.encode

/-- `f` is a slice of message number `f.seq` of the message table `M`. -/
def SliceOf (M : Nat → Byte × List Byte) (f : Frag) : Prop :=
  f.type = (M f.seq).1 ∧ f.length = (M f.seq).2.length ∧
    ∀ i < f.body.length, f.body[i]? = (M f.seq).2[f.off + i]?

/-- The peer is honest: every well formed fragment in the history is a slice of `M`. -/
def Honest (cfg : Cfg) (M : Nat → Byte × List Byte) (sts : List Step) : Prop :=
  ∀ f, Received cfg sts f → SliceOf M f

theorem matches_all (cfg : Cfg) : ∀ sts : List Step, ∃ es, MatchesAll cfg sts es ∧
    ∀ e ∈ es, ∀ f, e.2 = some f → Received cfg sts f ∧ f.WF cfg
  | [] => ⟨[], trivial, by simp⟩
  | st :: sts => by
    obtain ⟨e, he⟩ := matches_exists cfg st
    obtain ⟨es, hes, h⟩ := matches_all cfg sts
    refine ⟨e :: es, ⟨he, hes⟩, ?_⟩
    intro e' he' f hf
    rcases List.mem_cons.1 he' with rfl | he'
    · have := he.2
      rw [hf] at this
      exact ⟨⟨this.1, st, by simp, this.2⟩, this.1⟩
    · obtain ⟨⟨h1, s2, h2, h3⟩, h4⟩ := h e' he' f hf
      exact ⟨⟨h1, s2, by simp [h2], h3⟩, h4⟩

theorem good_init (R : Frag → Prop) : Good R Spec.init :=
  ⟨by decide, by simp [Spec.init], by simp [Spec.init]⟩

/-- **C04 (refinement).** The C code's outputs — delivered messages, silent drops, errors — are exactly those of the
fragment-list specification, and no buffer access is ever out of bounds. -/
theorem reass_refines_spec (cfg : Cfg) (sts : List Step) (es : List (Bool × Option Frag))
    (h : MatchesAll cfg sts es) : (run cfg sts init).1 = (Spec.run cfg es Spec.init).1 :=
  (run_sim h rel_init).1

theorem reass_memory_safe (cfg : Cfg) (sts : List Step) : Out.oob ∉ (run cfg sts init).1 := by
  obtain ⟨es, hes, h⟩ := matches_all cfg sts
  rw [reass_refines_spec cfg sts es hes]
  exact (run_good (R := Received cfg sts) (good_init _) h).2.1

/-- **C04 (integrity, any network).** The k-th message delivered carries sequence number k (mod 2^16) and a correct
header, and each of its bytes was received in a fragment of that message (same number, type and total length) at
that position; in particular nothing is delivered before every byte has arrived. -/
theorem reass_delivers_only_received (cfg : Cfg) (sts : List Step) (k : Nat) (m : List Byte)
    (h : (delivered (run cfg sts init).1)[k]? = some m) :
    ∃ ty body, m = encodeMsg ty (k % 65536) body ∧ Sourced (Received cfg sts) ty (k % 65536) body := by
  obtain ⟨es, hes, h2⟩ := matches_all cfg sts
  rw [reass_refines_spec cfg sts es hes] at h
  obtain ⟨ty, body, h3, h4⟩ := (run_good (R := Received cfg sts) (good_init _) h2).2.2.2 k m h
  have e : (Spec.init.expect + k) % 65536 = k % 65536 := by simp [Spec.init]
  rw [e] at h3 h4
  exact ⟨ty, body, h3, h4⟩

/-- **C04 (exact delivery).** If every well formed fragment is a slice of the peer's messages, whatever the order,
overlap, duplication or loss, the messages delivered are exactly the peer's, each once, in sequence order. -/
theorem reass_delivers_peer_messages (cfg : Cfg) (M : Nat → Byte × List Byte) (sts : List Step)
    (hh : Honest cfg M sts) :
    ∃ n, delivered (run cfg sts init).1 =
      (List.range n).map (fun k => encodeMsg (M (k % 65536)).1 (k % 65536) (M (k % 65536)).2) := by
  refine ⟨(delivered (run cfg sts init).1).length, ?_⟩
  apply List.ext_getElem?
  intro k
  by_cases hk : k < (delivered (run cfg sts init).1).length
  · obtain ⟨ty, body, h1, ⟨f, hf, ht, hs, hl⟩, h2⟩ :=
      reass_delivers_only_received cfg sts k _ (List.getElem?_eq_getElem hk)
    obtain ⟨s1, s2, _⟩ := hh f hf
    rw [hs] at s1 s2
    have hbody : body = (M (k % 65536)).2 := by
      apply List.ext_getElem?
      intro i
      by_cases hi : i < body.length
      · obtain ⟨g, hg, _, hgs, _, h3, h4, h5⟩ := h2 i hi
        obtain ⟨_, _, g3⟩ := hh g hg
        have := g3 (i - g.off) (by omega)
        have e : g.off + (i - g.off) = i := by omega
        rw [hgs, e] at this
        rw [← h5, this]
      · rw [List.getElem?_eq_none (by omega), List.getElem?_eq_none (by omega)]
    rw [List.getElem?_eq_getElem hk, h1, ← ht, s1, hbody]
    simp [hk]
  · rw [List.getElem?_eq_none (by omega), List.getElem?_eq_none (by simp; omega)]

theorem matchesAll_append {cfg : Cfg} : ∀ {a : List Step} {a' : List (Bool × Option Frag)} {b b'},
    MatchesAll cfg a a' → MatchesAll cfg b b' → MatchesAll cfg (a ++ b) (a' ++ b')
  | [], [], _, _, _, h => h
  | _ :: _, _ :: _, _, _, ⟨h1, h2⟩, h => ⟨h1, matchesAll_append h2 h⟩
  | [], _ :: _, _, _, h, _ => absurd h (by simp [MatchesAll])
  | _ :: _, [], _, _, h, _ => absurd h (by simp [MatchesAll])

theorem matchesAll_frags {cfg : Cfg} : ∀ {fs : List Frag}, (∀ f ∈ fs, f.WF cfg) →
    MatchesAll cfg (fs.map (fun f => ⟨f.encode, true⟩)) (fs.map (fun f => (true, some f)))
  | [], _ => trivial
  | f :: fs, h => ⟨⟨rfl, h f (by simp), rfl⟩, matchesAll_frags (fun g hg => h g (by simp [hg]))⟩

/-- **C04 (completeness).** After any honest history, if fragments covering the next expected message then arrive in
any order and number, the message is delivered no later than the pass after the last of them. (DTLS 1.3 refuses to go
past sequence number 65535.) -/
theorem reass_delivers_when_complete (cfg : Cfg) (M : Nat → Byte × List Byte) (sts : List Step) (fs : List Frag)
    (last : Step) (hok : last.parseOk = true)
    (hh : Honest cfg M (sts ++ fs.map (fun f => ⟨f.encode, true⟩) ++ [last]))
    (hlast : ¬ (cfg.dtls13 = true ∧ (delivered (run cfg sts init).1).length % 65536 = 65535))
    (hfs : ∀ f ∈ fs, f.WF cfg ∧ f.seq = (delivered (run cfg sts init).1).length % 65536) (hne : fs ≠ [])
    (hcov : ∀ i < (M ((delivered (run cfg sts init).1).length % 65536)).2.length,
      ∃ f ∈ fs, f.off ≤ i ∧ i < f.off + f.body.length) :
    (delivered (run cfg sts init).1).length <
      (delivered (run cfg (sts ++ fs.map (fun f => ⟨f.encode, true⟩) ++ [last]) init).1).length := by
  generalize hq : (delivered (run cfg sts init).1).length % 65536 = q at hlast hfs hcov
  obtain ⟨es, hes, h2⟩ := matches_all cfg sts
  obtain ⟨e, he⟩ := matches_exists cfg last
  have hall : MatchesAll cfg (sts ++ fs.map (fun f => ⟨f.encode, true⟩) ++ [last])
      (es ++ fs.map (fun f => (true, some f)) ++ [e]) :=
    matchesAll_append (matchesAll_append hes (matchesAll_frags (fun f hf => (hfs f hf).1))) ⟨he, trivial⟩
  have he1 : e.1 = true := he.1.trans hok
  have ee : e = (true, e.2) := by rw [← he1]
  rw [reass_refines_spec cfg _ _ hall, reass_refines_spec cfg sts es hes, List.append_assoc]
  rw [reass_refines_spec cfg sts es hes] at hq
  rw [(run_append cfg es _ Spec.init).1]
  have hR : ∀ f, Received cfg sts f → Received cfg (sts ++ fs.map (fun f => ⟨f.encode, true⟩) ++ [last]) f := by
    rintro f ⟨h1, st, h3, h4⟩
    exact ⟨h1, st, by simp [h3], h4⟩
  obtain ⟨g, _, hexp, _⟩ := run_good (cfg := cfg)
    (R := Received cfg (sts ++ fs.map (fun f => ⟨f.encode, true⟩) ++ [last])) (es := es) (good_init _)
    (fun e' he' f hf => ⟨hR f (h2 e' he' f hf).1, (h2 e' he' f hf).2⟩)
  have hexp' : (Spec.run cfg es Spec.init).2.expect = q := by
    rw [hexp, ← hq]; simp [Spec.init]
  have hrf : ∀ f ∈ fs, Received cfg (sts ++ fs.map (fun f => ⟨f.encode, true⟩) ++ [last]) f := by
    intro f hf
    refine ⟨(hfs f hf).1, ⟨f.encode, true⟩, ?_, rfl⟩
    simp only [List.mem_append, List.mem_map]
    exact .inl (.inr ⟨f, hf, rfl⟩)
  have hprog := run_progress (R := Received cfg (sts ++ fs.map (fun f => ⟨f.encode, true⟩) ++ [last])) (cfg := cfg)
    (ty := (M q).1) (len := (M q).2.length) (q := q) e.2
    (fun f hf hs => by
      obtain ⟨a, b, _⟩ := hh f hf
      rw [hs] at a b
      exact ⟨a, b⟩)
    hlast fs (Spec.run cfg es Spec.init).2 g hexp'
    (fun f hf => ⟨hrf f hf, (hfs f hf).1, (hfs f hf).2⟩)
    (by
      obtain ⟨f, hf⟩ := List.exists_mem_of_ne_nil fs hne
      obtain ⟨_, b, _⟩ := hh f (hrf f hf)
      rw [(hfs f hf).2] at b
      exact ⟨f, .inl hf, (hfs f hf).2, b⟩)
    (fun i hi => by
      obtain ⟨f, hf, h3⟩ := hcov i hi
      exact ⟨f, .inl hf, (hfs f hf).2, h3⟩)
  rw [← ee] at hprog
  have hd : ∀ a b : List Out, delivered (a ++ b) = delivered a ++ delivered b := by
    intro a b; exact List.filterMap_append ..
  rw [hd, List.length_append]
  have := List.length_pos_iff.2 hprog
  omega

/-! ### Concrete cases -/

def exCfg : Cfg := { dtls13 := false, maxLen := fun _ => 1000 }

/-- Two messages of 20 and 0 bytes; fragments out of order, overlapping, duplicated, message 1 first. -/
def exM : Nat → Byte × List Byte
  | 0 => (1#8, (List.range 20).map (BitVec.ofNat 8))
  | _ => (14#8, [])

def exFrag (off len : Nat) : Frag :=
  { type := 1#8, length := 20, seq := 0, off := off, body := ((exM 0).2.drop off).take len }

def exSteps : List Step :=
  [ { type := 14#8, length := 0, seq := 1, off := 0, body := [] : Frag }, exFrag 9 11, exFrag 3 8, exFrag 9 11,
    exFrag 0 5 ].map (fun f => ⟨f.encode, true⟩) ++ [⟨[], true⟩, ⟨[], true⟩]

example : delivered (run exCfg exSteps init).1 =
    [encodeMsg 1#8 0 (exM 0).2, encodeMsg 14#8 1 []] := by decide +kernel

example : ∀ f ∈ [exFrag 9 11, exFrag 3 8, exFrag 0 5], f.WF exCfg := by
  intro f hf
  simp only [List.mem_cons, List.not_mem_nil, or_false] at hf
  rcases hf with rfl | rfl | rfl <;> refine ⟨by decide, by decide, by decide, by decide, by decide, by decide⟩

end Verif.Tls.Reass
