import Verif.Tls.Reass.Sim
/-! # Consequences of the reassembly specification -/
namespace Verif.Tls.Reass
open Verif.Common Spec

/-- The messages delivered, in order. -/
def delivered (os : List Out) : List (List Byte) :=
  os.filterMap (fun o => match o with | .msg m => some m | _ => none)

/-- Every byte of `body` was carried by a fragment of `R` for message `(ty, q)` of that length. -/
def Sourced (R : Frag → Prop) (ty : Byte) (q : Nat) (body : List Byte) : Prop :=
  (∃ f, R f ∧ f.type = ty ∧ f.seq = q ∧ f.length = body.length) ∧
  ∀ i < body.length, ∃ f, R f ∧ f.type = ty ∧ f.seq = q ∧ f.length = body.length ∧
    f.off ≤ i ∧ i < f.off + f.body.length ∧ f.body[i - f.off]? = body[i]?

structure Good (R : Frag → Prop) (t : Spec.State) : Prop where
  bound : t.expect < 65536
  src : ∀ f ∈ t.held, R f
  cons : ∀ f ∈ t.held, ∀ g ∈ t.held, f.seq = g.seq → f.type = g.type ∧ f.length = g.length

theorem hold_good {R : Frag → Prop} {t : Spec.State} {f : Frag} (h : Good R t) (hf : R f) :
    (∀ m, (hold f t).1 ≠ .msg m) ∧ (hold f t).2.expect = t.expect ∧ Good R (hold f t).2 := by
  unfold hold
  by_cases hfar : f.seq > t.expect + 10
  · rw [if_pos hfar]; exact ⟨by simp, rfl, h⟩
  rw [if_neg hfar]
  have hadd : (∀ g ∈ t.held, g.seq = f.seq → g.type = f.type ∧ g.length = f.length) →
      Good R { t with held := t.held ++ [f] } := by
    intro hc
    refine ⟨h.bound, ?_, ?_⟩
    · intro g hg
      simp only [List.mem_append, List.mem_singleton] at hg
      rcases hg with hg | rfl
      · exact h.src g hg
      · exact hf
    · intro a ha b hb hab
      simp only [List.mem_append, List.mem_singleton] at ha hb
      rcases ha with ha | rfl <;> rcases hb with hb | rfl
      · exact h.cons a ha b hb hab
      · exact hc a ha hab
      · have := hc b hb hab.symm
        exact ⟨this.1.symm, this.2.symm⟩
      · exact ⟨rfl, rfl⟩
  cases hfd : t.held.find? (fun g => g.seq == f.seq) with
  | none =>
    refine ⟨by simp, rfl, hadd ?_⟩
    intro g hg hs
    rw [List.find?_eq_none] at hfd
    exact absurd (by simpa using hs) (hfd g hg)
  | some g0 =>
    simp only
    by_cases hm : g0.type = f.type ∧ g0.length = f.length
    · rw [if_pos hm]
      refine ⟨by simp, rfl, hadd ?_⟩
      intro g hg hs
      have h0 : g0.seq = f.seq := by simpa using List.find?_some hfd
      have := h.cons g hg g0 (List.mem_of_find?_eq_some hfd) (by rw [hs, h0])
      exact ⟨this.1.trans hm.1, this.2.trans hm.2⟩
    · rw [if_neg hm]; exact ⟨by simp, rfl, h⟩

theorem ready_sourced {R : Frag → Prop} {t : Spec.State} {m : List Byte} (h : Good R t) (hr : ready t = some m) :
    ∃ ty body, m = encodeMsg ty t.expect body ∧ Sourced R ty t.expect body := by
  unfold ready at hr
  cases hos : t.held.filter (fun g => g.seq == t.expect) with
  | nil => rw [hos] at hr; exact absurd hr (by simp)
  | cons f fs =>
    rw [hos] at hr
    simp only [Option.map_eq_some_iff] at hr
    obtain ⟨body, ha, rfl⟩ := hr
    obtain ⟨hl, hg⟩ := mapM_range_some.1 ha
    have hmem : ∀ g ∈ f :: fs, g ∈ t.held ∧ g.seq = t.expect := by
      intro g hgm
      rw [← hos, List.mem_filter] at hgm
      exact ⟨hgm.1, by simpa using hgm.2⟩
    have hf := hmem f (by simp)
    refine ⟨f.type, body, by rw [hf.2], ⟨f, h.src f hf.1, rfl, hf.2, hl.symm⟩, ?_⟩
    intro i hi
    have h1 := hg i (by omega)
    rw [List.getElem?_eq_getElem hi] at h1
    obtain ⟨g, hgm, h2, h3, h4⟩ := byteAt_mem h1
    have hgg := hmem g hgm
    have hc := h.cons g hgg.1 f hf.1 (hgg.2.trans hf.2.symm)
    exact ⟨g, h.src g hgg.1, hc.1, hgg.2, by rw [hc.2, hl], h2, h3, by rw [h4, List.getElem?_eq_getElem hi]⟩

/-- What one pass does to the specification state. -/
theorem deliver_cases (cfg : Cfg) (ok : Bool) (m : List Byte) (t : Spec.State) :
    ((deliver cfg ok m t).1 = .msg m ∧ (deliver cfg ok m t).2 = { t with expect := (t.expect + 1) % 65536 }) ∨
    ((deliver cfg ok m t).1 = .err ∧ (deliver cfg ok m t).2 = t) := by
  unfold deliver
  by_cases h : (!ok) = true ∨ (cfg.dtls13 = true ∧ t.expect = 65535)
  · right; rw [if_pos h]; exact ⟨rfl, rfl⟩
  · left; rw [if_neg h]; exact ⟨rfl, rfl⟩

theorem good_expect {R : Frag → Prop} {t : Spec.State} (h : Good R t) :
    Good R { t with expect := (t.expect + 1) % 65536 } :=
  ⟨Nat.mod_lt _ (by decide), h.src, h.cons⟩

theorem good_filter {R : Frag → Prop} {t : Spec.State} (h : Good R t) :
    Good R { t with held := t.held.filter (fun g => g.seq != t.expect) } :=
  ⟨h.bound, fun f hf => h.src f (List.mem_filter.1 hf).1,
    fun f hf g hg => h.cons f (List.mem_filter.1 hf).1 g (List.mem_filter.1 hg).1⟩

theorem poll_good {R : Frag → Prop} {cfg : Cfg} {ok : Bool} {r : Option Frag} {t : Spec.State} (h : Good R t)
    (hr : ∀ f, r = some f → R f ∧ f.WF cfg) :
    Good R (Spec.poll cfg ok r t).2 ∧
    ((∃ ty body, (Spec.poll cfg ok r t).1 = .msg (encodeMsg ty t.expect body) ∧ Sourced R ty t.expect body ∧
        (Spec.poll cfg ok r t).2.expect = (t.expect + 1) % 65536) ∨
     ((∀ m, (Spec.poll cfg ok r t).1 ≠ .msg m) ∧ (Spec.poll cfg ok r t).1 ≠ .oob ∧
        (Spec.poll cfg ok r t).2.expect = t.expect)) := by
  have hhold : ∀ f, R f → Good R (hold f t).2 ∧ ((∀ m, (hold f t).1 ≠ .msg m) ∧ (hold f t).1 ≠ .oob ∧
      (hold f t).2.expect = t.expect) := by
    intro f hf
    obtain ⟨a, b, c⟩ := hold_good h hf
    refine ⟨c, a, ?_, b⟩
    unfold hold
    by_cases hfar : f.seq > t.expect + 10
    · rw [if_pos hfar]; simp
    · rw [if_neg hfar]
      split
      · split <;> simp
      · simp
  unfold Spec.poll
  cases hrd : ready t with
  | some m =>
    simp only
    obtain ⟨ty, body, rfl, hs⟩ := ready_sourced h hrd
    rcases deliver_cases cfg ok (encodeMsg ty t.expect body) { t with held := t.held.filter (fun g => g.seq != t.expect) }
      with ⟨a, b⟩ | ⟨a, b⟩
    · rw [b]
      refine ⟨good_expect (good_filter h), .inl ⟨ty, body, a, hs, rfl⟩⟩
    · rw [b]
      refine ⟨good_filter h, .inr ⟨?_, ?_, rfl⟩⟩ <;> simp [a]
  | none =>
    simp only
    cases r with
    | none => exact ⟨h, .inr ⟨by simp, by simp, rfl⟩⟩
    | some f =>
      obtain ⟨hf, hwf⟩ := hr f rfl
      simp only
      by_cases hs : f.seq = t.expect
      · rw [if_pos hs]
        by_cases hfull : f.body.length = f.length
        · rw [if_pos hfull]
          have hsrc : Sourced R f.type t.expect f.body := by
            refine ⟨⟨f, hf, rfl, hs, hfull.symm⟩, fun i hi => ?_⟩
            have ho : f.off = 0 := by have := hwf.2.2.2.1; omega
            exact ⟨f, hf, rfl, hs, hfull.symm, by omega, by omega, by rw [ho]; rfl⟩
          rw [hs]
          rcases deliver_cases cfg ok (encodeMsg f.type t.expect f.body) t with ⟨a, b⟩ | ⟨a, b⟩
          · rw [b]
            exact ⟨good_expect h, .inl ⟨f.type, f.body, a, hsrc, rfl⟩⟩
          · rw [b]
            refine ⟨h, .inr ⟨?_, ?_, rfl⟩⟩ <;> simp [a]
        · rw [if_neg hfull]
          exact ⟨(hhold f hf).1, .inr (hhold f hf).2⟩
      · rw [if_neg hs]
        by_cases hfin : t.expect = 0 ∧ f.type = 20#8 ∧ ¬ cfg.dtls13 = true
        · rw [if_pos hfin]; exact ⟨h, .inr ⟨by simp, by simp, rfl⟩⟩
        · rw [if_neg hfin]
          by_cases hgt : f.seq > t.expect
          · rw [if_pos hgt]; exact ⟨(hhold f hf).1, .inr (hhold f hf).2⟩
          · rw [if_neg hgt]; exact ⟨h, .inr ⟨by simp, by simp, rfl⟩⟩

theorem delivered_cons_msg (m : List Byte) (os : List Out) : delivered (.msg m :: os) = m :: delivered os := rfl
theorem delivered_cons_other {o : Out} (os : List Out) (h : ∀ m, o ≠ .msg m) : delivered (o :: os) = delivered os := by
  cases o with
  | msg m => exact absurd rfl (h m)
  | idle => rfl
  | err => rfl
  | oob => rfl

theorem run_good {R : Frag → Prop} {cfg : Cfg} : ∀ {es : List (Bool × Option Frag)} {t : Spec.State}, Good R t →
    (∀ e ∈ es, ∀ f, e.2 = some f → R f ∧ f.WF cfg) →
    Good R (Spec.run cfg es t).2 ∧ .oob ∉ (Spec.run cfg es t).1 ∧
    (Spec.run cfg es t).2.expect = (t.expect + (delivered (Spec.run cfg es t).1).length) % 65536 ∧
    ∀ k m, (delivered (Spec.run cfg es t).1)[k]? = some m →
      ∃ ty body, m = encodeMsg ty ((t.expect + k) % 65536) body ∧ Sourced R ty ((t.expect + k) % 65536) body
  | [], t, h, _ => by
    refine ⟨h, by simp [Spec.run], ?_, by simp [Spec.run, delivered]⟩
    have := h.bound
    simp [Spec.run, delivered]; omega
  | e :: es, t, h, hr => by
    obtain ⟨hg, hcase⟩ := poll_good (ok := e.1) (r := e.2) h (hr e (by simp))
    obtain ⟨ig, io, ie, ik⟩ := run_good (es := es) hg (fun e' he' => hr e' (by simp [he']))
    have hrun1 : (Spec.run cfg (e :: es) t).1 = (Spec.poll cfg e.1 e.2 t).1 ::
      (Spec.run cfg es (Spec.poll cfg e.1 e.2 t).2).1 := rfl
    have hrun2 : (Spec.run cfg (e :: es) t).2 = (Spec.run cfg es (Spec.poll cfg e.1 e.2 t).2).2 := rfl
    rw [hrun1, hrun2]
    have hb := h.bound
    rcases hcase with ⟨ty, body, h1, h2, h3⟩ | ⟨h1, h2, h3⟩
    · rw [h1, delivered_cons_msg]
      rw [h3] at ie ik
      refine ⟨ig, ?_, ?_, ?_⟩
      · rw [List.mem_cons]; rintro (hc | hc)
        · exact absurd hc (by simp)
        · exact io hc
      · rw [ie, List.length_cons]; omega
      · intro k m hk
        cases k with
        | zero =>
          rw [List.getElem?_cons_zero] at hk
          have e0 : (t.expect + 0) % 65536 = t.expect := by omega
          rw [e0]
          exact ⟨ty, body, (Option.some.inj hk).symm, h2⟩
        | succ k =>
          rw [List.getElem?_cons_succ] at hk
          have := ik k m hk
          have e0 : ((t.expect + 1) % 65536 + k) % 65536 = (t.expect + (k + 1)) % 65536 := by omega
          rwa [e0] at this
    · rw [delivered_cons_other _ h1]
      rw [h3] at ie ik
      refine ⟨ig, ?_, ie, ik⟩
      rw [List.mem_cons]; rintro (hc | hc)
      · exact h2 hc.symm
      · exact io hc

/-! ## Liveness -/

theorem byteAt_isSome_of_mem : ∀ {fs : List Frag} {i : Nat} {f : Frag}, f ∈ fs → f.off ≤ i → i < f.off + f.body.length →
    (byteAt fs i).isSome := by
  intro fs
  induction fs using list_reverse_rec with
  | h0 => intro i f hf; exact absurd hf (by simp)
  | h1 fs g ih =>
    intro i f hf h1 h2
    rw [byteAt_isSome_append]
    rw [List.mem_append, List.mem_singleton] at hf
    rcases hf with hf | rfl
    · rw [ih hf h1 h2]; rfl
    · simp [h1, h2]

theorem ready_of_cover {R : Frag → Prop} {t : Spec.State} {len : Nat} (h : Good R t)
    (hex : ∃ f ∈ t.held, f.seq = t.expect ∧ f.length = len)
    (hcov : ∀ i < len, ∃ f ∈ t.held, f.seq = t.expect ∧ f.off ≤ i ∧ i < f.off + f.body.length) :
    ∃ m, ready t = some m := by
  unfold ready
  cases hos : t.held.filter (fun g => g.seq == t.expect) with
  | nil =>
    obtain ⟨f, hf, hs, _⟩ := hex
    have : f ∈ t.held.filter (fun g => g.seq == t.expect) := List.mem_filter.2 ⟨hf, by simpa using hs⟩
    rw [hos] at this; exact absurd this (by simp)
  | cons f fs =>
    have hf : f ∈ t.held ∧ f.seq = t.expect := by
      have : f ∈ t.held.filter (fun g => g.seq == t.expect) := by rw [hos]; simp
      exact ⟨(List.mem_filter.1 this).1, by simpa using (List.mem_filter.1 this).2⟩
    obtain ⟨g, hg, hgs, hgl⟩ := hex
    have hlen : f.length = len := by
      have := (h.cons f hf.1 g hg (hf.2.trans hgs.symm)).2
      omega
    cases ha : assemble f.length (f :: fs) with
    | some b => exact ⟨_, by simp only [ha]; rfl⟩
    | none =>
      exfalso
      obtain ⟨i, hi, hn⟩ := mapM_range_none.1 ha
      obtain ⟨g, hg, hgs, h1, h2⟩ := hcov i (by omega)
      have hm : g ∈ f :: fs := by rw [← hos]; exact List.mem_filter.2 ⟨hg, by simpa using hgs⟩
      have := byteAt_isSome_of_mem hm h1 h2
      rw [hn] at this; exact absurd this (by simp)

/-- One more honest fragment of the expected message: it is delivered, or the fragment is kept. -/
theorem poll_progress {R : Frag → Prop} {cfg : Cfg} {f : Frag} {t : Spec.State} (h : Good R t) (hs : f.seq = t.expect)
    (hlast : ¬ (cfg.dtls13 = true ∧ t.expect = 65535))
    (hagree : ∀ g ∈ t.held, g.seq = f.seq → g.type = f.type ∧ g.length = f.length) :
    (∃ m, (Spec.poll cfg true (some f) t).1 = .msg m) ∨
    Spec.poll cfg true (some f) t = (.idle, { t with held := t.held ++ [f] }) := by
  have hdel : ∀ m t', t'.expect = t.expect → (deliver cfg true m t').1 = .msg m := by
    intro m t' he
    unfold deliver
    rw [if_neg (by rw [he]; simpa using hlast)]
  unfold Spec.poll
  cases hrd : ready t with
  | some m => left; exact ⟨m, hdel m _ rfl⟩
  | none =>
    simp only
    rw [if_pos hs]
    by_cases hfull : f.body.length = f.length
    · left; rw [if_pos hfull]; exact ⟨_, hdel _ _ rfl⟩
    · right
      rw [if_neg hfull]
      unfold hold
      rw [if_neg (by omega)]
      cases hfd : t.held.find? (fun g => g.seq == f.seq) with
      | none => rfl
      | some g0 =>
        simp only
        have h0 : g0.seq = f.seq := by simpa using List.find?_some hfd
        rw [if_pos (hagree g0 (List.mem_of_find?_eq_some hfd) h0)]

theorem run_append (cfg : Cfg) : ∀ (a b : List (Bool × Option Frag)) (t : Spec.State),
    (Spec.run cfg (a ++ b) t).1 = (Spec.run cfg a t).1 ++ (Spec.run cfg b (Spec.run cfg a t).2).1 ∧
    (Spec.run cfg (a ++ b) t).2 = (Spec.run cfg b (Spec.run cfg a t).2).2
  | [], b, t => ⟨rfl, rfl⟩
  | e :: a, b, t => by
    obtain ⟨h1, h2⟩ := run_append cfg a b (Spec.poll cfg e.1 e.2 t).2
    refine ⟨?_, h2⟩
    exact congrArg (List.cons (Spec.poll cfg e.1 e.2 t).1) h1

/-- After all bytes of the expected message have arrived, the message is delivered by the next pass at the latest. -/
theorem run_progress {R : Frag → Prop} {cfg : Cfg} {ty : Byte} {len q : Nat} (last : Option Frag)
    (hR : ∀ f, R f → f.seq = q → f.type = ty ∧ f.length = len)
    (hlast : ¬ (cfg.dtls13 = true ∧ q = 65535)) :
    ∀ (fs : List Frag) (t : Spec.State), Good R t → t.expect = q →
      (∀ f ∈ fs, R f ∧ f.WF cfg ∧ f.seq = q) → (∃ f, (f ∈ fs ∨ f ∈ t.held) ∧ f.seq = q ∧ f.length = len) →
      (∀ i < len, ∃ f, (f ∈ fs ∨ f ∈ t.held) ∧ f.seq = q ∧ f.off ≤ i ∧ i < f.off + f.body.length) →
      delivered (Spec.run cfg (fs.map (fun f => (true, some f)) ++ [(true, last)]) t).1 ≠ []
  | [], t, h, he, _, hex, hcov => by
    obtain ⟨m, hm⟩ := ready_of_cover (len := len) h
      (by obtain ⟨f, h1, h2, h3⟩ := hex
          exact ⟨f, by simpa using h1, by rw [he]; exact h2, h3⟩)
      (by intro i hi
          obtain ⟨f, h1, h2, h3⟩ := hcov i hi
          exact ⟨f, by simpa using h1, by rw [he]; exact h2, h3⟩)
    have : (Spec.poll cfg true last t).1 = .msg m := by
      unfold Spec.poll
      rw [hm]
      simp only
      unfold deliver
      rw [if_neg (by simp only; rw [he]; simpa using hlast)]
    simp only [List.map_nil, List.nil_append]
    show delivered ((Spec.poll cfg true last t).1 :: _) ≠ []
    rw [this, delivered_cons_msg]; simp
  | f :: fs, t, h, he, hfs, hex, hcov => by
    obtain ⟨hf, hwf, hfq⟩ := hfs f (by simp)
    show delivered ((Spec.poll cfg true (some f) t).1 :: (Spec.run cfg _ (Spec.poll cfg true (some f) t).2).1) ≠ []
    rcases poll_progress (cfg := cfg) (f := f) h (by rw [he, hfq]) (by rw [he]; exact hlast)
      (fun g hg hgs => by
        have h1 := hR g (h.src g hg) (by rw [hgs, hfq])
        have h2 := hR f hf hfq
        exact ⟨h1.1.trans h2.1.symm, h1.2.trans h2.2.symm⟩) with ⟨m, hm⟩ | hidle
    · rw [hm, delivered_cons_msg]; simp
    · have hg := (poll_good (cfg := cfg) (ok := true) (r := some f) h
        (fun g hg => by obtain rfl := Option.some.inj hg; exact ⟨hf, hwf⟩)).1
      rw [hidle] at hg ⊢
      rw [delivered_cons_other _ (by simp)]
      have hmem : ∀ g, (g ∈ f :: fs ∨ g ∈ t.held) → (g ∈ fs ∨ g ∈ t.held ++ [f]) := by
        intro g hg
        rcases hg with hg | hg
        · rcases List.mem_cons.1 hg with rfl | hg
          · right; simp
          · left; exact hg
        · right; simp [hg]
      exact run_progress last hR hlast fs _ hg he (fun g hg => hfs g (by simp [hg]))
        (by obtain ⟨g, h1, h2⟩ := hex; exact ⟨g, hmem g h1, h2⟩)
        (fun i hi => by obtain ⟨g, h1, h2⟩ := hcov i hi; exact ⟨g, hmem g h1, h2⟩)

end Verif.Tls.Reass
