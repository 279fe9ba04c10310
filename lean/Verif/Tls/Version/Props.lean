import Verif.Tls.Version.Proof

/-!
# C48: version negotiation and downgrade protection
-/

namespace Verif.Tls.Version

open Verif.Common Spec

variable {c c' : Cfg} {dg : Bool} {o e : VSet}

/-! ## Configuration calls -/

/-- Any sequence of `HITLS_CFG_SetVersion` and `HITLS_CFG_SetVersionForbid` calls leaves a
configuration whose minimum and maximum version are the lowest and highest enabled ones. -/
theorem config_inv (hd : Describes c dg o e) (ops : List Op) :
    ∃ e', Describes (ops.foldl Spec.apply c) dg o e' := by
  induction ops generalizing c e with
  | nil => exact ⟨e, hd⟩
  | cons op t ih =>
    rw [List.foldl_cons]
    cases op with
    | forbid m =>
      exact ih (forbid_describes hd m)
    | setVersion lo hi =>
      show ∃ e', Describes (t.foldl Spec.apply ((setVersion c lo hi).getD c)) dg o e'
      cases hs : setVersion c lo hi with
      | none => exact ih hd
      | some c' =>
        by_cases hearly : c.minV = lo ∧ c.maxV = hi ∧ lo ≠ 0 ∧ hi ≠ 0
        · have : c' = c := by
            unfold setVersion at hs
            rw [if_pos hearly] at hs
            exact (Option.some.inj hs).symm
          subst this
          exact ih hd
        · exact ih (setVersion_describes hd hs hearly).1

/-- A successful `HITLS_CFG_SetVersion` that changes the range enables exactly the versions of the
configuration between the two bounds (0 standing for the lowest and highest possible). -/
theorem setVersion_exact (hd : Describes c dg o e) (lo hi : Nat)
    (hnew : ¬ (c.minV = lo ∧ c.maxV = hi)) (h : setVersion c lo hi = some c') :
    Describes c' dg o (between dg o (if lo = 0 then lowest dg o else lo)
      (if hi = 0 then highest dg o else hi)) :=
  (setVersion_describes hd h (fun hh => hnew ⟨hh.1, hh.2.1⟩)).1

/-- `HITLS_CFG_SetVersionForbid` disables exactly the versions in the mask. -/
theorem forbid_exact (hd : Describes c dg o e) (m : Mask) :
    Describes (setVersionForbid c m) dg o (without dg e m) := forbid_describes hd m

/-- A configuration for all stream versions. -/
def allStream : Cfg := ⟨0xb0#32, 0xb0#32, 0x0303, 0x0304, false, true, fun _ => true⟩

theorem allStream_describes : Describes allStream false ⟨true, true, true⟩ ⟨true, true, true⟩ := by
  refine ⟨?_, ?_, ?_, ?_, ?_, ?_⟩ <;> decide

example : Describes ([Op.setVersion 0x0303 0x0303, Op.forbid 0x80#32].foldl Spec.apply allStream)
    false ⟨true, true, true⟩ ⟨true, false, false⟩ := by
  refine ⟨?_, ?_, ?_, ?_, ?_, ?_⟩ <;> decide

/-- The same call `HITLS_CFG_SetVersion(TLS12, TLS13)` leaves TLCP enabled on a fresh configuration
for all stream versions, and disables it if another call came in between: the call returns early
when the bounds do not change. -/
theorem setVersion_history :
    setVersion allStream 0x0303 0x0304 = some allStream ∧
    (∃ c1 c2, setVersion allStream 0x0303 0x0303 = some c1 ∧ setVersion c1 0x0303 0x0304 = some c2 ∧
      Describes c2 false ⟨true, true, true⟩ ⟨true, true, false⟩) ∧
    Describes allStream false ⟨true, true, true⟩ ⟨true, true, true⟩ := by
  refine ⟨rfl, ⟨_, _, rfl, rfl, ?_⟩, allStream_describes⟩
  refine ⟨?_, ?_, ?_, ?_, ?_, ?_⟩ <;> decide

/-! ## Server -/

/-- When the best common version is accepted: 1.3 needs a key share group, older versions the
security policy, and with TLS_FALLBACK_SCSV nothing below the server's maximum. -/
def Spec.Accepts (c : Cfg) (dg : Bool) (e : VSet) (ch : ClientHello) (v : Nat) : Prop :=
  (v = w13 dg → c.kx = true) ∧ (v ≠ w13 dg → c.sec v = true) ∧
  (ch.scsv = true → v = w12 dg → e.v13 = false)

/-- The server negotiates the highest version that it enables and the client offers, if it is
acceptable, and otherwise fails: it never falls back to a lower one. -/
theorem server_highest (hd : Describes c dg o e) (hq : c.quic = false) (ch : ClientHello) (v : Nat) :
    (∃ c', server c ch = .ok (v, c')) ↔ Best dg e ch v ∧ Spec.Accepts c dg e ch v := by
  obtain ⟨d1, d2, d3⟩ := distinct dg
  rw [server_eq hd hq, best_iff]
  unfold Spec.Accepts Offered LegacyOffer
  by_cases h13 : e.v13 = true
  · simp only [h13, if_true, true_and, Bool.not_true, Bool.false_eq_true, if_false]
    by_cases hsv : ch.sv = []
    · simp only [hsv, if_true, ne_eq, not_true_eq_false, if_false, d1, d2, d3, d3.symm, false_and,
        or_false, false_or, and_false, true_and, not_false_eq_true, and_true]
      by_cases hl : ch.legacy = wT
      · have hl' : ch.legacy = 0x0101 := hl
        simp only [if_pos hl, if_true, if_false, outT_ok, eq_true hl', not_true_eq_false, false_and, and_false, false_or,
          not_false_eq_true, and_true]
        constructor
        · rintro ⟨c', h1, h2, rfl, h4⟩
          exact ⟨⟨rfl, h1⟩, fun h => absurd h d2.symm, fun _ => h2, fun _ h => absurd h d3.symm⟩
        · rintro ⟨⟨rfl, h1⟩, _, h2, _⟩
          exact ⟨_, h1, h2 d2.symm, rfl, rfl⟩
      · have hl' : ¬ ch.legacy = 0x0101 := hl
        simp only [if_neg hl, if_true, if_false, eq_false hl', not_false_eq_true, true_and, and_false, or_false, false_and]
        by_cases hn : (if dg then ch.legacy ≤ 0xfefd else 0x0303 ≤ ch.legacy)
        · simp only [if_pos hn, if_true, if_false, out12_ok, eq_true hn, and_true]
          constructor
          · rintro ⟨c', h1, h2, h3, rfl, h4⟩
            exact ⟨⟨rfl, h1⟩, fun h => absurd h d1.symm, fun _ => h2, fun hs _ => absurd ⟨hs, h13⟩ h3⟩
          · rintro ⟨⟨rfl, h1⟩, _, h2, h3⟩
            exact ⟨_, h1, h2 d1.symm, fun hs => by simpa using h3 hs.1 rfl, rfl, rfl⟩
        · simp [eq_false hn]
    · simp only [hsv, if_false, ne_eq, not_false_eq_true, if_true]
      by_cases hl : ch.legacy = w12 dg
      · simp only [hl, not_true_eq_false, if_false, true_and]
        by_cases g13 : w13 dg ∈ ch.sv
        · simp only [if_pos g13, if_true, if_false, eq_true g13, and_true, not_true_eq_false, and_false, false_and,
            or_false]
          constructor
          · rintro ⟨c', h⟩
            cases hk : c.kx
            · rw [hk] at h; simp at h
            · rw [hk, if_pos rfl] at h
              have hv : v = w13 dg := by
                have := Except.ok.inj h
                exact (Prod.mk.inj this).1.symm
              subst hv
              exact ⟨rfl, fun _ => rfl, fun h => absurd rfl h, fun _ h => absurd h d1⟩
          · rintro ⟨rfl, hk, _⟩
            rw [if_pos (hk rfl)]
            exact ⟨_, rfl⟩
        · simp only [if_neg g13, if_true, if_false, eq_false g13, and_false, false_or, not_false_eq_true, and_true,
            true_and]
          by_cases g12 : e.v12 = true ∧ w12 dg ∈ ch.sv
          · simp only [if_pos g12, if_true, if_false, out12_ok, g12.1, g12.2, true_and, and_true, not_true_eq_false,
              and_false, or_false]
            constructor
            · rintro ⟨c', h2, h3, rfl, h4⟩
              exact ⟨rfl, fun h => absurd h d1.symm, fun _ => h2, fun hs _ => absurd ⟨hs, h13⟩ h3⟩
            · rintro ⟨rfl, _, h2, h3⟩
              exact ⟨_, h2 d1.symm, fun hs => by simpa using h3 hs.1 rfl, rfl, rfl⟩
          · simp only [if_neg g12, if_true, if_false, eq_false g12, and_false, false_or, not_false_eq_true, and_true]
            by_cases gT : e.tlcp = true ∧ wT ∈ ch.sv
            · simp only [if_pos gT, if_true, if_false, outT_ok, gT.1, gT.2, true_and, and_true]
              constructor
              · rintro ⟨c', h2, rfl, h4⟩
                exact ⟨rfl, fun h => absurd h d2.symm, fun _ => h2, fun _ h => absurd h d3.symm⟩
              · rintro ⟨rfl, _, h2, _⟩
                exact ⟨_, h2 d2.symm, rfl, rfl⟩
            · simp [if_neg gT, eq_false gT]
      · simp [hl]
  · have h13' : e.v13 = false := by simpa using h13
    simp only [h13', Bool.false_eq_true, if_false, false_and, Bool.not_false, if_true, and_false,
      false_or, not_false_eq_true, and_true, d3, d3.symm, or_false]
    simp only [true_and, implies_true, and_true]
    by_cases hr : 0x0101 ≤ ch.legacy ∧ ch.legacy < 0x0300
    · simp only [if_pos hr, if_true, if_false, outT_ok, eq_true hr, not_true_eq_false, false_and, and_false, false_or,
        not_false_eq_true, and_true]
      constructor
      · rintro ⟨c', h1, h2, rfl, h4⟩
        exact ⟨⟨rfl, h1⟩, fun h => absurd h d2.symm, fun _ => h2⟩
      · rintro ⟨⟨rfl, h1⟩, _, h2⟩
        exact ⟨_, h1, h2 d2.symm, rfl, rfl⟩
    · simp only [if_neg hr, if_true, if_false, eq_false hr, not_false_eq_true, true_and, and_false, or_false, false_and]
      by_cases hn : (if dg then ch.legacy ≤ 0xfefd else 0x0303 ≤ ch.legacy)
      · simp only [if_pos hn, if_true, if_false, out12_ok, eq_true hn, and_true]
        constructor
        · rintro ⟨c', h1, h2, h3, rfl, h4⟩
          exact ⟨⟨rfl, h1⟩, fun h => absurd h d1.symm, fun _ => h2⟩
        · rintro ⟨⟨rfl, h1⟩, _, h2⟩
          exact ⟨_, h1, h2 d1.symm, fun hs => by simp [h13'] at hs, rfl, rfl⟩
      · simp [eq_false hn]

example : ∃ c', server allStream ⟨0x0303, [0x0a0a, 0x0303, 0x0304], false⟩ = .ok (0x0304, c') :=
  ⟨_, rfl⟩
example : ∃ c', server allStream ⟨0x0303, [], false⟩ = .ok (0x0303, c') := ⟨_, rfl⟩
example : server allStream ⟨0x0303, [], true⟩ = .error .fallback := rfl
example : Best false ⟨true, true, true⟩ ⟨0x0303, [0x0a0a, 0x0303, 0x0304], false⟩ 0x0304 :=
  ((server_highest allStream_describes rfl _ _).1 ⟨_, rfl⟩).1

/-- A second handshake on the same connection keeps the version of the first, or fails. -/
theorem renegotiation_keeps (hd : Describes c dg o e) (hq : c.quic = false) (old l v : Nat)
    (h : serverSelectNego c true old l = .ok (v, c')) : v = old ∧ Enabled dg e v := by
  obtain ⟨h1, h2⟩ := reneg_version hd hq old l h
  subst h1; exact ⟨rfl, h2⟩

example : ∃ c', serverSelectNego allStream true 0x0303 0x0304 = .ok (0x0303, c') := ⟨_, rfl⟩

/-! ## Downgrade marker -/

/-- The ServerHello of a server that enables 1.3 carries the downgrade marker of RFC 8446 whenever
1.2 is negotiated; in every other case the random bytes are sent as drawn. -/
theorem marker (hd : Describes c dg o e) (hq : c.quic = false) (ch : ClientHello) (v : Nat)
    (h : server c ch = .ok (v, c')) (rnd : List Byte) (hr : rnd.length = 32) :
    (v = w12 dg → e.v13 = true → Marked (serverHello c' v rnd).random ∧
      (serverHello c' v rnd).random.take 24 = rnd.take 24) ∧
    (v ≠ w12 dg ∨ e.v13 = false → (serverHello c' v rnd).random = rnd) ∧
    (serverHello c' v rnd).random.length = 32 := by
  obtain ⟨d1, d2, d3⟩ := distinct dg
  rcases server_cases hd hq ch h with ⟨rfl, rfl, h3⟩ | ⟨rfl, rfl, h3⟩ | ⟨rfl, rfl, h3⟩
  · rw [hello_13 hd]
    exact ⟨fun h => absurd h d1, fun _ => rfl, hr⟩
  · rw [hello_12 (dropTlcp_describes hd h3)]
    refine ⟨fun _ h13 => ?_, fun h => ?_, ?_⟩
    · simp only [h13, if_true]
      refine ⟨marked_take rnd (by omega), ?_⟩
      rw [List.append_assoc, List.take_left' (by simp; omega)]
    · have : e.v13 = false := by
        rcases h with h | h
        · exact absurd rfl h
        · exact h
      simp [this]
    · cases e.v13
      · simpa using hr
      · simp [hr, downgradeBytes]
  · rw [hello_T]
    exact ⟨fun h => absurd h d3.symm, fun _ => rfl, hr⟩

/-! ## Client -/

/-- What a client with 1.3 accepts: a 1.3 ServerHello (version field 1.2 and supported_versions
1.3), or, without supported_versions, version 1.2 if it is enabled and the random is not marked.

The last disjunct is the deviation `client_accepts_13_in_legacy_field` below. -/
theorem client_accepts (hd : Describes c dg o e) (hq : c.quic = false) (h13 : e.v13 = true)
    (sh : ServerHello) (w : Nat) (f : Flow) :
    client c sh = .ok (w, f) ↔
      (f = .tls13 ∧ w = w13 dg ∧ sh.version = w12 dg ∧ sh.sv = some (w13 dg)) ∨
      (f = .legacy ∧ w = sh.version ∧ sh.sv = none ∧ c.sec w = true ∧
        ((w = w12 dg ∧ e.v12 = true ∧ ¬ Marked sh.random) ∨ w = w13 dg)) :=
  client_13 hd hq h13 sh w f

/-- What a client without 1.3 accepts: exactly its one version (1.2 if enabled, or else TLCP). -/
theorem client_accepts_old (hd : Describes c dg o e) (hq : c.quic = false) (h13 : e.v13 = false)
    (hne : e.v12 = true ∨ e.tlcp = true) (sh : ServerHello) (w : Nat) (f : Flow) :
    client c sh = .ok (w, f) ↔
      f = .legacy ∧ w = sh.version ∧ c.sec w = true ∧ w = if e.v12 then w12 dg else wT :=
  client_no13 hd hq h13 hne sh w f

example : client allStream ⟨0x0303, some 0x0304, List.replicate 32 7#8⟩ = .ok (0x0304, .tls13) := rfl
example : client allStream ⟨0x0303, none, List.replicate 32 7#8⟩ = .ok (0x0303, .legacy) := rfl
example : client allStream ⟨0x0303, none, List.replicate 24 7#8 ++ downgradeBytes⟩ =
    .error .unsupported := rfl

/-- A client never goes on with a version that is not enabled. -/
theorem client_enabled (hd : Describes c dg o e) (hq : c.quic = false) (sh : ServerHello) (w : Nat)
    (f : Flow) (h : client c sh = .ok (w, f)) : Enabled dg e w := by
  cases h13 : e.v13
  · by_cases hne : e.v12 = true ∨ e.tlcp = true
    · obtain ⟨_, _, _, hw⟩ := (client_no13 hd hq h13 hne sh w f).1 h
      cases h12 : e.v12
      · rw [h12] at hw hne
        exact Or.inr (Or.inr ⟨hw, by simpa using hne⟩)
      · rw [h12] at hw
        exact Or.inl ⟨hw, h12⟩
    · have h12 : e.v12 = false := by
        cases hh : e.v12
        · rfl
        · exact absurd (Or.inl hh) hne
      have ht : e.tlcp = false := by
        cases hh : e.tlcp
        · rfl
        · exact absurd (Or.inr hh) hne
      have hm : c.maxV = 0 := by rw [hd.maxV]; simp [highest, h13, h12, ht]
      unfold client at h
      rw [hm, if_neg (by decide), if_neg (by decide)] at h
      simp at h
  · rcases (client_13 hd hq h13 sh w f).1 h with ⟨_, hw, _⟩ | ⟨_, _, _, _, ⟨hw, h12, _⟩ | hw⟩
    · exact Or.inr (Or.inl ⟨hw, h13⟩)
    · exact Or.inl ⟨hw, h12⟩
    · exact Or.inr (Or.inl ⟨hw, h13⟩)

/-- Deviation: a client with 1.3 that gets a ServerHello without supported_versions whose legacy
version field is that of 1.3 takes it as version 1.3, goes on with the pre-1.3 handshake, and does
not look at the downgrade marker. -/
theorem client_accepts_13_in_legacy_field (hd : Describes c dg o e) (hq : c.quic = false)
    (h13 : e.v13 = true) (hs : c.sec (w13 dg) = true) (rnd : List Byte) :
    client c ⟨w13 dg, none, rnd⟩ = .ok (w13 dg, .legacy) :=
  (client_13 hd hq h13 _ _ _).2 (Or.inr ⟨rfl, rfl, rfl, hs, Or.inr rfl⟩)

/-! ## The two sides together -/

section Both

variable {cc cs cs' : Cfg} {oc ec os es : VSet}

/-- Downgrade protection: between a client and a server that both enable 1.3, whatever ClientHello
the server was shown, the client accepts the server's hello only for version 1.3. -/
theorem downgrade_protection (hc : Describes cc dg oc ec) (hs : Describes cs dg os es)
    (hqc : cc.quic = false) (hqs : cs.quic = false) (hc13 : ec.v13 = true) (hs13 : es.v13 = true)
    (ch : ClientHello) (v : Nat) (hv : server cs ch = .ok (v, cs')) (rnd : List Byte)
    (hr : rnd.length = 32) (w : Nat) (f : Flow) (hw : client cc (serverHello cs' v rnd) = .ok (w, f)) :
    v = w13 dg ∧ w = w13 dg ∧ f = .tls13 := by
  obtain ⟨d1, d2, d3⟩ := distinct dg
  rw [client_13 hc hqc hc13] at hw
  rcases server_cases hs hqs ch hv with ⟨rfl, rfl, h3⟩ | ⟨rfl, rfl, h3⟩ | ⟨rfl, rfl, h3⟩
  · rw [hello_13 hs] at hw
    rcases hw with ⟨h1, h2, _⟩ | ⟨_, _, h, _⟩
    · exact ⟨rfl, h2, h1⟩
    · simp at h
  · rw [hello_12 (dropTlcp_describes hs h3)] at hw
    simp only [hs13, if_true, reduceCtorEq, and_false, false_or] at hw
    obtain ⟨_, h1, _, _, h2⟩ := hw
    rcases h2 with ⟨_, _, h2⟩ | h2
    · exact absurd (marked_take rnd (by omega)) h2
    · exact absurd (h2.symm.trans h1) d1
  · rw [hello_T] at hw
    simp only [reduceCtorEq, and_false, false_or] at hw
    obtain ⟨_, h1, _, _, h2⟩ := hw
    rcases h2 with ⟨h2, _⟩ | h2
    · exact absurd (h2.symm.trans h1) d3
    · exact absurd (h2.symm.trans h1) d2

example : ∃ cs' v, server allStream ⟨0x0303, [0x0303], false⟩ = .ok (v, cs') ∧ v = 0x0303 ∧
    client allStream (serverHello cs' v (List.replicate 32 7#8)) = .error .unsupported :=
  ⟨_, _, rfl, rfl, rfl⟩

/-- Agreement: when neither hello is changed on the way and the two sides share a version, the
handshake goes on with the highest one they share, and both know it.  (The policies admit the
versions, the server has a key share group, and the random it draws does not end with the marker by
chance.) -/
theorem honest_agree (hc : Describes cc dg oc ec) (hs : Describes cs dg os es)
    (hqc : cc.quic = false) (hqs : cs.quic = false)
    (hcom : ∃ v, Usable dg ec v ∧ Enabled dg es v)
    (hkx : cs.kx = true) (hss : ∀ v, cs.sec v = true) (hcs : ∀ v, cc.sec v = true)
    (rnd : List Byte) (hm : ¬ Marked rnd) :
    ∃ ch v cs', clientHello cc = some ch ∧ server cs ch = .ok (v, cs') ∧
      client cc (serverHello cs' v rnd) = .ok (v, if v = w13 dg then .tls13 else .legacy) ∧
      Usable dg ec v ∧ Enabled dg es v ∧
      ∀ v', Usable dg ec v' → Enabled dg es v' → rank v' ≤ rank v := by
  obtain ⟨d1, d2, d3⟩ := distinct dg
  obtain ⟨v0, hu0, he0⟩ := hcom
  obtain ⟨v, _, hu, he, ho, hbest, hmax, h12, hno, hT⟩ :=
    agree_fin dg ec.v12 ec.v13 ec.tlcp es.v12 es.v13 es.tlcp ⟨v0, enabled_mem he0, hu0, he0⟩
  have hB : Best dg es (helloOf dg ec) v := ⟨he, ho, fun v' h1 h2 => hbest v' (enabled_mem h1) h1 h2⟩
  have hscsv : (helloOf dg ec).scsv = false := by unfold helloOf; split <;> rfl
  obtain ⟨cs', hsv⟩ := (server_highest hs hqs (helloOf dg ec) v).2
    ⟨hB, fun _ => hkx, fun _ => hss v, fun h => by rw [hscsv] at h; simp at h⟩
  refine ⟨helloOf dg ec, v, cs', clientHello_eq hc, hsv, ?_, hu, he,
    fun v' h1 h2 => hmax v' (enabled_mem h1.1) h1 h2⟩
  rcases server_cases hs hqs _ hsv with ⟨rfl, rfl, h3⟩ | ⟨rfl, rfl, h3⟩ | ⟨rfl, rfl, h3⟩
  · rw [hello_13 hs, if_pos rfl]
    have h13 : ec.v13 = true := by
      rcases hu.1 with ⟨h, _⟩ | ⟨_, h⟩ | ⟨h, _⟩
      · exact absurd h d1
      · exact h
      · exact absurd h d2
    exact (client_13 hc hqc h13 _ _ _).2 (Or.inl ⟨rfl, rfl, rfl, rfl⟩)
  · rw [hello_12 (dropTlcp_describes hs h3), if_neg d1.symm]
    cases h13 : ec.v13
    · have hw := hno h13
      refine (client_no13 hc hqc h13 ?_ _ _ _).2 ⟨rfl, rfl, hcs _, hw⟩
      cases ha : ec.v12
      · rw [ha] at hw; exact absurd hw d3
      · exact Or.inl rfl
    · obtain ⟨k1, k2⟩ := h12 rfl h13
      refine (client_13 hc hqc h13 _ _ _).2 (Or.inr ⟨rfl, rfl, rfl, hcs _, Or.inl ⟨rfl, k2, ?_⟩⟩)
      simpa [k1] using hm
  · rw [hello_T, if_neg d2.symm]
    have h13 := hT rfl
    refine (client_no13 hc hqc h13 ?_ _ _ _).2 ⟨rfl, rfl, hcs _, hno h13⟩
    rcases hu.1 with ⟨h, _⟩ | ⟨h, _⟩ | ⟨_, h⟩
    · exact absurd h d3.symm
    · exact absurd h d2.symm
    · exact Or.inr h

example : ∃ v, Usable false ⟨true, true, true⟩ v ∧ Enabled false ⟨true, true, true⟩ v :=
  ⟨0x0304, by decide, by decide⟩

end Both

end Verif.Tls.Version
