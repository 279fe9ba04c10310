import Verif.Pki.Host.Proof
import Verif.Bsl.Ip.Props
/-! C39: which certificates speak for a host name, a URI or an SRV name. -/
namespace Verif.Pki.Host
open Verif.Common

/-- Bytes of an ASCII string, for the examples. -/
def str (s : String) : List Byte := s.toList.map (fun c => BitVec.ofNat 8 c.toNat)

/-- C39.  Without the partial-wildcard flag a name matches a host name iff it has no `*` and they are
equal ignoring case, or it is `*.` and a domain of at least two labels that is the host name without its
first label. -/
theorem single_match_iff {flags : BitVec 32} {p h : List Byte} (hf : flags.toNat % 2 = 0)
    (hp : 0#8 ∉ p) (hh : 0#8 ∉ h) :
    matchPattern flags p h = some true ↔ Spec.Single p h := by
  rw [matchPattern, if_neg (by rw [isPartial_iff]; omega), Option.some.injEq]
  exact matchSingle_spec hp hh

example : matchPattern 0 (str "*.Example.com") (str "www.exAMPLE.com") = some true := by
  rw [single_match_iff (by decide) (by decide) (by decide)]
  exact Or.inr ⟨str "www", str "Example.com", str "exAMPLE.com", by decide, by decide, by decide,
    by decide, by unfold Spec.EqIC; decide⟩
example : matchSingle (str "*.com") (str "example.com") = false := by decide
example : matchSingle (str "*.a.com") (str "x.y.a.com") = false := by decide
example : matchSingle (str "w*.a.com") (str "www.a.com") = false := by decide

/-- C39.  With the flag, a name without empty labels matches a non-empty host name iff it has no `*` and
they are equal ignoring case, or its first label is `pre*suf`, the first label of the host name starts
with `pre` and ends with `suf`, and the rest is equal ignoring case and free of `*`. -/
theorem partial_match_iff {flags : BitVec 32} {p h : List Byte} (hf : flags.toNat % 2 = 1)
    (hp : 0#8 ∉ p) (hh : 0#8 ∉ h) (hne : h ≠ []) (hw : ¬ Spec.EmptyLabel p) :
    matchPattern flags p h = some true ↔ Spec.Partial p h := by
  obtain ⟨b, h1, h2⟩ := matchPartial_loose hp hh hne
  rw [matchPattern, if_pos ((isPartial_iff flags).mpr hf), h1, Option.some.injEq, h2, loose_partial hw]

example : matchPattern 1 (str "w*1.Example.com") (str "WEB1.example.com") = some true ∧
    ¬ Spec.EmptyLabel (str "w*1.Example.com") := by
  have hw : ¬ Spec.EmptyLabel (str "w*1.Example.com") := by
    rintro (⟨r, h⟩ | ⟨a, r, h⟩)
    · have := congrArg List.head? h; rw [List.head?_cons] at this; revert this; decide
    · have hb : (str "w*1.Example.com").count dot = 2 := by decide
      have hm : a ++ [dot, dot] ++ r = str "w*1.Example.com" := by rw [h]; simp
      have hc := congrArg (List.count dot) hm
      rw [hb, List.count_append, List.count_append] at hc
      have h2 : List.count dot [dot, dot] = 2 := by decide
      rw [h2] at hc
      have ha : dot ∉ a := List.count_eq_zero.mp (by omega)
      have hs : str "w*1.Example.com" = str "w*1" ++ dot :: str "Example.com" := by decide
      rw [hs] at h
      obtain ⟨_, h4⟩ := split_unique (by decide) ha h
      have := congrArg List.head? h4; rw [List.head?_cons] at this; revert this; decide
  refine ⟨?_, hw⟩
  rw [partial_match_iff (by decide) (by decide) (by decide) (by decide) hw]
  exact Or.inr ⟨str "w", str "1", str ".Example.com", str "W", str "EB", str "1", str ".example.com",
    by decide, by decide, by decide, by decide, by decide, by decide, by decide, by decide, by decide,
    by decide, by unfold Spec.EqIC; decide, by unfold Spec.EqIC; decide, by unfold Spec.EqIC; decide,
    by decide⟩

/-- C39.  The exact rule with the flag, for every name: as above, except that after the wildcard an
*empty* label of the name stands for any label of the host name.  No byte outside the two strings is
read. -/
theorem partial_match_exact {flags : BitVec 32} {p h : List Byte} (hf : flags.toNat % 2 = 1)
    (hp : 0#8 ∉ p) (hh : 0#8 ∉ h) (hne : h ≠ []) :
    ∃ b, matchPattern flags p h = some b ∧ (b = true ↔ Spec.PartialLoose p h) := by
  obtain ⟨b, h1, h2⟩ := matchPartial_loose hp hh hne
  exact ⟨b, by rw [matchPattern, if_pos ((isPartial_iff flags).mpr hf), h1], h2⟩

/-- C39 finding.  With the flag, `.d` matches `l.d` for every label `l`: the certificate name `.com`
speaks for every host directly under `com`, although it has no `*`. -/
theorem empty_label_matches_any_label {l d : List Byte} (hl : dot ∉ l) (hs : star ∉ d)
    (hz : 0#8 ∉ l) (hz' : 0#8 ∉ d) : matchPattern 1#32 (dot :: d) (l ++ dot :: d) = some true := by
  obtain ⟨b, h1, h2⟩ := partial_match_exact (flags := 1#32) (p := dot :: d) (h := l ++ dot :: d)
    (by decide) (by simp only [List.mem_cons, not_or]; exact ⟨by decide, hz'⟩)
    (by simp only [List.mem_append, List.mem_cons, not_or]; exact ⟨hz, by decide, hz'⟩) (by simp)
  rw [h1, h2.mpr (Or.inl (.skip hl (.same hs rfl)))]

example : matchPattern 1#32 (str ".com") (str "victim.com") = some true :=
  empty_label_matches_any_label (l := str "victim") (d := str "com") (by decide) (by decide) (by decide)
    (by decide)

/-- C39 finding.  The wildcard also matches an empty first label, in both modes. -/
theorem wildcard_matches_empty_label :
    matchPattern 0#32 (str "*.a.com") (str ".a.com") = some true ∧
    matchPattern 1#32 (str "*.a.com") (str ".a.com") = some true := by
  constructor
  · rw [single_match_iff (by decide) (by decide) (by decide)]
    exact Or.inr ⟨[], str "a.com", str "a.com", by decide, by decide, by decide, by decide, rfl⟩
  · obtain ⟨b, h1, h2⟩ := partial_match_exact (flags := 1#32) (p := str "*.a.com") (h := str ".a.com")
      (by decide) (by decide) (by decide) (by decide)
    rw [h1, h2.mpr (Or.inr ⟨[], [], str ".a.com", [], [], [], str ".a.com", by decide, by decide,
      by decide, by decide, by decide, by decide, by decide, by decide, by decide, rfl, rfl,
      Or.inr ⟨str "a.com", str "a.com", by decide, by decide, .same (by decide) rfl⟩⟩)]

/-- C39.  A wildcard never spans a dot: in either mode a matching name and host name have the same
number of labels. -/
theorem match_same_number_of_labels {flags : BitVec 32} {p h : List Byte} (hp : 0#8 ∉ p) (hh : 0#8 ∉ h)
    (hne : h ≠ []) (hm : matchPattern flags p h = some true) : p.count dot = h.count dot := by
  have eqc : ∀ {a b : List Byte}, Spec.EqIC a b → a.count dot = b.count dot := by
    intro a b e
    rw [eqIC_iff] at e
    have hc : ∀ l : List Byte, l.count dot = (l.map low).count dot := by
      intro l
      induction l with
      | nil => rfl
      | cons x l ih =>
        rw [List.map_cons, List.count_cons, List.count_cons, ih]
        by_cases hx : x = dot
        · simp [hx, low_dot.mpr rfl]
        · have := mt low_dot.mp hx; simp [hx, this]
    rw [hc a, hc b, e]
  have tc : ∀ {a b : List Byte}, Spec.Tail a b → a.count dot = b.count dot := by
    intro a b t
    induction t with
    | same _ e => exact eqc e
    | skip hl _ ih =>
      rw [List.count_append, List.count_cons_self, List.count_cons_self, List.count_eq_zero.mpr hl, ih]
      omega
  obtain ⟨b, h1, h2⟩ := matchPattern_spec (flags := flags) hp hh hne
  rw [h1] at hm
  have hb := h2.mp (Option.some.inj hm)
  rw [Spec.Matches] at hb
  split at hb
  · rcases hb with t | ⟨pre, suf, rp, x, y, z, rh, e1, e2, d1, d2, d3, d4, d5, s1, s2, q1, q2, t⟩
    · exact tc t
    · rw [e1, e2]
      have hps := List.count_eq_zero.mpr (dot_star.mpr ⟨d1, d2⟩)
      have hxy := List.count_eq_zero.mpr (dot_app3.mpr ⟨d3, d4, d5⟩)
      rw [List.count_append (l₂ := rp), List.count_append (l₂ := rh), hps, hxy]
      rcases t with ⟨rfl, rfl⟩ | ⟨p', h', rfl, rfl, t⟩
      · rfl
      · rw [List.count_cons_self, List.count_cons_self, tc t]
  · rcases hb with ⟨_, e⟩ | ⟨l, d, d', rfl, rfl, hl, _, e⟩
    · exact eqc e
    · rw [List.count_append, List.count_eq_zero.mpr hl, List.count_cons_of_ne (by decide),
        List.count_cons_self, List.count_cons_self, eqc e]
      omega

example : matchPattern 0#32 (str "*.a.com") (str "x.a.com") = some true := by decide

/-- C39.  Verifying a host name of `len` bytes succeeds iff the certificate speaks for it: a dNSName
matches, or there is none and the first common name matches.  `mem` is the caller's memory: the string,
its NUL and whatever follows. -/
theorem verify_hostname_iff {cert : Cert} {flags : BitVec 32} {host rest : List Byte}
    (hh : 0#8 ∉ host) (hne : host ≠ []) (hlen : host.length < 2 ^ 32)
    (hsan : cert.san ≠ .error .success) :
    ∃ r, verifyHostname cert flags (host ++ 0#8 :: rest) host.length = some r ∧
      (r = .success ↔ Spec.CertMatches cert flags host) :=
  verifyHostname_host hh hne (Nat.mod_eq_of_lt hlen).symm (by simpa using hne) hsan

/-- A certificate with a dNSName list and a misleading common name. -/
def exCert : Cert where
  san := .ok [⟨.ip, [1, 2, 3, 4]⟩, ⟨.dns, str "a.org"⟩, ⟨.dns, str "*.b.org"⟩]
  subject := [(false, str "DE"), (true, str "victim.com")]

example : verifyHostname exCert 0#32 (str "www.b.org" ++ [0#8]) 9 = some .success ∧
    verifyHostname exCert 0#32 (str "victim.com" ++ [0#8]) 10 = some .hostnameFail := by decide

/-- C39.  A length that is not that of the NUL-terminated host name, in particular a host name with an
embedded NUL, is refused. -/
theorem verify_hostname_length {cert : Cert} {flags : BitVec 32} {host rest : List Byte} {len : Nat}
    (hh : 0#8 ∉ host) (hlen : host.length < 2 ^ 32) (hd : len ≠ host.length ∨ len = 0) :
    verifyHostname cert flags (host ++ 0#8 :: rest) len = some .invalidParam := by
  rw [verifyHostname]
  by_cases h0 : len = 0
  · rw [if_pos h0]
  · rw [if_neg h0, strlen, findChar_app hh]
    simp only [Option.bind_eq_bind, Option.bind_some]
    rw [if_pos]
    rw [Nat.mod_eq_of_lt hlen]; omega

example : verifyHostname exCert 0#32 (str "a.org" ++ 0#8 :: str ".evil.com" ++ [0#8]) 15 =
    some .invalidParam := verify_hostname_length (host := str "a.org") (by decide) (by decide) (by decide)

/-- C39.  A name with an embedded NUL never matches: removing it from the certificate changes nothing
about acceptance, provided another dNSName remains. -/
theorem nul_names_ignored {cert cert' : Cert} {flags : BitVec 32} {host rest : List Byte}
    {a b : List Gn} {g : Gn} (hh : 0#8 ∉ host) (hne : host ≠ []) (hlen : host.length < 2 ^ 32)
    (hc : cert.san = .ok (a ++ g :: b)) (hc' : cert'.san = .ok (a ++ b))
    (hg : 0#8 ∈ g.value) (hd : ∃ x ∈ a ++ b, x.ty = .dns) :
    verifyHostname cert flags (host ++ 0#8 :: rest) host.length = some .success ↔
      verifyHostname cert' flags (host ++ 0#8 :: rest) host.length = some .success := by
  obtain ⟨r, h1, h2⟩ := verify_hostname_iff (cert := cert) (flags := flags) (rest := rest) hh hne hlen
    (by rw [hc]; simp)
  obtain ⟨r', h1', h2'⟩ := verify_hostname_iff (cert := cert') (flags := flags) (rest := rest) hh hne hlen
    (by rw [hc']; simp)
  rw [h1, h1', Option.some.injEq, Option.some.injEq, h2, h2', Spec.CertMatches, Spec.CertMatches, hc, hc']
  obtain ⟨x, hx, hxt⟩ := hd
  constructor
  · rintro (⟨n, y, e, m, t⟩ | ⟨e | ⟨n, e, m⟩, _⟩)
    · cases e
      refine Or.inl ⟨_, y, rfl, ?_, t⟩
      simp only [List.mem_append, List.mem_cons] at m ⊢
      rcases m with m | rfl | m
      · exact Or.inl m
      · exact absurd hg t.2.1
      · exact Or.inr m
    · simp at e
    · cases e
      refine absurd hxt (m x ?_)
      simp only [List.mem_append, List.mem_cons] at hx ⊢; tauto
  · rintro (⟨n, y, e, m, t⟩ | ⟨e | ⟨n, e, m⟩, _⟩)
    · cases e
      refine Or.inl ⟨_, y, rfl, ?_, t⟩
      simp only [List.mem_append, List.mem_cons] at m ⊢; tauto
    · simp at e
    · cases e; exact absurd hxt (m x hx)

example : verifyHostname ⟨.ok [⟨.dns, str "a.com" ++ 0#8 :: str ".evil.org"⟩], []⟩ 0#32
    (str "a.com" ++ [0#8]) 5 = some .hostnameFail := by decide

/-- C39.  Verifying a URI identity succeeds iff it parses as `scheme:[//][userinfo@]host[:port]…` and some
URI name of the certificate parses to the same scheme ignoring case and a host that matches. -/
theorem verify_uri_iff {cert : Cert} {flags : BitVec 32} {uri rest : List Byte}
    (hz : 0#8 ∉ uri) (hne : uri ≠ []) (hlen : uri.length < 2 ^ 32) :
    ∃ r, verifyId .uri parseUriId .uriFail cert flags (uri ++ 0#8 :: rest) uri.length = some r ∧
      (r = .success ↔ ∃ scheme host, Spec.Uri uri scheme host ∧
        Spec.IdMatches Spec.Uri .uri cert flags scheme host) := by
  refine verifyId_spec (fun _ _ _ => parseUriId_spec) ?_ ?_ hz hne hlen (by simp)
  · rintro v s d ⟨_, _, _, _, _, _, _, _, _, _, _, _, _, _, _, h⟩; exact h
  · rintro v s d ⟨auth, r, part, after, hp, rfl, _, _, ha, _, _, e1, _, e2, _, _⟩ c hc
    have h1 : c ∈ hp := by
      rcases e2 with rfl | ⟨p, rfl, _⟩
      · exact hc
      · simp [hc]
    have h2 : c ∈ part := by
      rcases e1 with rfl | ⟨u, rfl⟩
      · exact h1
      · simp [h1]
    have h3 : c ∈ r := by
      rcases ha with ⟨_, rfl⟩ | ⟨_, rfl, _⟩ <;> simp [h2]
    simp [h3]

example : Spec.Uri (str "sip:alice@Example.com:5060;tr") (str "sip") (str "Example.com") ∧
    parseUriId (str "https://u@h.org:99999/") = none := by
  rw [← parseUriId_spec]; decide
example : verifyId .uri parseUriId .uriFail ⟨.ok [⟨.uri, str "HTTPS://*.b.org"⟩], []⟩ 0#32
    (str "https://x@www.B.org:443/p?q" ++ [0#8]) 27 = some .success := by decide

/-- C39.  Verifying an SRV identity succeeds iff it is `_service.domain` and some SRV name of the
certificate has the same service ignoring case and a domain that matches. -/
theorem verify_srv_iff {cert : Cert} {flags : BitVec 32} {srv rest : List Byte}
    (hz : 0#8 ∉ srv) (hne : srv ≠ []) (hlen : srv.length < 2 ^ 32) :
    ∃ r, verifyId .srv parseSrvId .srvFail cert flags (srv ++ 0#8 :: rest) srv.length = some r ∧
      (r = .success ↔ ∃ service domain, Spec.Srv srv service domain ∧
        Spec.IdMatches Spec.Srv .srv cert flags service domain) := by
  refine verifyId_spec (fun _ _ _ => parseSrvId_spec) ?_ ?_ hz hne hlen (by simp)
  · rintro v s d ⟨_, _, _, h⟩; exact h
  · rintro v s d ⟨rfl, _⟩ c hc; simp [hc]

example : verifyId .srv parseSrvId .srvFail ⟨.ok [⟨.srv, str "_Imap.b.org"⟩], []⟩ 0#32
    (str "_imap.B.org" ++ [0#8]) 11 = some .success := by decide

theorem ipLoop_spec {addr : List Byte} : ∀ names : List Gn,
    ipLoop addr names = .success ↔ ∃ g ∈ names, g.ty = .ip ∧ g.value = addr
  | [] => by simp [ipLoop]
  | g :: gs => by
    rw [ipLoop]
    by_cases h : g.ty = .ip
    · rw [if_neg (not_not.mpr h)]
      by_cases h2 : g.value = addr
      · rw [if_pos ⟨by rw [h2], h2⟩]; simp [h, h2]
      · rw [if_neg (fun x => h2 x.2), ipLoop_spec gs]; simp [h2]
    · rw [if_pos h, ipLoop_spec gs]; simp [h]

/-- C39.  Verifying an IP identity succeeds exactly when the text is an IP address (C59) and the
certificate's subject alternative names have an iPAddress entry whose bytes are exactly that address:
neither dNSName entries nor the common name are considered, and an IPv4 address never matches a mapped
IPv6 entry. -/
theorem verify_ip_iff {cert : Cert} {ip rest : List Byte} (hz : 0#8 ∉ ip) :
    ∃ r, verifyIp cert (ip ++ 0#8 :: rest) ip.length = some r ∧
      (r = .success ↔ ip.length ≤ 45 ∧ ∃ addr, (Bsl.Ip.Spec.V4 ip addr ∨ Bsl.Ip.Spec.V6 ip addr) ∧
        ∃ names, cert.san = .ok names ∧ ∃ g ∈ names, g.ty = .ip ∧ g.value = addr) := by
  have key : (∃ addr, Bsl.Ip.parseIp ip = some addr ∧
      ∃ names, cert.san = .ok names ∧ ∃ g ∈ names, g.ty = .ip ∧ g.value = addr) ↔
      (ip.length ≤ 45 ∧ ∃ addr, (Bsl.Ip.Spec.V4 ip addr ∨ Bsl.Ip.Spec.V6 ip addr) ∧
        ∃ names, cert.san = .ok names ∧ ∃ g ∈ names, g.ty = .ip ∧ g.value = addr) := by
    constructor
    · rintro ⟨addr, h, r⟩
      exact ⟨(Bsl.Ip.parse_ip_iff.mp h).1, addr, (Bsl.Ip.parse_ip_iff.mp h).2, r⟩
    · rintro ⟨h, addr, h2, r⟩
      exact ⟨addr, Bsl.Ip.parse_ip_iff.mpr ⟨h, h2⟩, r⟩
  rw [← key, verifyIp, strlen, findChar_app hz]
  simp only [Option.bind_eq_bind, Option.bind_some, ne_eq, not_true_eq_false, if_false,
    List.take_left' rfl]
  cases hp : Bsl.Ip.parseIp ip with
  | none => exact ⟨_, rfl, by simp⟩
  | some addr =>
    cases hs : cert.san with
    | error e => exact ⟨_, rfl, by simp⟩
    | ok names =>
      refine ⟨_, rfl, ?_⟩
      rw [ipLoop_spec]
      exact ⟨fun h => ⟨addr, rfl, names, rfl, h⟩, by rintro ⟨_, ⟨⟩, _, ⟨⟩, h⟩; exact h⟩

/-- A certificate naming one address and, as a dNSName and as CN, the text of another. -/
def exIpCert : Cert where
  san := .ok [⟨.dns, str "10.0.0.2"⟩, ⟨.ip, [10#8, 0#8, 0#8, 1#8]⟩]
  subject := [(true, str "10.0.0.2")]

example : verifyIp exIpCert (str "10.0.0.1" ++ [0#8]) 8 = some .success ∧
    verifyIp exIpCert (str "10.0.0.2" ++ [0#8]) 8 = some .ipFail ∧
    verifyIp exIpCert (str "::ffff:10.0.0.1" ++ [0#8]) 15 = some .ipFail := by decide +kernel

/-- C39.  A length that is not the string's is refused. -/
theorem verify_ip_length {cert : Cert} {ip rest : List Byte} {len : Nat} (hz : 0#8 ∉ ip)
    (hd : len ≠ ip.length) : verifyIp cert (ip ++ 0#8 :: rest) len = some .invalidParam := by
  rw [verifyIp, strlen, findChar_app hz]
  simp only [Option.bind_eq_bind, Option.bind_some, ne_eq]
  rw [if_pos (fun h => hd h.symm)]

example : verifyIp exIpCert (str "10.0.0.1" ++ [0#8]) 7 = some .invalidParam :=
  verify_ip_length (ip := str "10.0.0.1") (by decide) (by decide)

/-- C39.  The kind of identity selects the names compared, and an unknown kind never succeeds. -/
theorem verify_identity_dispatch (cert : Cert) (flags : BitVec 32) (mem : List Byte) (len : Nat) :
    verifyIdentity cert flags 1 mem len = verifyHostname cert flags mem len ∧
    verifyIdentity cert flags 2 mem len = verifyIp cert mem len ∧
    verifyIdentity cert flags 3 mem len = verifyId .uri parseUriId .uriFail cert flags mem len ∧
    verifyIdentity cert flags 4 mem len = verifyId .srv parseSrvId .srvFail cert flags mem len ∧
    ∀ t, t = 0 ∨ 4 < t → verifyIdentity cert flags t mem len = some .invalidParam := by
  refine ⟨rfl, rfl, rfl, rfl, fun t ht => ?_⟩
  rw [verifyIdentity, if_neg (by omega), if_neg (by omega), if_neg (by omega), if_neg (by omega)]

example : verifyIdentity exIpCert 0 2 (str "10.0.0.1" ++ [0#8]) 8 = some .success ∧
    verifyIdentity exIpCert 0 1 (str "10.0.0.1" ++ [0#8]) 8 ≠ some .success := by decide +kernel

end Verif.Pki.Host
