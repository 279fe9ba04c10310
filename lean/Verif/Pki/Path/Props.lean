import Verif.Pki.Path.ProofC

/-!
# C40: certification path validation

`certVerify env cfg st peer = .ok chain` says that `HITLS_X509_CertVerify` returned
success for the certificates `peer` (end entity first) and judged the path
`chain`.  `Spec.Strict cfg` says that the application's callback never overrules
an error (true of the default callback).
-/

namespace Verif.Pki.Path
open Verif.Common

theorem accepted_final {env : Env} {cfg : Cfg} {st : Store} {peer chain : List Cert}
    (h : certVerify env cfg st peer = .ok chain) : cfg.cbFinal = none := by
  cases hf : cfg.cbFinal with
  | none => rfl
  | some e =>
    exfalso
    cases peer with
    | nil => simp [certVerify] at h
    | cons c cs =>
      rw [certVerify] at h
      simp only [match_ok, hf, reduceCtorEq, and_false, exists_false] at h

theorem accepted_built {env : Env} {cfg : Cfg} {st : Store} {peer chain : List Cert}
    (h : certVerify env cfg st peer = .ok chain) :
    ∃ cert, peer[0]? = some cert ∧ buildChain env cfg st peer cert = .ok chain := by
  have hf := accepted_final h
  cases peer with
  | nil => simp [certVerify] at h
  | cons c cs =>
    refine ⟨c, by simp, ?_⟩
    rw [certVerify] at h
    simp only [match_ok, hf] at h
    obtain ⟨ch, hb, _, _, _, _, _, _, _, _, _, _, _, _, he⟩ := h
    simp at he; subst he; exact hb

/-- **Where the path starts and ends** (any callback). An accepted path starts with
the certificate to be verified; every member was supplied by the peer or is
trusted; and it ends in a trust anchor, unless the certificate to be verified is
itself (a copy of) a trust anchor. -/
theorem path_anchored {env : Env} {cfg : Cfg} {st : Store} {peer chain : List Cert}
    (h : certVerify env cfg st peer = .ok chain) :
    chain[0]? = peer[0]? ∧ (∀ c ∈ chain, c ∈ peer ∨ Spec.Trusted st c) ∧
    ∃ root, Spec.Trusted st root ∧
      (chain.getLast? = some root ∨
        ∃ leaf, peer[0]? = some leaf ∧ leaf.tbs = root.tbs ∧ leaf.sig = root.sig ∧
          leaf.subject = root.subject) := by
  obtain ⟨cert, h0, hb⟩ := accepted_built h
  have hstart := buildChain_ne hb
  obtain ⟨root, ch, hB, _, rfl⟩ := buildChain_spec hb
  refine ⟨by rw [hstart, h0], ?_, root, hB.trusted, ?_⟩
  · have hch : ∀ c ∈ ch, c ∈ peer ∨ Spec.Trusted st c := by
      intro c hc
      rcases hB.src c hc with hx | hx
      · simp at hx; subst hx; exact Or.inl (List.mem_of_getElem? h0)
      · exact hx
    intro c hc
    split at hc
    · exact hch c hc
    · rcases List.mem_append.1 hc with hc | hc
      · exact hch c hc
      · simp at hc; subst hc; exact Or.inr hB.trusted
  · split
    · rename_i hs
      simp [sameCert] at hs
      exact Or.inr ⟨cert, h0, hs.1.1.2, hs.2, hs.1.1.1⟩
    · exact Or.inl (by simp)

/-- **Name and key-identifier chaining** (any callback). In an accepted path each
certificate names the next one as its issuer. -/
theorem path_linked {env : Env} {cfg : Cfg} {st : Store} {peer chain : List Cert}
    (h : certVerify env cfg st peer = .ok chain) (i : Nat) (c d : Cert)
    (hc : chain[i]? = some c) (hd : chain[i + 1]? = some d) : Spec.Issued env d c := by
  obtain ⟨cert, _, hb⟩ := accepted_built h
  obtain ⟨root, ch, hB, _, rfl⟩ := buildChain_spec hb
  rw [← checkIssued_iff]
  refine hB.linked i c d ?_ ?_
  · split at hc
    · rw [List.getElem?_append_left (List.getElem?_eq_some_iff.1 hc).1]; exact hc
    · exact hc
  · split at hd
    · rw [List.getElem?_append_left (List.getElem?_eq_some_iff.1 hd).1]; exact hd
    · exact hd

/-- **Termination on circular input** (any callback): whatever the peer and the CA
directories contain, a path has at most 101 certificates. -/
theorem path_finite {env : Env} {cfg : Cfg} {st : Store} {peer chain : List Cert}
    (h : certVerify env cfg st peer = .ok chain) : chain.length ≤ 101 := by
  obtain ⟨cert, _, hb⟩ := accepted_built h
  obtain ⟨root, ch, _, hl, rfl⟩ := buildChain_spec hb
  split
  · omega
  · simp; omega

/-- **Depth limit.** -/
theorem depth_bounded {env : Env} {cfg : Cfg} {st : Store} {peer chain : List Cert}
    (hs : Spec.Strict cfg) (h : certVerify env cfg st peer = .ok chain) :
    chain.length ≤ cfg.maxDepth := by
  obtain ⟨cert, _, hb⟩ := accepted_built h
  obtain ⟨root, ch, hB, _, rfl⟩ := buildChain_spec hb
  have := hB.depth hs
  split
  · omega
  · simp; omega

/-- **Decision.** With a callback that never overrules, the verifier accepts
exactly when a path can be built and the path conforms to the specification. -/
theorem accepts_iff {env : Env} {cfg : Cfg} {st : Store} {peer chain : List Cert}
    (hs : Spec.Strict cfg) (hf : cfg.cbFinal = none) :
    certVerify env cfg st peer = .ok chain ↔
      ∃ cert, peer[0]? = some cert ∧ buildChain env cfg st peer cert = .ok chain ∧
        Spec.Conforms env cfg st chain :=
  certVerify_iff hs hf env st peer chain

/-- **Soundness.** An accepted path conforms. -/
theorem accepted_conforms {env : Env} {cfg : Cfg} {st : Store} {peer chain : List Cert}
    (hs : Spec.Strict cfg) (h : certVerify env cfg st peer = .ok chain) :
    Spec.Conforms env cfg st chain := by
  obtain ⟨_, _, _, hc⟩ := (accepts_iff hs (accepted_final h)).1 h
  exact hc

/-- **Signatures.** Every certificate of an accepted path is signed by the next one. -/
theorem path_signed {env : Env} {cfg : Cfg} {st : Store} {peer chain : List Cert}
    (hs : Spec.Strict cfg) (h : certVerify env cfg st peer = .ok chain) (i : Nat) (c d : Cert)
    (hc : chain[i]? = some c) (hd : chain[i + 1]? = some d) :
    c.sigAlgTbs = c.sigAlg ∧ env.verify d.key c.sigAlg c.tbs c.sig = true :=
  (accepted_conforms hs h).signed i c d hc hd

/-- **The anchor** of an accepted path is signed with its own key, unless partial
chains are allowed and the path has at least two certificates. -/
theorem anchor_self_signed {env : Env} {cfg : Cfg} {st : Store} {peer chain : List Cert}
    (hs : Spec.Strict cfg) (h : certVerify env cfg st peer = .ok chain) (c : Cert)
    (hc : chain.getLast? = some c) (hp : cfg.partialChain = false ∨ chain.length = 1) :
    Spec.SignedBy env c c := by
  rw [List.getLast?_eq_getElem?] at hc
  have hlt := (List.getElem?_eq_some_iff.1 hc).1
  rcases (accepted_conforms hs h).anchorSigned _ c hc (by omega) with hh | ⟨hh, hi⟩
  · exact hh
  · rcases hp with hp | hp
    · rw [hp] at hh; simp at hh
    · omega

/-- **Validity period.** Unless time checking is disabled, every certificate of an
accepted path, the anchor included, is valid at the reference time. -/
theorem path_in_validity {env : Env} {cfg : Cfg} {st : Store} {peer chain : List Cert}
    (hs : Spec.Strict cfg) (h : certVerify env cfg st peer = .ok chain) (t : Int)
    (ht : cfg.time = some t ∨ (cfg.time = none ∧ cfg.disableTime = false ∧ t = cfg.now))
    (c : Cert) (hc : c ∈ chain) :
    ∃ nb na, c.notBefore = some nb ∧ c.notAfter = some na ∧ nb ≤ t ∧ t ≤ na :=
  (accepted_conforms hs h).validity t ht c hc

/-- **Issuers are CAs.** Every issuer in an accepted path may sign certificates
(keyCertSign, bit 2 of the mask) and carries basicConstraints with cA = TRUE; the
only exception is a version 1 or 2 trust anchor at the end. -/
theorem issuers_are_cas {env : Env} {cfg : Cfg} {st : Store} {peer chain : List Cert}
    (hs : Spec.Strict cfg) (h : certVerify env cfg st peer = .ok chain) (i : Nat) (c : Cert)
    (hc : chain[i]? = some c) (hi : 1 ≤ i) :
    (∀ ku, c.keyUsage = some ku → ku.testBit 2 = true) ∧
    ((c.bcons = true ∧ c.isCa = true) ∨ (i + 1 = chain.length ∧ c.version ≠ 2)) := by
  have hC := accepted_conforms hs h
  refine ⟨hC.certSign i c hc hi, ?_⟩
  have hlt := (List.getElem?_eq_some_iff.1 hc).1
  by_cases hl : i + 1 = chain.length
  · by_cases hv : c.version = 2
    · exact Or.inl (hC.anchorCa i c hc hi hl hv)
    · exact Or.inr ⟨hl, hv⟩
  · exact Or.inl (hC.interCa i c hc hi (by omega)).2

/-- **Path length.** The number of intermediates below a CA, self-issued ones not
counted, never exceeds its pathLenConstraint. -/
theorem path_length_respected {env : Env} {cfg : Cfg} {st : Store} {peer chain : List Cert}
    (hs : Spec.Strict cfg) (h : certVerify env cfg st peer = .ok chain) (i : Nat) (c : Cert)
    (hc : chain[i]? = some c) (hi : 1 ≤ i) (hp : 0 ≤ c.pathLen) :
    ((((chain.take i).drop 1).countP (fun x => decide (x.subject ≠ x.issuer)) : Nat) : Int)
      ≤ c.pathLen :=
  (accepted_conforms hs h).pathLen i c hc hi hp

/-- **Critical extensions.** No certificate of an accepted path has a critical
extension that the library does not process. -/
theorem no_unknown_critical {env : Env} {cfg : Cfg} {st : Store} {peer chain : List Cert}
    (hs : Spec.Strict cfg) (h : certVerify env cfg st peer = .ok chain) (c : Cert) (hc : c ∈ chain)
    (e : Nat × Bool) (he : e ∈ c.exts) (hcrit : e.2 = true) : Spec.Understood cfg e.1 := by
  have hE := (accepted_conforms hs h).ext c hc
  by_cases hv : c.version < 2
  · rw [hE.old hv] at he; simp at he
  · exact hE.critical (by omega) e he hcrit

/-- **Purpose.** The end entity may serve the purpose the application asked for. -/
theorem purpose_respected {env : Env} {cfg : Cfg} {st : Store} {peer chain : List Cert}
    (hs : Spec.Strict cfg) (h : certVerify env cfg st peer = .ok chain) (leaf : Cert)
    (hl : peer[0]? = some leaf) : Spec.PurposeOk cfg.purpose leaf := by
  refine (accepted_conforms hs h).purpose leaf ?_
  rw [(path_anchored h).1, hl]

/-- **Revocation, lite mode.** With CRL checking on, the end entity (or, with the
all-certificates flag, everything below the anchor) is covered by a current CRL
signed by its issuer, and no current CRL of the issuer lists it. -/
theorem not_revoked {env : Env} {cfg : Cfg} {st : Store} {peer chain : List Cert}
    (hs : Spec.Strict cfg) (h : certVerify env cfg st peer = .ok chain) (i : Nat) (c p : Cert)
    (hc : chain[i]? = some c) (hp : chain[i + 1]? = some p) (hlite : cfg.crlLite = true)
    (hon : cfg.crlAll = true ∨ (cfg.crlDev = true ∧ i = 0)) (time : Option Int)
    (ht : ∀ t, time = some t ↔ Spec.RefTime cfg t) :
    Spec.NotRevoked env st.crls c p time := by
  have := (accepted_conforms hs h).revocation i c p hc hp hon time ht
  rwa [if_pos hlite] at this

/-- **Security level.** With a required level set, every key of an accepted path
and every known signature hash below the anchor reaches it. -/
theorem security_level {env : Env} {cfg : Cfg} {st : Store} {peer chain : List Cert}
    (hs : Spec.Strict cfg) (h : certVerify env cfg st peer = .ok chain) (n : Nat)
    (hn : cfg.secBits = some n) :
    (∀ c ∈ chain, n ≤ env.keyBits c.key) ∧
    (∀ i c, chain[i]? = some c → i + 1 < chain.length →
      env.hashBits c.sigAlg = 0 ∨ n ≤ env.hashBits c.sigAlg) :=
  ⟨(accepted_conforms hs h).keyBits n hn, (accepted_conforms hs h).hashBits n hn⟩

/-- **Completeness on unambiguous input.** A conforming path of at least two
certificates, no longer than the depth limit, whose intermediates the peer
supplied and whose self-issued anchor is loaded in the store, is accepted,
provided that no other known certificate could be mistaken for one of the issuers. -/
theorem unambiguous_path_accepted {env : Env} {cfg : Cfg} {st : Store}
    (hs : Spec.Strict cfg) (hf : cfg.cbFinal = none) (hp : cfg.partialChain = false)
    (leaf root : Cert) (mids others : List Cert)
    (hdepth : mids.length + 2 ≤ cfg.maxDepth) (hmax : cfg.maxDepth ≤ 100)
    (hroot : root ∈ st.certs) (hself : Spec.Issued env root root)
    (hmids : ∀ c ∈ mids, c ∈ leaf :: others)
    (hnl : ¬ (leaf.subject = root.subject ∧ leaf.tbs = root.tbs))
    (hpath : ∀ (i : Nat) (c d : Cert), (leaf :: mids ++ [root])[i]? = some c →
      (leaf :: mids ++ [root])[i + 1]? = some d →
      Spec.Issued env d c ∧ ¬ (d.subject = c.subject ∧ d.tbs = c.tbs) ∧
      ∀ x, Spec.Trusted st x ∨ x ∈ leaf :: others → Spec.Issued env x c → x = d)
    (hC : Spec.Conforms env cfg st (leaf :: mids ++ [root])) :
    certVerify env cfg st (leaf :: others) = .ok (leaf :: mids ++ [root]) := by
  rw [accepts_iff hs hf]
  refine ⟨leaf, by simp, ?_, hC⟩
  have hrs : selfIssued root = true ∧ issuedNoName env root root = true := by
    have := (checkIssued_iff env root root).2 hself
    unfold checkIssued at this
    simpa [selfIssued] using this
  have hb := buildLoop_complete env cfg st (leaf :: others) hp root hroot hrs mids 100 st.certs leaf
    [leaf] (fun x hx => Or.inl hx) (fun x hx => hx)
    (fun i c d hc hd => by
      obtain ⟨h1, h2, h3⟩ := hpath i c d hc hd
      refine ⟨h1, ?_, h3⟩
      simp only [sameCert]
      by_cases hsub : d.subject = c.subject
      · have : d.tbs ≠ c.tbs := fun ht => h2 ⟨hsub, ht⟩
        simp [this]
      · simp [hsub])
    hmids (by omega) (by simp; omega)
  unfold buildChain
  rw [hb]
  have hns : sameCert leaf root = false := by
    simp only [sameCert]
    by_cases hsub : leaf.subject = root.subject
    · have : leaf.tbs ≠ root.tbs := fun ht => hnl ⟨hsub, ht⟩
      simp [this]
    · simp [hsub]
  simp [hns]

/-! ## Concrete paths -/

namespace Ex

/-- A toy world: a signature is the key followed by the signed bytes. -/
def env : Env where
  algOk _ _ := true
  verify k _ t s := s == k ++ t
  keyBits _ := 128
  hashBits _ := 128
  kind _ := .other

def cfg : Cfg where
  maxDepth := 20
  partialChain := false
  secBits := some 112
  purpose := 1
  time := some 50
  disableTime := false
  now := 0
  crlAll := false
  crlDev := true
  crlLite := true
  crlFull _ _ _ _ := .ok ()
  hostOk _ := .ok ()
  cb := defaultCb
  cbFinal := none

theorem strict : Spec.Strict cfg := by intro e d; simp [cfg, defaultCb]

def mk (id : Byte) (subject issuer key signer : Name) (isCa : Bool) (pathLen : Int)
    (ku : Nat) : Cert where
  version := 2
  serial := [id]
  subject := subject
  issuer := issuer
  key := key
  tbs := [id]
  sigAlgTbs := []
  sigAlg := []
  sig := signer ++ [id]
  notBefore := some 0
  notAfter := some 100
  ski := none
  aki := none
  bcons := isCa
  isCa := isCa
  pathLen := pathLen
  keyUsage := some ku
  eku := none
  exts := [(19, true), (15, true)]

def root : Cert := mk 1#8 [1#8] [1#8] [11#8] [11#8] true (-1) 0x06
def inter : Cert := mk 2#8 [2#8] [1#8] [12#8] [11#8] true 0 0x06
def leaf : Cert := mk 3#8 [3#8] [2#8] [13#8] [12#8] false (-1) 0x80
/-- Another certificate with the intermediate's name but a different key. -/
def decoy : Cert := mk 4#8 [2#8] [1#8] [14#8] [11#8] true 0 0x06

def crl : Crl where
  version := 1
  issuer := [2#8]
  aki := none
  tbs := [9#8]
  sigAlgTbs := []
  sigAlg := []
  sig := [12#8, 9#8]
  thisUpdate := some 40
  nextUpdate := some (some 60)
  revoked := [[7#8]]
  exts := [(20, false)]

def st : Store := ⟨[root], fun _ => [], [crl]⟩

/-- A three-certificate path with a CRL, a purpose and a security level is accepted. -/
theorem accepted : certVerify env cfg st [leaf, inter] = .ok [leaf, inter, root] := by decide

/-- The hypotheses of the soundness theorems are met, with a path of length three. -/
example : Spec.SignedBy env inter leaf ∧ Spec.IsCa inter ∧
    Spec.NotRevoked env st.crls leaf inter (some 50) ∧ Spec.PurposeOk 1 leaf :=
  ⟨path_signed strict accepted 0 leaf inter rfl rfl,
   ((issuers_are_cas strict accepted 1 inter rfl (by decide)).2.resolve_right (by decide)),
   not_revoked strict accepted 0 leaf inter rfl rfl rfl (Or.inr ⟨rfl, rfl⟩) (some 50)
     (fun t => by
       unfold Spec.RefTime
       simp [cfg]),
   purpose_respected strict accepted leaf rfl⟩

example : (((([leaf, inter, root].take 1).drop 1).countP
    (fun x => decide (x.subject ≠ x.issuer)) : Nat) : Int) ≤ 0 :=
  path_length_respected strict accepted 1 inter rfl (by decide) (by decide)

/-- Revoking, expiring or dropping the CA flag makes the same path fail. -/
example : certVerify env cfg { st with crls := [{ crl with revoked := [[3#8]] }] } [leaf, inter]
    = .error .revoked := by decide
example : certVerify env { cfg with time := some 101 } st [leaf, inter] = .error .crlNotFound := by
  decide
example : certVerify env { cfg with time := some 101, crlDev := false } st [leaf, inter]
    = .error .expired := by decide
example : certVerify env cfg st [leaf, { inter with isCa := false }] = .error .interBcons := by decide
example : certVerify env cfg st [leaf, { inter with sig := [1#8] }] = .error .signFail := by decide
example : certVerify env cfg st [{ leaf with exts := [(99, true)] }, inter]
    = .error .criticalExt := by decide
example : certVerify env { cfg with maxDepth := 2 } st [leaf, inter] = .error .depthLimit := by decide

/-- pathLenConstraint 0 on the intermediate forbids a further CA below it. -/
example : certVerify env { cfg with crlDev := false } st
    [mk 6#8 [6#8] [5#8] [16#8] [15#8] false (-1) 0x80, mk 5#8 [5#8] [2#8] [15#8] [12#8] true (-1) 0x06,
     inter] = .error .pathLenExceeded := by decide

/-- The hypotheses of the completeness theorem are met by the same path. -/
example : certVerify env cfg st (leaf :: [inter]) = .ok (leaf :: [inter] ++ [root]) := by
  refine unambiguous_path_accepted strict rfl rfl leaf root [inter] [inter]
    (by decide) (by decide) (by simp [st]) ((checkIssued_iff _ _ _).1 (by decide)) (by simp)
    (by decide) ?_ (accepted_conforms strict accepted)
  have hx : ∀ x, Spec.Trusted st x ∨ x ∈ [leaf, inter] → x = root ∨ x = leaf ∨ x = inter := by
    intro x hx
    rcases hx with (hx | ⟨n, hx⟩) | hx
    · simp [st] at hx; exact Or.inl hx
    · simp [st] at hx
    · simp at hx; exact Or.inr hx
  have hlen : ∀ (i : Nat) (d : Cert), ([leaf, inter, root])[i + 1]? = some d → i = 0 ∨ i = 1 := by
    intro i d hd
    have := (List.getElem?_eq_some_iff.1 hd).1
    simp at this; omega
  intro i c d hc hd
  rcases hlen i d hd with rfl | rfl
  · cases hc; cases hd
    refine ⟨(checkIssued_iff _ _ _).1 (by decide), by decide, fun x hxm hxi => ?_⟩
    rw [← checkIssued_iff] at hxi
    rcases hx x hxm with rfl | rfl | rfl
    · revert hxi; decide
    · revert hxi; decide
    · rfl
  · cases hc; cases hd
    refine ⟨(checkIssued_iff _ _ _).1 (by decide), by decide, fun x hxm hxi => ?_⟩
    rw [← checkIssued_iff] at hxi
    rcases hx x hxm with rfl | rfl | rfl
    · rfl
    · revert hxi; decide
    · revert hxi; decide

/-- **Finding: no backtracking.** A certificate that merely has the intermediate's
name, listed first, makes the verifier reject although a conforming path exists. -/
theorem no_backtracking :
    certVerify env cfg st [leaf, decoy, inter] = .error .crlSignFail ∧
    certVerify env { cfg with crlDev := false } st [leaf, decoy, inter] = .error .signFail ∧
    certVerify env cfg st [leaf, inter, decoy] = .ok [leaf, inter, root] := by decide

def v1Root : Cert :=
  { root with version := 0, bcons := false, isCa := false, keyUsage := none, exts := [] }

/-- **Finding: version 1 trust anchors.** An anchor without any CA marking is
accepted as an issuer when it is a version 1 certificate. -/
theorem v1_anchor_accepted :
    certVerify env { cfg with crlDev := false } { st with certs := [v1Root] } [leaf, inter] =
      .ok [leaf, inter, v1Root] ∧ v1Root.isCa = false := by decide

/-- **Finding: depth limit off by one.** A path consisting of a trusted self-signed
certificate alone has length one but needs a depth limit of two. -/
theorem single_cert_needs_depth_two :
    certVerify env { cfg with maxDepth := 1, purpose := 0, crlDev := false } st [root] = .error .depthLimit ∧
    certVerify env { cfg with maxDepth := 2, purpose := 0, crlDev := false } st [root] = .ok [root] := by decide

/-- A callback that returns success for an expired certificate gets it accepted:
`Spec.Strict` cannot be dropped. -/
theorem callback_can_overrule :
    certVerify env { cfg with time := some 101, crlDev := false, cb := fun _ _ => none } st [leaf, inter]
      = .ok [leaf, inter, root] := by decide

/-- In partial-chain mode a trusted intermediate ends the path. -/
example : certVerify env { cfg with partialChain := true } { st with certs := [inter] } [leaf]
    = .ok [leaf, inter] := by decide
example : certVerify env cfg { st with certs := [inter] } [leaf] = .error .issueNotFound := by decide

/-- A circular pair of certificates: the search stops. -/
example : certVerify env { cfg with maxDepth := 1000 } { st with certs := [] }
    [leaf, { inter with issuer := [5#8] }, mk 5#8 [5#8] [2#8] [15#8] [12#8] true (-1) 0x06]
    = .error .rootNotFound := by decide +kernel

end Ex
end Verif.Pki.Path
