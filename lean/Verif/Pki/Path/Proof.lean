import Verif.Pki.Path.Spec
import Mathlib.Tactic.Tauto

/-! # X.509 path validation: proofs -/

namespace Verif.Pki.Path
open Verif.Common

/-! ## Small tools -/

theorem failIf_strict {cfg : Cfg} (hs : Spec.Strict cfg) (b : Bool) (d : Nat) (e : Err) :
    failIf cfg.cb b d e = .ok () ↔ b = false := by
  unfold failIf
  cases b
  · simp
  · have := hs e d
    cases h : cfg.cb e d <;> simp_all

theorem match_ok {α β : Type} (x : Except Err α) (f : α → Except Err β) (b : β) :
    bindE x f = .ok b ↔ ∃ a, x = .ok a ∧ f a = .ok b := by
  unfold bindE
  cases x <;> simp

theorem match_ok_unit {β : Type} (x : Except Err Unit) (f : Unit → Except Err β) (b : β) :
    bindE x f = .ok b ↔ x = .ok () ∧ f () = .ok b := by
  unfold bindE
  cases x <;> simp

theorem trvList_ok {α : Type} (f : α → Nat → Except Err Unit) (l : List α) (d : Nat) :
    trvList f l d = .ok () ↔ ∀ i x, l[i]? = some x → f x (d + i) = .ok () := by
  induction l generalizing d with
  | nil => simp [trvList]
  | cons c cs ih =>
    rw [trvList, match_ok_unit, ih]
    constructor
    · rintro ⟨h0, h⟩ i x hx
      cases i with
      | zero => simp at hx; subst hx; simpa using h0
      | succ j =>
        have := h j x (by simpa using hx)
        rwa [show d + (j + 1) = d + 1 + j by omega]
    · intro h
      refine ⟨by simpa using h 0 c (by simp), fun i x hx => ?_⟩
      have := h (i + 1) x (by simpa using hx)
      rwa [show d + 1 + i = d + (i + 1) by omega]

theorem forall_mem_iff_idx {α : Type} (l : List α) (P : α → Prop) :
    (∀ c ∈ l, P c) ↔ ∀ (i : Nat) c, l[i]? = some c → P c := by
  constructor
  · intro h i c hc; exact h c (List.mem_of_getElem? hc)
  · intro h c hc
    obtain ⟨i, hi⟩ := List.mem_iff_getElem?.1 hc
    exact h i c hi

theorem snoc_idx {α : Type} (pre : List α) (c : α) (Q : Nat → α → Prop) :
    (∀ i x, (pre ++ [c])[i]? = some x → Q i x) ↔
      (∀ i x, pre[i]? = some x → Q i x) ∧ Q pre.length c := by
  constructor
  · intro h
    refine ⟨fun i x hx => h i x ?_, h _ _ (by simp)⟩
    have := List.getElem?_eq_some_iff.1 hx
    rw [List.getElem?_append_left this.1]; exact hx
  · rintro ⟨h1, h2⟩ i x hx
    rcases Nat.lt_trichotomy i pre.length with h | h | h
    · rw [List.getElem?_append_left h] at hx; exact h1 i x hx
    · subst h; simp at hx; subst hx; exact h2
    · rw [List.getElem?_eq_none (by simp; omega)] at hx; simp at hx

/-! ## Bit masks -/

theorem and_ne_zero_iff (a b : Nat) : a &&& b ≠ 0 ↔ ∃ i, a.testBit i = true ∧ b.testBit i = true := by
  constructor
  · intro h
    refine Classical.byContradiction fun hn => h ?_
    apply Nat.eq_of_testBit_eq
    intro i
    rw [Nat.testBit_and, Nat.zero_testBit]
    cases ha : a.testBit i <;> cases hb : b.testBit i <;> simp
    exact hn ⟨i, ha, hb⟩
  · rintro ⟨i, ha, hb⟩ h
    have : (a &&& b).testBit i = true := by rw [Nat.testBit_and, ha, hb]; rfl
    rw [h] at this; simp at this

/-- A mask below 2^16 meets `ku` iff one of its listed bits is set. -/
theorem mask_iff (ku mask : Nat) (bits : List Nat) (hm : mask < 2 ^ 16)
    (hb : ∀ i < 16, mask.testBit i = true ↔ i ∈ bits) (hl : ∀ b ∈ bits, b < 16) :
    ku &&& mask ≠ 0 ↔ ∃ b ∈ bits, ku.testBit b = true := by
  rw [and_ne_zero_iff]
  constructor
  · rintro ⟨i, ha, hi⟩
    by_cases h16 : i < 16
    · exact ⟨i, (hb i h16).1 hi, ha⟩
    · exfalso
      have := Nat.testBit_lt_two_pow (x := mask) (i := i)
        (Nat.lt_of_lt_of_le hm (Nat.pow_le_pow_right (by omega) (by omega)))
      rw [this] at hi; simp at hi
  · rintro ⟨b, hbm, ha⟩
    exact ⟨b, ha, (hb b (hl b hbm)).2 hbm⟩

theorem mask_bit (ku b mask : Nat) (hb : b < 16) (hm : mask = 2 ^ b) :
    ku &&& mask = 0 ↔ ku.testBit b = false := by
  subst hm
  have := and_ne_zero_iff ku (2 ^ b)
  constructor
  · intro h
    cases hk : ku.testBit b with
    | false => rfl
    | true => exact absurd h (this.2 ⟨b, hk, by simp⟩)
  · intro h
    refine Classical.byContradiction fun hn => ?_
    obtain ⟨i, h1, h2⟩ := this.1 hn
    rw [Nat.testBit_two_pow] at h2
    have : b = i := by simpa using h2
    subst this
    rw [h] at h1; simp at h1

/-! ## Issuer test -/

theorem checkAki_iff (ski : Option (List Byte)) (n : Name) (s : List Byte) (aki : Option Aki) :
    checkAki ski n s aki = true ↔ Spec.KeyIdAgrees ski n s aki := by
  unfold checkAki Spec.KeyIdAgrees
  cases ski with
  | none => simp
  | some k =>
    cases aki with
    | none => simp
    | some a =>
      obtain ⟨kid, iss, ser⟩ := a
      have e1 : (kid.isEmpty || k == kid) = true ↔ (kid ≠ [] → k = kid) := by
        cases kid <;> simp
      have e3 : (ser.isEmpty || ser == s) = true ↔ (ser ≠ [] → ser = s) := by
        cases ser <;> simp
      simp only [Bool.and_eq_true]
      constructor
      · rintro ⟨⟨h1, h2⟩, h3⟩ s' a' hs' ha'
        cases hs'; cases ha'
        refine ⟨e1.1 h1, ?_, e3.1 h3⟩
        intro g hg
        cases iss with
        | none => simp at hg
        | some i => cases i with
          | none => simp at h2
          | some nm => simp at h2 hg; subst hg; rw [h2]
      · intro h
        obtain ⟨h1, h2, h3⟩ := h _ _ rfl rfl
        refine ⟨⟨e1.2 h1, ?_⟩, e3.2 h3⟩
        cases iss with
        | none => rfl
        | some i => have := h2 i rfl; subst this; simp

theorem checkIssued_iff (env : Env) (d c : Cert) :
    checkIssued env d c = true ↔ Spec.Issued env d c := by
  unfold checkIssued issuedNoName Spec.Issued
  have e := checkAki_iff d.ski d.issuer d.serial c.aki
  simp only [Bool.and_eq_true, Bool.or_eq_true, Bool.not_eq_true', beq_iff_eq, e,
    Bool.and_eq_false_iff, beq_eq_false_iff_ne]
  constructor
  · rintro ⟨h1, h2, h3⟩
    refine ⟨h1, ?_, h3⟩
    intro hv hv'
    rcases h2 with (h2 | h2) | h2
    · exact absurd hv h2
    · exact absurd hv' h2
    · exact h2
  · rintro ⟨h1, h2, h3⟩
    refine ⟨h1, ?_, h3⟩
    by_cases hv : d.version = 2
    · by_cases hv' : c.version = 2
      · exact Or.inr (h2 hv hv')
      · exact Or.inl (Or.inr hv')
    · exact Or.inl (Or.inl hv)

/-! ## Chain building -/

theorem setCa_trusted {st : Store} {certs : List Cert} {c : Cert}
    (h : ∀ x ∈ certs, Spec.Trusted st x) (hc : Spec.Trusted st c) :
    ∀ x ∈ setCa certs c, Spec.Trusted st x := by
  unfold setCa
  split
  · exact h
  · intro x hx
    rcases List.mem_cons.1 hx with rfl | hx
    · exact hc
    · exact h x hx

theorem loadIssuer_spec {st : Store} (env : Env) (cert : Cert) (files certs : List Cert)
    (h : ∀ x ∈ certs, Spec.Trusted st x) (hf : ∀ x ∈ files, Spec.Trusted st x) :
    (∀ x ∈ (loadIssuer env cert certs files).2, Spec.Trusted st x) ∧
    (∀ i, (loadIssuer env cert certs files).1 = some i →
      Spec.Trusted st i ∧ checkIssued env i cert = true) := by
  induction files generalizing certs with
  | nil => simp [loadIssuer]; exact h
  | cons f fs ih =>
    have hf' : ∀ x ∈ fs, Spec.Trusted st x := fun x hx => hf x (List.mem_cons_of_mem _ hx)
    have hff := hf f List.mem_cons_self
    rw [loadIssuer]
    split
    · dsimp only
      have hset := setCa_trusted h hff
      cases hfi : (setCa certs f).find? (fun x => checkIssued env x cert) with
      | none => exact ih _ hset hf'
      | some i =>
        refine ⟨hset, ?_⟩
        intro j hj
        simp at hj; subst hj
        exact ⟨hset _ (List.mem_of_find?_eq_some hfi), by simpa using List.find?_some hfi⟩
    · exact ih _ h hf'

theorem findIssuer_spec {st : Store} (env : Env) (certs peer : List Cert) (cert : Cert)
    (h : ∀ x ∈ certs, Spec.Trusted st x) :
    (∀ x ∈ (findIssuer env st.dir certs peer cert).2, Spec.Trusted st x) ∧
    (∀ i t, (findIssuer env st.dir certs peer cert).1 = some (i, t) →
      checkIssued env i cert = true ∧ (t = true → Spec.Trusted st i) ∧
      (t = false → i ∈ peer)) := by
  have ht : (∀ x ∈ (findInTrust env st.dir certs cert).2, Spec.Trusted st x) ∧
      (∀ i, (findInTrust env st.dir certs cert).1 = some i →
        Spec.Trusted st i ∧ checkIssued env i cert = true) := by
    unfold findInTrust
    split
    · rename_i i hfi
      refine ⟨h, fun j hj => ?_⟩
      simp at hj; subst hj
      exact ⟨h _ (List.mem_of_find?_eq_some hfi), by simpa using List.find?_some hfi⟩
    · exact loadIssuer_spec env cert _ _ h (fun x hx => Or.inr ⟨_, hx⟩)
  unfold findIssuer
  generalize findInTrust env st.dir certs cert = r at ht
  obtain ⟨o, certs'⟩ := r
  cases o with
  | some i =>
    refine ⟨ht.1, fun j t hj => ?_⟩
    simp at hj
    obtain ⟨rfl, rfl⟩ := hj
    have := ht.2 i rfl
    exact ⟨this.2, fun _ => this.1, fun hh => by simp at hh⟩
  | none =>
    dsimp only
    split
    · rename_i i hfi
      refine ⟨ht.1, fun j t hj => ?_⟩
      simp at hj
      obtain ⟨rfl, rfl⟩ := hj
      have hp := List.find?_some hfi
      simp at hp
      exact ⟨hp.2, fun hh => by simp at hh, fun _ => List.mem_of_find?_eq_some hfi⟩
    · exact ⟨ht.1, fun j t hj => by simp at hj⟩

/-- Every certificate of the list can be the issuer of the one before it. -/
def Linked (env : Env) (chain : List Cert) : Prop :=
  ∀ i c d, chain[i]? = some c → chain[i + 1]? = some d → checkIssued env d c = true

theorem linked_snoc {env : Env} {pre : List Cert} {c d : Cert}
    (h : Linked env (pre ++ [c])) (hd : checkIssued env d c = true) :
    Linked env (pre ++ [c] ++ [d]) := by
  intro i x y hx hy
  have hlen : i + 1 < (pre ++ [c] ++ [d]).length := (List.getElem?_eq_some_iff.1 hy).1
  simp at hlen
  have hi : i < (pre ++ [c]).length := by simp; omega
  rw [List.getElem?_append_left hi] at hx
  by_cases h2 : i + 1 < (pre ++ [c]).length
  · rw [List.getElem?_append_left h2] at hy
    exact h i x y hx hy
  · have he : i = pre.length := by simp at h2; omega
    subst he
    simp at hx; subst hx
    rw [List.getElem?_append_right (by simp)] at hy
    simp at hy; subst hy
    exact hd

/-- What `X509_BuildChain` guarantees when it finds a root. -/
structure Built (env : Env) (cfg : Cfg) (st : Store) (peer chain0 : List Cert)
    (root : Cert) (ch : List Cert) : Prop where
  pre : ∃ ext, ch = chain0 ++ ext
  linked : Linked env (ch ++ [root])
  trusted : Spec.Trusted st root
  src : ∀ c ∈ ch, c ∈ chain0 ∨ c ∈ peer ∨ Spec.Trusted st c
  depth : Spec.Strict cfg → ch.length + 1 ≤ cfg.maxDepth
  selfIss : cfg.partialChain = false →
    selfIssued root = true ∧ issuedNoName env root root = true

theorem buildLoop_spec (env : Env) (cfg : Cfg) (st : Store) (peer : List Cert) (fuel : Nat)
    (certs : List Cert) (cur : Cert) (pre : List Cert) (root : Cert) (ch : List Cert)
    (hc : ∀ x ∈ certs, Spec.Trusted st x) (hl : Linked env (pre ++ [cur]))
    (h : buildLoop env cfg st.dir peer fuel certs cur (pre ++ [cur]) = .ok (some root, ch)) :
    Built env cfg st peer (pre ++ [cur]) root ch ∧ ch.length < pre.length + 1 + fuel := by
  induction fuel generalizing certs cur pre with
  | zero => simp [buildLoop] at h
  | succ n ih =>
    rw [buildLoop] at h
    have hfs := findIssuer_spec (st := st) env certs peer cur hc
    generalize findIssuer env st.dir certs peer cur = r at h hfs
    obtain ⟨o, certs'⟩ := r
    cases o with
    | none => simp at h
    | some it =>
      obtain ⟨issue, trusted⟩ := it
      dsimp only at h
      obtain ⟨hi, htr, hpe⟩ := hfs.2 issue trusted rfl
      have hc' := hfs.1
      rw [match_ok_unit] at h
      obtain ⟨hf, h⟩ := h
      · 
        have hdep : Spec.Strict cfg → (pre ++ [cur]).length + 1 ≤ cfg.maxDepth := by
          intro hs
          have := (failIf_strict hs _ _ _).1 hf
          simp at this; simp; omega
        split at h
        · rename_i hpt
          simp at hpt h
          obtain ⟨rfl, rfl⟩ := h
          refine ⟨⟨⟨[], by simp⟩, linked_snoc hl hi, htr hpt.2, fun c hcc => Or.inl hcc, hdep,
            fun hp => by rw [hpt.1] at hp; simp at hp⟩, by simp⟩
        · split at h
          · rename_i _ hsi
            simp at hsi h
            obtain ⟨rfl, rfl⟩ := h
            exact ⟨⟨⟨[], by simp⟩, linked_snoc hl hi, htr hsi.2, fun c hcc => Or.inl hcc, hdep,
              fun _ => ⟨hsi.1.1, hsi.1.2⟩⟩, by simp⟩
          · split at h
            · simp at h
            · obtain ⟨hb, hlen⟩ := ih certs' issue (pre ++ [cur]) hc' (linked_snoc hl hi) h
              obtain ⟨ext, hext⟩ := hb.pre
              refine ⟨⟨⟨issue :: ext, by rw [hext]; simp⟩, hb.linked, hb.trusted, ?_,
                hb.depth, hb.selfIss⟩, by simp at hlen; omega⟩
              intro c hcc
              rcases hb.src c hcc with hx | hx
              · rw [List.mem_append] at hx
                rcases hx with hx | hx
                · exact Or.inl hx
                · simp at hx; subst hx
                  cases htv : trusted with
                  | true => exact Or.inr (Or.inr (htr htv))
                  | false => exact Or.inr (Or.inl (hpe htv))
              · exact Or.inr hx

/-- The chain returned by `HITLS_X509_CertChainBuildWithRoot`. -/
theorem buildChain_spec {env : Env} {cfg : Cfg} {st : Store} {peer chain : List Cert} {cert : Cert}
    (h : buildChain env cfg st peer cert = .ok chain) :
    ∃ root ch, Built env cfg st peer [cert] root ch ∧ ch.length ≤ 100 ∧
      chain = if sameCert cert root then ch else ch ++ [root] := by
  unfold buildChain at h
  have hb := buildLoop_spec env cfg st peer 100 st.certs cert []
  cases hr : buildLoop env cfg st.dir peer 100 st.certs cert [cert] with
  | error e => rw [hr] at h; simp at h
  | ok r =>
    obtain ⟨o, ch⟩ := r
    cases o with
    | none => rw [hr] at h; simp at h
    | some root =>
      rw [hr] at h
      simp only [Except.ok.injEq] at h
      have := hb root ch (fun x hx => Or.inl hx) (by intro i c d h1 h2; simp at h2) hr
      exact ⟨root, ch, this.1, by have := this.2; simp at this; omega, h.symm⟩

/-! ## Per-certificate checks -/

theorem pqcKu_iff (env : Env) (c : Cert) :
    pqcKuCheck env c = .ok () ↔ (env.kind c.key = .pqcSig → ∀ ku, c.keyUsage = some ku →
      (∃ b ∈ [Spec.digitalSignature, Spec.nonRepudiation, Spec.keyCertSign, Spec.crlSign],
        ku.testBit b = true) ∧
      (∀ b ∈ [Spec.keyEncipherment, Spec.dataEncipherment, Spec.keyAgreement, Spec.encipherOnly,
        Spec.decipherOnly], ku.testBit b = false)) := by
  unfold pqcKuCheck
  by_cases hk : env.kind c.key = .pqcSig
  · rw [if_pos hk]
    cases hku : c.keyUsage with
    | none => simp
    | some ku =>
      have m1 := mask_iff ku (0x80 ||| 0x40 ||| 0x04 ||| 0x02)
        [Spec.digitalSignature, Spec.nonRepudiation, Spec.keyCertSign, Spec.crlSign]
        (by decide) (by decide) (by decide)
      have m2 := mask_iff ku (0x20 ||| 0x10 ||| 0x08 ||| 0x01 ||| 0x8000)
        [Spec.keyEncipherment, Spec.dataEncipherment, Spec.keyAgreement, Spec.encipherOnly,
          Spec.decipherOnly] (by decide) (by decide) (by decide)
      have m2' : ku &&& (0x20 ||| 0x10 ||| 0x08 ||| 0x01 ||| 0x8000) = 0 ↔
          ∀ b ∈ [Spec.keyEncipherment, Spec.dataEncipherment, Spec.keyAgreement,
            Spec.encipherOnly, Spec.decipherOnly], ku.testBit b = false := by
        constructor
        · intro hz b hb
          cases ht : ku.testBit b with
          | false => rfl
          | true => exact absurd hz (m2.2 ⟨b, hb, ht⟩)
        · intro hz
          refine Classical.byContradiction fun hn => ?_
          obtain ⟨b, hb, ht⟩ := m2.1 hn
          rw [hz b hb] at ht; simp at ht
      dsimp only
      split
      · rename_i hz
        constructor
        · intro h; simp at h
        · intro h
          exact absurd hz (m1.2 (h hk ku rfl).1)
      · rename_i hz
        split
        · rename_i hz2
          constructor
          · intro h; simp at h
          · intro h
            exact absurd (m2'.2 (h hk ku rfl).2) hz2
        · rename_i hz2
          refine ⟨fun _ _ ku' hku' => ?_, fun _ => rfl⟩
          cases hku'
          exact ⟨m1.1 hz, m2'.1 (Classical.byContradiction hz2)⟩
  · rw [if_neg hk]
    simp [hk]

theorem kemKu_iff (env : Env) (c : Cert) :
    kemKuCheck env c = .ok () ↔ (env.kind c.key = .mlKem → ∀ ku, c.keyUsage = some ku →
      ku = 2 ^ Spec.keyEncipherment) := by
  unfold kemKuCheck
  by_cases hk : env.kind c.key = .mlKem
  · rw [if_pos hk]
    cases hku : c.keyUsage with
    | none => simp
    | some ku =>
      by_cases h : ku = 0x20
      · subst h; simp [Spec.keyEncipherment]
      · simp [h, hk, Spec.keyEncipherment]
  · rw [if_neg hk]; simp [hk]

theorem extNode_iff {cfg : Cfg} (hs : Spec.Strict cfg) (d n : Nat) (e : Nat × Bool) :
    extNodeCheck cfg d e n = .ok () ↔ (e.2 = true → Spec.Understood cfg e.1) := by
  unfold extNodeCheck Spec.Understood
  obtain ⟨oid, crit⟩ := e
  dsimp only
  have hcb : ∃ r, cfg.cb .criticalExt d = some r := by
    have := hs .criticalExt d
    cases h : cfg.cb .criticalExt d <;> simp_all
  obtain ⟨r, hr⟩ := hcb
  rw [hr]
  have hkey : (oid == ceKeyUsage || oid == ceBcons || oid == ceEku || oid == ceSan ||
      oid == ceAki || oid == ceSki || (!cfg.crlLite && oid == ceCrlDp)) = true ↔
      (oid ∈ [14, 15, 17, 19, 35, 37] ∨ (oid = 31 ∧ cfg.crlLite = false)) := by
    simp only [ceKeyUsage, ceBcons, ceEku, ceSan, ceAki, ceSki, ceCrlDp, Bool.or_eq_true,
      Bool.and_eq_true, beq_iff_eq, Bool.not_eq_true', List.mem_cons, List.not_mem_nil, or_false]
    tauto
  cases crit with
  | false => simp
  | true =>
    split
    · rename_i h
      simp only [Bool.and_true, Bool.not_eq_true'] at h
      constructor
      · intro hh; simp at hh
      · intro hh
        have := hkey.2 (hh rfl)
        rw [h] at this; simp at this
    · rename_i h
      simp only [Bool.and_true, Bool.not_eq_true', Bool.not_eq_false] at h
      exact ⟨fun _ _ => hkey.1 h, fun _ => rfl⟩

theorem certExt_iff {cfg : Cfg} (hs : Spec.Strict cfg) (env : Env) (c : Cert) (d : Nat) :
    certExtCheck env cfg c d = .ok () ↔ Spec.ExtRules env cfg c := by
  unfold certExtCheck
  by_cases hv : c.version < 2
  · rw [if_pos hv, failIf_strict hs]
    constructor
    · intro h
      simp at h
      exact ⟨fun _ => h, fun h2 => by omega, fun h2 => by omega, fun h2 => by omega⟩
    · intro h; simp [h.old hv]
  · rw [if_neg hv, match_ok_unit, match_ok_unit, pqcKu_iff, kemKu_iff, trvList_ok]
    constructor
    · rintro ⟨h1, h2, h3⟩
      refine ⟨fun h => absurd h hv, fun _ => ?_, fun _ => h1, fun _ => h2⟩
      intro e he
      obtain ⟨i, hi⟩ := List.mem_iff_getElem?.1 he
      exact (extNode_iff hs _ _ _).1 (h3 i e hi)
    · intro h
      refine ⟨h.pqc (by omega), h.kem (by omega), fun i e hi => ?_⟩
      exact (extNode_iff hs _ _ _).2 (h.critical (by omega) e (List.mem_of_getElem? hi))

theorem verifyParamAndExt_iff {cfg : Cfg} (hs : Spec.Strict cfg) (env : Env) (chain : List Cert) :
    verifyParamAndExt env cfg chain = .ok () ↔
      (∀ n, cfg.secBits = some n → ∀ c ∈ chain, n ≤ env.keyBits c.key) ∧
      (∀ n, cfg.secBits = some n → ∀ i c, chain[i]? = some c → i + 1 < chain.length →
        env.hashBits c.sigAlg = 0 ∨ n ≤ env.hashBits c.sigAlg) ∧
      (∀ c ∈ chain, Spec.ExtRules env cfg c) := by
  unfold verifyParamAndExt
  rw [match_ok_unit, trvList_ok]
  simp only [certExt_iff hs, forall_mem_iff_idx]
  have hsec : (match cfg.secBits with
      | none => Except.ok ()
      | some n =>
        bindE (trvList (secBitsCheck env cfg n) chain 0) fun _ =>
        trvList (hashBitsCheck env cfg n chain.length) chain 0) = Except.ok () ↔
      (∀ n, cfg.secBits = some n → ∀ (i : Nat) (c : Cert), chain[i]? = some c → n ≤ env.keyBits c.key) ∧
      (∀ n, cfg.secBits = some n → ∀ i c, chain[i]? = some c → i + 1 < chain.length →
        env.hashBits c.sigAlg = 0 ∨ n ≤ env.hashBits c.sigAlg) := by
    cases hn : cfg.secBits with
    | none => simp
    | some n =>
      dsimp only
      rw [match_ok_unit, trvList_ok, trvList_ok]
      have k1 : ∀ c d, secBitsCheck env cfg n c d = .ok () ↔ n ≤ env.keyBits c.key := by
        intro c d
        unfold secBitsCheck
        rw [failIf_strict hs]; simp
      have k2 : ∀ c d, hashBitsCheck env cfg n chain.length c d = .ok () ↔
          (d + 1 < chain.length → env.hashBits c.sigAlg = 0 ∨ n ≤ env.hashBits c.sigAlg) := by
        intro c d
        unfold hashBitsCheck
        split
        · rename_i h; simp; intro h2; omega
        · split
          · rename_i h; simp [h]
          · rename_i h1 h2
            rw [failIf_strict hs]
            simp only [decide_eq_false_iff_not, Nat.not_lt]
            constructor
            · intro h _; exact Or.inr h
            · intro h
              rcases h (by omega) with h3 | h3
              · exact absurd h3 h2
              · exact h3
      simp only [k1, k2, Nat.zero_add]
      constructor
      · rintro ⟨h1, h2⟩
        exact ⟨fun m hm => by cases hm; exact h1, fun m hm => by cases hm; exact h2⟩
      · rintro ⟨h1, h2⟩
        exact ⟨h1 n rfl, h2 n rfl⟩
  exact (and_congr hsec Iff.rfl).trans and_assoc

end Verif.Pki.Path
