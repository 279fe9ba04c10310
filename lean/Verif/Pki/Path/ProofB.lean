import Verif.Pki.Path.Proof
import Mathlib.Data.List.Induction

/-! # X.509 path validation: proofs of the path-wide checks -/

namespace Verif.Pki.Path
open Verif.Common

/-! ## `X509_CheckExt` -/

theorem kuLacks_bit (c : Cert) (b mask : Nat) (hb : b < 16) (hm : mask = 2 ^ b) :
    kuLacks c mask = false ↔ Spec.MayUse c b := by
  unfold kuLacks Spec.MayUse
  cases h : c.keyUsage with
  | none => simp
  | some ku =>
    simp only [decide_eq_false_iff_not, Option.some.injEq, forall_eq', mask_bit ku b mask hb hm]
    simp

theorem purpose_iff (p : Nat) (c : Cert) (mask eku : Nat) (hp : purposeReq p = some (mask, eku)) :
    extKeyUsageCheck c mask eku = .ok () ↔
      (∀ ku, c.keyUsage = some ku → ∃ b ∈ Spec.purposeBits p, ku.testBit b = true) ∧
      (∀ l, c.eku = some l → Spec.purposeEku p ∈ l) := by
  have hmask : eku = Spec.purposeEku p ∧ ∀ ku, ku &&& mask ≠ 0 ↔
      ∃ b ∈ Spec.purposeBits p, ku.testBit b = true := by
    have hp' := hp
    unfold purposeReq at hp'
    split at hp' <;> simp only [Option.some.injEq, Prod.mk.injEq, reduceCtorEq] at hp' <;>
      (obtain ⟨rfl, rfl⟩ := hp'
       refine ⟨rfl, fun ku => mask_iff ku _ _ ?_ ?_ ?_⟩ <;> decide)
  obtain ⟨he, hm⟩ := hmask
  unfold extKeyUsageCheck
  have h1 : kuLacks c mask = false ↔
      (∀ ku, c.keyUsage = some ku → ∃ b ∈ Spec.purposeBits p, ku.testBit b = true) := by
    unfold kuLacks
    cases h : c.keyUsage with
    | none => simp
    | some ku =>
      simp only [decide_eq_false_iff_not, Option.some.injEq, forall_eq']
      exact hm ku
  have h2 : ekuLacks c eku = false ↔
      (∀ l, c.eku = some l → Spec.purposeEku p ∈ l) := by
    unfold ekuLacks
    cases h : c.eku with
    | none => simp
    | some l => simp [he]
  generalize ekuLacks c eku = bad at h2 ⊢
  cases hk : kuLacks c mask with
  | true =>
    simp only [if_true]
    constructor
    · intro h; simp at h
    · intro h
      rw [h1.2 h.1] at hk; simp at hk
  | false =>
    simp only [Bool.false_eq_true, if_false]
    rw [← h1, ← h2, hk]
    cases bad <;> simp

theorem usageEe_iff (cfg : Cfg) (c : Cert) :
    usageEe cfg c = .ok () ↔ Spec.PurposeOk cfg.purpose c := by
  unfold usageEe Spec.PurposeOk
  split
  · rename_i h
    simp only [true_iff]
    rcases h with h | h
    · exact Or.inl h
    · exact Or.inr (Or.inl h)
  · rename_i h
    have h0 : cfg.purpose ≠ 0 := fun hh => h (Or.inl hh)
    have h8 : cfg.purpose ≠ 8 := fun hh => h (Or.inr hh)
    cases hp : purposeReq cfg.purpose with
    | none =>
      simp only [reduceCtorEq, false_iff]
      rintro (hh | hh | ⟨hh, _⟩)
      · exact h0 hh
      · exact h8 hh
      · revert hp h0
        generalize cfg.purpose = q at *
        have : q = 0 ∨ q = 1 ∨ q = 2 ∨ q = 3 ∨ q = 4 ∨ q = 5 ∨ q = 6 ∨ q = 7 := by omega
        rcases this with rfl | rfl | rfl | rfl | rfl | rfl | rfl | rfl <;> simp [purposeReq]
    | some me =>
      obtain ⟨mask, eku⟩ := me
      dsimp only
      rw [purpose_iff cfg.purpose c mask eku hp]
      have h7 : cfg.purpose ≤ 7 := by
        refine Classical.byContradiction fun hn => ?_
        unfold purposeReq at hp
        split at hp <;> simp_all
      constructor
      · intro hh; exact Or.inr (Or.inr ⟨h7, hh⟩)
      · rintro (hh | hh | ⟨_, hh⟩)
        · exact absurd hh h0
        · exact absurd hh h8
        · exact hh

/-- Rules for one issuer at position `i` of a path whose last position is `rd`. -/
def CaRule (rd i : Nat) (c : Cert) : Prop :=
  (i = rd → c.version = 2 → Spec.IsCa c) ∧
  (i ≠ rd → c.version = 2 ∧ Spec.IsCa c) ∧ Spec.MayUse c Spec.keyCertSign

theorem caCheck_iff {cfg : Cfg} (hs : Spec.Strict cfg) (c : Cert) (d rd : Nat) (m m' : Int) :
    caCheck cfg c d rd m = .ok m' ↔
      CaRule rd d c ∧ (selfIssued c = false → 0 < m) ∧
      m' = (let m1 := if selfIssued c then m else m - 1
            if c.pathLen ≥ 0 ∧ c.pathLen < m1 then c.pathLen else m1) := by
  unfold caCheck CaRule
  rw [match_ok_unit, match_ok_unit, match_ok, failIf_strict hs,
    kuLacks_bit c Spec.keyCertSign 4 (by decide) (by decide)]
  have hca : (!c.bcons || !c.isCa) = false ↔ Spec.IsCa c := by
    unfold Spec.IsCa; cases c.bcons <;> cases c.isCa <;> simp
  have hfirst : (if d = rd then failIf cfg.cb (c.version == 2 && (!c.bcons || !c.isCa)) d .invalidCa
      else bindE (failIf cfg.cb (c.version != 2) d .interVersion) fun _ =>
        failIf cfg.cb (!c.bcons || !c.isCa) d .interBcons) = .ok () ↔
      (d = rd → c.version = 2 → Spec.IsCa c) ∧ (d ≠ rd → c.version = 2 ∧ Spec.IsCa c) := by
    by_cases hd : d = rd
    · rw [if_pos hd, failIf_strict hs]
      by_cases hv : c.version = 2
      · simp only [hv, beq_self_eq_true, Bool.true_and, hca]
        simp [hd]
      · simp [hv, hd]
    · rw [if_neg hd, match_ok_unit, failIf_strict hs, failIf_strict hs, hca]
      simp [hd]
  rw [hfirst]
  by_cases hsi : selfIssued c = true
  · simp only [hsi, if_true]
    constructor
    · rintro ⟨h1, h2, m1, hm1, hm⟩
      simp at hm1 hm; subst hm1
      exact ⟨⟨h1.1, h1.2, h2⟩, fun hh => by simp at hh, hm.symm⟩
    · rintro ⟨⟨h1, h1', h2⟩, _, hm⟩
      exact ⟨⟨h1, h1'⟩, h2, m, rfl, by rw [hm]⟩
  · have hsi' : selfIssued c = false := by simpa using hsi
    simp only [hsi', Bool.false_eq_true, if_false]
    constructor
    · rintro ⟨h1, h2, m1, hm1, hm⟩
      rw [match_ok_unit, failIf_strict hs] at hm1
      simp at hm1 hm
      obtain ⟨hpos, hm1⟩ := hm1
      subst hm1
      exact ⟨⟨h1.1, h1.2, h2⟩, fun _ => hpos, hm.symm⟩
    · rintro ⟨⟨h1, h1', h2⟩, hpos, hm⟩
      refine ⟨⟨h1, h1'⟩, h2, m - 1, ?_, by rw [hm]⟩
      rw [match_ok_unit, failIf_strict hs]
      have := hpos trivial
      simp; omega

/-- Certificates of `l` other than the first that are not self-issued. -/
def nsi (l : List Cert) : Nat := (l.drop 1).countP (fun c => decide (c.subject ≠ c.issuer))

theorem checkExtLoop_iff {cfg : Cfg} (hs : Spec.Strict cfg) (rd : Nat) (chain : List Cert)
    (hne : chain ≠ []) (m : Int) (hm : 0 ≤ m) :
    checkExtLoop cfg rd chain.reverse m = .ok () ↔
      (∀ i c, chain[i]? = some c → 1 ≤ i → CaRule rd i c) ∧
      (∀ i c, chain[i]? = some c → 1 ≤ i → 0 ≤ c.pathLen → (nsi (chain.take i) : Int) ≤ c.pathLen) ∧
      (∀ c, chain[0]? = some c → Spec.PurposeOk cfg.purpose c) ∧ (nsi chain : Int) ≤ m := by
  induction chain using List.reverseRecOn generalizing m with
  | nil => exact absurd rfl hne
  | append_singleton pre c ih =>
    rw [List.reverse_append, List.reverse_singleton, List.singleton_append]
    cases hpre : pre.reverse with
    | nil =>
      have hp : pre = [] := by simpa using hpre
      subst hp
      rw [checkExtLoop]
      have hu := usageEe_iff cfg c
      have hlhs : (match usageEe cfg c with
          | .ok () => Except.ok ()
          | .error e => failIf cfg.cb true 0 e) = .ok () ↔ usageEe cfg c = .ok () := by
        cases h : usageEe cfg c with
        | ok u => simp
        | error e => simp only [failIf_strict hs]; simp
      refine (hlhs.trans hu).trans ?_
      constructor
      · intro h
        refine ⟨?_, ?_, ?_, ?_⟩
        · intro i x hx hi
          rw [List.getElem?_eq_none (by simp; omega)] at hx; simp at hx
        · intro i x hx hi
          rw [List.getElem?_eq_none (by simp; omega)] at hx; simp at hx
        · intro x hx; simp at hx; subst hx; exact h
        · simp [nsi]; exact hm
      · intro h; exact h.2.2.1 c (by simp)
    | cons c' rest =>
      have hpne : pre ≠ [] := by rintro rfl; simp at hpre
      have hplen : 1 ≤ pre.length := List.length_pos_iff.2 hpne
      have hlen : rest.length + 1 = pre.length := by
        have := congrArg List.length hpre; simp at this; omega
      rw [checkExtLoop, match_ok, hlen]
      simp only [caCheck_iff hs]
      have hn : nsi (pre ++ [c]) = nsi pre + (if selfIssued c then 0 else 1) := by
        unfold nsi
        rw [List.drop_append_of_le_length hplen, List.countP_append]
        congr 1
        unfold selfIssued
        by_cases h : c.subject = c.issuer <;> simp [h]
      have htake : ∀ i, i ≤ pre.length → (pre ++ [c]).take i = pre.take i := by
        intro i hi; exact List.take_append_of_le_length hi
      have hsn1 := snoc_idx pre c (fun i x => 1 ≤ i → CaRule rd i x)
      have hsn2 := snoc_idx pre c (fun i x => 1 ≤ i → 0 ≤ x.pathLen →
        (nsi ((pre ++ [c]).take i) : Int) ≤ x.pathLen)
      rw [hsn1, hsn2]
      rw [List.take_left]
      have hpre2 : (∀ i x, pre[i]? = some x → 1 ≤ i → 0 ≤ x.pathLen →
          (nsi ((pre ++ [c]).take i) : Int) ≤ x.pathLen) ↔
          (∀ i x, pre[i]? = some x → 1 ≤ i → 0 ≤ x.pathLen → (nsi (pre.take i) : Int) ≤ x.pathLen) := by
        constructor <;> intro h i x hx <;>
          have hi := (List.getElem?_eq_some_iff.1 hx).1
        · have := h i x hx; rwa [htake i (by omega)] at this
        · rw [htake i (by omega)]; exact h i x hx
      rw [hpre2]
      have h0 : ∀ x, (pre ++ [c])[0]? = some x ↔ pre[0]? = some x := by
        intro x; rw [List.getElem?_append_left (by omega)]
      simp only [h0]
      rw [← hpre]
      constructor
      · rintro ⟨m', ⟨hr, hpos, hm'⟩, hl⟩
        have hm'0 : 0 ≤ m' := by
          rw [hm']
          cases hsi : selfIssued c with
          | true => simp only [if_true]; split <;> omega
          | false =>
            have := hpos hsi
            simp only [Bool.false_eq_true, if_false]; split <;> omega
        rw [ih hpne m' hm'0] at hl
        obtain ⟨g1, g2, g3, g4⟩ := hl
        have hle : (nsi pre : Int) ≤ (if selfIssued c = true then m else m - 1) ∧
            (0 ≤ c.pathLen → (nsi pre : Int) ≤ c.pathLen) := by
          rw [hm'] at g4
          generalize (if selfIssued c = true then m else m - 1) = m1 at g4
          split at g4
          · rename_i hh; exact ⟨by omega, fun _ => g4⟩
          · rename_i hh; exact ⟨g4, fun h => by omega⟩
        refine ⟨⟨g1, fun _ => hr⟩, ⟨g2, fun _ => hle.2⟩, g3, ?_⟩
        rw [hn]
        have := hle.1
        cases hsi : selfIssued c <;> simp only [hsi, Bool.false_eq_true, if_true, if_false] at this ⊢ <;>
          push_cast <;> omega
      · rintro ⟨⟨g1, hr⟩, ⟨g2, hpl⟩, g3, g4⟩
        rw [hn] at g4
        have hle : (nsi pre : Int) ≤ (if selfIssued c = true then m else m - 1) := by
          cases hsi : selfIssued c <;> simp only [hsi, Bool.false_eq_true, if_true, if_false] at g4 ⊢ <;>
            push_cast at g4 <;> omega
        refine ⟨_, ⟨hr hplen, ?_, rfl⟩, ?_⟩
        · intro hsi
          rw [hsi] at g4; simp at g4; omega
        · have hfin : (nsi pre : Int) ≤ (let m1 := if selfIssued c = true then m else m - 1
              if c.pathLen ≥ 0 ∧ c.pathLen < m1 then c.pathLen else m1) := by
            dsimp only
            generalize (if selfIssued c = true then m else m - 1) = m1 at hle
            split
            · rename_i hh; exact hpl hplen hh.1
            · exact hle
          rw [ih hpne _ (by omega)]
          exact ⟨g1, g2, g3, hfin⟩

theorem nsi_le (l : List Cert) : nsi l ≤ l.length - 1 := by
  unfold nsi
  exact Nat.le_trans List.countP_le_length (by simp)

theorem checkExt_iff {cfg : Cfg} (hs : Spec.Strict cfg) (chain : List Cert) (hne : chain ≠ []) :
    checkExt cfg chain = .ok () ↔
      (∀ i c, chain[i]? = some c → 1 ≤ i → i + 1 < chain.length → c.version = 2 ∧ Spec.IsCa c) ∧
      (∀ i c, chain[i]? = some c → 1 ≤ i → i + 1 = chain.length → c.version = 2 → Spec.IsCa c) ∧
      (∀ i c, chain[i]? = some c → 1 ≤ i → Spec.MayUse c Spec.keyCertSign) ∧
      (∀ i c, chain[i]? = some c → 1 ≤ i → 0 ≤ c.pathLen →
        (Spec.intermediatesBelow chain i : Int) ≤ c.pathLen) ∧
      (∀ c, chain[0]? = some c → Spec.PurposeOk cfg.purpose c) := by
  have hpos : 1 ≤ chain.length := List.length_pos_iff.2 hne
  unfold checkExt
  rw [checkExtLoop_iff hs _ chain hne _ (by omega)]
  have hn := nsi_le chain
  constructor
  · rintro ⟨h1, h2, h3, _⟩
    refine ⟨?_, ?_, ?_, h2, h3⟩
    · intro i c hc hi hl
      exact (h1 i c hc hi).2.1 (by omega)
    · intro i c hc hi hl
      exact (h1 i c hc hi).1 (by omega)
    · intro i c hc hi
      exact (h1 i c hc hi).2.2
  · rintro ⟨h1, h2, h3, h4, h5⟩
    refine ⟨?_, h4, h5, by omega⟩
    intro i c hc hi
    have := (List.getElem?_eq_some_iff.1 hc).1
    exact ⟨fun h => h2 i c hc hi (by omega), fun h => h1 i c hc hi (by omega), h3 i c hc hi⟩

/-! ## Time -/

theorem getCheckTime_iff (cfg : Cfg) (time : Option Int) :
    getCheckTime cfg = .ok time ↔
      (∀ t, time = some t ↔ Spec.RefTime cfg t) ∧
      (cfg.time = none → cfg.disableTime = false → 0 < cfg.now) := by
  unfold getCheckTime Spec.RefTime
  cases ht : cfg.time with
  | some t0 =>
    simp only [Except.ok.injEq]
    constructor
    · rintro rfl
      exact ⟨fun t => by simp, fun h => by simp at h⟩
    · rintro ⟨h, _⟩
      exact ((h t0).2 (Or.inl rfl)).symm
  | none =>
    cases hd : cfg.disableTime with
    | true =>
      simp only [if_true, Except.ok.injEq]
      constructor
      · rintro rfl; simp
      · rintro ⟨h, _⟩
        cases time with
        | none => rfl
        | some t => have := (h t).1 rfl; simp at this
    | false =>
      simp only [Bool.false_eq_true, if_false]
      split
      · rename_i hn
        simp only [reduceCtorEq, false_iff]
        rintro ⟨_, h⟩
        have := h trivial trivial
        omega
      · rename_i hn
        simp only [Except.ok.injEq]
        constructor
        · rintro rfl
          refine ⟨fun t => ?_, fun _ _ => by omega⟩
          simp; exact eq_comm
        · rintro ⟨h, _⟩
          exact ((h cfg.now).2 (Or.inr ⟨trivial, trivial, rfl⟩)).symm

theorem certTime_iff {cfg : Cfg} (hs : Spec.Strict cfg) (c : Cert) (d : Nat) (time : Option Int) :
    certTime cfg.cb c d time = .ok () ↔ ∀ t, time = some t → Spec.ValidAt c t := by
  unfold certTime Spec.ValidAt
  cases time with
  | none => simp
  | some t =>
    dsimp only
    rw [match_ok_unit, match_ok_unit, match_ok_unit]
    simp only [failIf_strict hs, Option.some.injEq, forall_eq']
    cases hb : c.notBefore <;> cases ha : c.notAfter <;> simp

theorem crlTime_iff {cfg : Cfg} (hs : Spec.Strict cfg) (c : Crl) (d : Nat) (time : Option Int) :
    crlTime cfg.cb c d time = .ok () ↔ ∀ t, time = some t → ∃ tu, c.thisUpdate = some tu ∧ tu ≤ t ∧
      ∀ nu, c.nextUpdate = some nu → ∃ n, nu = some n ∧ t ≤ n := by
  unfold crlTime
  cases time with
  | none => simp
  | some t =>
    dsimp only
    rw [match_ok_unit, match_ok_unit]
    simp only [failIf_strict hs, Option.some.injEq, forall_eq']
    cases hb : c.thisUpdate with
    | none => simp
    | some tu =>
      cases hn : c.nextUpdate with
      | none => simp
      | some nu =>
        dsimp only
        rw [match_ok_unit]
        simp only [failIf_strict hs]
        cases nu <;> simp

/-! ## Signatures -/

theorem chainSigLoop_iff {cfg : Cfg} (hs : Spec.Strict cfg) (env : Env) (time : Option Int)
    (chain : List Cert) (issue : Cert) :
    chainSigLoop env cfg time issue chain.reverse = .ok () ↔
      (∀ t, time = some t → ∀ c ∈ chain, Spec.ValidAt c t) ∧
      (∀ i c d, chain[i]? = some c → (chain ++ [issue])[i + 1]? = some d → Spec.SignedBy env d c) := by
  induction chain using List.reverseRecOn generalizing issue with
  | nil => simp [chainSigLoop]
  | append_singleton pre c ih =>
    rw [List.reverse_append, List.reverse_singleton, List.singleton_append, chainSigLoop,
      match_ok_unit, match_ok_unit, match_ok_unit, certTime_iff hs, failIf_strict hs,
      failIf_strict hs, ih]
    have hsig : (c.sigAlgTbs != c.sigAlg) = false ∧
        (!env.verify issue.key c.sigAlg c.tbs c.sig) = false ↔ Spec.SignedBy env issue c := by
      unfold Spec.SignedBy; simp
    constructor
    · rintro ⟨h1, h2, h3, h4, h5⟩
      refine ⟨?_, ?_⟩
      · intro t ht x hx
        rcases List.mem_append.1 hx with hx | hx
        · exact h4 t ht x hx
        · simp at hx; subst hx; exact h1 t ht
      · intro i x d hx hd
        rcases Nat.lt_trichotomy i pre.length with h | h | h
        · rw [List.getElem?_append_left h] at hx
          rw [List.getElem?_append_left (by simp; omega)] at hd
          exact h5 i x d hx hd
        · subst h
          simp at hx; subst hx
          rw [List.getElem?_append_right (by simp)] at hd
          simp at hd; subst hd
          exact hsig.1 ⟨h2, h3⟩
        · rw [List.getElem?_eq_none (by simp; omega)] at hx; simp at hx
    · rintro ⟨h1, h2⟩
      have := hsig.2 (h2 pre.length c issue (by simp) (by
        rw [List.getElem?_append_right (by simp)]; simp))
      refine ⟨fun t ht => h1 t ht c (by simp), this.1, this.2,
        fun t ht x hx => h1 t ht x (List.mem_append_left _ hx), ?_⟩
      intro i x d hx hd
      have hi := (List.getElem?_eq_some_iff.1 hx).1
      refine h2 i x d ?_ ?_
      · rw [List.getElem?_append_left hi]; exact hx
      · rw [List.getElem?_append_left (by simp; omega)]; exact hd

theorem verifyChainCert_iff {cfg : Cfg} (hs : Spec.Strict cfg) (env : Env) (time : Option Int)
    (chain : List Cert) (hne : chain ≠ []) :
    verifyChainCert env cfg chain time = .ok () ↔
      (∀ t, time = some t → ∀ c ∈ chain, Spec.ValidAt c t) ∧
      (∀ i c d, chain[i]? = some c → chain[i + 1]? = some d → Spec.SignedBy env d c) ∧
      (∀ i c, chain[i]? = some c → i + 1 = chain.length →
        Spec.SignedBy env c c ∨ (cfg.partialChain = true ∧ 1 ≤ i)) := by
  rcases List.eq_nil_or_concat chain with rfl | ⟨pre, a, rfl⟩
  · exact absurd rfl hne
  rw [List.concat_eq_append]
  unfold verifyChainCert
  rw [List.reverse_append, List.reverse_singleton, List.singleton_append]
  dsimp only
  have hpairs : ∀ (P : Cert → Cert → Prop),
      (∀ i c d, (pre ++ [a])[i]? = some c → (pre ++ [a])[i + 1]? = some d → P d c) ↔
      (∀ i c d, pre[i]? = some c → (pre ++ [a])[i + 1]? = some d → P d c) := by
    intro P
    constructor
    · intro h i c d hc hd
      refine h i c d ?_ hd
      rw [List.getElem?_append_left (List.getElem?_eq_some_iff.1 hc).1]; exact hc
    · intro h i c d hc hd
      have := (List.getElem?_eq_some_iff.1 hd).1
      simp at this
      rw [List.getElem?_append_left this] at hc
      exact h i c d hc hd
  rw [hpairs]
  have hlast : ∀ (Q : Nat → Cert → Prop),
      (∀ i c, (pre ++ [a])[i]? = some c → i + 1 = (pre ++ [a]).length → Q i c) ↔ Q pre.length a := by
    intro Q
    constructor
    · intro h; exact h pre.length a (by simp) (by simp)
    · intro h i c hc hi
      have : i = pre.length := by simpa using hi
      subst this; simp at hc; subst hc; exact h
  rw [hlast (fun i c => Spec.SignedBy env c c ∨ (cfg.partialChain = true ∧ 1 ≤ i))]
  split
  · rename_i hcond
    simp only [Bool.and_eq_true, decide_eq_true_eq, List.length_reverse] at hcond
    rw [match_ok_unit, certTime_iff hs, chainSigLoop_iff hs]
    constructor
    · rintro ⟨h1, h2, h3⟩
      refine ⟨?_, h3, Or.inr ⟨hcond.1.1, hcond.2⟩⟩
      intro t ht c hc
      rcases List.mem_append.1 hc with hc | hc
      · exact h2 t ht c hc
      · simp at hc; subst hc; exact h1 t ht
    · rintro ⟨h1, h2, _⟩
      exact ⟨fun t ht => h1 t ht a (by simp), fun t ht c hc => h1 t ht c (List.mem_append_left _ hc), h2⟩
  · rename_i hcond
    have := chainSigLoop_iff hs env time (pre ++ [a]) a
    rw [List.reverse_append, List.reverse_singleton, List.singleton_append] at this
    rw [this]
    constructor
    · rintro ⟨h1, h2⟩
      refine ⟨h1, ?_, Or.inl (h2 pre.length a a (by simp) (by
        rw [List.getElem?_append_right (by simp)]; simp))⟩
      intro i c d hc hd
      refine h2 i c d ?_ ?_
      · rw [List.getElem?_append_left (List.getElem?_eq_some_iff.1 hc).1]; exact hc
      · rw [List.getElem?_append_left (List.getElem?_eq_some_iff.1 hd).1]; exact hd
    · rintro ⟨h1, h2, h3⟩
      have hself : Spec.SignedBy env a a := by
        rcases h3 with h3 | ⟨hp, hl⟩
        · exact h3
        · have hss : isSelfSigned env a = true := by
            cases hss : isSelfSigned env a with
            | true => rfl
            | false =>
              exfalso; apply hcond
              simp [hp, hss]; exact hl
          unfold isSelfSigned selfSignedSig at hss
          simp at hss
          exact ⟨hss.2.1, hss.2.2⟩
      refine ⟨h1, ?_⟩
      intro i c d hc hd
      have hi := (List.getElem?_eq_some_iff.1 hc).1
      simp at hi
      by_cases hlt : i < pre.length
      · rw [List.getElem?_append_left hlt] at hc
        rw [List.getElem?_append_left (by simp; omega)] at hd
        exact h2 i c d hc hd
      · have : i = pre.length := by omega
        subst this
        simp at hc; subst hc
        rw [List.getElem?_append_right (by simp)] at hd
        simp at hd; subst hd
        exact hself

/-! ## Revocation -/

theorem strict_isSome {cfg : Cfg} (hs : Spec.Strict cfg) (e : Err) (d : Nat) :
    (cfg.cb e d).isSome = true := by
  have := hs e d
  cases h : cfg.cb e d <;> simp_all

/-- What every applicable CRL must satisfy. -/
def CrlClean (env : Env) (c parent : Cert) (crl : Crl) : Prop :=
  (∀ e ∈ crl.exts, e.2 = true → e.1 = 35 ∨ e.1 = 20) ∧
  crl.sigAlgTbs = crl.sigAlg ∧ env.algOk parent.key crl.sigAlgTbs = true ∧
  env.verify parent.key crl.sigAlg crl.tbs crl.sig = true ∧ c.serial ∉ crl.revoked

theorem crlLiteLoop_iff {cfg : Cfg} (hs : Spec.Strict cfg) (env : Env) (c parent : Cert) (d : Nat)
    (time : Option Int) (crls : List Crl) (found r : Bool) :
    crlLiteLoop env cfg c parent d time crls found = .ok r ↔
      (∀ crl ∈ crls, Spec.Applies crl parent time → CrlClean env c parent crl) ∧
      (r = true ↔ found = true ∨ ∃ crl ∈ crls, Spec.Applies crl parent time) := by
  induction crls generalizing found with
  | nil =>
    simp only [crlLiteLoop, Except.ok.injEq]
    constructor
    · rintro rfl; simp
    · rintro ⟨_, h⟩
      cases found <;> cases r <;> simp_all
  | cons crl rest ih =>
    rw [crlLiteLoop]
    have hskip : ¬ Spec.Applies crl parent time →
        (crlLiteLoop env cfg c parent d time rest found = .ok r ↔
        (∀ x ∈ crl :: rest, Spec.Applies x parent time → CrlClean env c parent x) ∧
        (r = true ↔ found = true ∨ ∃ x ∈ crl :: rest, Spec.Applies x parent time)) := by
      intro hna
      rw [ih]
      simp [hna]
    split
    · rename_i hn
      exact hskip (fun h => hn h.name)
    · rename_i hn
      have hn' : crl.issuer = parent.subject := Classical.byContradiction hn
      split
      · rename_i hk
        simp only [Bool.and_eq_true, beq_iff_eq, Bool.not_eq_true'] at hk
        refine hskip (fun h => ?_)
        have := (checkAki_iff _ _ _ _).2 (h.keyId hk.1.1.1 hk.1.1.2)
        rw [this] at hk; simp at hk
      · rename_i hk
        have hk' : parent.version = 2 → crl.version = 1 →
            Spec.KeyIdAgrees parent.ski parent.issuer parent.serial crl.aki := by
          intro h1 h2
          rw [← checkAki_iff]
          cases h : checkAki parent.ski parent.issuer parent.serial crl.aki with
          | true => rfl
          | false => exfalso; apply hk; simp [h1, h2, h, strict_isSome hs]
        cases ht : crlTime cfg.cb crl d time with
        | error e =>
          dsimp only
          refine hskip (fun h => ?_)
          have := (crlTime_iff hs crl d time).2 h.fresh
          rw [this] at ht; simp at ht
        | ok u =>
          dsimp only
          have hap : Spec.Applies crl parent time :=
            ⟨hn', hk', (crlTime_iff hs crl d time).1 (by rw [ht])⟩
          rw [match_ok_unit, match_ok_unit, match_ok_unit, match_ok_unit, match_ok_unit]
          simp only [failIf_strict hs]
          rw [ih]
          have hext : crlExtBad crl = false ↔ ∀ e ∈ crl.exts, e.2 = true → e.1 = 35 ∨ e.1 = 20 := by
            unfold crlExtBad
            rw [List.any_eq_false]
            refine forall_congr' fun e => forall_congr' fun _ => ?_
            simp only [ceAki, ceCrlNumber, Bool.and_eq_true, Bool.not_eq_true', not_and,
              Bool.or_eq_false_iff, beq_eq_false_iff_ne]
            constructor
            · intro h he
              by_cases h35 : e.1 = 35
              · exact Or.inl h35
              · by_cases h20 : e.1 = 20
                · exact Or.inr h20
                · exact absurd he (h ⟨h35, h20⟩)
            · rintro h ⟨h35, h20⟩ he
              rcases h he with hh | hh
              · exact h35 hh
              · exact h20 hh
          have hcl : (crlExtBad crl = false ∧ (crl.sigAlgTbs != crl.sigAlg) = false ∧
              (!env.algOk parent.key crl.sigAlgTbs) = false ∧
              (!env.verify parent.key crl.sigAlg crl.tbs crl.sig) = false ∧
              crl.revoked.contains c.serial = false) ↔ CrlClean env c parent crl := by
            unfold CrlClean
            rw [hext]; simp
          constructor
          · rintro ⟨a1, a2, a3, a4, a5, a6, a7⟩
            have hc := hcl.1 ⟨a1, a2, a3, a4, a5⟩
            refine ⟨?_, ?_⟩
            · intro x hx
              rcases List.mem_cons.1 hx with rfl | hx
              · exact fun _ => hc
              · exact a6 x hx
            · have hr : r = true := a7.2 (Or.inl (by rw [a5]; rfl))
              exact ⟨fun _ => Or.inr ⟨crl, by simp, hap⟩, fun _ => hr⟩
          · rintro ⟨b1, b2⟩
            obtain ⟨a1, a2, a3, a4, a5⟩ := hcl.2 (b1 crl (by simp) hap)
            refine ⟨a1, a2, a3, a4, a5, fun x hx => b1 x (by simp [hx]), ?_⟩
            have hr : r = true := b2.2 (Or.inr ⟨crl, by simp, hap⟩)
            exact ⟨fun _ => Or.inl (by rw [a5]; rfl), fun _ => hr⟩

theorem crlLite_iff {cfg : Cfg} (hs : Spec.Strict cfg) (env : Env) (st : Store) (c parent : Cert)
    (d : Nat) (time : Option Int) :
    crlLite env cfg st c parent d time = .ok () ↔ Spec.NotRevoked env st.crls c parent time := by
  unfold crlLite
  rw [match_ok_unit, failIf_strict hs, kuLacks_bit parent Spec.crlSign 2 (by decide) (by decide),
    match_ok]
  simp only [crlLiteLoop_iff hs, failIf_strict hs]
  constructor
  · rintro ⟨h1, r, ⟨h2, h3⟩, h4⟩
    have hr : r = true := by simpa using h4
    have := h3.1 hr
    simp at this
    exact ⟨h1, this, h2⟩
  · rintro ⟨h1, h2, h3⟩
    exact ⟨h1, true, ⟨h3, by simpa using h2⟩, rfl⟩

theorem crlLoop_iff {cfg : Cfg} (env : Env) (st : Store) (time : Option Int) (chain : List Cert)
    (d : Nat) :
    crlLoop env cfg st time chain d = .ok () ↔
      ∀ i c p, chain[i]? = some c → chain[i + 1]? = some p → (cfg.crlAll = true ∨ i = 0) →
        (if cfg.crlLite then crlLite env cfg st c p (d + i) time
           else cfg.crlFull c p (d + i) time) = .ok () := by
  induction chain generalizing d with
  | nil => simp [crlLoop]
  | cons c rest ih =>
    cases rest with
    | nil => simp [crlLoop]
    | cons p rest =>
      rw [crlLoop, match_ok_unit]
      constructor
      · rintro ⟨h1, h2⟩ i x y hx hy hi
        cases i with
        | zero => simp at hx hy; subst hx; subst hy; exact h1
        | succ j =>
          have hall : cfg.crlAll = true := by
            rcases hi with hi | hi
            · exact hi
            · omega
          rw [if_pos hall, ih] at h2
          have := h2 j x y (by simpa using hx) (by simpa using hy) (Or.inl hall)
          rwa [show d + (j + 1) = d + 1 + j by omega]
      · intro h
        refine ⟨h 0 c p (by simp) (by simp) (Or.inr rfl), ?_⟩
        split
        · rename_i hall
          rw [ih]
          intro i x y hx hy _
          have := h (i + 1) x y (by simpa using hx) (by simpa using hy) (Or.inl hall)
          rwa [show d + 1 + i = d + (i + 1) by omega]
        · rfl

theorem verifyCrl_iff {cfg : Cfg} (hs : Spec.Strict cfg) (env : Env) (st : Store) (chain : List Cert)
    (time : Option Int) :
    verifyCrl env cfg st chain time = .ok () ↔
      ∀ i c p, chain[i]? = some c → chain[i + 1]? = some p →
        cfg.crlAll = true ∨ (cfg.crlDev = true ∧ i = 0) →
        if cfg.crlLite then Spec.NotRevoked env st.crls c p time
          else cfg.crlFull c p i time = .ok () := by
  unfold verifyCrl
  split
  · rename_i h
    simp at h
    simp [h]
  · rename_i h
    split
    · rename_i h1
      simp only [true_iff]
      intro i c p hc hp
      have := (List.getElem?_eq_some_iff.1 hp).1
      omega
    · rw [crlLoop_iff]
      have hsub : (cfg.crlAll = true ∨ cfg.crlDev = true) := by
        cases h1 : cfg.crlAll <;> cases h2 : cfg.crlDev <;> simp_all
      refine forall_congr' fun i => forall_congr' fun c => forall_congr' fun p =>
        forall_congr' fun hc => forall_congr' fun hp => ?_
      have hcond : (cfg.crlAll = true ∨ i = 0) ↔
          (cfg.crlAll = true ∨ (cfg.crlDev = true ∧ i = 0)) := by
        constructor
        · rintro (h | h)
          · exact Or.inl h
          · rcases hsub with hh | hh
            · exact Or.inl hh
            · exact Or.inr ⟨hh, h⟩
        · rintro (h | h)
          · exact Or.inl h
          · exact Or.inr h.2
      rw [hcond]
      refine forall_congr' fun _ => ?_
      cases hl : cfg.crlLite with
      | true => simp only [if_true, Nat.zero_add]; exact crlLite_iff hs env st c p i time
      | false => simp

/-! ## The whole verifier -/

theorem buildChain_ne {env : Env} {cfg : Cfg} {st : Store} {peer chain : List Cert} {cert : Cert}
    (h : buildChain env cfg st peer cert = .ok chain) : chain[0]? = some cert := by
  obtain ⟨root, ch, hb, _, rfl⟩ := buildChain_spec h
  obtain ⟨ext, rfl⟩ := hb.pre
  split <;> simp

theorem certVerify_iff {cfg : Cfg} (hs : Spec.Strict cfg) (hf : cfg.cbFinal = none) (env : Env)
    (st : Store) (peer chain : List Cert) :
    certVerify env cfg st peer = .ok chain ↔
      ∃ cert, peer[0]? = some cert ∧ buildChain env cfg st peer cert = .ok chain ∧
        Spec.Conforms env cfg st chain := by
  cases peer with
  | nil => simp [certVerify]
  | cons cert rest =>
    rw [certVerify, match_ok]
    simp only [List.getElem?_cons_zero, Option.some.injEq, exists_eq_left']
    constructor
    · rintro ⟨ch, hb, h⟩
      have h0 := buildChain_ne hb
      have hne : ch ≠ [] := by rintro rfl; simp at h0
      rw [match_ok_unit, match_ok_unit, match_ok, verifyParamAndExt_iff hs, checkExt_iff hs ch hne] at h
      obtain ⟨⟨p1, p2, p3⟩, ⟨e1, e2, e3, e4, e5⟩, time, ht, h⟩ := h
      rw [match_ok_unit, match_ok_unit, match_ok_unit, verifyCrl_iff hs,
        verifyChainCert_iff hs env time ch hne, hf] at h
      obtain ⟨hr, ⟨s1, s2, s3⟩, hh, h⟩ := h
      simp at h; subst h
      rw [getCheckTime_iff] at ht
      refine ⟨hb, p1, p2, p3, e1, e2, e3, e4, e5, ht.2, ?_, s2, s3, ?_, ?_⟩
      · intro t hrt; exact s1 t ((ht.1 t).2 hrt)
      · intro i c p hc hp hcond time' ht'
        have : time' = time := by
          cases htime : time with
          | none =>
            cases htime' : time' with
            | none => rfl
            | some t =>
              have := (ht.1 t).2 ((ht' t).1 htime')
              rw [htime] at this; simp at this
          | some t => exact (ht' t).2 ((ht.1 t).1 htime)
        subst this
        exact hr i c p hc hp hcond
      · intro c hc
        cases ch with
        | nil => simp at hc
        | cons x xs => simp at hc; subst hc; exact hh
    · rintro ⟨hb, hC⟩
      have h0 := buildChain_ne hb
      have hne : chain ≠ [] := by rintro rfl; simp at h0
      refine ⟨chain, hb, ?_⟩
      rw [match_ok_unit, match_ok_unit, match_ok, verifyParamAndExt_iff hs, checkExt_iff hs chain hne]
      refine ⟨⟨hC.keyBits, hC.hashBits, hC.ext⟩,
        ⟨hC.interCa, hC.anchorCa, hC.certSign, hC.pathLen, hC.purpose⟩, ?_⟩
      have htime : ∃ time, getCheckTime cfg = .ok time := by
        unfold getCheckTime
        cases ht : cfg.time with
        | some t => exact ⟨_, rfl⟩
        | none =>
          cases hd : cfg.disableTime with
          | true => exact ⟨none, by simp⟩
          | false =>
            have := hC.clock ht hd
            exact ⟨some cfg.now, by simp; omega⟩
      obtain ⟨time, ht⟩ := htime
      refine ⟨time, ht, ?_⟩
      rw [getCheckTime_iff] at ht
      rw [match_ok_unit, match_ok_unit, match_ok_unit, verifyCrl_iff hs,
        verifyChainCert_iff hs env time chain hne, hf]
      refine ⟨?_, ⟨?_, hC.signed, hC.anchorSigned⟩, ?_, rfl⟩
      · intro i c p hc hp hcond
        exact hC.revocation i c p hc hp hcond time ht.1
      · intro t htt; exact hC.validity t ((ht.1 t).1 htt)
      · cases chain with
        | nil => exact absurd rfl hne
        | cons x xs => exact hC.host x (by simp)

end Verif.Pki.Path
