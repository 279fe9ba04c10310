import Verif.Pki.Path.ProofB

/-! # X.509 path validation: the builder finds every unambiguous path -/

namespace Verif.Pki.Path
open Verif.Common

theorem setCa_sub (certs : List Cert) (c : Cert) : ∀ x ∈ certs, x ∈ setCa certs c := by
  intro x hx
  unfold setCa
  split
  · exact hx
  · exact List.mem_cons_of_mem _ hx

theorem loadIssuer_sub (env : Env) (cert : Cert) (files certs : List Cert) :
    ∀ x ∈ certs, x ∈ (loadIssuer env cert certs files).2 := by
  induction files generalizing certs with
  | nil => intro x hx; simpa [loadIssuer] using hx
  | cons f fs ih =>
    intro x hx
    rw [loadIssuer]
    split
    · dsimp only
      have hset := setCa_sub certs f x hx
      cases (setCa certs f).find? (fun y => checkIssued env y cert) with
      | none => exact ih _ x hset
      | some i => exact hset
    · exact ih _ x hx

theorem findIssuer_sub (env : Env) (dir : Name → List Cert) (certs peer : List Cert) (cert : Cert) :
    ∀ x ∈ certs, x ∈ (findIssuer env dir certs peer cert).2 := by
  intro x hx
  have ht : x ∈ (findInTrust env dir certs cert).2 := by
    unfold findInTrust
    split
    · exact hx
    · exact loadIssuer_sub _ _ _ _ x hx
  unfold findIssuer
  generalize findInTrust env dir certs cert = r at ht
  obtain ⟨o, certs'⟩ := r
  cases o with
  | some i => exact ht
  | none => dsimp only; split <;> exact ht

/-- The unique possible issuer is found, and counts as trusted when it is in the store. -/
theorem findIssuer_unique {st : Store} (env : Env) (certs peer : List Cert) (cert nxt : Cert)
    (h : ∀ x ∈ certs, Spec.Trusted st x)
    (hu : ∀ d, Spec.Trusted st d ∨ d ∈ peer → Spec.Issued env d cert → d = nxt)
    (hi : Spec.Issued env nxt cert)
    (hm : nxt ∈ certs ∨ (nxt ∈ peer ∧ sameCert nxt cert = false)) :
    ∃ t certs', findIssuer env st.dir certs peer cert = (some (nxt, t), certs') ∧
      (∀ x ∈ certs', Spec.Trusted st x) ∧ (∀ x ∈ certs, x ∈ certs') ∧
      (nxt ∈ certs → t = true) := by
  have hs := findIssuer_spec (st := st) env certs peer cert h
  have hsub := findIssuer_sub env st.dir certs peer cert
  have hci : checkIssued env nxt cert = true := (checkIssued_iff _ _ _).2 hi
  have hsome : ∃ i t, (findIssuer env st.dir certs peer cert).1 = some (i, t) ∧
      (nxt ∈ certs → t = true) := by
    unfold findIssuer
    by_cases hc : nxt ∈ certs
    · have : (certs.find? (fun x => checkIssued env x cert)).isSome = true := by
        rw [List.find?_isSome]; exact ⟨nxt, hc, hci⟩
      obtain ⟨i, hfi⟩ := Option.isSome_iff_exists.1 this
      unfold findInTrust
      rw [hfi]
      exact ⟨i, true, rfl, fun _ => rfl⟩
    · rcases hm with hm | ⟨hm, hsame⟩
      · exact absurd hm hc
      · generalize findInTrust env st.dir certs cert = r
        obtain ⟨o, certs'⟩ := r
        cases o with
        | some i => exact ⟨i, true, rfl, fun _ => rfl⟩
        | none =>
          dsimp only
          have : (peer.find? (fun t => !sameCert t cert && checkIssued env t cert)).isSome = true := by
            rw [List.find?_isSome]; exact ⟨nxt, hm, by simp [hsame, hci]⟩
          obtain ⟨i, hfi⟩ := Option.isSome_iff_exists.1 this
          rw [hfi]
          exact ⟨i, false, rfl, fun hh => absurd hh hc⟩
  obtain ⟨i, t, h1, h2⟩ := hsome
  obtain ⟨a1, a2, a3⟩ := hs.2 i t h1
  have : i = nxt := by
    refine hu i ?_ ((checkIssued_iff _ _ _).1 a1)
    cases t with
    | true => exact Or.inl (a2 rfl)
    | false => exact Or.inr (a3 rfl)
  subst this
  exact ⟨t, _, Prod.ext h1 rfl, hs.1, hsub, h2⟩

theorem buildLoop_complete (env : Env) (cfg : Cfg) (st : Store) (peer : List Cert)
    (hp : cfg.partialChain = false) (root : Cert) (hroot : root ∈ st.certs)
    (hrs : selfIssued root = true ∧ issuedNoName env root root = true) (mids : List Cert) :
    ∀ (fuel : Nat) (certs : List Cert) (cur : Cert) (chain : List Cert),
    (∀ x ∈ certs, Spec.Trusted st x) → (∀ x ∈ st.certs, x ∈ certs) →
    (∀ i c d, (cur :: mids ++ [root])[i]? = some c → (cur :: mids ++ [root])[i + 1]? = some d →
      Spec.Issued env d c ∧ sameCert d c = false ∧
      ∀ x, Spec.Trusted st x ∨ x ∈ peer → Spec.Issued env x c → x = d) →
    (∀ c ∈ mids, c ∈ peer) → mids.length < fuel →
    chain.length + mids.length + 1 ≤ cfg.maxDepth →
    buildLoop env cfg st.dir peer fuel certs cur chain = .ok (some root, chain ++ mids) := by
  induction mids with
  | nil =>
    intro fuel certs cur chain hc hsub hpath _ hfuel hdep
    obtain ⟨n, rfl⟩ : ∃ n, fuel = n + 1 := ⟨fuel - 1, by simp at hfuel; omega⟩
    obtain ⟨hi, hsm, hu⟩ := hpath 0 cur root (by simp) (by simp)
    obtain ⟨t, certs', hf, _, _, ht⟩ := findIssuer_unique env certs peer cur root hc hu hi
      (Or.inl (hsub root hroot))
    have ht' := ht (hsub root hroot)
    subst ht'
    rw [buildLoop, hf]
    dsimp only
    have hnd : ¬ (chain.length + 1 > cfg.maxDepth) := by simp at hdep; omega
    simp [failIf, bindE, hnd, hrs.1, hrs.2]
  | cons c mids ih =>
    intro fuel certs cur chain hc hsub hpath hmem hfuel hdep
    obtain ⟨n, rfl⟩ : ∃ n, fuel = n + 1 := ⟨fuel - 1, by simp at hfuel; omega⟩
    obtain ⟨hi, hsm, hu⟩ := hpath 0 cur c (by simp) (by simp)
    have hcp : c ∈ peer := hmem c (by simp)
    obtain ⟨t, certs', hf, hc', hsub', ht⟩ := findIssuer_unique env certs peer cur c hc hu hi
      (Or.inr ⟨hcp, hsm⟩)
    rw [buildLoop, hf]
    dsimp only
    have hnd : ¬ (chain.length + 1 > cfg.maxDepth) := by simp at hdep; omega
    -- the intermediate is not its own issuer
    have hns : (selfIssued c && issuedNoName env c c) = false := by
      cases hh : (selfIssued c && issuedNoName env c c) with
      | false => rfl
      | true =>
        exfalso
        obtain ⟨d, hd⟩ : ∃ d, (cur :: (c :: mids) ++ [root])[1 + 1]? = some d := by
          cases mids with
          | nil => exact ⟨root, by simp⟩
          | cons d ds => exact ⟨d, by simp⟩
        obtain ⟨_, hsd, hud⟩ := hpath 1 c d (by simp) hd
        have hself : Spec.Issued env c c := by
          rw [← checkIssued_iff]
          unfold checkIssued
          unfold selfIssued at hh
          exact hh
        have := hud c (Or.inr hcp) hself
        subst this
        simp [sameCert] at hsd
    simp only [failIf, hnd, decide_false, Bool.false_eq_true, if_false, bindE, hp, Bool.false_and,
      hns]
    rw [ih n certs' c (chain ++ [c]) hc' (fun x hx => hsub' x (hsub x hx)) ?_
      (fun x hx => hmem x (by simp [hx])) (by simp at hfuel; omega) (by simp at hdep ⊢; omega)]
    · simp
    · intro i x d hx hd
      exact hpath (i + 1) x d (by simpa using hx) (by simpa using hd)

end Verif.Pki.Path
