import Verif.Crypto.Hbs.Proof3

namespace Verif.Crypto.Hbs

open Verif.Common

/-! ### What is computed -/

/-- `k` iterations with explicit hash addresses. -/
def iter (H : Hash) (a : Adrs) (x : Blk) : Nat → Except Err Blk
  | 0 => .ok x
  | k + 1 => bindE (iter H a x k) fun y => liftH (H.chainHash (a.setHash k) y)

theorem chain_iter (H : Hash) (a : Adrs) (x : Blk) : ∀ k,
    (bindE (chain H k a x 0) fun r => .ok (r.1, r.2.norm3)) = bindE (iter H a x k) fun v => .ok (v, a.norm3)
  | 0 => by simp [chain, iter]
  | k + 1 => by
    have ih := chain_iter H a x k
    rw [chain_add, iter]
    cases hc : chain H k a x 0 with
    | error e =>
      rw [hc] at ih
      cases hi : iter H a x k with
      | error e' => rw [hi] at ih; simpa using ih
      | ok v => rw [hi] at ih; simp at ih
    | ok r =>
      rw [hc] at ih
      cases hi : iter H a x k with
      | error e' => rw [hi] at ih; simp at ih
      | ok v =>
        rw [hi] at ih
        simp only [bindE_ok, Except.ok.injEq, Prod.mk.injEq] at ih
        simp only [bindE_ok, chain, Nat.zero_add]
        rw [setHash_norm3 ih.2, ih.1]
        cases liftH (H.chainHash (a.setHash k) v) with
        | error e => rfl
        | ok w => simp [norm3_setHash]

theorem chain_eq (H : Hash) (a : Adrs) (x : Blk) (k : Nat) :
    (∃ e, chain H k a x 0 = .error e ∧ iter H a x k = .error e) ∨
    (∃ v a', chain H k a x 0 = .ok (v, a') ∧ iter H a x k = .ok v ∧ a'.norm3 = a.norm3) := by
  have h := chain_iter H a x k
  cases hc : chain H k a x 0 with
  | error e =>
    rw [hc] at h
    cases hi : iter H a x k with
    | error e' => rw [hi] at h; exact .inl ⟨e, rfl, by simpa using h.symm⟩
    | ok v => rw [hi] at h; simp at h
  | ok r =>
    rw [hc] at h
    cases hi : iter H a x k with
    | error e' => rw [hi] at h; simp at h
    | ok v =>
      rw [hi] at h
      simp only [bindE_ok, Except.ok.injEq, Prod.mk.injEq] at h
      exact .inr ⟨v, r.2, by rw [← h.1], rfl, h.2⟩

theorem link_iter (t : Tree) (L T kp i k : Nat) (hk : k ≤ 15) (sk : Blk)
    (h : liftH (t.H.skDerive ⟨L, T, if t.xmss then 0 else 5, kp, i, 0, 0⟩) = .ok sk) (w3 : Nat) :
    Spec.link t L T kp i k = iter t.H ⟨L, T, 0, kp, i, w3, 0⟩ sk k := by
  induction k with
  | zero => rw [Spec.link, iter, h]
  | succ k ih =>
    rw [Spec.link, iter, ih (by omega)]
    congr 1
    funext x
    simp only [Adrs.setHash]
    rw [Nat.mod_eq_of_lt (by omega)]

theorem link_err (t : Tree) (L T kp i k : Nat) (e : Err)
    (h : liftH (t.H.skDerive ⟨L, T, if t.xmss then 0 else 5, kp, i, 0, 0⟩) = .error e) :
    Spec.link t L T kp i k = .error e := by
  induction k with
  | zero => rw [Spec.link, h]
  | succ k ih => rw [Spec.link, ih, bindE_err]

/-- The addresses used for a WOTS+ key pair. -/
def base (L T kp : Nat) : Adrs := ⟨L, T, 0, kp, 0, 0, 0⟩

theorem setChain_base {a : Adrs} {L T kp : Nat} (h : a.norm = base L T kp) (i : Nat) (hi : i < 2 ^ 32) :
    ∃ w3, a.setChain i = ⟨L, T, 0, kp, i, w3, 0⟩ := by
  obtain ⟨l, tr, ty, w1, w2, w3, w4⟩ := a
  simp only [Adrs.norm, base, Adrs.mk.injEq] at h
  obtain ⟨rfl, rfl, rfl, rfl, _, _, rfl⟩ := h
  exact ⟨w3, by simp only [Adrs.setChain, Nat.mod_eq_of_lt hi]⟩

theorem genLoop_eq (t : Tree) (L T kp : Nat) : ∀ (k i : Nat) (sa a : Adrs), i + k ≤ 2 ^ 32 →
    (∀ j, j < 2 ^ 32 → sa.setChain j = ⟨L, T, if t.xmss then 0 else 5, kp, j, 0, 0⟩) → a.norm = base L T kp →
    (bindE (genLoop t k i sa a) fun r => .ok (r.1, r.2.norm)) =
      bindE (Spec.mapE (fun c => Spec.link t L T kp c 15) (List.range' i k)) fun vs => .ok (vs, base L T kp)
  | 0, i, sa, a, _, _, ha => by simp [genLoop, Spec.mapE, ha]
  | k + 1, i, sa, a, hik, hsa, ha => by
    rw [genLoop, List.range'_succ, Spec.mapE, hsa i (by omega)]
    cases hsk : liftH (t.H.skDerive ⟨L, T, if t.xmss then 0 else 5, kp, i, 0, 0⟩) with
    | error e => rw [link_err t L T kp i 15 e hsk]; rfl
    | ok sk =>
      obtain ⟨w3, hw⟩ := setChain_base ha i (by omega)
      rw [bindE_ok, hw, link_iter t L T kp i 15 (by omega) sk hsk w3]
      rcases chain_eq t.H ⟨L, T, 0, kp, i, w3, 0⟩ sk 15 with ⟨e, h1, h2⟩ | ⟨v, a', h1, h2, h3⟩
      · rw [h1, h2]; rfl
      · rw [h1, h2, bindE_ok, bindE_ok]
        have h4 := norm_of_norm3 h3
        have ih := genLoop_eq t L T kp k (i + 1) ⟨L, T, if t.xmss then 0 else 5, kp, i, 0, 0⟩ a' (by omega)
          (fun j hj => by simp only [Adrs.setChain, Nat.mod_eq_of_lt hj]) h4
        dsimp only
        cases hg : genLoop t k (i + 1) ⟨L, T, if t.xmss then 0 else 5, kp, i, 0, 0⟩ a' with
        | error e =>
          rw [hg] at ih
          cases hm : Spec.mapE (fun c => Spec.link t L T kp c 15) (List.range' (i + 1) k) with
          | error e' => rw [hm] at ih; simpa using ih
          | ok vs => rw [hm] at ih; simp at ih
        | ok r =>
          rw [hg] at ih
          cases hm : Spec.mapE (fun c => Spec.link t L T kp c 15) (List.range' (i + 1) k) with
          | error e' => rw [hm] at ih; simp at ih
          | ok vs =>
            rw [hm] at ih
            simp only [bindE_ok, Except.ok.injEq, Prod.mk.injEq] at ih
            simp [ih.1, ih.2]

theorem skAdrs_base (t : Tree) (L T kp : Nat) (j : Nat) (hj : j < 2 ^ 32) :
    (skAdrs t (base L T kp)).setChain j = ⟨L, T, if t.xmss then 0 else 5, kp, j, 0, 0⟩ := by
  rw [skAdrs]
  split <;> simp only [base, Adrs.setType, Adrs.copyKeyPair, Adrs.setChain, Nat.mod_eq_of_lt hj]

theorem wotsPk_spec (t : Tree) (ho : t.otsLen ≤ 2 ^ 32) (L T kp : Nat) :
    wotsPk t (base L T kp) = Spec.wotsPk t L T kp := by
  have h := genLoop_eq t L T kp t.otsLen 0 (skAdrs t (base L T kp)) (base L T kp) (by omega)
    (skAdrs_base t L T kp) rfl
  rw [wotsPk, Spec.wotsPk, List.range_eq_range']
  cases hg : genLoop t t.otsLen 0 (skAdrs t (base L T kp)) (base L T kp) with
  | error e =>
    rw [hg] at h
    cases hm : Spec.mapE (fun c => Spec.link t L T kp c 15) (List.range' 0 t.otsLen) with
    | error e' => rw [hm] at h; simpa using h
    | ok vs => rw [hm] at h; simp at h
  | ok r =>
    rw [hg] at h
    cases hm : Spec.mapE (fun c => Spec.link t L T kp c 15) (List.range' 0 t.otsLen) with
    | error e' => rw [hm] at h; simp at h
    | ok vs =>
      rw [hm] at h
      simp only [bindE_ok, Except.ok.injEq, Prod.mk.injEq] at h
      rw [bindE_ok, bindE_ok, compress, h.1, setType_norm (b := base L T kp) h.2]
      rfl

/-- The address of a tree. -/
def treeAdrs (L T : Nat) : Adrs := (Adrs.zero.setLayer L).setTree T

theorem nodeVal_spec (t : Tree) (ho : t.otsLen ≤ 2 ^ 32) (L T : Nat) (hL : L < 2 ^ 32) (hT : T < 2 ^ 64) :
    ∀ (h i : Nat), h < 2 ^ 32 → (i + 1) * 2 ^ h ≤ 2 ^ 32 → nodeVal t (treeAdrs L T) h i = Spec.node t L T h i
  | 0, i, _, hi => by
    rw [nodeVal, Spec.node, leafNode, ← wotsPk_spec t ho]
    simp only [treeAdrs, Adrs.setLayer, Adrs.setTree, Adrs.zero, Adrs.setType, Adrs.setKeyPair, base,
      Nat.mod_eq_of_lt hL, Nat.mod_eq_of_lt hT, Nat.mod_eq_of_lt (show i < 2 ^ 32 by omega)]
  | h + 1, i, hh, hi => by
    have hp : 0 < 2 ^ h := Nat.pow_pos (by omega)
    have e : (i + 1) * 2 ^ (h + 1) = (2 * i + 1 + 1) * 2 ^ h := by rw [Nat.pow_succ]; ring
    have hle : (2 * i + 1 + 1) * 1 ≤ (2 * i + 1 + 1) * 2 ^ h := Nat.mul_le_mul_left _ hp
    have e2 : (2 * i + 1) * 2 ^ h ≤ (2 * i + 1 + 1) * 2 ^ h := Nat.mul_le_mul_right _ (by omega)
    rw [nodeVal, Spec.node, nodeVal_spec t ho L T hL hT h _ (by omega) (by omega),
      nodeVal_spec t ho L T hL hT h _ (by omega) (by omega)]
    congr 1; funext l; congr 1; funext r
    rw [internalNode]
    have : (if t.xmss = true then h + 1 - 1 else h + 1) % 2 ^ 32 = if t.xmss = true then h else h + 1 := by
      split <;> omega
    simp only [treeAdrs, Adrs.setLayer, Adrs.setTree, Adrs.zero, Adrs.setType, Adrs.setTreeHeight, Adrs.setTreeIndex,
      Nat.mod_eq_of_lt hL, Nat.mod_eq_of_lt hT, Nat.mod_eq_of_lt (show i < 2 ^ 32 by omega), this]

theorem signLoop_eq (t : Tree) (L T kp : Nat) : ∀ (ds : List Nat) (i : Nat) (sa a : Adrs), i + ds.length ≤ 2 ^ 32 →
    (∀ d ∈ ds, d ≤ 15) →
    (∀ j, j < 2 ^ 32 → sa.setChain j = ⟨L, T, if t.xmss then 0 else 5, kp, j, 0, 0⟩) → a.norm = base L T kp →
    signLoop t ds i sa a =
      Spec.mapE (fun c => Spec.link t L T kp c.2 c.1) (ds.zipIdx i)
  | [], i, sa, a, _, _, _, ha => by simp [signLoop, Spec.mapE]
  | d :: ds, i, sa, a, hik, hd, hsa, ha => by
    simp only [List.length_cons] at hik
    rw [signLoop, List.zipIdx_cons, Spec.mapE, hsa i (by omega)]
    cases hsk : liftH (t.H.skDerive ⟨L, T, if t.xmss then 0 else 5, kp, i, 0, 0⟩) with
    | error e => rw [link_err t L T kp i d e hsk]; rfl
    | ok sk =>
      obtain ⟨w3, hw⟩ := setChain_base ha i (by omega)
      rw [bindE_ok, hw, link_iter t L T kp i d (hd d (by simp)) sk hsk w3]
      rcases chain_eq t.H ⟨L, T, 0, kp, i, w3, 0⟩ sk d with ⟨e, h1, h2⟩ | ⟨v, a', h1, h2, h3⟩
      · rw [h1, h2]; rfl
      · rw [h1, h2, bindE_ok, bindE_ok]
        dsimp only
        rw [signLoop_eq t L T kp ds (i + 1) ⟨L, T, if t.xmss then 0 else 5, kp, i, 0, 0⟩ a' (by omega)
          (fun d' hd' => hd d' (by simp [hd'])) (fun j hj => by simp only [Adrs.setChain, Nat.mod_eq_of_lt hj])
          (norm_of_norm3 h3)]

/-- What a tree signature consists of. -/
theorem treeSign_contents (t : Tree) (hl : LenOk t.n t.H) (hhp : t.hp ≤ 32) (ho : t.otsLen ≤ 2 ^ 32)
    (L T : Nat) (hL : L < 2 ^ 32) (hT : T < 2 ^ 64) (msg : List Byte) (hm : t.n ≤ msg.length)
    (idx : Nat) (hidx : idx < 2 ^ t.hp) (sig : List Byte) (root : Blk)
    (h : treeSign t msg idx (treeAdrs L T) = .ok (sig, root)) :
    ∃ (ds : List Nat) (ws auth : List Blk), msgToBaseW t.n msg = .ok ds ∧
      Spec.mapE (fun c => Spec.link t L T idx c.2 c.1) ds.zipIdx = .ok ws ∧
      auth.length = t.hp ∧
      (∀ (j : Nat) x, auth[j]? = some x → Spec.node t L T j ((idx / 2 ^ j) ^^^ 1) = .ok x) ∧
      Spec.node t L T t.hp 0 = .ok root ∧ sig = ws.flatten ++ auth.flatten := by
  rw [treeSign] at h
  simp only [bindE_eq_ok] at h
  obtain ⟨ws, hws, ⟨v, auth⟩, hcn, h⟩ := h
  simp only [Except.ok.injEq, Prod.mk.injEq] at h
  obtain ⟨rfl, rfl⟩ := h
  have h32 : 2 ^ t.hp ≤ 2 ^ 32 := Nat.pow_le_pow_right (by omega) hhp
  obtain ⟨hv, hal, hauth⟩ := computeNode_some t _ idx t.hp 0 _ auth v hcn (Nat.le_refl _) (by simp)
  rw [wotsSign, bindE_eq_ok] at hws
  obtain ⟨ds, hds, hws⟩ := hws
  split at hws
  · simp at hws
  rename_i hlen
  simp only [ne_eq, Classical.not_not] at hlen
  have hbase : ((treeAdrs L T).setType 0).setKeyPair idx = base L T idx := by
    simp only [treeAdrs, Adrs.setLayer, Adrs.setTree, Adrs.zero, Adrs.setType, Adrs.setKeyPair, base,
      Nat.mod_eq_of_lt hL, Nat.mod_eq_of_lt hT, Nat.mod_eq_of_lt (show idx < 2 ^ 32 by omega)]
  rw [hbase, signLoop_eq t L T idx ds 0 _ _ (by omega) (msgToBaseW_le _ _ _ hds hm).2 (skAdrs_base t L T idx) rfl] at hws
  refine ⟨ds, ws, auth, hds, hws, hal, ?_, ?_, rfl⟩
  · intro j x hx
    have hj : j < t.hp := by
      rcases List.getElem?_eq_some_iff.1 hx with ⟨hlt, _⟩
      omega
    have hb : (idx / 2 ^ j) ^^^ 1 < 2 ^ (t.hp - j) := by
      obtain ⟨c, hc⟩ : ∃ c, t.hp - j = c + 1 := ⟨t.hp - j - 1, by omega⟩
      rw [hc]
      apply xor_one_lt
      rw [← hc]
      apply Nat.div_lt_of_lt_mul
      rw [← Nat.pow_add, show j + (t.hp - j) = t.hp by omega]
      exact hidx
    rw [← nodeVal_spec t ho L T hL hT j _ (by omega)]
    · exact (hauth j hj x hx).1 ⟨by omega, Nat.div_eq_of_lt hb⟩
    · refine Nat.le_trans (Nat.mul_le_mul_right _ (Nat.succ_le_of_lt hb)) ?_
      rw [← Nat.pow_add, show t.hp - j + j = t.hp by omega]
      exact h32
  · rw [← nodeVal_spec t ho L T hL hT t.hp 0 (by omega) (by omega)]
    exact hv

theorem treeRoot_spec (t : Tree) (hhp : t.hp ≤ 32) (ho : t.otsLen ≤ 2 ^ 32)
    (L T : Nat) (hL : L < 2 ^ 32) (hT : T < 2 ^ 64) : treeRoot t (treeAdrs L T) = Spec.node t L T t.hp 0 := by
  have h32 : 2 ^ t.hp ≤ 2 ^ 32 := Nat.pow_le_pow_right (by omega) hhp
  rw [treeRoot_eq, nodeVal_spec t ho L T hL hT t.hp 0 (by omega) (by omega)]

/-! ### FORS -/

theorem forsVal_spec (H : Hash) (T kp : Nat) (hT : T < 2 ^ 64) (hkp : kp < 2 ^ 32) : ∀ (h i : Nat), h < 2 ^ 32 →
    (i + 1) * 2 ^ h ≤ 2 ^ 32 → forsVal H (forsAdrs T kp) h i = Spec.forsNode H T kp h i
  | 0, i, _, hi => by
    simp only [forsVal, Spec.forsNode, forsSk, forsAdrs, Adrs.setTree, Adrs.zero, Adrs.setType, Adrs.setKeyPair,
      Adrs.copyKeyPair, Adrs.setTreeIndex, Adrs.setTreeHeight,
      Nat.mod_eq_of_lt hkp, Nat.mod_eq_of_lt hT, Nat.mod_eq_of_lt (show i < 2 ^ 32 by omega), Nat.zero_mod]
  | h + 1, i, hh, hi => by
    have hp : 0 < 2 ^ h := Nat.pow_pos (by omega)
    have e : (i + 1) * 2 ^ (h + 1) = (2 * i + 1 + 1) * 2 ^ h := by rw [Nat.pow_succ]; ring
    have hle : (2 * i + 1 + 1) * 1 ≤ (2 * i + 1 + 1) * 2 ^ h := Nat.mul_le_mul_left _ hp
    have e2 : (2 * i + 1) * 2 ^ h ≤ (2 * i + 1 + 1) * 2 ^ h := Nat.mul_le_mul_right _ (by omega)
    rw [forsVal, Spec.forsNode, Nat.mul_comm i 2, forsVal_spec H T kp hT hkp h _ (by omega) (by omega),
      forsVal_spec H T kp hT hkp h _ (by omega) (by omega)]
    congr 1; funext l; congr 1; funext r
    simp only [forsAdrs, Adrs.setTree, Adrs.zero, Adrs.setType, Adrs.setKeyPair,
      Adrs.setTreeIndex, Adrs.setTreeHeight,
      Nat.mod_eq_of_lt hkp, Nat.mod_eq_of_lt hT, Nat.mod_eq_of_lt (show i < 2 ^ 32 by omega), Nat.mod_eq_of_lt hh]

theorem forsRoots_spec (H : Hash) (T kp : Nat) (hT : T < 2 ^ 64) (hkp : kp < 2 ^ 32) (ah : Nat) (hah : ah < 2 ^ 32) :
    ∀ (k i : Nat), (i + k) * 2 ^ ah ≤ 2 ^ 32 →
    forsRoots H (forsAdrs T kp) ah k i = Spec.mapE (fun i => Spec.forsNode H T kp ah i) (List.range' i k)
  | 0, i, _ => rfl
  | k + 1, i, hi => by
    have e : (i + (k + 1)) * 2 ^ ah = (i + 1) * 2 ^ ah + k * 2 ^ ah := by ring
    rw [forsRoots, List.range'_succ, Spec.mapE, forsVal_spec H T kp hT hkp ah i hah (by omega),
      forsRoots_spec H T kp hT hkp ah hah k (i + 1) (by rw [show i + 1 + k = i + (k + 1) by omega]; exact hi)]

theorem fors_pk (p : SlhParams) (H : Hash) (hl : LenOk p.n H) (hk : p.k * 2 ^ p.a ≤ 2 ^ 32) (ha : p.a < 2 ^ 32)
    (T kp : Nat) (hT : T < 2 ^ 64) (hkp : kp < 2 ^ 32) (md : List Byte) (room : Nat) (sig : List Byte) (a' : Adrs)
    (h : forsSign p H md (forsAdrs T kp) room = .ok (sig, a')) :
    sig.length = (p.a + 1) * p.n * p.k ∧ forsPkFromSig p H sig md (forsAdrs T kp) = Spec.forsPk p H T kp := by
  obtain ⟨h1, h2, h3⟩ := fors_roundtrip p H hl hk md _ _ rfl room sig a' h
  refine ⟨h2, ?_⟩
  rw [h3, forsRoots_spec H T kp hT hkp p.a ha p.k 0 (by rw [Nat.zero_add]; exact hk), Spec.forsPk, List.range_eq_range']
  congr 1; funext rs
  simp only [forsAdrs, Adrs.setTree, Adrs.zero, Adrs.setType, Adrs.setKeyPair, Adrs.copyKeyPair,
      Nat.mod_eq_of_lt hkp, Nat.mod_eq_of_lt hT]

end Verif.Crypto.Hbs
