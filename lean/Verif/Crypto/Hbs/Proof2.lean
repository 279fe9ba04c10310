import Verif.Crypto.Hbs.Proof

namespace Verif.Crypto.Hbs

open Verif.Common

/-! ### Hypertrees -/

theorem mod_mod_hp {x hp : Nat} (h : hp ≤ 32) : x % 2 ^ hp % 2 ^ 32 < 2 ^ hp := by
  have h1 : x % 2 ^ hp < 2 ^ hp := Nat.mod_lt _ (Nat.pow_pos (by omega))
  exact Nat.lt_of_le_of_lt (Nat.mod_le _ _) h1

theorem hyper_loop (t : Tree) (hl : LenOk t.n t.H) (hhp : t.hp ≤ 32) (S : List Byte) :
    ∀ (cnt j : Nat) (msg : List Byte) (tree leaf : Nat) (a : Adrs) (sig rest : List Byte) (r : Blk),
    t.n ≤ msg.length → (j = 0 → leaf < 2 ^ t.hp ∧ a.layer = 0) →
    S.drop (j * ((t.otsLen + t.hp) * t.n)) = sig ++ rest →
    hyperSignLoop t cnt j msg tree leaf = .ok (sig, r) →
    hyperVerifyLoop t S cnt j msg tree leaf a = .ok r ∧
    sig.length = cnt * ((t.otsLen + t.hp) * t.n) ∧
    (1 ≤ cnt → treeRoot t ((Adrs.zero.setLayer (j + cnt - 1)).setTree
      (tree / 2 ^ (t.hp * (if j = 0 then cnt - 1 else cnt)))) = .ok r)
  | 0, j, msg, tree, leaf, a, sig, rest, r, _, _, _, h => by
    simp only [hyperSignLoop, Except.ok.injEq, Prod.mk.injEq] at h
    rw [hyperVerifyLoop, ← h.1, h.2]
    simp
  | cnt + 1, j, msg, tree, leaf, a, sig, rest, r, hm, h0, hS, h => by
    rw [hyperSignLoop] at h
    simp only [bindE_eq_ok] at h
    obtain ⟨⟨s1, r1⟩, hts, ⟨s2, r2⟩, hloop, h⟩ := h
    simp only [Except.ok.injEq, Prod.mk.injEq] at h
    obtain ⟨rfl, rfl⟩ := h
    have hleaf : (if j ≠ 0 then tree % 2 ^ t.hp % 2 ^ 32 else leaf) < 2 ^ t.hp := by
      split
      · exact mod_mod_hp hhp
      · rename_i hj
        simp only [ne_eq, Classical.not_not] at hj
        exact (h0 hj).1
    obtain ⟨t1, t2, t3, b', t4⟩ := tree_roundtrip t hl hhp msg hm _ hleaf _ s1 r1 hts
    have htake : (S.drop (j * ((t.otsLen + t.hp) * t.n))).take ((t.otsLen + t.hp) * t.n) = s1 := by
      rw [hS, List.append_assoc, ← t2, List.take_left]
    have hdrop : S.drop ((j + 1) * ((t.otsLen + t.hp) * t.n)) = s2 ++ rest := by
      rw [show (j + 1) * ((t.otsLen + t.hp) * t.n) = j * ((t.otsLen + t.hp) * t.n) + (t.otsLen + t.hp) * t.n by ring,
        ← List.drop_drop, hS, List.append_assoc, ← t2, List.drop_left]
    obtain ⟨l1, l2, l3⟩ := hyper_loop t hl hhp S cnt (j + 1) r1
      (if j ≠ 0 then tree / 2 ^ t.hp else tree) (if j ≠ 0 then tree % 2 ^ t.hp % 2 ^ 32 else leaf) b'
      s2 rest r2 (by omega) (by omega) hdrop hloop
    refine ⟨?_, by rw [List.length_append, t2, l2]; ring, ?_⟩
    · rw [hyperVerifyLoop]
      rw [htake, treeVerify_adrs t msg s1 _ ((if j ≠ 0 then a.setLayer j else a).setTree (if j ≠ 0 then tree / 2 ^ t.hp else tree))
        ((if j ≠ 0 then Adrs.zero.setLayer j else Adrs.zero).setTree (if j ≠ 0 then tree / 2 ^ t.hp else tree))
        (by
          by_cases hj : j = 0
          · simp [hj, Adrs.setTree, (h0 hj).2, Adrs.zero]
          · simp [hj, Adrs.setTree, Adrs.setLayer]) rfl, t4, bindE_ok]
      exact l1
    · intro _
      by_cases hc : cnt = 0
      · subst hc
        simp only [hyperSignLoop, Except.ok.injEq, Prod.mk.injEq] at hloop
        rw [← hloop.2]
        by_cases hj : j = 0
        · subst hj; simpa [Adrs.setLayer, Adrs.zero] using t1
        · simpa [hj] using t1
      · have := l3 (by omega)
        rw [if_neg (show ¬ (j + 1 = 0) by omega)] at this
        rw [show j + (cnt + 1) - 1 = j + 1 + cnt - 1 by omega]
        by_cases hj : j = 0
        · subst hj
          simpa using this
        · rw [if_pos hj, Nat.div_div_eq_div_mul, ← Nat.pow_add] at this
          rw [if_neg hj, show t.hp * (cnt + 1) = t.hp + t.hp * cnt by ring]
          exact this

theorem hyper_roundtrip (t : Tree) (hl : LenOk t.n t.H) (hhp : t.hp ≤ 32) (hd : 1 ≤ t.d) (msg : List Byte)
    (tree leaf room : Nat) (hleaf : leaf < 2 ^ t.hp) (htree : tree < 2 ^ (t.hp * (t.d - 1)))
    (sig : List Byte) (root : Blk) (h : hyperSign t msg tree leaf room = .ok sig)
    (hr : treeRoot t (Adrs.zero.setLayer (t.d - 1)) = .ok root) :
    sig.length = (t.otsLen + t.hp) * t.n * t.d ∧ hyperVerify t root msg sig tree leaf = .ok () := by
  rw [hyperSign] at h
  split at h
  · simp at h
  rename_i hb
  split at h
  · simp at h
  rw [bindE_eq_ok] at h
  obtain ⟨⟨s, r⟩, hloop, h⟩ := h
  simp only [Except.ok.injEq] at h
  subst h
  obtain ⟨l1, l2, l3⟩ := hyper_loop t hl hhp s t.d 0 _ tree leaf Adrs.zero s [] r
    (by simp only [List.length_append, List.length_replicate]; omega) (fun _ => ⟨hleaf, rfl⟩) (by simp) hloop
  have l4 := l3 hd
  simp only [if_true, Nat.zero_add] at l4
  rw [Nat.div_eq_of_lt htree] at l4
  have : r = root := by
    have h5 : treeRoot t (Adrs.zero.setLayer (t.d - 1)) = .ok r := l4
    rw [hr, Except.ok.injEq] at h5
    exact h5.symm
  subst this
  refine ⟨by rw [l2]; ring, ?_⟩
  rw [hyperVerify, if_neg hb, if_neg (by
    rw [l2, Nat.mul_comm, Nat.mul_div_cancel _ (by omega)]; omega), l1, bindE_ok, if_pos rfl]

/-! ### XMSS -/

theorem position_lt (p : Xmss.Params) (i : Nat) (h : Xmss.RowOk p) (hi : i < 2 ^ p.h) (hh : p.h = p.hp * p.d)
    (hd : 1 ≤ p.d) (h32 : p.hp ≤ 32) (hmt : p.mt = false → p.d = 1) :
    (Xmss.position p i).2 < 2 ^ p.hp ∧ (Xmss.position p i).1 < 2 ^ (p.hp * (p.d - 1)) := by
  rw [Xmss.position]
  split
  · rw [Nat.and_two_pow_sub_one_eq_mod]
    refine ⟨mod_mod_hp h32, ?_⟩
    apply Nat.div_lt_of_lt_mul
    rw [← Nat.pow_add, show p.hp + p.hp * (p.d - 1) = p.h by
      rw [hh]
      obtain ⟨d, hd⟩ : ∃ d, p.d = d + 1 := ⟨p.d - 1, by omega⟩
      rw [hd, Nat.add_sub_cancel]; ring]
    exact hi
  · rename_i hf
    have := hmt (by simpa using hf)
    rw [this] at hh
    rw [hh, Nat.mul_one] at hi
    refine ⟨Nat.lt_of_le_of_lt (Nat.mod_le _ _) hi, Nat.pow_pos (by omega)⟩

/-- Facts about the parameter tables. -/
def TabOk (p : Xmss.Params) : Prop :=
  p.h = p.hp * p.d ∧ 1 ≤ p.d ∧ p.hp ≤ 32 ∧ (p.mt = false → p.d = 1) ∧ p.wotsLen = 2 * p.n + 3 ∧
  1 ≤ p.n ∧ p.n ≤ 64 ∧ p.sigBytes = Xmss.idxBytes p + p.n + (p.wotsLen + p.hp) * p.n * p.d

instance (p : Xmss.Params) : Decidable (TabOk p) := by unfold TabOk; infer_instance

theorem xmssTable_tab : ∀ p ∈ Xmss.xmssTable, TabOk p := by decide +kernel
theorem xmssmtTable_tab : ∀ p ∈ Xmss.xmssmtTable, TabOk p := by decide +kernel

theorem xmss_roundtrip (p : Xmss.Params) (hrow : Xmss.RowOk p) (htab : TabOk p) (H : Hash)
    (hl : LenOk p.n H) (hml : ∀ r m i x, H.msgHash r m i = .ok x → x.length = p.n)
    (r : Blk) (hrl : r.length = p.n) (index : Nat) (hi : index < 2 ^ p.h) (msg sig : List Byte) (root : Blk)
    (hs : xmssSign p H r index msg = .ok sig) (hroot : xmssRoot p H = .ok root) :
    sig.length = p.sigBytes ∧ xmssVerify p H root msg sig = .ok () := by
  obtain ⟨t1, t2, t3, t4, t5, t6, t7, t8⟩ := htab
  obtain ⟨q1, q2⟩ := position_lt p index hrow hi t1 t2 t3 t4
  rw [xmssSign] at hs
  simp only [bindE_eq_ok] at hs
  obtain ⟨dg, hdg, ts, hts, hs⟩ := hs
  simp only [Except.ok.injEq] at hs
  have hdl : dg.length = p.n := hml _ _ _ _ (liftH_eq_ok.1 hdg)
  have hbe := Xmss.length_beBytes (Xmss.idxBytes p) index
  have key : ts.length = (p.wotsLen + p.hp) * p.n * p.d ∧
      (if p.mt then hyperVerify (xmssTree p H) root dg ts (Xmss.position p index).1 (Xmss.position p index).2
       else bindE (treeVerify (xmssTree p H) dg ts (Xmss.position p index).2 (Adrs.zero.setTree 0)) fun r =>
         if r.1 = root then .ok () else .error .mismatch) = .ok () := by
    by_cases hmt : p.mt = true
    · rw [if_pos hmt] at hts ⊢
      exact hyper_roundtrip (xmssTree p H) hl t3 t2 dg _ _ _ q1 q2 ts root hts hroot
    · rw [if_neg hmt] at hts ⊢
      rw [bindE_eq_ok] at hts
      obtain ⟨⟨s, rt⟩, hts, he⟩ := hts
      simp only [Except.ok.injEq] at he
      subst he
      obtain ⟨e1, e2, _, b', e4⟩ := tree_roundtrip (xmssTree p H) hl t3 dg (by rw [hdl]; exact Nat.le_refl _) _ q1 _ s rt hts
      have hd1 : p.d = 1 := t4 (by simpa using hmt)
      have : rt = root := by
        have h5 : xmssRoot p H = .ok rt := by
          rw [xmssRoot, hd1]; exact e1
        rw [hroot, Except.ok.injEq] at h5
        exact h5.symm
      subst this
      refine ⟨by rw [e2, hd1, Nat.mul_one]; rfl, ?_⟩
      rw [e4, bindE_ok, if_pos rfl]
  obtain ⟨k1, k2⟩ := key
  have hlen : sig.length = p.sigBytes := by
    rw [← hs, List.length_append, List.length_append, hbe, hrl, k1, t8]
  refine ⟨hlen, ?_⟩
  have hidx : Xmss.verifyIndex p sig = index := by
    rw [← hs, List.append_assoc]
    exact Xmss.verifyIndex_out p index _ hrow hi
  have hdrop : sig.drop (Xmss.idxBytes p) = r ++ ts := by
    rw [← hs, List.append_assoc]
    have := List.drop_left (l₁ := Xmss.beBytes (Xmss.idxBytes p) index) (l₂ := r ++ ts)
    rwa [hbe] at this
  rw [xmssVerify]
  dsimp only
  rw [if_neg (by simp [hlen]), hidx, hdrop, ← hrl, List.take_left, List.drop_left, hdg, bindE_ok]
  exact k2

/-! ### FORS -/

/-- Value of a FORS node. -/
def forsVal (H : Hash) (a : Adrs) : Nat → Nat → Except Err Blk
  | 0, idx => bindE (forsSk H a idx) fun sk => liftH (H.chainHash ((a.setTreeHeight 0).setTreeIndex idx) sk)
  | h + 1, idx =>
    bindE (forsVal H a h (idx * 2)) fun l =>
    bindE (forsVal H a h (idx * 2 + 1)) fun r =>
    liftH (H.nodeHash ((a.setTreeHeight (h + 1)).setTreeIndex idx) (l ++ r))

theorem forsSk_norm (H : Hash) {a b : Adrs} (h : a.norm = b.norm) (idx : Nat) : forsSk H a idx = forsSk H b idx := by
  rw [forsSk, forsSk, setType_norm h]

theorem forsVal_norm (H : Hash) {a b : Adrs} (h : a.norm = b.norm) : ∀ (k idx : Nat),
    forsVal H a k idx = forsVal H b k idx
  | 0, idx => by rw [forsVal, forsVal, forsSk_norm H h, setHI_norm h]
  | k + 1, idx => by
    rw [forsVal, forsVal, forsVal_norm H h k, forsVal_norm H h k, setHI_norm h]

theorem forsNode_eq (H : Hash) : ∀ (h idx : Nat) (a : Adrs),
    forsNode H h idx a = bindE (forsVal H a h idx) fun v => .ok (v, (a.setTreeHeight h).setTreeIndex idx)
  | 0, idx, a => by
    rw [forsNode, forsVal]
    cases forsSk H a idx with
    | error e => rfl
    | ok sk => rfl
  | h + 1, idx, a => by
    rw [forsNode, forsVal, forsNode_eq H h]
    cases forsVal H a h (idx * 2) with
    | error e => rfl
    | ok l =>
      simp only [bindE_ok]
      rw [forsNode_eq H h, forsVal_norm H (norm_setHI a h (idx * 2))]
      cases forsVal H a h (idx * 2 + 1) with
      | error e => rfl
      | ok r =>
        simp only [bindE_ok]
        rw [setHI_norm (a := ((((a.setTreeHeight h).setTreeIndex (idx * 2)).setTreeHeight h).setTreeIndex (idx * 2 + 1)))
          (b := a) rfl]

theorem forsAuth_ok (H : Hash) (ah i ind : Nat) : ∀ (cnt j : Nat) (a a' : Adrs) (au : List Blk),
    forsAuth H ah i ind cnt j a = .ok (au, a') →
    a'.norm = a.norm ∧ au.length = cnt ∧ ∀ m x, au[m]? = some x →
      forsVal H a (j + m) (i * 2 ^ (ah - (j + m)) + ((ind / 2 ^ (j + m)) ^^^ 1)) = .ok x
  | 0, j, a, a', au, h => by
    simp only [forsAuth, Except.ok.injEq, Prod.mk.injEq] at h
    simp [← h.1, ← h.2]
  | cnt + 1, j, a, a', au, h => by
    rw [forsAuth, forsNode_eq] at h
    simp only [bindE_eq_ok] at h
    obtain ⟨⟨v, b⟩, ⟨v', hv, hb⟩, ⟨au', c⟩, hr, h⟩ := h
    simp only [Except.ok.injEq, Prod.mk.injEq] at h hb
    obtain ⟨rfl, rfl⟩ := h
    obtain ⟨rfl, rfl⟩ := hb
    obtain ⟨h1, h2, h3⟩ := forsAuth_ok H ah i ind cnt (j + 1) _ _ _ hr
    refine ⟨by rw [h1, norm_setHI], by simp [h2], ?_⟩
    intro m x hx
    cases m with
    | zero =>
      simp only [List.getElem?_cons_zero, Option.some.injEq] at hx
      rw [Nat.add_zero, hv, hx]
    | succ m =>
      simp only [List.getElem?_cons_succ] at hx
      have := h3 m x hx
      rw [forsVal_norm H (norm_setHI a _ _), show j + 1 + m = j + (m + 1) by omega] at this
      exact this

theorem forsVal_len {n : Nat} {H : Hash} (hl : LenOk n H) (a : Adrs) (k idx : Nat) (x : Blk)
    (h : forsVal H a k idx = .ok x) : x.length = n := by
  cases k with
  | zero =>
    rw [forsVal, bindE_eq_ok] at h
    obtain ⟨sk, hsk, h⟩ := h
    exact hl.ch _ _ _ (hl.sk _ _ (liftH_eq_ok.1 hsk)) (liftH_eq_ok.1 h)
  | succ k =>
    rw [forsVal] at h
    simp only [bindE_eq_ok] at h
    obtain ⟨_, _, _, _, h⟩ := h
    exact hl.nd _ _ _ (liftH_eq_ok.1 h)

/-- Climbing from a leaf or inner node gives the value of the root, whatever it is. -/
theorem forsClimb_eq (H : Hash) (n : Nat) (auth : List Byte) (ah i ind : Nat) (a : Adrs)
    (hi : i * 2 ^ ah + ind < 2 ^ 32) (hind : ind < 2 ^ ah) :
    ∀ (cnt j : Nat) (b : Adrs), j + cnt = ah → b.norm = a.norm → b.w3 = i * 2 ^ (ah - j) + ind / 2 ^ j →
    (∀ m, j ≤ m → m < ah → forsVal H a m (i * 2 ^ (ah - m) + ((ind / 2 ^ m) ^^^ 1)) = .ok (blk n auth m)) →
    (bindE (forsVal H a j (i * 2 ^ (ah - j) + ind / 2 ^ j)) fun node =>
      bindE (forsClimb H n auth ind cnt j b node) fun r => .ok (r.1, r.2.norm)) =
    bindE (forsVal H a ah i) fun v => .ok (v, a.norm)
  | 0, j, b, hj, hb, _, _ => by
    have : j = ah := by omega
    subst this
    rw [Nat.sub_self, Nat.pow_zero, Nat.mul_one, Nat.div_eq_of_lt hind, Nat.add_zero]
    cases forsVal H a j i with
    | error e => rfl
    | ok v => simp [forsClimb, hb]
  | cnt + 1, j, b, hj, hb, hw, hs => by
    have hsib := hs j (Nat.le_refl _) (by omega)
    have hpow : i * 2 ^ (ah - j) = 2 * (i * 2 ^ (ah - (j + 1))) := by
      rw [show ah - j = (ah - (j + 1)) + 1 by omega, Nat.pow_succ]; ring
    have hdiv : ind / 2 ^ (j + 1) = ind / 2 ^ j / 2 := by rw [Nat.pow_succ, Nat.div_div_eq_div_mul]
    have hq : (if ind / 2 ^ j % 2 = 1 then (b.w3 - 1) / 2 else b.w3 / 2) =
        i * 2 ^ (ah - (j + 1)) + ind / 2 ^ (j + 1) := by
      rw [hw, hpow, hdiv]
      generalize ind / 2 ^ j = q
      split <;> omega
    have hlt : i * 2 ^ (ah - (j + 1)) + ind / 2 ^ (j + 1) < 2 ^ 32 := by
      refine Nat.lt_of_le_of_lt ?_ hi
      exact Nat.add_le_add (Nat.mul_le_mul_left _ (Nat.pow_le_pow_right (by omega) (by omega)))
        (Nat.div_le_self _ _)
    have ih := forsClimb_eq H n auth ah i ind a hi hind cnt (j + 1)
      ((b.setTreeHeight (j + 1)).setTreeIndex (i * 2 ^ (ah - (j + 1)) + ind / 2 ^ (j + 1)))
      (by omega) (by rw [norm_setHI, hb])
      (by show (i * 2 ^ (ah - (j + 1)) + ind / 2 ^ (j + 1)) % 2 ^ 32 = _; rw [Nat.mod_eq_of_lt hlt])
      (fun m h1 h2 => hs m (by omega) h2)
    rw [← ih, forsVal]
    have hstep : ∀ node, (bindE (forsClimb H n auth ind (cnt + 1) j b node) fun r =>
        (Except.ok (r.1, r.2.norm) : Except Err (Blk × Adrs))) =
        bindE (liftH (H.nodeHash ((a.setTreeHeight (j + 1)).setTreeIndex (i * 2 ^ (ah - (j + 1)) + ind / 2 ^ (j + 1)))
          (if ind / 2 ^ j % 2 = 1 then blk n auth j ++ node else node ++ blk n auth j))) fun node' =>
        bindE (forsClimb H n auth ind cnt (j + 1)
          ((b.setTreeHeight (j + 1)).setTreeIndex (i * 2 ^ (ah - (j + 1)) + ind / 2 ^ (j + 1))) node')
          fun r => .ok (r.1, r.2.norm) := by
      intro node
      rw [forsClimb]
      have hg : (b.setTreeHeight (j + 1)).getTreeIndex = b.w3 := rfl
      rw [hg, hq, setHI_norm hb]
      cases liftH (H.nodeHash ((a.setTreeHeight (j + 1)).setTreeIndex (i * 2 ^ (ah - (j + 1)) + ind / 2 ^ (j + 1)))
          (if ind / 2 ^ j % 2 = 1 then blk n auth j ++ node else node ++ blk n auth j)) with
      | error e => rfl
      | ok v => rfl
    by_cases ho : ind / 2 ^ j % 2 = 1
    · have e1 : i * 2 ^ (ah - j) + ((ind / 2 ^ j) ^^^ 1) = (i * 2 ^ (ah - (j + 1)) + ind / 2 ^ (j + 1)) * 2 := by
        rw [xor_one, if_neg (by omega), hpow, hdiv]; clear hsib hq hlt ih; generalize ind / 2 ^ j = q at *; generalize i * 2 ^ (ah - (j + 1)) = z; omega
      have e2 : i * 2 ^ (ah - j) + ind / 2 ^ j = (i * 2 ^ (ah - (j + 1)) + ind / 2 ^ (j + 1)) * 2 + 1 := by omega
      rw [e1] at hsib
      rw [e2, hsib, bindE_ok]
      cases forsVal H a j ((i * 2 ^ (ah - (j + 1)) + ind / 2 ^ (j + 1)) * 2 + 1) with
      | error e => rfl
      | ok v => rw [bindE_ok, bindE_ok, hstep, if_pos ho]
    · have e1 : i * 2 ^ (ah - j) + ((ind / 2 ^ j) ^^^ 1) = (i * 2 ^ (ah - (j + 1)) + ind / 2 ^ (j + 1)) * 2 + 1 := by
        rw [xor_one, if_pos (by omega), hpow, hdiv]; clear hsib hq hlt ih; generalize ind / 2 ^ j = q at *; generalize i * 2 ^ (ah - (j + 1)) = z; omega
      have e2 : i * 2 ^ (ah - j) + ind / 2 ^ j = (i * 2 ^ (ah - (j + 1)) + ind / 2 ^ (j + 1)) * 2 := by omega
      rw [e1] at hsib
      rw [e2]
      cases forsVal H a j ((i * 2 ^ (ah - (j + 1)) + ind / 2 ^ (j + 1)) * 2) with
      | error e => rfl
      | ok v => rw [bindE_ok, bindE_ok, hsib, bindE_ok, hstep, if_neg ho]

/-- The roots of the FORS trees `i`, `i + 1`, … -/
def forsRoots (H : Hash) (a : Adrs) (ah : Nat) : Nat → Nat → Except Err (List Blk)
  | 0, _ => .ok []
  | k + 1, i => bindE (forsVal H a ah i) fun v => bindE (forsRoots H a ah k (i + 1)) fun vs => .ok (v :: vs)

theorem forsSk_len {n : Nat} {H : Hash} (hl : LenOk n H) {a : Adrs} {idx : Nat} {x : Blk}
    (h : forsSk H a idx = .ok x) : x.length = n := hl.sk _ _ (liftH_eq_ok.1 h)

theorem forsSignLoop_ok (H : Hash) (n ah : Nat) (hl : LenOk n H) (S : List Byte) (a : Adrs) :
    ∀ (inds : List Nat) (i : Nat) (b c b' : Adrs) (l : List Blk) (rest : List Byte),
    (∀ x ∈ inds, x < 2 ^ ah) → (i + inds.length) * 2 ^ ah ≤ 2 ^ 32 → b.norm = a.norm → c.norm = a.norm →
    forsSignLoop H ah inds i b = .ok (l, b') → S.drop ((ah + 1) * n * i) = l.flatten ++ rest →
    b'.norm = a.norm ∧ l.length = (ah + 1) * inds.length ∧ (∀ x ∈ l, x.length = n) ∧
    (bindE (forsPkLoop H n ah S inds i c) fun r => .ok (r.1, r.2.norm)) =
      bindE (forsRoots H a ah inds.length i) fun rs => .ok (rs, a.norm)
  | [], i, b, c, b', l, rest, _, _, hb, hc, h, _ => by
    simp only [forsSignLoop, Except.ok.injEq, Prod.mk.injEq] at h
    obtain ⟨rfl, rfl⟩ := h
    exact ⟨hb, by simp, by simp, by simp [forsPkLoop, forsRoots, hc]⟩
  | ind :: inds, i, b, c, b', l, rest, hx, hi, hb, hc, h, hS => by
    rw [forsSignLoop] at h
    simp only [bindE_eq_ok] at h
    obtain ⟨sk, hsk, ⟨au, b1⟩, hau, ⟨l2, b2⟩, hr, h⟩ := h
    simp only [Except.ok.injEq, Prod.mk.injEq] at h
    obtain ⟨rfl, rfl⟩ := h
    obtain ⟨u1, u2, u3⟩ := forsAuth_ok H ah i ind ah 0 _ _ _ hau
    have hind := hx ind (by simp)
    simp only [List.length_cons] at hi
    have hii : i * 2 ^ ah + ind < 2 ^ 32 := by
      have : (i + (inds.length + 1)) * 2 ^ ah = i * 2 ^ ah + 2 ^ ah + inds.length * 2 ^ ah := by ring
      omega
    have hskl := forsSk_len hl hsk
    have haul : ∀ x ∈ au, x.length = n := by
      intro x hx
      obtain ⟨m, hm, rfl⟩ := List.getElem_of_mem hx
      exact forsVal_len hl _ _ _ _ (u3 m _ (List.getElem?_eq_getElem hm))
    have hmine : S.drop ((ah + 1) * n * i) = sk ++ (au.flatten ++ (l2.flatten ++ rest)) := by
      rw [hS]; simp
    have hdrop : S.drop ((ah + 1) * n * (i + 1)) = l2.flatten ++ rest := by
      rw [show (ah + 1) * n * (i + 1) = (ah + 1) * n * i + ((sk ++ au.flatten).length) by
        rw [List.length_append, flatten_len au haul, u2, hskl]; ring, ← List.drop_drop, hmine,
        ← List.append_assoc, List.drop_left]
    have hauth : (S.drop ((ah + 1) * n * i)).drop n = au.flatten ++ (l2.flatten ++ rest) := by
      rw [hmine, ← hskl, List.drop_left]
    have htake : (S.drop ((ah + 1) * n * i)).take n = sk := by
      rw [hmine, ← hskl, List.take_left]
    have hclimb := forsClimb_eq H n ((S.drop ((ah + 1) * n * i)).drop n) ah i ind a hii hind ah 0
      ((c.setTreeHeight 0).setTreeIndex (i * 2 ^ ah + ind)) (by omega) (by rw [norm_setHI, hc])
      (by show (i * 2 ^ ah + ind) % 2 ^ 32 = _; rw [Nat.mod_eq_of_lt hii]; simp)
      (fun m _ hm => by
        have hg : au[m]? = some (au[m]'(by omega)) := List.getElem?_eq_getElem (by omega)
        have h1 := u3 m _ hg
        rw [Nat.zero_add, forsVal_norm H hb] at h1
        rw [h1, hauth, blk_flatten au _ haul m _ hg])
    simp only [Nat.sub_zero, Nat.pow_zero, Nat.div_one] at hclimb
    rw [forsSk_norm H hb, show ind + i * 2 ^ ah = i * 2 ^ ah + ind by omega] at hsk
    rw [forsVal, hsk, bindE_ok] at hclimb
    rw [forsPkLoop, List.length_cons, forsRoots]
    rw [htake, setHI_norm hc]
    rw [setHI_norm hc] at hclimb
    -- the rest does not depend on the outcome of the climb
    have hrest : ∀ d : Adrs, d.norm = a.norm → _ := fun d hd =>
      forsSignLoop_ok H n ah hl S a inds (i + 1) b1 d b2 l2 rest (fun x h => hx x (by simp [h]))
        (by rw [show i + 1 + inds.length = i + (inds.length + 1) by omega]; exact hi)
        (by rw [u1, hb]) hd hr hdrop
    obtain ⟨r1, r2, r3, _⟩ := hrest a rfl
    refine ⟨r1, ?_, ?_, ?_⟩
    · simp only [List.cons_append, List.length_cons, List.length_append, u2, r2]; ring
    · intro x hx
      simp only [List.cons_append, List.mem_cons, List.mem_append] at hx
      rcases hx with rfl | hx | hx
      · exact hskl
      · exact haul x hx
      · exact r3 x hx
    · cases hch : liftH (H.chainHash ((a.setTreeHeight 0).setTreeIndex (i * 2 ^ ah + ind)) sk) with
      | error e =>
        rw [hch, bindE_err] at hclimb
        cases hv : forsVal H a ah i with
        | error e' =>
          rw [hv, bindE_err] at hclimb
          simp only [Except.error.injEq] at hclimb
          simp [hclimb]
        | ok v => rw [hv] at hclimb; simp at hclimb
      | ok nd =>
        rw [hch, bindE_ok] at hclimb
        rw [bindE_ok]
        cases hv : forsVal H a ah i with
        | error e' =>
          rw [hv, bindE_err] at hclimb
          cases hcl : forsClimb H n ((S.drop ((ah + 1) * n * i)).drop n) ind ah 0
              ((a.setTreeHeight 0).setTreeIndex (i * 2 ^ ah + ind)) nd with
          | error e =>
            rw [hcl] at hclimb
            simpa using hclimb
          | ok r => rw [hcl] at hclimb; simp at hclimb
        | ok v =>
          rw [hv, bindE_ok] at hclimb
          cases hcl : forsClimb H n ((S.drop ((ah + 1) * n * i)).drop n) ind ah 0
              ((a.setTreeHeight 0).setTreeIndex (i * 2 ^ ah + ind)) nd with
          | error e => rw [hcl] at hclimb; simp at hclimb
          | ok r =>
            rw [hcl] at hclimb
            simp only [bindE_ok, Except.ok.injEq, Prod.mk.injEq] at hclimb
            obtain ⟨hv1, hv2⟩ := hclimb
            obtain ⟨_, _, _, r4⟩ := hrest r.2 hv2
            rw [bindE_ok, bindE_ok, hv1]
            cases hp : forsPkLoop H n ah S inds (i + 1) r.2 with
            | error e =>
              rw [hp] at r4
              cases hq : forsRoots H a ah inds.length (i + 1) with
              | error e' => rw [hq] at r4; simpa using r4
              | ok rs => rw [hq] at r4; simp at r4
            | ok rr =>
              rw [hp] at r4
              cases hq : forsRoots H a ah inds.length (i + 1) with
              | error e' => rw [hq] at r4; simp at r4
              | ok rs =>
                rw [hq] at r4
                simp only [bindE_ok, Except.ok.injEq, Prod.mk.injEq] at r4
                simp [r4.1, r4.2]

theorem baseBF_length (b : Nat) : ∀ (k : Nat) (xs : List Byte) (t bits : Nat), (baseBF b k xs t bits).length = k
  | 0, _, _, _ => rfl
  | k + 1, xs, t, bits => by simp [baseBF, baseBF_length b k]

theorem baseBF_lt (b : Nat) : ∀ (k : Nat) (xs : List Byte) (t bits : Nat) (x : Nat),
    x ∈ baseBF b k xs t bits → x < 2 ^ b
  | 0, _, _, _, x, h => by simp [baseBF] at h
  | k + 1, xs, t, bits, x, h => by
    simp only [baseBF, List.mem_cons] at h
    rcases h with rfl | h
    · exact Nat.mod_lt _ (Nat.pow_pos (by omega))
    · exact baseBF_lt b k _ _ _ x h

theorem fors_roundtrip (p : SlhParams) (H : Hash) (hl : LenOk p.n H) (hk : p.k * 2 ^ p.a ≤ 2 ^ 32)
    (md : List Byte) (a c : Adrs) (hc : c.norm = a.norm) (room : Nat) (sig : List Byte) (a' : Adrs)
    (h : forsSign p H md a room = .ok (sig, a')) :
    a'.norm = a.norm ∧ sig.length = (p.a + 1) * p.n * p.k ∧
    forsPkFromSig p H sig md c = bindE (forsRoots H a p.a p.k 0) fun rs =>
      liftH (H.pkCompress ((a.setType 4).copyKeyPair a) rs.flatten) := by
  rw [forsSign] at h
  split at h
  · simp at h
  rw [bindE_eq_ok] at h
  obtain ⟨⟨l, b'⟩, hl', h⟩ := h
  simp only [Except.ok.injEq, Prod.mk.injEq] at h
  obtain ⟨rfl, rfl⟩ := h
  obtain ⟨h1, h2, h3, h4⟩ := forsSignLoop_ok H p.n p.a hl l.flatten a _ 0 a c b' l []
    (fun x hx => baseBF_lt _ _ _ _ _ x hx) (by rw [baseBF_length, Nat.zero_add]; exact hk) rfl hc hl' (by simp)
  rw [baseBF_length] at h2 h4
  have hlen : l.flatten.length = (p.a + 1) * p.n * p.k := by rw [flatten_len l h3, h2]; ring
  refine ⟨h1, hlen, ?_⟩
  rw [forsPkFromSig, if_neg (by omega)]
  cases hp : forsPkLoop H p.n p.a l.flatten (baseBF p.a p.k md 0 0) 0 c with
  | error e =>
    rw [hp] at h4
    cases hq : forsRoots H a p.a p.k 0 with
    | error e' => rw [hq] at h4; simpa using h4
    | ok rs => rw [hq] at h4; simp at h4
  | ok rr =>
    rw [hp] at h4
    cases hq : forsRoots H a p.a p.k 0 with
    | error e' => rw [hq] at h4; simp at h4
    | ok rs =>
      rw [hq] at h4
      simp only [bindE_ok, Except.ok.injEq, Prod.mk.injEq] at h4
      rw [bindE_ok, bindE_ok, h4.1, setType_norm h4.2]

/-! ### SLH-DSA -/

/-- Facts about the parameter table. -/
def SlhOk (p : SlhParams) : Prop :=
  p.h = p.hp * p.d ∧ 1 ≤ p.d ∧ p.hp ≤ 32 ∧ 1 ≤ p.n ∧ p.n ≤ 64 ∧ p.k * 2 ^ p.a ≤ 2 ^ 32 ∧
  p.h / p.d = p.hp ∧
  p.sigBytes = p.n + (p.a + 1) * p.n * p.k + (2 * p.n + 3 + p.hp) * p.n * p.d ∧
  splitBytes (p.k * p.a) + splitBytes (p.h - p.h / p.d) + splitBytes (p.h / p.d) = p.m ∧ 1 ≤ p.a ∧ p.a ≤ 14

instance (p : SlhParams) : Decidable (SlhOk p) := by unfold SlhOk; infer_instance

theorem slhTable_ok : ∀ p ∈ slhTable, SlhOk p := by decide +kernel

theorem slh_pos (p : SlhParams) (hp : SlhOk p) (dg : List Byte) :
    (treeAndLeaf p dg).2 < 2 ^ p.hp ∧ (treeAndLeaf p dg).1 < 2 ^ (p.hp * (p.d - 1)) := by
  obtain ⟨t1, t2, t3, t4, t5, t6, t7, t8, t9⟩ := hp
  simp only [treeAndLeaf, toIntMod, t7]
  have : p.h - p.hp = p.hp * (p.d - 1) := by rw [t1, Nat.mul_sub_one]
  rw [this]
  exact ⟨Nat.mod_lt _ (Nat.pow_pos (by omega)), Nat.mod_lt _ (Nat.pow_pos (by omega))⟩

theorem slh_roundtrip (p : SlhParams) (hp : SlhOk p) (H : Hash) (hl : LenOk p.n H)
    (r : Blk) (hrl : r.length = p.n) (msg : List Byte) (room : Nat) (sig : List Byte) (root : Blk)
    (hs : slhSign p H r msg room = .ok sig) (hroot : slhRoot p H = .ok root) :
    sig.length = p.sigBytes ∧ slhVerify p H root msg sig = .ok () := by
  have hpo := hp
  obtain ⟨t1, t2, t3, t4, t5, t6, t7, t8, t9⟩ := hp
  rw [slhSign] at hs
  simp only [bindE_eq_ok] at hs
  obtain ⟨dg, hdg, ⟨f, a'⟩, hf, pk, hpk, ht, hht, hs⟩ := hs
  simp only [Except.ok.injEq] at hs
  obtain ⟨q1, q2⟩ := slh_pos p hpo dg
  obtain ⟨f1, f2, f3⟩ := fors_roundtrip p H hl t6 _ _ _ rfl _ _ _ hf
  have f4 := (fors_roundtrip p H hl t6 _ _ _ f1 _ _ _ hf).2.2
  dsimp only at hpk hht hs
  rw [f4] at hpk
  rw [hpk] at f3
  obtain ⟨h1, h2⟩ := hyper_roundtrip (slhTree p H) hl t3 t2 pk _ _ _ q1 q2 ht root hht hroot
  have h1' : ht.length = (2 * p.n + 3 + p.hp) * p.n * p.d := h1
  have hlen : sig.length = p.sigBytes := by
    rw [← hs, List.length_append, List.length_append, hrl, f2, h1', t8]
  refine ⟨hlen, ?_⟩
  have hfl : (1 + p.a) * p.k * p.n = f.length := by rw [f2]; ring
  rw [slhVerify]
  dsimp only
  rw [if_neg (by simp [hlen]), hfl, ← hs, ← hrl, List.append_assoc, List.take_left, hdg, bindE_ok,
    ← List.drop_drop, List.drop_left, List.take_left, List.drop_left]
  rw [f3, bindE_ok]
  exact h2

end Verif.Crypto.Hbs
