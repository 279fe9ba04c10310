import Verif.Crypto.Hbs.Spec
import Verif.Crypto.Xmss.Proof
import Mathlib.Tactic.Ring

namespace Verif.Crypto.Hbs

open Verif.Common

@[simp] theorem bindE_ok {α β : Type} (a : α) (f : α → Except Err β) : bindE (.ok a) f = f a := rfl
@[simp] theorem bindE_err {α β : Type} (e : Err) (f : α → Except Err β) :
    bindE (.error e) f = .error e := rfl

theorem bindE_eq_ok {α β : Type} {x : Except Err α} {f : α → Except Err β} {b : β} :
    bindE x f = .ok b ↔ ∃ a, x = .ok a ∧ f a = .ok b := by
  cases x <;> simp

theorem liftH_eq_ok {α : Type} {x : Except Nat α} {a : α} : liftH x = .ok a ↔ x = .ok a := by
  cases x <;> simp [liftH]

/-- The address without the two words changed by the loops. -/
def Adrs.norm (a : Adrs) : Adrs := { a with w2 := 0, w3 := 0 }
/-- The address without the hash address. -/
def Adrs.norm3 (a : Adrs) : Adrs := { a with w3 := 0 }

theorem setHash_norm3 {a b : Adrs} (h : a.norm3 = b.norm3) (v : Nat) : a.setHash v = b.setHash v := by
  cases a; cases b; simp_all [Adrs.norm3, Adrs.setHash]
theorem norm3_setHash (a : Adrs) (v : Nat) : (a.setHash v).norm3 = a.norm3 := rfl
theorem norm_of_norm3 {a b : Adrs} (h : a.norm3 = b.norm3) : a.norm = b.norm := by
  cases a; cases b; simp_all [Adrs.norm3, Adrs.norm]
theorem setChain_norm {a b : Adrs} (h : a.norm = b.norm) (v : Nat) :
    (a.setChain v).norm3 = (b.setChain v).norm3 := by
  cases a; cases b; simp_all [Adrs.norm3, Adrs.norm, Adrs.setChain]
theorem norm_setChain (a : Adrs) (v : Nat) : (a.setChain v).norm = a.norm := rfl
theorem setType_norm {a b : Adrs} (h : a.norm = b.norm) (t : Nat) :
    (a.setType t).copyKeyPair a = (b.setType t).copyKeyPair b := by
  cases a; cases b; simp_all [Adrs.norm, Adrs.setType, Adrs.copyKeyPair]
theorem setHI_norm {a b : Adrs} (h : a.norm = b.norm) (u v : Nat) :
    (a.setTreeHeight u).setTreeIndex v = (b.setTreeHeight u).setTreeIndex v := by
  cases a; cases b; simp_all [Adrs.norm, Adrs.setTreeHeight, Adrs.setTreeIndex]
theorem norm_setHI (a : Adrs) (u v : Nat) : ((a.setTreeHeight u).setTreeIndex v).norm = a.norm := rfl

/-! ### Chains -/

theorem chain_add (H : Hash) : ∀ (m k : Nat) (a : Adrs) (x : Blk) (s : Nat),
    chain H (m + k) a x s = bindE (chain H m a x s) fun r => chain H k r.2 r.1 (s + m)
  | 0, k, a, x, s => by simp [chain]
  | m + 1, k, a, x, s => by
    rw [show m + 1 + k = (m + k) + 1 by omega, chain, chain]
    cases h : liftH (H.chainHash (a.setHash s) x) with
    | error e => simp
    | ok y => simp only [bindE_ok]; rw [chain_add H m k, show s + 1 + m = s + (m + 1) by omega]

theorem chain_adrs (H : Hash) : ∀ (k : Nat) (a b : Adrs) (x y : Blk) (s : Nat) (a' : Adrs),
    a.norm3 = b.norm3 → chain H k a x s = .ok (y, a') →
    ∃ b', chain H k b x s = .ok (y, b') ∧ b'.norm3 = b.norm3
  | 0, a, b, x, y, s, a', _, h => by
    simp only [chain, Except.ok.injEq, Prod.mk.injEq] at h
    exact ⟨b, by simp [chain, h.1], rfl⟩
  | k + 1, a, b, x, y, s, a', hab, h => by
    rw [chain, bindE_eq_ok] at h
    obtain ⟨z, hz, h⟩ := h
    obtain ⟨b', h1, h2⟩ := chain_adrs H k _ (b.setHash s) z y (s + 1) a'
      (by rw [norm3_setHash, norm3_setHash, hab]) h
    refine ⟨b', ?_, by rw [h2, norm3_setHash]⟩
    rw [chain, ← setHash_norm3 hab, hz, bindE_ok, setHash_norm3 hab, h1]

theorem chain_out (H : Hash) (k : Nat) (a : Adrs) (x y : Blk) (s : Nat) (a' : Adrs)
    (h : chain H k a x s = .ok (y, a')) : a'.norm3 = a.norm3 := by
  obtain ⟨b', h1, h2⟩ := chain_adrs H k a a x y s a' rfl h
  rw [h] at h1
  simp only [Except.ok.injEq, Prod.mk.injEq] at h1
  rw [h1.2, h2]

/-- Going on from the intermediate value reaches the end of the chain. -/
theorem chain_resume (H : Hash) (m : Nat) (hm : m ≤ 15) (a b c : Adrs) (s x y : Blk) (a' b' : Adrs)
    (hab : a.norm3 = b.norm3) (hcb : c.norm3 = b.norm3)
    (h1 : chain H m a s 0 = .ok (x, a')) (h2 : chain H 15 b s 0 = .ok (y, b')) :
    ∃ c', chain H (15 - m) c x m = .ok (y, c') ∧ c'.norm3 = c.norm3 := by
  obtain ⟨b1, h3, h4⟩ := chain_adrs H m a b s x 0 a' hab h1
  rw [show 15 = m + (15 - m) by omega, chain_add, h3] at h2
  simp only [bindE_ok, Nat.zero_add] at h2
  exact chain_adrs H _ b1 c x y m b' (by rw [h4, hcb]) h2

/-! ### WOTS+ -/

theorem wots_loop (t : Tree) (sig : List Byte) : ∀ (ds : List Nat) (i : Nat) (sa a1 a2 a3 a2' : Adrs)
    (ws tmp : List Blk), (∀ d ∈ ds, d ≤ 15) → a1.norm = a2.norm → a3.norm = a2.norm →
    (∀ j x, ws[j]? = some x → blk t.n sig (i + j) = x) →
    signLoop t ds i sa a1 = .ok ws → genLoop t ds.length i sa a2 = .ok (tmp, a2') →
    ∃ a3', pkLoop t sig ds i a3 = .ok (tmp, a3') ∧ a3'.norm = a2'.norm
  | [], i, sa, a1, a2, a3, a2', ws, tmp, _, _, h13, _, hs, hg => by
    simp only [List.length_nil, genLoop, Except.ok.injEq, Prod.mk.injEq] at hg
    exact ⟨a3, by simp [pkLoop, hg.1], by rw [← hg.2, h13]⟩
  | d :: ds, i, sa, a1, a2, a3, a2', ws, tmp, hd, h12, h32, hb, hs, hg => by
    simp only [List.length_cons] at hg
    rw [genLoop] at hg
    rw [signLoop] at hs
    simp only [bindE_eq_ok] at hs hg
    obtain ⟨sk, hsk, ⟨x, a1'⟩, hc1, ws', hs', hws⟩ := hs
    obtain ⟨sk2, hsk2, ⟨y, b2⟩, hc2, ⟨tmp', e2⟩, hg', htmp⟩ := hg
    rw [hsk] at hsk2
    simp only [Except.ok.injEq] at hsk2 hws htmp
    subst hsk2; subst hws
    obtain ⟨rfl, rfl⟩ := Prod.mk.inj htmp
    obtain ⟨c', h1, h2⟩ := chain_resume t.H d (hd d (by simp)) _ _ (a3.setChain i) sk x y a1' b2
      (setChain_norm h12 i) (setChain_norm h32 i) hc1 hc2
    have n1 := norm_of_norm3 (chain_out _ _ _ _ _ _ _ hc1)
    have n2 := norm_of_norm3 (chain_out _ _ _ _ _ _ _ hc2)
    have n3 := norm_of_norm3 h2
    rw [norm_setChain] at n1 n2 n3
    obtain ⟨a3', h3, h4⟩ := wots_loop t sig ds (i + 1) _ a1' b2 c' e2 ws' tmp'
      (fun d' hd' => hd d' (by simp [hd'])) (by rw [n1, n2, h12]) (by rw [n3, n2, h32])
      (fun j z hz => by rw [show i + 1 + j = i + (j + 1) by omega]; exact hb (j + 1) z (by simpa using hz))
      hs' hg'
    refine ⟨a3', ?_, h4⟩
    have hx := hb 0 x (by simp)
    rw [pkLoop, show i = i + 0 by omega, hx]
    simp only [Nat.add_zero]
    rw [h1, bindE_ok]
    dsimp only
    rw [h3]; rfl

theorem chain_len {n : Nat} {H : Hash} (hl : LenOk n H) : ∀ (k : Nat) (a : Adrs) (x y : Blk) (s : Nat) (a' : Adrs),
    x.length = n → chain H k a x s = .ok (y, a') → y.length = n
  | 0, a, x, y, s, a', hx, h => by
    simp only [chain, Except.ok.injEq, Prod.mk.injEq] at h
    rw [← h.1, hx]
  | k + 1, a, x, y, s, a', hx, h => by
    rw [chain, bindE_eq_ok] at h
    obtain ⟨z, hz, h⟩ := h
    exact chain_len hl k _ z y _ a' (hl.ch _ _ _ hx (liftH_eq_ok.1 hz)) h

theorem signLoop_len {t : Tree} (hl : LenOk t.n t.H) : ∀ (ds : List Nat) (i : Nat) (sa a : Adrs) (ws : List Blk),
    signLoop t ds i sa a = .ok ws → ws.length = ds.length ∧ ∀ x ∈ ws, x.length = t.n
  | [], i, sa, a, ws, h => by
    simp only [signLoop, Except.ok.injEq] at h
    simp [← h]
  | d :: ds, i, sa, a, ws, h => by
    rw [signLoop] at h
    simp only [bindE_eq_ok] at h
    obtain ⟨sk, hsk, ⟨x, a1'⟩, hc1, ws', hs', hws⟩ := h
    simp only [Except.ok.injEq] at hws
    obtain ⟨h1, h2⟩ := signLoop_len hl ds _ _ _ _ hs'
    subst hws
    refine ⟨by simp [h1], ?_⟩
    intro z hz
    rcases List.mem_cons.1 hz with rfl | hz
    · exact chain_len hl _ _ _ _ _ _ (hl.sk _ _ (liftH_eq_ok.1 hsk)) hc1
    · exact h2 z hz

theorem flatten_len {n : Nat} : ∀ (ws : List Blk), (∀ x ∈ ws, x.length = n) → ws.flatten.length = ws.length * n
  | [], _ => by simp
  | w :: ws, h => by
    rw [List.flatten_cons, List.length_append, flatten_len ws (fun x hx => h x (by simp [hx])), h w (by simp),
      List.length_cons]
    ring

theorem blk_flatten {n : Nat} : ∀ (ws : List Blk) (rest : List Byte), (∀ x ∈ ws, x.length = n) →
    ∀ j x, ws[j]? = some x → blk n (ws.flatten ++ rest) j = x
  | [], _, _, j, x, h => by simp at h
  | w :: ws, rest, hl, 0, x, h => by
    simp only [List.getElem?_cons_zero, Option.some.injEq] at h
    subst h
    have := hl w (by simp)
    simp [blk, ← this]
  | w :: ws, rest, hl, j + 1, x, h => by
    simp only [List.getElem?_cons_succ] at h
    have hw := hl w (by simp)
    have := blk_flatten ws rest (fun x hx => hl x (by simp [hx])) j x h
    rw [blk] at this ⊢
    rw [List.flatten_cons, List.append_assoc, show (j + 1) * n = w.length + j * n by rw [hw]; ring,
      ← List.drop_drop, List.drop_left, this]

/-! ### BaseB with whole nibbles -/

theorem length_nibbles : ∀ xs : List Byte, (nibbles xs).length = 2 * xs.length
  | [] => rfl
  | x :: xs => by simp [nibbles, length_nibbles xs]; omega

theorem nibbles_le : ∀ (xs : List Byte) (d : Nat), d ∈ nibbles xs → d ≤ 15
  | [], d, h => by simp [nibbles] at h
  | x :: xs, d, h => by
    have := x.isLt
    simp only [nibbles, List.mem_cons] at h
    rcases h with rfl | rfl | h
    · omega
    · omega
    · exact nibbles_le xs d h

theorem baseB_nibbles : ∀ (k : Nat) (xs : List Byte),
    (k ≤ 2 * xs.length → baseB 4 k xs 0 0 = some ((nibbles xs).take k)) ∧
    (∀ r, r < 16 → k ≤ 2 * xs.length + 1 → baseB 4 k xs r 4 = some ((r :: nibbles xs).take k))
  | 0, xs => by simp [baseB]
  | k + 1, xs => by
    refine ⟨fun h => ?_, fun r hr h => ?_⟩
    · match xs with
      | [] => simp at h
      | x :: xs =>
        have hx := x.isLt
        simp only [List.length_cons] at h
        have hf : fill 4 (x :: xs) 0 0 = (xs, x.toNat, 8) := by
          simp only [fill, show (0 : Nat) < 4 by omega, if_true, Nat.zero_mul, Nat.zero_add]
          cases xs with
          | nil => rfl
          | cons y ys => simp [fill]
        rw [baseB, hf]
        dsimp only
        rw [(baseB_nibbles k xs).2 _ (by omega) (by omega)]
        simp only [show ¬ (8 < 4) by omega, if_false, nibbles, List.take_succ_cons, Option.some.injEq,
          List.cons.injEq]
        exact ⟨by omega, by simp⟩
    · have hf : fill 4 xs r 4 = (xs, r, 4) := by
        cases xs with
        | nil => rfl
        | cons y ys => simp [fill]
      rw [baseB, hf]
      dsimp only
      rw [show r % 2 ^ (4 - 4) = 0 by omega, (baseB_nibbles k xs).1 (by omega)]
      simp only [show ¬ (4 < 4) by omega, if_false, List.take_succ_cons, Option.some.injEq,
          List.cons.injEq]
      exact ⟨by omega, trivial⟩

theorem csum_le (l : List Nat) : csum l ≤ 15 * l.length := by
  induction l with
  | nil => simp [csum]
  | cons a l ih => simp only [csum, List.map_cons, List.sum_cons, List.length_cons] at *; omega

/-- What the digits are: two per message byte and three for the checksum. -/
theorem msgToBaseW_eq (n : Nat) (msg : List Byte) (hm : msg.length = n) (hn : n ≤ 136) :
    msgToBaseW n msg = .ok (nibbles msg ++
      [csum (nibbles msg) / 256, csum (nibbles msg) / 16 % 16, csum (nibbles msg) % 16]) := by
  have h1 := (baseB_nibbles (2 * n) msg).1 (by omega)
  rw [List.take_of_length_le (by rw [length_nibbles]; omega)] at h1
  rw [msgToBaseW, h1]
  dsimp only
  rw [(baseB_nibbles 3 _).1 (by simp)]
  have hc := csum_le (nibbles msg)
  rw [length_nibbles] at hc
  simp only [nibbles, List.take_succ_cons, List.take_zero, BitVec.toNat_ofNat]
  congr 3
  · omega
  · congr 1
    · omega
    · congr 1
      omega

theorem fill_len (b : Nat) : ∀ (xs : List Byte) (o bit : Nat), (fill b xs o bit).1.length ≤ xs.length ∧
    8 * (fill b xs o bit).1.length + (fill b xs o bit).2.2 = 8 * xs.length + bit
  | [], o, bit => by simp [fill]
  | x :: xs, o, bit => by
    rw [fill]
    split
    · have := fill_len b xs (o * 256 + x.toNat) (bit + 8)
      simp only [List.length_cons]
      omega
    · simp

/-- With any message that does not lead to undefined behaviour the digits are at most 15. -/
theorem msgToBaseW_le (n : Nat) (msg : List Byte) (ds : List Nat) (h : msgToBaseW n msg = .ok ds)
    (hm : n ≤ msg.length) : ds.length = 2 * n + 3 ∧ ∀ d ∈ ds, d ≤ 15 := by
  have h1 := (baseB_nibbles (2 * n) msg).1 (by omega)
  rw [msgToBaseW, h1] at h
  dsimp only at h
  rw [(baseB_nibbles 3 _).1 (by simp)] at h
  simp only [Except.ok.injEq] at h
  subst h
  refine ⟨by simp [length_nibbles]; omega, ?_⟩
  intro d hd
  rcases List.mem_append.1 hd with hd | hd
  · exact nibbles_le msg d (List.mem_of_mem_take hd)
  · exact nibbles_le _ d (List.mem_of_mem_take hd)

/-! ### WOTS+ round trip -/

theorem wots_roundtrip (t : Tree) (hl : LenOk t.n t.H) (msg : List Byte) (hm : t.n ≤ msg.length)
    (a : Adrs) (ws : List Blk) (pk : Blk) (h1 : wotsSign t msg a = .ok ws) (h2 : wotsPk t a = .ok pk)
    (rest : List Byte) :
    ws.length = t.otsLen ∧ (∀ x ∈ ws, x.length = t.n) ∧
    wotsPkFromSig t msg (ws.flatten ++ rest) a = .ok pk := by
  rw [wotsSign, bindE_eq_ok] at h1
  obtain ⟨ds, hds, h1⟩ := h1
  split at h1
  · simp at h1
  rename_i hlen
  simp only [ne_eq, Classical.not_not] at hlen
  obtain ⟨_, hle⟩ := msgToBaseW_le _ _ _ hds hm
  obtain ⟨l1, l2⟩ := signLoop_len hl _ _ _ _ _ h1
  rw [wotsPk, bindE_eq_ok] at h2
  obtain ⟨⟨tmp, a'⟩, hg, hc⟩ := h2
  rw [← hlen] at hg
  obtain ⟨a3, h3, h4⟩ := wots_loop t (ws.flatten ++ rest) ds 0 _ a a a a' ws tmp hle rfl rfl
    (fun j x hx => by rw [Nat.zero_add]; exact blk_flatten ws rest l2 j x hx) h1 hg
  refine ⟨by rw [l1, hlen], l2, ?_⟩
  rw [wotsPkFromSig, if_neg (by rw [List.length_append, flatten_len ws l2, l1, hlen]; omega), hds, bindE_ok,
    if_neg (by simp [hlen]), h3, bindE_ok]
  dsimp only at hc ⊢
  rw [compress, setType_norm h4]
  exact hc

/-! ### Trees -/

/-- Value of a tree node. -/
def nodeVal (t : Tree) (a : Adrs) : Nat → Nat → Except Err Blk
  | 0, idx => leafNode t idx a
  | h + 1, idx =>
    bindE (nodeVal t a h (2 * idx)) fun l =>
    bindE (nodeVal t a h (2 * idx + 1)) fun r => internalNode t idx (h + 1) a l r

theorem computeNode_none (t : Tree) (a : Adrs) : ∀ (h idx : Nat) (auth : List Blk),
    computeNode t a none h idx auth = bindE (nodeVal t a h idx) fun v => .ok (v, auth)
  | 0, idx, auth => by simp [computeNode, nodeVal, collect]
  | h + 1, idx, auth => by
    rw [computeNode, nodeVal, computeNode_none t a h]
    cases nodeVal t a h (2 * idx) with
    | error e => rfl
    | ok l =>
      simp only [bindE_ok]
      rw [computeNode_none t a h]
      cases nodeVal t a h (2 * idx + 1) with
      | error e => rfl
      | ok r => simp [collect]

theorem treeRoot_eq (t : Tree) (a : Adrs) : treeRoot t a = nodeVal t a t.hp 0 := by
  rw [treeRoot, computeNode_none]
  cases nodeVal t a t.hp 0 <;> rfl

theorem div_pow_succ (s k idx : Nat) : s / 2 ^ (k + 1) = idx ↔ s / 2 ^ k = 2 * idx ∨ s / 2 ^ k = 2 * idx + 1 := by
  rw [Nat.pow_succ, ← Nat.div_div_eq_div_mul]
  omega

/-- The collected path: entry `j` is the node `(leaf >> j) ^ 1` of height `j` if that node is in the
subtree, and unchanged otherwise. -/
theorem computeNode_some (t : Tree) (a : Adrs) (l : Nat) : ∀ (h idx : Nat) (auth auth' : List Blk) (v : Blk),
    computeNode t a (some l) h idx auth = .ok (v, auth') → h ≤ t.hp → auth.length = t.hp →
    nodeVal t a h idx = .ok v ∧ auth'.length = t.hp ∧
    ∀ j, j < t.hp → ∀ x, auth'[j]? = some x →
      (j ≤ h ∧ ((l / 2 ^ j) ^^^ 1) / 2 ^ (h - j) = idx → nodeVal t a j ((l / 2 ^ j) ^^^ 1) = .ok x) ∧
      (¬ (j ≤ h ∧ ((l / 2 ^ j) ^^^ 1) / 2 ^ (h - j) = idx) → auth[j]? = some x)
  | 0, idx, auth, auth', v, hc, hh, ha => by
    rw [computeNode, bindE_eq_ok] at hc
    obtain ⟨v', hv, hc⟩ := hc
    simp only [Except.ok.injEq, Prod.mk.injEq] at hc
    obtain ⟨rfl, rfl⟩ := hc
    refine ⟨hv, ?_, ?_⟩
    · simp only [collect]; split
      · exact ha
      · split <;> simp [ha]
    · intro j hj x hx
      simp only [collect] at hx
      rw [if_neg (by omega)] at hx
      simp only [Nat.pow_zero, Nat.div_one] at hx
      by_cases hj0 : j = 0
      · subst hj0
        simp only [Nat.pow_zero, Nat.div_one, Nat.le_refl, true_and, Nat.sub_self]
        split at hx
        · rename_i he
          rw [List.getElem?_set_self (by omega), Option.some.injEq] at hx
          exact ⟨fun _ => by rw [← he, nodeVal, hv, hx], fun h => absurd he.symm h⟩
        · rename_i he
          exact ⟨fun h => absurd h.symm he, fun _ => hx⟩
      · refine ⟨fun h => by omega, fun _ => ?_⟩
        split at hx
        · rwa [List.getElem?_set_ne (by omega)] at hx
        · exact hx
  | h + 1, idx, auth, auth', v, hc, hh, ha => by
    rw [computeNode] at hc
    simp only [bindE_eq_ok] at hc
    obtain ⟨⟨lv, la⟩, hl, ⟨rv, ra⟩, hr, v', hv, hc⟩ := hc
    simp only [Except.ok.injEq, Prod.mk.injEq] at hc hr hv
    obtain ⟨rfl, rfl⟩ := hc
    obtain ⟨l1, l2, l3⟩ := computeNode_some t a l h _ _ _ _ hl (by omega) ha
    obtain ⟨r1, r2, r3⟩ := computeNode_some t a l h _ _ _ _ hr (by omega) l2
    have hval : nodeVal t a (h + 1) idx = .ok v' := by
      rw [nodeVal, l1, bindE_ok, r1, bindE_ok, hv]
    refine ⟨hval, ?_, ?_⟩
    · simp only [collect]; split
      · exact r2
      · split <;> simp [r2]
    · intro j hj x hx
      have low : ∀ j', j' = j → j ≤ h → ra[j']? = some x →
          (j ≤ h + 1 ∧ ((l / 2 ^ j) ^^^ 1) / 2 ^ (h + 1 - j) = idx → nodeVal t a j ((l / 2 ^ j) ^^^ 1) = .ok x) ∧
          (¬ (j ≤ h + 1 ∧ ((l / 2 ^ j) ^^^ 1) / 2 ^ (h + 1 - j) = idx) → auth[j]? = some x) := by
        intro j' hj' hle hy
        subst hj'
        obtain ⟨ra1, ra2⟩ := r3 j' hj x hy
        have he := div_pow_succ ((l / 2 ^ j') ^^^ 1) (h - j') idx
        rw [show h - j' + 1 = h + 1 - j' by omega] at he
        constructor
        · rintro ⟨_, hq⟩
          rcases he.1 hq with hq | hq
          · have hn : ¬ (j' ≤ h ∧ ((l / 2 ^ j') ^^^ 1) / 2 ^ (h - j') = 2 * idx + 1) := by
              rintro ⟨_, h'⟩; omega
            exact (l3 j' hj x (ra2 hn)).1 ⟨hle, hq⟩
          · exact ra1 ⟨hle, hq⟩
        · intro hq
          have n1 : ¬ (j' ≤ h ∧ ((l / 2 ^ j') ^^^ 1) / 2 ^ (h - j') = 2 * idx + 1) := by
            rintro ⟨_, h'⟩; exact hq ⟨by omega, he.2 (.inr h')⟩
          have n2 : ¬ (j' ≤ h ∧ ((l / 2 ^ j') ^^^ 1) / 2 ^ (h - j') = 2 * idx) := by
            rintro ⟨_, h'⟩; exact hq ⟨by omega, he.2 (.inl h')⟩
          exact (l3 j' hj x (ra2 n1)).2 n2
      have high : h + 1 < j → ra[j]? = some x →
          (j ≤ h + 1 ∧ ((l / 2 ^ j) ^^^ 1) / 2 ^ (h + 1 - j) = idx → nodeVal t a j ((l / 2 ^ j) ^^^ 1) = .ok x) ∧
          (¬ (j ≤ h + 1 ∧ ((l / 2 ^ j) ^^^ 1) / 2 ^ (h + 1 - j) = idx) → auth[j]? = some x) := by
        intro hlt hx
        refine ⟨fun h' => by omega, fun _ => ?_⟩
        exact (l3 j hj x ((r3 j hj x hx).2 (by omega))).2 (by omega)
      simp only [collect] at hx
      by_cases hjh : j = h + 1
      · subst hjh
        rw [if_neg (by omega)] at hx
        simp only [Nat.le_refl, true_and, Nat.sub_self, Nat.pow_zero, Nat.div_one]
        split at hx
        · rename_i he
          rw [List.getElem?_set_self (by omega), Option.some.injEq] at hx
          exact ⟨fun _ => by rw [← he, hval, hx], fun h => absurd he.symm h⟩
        · rename_i he
          refine ⟨fun h => absurd h.symm he, fun _ => ?_⟩
          exact (l3 (h + 1) hj x ((r3 (h + 1) hj x hx).2 (by omega))).2 (by omega)
      · have hx' : ra[j]? = some x := by
          split at hx
          · exact hx
          · split at hx
            · rwa [List.getElem?_set_ne (by omega)] at hx
            · exact hx
        by_cases hle : j ≤ h
        · exact low j rfl hle hx'
        · exact high (by omega) hx'

theorem nodeVal_down (t : Tree) (a : Adrs) : ∀ (c k i j : Nat) (v : Blk), nodeVal t a (k + c) i = .ok v →
    j / 2 ^ c = i → ∃ w, nodeVal t a k j = .ok w
  | 0, k, i, j, v, h, hj => by
    simp only [Nat.pow_zero, Nat.div_one] at hj
    exact ⟨v, by rw [hj]; exact h⟩
  | c + 1, k, i, j, v, h, hj => by
    rw [show k + (c + 1) = (k + c) + 1 by omega, nodeVal] at h
    simp only [bindE_eq_ok] at h
    obtain ⟨l, hl, r, hr, _⟩ := h
    rcases (div_pow_succ j c i).1 hj with hq | hq
    · exact nodeVal_down t a c k _ j l hl hq
    · exact nodeVal_down t a c k _ j r hr hq

theorem xor_one_mod (x : Nat) : (x ^^^ 1) % 2 = (x + 1) % 2 := by
  have h := Nat.testBit_xor x 1 0
  simp only [Nat.testBit_zero] at h
  have h1 : (decide ((x ^^^ 1) % 2 = 1)) = !(decide (x % 2 = 1)) := by simpa using h
  by_cases hx : x % 2 = 1
  · rw [decide_eq_true hx] at h1
    have := of_decide_eq_false h1
    omega
  · rw [decide_eq_false hx] at h1
    have := of_decide_eq_true h1
    omega

theorem xor_one (x : Nat) : x ^^^ 1 = if x % 2 = 0 then x + 1 else x - 1 := by
  have h : (x ^^^ 1) % 2 = (x + 1) % 2 := xor_one_mod x
  have h2 : (x ^^^ 1) / 2 = x / 2 := by rw [Nat.xor_div_two]; simp
  split <;> omega

theorem xor_one_lt {x k : Nat} (h : x < 2 ^ (k + 1)) : x ^^^ 1 < 2 ^ (k + 1) := by
  rw [xor_one]; rw [Nat.pow_succ] at *; split <;> omega

theorem verifyLoop_ok (t : Tree) (a : Adrs) (sig : List Byte) (idx : Nat) (hidx : idx < 2 ^ 32) :
    ∀ (cnt k : Nat) (b : Adrs) (node root : Blk), b.norm = (a.setType 2).norm → b.w3 = idx / 2 ^ k →
    nodeVal t a (k + cnt) (idx / 2 ^ (k + cnt)) = .ok root → nodeVal t a k (idx / 2 ^ k) = .ok node →
    (∀ j, k ≤ j → j < k + cnt → nodeVal t a j ((idx / 2 ^ j) ^^^ 1) = .ok (blk t.n sig (t.otsLen + j))) →
    ∃ b', verifyLoop t sig idx cnt k b node = .ok (root, b')
  | 0, k, b, node, root, _, _, hr, hn, _ => by
    rw [Nat.add_zero, hn, Except.ok.injEq] at hr
    exact ⟨b, by rw [verifyLoop, hr]⟩
  | cnt + 1, k, b, node, root, hb, hw, hr, hn, hs => by
    have hdiv : idx / 2 ^ (k + 1) = idx / 2 ^ k / 2 := by
      rw [Nat.pow_succ, Nat.div_div_eq_div_mul]
    have hlt : idx / 2 ^ k < 2 ^ 32 := Nat.lt_of_le_of_lt (Nat.div_le_self _ _) hidx
    obtain ⟨w, hwv⟩ := nodeVal_down t a cnt (k + 1) _ (idx / 2 ^ (k + 1)) root
      (by rw [show k + 1 + cnt = k + (cnt + 1) by omega]; exact hr)
      (by rw [Nat.div_div_eq_div_mul, ← Nat.pow_add, show k + 1 + cnt = k + (cnt + 1) by omega])
    have hsib := hs k (Nat.le_refl _) (by omega)
    have hwv0 := hwv
    rw [nodeVal] at hwv
    simp only [bindE_eq_ok] at hwv
    obtain ⟨lv, hlv, rv, hrv, hiv⟩ := hwv
    have hq : (if idx / 2 ^ k % 2 ≠ 0 then (idx / 2 ^ k - 1) / 2 else idx / 2 ^ k / 2) = idx / 2 ^ (k + 1) := by
      rw [hdiv]; split <;> omega
    have htmp : (if idx / 2 ^ k % 2 ≠ 0 then blk t.n sig (t.otsLen + k) ++ node
        else node ++ blk t.n sig (t.otsLen + k)) = lv ++ rv := by
      rw [xor_one] at hsib
      split
      · rename_i ho
        rw [if_neg ho, show idx / 2 ^ k - 1 = 2 * (idx / 2 ^ (k + 1)) by omega, hlv, Except.ok.injEq] at hsib
        rw [show idx / 2 ^ k = 2 * (idx / 2 ^ (k + 1)) + 1 by omega, hrv, Except.ok.injEq] at hn
        rw [hsib, hn]
      · rename_i ho
        simp only [ne_eq, Classical.not_not] at ho
        rw [if_pos ho, show idx / 2 ^ k + 1 = 2 * (idx / 2 ^ (k + 1)) + 1 by omega, hrv, Except.ok.injEq] at hsib
        rw [show idx / 2 ^ k = 2 * (idx / 2 ^ (k + 1)) by omega, hlv, Except.ok.injEq] at hn
        rw [hsib, hn]
    have hadr : (b.setTreeHeight (if t.xmss then k else k + 1)).setTreeIndex (idx / 2 ^ (k + 1))
        = ((a.setType 2).setTreeHeight (if t.xmss then k + 1 - 1 else k + 1)).setTreeIndex (idx / 2 ^ (k + 1)) :=
      setHI_norm hb _ _
    rw [internalNode, ← hadr] at hiv
    obtain ⟨b', hb'⟩ := verifyLoop_ok t a sig idx hidx cnt (k + 1)
      ((b.setTreeHeight (if t.xmss then k else k + 1)).setTreeIndex (idx / 2 ^ (k + 1))) w root
      (by rw [norm_setHI, hb])
      (by
        show idx / 2 ^ (k + 1) % 2 ^ 32 = _
        rw [Nat.mod_eq_of_lt]; omega)
      (by rw [show k + 1 + cnt = k + (cnt + 1) by omega]; exact hr) hwv0
      (fun j h1 h2 => hs j (by omega) (by omega))
    refine ⟨b', ?_⟩
    rw [verifyLoop]
    have hg : (b.setTreeHeight (if t.xmss then k else k + 1)).getTreeIndex = idx / 2 ^ k := hw
    rw [htmp, hg, hq, hiv, bindE_ok, hb']

theorem computeNode_auth_len (t : Tree) (hl : LenOk t.n t.H) (a : Adrs) (j i : Nat) (x : Blk)
    (h : nodeVal t a j i = .ok x) : x.length = t.n := by
  cases j with
  | zero =>
    rw [nodeVal, leafNode, wotsPk, bindE_eq_ok] at h
    obtain ⟨r, _, h⟩ := h
    exact hl.pk _ _ _ (liftH_eq_ok.1 h)
  | succ j =>
    rw [nodeVal] at h
    simp only [bindE_eq_ok] at h
    obtain ⟨_, _, _, _, h⟩ := h
    exact hl.nd _ _ _ (liftH_eq_ok.1 h)

theorem treeVerify_adrs (t : Tree) (msg sig : List Byte) (idx : Nat) (a b : Adrs)
    (h1 : a.layer = b.layer) (h2 : a.tree = b.tree) :
    treeVerify t msg sig idx a = treeVerify t msg sig idx b := by
  cases a; cases b
  simp only at h1 h2
  subst h1; subst h2
  rfl

/-- Signing and verifying with one tree. -/
theorem tree_roundtrip (t : Tree) (hl : LenOk t.n t.H) (hhp : t.hp ≤ 32) (msg : List Byte)
    (hm : t.n ≤ msg.length) (idx : Nat) (hidx : idx < 2 ^ t.hp) (a : Adrs) (sig : List Byte) (root : Blk)
    (h : treeSign t msg idx a = .ok (sig, root)) :
    treeRoot t a = .ok root ∧ sig.length = (t.otsLen + t.hp) * t.n ∧ root.length = t.n ∧
    ∃ b', treeVerify t msg sig idx a = .ok (root, b') := by
  rw [treeSign] at h
  simp only [bindE_eq_ok] at h
  obtain ⟨ws, hws, ⟨v, auth⟩, hcn, h⟩ := h
  simp only [Except.ok.injEq, Prod.mk.injEq] at h
  obtain ⟨rfl, rfl⟩ := h
  have hidx32 : idx < 2 ^ 32 := Nat.lt_of_lt_of_le hidx (Nat.pow_le_pow_right (by omega) hhp)
  obtain ⟨hv, hal, hauth⟩ := computeNode_some t a idx t.hp 0 _ auth v hcn (Nat.le_refl _) (by simp)
  have hget : ∀ j (hj : j < t.hp), nodeVal t a j ((idx / 2 ^ j) ^^^ 1) = .ok (auth[j]'(by omega)) := by
    intro j hj
    have hx : auth[j]? = some (auth[j]'(by omega)) := List.getElem?_eq_getElem (by omega)
    refine (hauth j hj _ hx).1 ⟨by omega, ?_⟩
    apply Nat.div_eq_of_lt
    obtain ⟨c, hc⟩ : ∃ c, t.hp - j = c + 1 := ⟨t.hp - j - 1, by omega⟩
    rw [hc]
    apply xor_one_lt
    rw [← hc]
    apply Nat.div_lt_of_lt_mul
    rw [← Nat.pow_add, show j + (t.hp - j) = t.hp by omega]
    exact hidx
  have hauthlen : ∀ x ∈ auth, x.length = t.n := by
    intro x hx
    obtain ⟨j, hj, rfl⟩ := List.getElem_of_mem hx
    exact computeNode_auth_len t hl a _ _ _ (hget j (by omega))
  obtain ⟨w, hw⟩ := nodeVal_down t a t.hp 0 0 idx v (by rw [Nat.zero_add]; exact hv) (Nat.div_eq_of_lt hidx)
  have hleaf : wotsPk t ((a.setType 0).setKeyPair idx) = .ok w := hw
  obtain ⟨w1, w2, _⟩ := wots_roundtrip t hl msg hm _ ws w hws hleaf []
  have w3 := (wots_roundtrip t hl msg hm _ ws w hws hleaf []).2.2
  rw [List.append_nil] at w3
  have hlen : (ws.flatten ++ auth.flatten).length = (t.otsLen + t.hp) * t.n := by
    rw [List.length_append, flatten_len ws w2, flatten_len auth hauthlen, w1, hal]; ring
  refine ⟨by rw [treeRoot_eq, hv], hlen, computeNode_auth_len t hl a _ _ _ hv, ?_⟩
  have hblk : ∀ j (hj : j < t.hp), blk t.n (ws.flatten ++ auth.flatten) (t.otsLen + j) = auth[j]'(by omega) := by
    intro j hj
    have hx : auth[j]? = some (auth[j]'(by omega)) := List.getElem?_eq_getElem (by omega)
    have hb := blk_flatten auth [] hauthlen j _ hx
    rw [List.append_nil] at hb
    rw [← hb, blk, blk, show (t.otsLen + j) * t.n = ws.flatten.length + j * t.n by
      rw [flatten_len ws w2, w1]; ring, ← List.drop_drop, List.drop_left]
  obtain ⟨b', hb'⟩ := verifyLoop_ok t a (ws.flatten ++ auth.flatten) idx hidx32 t.hp 0
    ((a.setType 2).setTreeIndex idx) w v rfl
    (by show idx % 2 ^ 32 = _; rw [Nat.mod_eq_of_lt hidx32]; simp)
    (by rw [Nat.zero_add, Nat.div_eq_of_lt hidx]; exact hv)
    (by simpa using hw)
    (fun j _ hj => by rw [hblk j (by omega)]; exact hget j (by omega))
  refine ⟨b', ?_⟩
  have htake : (ws.flatten ++ auth.flatten).take (t.otsLen * t.n) = ws.flatten := by
    rw [show t.otsLen * t.n = ws.flatten.length by rw [flatten_len ws w2, w1], List.take_left]
  rw [treeVerify, if_neg (by omega), htake, w3, bindE_ok, hb']

end Verif.Crypto.Hbs
