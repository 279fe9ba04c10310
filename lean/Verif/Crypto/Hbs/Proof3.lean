import Verif.Crypto.Hbs.Proof2

namespace Verif.Crypto.Hbs

open Verif.Common

/-! ### The only errors are errors of the hash functions -/

/-- The only errors are errors of the hash functions. -/
def HashErr (H : Hash) {α : Type} (x : Except Err α) : Prop :=
  ∀ e, x = .error e → ∃ c, e = .hash c ∧ Spec.Raises H c

theorem HashErr.ok {α : Type} (a : α) : HashErr H (.ok a : Except Err α) := by intro e h; simp at h
theorem HashErr.lift {α : Type} (x : Except Nat α) (hx : ∀ c, x = .error c → Spec.Raises H c) : HashErr H (liftH x) := by
  intro e h
  cases x with
  | error c => simp only [liftH, Except.error.injEq] at h; exact ⟨c, h.symm, hx c rfl⟩
  | ok a => simp [liftH] at h
/-- A direct call of a hash function. -/
macro "hcall" : term => `(HashErr.lift _ fun _ hc => by
  first
    | exact .inl ⟨_, hc⟩
    | exact .inr (.inl ⟨_, _, hc⟩)
    | exact .inr (.inr (.inl ⟨_, _, hc⟩))
    | exact .inr (.inr (.inr (.inl ⟨_, _, hc⟩)))
    | exact .inr (.inr (.inr (.inr ⟨_, _, _, hc⟩))))
theorem HashErr.bind {α β : Type} {x : Except Err α} {f : α → Except Err β} (hx : HashErr H x)
    (hf : ∀ a, x = .ok a → HashErr H (f a)) : HashErr H (bindE x f) := by
  cases x with
  | error e => intro e' h; exact hx e' (by rw [bindE_err] at h; simpa using h)
  | ok a => exact hf a rfl

theorem chain_he (H : Hash) : ∀ (k : Nat) (a : Adrs) (x : Blk) (s : Nat), HashErr H (chain H k a x s)
  | 0, a, x, s => HashErr.ok _
  | k + 1, a, x, s => HashErr.bind hcall fun y _ => chain_he H k _ y _

theorem genLoop_he (t : Tree) : ∀ (k i : Nat) (sa a : Adrs), HashErr t.H (genLoop t k i sa a)
  | 0, i, sa, a => HashErr.ok _
  | k + 1, i, sa, a =>
    HashErr.bind hcall fun _ _ => HashErr.bind (chain_he _ _ _ _ _) fun _ _ =>
    HashErr.bind (genLoop_he t k _ _ _) fun _ _ => HashErr.ok _

theorem signLoop_he (t : Tree) : ∀ (ds : List Nat) (i : Nat) (sa a : Adrs), HashErr t.H (signLoop t ds i sa a)
  | [], i, sa, a => HashErr.ok _
  | d :: ds, i, sa, a =>
    HashErr.bind hcall fun _ _ => HashErr.bind (chain_he _ _ _ _ _) fun _ _ =>
    HashErr.bind (signLoop_he t ds _ _ _) fun _ _ => HashErr.ok _

theorem wotsPk_he (t : Tree) (a : Adrs) : HashErr t.H (wotsPk t a) :=
  HashErr.bind (genLoop_he _ _ _ _ _) fun _ _ => hcall

theorem wotsSign_he (t : Tree) (hn : t.n ≤ 64) (ho : t.otsLen = 2 * t.n + 3) (msg : List Byte)
    (hm : msg.length = t.n) (a : Adrs) : HashErr t.H (wotsSign t msg a) := by
  rw [wotsSign, msgToBaseW_eq t.n msg hm (by omega), bindE_ok, if_neg (by
    simp only [List.length_append, length_nibbles, List.length_cons, List.length_nil]; omega)]
  exact signLoop_he _ _ _ _ _

theorem computeNode_he (t : Tree) (a : Adrs) (l : Option Nat) : ∀ (h idx : Nat) (auth : List Blk),
    HashErr t.H (computeNode t a l h idx auth)
  | 0, idx, auth => HashErr.bind (wotsPk_he _ _) fun _ _ => HashErr.ok _
  | h + 1, idx, auth =>
    HashErr.bind (computeNode_he t a l h _ _) fun _ _ => HashErr.bind (computeNode_he t a l h _ _) fun _ _ =>
    HashErr.bind hcall fun _ _ => HashErr.ok _

theorem treeRoot_he (t : Tree) (a : Adrs) : HashErr t.H (treeRoot t a) :=
  HashErr.bind (computeNode_he _ _ _ _ _ _) fun _ _ => HashErr.ok _

theorem treeSign_he (t : Tree) (hn : t.n ≤ 64) (ho : t.otsLen = 2 * t.n + 3) (msg : List Byte)
    (hm : msg.length = t.n) (idx : Nat) (a : Adrs) : HashErr t.H (treeSign t msg idx a) :=
  HashErr.bind (wotsSign_he t hn ho msg hm _) fun _ _ => HashErr.bind (computeNode_he _ _ _ _ _ _) fun _ _ =>
    HashErr.ok _

theorem hyperSignLoop_he (t : Tree) (hl : LenOk t.n t.H) (hhp : t.hp ≤ 32) (hn : t.n ≤ 64)
    (ho : t.otsLen = 2 * t.n + 3) : ∀ (cnt j : Nat) (msg : List Byte) (tree leaf : Nat), msg.length = t.n →
    (j = 0 → leaf < 2 ^ t.hp) → HashErr t.H (hyperSignLoop t cnt j msg tree leaf)
  | 0, j, msg, tree, leaf, hm, _ => HashErr.ok _
  | cnt + 1, j, msg, tree, leaf, hm, hlf => by
    refine HashErr.bind (treeSign_he t hn ho msg hm _ _) fun r hr => HashErr.bind ?_ fun _ _ => HashErr.ok _
    have hleaf : (if j ≠ 0 then tree % 2 ^ t.hp % 2 ^ 32 else leaf) < 2 ^ t.hp := by
      split
      · exact mod_mod_hp hhp
      · rename_i hj
        simp only [ne_eq, Classical.not_not] at hj
        exact hlf hj
    obtain ⟨_, _, h3, _⟩ := tree_roundtrip t hl hhp msg (by omega) _ hleaf _ r.1 r.2 hr
    exact hyperSignLoop_he t hl hhp hn ho cnt (j + 1) r.2 _ _ h3 (by omega)

theorem hyperSign_he (t : Tree) (hl : LenOk t.n t.H) (hhp : t.hp ≤ 32) (hn0 : 1 ≤ t.n) (hn : t.n ≤ 64)
    (ho : t.otsLen = 2 * t.n + 3) (msg : List Byte) (hm : msg.length ≤ t.n) (tree leaf room : Nat)
    (hleaf : leaf < 2 ^ t.hp) (hroom : (t.otsLen + t.hp) * t.n * t.d ≤ room) :
    HashErr t.H (hyperSign t msg tree leaf room) := by
  rw [hyperSign, if_neg (by omega), if_neg (by omega)]
  exact HashErr.bind (hyperSignLoop_he t hl hhp hn ho _ _ _ _ _ (by simp; omega) (fun _ => hleaf)) fun _ _ => HashErr.ok _

theorem xmssSign_he (p : Xmss.Params) (hrow : Xmss.RowOk p) (htab : TabOk p) (H : Hash)
    (hl : LenOk p.n H) (hml : ∀ r m i x, H.msgHash r m i = .ok x → x.length = p.n)
    (r : Blk) (index : Nat) (hi : index < 2 ^ p.h) (msg : List Byte) : HashErr H (xmssSign p H r index msg) := by
  obtain ⟨t1, t2, t3, t4, t5, t6, t7, t8⟩ := htab
  obtain ⟨q1, q2⟩ := position_lt p index hrow hi t1 t2 t3 t4
  refine HashErr.bind hcall fun dg hdg => HashErr.bind ?_ fun _ _ => HashErr.ok _
  have hdl := hml _ _ _ _ (liftH_eq_ok.1 hdg)
  split
  · exact hyperSign_he (xmssTree p H) hl t3 t6 t7 t5 dg (by rw [hdl]; exact Nat.le_refl _) _ _ _ q1
      (by
        show (p.wotsLen + p.hp) * p.n * p.d ≤ _
        omega)
  · exact HashErr.bind (treeSign_he (xmssTree p H) t7 t5 dg hdl _ _) fun _ _ => HashErr.ok _

theorem forsSk_he (H : Hash) (a : Adrs) (i : Nat) : HashErr H (forsSk H a i) := hcall

theorem forsNode_he (H : Hash) : ∀ (h idx : Nat) (a : Adrs), HashErr H (forsNode H h idx a)
  | 0, idx, a => HashErr.bind (forsSk_he _ _ _) fun _ _ => HashErr.bind hcall fun _ _ => HashErr.ok _
  | h + 1, idx, a =>
    HashErr.bind (forsNode_he H h _ _) fun _ _ => HashErr.bind (forsNode_he H h _ _) fun _ _ =>
    HashErr.bind hcall fun _ _ => HashErr.ok _

theorem forsAuth_he (H : Hash) (ah i ind : Nat) : ∀ (cnt j : Nat) (a : Adrs), HashErr H (forsAuth H ah i ind cnt j a)
  | 0, j, a => HashErr.ok _
  | cnt + 1, j, a => HashErr.bind (forsNode_he _ _ _ _) fun _ _ =>
    HashErr.bind (forsAuth_he H ah i ind cnt _ _) fun _ _ => HashErr.ok _

theorem forsSignLoop_he (H : Hash) (ah : Nat) : ∀ (inds : List Nat) (i : Nat) (a : Adrs),
    HashErr H (forsSignLoop H ah inds i a)
  | [], i, a => HashErr.ok _
  | _ :: inds, i, a => HashErr.bind (forsSk_he _ _ _) fun _ _ => HashErr.bind (forsAuth_he _ _ _ _ _ _ _) fun _ _ =>
    HashErr.bind (forsSignLoop_he H ah inds _ _) fun _ _ => HashErr.ok _

theorem forsVal_he (H : Hash) (a : Adrs) (h idx : Nat) : HashErr H (forsVal H a h idx) := by
  have := forsNode_he H h idx a
  rw [forsNode_eq] at this
  intro e he
  rw [he] at this
  exact this e rfl

theorem forsRoots_he (H : Hash) (a : Adrs) (ah : Nat) : ∀ (k i : Nat), HashErr H (forsRoots H a ah k i)
  | 0, _ => HashErr.ok _
  | k + 1, i => HashErr.bind (forsVal_he _ _ _ _) fun _ _ => HashErr.bind (forsRoots_he H a ah k _) fun _ _ =>
    HashErr.ok _

theorem slhSign_he (p : SlhParams) (hp : SlhOk p) (H : Hash) (hl : LenOk p.n H)
    (r : Blk) (msg : List Byte) (room : Nat) (hroom : p.sigBytes ≤ room) : HashErr H (slhSign p H r msg room) := by
  have hpo := hp
  obtain ⟨t1, t2, t3, t4, t5, t6, t7, t8, t9⟩ := hp
  refine HashErr.bind hcall fun dg hdg => ?_
  dsimp only
  obtain ⟨q1, q2⟩ := slh_pos p hpo dg
  refine HashErr.bind ?_ fun f hf => ?_
  · rw [forsSign, if_neg (by omega)]
    exact HashErr.bind (forsSignLoop_he _ _ _ _ _) fun _ _ => HashErr.ok _
  obtain ⟨f1, f2, f3⟩ := fors_roundtrip p H hl t6 _ _ _ rfl _ _ _ hf
  have f4 := (fors_roundtrip p H hl t6 _ _ _ f1 _ _ _ hf).2.2
  rw [f4]
  refine HashErr.bind (HashErr.bind (forsRoots_he _ _ _ _ _) fun _ _ => hcall) fun pk hpk =>
    HashErr.bind ?_ fun _ _ => HashErr.ok _
  rw [bindE_eq_ok] at hpk
  obtain ⟨rs, _, hpk⟩ := hpk
  have hpl := hl.pk _ _ _ (liftH_eq_ok.1 hpk)
  exact hyperSign_he (slhTree p H) hl t3 t4 t5 rfl pk (by rw [hpl]; exact Nat.le_refl _) _ _ _ q1
    (by
      show (2 * p.n + 3 + p.hp) * p.n * p.d ≤ _
      rw [f2]; omega)

/-! ### WOTS+ checksum -/

theorem csum_mono : ∀ (l l' : List Nat), l.length = l'.length → (∀ d ∈ l, d ≤ 15) → (∀ d ∈ l', d ≤ 15) →
    (∀ (i x y : Nat), l[i]? = some x → l'[i]? = some y → x ≤ y) →
    csum l' ≤ csum l ∧ (csum l' = csum l → l = l')
  | [], [], _, _, _, _ => by simp
  | [], _ :: _, h, _, _, _ => by simp at h
  | _ :: _, [], h, _, _, _ => by simp at h
  | x :: l, y :: l', hl, h1, h2, h => by
    have hxy := h 0 x y rfl rfl
    have hx := h1 x (by simp)
    have hy := h2 y (by simp)
    obtain ⟨i1, i2⟩ := csum_mono l l' (by simpa using hl) (fun d hd => h1 d (by simp [hd]))
      (fun d hd => h2 d (by simp [hd])) (fun i a b ha hb => h (i + 1) a b (by simpa using ha) (by simpa using hb))
    simp only [csum, List.map_cons, List.sum_cons] at i1 i2 ⊢
    refine ⟨by omega, fun he => ?_⟩
    have hxy' : x = y := by omega
    subst hxy'
    rw [i2 (by omega)]

theorem nibbles_inj : ∀ (xs ys : List Byte), nibbles xs = nibbles ys → xs = ys
  | [], [], _ => rfl
  | [], _ :: _, h => by simp [nibbles] at h
  | _ :: _, [], h => by simp [nibbles] at h
  | x :: xs, y :: ys, h => by
    simp only [nibbles, List.cons.injEq] at h
    obtain ⟨h1, h2, h3⟩ := h
    have : x = y := BitVec.eq_of_toNat_eq (by omega)
    rw [this, nibbles_inj xs ys h3]

theorem wots_antichain (n : Nat) (hn : n ≤ 64) (m m' : List Byte) (hm : m.length = n) (hm' : m'.length = n)
    (ds ds' : List Nat) (h : msgToBaseW n m = .ok ds) (h' : msgToBaseW n m' = .ok ds')
    (hle : ∀ (i x y : Nat), ds[i]? = some x → ds'[i]? = some y → x ≤ y) : m = m' := by
  rw [msgToBaseW_eq n m hm (by omega), Except.ok.injEq] at h
  rw [msgToBaseW_eq n m' hm' (by omega), Except.ok.injEq] at h'
  have hl : (nibbles m).length = 2 * n := by rw [length_nibbles, hm]
  have hl' : (nibbles m').length = 2 * n := by rw [length_nibbles, hm']
  have hmono := csum_mono (nibbles m) (nibbles m') (by rw [hl, hl']) (nibbles_le m) (nibbles_le m')
    (fun i x y hx hy => by
      refine hle i x y ?_ ?_
      · rw [← h, List.getElem?_append_left (by
          rcases List.getElem?_eq_some_iff.1 hx with ⟨hlt, _⟩; exact hlt)]; exact hx
      · rw [← h', List.getElem?_append_left (by
          rcases List.getElem?_eq_some_iff.1 hy with ⟨hlt, _⟩; exact hlt)]; exact hy)
  have hc : ∀ (k x y : Nat), [csum (nibbles m) / 256, csum (nibbles m) / 16 % 16, csum (nibbles m) % 16][k]? = some x →
      [csum (nibbles m') / 256, csum (nibbles m') / 16 % 16, csum (nibbles m') % 16][k]? = some y → x ≤ y := by
    intro k x y hx hy
    refine hle (2 * n + k) x y ?_ ?_
    · rw [← h, List.getElem?_append_right (by omega), hl, Nat.add_sub_cancel_left]; exact hx
    · rw [← h', List.getElem?_append_right (by omega), hl', Nat.add_sub_cancel_left]; exact hy
  have c0 := hc 0 _ _ rfl rfl
  have c1 := hc 1 _ _ rfl rfl
  have c2 := hc 2 _ _ rfl rfl
  exact nibbles_inj _ _ (hmono.2 (by have := hmono.1; omega))

/-! ### FORS digits -/

theorem beNat_append (xs : List Byte) (x : Byte) : beNat (xs ++ [x]) = beNat xs * 256 + x.toNat := by
  simp [beNat]

theorem mod_div_mod {v c b : Nat} (h : c + b ≤ 64) : v % 2 ^ 64 / 2 ^ c % 2 ^ b = v / 2 ^ c % 2 ^ b := by
  have hs : (2 : Nat) ^ 64 = 2 ^ c * 2 ^ (64 - c) := by rw [← Nat.pow_add]; congr 1; omega
  rw [hs, Nat.mod_mul_right_div_self, Nat.mod_mod_of_dvd]
  exact Nat.pow_dvd_pow 2 (by omega)

theorem fillF_spec (b : Nat) : ∀ (fuel : Nat) (pre xs : List Byte) (total bits : Nat),
    total = beNat pre % 2 ^ 64 → b ≤ 8 * xs.length + bits → b ≤ 8 * fuel + bits → bits < b + 8 →
    ∃ ys zs, xs = ys ++ zs ∧
      fillF b fuel xs total bits = (zs, beNat (pre ++ ys) % 2 ^ 64, bits + 8 * ys.length) ∧
      b ≤ bits + 8 * ys.length ∧ bits + 8 * ys.length < b + 8
  | 0, pre, xs, total, bits, ht, h1, h2, h3 => ⟨[], xs, by simp, by simp [fillF, ht], by simp; omega, by simp; omega⟩
  | fuel + 1, pre, xs, total, bits, ht, h1, h2, h3 => by
    by_cases hlt : bits < b
    · match xs with
      | [] => simp at h1; omega
      | x :: xs =>
        rw [fillF, if_pos hlt]
        simp only [List.length_cons] at h1
        obtain ⟨ys, zs, e1, e2, e3, e4⟩ := fillF_spec b fuel (pre ++ [x]) xs ((total * 256 + x.toNat) % 2 ^ 64) (bits + 8)
          (by rw [beNat_append, ht]; omega) (by omega) (by omega) (by omega)
        refine ⟨x :: ys, zs, by simp [e1], ?_, by simp only [List.length_cons]; omega, by simp only [List.length_cons]; omega⟩
        rw [e2]
        simp only [List.append_assoc, List.singleton_append, List.length_cons, Prod.mk.injEq, true_and]
        omega
    · exact ⟨[], xs, by simp, by cases xs <;> simp [fillF, hlt, ht], by simp; omega, by simp; omega⟩

theorem beNat_foldl (ys : List Byte) : ∀ a, ys.foldl (fun a x => a * 256 + x.toNat) a = a * 2 ^ (8 * ys.length) + beNat ys := by
  induction ys with
  | nil => intro a; simp [beNat]
  | cons y ys ih =>
    intro a
    rw [beNat, List.foldl_cons, List.foldl_cons, ih, ih (0 * 256 + y.toNat), List.length_cons,
      show 8 * (ys.length + 1) = 8 * ys.length + 8 by ring, Nat.pow_add]
    ring

theorem beNat_lt (ys : List Byte) : beNat ys < 2 ^ (8 * ys.length) := by
  induction ys with
  | nil => simp [beNat]
  | cons y ys ih =>
    have hy := y.isLt
    rw [beNat, List.foldl_cons, beNat_foldl, List.length_cons, show 8 * (ys.length + 1) = 8 * ys.length + 8 by ring, Nat.pow_add]
    have : (0 * 256 + y.toNat) * 2 ^ (8 * ys.length) + 2 ^ (8 * ys.length) ≤ 2 ^ (8 * ys.length) * 2 ^ 8 := by
      rw [show (0 * 256 + y.toNat) * 2 ^ (8 * ys.length) + 2 ^ (8 * ys.length) = 2 ^ (8 * ys.length) * (y.toNat + 1) by ring]
      exact Nat.mul_le_mul_left _ (by omega)
    omega

theorem beNat_prefix (xs ys : List Byte) (c : Nat) :
    beNat xs / 2 ^ c = beNat (xs ++ ys) / 2 ^ (8 * ys.length + c) := by
  rw [beNat, beNat, List.foldl_append, beNat_foldl ys, Nat.pow_add, ← Nat.div_div_eq_div_mul]
  congr 1
  have hp : 0 < 2 ^ (8 * ys.length) := Nat.pow_pos (by omega)
  rw [Nat.mul_comm, Nat.mul_add_div hp, Nat.div_eq_of_lt (beNat_lt ys), Nat.add_zero]

theorem baseBF_spec (b : Nat) (hb : 1 ≤ b) (hb' : b ≤ 56) (md : List Byte) : ∀ (k i : Nat) (pre xs : List Byte) (total bits : Nat),
    md = pre ++ xs → total = beNat pre % 2 ^ 64 → bits + b * i = 8 * pre.length → bits < 8 →
    b * (i + k) ≤ 8 * md.length →
    baseBF b k xs total bits =
      (List.range k).map fun j => beNat md / 2 ^ (8 * md.length - b * (i + j + 1)) % 2 ^ b
  | 0, i, pre, xs, total, bits, _, _, _, _, _ => by simp [baseBF]
  | k + 1, i, pre, xs, total, bits, hmd, ht, hbits, hlt, hlen => by
    have hxl : 8 * md.length = 8 * pre.length + 8 * xs.length := by rw [hmd, List.length_append]; ring
    have e0 : b * (i + (k + 1)) = b * i + b * k + b := by ring
    have e1 : b * (i + 1) = b * i + b := by ring
    obtain ⟨ys, zs, h1, h2, h3, h4⟩ := fillF_spec b b pre xs total bits ht (by omega) (by omega) (by omega)
    have hyl : xs.length = ys.length + zs.length := by rw [h1, List.length_append]
    rw [baseBF, h2]
    dsimp only
    rw [List.range_succ_eq_map, List.map_cons, List.map_map]
    congr 1
    · rw [mod_div_mod (by omega), beNat_prefix (pre ++ ys) zs]
      have : md = pre ++ ys ++ zs := by rw [hmd, h1, List.append_assoc]
      rw [← this]
      congr 3
      rw [Nat.add_zero, e1]
      omega
    · have ih := baseBF_spec b hb hb' md k (i + 1) (pre ++ ys) zs (beNat (pre ++ ys) % 2 ^ 64) (bits + 8 * ys.length - b)
        (by rw [hmd, h1, List.append_assoc]) rfl
        (by rw [List.length_append, e1]; omega) (by omega)
        (by rw [show i + 1 + k = i + (k + 1) by omega]; exact hlen)
      rw [ih]
      apply List.map_congr_left
      intro j _
      simp only [Function.comp, Nat.succ_eq_add_one]
      rw [show i + 1 + j + 1 = i + (j + 1) + 1 by omega]

/-! ### Message encoding -/

theorem append_inj_of_len {a a' b b' : List Byte} (hl : a.length = a'.length) (h : a ++ b = a' ++ b') : a = a' ∧ b = b' :=
  List.append_inj h hl

theorem ofNat_len_inj {x y : Nat} (hx : x ≤ 255) (hy : y ≤ 255) (h : BitVec.ofNat 8 x = BitVec.ofNat 8 y) : x = y := by
  have := congrArg BitVec.toNat h
  simp only [BitVec.toNat_ofNat] at this
  omega

theorem msgEncode_inj (c c' : List Byte) (pre pre' : Option (List Byte × List Byte)) (d d' : List Byte)
    (hc : c.length ≤ 255) (hc' : c'.length ≤ 255) (ho : ∀ x, pre = some x → x.1.length ≤ 127)
    (ho' : ∀ x, pre' = some x → x.1.length ≤ 127) (h : msgEncode c pre d = msgEncode c' pre' d') :
    c = c' ∧ pre = pre' ∧ (pre = none → d = d') := by
  match pre, pre' with
  | none, none =>
    simp only [msgEncode, List.cons.injEq, true_and] at h
    obtain ⟨h1, h2⟩ := append_inj_of_len (ofNat_len_inj hc hc' h.1) h.2
    exact ⟨h1, rfl, fun _ => h2⟩
  | none, some (o, g) => simp [msgEncode] at h
  | some (o, g), none => simp [msgEncode] at h
  | some (o, g), some (o', g') =>
    simp only [msgEncode, List.cons.injEq, true_and] at h
    obtain ⟨h1, h2⟩ := append_inj_of_len (ofNat_len_inj hc hc' h.1) h.2
    simp only [List.cons.injEq, true_and] at h2
    have hol : o.length ≤ 127 := ho _ rfl
    have hol' : o'.length ≤ 127 := ho' _ rfl
    obtain ⟨h3, h4⟩ := append_inj_of_len (ofNat_len_inj (by omega) (by omega) h2.1) h2.2
    subst h3; subst h4
    exact ⟨h1, rfl, by simp⟩

end Verif.Crypto.Hbs
