import Verif.Crypto.Xmss.Spec
import Mathlib.Data.List.Nodup
import Mathlib.Data.List.Sublists
import Mathlib.Tactic.Tauto

/-!
# C35: proofs
-/

namespace Verif.Crypto.Xmss

open Verif.Common Verif.Crypto.Xmss

/-- Facts about every row of the two tables. -/
def RowOk (p : Params) : Prop :=
  p.sigBytes = idxBytes p + p.n + treeLen p p.n ∧ p.h ≤ maxH ∧ idxBytes p ≤ 8 ∧
  p.h ≤ 8 * idxBytes p ∧ p.hp ≤ 20 ∧ (p.mt = false → p.h = p.hp) ∧ 0 < p.n

instance (p : Params) : Decidable (RowOk p) := by unfold RowOk; infer_instance

theorem xmssTable_ok : ∀ p ∈ xmssTable, RowOk p := by decide +kernel
theorem xmssmtTable_ok : ∀ p ∈ xmssmtTable, RowOk p := by decide +kernel

theorem findParams_ok (mt : Bool) (k : Nat) (p : Params) (h : findParams mt k = some p) : RowOk p := by
  unfold findParams at h
  have := List.mem_of_getElem? h
  cases mt
  · exact xmssTable_ok p (by simpa using this)
  · exact xmssmtTable_ok p (by simpa using this)

/-! ## One call -/

/-- Context facts kept by every call. -/
def CtxOk (c : Ctx) : Prop := c.idx < 2 ^ 64 ∧ ∀ p, c.params = some p → RowOk p ∧ c.n = p.n

theorem prepareCheck_ok {p : Params} {idx len : Nat} (h : prepareCheck p idx len = .ok ()) :
    p.sigBytes ≤ len ∧ p.h ≤ maxH ∧ idxBytes p ≤ 8 ∧ idx < 2 ^ p.h := by
  unfold prepareCheck at h
  have := Nat.two_pow_pos p.h
  split at h; · simp at h
  split at h; · simp at h
  split at h; · simp at h
  split at h; · simp at h
  omega

theorem prepareCheck_ok' {p : Params} {idx len : Nat} (u : Unit) (h : prepareCheck p idx len = .ok u) :
    p.sigBytes ≤ len ∧ p.h ≤ maxH ∧ idxBytes p ≤ 8 ∧ idx < 2 ^ p.h := prepareCheck_ok h

theorem no_wrap {p : Params} {idx len : Nat} (u : Unit) (h : prepareCheck p idx len = .ok u) :
    (idx + 1) % 2 ^ 64 = idx + 1 := by
  obtain ⟨-, h1, -, h2⟩ := prepareCheck_ok' u h
  have : (2:Nat) ^ p.h ≤ 2 ^ 60 := Nat.pow_le_pow_right (by decide) h1
  exact Nat.mod_eq_of_lt (by omega)

/-- The five ways a signing call can end. -/
inductive Outcome (c : Ctx) (buf : List Byte) (x : SignExt) : Prop
  | early (e : Err) (h : sign c buf x = (⟨.error e, buf, buf.length, []⟩, c))
  | failed (p : Params) (e : Err) (us : List Use) (hp : c.params = some p) (hk : c.hasPriv = true)
      (hi : c.idx < 2 ^ p.h) (hus : us = [] ∨ us = [useOf c p c.idx])
      (h : sign c buf x = (⟨.error e, cleanse buf, 0, us⟩,
        { c with idx := c.idx + 1, bds := false }))
  | done (p : Params) (r t : Nat → Byte) (hp : c.params = some p) (hk : c.hasPriv = true)
      (hi : c.idx < 2 ^ p.h) (hl : p.sigBytes ≤ buf.length)
      (hn : idxBytes p + c.n + treeLen p c.n ≤ buf.length)
      (h : sign c buf x = (⟨.ok (),
          (beBytes (idxBytes p) c.idx ++ take r c.n) ++ take t (treeLen p c.n) ++
            buf.drop (idxBytes p + c.n + treeLen p c.n),
          idxBytes p + c.n + treeLen p c.n, [useOf c p c.idx]⟩, { c with idx := c.idx + 1 }))

theorem length_beBytes (k v : Nat) : (beBytes k v).length = k := by simp [beBytes]
theorem length_take' (f : Nat → Byte) (k : Nat) : (take f k).length = k := by simp [take]

theorem prepareData_ok {p : Params} {n i l : Nat} {x : SignExt} {b : List Byte}
    (h : prepareData p n i l x = .ok b) :
    ∃ r, b = beBytes (idxBytes p) i ++ take r n ∧ idxBytes p + n ≤ l := by
  unfold prepareData at h
  split at h; · simp at h
  split at h; · simp at h
  split at h; · simp at h
  rename_i r _ _ _ _ _
  exact ⟨r, by simpa using h.symm, by omega⟩

theorem treeSign_ok {p : Params} {n i room : Nat} {bds u : Bool} {x : SignExt} {b : List Byte}
    (h : treeSign p n bds i room x = (.ok b, u)) :
    ∃ t, b = take t (treeLen p n) ∧ treeLen p n ≤ room := by
  unfold treeSign at h
  split at h; · simp at h
  split at h; · simp at h
  split at h; · simp at h
  rename_i t _
  split at h
  · split at h
    · simp at h
    · exact ⟨t, by simp at h; exact h.1.symm, by omega⟩
  · exact ⟨t, by simp at h; exact h.1.symm, by omega⟩

theorem useOf_idx (c : Ctx) (p : Params) (i k : Nat) : useOf { c with idx := k } p i = useOf c p i := rfl

theorem outcome (c : Ctx) (buf : List Byte) (x : SignExt) : Outcome c buf x := by
  cases hp : c.params with
  | none => exact .early .keyInfoNotSet (by simp [sign, hp])
  | some p =>
    cases hk : c.hasPriv with
    | false => exact .early .notSupport (by simp [sign, hp, hk])
    | true =>
      cases hc : prepareCheck p c.idx buf.length with
      | error e => exact .early e (by simp [sign, hp, hk, hc])
      | ok u =>
        obtain ⟨h1, -, -, h4⟩ := prepareCheck_ok' u hc
        have hw := no_wrap u hc
        cases hd : prepareData p c.n c.idx buf.length x with
        | error e =>
          exact .failed p e [] hp hk h4 (.inl rfl) (by simp only [sign, hp, hk, hc, hd, hw]; rfl)
        | ok pre =>
          obtain ⟨r, rfl, hl⟩ := prepareData_ok hd
          cases ht : treeSign p c.n c.bds c.idx (buf.length - (beBytes (idxBytes p) c.idx ++ take r c.n).length) x with
          | mk res used =>
            cases res with
            | error e =>
              refine .failed p e (if used then [useOf c p c.idx] else []) hp hk h4 (by cases used <;> simp) ?_
              simp only [sign, hp, hk, hc, hd, ht, hw, useOf_idx]
              rfl
            | ok b =>
              obtain ⟨t, rfl, hr⟩ := treeSign_ok ht
              simp only [List.length_append, length_beBytes, length_take'] at hr ht
              refine .done p r t hp hk h4 h1 (by omega) ?_
              simp only [sign, hp, hk, hc, hd, hw, List.length_append, length_beBytes, length_take', ht,
                useOf_idx]
              rfl

theorem sign_exhausted (c : Ctx) (p : Params) (hp : c.params = some p)
    (hx : 2 ^ p.h ≤ c.idx) (buf : List Byte) (x : SignExt) :
    (∃ e, (sign c buf x).1.ret = .error e) ∧ (sign c buf x).1.buf = buf ∧
    (sign c buf x).1.uses = [] ∧ (sign c buf x).2 = c := by
  cases outcome c buf x with
  | early e h => rw [h]; simp
  | failed q e us hq hk hi hus h => rw [hp] at hq; cases hq; omega
  | done q r t hq hk hi hl hn h => rw [hp] at hq; cases hq; omega

theorem sign_error (c : Ctx) (_hc : c.idx < 2 ^ 64) (buf : List Byte) (x : SignExt)
    (e : Err) (h : (sign c buf x).1.ret = .error e) :
    ((sign c buf x).1.buf = buf ∧ (sign c buf x).1.uses = [] ∧ (sign c buf x).2 = c) ∨
    ((∀ b ∈ (sign c buf x).1.buf, b = 0#8) ∧ (sign c buf x).1.buf.length = buf.length ∧
      (sign c buf x).1.len = 0 ∧ (sign c buf x).2.idx = c.idx + 1 ∧ (sign c buf x).2.bds = false) := by
  cases outcome c buf x with
  | early e h => rw [h]; simp
  | failed q e us hq hk hi hus h => rw [h]; right; simp [cleanse]
  | done q r t hq hk hi hl hn h' => rw [h'] at h; simp at h

theorem sign_ok_advances (c : Ctx) (_hc : c.idx < 2 ^ 64) (buf : List Byte) (x : SignExt)
    (h : (sign c buf x).1.ret = .ok ()) :
    (sign c buf x).2.idx = c.idx + 1 ∧ ∃ u, (sign c buf x).1.uses = [u] ∧ u.index = c.idx ∧
      u.seed = c.seed := by
  cases outcome c buf x with
  | early e h' => rw [h'] at h; simp at h
  | failed q e us hq hk hi hus h' => rw [h'] at h; simp at h
  | done q r t hq hk hi hl hn h' => rw [h']; exact ⟨rfl, _, rfl, rfl, rfl⟩

theorem sign_live (c : Ctx) (p : Params) (hp : c.params = some p)
    (ht : p ∈ xmssTable ∨ p ∈ xmssmtTable) (hn : c.n = p.n) (hk : c.hasPriv = true)
    (hi : c.idx < 2 ^ p.h) (buf : List Byte) (hb : p.sigBytes ≤ buf.length) (x : SignExt)
    (r : Nat → Byte) (d : List Byte) (t : Nat → Byte) (hr : x.rand = .ok r) (hd : x.hash = .ok d)
    (hw : x.wots = .ok t) (hq : x.post = .ok ()) :
    (sign c buf x).1.ret = .ok () ∧ (sign c buf x).1.len = p.sigBytes := by
  have hrow : RowOk p := ht.elim (xmssTable_ok p) (xmssmtTable_ok p)
  obtain ⟨h1, h2, h3, -, h5, h6, -⟩ := hrow
  have hc : prepareCheck p c.idx buf.length = .ok () := by
    unfold prepareCheck
    rw [if_neg (by omega), if_neg (by omega), if_neg (by omega), if_neg (by omega)]
  have hpd : prepareData p c.n c.idx buf.length x = .ok (beBytes (idxBytes p) c.idx ++ take r c.n) := by
    simp only [prepareData, hr, hd]
    rw [if_neg (by omega)]
  have hmask : ¬ ((c.bds = true) ∧ p.mt = false ∧ maskForBits p.hp < c.idx) := by
    rintro ⟨-, hm, hlt⟩
    have hh := h6 hm
    unfold maskForBits at hlt
    rw [if_neg (by omega), ← hh] at hlt
    omega
  have hts : treeSign p c.n c.bds c.idx (buf.length - (idxBytes p + c.n)) x =
      (.ok (take t (treeLen p c.n)), true) := by
    unfold treeSign
    rw [if_neg hmask, if_neg (by rw [hn]; omega)]
    simp only [hw, hq]
    cases c.bds <;> rfl
  simp only [sign, hp, hk, hc, hpd, List.length_append, length_beBytes, length_take', hts]
  refine ⟨rfl, ?_⟩
  simp only [Bool.true_eq_false, if_false]
  rw [hn, h1]

theorem gen_error_no_sign (c : Ctx) (g : GenExt) (e : Err) (h : (gen c g).1 = .error e)
    (hr : c.params ≠ none) (hn : c.n ≠ 0) (buf : List Byte) (x : SignExt) :
    ∃ e', (sign (gen c g).2 buf x).1.ret = .error e' := by
  have hp : (gen c g).2.hasPriv = false := by
    unfold gen at h ⊢
    rw [if_neg (by tauto)] at h ⊢
    dsimp only at h ⊢
    split <;> [rfl; skip]
    split <;> [rfl; skip]
    split <;> [rfl; skip]
    split <;> [rfl; skip]
    simp_all
  cases outcome (gen c g).2 buf x with
  | early e h => exact ⟨e, by rw [h]⟩
  | failed q e us hq hk hi hus h => rw [hp] at hk; simp at hk
  | done q r t hq hk hi hl hn h => rw [hp] at hk; simp at hk

theorem gen_ok_spec (c : Ctx) (g : GenExt) (h : (gen c g).1 = .ok ()) :
    (gen c g).2.idx = 0 ∧ (gen c g).2.hasPriv = true ∧ g.seed = .ok (gen c g).2.seed ∧
    (gen c g).2.params = c.params := by
  unfold gen at h ⊢
  split at h; · simp at h
  rename_i h0
  rw [if_neg h0]
  dsimp only at h ⊢
  split at h; · simp at h
  rename_i s hs
  split at h; · simp at h
  rename_i f hf
  split at h; · simp at h
  rename_i ps hps
  split at h; · simp at h
  rename_i r hr
  simp only [hs, hf, hps, hr, and_self]

theorem setPrv_spec (c : Ctx) (p : PrvParam) :
    ((setPrv c p).1 = .ok () → (setPrv c p).2.idx = p.idx.toNat ∧ (setPrv c p).2.seed = p.seed ∧
      (setPrv c p).2.hasPriv = true ∧ ((setPrv c p).2.bds = true ↔ p.bds.isSome) ∧
      ∀ i v, p.bds = some (i, v) → i = p.idx) ∧
    (∀ e, (setPrv c p).1 = .error e → (setPrv c p).2 = c) := by
  unfold setPrv
  split
  · exact ⟨fun h => by simp at h, fun _ _ => rfl⟩
  split
  · exact ⟨fun h => by simp at h, fun _ _ => rfl⟩
  dsimp only
  cases hb : p.bds with
  | none => exact ⟨fun _ => ⟨rfl, rfl, rfl, by simp, by simp⟩, fun _ h => by simp at h⟩
  | some b =>
    dsimp only
    split
    · exact ⟨fun h => by simp at h, fun _ _ => rfl⟩
    cases hi : importBds p.idx b with
    | error e => exact ⟨fun h => by simp at h, fun _ _ => rfl⟩
    | ok u =>
      refine ⟨fun _ => ⟨rfl, rfl, rfl, by simp, ?_⟩, fun _ h => by simp at h⟩
      intro i v hiv
      cases hiv
      unfold importBds at hi
      split at hi
      · simp at hi
      · rename_i h; simpa using h

/-! ## Index bytes -/

theorem foldl_be (k v a : Nat) (hv : v < 2 ^ (8 * k)) :
    (beBytes k v).foldl (fun a b => a * 256 + b.toNat) a = a * 2 ^ (8 * k) + v := by
  induction k generalizing v a with
  | zero => simp [beBytes]; omega
  | succ k ih =>
    have hcons : beBytes (k + 1) v = BitVec.ofNat 8 (v / 2 ^ (8 * k)) :: beBytes k (v % 2 ^ (8 * k)) := by
      unfold beBytes
      rw [List.range_succ_eq_map, List.map_cons, List.map_map]
      congr 1
      apply List.map_congr_left
      intro i hi
      have hi' : i < k := List.mem_range.mp hi
      apply BitVec.eq_of_toNat_eq
      simp only [Function.comp, BitVec.toNat_ofNat]
      have e1 : 8 * (k + 1 - 1 - (i + 1)) = 8 * (k - 1 - i) := by omega
      rw [e1]
      have e2 : 8 * k = 8 * (k - 1 - i) + 8 * (i + 1) := by omega
      rw [e2, Nat.pow_add, Nat.mod_mul_right_div_self]
      have e3 : (2:Nat) ^ (8 * (i + 1)) = 2 ^ 8 * 2 ^ (8 * i) := by rw [← Nat.pow_add]; congr 1; omega
      rw [e3, Nat.mod_mul_right_mod]
    rw [hcons, List.foldl_cons, ih _ _ (Nat.mod_lt _ (Nat.two_pow_pos _))]
    have hlt : v / 2 ^ (8 * k) < 256 := by
      apply Nat.div_lt_of_lt_mul
      have : 8 * (k + 1) = 8 * k + 8 := by omega
      rw [this, Nat.pow_add] at hv
      exact hv
    rw [BitVec.toNat_ofNat, Nat.mod_eq_of_lt hlt]
    have e : 8 * (k + 1) = 8 * k + 8 := by omega
    rw [e, Nat.pow_add, Nat.add_mul, Nat.mul_assoc, Nat.mul_comm 256, Nat.add_assoc,
      Nat.mul_comm (v / _), Nat.div_add_mod]

theorem verifyIndex_out (p : Params) (i : Nat) (rest : List Byte) (h : RowOk p) (hi : i < 2 ^ p.h) :
    verifyIndex p (beBytes (idxBytes p) i ++ rest) = i := by
  unfold verifyIndex
  rw [List.take_append_of_le_length (by rw [length_beBytes]), List.take_of_length_le (by rw [length_beBytes]),
    foldl_be]
  · omega
  · exact Nat.lt_of_lt_of_le hi (Nat.pow_le_pow_right (by decide) h.2.2.2.1)

/-! ## Position of the one-time key -/

theorem position_spec (p : Params) (i : Nat) (h : RowOk p) (hi : i < 2 ^ p.h) :
    (position p i).1 * 2 ^ p.hp + (position p i).2 = i := by
  have h20 : (2:Nat) ^ p.hp ≤ 2 ^ 20 := Nat.pow_le_pow_right (by decide) h.2.2.2.2.1
  unfold position
  split
  · rw [Nat.and_two_pow_sub_one_eq_mod]
    have := Nat.mod_lt i (Nat.two_pow_pos p.hp)
    simp only
    rw [Nat.mod_eq_of_lt (by omega), Nat.mul_comm, Nat.div_add_mod]
  · rename_i hm
    rw [h.2.2.2.2.2.1 (by simpa using hm)] at hi
    simp only
    rw [Nat.mod_eq_of_lt (by omega)]
    omega

/-! ## Histories -/

structure UseOk (u : Use) : Prop where
  row : RowOk u.params
  bound : u.index < 2 ^ u.params.h
  pos : u.tree * 2 ^ u.params.hp + u.leaf = u.index

structure Inv (w : World) : Prop where
  ctx : ∀ (i : Nat) (c : Ctx), w.ctxs[i]? = some c → CtxOk c
  low : ∀ (i : Nat) (c : Ctx), w.ctxs[i]? = some c → c.hasPriv = true →
    ∀ u ∈ w.uses, u.seed = c.seed → u.index < c.idx
  apart : ∀ (i j : Nat) (c d : Ctx), w.ctxs[i]? = some c → w.ctxs[j]? = some d → i ≠ j →
    c.hasPriv = true → d.hasPriv = true → c.seed ≠ d.seed
  nodup : (w.uses.map fun u => (u.seed, u.index)).Nodup
  useOk : ∀ u ∈ w.uses, UseOk u
  sigOk : ∀ s ∈ w.sigs, s.1.length = s.2.params.sigBytes ∧
    verifyIndex s.2.params s.1 = s.2.index ∧ s.2.index < 2 ^ s.2.params.h
  sub : (w.sigs.map (·.2)).Sublist w.uses

theorem inv_init : Inv World.init where
  ctx := by simp [World.init]
  low := by simp [World.init]
  apart := by simp [World.init]
  nodup := by simp [World.init]
  useOk := by simp [World.init]
  sigOk := by simp [World.init]
  sub := by simp [World.init]

/-- Replacing a context by one that either cannot sign or is safely installed, or has the same key
at the same or a later position. -/
theorem inv_put {w : World} (h : Inv w) (i : Nat) (c' : Ctx) (hok : CtxOk c')
    (hs : c'.hasPriv = true →
      Spec.SafeInstall w i c'.seed c'.idx ∨
      ∃ c, w.ctxs[i]? = some c ∧ c.hasPriv = true ∧ c.seed = c'.seed ∧ c.idx ≤ c'.idx) :
    Inv (w.put i c') := by
  have get : ∀ (j : Nat) (d : Ctx), (w.put i c').ctxs[j]? = some d →
      (j = i ∧ d = c') ∨ (j ≠ i ∧ w.ctxs[j]? = some d) := by
    intro j d hd
    simp only [World.put, List.getElem?_set] at hd
    split at hd
    · rename_i e
      split at hd
      · left; exact ⟨e.symm, by simpa using hd.symm⟩
      · simp at hd
    · rename_i e; right; exact ⟨fun q => e q.symm, hd⟩
  have len : ∀ (j : Nat) (d : Ctx), w.ctxs[j]? = some d → j < w.ctxs.length := by
    intro j d hd
    exact (List.getElem?_eq_some_iff.mp hd).1
  refine ⟨?_, ?_, ?_, h.nodup, h.useOk, h.sigOk, h.sub⟩
  · intro j d hd
    rcases get j d hd with ⟨-, rfl⟩ | ⟨-, hd'⟩
    · exact hok
    · exact h.ctx j d hd'
  · intro j d hd hk u hu hseed
    rcases get j d hd with ⟨-, rfl⟩ | ⟨-, hd'⟩
    · rcases hs hk with ⟨hl, -⟩ | ⟨c, hc, hck, hcs, hci⟩
      · exact hl u hu hseed
      · exact Nat.lt_of_lt_of_le (h.low i c hc hck u hu (hseed.trans hcs.symm)) hci
    · exact h.low j d hd' hk u hu hseed
  · have key : ∀ (j : Nat) (d : Ctx), w.ctxs[j]? = some d → j ≠ i → c'.hasPriv = true →
        d.hasPriv = true → d.seed ≠ c'.seed := by
      intro j d hd hji hk hkd
      rcases hs hk with ⟨-, hl⟩ | ⟨c, hc, hck, hcs, -⟩
      · exact hl j (len j d hd) hji d hd hkd
      · rw [← hcs]; exact h.apart j i d c hd hc hji hkd hck
    intro j k d e hd he hjk hkd hke
    rcases get j d hd with ⟨rfl, rfl⟩ | ⟨hj, hd'⟩ <;> rcases get k e he with ⟨rfl, rfl⟩ | ⟨hk, he'⟩
    · exact absurd rfl hjk
    · exact (key k e he' hk hkd hke).symm
    · exact key j d hd' hj hke hkd
    · exact h.apart j k d e hd' he' hjk hkd hke

/-- A new context without a private key. -/
theorem inv_append {w : World} (h : Inv w) (c' : Ctx) (hok : CtxOk c') (hk' : c'.hasPriv = false) :
    Inv { w with ctxs := w.ctxs ++ [c'] } := by
  have get : ∀ (j : Nat) (d : Ctx), (w.ctxs ++ [c'])[j]? = some d → d = c' ∨ w.ctxs[j]? = some d := by
    intro j d hd
    rcases Nat.lt_or_ge j w.ctxs.length with hj | hj
    · right; rwa [List.getElem?_append_left hj] at hd
    · left
      rw [List.getElem?_append_right hj] at hd
      have := List.mem_of_getElem? hd
      simpa using this
  refine ⟨?_, ?_, ?_, h.nodup, h.useOk, h.sigOk, h.sub⟩
  · intro j d hd
    rcases get j d hd with rfl | hd'
    · exact hok
    · exact h.ctx j d hd'
  · intro j d hd hk
    rcases get j d hd with rfl | hd'
    · rw [hk'] at hk; simp at hk
    · exact h.low j d hd' hk
  · intro j k d e hd he hjk hkd hke
    rcases get j d hd with rfl | hd'
    · rw [hk'] at hkd; simp at hkd
    rcases get k e he with rfl | he'
    · rw [hk'] at hke; simp at hke
    exact h.apart j k d e hd' he' hjk hkd hke

theorem newCtx_ok : CtxOk newCtx := ⟨by simp [newCtx], by simp [newCtx]⟩

theorem setPara_cases (c : Ctx) (mt : Bool) (k : Nat) (x : Except Nat Unit) (hc : CtxOk c) :
    CtxOk (setPara c (findParams mt k) x).2 ∧ ((setPara c (findParams mt k) x).2.hasPriv = true →
      c.hasPriv = true ∧ c.seed = (setPara c (findParams mt k) x).2.seed ∧
      c.idx = (setPara c (findParams mt k) x).2.idx) := by
  unfold setPara
  cases hp : c.params with
  | some q => exact ⟨hc, fun h => ⟨h, rfl, rfl⟩⟩
  | none =>
    cases hq : findParams mt k with
    | none => exact ⟨hc, fun h => ⟨h, rfl, rfl⟩⟩
    | some q =>
      cases x with
      | error e =>
        dsimp only
        exact ⟨⟨hc.1, fun p h => by simp at h⟩, fun h => ⟨h, rfl, rfl⟩⟩
      | ok u =>
        dsimp only
        refine ⟨⟨Nat.two_pow_pos 64, fun p h => ?_⟩, fun h => by simp at h⟩
        cases h
        exact ⟨findParams_ok mt k _ hq, rfl⟩

theorem gen_cases (c : Ctx) (x : GenExt) (hc : CtxOk c) :
    CtxOk (gen c x).2 ∧ ((gen c x).2.hasPriv = true →
      (c.hasPriv = true ∧ c.seed = (gen c x).2.seed ∧ c.idx = (gen c x).2.idx) ∨
      (x.seed = .ok (gen c x).2.seed ∧ (gen c x).2.idx = 0)) := by
  unfold gen
  split
  · exact ⟨hc, fun h => .inl ⟨h, rfl, rfl⟩⟩
  dsimp only
  have hz : (0:Nat) < 2 ^ 64 := by decide
  split
  · exact ⟨⟨hc.1, hc.2⟩, fun h => by simp at h⟩
  rename_i s hs
  split
  · exact ⟨⟨hc.1, hc.2⟩, fun h => by simp at h⟩
  split
  · exact ⟨⟨hc.1, hc.2⟩, fun h => by simp at h⟩
  split
  · exact ⟨⟨hz, hc.2⟩, fun h => by simp at h⟩
  exact ⟨⟨hz, hc.2⟩, fun _ => .inr ⟨hs, rfl⟩⟩

theorem setPrv_cases (c : Ctx) (p : PrvParam) (hc : CtxOk c) :
    CtxOk (setPrv c p).2 ∧
      ((c.hasPriv = (setPrv c p).2.hasPriv ∧ c.seed = (setPrv c p).2.seed ∧
        c.idx = (setPrv c p).2.idx) ∨
      ((setPrv c p).2.seed = p.seed ∧ (setPrv c p).2.idx = p.idx.toNat)) := by
  unfold setPrv
  split
  · exact ⟨hc, .inl ⟨rfl, rfl, rfl⟩⟩
  split
  · exact ⟨hc, .inl ⟨rfl, rfl, rfl⟩⟩
  dsimp only
  split
  · exact ⟨⟨p.idx.isLt, hc.2⟩, .inr ⟨rfl, rfl⟩⟩
  split
  · exact ⟨hc, .inl ⟨rfl, rfl, rfl⟩⟩
  split
  · exact ⟨hc, .inl ⟨rfl, rfl, rfl⟩⟩
  · exact ⟨⟨p.idx.isLt, hc.2⟩, .inr ⟨rfl, rfl⟩⟩

theorem setPub_cases (c : Ctx) (a b : List Byte) (hc : CtxOk c) :
    CtxOk (setPub c a b).2 ∧ c.hasPriv = (setPub c a b).2.hasPriv ∧ c.seed = (setPub c a b).2.seed ∧
        c.idx = (setPub c a b).2.idx := by
  unfold setPub
  split
  · exact ⟨hc, rfl, rfl, rfl⟩
  split
  · exact ⟨hc, rfl, rfl, rfl⟩
  split
  · exact ⟨hc, rfl, rfl, rfl⟩
  exact ⟨hc, rfl, rfl, rfl⟩

theorem useOf_ok (c : Ctx) (p : Params) (hrow : RowOk p) (hi : c.idx < 2 ^ p.h) :
    UseOk (useOf c p c.idx) := ⟨hrow, hi, position_spec p c.idx hrow hi⟩

/-- Adding the use of the current index of context `i`, which has just been advanced. -/
theorem inv_use {w : World} (h : Inv w) (i : Nat) (c c' : Ctx) (p : Params)
    (hc : w.ctxs[i]? = some c) (hk : c.hasPriv = true) (hp : c.params = some p)
    (hi : c.idx < 2 ^ p.h) (hs' : c'.seed = c.seed) (hi' : c'.idx = c.idx + 1) (hok : CtxOk c')
    (us : List Use) (hus : us = [] ∨ us = [useOf c p c.idx])
    (sg : List (List Byte × Use)) (hsg : ∀ s ∈ sg, s.1.length = s.2.params.sigBytes ∧
      verifyIndex s.2.params s.1 = s.2.index ∧ s.2.index < 2 ^ s.2.params.h)
    (hsub : (sg.map (·.2)).Sublist us) :
    Inv { ctxs := w.ctxs.set i c', uses := w.uses ++ us, sigs := w.sigs ++ sg } := by
  have h1 : Inv (w.put i c') := inv_put h i c' hok (fun _ => .inr ⟨c, hc, hk, hs'.symm, by omega⟩)
  have hrow := ((h.ctx i c hc).2 p hp).1
  refine ⟨h1.ctx, ?_, h1.apart, ?_, ?_, ?_, h.sub.append hsub |> (by simpa using ·)⟩
  · intro j d hd hkd u hu hseed
    rcases List.mem_append.mp hu with hu | hu
    · exact h1.low j d hd hkd u hu hseed
    · have hu' : u = useOf c p c.idx := by rcases hus with rfl | rfl <;> simp_all
      subst hu'
      have hseed' : c.seed = d.seed := hseed
      rcases Classical.em (j = i) with rfl | hji
      · have hd' : d = c' := by
          have hlt := (List.getElem?_eq_some_iff.mp hc).1
          rw [List.getElem?_set] at hd
          simpa [hlt] using hd.symm
        subst hd'
        show c.idx < d.idx
        omega
      · have hd' : w.ctxs[j]? = some d := by
          simp only [List.getElem?_set] at hd
          rwa [if_neg (fun q => hji q.symm)] at hd
        exact absurd hseed' (h.apart i j c d hc hd' (fun q => hji q.symm) hk hkd)
  · rw [List.map_append]
    rcases hus with rfl | rfl
    · simpa using h.nodup
    · rw [List.nodup_append]
      refine ⟨h.nodup, by simp, ?_⟩
      intro a ha b hb hab
      simp only [List.map_cons, List.map_nil, List.mem_singleton] at hb
      subst hb
      obtain ⟨u, hu, rfl⟩ := List.mem_map.mp ha
      have e1 : u.seed = c.seed := congrArg Prod.fst hab
      have e2 : u.index = c.idx := congrArg Prod.snd hab
      have := h.low i c hc hk u hu e1
      omega
  · intro u hu
    rcases List.mem_append.mp hu with hu | hu
    · exact h.useOk u hu
    · have hu' : u = useOf c p c.idx := by rcases hus with rfl | rfl <;> simp_all
      subst hu'
      exact useOf_ok c p hrow hi
  · intro s hs
    rcases List.mem_append.mp hs with hs | hs
    · exact h.sigOk s hs
    · exact hsg s hs

theorem inv_step {w : World} (h : Inv w) (o : Op) (ho : Spec.OpOk w o) : Inv (step w o) := by
  cases o with
  | new => exact inv_append h newCtx newCtx_ok rfl
  | dup i =>
    unfold step
    dsimp only
    split
    · exact h
    · rename_i c hc
      exact inv_append h _ ⟨by simp [dupCtx, newCtx], (h.ctx i c hc).2⟩ rfl
  | free i => exact inv_put h i newCtx newCtx_ok (fun hk => by simp [newCtx] at hk)
  | setPara i mt k x =>
    unfold step
    dsimp only
    split
    · exact h
    · rename_i c hc
      obtain ⟨h1, h2⟩ := setPara_cases c mt k x (h.ctx i c hc)
      exact inv_put h i _ h1 (fun hk => .inr ⟨c, hc, (h2 hk).1, (h2 hk).2.1, (h2 hk).2.2.le⟩)
  | gen i x =>
    unfold step
    dsimp only
    split
    · exact h
    · rename_i c hc
      obtain ⟨h1, h2⟩ := gen_cases c x (h.ctx i c hc)
      refine inv_put h i _ h1 (fun hk => ?_)
      rcases h2 hk with ⟨a, b, d⟩ | ⟨a, b⟩
      · exact .inr ⟨c, hc, a, b, d.le⟩
      · left
        rw [b]
        simp only [Spec.OpOk, a] at ho
        exact ho
  | setPrv i p =>
    unfold step
    dsimp only
    split
    · exact h
    · rename_i c hc
      obtain ⟨h1, h2⟩ := setPrv_cases c p (h.ctx i c hc)
      refine inv_put h i _ h1 (fun hk => ?_)
      rcases h2 with ⟨a, b, d⟩ | ⟨a, b⟩
      · exact .inr ⟨c, hc, a.trans hk, b, d.le⟩
      · left; rw [a, b]; exact ho
  | setPub i a b =>
    unfold step
    dsimp only
    split
    · exact h
    · rename_i c hc
      obtain ⟨h1, h2, h3, h4⟩ := setPub_cases c a b (h.ctx i c hc)
      exact inv_put h i _ h1 (fun hk => .inr ⟨c, hc, h2.trans hk, h3, h4.le⟩)
  | sign i buf x =>
    unfold step
    dsimp only
    split
    · exact h
    · rename_i c hc
      have hck := h.ctx i c hc
      cases outcome c buf x with
      | early e he =>
        rw [he]
        have := inv_put h i c hck (fun hk => .inr ⟨c, hc, hk, rfl, Nat.le_refl _⟩)
        simpa [World.put] using this
      | failed p e us hp hk hi hus he =>
        rw [he]
        have hlt : c.idx + 1 < 2 ^ 64 := by
          have h60 : (2:Nat) ^ p.h ≤ 2 ^ 60 := Nat.pow_le_pow_right (by decide) (hck.2 p hp).1.2.1
          omega
        have hok : CtxOk { c with idx := c.idx + 1, bds := false } := ⟨hlt, hck.2⟩
        exact inv_use h i c { c with idx := c.idx + 1, bds := false } p hc hk hp hi rfl rfl hok us hus [] (by simp) (by simp)
      | done p r t hp hk hi hl hn he =>
        rw [he]
        have hrow := (hck.2 p hp).1
        have hlt : c.idx + 1 < 2 ^ 64 := by
          have h60 : (2:Nat) ^ p.h ≤ 2 ^ 60 := Nat.pow_le_pow_right (by decide) hrow.2.1
          omega
        have hok : CtxOk { c with idx := c.idx + 1 } := ⟨hlt, hck.2⟩
        refine inv_use h i c { c with idx := c.idx + 1 } p hc hk hp hi rfl rfl hok _ (.inr rfl) _ ?_ ?_; rotate_left
        · simp
        intro s hs
        simp only [List.map_cons, List.map_nil, List.mem_singleton] at hs
        subst hs
        refine ⟨?_, ?_, hi⟩
        · show (List.take _ _).length = p.sigBytes
          rw [hrow.1, List.length_take]
          simp only [List.length_append, length_beBytes, length_take', List.length_drop]
          rw [(hck.2 p hp).2] at hn ⊢
          omega
        · show verifyIndex p (List.take _ _) = c.idx
          rw [List.append_assoc, List.append_assoc, List.take_append, List.take_of_length_le
            (by rw [length_beBytes]; omega)]
          exact verifyIndex_out p c.idx _ hrow hi

theorem inv_run {w : World} {ops : List Op} (hd : Spec.Disciplined w ops) (h : Inv w) :
    Inv (run w ops) := by
  induction ops generalizing w with
  | nil => exact h
  | cons o os ih => exact ih hd.2 (inv_step h o hd.1)

theorem nodup_positions {w : World} (h : Inv w) :
    (w.uses.map fun u => (u.params, u.seed, u.tree, u.leaf)).Nodup := by
  have h1 := h.nodup
  have h2 : w.uses.Nodup := h1.of_map
  rw [List.nodup_map_iff_inj_on h2] at h1 ⊢
  intro a ha b hb hab
  apply h1 a ha b hb
  simp only [Prod.mk.injEq] at hab ⊢
  obtain ⟨e1, e2, e3, e4⟩ := hab
  refine ⟨e2, ?_⟩
  rw [← (h.useOk a ha).pos, ← (h.useOk b hb).pos, e1, e3, e4]

theorem nodup_sigs {w : World} (h : Inv w) :
    (w.sigs.map fun s => (s.2.seed, s.2.index)).Nodup := by
  have := (h.sub.map fun u => (u.seed, u.index)).nodup h.nodup
  simpa [List.map_map, Function.comp_def] using this

theorem count_sigs {w : World} (h : Inv w) (p : Params) (seed : List Byte) :
    (w.sigs.filter fun s => s.2.seed = seed ∧ s.2.params = p).length ≤ 2 ^ p.h := by
  have hn : ((w.sigs.filter fun s => s.2.seed = seed ∧ s.2.params = p).map fun s => (s.2.seed, s.2.index)).Nodup :=
    ((List.filter_sublist).map _).nodup (nodup_sigs h)
  have hn2 : ((w.sigs.filter fun s => s.2.seed = seed ∧ s.2.params = p).map fun s => s.2.index).Nodup := by
    have hb := hn.of_map
    rw [List.nodup_map_iff_inj_on hb] at hn ⊢
    intro a ha b hb' hab
    apply hn a ha b hb'
    have e1 := (List.mem_filter.mp ha).2
    have e2 := (List.mem_filter.mp hb').2
    simp only [decide_eq_true_eq] at e1 e2
    rw [e1.1, e2.1, hab]
  have hsub : ((w.sigs.filter fun s => s.2.seed = seed ∧ s.2.params = p).map fun s => s.2.index) ⊆
      List.range (2 ^ p.h) := by
    intro k hk
    obtain ⟨s, hs, rfl⟩ := List.mem_map.mp hk
    have e := List.mem_filter.mp hs
    have e2 := e.2
    simp only [decide_eq_true_eq] at e2
    rw [List.mem_range, ← e2.2]
    exact (h.sigOk s e.1).2.2
  have := (hn2.subperm hsub).length_le
  simpa using this

theorem export_safe {ops : List Op} (h : Inv (run World.init ops)) (i : Nat)
    (c : Ctx) (hi : (run World.init ops).ctxs[i]? = some c) (hk : c.hasPriv = true)
    (idx : Nat) (seed prf ps root : List Byte) (he : getPrv c = .ok (idx, seed, prf, ps, root))
    (j : Nat) :
    Spec.SafeInstall (run World.init (ops ++ [.free i])) j seed idx := by
  unfold getPrv at he
  split at he
  · simp at he
  simp only [Except.ok.injEq, Prod.mk.injEq] at he
  obtain ⟨rfl, rfl, -⟩ := he
  have hrun : run World.init (ops ++ [.free i]) = (run World.init ops).put i newCtx := by
    simp [run, step]
  rw [hrun]
  refine ⟨fun u hu hs => h.low i c hi hk u hu hs, ?_⟩
  intro k _ _ d hd hkd
  simp only [World.put, List.getElem?_set] at hd
  split at hd
  · split at hd
    · simp only [Option.some.injEq] at hd
      subst hd
      simp [newCtx] at hkd
    · simp at hd
  · rename_i hne
    exact h.apart k i d c hd hi (fun q => hne q.symm) hkd hk

end Verif.Crypto.Xmss
