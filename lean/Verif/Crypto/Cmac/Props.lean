import Verif.Crypto.Cmac.Model
import Verif.Crypto.Cmac.Spec
import Verif.Crypto.Modes.XtsProof

/-! C76: CMAC and CBC-MAC. -/
namespace Verif.Crypto.Cmac
open Verif.Common Verif.Crypto.Modes Spec

theorem xorB_len {a b : List Byte} {n : Nat} (ha : a.length = n) (hb : b.length = n) : (xorB a b).length = n := by
  unfold xorB
  rw [List.length_zipWith, ha, hb, Nat.min_self]

/-! ### Subkeys -/

theorem shl_length (l : List Byte) : (shl l).length = l.length := by
  induction l with
  | nil => rfl
  | cons a t ih =>
    cases t with
    | nil => rfl
    | cons b t => simp only [shl, List.length_cons] at ih ⊢; omega

theorem shl_byte (a b : Byte) : (a <<< 1 ||| b >>> 7).toNat = (2 * a.toNat + b.toNat / 128) % 256 := by
  have hb := b.isLt
  rw [BitVec.toNat_or, BitVec.toNat_shiftLeft, BitVec.toNat_ushiftRight, Nat.shiftLeft_eq, Nat.shiftRight_eq_div_pow]
  have : a.toNat * 2 ^ 1 % 2 ^ 8 = 2 * (a.toNat % 128) := by omega
  rw [this, lor_bit _ _ (by omega)]
  omega

theorem shl_val (l : List Byte) : beVal (shl l) = 2 * beVal l % 256 ^ l.length := by
  induction l with
  | nil => rfl
  | cons a t ih =>
    cases t with
    | nil =>
      simp only [shl, beVal_cons, List.length_nil, List.length_cons]
      have : (a <<< 1).toNat = 2 * a.toNat % 256 := by
        rw [BitVec.toNat_shiftLeft, Nat.shiftLeft_eq]
        omega
      rw [this]
      simp [beVal]
    | cons b t =>
      have hd : 2 * beVal (b :: t) / 256 ^ (b :: t).length = b.toNat / 128 := by
        have ht := beVal_lt t
        rw [beVal_cons, List.length_cons, pow_succ]
        generalize 256 ^ t.length = X at *
        have h1 : b.toNat = 128 * (b.toNat / 128) + b.toNat % 128 := (Nat.div_add_mod _ _).symm
        have h2 : b.toNat % 128 < 128 := Nat.mod_lt _ (by decide)
        generalize b.toNat / 128 = hi at *
        generalize b.toNat % 128 = lo at *
        rw [h1]
        have h3 : 2 * (X * (128 * hi + lo) + beVal t) = (2 * (X * lo) + 2 * beVal t) + X * 256 * hi := by ring
        have h4 : X * lo ≤ X * 127 := Nat.mul_le_mul_left _ (by omega)
        rw [h3, Nat.add_mul_div_left _ _ (by omega), Nat.div_eq_of_lt (by omega), Nat.zero_add]
      rw [shl, beVal_cons, ih, shl_length, shl_byte, beVal_cons a, List.length_cons (a := a), pow_succ, Nat.mod_mul]
      generalize hY : 256 ^ (b :: t).length = Y at *
      have hp : 0 < Y := by rw [← hY]; exact Nat.pow_pos (by decide)
      have e1 : 2 * (Y * a.toNat + beVal (b :: t)) = 2 * beVal (b :: t) + Y * (2 * a.toNat) := by ring
      rw [e1, Nat.add_mul_mod_self_left, Nat.add_mul_div_left _ _ hp, hd, Nat.add_comm (b.toNat / 128)]
      omega

theorem top_bit (a : Byte) : a &&& 0x80 ≠ 0 ↔ 128 ≤ a.toNat := by
  revert a
  decide +kernel

theorem subkey_spec {n : Nat} (hn : n = 8 ∨ n = 16) {l : List Byte} (hl : l.length = n) :
    (subkey n l).length = n ∧ beVal (subkey n l) = double n (beVal l) := by
  have hs := shl_length l
  have hv := shl_val l
  have h256 : ∀ k : Nat, 256 ^ k = 2 ^ (8 * k) := fun k => by rw [pow_mul]; norm_num
  have htop : (l.headD 0 &&& 0x80 ≠ 0) ↔ 2 ^ (8 * n - 1) ≤ beVal l := by
    obtain _ | ⟨a, t⟩ := l
    · rw [List.length_nil] at hl; omega
    rw [List.headD_cons, top_bit, beVal_cons]
    have ht := beVal_lt t
    have hp : 2 ^ (8 * n - 1) = 256 ^ t.length * 128 := by
      rw [h256, show (128 : Nat) = 2 ^ 7 from rfl, ← pow_add]
      congr 1
      rw [List.length_cons] at hl
      omega
    rw [hp]
    generalize 256 ^ t.length = X at *
    constructor
    · intro h
      have := Nat.mul_le_mul_left X h
      omega
    · intro h
      by_contra hc
      have := Nat.mul_le_mul_left X (show a.toNat ≤ 127 by omega)
      omega
  unfold subkey double
  dsimp only
  by_cases hc : 2 ^ (8 * n - 1) ≤ beVal l
  · rw [if_pos (htop.mpr hc), if_neg (Nat.not_lt.mpr hc)]
    have hk : (shl l).length = n := by omega
    refine ⟨by rw [List.length_append, List.length_take, hk, List.length_singleton]; omega, ?_⟩
    rw [hl, h256] at hv
    rw [← hv]
    have e : shl l = (shl l).take (n - 1) ++ [(shl l).getD (n - 1) 0] := by
      conv => lhs; rw [← List.take_append_drop (n - 1) (shl l)]
      congr 1
      rw [List.drop_eq_getElem_cons (by omega), List.getD_eq_getElem?_getD, List.getElem?_eq_getElem (by omega), Option.getD_some,
        List.drop_eq_nil_of_le (by omega)]
    conv => rhs; rw [e]
    rw [beVal_append_singleton, beVal_append_singleton, BitVec.toNat_xor]
    have hr : (if n = 16 then (0x87 : Byte) else 0x1B).toNat = if n = 16 then 0x87 else 0x1B := by split <;> rfl
    rw [hr, Nat.add_comm, Nat.add_comm (256 * _), show (256 : Nat) = 2 ^ 8 from rfl, xor_low _ _ _ 8 (BitVec.isLt _) (by split <;> decide)]
  · rw [if_neg (fun h => hc (htop.mp h)), if_pos (by omega)]
    refine ⟨by omega, ?_⟩
    rw [hv, hl, h256]
    refine Nat.mod_eq_of_lt ?_
    have : 2 ^ (8 * n) = 2 * 2 ^ (8 * n - 1) := by
      rw [← pow_succ']
      congr 1
      omega
    omega

/-! ### The context -/

/-- The context stands for the message. -/
def Rep (E : List Byte → List Byte) (n : Nat) (c : Ctx) (m : List Byte) : Prop :=
  ∃ bs last, Split n m bs last ∧ c.data = cbcChain E n bs ∧ c.left.length = n ∧ c.len = last.length ∧ c.left.take c.len = last

section
variable {E : List Byte → List Byte} {n : Nat} (hn : 0 < n) (hE : ∀ x, x.length = n → (E x).length = n)

theorem reset_rep {c : Ctx} (hc : c.left.length = n) : Rep E n (reset n c) [] :=
  ⟨[], [], ⟨by simp, rfl, by simp, fun _ => rfl⟩, rfl, hc, rfl, by simp [reset]⟩

include hE in
theorem chain_len {bs : List (List Byte)} (h : ∀ b ∈ bs, b.length = n) : (cbcChain E n bs).length = n := by
  have : ∀ (bs : List (List Byte)) (d : List Byte), d.length = n → (∀ b ∈ bs, b.length = n) → (bs.foldl (fun d b => E (xorB b d)) d).length = n := by
    intro bs
    induction bs with
    | nil => exact fun d hd _ => hd
    | cons b bs ih => exact fun d hd h => ih _ (hE _ (xorB_len (h b (by simp)) hd)) fun b hb => h b (by simp [hb])
  exact this bs _ (by simp) h

include hn hE in
theorem blocks_rep (fuel : Nat) (c : Ctx) (inp : List Byte) (hf : inp.length < fuel) (bs : List (List Byte)) (hbs : ∀ b ∈ bs, b.length = n)
    (hd : c.data = cbcChain E n bs) (hl : c.left.length = n) (h0 : inp = [] → bs = []) :
    Rep E n (blocks E n fuel c inp) (bs.flatten ++ inp) := by
  induction fuel generalizing c inp bs with
  | zero => omega
  | succ fuel ih =>
    have hdl : c.data.length = n := by rw [hd]; exact chain_len hE hbs
    unfold blocks
    by_cases hgt : inp.length > n
    · rw [if_pos hgt]
      have htk : (inp.take n).length = n := by rw [List.length_take]; omega
      have := ih ⟨E (xorB (inp.take n) c.data), xorB (inp.take n) c.data, c.len⟩ (inp.drop n) (by rw [List.length_drop]; omega) (bs ++ [inp.take n])
        (by
          intro b hb
          rcases List.mem_append.mp hb with hb | hb
          · exact hbs b hb
          · rw [List.mem_singleton.mp hb]; exact htk)
        (by unfold cbcChain; rw [List.foldl_append, List.foldl_cons, List.foldl_nil, hd]; rfl)
        (xorB_len htk hdl)
        (by
          intro h
          have := congrArg List.length h
          rw [List.length_drop, List.length_nil] at this
          omega)
      rw [List.flatten_append, List.flatten_cons, List.flatten_nil, List.append_nil, List.append_assoc, List.take_append_drop] at this
      exact this
    · rw [if_neg hgt]
      refine ⟨bs, inp, ⟨hbs, rfl, by omega, h0⟩, hd, ?_, rfl, ?_⟩
      · rw [List.length_append, List.length_drop, hl]; omega
      · exact List.take_left' rfl

include hn hE in
theorem update_rep {c : Ctx} {m : List Byte} (h : Rep E n c m) (inp : List Byte) (hi : inp.length + n < 2 ^ 32) :
    ∃ c', update E n c inp = some c' ∧ Rep E n c' (m ++ inp) := by
  obtain ⟨bs, last, S, hd, hl, hlen, hlast⟩ := h
  have hdl : c.data.length = n := by rw [hd]; exact chain_len hE S.full
  have hs := S.short
  unfold update
  by_cases h0 : c.len > 0
  · rw [if_pos h0, if_neg (by omega)]
    dsimp only
    have hne : last ≠ [] := by
      intro h
      rw [h] at hlen
      simp at hlen
      omega
    rw [hlast]
    by_cases hbig : c.len + inp.length > n
    · rw [if_pos hbig]
      have hrest : (inp.drop (n - c.len)).length ≠ 0 := by rw [List.length_drop]; omega
      rw [if_neg hrest]
      have hbl : (last ++ inp.take (n - c.len)).length = n := by
        rw [List.length_append, List.length_take, ← hlen]; omega
      have hdrop : c.left.drop n = [] := List.drop_eq_nil_of_le (by omega)
      rw [hdrop, List.append_nil]
      refine ⟨_, rfl, ?_⟩
      have := blocks_rep hn hE ((inp.drop (n - c.len)).length + 1)
        ⟨E (xorB (last ++ inp.take (n - c.len)) c.data), xorB (last ++ inp.take (n - c.len)) c.data, c.len⟩ (inp.drop (n - c.len)) (by omega)
        (bs ++ [last ++ inp.take (n - c.len)])
        (by
          intro b hb
          rcases List.mem_append.mp hb with hb | hb
          · exact S.full b hb
          · rw [List.mem_singleton.mp hb]; exact hbl)
        (by unfold cbcChain; rw [List.foldl_append, List.foldl_cons, List.foldl_nil, hd]; rfl)
        (xorB_len hbl hdl)
        (by
          intro h
          rw [h] at hrest
          exact absurd rfl hrest)
      rw [List.flatten_append, List.flatten_cons, List.flatten_nil, List.append_nil, List.append_assoc, List.append_assoc, List.take_append_drop,
        ← List.append_assoc, ← S.whole] at this
      exact this
    · rw [if_neg hbig]
      have e1 : c.len + inp.length - c.len = inp.length := by omega
      rw [e1, List.take_length, List.drop_length, if_pos List.length_nil]
      refine ⟨_, rfl, bs, last ++ inp, ⟨S.full, by rw [S.whole, List.append_assoc], by rw [List.length_append, ← hlen]; omega, ?_⟩, hd, ?_, ?_, ?_⟩
      · intro h
        exact absurd (List.append_eq_nil_iff.mp h).1 hne
      · simp only [List.length_append, List.length_drop, ← hlen, hl]; omega
      · simp only [List.length_append, ← hlen]
      · exact List.take_left' (by rw [List.length_append, ← hlen])
  · rw [if_neg h0]
    have hnil : last = [] := by
      rw [← List.length_eq_zero_iff]
      omega
    have hbs := S.empty hnil
    have hm : m = [] := by rw [S.whole, hnil, hbs]; rfl
    refine ⟨_, rfl, ?_⟩
    have := blocks_rep hn hE (inp.length + 1) c inp (by omega) bs S.full hd hl (fun _ => hbs)
    rw [hbs] at this
    rw [hm]
    exact this

end

/-- The updates with the parts of a message, one after the other. -/
def updates (f : Ctx → List Byte → Option Ctx) (c : Ctx) (parts : List (List Byte)) : Option Ctx := parts.foldlM f c

section
variable {E : List Byte → List Byte} {n : Nat} (hE : ∀ x, x.length = n → (E x).length = n)
include hE

theorem updates_rep (hn : 0 < n) (parts : List (List Byte)) (hp : ∀ p ∈ parts, p.length + n < 2 ^ 32) {c : Ctx} {m : List Byte} (h : Rep E n c m) :
    ∃ c', updates (update E n) c parts = some c' ∧ Rep E n c' (m ++ parts.flatten) := by
  induction parts generalizing c m with
  | nil => exact ⟨c, rfl, by simpa using h⟩
  | cons p ps ih =>
    obtain ⟨c1, e1, r1⟩ := update_rep hn hE h p (hp p (by simp))
    obtain ⟨c2, e2, r2⟩ := ih (fun p h => hp p (by simp [h])) r1
    refine ⟨c2, ?_, by simpa [List.append_assoc] using r2⟩
    unfold updates at e2 ⊢
    rw [List.foldlM_cons, e1]
    exact e2

/-- C76: after setting the key or restarting, whatever was done before, a message that is given in any parts gets its CMAC, for every block
cipher with blocks of 8 or 16 bytes. -/
theorem cmac_exact (hn : n = 8 ∨ n = 16) (c : Ctx) (hc : c.left.length = n) (parts : List (List Byte)) (hp : ∀ p ∈ parts, p.length + n < 2 ^ 32)
    (len : Nat) (hl : n ≤ len) :
    ∃ c1 c2 t, updates (update E n) (reset n c) parts = some c1 ∧ final E n c1 len = some (c2, t) ∧ t.length = n ∧ c2.left.length = n ∧
      IsCmac E n parts.flatten t := by
  obtain ⟨c1, e1, bs, last, S, hd, hll, hlen, hlast⟩ := updates_rep hE (by omega) parts hp (reset_rep (E := E) hc)
  rw [List.nil_append] at S
  have hdl : c1.data.length = n := by rw [hd]; exact chain_len hE S.full
  have hs := S.short
  obtain ⟨a1, a2⟩ := subkey_spec hn (hE (List.replicate n 0) (by simp))
  obtain ⟨b1, b2⟩ := subkey_spec hn a1
  have hpad : c1.len ≠ n → (last ++ (0x80 : Byte) :: List.replicate (n - last.length - 1) 0).length = n := by
    intro h
    rw [List.length_append, List.length_cons, List.length_replicate]
    omega
  have hlb : lastBlock E n c1 = if last.length = n then xorB last (subkey n (E (List.replicate n 0)))
      else xorB (last ++ 0x80 :: List.replicate (n - last.length - 1) 0) (subkey n (subkey n (E (List.replicate n 0)))) := by
    unfold lastBlock
    dsimp only
    rw [← hlen]
    by_cases h : c1.len = n
    · rw [if_pos h, if_pos h, ← hlast, h, List.take_of_length_le (by omega)]
    · rw [if_neg h, if_neg h, hlast, Nat.sub_sub]
  have hll' : (lastBlock E n c1).length = n := by
    rw [hlb]
    split
    · exact xorB_len (by assumption) a1
    · exact xorB_len (hpad (by omega)) b1
  refine ⟨c1, ⟨c1.data, xorB (lastBlock E n c1) c1.data, n⟩, E (xorB (lastBlock E n c1) c1.data), e1, ?_, hE _ (xorB_len hll' hdl), xorB_len hll' hdl, bs, last,
    _, _, S, ⟨a1, b1, a2, b2⟩, ?_⟩
  · unfold final
    rw [if_neg (by omega)]
  · rw [hlb, hd]

/-- C76: the same for CBC-MAC with the padding with zeros. -/
theorem cbcMac_exact (hn : 0 < n) (c : Ctx) (hc : c.left.length = n) (parts : List (List Byte)) (hp : ∀ p ∈ parts, p.length + n < 2 ^ 32)
    (len : Nat) (hl : n ≤ len) :
    ∃ c1 c2 t, updates (cbcUpdate E n .zeros) (reset n c) parts = some c1 ∧ cbcFinal E n .zeros c1 len = some (c2, t) ∧ t.length = n ∧
      c2.left.length = n ∧ IsCbcMac E n parts.flatten t := by
  obtain ⟨c1, e1, bs, last, S, hd, hll, hlen, hlast⟩ := updates_rep hE hn parts hp (reset_rep (E := E) hc)
  rw [List.nil_append] at S
  have hdl : c1.data.length = n := by rw [hd]; exact chain_len hE S.full
  have hs := S.short
  have hpl : (last ++ List.replicate (n - c1.len) (0 : Byte)).length = n := by
    rw [List.length_append, List.length_replicate]
    omega
  refine ⟨c1, ⟨c1.data, xorB (last ++ List.replicate (n - c1.len) 0) c1.data, n⟩, E (xorB (last ++ List.replicate (n - c1.len) 0) c1.data), ?_, ?_,
    hE _ (xorB_len hpl hdl), xorB_len hpl hdl, bs, last, S, ?_⟩
  · have : cbcUpdate E n .zeros = update E n := by
      funext c i
      unfold cbcUpdate
      rw [if_neg (by decide)]
    rw [this]
    exact e1
  · unfold cbcFinal
    rw [if_neg (by omega)]
    dsimp only
    rw [hlast]
  · rw [hlen, hd]

end

/-- The blocks of a message are determined by it. -/
theorem split_unique {n : Nat} {m : List Byte} {bs bs' : List (List Byte)} {l l' : List Byte} (h : Split n m bs l) (h' : Split n m bs' l') :
    bs = bs' ∧ l = l' := by
  induction bs generalizing m bs' with
  | nil =>
    cases bs' with
    | nil =>
      have := h.whole.symm.trans h'.whole
      simpa using this
    | cons b t =>
      exfalso
      have e := congrArg List.length (h.whole.symm.trans h'.whole)
      have hb := h'.full b (by simp)
      have hs := h.short
      simp only [List.flatten_nil, List.nil_append, List.flatten_cons, List.length_append, hb] at e
      have : l' = [] := List.length_eq_zero_iff.mp (by omega)
      cases h'.empty this
  | cons b t ih =>
    have hb := h.full b (by simp)
    cases bs' with
    | nil =>
      exfalso
      have e := congrArg List.length (h.whole.symm.trans h'.whole)
      have hs := h'.short
      simp only [List.flatten_nil, List.nil_append, List.flatten_cons, List.length_append, hb] at e
      have : l = [] := List.length_eq_zero_iff.mp (by omega)
      cases h.empty this
    | cons b' t' =>
      have hb' := h'.full b' (by simp)
      have e := h.whole.symm.trans h'.whole
      rw [List.flatten_cons, List.flatten_cons, List.append_assoc, List.append_assoc] at e
      obtain ⟨e1, e2⟩ := List.append_inj e (by rw [hb, hb'])
      obtain ⟨r1, r2⟩ := ih (m := t.flatten ++ l) (bs' := t')
        ⟨fun x hx => h.full x (by simp [hx]), rfl, h.short, fun hl => by cases h.empty hl⟩
        ⟨fun x hx => h'.full x (by simp [hx]), e2, h'.short, fun hl => by cases h'.empty hl⟩
      exact ⟨by rw [e1, r1], r2⟩

/-- C76: a message has one CMAC, so the result does not depend on the parts. -/
theorem cmac_unique {E : List Byte → List Byte} {n : Nat} {m t t' : List Byte} (h : IsCmac E n m t) (h' : IsCmac E n m t') : t = t' := by
  obtain ⟨bs, l, k1, k2, S, K, rfl⟩ := h
  obtain ⟨bs', l', k1', k2', S', K', rfl⟩ := h'
  obtain ⟨rfl, rfl⟩ := split_unique S S'
  obtain rfl := beVal_inj (K.len1.trans K'.len1.symm) (K.first.trans K'.first.symm)
  obtain rfl := beVal_inj (K.len2.trans K'.len2.symm) (K.second.trans K'.second.symm)
  rfl

/-- C76: what is refused: a buffer shorter than a block; a CBC-MAC whose padding is not set or not the one with zeros. -/
theorem final_refuses (E : List Byte → List Byte) (n : Nat) (c : Ctx) (len : Nat) (p : Pad) (inp : List Byte) :
    (len < n → final E n c len = none ∧ cbcFinal E n p c len = none) ∧ (p ≠ .zeros → cbcFinal E n p c len = none) ∧
    (p = .unset → cbcUpdate E n p c inp = none) := by
  refine ⟨fun h => ⟨by unfold final; rw [if_pos h], by unfold cbcFinal; rw [if_pos h]⟩, fun h => ?_, fun h => by unfold cbcUpdate; rw [if_pos h]⟩
  unfold cbcFinal
  split
  · rfl
  cases p with
  | zeros => exact absurd rfl h
  | unset => rfl
  | other => rfl

/-- C76, the finding: with the padding with zeros, a message whose last block is not full has the same CBC-MAC as that message with a zero byte
appended. -/
theorem cbcMac_collision {E : List Byte → List Byte} {n : Nat} {m t : List Byte} (hm : m.length % n ≠ 0) (h : IsCbcMac E n m t) :
    IsCbcMac E n (m ++ [0]) t := by
  obtain ⟨bs, l, S, rfl⟩ := h
  have hlen : bs.flatten.length = n * bs.length := by
    have := S.full
    clear S
    induction bs with
    | nil => simp
    | cons b bs ih =>
      rw [List.flatten_cons, List.length_append, ih (fun x hx => this x (by simp [hx])), this b (by simp), List.length_cons]
      ring
  have hlt : l.length < n := by
    rcases Nat.lt_or_eq_of_le S.short with h | h
    · exact h
    · exfalso
      apply hm
      rw [S.whole, List.length_append, hlen, h]
      simp
  refine ⟨bs, l ++ [0], ⟨S.full, by rw [S.whole, List.append_assoc], by rw [List.length_append, List.length_singleton]; omega, fun h => by simp at h⟩, ?_⟩
  rw [List.append_assoc, List.length_append, List.length_singleton, show n - l.length = n - (l.length + 1) + 1 by omega, List.replicate_succ]
  rfl

/-! ### The statements are not empty -/

/-- A function in place of the cipher. -/
def exE (x : List Byte) : List Byte := x.reverse.map (· + 0x91)

example : ∀ x : List Byte, x.length = 8 → (exE x).length = 8 := fun x h => by simp [exE, h]
example : (updates (update exE 8) (reset 8 ⟨[], List.replicate 8 7, 3⟩) [[1, 2, 3], [4, 5, 6, 7, 8, 9], [], [10]]).bind (fun c => (final exE 8 c 8).map (·.2)) =
    (updates (update exE 8) (reset 8 ⟨[], List.replicate 8 0, 0⟩) [[1, 2, 3, 4, 5, 6, 7, 8, 9, 10]]).bind (fun c => (final exE 8 c 9).map (·.2)) := by
  decide +kernel
example : (updates (cbcUpdate exE 8 .zeros) (reset 8 ⟨[], List.replicate 8 7, 3⟩) [[1, 2, 3]]).bind (fun c => (cbcFinal exE 8 .zeros c 8).map (·.2)) =
    some [0x91, 0x91, 0x91, 0x91, 0x91, 0x94, 0x93, 0x92] := by decide +kernel
example : Split 8 [1, 2, 3, 4, 5, 6, 7, 8, 9, 10] [[1, 2, 3, 4, 5, 6, 7, 8]] [9, 10] := ⟨by decide, rfl, by decide, by decide⟩
example : double 8 (2 ^ 63 + 1) = 0x1B ^^^ 2 := by decide +kernel

end Verif.Crypto.Cmac
