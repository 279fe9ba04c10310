import Verif.Crypto.Siphash.Spec
import Mathlib.Tactic.NormNum
import Mathlib.Tactic.Ring

/-! C77: SipHash. -/
namespace Verif.Crypto.Siphash
open Verif.Common Spec

theorem leVal_take_succ (b : List Byte) (n : Nat) (h : n < b.length) : leVal (b.take (n + 1)) = leVal (b.take n) + 256 ^ n * (b.getD n 0).toNat := by
  rw [List.take_succ_eq_append_getElem h, leVal_append, List.length_take, Nat.min_eq_left (by omega), List.getD_eq_getElem?_getD,
    List.getElem?_eq_getElem h, Option.getD_some]
  simp [leVal]

theorem load_val (b : List Byte) (n : Nat) (hn : n ≤ 8) (h : n ≤ b.length) : (load b n).toNat = leVal (b.take n) := by
  induction n with
  | zero => simp [load, leVal]
  | succ n ih =>
    have hb := (b.getD n 0).isLt
    have hl := leVal_lt (b.take n)
    rw [List.length_take, Nat.min_eq_left (by omega)] at hl
    have h256 : 256 ^ n = 2 ^ (n * 8) := by rw [Nat.mul_comm, pow_mul]; norm_num
    have hs : 2 ^ (n * 8) * (b.getD n 0).toNat < 2 ^ 64 := by
      have h1 : 2 ^ (n * 8) * (b.getD n 0).toNat < 2 ^ (n * 8) * 2 ^ 8 := Nat.mul_lt_mul_of_pos_left hb (Nat.two_pow_pos _)
      rw [← pow_add] at h1
      exact Nat.lt_of_lt_of_le h1 (Nat.pow_le_pow_right (by decide) (by omega))
    rw [leVal_take_succ b n (by omega), load, BitVec.toNat_or, ih (by omega) (by omega), BitVec.toNat_shiftLeft, BitVec.toNat_setWidth,
      Nat.mod_eq_of_lt (Nat.lt_of_lt_of_le hb (by decide)), Nat.shiftLeft_eq, Nat.mul_comm (b.getD n 0).toNat, Nat.mod_eq_of_lt hs, Nat.or_comm,
      ← Nat.two_pow_add_eq_or_of_lt (by rw [← h256]; exact hl), h256, Nat.add_comm]

theorem load_word (b : List Byte) (h : 8 ≤ b.length) : load b 8 = word (b.take 8) := by
  apply BitVec.eq_of_toNat_eq
  have hl := leVal_lt (b.take 8)
  rw [List.length_take, Nat.min_eq_left h] at hl
  rw [load_val b 8 (by omega) h, word, BitVec.toNat_ofNat, Nat.mod_eq_of_lt (Nat.lt_of_lt_of_le hl (by decide))]

theorem dealFrom_eq (w : BitVec 64) (b : List Byte) (n : Nat) : dealFrom w b n = w ||| load b n := by
  induction n generalizing w with
  | zero => simp [dealFrom, load]
  | succ n ih => rw [dealFrom, ih, load, BitVec.or_assoc, BitVec.or_comm (load b n), Nat.mul_comm]

/-- The last word. -/
theorem dealLast_word (b : List Byte) (n len : Nat) (hn : n ≤ 7) (hb : n ≤ b.length) :
    dealLast (BitVec.ofNat 64 len <<< 56) b n = word (b.take n ++ List.replicate (7 - n) 0 ++ [BitVec.ofNat 8 len]) := by
  have hl := leVal_lt (b.take n)
  rw [List.length_take, Nat.min_eq_left hb] at hl
  have hl' : leVal (b.take n) < 2 ^ 56 := Nat.lt_of_lt_of_le hl (by
    rw [show (2 : Nat) ^ 56 = 256 ^ 7 from rfl]
    exact Nat.pow_le_pow_right (by decide) hn)
  have hz : ∀ k, leVal (List.replicate k (0 : Byte)) = 0 := by
    intro k
    induction k with
    | zero => rfl
    | succ k ih => rw [List.replicate_succ, leVal, ih]; rfl
  apply BitVec.eq_of_toNat_eq
  rw [dealLast, if_pos hn, dealFrom_eq, BitVec.toNat_or, load_val b n (by omega) hb, BitVec.toNat_shiftLeft, BitVec.toNat_ofNat, Nat.shiftLeft_eq, word,
    leVal_append, leVal_append, hz, Nat.mul_zero, Nat.add_zero, List.length_append, List.length_take, List.length_replicate, Nat.min_eq_left hb,
    show n + (7 - n) = 7 by omega, BitVec.toNat_ofNat]
  have e1 : len % 2 ^ 64 * 2 ^ 56 % 2 ^ 64 = 2 ^ 56 * (len % 256) := by omega
  have e2 : leVal [BitVec.ofNat 8 len] = len % 256 := by simp [leVal]
  rw [e1, e2, ← Nat.two_pow_add_eq_or_of_lt hl']
  omega

theorem lrot_eq (x : BitVec 64) (k : Nat) (hk : k < 64) : lrot x k = x.rotateLeft k := by
  rw [lrot, BitVec.rotateLeft_def, Nat.mod_eq_of_lt hk]

theorem sipround_eq (s : St) : sipround s = round s := by
  unfold sipround round
  simp only [lrot_eq _ 13 (by decide), lrot_eq _ 32 (by decide), lrot_eq _ 16 (by decide), lrot_eq _ 21 (by decide), lrot_eq _ 17 (by decide)]

theorem rounds_eq (n : Nat) (s : St) : rounds n s = round^[n] s := by
  induction n generalizing s with
  | zero => rfl
  | succ n ih => rw [rounds, ih, sipround_eq]; rfl

theorem updateState_eq (w : BitVec 64) (s : St) (n : Nat) : updateState w s n = compress n s w := by
  unfold updateState compress
  rw [rounds_eq]

theorem store_eq (x : BitVec 64) : store x = leBytes 8 x.toNat := by
  have hx := x.isLt
  have : ∀ i, (x >>> (i * 8)).setWidth 8 = BitVec.ofNat 8 (x.toNat / 256 ^ i) := by
    intro i
    apply BitVec.eq_of_toNat_eq
    rw [BitVec.toNat_setWidth, BitVec.toNat_ushiftRight, BitVec.toNat_ofNat, Nat.shiftRight_eq_div_pow, Nat.mul_comm, pow_mul]
    rfl
  unfold store
  simp only [this]
  simp [List.range, List.range.loop, leBytes, Nat.div_div_eq_div_mul]

/-! ### The context -/

/-- The context has the key. -/
structure Keyed (c : Ctx) (key : List Byte) : Prop where
  size : c.hashSize = 8 ∨ c.hashSize = 16
  start : c.start = Spec.start key (decide (c.hashSize = 16))

/-- The context stands for the message. -/
def Rep (c : Ctx) (m : List Byte) : Prop :=
  ∃ (ws : List (List Byte)) (rest : List Byte), (∀ w ∈ ws, w.length = 8) ∧ m = ws.flatten ++ rest ∧ rest.length < 8 ∧
    c.st = ws.foldl (fun s w => compress c.cRounds s (word w)) c.start ∧ c.offset = rest.length ∧ c.rem.length = 8 ∧ c.rem.take c.offset = rest ∧
    c.acc = m.length

/-- The fields that stay. -/
def Same (c c' : Ctx) : Prop := c'.start = c.start ∧ c'.cRounds = c.cRounds ∧ c'.dRounds = c.dRounds ∧ c'.hashSize = c.hashSize

theorem put_len {r x : List Byte} {i : Nat} (h : i + x.length ≤ r.length) : (put r i x).length = r.length := by
  unfold put
  rw [List.length_append, List.length_append, List.length_take, List.length_drop]
  omega

theorem put_take {r x : List Byte} {i : Nat} (h : i ≤ r.length) : (put r i x).take (i + x.length) = r.take i ++ x := by
  unfold put
  exact List.take_left' (by rw [List.length_append, List.length_take]; omega)

theorem reinit_rep (c : Ctx) : Rep (reinit c) [] :=
  ⟨[], [], by simp, rfl, by simp, rfl, rfl, by simp [reinit], by simp [reinit], rfl⟩

theorem words_rep (fuel : Nat) (c : Ctx) (inp : List Byte) (hf : inp.length < fuel) (ws : List (List Byte)) (hw : ∀ w ∈ ws, w.length = 8)
    (hs : c.st = ws.foldl (fun s w => compress c.cRounds s (word w)) c.start) (hr : c.rem.length = 8) (ha : c.acc = (ws.flatten ++ inp).length) :
    Rep (words fuel c inp) (ws.flatten ++ inp) ∧ Same c (words fuel c inp) := by
  induction fuel generalizing c inp ws with
  | zero => omega
  | succ fuel ih =>
    unfold words
    by_cases h8 : inp.length ≥ 8
    · rw [if_pos h8, load_word inp h8, updateState_eq]
      have hf' : ws.flatten ++ inp = (ws ++ [inp.take 8]).flatten ++ inp.drop 8 := by
        rw [List.flatten_append, List.flatten_cons, List.flatten_nil, List.append_nil, List.append_assoc, List.take_append_drop]
      obtain ⟨r, s⟩ := ih { c with st := compress c.cRounds c.st (word (inp.take 8)) } (inp.drop 8) (by rw [List.length_drop]; omega) (ws ++ [inp.take 8])
        (by
          intro b hb
          rcases List.mem_append.mp hb with hb | hb
          · exact hw b hb
          · rw [List.mem_singleton.mp hb, List.length_take]; omega)
        (by simp only [List.foldl_append, List.foldl_cons, List.foldl_nil, hs]) hr (by rw [← hf']; exact ha)
      rw [hf']
      exact ⟨r, s⟩
    · rw [if_neg h8]
      refine ⟨⟨ws, inp, hw, rfl, by omega, hs, rfl, ?_, ?_, ha⟩, rfl, rfl, rfl, rfl⟩
      · show (put c.rem 0 inp).length = 8
        rw [put_len (by omega), hr]
      · have := put_take (r := c.rem) (x := inp) (i := 0) (by omega)
        rw [Nat.zero_add, List.take_zero, List.nil_append] at this
        exact this

theorem update_rep {c : Ctx} {m : List Byte} (h : Rep c m) (inp : List Byte) (hi : m.length + inp.length < 2 ^ 32) :
    ∃ c', update c inp = some c' ∧ Rep c' (m ++ inp) ∧ Same c c' := by
  obtain ⟨ws, rest, hw, hm, hrl, hs, ho, hr, hrest, ha⟩ := h
  unfold update
  rw [if_neg (by omega)]
  dsimp only
  by_cases h0 : c.offset ≠ 0
  · rw [if_pos h0]
    by_cases hsm : inp.length < 8 - c.offset
    · rw [if_pos hsm]
      refine ⟨_, rfl, ⟨ws, rest ++ inp, hw, by rw [hm, List.append_assoc], by rw [List.length_append]; omega, hs, ?_, ?_, ?_, ?_⟩, rfl, rfl, rfl, rfl⟩
      · rw [List.length_append, ← ho]
      · show (put c.rem c.offset inp).length = 8
        rw [put_len (by omega), hr]
      · show (put c.rem c.offset inp).take (c.offset + inp.length) = _
        rw [put_take (by omega), hrest]
      · show c.acc + inp.length = _
        rw [ha, List.length_append]
    · rw [if_neg hsm]
      have htl : (inp.take (8 - c.offset)).length = 8 - c.offset := by rw [List.length_take]; omega
      have hpl : (put c.rem c.offset (inp.take (8 - c.offset))).length = 8 := by rw [put_len (by omega), hr]
      have hput : (put c.rem c.offset (inp.take (8 - c.offset))).take 8 = rest ++ inp.take (8 - c.offset) := by
        have := put_take (r := c.rem) (x := inp.take (8 - c.offset)) (i := c.offset) (by omega)
        rw [htl, show c.offset + (8 - c.offset) = 8 by omega, hrest] at this
        exact this
      rw [load_word _ (by omega), hput, updateState_eq]
      have hf : m ++ inp = (ws ++ [rest ++ inp.take (8 - c.offset)]).flatten ++ inp.drop (8 - c.offset) := by
        rw [List.flatten_append, List.flatten_cons, List.flatten_nil, List.append_nil, List.append_assoc, List.append_assoc, List.take_append_drop,
          ← List.append_assoc, ← hm]
      obtain ⟨r, s⟩ := words_rep (inp.length + 1) { c with
          acc := c.acc + inp.length
          rem := put c.rem c.offset (inp.take (8 - c.offset))
          st := compress c.cRounds c.st (word (rest ++ inp.take (8 - c.offset))) } (inp.drop (8 - c.offset)) (by rw [List.length_drop]; omega)
        (ws ++ [rest ++ inp.take (8 - c.offset)])
        (by
          intro b hb
          rcases List.mem_append.mp hb with hb | hb
          · exact hw b hb
          · rw [List.mem_singleton.mp hb, List.length_append, htl]; omega)
        (by simp only [List.foldl_append, List.foldl_cons, List.foldl_nil, hs]) hpl (by rw [← hf, List.length_append, ← ha])
      rw [← hf] at r
      exact ⟨_, rfl, r, s⟩
  · rw [if_neg h0]
    have hnil : rest = [] := List.length_eq_zero_iff.mp (by omega)
    rw [hnil, List.append_nil] at hm
    obtain ⟨r, s⟩ := words_rep (inp.length + 1) { c with acc := c.acc + inp.length } inp (by omega) ws hw hs hr
      (by rw [← hm, List.length_append, ← ha])
    rw [← hm] at r
    exact ⟨_, rfl, r, s⟩

/-- The updates with the parts of a message, one after the other. -/
def updates (c : Ctx) (parts : List (List Byte)) : Option Ctx := parts.foldlM update c

theorem Same.trans {a b c : Ctx} (h : Same a b) (h' : Same b c) : Same a c :=
  ⟨h'.1.trans h.1, h'.2.1.trans h.2.1, h'.2.2.1.trans h.2.2.1, h'.2.2.2.trans h.2.2.2⟩

theorem updates_rep (parts : List (List Byte)) {c : Ctx} {m : List Byte} (h : Rep c m) (hp : m.length + parts.flatten.length < 2 ^ 32) :
    ∃ c', updates c parts = some c' ∧ Rep c' (m ++ parts.flatten) ∧ Same c c' := by
  induction parts generalizing c m with
  | nil => exact ⟨c, rfl, by simpa using h, rfl, rfl, rfl, rfl⟩
  | cons p ps ih =>
    rw [List.flatten_cons, List.length_append] at hp
    obtain ⟨c1, e1, r1, s1⟩ := update_rep h p (by omega)
    obtain ⟨c2, e2, r2, s2⟩ := ih r1 (by rw [List.length_append]; omega)
    refine ⟨c2, ?_, by simpa [List.append_assoc] using r2, s1.trans s2⟩
    unfold updates at e2 ⊢
    rw [List.foldlM_cons, e1]
    exact e2

theorem pad_split {ws : List (List Byte)} {rest : List Byte} (hw : ∀ w ∈ ws, w.length = 8) (hr : rest.length < 8) :
    pad (ws.flatten ++ rest) =
      (ws ++ [rest ++ List.replicate (7 - rest.length) 0 ++ [BitVec.ofNat 8 (ws.flatten ++ rest).length]]).flatten := by
  have hlen : ws.flatten.length = 8 * ws.length := by
    induction ws with
    | nil => simp
    | cons b bs ih =>
      rw [List.flatten_cons, List.length_append, ih (fun x hx => hw x (by simp [hx])), hw b (by simp), List.length_cons]
      omega
  have e : (ws.flatten ++ rest).length % 8 = rest.length := by
    rw [List.length_append, hlen]
    omega
  unfold pad
  rw [e, List.flatten_append, List.flatten_cons, List.flatten_nil, List.append_nil]
  simp only [List.append_assoc]

/-- C77: a key of 16 bytes is taken, and no other; the context is then as after a restart. -/
theorem init_exact (c : Ctx) (key : List Byte) (hs : c.hashSize = 8 ∨ c.hashSize = 16) :
    (key.length = 16 → ∃ c', init c key = some c' ∧ Keyed c' key ∧ c' = reinit c' ∧ c'.cRounds = c.cRounds ∧ c'.dRounds = c.dRounds ∧
      c'.hashSize = c.hashSize) ∧ (key.length ≠ 16 → init c key = none) := by
  constructor
  · intro hk
    have e0 := load_word key (by omega)
    have e1 := load_word (key.drop 8) (by rw [List.length_drop]; omega)
    rw [List.take_of_length_le (by rw [List.length_drop]; omega)] at e1
    unfold init
    rw [if_neg (by omega), if_neg (fun h => h hs), e0, e1]
    refine ⟨_, rfl, ⟨hs, ?_⟩, rfl, rfl, rfl, rfl⟩
    unfold Spec.start
    rcases hs with h | h <;> simp [h]
  · intro hk
    unfold init
    rw [if_pos hk]

/-- C77: after the key is set, or after restarting a context that has the key whatever was done with it, a message of less than 2^32 bytes that is given
in any parts gets its SipHash, and the context still has the key. -/
theorem sip_exact (c : Ctx) (key : List Byte) (hk : Keyed c key) (parts : List (List Byte)) (hp : parts.flatten.length < 2 ^ 32) (len : Nat)
    (hl : c.hashSize ≤ len) :
    ∃ c1 c2 t, updates (reinit c) parts = some c1 ∧ final c1 len = some (c2, t) ∧ Keyed c2 key ∧ t.length = c.hashSize ∧
      IsSip c.cRounds c.dRounds (decide (c.hashSize = 16)) key parts.flatten t := by
  obtain ⟨c1, e1, ⟨ws, rest, hw, hm, hrl, hs, ho, hr, hrest, ha⟩, t1, t2, t3, t4⟩ := updates_rep parts (reinit_rep c) (by simpa using hp)
  rw [List.nil_append] at hm ha
  replace t1 : c1.start = c.start := t1
  replace t2 : c1.cRounds = c.cRounds := t2
  replace t3 : c1.dRounds = c.dRounds := t3
  replace t4 : c1.hashSize = c.hashSize := t4
  have hlast : dealLast (BitVec.ofNat 64 c1.acc <<< 56) c1.rem c1.offset =
      word (rest ++ List.replicate (7 - rest.length) 0 ++ [BitVec.ofNat 8 (ws.flatten ++ rest).length]) := by
    rw [dealLast_word _ _ _ (by omega) (by omega), hrest, ho, ha, hm]
  have hpad := pad_split hw hrl
  rw [← hm] at hpad hlast
  have hst : compress c.cRounds c1.st (word (rest ++ List.replicate (7 - rest.length) 0 ++ [BitVec.ofNat 8 parts.flatten.length])) =
      (ws ++ [rest ++ List.replicate (7 - rest.length) 0 ++ [BitVec.ofNat 8 parts.flatten.length]]).foldl (fun s w => compress c.cRounds s (word w))
        (Spec.start key (decide (c.hashSize = 16))) := by
    rw [List.foldl_append, List.foldl_cons, List.foldl_nil, hs, t1, t2, hk.start]
  have hall : ∀ w ∈ ws ++ [rest ++ List.replicate (7 - rest.length) 0 ++ [BitVec.ofNat 8 parts.flatten.length]], w.length = 8 := by
    intro b hb
    rcases List.mem_append.mp hb with hb | hb
    · exact hw b hb
    · rw [List.mem_singleton.mp hb]
      simp only [List.length_append, List.length_replicate, List.length_singleton]
      omega
  have hlb : ∀ x, (leBytes 8 x).length = 8 := fun x => by simp [leBytes]
  have hfl : ∀ s, (finish c.dRounds (decide (c.hashSize = 16)) s).length = c.hashSize := by
    intro s
    unfold finish
    rcases hk.size with h | h <;> simp [h, hlb]
  have hfin : ∃ s, final c1 len = some ({ c1 with st := s }, finish c.dRounds (decide (c.hashSize = 16)) (compress c.cRounds c1.st
      (word (rest ++ List.replicate (7 - rest.length) 0 ++ [BitVec.ofNat 8 parts.flatten.length])))) := by
    unfold final
    rw [if_neg (by omega)]
    simp only [hlast, updateState_eq, rounds_eq, store_eq, t2, t3, t4]
    unfold finish
    rcases hk.size with h | h
    · simp only [h, if_true, show decide ((8 : Nat) = 16) = false from rfl, Bool.false_eq_true, if_false]
      exact ⟨_, rfl⟩
    · simp only [h, show ¬ ((16 : Nat) = 8) by decide, if_false, decide_true, if_true]
      exact ⟨_, rfl⟩
  obtain ⟨s, hfin⟩ := hfin
  rw [hst] at hfin
  refine ⟨c1, _, _, e1, hfin, ⟨?_, ?_⟩, hfl _, _, hall, hpad, rfl⟩
  · show c1.hashSize = 8 ∨ c1.hashSize = 16
    rw [t4]; exact hk.size
  · show c1.start = Spec.start key (decide (c1.hashSize = 16))
    rw [t1, t4]; exact hk.start

/-- C77: a message has one SipHash, so the result does not depend on the parts. -/
theorem sip_unique {c d : Nat} {long : Bool} {key m t t' : List Byte} (h : IsSip c d long key m t) (h' : IsSip c d long key m t') : t = t' := by
  have uniq : ∀ (ws ws' : List (List Byte)), (∀ w ∈ ws, w.length = 8) → (∀ w ∈ ws', w.length = 8) → ws.flatten = ws'.flatten → ws = ws' := by
    intro ws
    induction ws with
    | nil =>
      intro ws' _ h' e
      cases ws' with
      | nil => rfl
      | cons b t =>
        have := congrArg List.length e
        simp [h' b (by simp)] at this
        omega
    | cons a s ih =>
      intro ws' h h' e
      cases ws' with
      | nil =>
        have := congrArg List.length e
        simp [h a (by simp)] at this
      | cons b t =>
        rw [List.flatten_cons, List.flatten_cons] at e
        obtain ⟨e1, e2⟩ := List.append_inj e (by rw [h a (by simp), h' b (by simp)])
        rw [e1, ih t (fun w hw => h w (by simp [hw])) (fun w hw => h' w (by simp [hw])) e2]
  obtain ⟨ws, a, b, rfl⟩ := h
  obtain ⟨ws', a', b', rfl⟩ := h'
  rw [uniq ws ws' a a' (b.symm.trans b')]

/-- C77: what is refused: a part with which the message would have 2^32 bytes or more, and a buffer that is too short. -/
theorem refuses (c c1 : Ctx) (parts : List (List Byte)) (hp : parts.flatten.length < 2 ^ 32) (h : updates (reinit c) parts = some c1)
    (inp : List Byte) (len : Nat) :
    (2 ^ 32 ≤ parts.flatten.length + inp.length → update c1 inp = none) ∧ (len < c.hashSize → final c1 len = none) := by
  obtain ⟨c', e, ⟨-, -, -, -, -, -, -, -, -, ha⟩, -, -, -, t4⟩ := updates_rep parts (reinit_rep c) (by simpa using hp)
  rw [e] at h
  cases h
  rw [List.nil_append] at ha
  refine ⟨fun h => ?_, fun h => ?_⟩
  · unfold update
    rw [if_pos (by omega)]
  · unfold final
    rw [t4]
    exact if_pos h

/-! ### The statements are not empty -/

/-- A context as it is made for SipHash-2-4. -/
def fresh (size : Nat) : Ctx := ⟨⟨0, 0, 0, 0⟩, ⟨0, 0, 0, 0⟩, 2, 4, size, 0, 0, List.replicate 8 0⟩

/-- The bytes 0 to n - 1. -/
def bytes (n : Nat) : List Byte := (List.range n).map (BitVec.ofNat 8)

/-- The example of appendix A of the paper: the key 00 to 0f and the message 00 to 0e. -/
example : (((init (fresh 8) (bytes 16)).bind fun c => updates c [(bytes 15).take 3, (bytes 15).drop 3]).bind fun c => (final c 8).map (·.2)) =
    some [0xe5, 0x45, 0xbe, 0x49, 0x61, 0xca, 0x29, 0xa1] := by decide +kernel
example : (((init (fresh 16) (bytes 16)).bind fun c => updates c []).bind fun c => (final c 16).map (·.2)) =
    some [0xa3, 0x81, 0x7f, 0x04, 0xba, 0x25, 0xa8, 0xe6, 0x6d, 0xf6, 0x72, 0x14, 0xc7, 0x55, 0x02, 0x93] := by decide +kernel
example : ∃ c', init (fresh 8) (bytes 16) = some c' ∧ Keyed c' (bytes 16) :=
  let ⟨c', h, k, _⟩ := (init_exact (fresh 8) (bytes 16) (Or.inl rfl)).1 rfl
  ⟨c', h, k⟩

end Verif.Crypto.Siphash
