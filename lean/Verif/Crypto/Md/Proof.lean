import Verif.Crypto.Md.Model
import Mathlib.Tactic.Ring
import Mathlib.Tactic.Linarith

namespace Verif.Crypto.Md

open Verif.Common

variable {σ : Type} {W : Nat}

/-! ## Blocks -/

theorem multi_add (comp : σ → List Byte → σ) (B a b : Nat) (h : σ) (d : List Byte) :
    multi comp B (a + b) h d = multi comp B b (multi comp B a h d) (d.drop (a * B)) := by
  induction a generalizing h d with
  | zero => simp [multi]
  | succ a ih =>
    rw [Nat.succ_add, multi, multi, ih, List.drop_drop]
    congr 2
    ring

/-- Only the first `n * B` bytes count. -/
theorem multi_append (comp : σ → List Byte → σ) (B n : Nat) (h : σ) (d e : List Byte)
    (hn : n * B ≤ d.length) : multi comp B n h (d ++ e) = multi comp B n h d := by
  induction n generalizing h d with
  | zero => rfl
  | succ n ih =>
    have : (n + 1) * B = n * B + B := by ring
    have hB : B ≤ d.length := by nlinarith
    rw [multi, multi, List.take_append_of_le_length hB, List.drop_append_of_le_length hB,
      ih _ _ (by rw [List.length_drop]; omega)]

/-- Chaining value after the whole blocks of `P`. -/
def chain (comp : σ → List Byte → σ) (B : Nat) (iv : σ) (P : List Byte) : σ :=
  multi comp B (P.length / B) iv P

theorem chain_append (comp : σ → List Byte → σ) (B : Nat) (hB : 0 < B) (iv : σ) (P d : List Byte)
    (hP : B ∣ P.length) :
    chain comp B iv (P ++ d) = multi comp B (d.length / B) (chain comp B iv P) d := by
  obtain ⟨q, hq⟩ := hP
  have hdiv : (P ++ d).length / B = q + d.length / B := by
    rw [List.length_append, hq, Nat.mul_add_div hB]
  have hq' : P.length / B = q := by rw [hq, Nat.mul_div_cancel_left _ hB]
  rw [chain, hdiv, multi_add, chain, hq', multi_append _ _ _ _ _ _ (by rw [hq, Nat.mul_comm]),
    List.drop_left' (by rw [hq, Nat.mul_comm])]

theorem multi_one (comp : σ → List Byte → σ) (B : Nat) (h : σ) (d : List Byte) (hd : d.length = B) :
    multi comp B 1 h d = comp h d := by
  rw [multi, multi, List.take_of_length_le (by omega)]

theorem chain_block (comp : σ → List Byte → σ) (B : Nat) (hB : 0 < B) (iv : σ) (P d : List Byte)
    (hP : B ∣ P.length) (hd : d.length = B) :
    chain comp B iv (P ++ d) = comp (chain comp B iv P) d := by
  rw [chain_append _ _ hB _ _ _ hP, hd, Nat.div_self hB, multi_one _ _ _ _ hd]

theorem chain_short (comp : σ → List Byte → σ) (B : Nat) (hB : 0 < B) (iv : σ) (P d : List Byte)
    (hP : B ∣ P.length) (hd : d.length < B) : chain comp B iv (P ++ d) = chain comp B iv P := by
  rw [chain_append _ _ hB _ _ _ hP, Nat.div_eq_of_lt hd, multi]

/-- The part of `P` that does not fill a block. -/
def rest (B : Nat) (P : List Byte) : List Byte := P.drop (P.length / B * B)
/-- The whole blocks of `P`. -/
def whole (B : Nat) (P : List Byte) : List Byte := P.take (P.length / B * B)

theorem whole_rest (B : Nat) (P : List Byte) : whole B P ++ rest B P = P := List.take_append_drop _ _

theorem whole_dvd (B : Nat) (P : List Byte) : B ∣ (whole B P).length := by
  rw [whole, List.length_take, Nat.min_eq_left (Nat.div_mul_le_self _ _)]
  exact Nat.dvd_mul_left _ _

theorem rest_length (B : Nat) (P : List Byte) : (rest B P).length = P.length % B := by
  rw [rest, List.length_drop]
  have := Nat.div_add_mod P.length B
  rw [Nat.mul_comm] at this
  omega

theorem rest_append (B : Nat) (hB : 0 < B) (P d : List Byte) (hP : B ∣ P.length) (hd : d.length < B) :
    rest B (P ++ d) = d := by
  obtain ⟨q, hq⟩ := hP
  have hdiv : (P ++ d).length / B = q := by
    rw [List.length_append, hq, Nat.mul_add_div hB, Nat.div_eq_of_lt hd, Nat.add_zero]
  rw [rest, hdiv, List.drop_left' (by rw [hq, Nat.mul_comm])]

theorem rest_dvd (B : Nat) (P : List Byte) (hP : B ∣ P.length) : rest B P = [] := by
  apply List.eq_nil_of_length_eq_zero
  rw [rest_length]
  exact Nat.eq_zero_of_dvd_of_lt hP |> fun _ => Nat.mod_eq_zero_of_dvd hP

theorem chain_whole (comp : σ → List Byte → σ) (B : Nat) (hB : 0 < B) (iv : σ) (P : List Byte) :
    chain comp B iv P = chain comp B iv (whole B P) := by
  conv_lhs => rw [← whole_rest B P]
  exact chain_short _ _ hB _ _ _ (whole_dvd B P) (by rw [rest_length]; exact Nat.mod_lt _ hB)

/-! ## The buffer invariant -/

/-- `c` has absorbed `P`. -/
structure Buf (comp : σ → List Byte → σ) (B : Nat) (iv : σ) (c : Ctx σ W) (P : List Byte) : Prop where
  h : c.h = chain comp B iv P
  num : c.num = P.length % B
  len : c.block.length = B
  buf : c.block.take c.num = rest B P

theorem buf_counters (comp : σ → List Byte → σ) (B : Nat) (iv : σ) (c : Ctx σ W) (P : List Byte)
    (hb : Buf comp B iv c P) (lo hi : BitVec W) (e : Bool) :
    Buf comp B iv { c with lo := lo, hi := hi, err := e } P := ⟨hb.1, hb.2, hb.3, hb.4⟩

theorem copyTo_spec (b : List Byte) (off : Nat) (s : List Byte) (h : off + s.length ≤ b.length) :
    ∃ b', copyTo b off s = some b' ∧ b'.length = b.length ∧
      b'.take (off + s.length) = b.take off ++ s ∧ b' = b.take off ++ s ++ b.drop (off + s.length) := by
  refine ⟨_, by rw [copyTo, if_pos h], ?_, ?_, rfl⟩
  · simp only [List.length_append, List.length_take, List.length_drop]; omega
  · rw [List.take_left']
    simp only [List.length_append, List.length_take]; omega

theorem copy_spec (comp : σ → List Byte → σ) (B : Nat) (hB : 0 < B) (iv : σ) (c : Ctx σ W) (P d : List Byte)
    (hb : Buf comp B iv c P) (hd : d.length < B - c.num) :
    ∃ b, copyTo c.block c.num d = some b ∧
      Buf comp B iv { c with block := b, num := c.num + d.length } (P ++ d) := by
  obtain ⟨b, h1, h2, h3, -⟩ := copyTo_spec c.block c.num d (by rw [hb.len]; omega)
  have hr := rest_length B P
  have e : P ++ d = whole B P ++ (rest B P ++ d) := by
    rw [← List.append_assoc, whole_rest]
  have hlt : (rest B P ++ d).length < B := by
    rw [List.length_append, hr, ← hb.num]; omega
  refine ⟨b, h1, ?_, ?_, by rw [← hb.len]; exact h2, ?_⟩
  · show c.h = _
    rw [hb.h, e, chain_short _ _ hB _ _ _ (whole_dvd _ _) hlt, ← chain_whole _ _ hB]
  · show c.num + d.length = _
    rw [e, List.length_append, List.length_append, hr]
    obtain ⟨q, hq⟩ := whole_dvd B P
    rw [hq, Nat.mul_add_mod, Nat.mod_eq_of_lt (by rw [← hb.num]; omega), hb.num]
  · show b.take (c.num + d.length) = _
    rw [h3, hb.buf, e, rest_append _ hB _ _ (whole_dvd _ _) hlt]

theorem fill_spec (comp : σ → List Byte → σ) (B : Nat) (hB : 0 < B) (iv : σ) (c : Ctx σ W) (P d : List Byte)
    (hb : Buf comp B iv c P) (hd : B - c.num ≤ d.length) :
    ∃ b, copyTo c.block c.num (d.take (B - c.num)) = some b ∧ b.length = B ∧
      B ∣ (P ++ d.take (B - c.num)).length ∧
      comp c.h b = chain comp B iv (P ++ d.take (B - c.num)) := by
  have hn : c.num < B := by rw [hb.num]; exact Nat.mod_lt _ hB
  have hl : (d.take (B - c.num)).length = B - c.num := by rw [List.length_take]; omega
  obtain ⟨b, h1, h2, h3, h4⟩ := copyTo_spec c.block c.num (d.take (B - c.num)) (by rw [hb.len, hl]; omega)
  have hbl : b.length = B := by rw [h2, hb.len]
  have hbe : b = rest B P ++ d.take (B - c.num) := by
    rw [← hb.buf, ← h3, List.take_of_length_le]
    rw [hl, hbl]; omega
  have e : P ++ d.take (B - c.num) = whole B P ++ b := by
    rw [hbe, ← List.append_assoc, whole_rest]
  refine ⟨b, h1, hbl, ?_, ?_⟩
  · rw [e, List.length_append, hbl]
    exact Nat.dvd_add (whole_dvd _ _) (Nat.dvd_refl B)
  · rw [e, chain_block _ _ hB _ _ _ (whole_dvd _ _) hbl, ← chain_whole _ _ hB, hb.h]

/-- Processing from a block boundary, whatever the way the rest is computed. -/
theorem tail_spec (comp : σ → List Byte → σ) (B : Nat) (hB : 0 < B) (iv : σ) (c : Ctx σ W) (P d : List Byte)
    (hP : B ∣ P.length) (hh : c.h = chain comp B iv P) (hl : c.block.length = B) (hnum : c.num = 0) :
    (d.length % B ≠ 0 → ∃ b, copyTo c.block 0 (d.drop (d.length / B * B)) = some b ∧
      Buf comp B iv { c with h := multi comp B (d.length / B) c.h d, block := b, num := d.length % B } (P ++ d)) ∧
    (d.length % B = 0 → Buf comp B iv { c with h := multi comp B (d.length / B) c.h d } (P ++ d)) := by
  have hr := rest_length B d
  have hh' : multi comp B (d.length / B) c.h d = chain comp B iv (P ++ d) := by
    rw [chain_append _ _ hB _ _ _ hP, hh]
  have hmod : (P ++ d).length % B = d.length % B := by
    obtain ⟨q, hq⟩ := hP
    rw [List.length_append, hq, Nat.mul_add_mod]
  have hrest : rest B (P ++ d) = rest B d := by
    have : P ++ d = (P ++ whole B d) ++ rest B d := by rw [List.append_assoc, whole_rest]
    rw [this, rest_append _ hB _ _ ?_ (by rw [hr]; exact Nat.mod_lt _ hB)]
    rw [List.length_append]
    exact Nat.dvd_add hP (whole_dvd _ _)
  constructor
  · intro _
    have hlt := Nat.mod_lt d.length hB
    obtain ⟨b, h1, h2, h3, -⟩ := copyTo_spec c.block 0 (rest B d) (by rw [hr, hl]; omega)
    refine ⟨b, h1, hh', hmod.symm, h2.trans hl, ?_⟩
    show b.take (d.length % B) = _
    rw [hrest, ← hr]
    rw [Nat.zero_add] at h3
    rw [h3, List.take_zero, List.nil_append]
  · intro h0
    refine ⟨hh', ?_, hl, ?_⟩
    · show c.num = _
      rw [hmod, hnum, h0]
    · show c.block.take c.num = _
      rw [hnum, hrest, List.take_zero]
      exact (List.eq_nil_of_length_eq_zero (by rw [hr, h0])).symm

theorem absorb_spec (comp : σ → List Byte → σ) (B : Nat) (hB : 0 < B) (iv : σ) (c : Ctx σ W) (P d : List Byte)
    (hP : B ∣ P.length) (hh : c.h = chain comp B iv P) (hl : c.block.length = B) (hnum : c.num = 0) :
    ∃ c', absorb comp B c d = some c' ∧ Buf comp B iv c' (P ++ d) ∧
      c'.lo = c.lo ∧ c'.hi = c.hi ∧ c'.err = c.err := by
  obtain ⟨t1, t2⟩ := tail_spec comp B hB iv c P d hP hh hl hnum
  have hif : (if d.length / B > 0 then multi comp B (d.length / B) c.h d else c.h)
      = multi comp B (d.length / B) c.h d := by
    split
    · rfl
    · have : d.length / B = 0 := Nat.eq_zero_of_not_pos (by assumption)
      rw [this, multi]
  have hrl : (d.drop (d.length / B * B)).length = d.length % B := rest_length B d
  unfold absorb
  dsimp only
  rw [hif, hrl]
  by_cases h0 : d.length % B = 0
  · rw [if_neg (by simpa using h0)]
    exact ⟨_, rfl, t2 h0, rfl, rfl, rfl⟩
  · rw [if_pos h0]
    obtain ⟨b, hb, hbuf⟩ := t1 h0
    rw [hb]
    exact ⟨_, rfl, hbuf, rfl, rfl, rfl⟩

theorem absorb512_spec (comp : σ → List Byte → σ) (k : Nat) (iv : σ) (c : Ctx σ W) (P d : List Byte)
    (hP : 2 ^ k ∣ P.length) (hh : c.h = chain comp (2 ^ k) iv P) (hl : c.block.length = 2 ^ k) (hnum : c.num = 0) :
    ∃ c', absorb512 comp (2 ^ k) c d = some c' ∧ Buf comp (2 ^ k) iv c' (P ++ d) ∧
      c'.lo = c.lo ∧ c'.hi = c.hi ∧ c'.err = c.err := by
  obtain ⟨t1, t2⟩ := tail_spec comp (2 ^ k) (Nat.two_pow_pos k) iv c P d hP hh hl hnum
  have hoff : d.length - d.length % 2 ^ k = d.length / 2 ^ k * 2 ^ k := by
    have := Nat.div_add_mod d.length (2 ^ k)
    rw [Nat.mul_comm] at this
    omega
  unfold absorb512
  dsimp only
  rw [Nat.and_two_pow_sub_one_eq_mod, hoff]
  by_cases h0 : d.length % 2 ^ k = 0
  · rw [if_neg (by simpa using h0)]
    exact ⟨_, rfl, t2 h0, rfl, rfl, rfl⟩
  · rw [if_pos h0]
    obtain ⟨b, hb, hbuf⟩ := t1 h0
    rw [hb]
    exact ⟨_, rfl, hbuf, rfl, rfl, rfl⟩

theorem step1_spec (comp : σ → List Byte → σ) (B : Nat) (hB : 0 < B) (f : Nat) (h : σ) (d : List Byte)
    (hf : d.length / B ≤ f) :
    step1 comp B f h d = (multi comp B (d.length / B) h d, d.drop (d.length / B * B)) := by
  induction f generalizing h d with
  | zero =>
    have : d.length / B = 0 := Nat.le_zero.mp hf
    rw [step1, this, multi, Nat.zero_mul, List.drop_zero]
  | succ f ih =>
    rw [step1]
    by_cases hd : d.length ≥ B
    · have hdiv : d.length / B = (d.length - B) / B + 1 := by
        rw [Nat.div_eq_sub_div hB hd]
      rw [if_pos hd, ih _ _ (by rw [List.length_drop]; omega), List.length_drop, hdiv, multi, List.drop_drop]
      congr 2
      ring
    · have : d.length / B = 0 := Nat.div_eq_of_lt (by omega)
      rw [if_neg hd, this, multi, Nat.zero_mul, List.drop_zero]

theorem absorb1_spec (comp : σ → List Byte → σ) (B : Nat) (hB : 0 < B) (iv : σ) (c : Ctx σ W) (P d : List Byte)
    (hP : B ∣ P.length) (hh : c.h = chain comp B iv P) (hl : c.block.length = B) (hnum : c.num = 0) :
    ∃ c', absorb1 comp B c d = some c' ∧ Buf comp B iv c' (P ++ d) ∧
      c'.lo = c.lo ∧ c'.hi = c.hi ∧ c'.err = c.err := by
  obtain ⟨t1, t2⟩ := tail_spec comp B hB iv c P d hP hh hl hnum
  have hrl : (d.drop (d.length / B * B)).length = d.length % B := rest_length B d
  unfold absorb1
  dsimp only
  rw [step1_spec comp B hB _ _ _ (Nat.div_le_self _ _)]
  dsimp only
  rw [hrl]
  by_cases h0 : d.length % B = 0
  · rw [if_neg (by simpa using h0)]
    exact ⟨_, rfl, t2 h0, rfl, rfl, rfl⟩
  · rw [if_pos h0]
    obtain ⟨b, hb, hbuf⟩ := t1 h0
    rw [hb]
    exact ⟨_, rfl, hbuf, rfl, rfl, rfl⟩

/-! ## Update bodies -/

/-- What an update body has to do. -/
def BodyOk (comp : σ → List Byte → σ) (B : Nat) (body : Ctx σ W → List Byte → Option (Ctx σ W)) : Prop :=
  ∀ iv c P d, Buf comp B iv c P →
    ∃ c', body c d = some c' ∧ Buf comp B iv c' (P ++ d) ∧ c'.lo = c.lo ∧ c'.hi = c.hi ∧ c'.err = c.err

theorem dvd_of_num (comp : σ → List Byte → σ) (B : Nat) (iv : σ) (c : Ctx σ W) (P : List Byte)
    (hb : Buf comp B iv c P) (h0 : c.num = 0) : B ∣ P.length :=
  Nat.dvd_of_mod_eq_zero (by rw [← hb.num, h0])

theorem append_take_drop (P d : List Byte) (n : Nat) : P ++ d.take n ++ d.drop n = P ++ d := by
  rw [List.append_assoc, List.take_append_drop]

theorem body256_ok (comp : σ → List Byte → σ) (B : Nat) (hB : 0 < B) :
    BodyOk comp B (body256 (W := W) comp B) := by
  intro iv c P d hb
  have hn : c.num < B := by rw [hb.num]; exact Nat.mod_lt _ hB
  unfold body256
  by_cases h0 : d.length = 0
  · rw [if_pos h0, List.eq_nil_of_length_eq_zero h0, List.append_nil]
    exact ⟨c, rfl, hb, rfl, rfl, rfl⟩
  rw [if_neg h0]
  by_cases h1 : d.length < B - c.num
  · rw [if_pos h1]
    obtain ⟨b, e, hbuf⟩ := copy_spec comp B hB iv c P d hb h1
    rw [e]
    exact ⟨_, rfl, hbuf, rfl, rfl, rfl⟩
  rw [if_neg h1]
  by_cases h2 : c.num ≠ 0 ∧ d.length ≥ B - c.num
  · rw [if_pos h2]
    obtain ⟨b, e, hbl, hdv, hch⟩ := fill_spec comp B hB iv c P d hb (by omega)
    rw [e]
    obtain ⟨c', e', hbuf, q⟩ := absorb_spec comp B hB iv
      { c with h := comp c.h b, num := 0, block := List.replicate B 0#8 } (P ++ d.take (B - c.num))
      (d.drop (B - c.num)) hdv hch (by simp) rfl
    rw [append_take_drop] at hbuf
    exact ⟨c', e', hbuf, q⟩
  · rw [if_neg h2]
    have h0' : c.num = 0 := by
      by_contra h; exact h2 ⟨h, by omega⟩
    exact absorb_spec comp B hB iv c P d (dvd_of_num _ _ _ _ _ hb h0') hb.h hb.len h0'

theorem body512_ok (comp : σ → List Byte → σ) (k : Nat) :
    BodyOk comp (2 ^ k) (body512 (W := W) comp (2 ^ k)) := by
  intro iv c P d hb
  have hB := Nat.two_pow_pos k
  have hn : c.num < 2 ^ k := by rw [hb.num]; exact Nat.mod_lt _ hB
  unfold body512
  by_cases h0 : d.length = 0
  · rw [if_pos h0, List.eq_nil_of_length_eq_zero h0, List.append_nil]
    exact ⟨c, rfl, hb, rfl, rfl, rfl⟩
  rw [if_neg h0]
  dsimp only
  by_cases h1 : d.length < 2 ^ k - c.num
  · rw [if_pos h1]
    obtain ⟨b, e, hbuf⟩ := copy_spec comp _ hB iv c P d hb h1
    rw [e]
    exact ⟨_, rfl, hbuf, rfl, rfl, rfl⟩
  rw [if_neg h1]
  by_cases h2 : c.num ≠ 0
  · rw [if_pos h2]
    obtain ⟨b, e, hbl, hdv, hch⟩ := fill_spec comp _ hB iv c P d hb (by omega)
    rw [e]
    obtain ⟨c', e', hbuf, q⟩ := absorb512_spec comp k iv
      { c with h := comp c.h b, num := 0, block := b } (P ++ d.take (2 ^ k - c.num))
      (d.drop (2 ^ k - c.num)) hdv hch hbl rfl
    rw [append_take_drop] at hbuf
    exact ⟨c', e', hbuf, q⟩
  · rw [if_neg h2]
    have h0' : c.num = 0 := by omega
    exact absorb512_spec comp k iv c P d (dvd_of_num _ _ _ _ _ hb h0') hb.h hb.len h0'

theorem body1_ok (comp : σ → List Byte → σ) (B : Nat) (hB : 0 < B) :
    BodyOk comp B (body1 (W := W) comp B) := by
  intro iv c P d hb
  have hn : c.num < B := by rw [hb.num]; exact Nat.mod_lt _ hB
  unfold body1
  dsimp only
  by_cases h1 : d.length < B - c.num
  · rw [if_pos h1]
    obtain ⟨b, e, hbuf⟩ := copy_spec comp _ hB iv c P d hb h1
    rw [e]
    exact ⟨_, rfl, hbuf, rfl, rfl, rfl⟩
  rw [if_neg h1]
  by_cases h2 : c.num ≠ 0
  · rw [if_pos h2]
    obtain ⟨b, e, hbl, hdv, hch⟩ := fill_spec comp _ hB iv c P d hb (by omega)
    rw [e]
    obtain ⟨c', e', hbuf, q⟩ := absorb1_spec comp B hB iv
      { c with h := comp c.h b, num := 0, block := b } (P ++ d.take (B - c.num))
      (d.drop (B - c.num)) hdv hch hbl rfl
    rw [append_take_drop] at hbuf
    exact ⟨c', e', hbuf, q⟩
  · rw [if_neg h2]
    have h0' : c.num = 0 := by omega
    exact absorb1_spec comp B hB iv c P d (dvd_of_num _ _ _ _ _ hb h0') hb.h hb.len h0'

theorem bodyM_ok (comp : σ → List Byte → σ) (B : Nat) (hB : 0 < B) :
    BodyOk comp B (bodyM (W := W) comp B) := by
  intro iv c P d hb
  have hn : c.num < B := by rw [hb.num]; exact Nat.mod_lt _ hB
  unfold bodyM
  by_cases h0 : d.length = 0
  · rw [if_pos h0, List.eq_nil_of_length_eq_zero h0, List.append_nil]
    exact ⟨c, rfl, hb, rfl, rfl, rfl⟩
  rw [if_neg h0]
  dsimp only
  by_cases h2 : c.num ≠ 0
  · rw [if_pos h2]
    by_cases h1 : d.length < B - c.num
    · rw [if_pos h1]
      obtain ⟨b, e, hbuf⟩ := copy_spec comp _ hB iv c P d hb h1
      rw [e]
      exact ⟨_, rfl, hbuf, rfl, rfl, rfl⟩
    rw [if_neg h1]
    obtain ⟨b, e, hbl, hdv, hch⟩ := fill_spec comp _ hB iv c P d hb (by omega)
    rw [e]
    obtain ⟨c', e', hbuf, q⟩ := absorb_spec comp B hB iv
      { c with h := comp c.h b, num := 0, block := b } (P ++ d.take (B - c.num))
      (d.drop (B - c.num)) hdv hch hbl rfl
    rw [append_take_drop] at hbuf
    exact ⟨c', e', hbuf, q⟩
  · rw [if_neg h2]
    have h0' : c.num = 0 := by omega
    exact absorb_spec comp B hB iv c P d (dvd_of_num _ _ _ _ _ hb h0') hb.h hb.len h0'

/-! ## Counters -/

/-- Value of the two-word bit counter. -/
def bits (c : Ctx σ W) : Nat := c.hi.toNat * 2 ^ W + c.lo.toNat

/-- What the length check has to do: add `8 n` to the counter, or report that it does not fit. -/
def LenOk (addLen : Ctx σ W → BitVec 32 → Ctx σ W × Bool) : Prop :=
  ∀ (c : Ctx σ W) (n : Nat), n < 2 ^ 32 →
    (bits c + 8 * n < 2 ^ (2 * W) →
      ∃ lo hi, addLen c (BitVec.ofNat 32 n) = ({ c with lo := lo, hi := hi }, false) ∧
        hi.toNat * 2 ^ W + lo.toNat = bits c + 8 * n) ∧
    (2 ^ (2 * W) ≤ bits c + 8 * n → (addLen c (BitVec.ofNat 32 n)).2 = true)

theorem addLen32_ok : LenOk (σ := σ) addLen32 := by
  intro c n hn
  have hlo := c.lo.isLt
  have hhi := c.hi.isLt
  have hnn : (BitVec.ofNat 32 n).toNat = n := by rw [BitVec.toNat_ofNat, Nat.mod_eq_of_lt hn]
  have hsl : ((BitVec.ofNat 32 n) <<< 3).toNat = (8 * n) % 2 ^ 32 := by
    rw [BitVec.toNat_shiftLeft, hnn, Nat.shiftLeft_eq]; ring_nf
  have hsr : ((BitVec.ofNat 32 n) >>> 29).toNat = n / 2 ^ 29 := by
    rw [BitVec.toNat_ushiftRight, hnn, Nat.shiftRight_eq_div_pow]
  have key : 8 * n = n / 2 ^ 29 * 2 ^ 32 + (8 * n) % 2 ^ 32 := by omega
  have hs3 : n / 2 ^ 29 < 8 := by omega
  have hm := Nat.mod_lt (8 * n) (show 0 < 2 ^ 32 by decide)
  have h0 : (c.lo + (BitVec.ofNat 32 n) <<< 3).toNat = (c.lo.toNat + (8 * n) % 2 ^ 32) % 2 ^ 32 := by
    rw [BitVec.toNat_add, hsl]
  unfold addLen32 bits
  dsimp only
  have p64 : (2 : Nat) ^ (2 * 32) = 2 ^ 32 * 2 ^ 32 := by decide
  rw [p64]
  have addHi_case : ∀ hi cnt0 : BitVec 32,
      (hi.toNat + n / 2 ^ 29 < 2 ^ 32 → addHi c hi cnt0 (BitVec.ofNat 32 n)
        = ({ c with hi := hi + (BitVec.ofNat 32 n) >>> 29, lo := cnt0 }, false) ∧
          (hi + (BitVec.ofNat 32 n) >>> 29).toNat = hi.toNat + n / 2 ^ 29) ∧
      (2 ^ 32 ≤ hi.toNat + n / 2 ^ 29 → (addHi c hi cnt0 (BitVec.ofNat 32 n)).2 = true) := by
    intro hi cnt0
    have hv : (hi + (BitVec.ofNat 32 n) >>> 29).toNat = (hi.toNat + n / 2 ^ 29) % 2 ^ 32 := by
      rw [BitVec.toNat_add, hsr]
    have := hi.isLt
    unfold addHi
    dsimp only
    constructor
    · intro h
      rw [Nat.mod_eq_of_lt h] at hv
      rw [if_neg (by rw [BitVec.lt_def, hv]; omega)]
      exact ⟨rfl, hv⟩
    · intro h
      rw [if_pos (by rw [BitVec.lt_def, hv]; omega)]
  by_cases hc : c.lo + (BitVec.ofNat 32 n) <<< 3 < c.lo
  · rw [if_pos hc]
    rw [BitVec.lt_def, h0] at hc
    have h0' : (c.lo + (BitVec.ofNat 32 n) <<< 3).toNat + 2 ^ 32 = c.lo.toNat + (8 * n) % 2 ^ 32 := by
      rw [h0]; omega
    have h1 : (c.hi + 1#32).toNat = (c.hi.toNat + 1) % 2 ^ 32 := by
      rw [BitVec.toNat_add]; rfl
    by_cases hz : c.hi + 1#32 = 0#32
    · rw [if_pos hz]
      rw [hz] at h1
      simp only [BitVec.toNat_ofNat] at h1
      refine ⟨fun h => ?_, fun _ => rfl⟩
      exfalso; omega
    · rw [if_neg hz]
      have h1' : (c.hi + 1#32).toNat = c.hi.toNat + 1 := by
        rw [h1, Nat.mod_eq_of_lt]
        by_contra hcon
        apply hz
        apply BitVec.eq_of_toNat_eq
        rw [h1]
        have : c.hi.toNat + 1 = 2 ^ 32 := by omega
        rw [this]; rfl
      obtain ⟨a1, a2⟩ := addHi_case (c.hi + 1#32) (c.lo + (BitVec.ofNat 32 n) <<< 3)
      refine ⟨fun h => ?_, fun h => ?_⟩
      · obtain ⟨e, v⟩ := a1 (by rw [h1']; omega)
        refine ⟨_, _, e, ?_⟩
        rw [v, h1']; omega
      · exact a2 (by rw [h1']; omega)
  · rw [if_neg hc]
    rw [BitVec.lt_def, h0] at hc
    have h0' : (c.lo + (BitVec.ofNat 32 n) <<< 3).toNat = c.lo.toNat + (8 * n) % 2 ^ 32 := by
      rw [h0]; omega
    obtain ⟨a1, a2⟩ := addHi_case c.hi (c.lo + (BitVec.ofNat 32 n) <<< 3)
    refine ⟨fun h => ?_, fun h => ?_⟩
    · obtain ⟨e, v⟩ := a1 (by omega)
      refine ⟨_, _, e, ?_⟩
      rw [v]; omega
    · exact a2 (by omega)

theorem addLen64_ok : LenOk (σ := σ) addLen64 := by
  intro c n hn
  have hlo := c.lo.isLt
  have hhi := c.hi.isLt
  have hsl : (((BitVec.ofNat 32 n).setWidth 64) <<< 3).toNat = 8 * n := by
    rw [BitVec.toNat_shiftLeft, BitVec.toNat_setWidth, BitVec.toNat_ofNat, Nat.mod_eq_of_lt hn,
      Nat.mod_eq_of_lt (by omega), Nat.shiftLeft_eq, Nat.mod_eq_of_lt (by omega)]
    ring
  have h0 : (c.lo + ((BitVec.ofNat 32 n).setWidth 64) <<< 3).toNat = (c.lo.toNat + 8 * n) % 2 ^ 64 := by
    rw [BitVec.toNat_add, hsl]
  have h1 : (c.hi + 1#64).toNat = (c.hi.toNat + 1) % 2 ^ 64 := by rw [BitVec.toNat_add]; rfl
  have p128 : (2 : Nat) ^ (2 * 64) = 2 ^ 64 * 2 ^ 64 := by decide
  unfold addLen64 bits
  dsimp only
  rw [p128]
  by_cases hc : c.lo + ((BitVec.ofNat 32 n).setWidth 64) <<< 3 < c.lo
  · simp only [hc, if_true, true_and]
    rw [BitVec.lt_def, h0] at hc
    by_cases hz : c.hi + 1#64 ≤ c.hi
    · rw [if_pos hz]
      rw [BitVec.le_def, h1] at hz
      exact ⟨fun h => by exfalso; omega, fun _ => rfl⟩
    · rw [if_neg hz]
      rw [BitVec.le_def, h1] at hz
      refine ⟨fun h => ⟨_, _, rfl, ?_⟩, fun h => by exfalso; omega⟩
      rw [h0, h1]; omega
  · simp only [hc, if_false, false_and]
    rw [BitVec.lt_def, h0] at hc
    refine ⟨fun h => ⟨_, _, rfl, ?_⟩, fun h => by exfalso; omega⟩
    rw [h0]; omega

/-! ## Update -/

/-- Full invariant. -/
structure Inv (comp : σ → List Byte → σ) (B : Nat) (iv : σ) (c : Ctx σ W) (P : List Byte) : Prop where
  buf : Buf comp B iv c P
  bits : bits c = 8 * P.length
  err : c.err = false

theorem init_inv (comp : σ → List Byte → σ) (B : Nat) (iv : σ) : Inv comp B iv (init W iv B) [] := by
  refine ⟨⟨?_, ?_, by simp [init], ?_⟩, by simp [Md.bits, init], rfl⟩
  · simp [init, chain, multi]
  · simp [init]
  · simp [init, rest]

theorem updateWith_ok (comp : σ → List Byte → σ) (B : Nat) (sticky : Bool)
    (addLen : Ctx σ W → BitVec 32 → Ctx σ W × Bool) (body : Ctx σ W → List Byte → Option (Ctx σ W))
    (hl : LenOk addLen) (hbody : BodyOk comp B body) (iv : σ) (c : Ctx σ W) (P d : List Byte)
    (hi : Inv comp B iv c P) (hd : d.length < 2 ^ 32) (ht : 8 * (P.length + d.length) < 2 ^ (2 * W)) :
    ∃ c', updateWith sticky addLen body c d = some (c', .ok ()) ∧ Inv comp B iv c' (P ++ d) := by
  obtain ⟨lo, hi', e, v⟩ := (hl c d.length hd).1 (by rw [hi.bits]; omega)
  obtain ⟨c', e', hb, q1, q2, q3⟩ := hbody iv { c with lo := lo, hi := hi' } P d
    ⟨hi.buf.h, hi.buf.num, hi.buf.len, hi.buf.buf⟩
  unfold updateWith
  rw [if_neg (by rw [hi.err]; decide), e]
  dsimp only
  rw [if_neg (by decide), e']
  refine ⟨c', rfl, hb, ?_, by rw [q3]; exact hi.err⟩
  rw [Md.bits, q1, q2, List.length_append]
  show hi'.toNat * 2 ^ W + lo.toNat = _
  rw [v, hi.bits]; ring

theorem updateWith_over (comp : σ → List Byte → σ) (B : Nat) (sticky : Bool)
    (addLen : Ctx σ W → BitVec 32 → Ctx σ W × Bool) (body : Ctx σ W → List Byte → Option (Ctx σ W))
    (hl : LenOk addLen) (iv : σ) (c : Ctx σ W) (P d : List Byte)
    (hi : Inv comp B iv c P) (hd : d.length < 2 ^ 32) (ht : 2 ^ (2 * W) ≤ 8 * (P.length + d.length)) :
    ∃ c', updateWith sticky addLen body c d = some (c', .error .overflow) ∧ c'.err = sticky := by
  have e := (hl c d.length hd).2 (by rw [hi.bits]; omega)
  unfold updateWith
  rw [if_neg (by rw [hi.err]; decide)]
  dsimp only
  rw [if_pos e]
  exact ⟨_, rfl, rfl⟩

theorem updateAll_ok (comp : σ → List Byte → σ) (B : Nat) (sticky : Bool)
    (addLen : Ctx σ W → BitVec 32 → Ctx σ W × Bool) (body : Ctx σ W → List Byte → Option (Ctx σ W))
    (hl : LenOk addLen) (hbody : BodyOk comp B body) (iv : σ) (xs : List (List Byte)) (c : Ctx σ W) (P : List Byte)
    (hi : Inv comp B iv c P) (hx : ∀ x ∈ xs, x.length < 2 ^ 32)
    (ht : 8 * (P.length + xs.flatten.length) < 2 ^ (2 * W)) :
    ∃ c', updateAll (updateWith sticky addLen body) c xs = some (c', .ok ()) ∧
      Inv comp B iv c' (P ++ xs.flatten) := by
  induction xs generalizing c P with
  | nil => exact ⟨c, rfl, by rw [List.flatten_nil, List.append_nil]; exact hi⟩
  | cons x xs ih =>
    rw [List.flatten_cons, List.length_append] at ht
    obtain ⟨c1, e1, i1⟩ := updateWith_ok comp B sticky addLen body hl hbody iv c P x hi
      (hx x (by simp)) (by omega)
    obtain ⟨c2, e2, i2⟩ := ih c1 (P ++ x) i1 (fun y hy => hx y (by simp [hy]))
      (by rw [List.length_append]; omega)
    refine ⟨c2, ?_, by rw [List.flatten_cons, ← List.append_assoc]; exact i2⟩
    rw [updateAll, e1]
    exact e2

theorem updateAll_over (comp : σ → List Byte → σ) (B : Nat) (sticky : Bool)
    (addLen : Ctx σ W → BitVec 32 → Ctx σ W × Bool) (body : Ctx σ W → List Byte → Option (Ctx σ W))
    (hl : LenOk addLen) (hbody : BodyOk comp B body) (iv : σ) (xs : List (List Byte)) (c : Ctx σ W) (P : List Byte)
    (hi : Inv comp B iv c P) (hx : ∀ x ∈ xs, x.length < 2 ^ 32) (hP : 8 * P.length < 2 ^ (2 * W))
    (ht : 2 ^ (2 * W) ≤ 8 * (P.length + xs.flatten.length)) :
    ∃ c', updateAll (updateWith sticky addLen body) c xs = some (c', .error .overflow) ∧ c'.err = sticky := by
  induction xs generalizing c P with
  | nil =>
    rw [List.flatten_nil, List.length_nil] at ht
    omega
  | cons x xs ih =>
    rw [List.flatten_cons, List.length_append] at ht
    by_cases h : 8 * (P.length + x.length) < 2 ^ (2 * W)
    · obtain ⟨c1, e1, i1⟩ := updateWith_ok comp B sticky addLen body hl hbody iv c P x hi
        (hx x (by simp)) h
      obtain ⟨c2, e2, i2⟩ := ih c1 (P ++ x) i1 (fun y hy => hx y (by simp [hy]))
        (by rw [List.length_append]; omega) (by rw [List.length_append]; omega)
      exact ⟨c2, by rw [updateAll, e1]; exact e2, i2⟩
    · obtain ⟨c1, e1, i1⟩ := updateWith_over comp B sticky addLen body hl iv c P x hi
        (hx x (by simp)) (by omega)
      exact ⟨c1, by rw [updateAll, e1], i1⟩

/-! ## Padding -/

/-- Zero bytes between the `0x80` byte and the length field. -/
def padZeros (B L n : Nat) : Nat := (B - (n + 1 + L) % B) % B

/-- The padded message. -/
def padded (B : Nat) (len P : List Byte) : List Byte :=
  P ++ [0x80#8] ++ List.replicate (padZeros B len.length P.length) 0#8 ++ len

theorem padZeros_small (B L n : Nat) (hB : 0 < B) (h : n % B + 1 + L ≤ B) :
    padZeros B L n = B - (n % B + 1 + L) := by
  unfold padZeros
  have e : (n + 1 + L) % B = (n % B + 1 + L) % B := by
    rw [Nat.add_assoc, Nat.add_mod, Nat.add_mod_mod, ← Nat.add_assoc]
  rw [e]
  by_cases h2 : n % B + 1 + L = B
  · rw [h2, Nat.mod_self, Nat.sub_zero, Nat.mod_self]; omega
  · rw [Nat.mod_eq_of_lt (show n % B + 1 + L < B by omega), Nat.mod_eq_of_lt (by omega)]

theorem padZeros_big (B L n : Nat) (hB : 0 < B) (h : B < n % B + 1 + L) (hL : L < B) :
    padZeros B L n = 2 * B - (n % B + 1 + L) := by
  have hm := Nat.mod_lt n hB
  unfold padZeros
  have e : (n + 1 + L) % B = (n % B + 1 + L) % B := by
    rw [Nat.add_assoc, Nat.add_mod, Nat.add_mod_mod, ← Nat.add_assoc]
  rw [e]
  by_cases h2 : n % B + 1 + L = 2 * B
  · rw [h2, Nat.mul_mod_left]; simp
  · have : (n % B + 1 + L) % B = n % B + 1 + L - B := by
      rw [Nat.mod_eq_sub_mod (by omega), Nat.mod_eq_of_lt (by omega)]
    rw [this, Nat.mod_eq_of_lt (by omega)]; omega

theorem chain_padded_small (comp : σ → List Byte → σ) (B : Nat) (hB : 0 < B) (iv : σ) (len P : List Byte)
    (h : P.length % B + 1 + len.length ≤ B) :
    chain comp B iv (padded B len P) = comp (chain comp B iv P)
      (rest B P ++ [0x80#8] ++ List.replicate (B - len.length - (P.length % B + 1)) 0#8 ++ len) := by
  have e : padded B len P = whole B P ++
      (rest B P ++ [0x80#8] ++ List.replicate (B - len.length - (P.length % B + 1)) 0#8 ++ len) := by
    rw [padded, padZeros_small _ _ _ hB h]
    conv_lhs => rw [← whole_rest B P]
    simp only [List.append_assoc]
    rw [whole_rest]
    rw [show B - (P.length % B + 1 + len.length) = B - len.length - (P.length % B + 1) by omega]
  rw [e, chain_block _ _ hB _ _ _ (whole_dvd _ _) ?_, ← chain_whole _ _ hB]
  simp only [List.length_append, rest_length, List.length_replicate, List.length_singleton]
  omega

theorem chain_padded_big (comp : σ → List Byte → σ) (B : Nat) (hB : 0 < B) (iv : σ) (len P : List Byte)
    (h : B < P.length % B + 1 + len.length) (hL : len.length < B) :
    chain comp B iv (padded B len P) =
      comp (comp (chain comp B iv P)
        (rest B P ++ [0x80#8] ++ List.replicate (B - (P.length % B + 1)) 0#8))
        (List.replicate (B - len.length) 0#8 ++ len) := by
  have hm := Nat.mod_lt P.length hB
  have e : padded B len P = (whole B P ++
      (rest B P ++ [0x80#8] ++ List.replicate (B - (P.length % B + 1)) 0#8)) ++
        (List.replicate (B - len.length) 0#8 ++ len) := by
    rw [padded, padZeros_big _ _ _ hB h hL]
    have : 2 * B - (P.length % B + 1 + len.length) = (B - (P.length % B + 1)) + (B - len.length) := by omega
    rw [this, ← List.replicate_append_replicate]
    conv_lhs => rw [← whole_rest B P]
    simp only [List.append_assoc]
    rw [whole_rest]
  have hl1 : (rest B P ++ [0x80#8] ++ List.replicate (B - (P.length % B + 1)) 0#8).length = B := by
    simp only [List.length_append, rest_length, List.length_replicate, List.length_singleton]
    omega
  rw [e, chain_block _ _ hB _ _ _ ?_ ?_, chain_block _ _ hB _ _ _ (whole_dvd _ _) hl1, ← chain_whole _ _ hB]
  · rw [List.length_append, hl1]
    exact Nat.dvd_add (whole_dvd _ _) (Nat.dvd_refl B)
  · simp only [List.length_append, List.length_replicate]
    omega

/-- A copy that ends at the end of the buffer. -/
theorem copyTo_end (b s : List Byte) (off : Nat) (h : off + s.length = b.length) :
    copyTo b off s = some (b.take off ++ s) := by
  rw [copyTo, if_pos (by omega), h, List.drop_length, List.append_nil]

theorem copyTo_at (x y s : List Byte) (h : s.length ≤ y.length) :
    copyTo (x ++ y) x.length s = some (x ++ s ++ y.drop s.length) := by
  rw [copyTo, if_pos (by rw [List.length_append]; omega), List.take_left' rfl]
  congr 2
  rw [← List.drop_drop, List.drop_left' rfl]

/-- The buffer of a context, split at the fill level. -/
theorem block_split (comp : σ → List Byte → σ) (B : Nat) (iv : σ) (c : Ctx σ W) (P : List Byte)
    (hb : Buf comp B iv c P) : c.block = rest B P ++ c.block.drop c.num ∧ (rest B P).length = c.num := by
  constructor
  · rw [← hb.buf, List.take_append_drop]
  · rw [rest_length, hb.num]

theorem put80 (comp : σ → List Byte → σ) (B : Nat) (hB : 0 < B) (iv : σ) (c : Ctx σ W) (P : List Byte)
    (hb : Buf comp B iv c P) :
    ∃ y, putByte c.block c.num 0x80#8 = some ((rest B P ++ [0x80#8]) ++ y) ∧ y.length = B - (c.num + 1) := by
  obtain ⟨e, hl⟩ := block_split comp B iv c P hb
  have hn : c.num < B := by rw [hb.num]; exact Nat.mod_lt _ hB
  have hyl : (c.block.drop c.num).length = B - c.num := by rw [List.length_drop, hb.len]
  generalize c.block.drop c.num = y at e hyl
  refine ⟨y.drop 1, ?_, by rw [List.length_drop]; omega⟩
  rw [putByte, e, ← hl, copyTo_at _ _ _ (by rw [List.length_singleton]; omega)]
  rfl

theorem zero_at (x y : List Byte) (n : Nat) (hn : n ≤ y.length) :
    zeroAt (x ++ y) x.length n = some (x ++ List.replicate n 0#8 ++ y.drop n) := by
  rw [zeroAt, copyTo_at _ _ _ (by rw [List.length_replicate]; exact hn), List.length_replicate]

/-- Padding that fits the current block. -/
theorem pad_small (comp : σ → List Byte → σ) (B : Nat) (iv : σ) (P len y : List Byte)
    (n : Nat) (hn : n = P.length % B + 1) (hyl : y.length = B - n) (hfit : n + len.length ≤ B) (h : σ) :
    (match zeroAt ((rest B P ++ [0x80#8]) ++ y) n (B - len.length - n) with
      | none => none
      | some p2 => (copyTo p2 (B - len.length) len).map (comp h)) =
    some (comp h (rest B P ++ [0x80#8] ++ List.replicate (B - len.length - (P.length % B + 1)) 0#8 ++ len)) := by
  have hxl : (rest B P ++ [0x80#8]).length = n := by
    rw [List.length_append, rest_length, List.length_singleton, hn]
  generalize hx : rest B P ++ [0x80#8] = x at hxl
  rw [← hxl, zero_at _ _ _ (by rw [hyl]; omega)]
  dsimp only
  rw [copyTo_end _ _ _ (by simp only [List.length_append, List.length_replicate, List.length_drop]; omega),
    List.take_left' (by rw [List.length_append, List.length_replicate]; omega), ← hn, ← hxl]
  rfl

theorem pad_big (comp : σ → List Byte → σ) (B : Nat) (iv : σ) (P len y : List Byte)
    (n : Nat) (hn : n = P.length % B + 1) (hnB : n ≤ B) (hyl : y.length = B - n) (hL : len.length ≤ B)
    (g : List Byte → σ) :
    (match zeroAt ((rest B P ++ [0x80#8]) ++ y) n (B - n) with
      | none => none
      | some p1 =>
        match zeroAt p1 0 (B - len.length) with
        | none => none
        | some p2 => (copyTo p2 (B - len.length) len).map (comp (g p1))) =
    some (comp (g (rest B P ++ [0x80#8] ++ List.replicate (B - (P.length % B + 1)) 0#8))
      (List.replicate (B - len.length) 0#8 ++ len)) := by
  have hxl : (rest B P ++ [0x80#8]).length = n := by
    rw [List.length_append, rest_length, List.length_singleton, hn]
  generalize hx : rest B P ++ [0x80#8] = x at hxl
  rw [← hxl, zero_at _ _ _ (by rw [hyl]; omega), hxl, List.drop_of_length_le (by omega), List.append_nil, ← hn]
  dsimp only
  have hp : (x ++ List.replicate (B - n) 0#8).length = B := by
    rw [List.length_append, List.length_replicate]; omega
  generalize x ++ List.replicate (B - n) 0#8 = p1 at hp
  have hz := zero_at [] p1 (B - len.length) (by omega)
  rw [List.nil_append, List.nil_append, List.length_nil] at hz
  rw [hz]
  dsimp only
  rw [copyTo_end _ _ _ (by simp only [List.length_append, List.length_replicate, List.length_drop]; omega),
    List.take_left' (by rw [List.length_replicate])]
  rfl

/-- What the padding functions have to do. -/
def PadOk (comp : σ → List Byte → σ) (B : Nat) (len : Ctx σ W → List Byte) (pad : Ctx σ W → Option σ) : Prop :=
  ∀ iv c P, Buf comp B iv c P → pad c = some (chain comp B iv (padded B (len c) P))

theorem pad2_ok (comp : σ → List Byte → σ) (B L : Nat) (len : Ctx σ W → List Byte)
    (hlen : ∀ c, (len c).length = L) (hL : L < B) :
    PadOk comp B len (fun c => pad2 comp B L (len c) c) := by
  intro iv c P hb
  have hB : 0 < B := by omega
  have hnum := hb.num
  have hm := Nat.mod_lt P.length hB
  obtain ⟨y, e, hyl⟩ := put80 comp B hB iv c P hb
  show pad2 comp B L (len c) c = _
  unfold pad2
  rw [e]
  dsimp only
  have hl := hlen c
  by_cases h : c.num + 1 > B - L
  · rw [if_pos h]
    have := pad_big comp B iv P (len c) y (c.num + 1) (by omega) (by omega) hyl (by omega) (comp c.h)
    rw [hl] at this
    refine this.trans ?_
    rw [chain_padded_big _ _ hB _ _ _ (by omega) (by omega), hb.h, hl]
  · rw [if_neg h]
    have := pad_small comp B iv P (len c) y (c.num + 1) (by omega) hyl (by omega) c.h
    rw [hl] at this
    refine this.trans ?_
    rw [chain_padded_small _ _ hB _ _ _ (by omega), hb.h, hl]

theorem padM_ok (comp : σ → List Byte → σ) (B : Nat) (len : Ctx σ W → List Byte)
    (hlen : ∀ c, (len c).length = 8) (hL : 8 < B) :
    PadOk comp B len (fun c => padM comp B (len c) c) := by
  intro iv c P hb
  have hB : 0 < B := by omega
  have hnum := hb.num
  have hm := Nat.mod_lt P.length hB
  obtain ⟨y, e, hyl⟩ := put80 comp B hB iv c P hb
  show padM comp B (len c) c = _
  unfold padM
  rw [e]
  dsimp only
  have hl := hlen c
  by_cases h : B - (c.num + 1) < 8
  · rw [if_pos h]
    have := pad_big comp B iv P (len c) y (c.num + 1) (by omega) (by omega) hyl (by omega) (comp c.h)
    rw [hl] at this
    refine this.trans ?_
    rw [chain_padded_big _ _ hB _ _ _ (by omega) (by omega), hb.h, hl]
  · rw [if_neg h]
    have := pad_small comp B iv P (len c) y (c.num + 1) (by omega) hyl (by omega) c.h
    rw [hl, Nat.sub_right_comm] at this
    refine this.trans ?_
    rw [chain_padded_small _ _ hB _ _ _ (by omega), hb.h, hl]

theorem pad1_ok (comp : σ → List Byte → σ) (len : Ctx σ W → List Byte)
    (hlen : ∀ c, (len c).length = 8) :
    PadOk comp 64 len (fun c => pad1 comp 64 (len c) c) := by
  intro iv c P hb
  have hB : 0 < 64 := by omega
  have hnum := hb.num
  have hm := Nat.mod_lt P.length hB
  obtain ⟨y, e, hyl⟩ := put80 comp 64 hB iv c P hb
  show pad1 comp 64 (len c) c = _
  unfold pad1
  rw [e]
  dsimp only
  have hl := hlen c
  by_cases h0 : c.num + 1 = 64
  · rw [if_pos h0]
    have hy0 : y = [] := List.eq_nil_of_length_eq_zero (by omega)
    subst hy0
    rw [List.append_nil]
    have hp : (rest 64 P ++ [0x80#8]).length = 64 := by
      rw [List.length_append, rest_length, List.length_singleton]; omega
    rw [chain_padded_big _ _ hB _ _ _ (by omega) (by omega), hb.h, ← hnum, h0, hl]
    generalize rest 64 P ++ [0x80#8] = p at hp
    unfold pad1Tail
    dsimp only
    rw [if_neg (by omega)]
    have hz := zero_at [] p (64 - 0 - 8) (by omega)
    rw [List.nil_append, List.nil_append, List.length_nil] at hz
    rw [hz]
    dsimp only
    rw [copyTo_end _ _ _ (by simp only [List.length_append, List.length_replicate, List.length_drop]; omega),
      List.take_left' (by rw [List.length_replicate])]
    simp
  · rw [if_neg h0]
    unfold pad1Tail
    dsimp only
    by_cases h : 64 - (c.num + 1) < 8
    · rw [if_pos h]
      have := pad_big comp 64 iv P (len c) y (c.num + 1) (by omega) (by omega) hyl (by omega) (comp c.h)
      rw [hl] at this
      refine this.trans ?_
      rw [chain_padded_big _ _ hB _ _ _ (by omega) (by omega), hb.h, hl]
    · rw [if_neg h]
      have := pad_small comp 64 iv P (len c) y (c.num + 1) (by omega) hyl (by omega) c.h
      rw [hl, Nat.sub_right_comm] at this
      refine this.trans ?_
      rw [chain_padded_small _ _ hB _ _ _ (by omega), hb.h, hl]

end Verif.Crypto.Md
