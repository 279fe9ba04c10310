import Verif.Crypto.Aes.ProofT

namespace Verif.Crypto.Aes

open Verif.Common Verif.Bsl.Bytes
open Spec (word byte sbox)

/-! ## The step of the key expansion -/

/-- What `w[i - nk]` is xored with, from `w[i - 1] = q`. -/
def g (nk i : Nat) (q : BitVec 32) : BitVec 32 :=
  if i % nk = 0 then Spec.subWord (Spec.rotWord q) ^^^ Spec.rcon (i / nk)
  else if 6 < nk ∧ i % nk = 4 then Spec.subWord q else q

/-- The list is a prefix of a key schedule, beyond the first `nk` words. -/
def Good (nk : Nat) (ws : List (BitVec 32)) : Prop :=
  ∀ i, nk ≤ i → i < ws.length → ∃ p q, ws[i - nk]? = some p ∧ ws[i - 1]? = some q ∧
    ws[i]? = some (p ^^^ g nk i q)

theorem good_base (nk : Nat) (ws : List (BitVec 32)) (h : ws.length ≤ nk) : Good nk ws :=
  fun i h1 h2 => by omega

theorem good_snoc {nk : Nat} {ws : List (BitVec 32)} (h : Good nk ws) (h0 : 0 < nk)
    (hl : nk ≤ ws.length) {p q : BitVec 32} (hp : ws[ws.length - nk]? = some p)
    (hq : ws[ws.length - 1]? = some q) : Good nk (ws ++ [p ^^^ g nk ws.length q]) := by
  intro i h1 h2
  rw [List.length_append, List.length_singleton] at h2
  rw [List.getElem?_append_left (by omega : i - nk < ws.length),
    List.getElem?_append_left (by omega : i - 1 < ws.length)]
  by_cases c : i < ws.length
  · rw [List.getElem?_append_left c]; exact h i h1 c
  · have : i = ws.length := by omega
    subst this
    exact ⟨p, q, hp, hq, by rw [List.getElem?_append_right (by omega)]; simp⟩

theorem subWord_word (a b c d : Byte) :
    Spec.subWord (word a b c d) = word (sbox a) (sbox b) (sbox c) (sbox d) := by
  simp only [Spec.subWord, byte_word0, byte_word1, byte_word2, byte_word3]

theorem rotWord_word (a b c d : Byte) : Spec.rotWord (word a b c d) = word b c d a := by
  simp only [Spec.rotWord, byte_word0, byte_word1, byte_word2, byte_word3]

theorem search_eq (q : BitVec 32) : search aesS q = some (Spec.subWord q) := by
  conv_lhs => rw [← word_byte q]
  rw [search_word aesS_fn]; rfl

theorem rotl_eq (q : BitVec 32) : rotl32 q 8 = Spec.rotWord q := by
  conv_lhs => rw [← word_byte q]
  rw [rot_word]; rfl

theorem rcon_eq (i : Nat) (h1 : 1 ≤ i) (h : i ≤ 10) :
    rcon[i - 1]? = some (Spec.rcon i) ∧ rconT[i - 1]? = some (Spec.rcon i) := by
  interval_cases i <;> decide +kernel

/-! ## Loading the key -/

/-- The first words are the key's. -/
def First (nk : Nat) (key : List Byte) (ws : List (BitVec 32)) : Prop :=
  ∀ i, i < nk → ∃ a b c d, key[4 * i]? = some a ∧ key[4 * i + 1]? = some b ∧
    key[4 * i + 2]? = some c ∧ key[4 * i + 3]? = some d ∧ ws[i]? = some (word a b c d)

theorem loadKey_eq (key : List Byte) (n : Nat) (h : 4 * n ≤ key.length) :
    ∃ ws, loadKey key n = some ws ∧ ws.length = n ∧ First n key ws := by
  induction n with
  | zero => exact ⟨[], rfl, rfl, fun i hi => by omega⟩
  | succ n ih =>
    obtain ⟨ws, h1, h2, h3⟩ := ih (by omega)
    have hg : getBe key (n * 4) = some (word (key[4 * n]'(by omega)) (key[4 * n + 1]'(by omega))
        (key[4 * n + 2]'(by omega)) (key[4 * n + 3]'(by omega))) := by
      unfold getBe
      rw [Nat.mul_comm, List.drop_eq_getElem_cons (by omega),
        List.drop_eq_getElem_cons (i := 4 * n + 1) (by omega),
        List.drop_eq_getElem_cons (i := 4 * n + 1 + 1) (by omega),
        List.drop_eq_getElem_cons (i := 4 * n + 1 + 1 + 1) (by omega), getBe_cons]
    refine ⟨ws ++ [_], by rw [loadKey, h1, hg]; rfl, by simp [h2], ?_⟩
    intro i hi
    by_cases c : i < n
    · obtain ⟨a, b, x, d, e1, e2, e3, e4, e5⟩ := h3 i c
      exact ⟨a, b, x, d, e1, e2, e3, e4, by rw [List.getElem?_append_left (by omega)]; exact e5⟩
    · obtain rfl : i = n := by omega
      exact ⟨_, _, _, _, List.getElem?_eq_getElem (by omega), List.getElem?_eq_getElem (by omega),
        List.getElem?_eq_getElem (by omega), List.getElem?_eq_getElem (by omega), by
          rw [List.getElem?_append_right (by omega)]; simp [h2]⟩

theorem first_append {nk : Nat} {key : List Byte} {ws : List (BitVec 32)} (h : First nk key ws)
    (t : List (BitVec 32)) (hl : nk ≤ ws.length) : First nk key (ws ++ t) := by
  intro i hi
  obtain ⟨a, b, c, d, e1, e2, e3, e4, e5⟩ := h i hi
  exact ⟨a, b, c, d, e1, e2, e3, e4, by rw [List.getElem?_append_left (by omega)]; exact e5⟩

/-! ## The S-box variant -/

theorem nextKey_eq (nk : Nat) (ws : List (BitVec 32)) (p q : BitVec 32) (h0 : 0 < nk)
    (hl : nk ≤ ws.length) (hr : ws.length / nk ≤ 10)
    (hp : ws[ws.length - nk]? = some p) (hq : ws[ws.length - 1]? = some q) :
    nextKey nk ws ws.length = some (p ^^^ g nk ws.length q) := by
  unfold nextKey g
  have hd : 1 ≤ ws.length / nk := (Nat.one_le_div_iff h0).2 hl
  by_cases c1 : ws.length % nk = 0
  · rw [if_pos c1, if_pos c1, hp, hq]
    simp only [Option.bind_eq_bind, Option.bind_some, rotl_eq, search_eq,
      (rcon_eq _ hd hr).1, BitVec.xor_assoc]
  · rw [if_neg c1, if_neg c1]
    by_cases c2 : 6 < nk ∧ ws.length % nk = 4
    · rw [if_pos c2, if_pos c2, hp, hq]
      simp only [Option.bind_eq_bind, Option.bind_some, search_eq]
    · rw [if_neg c2, if_neg c2, hp, hq]
      rfl

theorem expandLoop_eq (nk n : Nat) (ws : List (BitVec 32)) (h0 : 0 < nk) (hl : nk ≤ ws.length)
    (hr : ws.length + n ≤ 11 * nk) (hg : Good nk ws) :
    ∃ t, expandLoop nk n ws = some (ws ++ t) ∧ t.length = n ∧ Good nk (ws ++ t) := by
  induction n generalizing ws with
  | zero => exact ⟨[], by simp [expandLoop], rfl, by simpa using hg⟩
  | succ n ih =>
    have hp := List.getElem?_eq_getElem (l := ws) (i := ws.length - nk) (by omega)
    have hq := List.getElem?_eq_getElem (l := ws) (i := ws.length - 1) (by omega)
    have hdiv : ws.length / nk ≤ 10 := by
      have : ws.length / nk < 11 := Nat.div_lt_of_lt_mul (by rw [Nat.mul_comm]; omega)
      omega
    have hn := nextKey_eq nk ws _ _ h0 hl hdiv hp hq
    have hs := good_snoc hg h0 hl hp hq
    generalize ws[ws.length - nk] ^^^ g nk ws.length ws[ws.length - 1] = v at hn hs
    obtain ⟨t, h1, h2, h3⟩ := ih (ws ++ [v]) (by simp; omega) (by simp; omega) hs
    rw [List.append_assoc] at h1 h3
    refine ⟨[v] ++ t, ?_, by simp [h2], h3⟩
    unfold expandLoop
    simp only [hn, Option.bind_eq_bind, Option.bind_some, h1]

/-! ## The table variant -/

theorem aesG_eq (q rc : BitVec 32) : aesG q rc = some (Spec.subWord (Spec.rotWord q) ^^^ rc) := by
  conv_lhs => rw [← word_byte q]
  conv_rhs => rw [← word_byte q, rotWord_word, subWord_word]
  unfold aesG
  simp only [look24_word te1_fn, look16_word te2_fn, look8_word te3_fn, look0_word te0_fn,
    Option.bind_eq_bind, Option.bind_some, and0, and1, and2, and3, BitVec.zero_xor, xor_parts]

theorem aesG_rotr (q : BitVec 32) :
    aesG ((q >>> 8) ||| (q <<< 24)) 0#32 = some (Spec.subWord q) := by
  have : Spec.rotWord ((q >>> 8) ||| (q <<< 24)) = q := by
    conv_lhs => rw [← word_byte q]
    rw [rotr_word, rotWord_word, word_byte]
  rw [aesG_eq, BitVec.xor_zero, this]

theorem rconT_at (times : Nat) (h : times < 10) : rconT[times]? = some (Spec.rcon (times + 1)) :=
  (rcon_eq (times + 1) (by omega) (by omega)).2

/-- `k` more words: each is the previous one xored with the one `nk` back. -/
theorem good_plain {nk : Nat} {ws : List (BitVec 32)} (h : Good nk ws) (h0 : 0 < nk)
    (hl : nk ≤ ws.length) {p q : BitVec 32} (hp : ws[ws.length - nk]? = some p)
    (hq : ws[ws.length - 1]? = some q) (hm : ws.length % nk ≠ 0)
    (hm4 : ¬ (6 < nk ∧ ws.length % nk = 4)) : Good nk (ws ++ [q ^^^ p]) := by
  have := good_snoc h h0 hl hp hq
  unfold g at this
  rw [if_neg hm, if_neg hm4, BitVec.xor_comm] at this
  exact this

theorem good_rot {nk : Nat} {ws : List (BitVec 32)} (h : Good nk ws) (h0 : 0 < nk)
    (hl : nk ≤ ws.length) {p q : BitVec 32} (hp : ws[ws.length - nk]? = some p)
    (hq : ws[ws.length - 1]? = some q) (hm : ws.length % nk = 0) :
    Good nk (ws ++ [Spec.subWord (Spec.rotWord q) ^^^ Spec.rcon (ws.length / nk) ^^^ p]) := by
  have := good_snoc h h0 hl hp hq
  unfold g at this
  rw [if_pos hm, BitVec.xor_comm] at this
  exact this

theorem good_sub {nk : Nat} {ws : List (BitVec 32)} (h : Good nk ws) (h6 : 6 < nk)
    (hl : nk ≤ ws.length) {p q : BitVec 32} (hp : ws[ws.length - nk]? = some p)
    (hq : ws[ws.length - 1]? = some q) (hm : ws.length % nk = 4) :
    Good nk (ws ++ [Spec.subWord q ^^^ p]) := by
  have := good_snoc h (by omega) hl hp hq
  unfold g at this
  rw [if_neg (by omega), if_pos ⟨h6, hm⟩, BitVec.xor_comm] at this
  exact this

/-- A group of four words starting at a multiple of `nk`. -/
theorem good_four {nk t : Nat} {ws : List (BitVec 32)} (h : Good nk ws) (hnk : 4 ≤ nk)
    (hl : ws.length = nk * (t + 1)) {e0 e1 e2 e3 q : BitVec 32}
    (h0 : ws[nk * t + 0]? = some e0) (h1 : ws[nk * t + 1]? = some e1)
    (h2 : ws[nk * t + 2]? = some e2) (h3 : ws[nk * t + 3]? = some e3)
    (hq : ws[ws.length - 1]? = some q) :
    let f4 := Spec.subWord (Spec.rotWord q) ^^^ Spec.rcon (t + 1) ^^^ e0
    let f5 := f4 ^^^ e1
    let f6 := f5 ^^^ e2
    let f7 := f6 ^^^ e3
    Good nk (ws ++ [f4, f5, f6, f7]) := by
  intro f4 f5 f6 f7
  have hmul : nk * (t + 1) = nk * t + nk := Nat.mul_succ nk t
  have hmod : ∀ k, k < nk → (nk * t + nk + k) % nk = k := by
    intro k hk
    rw [Nat.add_assoc, Nat.mul_add_mod, Nat.add_mod_left, Nat.mod_eq_of_lt hk]
  have g1 : Good nk (ws ++ [f4]) := by
    have := good_rot h (by omega) (by omega) (p := e0) (q := q)
      (by rw [show ws.length - nk = nk * t + 0 by omega]; exact h0) hq
      (by rw [hl]; exact Nat.mul_mod_right _ _)
    rw [hl, Nat.mul_div_cancel_left _ (by omega : 0 < nk)] at this
    exact this
  have g2 : Good nk (ws ++ [f4] ++ [f5]) := by
    apply good_plain g1 (by omega) (by simp; omega)
    · rw [List.length_append, List.length_singleton, List.getElem?_append_left (by omega),
        show ws.length + 1 - nk = nk * t + 1 by omega]; exact h1
    · simp
    · rw [List.length_append, List.length_singleton, hl, hmul, hmod 1 (by omega)]; omega
    · rw [List.length_append, List.length_singleton, hl, hmul, hmod 1 (by omega)]; omega
  have g3 : Good nk (ws ++ [f4] ++ [f5] ++ [f6]) := by
    apply good_plain g2 (by omega) (by simp; omega)
    · rw [List.append_assoc, List.length_append, List.getElem?_append_left (by simp; omega),
        show ws.length + ([f4] ++ [f5]).length - nk = nk * t + 2 by simp; omega]; exact h2
    · simp
    · rw [List.append_assoc, List.length_append, show ([f4] ++ [f5]).length = 2 from rfl, hl, hmul,
        hmod 2 (by omega)]; omega
    · rw [List.append_assoc, List.length_append, show ([f4] ++ [f5]).length = 2 from rfl, hl, hmul,
        hmod 2 (by omega)]; omega
  have g4 : Good nk (ws ++ [f4] ++ [f5] ++ [f6] ++ [f7]) := by
    apply good_plain g3 (by omega) (by simp; omega)
    · rw [List.append_assoc, List.append_assoc, List.length_append,
        List.getElem?_append_left (by simp; omega),
        show ws.length + ([f4] ++ ([f5] ++ [f6])).length - nk = nk * t + 3 by simp; omega]; exact h3
    · simp
    · rw [List.append_assoc, List.append_assoc, List.length_append,
        show ([f4] ++ ([f5] ++ [f6])).length = 3 from rfl, hl, hmul, hmod 3 (by omega)]; omega
    · rw [List.append_assoc, List.append_assoc, List.length_append,
        show ([f4] ++ ([f5] ++ [f6])).length = 3 from rfl, hl, hmul, hmod 3 (by omega)]; omega
  simpa using g4

theorem step128_eq (e0 e1 e2 e3 : BitVec 32) (times : Nat) (h : times < 10) :
    let f4 := Spec.subWord (Spec.rotWord e3) ^^^ Spec.rcon (times + 1) ^^^ e0
    step128 e0 e1 e2 e3 times = some [f4, f4 ^^^ e1, f4 ^^^ e1 ^^^ e2, f4 ^^^ e1 ^^^ e2 ^^^ e3] := by
  unfold step128
  simp only [rconT_at times h, Option.bind_eq_bind, Option.bind_some, aesG_eq]

theorem half192_eq (e0 e1 e2 e3 e5 : BitVec 32) (times : Nat) (h : times < 10) :
    let f4 := Spec.subWord (Spec.rotWord e5) ^^^ Spec.rcon (times + 1) ^^^ e0
    half192 e0 e1 e2 e3 e5 times = some [f4, f4 ^^^ e1, f4 ^^^ e1 ^^^ e2, f4 ^^^ e1 ^^^ e2 ^^^ e3] := by
  unfold half192
  simp only [rconT_at times h, Option.bind_eq_bind, Option.bind_some, aesG_eq]

theorem half256_eq (e0 e1 e2 e3 e7 : BitVec 32) (times : Nat) (h : times < 10) :
    let f4 := Spec.subWord (Spec.rotWord e7) ^^^ Spec.rcon (times + 1) ^^^ e0
    half256 e0 e1 e2 e3 e7 times = some [f4, f4 ^^^ e1, f4 ^^^ e1 ^^^ e2, f4 ^^^ e1 ^^^ e2 ^^^ e3] := by
  unfold half256
  simp only [rconT_at times h, Option.bind_eq_bind, Option.bind_some, aesG_eq]

theorem half256b_eq (e4 e5 e6 e7 e11 : BitVec 32) :
    let f4 := Spec.subWord e11 ^^^ e4
    half256b e4 e5 e6 e7 e11 = some [f4, f4 ^^^ e5, f4 ^^^ e5 ^^^ e6, f4 ^^^ e5 ^^^ e6 ^^^ e7] := by
  unfold half256b
  simp only [Option.bind_eq_bind, Option.bind_some, aesG_rotr]

theorem loop128_eq (n times : Nat) (ws : List (BitVec 32)) (hl : ws.length = 4 * (times + 1))
    (hn : times + n ≤ 10) (hg : Good 4 ws) :
    ∃ t, loop128 n times ws = some (ws ++ t) ∧ t.length = 4 * n ∧ Good 4 (ws ++ t) := by
  induction n generalizing times ws with
  | zero => exact ⟨[], by simp [loop128], rfl, by simpa using hg⟩
  | succ n ih =>
    have e0 := List.getElem?_eq_getElem (l := ws) (i := 4 * times + 0) (by omega)
    have e1 := List.getElem?_eq_getElem (l := ws) (i := 4 * times + 1) (by omega)
    have e2 := List.getElem?_eq_getElem (l := ws) (i := 4 * times + 2) (by omega)
    have e3 := List.getElem?_eq_getElem (l := ws) (i := 4 * times + 3) (by omega)
    generalize ws[4 * times + 0]'(by omega) = x0 at e0
    generalize ws[4 * times + 1]'(by omega) = x1 at e1
    generalize ws[4 * times + 2]'(by omega) = x2 at e2
    generalize ws[4 * times + 3]'(by omega) = x3 at e3
    have hf := good_four hg (by omega) hl e0 e1 e2 e3 (q := x3)
      (by rw [show ws.length - 1 = 4 * times + 3 by omega]; exact e3)
    dsimp only at hf
    have hs := step128_eq x0 x1 x2 x3 times (by omega)
    dsimp only at hs
    obtain ⟨t, h1, h2, h3⟩ := ih (times + 1) _ (by simp; omega) (by omega) hf
    rw [List.append_assoc] at h3
    refine ⟨_, ?_, ?_, h3⟩
    · unfold loop128
      simp only [e0, e1, e2, e3, hs, Option.bind_eq_bind, Option.bind_some]
      rw [h1, List.append_assoc]
    · simp only [List.length_append, h2, List.length_cons, List.length_nil]; omega

theorem loop192_eq (n times : Nat) (ws : List (BitVec 32)) (hl : ws.length = 6 * (times + 1))
    (hn : times + n < 10) (hg : Good 6 ws) :
    ∃ t, loop192 n times ws = some (ws ++ t) ∧ t.length = 6 * n + 4 ∧ Good 6 (ws ++ t) := by
  induction n generalizing times ws with
  | zero =>
    obtain ⟨x0, e0⟩ : ∃ x, ws[6 * times + 0]? = some x := ⟨_, List.getElem?_eq_getElem (by omega)⟩
    obtain ⟨x1, e1⟩ : ∃ x, ws[6 * times + 1]? = some x := ⟨_, List.getElem?_eq_getElem (by omega)⟩
    obtain ⟨x2, e2⟩ : ∃ x, ws[6 * times + 2]? = some x := ⟨_, List.getElem?_eq_getElem (by omega)⟩
    obtain ⟨x3, e3⟩ : ∃ x, ws[6 * times + 3]? = some x := ⟨_, List.getElem?_eq_getElem (by omega)⟩
    obtain ⟨x4, e4⟩ : ∃ x, ws[6 * times + 4]? = some x := ⟨_, List.getElem?_eq_getElem (by omega)⟩
    obtain ⟨x5, e5⟩ : ∃ x, ws[6 * times + 5]? = some x := ⟨_, List.getElem?_eq_getElem (by omega)⟩
    have hf := good_four hg (by omega) hl e0 e1 e2 e3 (q := x5)
      (by rw [show ws.length - 1 = 6 * times + 5 by omega]; exact e5)
    dsimp only at hf
    have hs := half192_eq x0 x1 x2 x3 x5 times (by omega)
    dsimp only at hs
    refine ⟨_, ?_, ?_, hf⟩
    · unfold loop192
      simp only [e0, e1, e2, e3, e4, e5, hs, Option.bind_eq_bind, Option.bind_some,
        List.getElem?_cons_succ, List.getElem?_cons_zero]
    · rfl
  | succ n ih =>
    obtain ⟨x0, e0⟩ : ∃ x, ws[6 * times + 0]? = some x := ⟨_, List.getElem?_eq_getElem (by omega)⟩
    obtain ⟨x1, e1⟩ : ∃ x, ws[6 * times + 1]? = some x := ⟨_, List.getElem?_eq_getElem (by omega)⟩
    obtain ⟨x2, e2⟩ : ∃ x, ws[6 * times + 2]? = some x := ⟨_, List.getElem?_eq_getElem (by omega)⟩
    obtain ⟨x3, e3⟩ : ∃ x, ws[6 * times + 3]? = some x := ⟨_, List.getElem?_eq_getElem (by omega)⟩
    obtain ⟨x4, e4⟩ : ∃ x, ws[6 * times + 4]? = some x := ⟨_, List.getElem?_eq_getElem (by omega)⟩
    obtain ⟨x5, e5⟩ : ∃ x, ws[6 * times + 5]? = some x := ⟨_, List.getElem?_eq_getElem (by omega)⟩
    have hf := good_four hg (by omega) hl e0 e1 e2 e3 (q := x5)
      (by rw [show ws.length - 1 = 6 * times + 5 by omega]; exact e5)
    dsimp only at hf
    have hs := half192_eq x0 x1 x2 x3 x5 times (by omega)
    dsimp only at hs
    generalize Spec.subWord (Spec.rotWord x5) ^^^ Spec.rcon (times + 1) ^^^ x0 = f6 at hf hs
    generalize hf7 : f6 ^^^ x1 = f7 at hf hs
    generalize hf8 : f7 ^^^ x2 = f8 at hf hs
    generalize hf9 : f8 ^^^ x3 = f9 at hf hs
    have hlen : (ws ++ [f6, f7, f8, f9]).length = 6 * (times + 1) + 4 := by simp [hl]
    have g5 : Good 6 (ws ++ [f6, f7, f8, f9] ++ [f9 ^^^ x4]) := by
      apply good_plain hf (by omega) (by omega)
      · rw [hlen, List.getElem?_append_left (by omega),
          show 6 * (times + 1) + 4 - 6 = 6 * times + 4 by omega]; exact e4
      · rw [hlen, List.getElem?_append_right (by omega), hl,
          show 6 * (times + 1) + 4 - 1 - 6 * (times + 1) = 3 by omega]; rfl
      · omega
      · omega
    have g6 : Good 6 (ws ++ [f6, f7, f8, f9] ++ [f9 ^^^ x4] ++ [f9 ^^^ x4 ^^^ x5]) := by
      have hlen2 : (ws ++ [f6, f7, f8, f9] ++ [f9 ^^^ x4]).length = 6 * (times + 1) + 5 := by simp [hl]
      apply good_plain g5 (by omega) (by omega)
      · rw [hlen2, List.append_assoc, List.getElem?_append_left (by omega),
          show 6 * (times + 1) + 5 - 6 = 6 * times + 5 by omega]; exact e5
      · rw [hlen2, List.append_assoc, List.getElem?_append_right (by omega), hl,
          show 6 * (times + 1) + 5 - 1 - 6 * (times + 1) = 4 by omega]; rfl
      · omega
      · omega
    rw [List.append_assoc (ws ++ [f6, f7, f8, f9])] at g6
    obtain ⟨t, h1, h2, h3⟩ := ih (times + 1) _ (by simp; omega) (by omega) g6
    refine ⟨[f6, f7, f8, f9] ++ ([f9 ^^^ x4] ++ [f9 ^^^ x4 ^^^ x5]) ++ t, ?_, ?_, ?_⟩
    · unfold loop192
      simp only [e0, e1, e2, e3, e4, e5, hs, Option.bind_eq_bind, Option.bind_some,
        List.getElem?_cons_succ, List.getElem?_cons_zero]
      rw [show [f9 ^^^ x4, f9 ^^^ x4 ^^^ x5] = [f9 ^^^ x4] ++ [f9 ^^^ x4 ^^^ x5] from rfl, h1]
      simp only [List.append_assoc]
    · simp only [List.length_append, h2, List.length_cons, List.length_nil]; omega
    · simp only [List.append_assoc] at h3 ⊢; exact h3

/-- The four words at position `4` modulo `8` of the 256-bit schedule. -/
theorem good_four_b {t : Nat} {ws : List (BitVec 32)} (h : Good 8 ws)
    (hl : ws.length = 8 * (t + 1) + 4) {e0 e1 e2 e3 q : BitVec 32}
    (h0 : ws[8 * t + 4]? = some e0) (h1 : ws[8 * t + 5]? = some e1)
    (h2 : ws[8 * t + 6]? = some e2) (h3 : ws[8 * t + 7]? = some e3)
    (hq : ws[ws.length - 1]? = some q) :
    let f4 := Spec.subWord q ^^^ e0
    let f5 := f4 ^^^ e1
    let f6 := f5 ^^^ e2
    let f7 := f6 ^^^ e3
    Good 8 (ws ++ [f4, f5, f6, f7]) := by
  intro f4 f5 f6 f7
  have g1 : Good 8 (ws ++ [f4]) :=
    good_sub h (by omega) (by omega) (by rw [show ws.length - 8 = 8 * t + 4 by omega]; exact h0) hq
      (by omega)
  have g2 : Good 8 (ws ++ [f4] ++ [f5]) := by
    have hln : (ws ++ [f4]).length = 8 * (t + 1) + 5 := by simp [hl]
    apply good_plain g1 (by omega) (by omega)
    · rw [hln, List.getElem?_append_left (by omega),
        show 8 * (t + 1) + 5 - 8 = 8 * t + 5 by omega]; exact h1
    · simp
    · omega
    · omega
  have g3 : Good 8 (ws ++ [f4] ++ [f5] ++ [f6]) := by
    have hln : (ws ++ [f4] ++ [f5]).length = 8 * (t + 1) + 6 := by simp [hl]
    apply good_plain g2 (by omega) (by omega)
    · rw [hln, List.append_assoc, List.getElem?_append_left (by omega),
        show 8 * (t + 1) + 6 - 8 = 8 * t + 6 by omega]; exact h2
    · simp
    · omega
    · omega
  have g4 : Good 8 (ws ++ [f4] ++ [f5] ++ [f6] ++ [f7]) := by
    have hln : (ws ++ [f4] ++ [f5] ++ [f6]).length = 8 * (t + 1) + 7 := by simp [hl]
    apply good_plain g3 (by omega) (by omega)
    · rw [hln, List.append_assoc, List.append_assoc, List.getElem?_append_left (by omega),
        show 8 * (t + 1) + 7 - 8 = 8 * t + 7 by omega]; exact h3
    · simp
    · omega
    · omega
  simpa using g4

theorem loop256_eq (n times : Nat) (ws : List (BitVec 32)) (hl : ws.length = 8 * (times + 1))
    (hn : times + n < 10) (hg : Good 8 ws) :
    ∃ t, loop256 n times ws = some (ws ++ t) ∧ t.length = 8 * n + 4 ∧ Good 8 (ws ++ t) := by
  induction n generalizing times ws with
  | zero =>
    obtain ⟨x0, e0⟩ : ∃ x, ws[8 * times + 0]? = some x := ⟨_, List.getElem?_eq_getElem (by omega)⟩
    obtain ⟨x1, e1⟩ : ∃ x, ws[8 * times + 1]? = some x := ⟨_, List.getElem?_eq_getElem (by omega)⟩
    obtain ⟨x2, e2⟩ : ∃ x, ws[8 * times + 2]? = some x := ⟨_, List.getElem?_eq_getElem (by omega)⟩
    obtain ⟨x3, e3⟩ : ∃ x, ws[8 * times + 3]? = some x := ⟨_, List.getElem?_eq_getElem (by omega)⟩
    obtain ⟨x4, e4⟩ : ∃ x, ws[8 * times + 4]? = some x := ⟨_, List.getElem?_eq_getElem (by omega)⟩
    obtain ⟨x5, e5⟩ : ∃ x, ws[8 * times + 5]? = some x := ⟨_, List.getElem?_eq_getElem (by omega)⟩
    obtain ⟨x6, e6⟩ : ∃ x, ws[8 * times + 6]? = some x := ⟨_, List.getElem?_eq_getElem (by omega)⟩
    obtain ⟨x7, e7⟩ : ∃ x, ws[8 * times + 7]? = some x := ⟨_, List.getElem?_eq_getElem (by omega)⟩
    have hf := good_four hg (by omega) hl e0 e1 e2 e3 (q := x7)
      (by rw [show ws.length - 1 = 8 * times + 7 by omega]; exact e7)
    dsimp only at hf
    have hs := half256_eq x0 x1 x2 x3 x7 times (by omega)
    dsimp only at hs
    refine ⟨_, ?_, ?_, hf⟩
    · rw [loop256]
      simp only [e0, e1, e2, e3, e4, e5, e6, e7, hs, Option.bind_eq_bind, Option.bind_some,
        List.getElem?_cons_succ, List.getElem?_cons_zero]
    · rfl
  | succ n ih =>
    obtain ⟨x0, e0⟩ : ∃ x, ws[8 * times + 0]? = some x := ⟨_, List.getElem?_eq_getElem (by omega)⟩
    obtain ⟨x1, e1⟩ : ∃ x, ws[8 * times + 1]? = some x := ⟨_, List.getElem?_eq_getElem (by omega)⟩
    obtain ⟨x2, e2⟩ : ∃ x, ws[8 * times + 2]? = some x := ⟨_, List.getElem?_eq_getElem (by omega)⟩
    obtain ⟨x3, e3⟩ : ∃ x, ws[8 * times + 3]? = some x := ⟨_, List.getElem?_eq_getElem (by omega)⟩
    obtain ⟨x4, e4⟩ : ∃ x, ws[8 * times + 4]? = some x := ⟨_, List.getElem?_eq_getElem (by omega)⟩
    obtain ⟨x5, e5⟩ : ∃ x, ws[8 * times + 5]? = some x := ⟨_, List.getElem?_eq_getElem (by omega)⟩
    obtain ⟨x6, e6⟩ : ∃ x, ws[8 * times + 6]? = some x := ⟨_, List.getElem?_eq_getElem (by omega)⟩
    obtain ⟨x7, e7⟩ : ∃ x, ws[8 * times + 7]? = some x := ⟨_, List.getElem?_eq_getElem (by omega)⟩
    have hf := good_four hg (by omega) hl e0 e1 e2 e3 (q := x7)
      (by rw [show ws.length - 1 = 8 * times + 7 by omega]; exact e7)
    dsimp only at hf
    have hs := half256_eq x0 x1 x2 x3 x7 times (by omega)
    dsimp only at hs
    generalize Spec.subWord (Spec.rotWord x7) ^^^ Spec.rcon (times + 1) ^^^ x0 = f8 at hf hs
    generalize hf9 : f8 ^^^ x1 = f9 at hf hs
    generalize hf10 : f9 ^^^ x2 = f10 at hf hs
    generalize hf11 : f10 ^^^ x3 = f11 at hf hs
    have hlen : (ws ++ [f8, f9, f10, f11]).length = 8 * (times + 1) + 4 := by simp [hl]
    have hb := good_four_b hf hlen (e0 := x4) (e1 := x5) (e2 := x6) (e3 := x7) (q := f11)
      (by rw [List.getElem?_append_left (by omega)]; exact e4)
      (by rw [List.getElem?_append_left (by omega)]; exact e5)
      (by rw [List.getElem?_append_left (by omega)]; exact e6)
      (by rw [List.getElem?_append_left (by omega)]; exact e7)
      (by rw [hlen, List.getElem?_append_right (by omega), hl,
          show 8 * (times + 1) + 4 - 1 - 8 * (times + 1) = 3 by omega]; rfl)
    dsimp only at hb
    have hs2 := half256b_eq x4 x5 x6 x7 f11
    dsimp only at hs2
    obtain ⟨t, h1, h2, h3⟩ := ih (times + 1) _ (by simp; omega) (by omega) hb
    simp only [List.append_assoc ws] at h3
    refine ⟨_, ?_, ?_, h3⟩
    · rw [loop256]
      simp only [e0, e1, e2, e3, e4, e5, e6, e7, hs, hs2, Option.bind_eq_bind, Option.bind_some,
        List.getElem?_cons_succ, List.getElem?_cons_zero]
      rw [h1]
      simp only [List.append_assoc]
    · simp only [List.length_append, h2, List.length_cons, List.length_nil]; omega

/-! ## Schedules -/

theorem good_schedule {nk nr : Nat} {key : List Byte} {ws : List (BitVec 32)} (hf : First nk key ws)
    (hg : Good nk ws) (hl : ws.length = 4 * (nr + 1)) (h0 : 0 < nk) :
    ∃ w, Spec.IsSchedule nk nr key w ∧ Keys ws w nr := by
  refine ⟨fun i => ws.getD i 0, ⟨?_, ?_⟩, ?_⟩
  · intro i hi
    obtain ⟨a, b, c, d, e1, e2, e3, e4, e5⟩ := hf i hi
    exact ⟨a, b, c, d, e1, e2, e3, e4, by simp only [List.getD_eq_getElem?_getD, e5, Option.getD_some]⟩
  · intro i h1 h2
    obtain ⟨p, q, e1, e2, e3⟩ := hg i h1 (by omega)
    simp only [List.getD_eq_getElem?_getD, e1, e2, e3, Option.getD_some]
    rfl
  · intro j hj
    simp only [List.getD_eq_getElem?_getD, List.getElem?_eq_getElem (by omega : j < ws.length),
      Option.getD_some]

/-- The schedule is determined by the key. -/
theorem schedule_unique {nk nr : Nat} {key : List Byte} {w w' : Nat → Spec.Word} (h0 : 0 < nk)
    (h : Spec.IsSchedule nk nr key w) (h' : Spec.IsSchedule nk nr key w') (i : Nat)
    (hi : i < 4 * (nr + 1)) : w i = w' i := by
  induction i using Nat.strongRecOn with
  | ind i ih =>
    by_cases c : i < nk
    · obtain ⟨a, b, x, d, e1, e2, e3, e4, e5⟩ := h.1 i c
      obtain ⟨a', b', x', d', f1, f2, f3, f4, f5⟩ := h'.1 i c
      rw [e1] at f1; rw [e2] at f2; rw [e3] at f3; rw [e4] at f4
      cases f1; cases f2; cases f3; cases f4
      rw [e5, f5]
    · rw [h.2 i (by omega) hi, h'.2 i (by omega) hi, ih (i - nk) (by omega) (by omega),
        ih (i - 1) (by omega) (by omega)]

end Verif.Crypto.Aes
