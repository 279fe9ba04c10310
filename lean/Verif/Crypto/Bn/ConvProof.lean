import Verif.Crypto.Bn.ConvModel
import Verif.Crypto.Bn.ExpProof
import Verif.Crypto.Bn.ApiProps
import Mathlib.Tactic.Ring
import Mathlib.Tactic.Linarith
namespace Verif.Crypto.Bn

/-- The number written with the digits `ds`, the highest first. -/
def Spec.numeral (base : Nat) (ds : List Nat) : Nat := ds.foldl (fun n d => base * n + d) 0

open Spec (numeral)

theorem fold_acc (b : Nat) (ds : List Nat) : ∀ acc, ds.foldl (fun n d => b * n + d) acc = acc * b ^ ds.length + numeral b ds := by
  induction ds with
  | nil => intro acc; simp [numeral]
  | cons d ds ih =>
    intro acc
    unfold numeral
    rw [List.foldl_cons, List.foldl_cons, ih, ih (b * 0 + d), List.length_cons, Nat.pow_succ]
    ring

theorem numeral_append (b : Nat) (x y : List Nat) : numeral b (x ++ y) = numeral b x * b ^ y.length + numeral b y := by
  unfold numeral
  rw [List.foldl_append, fold_acc]
  rfl

theorem numeral_cons (b d : Nat) (ds : List Nat) : numeral b (d :: ds) = d * b ^ ds.length + numeral b ds := by
  have := numeral_append b [d] ds
  rw [show numeral b [d] = d by simp [numeral]] at this
  exact this

theorem numeral_lt (b : Nat) (ds : List Nat) (h : ∀ d ∈ ds, d < b) : numeral b ds < b ^ ds.length := by
  induction ds with
  | nil => simp [numeral]
  | cons d ds ih =>
    rw [numeral_cons, List.length_cons, Nat.pow_succ, Nat.mul_comm (b ^ ds.length)]
    have h1 := ih (fun x hx => h x (List.mem_cons_of_mem _ hx))
    have h2 := h d List.mem_cons_self
    have := Nat.mul_le_mul_right (b ^ ds.length) (show d + 1 ≤ b by omega)
    rw [Nat.add_mul] at this
    omega

theorem numeral_replicate (b n : Nat) : numeral b (List.replicate n 0) = 0 := by
  induction n with
  | zero => rfl
  | succ n ih => rw [List.replicate_succ, numeral_cons, ih, Nat.zero_mul]

/-! ### Reading words -/

theorem shl_or (acc : W 32) (w d : Nat) (hw : w ≤ 64) (ha : acc.toNat < 2 ^ (64 - w)) (hd : d < 2 ^ w) :
    ((acc <<< w) ||| BitVec.ofNat (32 + 32) d).toNat = 2 ^ w * acc.toNat + d := by
  have e : (2 : Nat) ^ (64 - w) * 2 ^ w = 2 ^ 64 := by rw [← Nat.pow_add]; congr 1; omega
  have h1 : acc.toNat * 2 ^ w < 2 ^ (32 + 32) := by
    calc acc.toNat * 2 ^ w < 2 ^ (64 - w) * 2 ^ w := Nat.mul_lt_mul_of_pos_right ha (Nat.pow_pos (by decide))
      _ = 2 ^ (32 + 32) := e
  have h2 : d < 2 ^ (32 + 32) := Nat.lt_of_lt_of_le hd (Nat.pow_le_pow_right (by decide) hw)
  rw [BitVec.toNat_or, BitVec.toNat_shiftLeft, BitVec.toNat_ofNat, Nat.mod_eq_of_lt h2, Nat.shiftLeft_eq, Nat.mod_eq_of_lt h1,
    ← Nat.shiftLeft_eq, ← Nat.shiftLeft_add_eq_or_of_lt hd, Nat.shiftLeft_eq]
  ring

theorem word_fold {γ : Type} (f : γ → Nat) (w : Nat) (hf : ∀ c, f c < 2 ^ w) : ∀ (cs : List γ) (acc : W 32), cs.length * w ≤ 64 →
    acc.toNat < 2 ^ (64 - cs.length * w) →
    BitVec.toNat (cs.foldl (fun (num : W 32) (c : γ) => (num <<< w) ||| BitVec.ofNat (32 + 32) (f c)) acc) = (cs.map f).foldl (fun n d => 2 ^ w * n + d) acc.toNat
  | [], acc, _, _ => rfl
  | c :: cs, acc, hl, ha => by
    rw [List.length_cons, Nat.add_mul, Nat.one_mul] at hl ha
    have h1 := shl_or acc w (f c) (by omega) (Nat.lt_of_lt_of_le ha (Nat.pow_le_pow_right (by decide) (by omega))) (hf c)
    rw [List.foldl_cons, List.map_cons, List.foldl_cons, word_fold f w hf cs _ (by omega) ?_, h1]
    rw [h1]
    have h2 : acc.toNat + 1 ≤ 2 ^ (64 - (cs.length * w + w)) := ha
    have h3 := Nat.mul_le_mul_left (2 ^ w) h2
    rw [← Nat.pow_add, show w + (64 - (cs.length * w + w)) = 64 - cs.length * w by omega, Nat.mul_add, Nat.mul_one] at h3
    have := hf c
    omega

theorem limbOf_val (bs : List UInt8) (h : bs.length ≤ 8) : (limbOf bs).toNat = numeral 256 (bs.map UInt8.toNat) := by
  unfold limbOf
  rw [word_fold UInt8.toNat 8 (fun c => UInt8.toNat_lt c) bs 0 (by omega) (Nat.pow_pos (by decide))]
  rfl

theorem char_sub (c : Char) (a b : Char) (h1 : a ≤ c) (h2 : c ≤ b) : a.toNat ≤ c.toNat ∧ c.toNat ≤ b.toNat := ⟨h1, h2⟩

theorem strToHex_lt (c : Char) : strToHex c < 2 ^ 4 := by
  unfold strToHex
  split
  · rename_i h
    obtain ⟨h1, h2⟩ := char_sub c _ _ h.1 h.2
    rw [show '9'.toNat = 57 from rfl] at h2
    rw [show '0'.toNat = 48 from rfl] at h1 ⊢
    omega
  · split
    · rename_i h
      obtain ⟨h1, h2⟩ := char_sub c _ _ h.1 h.2
      rw [show 'F'.toNat = 70 from rfl] at h2
      rw [show 'A'.toNat = 65 from rfl] at h1 ⊢
      omega
    · split
      · rename_i h
        obtain ⟨h1, h2⟩ := char_sub c _ _ h.1 h.2
        rw [show 'f'.toNat = 102 from rfl] at h2
        rw [show 'a'.toNat = 97 from rfl] at h1 ⊢
        omega
      · decide

theorem limbOfHex_val (cs : List Char) (h : cs.length ≤ 16) : (limbOfHex cs).toNat = numeral 16 (cs.map strToHex) := by
  unfold limbOfHex
  rw [word_fold strToHex 4 strToHex_lt cs 0 (by omega) (Nat.pow_pos (by decide))]
  rfl

theorem take_split {γ : Type} (l : List γ) (n m : Nat) (h : m ≤ n) : l.take n = l.take (n - m) ++ (l.drop (n - m)).take m := by
  rw [← List.take_add]; congr 1; omega

theorem binWords_val (base : List UInt8) : ∀ fuel left, left ≤ fuel → left ≤ base.length →
    val (binWords base fuel left) = numeral 256 ((base.take left).map UInt8.toNat)
  | 0, left, h1, _ => by
    have : left = 0 := by omega
    subst this; rfl
  | fuel + 1, 0, _, _ => rfl
  | fuel + 1, left + 1, h1, h2 => by
    unfold binWords
    dsimp only
    generalize hm : (if left + 1 ≥ 8 then 8 else left + 1) = m
    have hm1 : m ≤ left + 1 ∧ 1 ≤ m ∧ m ≤ 8 ∧ (m = 8 ∨ m = left + 1) := by split at hm <;> omega
    have hlen : ((base.drop (left + 1 - m)).take m).length = m := by
      rw [List.length_take, List.length_drop]; omega
    show (limbOf _).toNat + 2 ^ (32 + 32) * val _ = _
    rw [limbOf_val _ (by omega), binWords_val base fuel (left + 1 - m) (by omega) (by omega), take_split base (left + 1) m hm1.1,
      List.map_append, numeral_append, List.length_map, hlen]
    rcases hm1.2.2.2 with h | h
    · subst h
      rw [show (256 : Nat) ^ 8 = 2 ^ (32 + 32) by decide]
      ring
    · rw [show left + 1 - m = 0 by omega, List.take_zero]
      simp [numeral]

theorem hexWords_val (s : List Char) : ∀ fuel len, len ≤ fuel → len ≤ s.length →
    val (hexWords s fuel len) = numeral 16 ((s.take len).map strToHex)
  | 0, len, h1, _ => by
    have : len = 0 := by omega
    subst this; rfl
  | fuel + 1, 0, _, _ => rfl
  | fuel + 1, len + 1, h1, h2 => by
    unfold hexWords
    dsimp only
    generalize hm : (if 16 ≤ len + 1 then 16 else len + 1) = m
    have hm1 : m ≤ len + 1 ∧ 1 ≤ m ∧ m ≤ 16 ∧ (m = 16 ∨ (m = len + 1 ∧ len + 1 - 16 = 0)) := by split at hm <;> omega
    have hlen : ((s.drop (len + 1 - m)).take m).length = m := by
      rw [List.length_take, List.length_drop]; omega
    show (limbOfHex _).toNat + 2 ^ (32 + 32) * val _ = _
    rw [limbOfHex_val _ (by omega), hexWords_val s fuel (len + 1 - 16) (by omega) (by omega), take_split s (len + 1) m hm1.1,
      List.map_append, numeral_append, List.length_map, hlen]
    rcases hm1.2.2.2 with h | ⟨h, h'⟩
    · subst h
      rw [show (16 : Nat) ^ 16 = 2 ^ (32 + 32) by decide]
      ring
    · rw [h', show len + 1 - m = 0 by omega, List.take_zero]
      simp [numeral]

theorem skipZeros_val (bs : List UInt8) : numeral 256 ((skipZeros bs).map UInt8.toNat) = numeral 256 (bs.map UInt8.toNat) := by
  induction bs with
  | nil => rfl
  | cons b bs ih =>
    unfold skipZeros
    by_cases h : b = 0
    · rw [if_neg (not_not.mpr h), ih, List.map_cons, numeral_cons, h]
      simp
    · rw [if_pos h]

theorem bin2Bn_some (bin : List UInt8) (h : (skipZeros bin).length ≤ 8 * maxWords) :
    ∃ r, bin2Bn bin = some r ∧ r.toInt = numeral 256 (bin.map UInt8.toNat) ∧ r.WF := by
  unfold bin2Bn
  dsimp only
  rw [← skipZeros_val]
  by_cases h0 : (skipZeros bin).length = 0
  · rw [if_pos h0]
    refine ⟨_, rfl, ?_, wf_zero⟩
    rw [List.length_eq_zero_iff.mp h0]
    rfl
  · rw [if_neg h0, if_neg (by split <;> omega)]
    obtain ⟨h1, h2⟩ := trim_spec (binWords (skipZeros bin) (skipZeros bin).length (skipZeros bin).length)
    refine ⟨_, rfl, ?_, wf_pos h2⟩
    rw [toInt_pos, h1, binWords_val _ _ _ (Nat.le_refl _) (Nat.le_refl _), List.take_length]

/-! ### Writing words -/

theorem limbByte_val (w : W 32) (i : Nat) : (limbByte w i).toNat = w.toNat / 256 ^ i % 256 := by
  unfold limbByte
  rw [UInt8.toNat_ofNat_of_lt' (Nat.mod_lt _ (by decide)), BitVec.toNat_ushiftRight, Nat.shiftRight_eq_div_pow, Nat.pow_mul]

theorem topBytes_spec (w : W 32) : ∀ left, (topBytes w left).length = left ∧ numeral 256 ((topBytes w left).map UInt8.toNat) = w.toNat % 256 ^ left
  | 0 => by simp [topBytes, numeral, Nat.mod_one]
  | left + 1 => by
    obtain ⟨h1, h2⟩ := topBytes_spec w left
    unfold topBytes
    refine ⟨by rw [List.length_cons, h1], ?_⟩
    rw [List.map_cons, numeral_cons, List.length_map, h1, h2, limbByte_val, Nat.mod_pow_succ]
    ring

theorem wordsDown_spec (data : List (W 32)) : ∀ n, n ≤ data.length → ∃ r, wordsDown data n n = some r ∧ r.length = 8 * n ∧
    numeral 256 (r.map UInt8.toNat) = val (data.take n)
  | 0, _ => ⟨[], rfl, rfl, rfl⟩
  | n + 1, h => by
    obtain ⟨r, h1, h2, h3⟩ := wordsDown_spec data n (by omega)
    unfold wordsDown
    rw [List.getElem?_eq_getElem (by omega)]
    dsimp only
    rw [h1]
    obtain ⟨t1, t2⟩ := topBytes_spec data[n] 8
    refine ⟨_, rfl, by rw [List.length_append, t1, h2]; omega, ?_⟩
    rw [List.map_append, numeral_append, List.length_map, h2, h3, t2, List.take_succ_eq_append_getElem (by omega : n < data.length), val_append,
      List.length_take, Nat.min_eq_left (by omega), val_one_limb, Nat.mod_eq_of_lt (by have := data[n].isLt; omega), Nat.pow_mul]
    rw [show (256 : Nat) ^ 8 = 2 ^ (32 + 32) by decide]
    ring

theorem bytes_bounds (data : List (W 32)) (hn : Norm data) (hne : data ≠ []) :
    0 < (binBits data + 7) / 8 ∧ 8 * (data.length - 1) < (binBits data + 7) / 8 ∧ (binBits data + 7) / 8 ≤ 8 * data.length ∧
    val data < 256 ^ ((binBits data + 7) / 8) ∧ 256 ^ ((binBits data + 7) / 8 - 1) ≤ val data := by
  obtain ⟨b1, b2, b3, b4, b5⟩ := binBits_spec (j := 5) rfl data hn hne
  refine ⟨by omega, by omega, by omega, ?_, ?_⟩
  · refine Nat.lt_of_lt_of_le b3 ?_
    rw [show (256 : Nat) = 2 ^ 8 by decide, ← Nat.pow_mul]
    exact Nat.pow_le_pow_right (by decide) (by omega)
  · refine Nat.le_trans ?_ b2
    rw [show (256 : Nat) = 2 ^ 8 by decide, ← Nat.pow_mul]
    exact Nat.pow_le_pow_right (by decide) (by omega)

theorem bytesOf_spec (data : List (W 32)) (hn : Norm data) (hne : data ≠ []) : ∃ r, bytesOf data ((binBits data + 7) / 8) = some r ∧
    r.length = (binBits data + 7) / 8 ∧ numeral 256 (r.map UInt8.toNat) = val data := by
  obtain ⟨c1, c2, c3, c4, -⟩ := bytes_bounds data hn hne
  generalize (binBits data + 7) / 8 = bytes at *
  have hlen : 0 < data.length := List.length_pos_iff.mpr hne
  unfold bytesOf
  dsimp only
  rw [List.getElem?_eq_getElem (by omega)]
  dsimp only
  obtain ⟨t1, t2⟩ := topBytes_spec data[data.length - 1] (bytes % 8)
  by_cases h0 : bytes % 8 = 0
  · rw [if_neg (not_not.mpr h0), show bytes / 8 = data.length by omega]
    obtain ⟨r, h1, h2, h3⟩ := wordsDown_spec data data.length (Nat.le_refl _)
    rw [h1]
    refine ⟨_, rfl, by rw [List.length_append, t1, h2]; omega, ?_⟩
    rw [h0] at t2 ⊢
    rw [List.map_append, numeral_append, h3, List.take_length, t2, Nat.pow_zero, Nat.mod_one, Nat.zero_mul, Nat.zero_add]
  · rw [if_pos h0, show bytes / 8 = data.length - 1 by omega]
    obtain ⟨r, h1, h2, h3⟩ := wordsDown_spec data (data.length - 1) (by omega)
    rw [h1]
    refine ⟨_, rfl, by rw [List.length_append, t1, h2]; omega, ?_⟩
    have hv : val data = val (data.take (data.length - 1)) + 256 ^ (8 * (data.length - 1)) * data[data.length - 1].toNat := by
      have e : data.take (data.length - 1) ++ [data[data.length - 1]] = data := by
        rw [← List.take_succ_eq_append_getElem (by omega), show data.length - 1 + 1 = data.length by omega, List.take_length]
      have := val_append (data.take (data.length - 1)) [data[data.length - 1]]
      rw [e, List.length_take, Nat.min_eq_left (by omega), val_one_limb] at this
      rw [this, Nat.pow_mul, show (256 : Nat) ^ 8 = 2 ^ (32 + 32) by decide]
    have htop : data[data.length - 1].toNat < 256 ^ (bytes % 8) := by
      by_contra hc
      have h4 := Nat.mul_le_mul_left (256 ^ (8 * (data.length - 1))) (Nat.le_of_not_lt hc)
      rw [← Nat.pow_add, show 8 * (data.length - 1) + bytes % 8 = bytes by omega] at h4
      omega
    rw [List.map_append, numeral_append, h3, List.length_map, h2, t2, Nat.mod_eq_of_lt htop, hv]
    ring

/-! ### Hexadecimal output -/

theorem hexMap_digit : ∀ n < 16, strToHex (hexMap n) = n ∧ isXdigit true (hexMap n) = true ∧ hexMap n ≠ '-' := by decide +kernel

theorem hexMap_zero : ∀ n < 16, hexMap n = '0' → n = 0 := by decide +kernel

/-- What a run of the loops leaves: digits, the value, and no byte of zeros at the start. -/
def HexOut (cs : List Char) (v : Nat) (lead : Bool) : Prop :=
  (∀ c ∈ cs, isXdigit true c = true ∧ c ≠ '-') ∧ numeral 16 (cs.map strToHex) = v ∧
  (lead = true → cs ≠ [] → cs.take 2 ≠ ['0', '0'] ∧ 2 ≤ cs.length)

theorem hexBytes_spec (w : W 32) : ∀ left lead, HexOut (hexBytes w left lead).1 (w.toNat % 256 ^ left) lead ∧
    (lead = false → (hexBytes w left lead).1.length = 2 * left ∧ (hexBytes w left lead).2 = false) ∧
    ((hexBytes w left lead).2 = true → (hexBytes w left lead).1 = []) ∧
    ((hexBytes w left lead).2 = false → lead = true → (hexBytes w left lead).1 ≠ [])
  | 0, lead => by
    cases lead <;> simp [hexBytes, HexOut, numeral, Nat.mod_one]
  | left + 1, lead => by
    unfold hexBytes
    dsimp only
    have hb := limbByte_val w left
    generalize limbByte w left = x at *
    have hx := UInt8.toNat_lt x
    by_cases h : lead = true ∧ x.toNat = 0
    · rw [if_pos h]
      obtain ⟨i1, i2, i3, i4⟩ := hexBytes_spec w left lead
      refine ⟨⟨i1.1, ?_, i1.2.2⟩, fun e => (by rw [h.1] at e; cases e), i3, i4⟩
      rw [i1.2.1, Nat.mod_pow_succ, ← hb, h.2, Nat.mul_zero]
      rfl
    · rw [if_neg h]
      obtain ⟨i1, i2, -, -⟩ := hexBytes_spec w left false
      obtain ⟨l1, l2⟩ := i2 rfl
      cases hr : hexBytes w left false with
      | mk r l =>
      rw [hr] at i1 l1 l2
      dsimp only at i1 l1 l2 ⊢
      have d1 := hexMap_digit (x.toNat / 16) (by omega)
      have d2 := hexMap_digit (x.toNat % 16) (by omega)
      refine ⟨⟨?_, ?_, ?_⟩, fun _ => ⟨by rw [List.length_cons, List.length_cons, l1]; omega, l2⟩, fun e => (by rw [l2] at e; cases e), fun _ _ e => by cases e⟩
      · intro c hc
        rcases List.mem_cons.mp hc with e | hc
        · subst e; exact d1.2
        · rcases List.mem_cons.mp hc with e | hc
          · subst e; exact d2.2
          · exact i1.1 c hc
      · rw [List.map_cons, List.map_cons, numeral_cons, numeral_cons, d1.1, d2.1, i1.2.1, List.length_cons, List.length_map, l1,
          Nat.mod_pow_succ, ← hb, show (256 : Nat) = 16 ^ 2 by decide, ← Nat.pow_mul, Nat.pow_succ]
        have := Nat.div_add_mod x.toNat 16
        generalize 16 ^ (2 * left) = P
        nlinarith
      · intro hl _
        refine ⟨?_, by simp⟩
        intro e
        simp only [List.take_succ_cons, List.take_zero, List.cons.injEq, and_true] at e
        have z1 := hexMap_zero _ (by omega : x.toNat / 16 < 16) e.1
        have z2 := hexMap_zero _ (by omega : x.toNat % 16 < 16) e.2
        exact h ⟨hl, by omega⟩

theorem hexLimbs_spec (data : List (W 32)) : ∀ n lead, n ≤ data.length → ∃ r, hexLimbs data n lead = some r ∧ HexOut r (val (data.take n)) lead ∧
    (lead = false → r.length = 16 * n)
  | 0, lead, _ => ⟨[], rfl, ⟨fun c hc => (by cases hc), rfl, fun _ h => absurd rfl h⟩, fun _ => rfl⟩
  | n + 1, lead, h => by
    unfold hexLimbs
    rw [List.getElem?_eq_getElem (by omega)]
    dsimp only
    obtain ⟨i1, i2, i3, i4⟩ := hexBytes_spec data[n] 8 lead
    cases hr : hexBytes data[n] 8 lead with
    | mk s l =>
    rw [hr] at i1 i2 i3 i4
    dsimp only at i1 i2 i3 i4 ⊢
    obtain ⟨r, h1, h2, h3⟩ := hexLimbs_spec data n l (by omega)
    rw [h1]
    have hw : data[n].toNat % 256 ^ 8 = data[n].toNat := Nat.mod_eq_of_lt (by have := data[n].isLt; omega)
    have hv : val (data.take (n + 1)) = val (data.take n) + (2 ^ (32 + 32)) ^ n * data[n].toNat := by
      rw [List.take_succ_eq_append_getElem (by omega : n < data.length), val_append, List.length_take, Nat.min_eq_left (by omega), val_one_limb]
    refine ⟨_, rfl, ⟨?_, ?_, ?_⟩, ?_⟩
    · intro c hc
      rcases List.mem_append.mp hc with hc | hc
      · exact i1.1 c hc
      · exact h2.1 c hc
    · rw [List.map_append, numeral_append, i1.2.1, h2.2.1, hv, hw, List.length_map]
      cases l with
      | false =>
        rw [h3 rfl, show (2 : Nat) ^ (32 + 32) = 16 ^ 16 by decide, ← Nat.pow_mul]
        ring
      | true =>
        have e := i3 rfl
        have : data[n].toNat = 0 := by
          have := i1.2.1
          rw [e, hw] at this
          exact this.symm
        rw [this]; ring
    · intro hl hne
      cases l with
      | true =>
        rw [i3 rfl, List.nil_append] at hne ⊢
        exact h2.2.2 rfl hne
      | false =>
        obtain ⟨j1, j2⟩ := i1.2.2 hl (i4 rfl hl)
        rw [List.take_append_of_le_length j2, List.length_append]
        exact ⟨j1, by omega⟩
    · intro hl
      obtain ⟨j1, j2⟩ := i2 hl
      rw [List.length_append, j1, h3 j2]
      omega

end Verif.Crypto.Bn
