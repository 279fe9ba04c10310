import Verif.Crypto.Bn.Mont
import Verif.Crypto.Bn.ApiProof
import Mathlib.Data.Nat.ModEq
import Mathlib.Tactic.Ring
import Mathlib.Tactic.Linarith
namespace Verif.Crypto.Bn

variable {h : Nat}

/-! ### The inverse of the lowest word -/

theorem mulAB_lo (hh : 0 < h) (u v : W h) : (mulAB u v).2.toNat = (u.toNat * v.toNat) % 2 ^ (h + h) := by
  have h1 := mulAB_spec hh u v
  rw [← h1, Nat.add_mul_mod_self_left, Nat.mod_eq_of_lt (mulAB u v).2.isLt]

theorem odd_step {m0 y i : Nat} (hi : 1 ≤ i) (hm : m0 % 2 = 1) (hy : (m0 * y) % 2 ^ i = 1) :
    (m0 * (if 2 ^ i < (m0 * y) % 2 ^ (i + 1) then y + 2 ^ i else y)) % 2 ^ (i + 1) = 1 := by
  have hP : 2 ≤ 2 ^ i := by
    have := Nat.pow_le_pow_right (show 0 < 2 by decide) hi
    simpa using this
  rw [pow_succ]
  generalize 2 ^ i = P at *
  have e1 : (m0 * y) % (P * 2) % P = 1 := by rw [Nat.mod_mul_right_mod, hy]
  have hlt : (m0 * y) % (P * 2) < P * 2 := Nat.mod_lt _ (by omega)
  generalize hz : (m0 * y) % (P * 2) = z at *
  have hz2 : z = 1 ∨ z = P + 1 := by
    rcases Nat.lt_or_ge z P with hc | hc
    · left; rw [Nat.mod_eq_of_lt hc] at e1; exact e1
    · right
      rw [Nat.mod_eq_sub_mod hc, Nat.mod_eq_of_lt (by omega)] at e1
      omega
  rcases hz2 with hc | hc
  · rw [if_neg (by omega), hz, hc]
  · rw [if_pos (by omega)]
    obtain ⟨k, hk⟩ : ∃ k, m0 = 2 * k + 1 := ⟨m0 / 2, by omega⟩
    have e2 : m0 * (y + P) = m0 * y + P + P * 2 * k := by rw [hk]; ring
    rw [e2, Nat.add_mul_mod_self_left, Nat.add_mod, hz, hc, Nat.mod_eq_of_lt (show P < P * 2 by omega)]
    rw [show P + 1 + P = 1 + P * 2 by omega, Nat.add_mod_right, Nat.mod_eq_of_lt (by omega)]

theorem invRound_spec (hh : 0 < h) (m0 : W h) (hm : m0.toNat % 2 = 1) (i : Nat) (hi : 1 ≤ i) (hiw : i < h + h) (x y mask : W h)
    (hx : x.toNat = 2 ^ i) (hmask : mask.toNat = 2 ^ i - 1) (hy : y.toNat < 2 ^ i) (hinv : (m0.toNat * y.toNat) % 2 ^ i = 1) :
    ∃ x' y' mask', invRound m0 (x, y, mask) = (x', y', mask') ∧ (i + 1 < h + h → x'.toNat = 2 ^ (i + 1)) ∧ mask'.toNat = 2 ^ (i + 1) - 1 ∧
      y'.toNat < 2 ^ (i + 1) ∧ (m0.toNat * y'.toNat) % 2 ^ (i + 1) = 1 := by
  have hle : 2 ^ (i + 1) ≤ 2 ^ (h + h) := Nat.pow_le_pow_right (by decide) hiw
  have hps : 2 ^ (i + 1) = 2 ^ i * 2 := pow_succ 2 i
  have hP : 0 < 2 ^ i := Nat.pow_pos (by decide)
  have hmk : ((mask <<< 1) ||| (1 : W h)).toNat = 2 ^ (i + 1) - 1 := by
    rw [BitVec.toNat_or, BitVec.toNat_shiftLeft, Nat.shiftLeft_eq, hmask, toNat_one hh, Nat.mod_eq_of_lt (by omega), or_disjoint (by decide)]
    omega
  have hand : ((mulAB m0 y).2 &&& ((mask <<< 1) ||| (1 : W h))).toNat = (m0.toNat * y.toNat) % 2 ^ (i + 1) := by
    rw [BitVec.toNat_and, hmk, Nat.and_two_pow_sub_one_eq_mod, mulAB_lo hh]
    rw [Nat.mod_mod_of_dvd]
    exact Nat.pow_dvd_pow 2 hiw
  have hcmp : (x < ((mulAB m0 y).2 &&& ((mask <<< 1) ||| (1 : W h)))) ↔ 2 ^ i < (m0.toNat * y.toNat) % 2 ^ (i + 1) := by
    rw [BitVec.lt_def, hand, hx]
  have hyx : (y + x).toNat = y.toNat + 2 ^ i := by rw [toNat_add_small _ _ (by omega), hx]
  have hstep := odd_step hi hm hinv
  refine ⟨x <<< 1, if x < ((mulAB m0 y).2 &&& ((mask <<< 1) ||| (1 : W h))) then y + x else y, (mask <<< 1) ||| 1, rfl, ?_, hmk, ?_, ?_⟩
  · intro hlt
    have : 2 ^ (i + 1) < 2 ^ (h + h) := Nat.pow_lt_pow_right (by decide) hlt
    rw [BitVec.toNat_shiftLeft, Nat.shiftLeft_eq, hx, pow_one, ← hps, Nat.mod_eq_of_lt this]
  · split
    · rw [hyx]; omega
    · omega
  · by_cases hc : 2 ^ i < (m0.toNat * y.toNat) % 2 ^ (i + 1)
    · rw [if_pos hc] at hstep
      rw [if_pos (hcmp.2 hc), hyx]; exact hstep
    · rw [if_neg hc] at hstep
      rw [if_neg (fun hx => hc (hcmp.1 hx))]; exact hstep

theorem invLoop_spec (hh : 0 < h) (m0 : W h) (hm : m0.toNat % 2 = 1) : ∀ (n i : Nat), 1 ≤ i → i + n = h + h → ∀ (x y mask : W h),
    (i < h + h → x.toNat = 2 ^ i) → mask.toNat = 2 ^ i - 1 → y.toNat < 2 ^ i → (m0.toNat * y.toNat) % 2 ^ i = 1 →
    (m0.toNat * (invLoop m0 n (x, y, mask)).2.1.toNat) % 2 ^ (h + h) = 1
  | 0, i, _, hs, x, y, mask, _, _, _, hinv => by
    rw [invLoop]; rw [Nat.add_zero] at hs; have e : 2 ^ (h + h) = 2 ^ i := by rw [hs]
    rw [e]; exact hinv
  | n + 1, i, hi, hs, x, y, mask, hx, hmask, hy, hinv => by
    rw [invLoop]
    obtain ⟨x', y', mask', e, h1, h2, h3, h4⟩ := invRound_spec hh m0 hm i hi (by omega) x y mask (hx (by omega)) hmask hy hinv
    rw [e]
    exact invLoop_spec hh m0 hm n (i + 1) (by omega) (by omega) x' y' mask' h1 h2 h3 h4

theorem inverse_spec (hh : 0 < h) (m0 : W h) (hm : m0.toNat % 2 = 1) : (m0.toNat * (inverse m0).toNat + 1) % 2 ^ (h + h) = 0 := by
  have hB := four_le hh
  have h2 : (2 : W h).toNat = 2 := by
    show 2 % 2 ^ (h + h) = 2
    exact Nat.mod_eq_of_lt (by omega)
  have := invLoop_spec hh m0 hm (h + h - 1) 1 (by omega) (by omega) 2 1 1 (fun _ => by rw [h2]; rfl) (by rw [toNat_one hh]; rfl) (by rw [toNat_one hh]; decide)
    (by rw [toNat_one hh]; omega)
  unfold inverse
  generalize (invLoop m0 (h + h - 1) (2, 1, 1)).2.1 = y at *
  have hy0 : 0 < y.toNat := by
    rcases Nat.eq_zero_or_pos y.toNat with h0 | h0
    · rw [h0] at this; simp at this
    · exact h0
  have e := toNat_sub_cases 0 y
  rw [toNat_zero', if_pos (by rw [BitVec.lt_def, toNat_zero']; exact hy0)] at e
  have hyl := y.isLt
  have e2 : (0 - y).toNat = 2 ^ (h + h) - y.toNat := by omega
  rw [e2]
  generalize 2 ^ (h + h) = B at *
  have hd := Nat.div_add_mod (m0.toNat * y.toNat) B
  rw [this] at hd
  have e3 : m0.toNat * (B - y.toNat) + m0.toNat * y.toNat = m0.toNat * B := by rw [← Nat.mul_add]; congr 1; omega
  have hdvd : B ∣ m0.toNat * (B - y.toNat) + 1 := by
    have hd2 : B ∣ (m0.toNat * (B - y.toNat) + 1) + B * (m0.toNat * y.toNat / B) := ⟨m0.toNat, by rw [Nat.mul_comm B m0.toNat]; omega⟩
    exact (Nat.dvd_add_left (Dvd.intro _ rfl)).1 hd2
  exact Nat.mod_eq_zero_of_dvd hdvd

/-! ### Montgomery reduction -/

theorem carry_add (hh : 0 < h) (t tmp c : W h) (hc : c.toNat ≤ 1) :
    (t + (tmp + c)).toNat + 2 ^ (h + h) * (if t + (tmp + c) < tmp + c then (1 : W h) else if tmp + c < c then 1 else 0).toNat =
      t.toNat + tmp.toNat + c.toNat ∧ (if t + (tmp + c) < tmp + c then (1 : W h) else if tmp + c < c then 1 else 0).toNat ≤ 1 := by
  have hB := four_le hh
  have ht := t.isLt
  have htmp := tmp.isLt
  have a1 := (add_cases c tmp).1
  have a2 := add_cases (tmp + c) t
  rw [BitVec.add_comm c tmp] at a1
  rw [BitVec.add_comm (tmp + c) t] at a2
  obtain ⟨b1, b2, b3⟩ := a2
  have hs := (tmp + c).isLt
  have hu := (t + (tmp + c)).isLt
  by_cases h1 : t + (tmp + c) < tmp + c
  · rw [if_pos h1] at b1 ⊢
    rw [toNat_one hh]
    by_cases h2 : tmp + c < c
    · rw [if_pos h2] at a1
      exfalso
      have := b2.1 h1
      omega
    · rw [if_neg h2] at a1; omega
  · rw [if_neg h1] at b1 ⊢
    by_cases h2 : tmp + c < c
    · rw [if_pos h2] at a1 ⊢
      rw [toNat_one hh]; omega
    · rw [if_neg h2] at a1 ⊢
      rw [toNat_zero']; omega

theorem low_zero {B s0 v m0 w k0 q : Nat} (hk : (m0 * k0 + 1) % B = 0) (hq : q = (s0 * k0) % B) :
    (s0 + B * v + (m0 + B * w) * q) % B = 0 := by
  have e1 : s0 + B * v + (m0 + B * w) * q = s0 + m0 * q + B * (v + w * q) := by ring
  rw [e1, Nat.add_mul_mod_self_left, hq]
  have e2 : (s0 + m0 * (s0 * k0 % B)) % B = (s0 * (m0 * k0 + 1)) % B := by
    have : s0 * (m0 * k0 + 1) = s0 + m0 * (s0 * k0) := by ring
    rw [this, Nat.add_mod, Nat.mul_mod m0, Nat.mod_mod, ← Nat.mul_mod, ← Nat.add_mod]
  rw [e2, Nat.mul_mod, hk, Nat.mul_zero, Nat.zero_mod]

theorem reduceRound_spec (hh : 0 < h) (m0 : W h) (ms : List (W h)) (k0 : W h) (hk : (m0.toNat * k0.toNat + 1) % 2 ^ (h + h) = 0)
    (s : List (W h)) (c : W h) (hl : (m0 :: ms).length + 1 ≤ s.length) (hc : c.toNat ≤ 1) :
    ∃ s' c' q, reduceRound (m0 :: ms) k0 s c = some (s', c') ∧ s'.length = s.length ∧ c'.toNat ≤ 1 ∧ q < 2 ^ (h + h) ∧
      2 ^ (h + h) * (val s'.tail + (2 ^ (h + h)) ^ (m0 :: ms).length * c'.toNat) =
        val s + (2 ^ (h + h)) ^ (m0 :: ms).length * c.toNat + q * val (m0 :: ms) := by
  generalize hm : m0 :: ms = m at *
  have hmpos : 0 < m.length := by rw [← hm]; simp
  obtain ⟨s0, st, rfl⟩ : ∃ s0 st, s = s0 :: st := by
    cases s with
    | nil => simp at hl
    | cons a b => exact ⟨a, b, rfl⟩
  have hlt : m.length < (s0 :: st).length := by omega
  have hget := List.getElem?_eq_getElem hlt
  generalize hv : (s0 :: st)[m.length] = t at hget
  unfold reduceRound
  rw [hget]
  simp only
  have htl : ((s0 :: st).take m.length).length = m.length := by rw [List.length_take]; omega
  obtain ⟨a1, a2⟩ := binMulAcc_spec hh ((s0 :: st).take m.length) m (s0 * k0) 0 htl
  rw [toNat_zero', Nat.add_zero] at a1
  generalize binMulAcc ((s0 :: st).take m.length) m (s0 * k0) 0 = res at *
  obtain ⟨low, tmp⟩ := res
  simp only at a1 a2 ⊢
  obtain ⟨c1, c2⟩ := carry_add hh t tmp c hc
  generalize hcc : (if t + (tmp + c) < tmp + c then (1 : W h) else if tmp + c < c then 1 else 0) = c' at *
  generalize t + (tmp + c) = t' at *
  have hsplit : s0 :: st = (s0 :: st).take m.length ++ t :: (s0 :: st).drop (m.length + 1) := by
    conv_lhs => rw [← List.take_append_drop m.length (s0 :: st), List.drop_eq_getElem_cons hlt, hv]
  have hvs : val (s0 :: st) = val ((s0 :: st).take m.length) + (2 ^ (h + h)) ^ m.length * (t.toNat + 2 ^ (h + h) * val ((s0 :: st).drop (m.length + 1))) := by
    conv_lhs => rw [hsplit]
    rw [val_append, htl, val]
  refine ⟨_, c', (s0 * k0).toNat, rfl, ?_, c2, (s0 * k0).isLt, ?_⟩
  · rw [List.length_append, a2, List.length_cons, List.length_drop]; omega
  · obtain ⟨l0, lt, rfl⟩ : ∃ l0 lt, low = l0 :: lt := by
      cases low with
      | nil => simp at a2; omega
      | cons a b => exact ⟨a, b, rfl⟩
    have hl0 : l0.toNat = 0 := by
      have hz : val (l0 :: lt) % 2 ^ (h + h) = 0 := by
        have e : (val (l0 :: lt) + (2 ^ (h + h)) ^ m.length * tmp.toNat) % 2 ^ (h + h) = val (l0 :: lt) % 2 ^ (h + h) := by
          obtain ⟨k, hk⟩ : ∃ k, m.length = k + 1 := ⟨m.length - 1, by omega⟩
          rw [hk, pow_succ, Nat.mul_comm (_ ^ k), Nat.mul_assoc, Nat.add_mul_mod_self_left]
        rw [← e, a1, ← hm]
        obtain ⟨k, hk'⟩ : ∃ k, (m0 :: ms).length = k + 1 := ⟨ms.length, by simp⟩
        rw [hk', List.take_succ_cons]
        simp only [val]
        exact low_zero hk (BitVec.toNat_mul _ _)
      rw [val, Nat.add_mul_mod_self_left, Nat.mod_eq_of_lt l0.isLt] at hz
      exact hz
    rw [List.cons_append, List.tail_cons, val_append]
    have hltl : lt.length + 1 = m.length := by simpa using a2
    rw [val, hl0, Nat.zero_add] at a1
    rw [hvs, val]
    generalize val ((s0 :: st).drop (m.length + 1)) = rest at *
    generalize val ((s0 :: st).take m.length) = tk at *
    rw [← hltl] at a1 ⊢
    rw [pow_succ] at a1 ⊢
    generalize (2 ^ (h + h)) ^ lt.length = P at *
    generalize 2 ^ (h + h) = B at *
    have e1 : P * B * (t'.toNat + B * c'.toNat) = P * B * (t.toNat + tmp.toNat + c.toNat) := by rw [c1]
    rw [Nat.mul_comm (val m)] at a1
    linarith

theorem reduceLoop_spec (hh : 0 < h) (m0 : W h) (ms : List (W h)) (k0 : W h) (hk : (m0.toNat * k0.toNat + 1) % 2 ^ (h + h) = 0) :
    ∀ (n : Nat) (s : List (W h)) (c : W h), (m0 :: ms).length + n ≤ s.length → c.toNat ≤ 1 →
    ∃ s' c' Q, reduceLoop (m0 :: ms) k0 n s c = some (s', c') ∧ s'.length + n = s.length ∧ c'.toNat ≤ 1 ∧ Q < (2 ^ (h + h)) ^ n ∧
      (2 ^ (h + h)) ^ n * (val s' + (2 ^ (h + h)) ^ (m0 :: ms).length * c'.toNat) =
        val s + (2 ^ (h + h)) ^ (m0 :: ms).length * c.toNat + Q * val (m0 :: ms)
  | 0, s, c, _, hc => ⟨s, c, 0, rfl, by simp, hc, by simp, by simp⟩
  | n + 1, s, c, hl, hc => by
    obtain ⟨s1, c1, q, r1, r2, r3, r4, r5⟩ := reduceRound_spec hh m0 ms k0 hk s c (by omega) hc
    have htl : s1.tail.length + 1 = s.length := by rw [List.length_tail]; omega
    obtain ⟨s2, c2, Q, i1, i2, i3, i4, i5⟩ := reduceLoop_spec hh m0 ms k0 hk n s1.tail c1 (by omega) r3
    refine ⟨s2, c2, q + 2 ^ (h + h) * Q, by rw [reduceLoop, r1]; exact i1, by omega, i3, ?_, ?_⟩
    · rw [pow_succ, Nat.mul_comm (_ ^ n)]
      have := Nat.mul_le_mul_left (2 ^ (h + h)) (show Q + 1 ≤ _ from i4)
      rw [Nat.mul_add] at this
      omega
    · rw [pow_succ]
      generalize val (m0 :: ms) = vm at *
      generalize (2 ^ (h + h)) ^ (m0 :: ms).length = P at *
      generalize (2 ^ (h + h)) ^ n = R at *
      generalize 2 ^ (h + h) = B at *
      have : B * (R * (val s2 + P * c2.toNat)) = B * (val s1.tail + P * c1.toNat) + B * (Q * vm) := by rw [i5, Nat.mul_add]
      rw [r5] at this
      linarith

theorem copy_ones : ∀ (a b : List (W h)), a.length = b.length → copyConsttime (BitVec.allOnes (h + h)) a b = a
  | [], [], _ => rfl
  | a :: as, b :: bs, hl => by
    rw [copyConsttime, copy_ones as bs (by simpa using hl)]
    congr 1
    simp

theorem copy_zero : ∀ (a b : List (W h)), a.length = b.length → copyConsttime 0 a b = b
  | [], [], _ => rfl
  | a :: as, b :: bs, hl => by
    rw [copyConsttime, copy_zero as bs (by simpa using hl)]
    congr 1
    simp

theorem ones_eq (hh : 0 < h) : (0 : W h) - 1 = BitVec.allOnes (h + h) := by
  apply BitVec.eq_of_toNat_eq
  have e := toNat_sub_cases (0 : W h) 1
  rw [toNat_zero', toNat_one hh, if_pos (by rw [BitVec.lt_def, toNat_zero', toNat_one hh]; decide)] at e
  rw [BitVec.toNat_allOnes]; omega

theorem reduce_spec (hh : 0 < h) (m : List (W h)) (k0 : W h) (hk : ∃ m0 ms, m = m0 :: ms ∧ (m0.toNat * k0.toNat + 1) % 2 ^ (h + h) = 0)
    (x : List (W h)) (hx : x.length = 2 * m.length) (hv : val x < val m * (2 ^ (h + h)) ^ m.length) :
    ∃ r, reduce x m k0 = some r ∧ r.length = m.length ∧ val r < val m ∧ ∃ Q, val r * (2 ^ (h + h)) ^ m.length ≡ val x + Q * val m [MOD val m] := by
  obtain ⟨m0, ms, rfl, hk⟩ := hk
  unfold reduce
  obtain ⟨s, c, Q, l1, l2, l3, l4, l5⟩ := reduceLoop_spec hh m0 ms k0 hk (m0 :: ms).length x 0 (by omega) (by simp)
  rw [l1]
  simp only
  generalize m0 :: ms = m at *
  have hsl : s.length = m.length := by omega
  obtain ⟨b1, b2⟩ := binSub_spec hh s m 0 hsl
  rw [toNat_zero', Nat.add_zero, hsl] at b1
  rw [hsl] at b2
  generalize binSub s m 0 = res at *
  obtain ⟨r, bw⟩ := res
  simp only at b1 b2 ⊢
  rw [toNat_zero', Nat.mul_zero, Nat.add_zero] at l5
  have hml := val_lt m
  have hs := val_lt s
  have hr := val_lt r
  rw [hsl] at hs
  rw [b2] at hr
  generalize hP : (2 ^ (h + h)) ^ m.length = P at *
  have hPpos : 0 < P := by omega
  have hV : val s + P * c.toNat < 2 * val m := by
    apply Nat.lt_of_mul_lt_mul_left (a := P)
    rw [l5]
    have h1 : Q * val m ≤ (P - 1) * val m := Nat.mul_le_mul_right _ (by omega)
    have h2 : (P - 1) * val m + val m = P * val m := by
      rw [← Nat.succ_mul]; congr 1; omega
    have h3 : val m * P = P * val m := Nat.mul_comm _ _
    have h4 : P * (2 * val m) = P * val m + P * val m := by ring
    omega
  have hbw : bw.toNat ≤ 1 := by
    by_contra hcon
    have := Nat.mul_le_mul_left P (show 2 ≤ bw.toNat by omega)
    omega
  -- the value that is kept
  have key : ∃ r', copyConsttime (c - bw) s r = r' ∧ r'.length = m.length ∧ val r' < val m ∧
      (val r' = val s + P * c.toNat ∨ val r' + val m = val s + P * c.toNat) := by
    rcases Nat.eq_zero_or_pos c.toNat with hc0 | hc0
    · have hce : c = 0 := BitVec.eq_of_toNat_eq (by rw [hc0, toNat_zero'])
      rcases Nat.eq_zero_or_pos bw.toNat with hb0 | hb0
      · have hbe : bw = 0 := BitVec.eq_of_toNat_eq (by rw [hb0, toNat_zero'])
        refine ⟨r, ?_, b2, ?_, Or.inr ?_⟩
        · rw [hce, hbe, show (0 : W h) - 0 = 0 from BitVec.sub_zero _, copy_zero _ _ (by omega)]
        · rw [hb0] at b1; rw [hc0] at hV; omega
        · rw [hb0] at b1; rw [hc0]; omega
      · have hb1 : bw.toNat = 1 := by omega
        have hbe : bw = 1 := BitVec.eq_of_toNat_eq (by rw [hb1, toNat_one hh])
        refine ⟨s, ?_, hsl, ?_, Or.inl ?_⟩
        · rw [hce, hbe, ones_eq hh, copy_ones _ _ (by omega)]
        · rw [hb1] at b1; omega
        · rw [hc0]; simp
    · have hc1 : c.toNat = 1 := by omega
      have hce : c = 1 := BitVec.eq_of_toNat_eq (by rw [hc1, toNat_one hh])
      rw [hc1] at hV
      have hb1 : bw.toNat = 1 := by
        rcases Nat.eq_zero_or_pos bw.toNat with hb0 | hb0
        · rw [hb0] at b1; omega
        · omega
      have hbe : bw = 1 := BitVec.eq_of_toNat_eq (by rw [hb1, toNat_one hh])
      refine ⟨r, ?_, b2, ?_, Or.inr ?_⟩
      · rw [hce, hbe, show (1 : W h) - 1 = 0 from BitVec.sub_self _, copy_zero _ _ (by omega)]
      · rw [hb1] at b1; omega
      · rw [hb1] at b1; rw [hc1]; omega
  obtain ⟨r', k1, k2, k3, k4⟩ := key
  refine ⟨r', by rw [k1], k2, k3, Q, ?_⟩
  rw [← l5, Nat.mul_comm P]
  rcases k4 with k4 | k4
  · rw [k4]
  · rw [← k4, Nat.add_mul]
    have : val m * P ≡ 0 [MOD val m] := (Nat.modEq_zero_iff_dvd).2 (Dvd.intro _ rfl)
    exact (Nat.ModEq.add_left _ this).symm

theorem reduce_mod (hh : 0 < h) (m : List (W h)) (k0 : W h) (hk : ∃ m0 ms, m = m0 :: ms ∧ (m0.toNat * k0.toNat + 1) % 2 ^ (h + h) = 0)
    (x : List (W h)) (hx : x.length = 2 * m.length) (hv : val x < val m * (2 ^ (h + h)) ^ m.length) :
    ∃ r, reduce x m k0 = some r ∧ r.length = m.length ∧ val r < val m ∧ val r * (2 ^ (h + h)) ^ m.length ≡ val x [MOD val m] := by
  obtain ⟨r, h1, h2, h3, Q, h4⟩ := reduce_spec hh m k0 hk x hx hv
  refine ⟨r, h1, h2, h3, h4.trans ?_⟩
  have : Q * val m ≡ 0 [MOD val m] := (Nat.modEq_zero_iff_dvd).2 (Dvd.intro_left _ rfl)
  exact Nat.ModEq.add_left _ this

/-! ### Montgomery form -/

/-- A context that `BN_MontCreate` has made. -/
structure MontOk (M : Mont h) : Prop where
  odd : val M.mod % 2 = 1
  norm : Norm M.mod
  key : ∃ m0 ms, M.mod = m0 :: ms ∧ (m0.toNat * M.k0.toNat + 1) % 2 ^ (h + h) = 0
  rrLen : M.rr.length = M.mod.length
  rrVal : val M.rr = (2 ^ (h + h)) ^ (2 * M.mod.length) % val M.mod

/-- `a` is the Montgomery form of `z`. -/
structure Rep (M : Mont h) (a : List (W h)) (z : Nat) : Prop where
  len : a.length = M.mod.length
  lt : val a < val M.mod
  eq : val a ≡ z * (2 ^ (h + h)) ^ M.mod.length [MOD val M.mod]

theorem modEq_of_eq {n a b : Nat} (he : a = b) : a ≡ b [MOD n] := by rw [he]

theorem mont_pos {M : Mont h} (hM : MontOk M) : 0 < val M.mod := by have := hM.odd; omega

theorem mont_coprime {M : Mont h} (hM : MontOk M) : Nat.gcd (val M.mod) ((2 ^ (h + h)) ^ M.mod.length) = 1 := by
  have h1 : Nat.Coprime (val M.mod) 2 := by
    have := hM.odd
    unfold Nat.Coprime
    rw [Nat.gcd_comm, Nat.gcd_rec, this]; rfl
  exact Nat.Coprime.pow_right _ (Nat.Coprime.pow_right _ h1)

theorem rep_cancel {M : Mont h} (hM : MontOk M) {r z : Nat}
    (he : r * (2 ^ (h + h)) ^ M.mod.length ≡ z * (2 ^ (h + h)) ^ M.mod.length [MOD val M.mod]) : r ≡ z [MOD val M.mod] :=
  Nat.ModEq.cancel_right_of_coprime (mont_coprime hM) he

theorem montMul_rep (hh : 0 < h) {M : Mont h} (hM : MontOk M) {a b : List (W h)} {z w : Nat} (ha : Rep M a z) (hb : Rep M b w) :
    ∃ r, montMul M a b = some r ∧ Rep M r (z * w) := by
  obtain ⟨m1, m2, _⟩ := binMul_val hh (2 * M.mod.length) a b (by rw [ha.len, hb.len]; omega)
  have hml := val_lt M.mod
  obtain ⟨r, r1, r2, r3, r4⟩ := reduce_mod hh M.mod M.k0 hM.key (binMul (2 * M.mod.length) a b).1 m1 (by
    rw [m2]
    exact Nat.mul_lt_mul'' ha.lt (by have := hb.lt; omega))
  refine ⟨r, r1, r2, r3, rep_cancel hM (r4.trans ?_)⟩
  rw [m2]
  have := ha.eq.mul hb.eq
  refine this.trans (modEq_of_eq ?_)
  ring

theorem montSqr_rep (hh : 0 < h) {M : Mont h} (hM : MontOk M) {a : List (W h)} {z : Nat} (ha : Rep M a z) :
    ∃ r, montSqr M a = some r ∧ Rep M r (z * z) := by
  have hne : a ≠ [] := by
    intro hx
    have := ha.len
    obtain ⟨m0, ms, e, _⟩ := hM.key
    rw [hx, e] at this; simp at this
  obtain ⟨x, size, s1, s2, s3, _⟩ := binSqr_spec hh (2 * M.mod.length) a hne (by rw [ha.len])
  have hml := val_lt M.mod
  obtain ⟨r, r1, r2, r3, r4⟩ := reduce_mod hh M.mod M.k0 hM.key x s2 (by
    rw [s3]
    exact Nat.mul_lt_mul'' ha.lt (by have := ha.lt; omega))
  refine ⟨r, by unfold montSqr; rw [s1]; exact r1, r2, r3, rep_cancel hM (r4.trans ?_)⟩
  rw [s3]
  have := ha.eq.mul ha.eq
  refine this.trans (modEq_of_eq ?_)
  ring

theorem montEnc_rep (hh : 0 < h) {M : Mont h} (hM : MontOk M) (a : List (W h)) (ha : a.length = M.mod.length) :
    ∃ r, montEnc M a = some r ∧ Rep M r (val a) := by
  obtain ⟨m1, m2, _⟩ := binMul_val hh (2 * M.mod.length) a M.rr (by rw [ha, hM.rrLen]; omega)
  have hal := val_lt a
  rw [ha] at hal
  have hrr : val M.rr < val M.mod := by rw [hM.rrVal]; exact Nat.mod_lt _ (mont_pos hM)
  obtain ⟨r, r1, r2, r3, r4⟩ := reduce_mod hh M.mod M.k0 hM.key (binMul (2 * M.mod.length) a M.rr).1 m1 (by
    rw [m2, Nat.mul_comm (val M.mod)]
    exact Nat.mul_lt_mul'' hal hrr)
  refine ⟨r, r1, r2, r3, rep_cancel hM (r4.trans ?_)⟩
  rw [m2, hM.rrVal]
  refine ((Nat.ModEq.refl (val a)).mul (Nat.mod_modEq _ _)).trans (modEq_of_eq ?_)
  rw [Nat.two_mul, pow_add]; ring

theorem montDec_val (hh : 0 < h) {M : Mont h} (hM : MontOk M) {a : List (W h)} {z : Nat} (ha : Rep M a z) :
    ∃ r, montDec M a = some r ∧ r.length = M.mod.length ∧ val r = z % val M.mod := by
  have hlen : (a ++ List.replicate M.mod.length (0 : W h)).length = 2 * M.mod.length := by
    rw [List.length_append, List.length_replicate, ha.len]; omega
  have hval : val (a ++ List.replicate M.mod.length (0 : W h)) = val a := by
    rw [val_append, val_replicate, Nat.mul_zero, Nat.add_zero]
  obtain ⟨r, r1, r2, r3, r4⟩ := reduce_mod hh M.mod M.k0 hM.key _ hlen (by
    rw [hval]
    have h1 := ha.lt
    have : 0 < (2 ^ (h + h)) ^ M.mod.length := Nat.pow_pos (Nat.pow_pos (by decide))
    exact Nat.lt_of_lt_of_le h1 (Nat.le_mul_of_pos_right _ this))
  refine ⟨r, r1, r2, ?_⟩
  rw [hval] at r4
  have := rep_cancel hM (r4.trans ha.eq)
  rw [← this]
  exact (Nat.mod_eq_of_lt r3).symm

end Verif.Crypto.Bn
