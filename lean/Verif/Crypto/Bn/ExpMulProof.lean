import Verif.Crypto.Bn.ExpMulModel
import Verif.Crypto.Bn.ExpProof
namespace Verif.Crypto.Bn

variable {h : Nat}

theorem oddLoop_spec (hh : 0 < h) {M : Mont h} (hM : MontOk M) {sq : List (W h)} {y : Nat} (hs : Rep M sq y) :
    ∀ (n : Nat) (prev : List (W h)) (w : Nat), Rep M prev w → ∃ ts, readyLoop M sq n prev = some ts ∧ ts.length = n ∧
      ∀ i t, ts[i]? = some t → Rep M t (w * y ^ (i + 1))
  | 0, prev, w, _ => ⟨[], rfl, rfl, by simp⟩
  | n + 1, prev, w, hp => by
    obtain ⟨t, t1, t2⟩ := montMul_rep hh hM hs hp
    obtain ⟨ts, i1, i2, i3⟩ := oddLoop_spec hh hM hs n t (y * w) t2
    refine ⟨t :: ts, by rw [readyLoop, t1]; simp only; rw [i1], by simp [i2], ?_⟩
    intro i x hx
    cases i with
    | zero =>
      simp only [List.getElem?_cons_zero, Option.some.injEq] at hx
      rw [← hx, Nat.zero_add, pow_one, Nat.mul_comm]
      exact t2
    | succ i =>
      rw [List.getElem?_cons_succ] at hx
      have := i3 i x hx
      rw [show w * y ^ (i + 1 + 1) = y * w * y ^ (i + 1) by ring]
      exact this

theorem oddReady_spec (hh : 0 < h) {M : Mont h} (hM : MontOk M) {b : List (W h)} {z : Nat} (hb : Rep M b z) (num : Nat) (h1 : 1 ≤ num) :
    ∃ table, oddReady M b num = some table ∧ table.length = num ∧ ∀ i t, table[i]? = some t → Rep M t (z ^ (2 * i + 1)) := by
  unfold oddReady
  by_cases hn : num = 1
  · rw [if_pos hn]
    refine ⟨_, rfl, by rw [hn]; rfl, ?_⟩
    intro i t ht
    cases i with
    | zero =>
      simp only [List.getElem?_cons_zero, Option.some.injEq] at ht
      rw [← ht]; simpa using hb
    | succ i => simp at ht
  · rw [if_neg hn]
    obtain ⟨sq, s1, s2⟩ := montSqr_rep hh hM hb
    obtain ⟨ts, i1, i2, i3⟩ := oddLoop_spec hh hM s2 (num - 1) b z hb
    rw [s1]
    simp only
    rw [i1]
    refine ⟨b :: ts, rfl, by rw [List.length_cons, i2]; omega, ?_⟩
    intro i t ht
    cases i with
    | zero =>
      simp only [List.getElem?_cons_zero, Option.some.injEq] at ht
      rw [← ht]; simpa using hb
    | succ i =>
      rw [List.getElem?_cons_succ] at ht
      have := i3 i t ht
      rw [show z ^ (2 * (i + 1) + 1) = z * (z * z) ^ (i + 1) by rw [← pow_two, ← pow_mul]; ring]
      exact this

/-! ### Windows -/

theorem oddSkip_spec (hh : 0 < h) (e : List (W h)) : ∀ (base k : Nat),
    (∀ k', oddSkip e base k = (k', none) → k' = k + base ∧ val e % 2 ^ base = 0) ∧
    (∀ k' loc, oddSkip e base k = (k', some loc) → loc < base ∧ k' + loc + 1 = k + base ∧ val e / 2 ^ (loc + 1) % 2 ^ (base - (loc + 1)) = 0 ∧ getBit e loc = true)
  | 0, k => by
    unfold oddSkip
    refine ⟨fun k' he => ?_, fun k' loc he => ?_⟩
    · cases he; exact ⟨rfl, by rw [pow_zero, Nat.mod_one]⟩
    · cases he
  | b + 1, k => by
    obtain ⟨i1, i2⟩ := oddSkip_spec hh e b (k + 1)
    rw [oddSkip]
    have hbit := getBit_spec hh e b
    split
    · rename_i hg
      refine ⟨fun k' he => ?_, fun k' loc he => ?_⟩
      · cases he
      · cases he
        exact ⟨by omega, by omega, by rw [Nat.sub_self, pow_zero, Nat.mod_one], hg⟩
    · rename_i hg
      have h0 : val e / 2 ^ b % 2 = 0 := by
        have : ¬ val e / 2 ^ b % 2 = 1 := fun hc => hg (hbit.mpr hc)
        omega
      refine ⟨fun k' he => ?_, fun k' loc he => ?_⟩
      · obtain ⟨j1, j2⟩ := i1 k' he
        refine ⟨by omega, ?_⟩
        rw [Nat.mod_pow_succ, j2, h0]
        simp
      · obtain ⟨j1, j2, j3, j4⟩ := i2 k' loc he
        refine ⟨by omega, by omega, ?_, j4⟩
        rw [show b + 1 - (loc + 1) = (b - (loc + 1)) + 1 by omega, Nat.mod_pow_succ, j3, Nat.div_div_eq_div_mul, ← pow_add,
          show loc + 1 + (b - (loc + 1)) = b by omega, h0]
        simp

theorem oddTake_spec (hh : 0 < h) (e : List (W h)) : ∀ (n loc a k : Nat) (acc : W h), loc < (h + h) * e.length → a + n < h + h → acc.toNat < 2 ^ a →
    1 ≤ n → ∃ r m, oddTake e n loc acc k = some (r, k + m) ∧ m = min n (loc + 1) ∧
      r.toNat = acc.toNat * 2 ^ m + val e / 2 ^ (loc + 1 - m) % 2 ^ m
  | 0, _, _, _, _, _, _, _, h1 => by omega
  | n + 1, loc, a, k, acc, hl, hk, ha, _ => by
    have hlt : loc / (h + h) < e.length := by rw [Nat.div_lt_iff_lt_mul (by omega), Nat.mul_comm]; omega
    have hget := List.getElem?_eq_getElem hlt
    generalize e[loc / (h + h)] = x at hget
    have hbit := val_bit hh e loc x hget
    rw [oddTake, hget]
    simp only
    have hkw : 2 ^ (a + 1) ≤ 2 ^ (h + h) := Nat.pow_le_pow_right (by decide) (by omega)
    have hks : 2 ^ (a + 1) = 2 ^ a * 2 := pow_succ 2 a
    have hbv : ((x >>> (loc % (h + h))) &&& 1).toNat = val e / 2 ^ loc % 2 := by rw [toNat_and_one hh, toNat_shr, hbit]
    have hb1 : ((x >>> (loc % (h + h))) &&& 1).toNat ≤ 1 := by rw [hbv]; omega
    have hacc := shift_in hh acc _ hb1 (by omega)
    by_cases h0 : loc = 0
    · rw [if_pos h0]
      refine ⟨_, 1, rfl, by omega, ?_⟩
      rw [hacc, hbv, h0]
      simp
    · rw [if_neg h0]
      by_cases hn : n = 0
      · subst hn
        refine ⟨_, 1, rfl, by omega, ?_⟩
        rw [hacc, hbv, pow_one, Nat.add_sub_cancel]
      · obtain ⟨r, m, r1, r2, r3⟩ := oddTake_spec hh e n (loc - 1) (a + 1) (k + 1) ((acc <<< 1) ||| ((x >>> (loc % (h + h))) &&& 1)) (by omega) (by omega)
          (by rw [hacc]; omega) (by omega)
        refine ⟨r, m + 1, by rw [r1, show k + 1 + m = k + (m + 1) by omega], by omega, ?_⟩
        rw [r3, hacc, hbv, show loc + 1 - (m + 1) = loc - 1 + 1 - m by omega, Nat.mod_pow_succ, Nat.div_div_eq_div_mul, ← pow_add,
          show loc - 1 + 1 - m + m = loc by omega, pow_succ]
        ring

theorem oddStrip_spec (hh : 0 < h) (V base : Nat) : ∀ (fuel : Nat) (limb : W h) (k : Nat), limb.toNat < 2 ^ fuel → k ≤ base → limb ≠ 0 →
    limb.toNat = V / 2 ^ (base - k) % 2 ^ k →
    ∃ r m, oddStrip (fuel + 1) limb k = some (r, m) ∧ 0 < m ∧ m ≤ k ∧ r.toNat % 2 = 1 ∧ r.toNat ≤ limb.toNat ∧ r.toNat = V / 2 ^ (base - m) % 2 ^ m
  | 0, limb, k, hf, _, h0, _ => by
    have := ne_zero_pos h0
    simp at hf
    omega
  | fuel + 1, limb, k, hf, hk, h0, hv => by
    have hpos := ne_zero_pos h0
    have hk0 : 0 < k := by
      rcases Nat.eq_zero_or_pos k with rfl | hp
      · rw [pow_zero, Nat.mod_one] at hv; omega
      · exact hp
    have hev : (limb &&& 1 = 0) ↔ limb.toNat % 2 = 0 := by
      rw [← toNat_and_one hh]
      constructor
      · intro e; rw [e, toNat_zero']
      · intro e; exact BitVec.eq_of_toNat_eq (by rw [e, toNat_zero'])
    rw [oddStrip]
    by_cases hc : limb.toNat % 2 = 0
    · rw [if_pos ⟨h0, hev.mpr hc⟩]
      have hs : (limb >>> 1).toNat = limb.toNat / 2 := by rw [toNat_shr, pow_one]
      have hs0 : limb >>> 1 ≠ 0 := by
        intro e
        have := congrArg BitVec.toNat e
        rw [hs, toNat_zero'] at this
        omega
      have hps : 2 ^ (fuel + 1) = 2 ^ fuel * 2 := pow_succ 2 fuel
      obtain ⟨r, m, r1, r2, r3, r4, r5, r6⟩ := oddStrip_spec hh V base fuel (limb >>> 1) (k - 1) (by rw [hs]; omega) (by omega) hs0 (by
        rw [hs, hv, show k = (k - 1) + 1 by omega, show base - (k - 1 + 1 - 1) = base - (k - 1 + 1) + 1 by omega, Nat.add_sub_cancel, pow_succ 2 (base - (k - 1 + 1)),
          ← Nat.div_div_eq_div_mul, pow_succ 2 (k - 1), Nat.mul_comm (2 ^ (k - 1)) 2, Nat.mod_mul_right_div_self])
      exact ⟨r, m, r1, r2, by omega, r4, by omega, r6⟩
    · rw [if_neg (fun hx => hc (hev.mp hx.2))]
      exact ⟨limb, k, rfl, hk0, Nat.le_refl _, by omega, Nat.le_refl _, hv⟩

theorem getOdd_spec (hh : 0 < h) (e : List (W h)) (base bits : Nat) (hb : 0 < base) (h1 : 1 ≤ bits) (h2 : bits < h + h) :
    ∃ limb bit, getOdd e base bits = some (limb, bit) ∧ 0 < bit ∧ bit ≤ base ∧ limb.toNat = val e / 2 ^ (base - bit) % 2 ^ bit ∧
      (limb ≠ 0 → limb.toNat % 2 = 1) ∧ limb.toNat < 2 ^ bits := by
  obtain ⟨s1, s2⟩ := oddSkip_spec hh e base 0
  unfold getOdd
  rcases hs : oddSkip e base 0 with ⟨k, o⟩
  cases o with
  | none =>
    obtain ⟨k1, k2⟩ := s1 k hs
    refine ⟨0, k, rfl, by omega, by omega, ?_, fun hx => absurd rfl hx, by rw [toNat_zero']; exact Nat.pow_pos (by decide)⟩
    rw [toNat_zero', show base - k = 0 by omega, pow_zero, Nat.div_one, show k = base by omega, k2]
  | some loc =>
    obtain ⟨k1, k2, k3, k4⟩ := s2 k loc hs
    have hloc : loc < (h + h) * e.length := by
      unfold getBit at k4
      by_contra hc
      have : e[loc / (h + h)]? = none := by
        rw [List.getElem?_eq_none_iff, Nat.le_div_iff_mul_le (by omega), Nat.mul_comm]; omega
      simp only [this] at k4
      exact absurd k4 (by simp)
    obtain ⟨r, m, r1, r2, r3⟩ := oddTake_spec hh e bits loc 0 k 0 hloc (by omega) (by rw [toNat_zero', pow_zero]; decide) h1
    rw [toNat_zero', Nat.zero_mul, Nat.zero_add] at r3
    have hbit := (getBit_spec hh e loc).mp k4
    have hm1 : 1 ≤ m := by omega
    have hr0 : r ≠ 0 := by
      intro e0
      rw [e0, toNat_zero'] at r3
      -- the highest bit of the window is one
      have : val e / 2 ^ (loc + 1 - m) % 2 ^ m / 2 ^ (m - 1) = val e / 2 ^ loc % 2 := by
        rw [show (2 : Nat) ^ m = 2 ^ (m - 1) * 2 by rw [← pow_succ]; congr 1; omega, Nat.mod_mul_right_div_self, Nat.div_div_eq_div_mul, ← pow_add,
          show loc + 1 - m + (m - 1) = loc by omega]
      rw [← r3, Nat.zero_div, hbit] at this
      omega
    have hrv : r.toNat = val e / 2 ^ (base - (k + m)) % 2 ^ (k + m) := by
      rw [r3, show base - (k + m) = loc + 1 - m by omega, show k + m = m + (base - (loc + 1)) by omega, pow_add, Nat.mod_mul, Nat.div_div_eq_div_mul, ← pow_add,
        show loc + 1 - m + m = loc + 1 by omega, k3, Nat.mul_zero]
      rfl
    have hrlt : r.toNat < 2 ^ m := by rw [r3]; exact Nat.mod_lt _ (Nat.pow_pos (by decide))
    have hmb : 2 ^ m ≤ 2 ^ bits := Nat.pow_le_pow_right (by decide) (by omega)
    obtain ⟨l, n, l1, l2, l3, l4, l5, l6⟩ := oddStrip_spec hh (val e) base (h + h) r (k + m) r.isLt (by omega) hr0 hrv
    simp only
    rw [r1]
    simp only
    rw [l1]
    exact ⟨l, n, rfl, l2, by omega, l6, fun _ => l4, by omega⟩

/-! ### The loop -/

/-- The part of an exponent that has been used, when a window of `bit` bits with the value `limb` is pending: its power of the base is `X`. -/
def Pending (e base perSize bit : Nat) (limb : Nat) (X : Nat) : Prop :=
  if bit = 0 then X = e / 2 ^ base
  else bit ≤ base ∧ X * 2 ^ bit + limb = e / 2 ^ (base - bit) ∧ (limb ≠ 0 → limb % 2 = 1) ∧ limb < 2 ^ perSize

theorem nextWindow_spec (hh : 0 < h) (e : List (W h)) (base perSize bit : Nat) (limb : W h) (X : Nat) (hb : 0 < base) (h1 : 1 ≤ perSize) (h2 : perSize < h + h)
    (hp : Pending (val e) base perSize bit limb.toNat X) :
    ∃ limb' bit', nextWindow e base perSize bit limb = some (limb', bit') ∧ 0 < bit' ∧ Pending (val e) base perSize bit' limb'.toNat X := by
  unfold nextWindow
  by_cases h0 : bit = 0
  · rw [if_pos h0]
    unfold Pending at hp
    rw [if_pos h0] at hp
    obtain ⟨l, b, e1, e2, e3, e4, e5, e6⟩ := getOdd_spec hh e base perSize hb h1 h2
    refine ⟨l, b, e1, e2, ?_⟩
    unfold Pending
    rw [if_neg (by omega)]
    refine ⟨e3, ?_, fun hx => e5 (fun hc => hx (by rw [hc, toNat_zero'])), e6⟩
    rw [hp, e4, show val e / 2 ^ base = val e / 2 ^ (base - b) / 2 ^ b by rw [Nat.div_div_eq_div_mul, ← pow_add]; congr 2; omega, Nat.mul_comm, Nat.div_add_mod]
  · rw [if_neg h0]
    exact ⟨limb, bit, rfl, by omega, hp⟩

theorem windowMul_spec (hh : 0 < h) {M : Mont h} (hM : MontOk M) (table : List (List (W h))) (z perSize : Nat) (hps : 1 ≤ perSize)
    (hl : table.length = 2 ^ (perSize - 1)) (ht : ∀ i t, table[i]? = some t → Rep M t (z ^ (2 * i + 1))) (e base bit b : Nat) (limb : W h) (X w : Nat)
    (hb : 0 < bit) (hbb : b ≤ bit) (hp : Pending e base perSize bit limb.toNat X) (r : List (W h)) (hr : Rep M r (z ^ (X * 2 ^ b) * w)) :
    ∃ r' X', windowMul M table (decide (b = bit)) limb r = some r' ∧ Rep M r' (z ^ X' * w) ∧ Pending e (base - b) perSize (bit - b) limb.toNat X' := by
  unfold Pending at hp
  rw [if_neg (by omega)] at hp
  obtain ⟨p1, p2, p3, p4⟩ := hp
  unfold windowMul
  by_cases hc : b = bit
  · have hpend : ∀ X', X' = X * 2 ^ b + limb.toNat → Pending e (base - b) perSize (bit - b) limb.toNat X' := by
      intro X' hX
      unfold Pending
      rw [if_pos (by omega), hX, hc, p2]
    by_cases h0 : limb = 0
    · rw [if_neg (fun hx => hx.2 h0)]
      exact ⟨r, _, rfl, hr, hpend _ (by rw [h0, toNat_zero', Nat.add_zero])⟩
    · rw [if_pos ⟨by rw [decide_eq_true_iff]; exact hc, h0⟩]
      have hpos := ne_zero_pos h0
      have hodd := p3 (by omega)
      have hi : ((limb - 1) >>> 1).toNat = (limb.toNat - 1) / 2 := by
        rw [toNat_shr, pow_one]
        congr 1
        have := toNat_sub_cases limb 1
        rw [toNat_one hh, if_neg (by rw [BitVec.lt_def, toNat_one hh]; omega)] at this
        omega
      have hlt : ((limb - 1) >>> 1).toNat < table.length := by
        rw [hi, hl]
        have : 2 ^ perSize = 2 ^ (perSize - 1) * 2 := by rw [← pow_succ]; congr 1; omega
        omega
      have hget := List.getElem?_eq_getElem hlt
      generalize table[((limb - 1) >>> 1).toNat] = t at hget
      have hrep := ht _ t hget
      rw [hi, show 2 * ((limb.toNat - 1) / 2) + 1 = limb.toNat by omega] at hrep
      rw [hget]
      simp only
      obtain ⟨r', m1, m2⟩ := montMul_rep hh hM hr hrep
      refine ⟨r', X * 2 ^ b + limb.toNat, m1, ?_, hpend _ rfl⟩
      rw [pow_add, show z ^ (X * 2 ^ b) * z ^ limb.toNat * w = z ^ (X * 2 ^ b) * w * z ^ limb.toNat by ring]
      exact m2
  · rw [if_neg (fun hx => hc (by simpa using hx.1))]
    refine ⟨r, _, rfl, hr, ?_⟩
    unfold Pending
    rw [if_neg (by omega)]
    refine ⟨by omega, ?_, p3, p4⟩
    rw [show base - b - (bit - b) = base - bit by omega, ← p2, Nat.mul_assoc, ← pow_add]
    congr 3
    omega

theorem expMulLoop_spec (hh : 0 < h) {M : Mont h} (hM : MontOk M) (t1 t2 : List (List (W h))) (z1 z2 p1 p2 : Nat) (e1 e2 : List (W h))
    (a1 : 1 ≤ p1) (a2 : p1 < h + h) (a3 : 1 ≤ p2) (a4 : p2 < h + h) (l1 : t1.length = 2 ^ (p1 - 1)) (l2 : t2.length = 2 ^ (p2 - 1))
    (k1 : ∀ i t, t1[i]? = some t → Rep M t (z1 ^ (2 * i + 1))) (k2 : ∀ i t, t2[i]? = some t → Rep M t (z2 ^ (2 * i + 1))) :
    ∀ (fuel base bit1 : Nat) (limb1 : W h) (bit2 : Nat) (limb2 : W h) (r : List (W h)) (X1 X2 : Nat), base < fuel →
      Pending (val e1) base p1 bit1 limb1.toNat X1 → Pending (val e2) base p2 bit2 limb2.toNat X2 → Rep M r (z1 ^ X1 * z2 ^ X2) →
      ∃ r', expMulLoop M t1 t2 e1 e2 p1 p2 fuel base bit1 limb1 bit2 limb2 r = some r' ∧ Rep M r' (z1 ^ val e1 * z2 ^ val e2)
  | 0, _, _, _, _, _, _, _, _, hf, _, _, _ => by omega
  | fuel + 1, base, bit1, limb1, bit2, limb2, r, X1, X2, hf, q1, q2, hr => by
    rw [expMulLoop]
    by_cases h0 : base = 0
    · rw [if_pos h0]
      have fin : ∀ {e p bit limb X}, Pending e base p bit limb X → X = e := by
        intro e p bit limb X hp
        unfold Pending at hp
        split at hp
        · rw [hp, h0, pow_zero, Nat.div_one]
        · omega
      rw [fin q1, fin q2] at hr
      exact ⟨r, rfl, hr⟩
    · rw [if_neg h0]
      obtain ⟨m1, c1, n1, n2, n3⟩ := nextWindow_spec hh e1 base p1 bit1 limb1 X1 (by omega) a1 a2 q1
      obtain ⟨m2, c2, o1, o2, o3⟩ := nextWindow_spec hh e2 base p2 bit2 limb2 X2 (by omega) a3 a4 q2
      simp only [n1, o1, Option.bind_eq_bind, Option.bind_some]
      have hbit : (if c1 < c2 then c1 else c2) ≤ c1 ∧ (if c1 < c2 then c1 else c2) ≤ c2 ∧ 0 < (if c1 < c2 then c1 else c2) := by
        split <;> omega
      generalize (if c1 < c2 then c1 else c2) = b at hbit
      obtain ⟨r1, s1, s2⟩ := sqrTimes_spec hh hM b r _ hr
      rw [show (z1 ^ X1 * z2 ^ X2) ^ 2 ^ b = z1 ^ (X1 * 2 ^ b) * z2 ^ (X2 * 2 ^ b) by rw [mul_pow, ← pow_mul, ← pow_mul]] at s2
      obtain ⟨r2, Y1, u1, u2, u3⟩ := windowMul_spec hh hM t1 z1 p1 a1 l1 k1 (val e1) base c1 b m1 X1 _ n2 hbit.1 n3 r1 s2
      rw [Nat.mul_comm] at u2
      obtain ⟨r3, Y2, v1, v2, v3⟩ := windowMul_spec hh hM t2 z2 p2 a3 l2 k2 (val e2) base c2 b m2 X2 _ o2 hbit.2.1 o3 r2 u2
      rw [Nat.mul_comm] at v2
      simp only [s1, u1, v1, Option.bind_some]
      exact expMulLoop_spec hh hM t1 t2 z1 z2 p1 p2 e1 e2 a1 a2 a3 a4 l1 l2 k1 k2 fuel (base - b) (c1 - b) m1 (c2 - b) m2 r3 Y1 Y2 (by omega) u3 v3 v2

theorem montExpMulBin_spec {j : Nat} (hj : h = 2 ^ j) (hw : 6 < h + h) {M : Mont h} (hM : MontOk M) (a1 e1 a2 e2 : List (W h)) (z1 z2 : Nat)
    (h1 : Rep M a1 z1) (h2 : Rep M a2 z2) (n1 : Norm e1) (n2 : Norm e2) (x1 : e1 ≠ []) (x2 : e2 ≠ []) :
    ∃ r, montExpMulBin M a1 e1 a2 e2 = some r ∧ Rep M r (z1 ^ val e1 * z2 ^ val e2) := by
  have hh : 0 < h := by rw [hj]; exact Nat.pow_pos (by decide)
  obtain ⟨b1, b2, b3, -, -⟩ := binBits_spec hj e1 n1 x1
  obtain ⟨d1, d2, d3, -, -⟩ := binBits_spec hj e2 n2 x2
  obtain ⟨p1, p2⟩ := readySize_bounds (binBits e1)
  obtain ⟨q1, q2⟩ := readySize_bounds (binBits e2)
  obtain ⟨t1, u1, u2, u3⟩ := oddReady_spec hh hM h1 (2 ^ (readySize (binBits e1) - 1)) (Nat.pow_pos (by decide))
  obtain ⟨t2, v1, v2, v3⟩ := oddReady_spec hh hM h2 (2 ^ (readySize (binBits e2) - 1)) (Nat.pow_pos (by decide))
  unfold montExpMulBin
  simp only [u1, v1, Option.bind_eq_bind, Option.bind_some]
  have top : ∀ {v n : Nat}, 0 < n → 2 ^ (n - 1) ≤ v → v < 2 ^ n → v / 2 ^ (n - 1) = 1 := by
    intro v n hn g1 g2
    rw [Nat.div_eq_iff (Nat.pow_pos (by decide))]
    have : 2 ^ n = 2 ^ (n - 1) * 2 := by rw [← pow_succ]; congr 1; omega
    omega
  have low : ∀ {v n m : Nat}, v < 2 ^ n → n ≤ m → v / 2 ^ m = 0 := by
    intro v n m g1 g2
    exact Nat.div_eq_of_lt (Nat.lt_of_lt_of_le g1 (Nat.pow_le_pow_right (by decide) g2))
  have hfirst : ∃ r, firstData M (binBits e1) (binBits e2) a1 a2 = some r ∧
      Rep M r (z1 ^ (val e1 / 2 ^ ((if binBits e1 > binBits e2 then binBits e1 else binBits e2) - 1)) *
        z2 ^ (val e2 / 2 ^ ((if binBits e1 > binBits e2 then binBits e1 else binBits e2) - 1))) := by
    unfold firstData
    rcases Nat.lt_trichotomy (binBits e1) (binBits e2) with hc | hc | hc
    · rw [if_neg (by omega), if_neg (by omega), if_neg (by omega), low b3 (by omega), top d1 d2 d3]
      exact ⟨a2, rfl, by simpa using h2⟩
    · rw [if_pos hc, if_neg (by omega), top d1 d2 d3, ← hc, top b1 b2 b3, pow_one, pow_one]
      exact montMul_rep hh hM h1 h2
    · rw [if_neg (by omega), if_pos hc, if_pos hc, top b1 b2 b3, low d3 (by omega)]
      exact ⟨a1, rfl, by simpa using h1⟩
  obtain ⟨r, f1, f2⟩ := hfirst
  rw [f1]
  simp only [Option.bind_some]
  refine expMulLoop_spec hh hM t1 t2 z1 z2 _ _ e1 e2 p1 (by omega) q1 (by omega) u2 v2 u3 v3 _ _ 0 0 0 0 r _ _ (by split <;> omega) ?_ ?_ f2
  · unfold Pending; rw [if_pos rfl]
  · unfold Pending; rw [if_pos rfl]

end Verif.Crypto.Bn
