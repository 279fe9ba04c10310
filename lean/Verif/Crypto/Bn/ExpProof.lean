import Verif.Crypto.Bn.MontProof
import Mathlib.Data.Int.ModEq
namespace Verif.Crypto.Bn

variable {h : Nat}

/-! ### Bits of a vector -/

theorem val_limb (l : List (W h)) : ∀ (i : Nat) (x : W h), l[i]? = some x → val l / (2 ^ (h + h)) ^ i % 2 ^ (h + h) = x.toNat := by
  induction l with
  | nil => intro i x hx; simp at hx
  | cons a l ih =>
    intro i x hx
    cases i with
    | zero =>
      simp only [List.getElem?_cons_zero, Option.some.injEq] at hx
      rw [pow_zero, Nat.div_one, val, Nat.add_mul_mod_self_left, hx, Nat.mod_eq_of_lt x.isLt]
    | succ i =>
      rw [List.getElem?_cons_succ] at hx
      rw [val, pow_succ, Nat.mul_comm (_ ^ i), ← Nat.div_div_eq_div_mul, Nat.add_mul_div_left _ _ (Nat.pow_pos (by decide)),
        Nat.div_eq_of_lt a.isLt, Nat.zero_add]
      exact ih i x hx

theorem val_bit (hh : 0 < h) (l : List (W h)) (n : Nat) (x : W h) (hx : l[n / (h + h)]? = some x) :
    x.toNat / 2 ^ (n % (h + h)) % 2 = val l / 2 ^ n % 2 := by
  have hlt : n % (h + h) < h + h := Nat.mod_lt _ (by omega)
  have hn : 2 ^ n = (2 ^ (h + h)) ^ (n / (h + h)) * 2 ^ (n % (h + h)) := by
    rw [← pow_mul, ← pow_add, Nat.div_add_mod]
  rw [← val_limb l _ x hx, hn, ← Nat.div_div_eq_div_mul]
  generalize val l / (2 ^ (h + h)) ^ (n / (h + h)) = V
  rw [pow_split hlt, Nat.mod_mul_right_div_self, Nat.mod_mod_of_dvd]
  exact dvd_pow_self 2 (by omega)

theorem getBit_spec (hh : 0 < h) (l : List (W h)) (n : Nat) : (getBit l n = true ↔ val l / 2 ^ n % 2 = 1) := by
  unfold getBit
  cases hx : l[n / (h + h)]? with
  | none =>
    simp only [Bool.false_eq_true, false_iff]
    have hlen := List.getElem?_eq_none_iff.1 hx
    have h1 := val_lt l
    have h2 : (2 ^ (h + h)) ^ l.length ≤ 2 ^ n := by
      rw [← pow_mul]
      apply Nat.pow_le_pow_right (by decide)
      calc (h + h) * l.length ≤ (h + h) * (n / (h + h)) := Nat.mul_le_mul_left _ hlen
        _ ≤ n := Nat.mul_div_le _ _
    rw [Nat.div_eq_of_lt (by omega)]; decide
  | some x =>
    simp only
    rw [← val_bit hh l n x hx, BitVec.getLsbD, Nat.testBit_eq_decide_div_mod_eq, decide_eq_true_iff]

theorem binBits_spec {j : Nat} (hj : h = 2 ^ j) (l : List (W h)) (hn : Norm l) (hne : l ≠ []) :
    0 < binBits l ∧ 2 ^ (binBits l - 1) ≤ val l ∧ val l < 2 ^ binBits l ∧ (h + h) * (l.length - 1) < binBits l ∧ binBits l ≤ (h + h) * l.length := by
  have hh : 0 < h := by rw [hj]; exact Nat.pow_pos (by decide)
  have hsplit := List.dropLast_concat_getLast hne
  have hlast : l.getLast hne ≠ 0 := by
    intro h0; apply hn hne; rw [List.getLast?_eq_some_getLast hne, h0]
  unfold binBits
  rw [List.getLast?_eq_some_getLast hne]
  simp only
  obtain ⟨z1, z2, z3⟩ := zeroBits_spec hj _ hlast
  have hv : val l = val l.dropLast + (2 ^ (h + h)) ^ (l.length - 1) * (l.getLast hne).toNat := by
    conv_lhs => rw [← hsplit]
    rw [val_append, List.length_dropLast]; simp [val]
  have hvd := val_lt l.dropLast
  rw [List.length_dropLast] at hvd
  have hlen : 0 < l.length := List.length_pos_iff.2 hne
  generalize zeroBits (l.getLast hne) = z at *
  generalize (l.getLast hne).toNat = t at *
  generalize val l.dropLast = v at *
  obtain ⟨n, hn'⟩ : ∃ n, l.length = n + 1 := ⟨l.length - 1, by omega⟩
  rw [hn', Nat.add_sub_cancel] at hv hvd ⊢
  have e0 : (n + 1) * (h + h) = (h + h) * n + (h + h) := by ring
  have e0' : (h + h) * (n + 1) = (h + h) * n + (h + h) := by ring
  have e1 : 2 ^ ((n + 1) * (h + h) - z - 1) = (2 ^ (h + h)) ^ n * 2 ^ (h + h - 1 - z) := by
    rw [← pow_mul, ← pow_add]; congr 1; omega
  have e2 : 2 ^ ((n + 1) * (h + h) - z) = (2 ^ (h + h)) ^ n * 2 ^ (h + h - z) := by
    rw [← pow_mul, ← pow_add]; congr 1; omega
  refine ⟨by omega, ?_, ?_, by omega, by omega⟩
  · rw [e1, hv]
    have := Nat.mul_le_mul_left ((2 ^ (h + h)) ^ n) z2
    omega
  · rw [e2, hv]
    have := Nat.mul_le_mul_left ((2 ^ (h + h)) ^ n) (show t + 1 ≤ _ from z3)
    rw [Nat.mul_add] at this
    omega

theorem binBits_zero {j : Nat} (hj : h = 2 ^ j) (l : List (W h)) (hn : Norm l) : binBits l = 0 ↔ l = [] := by
  constructor
  · intro h0
    by_contra hne
    have := (binBits_spec hj l hn hne).1
    omega
  · intro h0; rw [h0]; rfl

/-! ### The exponent -/

theorem shift_in (hh : 0 < h) (acc b : W h) (hb : b.toNat ≤ 1) (ha : acc.toNat * 2 < 2 ^ (h + h)) : ((acc <<< 1) ||| b).toNat = acc.toNat * 2 + b.toNat := by
  rw [BitVec.toNat_or, BitVec.toNat_shiftLeft, Nat.shiftLeft_eq, pow_one, Nat.mod_eq_of_lt ha]
  have := or_disjoint (x := acc.toNat) (y := b.toNat) (k := 1) (by omega)
  rw [pow_one] at this
  exact this

theorem toNat_and_one (hh : 0 < h) (x : W h) : (x &&& 1).toNat = x.toNat % 2 := by
  rw [BitVec.toNat_and, toNat_one hh, Nat.and_one_is_mod]

theorem eLimbLoop_spec (hh : 0 < h) (e : List (W h)) : ∀ (n base k : Nat) (acc : W h), n ≤ base → base ≤ (h + h) * e.length → k + n < h + h → acc.toNat < 2 ^ k →
    ∃ r, eLimbLoop e n base acc = some r ∧ r.toNat = acc.toNat * 2 ^ n + val e / 2 ^ (base - n) % 2 ^ n
  | 0, base, k, acc, _, _, _, _ => ⟨acc, rfl, by simp [Nat.mod_one]⟩
  | n + 1, base, k, acc, hn, hb, hk, ha => by
    have hlt : (base - 1) / (h + h) < e.length := by
      rw [Nat.div_lt_iff_lt_mul (by omega), Nat.mul_comm]; omega
    have hget := List.getElem?_eq_getElem hlt
    generalize e[(base - 1) / (h + h)] = x at hget
    have hbit := val_bit hh e (base - 1) x hget
    rw [eLimbLoop, hget]
    simp only
    have hkw : 2 ^ (k + 1) ≤ 2 ^ (h + h) := Nat.pow_le_pow_right (by decide) (by omega)
    have hks : 2 ^ (k + 1) = 2 ^ k * 2 := pow_succ 2 k
    have hbv : ((x >>> ((base - 1) % (h + h))) &&& 1).toNat = val e / 2 ^ (base - 1) % 2 := by
      rw [toNat_and_one hh, toNat_shr, hbit]
    have hb1 : ((x >>> ((base - 1) % (h + h))) &&& 1).toNat ≤ 1 := by rw [hbv]; omega
    have hacc := shift_in hh acc _ hb1 (by omega)
    obtain ⟨r, r1, r2⟩ := eLimbLoop_spec hh e n (base - 1) (k + 1) ((acc <<< 1) ||| ((x >>> ((base - 1) % (h + h))) &&& 1)) (by omega) (by omega) (by omega)
      (by rw [hacc]; omega)
    refine ⟨r, r1, ?_⟩
    rw [r2, hacc, hbv, show base - (n + 1) = base - 1 - n by omega, Nat.mod_pow_succ, Nat.div_div_eq_div_mul, ← pow_add, show base - 1 - n + n = base - 1 by omega,
      pow_succ]
    ring

theorem getELimb_spec (hh : 0 < h) (e : List (W h)) (he : e ≠ []) (base bits : Nat) (hbase : base ≤ (h + h) * e.length) (hbits : bits < h + h) :
    ∃ x bit, getELimb e base bits = some (x, bit) ∧ bit = min bits base ∧ x.toNat = val e / 2 ^ (base - bit) % 2 ^ bit := by
  unfold getELimb
  by_cases hc : bits > base
  · rw [if_pos hc]
    obtain ⟨e0, es, rfl⟩ : ∃ e0 es, e = e0 :: es := by
      cases e with
      | nil => exact absurd rfl he
      | cons a b => exact ⟨a, b, rfl⟩
    simp only
    refine ⟨_, _, rfl, by omega, ?_⟩
    have h1 : ((1 : W h) <<< base).toNat = 2 ^ base := by
      rw [BitVec.toNat_shiftLeft, toNat_one hh, Nat.shiftLeft_eq, Nat.one_mul, Nat.mod_eq_of_lt]
      exact Nat.pow_lt_pow_right (by decide) (by omega)
    have h2 : (((1 : W h) <<< base) - 1).toNat = 2 ^ base - 1 := by
      have := toNat_sub_cases ((1 : W h) <<< base) 1
      have hp : 0 < 2 ^ base := Nat.pow_pos (by decide)
      rw [h1, toNat_one hh, if_neg (by rw [BitVec.lt_def, h1, toNat_one hh]; omega)] at this
      omega
    rw [BitVec.toNat_and, h2, Nat.and_two_pow_sub_one_eq_mod, Nat.sub_self, pow_zero, Nat.div_one, val, Nat.add_mod,
      Nat.mod_eq_zero_of_dvd (Dvd.dvd.mul_right (Nat.pow_dvd_pow 2 (show base ≤ h + h by omega)) _), Nat.add_zero, Nat.mod_mod]
  · rw [if_neg hc]
    obtain ⟨r, r1, r2⟩ := eLimbLoop_spec hh e bits base 0 0 (by omega) hbase (by omega) (by simp)
    rw [r1]
    simp only
    refine ⟨_, _, rfl, by omega, ?_⟩
    rw [r2, toNat_zero', Nat.zero_mul, Nat.zero_add]

/-! ### Exponentiation -/

theorem readyLoop_spec (hh : 0 < h) {M : Mont h} (hM : MontOk M) {b : List (W h)} {z : Nat} (hb : Rep M b z) :
    ∀ (n k : Nat) (prev : List (W h)), Rep M prev (z ^ k) → ∃ ts, readyLoop M b n prev = some ts ∧ ts.length = n ∧
      ∀ i t, ts[i]? = some t → Rep M t (z ^ (k + 1 + i))
  | 0, k, prev, _ => ⟨[], rfl, rfl, by simp⟩
  | n + 1, k, prev, hp => by
    obtain ⟨t, t1, t2⟩ := montMul_rep hh hM hb hp
    have ht : Rep M t (z ^ (k + 1)) := by rw [pow_succ, Nat.mul_comm]; exact t2
    obtain ⟨ts, i1, i2, i3⟩ := readyLoop_spec hh hM hb n (k + 1) t ht
    refine ⟨t :: ts, by rw [readyLoop, t1]; simp only; rw [i1], by simp [i2], ?_⟩
    intro i x hx
    cases i with
    | zero => simp only [List.getElem?_cons_zero, Option.some.injEq] at hx; rw [← hx]; exact ht
    | succ i =>
      rw [List.getElem?_cons_succ] at hx
      have := i3 i x hx
      rw [show k + 1 + (i + 1) = k + 1 + 1 + i by omega]; exact this

theorem expReady_spec (hh : 0 < h) {M : Mont h} (hM : MontOk M) {b : List (W h)} {z : Nat} (hb : Rep M b z) (p : Nat) (hp : 1 ≤ p) :
    ∃ table, expReady M b (2 ^ p) = some table ∧ table.length = 2 ^ p ∧ (∀ t, table[0]? = some t → Rep M t z) ∧
      ∀ i t, 0 < i → table[i]? = some t → Rep M t (z ^ i) := by
  have h2 : 2 ≤ 2 ^ p := by
    have := Nat.pow_le_pow_right (show 0 < 2 by decide) hp
    simpa using this
  obtain ⟨ts, i1, i2, i3⟩ := readyLoop_spec hh hM hb (2 ^ p - 2) 1 b (by rw [pow_one]; exact hb)
  refine ⟨b :: b :: ts, by unfold expReady; rw [i1], by simp [i2]; omega, ?_, ?_⟩
  · intro t ht; simp only [List.getElem?_cons_zero, Option.some.injEq] at ht; rw [← ht]; exact hb
  · intro i t hi ht
    match i, hi with
    | 1, _ => simp only [List.getElem?_cons_succ, List.getElem?_cons_zero, Option.some.injEq] at ht; rw [← ht, pow_one]; exact hb
    | i + 2, _ =>
      simp only [List.getElem?_cons_succ] at ht
      have := i3 i t ht
      rw [show i + 2 = 1 + 1 + i by omega]; exact this

theorem sqrTimes_spec (hh : 0 < h) {M : Mont h} (hM : MontOk M) : ∀ (n : Nat) (r : List (W h)) (z : Nat), Rep M r z →
    ∃ r', sqrTimes M n r = some r' ∧ Rep M r' (z ^ 2 ^ n)
  | 0, r, z, hr => ⟨r, rfl, by simpa using hr⟩
  | n + 1, r, z, hr => by
    obtain ⟨r1, a1, a2⟩ := montSqr_rep hh hM hr
    obtain ⟨r2, b1, b2⟩ := sqrTimes_spec hh hM n r1 (z * z) a2
    refine ⟨r2, by rw [sqrTimes, a1]; exact b1, ?_⟩
    have : z ^ 2 ^ (n + 1) = (z * z) ^ 2 ^ n := by rw [← pow_two, ← pow_mul, pow_succ, Nat.mul_comm 2]
    rw [this]; exact b2

theorem expMulStep_spec (hh : 0 < h) {M : Mont h} (hM : MontOk M) (table : List (List (W h))) (z : Nat) (consttime : Bool) (x : W h) (r : List (W h)) (w : Nat)
    (hlt : x.toNat < table.length) (h0 : ∀ t, table[0]? = some t → Rep M t z) (hi : ∀ i t, 0 < i → table[i]? = some t → Rep M t (z ^ i)) (hr : Rep M r w) :
    ∃ r', expMulStep M table consttime x r = some r' ∧ Rep M r' (w * z ^ x.toNat) := by
  have hget := List.getElem?_eq_getElem hlt
  generalize table[x.toNat] = t at hget
  unfold expMulStep
  rw [hget]
  simp only
  by_cases hx : x = 0
  · have hx0 : x.toNat = 0 := by rw [hx, toNat_zero']
    rw [hx0] at hget
    have ht := h0 t hget
    have hr' : Rep M r (w * z ^ x.toNat) := by rw [hx0, pow_zero, Nat.mul_one]; exact hr
    cases consttime
    · simp only [Bool.false_eq_true, if_false]
      rw [if_neg (by simpa using hx)]
      exact ⟨r, rfl, hr'⟩
    · simp only [if_true]
      obtain ⟨y, y1, y2⟩ := montMul_rep hh hM hr ht
      rw [y1, if_pos hx]
      simp only
      refine ⟨r, ?_, hr'⟩
      have e : ~~~(BitVec.allOnes (h + h)) = (0 : W h) := by simp
      rw [e, copy_zero _ _ (by rw [y2.len, hr.len])]
  · have ht := hi x.toNat t (ne_zero_pos hx) hget
    obtain ⟨y, y1, y2⟩ := montMul_rep hh hM hr ht
    cases consttime
    · simp only [Bool.false_eq_true, if_false]
      rw [if_pos hx]
      exact ⟨y, y1, y2⟩
    · simp only [if_true]
      rw [y1, if_neg hx]
      simp only
      refine ⟨y, ?_, y2⟩
      have e : ~~~(0 : W h) = BitVec.allOnes (h + h) := by simp
      rw [e, copy_ones _ _ (by rw [y2.len, hr.len])]

theorem expLoop_spec (hh : 0 < h) {M : Mont h} (hM : MontOk M) (table : List (List (W h))) (z : Nat) (consttime : Bool) (e : List (W h)) (he : e ≠ [])
    (p : Nat) (hp : 1 ≤ p) (hpw : p < h + h) (hlen : table.length = 2 ^ p) (h0 : ∀ t, table[0]? = some t → Rep M t z)
    (hi : ∀ i t, 0 < i → table[i]? = some t → Rep M t (z ^ i)) :
    ∀ (fuel base : Nat) (r : List (W h)), base < fuel → base ≤ (h + h) * e.length → Rep M r (z ^ (val e / 2 ^ base)) →
      ∃ r', expLoop M table consttime e p fuel base r = some r' ∧ Rep M r' (z ^ val e)
  | 0, base, r, hf, _, _ => by omega
  | fuel + 1, base, r, hf, hb, hr => by
    obtain ⟨x, bit, g1, g2, g3⟩ := getELimb_spec hh e he base p hb hpw
    obtain ⟨r1, s1, s2⟩ := sqrTimes_spec hh hM bit r _ hr
    have hxl : x.toNat < table.length := by
      rw [g3, hlen]
      have h1 : val e / 2 ^ (base - bit) % 2 ^ bit < 2 ^ bit := Nat.mod_lt _ (Nat.pow_pos (by decide))
      have h2 : 2 ^ bit ≤ 2 ^ p := Nat.pow_le_pow_right (by decide) (by omega)
      omega
    obtain ⟨r2, m1, m2⟩ := expMulStep_spec hh hM table z consttime x r1 _ hxl h0 hi s2
    rw [expLoop, g1]
    simp only
    rw [s1]
    simp only
    rw [m1]
    simp only
    have hexp : (z ^ (val e / 2 ^ base)) ^ 2 ^ bit * z ^ x.toNat = z ^ (val e / 2 ^ (base - bit)) := by
      rw [← pow_mul, ← pow_add, g3]
      congr 1
      have e1 : val e / 2 ^ base = val e / 2 ^ (base - bit) / 2 ^ bit := by
        rw [Nat.div_div_eq_div_mul, ← pow_add]; congr 2; omega
      rw [e1, Nat.mul_comm, Nat.div_add_mod]
    rw [hexp] at m2
    by_cases hz : base - bit = 0
    · rw [if_neg (by simpa using hz)]
      rw [hz, pow_zero, Nat.div_one] at m2
      exact ⟨r2, rfl, m2⟩
    · rw [if_pos hz]
      exact expLoop_spec hh hM table z consttime e he p hp hpw hlen h0 hi fuel (base - bit) r2 (by omega) (by omega) m2

theorem readySize_bounds (n : Nat) : 1 ≤ readySize n ∧ readySize n ≤ 6 := by
  unfold readySize
  repeat' split
  all_goals omega

theorem montExpBin_spec {j : Nat} (hj : h = 2 ^ j) (hw : 6 < h + h) {M : Mont h} (hM : MontOk M) (r e : List (W h)) (z : Nat) (hr : Rep M r z) (hn : Norm e)
    (he : e ≠ []) (consttime : Bool) : ∃ r', montExpBin M r e consttime = some r' ∧ Rep M r' (z ^ val e) := by
  have hh : 0 < h := by rw [hj]; exact Nat.pow_pos (by decide)
  obtain ⟨b1, b2, b3, b4, b5⟩ := binBits_spec hj e hn he
  obtain ⟨p1, p2⟩ := readySize_bounds (binBits e - 1)
  obtain ⟨table, t1, t2, t3, t4⟩ := expReady_spec hh hM hr (readySize (binBits e - 1)) p1
  unfold montExpBin
  simp only
  rw [t1]
  simp only
  refine expLoop_spec hh hM table z consttime e he _ p1 (by omega) t2 t3 t4 _ _ r (by omega) (by omega) ?_
  have : val e / 2 ^ (binBits e - 1) = 1 := by
    rw [Nat.div_eq_iff (Nat.pow_pos (by decide))]
    have : 2 ^ binBits e = 2 ^ (binBits e - 1) * 2 := by rw [← pow_succ]; congr 1; omega
    omega
  rw [this, pow_one]; exact hr

/-! ### Contexts -/

theorem val_mod_two (hh : 0 < h) (m0 : W h) (ms : List (W h)) : val (m0 :: ms) % 2 = m0.toNat % 2 := by
  rw [val, Nat.add_mod, Nat.mod_eq_zero_of_dvd (Dvd.dvd.mul_right (dvd_pow_self 2 (by omega)) _), Nat.add_zero, Nat.mod_mod]

theorem setMod_ok {j : Nat} (hj : h = 2 ^ j) (m : List (W h)) (hn : Norm m) (hodd : val m % 2 = 1) : ∃ M, setMod m = some M ∧ M.mod = m ∧ MontOk M := by
  have hh : 0 < h := by rw [hj]; exact Nat.pow_pos (by decide)
  obtain ⟨d0, ds, rfl⟩ : ∃ d0 ds, m = d0 :: ds := by
    cases m with
    | nil => simp [val] at hodd
    | cons a b => exact ⟨a, b, rfl⟩
  have hd0 : d0.toNat % 2 = 1 := by rw [← val_mod_two hh d0 ds]; exact hodd
  have hinv := inverse_spec hh d0 hd0
  have hne : d0 :: ds ≠ [] := by simp
  have hsplit := List.dropLast_concat_getLast hne
  have hlast : (d0 :: ds).getLast hne ≠ 0 := by
    intro h0; apply hn hne; rw [List.getLast?_eq_some_getLast hne, h0]
  obtain ⟨r, rS, q, qS, h1, h2, h3, h4, h5, h6, h7, h8, h9⟩ := binDiv_spec' hj (List.replicate (2 * (d0 :: ds).length) 0 ++ [1]) (d0 :: ds).dropLast _ (by simp) hlast
  rw [hsplit] at h1 h2 h3
  unfold setMod
  simp only
  rw [h1]
  simp only
  have hxv : val (List.replicate (2 * (d0 :: ds).length) 0 ++ [(1 : W h)]) = (2 ^ (h + h)) ^ (2 * (d0 :: ds).length) := by
    rw [val_append, val_replicate, List.length_replicate]
    simp only [val, toNat_one hh]; omega
  rw [List.length_append, List.length_replicate, List.length_singleton] at h9
  have hpos : 0 < val (d0 :: ds) := by omega
  have hrv : val r = (2 ^ (h + h)) ^ (2 * (d0 :: ds).length) % val (d0 :: ds) := by
    rw [← hxv, h2, h8, Nat.mul_comm, Nat.mul_add_mod, Nat.mod_eq_of_lt h3]
  have hml := val_lt (d0 :: ds)
  have hrt : val (r.take (d0 :: ds).length) = val r := val_take_small (by omega) (by rw [h8]; omega)
  refine ⟨_, rfl, rfl, ⟨hodd, hn, ⟨d0, ds, rfl, hinv⟩, ?_, ?_⟩⟩
  · simp only [List.length_take]; omega
  · simp only; rw [hrt, hrv]

theorem montCreate_ok {j : Nat} (hj : h = 2 ^ j) (m : Bn h) (hm : m.WF) :
    (m.toInt % 2 = 1 ∧ 0 < m.toInt → ∃ M, montCreate m = some (some M) ∧ M.mod = m.data ∧ MontOk M) ∧
    (¬(m.toInt % 2 = 1 ∧ 0 < m.toInt) → montCreate m = none) := by
  have hh : 0 < h := by rw [hj]; exact Nat.pow_pos (by decide)
  have hbit := getBit_spec hh m.data 0
  rw [pow_zero, Nat.div_one] at hbit
  obtain ⟨s, d⟩ := m
  unfold montCreate
  simp only at *
  constructor
  · rintro ⟨h1, h2⟩
    cases s
    · rw [toInt_pos] at h1 h2
      have ho : val d % 2 = 1 := by omega
      rw [if_neg (by rw [hbit.2 ho]; simp)]
      obtain ⟨M, m1, m2, m3⟩ := setMod_ok hj d hm.1 ho
      exact ⟨M, by rw [m1], m2, m3⟩
    · rw [toInt_neg] at h2; omega
  · intro hc
    cases s
    · rw [toInt_pos] at hc
      rw [if_pos]
      left
      have : ¬ val d % 2 = 1 := fun ho => hc ⟨by omega, by omega⟩
      rw [← hbit] at this
      simpa using this
    · rw [if_pos (Or.inr rfl)]

/-! ### Modular exponentiation -/

theorem dealBase_spec {j : Nat} (hj : h = 2 ^ j) {M : Mont h} (hM : MontOk M) (a : List (W h)) (ha : Norm a) (hne : a ≠ []) :
    ∃ d, dealBase M a = some d ∧ val d = val a % val M.mod ∧ d.length ≤ M.mod.length := by
  have hh : 0 < h := by rw [hj]; exact Nat.pow_pos (by decide)
  unfold dealBase
  have hmne : M.mod ≠ [] := by obtain ⟨m0, ms, e, _⟩ := hM.key; rw [e]; simp
  have hp := mont_pos hM
  rcases cmp_trich hh a M.mod ha hM.norm with ⟨h1, h2⟩ | ⟨h1, h2⟩ | ⟨h1, h2⟩ <;> rw [h1]
  · rw [if_neg (by decide)]
    exact ⟨a, rfl, (Nat.mod_eq_of_lt h2).symm, len_le_of_le hh ha (by omega)⟩
  all_goals
    rw [if_pos (by decide)]
    obtain ⟨r, rS, q, qS, b1, b2, b3, b4, b5, b6⟩ := binDiv_full hj a M.mod hne hmne hM.norm
    rw [b1]
    simp only
    refine ⟨_, rfl, b4, len_le_of_le hh b6 ?_⟩
    rw [b4]
    exact Nat.le_of_lt (Nat.mod_lt _ hp)

theorem montExpData_spec {j : Nat} (hj : h = 2 ^ j) (hw : 6 < h + h) {M : Mont h} (hM : MontOk M) (d e : List (W h)) (hd : d.length ≤ M.mod.length) (hn : Norm e)
    (he : e ≠ []) (consttime : Bool) : ∃ r, montExpData M d e consttime = some r ∧ r.length = M.mod.length ∧ val r = val d ^ val e % val M.mod := by
  have hh : 0 < h := by rw [hj]; exact Nat.pow_pos (by decide)
  have hlen : (d ++ List.replicate (M.mod.length - d.length) (0 : W h)).length = M.mod.length := by
    rw [List.length_append, List.length_replicate]; omega
  obtain ⟨r1, a1, a2⟩ := montEnc_rep hh hM _ hlen
  rw [val_append, val_replicate, Nat.mul_zero, Nat.add_zero] at a2
  obtain ⟨r2, b1, b2⟩ := montExpBin_spec hj hw hM r1 e _ a2 hn he consttime
  obtain ⟨r3, c1, c2, c3⟩ := montDec_val hh hM b2
  unfold montExpData
  rw [a1]; simp only
  rw [b1]; simp only
  exact ⟨r3, c1, c2, c3⟩

theorem neg_pow_emod (A E m : Nat) (hm : 0 < m) : ((-(A : Int)) ^ E) % (m : Int) =
    if E % 2 = 1 then (if A ^ E % m = 0 then 0 else (m : Int) - (A ^ E % m : Nat)) else ((A ^ E % m : Nat) : Int) := by
  by_cases hE : E % 2 = 1
  · rw [if_pos hE]
    have e1 : (-(A : Int)) ^ E = -((A ^ E : Nat) : Int) := by
      rw [Odd.neg_pow (Nat.odd_iff.2 hE)]; push_cast; rfl
    rw [e1]
    have hd := Nat.mod_add_div (A ^ E) m
    generalize A ^ E = X at *
    have hlt := Nat.mod_lt X hm
    by_cases hz : X % m = 0
    · rw [if_pos hz]
      have : (m : Int) ∣ -(X : Int) := by
        rw [Int.dvd_neg]; exact_mod_cast Nat.dvd_of_mod_eq_zero hz
      exact Int.emod_eq_zero_of_dvd this
    · rw [if_neg hz]
      have e2 : -(X : Int) = ((m : Int) - (X % m : Nat)) + m * (-(X / m : Nat) - 1) := by
        have : (X : Int) = (X % m : Nat) + m * (X / m : Nat) := by exact_mod_cast hd.symm
        conv_lhs => rw [this]
        ring
      rw [e2, Int.add_mul_emod_self_left]
      exact Int.emod_eq_of_lt (by omega) (by omega)
  · rw [if_neg hE]
    rw [Even.neg_pow (Nat.even_iff.2 (by omega))]
    push_cast; rfl

theorem montExpSign_spec (hh : 0 < h) {M : Mont h} (hM : MontOk M) (neg : Bool) (A : Nat) (e r : List (W h)) (he : e ≠ []) (hl : r.length = M.mod.length)
    (hr : val r = A ^ val e % val M.mod) :
    ∃ d, montExpSign M neg e r = some d ∧ (val d : Int) = ((if neg = true then -(A : Int) else A) ^ val e) % (val M.mod : Int) ∧ Norm d := by
  obtain ⟨e0, es, rfl⟩ : ∃ e0 es, e = e0 :: es := by
    cases e with
    | nil => exact absurd rfl he
    | cons a b => exact ⟨a, b, rfl⟩
  have hp := mont_pos hM
  obtain ⟨t1, t2⟩ := trim_spec r
  have hlt := Nat.mod_lt (A ^ val (e0 :: es)) hp
  have hodd : e0 &&& 1 = 1 ↔ val (e0 :: es) % 2 = 1 := by
    rw [val_mod_two hh, ← toNat_and_one hh]
    constructor
    · intro hx; rw [hx, toNat_one hh]
    · intro hx; exact BitVec.eq_of_toNat_eq (by rw [hx, toNat_one hh])
  have hz : (trim r).length ≠ 0 ↔ A ^ val (e0 :: es) % val M.mod ≠ 0 := by
    rw [← hr, ← t1]
    constructor
    · intro hx
      have : trim r ≠ [] := fun h0 => hx (by rw [h0]; rfl)
      have := val_pos_of_norm hh t2 this
      omega
    · intro hx h0
      rw [List.length_eq_zero_iff.1 h0] at hx
      exact hx rfl
  unfold montExpSign
  simp only
  cases neg
  · simp only [Bool.false_eq_true, false_and, if_false]
    refine ⟨_, rfl, ?_, t2⟩
    rw [t1, hr]; push_cast; rfl
  · have hform := neg_pow_emod A (val (e0 :: es)) (val M.mod) hp
    simp only [true_and, if_true]
    rw [hform]
    by_cases hc : e0 &&& 1 = 1 ∧ (trim r).length ≠ 0
    · rw [if_pos hc]
      rw [if_pos (hodd.1 hc.1), if_neg (hz.1 hc.2)]
      obtain ⟨s1, s2⟩ := binSub_spec hh M.mod r 0 hl.symm
      rw [toNat_zero', Nat.add_zero] at s1
      obtain ⟨u1, u2⟩ := trim_spec (binSub M.mod r 0).1
      refine ⟨_, rfl, ?_, u2⟩
      rw [u1]
      have hv := val_lt (binSub M.mod r 0).1
      have hmv := val_lt M.mod
      rw [s2] at hv
      have hb : (binSub M.mod r 0).2.toNat = 0 := by
        rcases Nat.eq_zero_or_pos (binSub M.mod r 0).2.toNat with h0 | h0
        · exact h0
        · have := Nat.mul_le_mul_left ((2 ^ (h + h)) ^ M.mod.length) h0
          omega
      rw [hb] at s1
      omega
    · rw [if_neg hc]
      refine ⟨_, rfl, ?_, t2⟩
      rw [t1, hr]
      by_cases ho : val (e0 :: es) % 2 = 1
      · rw [if_pos ho]
        by_cases hzz : A ^ val (e0 :: es) % val M.mod = 0
        · rw [if_pos hzz, hzz]; rfl
        · exact absurd ⟨hodd.2 ho, hz.2 hzz⟩ hc
      · rw [if_neg ho]

theorem montExpCore_spec {j : Nat} (hj : h = 2 ^ j) (hw : 6 < h + h) {M : Mont h} (hM : MontOk M) (a e : Bn h) (ha : a.WF) (he : e.WF) (hs : e.neg = false)
    (consttime : Bool) :
    ∃ r, montExpCore M a e consttime = some r ∧ r.toInt = a.toInt ^ e.toInt.toNat % (val M.mod : Int) ∧ r.WF := by
  have hh : 0 < h := by rw [hj]; exact Nat.pow_pos (by decide)
  have hB := four_le hh
  have hp := mont_pos hM
  have heI : e.toInt.toNat = val e.data := by unfold Bn.toInt; rw [hs]; simp
  rw [heI]
  unfold montExpCore
  by_cases h0 : binBits e.data = 0
  · rw [if_pos h0]
    have hed := (binBits_zero hj e.data he.1).1 h0
    rw [hed]
    simp only [val, pow_zero]
    obtain ⟨l1, l2, l3⟩ := bnLimb_spec (1 : W h)
    rw [toNat_one hh] at l1
    obtain ⟨m0, ms, hm, _⟩ := hM.key
    have hnorm := hM.norm
    rw [hm] at hp hnorm ⊢
    cases ms with
    | nil =>
      simp only
      rw [val_one_limb] at hp ⊢
      by_cases h1 : m0 = 1
      · rw [if_pos h1, h1, toNat_one hh]
        exact ⟨_, rfl, by rw [toInt_zero]; rfl, wf_zero⟩
      · rw [if_neg h1]
        refine ⟨_, rfl, ?_, l2⟩
        rw [l1]
        have : m0.toNat ≠ 1 := fun hx => h1 (BitVec.eq_of_toNat_eq (by rw [hx, toNat_one hh]))
        exact (Int.emod_eq_of_lt (by decide) (by omega)).symm
    | cons m1 ms =>
      simp only
      refine ⟨_, rfl, ?_, l2⟩
      rw [l1]
      have := two_limbs hh hnorm (by simp) (1 : W h)
      rw [toNat_one hh] at this
      exact (Int.emod_eq_of_lt (by decide) (by omega)).symm
  · rw [if_neg h0]
    have hene : e.data ≠ [] := fun hx => h0 ((binBits_zero hj e.data he.1).2 hx)
    have hepos := val_pos_of_norm hh he.1 hene
    by_cases ha0 : a.data.length = 0
    · rw [if_pos ha0]
      refine ⟨_, rfl, ?_, wf_zero⟩
      have : a.toInt = 0 := by unfold Bn.toInt; rw [List.length_eq_zero_iff.1 ha0]; simp [val]
      rw [toInt_zero, this, zero_pow (by omega)]; simp
    · rw [if_neg ha0]
      have hane : a.data ≠ [] := fun hx => ha0 (by rw [hx]; rfl)
      obtain ⟨d, d1, d2, d3⟩ := dealBase_spec hj hM a.data ha.1 hane
      obtain ⟨r, r1, r2, r3⟩ := montExpData_spec hj hw hM d e.data d3 he.1 hene consttime
      rw [d2, ← Nat.pow_mod] at r3
      obtain ⟨t, t1, t2, t3⟩ := montExpSign_spec hh hM a.neg (val a.data) e.data r hene r2 r3
      rw [d1]; simp only
      rw [r1]; simp only
      rw [t1]; simp only
      refine ⟨_, rfl, ?_, wf_pos t3⟩
      rw [toInt_pos, t2]; rfl

/-! ### The plain modular functions -/

theorem wf_nonzero {m : Bn h} (h0 : m.toInt ≠ 0) : m.data.length ≠ 0 := by
  intro hx; apply h0; unfold Bn.toInt; rw [List.length_eq_zero_iff.1 hx]; simp [val]

theorem bnModAdd_spec {j : Nat} (hj : h = 2 ^ j) (a b m : Bn h) (ha : a.WF) (hb : b.WF) (hm : m.WF) (h0 : m.toInt ≠ 0) :
    ∃ r, bnModAdd a b m = some (some r) ∧ r.toInt = (a.toInt + b.toInt) % m.toInt ∧ r.WF := by
  have hh : 0 < h := by rw [hj]; exact Nat.pow_pos (by decide)
  unfold bnModAdd
  rw [if_neg (wf_nonzero h0)]
  obtain ⟨s1, s2⟩ := bnAdd_spec hh a b ha hb
  rw [← s1]; exact bnMod_spec hj _ m s2 hm h0

theorem bnModSub_spec {j : Nat} (hj : h = 2 ^ j) (a b m : Bn h) (ha : a.WF) (hb : b.WF) (hm : m.WF) (h0 : m.toInt ≠ 0) :
    ∃ r, bnModSub a b m = some (some r) ∧ r.toInt = (a.toInt - b.toInt) % m.toInt ∧ r.WF := by
  have hh : 0 < h := by rw [hj]; exact Nat.pow_pos (by decide)
  unfold bnModSub
  rw [if_neg (wf_nonzero h0)]
  obtain ⟨s1, s2⟩ := bnSub_spec hh a b ha hb
  rw [← s1]; exact bnMod_spec hj _ m s2 hm h0

theorem bnModMul_spec {j : Nat} (hj : h = 2 ^ j) (a b m : Bn h) (ha : a.WF) (hb : b.WF) (hm : m.WF) (h0 : m.toInt ≠ 0) :
    ∃ r, bnModMul a b m = some (some r) ∧ r.toInt = (a.toInt * b.toInt) % m.toInt ∧ r.WF := by
  have hh : 0 < h := by rw [hj]; exact Nat.pow_pos (by decide)
  unfold bnModMul
  rw [if_neg (wf_nonzero h0)]
  obtain ⟨s1, s2⟩ := bnMul_spec hh (a.data.length + b.data.length + 1) a b ha hb
  rw [← s1]; exact bnMod_spec hj _ m s2 hm h0

theorem bnModSqr_spec {j : Nat} (hj : h = 2 ^ j) (a m : Bn h) (ha : a.WF) (hm : m.WF) (h0 : m.toInt ≠ 0) :
    ∃ r, bnModSqr a m = some (some r) ∧ r.toInt = (a.toInt * a.toInt) % m.toInt ∧ r.WF := by
  have hh : 0 < h := by rw [hj]; exact Nat.pow_pos (by decide)
  unfold bnModSqr
  rw [if_neg (wf_nonzero h0)]
  obtain ⟨t, s0, s1, s2⟩ := bnSqr_spec hh a ha
  rw [s0]; simp only
  rw [← s1]; exact bnMod_spec hj _ m s2 hm h0

theorem modExpLoop_spec {j : Nat} (hj : h = 2 ^ j) (e : List (W h)) (m : Bn h) (hm : m.WF) (h0 : m.toInt ≠ 0) (Y : Int) : ∀ (n i : Nat) (x y : Bn h), 1 ≤ i →
    x.WF → y.WF → y.toInt = Y ^ 2 ^ (i - 1) % m.toInt → x.toInt = Y ^ (val e % 2 ^ i) % m.toInt →
    ∃ r, modExpLoop e m n i x y = some (some r) ∧ r.toInt = Y ^ (val e % 2 ^ (i + n)) % m.toInt ∧ r.WF
  | 0, i, x, y, _, hx, _, _, ex => ⟨x, rfl, ex, hx⟩
  | n + 1, i, x, y, hi, hx, hy, ey, ex => by
    have hh : 0 < h := by rw [hj]; exact Nat.pow_pos (by decide)
    obtain ⟨y', q1, q2, q3⟩ := bnModSqr_spec hj y m hy hm h0
    have ey' : y'.toInt = Y ^ 2 ^ i % m.toInt := by
      rw [q2, ey, ← Int.mul_emod, ← pow_add]
      congr 2
      have : 2 ^ i = 2 ^ (i - 1) * 2 := by rw [← pow_succ]; congr 1; omega
      omega
    rw [modExpLoop, q1]
    simp only
    have hbit := getBit_spec hh e i
    have hmod : val e % 2 ^ (i + 1) = val e % 2 ^ i + 2 ^ i * (val e / 2 ^ i % 2) := Nat.mod_pow_succ
    have hs : i + (n + 1) = i + 1 + n := by omega
    rw [hs]
    by_cases hb : getBit e i = true
    · rw [if_pos hb]
      obtain ⟨x', p1, p2, p3⟩ := bnModMul_spec hj x y' m hx q3 hm h0
      rw [p1]
      simp only
      refine modExpLoop_spec hj e m hm h0 Y n (i + 1) x' y' (by omega) p3 q3 ey' ?_
      rw [p2, ex, ey', ← Int.mul_emod, ← pow_add, hmod, hbit.1 hb, Nat.mul_one]
    · rw [if_neg hb]
      refine modExpLoop_spec hj e m hm h0 Y n (i + 1) x y' (by omega) hx q3 ey' ?_
      have : val e / 2 ^ i % 2 = 0 := by
        have : ¬ val e / 2 ^ i % 2 = 1 := fun hc => hb (hbit.2 hc)
        omega
      rw [ex, hmod, this, Nat.mul_zero, Nat.add_zero]

theorem modExpPlain_spec {j : Nat} (hj : h = 2 ^ j) (a e m : Bn h) (ha : a.WF) (he : e.WF) (hm : m.WF) (hs : e.neg = false) (h0 : m.toInt ≠ 0)
    (h1 : val m.data ≠ 1) : ∃ r, modExpPlain a e m = some (some r) ∧ r.toInt = a.toInt ^ e.toInt.toNat % m.toInt ∧ r.WF := by
  have hh : 0 < h := by rw [hj]; exact Nat.pow_pos (by decide)
  have heI : e.toInt.toNat = val e.data := by unfold Bn.toInt; rw [hs]; simp
  rw [heI]
  obtain ⟨y, y1, y2, y3⟩ := bnMod_spec hj a m ha hm h0
  unfold modExpPlain
  rw [y1]
  simp only
  obtain ⟨l1, l2, l3⟩ := bnLimb_spec (1 : W h)
  rw [toNat_one hh] at l1
  have habs : 2 ≤ m.toInt.natAbs := by
    have e1 : m.toInt.natAbs = val m.data := by unfold Bn.toInt; split <;> simp
    omega
  have h1m : (1 : Int) % m.toInt = 1 := by
    rw [← Int.emod_abs]
    apply Int.emod_eq_of_lt (by decide)
    rw [Int.abs_eq_natAbs]; omega
  have hpow : ∀ k, a.toInt ^ k % m.toInt = y.toInt ^ k % m.toInt := by
    intro k
    rw [y2]
    exact (Int.ModEq.pow k (Int.mod_modEq a.toInt m.toInt)).symm
  by_cases hc : e.data.length = 0 ∨ (y.data = [1] ∧ y.neg = false)
  · rw [if_pos hc]
    refine ⟨_, rfl, ?_, l2⟩
    rw [l1]
    rcases hc with hc | ⟨hc1, hc2⟩
    · rw [List.length_eq_zero_iff.1 hc]
      simp only [val, pow_zero]
      rw [h1m]; rfl
    · have : y.toInt = 1 := by unfold Bn.toInt; rw [hc2, hc1]; simp [val, toNat_one hh, Nat.mod_eq_of_lt (show 1 < 2 ^ (h + h) by have := four_le hh; omega)]
      rw [hpow, this, one_pow, h1m]; rfl
  · rw [if_neg hc]
    have hene : e.data ≠ [] := fun hx => hc (Or.inl (by rw [hx]; rfl))
    obtain ⟨b1, b2, b3, b4, b5⟩ := binBits_spec hj e.data he.1 hene
    by_cases hy0 : y.data.length = 0
    · rw [if_pos hy0]
      refine ⟨_, rfl, ?_, wf_zero⟩
      have : y.toInt = 0 := by unfold Bn.toInt; rw [List.length_eq_zero_iff.1 hy0]; simp [val]
      have hp := val_pos_of_norm hh he.1 hene
      rw [hpow, this, zero_pow (by omega), toInt_zero]; simp
    · rw [if_neg hy0]
      unfold modExpCore
      have hbit := getBit_spec hh e.data 0
      rw [pow_zero, Nat.div_one] at hbit
      have hyy : y.toInt % m.toInt = y.toInt := by rw [y2, Int.emod_emod_of_dvd _ (dvd_refl _)]
      obtain ⟨r, r1, r2, r3⟩ := modExpLoop_spec hj e.data m hm h0 y.toInt (binBits e.data - 1) 1 (if getBit e.data 0 = true then y else bnLimb 1) y (by decide)
        (by split; exacts [y3, l2]) y3 (by simp [hyy]) (by
          by_cases hb : getBit e.data 0 = true
          · rw [if_pos hb, pow_one, hbit.1 hb, pow_one, hyy]
          · rw [if_neg hb]
            have : val e.data % 2 = 0 := by
              have : ¬ val e.data % 2 = 1 := fun hc => hb (hbit.2 hc)
              omega
            rw [pow_one, this, pow_zero, h1m, l1]; rfl)
      refine ⟨r, r1, ?_, r3⟩
      rw [r2, hpow, show 1 + (binBits e.data - 1) = binBits e.data by omega, Nat.mod_eq_of_lt b3]

theorem bnModExp_spec {j : Nat} (hj : h = 2 ^ j) (hw : 6 < h + h) (a e m : Bn h) (ha : a.WF) (he : e.WF) (hm : m.WF) (hs : e.neg = false) (h0 : m.toInt ≠ 0)
    (consttime : Bool) : ∃ r, bnModExp a e m consttime = some (some r) ∧ r.toInt = a.toInt ^ e.toInt.toNat % m.toInt ∧ r.WF := by
  have hh : 0 < h := by rw [hj]; exact Nat.pow_pos (by decide)
  unfold bnModExp
  rw [if_neg (wf_nonzero h0), if_neg (by rw [hs]; simp)]
  by_cases h1 : m.data = [1]
  · rw [if_pos h1]
    refine ⟨_, rfl, ?_, wf_zero⟩
    rw [toInt_zero]
    have : m.toInt = 1 ∨ m.toInt = -1 := by
      unfold Bn.toInt
      rw [h1, val_one_limb, toNat_one hh]
      split <;> simp
    rcases this with hx | hx <;> rw [hx] <;> simp
  · rw [if_neg h1]
    by_cases hc : getBit m.data 0 = true ∧ m.neg = false
    · rw [if_pos hc]
      have hbit := (getBit_spec hh m.data 0).1 hc.1
      rw [pow_zero, Nat.div_one] at hbit
      have hmI : m.toInt = val m.data := by unfold Bn.toInt; rw [hc.2]; simp
      obtain ⟨M, m1, m2, m3⟩ := (montCreate_ok hj m hm).1 ⟨by omega, by omega⟩
      rw [m1]
      simp only
      unfold bnMontExp
      rw [if_neg (by rw [hs]; simp)]
      obtain ⟨r, r1, r2, r3⟩ := montExpCore_spec hj hw m3 a e ha he hs consttime
      refine ⟨r, by rw [r1], ?_, r3⟩
      rw [r2, m2, hmI]
    · rw [if_neg hc]
      refine modExpPlain_spec hj a e m ha he hm hs h0 fun hv => h1 ?_
      have hnorm := hm.1
      have hne : m.data ≠ [] := fun hx => by rw [hx] at hv; simp [val] at hv
      obtain ⟨m0, ms, hmd⟩ : ∃ m0 ms, m.data = m0 :: ms := by
        cases hd : m.data with
        | nil => exact absurd hd hne
        | cons a b => exact ⟨a, b, rfl⟩
      rw [hmd] at hnorm hv ⊢
      cases ms with
      | nil =>
        rw [val_one_limb] at hv
        congr 1
        exact BitVec.eq_of_toNat_eq (by rw [hv, toNat_one hh])
      | cons m1 ms =>
        have := two_limbs hh hnorm (by simp) (1 : W h)
        rw [toNat_one hh] at this
        omega

end Verif.Crypto.Bn
