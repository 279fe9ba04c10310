import Verif.Crypto.Bn.ShiftProof
/-! Proofs about division. -/
namespace Verif.Crypto.Bn

variable {h : Nat}

theorem lshiftSimple_spec {bits : Nat} (hb : 0 < bits) (hb' : bits < h + h) : ∀ (a : List (W h)) (next : W h), next.toNat < 2 ^ bits →
    (lshiftSimple bits next a).length = a.length ∧
      ∃ c, val (lshiftSimple bits next a) + (2 ^ (h + h)) ^ a.length * c = val a * 2 ^ bits + next.toNat
  | [], next, _ => ⟨rfl, next.toNat, by simp [lshiftSimple, val]⟩
  | n :: a, next, hn => by
    rw [lshiftSimple]
    have hcar : (n >>> (h + h - bits)).toNat < 2 ^ bits := by
      rw [toNat_shr]
      apply Nat.div_lt_of_lt_mul
      rw [Nat.mul_comm, ← pow_split hb']; exact n.isLt
    obtain ⟨i1, c, i2⟩ := lshiftSimple_spec hb hb' a _ hcar
    refine ⟨by simp [i1], c, ?_⟩
    have e1 : (n <<< bits ||| next).toNat = (n.toNat % 2 ^ (h + h - bits)) * 2 ^ bits + next.toNat := by
      rw [BitVec.toNat_or, BitVec.toNat_shiftLeft, Nat.shiftLeft_eq]
      have e : n.toNat * 2 ^ bits % 2 ^ (h + h) = (n.toNat % 2 ^ (h + h - bits)) * 2 ^ bits := by
        conv_lhs => rw [pow_split hb', Nat.mul_comm (2 ^ bits)]
        rw [Nat.mul_mod_mul_right]
      rw [e, or_disjoint hn]
    rw [toNat_shr] at i2
    simp only [val, List.length_cons, pow_succ]
    rw [e1]
    have e2 := Nat.mod_add_div n.toNat (2 ^ (h + h - bits))
    have ep := pow_split hb'
    generalize n.toNat % 2 ^ (h + h - bits) = m at *
    generalize n.toNat / 2 ^ (h + h - bits) = d at *
    generalize val (lshiftSimple bits (n >>> (h + h - bits)) a) = V at *
    generalize 2 ^ (h + h - bits) = E at *
    rw [← e2]
    generalize hB : 2 ^ (h + h) = B at *
    generalize 2 ^ bits = D at *
    have : B * V + B * (B ^ a.length * c) = B * (val a * D) + B * d := by rw [← Nat.mul_add, i2]; ring
    have e3 : (m + E * d + B * val a) * D = m * D + D * E * d + B * (val a * D) := by ring
    rw [e3, ← ep]
    linarith

/-! ### The quotient estimate -/

theorem tryDiv_arith1 {B q r x2 y2 yy T V : Nat} (hV : V = yy * B + y2) (hT : T = (q * yy + r) * B + x2) (hr : r < yy) (hx2 : x2 < B)
    (hc : q * y2 ≤ r * B + x2) : q * V ≤ T ∧ T < (q + 1) * V := by
  subst hV; subst hT
  have h1 : (r + 1) * B ≤ yy * B := Nat.mul_le_mul_right _ hr
  constructor
  · have : q * (yy * B + y2) = q * yy * B + q * y2 := by ring
    have : (q * yy + r) * B = q * yy * B + r * B := by ring
    omega
  · have e1 : (q + 1) * (yy * B + y2) = q * yy * B + q * y2 + yy * B + y2 := by ring
    have e2 : (q * yy + r) * B = q * yy * B + r * B := by ring
    have e3 : (r + 1) * B = r * B + B := by ring
    have : 0 ≤ q * y2 := Nat.zero_le _
    omega

theorem tryDiv_arith2 {B q r x2 y2 yy T V : Nat} (hV : V = yy * B + y2) (hT : T = (q * yy + r) * B + x2) 
    (hc : r * B + x2 < q * y2) : T < q * V := by
  subst hV; subst hT
  have e1 : q * (yy * B + y2) = q * yy * B + q * y2 := by ring
  have e2 : (q * yy + r) * B = q * yy * B + r * B := by ring
  omega

/-- The estimate from three limbs of the dividend and two of the divisor. -/
theorem tryDiv_spec (hh : 0 < h) (q r x2 yy y2 : W h) (T V : Nat) (hV : V = yy.toNat * 2 ^ (h + h) + y2.toNat)
    (hT : T = (q.toNat * yy.toNat + r.toNat) * 2 ^ (h + h) + x2.toNat) (hr : r.toNat < yy.toNat) (hy : 2 ^ (h + h) ≤ 2 * yy.toNat) :
    (tryDiv q r x2 yy y2).toNat * V ≤ T ∧ T < ((tryDiv q r x2 yy y2).toNat + 1) * V := by
  unfold tryDiv
  have e1 := mulAB_spec hh q y2
  generalize mulAB q y2 = p at e1
  obtain ⟨rh, rl⟩ := p
  simp only at e1 ⊢
  have hB := four_le hh
  have hx2 := x2.isLt
  have hrl := rl.isLt
  have hrh := rh.isLt
  have hq := q.isLt
  have hy2 := y2.isLt
  have hyy := yy.isLt
  have lex : ∀ a b c d : Nat, b < 2 ^ (h + h) → d < 2 ^ (h + h) → ((a < c ∨ a = c ∧ b ≤ d) ↔ b + 2 ^ (h + h) * a ≤ d + 2 ^ (h + h) * c) := by
    intro a b c d hb hd
    generalize 2 ^ (h + h) = B at *
    rcases Nat.lt_trichotomy a c with hlt | heq | hgt
    · have := Nat.mul_le_mul_left B (show a + 1 ≤ c from hlt)
      rw [Nat.mul_add] at this
      constructor
      · intro _; omega
      · intro _; exact Or.inl hlt
    · subst heq; omega
    · have := Nat.mul_le_mul_left B (show c + 1 ≤ a from hgt)
      rw [Nat.mul_add] at this
      omega
  have cond : (rh < r ∨ rh = r ∧ rl ≤ x2) ↔ q.toNat * y2.toNat ≤ r.toNat * 2 ^ (h + h) + x2.toNat := by
    rw [BitVec.lt_def, BitVec.le_def, ← BitVec.toNat_inj, lex _ _ _ _ hrl hx2, e1, Nat.mul_comm (2 ^ (h + h)) r.toNat, Nat.add_comm x2.toNat]
  by_cases hc : rh < r ∨ rh = r ∧ rl ≤ x2
  · rw [if_pos hc]
    exact tryDiv_arith1 hV hT hr hx2 (cond.1 hc)
  · rw [if_neg hc]
    have hc' : r.toNat * 2 ^ (h + h) + x2.toNat < q.toNat * y2.toNat := by
      have : ¬ q.toNat * y2.toNat ≤ _ := fun hx => hc (cond.2 hx)
      omega
    have hqpos : 1 ≤ q.toNat := by
      rcases Nat.eq_zero_or_pos q.toNat with h0 | h0
      · rw [h0, Nat.zero_mul] at hc'; omega
      · exact h0
    have hy2pos : 1 ≤ y2.toNat := by
      rcases Nat.eq_zero_or_pos y2.toNat with h0 | h0
      · rw [h0, Nat.mul_zero] at hc'; omega
      · exact h0
    have up := tryDiv_arith2 hV hT hc'
    have hq1 : (q - 1).toNat = q.toNat - 1 := by
      have := toNat_sub_cases q 1
      rw [toNat_one hh, if_neg (by rw [BitVec.lt_def, toNat_one hh]; omega)] at this
      omega
    obtain ⟨k, hk⟩ : ∃ k, q.toNat = k + 1 := ⟨q.toNat - 1, by omega⟩
    have hk1 : (q - 1).toNat = k := by omega
    rw [hk] at e1 hT hc' up hq
    clear cond hc
    have ac := add_cases r yy
    -- T in terms of k
    have hT1 : T = (k * yy.toNat + (r.toNat + yy.toNat)) * 2 ^ (h + h) + x2.toNat := by rw [hT]; ring
    have hky : k * y2.toNat < 2 ^ (h + h) * 2 ^ (h + h) := Nat.mul_lt_mul'' (by omega) hy2
    by_cases hov : r + yy < yy
    · rw [if_pos hov, hk1]
      have hge := (ac.2.2).1 hov
      refine ⟨?_, up⟩
      rw [hT1, hV]
      have e2 : k * (yy.toNat * 2 ^ (h + h) + y2.toNat) = k * yy.toNat * 2 ^ (h + h) + k * y2.toNat := by ring
      have e3 : (k * yy.toNat + (r.toNat + yy.toNat)) * 2 ^ (h + h) = k * yy.toNat * 2 ^ (h + h) + (r.toNat + yy.toNat) * 2 ^ (h + h) := by ring
      have := Nat.mul_le_mul_right (2 ^ (h + h)) hge
      omega
    · rw [if_neg hov]
      have hno : r.toNat + yy.toNat < 2 ^ (h + h) := by
        have : ¬ 2 ^ (h + h) ≤ _ := fun hx => hov (ac.2.2.2 hx)
        omega
      have hnh : (r + yy).toNat = r.toNat + yy.toNat := toNat_add_small _ _ hno
      have hsub := toNat_sub_cases rl y2
      -- the two-limb value of (q - 1) * y2
      have hrhpos : rl.toNat < y2.toNat → 1 ≤ rh.toNat := by
        intro hlt
        rcases Nat.eq_zero_or_pos rh.toNat with h0 | h0
        · exfalso
          rw [h0, Nat.mul_zero, Nat.add_mul, Nat.one_mul] at e1; omega
        · exact h0
      have hval : (rl - y2).toNat + 2 ^ (h + h) * (if rl < y2 then rh - 1 else rh).toNat = k * y2.toNat := by
        rw [Nat.add_mul, Nat.one_mul] at e1
        by_cases hlt : rl < y2
        · rw [if_pos hlt] at hsub ⊢
          have h1 := hrhpos (BitVec.lt_def.1 hlt)
          have h2 : (rh - 1).toNat = rh.toNat - 1 := by
            have := toNat_sub_cases rh 1
            rw [toNat_one hh, if_neg (by rw [BitVec.lt_def, toNat_one hh]; omega)] at this
            omega
          rw [h2]
          have h3 : 2 ^ (h + h) * rh.toNat = 2 ^ (h + h) * (rh.toNat - 1) + 2 ^ (h + h) := by
            conv_lhs => rw [show rh.toNat = (rh.toNat - 1) + 1 by omega, Nat.mul_add, Nat.mul_one]
          omega
        · rw [if_neg hlt] at hsub ⊢; omega
      have hrl' := (rl - y2).isLt
      generalize rl - y2 = rl' at *
      generalize (if rl < y2 then rh - 1 else rh) = rh' at *
      have cond : (rh' < r + yy ∨ rh' = r + yy ∧ rl' ≤ x2) ↔ k * y2.toNat ≤ (r.toNat + yy.toNat) * 2 ^ (h + h) + x2.toNat := by
        rw [BitVec.lt_def, BitVec.le_def, ← BitVec.toNat_inj, lex _ _ _ _ hrl' hx2, hval, hnh, Nat.mul_comm (2 ^ (h + h)) (r.toNat + yy.toNat), Nat.add_comm x2.toNat]
      by_cases hc2 : rh' < r + yy ∨ rh' = r + yy ∧ rl' ≤ x2
      · rw [if_pos hc2, hk1]
        refine ⟨?_, up⟩
        have := cond.1 hc2
        rw [hT1, hV]
        have e2 : k * (yy.toNat * 2 ^ (h + h) + y2.toNat) = k * yy.toNat * 2 ^ (h + h) + k * y2.toNat := by ring
        have e3 : (k * yy.toNat + (r.toNat + yy.toNat)) * 2 ^ (h + h) = k * yy.toNat * 2 ^ (h + h) + (r.toNat + yy.toNat) * 2 ^ (h + h) := by ring
        omega
      · rw [if_neg hc2]
        have hc3 : (r.toNat + yy.toNat) * 2 ^ (h + h) + x2.toNat < k * y2.toNat := by
          have : ¬ k * y2.toNat ≤ _ := fun hx => hc2 (cond.2 hx)
          omega
        have up2 := tryDiv_arith2 hV hT1 hc3
        have hkpos : 1 ≤ k := by
          rcases Nat.eq_zero_or_pos k with h0 | h0
          · rw [h0, Nat.zero_mul] at hc3; omega
          · exact h0
        obtain ⟨k', rfl⟩ : ∃ k', k = k' + 1 := ⟨k - 1, by omega⟩
        have hq2 : (q - 1 - 1).toNat = k' := by
          have := toNat_sub_cases (q - 1) 1
          rw [toNat_one hh, hk1, if_neg (by rw [BitVec.lt_def, toNat_one hh]; omega)] at this
          omega
        rw [hq2]
        refine ⟨?_, up2⟩
        rw [hT1, hV]
        have hk'y : k' * y2.toNat < 2 ^ (h + h) * 2 ^ (h + h) := Nat.mul_lt_mul'' (by omega) hy2
        have e2 : k' * (yy.toNat * 2 ^ (h + h) + y2.toNat) = k' * yy.toNat * 2 ^ (h + h) + k' * y2.toNat := by ring
        have e3 : ((k' + 1) * yy.toNat + (r.toNat + yy.toNat)) * 2 ^ (h + h) = k' * yy.toNat * 2 ^ (h + h) + (2 * yy.toNat) * 2 ^ (h + h) + r.toNat * 2 ^ (h + h) := by ring
        have := Nat.mul_le_mul_right (2 ^ (h + h)) hy
        omega

/-- From an estimate on the leading limbs to the whole numbers. -/
theorem estimate {B P T V q s y S Y : Nat} (hS : S = s + P * T) (hY : Y = y + P * V) (hs : s < P) (hy : y < P) (h1 : q * V ≤ T) (h2 : T < (q + 1) * V)
    (hq : q < B) (hV : B ≤ V) : S < (q + 1) * Y ∧ q * Y ≤ S + Y := by
  subst hS; subst hY
  constructor
  · have h3 := Nat.mul_le_mul_left P (show T + 1 ≤ (q + 1) * V from h2)
    have e1 : (q + 1) * (y + P * V) = (q + 1) * y + P * ((q + 1) * V) := by ring
    rw [Nat.mul_add] at h3
    have : 0 ≤ (q + 1) * y := Nat.zero_le _
    omega
  · have h3 := Nat.mul_le_mul_left P h1
    have e1 : q * (y + P * V) = q * y + P * (q * V) := by ring
    have h4 : q * y ≤ V * P := Nat.mul_le_mul (by omega) (by omega)
    rw [Nat.mul_comm V P] at h4
    omega

theorem getElem?_last {l : List (W h)} {x : W h} {n : Nat} (hl : l.length = n) : (l ++ [x])[n]? = some x := by
  rw [List.getElem?_append_right (by omega), hl, Nat.sub_self]; rfl

theorem getElem?_last2 {l : List (W h)} {x y : W h} {n : Nat} (hl : l.length = n) : (l ++ [x, y])[n]? = some x := by
  rw [List.getElem?_append_right (by omega), hl, Nat.sub_self]; rfl

theorem divFinish_spec (hh : 0 < h) (sl y : List (W h)) (xi qq : W h) (hl : sl.length = y.length) (hyv : 0 < val y)
    (h1 : val (sl ++ [xi]) < (qq.toNat + 1) * val y) (h2 : qq.toNat * val y ≤ val (sl ++ [xi]) + val y) :
    (divFinish (sl ++ [xi]) y xi qq).1.length = y.length + 1 ∧
      val (sl ++ [xi]) = (divFinish (sl ++ [xi]) y xi qq).2.toNat * val y + val (divFinish (sl ++ [xi]) y xi qq).1 ∧
      val (divFinish (sl ++ [xi]) y xi qq).1 < val y := by
  unfold divFinish
  have hB := four_le hh
  by_cases h0 : qq > 0
  · rw [if_pos h0]
    have htk : (sl ++ [xi]).take y.length = sl := by rw [← hl, List.take_left]
    rw [htk]
    obtain ⟨i1, i2⟩ := binSubMul_spec hh sl y qq 0 hl
    generalize binSubMul sl y qq 0 = p at *
    obtain ⟨low, ext⟩ := p
    simp only at i1 i2 ⊢
    rw [toNat_zero', Nat.add_zero] at i1
    have hY := val_lt y
    have hlow := val_lt low
    rw [i2] at hlow
    rw [val_append, hl] at h1 h2 ⊢
    simp only [val, Nat.mul_zero, Nat.add_zero] at h1 h2 ⊢
    have hts := toNat_sub_cases xi ext
    have hxi := xi.isLt
    have hex := ext.isLt
    have hqq : (qq.toNat + 1) * val y = val y * qq.toNat + val y := by ring
    rw [hqq] at h1
    rw [Nat.mul_comm qq.toNat] at h2
    generalize hP : (2 ^ (h + h)) ^ y.length = P at *
    -- S = sl + P * xi
    by_cases hge : val y * qq.toNat ≤ val sl + P * xi.toNat
    · -- the estimate is exact
      have heq : xi.toNat = ext.toNat := by
        rcases Nat.lt_trichotomy xi.toNat ext.toNat with hlt | he | hgt
        · exfalso
          have := Nat.mul_le_mul_left P (show xi.toNat + 1 ≤ ext.toNat from hlt)
          rw [Nat.mul_add] at this; omega
        · exact he
        · exfalso
          have := Nat.mul_le_mul_left P (show ext.toNat + 1 ≤ xi.toNat from hgt)
          rw [Nat.mul_add] at this; omega
      have hxe : xi = ext := BitVec.eq_of_toNat_eq heq
      subst hxe
      rw [BitVec.sub_self, if_neg (by simp)]
      simp only [List.length_append, List.length_singleton, i2]
      rw [val_append]
      simp only [val, toNat_zero', Nat.mul_zero, Nat.add_zero]
      rw [show (0#(h + h)).toNat = 0 from toNat_zero', Nat.mul_zero, Nat.mul_comm qq.toNat]
      exact ⟨trivial, by omega, by omega⟩
    · have heq : ext.toNat = xi.toNat + 1 := by
        have hlt : xi.toNat < ext.toNat := by
          by_contra hcon
          have := Nat.mul_le_mul_left P (show ext.toNat ≤ xi.toNat by omega)
          omega
        by_contra hcon
        have := Nat.mul_le_mul_left P (show xi.toNat + 2 ≤ ext.toNat by omega)
        rw [Nat.mul_add] at this; omega
      have htop : (xi - ext).toNat = 2 ^ (h + h) - 1 := by
        rw [if_pos (BitVec.lt_def.2 (by omega))] at hts; omega
      rw [if_pos (BitVec.lt_def.2 (by rw [htop, toNat_zero']; omega))]
      obtain ⟨j1, j2⟩ := binAdd_spec hh low y 0 i2
      generalize binAdd low y 0 = p at *
      obtain ⟨low2, c⟩ := p
      simp only at j1 j2 ⊢
      rw [toNat_zero', Nat.add_zero, i2, hP] at j1
      have hlow2 := val_lt low2
      rw [j2, i2, hP] at hlow2
      rw [heq, Nat.mul_add, Nat.mul_one] at i1
      have hc1 : c.toNat = 1 := by
        rcases Nat.lt_trichotomy c.toNat 1 with hlt | he | hgt
        · exfalso
          have : c.toNat = 0 := by omega
          rw [this] at j1; omega
        · exact he
        · exfalso
          have := Nat.mul_le_mul_left P (show 2 ≤ c.toNat by omega)
          omega
      have htc : xi - ext + c = 0 := by
        apply BitVec.eq_of_toNat_eq
        rw [BitVec.toNat_add, htop, hc1, toNat_zero', show 2 ^ (h + h) - 1 + 1 = 2 ^ (h + h) by omega, Nat.mod_self]
      rw [htc]
      have hqpos : 0 < qq.toNat := by
        have := BitVec.lt_def.1 h0
        rwa [toNat_zero'] at this
      have hq1 : (qq - 1).toNat = qq.toNat - 1 := by
        have := toNat_sub_cases qq 1
        rw [toNat_one hh, if_neg (by rw [BitVec.lt_def, toNat_one hh]; omega)] at this
        omega
      simp only [List.length_append, List.length_singleton, j2, i2]
      rw [val_append]
      simp only [val, toNat_zero', Nat.mul_zero, Nat.add_zero]
      rw [hq1]
      rw [hc1, Nat.mul_one] at j1
      have e1 : val y * qq.toNat = (qq.toNat - 1) * val y + val y := by
        conv_lhs => rw [show qq.toNat = (qq.toNat - 1) + 1 by omega]
        ring
      exact ⟨trivial, by omega, by omega⟩
  · rw [if_neg h0]
    have hz : qq.toNat = 0 := by
      by_contra hcon
      exact h0 (BitVec.lt_def.2 (by rw [toNat_zero']; omega))
    simp only [hz, Nat.zero_mul, Nat.zero_add, Nat.one_mul] at h1 ⊢
    exact ⟨by simp [hl], trivial, h1⟩

theorem divRound_eq (s y : List (W h)) (yy xi qq : W h) (h1 : y[y.length - 1]? = some yy) (h2 : s[y.length]? = some xi)
    (h3 : divEst s y yy xi = some qq) : divRound s y = some (divFinish s y xi qq) := by
  simp only [divRound, h1, h2, h3, Option.bind_eq_bind, Option.bind_some]

theorem est_top {B P yy xi sl ylow Y S : Nat} (hS : S = sl + P * B * xi) (hY : Y = ylow + P * yy) (hyl : ylow < P) (hlt : S < Y * B) : xi ≤ yy := by
  subst hS; subst hY
  by_contra hcon
  have h1 := Nat.mul_le_mul_left (P * B) (show yy + 1 ≤ xi by omega)
  have h2 := Nat.mul_le_mul_right B (show ylow + 1 ≤ P from hyl)
  have e1 : (ylow + P * yy) * B = ylow * B + P * B * yy := by ring
  have e2 : P * B * (yy + 1) = P * B * yy + P * B := by ring
  have e3 : (ylow + 1) * B = ylow * B + B := by ring
  omega

theorem est_max {B P yy sl ylow Y S : Nat} (hB : 2 ≤ B) (hS : S = sl + P * B * yy) (hY : Y = ylow + P * yy) (hyl : ylow < P) (hy : B ≤ 2 * yy) :
    (B - 1) * Y ≤ S + Y := by
  subst hS; subst hY
  obtain ⟨b, rfl⟩ : ∃ b, B = b + 2 := ⟨B - 2, by omega⟩
  rw [show b + 2 - 1 = b + 1 by omega]
  have h1 := Nat.mul_le_mul_left b (show ylow + 1 ≤ P from hyl)
  have h2 := Nat.mul_le_mul_left P (show b ≤ 2 * yy by omega)
  have e1 : (b + 1) * (ylow + P * yy) = b * ylow + b * P * yy + (ylow + P * yy) := by ring
  have e2 : P * (b + 2) * yy = b * P * yy + P * (2 * yy) := by ring
  have e3 : b * (ylow + 1) = b * ylow + b := by ring
  have e4 : b * P = P * b := Nat.mul_comm _ _
  omega

theorem divEst_spec (hh : 0 < h) (sl yl : List (W h)) (yy xi : W h) (hs : sl.length = yl.length + 1)
    (hlt : val (sl ++ [xi]) < val (yl ++ [yy]) * 2 ^ (h + h)) (hy : 2 ^ (h + h) ≤ 2 * yy.toNat) :
    ∃ qq, divEst (sl ++ [xi]) (yl ++ [yy]) yy xi = some qq ∧ val (sl ++ [xi]) < (qq.toNat + 1) * val (yl ++ [yy]) ∧
      qq.toNat * val (yl ++ [yy]) ≤ val (sl ++ [xi]) + val (yl ++ [yy]) := by
  have hB := four_le hh
  have hvl := val_lt yl
  have hS : val (sl ++ [xi]) = val sl + (2 ^ (h + h)) ^ yl.length * 2 ^ (h + h) * xi.toNat := by
    rw [val_append, hs, pow_succ]; simp [val]
  have hY : val (yl ++ [yy]) = val yl + (2 ^ (h + h)) ^ yl.length * yy.toNat := by
    rw [val_append]; simp [val]
  have hle := est_top hS hY hvl hlt
  unfold divEst
  by_cases heq : xi = yy
  · rw [if_pos heq]
    refine ⟨_, rfl, ?_⟩
    have hm : ((0 : W h) - 1).toNat = 2 ^ (h + h) - 1 := by
      have := toNat_sub_cases (0 : W h) 1
      rw [toNat_one hh, toNat_zero', if_pos (by rw [BitVec.lt_def, toNat_one hh, toNat_zero']; omega)] at this
      omega
    rw [hm, show 2 ^ (h + h) - 1 + 1 = 2 ^ (h + h) by omega, Nat.mul_comm]
    refine ⟨hlt, ?_⟩
    subst heq
    exact est_max (by omega) hS hY hvl hy
  · rw [if_neg heq]
    have hlt2 : xi.toNat < yy.toNat := by
      have : xi.toNat ≠ yy.toNat := fun hx => heq (BitVec.eq_of_toNat_eq hx)
      omega
    obtain ⟨sl2, x1, rfl, hsl2⟩ := list_split_last hs
    have hn : (yl ++ [yy]).length = yl.length + 1 := by simp
    rw [hn, Nat.add_sub_cancel, List.append_assoc, List.singleton_append, getElem?_last2 hsl2]
    simp only [Option.bind_eq_bind, Option.bind_some]
    obtain ⟨q, r, d1, d2, d3⟩ := divND_spec hh xi x1 yy hlt2 hy
    rw [d1]
    simp only [Option.bind_some]
    by_cases hone : yl.length + 1 > 1
    · rw [if_pos hone]
      obtain ⟨m, hm⟩ : ∃ m, yl.length = m + 1 := ⟨yl.length - 1, by omega⟩
      obtain ⟨sl3, x2, rfl, hsl3⟩ := list_split_last (n := m) (l := sl2) (by omega)
      obtain ⟨yl2, y2, rfl, hyl2⟩ := list_split_last (n := m) (l := yl) hm
      have i1 : (sl3 ++ [x2] ++ [x1, xi])[(yl2 ++ [y2]).length + 1 - 2]? = some x2 := by
        rw [hm, show m + 1 + 1 - 2 = m by omega, List.append_assoc, List.getElem?_append_right (by omega), hsl3, Nat.sub_self]; rfl
      have i2 : (yl2 ++ [y2] ++ [yy])[(yl2 ++ [y2]).length + 1 - 2]? = some y2 := by
        rw [hm, show m + 1 + 1 - 2 = m by omega, List.append_assoc, List.getElem?_append_right (by omega), hyl2, Nat.sub_self]; rfl
      rw [i1, i2]
      simp only [Option.bind_some]
      refine ⟨_, rfl, ?_⟩
      obtain ⟨t1, t2⟩ := tryDiv_spec hh q r x2 yy y2 _ _ rfl rfl d3 hy
      have e1 : val (sl3 ++ [x2] ++ [x1, xi]) = val sl3 + (2 ^ (h + h)) ^ m * ((q.toNat * yy.toNat + r.toNat) * 2 ^ (h + h) + x2.toNat) := by
        rw [List.append_assoc, val_append, hsl3, d2]
        simp only [List.singleton_append, val, Nat.mul_zero, Nat.add_zero]
        ring
      have e2 : val (yl2 ++ [y2] ++ [yy]) = val yl2 + (2 ^ (h + h)) ^ m * (yy.toNat * 2 ^ (h + h) + y2.toNat) := by
        rw [List.append_assoc, val_append, hyl2]
        simp only [List.singleton_append, val, Nat.mul_zero, Nat.add_zero]
        ring
      have b1 := val_lt sl3
      have b2 := val_lt yl2
      rw [hsl3] at b1
      rw [hyl2] at b2
      refine estimate e1 e2 b1 b2 t1 t2 (BitVec.isLt _) ?_
      have := Nat.mul_le_mul_right (2 ^ (h + h)) (show 1 ≤ yy.toNat by omega)
      omega
    · rw [if_neg hone]
      have : yl = [] := List.length_eq_zero_iff.1 (by omega)
      subst this
      have : sl2 = [] := List.length_eq_zero_iff.1 (by simpa using hsl2)
      subst this
      refine ⟨_, rfl, ?_⟩
      simp only [List.nil_append, val, Nat.mul_zero, Nat.add_zero]
      rw [Nat.add_mul, Nat.one_mul, Nat.mul_comm (2 ^ (h + h))]
      omega

theorem divRound_spec (hh : 0 < h) (s yl : List (W h)) (yy : W h) (hs : s.length = yl.length + 2)
    (hlt : val s < val (yl ++ [yy]) * 2 ^ (h + h)) (hy : 2 ^ (h + h) ≤ 2 * yy.toNat) :
    ∃ s' qq, divRound s (yl ++ [yy]) = some (s', qq) ∧ s'.length = s.length ∧ val s = qq.toNat * val (yl ++ [yy]) + val s' ∧
      val s' < val (yl ++ [yy]) := by
  obtain ⟨sl, xi, rfl, hsl⟩ := list_split_last (n := yl.length + 1) hs
  obtain ⟨qq, h1, h2, h3⟩ := divEst_spec hh sl yl yy xi hsl hlt hy
  have hn : (yl ++ [yy]).length = yl.length + 1 := by simp
  have e1 : (yl ++ [yy])[(yl ++ [yy]).length - 1]? = some yy := by
    rw [hn, Nat.add_sub_cancel]; exact getElem?_last rfl
  have e2 : (sl ++ [xi])[(yl ++ [yy]).length]? = some xi := by
    rw [hn]; exact getElem?_last hsl
  have hpos : 0 < val (yl ++ [yy]) := by
    rcases Nat.eq_zero_or_pos (val (yl ++ [yy])) with h0 | h0
    · rw [h0, Nat.zero_mul] at hlt; cases hlt
    · exact h0
  obtain ⟨f1, f2, f3⟩ := divFinish_spec hh sl (yl ++ [yy]) xi qq (by rw [hn, hsl]) hpos h2 h3
  exact ⟨_, _, divRound_eq _ _ _ _ _ e1 e2 h1, f1.trans (by simp [hsl]), f2, f3⟩

/-! ### The loop -/

/-- `qSize` is the size of `q` without its leading zeros, where `k` limbs are still to come below. -/
def QSize (k : Nat) (q : List (W h)) (qSize : Nat) : Prop :=
  (qSize = 0 ∧ val q = 0) ∨
  (k < qSize ∧ qSize ≤ k + q.length ∧ val (q.drop (qSize - k)) = 0 ∧ ∃ x, q[qSize - k - 1]? = some x ∧ x ≠ 0)

theorem qsize_step (k : Nat) (q : List (W h)) (qSize : Nat) (qq : W h) (hq : QSize (k + 1) q qSize) :
    QSize k (qq :: q) (if qq ≠ 0 then (if qSize > k + 1 then qSize else k + 1) else qSize) := by
  rcases hq with ⟨h1, h2⟩ | ⟨h1, h2, h3, x, h4, h5⟩
  · subst h1
    by_cases h0 : qq = 0
    · rw [if_neg (by simpa using h0)]
      exact Or.inl ⟨rfl, by simp [val, h0, h2]⟩
    · rw [if_pos h0, if_neg (by omega)]
      refine Or.inr ⟨by omega, by simp, ?_, qq, ?_, h0⟩
      · rw [show k + 1 - k = 1 by omega]; exact h2
      · rw [show k + 1 - k - 1 = 0 by omega]; rfl
  · have : (if qq ≠ 0 then (if qSize > k + 1 then qSize else k + 1) else qSize) = qSize := by
      rw [if_pos (show qSize > k + 1 from h1)]; split <;> rfl
    rw [this]
    refine Or.inr ⟨by omega, by simp only [List.length_cons]; omega, ?_, x, ?_, h5⟩
    · rw [show qSize - k = (qSize - (k + 1)) + 1 by omega, List.drop_succ_cons]; exact h3
    · rw [show qSize - k - 1 = (qSize - (k + 1) - 1) + 1 by omega, List.getElem?_cons_succ]; exact h4

theorem low_top {s : List (W h)} {n Y : Nat} (hs : s.length = n + 1) (hv : val s < Y) (hY : Y ≤ (2 ^ (h + h)) ^ n) :
    ∃ l, s = l ++ [0] ∧ l.length = n ∧ val l = val s := by
  obtain ⟨l, x, rfl, hl⟩ := list_split_last hs
  have hx : x = 0 := by
    apply BitVec.eq_of_toNat_eq
    rw [toNat_zero']
    rcases Nat.eq_zero_or_pos x.toNat with h0 | h0
    · exact h0
    · exfalso
      rw [val_append, hl] at hv
      simp only [val, Nat.mul_zero, Nat.add_zero] at hv
      have := Nat.mul_le_mul_left ((2 ^ (h + h)) ^ n) h0
      omega
  subst hx
  exact ⟨l, rfl, hl, by rw [val_append]; simp [val]⟩

theorem divLoop_spec (hh : 0 < h) (yl : List (W h)) (yy : W h) (hy : 2 ^ (h + h) ≤ 2 * yy.toNat) :
    ∀ (below s tail q : List (W h)) (qSize : Nat), s.length = yl.length + 2 → val s < val (yl ++ [yy]) * 2 ^ (h + h) → val tail = 0 →
      QSize (below.length + 1) q qSize →
      ∃ r qs qS, divLoop (yl ++ [yy]) s below tail q qSize = some (r, qs ++ q, qS) ∧ qs.length = below.length + 1 ∧
        r.length = below.length + s.length + tail.length ∧
        val (below.reverse ++ s) = val qs * val (yl ++ [yy]) + val r ∧ val r < val (yl ++ [yy]) ∧ QSize 0 (qs ++ q) qS
  | [], s, tail, q, qSize, hs, hlt, ht, hq => by
    obtain ⟨s', qq, h1, h2, h3, h4⟩ := divRound_spec hh s yl yy hs hlt hy
    rw [divLoop, h1]
    refine ⟨s' ++ tail, [qq], _, rfl, rfl, by simp [h2], ?_, ?_, qsize_step 0 q qSize qq hq⟩
    · rw [val_append s', ht]; simp only [List.reverse_nil, List.nil_append, val, Nat.mul_zero, Nat.add_zero]; exact h3
    · rw [val_append, ht]; simpa using h4
  | b :: below, s, tail, q, qSize, hs, hlt, ht, hq => by
    obtain ⟨s', qq, h1, h2, h3, h4⟩ := divRound_spec hh s yl yy hs hlt hy
    rw [divLoop, h1]
    simp only [Option.bind_eq_bind, Option.bind_some]
    have hYlt := val_lt (yl ++ [yy])
    have hn : (yl ++ [yy]).length = yl.length + 1 := by simp
    rw [hn] at hYlt
    obtain ⟨l, rfl, hl, hv⟩ := low_top (n := yl.length + 1) (by rw [h2, hs]) h4 (Nat.le_of_lt hYlt)
    rw [List.getLast?_concat, List.dropLast_concat]
    simp only [Option.bind_some]
    have hb := b.isLt
    obtain ⟨r, qs, qS, i1, i2, i3, i4, i5, i6⟩ := divLoop_spec hh yl yy hy below (b :: l) (0 :: tail) (qq :: q) _ (by simp [hl])
      (by
        simp only [val, hv]
        have := Nat.mul_le_mul_right (2 ^ (h + h)) (show val (l ++ [0]) + 1 ≤ _ from h4)
        rw [Nat.add_mul, Nat.one_mul] at this
        rw [Nat.mul_comm (2 ^ (h + h))]; omega)
      (by simp [val, ht]) (qsize_step (below.length + 1) q qSize qq hq)
    rw [i1]
    refine ⟨r, qs ++ [qq], qS, by simp, by simp [i2], ?_, ?_, i5, by simpa using i6⟩
    · rw [i3]; simp only [List.length_cons, hs, hl]; omega
    · rw [val_append] at i4 ⊢
      rw [List.reverse_cons, List.length_append, val_append, val_append, h3, i2, Nat.add_mul]
      simp only [val, List.length_reverse, List.length_singleton, Nat.mul_zero, Nat.add_zero, hv] at i4 ⊢
      rw [pow_succ]
      generalize (2 ^ (h + h)) ^ below.length = P at *
      generalize 2 ^ (h + h) = B at *
      have : val qs * val (yl ++ [yy]) + val r = val below.reverse + P * b.toNat + P * B * val (l ++ [0]) := by rw [← i4]; ring
      have e : P * B * qq.toNat * val (yl ++ [yy]) = P * B * (qq.toNat * val (yl ++ [yy])) := by ring
      rw [Nat.mul_add (P * B), e]
      linarith

theorem val_mono_len {a b : List (W h)} (hh : 0 < h) (hl : a.length ≤ b.length) : (2 ^ (h + h)) ^ a.length ≤ (2 ^ (h + h)) ^ b.length :=
  Nat.pow_le_pow_right (by have := four_le hh; omega) hl

theorem divCore_spec (hh : 0 < h) (xl : List (W h)) (xt : W h) (yl : List (W h)) (yy : W h) (hy : 2 ^ (h + h) ≤ 2 * yy.toNat)
    (hx : xt.toNat < yy.toNat) :
    ∃ r q qS, divCore (xl ++ [xt]) xl.length (yl ++ [yy]) = some (r, q, qS) ∧ r.length = xl.length + 1 ∧
      val (xl ++ [xt]) = val q * val (yl ++ [yy]) + val r ∧ val r < val (yl ++ [yy]) ∧ QSize 0 q qS := by
  have hB := four_le hh
  have hn : (yl ++ [yy]).length = yl.length + 1 := by simp
  have hY : val (yl ++ [yy]) = val yl + (2 ^ (h + h)) ^ yl.length * yy.toNat := by
    rw [val_append]; simp [val]
  unfold divCore
  rw [hn]
  by_cases hc : xl.length < yl.length + 1
  · rw [if_pos hc]
    refine ⟨_, _, _, rfl, by simp, by simp [val], ?_, Or.inl ⟨rfl, rfl⟩⟩
    rw [val_append, hY]
    simp only [val, Nat.mul_zero, Nat.add_zero]
    have h1 := val_lt xl
    have h2 := Nat.mul_le_mul_left ((2 ^ (h + h)) ^ xl.length) (show xt.toNat + 1 ≤ yy.toNat from hx)
    have h3 := Nat.mul_le_mul_right yy.toNat (val_mono_len (a := xl) (b := yl) hh (by omega))
    rw [Nat.mul_add] at h2
    omega
  · rw [if_neg hc]
    have hsl : ((xl ++ [xt]).drop (xl.length - (yl.length + 1))) = xl.drop (xl.length - (yl.length + 1)) ++ [xt] := by
      rw [List.drop_append, show xl.length - (yl.length + 1) - xl.length = 0 by omega, List.drop_zero]
    have htk : ((xl ++ [xt]).take (xl.length - (yl.length + 1))) = xl.take (xl.length - (yl.length + 1)) := by
      rw [List.take_append_of_le_length (by omega)]
    rw [hsl, htk]
    have hl : (xl.drop (xl.length - (yl.length + 1))).length = yl.length + 1 := by rw [List.length_drop]; omega
    obtain ⟨r, qs, qS, i1, i2, i3, i4, i5, i6⟩ := divLoop_spec hh yl yy hy (xl.take (xl.length - (yl.length + 1))).reverse
      (xl.drop (xl.length - (yl.length + 1)) ++ [xt]) [] [] 0 (by simp [hl])
      (by
        rw [val_append, hl, hY]
        have h1 := val_lt (xl.drop (xl.length - (yl.length + 1)))
        rw [hl] at h1
        simp only [val, Nat.mul_zero, Nat.add_zero]
        have h2 := Nat.mul_le_mul_left ((2 ^ (h + h)) ^ (yl.length + 1)) (show xt.toNat + 1 ≤ yy.toNat from hx)
        rw [Nat.mul_add] at h2
        have e : (val yl + (2 ^ (h + h)) ^ yl.length * yy.toNat) * 2 ^ (h + h) = val yl * 2 ^ (h + h) + (2 ^ (h + h)) ^ (yl.length + 1) * yy.toNat := by
          rw [pow_succ]; ring
        rw [e]
        omega)
      rfl (Or.inl ⟨rfl, rfl⟩)
    rw [i1]
    refine ⟨_, _, _, rfl, ?_, ?_, i5, i6⟩
    · rw [i3]; simp only [List.length_reverse, List.length_take, List.length_append, hl, List.length_singleton, List.length_nil]; omega
    · rw [List.append_nil, ← i4, List.reverse_reverse, ← List.append_assoc, List.take_append_drop]

/-! ### BinDiv -/

theorem qsize_take {q : List (W h)} {qS : Nat} (hq : QSize 0 q qS) : val (q.take qS) = val q ∧ qS ≤ q.length ∧ (0 < qS → ∃ x, q[qS - 1]? = some x ∧ x ≠ 0) := by
  rcases hq with ⟨h1, h2⟩ | ⟨h1, h2, h3, h4⟩
  · subst h1; exact ⟨by simp [val, h2], Nat.zero_le _, fun hx => by omega⟩
  · refine ⟨?_, by omega, fun _ => by simpa using h4⟩
    have := val_append (q.take qS) (q.drop qS)
    rw [List.take_append_drop, show q.drop qS = q.drop (qS - 0) from rfl, h3] at this
    omega

theorem val_take_small {l : List (W h)} {n : Nat} (hn : n ≤ l.length) (hv : val l < (2 ^ (h + h)) ^ n) : val (l.take n) = val l := by
  have h1 := val_append (l.take n) (l.drop n)
  rw [List.take_append_drop, List.length_take, Nat.min_eq_left hn] at h1
  rcases Nat.eq_zero_or_pos (val (l.drop n)) with h0 | h0
  · rw [h0] at h1; omega
  · have := Nat.mul_le_mul_left ((2 ^ (h + h)) ^ n) h0
    omega

theorem fix_full (l : List (W h)) (n : Nat) (hn : n ≤ l.length) :
    fixSize l n ≤ l.length ∧ val (l.take (fixSize l n)) = val (l.take n) ∧ (0 < fixSize l n → ∃ x, l[fixSize l n - 1]? = some x ∧ x ≠ 0) := by
  obtain ⟨h1, h2, h3⟩ := fixSize_spec l n hn
  refine ⟨by omega, h2, fun hp => ?_⟩
  have hlt : fixSize l n - 1 < l.length := by omega
  refine ⟨_, List.getElem?_eq_getElem hlt, fun hx => ?_⟩
  apply h3 hp
  rw [List.getElem?_eq_getElem hlt, hx]

theorem rshiftLoop_len (nb na : Nat) (mask : W h) : ∀ (as : List (W h)) (lo : W h), as.length ≤ (rshiftLoop nb na mask lo as).length
  | [], lo => by simp
  | a :: as, lo => by rw [rshiftLoop]; simp only [List.length_cons]; have := rshiftLoop_len nb na mask as a; omega

theorem binRshift_len (a : List (W h)) (bits : Nat) {r : List (W h)} (hr : binRshift a bits = some r) : a.length ≤ r.length + 1 + bits / (h + h) := by
  unfold binRshift at hr
  simp only at hr
  have hl : (a.drop (bits / (h + h))).length = a.length - bits / (h + h) := List.length_drop
  cases hd : a.drop (bits / (h + h)) with
  | nil => rw [hd] at hr; cases hr
  | cons lo as =>
    rw [hd] at hr hl
    simp only [Option.some.injEq] at hr
    have := rshiftLoop_len (bits % (h + h)) ((h + h - bits % (h + h)) % (h + h)) (if bits % (h + h) = 0 then (0 : W h) else BitVec.allOnes (h + h)) as lo
    rw [hr] at this
    simp only [List.length_cons] at hl
    omega

theorem binDiv_spec' {j : Nat} (hj : h = 2 ^ j) (x yl : List (W h)) (yy : W h) (hx : x ≠ []) (hyy : yy ≠ 0) :
    ∃ r rS q qS, binDiv x (yl ++ [yy]) = some ((r, rS), (q, qS)) ∧
      val x = val (q.take qS) * val (yl ++ [yy]) + val (r.take rS) ∧ val (r.take rS) < val (yl ++ [yy]) ∧
      qS ≤ q.length ∧ rS ≤ r.length ∧
      (0 < qS → ∃ t, q[qS - 1]? = some t ∧ t ≠ 0) ∧ (0 < rS → ∃ t, r[rS - 1]? = some t ∧ t ≠ 0) ∧
      val r = val (r.take rS) ∧ x.length ≤ r.length + 1 := by
  have hh : 0 < h := by rw [hj]; exact Nat.pow_pos (by decide)
  have hB := four_le hh
  obtain ⟨z1, z2, z3⟩ := zeroBits_spec hj yy hyy
  have hn : (yl ++ [yy]).length = yl.length + 1 := by simp
  unfold binDiv
  have e1 : (yl ++ [yy])[(yl ++ [yy]).length - 1]? = some yy := by
    rw [hn, Nat.add_sub_cancel]; exact getElem?_last rfl
  rw [e1]
  simp only [Option.bind_eq_bind, Option.bind_some]
  have hxl := val_lt x
  by_cases h0 : zeroBits yy = 0
  · rw [if_neg (by simpa using h0)]
    rw [h0] at z2
    have hy2 : 2 ^ (h + h) ≤ 2 * yy.toNat := by
      have : 2 ^ (h + h) = 2 * 2 ^ (h + h - 1 - 0) := by
        rw [← Nat.pow_succ']; congr 1; omega
      omega
    have hyp : (0 : W h).toNat < yy.toNat := by rw [toNat_zero']; omega
    obtain ⟨r, q, qS, i1, i2, i3, i4, i5⟩ := divCore_spec hh x 0 yl yy hy2 hyp
    rw [i1]
    simp only [Option.bind_some]
    obtain ⟨q1, q2, q3⟩ := qsize_take i5
    have hvx : val (x ++ [0]) = val x := by rw [val_append]; simp [val]
    have hr : val r ≤ val x := by rw [← hvx, i3]; exact Nat.le_add_left _ _
    have hrt := val_take_small (l := r) (n := x.length) (by omega) (by omega)
    obtain ⟨f1, f2, f3⟩ := fix_full r x.length (by omega)
    refine ⟨_, _, _, _, rfl, ?_, ?_, q2, f1, q3, f3, by rw [f2, hrt], by omega⟩
    · rw [q1, f2, hrt, ← i3, hvx]
    · rw [f2, hrt]; exact i4
  · rw [if_pos h0]
    generalize hz : zeroBits yy = z at *
    have hzpos : 0 < z := by omega
    -- the shifted divisor
    obtain ⟨s1, c, s2⟩ := lshiftSimple_spec hzpos z1 (yl ++ [yy]) 0 (by rw [toNat_zero']; exact Nat.pow_pos (by decide))
    rw [toNat_zero', Nat.add_zero, hn] at s2
    rw [hn] at s1
    have hY : val (yl ++ [yy]) = val yl + (2 ^ (h + h)) ^ yl.length * yy.toNat := by
      rw [val_append]; simp [val]
    have hvyl := val_lt yl
    have hD : 0 < 2 ^ z := Nat.pow_pos (by decide)
    have hYD : val (yl ++ [yy]) * 2 ^ z < (2 ^ (h + h)) ^ (yl.length + 1) := by
      have h1 : val (yl ++ [yy]) < (2 ^ (h + h)) ^ yl.length * 2 ^ (h + h - z) := by
        have := Nat.mul_le_mul_left ((2 ^ (h + h)) ^ yl.length) (show yy.toNat + 1 ≤ _ from z3)
        rw [Nat.mul_add] at this
        omega
      have h2 := Nat.mul_lt_mul_of_pos_right h1 hD
      have h3 : (2 ^ (h + h)) ^ (yl.length + 1) = (2 ^ (h + h)) ^ yl.length * 2 ^ (h + h - z) * 2 ^ z := by
        rw [pow_succ, Nat.mul_assoc, Nat.mul_comm (2 ^ (h + h - z)), ← pow_split z1]
      rw [h3]; exact h2
    have hc0 : c = 0 := by
      rcases Nat.eq_zero_or_pos c with h0 | h0
      · exact h0
      · have := Nat.mul_le_mul_left ((2 ^ (h + h)) ^ (yl.length + 1)) h0
        omega
    rw [hc0, Nat.mul_zero, Nat.add_zero] at s2
    generalize lshiftSimple z 0 (yl ++ [yy]) = y' at *
    obtain ⟨yl', yy', rfl, hyl'⟩ := list_split_last s1
    have hY' : val (yl' ++ [yy']) = val yl' + (2 ^ (h + h)) ^ yl.length * yy'.toNat := by
      rw [val_append, hyl']; simp [val]
    have hvyl' := val_lt yl'
    rw [hyl'] at hvyl'
    have hy2 : 2 ^ (h + h) ≤ 2 * yy'.toNat := by
      by_contra hcon
      have hhalf : 2 ^ (h + h - 1) * 2 = 2 ^ (h + h) := by
        rw [← Nat.pow_succ]; congr 1; omega
      have hlt : yy'.toNat + 1 ≤ 2 ^ (h + h - 1) := by omega
      have h1 := Nat.mul_le_mul_left ((2 ^ (h + h)) ^ yl.length) hlt
      rw [Nat.mul_add] at h1
      have h2 : (2 ^ (h + h)) ^ yl.length * 2 ^ (h + h - 1) ≤ val (yl ++ [yy]) * 2 ^ z := by
        have e : 2 ^ (h + h - 1) = 2 ^ (h + h - 1 - z) * 2 ^ z := by rw [← Nat.pow_add]; congr 1; omega
        rw [e, ← Nat.mul_assoc]
        apply Nat.mul_le_mul_right
        have := Nat.mul_le_mul_left ((2 ^ (h + h)) ^ yl.length) z2
        omega
      omega
    -- the shifted dividend
    obtain ⟨x', g1, g2, g3⟩ := binLshift_spec hh x z hx
    rw [Nat.div_eq_of_lt z1, Nat.zero_add] at g3
    rw [g1]
    simp only [Option.bind_some]
    have hxpos : 0 < x.length := List.length_pos_iff.2 hx
    have hpl : (x' ++ List.replicate (x.length + 1 - x'.length) (0 : W h)).length = x.length + 1 := by
      simp only [List.length_append, List.length_replicate]; omega
    have hpv : val (x' ++ List.replicate (x.length + 1 - x'.length) (0 : W h)) = val x * 2 ^ z := by
      rw [val_append, val_replicate, Nat.mul_zero, Nat.add_zero, g2]
    generalize x' ++ List.replicate (x.length + 1 - x'.length) (0 : W h) = xp at *
    obtain ⟨xl, xt, rfl, hxl2⟩ := list_split_last hpl
    rw [← hxl2] at hxl
    have hxt : xt.toNat < yy'.toNat := by
      by_contra hcon
      have h1 : 2 ^ (h + h - 1) ≤ xt.toNat := by
        have hhalf : 2 ^ (h + h - 1) * 2 = 2 ^ (h + h) := by
          rw [← Nat.pow_succ]; congr 1; omega
        omega
      have h2 : 2 ^ z ≤ 2 ^ (h + h - 1) := Nat.pow_le_pow_right (by decide) (by omega)
      rw [val_append] at hpv
      simp only [val, Nat.mul_zero, Nat.add_zero] at hpv
      have h3 := Nat.mul_le_mul_left ((2 ^ (h + h)) ^ xl.length) (show 2 ^ z ≤ xt.toNat by omega)
      have h4 := Nat.mul_lt_mul_of_pos_right hxl hD
      omega
    obtain ⟨r, q, qS, i1, i2, i3, i4, i5⟩ := divCore_spec hh xl xt yl' yy' hy2 hxt
    rw [← hxl2, i1]
    simp only [Option.bind_some]
    obtain ⟨q1, q2, q3⟩ := qsize_take i5
    have hrle : val r ≤ val x' := by rw [g2, ← hpv, i3]; exact Nat.le_add_left _ _
    have hx'l := val_lt x'
    have hrt := val_take_small (l := r) (n := x'.length) (by omega) (by omega)
    obtain ⟨x'', k1, k2⟩ := binRshift_spec hh (r.take x'.length) z (by
      rw [Nat.div_eq_of_lt z1, List.length_take]; omega)
    rw [k1]
    simp only [Option.bind_some]
    obtain ⟨f1, f2, f3⟩ := fix_full x'' x''.length (Nat.le_refl _)
    rw [List.take_length] at f2
    -- divide the equation by 2 ^ z
    rw [hpv, s2] at i3
    rw [s2] at i4
    have hdvd : val r = (val x - val q * val (yl ++ [yy])) * 2 ^ z := by
      rw [Nat.sub_mul]
      have : val q * (val (yl ++ [yy]) * 2 ^ z) = val q * val (yl ++ [yy]) * 2 ^ z := by ring
      omega
    have hle : val q * val (yl ++ [yy]) ≤ val x := by
      apply Nat.le_of_mul_le_mul_right _ hD
      have : val q * (val (yl ++ [yy]) * 2 ^ z) = val q * val (yl ++ [yy]) * 2 ^ z := by ring
      omega
    rw [hdvd] at i4
    have hlt := Nat.lt_of_mul_lt_mul_right i4
    rw [hrt, hdvd, Nat.mul_div_cancel _ hD] at k2
    have hlen := binRshift_len _ _ k1
    rw [Nat.div_eq_of_lt z1, List.length_take] at hlen
    refine ⟨_, _, _, _, rfl, ?_, ?_, q2, f1, q3, f3, f2.symm, by omega⟩
    · rw [q1, f2, k2]; omega
    · rw [f2, k2]; exact hlt

theorem binDiv_spec {j : Nat} (hj : h = 2 ^ j) (x yl : List (W h)) (yy : W h) (hx : x ≠ []) (hyy : yy ≠ 0) :
    ∃ r rS q qS, binDiv x (yl ++ [yy]) = some ((r, rS), (q, qS)) ∧
      val x = val (q.take qS) * val (yl ++ [yy]) + val (r.take rS) ∧ val (r.take rS) < val (yl ++ [yy]) ∧
      qS ≤ q.length ∧ rS ≤ r.length ∧
      (0 < qS → ∃ t, q[qS - 1]? = some t ∧ t ≠ 0) ∧ (0 < rS → ∃ t, r[rS - 1]? = some t ∧ t ≠ 0) := by
  obtain ⟨r, rS, q, qS, h1, h2, h3, h4, h5, h6, h7, _⟩ := binDiv_spec' hj x yl yy hx hyy
  exact ⟨r, rS, q, qS, h1, h2, h3, h4, h5, h6, h7⟩

end Verif.Crypto.Bn
