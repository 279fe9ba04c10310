import Verif.Crypto.Bn.ConvProof
namespace Verif.Crypto.Bn

open Spec (numeral)

def decDigit (c : Char) : Nat := c.toNat - '0'.toNat

theorem decDigit_lt {c : Char} (h : isXdigit false c = true) : decDigit c < 10 := by
  unfold isXdigit at h
  split at h
  · rename_i hc
    obtain ⟨h1, h2⟩ := char_sub c _ _ hc.1 hc.2
    unfold decDigit
    rw [show '9'.toNat = 57 from rfl] at h2
    rw [show '0'.toNat = 48 from rfl] at h1 ⊢
    omega
  · simp at h

theorem dec_fold : ∀ (cs : List Char) (acc : W 32), (∀ c ∈ cs, isXdigit false c = true) →
    (acc.toNat + 1) * 10 ^ cs.length ≤ 10 ^ 19 →
    BitVec.toNat (cs.foldl (fun (v : W 32) c => v * 10 + BitVec.ofNat (32 + 32) (c.toNat - '0'.toNat)) acc) =
      (cs.map decDigit).foldl (fun n d => 10 * n + d) acc.toNat
  | [], _, _, _ => rfl
  | c :: cs, acc, hd, h => by
    have hc := decDigit_lt (hd c List.mem_cons_self)
    unfold decDigit at hc
    have hp : 0 < 10 ^ cs.length := Nat.pow_pos (by decide)
    rw [List.length_cons, Nat.pow_succ] at h
    have h1 : (acc.toNat + 1) * 10 ≤ 10 ^ 19 := by
      refine Nat.le_trans ?_ h
      rw [Nat.mul_comm (10 ^ cs.length), ← Nat.mul_assoc]
      exact Nat.le_mul_of_pos_right _ hp
    have e : (acc * 10 + BitVec.ofNat (32 + 32) (c.toNat - '0'.toNat)).toNat = 10 * acc.toNat + decDigit c := by
      unfold decDigit
      rw [BitVec.toNat_add, BitVec.toNat_mul, BitVec.toNat_ofNat, show (10 : W 32).toNat = 10 from rfl,
        Nat.mod_eq_of_lt (show acc.toNat * 10 < 2 ^ (32 + 32) by omega), Nat.mod_eq_of_lt (show c.toNat - '0'.toNat < 2 ^ (32 + 32) by omega),
        Nat.mod_eq_of_lt (by omega)]
      omega
    rw [List.foldl_cons, List.map_cons, List.foldl_cons, dec_fold cs _ (fun x hx => hd x (List.mem_cons_of_mem _ hx)) ?_, e]
    rw [e]
    unfold decDigit
    refine Nat.le_trans ?_ h
    rw [Nat.mul_comm (10 ^ cs.length), ← Nat.mul_assoc]
    exact Nat.mul_le_mul_right _ (by omega)

theorem limbOfDec_val (cs : List Char) (hd : ∀ c ∈ cs, isXdigit false c = true) (h : cs.length ≤ 19) :
    (limbOfDec cs).toNat = numeral 10 (cs.map decDigit) := by
  unfold limbOfDec
  rw [dec_fold cs 0 hd (by
    rw [show (0 : W 32).toNat = 0 from rfl, Nat.zero_add, Nat.one_mul]
    exact Nat.pow_le_pow_right (by decide) h)]
  rfl

theorem decVal_nat : decVal.toNat = 10 ^ 19 := by decide

theorem decLoop_spec : ∀ (fuel take : Nat) (p : List Char) (r : Bn 32), p.length ≤ fuel → 1 ≤ take → take ≤ 19 → p.length % 19 = take % 19 →
    (take ≤ p.length ∨ p = []) → (∀ c ∈ p, isXdigit false c = true) → (p = [] ∨ take = 19 ∨ r = bnZero) → r.WF → 0 ≤ r.toInt →
    (decLoop fuel take p r).toInt = r.toInt * 10 ^ p.length + numeral 10 (p.map decDigit) ∧ (decLoop fuel take p r).WF
  | 0, take, p, r, h1, _, _, _, _, _, _, hr, _ => by
    have : p = [] := List.length_eq_zero_iff.mp (by omega)
    subst this
    refine ⟨?_, hr⟩
    unfold decLoop
    simp [numeral]
  | fuel + 1, take, p, r, h1, h2, h3, h4, h5, hd, h6, hr, hr0 => by
    unfold decLoop
    by_cases h0 : p.length = 0
    · rw [if_pos h0]
      have : p = [] := List.length_eq_zero_iff.mp h0
      subst this
      refine ⟨?_, hr⟩
      simp [numeral]
    · rw [if_neg h0]
      have hne : p ≠ [] := fun e => h0 (by rw [e]; rfl)
      have hle : take ≤ p.length := h5.resolve_right hne
      obtain ⟨m1, m2⟩ := bnMulLimb_spec (by decide) r decVal hr
      obtain ⟨a1, a2⟩ := bnAddLimb_spec (by decide) (bnMulLimb r decVal) (limbOfDec (p.take take)) m2
      have tl : (p.take take).length = take := by rw [List.length_take]; omega
      have td : ∀ c ∈ p.take take, isXdigit false c = true := fun c hc => hd c (List.mem_of_mem_take hc)
      rw [limbOfDec_val _ td (by omega), m1, decVal_nat] at a1
      have dl : (p.drop take).length = p.length - take := List.length_drop
      obtain ⟨i1, i2⟩ := decLoop_spec fuel 19 (p.drop take) _ (by omega) (by omega) (by omega) (by omega)
        (by
          by_cases e : p.drop take = []
          · exact .inr e
          · refine .inl ?_
            have : 0 < (p.drop take).length := List.length_pos_iff.mpr e
            omega) (fun c hc => hd c (List.mem_of_mem_drop hc)) (.inr (.inl rfl)) a2 (by rw [a1]; positivity)
      refine ⟨?_, i2⟩
      rw [i1, a1, dl]
      have hsplit : numeral 10 (p.map decDigit) = numeral 10 ((p.take take).map decDigit) * 10 ^ (p.length - take) + numeral 10 ((p.drop take).map decDigit) := by
        conv_lhs => rw [← List.take_append_drop take p]
        rw [List.map_append, numeral_append, List.length_map, dl]
      rw [hsplit]
      push_cast
      have hpow : (10 : Int) ^ p.length = 10 ^ take * 10 ^ (p.length - take) := by rw [← pow_add]; congr 1; omega
      rw [hpow]
      rcases h6 with e | e | e
      · exact absurd e hne
      · rw [e]; ring
      · rw [e, toInt_zero]; ring

/-! ### Output -/

theorem calDec_spec : ∀ (n : Nat) (a : Bn 32), a.WF → a.toInt.natAbs < (10 ^ 19) ^ n → ∃ u, calDec n a = some u ∧ (∀ x ∈ u, x.toNat < 10 ^ 19) ∧
    numeral (10 ^ 19) (u.reverse.map BitVec.toNat) = a.toInt.natAbs ∧ (∀ x, u.getLast? = some x → x.toNat ≠ 0) ∧ (a.toInt ≠ 0 → u ≠ [])
  | 0, a, ha, hv => by
    have h0 : a.toInt = 0 := by rw [Nat.pow_zero] at hv; omega
    unfold calDec
    rw [if_pos ((zero_len a ha).mpr h0)]
    exact ⟨[], rfl, fun x hx => (by cases hx), by rw [h0]; rfl, fun x hx => (by cases hx), fun h => absurd h0 h⟩
  | n + 1, a, ha, hv => by
    unfold calDec
    by_cases h0 : a.toInt = 0
    · rw [if_pos ((zero_len a ha).mpr h0)]
      exact ⟨[], rfl, fun x hx => (by cases hx), by rw [h0]; rfl, fun x hx => (by cases hx), fun h => absurd h0 h⟩
    · rw [if_neg (fun e => h0 ((zero_len a ha).mp e))]
      obtain ⟨q, rem, e, h1, h2, h3⟩ := bnDivLimb_spec (j := 5) rfl a decVal ha (by decide)
      rw [e]
      dsimp only
      rw [decVal_nat] at h1 h2
      have hq : q.toInt.natAbs = a.toInt.natAbs / 10 ^ 19 := by
        rw [h1, Int.natAbs_tdiv]
        rfl
      obtain ⟨u, e', i1, i2, i3, i4⟩ := calDec_spec n q h3 (by
        rw [hq]
        exact Nat.div_lt_of_lt_mul (by rw [Nat.pow_succ] at hv; rwa [Nat.mul_comm]))
      rw [e']
      refine ⟨_, rfl, ?_, ?_, ?_, fun _ h => by cases h⟩
      · intro x hx
        rcases List.mem_cons.mp hx with e | hx
        · rw [e, h2]; exact Nat.mod_lt _ (by decide)
        · exact i1 x hx
      · rw [List.reverse_cons, List.map_append, numeral_append, i2, hq]
        simp only [List.map_cons, List.map_nil, List.length_singleton, Nat.pow_one]
        rw [show numeral (10 ^ 19) [rem.toNat] = rem.toNat by simp [numeral], h2, Nat.mul_comm]
        exact Nat.div_add_mod _ _
      · intro x hx
        by_cases hu : u = []
        · subst hu
          simp only [List.getLast?_singleton, Option.some.injEq] at hx
          subst hx
          rw [h2]
          have hq0 : q.toInt = 0 := by
            by_contra hc
            exact i4 hc rfl
          have : a.toInt.natAbs / 10 ^ 19 = 0 := by rw [← hq, hq0]; rfl
          have := Nat.div_add_mod a.toInt.natAbs (10 ^ 19)
          omega
        · rw [List.getLast?_cons_of_ne_nil hu] at hx
          exact i3 x hx
where
  zero_len (a : Bn 32) (ha : a.WF) : a.data.length = 0 ↔ a.toInt = 0 := by
    constructor
    · intro h
      unfold Bn.toInt
      rw [List.length_eq_zero_iff.mp h]
      split <;> rfl
    · intro h
      by_contra hc
      have := val_pos_of_norm (by decide) ha.1 (fun e => hc (by rw [e]; rfl))
      unfold Bn.toInt at h
      split at h <;> omega

theorem decChar : ∀ n < 10, decDigit (Char.ofNat (n + 48)) = n ∧ isXdigit false (Char.ofNat (n + 48)) = true := by decide +kernel

/-- `l` are digits, the lowest first, of `v`, with no zero on top (but for the number zero). -/
def DecRev (l : List Char) (v : Nat) : Prop :=
  (∀ c ∈ l, isXdigit false c = true) ∧ numeral 10 (l.reverse.map decDigit) = v ∧ 1 ≤ l.length ∧ (2 ≤ l.length → 10 ^ (l.length - 1) ≤ v)

theorem numDigits_spec : ∀ (fuel rest k : Nat) (num : W 32), num.toNat < 10 ^ k → 1 ≤ k → k ≤ rest → k ≤ fuel →
    ∃ l, numDigits fuel rest num = some l ∧ DecRev l num.toNat ∧ l.length ≤ k
  | 0, _, k, _, _, _, _, _ => by omega
  | fuel + 1, 0, k, _, _, _, _, _ => by omega
  | fuel + 1, rest + 1, k, num, hn, h1, h2, h3 => by
    unfold numDigits
    dsimp only
    have em : (num % 10).toNat = num.toNat % 10 := by rw [BitVec.toNat_umod]; rfl
    have ed : (num / 10).toNat = num.toNat / 10 := by rw [BitVec.toNat_udiv]; rfl
    obtain ⟨c1, c2⟩ := decChar (num.toNat % 10) (Nat.mod_lt _ (by decide))
    rw [em]
    by_cases h0 : num / 10 ≠ 0
    · rw [if_pos h0]
      have hd : 0 < num.toNat / 10 := by rw [← ed]; exact ne_zero_pos h0
      have hk : 2 ≤ k := by
        by_contra hc
        have : k = 1 := by omega
        subst this
        omega
      obtain ⟨l, e, ⟨i1, i2, i3, i4⟩, i5⟩ := numDigits_spec fuel rest (k - 1) (num / 10) (by
        rw [ed]
        refine Nat.div_lt_of_lt_mul ?_
        rw [← Nat.pow_succ']
        rwa [show (k - 1).succ = k by omega]) (by omega) (by omega) (by omega)
      rw [e]
      rw [ed] at i2 i4
      refine ⟨_, rfl, ⟨?_, ?_, by simp, ?_⟩, by rw [List.length_cons]; omega⟩
      · intro c hc
        rcases List.mem_cons.mp hc with e | hc
        · rw [e]; exact c2
        · exact i1 c hc
      · rw [List.reverse_cons, List.map_append, numeral_append, i2]
        simp only [List.map_cons, List.map_nil, List.length_singleton, Nat.pow_one]
        rw [c1, show numeral 10 [num.toNat % 10] = num.toNat % 10 by simp [numeral], Nat.mul_comm]
        exact Nat.div_add_mod _ _
      · intro _
        rw [List.length_cons, Nat.add_sub_cancel]
        by_cases hl : 2 ≤ l.length
        · have := i4 hl
          have h5 := Nat.mul_le_mul_right 10 this
          rw [← Nat.pow_succ, show (l.length - 1).succ = l.length by omega] at h5
          have := Nat.div_mul_le_self num.toNat 10
          omega
        · rw [show l.length = 1 by omega]
          omega
    · rw [if_neg h0]
      have hz : num.toNat / 10 = 0 := by
        rw [← ed]
        have := not_not.mp h0
        rw [this]; rfl
      refine ⟨_, rfl, ⟨?_, ?_, by simp, fun h => by simp at h⟩, by simpa using h1⟩
      · intro c hc
        rw [List.mem_singleton.mp hc]; exact c2
      · simp only [List.reverse_singleton, List.map_cons, List.map_nil]
        rw [c1, show numeral 10 [num.toNat % 10] = num.toNat % 10 by simp [numeral]]
        have := Nat.div_add_mod num.toNat 10
        omega

theorem numToStr_pad (rest : Nat) (v : W 32) (hv : v.toNat < 10 ^ 19) (h : 19 ≤ rest) :
    ∃ s, numToStr rest v true = some s ∧ s.length = 19 ∧ (∀ c ∈ s, isXdigit false c = true) ∧ numeral 10 (s.map decDigit) = v.toNat := by
  obtain ⟨l, e, ⟨i1, i2, i3, -⟩, i5⟩ := numDigits_spec 64 rest 19 v hv (by omega) h (by omega)
  unfold numToStr
  rw [e]
  dsimp only
  rw [if_pos rfl, if_neg (by omega)]
  refine ⟨_, rfl, ?_, ?_, ?_⟩
  · rw [List.length_reverse, List.length_append, List.length_replicate]; omega
  · intro c hc
    rcases List.mem_append.mp (List.mem_reverse.mp hc) with hc | hc
    · exact i1 c hc
    · rw [List.eq_of_mem_replicate hc]; rfl
  · rw [List.reverse_append, List.map_append, numeral_append, i2, List.reverse_replicate, List.map_replicate]
    rw [show decDigit '0' = 0 from rfl, numeral_replicate, Nat.zero_mul, Nat.zero_add]

theorem fmtLoop_spec : ∀ (vs : List (W 32)) (rest : Nat), (∀ x ∈ vs, x.toNat < 10 ^ 19) → 19 * vs.length ≤ rest →
    ∃ s, fmtLoop rest vs = some s ∧ s.length = 19 * vs.length ∧ (∀ c ∈ s, isXdigit false c = true) ∧
      numeral 10 (s.map decDigit) = numeral (10 ^ 19) (vs.map BitVec.toNat)
  | [], _, _, _ => ⟨[], rfl, rfl, fun c hc => (by cases hc), rfl⟩
  | v :: vs, rest, hx, h => by
    rw [List.length_cons] at h
    obtain ⟨s, e, h1, h2, h3⟩ := numToStr_pad rest v (hx v List.mem_cons_self) (by omega)
    obtain ⟨t, e', i1, i2, i3⟩ := fmtLoop_spec vs (rest - s.length) (fun x hm => hx x (List.mem_cons_of_mem _ hm)) (by omega)
    unfold fmtLoop
    rw [e]
    dsimp only
    rw [e']
    refine ⟨_, rfl, by rw [List.length_append, List.length_cons]; omega, ?_, ?_⟩
    · intro c hc
      rcases List.mem_append.mp hc with hc | hc
      · exact h2 c hc
      · exact i2 c hc
    · rw [List.map_append, numeral_append, h3, i3, List.map_cons, numeral_cons, List.length_map, List.length_map, i1, Nat.pow_mul]

theorem fmtDec_spec (units : List (W 32)) (outLen L : Nat) (hne : units ≠ []) (hx : ∀ x ∈ units, x.toNat < 10 ^ 19)
    (hlast : ∀ x, units.getLast? = some x → x.toNat ≠ 0) (hv : numeral (10 ^ 19) (units.reverse.map BitVec.toNat) < 10 ^ L) (hL : L + 1 ≤ outLen) :
    ∃ s, fmtDec outLen units = some s ∧ (∀ c ∈ s, isXdigit false c = true) ∧
      numeral 10 (s.map decDigit) = numeral (10 ^ 19) (units.reverse.map BitVec.toNat) ∧ s ≠ [] ∧ s.head? ≠ some '0' := by
  unfold fmtDec
  cases hr : units.reverse with
  | nil => exact absurd (List.reverse_eq_nil_iff.mp hr) hne
  | cons v vs =>
    rw [hr] at hv
    have hmem : ∀ x ∈ v :: vs, x.toNat < 10 ^ 19 := fun x hm => hx x (by rw [← List.mem_reverse, hr]; exact hm)
    have hv0 : v.toNat ≠ 0 := hlast v (by rw [List.getLast?_eq_head?_reverse, hr]; rfl)
    rw [List.map_cons, numeral_cons, List.length_map] at hv
    dsimp only
    -- the top unit has t digits, and t + 19 * vs.length ≤ L
    have hpos : v.toNat < 10 ^ (L - 19 * vs.length) ∧ 19 * vs.length < L := by
      have h1 : v.toNat * 10 ^ (19 * vs.length) < 10 ^ L := by rw [Nat.pow_mul]; omega
      have h2 : 19 * vs.length < L := by
        by_contra hc
        have h3 : (10 : Nat) ^ L ≤ 10 ^ (19 * vs.length) := Nat.pow_le_pow_right (by decide) (by omega)
        have h4 := Nat.mul_le_mul_right (10 ^ (19 * vs.length)) (show 1 ≤ v.toNat by omega)
        omega
      refine ⟨?_, h2⟩
      rw [show L = (L - 19 * vs.length) + 19 * vs.length by omega, Nat.pow_add] at h1
      exact Nat.lt_of_mul_lt_mul_right h1
    have hmin : v.toNat < 10 ^ min 19 (L - 19 * vs.length) := by
      rcases Nat.le_total 19 (L - 19 * vs.length) with h | h
      · rw [Nat.min_eq_left h]; exact hmem v List.mem_cons_self
      · rw [Nat.min_eq_right h]; exact hpos.1
    obtain ⟨l, e, ⟨i1, i2, i3, i4⟩, i5⟩ := numDigits_spec 64 (outLen - 1) (min 19 (L - 19 * vs.length)) v hmin (by omega) (by omega) (by omega)
    obtain ⟨t, e', j1, j2, j3⟩ := fmtLoop_spec vs (outLen - 1 - l.reverse.length) (fun x hm => hmem x (List.mem_cons_of_mem _ hm)) (by
      rw [List.length_reverse]; omega)
    have es : numToStr (outLen - 1) v false = some l.reverse := by unfold numToStr; rw [e]; rfl
    rw [es]
    dsimp only
    rw [e']
    have hln : l.reverse ≠ [] := fun h => by rw [← List.length_eq_zero_iff, List.length_reverse] at h; omega
    refine ⟨_, rfl, ?_, ?_, fun h => hln (List.append_eq_nil_iff.mp h).1, ?_⟩
    · intro c hc
      rcases List.mem_append.mp hc with hc | hc
      · exact i1 c (List.mem_reverse.mp hc)
      · exact j2 c hc
    · rw [List.map_append, numeral_append, i2, j3, List.length_map, j1, List.map_cons, numeral_cons, List.length_map, Nat.pow_mul]
    · intro h
      cases hrl : l.reverse with
      | nil => exact hln hrl
      | cons c cs =>
        rw [hrl] at h i2
        simp only [List.cons_append, List.head?_cons, Option.some.injEq] at h
        subst h
        rw [List.map_cons, numeral_cons, show decDigit '0' = 0 from rfl, Nat.zero_mul, Nat.zero_add] at i2
        have hcl : cs.length + 1 = l.length := by
          have := congrArg List.length hrl
          rw [List.length_reverse, List.length_cons] at this
          exact this.symm
        have hlt := numeral_lt 10 (cs.map decDigit) (by
          intro d hd
          obtain ⟨c, hc, hcd⟩ := List.mem_map.mp hd
          rw [← hcd]
          exact decDigit_lt (i1 c (List.mem_reverse.mp (by rw [hrl]; exact List.mem_cons_of_mem _ hc))))
        rw [i2, List.length_map] at hlt
        by_cases h2 : 2 ≤ l.length
        · have := i4 h2
          rw [show l.length - 1 = cs.length by omega] at this
          omega
        · rw [show cs.length = 0 by omega] at hlt
          omega

/-- The estimate of the number of digits is at most one too small. -/
theorem estimate_base : ∀ b < 1000, 2 ^ b ≤ 10 ^ (decEstimate b + 1) := by decide +kernel

theorem estimate_ok (b : Nat) : 2 ^ b ≤ 10 ^ (decEstimate b + 1) := by
  have e : ∀ n r, r < 1000 → 2 ^ (1000 * n + r) ≤ 10 ^ (decEstimate (1000 * n + r) + 1) := by
    intro n
    induction n with
    | zero => intro r hr; rw [Nat.mul_zero, Nat.zero_add]; exact estimate_base r hr
    | succ n ih =>
      intro r hr
      have h1 := ih r hr
      have h2 : (2 : Nat) ^ 1000 ≤ 10 ^ 303 := by decide +kernel
      have h3 : decEstimate (1000 * (n + 1) + r) = decEstimate (1000 * n + r) + 303 := by
        unfold decEstimate
        rw [show (1000 * (n + 1) + r) * 3 = (1000 * n + r) * 3 + 3000 by ring]
        generalize (1000 * n + r) * 3 = z
        omega
      rw [h3, show 1000 * (n + 1) + r = 1000 + (1000 * n + r) by ring, Nat.pow_add,
        show decEstimate (1000 * n + r) + 303 + 1 = 303 + (decEstimate (1000 * n + r) + 1) by ring, Nat.pow_add 10]
      exact Nat.mul_le_mul h2 h1
  have := e (b / 1000) (b % 1000) (Nat.mod_lt _ (by decide))
  rwa [Nat.div_add_mod] at this

theorem bn2Dec_spec (a : Bn 32) (ha : a.WF) : ∃ s, bn2Dec a = some (if a.neg = true then '-' :: s else s) ∧ s ≠ [] ∧
    (∀ c ∈ s, isXdigit false c = true) ∧ numeral 10 (s.map decDigit) = val a.data ∧ (s.head? = some '0' → s = ['0']) := by
  have hva : a.toInt.natAbs = val a.data := by unfold Bn.toInt; split <;> simp
  unfold bn2Dec
  dsimp only
  by_cases h0 : a.data.length = 0
  · rw [if_pos h0]
    have hd := List.length_eq_zero_iff.mp h0
    have hn : a.neg = false := by
      cases h : a.neg
      · rfl
      · exact absurd hd (ha.2 h)
    refine ⟨['0'], by rw [hn]; rfl, by simp, by decide, by rw [hd]; rfl, fun _ => rfl⟩
  · rw [if_neg h0]
    have hne : a.data ≠ [] := fun e => h0 (by rw [e]; rfl)
    obtain ⟨-, -, b3, -, -⟩ := binBits_spec (j := 5) rfl a.data ha.1 hne
    have hb := Nat.lt_of_lt_of_le b3 (estimate_ok (binBits a.data))
    generalize hE : decEstimate (binBits a.data) = E at *
    have hpos := val_pos_of_norm (by decide) ha.1 hne
    obtain ⟨u, e, i1, i2, i3, i4⟩ := calDec_spec (E / 19 + 1) a ha (by
      rw [hva, ← Nat.pow_mul]
      exact Nat.lt_of_lt_of_le hb (Nat.pow_le_pow_right (by decide) (by omega)))
    rw [e]
    dsimp only
    rw [hva] at i2
    obtain ⟨s, e', j1, j2, j3, j4⟩ := fmtDec_spec u (if a.neg = true then E + 3 - 1 else E + 3) (E + 1) (i4 (by omega)) i1 i3 (by rw [i2]; exact hb)
      (by split <;> omega)
    rw [e']
    exact ⟨s, rfl, j3, j1, by rw [j2, i2], fun h => absurd h j4⟩

end Verif.Crypto.Bn
