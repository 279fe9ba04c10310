import Verif.Crypto.Bn.LimbProof
/-! Proofs about shifts, squaring and the count of leading zero bits. -/
namespace Verif.Crypto.Bn

variable {h : Nat}

/-! ### Shifts -/

theorem pow_split {nb : Nat} (hb : nb < h + h) : 2 ^ (h + h) = 2 ^ nb * 2 ^ (h + h - nb) := by
  rw [← Nat.pow_add]; congr 1; omega

/-- The mask and the complementary shift as the code computes them. -/
def maskOf (nb : Nat) : W h := if nb = 0 then 0 else BitVec.allOnes (h + h)

theorem or_disjoint {x y k : Nat} (hy : y < 2 ^ k) : x * 2 ^ k ||| y = x * 2 ^ k + y := by
  rw [← Nat.shiftLeft_eq, ← Nat.shiftLeft_add_eq_or_of_lt hy]

theorem rlimb {nb : Nat} (hb : nb < h + h) (lo hi : W h) :
    (lo >>> nb ||| ((hi <<< ((h + h - nb) % (h + h))) &&& maskOf nb)).toNat = lo.toNat / 2 ^ nb + (hi.toNat % 2 ^ nb) * 2 ^ (h + h - nb) := by
  unfold maskOf
  by_cases h0 : nb = 0
  · subst h0; simp [Nat.mod_one]
  · rw [if_neg h0, BitVec.and_allOnes, Nat.mod_eq_of_lt (show h + h - nb < h + h by omega), BitVec.toNat_or, BitVec.toNat_ushiftRight,
      Nat.shiftRight_eq_div_pow, BitVec.toNat_shiftLeft, Nat.shiftLeft_eq]
    have e : hi.toNat * 2 ^ (h + h - nb) % 2 ^ (h + h) = (hi.toNat % 2 ^ nb) * 2 ^ (h + h - nb) := by
      conv_lhs => rw [pow_split hb]
      rw [Nat.mul_mod_mul_right]
    rw [e, Nat.or_comm, or_disjoint, Nat.add_comm]
    apply Nat.div_lt_of_lt_mul
    rw [← pow_split hb]; exact lo.isLt

theorem llimb {nb : Nat} (hb : nb < h + h) (a below : W h) :
    ((a <<< nb) ||| ((below >>> ((h + h - nb) % (h + h))) &&& maskOf nb)).toNat =
      (a.toNat % 2 ^ (h + h - nb)) * 2 ^ nb + below.toNat / 2 ^ (h + h - nb) := by
  unfold maskOf
  by_cases h0 : nb = 0
  · subst h0
    have h1 := a.isLt
    have h2 := below.isLt
    simp [Nat.mod_eq_of_lt h1, Nat.div_eq_of_lt h2]
  · rw [if_neg h0, BitVec.and_allOnes, Nat.mod_eq_of_lt (show h + h - nb < h + h by omega), BitVec.toNat_or, BitVec.toNat_ushiftRight,
      Nat.shiftRight_eq_div_pow, BitVec.toNat_shiftLeft, Nat.shiftLeft_eq]
    have e : a.toNat * 2 ^ nb % 2 ^ (h + h) = (a.toNat % 2 ^ (h + h - nb)) * 2 ^ nb := by
      conv_lhs => rw [pow_split hb, Nat.mul_comm (2 ^ nb)]
      rw [Nat.mul_mod_mul_right]
    rw [e, or_disjoint]
    apply Nat.div_lt_of_lt_mul
    rw [Nat.mul_comm, ← pow_split hb]; exact below.isLt

theorem lcarry {nb : Nat} (hb : nb < h + h) (below : W h) :
    ((below >>> ((h + h - nb) % (h + h))) &&& maskOf nb).toNat = below.toNat / 2 ^ (h + h - nb) := by
  have := llimb hb 0 below
  simpa using this

theorem toNat_shr (x : W h) (n : Nat) : (x >>> n).toNat = x.toNat / 2 ^ n := by
  rw [BitVec.toNat_ushiftRight, Nat.shiftRight_eq_div_pow]

theorem val_single (x : W h) : val (if x ≠ 0 then [x] else []) = x.toNat := by
  by_cases hx : x = 0
  · rw [if_neg (by simpa using hx), hx]; simp [val]
  · rw [if_pos hx]; simp [val]

theorem rshift_arith (D E lo hi v : Nat) (hD : 0 < D) :
    lo / D + (hi % D) * E + D * E * ((hi + D * E * v) / D) = (lo + D * E * (hi + D * E * v)) / D := by
  have e1 : (lo + D * E * (hi + D * E * v)) / D = lo / D + E * (hi + D * E * v) := by
    rw [Nat.mul_assoc D E, Nat.add_mul_div_left _ _ hD]
  have e2 : (hi + D * E * v) % D = hi % D := by rw [Nat.mul_assoc, Nat.add_mul_mod_self_left]
  have e3 := Nat.mod_add_div (hi + D * E * v) D
  rw [e1, ← e2]
  conv_rhs => rw [← e3]
  ring

theorem rshiftLoop_spec {nb : Nat} (hb : nb < h + h) : ∀ (as : List (W h)) (lo : W h),
    val (rshiftLoop nb ((h + h - nb) % (h + h)) (maskOf nb) lo as) = (lo.toNat + 2 ^ (h + h) * val as) / 2 ^ nb
  | [], lo => by
    rw [rshiftLoop, val_single, toNat_shr]; simp [val]
  | hi :: as, lo => by
    rw [rshiftLoop, val, rlimb hb, rshiftLoop_spec hb as hi, val]
    conv_lhs => rw [pow_split hb]
    conv_rhs => rw [pow_split hb]
    exact rshift_arith _ _ _ _ _ (Nat.pow_pos (by decide))

theorem binRshift_spec (hh : 0 < h) (a : List (W h)) (bits : Nat) (ha : bits / (h + h) < a.length) :
    ∃ r, binRshift a bits = some r ∧ val r = val a / 2 ^ bits := by
  unfold binRshift
  simp only
  have hb : bits % (h + h) < h + h := Nat.mod_lt _ (by omega)
  rw [List.drop_eq_getElem_cons ha]
  refine ⟨_, rfl, ?_⟩
  rw [show (if bits % (h + h) = 0 then (0 : W h) else BitVec.allOnes (h + h)) = maskOf (bits % (h + h)) from rfl, rshiftLoop_spec hb,
    show (a[bits / (h + h)]).toNat + 2 ^ (h + h) * val (a.drop (bits / (h + h) + 1)) = val (a.drop (bits / (h + h))) by
      rw [List.drop_eq_getElem_cons ha, val]]
  have hsplit := val_append (a.take (bits / (h + h))) (a.drop (bits / (h + h)))
  rw [List.take_append_drop] at hsplit
  have hlt := val_lt (a.take (bits / (h + h)))
  rw [List.length_take, Nat.min_eq_left (Nat.le_of_lt ha)] at hsplit hlt
  have hbits : 2 ^ bits = (2 ^ (h + h)) ^ (bits / (h + h)) * 2 ^ (bits % (h + h)) := by
    rw [← Nat.pow_mul, ← Nat.pow_add]; congr 1; exact (Nat.div_add_mod _ _).symm
  rw [hbits, ← Nat.div_div_eq_div_mul, hsplit, Nat.add_mul_div_left _ _ (Nat.pow_pos (Nat.pow_pos (by decide))), Nat.div_eq_of_lt hlt, Nat.zero_add]

theorem lshiftLoop_spec {nb : Nat} (hb : nb < h + h) : ∀ (as : List (W h)) (below : W h),
    val (lshiftLoop nb ((h + h - nb) % (h + h)) (maskOf nb) below as) = val as * 2 ^ nb + below.toNat / 2 ^ (h + h - nb)
  | [], below => by
    rw [lshiftLoop]
    simp only [val, Nat.zero_mul, Nat.zero_add]
    rw [val_single, lcarry hb]
  | a :: as, below => by
    rw [lshiftLoop, val, llimb hb, lshiftLoop_spec hb as a, val]
    have e := Nat.mod_add_div a.toNat (2 ^ (h + h - nb))
    have ep := pow_split hb
    generalize a.toNat % 2 ^ (h + h - nb) = m at *
    generalize a.toNat / 2 ^ (h + h - nb) = d at *
    rw [← e, ep]
    ring

theorem lshiftLoop_len (nb na : Nat) (mask : W h) : ∀ (as : List (W h)) (below : W h),
    (lshiftLoop nb na mask below as).length = as.length ∨ (lshiftLoop nb na mask below as).length = as.length + 1
  | [], below => by
    rw [lshiftLoop]
    split <;> simp
  | a :: as, below => by
    rw [lshiftLoop]; simp only [List.length_cons]
    rcases lshiftLoop_len nb na mask as a with h1 | h1 <;> omega

theorem binLshift_spec (hh : 0 < h) (a : List (W h)) (bits : Nat) (ha : a ≠ []) :
    ∃ r, binLshift a bits = some r ∧ val r = val a * 2 ^ bits ∧
      (r.length = bits / (h + h) + a.length ∨ r.length = bits / (h + h) + a.length + 1) := by
  cases a with
  | nil => exact absurd rfl ha
  | cons a0 as =>
    have hb : bits % (h + h) < h + h := Nat.mod_lt _ (by omega)
    unfold binLshift
    simp only
    refine ⟨_, rfl, ?_, ?_⟩
    · rw [show (if bits % (h + h) = 0 then (0 : W h) else BitVec.allOnes (h + h)) = maskOf (bits % (h + h)) from rfl, val_append, val_replicate,
        List.length_replicate, Nat.zero_add, val, lshiftLoop_spec hb]
      have hbits : 2 ^ bits = (2 ^ (h + h)) ^ (bits / (h + h)) * 2 ^ (bits % (h + h)) := by
        rw [← Nat.pow_mul, ← Nat.pow_add]; congr 1; exact (Nat.div_add_mod _ _).symm
      have hl := llimb hb a0 (0 : W h)
      have hz : (a0 <<< (bits % (h + h)) ||| (((0 : W h) >>> ((h + h - bits % (h + h)) % (h + h))) &&& maskOf (bits % (h + h)))) = a0 <<< (bits % (h + h)) := by
        simp
      rw [hz] at hl
      rw [hl, hbits, val]
      generalize (2 ^ (h + h)) ^ (bits / (h + h)) = P
      have e := Nat.mod_add_div a0.toNat (2 ^ (h + h - bits % (h + h)))
      have ep := pow_split hb
      generalize a0.toNat % 2 ^ (h + h - bits % (h + h)) = m at *
      generalize a0.toNat / 2 ^ (h + h - bits % (h + h)) = d at *
      rw [← e, ep]
      rw [toNat_zero', Nat.zero_div]
      ring
    · simp only [List.length_append, List.length_replicate, List.length_cons]
      rcases lshiftLoop_len (bits % (h + h)) ((h + h - bits % (h + h)) % (h + h))
        (if bits % (h + h) = 0 then (0 : W h) else BitVec.allOnes (h + h)) as a0 with h1 | h1 <;> omega

/-! ### Squaring -/

/-- Sum of the products of two different limbs. -/
def tri : List (W h) → Nat
  | [] => 0
  | t :: as => t.toNat * val as + 2 ^ (h + h) * 2 ^ (h + h) * tri as

def diag : List (W h) → Nat
  | [] => 0
  | t :: as => t.toNat * t.toNat + 2 ^ (h + h) * 2 ^ (h + h) * diag as

theorem square_split (a : List (W h)) : val a * val a = diag a + 2 * 2 ^ (h + h) * tri a := by
  induction a with
  | nil => simp [val, diag, tri]
  | cons t as ih =>
    simp only [val, diag, tri]
    generalize 2 ^ (h + h) = B at *
    have : (t.toNat + B * val as) * (t.toNat + B * val as) = t.toNat * t.toNat + 2 * B * (t.toNat * val as) + B * B * (val as * val as) := by ring
    rw [this, ih]; ring

theorem sqrTri_spec (hh : 0 < h) : ∀ (a low : List (W h)) (z : Nat), a ≠ [] → low.length + 1 = a.length → a.length ≤ z →
    ∃ front, sqrTri (low ++ List.replicate z 0) a = front ++ List.replicate (z + 1 - a.length) 0 ∧ front.length + 2 = 2 * a.length ∧
      val front = val low + tri a
  | [], _, _, h0, _, _ => absurd rfl h0
  | [t], low, z, _, hl, hz => by
    simp at hl; subst hl
    exact ⟨[], by simp [sqrTri], by simp, by simp [val, tri]⟩
  | t :: a :: as, low, z, _, hl, hz => by
    simp only [List.length_cons] at hl hz
    have hl' : low.length = (a :: as).length := by simp only [List.length_cons]; omega
    obtain ⟨i1, i2⟩ := mulRow_spec hh low (a :: as) t 0 hl'
    have htake : (low ++ List.replicate z 0).take (as.length + 1) = low := by
      rw [show as.length + 1 = low.length by omega, List.take_left]
    have hdrop : (low ++ List.replicate z (0 : W h)).drop (as.length + 1) = List.replicate z 0 := by
      rw [show as.length + 1 = low.length by omega, List.drop_left]
    rw [sqrTri, htake, hdrop]
    generalize mulRow low (a :: as) t 0 = q at *
    obtain ⟨row, carry⟩ := q
    simp only at i1 i2 ⊢
    rw [set0_zero _ _ (by omega)]
    obtain ⟨s0, s1, low', hrow⟩ : ∃ s0 s1 low', row ++ [carry] = s0 :: s1 :: low' := by
      cases row with
      | nil => simp at i2
      | cons x l =>
        cases l with
        | nil => exact ⟨_, _, _, rfl⟩
        | cons x' l => exact ⟨_, _, _, rfl⟩
    have happ : row ++ carry :: List.replicate (z - 1) 0 = s0 :: s1 :: (low' ++ List.replicate (z - 1) 0) := by
      rw [show row ++ carry :: List.replicate (z - 1) (0 : W h) = (row ++ [carry]) ++ List.replicate (z - 1) 0 by simp, hrow]; rfl
    have hlow' : low'.length + 1 = (a :: as).length := by
      have := congrArg List.length hrow
      simp only [List.length_append, List.length_cons, List.length_nil] at this i2 ⊢; omega
    have hval : s0.toNat + 2 ^ (h + h) * (s1.toNat + 2 ^ (h + h) * val low') = val low + val (a :: as) * t.toNat := by
      have := congrArg val hrow
      rw [val_append, i2] at this
      simp only [val, Nat.mul_zero, Nat.add_zero] at this i1 ⊢
      rw [← this]
      simpa using i1
    rw [happ]
    simp only
    obtain ⟨front, j1, j2, j3⟩ := sqrTri_spec hh (a :: as) low' (z - 1) (by simp) hlow' (by simp only [List.length_cons]; omega)
    refine ⟨s0 :: s1 :: front, ?_, ?_, ?_⟩
    · rw [j1]
      simp only [List.cons_append, List.length_cons]
      congr 4; omega
    · simp only [List.length_cons] at j2 ⊢; omega
    · simp only [val] at hval
      simp only [val, j3]
      rw [show tri (t :: a :: as) = t.toNat * val (a :: as) + 2 ^ (h + h) * 2 ^ (h + h) * tri (a :: as) from rfl]
      simp only [val]
      generalize 2 ^ (h + h) = B at *
      generalize tri (a :: as) = T at *
      have : s0.toNat + B * (s1.toNat + B * (val low' + T)) = s0.toNat + B * (s1.toNat + B * val low') + B * B * T := by ring
      rw [this, hval]; ring

theorem sqrDiag_spec (hh : 0 < h) (rest : List (W h)) : ∀ (a rl : List (W h)) (c : W h), rl.length = 2 * a.length →
    ∃ rl' c', sqrDiag (rl ++ rest) a c = rl' ++ rest ∧ rl'.length = rl.length ∧
      val rl' + (2 ^ (h + h)) ^ rl.length * c' = val rl + diag a + c.toNat
  | [], rl, c, hl => by
    have : rl = [] := List.length_eq_zero_iff.1 (by simpa using hl)
    subst this
    refine ⟨[], c.toNat, ?_, rfl, by simp [val, diag]⟩
    cases rest with
    | nil => simp [sqrDiag]
    | cons x l => cases l <;> simp [sqrDiag]
  | a :: as, rl, c, hl => by
    cases rl with
    | nil => simp at hl
    | cons r0 rl =>
    cases rl with
    | nil => simp only [List.length_cons, List.length_nil] at hl; omega
    | cons r1 rl =>
      simp only [List.cons_append, sqrDiag]
      have e1 := sqrA_spec hh a
      generalize sqrA a = q at e1
      obtain ⟨rh, rlo⟩ := q
      simp only at e1 ⊢
      have e2 := addABC_spec hh r0 rlo c
      generalize addABC r0 rlo c = q at e2
      obtain ⟨c1, r0'⟩ := q
      simp only at e2 ⊢
      have e3 := addABC_spec hh r1 rh c1
      generalize addABC r1 rh c1 = q at e3
      obtain ⟨c2, r1'⟩ := q
      simp only at e3 ⊢
      obtain ⟨rl', c', i1, i2, i3⟩ := sqrDiag_spec hh rest as rl c2 (by simp only [List.length_cons] at hl; omega)
      refine ⟨r0' :: r1' :: rl', c', by rw [i1]; rfl, by simp [i2], ?_⟩
      simp only [val, diag, List.length_cons, pow_succ]
      generalize 2 ^ (h + h) = B at *
      generalize B ^ rl.length = P at *
      have e4 : B * B * val rl' + B * B * (P * c') = B * B * val rl + B * B * diag as + B * B * c2.toNat := by
        rw [← Nat.mul_add, i3]; ring
      have e5 : B * r1'.toNat + B * (B * c2.toNat) = B * r1.toNat + B * rh.toNat + B * c1.toNat := by
        rw [← Nat.mul_add, e3]; ring
      have e6 : P * B * B * c' = B * B * (P * c') := by ring
      have e7 : r0'.toNat + B * (r1'.toNat + B * val rl') = r0'.toNat + B * r1'.toNat + B * B * val rl' := by ring
      have e8 : r0.toNat + B * (r1.toNat + B * val rl) = r0.toNat + B * r1.toNat + B * B * val rl := by ring
      rw [e6, e7, e8]
      have e9 : B * (B * c2.toNat) = B * B * c2.toNat := by ring
      linarith

theorem list_split_last {l : List (W h)} {n : Nat} (hl : l.length = n + 1) : ∃ l' x, l = l' ++ [x] ∧ l'.length = n := by
  have hne : l ≠ [] := by intro hx; rw [hx] at hl; cases hl
  exact ⟨l.dropLast, l.getLast hne, (List.dropLast_concat_getLast hne).symm, by simp [hl]⟩

theorem binSqr_spec (hh : 0 < h) (rRoom : Nat) (a : List (W h)) (ha : a ≠ []) (hr : 2 * a.length ≤ rRoom) :
    ∃ r size, binSqr rRoom a = some (r, size) ∧ r.length = rRoom ∧ val r = val a * val a ∧ size ≤ 2 * a.length ∧ val (r.drop size) = 0 := by
  have hpos : 0 < a.length := List.length_pos_iff.2 ha
  unfold binSqr
  rw [show rRoom = (rRoom - 1) + 1 by omega, List.replicate_succ]
  simp only
  obtain ⟨front, f1, f2, f3⟩ := sqrTri_spec hh a (List.replicate (a.length - 1) 0) (rRoom - a.length) ha (by simp; omega) (by omega)
  rw [List.replicate_append_replicate, show a.length - 1 + (rRoom - a.length) = rRoom - 1 by omega] at f1
  rw [f1, val_replicate, Nat.zero_add] at *
  have htake : ((0 : W h) :: (front ++ List.replicate (rRoom - a.length + 1 - a.length) 0)).take (2 * a.length - 1) = 0 :: front := by
    rw [show (0 : W h) :: (front ++ List.replicate (rRoom - a.length + 1 - a.length) 0) = (0 :: front) ++ List.replicate (rRoom - a.length + 1 - a.length) 0 from rfl,
      show 2 * a.length - 1 = ((0 : W h) :: front).length by simp only [List.length_cons]; omega, List.take_left]
  rw [htake]
  obtain ⟨r', g1, g2, g3⟩ := binLshift_spec hh ((0 : W h) :: front) 1 (by simp)
  rw [g1]
  simp only
  rw [Nat.div_eq_of_lt (show 1 < h + h by omega)] at g3
  simp only [List.length_cons, Nat.zero_add] at g3
  -- the rest of the room is zero
  have hdrop : ((0 : W h) :: (front ++ List.replicate (rRoom - a.length + 1 - a.length) 0)).drop r'.length = List.replicate (rRoom - r'.length) 0 := by
    rw [show (0 : W h) :: (front ++ List.replicate (rRoom - a.length + 1 - a.length) 0) = (0 :: front) ++ List.replicate (rRoom - a.length + 1 - a.length) 0 from rfl]
    rw [List.drop_append, List.drop_eq_nil_of_le (by simp only [List.length_cons]; omega), List.nil_append, List.drop_replicate]
    congr 1; simp only [List.length_cons]; omega
  rw [hdrop]
  have hlen : (r' ++ List.replicate (rRoom - r'.length) (0 : W h)).length = rRoom := by
    simp only [List.length_append, List.length_replicate]; omega
  have hval : val (r' ++ List.replicate (rRoom - r'.length) (0 : W h)) = 2 * 2 ^ (h + h) * tri a := by
    rw [val_append, val_replicate, Nat.mul_zero, Nat.add_zero, g2]
    simp only [val, f3, toNat_zero', Nat.zero_add]; ring
  generalize hR : r' ++ List.replicate (rRoom - r'.length) (0 : W h) = R at *
  have hRd : val (R.drop (2 * a.length)) = 0 := by
    rw [← hR, List.drop_append, List.drop_eq_nil_of_le (by omega), List.nil_append, List.drop_replicate, val_replicate]
  obtain ⟨rl', c', d1, d2, d3⟩ := sqrDiag_spec hh (R.drop (2 * a.length)) a (R.take (2 * a.length)) 0 (by rw [List.length_take]; omega)
  rw [List.take_append_drop] at d1
  have hRt : val (R.take (2 * a.length)) = 2 * 2 ^ (h + h) * tri a := by
    have := val_append (R.take (2 * a.length)) (R.drop (2 * a.length))
    rw [List.take_append_drop, hRd, Nat.mul_zero, Nat.add_zero, hval] at this
    exact this.symm
  have hlt : (R.take (2 * a.length)).length = 2 * a.length := by rw [List.length_take]; omega
  rw [hRt, hlt] at d3
  rw [hlt] at d2
  have hsq := square_split a
  have hc' : c' = 0 := by
    have hv := val_lt a
    have h2 : val a * val a < (2 ^ (h + h)) ^ (2 * a.length) := by
      rw [show 2 * a.length = a.length + a.length by omega, Nat.pow_add]
      exact Nat.mul_lt_mul'' hv hv
    rcases Nat.eq_zero_or_pos c' with h0 | h0
    · exact h0
    · have := Nat.mul_le_mul_left ((2 ^ (h + h)) ^ (2 * a.length)) h0
      rw [toNat_zero'] at d3
      omega
  have hrl : val rl' = val a * val a := by
    rw [hc', toNat_zero'] at d3; omega
  rw [d1]
  obtain ⟨l', top, rfl, hl'⟩ := list_split_last (n := 2 * a.length - 1) (l := rl') (by omega)
  have htop : (l' ++ [top] ++ R.drop (2 * a.length))[2 * a.length - 1]? = some top := by
    rw [List.append_assoc, List.getElem?_append_right (by omega), hl', Nat.sub_self]; rfl
  rw [htop]
  simp only
  refine ⟨_, _, rfl, ?_, ?_, by omega, ?_⟩
  · rw [List.length_append, d2, List.length_drop]; omega
  · rw [val_append, hRd, hrl]; simp
  · by_cases h0 : top = 0
    · rw [if_pos h0, show a.length + a.length - 1 = l'.length by omega, List.append_assoc, List.drop_left, val_append, hRd, h0]
      simp [val]
    · rw [if_neg h0, show a.length + a.length - 0 = (l' ++ [top]).length by simp only [List.length_append, List.length_singleton]; omega, List.drop_left, hRd]

/-! ### Leading zero bits -/

theorem zeroBitsLoop_spec (hh : 0 < h) (x : W h) (hx : x ≠ 0) : ∀ (i fuel : Nat) (tmp : W h) (bits : Nat), 2 ^ i ≤ fuel → bits ≤ h + h →
    2 ^ (i + 1) ≤ bits → tmp.toNat = x.toNat / 2 ^ (h + h - bits) → tmp ≠ 0 → tmp.toNat < 2 ^ (2 ^ (i + 1)) →
    ∃ z, zeroBitsLoop fuel tmp bits (2 ^ i) = z ∧ z < h + h ∧ 2 ^ (h + h - 1 - z) ≤ x.toNat ∧ x.toNat < 2 ^ (h + h - z) := by
  intro i
  induction i with
  | zero =>
    intro fuel tmp bits hf hb1 hb2 ht hne hlt
    obtain ⟨f, rfl⟩ : ∃ f, fuel = f + 1 := ⟨fuel - 1, by simp at hf; omega⟩
    simp only [Nat.pow_zero, Nat.zero_add, Nat.pow_one] at *
    rw [zeroBitsLoop]
    simp only [show (1 : Nat) / 2 = 0 by decide, ne_eq, not_true_eq_false, if_false]
    have htpos : 0 < tmp.toNat := by
      rcases Nat.eq_zero_or_pos tmp.toNat with h0 | h0
      · exact absurd (BitVec.eq_of_toNat_eq (by simpa using h0)) hne
      · exact h0
    -- after the round: the shifted value is 1
    have key : ∀ b, b ≤ h + h → 1 ≤ b → x.toNat / 2 ^ (h + h - b) = 1 →
        b - 1 < h + h ∧ 2 ^ (h + h - 1 - (b - 1)) ≤ x.toNat ∧ x.toNat < 2 ^ (h + h - (b - 1)) := by
      intro b b1 b2 hq
      have hp : 0 < 2 ^ (h + h - b) := Nat.pow_pos (by decide)
      have e1 := (Nat.div_eq_iff hp).1 hq
      refine ⟨by omega, ?_, ?_⟩
      · rw [show h + h - 1 - (b - 1) = h + h - b by omega]; omega
      · rw [show h + h - (b - 1) = (h + h - b) + 1 by omega, Nat.pow_succ]; omega
    by_cases hi : tmp >>> 1 = 0
    · rw [if_neg (by simpa using hi)]
      simp only
      have h1 : tmp.toNat = 1 := by
        have := congrArg BitVec.toNat hi
        rw [toNat_shr] at this
        simp at this; omega
      rw [h1] at ht
      refine ⟨_, rfl, ?_⟩
      rw [h1]
      exact key bits hb1 (by omega) ht.symm
    · rw [if_pos hi]
      simp only
      have h1 : (tmp >>> 1).toNat = 1 := by
        have h2 : (tmp >>> 1).toNat ≠ 0 := fun h0 => hi (BitVec.eq_of_toNat_eq (by simpa using h0))
        rw [toNat_shr] at h2 ⊢
        omega
      refine ⟨_, rfl, ?_⟩
      rw [h1]
      apply key (bits - 1) (by omega) (by omega)
      rw [toNat_shr, ht, Nat.div_div_eq_div_mul, ← Nat.pow_add] at h1
      rw [show h + h - (bits - 1) = h + h - bits + 1 by omega]; exact h1
  | succ i ih =>
    intro fuel tmp bits hf hb1 hb2 ht hne hlt
    have hp : 0 < 2 ^ i := Nat.pow_pos (by decide)
    obtain ⟨f, rfl⟩ : ∃ f, fuel = f + 1 := ⟨fuel - 1, by rw [Nat.pow_succ] at hf; omega⟩
    rw [zeroBitsLoop]
    have hbase : 2 ^ (i + 1) / 2 = 2 ^ i := by rw [Nat.pow_succ]; omega
    rw [hbase]
    have hne2 : 2 ^ i ≠ 0 := by omega
    simp only [if_pos hne2]
    have hf2 : 2 ^ i ≤ f := by rw [Nat.pow_succ] at hf; omega
    have e2 : 2 ^ (i + 1 + 1) = 2 ^ (i + 1) + 2 ^ (i + 1) := by rw [Nat.pow_succ]; omega
    by_cases hi : tmp >>> (2 ^ (i + 1)) = 0
    · rw [if_neg (by simpa using hi)]
      simp only
      apply ih f tmp bits hf2 hb1 (by omega) ht hne
      have := congrArg BitVec.toNat hi
      rw [toNat_shr, toNat_zero'] at this
      exact (Nat.div_eq_zero_iff_lt (Nat.pow_pos (by decide))).1 this
    · rw [if_pos hi]
      simp only
      apply ih f _ _ hf2 (by omega) (by omega) _ hi
      · rw [toNat_shr]
        apply Nat.div_lt_of_lt_mul
        rw [← Nat.pow_add, ← e2]; exact hlt
      · rw [toNat_shr, ht, Nat.div_div_eq_div_mul, ← Nat.pow_add]
        congr 2; omega

/-- The word size is a power of two; `x` is not zero. -/
theorem zeroBits_spec {j : Nat} (hj : h = 2 ^ j) (x : W h) (hx : x ≠ 0) :
    zeroBits x < h + h ∧ 2 ^ (h + h - 1 - zeroBits x) ≤ x.toNat ∧ x.toNat < 2 ^ (h + h - zeroBits x) := by
  have hh : 0 < h := by rw [hj]; exact Nat.pow_pos (by decide)
  have e : 2 ^ (j + 1) = h + h := by rw [Nat.pow_succ, ← hj]; omega
  obtain ⟨z, h1, h2⟩ := zeroBitsLoop_spec hh x hx j (h + h) x (h + h) (by omega) (Nat.le_refl _) (by omega) (by simp) hx (by rw [e]; exact x.isLt)
  unfold zeroBits
  rw [show (h + h) / 2 = 2 ^ j by omega, h1]
  exact h2

end Verif.Crypto.Bn
