import Mathlib.Tactic.Ring
import Mathlib.Tactic.Linarith
/-! Model of the word macros of /repo/crypto/bn/src/bn_bincal.h and bn_bincal_noasm.h (the portable versions; the assembly
variants are not modelled). A `BN_UINT` has `2 * h` bits: `h = 32` or `h = 16` in the code; the model and the theorems are
for every `h ≥ 1`. -/
namespace Verif.Crypto.Bn

/-- `BN_UINT`. -/
abbrev W (h : Nat) := BitVec (h + h)

variable {h : Nat}

/-- `BN_UINT_HC`, bn_bincal.h:66. -/
def hc : W h := (1 : W h) <<< h

/-- `BN_UINT_LO`, bn_bincal.h:75. -/
def lo (t : W h) : W h := t &&& (hc - 1)

/-- `BN_UINT_HI`, bn_bincal.h:78. -/
def hi (t : W h) : W h := t >>> h

/-- `ADD_AB`, bn_bincal.h:38-43: `(carry, r)`. -/
def addAB (a b : W h) : W h × W h :=
  let t := a + b
  (if t < a then 1 else 0, t)

/-- `SUB_AB`, bn_bincal.h:46-51: `(borrow, r)`. -/
def subAB (a b : W h) : W h × W h :=
  let t := a - b
  (if a < b then 1 else 0, t)

/-- `SUB_ABC`, bn_bincal.h:54-61: `(borrow, r)`. -/
def subABC (a b c : W h) : W h × W h :=
  let s := a - b
  let b := if a < b then 1 else 0
  let b := b + if s < c then 1 else 0
  (b, s - c)

/-- `ADD_ABC`, bn_bincal_noasm.h:108-114: `(carry, r)`. -/
def addABC (a b c : W h) : W h × W h :=
  let s := b + c
  let carry := if s < c then 1 else 0
  let r := s + a
  (carry + if r < s then 1 else 0, r)

/-- `MULADD_ABC`, bn_bincal.h:89-110: `(c, r)`. -/
def mulAddABC (c r a b : W h) : W h × W h :=
  let al := lo a
  let ah := hi a
  let bl := lo b
  let bh := hi b
  let x3 := ah * bh
  let x2 := ah * bl
  let x1 := al * bh
  let x0 := al * bl
  let r := r + c
  let c : W h := if r < c then 1 else 0
  let x1 := x1 + x2
  let c := c + if x1 < x2 then hc else 0
  let x2 := x0
  let x0 := x0 + x1 <<< h
  let c := c + if x0 < x2 then 1 else 0
  let c := c + hi x1
  let c := c + x3
  let r := r + x0
  (c + if r < x0 then 1 else 0, r)

/-- `MUL_AB`, bn_bincal_noasm.h:70-88: `(wh, wl)`. -/
def mulAB (u v : W h) : W h × W h :=
  let ul := lo u
  let uh := hi u
  let vl := lo v
  let vh := hi v
  let x0 := ul * vl
  let x1 := ul * vh
  let x2 := uh * vl
  let x3 := uh * vh
  let x1 := x1 + hi x0
  let x1 := x1 + x2
  let x3 := if x1 < x2 then x3 + hc else x3
  (x3 + hi x1, x1 <<< h ||| lo x0)

/-- `SQR_A`, bn_bincal_noasm.h:90-105: `(wh, wl)`. -/
def sqrA (u : W h) : W h × W h :=
  let ul := lo u
  let uh := hi u
  let x0 := ul * ul
  let x1 := ul * uh
  let x2 := uh * uh
  let t := x1 <<< 1
  let t := t + hi x0
  let x2 := if t < x1 then x2 + hc else x2
  (x2 + hi t, t <<< h ||| lo x0)

/-- `MULADC_AB`, bn_bincal_noasm.h:119-125: `(carry, r)`. -/
def mulAdcAB (r a b carry : W h) : W h × W h :=
  let (hi', lo') := mulAB a b
  let (carry, r) := addABC r lo' carry
  (carry + hi', r)

/-- `MULADD_AB`, bn_bincal_noasm.h:128-150: `(h, m, l)`. -/
def mulAddAB (hh m l u v : W h) : W h × W h × W h :=
  let ul := lo u
  let uh := hi u
  let vl := lo v
  let vh := hi v
  let x3 := uh * vh
  let x2 := uh * vl
  let x1 := ul * vh
  let x0 := ul * vl
  let x1 := x1 + hi x0
  let x0 := u * v
  let x1 := x1 + x2
  let x3 := x3 + hi x1
  let l := l + x0
  let x3 := if x1 < x2 then x3 + hc else x3
  let x3 := x3 + if l < x0 then 1 else 0
  let m := m + x3
  let hh := hh + if m < x3 then 1 else 0
  (hh, m, l)

/-- One half of `DIV_ND`, bn_bincal_noasm.h:36-49 (and again :51-64): the next half-word of the quotient and the remainder,
from `n` and the half word `below` that follows. `d1` is not 0. -/
def divStep (n below d d1 d0 : W h) : W h × W h :=
  let q := n / d1
  let r := n - q * d1
  let m := q * d0
  let r := r <<< h ||| below
  let (q, r) :=
    if r < m then
      let q := q - 1
      let r := r + d
      if r ≥ d then
        if r < m then (q - 1, r + d) else (q, r)
      else (q, r)
    else (q, r)
  (q, r - m)

/-- `DIV_ND`, bn_bincal_noasm.h:29-68: `(q, r)`; `none` is a division by zero. -/
def divND (nh nl d : W h) : Option (W h × W h) :=
  let d1 := hi d
  let d0 := lo d
  if d1 = 0 then none
  else
    let (q1, r1) := divStep nh (hi nl) d d1 d0
    let (q0, r0) := divStep r1 (lo nl) d d1 d0
    some (q1 <<< h ||| q0, r0)

/-- `MOD_HALF`, bn_bincal_noasm.h:183-191, for `d ≠ 0`. -/
def modHalf (nh nl d : W h) : W h :=
  let r := nh % d
  let r := r <<< h ||| hi nl
  let r := r % d
  let r := r <<< h ||| lo nl
  r % d

/-! ### Facts about words -/

theorem pow_hh (h : Nat) : 2 ^ (h + h) = 2 ^ h * 2 ^ h := Nat.pow_add 2 h h

theorem two_le (hh : 0 < h) : 2 ≤ 2 ^ h := by
  have := Nat.pow_le_pow_right (show 0 < 2 by decide) hh
  simpa using this

theorem toNat_lt' (a : W h) : a.toNat < 2 ^ (h + h) := a.isLt

theorem toNat_hc (hh : 0 < h) : (hc : W h).toNat = 2 ^ h := by
  unfold hc
  rw [BitVec.toNat_shiftLeft]
  have h1 : 2 ^ h < 2 ^ (h + h) := Nat.pow_lt_pow_right (by decide) (by omega)
  have h2 : (1 : W h).toNat = 1 := by
    show 1 % 2 ^ (h + h) = 1
    exact Nat.mod_eq_of_lt (by have := two_le hh; omega)
  rw [h2, Nat.shiftLeft_eq, Nat.one_mul, Nat.mod_eq_of_lt h1]

theorem toNat_one (hh : 0 < h) : (1 : W h).toNat = 1 := by
  have h1 : 2 ^ h < 2 ^ (h + h) := Nat.pow_lt_pow_right (by decide) (by omega)
  show 1 % 2 ^ (h + h) = 1
  exact Nat.mod_eq_of_lt (by have := two_le hh; omega)

theorem toNat_zero' : (0 : W h).toNat = 0 := by simp

theorem toNat_lo (hh : 0 < h) (t : W h) : (lo t).toNat = t.toNat % 2 ^ h := by
  unfold lo
  have h1 : 2 ^ h < 2 ^ (h + h) := Nat.pow_lt_pow_right (by decide) (by omega)
  have h3 : ((hc : W h) - 1).toNat = 2 ^ h - 1 := by
    rw [BitVec.toNat_sub, toNat_hc hh, toNat_one hh]
    have := two_le hh
    have e : 2 ^ (h + h) - 1 + 2 ^ h = 2 ^ (h + h) + (2 ^ h - 1) := by omega
    rw [e, Nat.add_mod_left, Nat.mod_eq_of_lt (by omega)]
  rw [BitVec.toNat_and, h3, Nat.and_two_pow_sub_one_eq_mod]

theorem toNat_hi (t : W h) : (hi t).toNat = t.toNat / 2 ^ h := by
  unfold hi
  rw [BitVec.toNat_ushiftRight, Nat.shiftRight_eq_div_pow]

theorem hi_lt (t : W h) : (hi t).toNat < 2 ^ h := by
  rw [toNat_hi]
  have := t.isLt
  rw [pow_hh] at this
  exact Nat.div_lt_of_lt_mul this

theorem lo_lt (hh : 0 < h) (t : W h) : (lo t).toNat < 2 ^ h := by
  rw [toNat_lo hh]; exact Nat.mod_lt _ (by have := two_le hh; omega)

/-- A word is its halves. -/
theorem halves (hh : 0 < h) (t : W h) : t.toNat = (lo t).toNat + 2 ^ h * (hi t).toNat := by
  rw [toNat_lo hh, toNat_hi]; exact (Nat.mod_add_div _ _).symm

theorem toNat_shl (hh : 0 < h) (t : W h) : (t <<< h).toNat = 2 ^ h * (lo t).toNat := by
  rw [BitVec.toNat_shiftLeft, toNat_lo hh, Nat.shiftLeft_eq, pow_hh, Nat.mul_mod_mul_right, Nat.mul_comm]

theorem toNat_shl_or (hh : 0 < h) (t y : W h) (hy : y.toNat < 2 ^ h) : (t <<< h ||| y).toNat = 2 ^ h * (lo t).toNat + y.toNat := by
  rw [BitVec.toNat_or, toNat_shl hh, Nat.mul_comm, ← Nat.shiftLeft_eq, ← Nat.shiftLeft_add_eq_or_of_lt hy]

theorem toNat_mul_small (a b : W h) (ha : a.toNat < 2 ^ h) (hb : b.toNat < 2 ^ h) : (a * b).toNat = a.toNat * b.toNat := by
  rw [BitVec.toNat_mul, Nat.mod_eq_of_lt]
  rw [pow_hh]
  exact Nat.mul_lt_mul'' ha hb

theorem add_cases (a b : W h) : (a + b).toNat + 2 ^ (h + h) * (if a + b < a then 1 else 0) = a.toNat + b.toNat ∧
    (a + b < a ↔ 2 ^ (h + h) ≤ a.toNat + b.toNat) ∧ (a + b < b ↔ 2 ^ (h + h) ≤ a.toNat + b.toNat) := by
  have ha := a.isLt
  have hb := b.isLt
  simp only [BitVec.lt_def, BitVec.toNat_add]
  by_cases hc : a.toNat + b.toNat < 2 ^ (h + h)
  · rw [Nat.mod_eq_of_lt hc, if_neg (by omega)]; omega
  · have e : (a.toNat + b.toNat) % 2 ^ (h + h) = a.toNat + b.toNat - 2 ^ (h + h) := by
      rw [Nat.mod_eq_sub_mod (by omega), Nat.mod_eq_of_lt (by omega)]
    rw [e, if_pos (by omega)]; omega

theorem toNat_add_small (a b : W h) (hs : a.toNat + b.toNat < 2 ^ (h + h)) : (a + b).toNat = a.toNat + b.toNat := by
  rw [BitVec.toNat_add, Nat.mod_eq_of_lt hs]

theorem toNat_sub_cases (a b : W h) : (a - b).toNat + b.toNat = a.toNat + 2 ^ (h + h) * (if a < b then 1 else 0) := by
  have ha := a.isLt
  have hb := b.isLt
  simp only [BitVec.lt_def, BitVec.toNat_sub]
  by_cases hc : a.toNat < b.toNat
  · rw [if_pos hc, Nat.mod_eq_of_lt (by omega)]; omega
  · rw [if_neg hc]
    have e : 2 ^ (h + h) - b.toNat + a.toNat = 2 ^ (h + h) + (a.toNat - b.toNat) := by omega
    rw [e, Nat.add_mod_left, Nat.mod_eq_of_lt (by omega)]; omega

theorem toNat_bit (hh : 0 < h) (p : Prop) [Decidable p] : (if p then (1 : W h) else 0).toNat = if p then 1 else 0 := by
  split
  · exact toNat_one hh
  · simp

theorem four_le (hh : 0 < h) : 4 ≤ 2 ^ (h + h) := by
  have := Nat.pow_le_pow_right (show 0 < 2 by decide) (show 2 ≤ h + h by omega)
  simpa using this

/-! ### What the macros compute -/

theorem addAB_spec (hh : 0 < h) (a b : W h) : (addAB a b).2.toNat + 2 ^ (h + h) * (addAB a b).1.toNat = a.toNat + b.toNat := by
  unfold addAB
  simp only
  rw [toNat_bit hh]
  exact (add_cases a b).1

theorem subAB_spec (hh : 0 < h) (a b : W h) : (subAB a b).2.toNat + b.toNat = a.toNat + 2 ^ (h + h) * (subAB a b).1.toNat := by
  unfold subAB
  simp only
  rw [toNat_bit hh]
  exact toNat_sub_cases a b

theorem bit_le (p : Prop) [Decidable p] : (if p then 1 else 0 : Nat) ≤ 1 := by split <;> omega

theorem toNat_bits2 (hh : 0 < h) (p q : Prop) [Decidable p] [Decidable q] :
    ((if p then (1 : W h) else 0) + (if q then (1 : W h) else 0)).toNat = (if p then 1 else 0) + (if q then 1 else 0) := by
  have hb := four_le hh
  rw [toNat_add_small, toNat_bit hh, toNat_bit hh]
  rw [toNat_bit hh, toNat_bit hh]
  have := bit_le p; have := bit_le q; omega

theorem addABC_spec (hh : 0 < h) (a b c : W h) :
    (addABC a b c).2.toNat + 2 ^ (h + h) * (addABC a b c).1.toNat = a.toNat + b.toNat + c.toNat := by
  unfold addABC
  simp only
  have e1 := (add_cases b c).1
  have e1' := (add_cases b c).2
  have e2 := (add_cases (b + c) a).1
  rw [toNat_bits2 hh]
  have : (if b + c < c then 1 else 0 : Nat) = if b + c < b then 1 else 0 := by
    rw [if_congr (e1'.2.trans e1'.1.symm) rfl rfl]
  rw [this, Nat.mul_add]; omega

theorem subABC_spec (hh : 0 < h) (a b c : W h) :
    (subABC a b c).2.toNat + b.toNat + c.toNat = a.toNat + 2 ^ (h + h) * (subABC a b c).1.toNat := by
  unfold subABC
  simp only
  have e1 := toNat_sub_cases a b
  have e2 := toNat_sub_cases (a - b) c
  rw [toNat_bits2 hh, Nat.mul_add]; omega

/-- Bounds of products of half words: with `H = k + 1`. -/
theorem half_mul_le {x y H : Nat} (hx : x < H) (hy : y < H) : x * y + 2 * H ≤ H * H + 1 := by
  obtain ⟨k, rfl⟩ : ∃ k, H = k + 1 := ⟨H - 1, by omega⟩
  have := Nat.mul_le_mul (show x ≤ k by omega) (show y ≤ k by omega)
  nlinarith

theorem mulAB_spec (hh : 0 < h) (u v : W h) : (mulAB u v).2.toNat + 2 ^ (h + h) * (mulAB u v).1.toNat = u.toNat * v.toNat := by
  unfold mulAB
  simp only
  have hul := lo_lt hh u
  have huh := hi_lt u
  have hvl := lo_lt hh v
  have hvh := hi_lt v
  have hu := halves hh u
  have hv := halves hh v
  have m0 := toNat_mul_small (lo u) (lo v) hul hvl
  have m1 := toNat_mul_small (lo u) (hi v) hul hvh
  have m2 := toNat_mul_small (hi u) (lo v) huh hvl
  have m3 := toNat_mul_small (hi u) (hi v) huh hvh
  have b1 := half_mul_le hul hvh
  have b3 := half_mul_le huh hvh
  generalize lo u * lo v = x0 at *
  generalize lo u * hi v = x1 at *
  generalize hi u * lo v = x2 at *
  generalize hi u * hi v = x3 at *
  have h0 := halves hh x0
  have l0 := lo_lt hh x0
  have g0 := hi_lt x0
  have hB := pow_hh h
  have e1 : (x1 + hi x0).toNat = x1.toNat + (hi x0).toNat := toNat_add_small _ _ (by rw [hB]; omega)
  generalize x1 + hi x0 = y at *
  obtain ⟨c1, c2, c3⟩ := add_cases y x2
  generalize y + x2 = t at *
  have ht := halves hh t
  have hl := lo_lt hh t
  have hg := hi_lt t
  rw [toNat_shl_or hh _ _ l0]
  have hu2 := u.isLt
  have hv2 := v.isLt
  have htot : u.toNat * v.toNat = x0.toNat + 2 ^ h * (x1.toNat + x2.toNat) + 2 ^ h * 2 ^ h * x3.toNat := by
    rw [hu, hv, m0, m1, m2, m3]; ring
  have hlt : u.toNat * v.toNat < 2 ^ (h + h) * 2 ^ (h + h) := Nat.mul_lt_mul'' hu2 hv2
  have fin : ∀ k : Nat, (if t < y then 1 else 0) = k →
      2 ^ h * (lo t).toNat + (lo x0).toNat + 2 ^ (h + h) * (x3.toNat + 2 ^ h * k + (hi t).toNat) = u.toNat * v.toNat := by
    intro k hk
    rw [hk] at c1
    rw [htot, hB] at *
    have c1' : x1.toNat + x2.toNat + (hi x0).toNat = t.toNat + 2 ^ h * 2 ^ h * k := by omega
    have : 2 ^ h * (x1.toNat + x2.toNat) + 2 ^ h * (hi x0).toNat = 2 ^ h * t.toNat + 2 ^ h * (2 ^ h * 2 ^ h * k) := by
      rw [← Nat.mul_add, ← Nat.mul_add, c1']
    rw [h0, ht] at *
    nlinarith
  have hwh : ∀ k : Nat, (if t < y then 1 else 0) = k → x3.toNat + 2 ^ h * k + (hi t).toNat < 2 ^ (h + h) := by
    intro k hk
    have := fin k hk
    have : 2 ^ (h + h) * (x3.toNat + 2 ^ h * k + (hi t).toNat) < 2 ^ (h + h) * 2 ^ (h + h) := by omega
    exact Nat.lt_of_mul_lt_mul_left this
  by_cases hc' : t < x2
  · have hty : t < y := c2.2 (c3.1 hc')
    rw [if_pos hc']
    have f := fin 1 (by rw [if_pos hty])
    have w := hwh 1 (by rw [if_pos hty])
    have e2 : (x3 + hc).toNat = x3.toNat + 2 ^ h := by rw [toNat_add_small _ _ (by rw [toNat_hc hh]; omega), toNat_hc hh]
    rw [toNat_add_small _ _ (by rw [e2]; omega), e2]
    rw [Nat.mul_one] at f
    exact f
  · have hty : ¬ t < y := fun h => hc' (c3.2 (c2.1 h))
    rw [if_neg hc']
    have f := fin 0 (by rw [if_neg hty])
    have w := hwh 0 (by rw [if_neg hty])
    rw [toNat_add_small _ _ (by omega)]
    simpa using f

/-- `SQR_A` is `MUL_AB` with equal factors. -/
theorem sqrA_spec (hh : 0 < h) (u : W h) : (sqrA u).2.toNat + 2 ^ (h + h) * (sqrA u).1.toNat = u.toNat * u.toNat := by
  unfold sqrA
  simp only
  have hul := lo_lt hh u
  have huh := hi_lt u
  have hu := halves hh u
  have m0 := toNat_mul_small (lo u) (lo u) hul hul
  have m1 := toNat_mul_small (lo u) (hi u) hul huh
  have m3 := toNat_mul_small (hi u) (hi u) huh huh
  have b1 := half_mul_le hul huh
  generalize lo u * lo u = x0 at *
  generalize lo u * hi u = x1 at *
  generalize hi u * hi u = x3 at *
  have h0 := halves hh x0
  have l0 := lo_lt hh x0
  have g0 := hi_lt x0
  have hB := pow_hh h
  -- the doubled middle product with the upper half of the low product
  have key : ∃ k, k ≤ 1 ∧ 2 * x1.toNat + (hi x0).toNat = (x1 <<< 1 + hi x0).toNat + 2 ^ (h + h) * k ∧ (x1 <<< 1 + hi x0 < x1 ↔ k = 1) := by
    have hx1 := x1.isLt
    simp only [BitVec.lt_def, BitVec.toNat_add, BitVec.toNat_shiftLeft, Nat.shiftLeft_eq, pow_one]
    rw [Nat.mod_add_mod]
    by_cases hlt : x1.toNat * 2 + (hi x0).toNat < 2 ^ (h + h)
    · exact ⟨0, by omega, by rw [Nat.mod_eq_of_lt hlt]; omega, by rw [Nat.mod_eq_of_lt hlt]; omega⟩
    · have e : (x1.toNat * 2 + (hi x0).toNat) % 2 ^ (h + h) = x1.toNat * 2 + (hi x0).toNat - 2 ^ (h + h) := by
        rw [Nat.mod_eq_sub_mod (by omega), Nat.mod_eq_of_lt (by rw [hB] at *; omega)]
      exact ⟨1, by omega, by rw [e]; omega, by rw [e]; rw [hB] at *; omega⟩
  obtain ⟨k, k1, k2, k3⟩ := key
  generalize x1 <<< 1 + hi x0 = t at *
  have ht := halves hh t
  rw [toNat_shl_or hh _ _ l0]
  have htot : u.toNat * u.toNat = x0.toNat + 2 ^ h * (2 * x1.toNat) + 2 ^ h * 2 ^ h * x3.toNat := by
    rw [hu, m0, m1, m3]; ring
  have hlt : u.toNat * u.toNat < 2 ^ (h + h) * 2 ^ (h + h) := Nat.mul_lt_mul'' u.isLt u.isLt
  have fin : 2 ^ h * (lo t).toNat + (lo x0).toNat + 2 ^ (h + h) * (x3.toNat + 2 ^ h * k + (hi t).toNat) = u.toNat * u.toNat := by
    rw [htot]
    rw [hB] at *
    have : 2 ^ h * (2 * x1.toNat) + 2 ^ h * (hi x0).toNat = 2 ^ h * t.toNat + 2 ^ h * (2 ^ h * 2 ^ h * k) := by
      rw [← Nat.mul_add, ← Nat.mul_add, k2]
    rw [h0, ht] at *
    nlinarith
  have w : x3.toNat + 2 ^ h * k + (hi t).toNat < 2 ^ (h + h) := by
    have : 2 ^ (h + h) * (x3.toNat + 2 ^ h * k + (hi t).toNat) < 2 ^ (h + h) * 2 ^ (h + h) := by omega
    exact Nat.lt_of_mul_lt_mul_left this
  by_cases hc' : t < x1
  · have hk := k3.1 hc'
    subst hk
    rw [if_pos hc']
    have e2 : (x3 + hc).toNat = x3.toNat + 2 ^ h := by rw [toNat_add_small _ _ (by rw [toNat_hc hh]; omega), toNat_hc hh]
    rw [toNat_add_small _ _ (by rw [e2]; omega), e2]
    rw [Nat.mul_one] at fin
    exact fin
  · have hk : k = 0 := by
      rcases Nat.lt_or_ge 0 k with h | h
      · exact absurd (k3.2 (by omega)) hc'
      · omega
    subst hk
    rw [if_neg hc', toNat_add_small _ _ (by omega)]
    simpa using fin

theorem mulAdcAB_spec (hh : 0 < h) (r a b c : W h) :
    (mulAdcAB r a b c).2.toNat + 2 ^ (h + h) * (mulAdcAB r a b c).1.toNat = r.toNat + a.toNat * b.toNat + c.toNat := by
  unfold mulAdcAB
  have e1 := mulAB_spec hh a b
  generalize mulAB a b = q at e1
  obtain ⟨wh, wl⟩ := q
  simp only at e1 ⊢
  have e2 := addABC_spec hh r wl c
  generalize addABC r wl c = q at e2
  obtain ⟨cc, rr⟩ := q
  simp only at e2 ⊢
  have key : rr.toNat + 2 ^ (h + h) * (cc.toNat + wh.toNat) = r.toNat + a.toNat * b.toNat + c.toNat := by
    rw [Nat.mul_add]; omega
  rw [toNat_add_small]
  · exact key
  · have hr := r.isLt
    have hc := c.isLt
    have hab : a.toNat * b.toNat ≤ (2 ^ (h + h) - 1) * (2 ^ (h + h) - 1) := Nat.mul_le_mul (by have := a.isLt; omega) (by have := b.isLt; omega)
    generalize 2 ^ (h + h) = B at *
    obtain ⟨k, rfl⟩ : ∃ k, B = k + 1 := ⟨B - 1, by omega⟩
    simp only [Nat.add_sub_cancel] at hab
    have : (k + 1) * (cc.toNat + wh.toNat) < (k + 1) * (k + 1) := by nlinarith
    exact Nat.lt_of_mul_lt_mul_left this

theorem mulAddABC_arith {H rcz rc r c z x0 x1 x2 x3 ly hy d1 d2 d3 d4 : Nat} (v1 : rcz + H * H * d4 = rc + z)
    (p1 : rc + H * H * d1 = r + c) (t1 : z + H * H * d3 = x0 + H * ly) (s1 : ly + H * hy + H * H * d2 = x1 + x2) :
    rcz + H * H * (d1 + H * d2 + d3 + hy + x3 + d4) = x0 + H * (x1 + x2) + H * H * x3 + r + c := by
  rw [← s1]
  linarith

theorem lt_sq {a b r c B : Nat} (ha : a < B) (hb : b < B) (hr : r < B) (hc : c < B) : a * b + r + c < B * B := by
  obtain ⟨k, rfl⟩ : ∃ k, B = k + 1 := ⟨B - 1, by omega⟩
  have := Nat.mul_le_mul (show a ≤ k by omega) (show b ≤ k by omega)
  nlinarith

/-- All of `MULADD_ABC` fits in two words. -/
theorem mulAddABC_spec (hh : 0 < h) (c r a b : W h) :
    (mulAddABC c r a b).2.toNat + 2 ^ (h + h) * (mulAddABC c r a b).1.toNat = a.toNat * b.toNat + r.toNat + c.toNat := by
  have hal := lo_lt hh a
  have hah := hi_lt a
  have hbl := lo_lt hh b
  have hbh := hi_lt b
  have ha := halves hh a
  have hb := halves hh b
  have m0 := toNat_mul_small (lo a) (lo b) hal hbl
  have m1 := toNat_mul_small (lo a) (hi b) hal hbh
  have m2 := toNat_mul_small (hi a) (lo b) hah hbl
  have m3 := toNat_mul_small (hi a) (hi b) hah hbh
  have hr := r.isLt
  have hc' := c.isLt
  have hB := pow_hh h
  unfold mulAddABC
  simp only
  generalize lo a * lo b = x0 at *
  generalize lo a * hi b = x1 at *
  generalize hi a * lo b = x2 at *
  generalize hi a * hi b = x3 at *
  -- first addition
  obtain ⟨p1, p2, p3⟩ := add_cases r c
  have q1 : (if r + c < c then 1 else 0 : Nat) = if r + c < r then 1 else 0 := if_congr (p3.trans p2.symm) rfl rfl
  rw [← q1] at p1
  -- middle products
  obtain ⟨s1, s2, s3⟩ := add_cases x1 x2
  have q2 : (if x1 + x2 < x2 then 1 else 0 : Nat) = if x1 + x2 < x1 then 1 else 0 := if_congr (s3.trans s2.symm) rfl rfl
  rw [← q2] at s1
  generalize x1 + x2 = y at *
  have hy := halves hh y
  obtain ⟨t1, _, _⟩ := add_cases x0 (y <<< h)
  rw [toNat_shl hh] at t1
  generalize x0 + y <<< h = z at *
  obtain ⟨v1, v2, v3⟩ := add_cases (r + c) z
  have q3 : (if r + c + z < z then 1 else 0 : Nat) = if r + c + z < r + c then 1 else 0 := if_congr (v3.trans v2.symm) rfl rfl
  rw [← q3] at v1
  -- names for the carries
  have n1 := toNat_bit hh (r + c < c)
  have n3 := toNat_bit hh (z < x0)
  have n4 := toNat_bit hh (r + c + z < z)
  have n2 : (if y < x2 then hc else 0 : W h).toNat = 2 ^ h * (if y < x2 then 1 else 0) := by
    split
    · rw [toNat_hc hh, Nat.mul_one]
    · simp
  generalize (if r + c < c then (1 : W h) else 0) = k1 at *
  generalize (if z < x0 then (1 : W h) else 0) = k3 at *
  generalize (if r + c + z < z then (1 : W h) else 0) = k4 at *
  generalize (if y < x2 then hc else (0 : W h)) = k2 at *
  generalize (if r + c < c then 1 else 0 : Nat) = d1 at *
  generalize (if y < x2 then 1 else 0 : Nat) = d2 at *
  generalize (if z < x0 then 1 else 0 : Nat) = d3 at *
  generalize (if r + c + z < z then 1 else 0 : Nat) = d4 at *
  have htot : a.toNat * b.toNat = x0.toNat + 2 ^ h * (x1.toNat + x2.toNat) + 2 ^ h * 2 ^ h * x3.toNat := by
    rw [ha, hb, m0, m1, m2, m3]; ring
  have key : (r + c + z).toNat + 2 ^ (h + h) * (d1 + 2 ^ h * d2 + d3 + (hi y).toNat + x3.toNat + d4) = a.toNat * b.toNat + r.toNat + c.toNat := by
    rw [htot, hB]
    rw [hB] at v1 p1 t1 s1
    rw [hy] at s1
    exact mulAddABC_arith v1 p1 t1 s1
  have bound : d1 + 2 ^ h * d2 + d3 + (hi y).toNat + x3.toNat + d4 < 2 ^ (h + h) := by
    have h2 : 2 ^ (h + h) * (d1 + 2 ^ h * d2 + d3 + (hi y).toNat + x3.toNat + d4) < 2 ^ (h + h) * 2 ^ (h + h) := by
      have := lt_sq a.isLt b.isLt hr hc'
      omega
    exact Nat.lt_of_mul_lt_mul_left h2
  have f1 : (k1 + k2).toNat = d1 + 2 ^ h * d2 := by rw [toNat_add_small _ _ (by omega)]; omega
  have f2 : (k1 + k2 + k3).toNat = d1 + 2 ^ h * d2 + d3 := by rw [toNat_add_small _ _ (by omega)]; omega
  have f3 : (k1 + k2 + k3 + hi y).toNat = d1 + 2 ^ h * d2 + d3 + (hi y).toNat := by rw [toNat_add_small _ _ (by omega)]; omega
  have f4 : (k1 + k2 + k3 + hi y + x3).toNat = d1 + 2 ^ h * d2 + d3 + (hi y).toNat + x3.toNat := by rw [toNat_add_small _ _ (by omega)]; omega
  have f5 : (k1 + k2 + k3 + hi y + x3 + k4).toNat = d1 + 2 ^ h * d2 + d3 + (hi y).toNat + x3.toNat + d4 := by
    rw [toNat_add_small _ _ (by omega)]; omega
  rw [f5]
  exact key

theorem hi_bound {B x u v : Nat} (hu : u < B) (hv : v < B) (h2 : 2 ≤ B) (hle : B * x ≤ u * v) : x + 1 < B := by
  obtain ⟨b, rfl⟩ : ∃ b, B = b + 2 := ⟨B - 2, by omega⟩
  have h1 := Nat.mul_le_mul (show u ≤ b + 1 by omega) (show v ≤ b + 1 by omega)
  have h5 : (b + 2) * x < (b + 2) * (b + 1) := by nlinarith
  have := Nat.lt_of_mul_lt_mul_left h5
  omega

/-- `MULADD_AB` adds the double word of `MUL_AB`. -/
theorem mulAddAB_eq (hh : 0 < h) (t m l u v : W h) :
    mulAddAB t m l u v =
      (t + (if m + ((mulAB u v).1 + if l + (mulAB u v).2 < (mulAB u v).2 then 1 else 0) <
          (mulAB u v).1 + (if l + (mulAB u v).2 < (mulAB u v).2 then 1 else 0) then 1 else 0),
        m + ((mulAB u v).1 + if l + (mulAB u v).2 < (mulAB u v).2 then 1 else 0), l + (mulAB u v).2) := by
  have hw := mulAB_spec hh u v
  have h2 : (mulAB u v).2 = u * v := by
    apply BitVec.eq_of_toNat_eq
    rw [BitVec.toNat_mul, ← hw, Nat.add_mul_mod_self_left, Nat.mod_eq_of_lt (BitVec.isLt _)]
  have h1 : (mulAB u v).1 = if lo u * hi v + hi (lo u * lo v) + hi u * lo v < hi u * lo v then
      hi u * hi v + hi (lo u * hi v + hi (lo u * lo v) + hi u * lo v) + hc
      else hi u * hi v + hi (lo u * hi v + hi (lo u * lo v) + hi u * lo v) := by
    unfold mulAB
    simp only
    split
    · rw [BitVec.add_assoc, BitVec.add_comm hc, ← BitVec.add_assoc]
    · rfl
  unfold mulAddAB
  simp only
  rw [h2, h1]

/-- `MULADD_AB` is exact as long as the top word does not overflow. -/
theorem mulAddAB_spec (hh : 0 < h) (t m l u v : W h) (ht : t.toNat + 1 < 2 ^ (h + h)) :
    (mulAddAB t m l u v).2.2.toNat + 2 ^ (h + h) * (mulAddAB t m l u v).2.1.toNat + 2 ^ (h + h) * 2 ^ (h + h) * (mulAddAB t m l u v).1.toNat =
      l.toNat + 2 ^ (h + h) * m.toNat + 2 ^ (h + h) * 2 ^ (h + h) * t.toNat + u.toNat * v.toNat := by
  rw [mulAddAB_eq hh]
  have hw := mulAB_spec hh u v
  generalize mulAB u v = q at hw ⊢
  obtain ⟨wh, wl⟩ := q
  simp only at hw ⊢
  have h4 := four_le hh
  have hb := hi_bound u.isLt v.isLt (by omega) (show 2 ^ (h + h) * wh.toNat ≤ u.toNat * v.toNat by omega)
  obtain ⟨d1, d2, d3⟩ := add_cases l wl
  have q2 : (if l + wl < wl then 1 else 0 : Nat) = if l + wl < l then 1 else 0 := if_congr (d3.trans d2.symm) rfl rfl
  rw [← q2] at d1
  have n2 := toNat_bit hh (l + wl < wl)
  have hk2 := bit_le (l + wl < wl)
  have e2 := toNat_add_small wh (if l + wl < wl then 1 else 0) (by rw [n2]; omega)
  rw [n2] at e2
  generalize wh + (if l + wl < wl then (1 : W h) else 0) = w at *
  obtain ⟨f1, f2, f3⟩ := add_cases m w
  have q3 : (if m + w < w then 1 else 0 : Nat) = if m + w < m then 1 else 0 := if_congr (f3.trans f2.symm) rfl rfl
  rw [← q3] at f1
  have hbit := bit_le (m + w < w)
  have hsum : (t + (if m + w < w then (1 : W h) else 0)).toNat = t.toNat + if m + w < w then 1 else 0 := by
    rw [toNat_add_small t _ (by rw [toNat_bit hh]; omega), toNat_bit hh]
  rw [hsum]
  generalize (if m + w < w then 1 else 0 : Nat) = e at *
  generalize (if l + wl < wl then 1 else 0 : Nat) = e' at *
  rw [e2] at f1
  generalize 2 ^ (h + h) = B at *
  have : B * (m + w).toNat + B * (B * e) = B * m.toNat + B * (wh.toNat + e') := by
    rw [← Nat.mul_add, f1, Nat.mul_add]
  rw [← hw]
  linarith

theorem divStep_spec (hh : 0 < h) (n below d : W h) (hn : n.toNat < d.toNat) (hb : below.toNat < 2 ^ h)
    (hd : 2 ^ (h + h) ≤ 2 * d.toNat) :
    (divStep n below d (hi d) (lo d)).1.toNat * d.toNat + (divStep n below d (hi d) (lo d)).2.toNat = n.toNat * 2 ^ h + below.toNat ∧
      (divStep n below d (hi d) (lo d)).2.toNat < d.toNat ∧ (divStep n below d (hi d) (lo d)).1.toNat < 2 ^ h := by
  have hdh := halves hh d
  have hd0 := lo_lt hh d
  have hd1 := hi_lt d
  have hB := pow_hh h
  have hH := two_le hh
  have hdB := d.isLt
  generalize hi d = d1 at *
  generalize lo d = d0 at *
  -- the leading half word of the divisor
  have hd1' : 2 ^ h ≤ 2 * d1.toNat + 1 := by
    by_contra hcon
    have : 2 * d1.toNat + 2 ≤ 2 ^ h := by omega
    have := Nat.mul_le_mul_left (2 ^ h) this
    rw [hB, hdh] at hd
    nlinarith
  have hd1pos : 0 < d1.toNat := by omega
  have hq : (n / d1).toNat = n.toNat / d1.toNat := BitVec.toNat_udiv
  have hdm := Nat.div_add_mod n.toNat d1.toNat
  have hrm := Nat.mod_lt n.toNat hd1pos
  unfold divStep
  simp only
  generalize n / d1 = q at *
  rw [← hq] at hdm
  generalize n.toNat % d1.toNat = r0 at *
  -- q is at most H + 1
  have hqle : q.toNat ≤ 2 ^ h + 1 := by
    by_contra hcon
    have h1 : 2 ^ h + 2 ≤ q.toNat := by omega
    have h2 := Nat.mul_le_mul_left d1.toNat h1
    rw [hdh] at hn
    have h3 : 2 * d1.toNat ≤ r0 + d0.toNat := by nlinarith
    nlinarith
  have hmul1 : (q * d1).toNat = d1.toNat * q.toNat := by
    rw [BitVec.toNat_mul, Nat.mul_comm, Nat.mod_eq_of_lt (by have := n.isLt; omega)]
  have hr : (n - q * d1).toNat = r0 := by
    have := toNat_sub_cases n (q * d1)
    rw [if_neg (by rw [BitVec.lt_def, hmul1]; omega)] at this
    omega
  have hm : (q * d0).toNat = q.toNat * d0.toNat ∧ q.toNat * d0.toNat < 2 ^ (h + h) := by
    have h1 : q.toNat * d0.toNat ≤ (2 ^ h + 1) * (2 ^ h - 1) := Nat.mul_le_mul hqle (by omega)
    have h2 : (2 ^ h + 1) * (2 ^ h - 1) < 2 ^ (h + h) := by
      rw [hB]
      generalize 2 ^ h = H at *
      obtain ⟨k, rfl⟩ : ∃ k, H = k + 1 := ⟨H - 1, by omega⟩
      simp only [Nat.add_sub_cancel]
      nlinarith
    rw [BitVec.toNat_mul, Nat.mod_eq_of_lt (by omega)]
    exact ⟨rfl, by omega⟩
  obtain ⟨hm1, hm2⟩ := hm
  have hR : ((n - q * d1) <<< h ||| below).toNat = 2 ^ h * r0 + below.toNat := by
    rw [toNat_shl_or hh _ _ hb, toNat_lo hh, hr, Nat.mod_eq_of_lt (by omega)]
  generalize (n - q * d1) <<< h ||| below = R at *
  generalize q * d0 = m at *
  -- the mathematical identity: n * H + below = q * d + R - m
  have hid : n.toNat * 2 ^ h + below.toNat + m.toNat = q.toNat * d.toNat + R.toNat := by
    rw [hR, hm1, ← hdm, hdh]; ring
  have hRd : R.toNat < d.toNat := by
    rw [hR, hdh]
    have := Nat.mul_le_mul_left (2 ^ h) (show r0 + 1 ≤ d1.toNat by omega)
    rw [Nat.mul_add] at this; omega
  have hqH : ∀ Q r : Nat, Q * d.toNat + r = n.toNat * 2 ^ h + below.toNat → Q < 2 ^ h := by
    intro Q r hQ
    by_contra hcon
    have h1 := Nat.mul_le_mul_right d.toNat (show 2 ^ h ≤ Q by omega)
    have h2 := Nat.mul_le_mul_right (2 ^ h) (show n.toNat + 1 ≤ d.toNat by omega)
    nlinarith
  have one := toNat_one hh
  by_cases c1 : R < m
  · rw [if_pos c1]
    have c1' := BitVec.lt_def.1 c1
    have hq1 : 1 ≤ q.toNat := by
      rcases Nat.eq_zero_or_pos q.toNat with hq0 | hq0
      · rw [hq0, Nat.zero_mul] at hm1; omega
      · exact hq0
    have hqm1 : (q - 1).toNat = q.toNat - 1 := by
      have := toNat_sub_cases q 1
      rw [if_neg (by rw [BitVec.lt_def, one]; omega), one] at this
      omega
    have hqd : q.toNat * d.toNat = (q.toNat - 1) * d.toNat + d.toNat := by
      conv => lhs; rw [show q.toNat = (q.toNat - 1) + 1 by omega]
      rw [Nat.add_mul, Nat.one_mul]
    by_cases c2 : R + d ≥ d
    · -- the addition did not overflow
      have c2' : ¬ (R + d < d) := BitVec.not_lt.2 c2
      obtain ⟨a1, a2, a3⟩ := add_cases R d
      have hov : R.toNat + d.toNat < 2 ^ (h + h) := by
        by_contra hcon; exact c2' (a3.2 (by omega))
      have hsum := toNat_add_small R d hov
      rw [if_pos c2]
      by_cases c3 : R + d < m
      · have c3' := BitVec.lt_def.1 c3
        rw [if_pos c3]
        simp only
        have hq2 : 2 ≤ q.toNat := by
          by_contra hcon
          have : q.toNat = 1 := by omega
          rw [this, Nat.one_mul] at hm1
          have : d0.toNat ≤ d.toNat := by rw [hdh]; omega
          omega
        have hqm2 : (q - 1 - 1).toNat = q.toNat - 2 := by
          have := toNat_sub_cases (q - 1) 1
          rw [if_neg (by rw [BitVec.lt_def, one, hqm1]; omega), one, hqm1] at this
          omega
        have hfin : (R + d + d - m).toNat = R.toNat + 2 * d.toNat - m.toNat := by
          rw [BitVec.toNat_sub, BitVec.toNat_add, hsum]
          rw [Nat.add_mod_mod]
          have e : 2 ^ (h + h) - m.toNat + (R.toNat + d.toNat + d.toNat) = 2 ^ (h + h) + (R.toNat + 2 * d.toNat - m.toNat) := by omega
          rw [e, Nat.add_mod_left, Nat.mod_eq_of_lt (by omega)]
        have hqd2 : q.toNat * d.toNat = (q.toNat - 2) * d.toNat + 2 * d.toNat := by
          conv => lhs; rw [show q.toNat = (q.toNat - 2) + 2 by omega]
          rw [Nat.add_mul]
        rw [hqm2, hfin]
        have he : (q.toNat - 2) * d.toNat + (R.toNat + 2 * d.toNat - m.toNat) = n.toNat * 2 ^ h + below.toNat := by omega
        exact ⟨he, by omega, hqH _ _ he⟩
      · rw [if_neg c3]
        have c3' : ¬ (R + d).toNat < m.toNat := fun hx => c3 (BitVec.lt_def.2 hx)
        simp only
        have hfin : (R + d - m).toNat = R.toNat + d.toNat - m.toNat := by
          have := toNat_sub_cases (R + d) m
          rw [if_neg c3, hsum] at this
          omega
        rw [hqm1, hfin]
        have he : (q.toNat - 1) * d.toNat + (R.toNat + d.toNat - m.toNat) = n.toNat * 2 ^ h + below.toNat := by omega
        exact ⟨he, by omega, hqH _ _ he⟩
    · rw [if_neg c2]
      simp only
      obtain ⟨a1, a2, a3⟩ := add_cases R d
      have hlt : R + d < d := BitVec.not_le.1 c2
      have hov := a3.1 hlt
      have hfin : (R + d - m).toNat = R.toNat + d.toNat - m.toNat := by
        rw [BitVec.toNat_sub, BitVec.toNat_add, Nat.add_mod_mod]
        have e : 2 ^ (h + h) - m.toNat + (R.toNat + d.toNat) = 2 ^ (h + h) + (R.toNat + d.toNat - m.toNat) := by omega
        rw [e, Nat.add_mod_left, Nat.mod_eq_of_lt (by omega)]
      rw [hqm1, hfin]
      have he : (q.toNat - 1) * d.toNat + (R.toNat + d.toNat - m.toNat) = n.toNat * 2 ^ h + below.toNat := by omega
      exact ⟨he, by omega, hqH _ _ he⟩
  · rw [if_neg c1]
    have c1' : ¬ R.toNat < m.toNat := fun hx => c1 (BitVec.lt_def.2 hx)
    simp only
    have hfin : (R - m).toNat = R.toNat - m.toNat := by
      have := toNat_sub_cases R m
      rw [if_neg c1] at this
      omega
    rw [hfin]
    have he : q.toNat * d.toNat + (R.toNat - m.toNat) = n.toNat * 2 ^ h + below.toNat := by omega
    exact ⟨he, by omega, hqH _ _ he⟩

/-- `DIV_ND` divides a double word by a normalised word that exceeds its upper half. -/
theorem divND_spec (hh : 0 < h) (nh nl d : W h) (hn : nh.toNat < d.toNat) (hd : 2 ^ (h + h) ≤ 2 * d.toNat) :
    ∃ q r, divND nh nl d = some (q, r) ∧ q.toNat * d.toNat + r.toNat = nh.toNat * 2 ^ (h + h) + nl.toNat ∧ r.toNat < d.toNat := by
  unfold divND
  simp only
  have hdh := halves hh d
  have hd0 := lo_lt hh d
  have hB := pow_hh h
  have hH := two_le hh
  have hne : hi d ≠ 0 := by
    intro h0
    have : (hi d).toNat = 0 := by rw [h0]; simp
    rw [this, Nat.mul_zero, Nat.add_zero] at hdh
    have : 2 * 2 ^ h ≤ 2 ^ h * 2 ^ h := Nat.mul_le_mul_right _ hH
    omega
  rw [if_neg hne]
  obtain ⟨a1, a2, a3⟩ := divStep_spec hh nh (hi nl) d hn (hi_lt nl) hd
  generalize divStep nh (hi nl) d (hi d) (lo d) = s1 at *
  obtain ⟨q1, r1⟩ := s1
  simp only at a1 a2 a3 ⊢
  obtain ⟨b1, b2, b3⟩ := divStep_spec hh r1 (lo nl) d a2 (lo_lt hh nl) hd
  generalize divStep r1 (lo nl) d (hi d) (lo d) = s0 at *
  obtain ⟨q0, r0⟩ := s0
  simp only at b1 b2 b3 ⊢
  refine ⟨_, _, rfl, ?_, b2⟩
  rw [toNat_shl_or hh _ _ b3, toNat_lo hh, Nat.mod_eq_of_lt a3, hB, halves hh nl]
  have : q1.toNat * d.toNat * 2 ^ h + r1.toNat * 2 ^ h = nh.toNat * 2 ^ h * 2 ^ h + (hi nl).toNat * 2 ^ h := by
    rw [← Nat.add_mul, a1, Nat.add_mul]
  linarith

end Verif.Crypto.Bn
