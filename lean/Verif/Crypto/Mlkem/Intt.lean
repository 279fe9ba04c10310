import Verif.Crypto.Mlkem.Ntt2
/-! The inverse transform. -/
namespace Verif.Crypto.Mlkem
open Finset

theorem ibutterfly_at (zeta : Int) (len j : Nat) (hl : 0 < len) (a : Poly) (x : Nat) :
    ibutterfly zeta len j a x =
      if x = j then i16 (a j + a (j + len))
      else if x = j + len then mulT zeta (i16 (a (j + len) - a j)) else a x := by
  unfold ibutterfly
  simp only [mulT_comm]
  unfold upd
  by_cases h1 : x = j
  · subst h1
    rw [if_neg (by omega), if_neg (by omega), if_pos rfl, if_pos rfl]
  · rw [if_neg h1]
    by_cases h2 : x = j + len
    · subst h2
      simp only [if_true, if_neg (show ¬ (j + len = j) by omega)]
    · rw [if_neg h2, if_neg h2, if_neg h1, if_neg h2]

/-- One layer of the inverse transform, as a function of the index. -/
def ilayerF (z : Nat → Int) (len : Nat) (a : Poly) : Poly := fun x =>
  if x % (2 * len) < len then i16 (a x + a (x + len))
  else mulT (z (x / (2 * len))) (i16 (a x - a (x - len)))

theorem inttBlock_at (zeta : Int) (len start : Nat) (a : Poly) (n : Nat) (hn : n ≤ len) (x : Nat) :
    inttBlock zeta len start a n x =
      if start ≤ x ∧ x < start + n then i16 (a x + a (x + len))
      else if start + len ≤ x ∧ x < start + len + n then mulT zeta (i16 (a x - a (x - len)))
      else a x := by
  induction n generalizing x with
  | zero =>
    rw [if_neg (by omega), if_neg (by omega)]; rfl
  | succ n ih =>
    have ih := fun x => ih (by omega) x
    have h1 : inttBlock zeta len start a n (start + n) = a (start + n) := by
      rw [ih, if_neg (by omega), if_neg (by omega)]
    have h2 : inttBlock zeta len start a n (start + n + len) = a (start + n + len) := by
      rw [ih, if_neg (by omega), if_neg (by omega)]
    show ibutterfly zeta len (start + n) (inttBlock zeta len start a n) x = _
    rw [ibutterfly_at _ _ _ (by omega), h1, h2]
    by_cases hx : x = start + n
    · subst hx
      rw [if_pos rfl, if_pos (by omega)]
    · rw [if_neg hx]
      by_cases hx2 : x = start + n + len
      · subst hx2
        rw [if_pos rfl, if_neg (by omega), if_pos (by omega)]
        rw [show start + n + len - len = start + n by omega]
      · rw [if_neg hx2, ih]
        by_cases c1 : start ≤ x ∧ x < start + n
        · rw [if_pos c1, if_pos (by omega)]
        · rw [if_neg c1, if_neg (c := start ≤ x ∧ x < start + (n + 1)) (by omega)]
          by_cases c2 : start + len ≤ x ∧ x < start + len + n
          · rw [if_pos c2, if_pos (by omega)]
          · rw [if_neg c2, if_neg (by omega)]

theorem inttLayer_eq (psi : List Int) (len : Nat) (hl : 0 < len) (a : Poly) (k n : Nat) :
    (inttLayer psi len (a, k) n).2 = k - n ∧ ∀ x, (inttLayer psi len (a, k) n).1 x =
      if x < 2 * len * n then ilayerF (fun b => tab psi (k - b)) len a x else a x := by
  induction n with
  | zero => exact ⟨rfl, fun x => by rw [if_neg (by omega)]; rfl⟩
  | succ n ih =>
    obtain ⟨ih1, ih2⟩ := ih
    obtain ⟨a', k', he⟩ : ∃ a' k', inttLayer psi len (a, k) n = (a', k') := ⟨_, _, rfl⟩
    rw [he] at ih1 ih2
    have hs : inttLayer psi len (a, k) (n + 1) = (inttBlock (tab psi k') len (2 * len * n) a' len, k' - 1) := by
      rw [inttLayer, he]
    rw [hs]
    simp only at ih1 ih2
    refine ⟨by simp only [ih1]; omega, fun x => ?_⟩
    show inttBlock (tab psi k') len (2 * len * n) a' len x = _
    have hm : 2 * len * (n + 1) = 2 * len * n + 2 * len := by ring
    rw [inttBlock_at _ _ _ _ _ (le_refl _), ih1]
    by_cases c1 : 2 * len * n ≤ x ∧ x < 2 * len * n + len
    · have hd := div_block c1.1 (show x < 2 * len * n + 2 * len by omega)
      rw [if_pos c1, ih2, if_neg (by omega), ih2, if_neg (by omega), if_pos (by omega)]
      unfold ilayerF
      rw [hd.2, if_pos (by omega)]
    · rw [if_neg c1]
      by_cases c2 : 2 * len * n + len ≤ x ∧ x < 2 * len * n + len + len
      · have hd := div_block (show 2 * len * n ≤ x by omega) (show x < 2 * len * n + 2 * len by omega)
        rw [if_pos c2, ih2, if_neg (by omega), ih2, if_neg (by omega), if_pos (by omega)]
        unfold ilayerF
        rw [hd.1, hd.2, if_neg (by omega)]
      · rw [if_neg c2, ih2]
        by_cases c3 : x < 2 * len * n
        · rw [if_pos c3, if_pos (by omega)]
        · rw [if_neg c3, if_neg (by omega)]

/-- One inverse layer over a ring. -/
def ILZ {R : Type} [CommRing R] (w : Nat → R) (len : Nat) (f : Nat → R) : Nat → R := fun x =>
  if x % (2 * len) < len then f x + f (x + len)
  else w (x / (2 * len)) * (f x - f (x - len))

/-- The bound after an inverse layer. -/
def bnd (len : Nat) (W : Nat → Int) : Nat → Int := fun x =>
  if x % (2 * len) < len then W x + W (x + len) else 1664

theorem blk {len nb x : Nat} (hl : 0 < len) (h256 : 2 * len * nb = 256) (hx : x < 256) :
    x / (2 * len) < nb ∧ (x % (2 * len) < len → x + len < 256) ∧ (¬ x % (2 * len) < len → len ≤ x) := by
  have hbl := lt_block hl (show x < 2 * len * nb by omega)
  have hxb : x % (2 * len) < 2 * len := Nat.mod_lt _ (by omega)
  have hdm := Nat.div_add_mod x (2 * len)
  have hle : 2 * len * (x / (2 * len) + 1) ≤ 2 * len * nb := Nat.mul_le_mul_left _ hbl
  rw [Nat.mul_add, Nat.mul_one] at hle
  exact ⟨hbl, by omega, by omega⟩

/-- A general inverse layer: any function of the block for the constants. -/
theorem ilayer_step (z wv : Nat → Int) (len nb : Nat) (hl : 0 < len) (h256 : 2 * len * nb = 256)
    (hz : ∀ b, b < nb → PlantardForm (z b) (wv b))
    (a : Poly) (W : Nat → Int) (hW : ∀ x, x < 256 → x % (2 * len) < len → W x + W (x + len) ≤ 32767)
    (ha : ∀ x, x < 256 → -W x ≤ a x ∧ a x ≤ W x) :
    ∀ x, x < 256 →
      (-(bnd len W x) ≤ ilayerF z len a x ∧ ilayerF z len a x ≤ bnd len W x) ∧
      ((ilayerF z len a x : Int) : Zq) =
        ILZ (fun b => ((wv b : Int) : Zq)) len (fun i => ((a i : Int) : Zq)) x := by
  intro x hx
  obtain ⟨hbl, h1, h2⟩ := blk hl h256 hx
  unfold ilayerF ILZ bnd
  by_cases hc : x % (2 * len) < len
  · simp only [if_pos hc]
    have hi := ha x hx
    have hj := ha (x + len) (h1 hc)
    have := hW x hx hc
    rw [i16_id (by omega)]
    exact ⟨by omega, by push_cast; rfl⟩
  · simp only [if_neg hc]
    have hle := h2 hc
    have hi := ha x hx
    have hj := ha (x - len) (by omega)
    have hc' : (x - len) % (2 * len) < len := by
      have hxb : x % (2 * len) < 2 * len := Nat.mod_lt _ (by omega)
      have hdm := Nat.div_add_mod x (2 * len)
      have := (div_block (len := len) (n := x / (2 * len)) (x := x - len) (by omega) (by omega)).2
      omega
    have := hW (x - len) (by omega) hc'
    rw [show x - len + len = x by omega] at this
    obtain ⟨e, hr⟩ := mulT_cast (i16 (a x - a (x - len))) _ _ (by rw [i16_id (by omega)]; omega) (hz _ hbl)
    refine ⟨hr, ?_⟩
    rw [e, i16_id (by omega)]
    push_cast; rfl

/-- `ILZ` undoes `LZ` up to a factor 2. -/
theorem ILZ_LZ {R : Type} [CommRing R] (z w : Nat → R) (len nb : Nat) (hl : 0 < len) (h256 : 2 * len * nb = 256)
    (c : R) (g f : Nat → R) (hw : ∀ b, b < nb → w b * z b = -1) (hg : ∀ x, x < 256 → g x = c * LZ z len f x) :
    ∀ x, x < 256 → ILZ w len g x = 2 * c * f x := by
  intro x hx
  obtain ⟨hbl, h1, h2⟩ := blk hl h256 hx
  have hxb : x % (2 * len) < 2 * len := Nat.mod_lt _ (by omega)
  have hdm := Nat.div_add_mod x (2 * len)
  unfold ILZ
  by_cases hc : x % (2 * len) < len
  · have hx2 := h1 hc
    have d := div_block (len := len) (n := x / (2 * len)) (x := x + len) (by omega) (by omega)
    rw [if_pos hc, hg x hx, hg (x + len) hx2]
    unfold LZ
    rw [if_pos hc, d.1, d.2, if_neg (by omega), show x + len - len = x by omega]
    ring
  · have hle := h2 hc
    have d := div_block (len := len) (n := x / (2 * len)) (x := x - len) (by omega) (by omega)
    rw [if_neg hc, hg x hx, hg (x - len) (by omega)]
    unfold LZ
    rw [if_neg hc, d.1, d.2, if_pos (by omega), show x - len + len = x by omega]
    have := hw _ hbl
    linear_combination (-2 * c * f x) * this

/-- The zetas of the inverse layers: `ζ_(2^(l+1)-1-b) ζ_(2^l+b) = -1`. -/
theorem zv_inv : ∀ l : Fin 7, ∀ b : Fin 64, b.1 < 2 ^ l.1 →
    (3329 : Int) ∣ (zv (2 ^ (l.1 + 1) - 1 - b) * zv (2 ^ l.1 + b) - (-1)) := by decide +kernel

theorem zq_inv (l b : Nat) (hl : l < 7) (hb : b < 2 ^ l) : zq (2 ^ (l + 1) - 1 - b) * zq (2 ^ l + b) = -1 := by
  have hp : 2 ^ l ≤ 2 ^ 6 := Nat.pow_le_pow_right (by decide) (by omega)
  have := cast_eq_of_dvd (zv_inv ⟨l, hl⟩ ⟨b, by omega⟩ hb)
  push_cast at this; exact this

/-- One of the six table-driven inverse layers. -/
theorem intt_layer (f : Nat → Zq) (l len nb K : Nat) (hl7 : l < 7) (e1 : len = 128 / 2 ^ l) (e2 : nb = 2 ^ l)
    (h256 : 2 * len * nb = 256) (hl : 0 < len) (eK : K = 2 ^ (l + 1) - 1) (c : Zq) (a : Poly) (W : Nat → Int)
    (hW : ∀ x, x < 256 → x % (2 * len) < len → W x + W (x + len) ≤ 32767)
    (ha : ∀ x, x < 256 → (-W x ≤ a x ∧ a x ≤ W x) ∧ ((a x : Int) : Zq) = c * nz (l + 1) f x) :
    (inttLayer zetaPower1 len (a, K) nb).2 = K - nb ∧
    ∀ x, x < 256 →
      (-(bnd len W x) ≤ (inttLayer zetaPower1 len (a, K) nb).1 x ∧
        (inttLayer zetaPower1 len (a, K) nb).1 x ≤ bnd len W x) ∧
      (((inttLayer zetaPower1 len (a, K) nb).1 x : Int) : Zq) = 2 * c * nz l f x := by
  obtain ⟨h1, h2⟩ := inttLayer_eq zetaPower1 len hl a K nb
  refine ⟨h1, fun x hx => ?_⟩
  rw [h2 x, if_pos (by omega)]
  have hp : 2 ^ l ≤ 2 ^ 6 := Nat.pow_le_pow_right (by decide) (by omega)
  have hp2 : 2 ^ (l + 1) = 2 * 2 ^ l := by ring
  obtain ⟨hb, hv⟩ := ilayer_step (fun b => tab zetaPower1 (K - b)) (fun b => zv (K - b)) len nb hl h256
    (fun b _ => table1 ⟨K - b, by omega⟩) a W hW (fun x h => (ha x h).1) x hx
  refine ⟨hb, ?_⟩
  rw [hv]
  refine ILZ_LZ (fun b => zq (2 ^ l + b)) _ len nb hl h256 c _ (nz l f) ?_ ?_ x hx
  · intro b hb
    show zq (K - b) * zq (2 ^ l + b) = -1
    rw [eK]; exact zq_inv l b hl7 (by omega)
  · intro x hx
    rw [e1]; exact (ha x hx).2

theorem last_form : PlantardForm lastRoundZeta 1652 := by decide
theorem half_form : PlantardForm halfDegreeInverse 3303 := by decide

/-- The parity sums over the blocks of 16 that the first three inverse layers form. -/
def SumsFit (a : Poly) : Prop := ∀ c p, c < 16 → p < 2 →
  |a (16 * c + p)| + |a (16 * c + p + 2)| + |a (16 * c + p + 4)| + |a (16 * c + p + 6)| + |a (16 * c + p + 8)| +
    |a (16 * c + p + 10)| + |a (16 * c + p + 12)| + |a (16 * c + p + 14)| ≤ 32767

theorem bnd_const (len : Nat) (W : Nat → Int) (C : Int) (hC : 1664 ≤ C) (h : ∀ x, x < 256 → W x ≤ C) (x : Nat)
    (hx : x < 256) (hx2 : x % (2 * len) < len → x + len < 256) : bnd len W x ≤ 2 * C := by
  unfold bnd
  split
  · next h1 => have := h x hx; have := h (x + len) (hx2 h1); omega
  · omega

theorem barrettAll_step (a : Poly) (c : Zq) (f : Nat → Zq) (W : Nat → Int) (hW : ∀ x, x < 256 → W x ≤ 75000)
    (ha : ∀ x, x < 256 → (-W x ≤ a x ∧ a x ≤ W x) ∧ ((a x : Int) : Zq) = c * f x) :
    ∀ x, x < 256 → (-1664 ≤ barrettAll a x ∧ barrettAll a x ≤ 1664) ∧ ((barrettAll a x : Int) : Zq) = c * f x := by
  intro x hx
  have h := ha x hx
  have := hW x hx
  refine ⟨barrett_range_small _ (by omega), ?_⟩
  rw [← h.2]
  symm
  exact cast_eq_of_dvd (barrett_dvd _ (by omega))

theorem layer_pair (psi : List Int) (len : Nat) (hl : 0 < len) (a : Poly) (k n : Nat) :
    inttLayer psi len (a, k) n = ((inttLayer psi len (a, k) n).1, k - n) :=
  Prod.ext rfl (inttLayer_eq psi len hl a k n).1

/-- The folds of the code, written out. -/
theorem intt_fold (psi : List Int) (g : Poly) :
    intt psi g = scaleLow (inttBlock lastRoundZeta 128 0 (barrettAll
      (inttLayer psi 64 ((inttLayer psi 32 ((inttLayer psi 16 (barrettAll
        (inttLayer psi 8 ((inttLayer psi 4 ((inttLayer psi 2 (g, 127) 64).1, 63) 32).1, 31) 16).1,
        15) 8).1, 7) 4).1, 3) 2).1) 128) := by
  unfold intt
  simp only [List.foldl_cons, List.foldl_nil, Nat.reduceMul, Nat.reduceDiv]
  rw [layer_pair psi 2 (by decide) g 127 64]
  generalize (inttLayer psi 2 (g, 127) 64).1 = a1
  rw [layer_pair psi 4 (by decide) a1 _ 32]
  simp only [Nat.reduceSub]
  generalize (inttLayer psi 4 (a1, 63) 32).1 = a2
  rw [layer_pair psi 8 (by decide) a2 _ 16]
  simp only [Nat.reduceSub]
  generalize (inttLayer psi 8 (a2, 31) 16).1 = a3
  rw [layer_pair psi 16 (by decide) _ _ 8]
  simp only [Nat.reduceSub]
  generalize (inttLayer psi 16 (barrettAll a3, 15) 8).1 = a4
  rw [layer_pair psi 32 (by decide) _ _ 4]

theorem nz_one (f : Nat → Zq) : nz 1 f = LZ (fun b => zq (1 + b)) 128 f := rfl

theorem zq1_last : ((1652 : Int) : Zq) * (-128) * zq 1 = 1 := by decide +kernel
theorem half_inv : ((3303 : Int) : Zq) * 128 = 1 := by decide +kernel

/-- The last layer and the final scaling. -/
theorem intt_last (f : Nat → Zq) (A : Poly) (c : Zq) (hcc : c = 64)
    (L8 : ∀ x, x < 256 → (-1664 ≤ A x ∧ A x ≤ 1664) ∧ ((A x : Int) : Zq) = c * nz 1 f x) (x : Nat) (hx : x < 256) :
    (-1664 ≤ scaleLow (inttBlock lastRoundZeta 128 0 A 128) x ∧
      scaleLow (inttBlock lastRoundZeta 128 0 A 128) x ≤ 1664) ∧
    ((scaleLow (inttBlock lastRoundZeta 128 0 A 128) x : Int) : Zq) = f x := by
  -- the last layer
  have L9 := ilayer_step (fun _ => lastRoundZeta) (fun _ => 1652) 128 1 (by decide) (by decide)
    (fun _ _ => last_form) _ (fun _ => 1664) (fun _ _ _ => by omega) (fun x h => (L8 x h).1)
  have hblk : ∀ (a : Poly) x, x < 256 → inttBlock lastRoundZeta 128 0 a 128 x =
      ilayerF (fun _ => lastRoundZeta) 128 a x := by
    intro a x h
    rw [inttBlock_at _ _ _ _ _ (le_refl _)]
    unfold ilayerF
    by_cases hc : x % (2 * 128) < 128
    · rw [if_pos (by omega), if_pos hc]
    · rw [if_neg (by omega), if_neg hc, if_pos (by omega)]
  unfold scaleLow
  have h9 := L9 x hx
  rw [hblk _ x hx]
  by_cases hc : x < 128
  · rw [if_pos hc]
    have hbd : bnd 128 (fun _ => 1664) x ≤ 3328 := by
      unfold bnd; rw [if_pos (by omega)]; beta_reduce; omega
    obtain ⟨e, hr⟩ := mulT_cast (ilayerF (fun _ => lastRoundZeta) 128 A x) _ _ ⟨by omega, by omega⟩ half_form
    refine ⟨hr, ?_⟩
    show ((mulT halfDegreeInverse _ : Int) : Zq) = _
    rw [e, h9.2]
    unfold ILZ
    rw [if_pos (by omega)]
    beta_reduce
    rw [(L8 x hx).2, (L8 (x + 128) (by omega)).2]
    rw [nz_one, hcc]
    have d1 : x % (2 * 128) < 128 := by omega
    have d2 : ¬ (x + 128) % (2 * 128) < 128 := by omega
    unfold LZ
    rw [if_pos d1, if_neg d2, show x / (2 * 128) = 0 by omega, show (x + 128) / (2 * 128) = 0 by omega,
      Nat.add_sub_cancel]
    linear_combination (f x) * half_inv
  · rw [if_neg hc]
    have d1 : ¬ x % (2 * 128) < 128 := by omega
    have hbd : bnd 128 (fun _ => 1664) x = 1664 := by unfold bnd; rw [if_neg d1]
    rw [hbd] at h9
    refine ⟨h9.1, ?_⟩
    rw [h9.2]
    unfold ILZ
    rw [if_neg d1]
    beta_reduce
    rw [(L8 x hx).2, (L8 (x - 128) (by omega)).2]
    rw [nz_one, hcc]
    have d2 : (x - 128) % (2 * 128) < 128 := by omega
    unfold LZ
    rw [if_pos d2, if_neg d1, show x / (2 * 128) = 0 by omega, show (x - 128) / (2 * 128) = 0 by omega,
      show x - 128 + 128 = x by omega]
    beta_reduce; rw [Nat.add_zero]
    linear_combination (f x) * zq1_last

theorem intt_main (g : Poly) (f : Nat → Zq) (hs : SumsFit g)
    (hg : ∀ x, x < 256 → ((g x : Int) : Zq) = Spec.ntt f x) (x : Nat) (hx : x < 256) :
    (-1664 ≤ intt zetaPower1 g x ∧ intt zetaPower1 g x ≤ 1664) ∧ ((intt zetaPower1 g x : Int) : Zq) = f x := by
  have W0 : ∀ x, x < 256 → (-(|g x|) ≤ g x ∧ g x ≤ |g x|) ∧ ((g x : Int) : Zq) = 1 * nz 7 f x := fun x h =>
    ⟨⟨neg_abs_le _, le_abs_self _⟩, by rw [hg x h, nz7_eq f x h, one_mul]⟩
  have key : ∀ x, x < 256 → ∃ c r, x = 16 * c + r ∧ c < 16 ∧ r < 16 := fun x h => ⟨x / 16, x % 16, by omega⟩
  have w1 : ∀ x, x < 256 → x % (2 * 2) < 2 → |g x| + |g (x + 2)| ≤ 32767 := by
    intro x h h2
    obtain ⟨c, r, rfl, hc, hr⟩ := key x h
    have a0 := fun y => abs_nonneg (g y)
    have s0 := hs c 0 hc (by decide)
    have s1 := hs c 1 hc (by decide)
    have hr' : r = 0 ∨ r = 1 ∨ r = 4 ∨ r = 5 ∨ r = 8 ∨ r = 9 ∨ r = 12 ∨ r = 13 := by omega
    have b := fun k => a0 (16 * c + k)
    have b0 := b 0; have b1 := b 1; have b2 := b 2; have b3 := b 3; have b4 := b 4; have b5 := b 5; have b6 := b 6
    have b7 := b 7; have b8 := b 8; have b9 := b 9; have b10 := b 10; have b11 := b 11; have b12 := b 12
    have b13 := b 13; have b14 := b 14; have b15 := b 15
    simp only [Nat.add_assoc, Nat.reduceAdd] at s0 s1
    rcases hr' with rfl | rfl | rfl | rfl | rfl | rfl | rfl | rfl <;> simp only [Nat.add_assoc, Nat.reduceAdd] <;> omega
  have L1 := intt_layer f 6 2 64 127 (by decide) (by decide) (by decide) (by decide) (by decide) (by decide) 1 g
    (fun x => |g x|) w1 W0
  obtain ⟨V1, hV1⟩ : ∃ V, V = bnd 2 (fun x => |g x|) := ⟨_, rfl⟩
  rw [← hV1] at L1
  have w2 : ∀ x, x < 256 → x % (2 * 4) < 4 → V1 x + V1 (x + 4) ≤ 32767 := by
    intro x h h2
    obtain ⟨c, r, rfl, hc, hr⟩ := key x h
    have a0 := fun y => abs_nonneg (g y)
    have s0 := hs c 0 hc (by decide)
    have s1 := hs c 1 hc (by decide)
    have hr' : r = 0 ∨ r = 1 ∨ r = 2 ∨ r = 3 ∨ r = 8 ∨ r = 9 ∨ r = 10 ∨ r = 11 := by omega
    have b := fun k => a0 (16 * c + k)
    have b0 := b 0; have b1 := b 1; have b2 := b 2; have b3 := b 3; have b4 := b 4; have b5 := b 5; have b6 := b 6
    have b7 := b 7; have b8 := b 8; have b9 := b 9; have b10 := b 10; have b11 := b 11; have b12 := b 12
    have b13 := b 13; have b14 := b 14; have b15 := b 15
    simp only [Nat.add_assoc, Nat.reduceAdd] at s0 s1
    rw [hV1]; unfold bnd
    rcases hr' with rfl | rfl | rfl | rfl | rfl | rfl | rfl | rfl <;> simp only [Nat.add_assoc, Nat.reduceAdd] <;>
      split <;> split <;> omega
  have L2 := intt_layer f 5 4 32 63 (by decide) (by decide) (by decide) (by decide) (by decide) (by decide) _ _ V1 w2
    L1.2
  obtain ⟨V2, hV2⟩ : ∃ V, V = bnd 4 V1 := ⟨_, rfl⟩
  rw [← hV2] at L2
  have w3 : ∀ x, x < 256 → x % (2 * 8) < 8 → V2 x + V2 (x + 8) ≤ 32767 := by
    intro x h h2
    obtain ⟨c, r, rfl, hc, hr⟩ := key x h
    have a0 := fun y => abs_nonneg (g y)
    have s0 := hs c 0 hc (by decide)
    have s1 := hs c 1 hc (by decide)
    have hr' : r = 0 ∨ r = 1 ∨ r = 2 ∨ r = 3 ∨ r = 4 ∨ r = 5 ∨ r = 6 ∨ r = 7 := by omega
    have b := fun k => a0 (16 * c + k)
    have b0 := b 0; have b1 := b 1; have b2 := b 2; have b3 := b 3; have b4 := b 4; have b5 := b 5; have b6 := b 6
    have b7 := b 7; have b8 := b 8; have b9 := b 9; have b10 := b 10; have b11 := b 11; have b12 := b 12
    have b13 := b 13; have b14 := b 14; have b15 := b 15
    simp only [Nat.add_assoc, Nat.reduceAdd] at s0 s1
    have v1 : ∀ k, k % 4 < 2 → V1 (16 * c + k) = |g (16 * c + k)| + |g (16 * c + (k + 2))| := by
      intro k hk; rw [hV1]; unfold bnd; rw [if_pos (by omega)]; rfl
    have v1' : ∀ k, ¬ k % 4 < 2 → V1 (16 * c + k) = 1664 := by
      intro k hk; rw [hV1]; unfold bnd; rw [if_neg (by omega)]
    have v2 : ∀ k, k % 8 < 4 → V2 (16 * c + k) = V1 (16 * c + k) + V1 (16 * c + (k + 4)) := by
      intro k hk; rw [hV2]; unfold bnd; rw [if_pos (by omega)]; rfl
    have v2' : ∀ k, ¬ k % 8 < 4 → V2 (16 * c + k) = 1664 := by
      intro k hk; rw [hV2]; unfold bnd; rw [if_neg (by omega)]
    rcases hr' with rfl | rfl | rfl | rfl | rfl | rfl | rfl | rfl <;> simp only [Nat.add_assoc, Nat.reduceAdd]
    · rw [v2 0 (by decide), v2 8 (by decide), v1 0 (by decide), v1 (0 + 4) (by decide), v1 8 (by decide),
        v1 (8 + 4) (by decide)]
      simp only [Nat.reduceAdd]; omega
    · rw [v2 1 (by decide), v2 9 (by decide), v1 1 (by decide), v1 (1 + 4) (by decide), v1 9 (by decide),
        v1 (9 + 4) (by decide)]
      simp only [Nat.reduceAdd]; omega
    · rw [v2 2 (by decide), v2 10 (by decide), v1' 2 (by decide), v1' (2 + 4) (by decide), v1' 10 (by decide),
        v1' (10 + 4) (by decide)]
      omega
    · rw [v2 3 (by decide), v2 11 (by decide), v1' 3 (by decide), v1' (3 + 4) (by decide), v1' 11 (by decide),
        v1' (11 + 4) (by decide)]
      omega
    · rw [v2' 4 (by decide), v2' 12 (by decide)]; omega
    · rw [v2' 5 (by decide), v2' 13 (by decide)]; omega
    · rw [v2' 6 (by decide), v2' 14 (by decide)]; omega
    · rw [v2' 7 (by decide), v2' 15 (by decide)]; omega
  have L3 := intt_layer f 4 8 16 31 (by decide) (by decide) (by decide) (by decide) (by decide) (by decide) _ _ V2 w3
    L2.2
  have L4 := barrettAll_step _ _ _ (bnd 8 V2) (by
    intro x h
    unfold bnd
    split
    · next h1 => have := w3 x h h1; omega
    · omega) L3.2
  have c1664 : ∀ (C : Int) (W : Nat → Int) (len nb : Nat), 0 < len → 2 * len * nb = 256 → 1664 ≤ C →
      (∀ x, x < 256 → W x ≤ C) → ∀ x, x < 256 → bnd len W x ≤ 2 * C := by
    intro C W len nb h1 h2 h3 h4 x hx
    exact bnd_const len W C h3 h4 x hx (blk h1 h2 hx).2.1
  have L5 := intt_layer f 3 16 8 15 (by decide) (by decide) (by decide) (by decide) (by decide) (by decide) _ _
    (fun _ => 1664) (fun _ _ _ => by omega) L4
  have B5 := c1664 1664 (fun _ => 1664) 16 8 (by decide) (by decide) (by omega) (fun _ _ => le_refl _)
  have sum_of : ∀ (C : Int) (W : Nat → Int) (len nb : Nat), 0 < len → 2 * len * nb = 256 → 2 * C ≤ 32767 →
      (∀ x, x < 256 → W x ≤ C) → ∀ x, x < 256 → x % (2 * len) < len → W x + W (x + len) ≤ 32767 := by
    intro C W len nb h1 h2 h3 h4 x hx hc
    have := h4 x hx
    have := h4 (x + len) ((blk h1 h2 hx).2.1 hc)
    omega
  have L6 := intt_layer f 2 32 4 7 (by decide) (by decide) (by decide) (by decide) (by decide) (by decide) _ _
    _ (sum_of _ _ 32 4 (by decide) (by decide) (by omega) B5) L5.2
  have B6 := c1664 _ _ 32 4 (by decide) (by decide) (by omega) B5
  have L7 := intt_layer f 1 64 2 3 (by decide) (by decide) (by decide) (by decide) (by decide) (by decide) _ _
    _ (sum_of _ _ 64 2 (by decide) (by decide) (by omega) B6) L6.2
  have B7 := c1664 _ _ 64 2 (by decide) (by decide) (by omega) B6
  have L8 := barrettAll_step _ _ _ _ (fun x h => by have := B7 x h; omega) L7.2
  -- the folds of the code are these layers
  rw [intt_fold]
  exact intt_last f _ _ (by norm_num) L8 x hx

end Verif.Crypto.Mlkem
