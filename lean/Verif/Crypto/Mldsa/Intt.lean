import Verif.Crypto.Mldsa.Ntt
/-! The inverse transform. -/
namespace Verif.Crypto.Mldsa
open Finset
open Verif.Crypto.Mlkem (Poly i32 u32 upd tab LZ ILZ ILZ_LZ ps div_block lt_block blk)

theorem ibutterfly_at (zeta : Int) (len j : Nat) (hl : 0 < len) (a : Poly) (x : Nat) :
    ibutterfly zeta len j a x =
      if x = j then i32 (a j + a (j + len))
      else if x = j + len then mulZ zeta (i32 (a j - a (j + len))) else a x := by
  unfold ibutterfly upd
  by_cases h1 : x = j
  · subst h1
    rw [if_neg (by omega), if_neg (by omega), if_pos rfl, if_pos rfl]
  · rw [if_neg h1]
    by_cases h2 : x = j + len
    · subst h2
      simp only [if_true, if_neg (show ¬ (j + len = j) by omega)]
    · rw [if_neg h2, if_neg h2, if_neg h1, if_neg h2]

/-- One layer of the inverse transform, as a function of the index. -/
def ilayerF (z : Nat → Int) (len : Nat) (a : Poly) : Poly := fun x =>
  if x % (2 * len) < len then i32 (a x + a (x + len))
  else mulZ (z (x / (2 * len))) (i32 (a (x - len) - a x))

theorem inttBlock_at (zeta : Int) (len start : Nat) (a : Poly) (n : Nat) (hn : n ≤ len) (x : Nat) :
    inttBlock zeta len start a n x =
      if start ≤ x ∧ x < start + n then i32 (a x + a (x + len))
      else if start + len ≤ x ∧ x < start + len + n then mulZ zeta (i32 (a (x - len) - a x))
      else a x := by
  induction n generalizing x with
  | zero =>
    rw [if_neg (by omega), if_neg (by omega)]; rfl
  | succ n ih =>
    have ih := fun x => ih (by omega) x
    have h1 : inttBlock zeta len start a n (start + n) = a (start + n) := by
      rw [ih, if_neg (by omega), if_neg (by omega)]
    have h2 : inttBlock zeta len start a n (start + n + len) = a (start + n + len) := by
      rw [ih, if_neg (by omega), if_neg (by omega)]
    show ibutterfly zeta len (start + n) (inttBlock zeta len start a n) x = _
    rw [ibutterfly_at _ _ _ (by omega), h1, h2]
    by_cases hx : x = start + n
    · subst hx
      rw [if_pos rfl, if_pos (by omega)]
    · rw [if_neg hx]
      by_cases hx2 : x = start + n + len
      · subst hx2
        rw [if_pos rfl, if_neg (by omega), if_pos (by omega)]
        rw [show start + n + len - len = start + n by omega]
      · rw [if_neg hx2, ih]
        by_cases c1 : start ≤ x ∧ x < start + n
        · rw [if_pos c1, if_pos (by omega)]
        · rw [if_neg c1, if_neg (c := start ≤ x ∧ x < start + (n + 1)) (by omega)]
          by_cases c2 : start + len ≤ x ∧ x < start + len + n
          · rw [if_pos c2, if_pos (by omega)]
          · rw [if_neg c2, if_neg (by omega)]

theorem inttLayer_eq (len : Nat) (hl : 0 < len) (a : Poly) (k n : Nat) :
    (inttLayer len (a, k) n).2 = k - n ∧ ∀ x, (inttLayer len (a, k) n).1 x =
      if x < 2 * len * n then ilayerF (fun b => -(tab zetas (k - 1 - b))) len a x else a x := by
  induction n with
  | zero => exact ⟨rfl, fun x => by rw [if_neg (by omega)]; rfl⟩
  | succ n ih =>
    obtain ⟨ih1, ih2⟩ := ih
    obtain ⟨a', k', he⟩ : ∃ a' k', inttLayer len (a, k) n = (a', k') := ⟨_, _, rfl⟩
    rw [he] at ih1 ih2
    have hs : inttLayer len (a, k) (n + 1) = (inttBlock (-(tab zetas (k' - 1))) len (2 * len * n) a' len, k' - 1) := by
      rw [inttLayer, he]
    rw [hs]
    simp only at ih1 ih2
    refine ⟨by simp only [ih1]; omega, fun x => ?_⟩
    show inttBlock (-(tab zetas (k' - 1))) len (2 * len * n) a' len x = _
    have hm : 2 * len * (n + 1) = 2 * len * n + 2 * len := by ring
    rw [inttBlock_at _ _ _ _ _ (le_refl _), ih1, show k - n - 1 = k - 1 - n by omega]
    by_cases c1 : 2 * len * n ≤ x ∧ x < 2 * len * n + len
    · have hd := div_block c1.1 (show x < 2 * len * n + 2 * len by omega)
      rw [if_pos c1, ih2, if_neg (by omega), ih2, if_neg (by omega), if_pos (by omega)]
      unfold ilayerF
      rw [hd.2, if_pos (by omega)]
    · rw [if_neg c1]
      by_cases c2 : 2 * len * n + len ≤ x ∧ x < 2 * len * n + len + len
      · have hd := div_block (show 2 * len * n ≤ x by omega) (show x < 2 * len * n + 2 * len by omega)
        rw [if_pos c2, ih2, if_neg (by omega), ih2, if_neg (by omega), if_pos (by omega)]
        unfold ilayerF
        rw [hd.1, hd.2, if_neg (by omega)]
      · rw [if_neg c2, ih2]
        by_cases c3 : x < 2 * len * n
        · rw [if_pos c3, if_pos (by omega)]
        · rw [if_neg c3, if_neg (by omega)]

/-- An inverse layer doubles the bound and multiplies by 2 what it undoes. -/
theorem ilayer_step (z wv : Nat → Int) (len nb : Nat) (hl : 0 < len) (h256 : 2 * len * nb = 256)
    (hz : ∀ b, b < nb → PF (z b) (-(wv b)))
    (a : Poly) (C : Int) (hC : 4190208 ≤ C ∧ 2 * C ≤ 2147483647) (ha : ∀ x, x < 256 → -C ≤ a x ∧ a x ≤ C) :
    ∀ x, x < 256 →
      (-(2 * C) ≤ ilayerF z len a x ∧ ilayerF z len a x ≤ 2 * C) ∧
      ((ilayerF z len a x : Int) : Zq) =
        ILZ (fun b => ((wv b : Int) : Zq)) len (fun i => ((a i : Int) : Zq)) x := by
  intro x hx
  obtain ⟨hbl, h1, h2⟩ := blk hl h256 hx
  unfold ilayerF ILZ
  by_cases hc : x % (2 * len) < len
  · simp only [if_pos hc]
    have hi := ha x hx
    have hj := ha (x + len) (h1 hc)
    rw [i32_id (by omega)]
    exact ⟨by omega, by push_cast; rfl⟩
  · simp only [if_neg hc]
    have hle := h2 hc
    have hi := ha x hx
    have hj := ha (x - len) (by omega)
    obtain ⟨e, hr⟩ := mulZ_spec _ _ (i32 (a (x - len) - a x)) (by rw [i32_id (by omega)]; omega) (hz _ hbl)
    refine ⟨by omega, ?_⟩
    rw [e, i32_id (by omega)]
    push_cast; ring

/-- The zetas of the inverse layers: `ζ_(2^(l+1)-1-b) ζ_(2^l+b) = -1`. -/
theorem zv_inv : ∀ l : Fin 8, ∀ b : Fin 128, b.1 < 2 ^ l.1 →
    (8380417 : Int) ∣ (zv (2 ^ (l.1 + 1) - 1 - b) * zv (2 ^ l.1 + b) - (-1)) := by decide +kernel

theorem zq_inv (l b : Nat) (hl : l < 8) (hb : b < 2 ^ l) : zq (2 ^ (l + 1) - 1 - b) * zq (2 ^ l + b) = -1 := by
  have hp : 2 ^ l ≤ 2 ^ 7 := Nat.pow_le_pow_right (by decide) (by omega)
  have := cast_of_dvd (zv_inv ⟨l, hl⟩ ⟨b, by omega⟩ hb)
  rw [Int.cast_mul] at this
  rw [show ((-1 : Int) : Zq) = -1 by norm_num] at this
  exact this

/-- One of the seven table-driven inverse layers. -/
theorem intt_layer (f : Nat → Zq) (l len nb K : Nat) (hl8 : l < 8) (e1 : len = 128 / 2 ^ l) (e2 : nb = 2 ^ l)
    (h256 : 2 * len * nb = 256) (hl : 0 < len) (eK : K = 2 ^ (l + 1)) (c : Zq) (a : Poly) (C : Int)
    (hC : 4190208 ≤ C ∧ 2 * C ≤ 2147483647)
    (ha : ∀ x, x < 256 → (-C ≤ a x ∧ a x ≤ C) ∧ ((a x : Int) : Zq) = c * nz (l + 1) f x) :
    ∀ x, x < 256 →
      (-(2 * C) ≤ (inttLayer len (a, K) nb).1 x ∧ (inttLayer len (a, K) nb).1 x ≤ 2 * C) ∧
      (((inttLayer len (a, K) nb).1 x : Int) : Zq) = 2 * c * nz l f x := by
  obtain ⟨h1, h2⟩ := inttLayer_eq len hl a K nb
  intro x hx
  rw [h2 x, if_pos (by omega)]
  have hp : 2 ^ l ≤ 2 ^ 7 := Nat.pow_le_pow_right (by decide) (by omega)
  have hp2 : 2 ^ (l + 1) = 2 * 2 ^ l := by ring
  obtain ⟨hb, hv⟩ := ilayer_step (fun b => -(tab zetas (K - 1 - b))) (fun b => zv (K - 1 - b)) len nb hl h256
    (fun b hb => PF_neg (PF_of (table ⟨K - 1 - b, by omega⟩ (by simp only [ne_eq]; omega)))) a C hC (fun x h => (ha x h).1) x hx
  refine ⟨hb, ?_⟩
  rw [hv]
  refine ILZ_LZ (fun b => zq (2 ^ l + b)) _ len nb hl h256 c _ (nz l f) ?_ ?_ x hx
  · intro b hb
    show zq (K - 1 - b) * zq (2 ^ l + b) = -1
    rw [eK]; exact zq_inv l b hl8 (by omega)
  · intro x hx
    rw [e1]; exact (ha x hx).2

theorem lastLoop_at (a : Poly) (n : Nat) (hn : n ≤ 128) (x : Nat) :
    lastLoop a n x = if x < n then mulZ lastScale (i32 (a x + a (x + 128)))
      else if 128 ≤ x ∧ x < 128 + n then mulZ lastZeta (i32 (a (x - 128) - a x)) else a x := by
  induction n generalizing x with
  | zero => rw [if_neg (by omega), if_neg (by omega)]; rfl
  | succ n ih =>
    have ih := fun x => ih (by omega) x
    have h1 : lastLoop a n n = a n := by rw [ih, if_neg (by omega), if_neg (by omega)]
    have h2 : lastLoop a n (n + 128) = a (n + 128) := by rw [ih, if_neg (by omega), if_neg (by omega)]
    unfold lastLoop
    simp only [h1, h2]
    unfold upd
    by_cases hx2 : x = n + 128
    · subst hx2
      rw [if_pos rfl, if_neg (by omega), if_neg (by omega), if_pos (by omega), h2, Nat.add_sub_cancel]
    · rw [if_neg hx2]
      by_cases hx : x = n
      · subst hx; rw [if_pos rfl, if_pos (by omega)]
      · rw [if_neg hx, ih]
        by_cases c1 : x < n
        · rw [if_pos c1, if_pos (by omega)]
        · rw [if_neg c1, if_neg (c := x < n + 1) (by omega)]
          by_cases c2 : 128 ≤ x ∧ x < 128 + n
          · rw [if_pos c2, if_pos (by omega)]
          · rw [if_neg c2, if_neg (by omega)]

theorem scale_form : PF lastScale 8338439 := PF_of (by decide +kernel)
/-- `MLDSA_LAST_ROUND_ZETA` is the negative of a constant whose reduced form is positive. -/
theorem zeta_form : PF lastZeta 4404704 := by
  have h : PF (-(8751230424634003605)) (-(-4404704)) := PF_neg (PF_of (by decide +kernel))
  exact h

theorem layer_pair (len : Nat) (hl : 0 < len) (a : Poly) (k n : Nat) :
    inttLayer len (a, k) n = ((inttLayer len (a, k) n).1, k - n) := Prod.ext rfl (inttLayer_eq len hl a k n).1

/-- The folds of the code, written out. -/
theorem intt_fold (g : Poly) :
    intt g = lastLoop (inttLayer 64 ((inttLayer 32 ((inttLayer 16 ((inttLayer 8 ((inttLayer 4
      ((inttLayer 2 ((inttLayer 1 (g, 256) 128).1, 128) 64).1, 64) 32).1, 32) 16).1, 16) 8).1, 8) 4).1, 4) 2).1 128 := by
  unfold intt
  simp only [List.foldl_cons, List.foldl_nil, Nat.reduceMul, Nat.reduceDiv]
  rw [layer_pair 1 (by decide) g 256 128]
  generalize (inttLayer 1 (g, 256) 128).1 = a1
  rw [layer_pair 2 (by decide) a1 _ 64]
  simp only [Nat.reduceSub]
  generalize (inttLayer 2 (a1, 128) 64).1 = a2
  rw [layer_pair 4 (by decide) a2 _ 32]
  simp only [Nat.reduceSub]
  generalize (inttLayer 4 (a2, 64) 32).1 = a3
  rw [layer_pair 8 (by decide) _ _ 16]
  simp only [Nat.reduceSub]
  generalize (inttLayer 8 (a3, 32) 16).1 = a4
  rw [layer_pair 16 (by decide) _ _ 8]
  simp only [Nat.reduceSub]
  generalize (inttLayer 16 (a4, 16) 8).1 = a5
  rw [layer_pair 32 (by decide) _ _ 4]

theorem scale_const : ((8338439 : Int) : Zq) * (256 * rInv) = 1 := by decide +kernel
theorem zeta_const : ((4404704 : Int) : Zq) * (256 * rInv * zq 1) = 1 := by decide +kernel
theorem nz_one (f : Nat → Zq) : nz 1 f = LZ (fun b => zq (1 + b)) 128 f := rfl

/-- The inverse transform takes `-2^(-64)` times the transform of `f` (which is what the Plantard products deliver) to
`f`; every coefficient is reduced to `[-q/2, q/2]` and no `int32_t` overflows. -/
theorem intt_main (g : Poly) (f : Nat → Zq) (hb : ∀ x, x < 256 → -8388607 ≤ g x ∧ g x ≤ 8388607)
    (hg : ∀ x, x < 256 → ((g x : Int) : Zq) = rInv * Spec.ntt f x) (x : Nat) (hx : x < 256) :
    (-4190208 ≤ intt g x ∧ intt g x ≤ 4190208) ∧ ((intt g x : Int) : Zq) = f x := by
  have L0 : ∀ x, x < 256 → (-8388607 ≤ g x ∧ g x ≤ 8388607) ∧ ((g x : Int) : Zq) = rInv * nz (7 + 1) f x :=
    fun x h => ⟨hb x h, by rw [hg x h, nz8_eq f x h]⟩
  have L1 := intt_layer f 7 1 128 256 (by decide) (by decide) (by decide) (by decide) (by decide) (by decide) _ _ _ (by omega) L0
  have L2 := intt_layer f 6 2 64 128 (by decide) (by decide) (by decide) (by decide) (by decide) (by decide) _ _ _ (by omega) L1
  have L3 := intt_layer f 5 4 32 64 (by decide) (by decide) (by decide) (by decide) (by decide) (by decide) _ _ _ (by omega) L2
  have L4 := intt_layer f 4 8 16 32 (by decide) (by decide) (by decide) (by decide) (by decide) (by decide) _ _ _ (by omega) L3
  have L5 := intt_layer f 3 16 8 16 (by decide) (by decide) (by decide) (by decide) (by decide) (by decide) _ _ _ (by omega) L4
  have L6 := intt_layer f 2 32 4 8 (by decide) (by decide) (by decide) (by decide) (by decide) (by decide) _ _ _ (by omega) L5
  have L7 := intt_layer f 1 64 2 4 (by decide) (by decide) (by decide) (by decide) (by decide) (by decide) _ _ _ (by omega) L6
  rw [intt_fold]
  generalize (inttLayer 64 _ 2).1 = A at L7 ⊢
  rw [lastLoop_at _ _ (le_refl _)]
  by_cases hc : x < 128
  · rw [if_pos hc]
    have b1 := (L7 x hx).1
    have b2 := (L7 (x + 128) (by omega)).1
    rw [i32_id (by omega)]
    obtain ⟨e, hr⟩ := mulZ_spec _ _ (A x + A (x + 128)) (by omega) scale_form
    refine ⟨hr, ?_⟩
    rw [e, Int.cast_add, (L7 x hx).2, (L7 (x + 128) (by omega)).2, nz_one]
    have d1 : x % (2 * 128) < 128 := by omega
    have d2 : ¬ (x + 128) % (2 * 128) < 128 := by omega
    unfold LZ
    rw [if_pos d1, if_neg d2, show x / (2 * 128) = 0 by omega, show (x + 128) / (2 * 128) = 0 by omega,
      Nat.add_sub_cancel]
    simp only [nz]
    linear_combination (f x) * scale_const
  · rw [if_neg hc, if_pos (by omega)]
    have b1 := (L7 x hx).1
    have b2 := (L7 (x - 128) (by omega)).1
    rw [i32_id (by omega)]
    obtain ⟨e, hr⟩ := mulZ_spec _ _ (A (x - 128) - A x) (by omega) zeta_form
    refine ⟨hr, ?_⟩
    rw [e, Int.cast_sub, (L7 x hx).2, (L7 (x - 128) (by omega)).2, nz_one]
    have d1 : ¬ x % (2 * 128) < 128 := by omega
    have d2 : (x - 128) % (2 * 128) < 128 := by omega
    unfold LZ
    rw [if_pos d2, if_neg d1, show x / (2 * 128) = 0 by omega, show (x - 128) / (2 * 128) = 0 by omega,
      show x - 128 + 128 = x by omega]
    simp only [nz, Nat.add_zero]
    linear_combination (f x) * zeta_const

end Verif.Crypto.Mldsa
