import Verif.Crypto.Mldsa.Round
/-! The hint of the signer and its use by the verifier. -/
namespace Verif.Crypto.Mldsa
open Verif.Crypto.Mlkem (Poly i32 u32 u8 upd)

/-- The two parameter choices. -/
def GM (g m : Int) : Prop := (g = 95232 ∧ m = 44) ∨ (g = 261888 ∧ m = 16)

theorem gm_of {p : Params} (hp : p ∈ paramTable) : ∃ m, GM p.gamma2 m := by
  rcases gamma2_cases hp with ⟨h, _⟩ | ⟨h, _⟩
  · exact ⟨44, .inl ⟨by rw [h]; rfl, rfl⟩⟩
  · exact ⟨16, .inr ⟨by rw [h]; rfl, rfl⟩⟩

theorem gm_shape {g m : Int} (h : GM g m) (r : Int) :
    ∃ k, 0 ≤ k ∧ k ≤ m ∧ (-g < r % Spec.q - 2 * g * k ∧ r % Spec.q - 2 * g * k ≤ g) ∧
      Spec.decompose g r = if k = m then (0, r % Spec.q - 2 * g * k - 1) else (k, r % Spec.q - 2 * g * k) := by
  rcases h with ⟨rfl, rfl⟩ | ⟨rfl, rfl⟩ <;> exact spec_shape _ _ r (by decide) (by decide)

theorem high_of_shape {g m k x : Int} {d : Int × Int} (h : d = if k = m then (0, x - 1) else (k, x)) :
    d.1 = (if k = m then 0 else k) ∧ d.2 = (if k = m then x - 1 else x) := by
  rw [h]; split <;> exact ⟨rfl, rfl⟩

/-- FIPS 204: the hint recovers the high bits of `r + z`. -/
theorem useHint_makeHint {g m : Int} (h : GM g m) (z r : Int) (hz : -g ≤ z ∧ z ≤ g) :
    Spec.useHint g (Spec.makeHint g z r) r = Spec.highBits g (r + z) := by
  obtain ⟨k, k0, k1, k2, hd⟩ := gm_shape h r
  obtain ⟨k', k0', k1', k2', hd'⟩ := gm_shape h (r + z)
  obtain ⟨a1, a2⟩ := high_of_shape (g := g) hd
  obtain ⟨b1, b2⟩ := high_of_shape (g := g) hd'
  obtain ⟨x, hx⟩ : ∃ x, x = r % Spec.q := ⟨_, rfl⟩
  obtain ⟨y, hy⟩ : ∃ y, y = (r + z) % Spec.q := ⟨_, rfl⟩
  rw [← hx] at k2 a2
  rw [← hy] at k2' b2
  have hrel : y = x + z ∨ y = x + z + Spec.q ∨ y = x + z - Spec.q := by
    unfold Spec.q at *
    rcases h with ⟨rfl, rfl⟩ | ⟨rfl, rfl⟩ <;> omega
  unfold Spec.useHint Spec.makeHint Spec.highBits
  simp only []
  unfold Spec.q at *
  generalize Spec.decompose g r = D at *
  generalize Spec.decompose g (r + z) = E at *
  obtain ⟨d1, d2⟩ := D
  obtain ⟨c1, c2⟩ := E
  simp only at *
  clear hd hd'
  rcases h with ⟨rfl, rfl⟩ | ⟨rfl, rfl⟩
  · by_cases hc : d1 = c1
    · simp [hc]
    · rw [if_pos hc]
      simp only [true_and]
      by_cases hp : d2 > 0
      · rw [if_pos hp]; omega
      · rw [if_neg hp, if_pos (by omega)]; omega
  · by_cases hc : d1 = c1
    · simp [hc]
    · rw [if_pos hc]
      simp only [true_and]
      by_cases hp : d2 > 0
      · rw [if_pos hp]; omega
      · rw [if_neg hp, if_pos (by omega)]; omega

/-- High bits do not change under a small perturbation of the low bits. -/
theorem highBits_stable {g m : Int} (h : GM g m) (w s w1 w0 cs : Int) (c : Int) (hw : Spec.decompose g w = (w1, w0))
    (hs : w0 - cs = s + c * Spec.q) (hb : -g < s ∧ s < g) : Spec.highBits g (w - cs) = w1 := by
  obtain ⟨k, k0, k1, k2, hd⟩ := gm_shape h w
  obtain ⟨k', k0', k1', k2', hd'⟩ := gm_shape h (w - cs)
  obtain ⟨a1, a2⟩ := high_of_shape (g := g) hd
  obtain ⟨b1, b2⟩ := high_of_shape (g := g) hd'
  rw [hw] at a1 a2
  unfold Spec.highBits
  rw [b1]
  simp only at a1 a2
  unfold Spec.q at *
  clear hd hd' hw
  generalize hx : w % 8380417 = x at *
  generalize hy : (w - cs) % 8380417 = y at *
  have hrel : ∃ e, y = 2 * g * w1 + s + e * 8380417 := by
    rcases h with ⟨rfl, rfl⟩ | ⟨rfl, rfl⟩
    · by_cases hk : k = 44
      · rw [if_pos hk] at a1 a2
        exact ⟨w / 8380417 - (w - cs) / 8380417 + c + 1, by omega⟩
      · rw [if_neg hk] at a1 a2
        exact ⟨w / 8380417 - (w - cs) / 8380417 + c, by omega⟩
    · by_cases hk : k = 16
      · rw [if_pos hk] at a1 a2
        exact ⟨w / 8380417 - (w - cs) / 8380417 + c + 1, by omega⟩
      · rw [if_neg hk] at a1 a2
        exact ⟨w / 8380417 - (w - cs) / 8380417 + c, by omega⟩
  obtain ⟨e, he⟩ := hrel
  have hw1 : 0 ≤ w1 ∧ w1 < m := by rcases h with ⟨rfl, rfl⟩ | ⟨rfl, rfl⟩ <;> omega
  have hy0 : 0 ≤ y ∧ y < 8380417 := by omega
  clear a1 a2 hx hy hs k0 k1 k2
  have he01 : e = 0 ∨ e = 1 := by rcases h with ⟨rfl, rfl⟩ | ⟨rfl, rfl⟩ <;> omega
  rcases he01 with rfl | rfl <;> rcases h with ⟨rfl, rfl⟩ | ⟨rfl, rfl⟩ <;> omega

theorem and1 (x : Nat) : x &&& 1 = x % 2 := Nat.and_one_is_mod x

/-- The signer's hint bit, once the two norm checks have passed, in arithmetic form. -/
theorem hintBit_arith {p : Params} (hp : p ∈ paramTable) (w0 ct0 cs2 w1 v : Int) (h1 : 0 ≤ w1 ∧ w1 < 44)
    (hv : modQ (i32 (i32 (w0 + ct0) - cs2)) = v) (hvb : -4000000 ≤ v ∧ v ≤ 4000000) :
    hintBit p w0 ct0 cs2 w1 =
      if v > p.gamma2 ∨ v < -p.gamma2 ∨ (v = -p.gamma2 ∧ w1 ≠ 0) then 1 else 0 := by
  have hg : (0 : Int) ≤ p.gamma2 ∧ (p.gamma2 : Int) ≤ 261888 := by
    rcases gamma2_cases hp with ⟨h, _⟩ | ⟨h, _⟩ <;> rw [h] <;> decide
  unfold hintBit
  simp only [hv]
  have hx : w32 (v + p.gamma2) < 4294967296 := by unfold w32 u32; omega
  have hy : w32 w1 < 4294967296 := by unfold w32 u32; omega
  rw [topOfOrNeg_eq _ hx, topOfOrNeg_eq _ hy]
  have ex : w32 (v + p.gamma2) = 0 ↔ v = -p.gamma2 := by unfold w32 u32; omega
  have ey : w32 w1 = 0 ↔ w1 = 0 := by unfold w32 u32; omega
  have c1 : (w32 (p.gamma2 - v) >>> 31) &&& 1 = if v > p.gamma2 then 1 else 0 := by
    rw [and1, Nat.shiftRight_eq_div_pow]; unfold w32 u32; split <;> omega
  have c2 : (w32 (v + p.gamma2) >>> 31) &&& 1 = if v < -p.gamma2 then 1 else 0 := by
    rw [and1, Nat.shiftRight_eq_div_pow]; unfold w32 u32; split <;> omega
  rw [c1, c2]
  simp only [ex, ey]
  by_cases q1 : v > p.gamma2 <;> by_cases q2 : v < -p.gamma2 <;> by_cases q3 : v = -p.gamma2 <;>
    by_cases q4 : w1 = 0 <;> first | omega | (simp [q1, q2, q3, q4]; done) |
      (rw [if_neg q1, if_neg q2, if_pos q3, if_neg q4, if_pos (.inr (.inr ⟨q3, q4⟩))]; rfl)

theorem modQ_shape (v : Int) (hv : -16000000 ≤ v ∧ v ≤ 16000000) :
    ∃ c, -2 ≤ c ∧ c ≤ 2 ∧ v = modQ v + c * 8380417 := by
  refine ⟨(v + 4194304) / 8388608, by omega, by omega, ?_⟩
  unfold modQ Q
  have e : i32 (v + 2 ^ 22) / 2 ^ 23 = (v + 4194304) / 8388608 := by
    norm_num; rw [i32_id (by omega)]
  simp only [e]
  rw [i32_id (x := (v + 4194304) / 8388608 * 8380417) (by omega), i32_id (by omega)]; omega

/-- The signer's hint is the hint of FIPS 204 whenever its norm checks passed. -/
theorem hintBit_eq {p : Params} (hp : p ∈ paramTable) (w cs2 ct0 w1 w0 : Int) (hw : Spec.decompose p.gamma2 w = (w1, w0))
    (hcs : -Spec.q < cs2 ∧ cs2 < Spec.q) (hct : |ct0| < p.gamma2) (hr : |modQ (i32 (w0 - cs2))| < p.gamma2) :
    hintBit p w0 ct0 cs2 w1 = Spec.makeHint p.gamma2 (-ct0) (w - cs2 + ct0) ∧
      Spec.highBits p.gamma2 (w - cs2) = w1 := by
  obtain ⟨m, hgm⟩ := gm_of hp
  obtain ⟨k, k0, k1, k2, hd⟩ := gm_shape hgm w
  obtain ⟨a1, a2⟩ := high_of_shape (g := p.gamma2) hd
  rw [hw] at a1 a2
  simp only at a1 a2
  rw [abs_lt] at hct hr
  have hw0 : -261889 ≤ w0 ∧ w0 ≤ 261888 := by
    rcases hgm with ⟨e1, e2⟩ | ⟨e1, e2⟩ <;> rw [e1] at k2 a2 <;> omega
  have hg : (p.gamma2 : Int) ≤ 261888 := by rcases hgm with ⟨e1, e2⟩ | ⟨e1, e2⟩ <;> omega
  have hw1 : 0 ≤ w1 ∧ w1 < 44 := by rcases hgm with ⟨e1, e2⟩ | ⟨e1, e2⟩ <;> omega
  unfold Spec.q at hcs
  rw [i32_id (by omega)] at hr
  obtain ⟨c, c0, c1, hc⟩ := modQ_shape (w0 - cs2) (by omega)
  generalize modQ (w0 - cs2) = s at hr hc
  have hv : modQ (i32 (i32 (w0 + ct0) - cs2)) = s + ct0 := by
    rw [i32_id (x := w0 + ct0) (by omega), i32_id (by omega)]
    exact modQ_small _ _ c (by omega) (by omega) ⟨c0, c1⟩
  have hst := highBits_stable hgm w s w1 w0 cs2 c hw hc hr
  refine ⟨?_, hst⟩
  rw [hintBit_arith hp w0 ct0 cs2 w1 (s + ct0) hw1 hv (by omega)]
  unfold Spec.makeHint
  rw [show w - cs2 + ct0 + -ct0 = w - cs2 by omega, hst]
  obtain ⟨k', k0', k1', k2', hd'⟩ := gm_shape hgm (w - cs2 + ct0)
  obtain ⟨b1, b2⟩ := high_of_shape (g := p.gamma2) hd'
  unfold Spec.highBits
  rw [b1]
  clear hd hd' hst hv hw b1 b2
  unfold Spec.q at *
  generalize hx : w % 8380417 = x at *
  generalize hy : (w - cs2 + ct0) % 8380417 = y at *
  generalize (p.gamma2 : Int) = g at *
  have hrel : ∃ e, y = 2 * g * w1 + s + ct0 + e * 8380417 := by
    rcases hgm with ⟨rfl, rfl⟩ | ⟨rfl, rfl⟩
    · by_cases hk : k = 44
      · rw [if_pos hk] at a1 a2
        exact ⟨w / 8380417 - (w - cs2 + ct0) / 8380417 + c + 1, by omega⟩
      · rw [if_neg hk] at a1 a2
        exact ⟨w / 8380417 - (w - cs2 + ct0) / 8380417 + c, by omega⟩
    · by_cases hk : k = 16
      · rw [if_pos hk] at a1 a2
        exact ⟨w / 8380417 - (w - cs2 + ct0) / 8380417 + c + 1, by omega⟩
      · rw [if_neg hk] at a1 a2
        exact ⟨w / 8380417 - (w - cs2 + ct0) / 8380417 + c, by omega⟩
  obtain ⟨e, he⟩ := hrel
  have hw1m : w1 < m := by rcases hgm with ⟨rfl, rfl⟩ | ⟨rfl, rfl⟩ <;> omega
  have hy0 : 0 ≤ y ∧ y < 8380417 := by omega
  clear a1 a2 hx hy hc k0 k1 k2 hcs hw0
  have he01 : e = -1 ∨ e = 0 ∨ e = 1 := by rcases hgm with ⟨rfl, rfl⟩ | ⟨rfl, rfl⟩ <;> omega
  have key : (s + ct0 > g ∨ s + ct0 < -g ∨ (s + ct0 = -g ∧ w1 ≠ 0)) ↔ (if k' = m then 0 else k') ≠ w1 := by
    rcases he01 with rfl | rfl | rfl <;> rcases hgm with ⟨rfl, rfl⟩ | ⟨rfl, rfl⟩ <;> omega
  by_cases hb : (s + ct0 > g ∨ s + ct0 < -g ∨ (s + ct0 = -g ∧ w1 ≠ 0))
  · rw [if_pos hb, if_pos (key.1 hb)]
  · rw [if_neg hb, if_neg (fun h => hb (key.2 h))]

end Verif.Crypto.Mldsa
