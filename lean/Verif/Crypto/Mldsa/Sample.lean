import Verif.Crypto.Mldsa.SignModel
import Verif.Crypto.Mldsa.Spec
import Mathlib.Tactic.NormNum
import Mathlib.Tactic.IntervalCases
/-! Rejection sampling. -/
namespace Verif.Crypto.Mldsa
open Verif.Crypto.Mlkem (Poly i32 u32 u8 upd)

namespace Spec
/-- CoeffFromThreeBytes, FIPS 204 Algorithm 14. -/
def coeff3 (b0 b1 b2 : Nat) : Option Int :=
  let z : Nat := 2 ^ 16 * (b2 % 128) + 2 ^ 8 * b1 + b0
  if (z : Int) < q then some z else none
/-- CoeffFromHalfByte, Algorithm 15. -/
def coeffHalf (eta b : Nat) : Option Int :=
  if eta = 2 ∧ b < 15 then some (2 - (b % 5 : Nat))
  else if eta = 4 ∧ b < 9 then some (4 - b)
  else none
/-- The candidates that are accepted among the first `n`, in order. -/
def accepted (cand : Nat → Option Int) (n : Nat) : List Int := (List.range n).filterMap cand
/-- `a` holds the first 256 accepted candidates. -/
def IsSample (cand : Nat → Option Int) (a : Nat → Int) : Prop :=
  ∃ n, ∀ x, x < 256 → (accepted cand n)[x]? = some (a x)
/-- The candidates of RejNTTPoly (Algorithm 30): three bytes each. -/
def cand3 (st : Nat → Nat) (g : Nat) : Option Int := coeff3 (st (3 * g)) (st (3 * g + 1)) (st (3 * g + 2))
/-- The candidates of RejBoundedPoly (Algorithm 31): the low, then the high half of each byte. -/
def candHalf (eta : Nat) (st : Nat → Nat) (g : Nat) : Option Int :=
  coeffHalf eta (if g % 2 = 0 then st (g / 2) % 16 else st (g / 2) / 16)
end Spec
open Spec

/-- What a sampling loop keeps. -/
def Acc (l : List Int) (s : Poly × Nat) : Prop :=
  s.2 = min 256 l.length ∧ ∀ x v, x < 256 → l[x]? = some v → s.1 x = v

theorem acc_nil : Acc [] (zeroPoly, 0) := ⟨rfl, fun x v _ h => by simp at h⟩

theorem acc_full {l : List Int} {s : Poly × Nat} (h : Acc l s) (hs : ¬ s.2 < 256) (l' : List Int) : Acc (l ++ l') s := by
  obtain ⟨h1, h2⟩ := h
  refine ⟨by rw [List.length_append]; omega, fun x v hx hv => ?_⟩
  rw [List.getElem?_append_left (by omega)] at hv
  exact h2 x v hx hv

theorem acc_store {l : List Int} {s : Poly × Nat} (h : Acc l s) (hs : s.2 < 256) (m c : Int) (o : Option Int)
    (ho : (m = 0 ∧ o = some c) ∨ (m = -1 ∧ o = none)) : Acc (l ++ o.toList) (rejStore s m c) := by
  obtain ⟨h1, h2⟩ := h
  have hl : s.2 = l.length := by omega
  unfold rejStore
  rcases ho with ⟨rfl, rfl⟩ | ⟨rfl, rfl⟩
  · refine ⟨by simp only [Option.toList_some, List.length_append, List.length_singleton]; omega, fun x v hx hv => ?_⟩
    simp only [Option.toList_some, upd] at hv ⊢
    by_cases hx2 : x = s.2
    · rw [if_pos hx2]
      rw [hx2, hl, List.getElem?_append_right (le_refl _), Nat.sub_self] at hv
      simpa using hv
    · rw [if_neg hx2]
      refine h2 x v hx ?_
      by_cases hx3 : x < l.length
      · rwa [List.getElem?_append_left hx3] at hv
      · rw [List.getElem?_append_right (by omega), List.getElem?_eq_none (by simp; omega)] at hv
        exact absurd hv (by simp)
  · refine ⟨by simp only [Option.toList_none, List.append_nil]; omega, fun x v hx hv => ?_⟩
    simp only [Option.toList_none, List.append_nil, upd] at hv ⊢
    rw [if_neg]
    · exact h2 x v hx hv
    · intro hx2
      rw [List.getElem?_eq_none (by omega)] at hv
      exact absurd hv (by simp)

theorem accepted_succ (cand : Nat → Option Int) (n : Nat) : accepted cand (n + 1) = accepted cand n ++ (cand n).toList := by
  unfold accepted
  rw [List.range_succ, List.filterMap_append]
  congr 1

/-! ## RejNTTPoly -/

theorem rejOne_acc {cand : Nat → Option Int} {g : Nat} {s : Poly × Nat} (h : Acc (accepted cand g) s) (hs : s.2 < 256)
    (t : Nat) (ht : t < 2 ^ 23) (hc : cand g = if (t : Int) < q then some (t : Int) else none) :
    Acc (accepted cand (g + 1)) (rejOne s t) := by
  rw [accepted_succ]
  unfold rejOne
  refine acc_store h hs _ _ _ ?_
  rw [hc]
  unfold Q
  unfold q
  by_cases hq : (t : Int) < 8380417
  · exact Or.inl ⟨by omega, if_pos hq⟩
  · exact Or.inr ⟨by omega, if_neg hq⟩

theorem rejGuard_acc {cand : Nat → Option Int} {g : Nat} {s : Poly × Nat} (h : Acc (accepted cand g) s)
    (t : Nat) (ht : t < 2 ^ 23) (hc : cand g = if (t : Int) < q then some (t : Int) else none) :
    Acc (accepted cand (g + 1)) (rejGuard s t) := by
  unfold rejGuard
  split
  · next hs => exact rejOne_acc h hs t ht hc
  · next hs => rw [accepted_succ]; exact acc_full h hs _

theorem and23 (x : Nat) : x &&& 0x7FFFFF = x % 2 ^ 23 := by
  rw [show (0x7FFFFF : Nat) = 2 ^ 23 - 1 by norm_num, Nat.and_two_pow_sub_one_eq_mod]

theorem or_join (x y i : Nat) (hi : i ≤ 32) (hx : x < 2 ^ i) : x ||| (y <<< i) % 2 ^ 32 = x + (y % 2 ^ (32 - i)) * 2 ^ i := by
  have e : (y <<< i) % 2 ^ 32 = (y % 2 ^ (32 - i)) <<< i := by
    rw [Nat.shiftLeft_eq, Nat.shiftLeft_eq]
    have : (2 : Nat) ^ 32 = 2 ^ (32 - i) * 2 ^ i := by rw [← Nat.pow_add]; congr 1; omega
    rw [this, Nat.mul_mod_mul_right]
  rw [e, Nat.or_comm, ← Nat.shiftLeft_add_eq_or_of_lt hx, Nat.shiftLeft_eq, Nat.add_comm]

theorem words (b : Nat → Nat) (hb : ∀ n, b n < 256) :
    word b 0 &&& 0x7FFFFF = 2 ^ 16 * (b 2 % 128) + 2 ^ 8 * b 1 + b 0 ∧
    ((word b 0 >>> 24) ||| (word b 4 <<< 8) % 2 ^ 32) &&& 0x7FFFFF = 2 ^ 16 * (b 5 % 128) + 2 ^ 8 * b 4 + b 3 ∧
    ((word b 4 >>> 16) ||| (word b 8 <<< 16) % 2 ^ 32) &&& 0x7FFFFF = 2 ^ 16 * (b 8 % 128) + 2 ^ 8 * b 7 + b 6 ∧
    (word b 8 >>> 8) &&& 0x7FFFFF = 2 ^ 16 * (b 11 % 128) + 2 ^ 8 * b 10 + b 9 := by
  have h0 := hb 0; have h1 := hb 1; have h2 := hb 2; have h3 := hb 3; have h4 := hb 4; have h5 := hb 5
  have h6 := hb 6; have h7 := hb 7; have h8 := hb 8; have h9 := hb 9; have h10 := hb 10; have h11 := hb 11
  simp only [and23, Nat.shiftRight_eq_div_pow]
  unfold word
  refine ⟨?_, ?_, ?_, ?_⟩
  · norm_num at *; omega
  · rw [or_join _ _ 8 (by decide) (by norm_num at *; omega)]; norm_num at *; omega
  · rw [or_join _ _ 16 (by decide) (by norm_num at *; omega)]; norm_num at *; omega
  · norm_num at *; omega

theorem rejRound_acc {st : Nat → Nat} (hst : ∀ n, st n < 256) {g : Nat} {s : Poly × Nat}
    (h : Acc (accepted (cand3 st) g) s) (hs : s.2 < 256) :
    Acc (accepted (cand3 st) (g + 4)) (rejRound s (word st (3 * g)) (word st (3 * g + 4)) (word st (3 * g + 8))) := by
  obtain ⟨e0, e1, e2, e3⟩ := words (fun n => st (3 * g + n)) (fun n => hst _)
  have w : ∀ o, word (fun n => st (3 * g + n)) o = word st (3 * g + o) := fun o => rfl
  rw [w, Nat.add_zero] at e0
  rw [w, w, Nat.add_zero] at e1
  rw [w, w] at e2
  rw [w] at e3
  unfold rejRound
  simp only [e0, e1, e2, e3]
  have b := fun n => hst (3 * g + n)
  have b0 : st (3 * g) < 256 := hst _; have b1 := b 1; have b3 := b 3; have b4 := b 4; have b6 := b 6; have b7 := b 7; have b9 := b 9; have b10 := b 10
  refine rejGuard_acc (g := g + 3) (rejGuard_acc (g := g + 2) (rejGuard_acc (g := g + 1) (rejOne_acc h hs _ ?_ ?_) _ ?_ ?_) _ ?_ ?_) _ ?_ ?_
  · norm_num; omega
  · simp only [cand3, coeff3]
  · norm_num; omega
  · simp only [cand3, coeff3, show 3 * (g + 1) = 3 * g + 3 by omega]
  · norm_num; omega
  · simp only [cand3, coeff3, show 3 * (g + 2) = 3 * g + 6 by omega]
  · norm_num; omega
  · simp only [cand3, coeff3, show 3 * (g + 3) = 3 * g + 9 by omega]

theorem sample_done {cand : Nat → Option Int} {g : Nat} {s : Poly × Nat} (h : Acc (accepted cand g) s) (hs : ¬ s.2 < 256) :
    IsSample cand s.1 := by
  obtain ⟨h1, h2⟩ := h
  refine ⟨g, fun x hx => ?_⟩
  have hl : x < (accepted cand g).length := by omega
  rw [List.getElem?_eq_getElem hl, h2 x _ hx (List.getElem?_eq_getElem hl)]

theorem rejNtt_spec {st : Nat → Nat} (hst : ∀ n, st n < 256) (fuel : Nat) : ∀ (blk j : Nat) (s : Poly × Nat), (j < 14 ∨ ¬ s.2 < 256) →
    Acc (accepted (cand3 st) (56 * blk + 4 * j)) s →
    (∀ a, rejNtt st fuel blk (3 * j) s = some a → IsSample (cand3 st) a) ∧
    (rejNtt st fuel blk (3 * j) s = none → (accepted (cand3 st) (56 * blk + 4 * j + 4 * fuel)).length < 256) := by
  induction fuel with
  | zero =>
    intro blk j s _ h
    unfold rejNtt
    split
    · next hs =>
      refine ⟨fun a ha => by simp at ha, fun _ => ?_⟩
      have := h.1
      rw [Nat.mul_zero, Nat.add_zero]; omega
    · next hs =>
      refine ⟨fun a ha => ?_, fun hn => by simp at hn⟩
      simp only [Option.some.injEq] at ha
      subst ha
      exact sample_done h hs
  | succ n ih =>
    intro blk j s hj h
    unfold rejNtt
    by_cases hs : s.2 < 256
    · rw [if_pos hs]
      have hr := rejRound_acc hst h hs
      rw [show 3 * (56 * blk + 4 * j) = 168 * blk + 4 * (3 * j) by omega] at hr
      simp only [Nat.add_zero, Nat.mul_add, Nat.mul_one, ← Nat.add_assoc]
      rw [show 4 * 2 = 8 from rfl]
      generalize rejRound s (word st (168 * blk + 4 * (3 * j))) (word st (168 * blk + 4 * (3 * j) + 4))
        (word st (168 * blk + 4 * (3 * j) + 8)) = s' at hr ⊢
      by_cases hc : 3 * j + 3 ≥ 42 ∧ s'.2 < 256
      · rw [if_pos hc]
        have := ih (blk + 1) 0 s' (Or.inl (by omega))
          (by rw [show 56 * (blk + 1) + 4 * 0 = 56 * blk + 4 * j + 4 by omega]; exact hr)
        rw [show 56 * (blk + 1) + 4 * 0 + 4 * n = 56 * blk + 4 * j + 4 * n + 4 by omega, Nat.mul_zero] at this
        exact this
      · rw [if_neg hc]
        have := ih blk (j + 1) s' (by omega)
          (by rw [show 56 * blk + 4 * (j + 1) = 56 * blk + 4 * j + 4 by omega]; exact hr)
        rw [show 56 * blk + 4 * (j + 1) + 4 * n = 56 * blk + 4 * j + 4 * n + 4 by omega, Nat.mul_add] at this
        exact this
    · rw [if_neg hs]
      refine ⟨fun a ha => ?_, fun hn => by simp at hn⟩
      simp only [Option.some.injEq] at ha
      subst ha
      exact sample_done h hs

/-! ## RejBoundedPoly -/

theorem rejHalf_acc {eta : Nat} (he : eta = 2 ∨ eta = 4) {cand : Nat → Option Int} {g : Nat} {s : Poly × Nat}
    (h : Acc (accepted cand g) s) (hs : s.2 < 256) (z : Nat) (hz : z < 16) (hc : cand g = coeffHalf eta z) :
    Acc (accepted cand (g + 1)) (rejHalf eta s z) := by
  rw [accepted_succ, hc]
  unfold rejHalf
  rcases he with rfl | rfl
  · rw [if_pos rfl]
    unfold coeffHalf
    refine acc_store h hs _ _ _ ?_
    interval_cases z <;> first | exact Or.inl ⟨by decide, by decide⟩ | exact Or.inr ⟨by decide, by decide⟩
  · rw [if_neg (by decide)]
    unfold coeffHalf
    refine acc_store h hs _ _ _ ?_
    interval_cases z <;> first | exact Or.inl ⟨by decide, by decide⟩ | exact Or.inr ⟨by decide, by decide⟩

theorem rejByte_acc {eta : Nat} (he : eta = 2 ∨ eta = 4) {st : Nat → Nat} (hst : ∀ n, st n < 256) {i : Nat} {s : Poly × Nat}
    (h : Acc (accepted (candHalf eta st) (2 * i)) s) (hs : s.2 < 256) :
    Acc (accepted (candHalf eta st) (2 * (i + 1))) (rejByte eta s (st i)) := by
  have hb := hst i
  have e1 : st i &&& 0x0F = st i % 16 := by
    rw [show (0x0F : Nat) = 2 ^ 4 - 1 by norm_num, Nat.and_two_pow_sub_one_eq_mod]
  have e2 : st i >>> 4 = st i / 16 := by rw [Nat.shiftRight_eq_div_pow]
  unfold rejByte
  simp only [e1, e2]
  have h1 := rejHalf_acc he h hs (st i % 16) (by omega) (by
    unfold candHalf; rw [if_pos (by omega), show 2 * i / 2 = i by omega])
  rw [show 2 * (i + 1) = 2 * i + 1 + 1 by omega]
  split
  · next hs2 =>
    exact rejHalf_acc he h1 hs2 _ (by omega) (by
      unfold candHalf; rw [if_neg (by omega), show (2 * i + 1) / 2 = i by omega])
  · next hs2 => rw [accepted_succ]; exact acc_full h1 hs2 _

theorem rejBounded_spec {eta : Nat} (he : eta = 2 ∨ eta = 4) {st : Nat → Nat} (hst : ∀ n, st n < 256) (fuel : Nat) :
    ∀ (blk j : Nat) (s : Poly × Nat), j ≤ 136 → Acc (accepted (candHalf eta st) (2 * (136 * blk + j))) s →
    (∀ a, rejBounded eta st fuel blk j s = some a → IsSample (candHalf eta st) a) ∧
    (rejBounded eta st fuel blk j s = none → (accepted (candHalf eta st) (2 * (136 * blk + j + fuel))).length < 256) := by
  induction fuel with
  | zero =>
    intro blk j s _ h
    unfold rejBounded
    split
    · next hs =>
      refine ⟨fun a ha => by simp at ha, fun _ => ?_⟩
      have := h.1
      rw [Nat.add_zero]; omega
    · next hs =>
      refine ⟨fun a ha => ?_, fun hn => by simp at hn⟩
      simp only [Option.some.injEq] at ha
      subst ha
      exact sample_done h hs
  | succ n ih =>
    intro blk j s hj h
    unfold rejBounded
    by_cases hs : s.2 < 256
    · rw [if_pos hs]
      have hr := rejByte_acc he hst h hs
      by_cases hc : j = 136
      · rw [if_pos hc]
        subst hc
        rw [show 136 * blk + 136 = 136 * (blk + 1) by omega] at hr
        have := ih (blk + 1) 1 _ (by omega) hr
        rwa [show 136 * (blk + 1) + 1 + n = 136 * blk + 136 + (n + 1) by omega] at this
      · rw [if_neg hc]
        have := ih blk (j + 1) _ (by omega) hr
        rwa [show 136 * blk + (j + 1) + n = 136 * blk + j + (n + 1) by omega] at this
    · rw [if_neg hs]
      refine ⟨fun a ha => ?_, fun hn => by simp at hn⟩
      simp only [Option.some.injEq] at ha
      subst ha
      exact sample_done h hs

/-! ## Ranges -/

theorem sample_mem {cand : Nat → Option Int} {a : Nat → Int} (h : IsSample cand a) (x : Nat) (hx : x < 256) :
    ∃ g, cand g = some (a x) := by
  obtain ⟨n, hn⟩ := h
  have := List.mem_of_getElem? (hn x hx)
  unfold accepted at this
  rw [List.mem_filterMap] at this
  obtain ⟨g, _, hg⟩ := this
  exact ⟨g, hg⟩

theorem cand3_range {st : Nat → Nat} {a : Nat → Int} (h : IsSample (cand3 st) a) (x : Nat) (hx : x < 256) :
    0 ≤ a x ∧ a x < q := by
  obtain ⟨g, hg⟩ := sample_mem h x hx
  simp only [cand3, coeff3] at hg
  split at hg
  · next hq =>
    simp only [Option.some.injEq] at hg
    rw [← hg]
    exact ⟨Int.natCast_nonneg _, hq⟩
  · exact absurd hg (by simp)

theorem candHalf_range {eta : Nat} {st : Nat → Nat} {a : Nat → Int} (h : IsSample (candHalf eta st) a)
    (x : Nat) (hx : x < 256) : |a x| ≤ eta := by
  obtain ⟨g, hg⟩ := sample_mem h x hx
  unfold candHalf coeffHalf at hg
  generalize (if g % 2 = 0 then st (g / 2) % 16 else st (g / 2) / 16) = b at hg
  rw [abs_le]
  split at hg
  · next hq =>
    simp only [Option.some.injEq] at hg
    obtain ⟨rfl, _⟩ := hq
    omega
  · split at hg
    · next hq =>
      simp only [Option.some.injEq] at hg
      obtain ⟨rfl, _⟩ := hq
      omega
    · exact absurd hg (by simp)

end Verif.Crypto.Mldsa
