import Verif.Crypto.Mldsa.SignVer
/-! The products of the signer as integers, and the low bits it checks. -/
namespace Verif.Crypto.Mldsa
open Finset
open Verif.Crypto.Mlkem (Poly i32 u32 u8 upd)

/-- The product in `Z[X] / (X^256 + 1)`. -/
def Spec.intMul (f g : Nat → Int) (k : Nat) : Int :=
  ∑ i ∈ range 256, if i ≤ k then f i * g (k - i) else -(f i * g (256 + k - i))

theorem intMul_cast (f g : Nat → Int) (k : Nat) : ((Spec.intMul f g k : Int) : Zq) = Spec.ringMul (cz f) (cz g) k := by
  unfold Spec.intMul Spec.ringMul
  rw [Int.cast_sum]
  apply sum_congr rfl
  intro i _
  split
  · push_cast; rfl
  · push_cast; rfl

theorem intMul_bound (f g : Nat → Int) (B : Int) (hB : 0 ≤ B) (hg : ∀ x, x < 256 → |g x| ≤ B) (k : Nat) (hk : k < 256) :
    |Spec.intMul f g k| ≤ (∑ i ∈ range 256, |f i|) * B := by
  unfold Spec.intMul
  refine le_trans (abs_sum_le_sum_abs _ _) ?_
  rw [sum_mul]
  apply sum_le_sum
  intro i hi
  rw [mem_range] at hi
  split
  · rw [abs_mul]
    exact mul_le_mul_of_nonneg_left (hg _ (by omega)) (abs_nonneg _)
  · rw [abs_neg, abs_mul]
    exact mul_le_mul_of_nonneg_left (hg _ (by omega)) (abs_nonneg _)

theorem ball_norm {tau : Nat} (ht : tau ≤ 256) {st : Nat → Nat} {c : Nat → Int} (h : Spec.IsBall tau st c) :
    ∑ i ∈ range 256, |c i| = tau := by
  obtain ⟨pos, h1, rfl⟩ := h
  obtain ⟨s1, -, s3⟩ := ball_shape tau ht st pos tau (le_refl _) h1
  have e : ∀ i ∈ range 256, |Spec.ball tau st pos tau i| = if Spec.ball tau st pos tau i ≠ 0 then 1 else 0 := by
    intro i _
    rcases s1 i with h | h | h <;> rw [h] <;> rfl
  rw [sum_congr rfl e, ← sum_filter, sum_const, s3]
  simp

theorem small_unique {a b : Int} (h : ((a : Int) : Zq) = ((b : Int) : Zq)) (ha : |a| ≤ 4190208) (hb : |b| ≤ 4190208) : a = b := by
  have := dvd_of_cast h
  rw [abs_le] at ha hb
  omega

/-- The product of the challenge with a small polynomial is the integer product. -/
theorem cs_exact {tau : Nat} (ht : tau ≤ 256) {st : Nat → Nat} {c s : Poly} (hc : Spec.IsBall tau st c) (B : Int) (h0 : 0 ≤ B)
    (hB : tau * B ≤ 4190208) (hB2 : B ≤ 8380416) (hs : ∀ x, x < 256 → |s x| ≤ B) (x : Nat) (hx : x < 256) :
    intt (vecMul (ntt c) (ntt s)) x = Spec.intMul c s x ∧ |intt (vecMul (ntt c) (ntt s)) x| ≤ tau * B := by
  obtain ⟨h1, h2⟩ := prod_spec c s 1 B (by decide) hB2 (fun x _ => isBall_range ht hc x) hs
  have hb := intMul_bound c s B h0 hs x hx
  rw [ball_norm ht hc] at hb
  have e : intt (vecMul (ntt c) (ntt s)) x = Spec.intMul c s x := by
    apply small_unique _ (h1 x hx) (by omega)
    rw [intMul_cast]
    exact ntt_inj (f := cz (intt (vecMul (ntt c) (ntt s)))) (fun y hy => by rw [h2 y hy, ntt_mul]) x hx
  rw [e]
  exact ⟨rfl, hb⟩

/-- A decomposition is one modulo `q`. -/
theorem decompose_cong {g m : Int} (h : GM g m) (r : Int) :
    ∃ e, r = 2 * g * (Spec.decompose g r).1 + (Spec.decompose g r).2 + e * 8380417 ∧ |(Spec.decompose g r).2| ≤ g := by
  obtain ⟨k, k0, k1, k2, hd⟩ := gm_shape h r
  rw [hd]
  unfold Spec.q at *
  rcases h with ⟨rfl, rfl⟩ | ⟨rfl, rfl⟩
  · by_cases hk : k = 44
    · rw [if_pos hk]
      refine ⟨r / 8380417 + 1, by simp only; omega, abs_le.2 ⟨by simp only; omega, by simp only; omega⟩⟩
    · rw [if_neg hk]
      refine ⟨r / 8380417, by simp only; omega, abs_le.2 ⟨by simp only; omega, by simp only; omega⟩⟩
  · by_cases hk : k = 16
    · rw [if_pos hk]
      refine ⟨r / 8380417 + 1, by simp only; omega, abs_le.2 ⟨by simp only; omega, by simp only; omega⟩⟩
    · rw [if_neg hk]
      refine ⟨r / 8380417, by simp only; omega, abs_le.2 ⟨by simp only; omega, by simp only; omega⟩⟩

/-- What the signer checks is LowBits(w − cs₂). -/
theorem low_stable {p : Params} (hp : p ∈ paramTable) (w cs2 w1 w0 : Int) (hw : Spec.decompose p.gamma2 w = (w1, w0))
    (hcs : -Spec.q < cs2 ∧ cs2 < Spec.q) (hr : |modQ (i32 (w0 - cs2))| < p.gamma2) :
    Spec.lowBits p.gamma2 (w - cs2) = modQ (i32 (w0 - cs2)) := by
  obtain ⟨m, hgm⟩ := gm_of hp
  obtain ⟨e1, h1, b1⟩ := decompose_cong hgm w
  obtain ⟨e2, h2, b2⟩ := decompose_cong hgm (w - cs2)
  have hhi := (signer_hint hp w cs2 0 w1 w0 hw hcs (by rw [abs_zero]; rcases hgm with ⟨e, -⟩ | ⟨e, -⟩ <;> omega) hr).2
  unfold Spec.highBits at hhi
  unfold Spec.lowBits
  rw [hw] at h1 b1
  rw [hhi] at h2
  simp only at h1 b1
  rw [abs_lt] at hr
  rw [abs_le] at b1 b2
  unfold Spec.q at hcs
  have hg : (p.gamma2 : Int) ≤ 261888 := by rcases hgm with ⟨e1, e2⟩ | ⟨e1, e2⟩ <;> omega
  rw [i32_id (by omega)] at hr ⊢
  obtain ⟨c, c0, c1, hc⟩ := modQ_shape (w0 - cs2) (by omega)
  generalize modQ (w0 - cs2) = s at *
  generalize (Spec.decompose p.gamma2 (w - cs2)).2 = v at *
  generalize 2 * (p.gamma2 : Int) * w1 = k at *
  omega

end Verif.Crypto.Mldsa
