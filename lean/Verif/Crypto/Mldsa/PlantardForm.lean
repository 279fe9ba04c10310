import Verif.Crypto.Mldsa.NttModel
/-! Constants in Plantard form. -/
namespace Verif.Crypto.Mldsa

/-- `zeta` is the Plantard form of `z`. -/
def PF (zeta z : Int) : Prop := ∃ c w m, zeta * 8380417 = c + 18446744073709551616 * w ∧
  (-8380417 ≤ c ∧ c ≤ 8380417) ∧ c + z * 18446744073709551616 = 8380417 * m

/-- A decidable sufficient condition. -/
def PFb (zeta z : Int) : Bool :=
  let c := (zeta * 8380417) % 18446744073709551616
  decide (c ≤ 8380417 ∧ (c + z * 18446744073709551616) % 8380417 = 0)

theorem PF_of {zeta z : Int} (h : PFb zeta z = true) : PF zeta z := by
  unfold PFb at h
  simp only [decide_eq_true_eq] at h
  obtain ⟨n, hn⟩ : ∃ n, n = zeta * 8380417 := ⟨_, rfl⟩
  unfold PF
  rw [← hn] at h ⊢
  obtain ⟨c, hc⟩ : ∃ c, c = n % 18446744073709551616 := ⟨_, rfl⟩
  rw [← hc] at h
  obtain ⟨m, hm⟩ := Int.dvd_of_emod_eq_zero h.2
  have h1 : n = c + 18446744073709551616 * (n / 18446744073709551616) := by clear h hm hn; omega
  have h2 : -8380417 ≤ c ∧ c ≤ 8380417 := by have := h.1; clear h hm hn h1; omega
  exact ⟨c, _, m, h1, h2, hm⟩

theorem PF_neg {zeta z : Int} (h : PF zeta z) : PF (-zeta) (-z) := by
  obtain ⟨c, w, m, h1, h2, h3⟩ := h
  have a1 : -zeta * 8380417 = -c + 18446744073709551616 * (-w) := by clear h2 h3; omega
  have a2 : -8380417 ≤ -c ∧ -c ≤ 8380417 := by clear h1 h3 a1; omega
  have a3 : -c + -z * 18446744073709551616 = 8380417 * (-m) := by clear h1 h2 a1 a2; omega
  exact ⟨-c, -w, -m, a1, a2, a3⟩

end Verif.Crypto.Mldsa
