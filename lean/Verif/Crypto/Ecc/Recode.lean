import Mathlib.Tactic.Ring
import Mathlib.Tactic.Linarith
import Mathlib.Tactic.LinearCombination
import Mathlib.Data.Nat.Bitwise
import Verif.Crypto.Ecc.Model

/-! The signed windows of `ECC_ReCodeK`. -/
namespace Verif.Crypto.Ecc

/-- The sum of the widths: the position of the first item. -/
def width : Code → Nat
  | [] => 0
  | (_, w) :: cs => w + width cs

/-- The number that the items stand for. -/
def value : Code → Int
  | [] => 0
  | (n, w) :: cs => n * 2 ^ (w + width cs) + value cs

/-- The digits are odd and at most 15, and only the last width can be zero. -/
def Good (c : Code) : Prop := (∀ x ∈ c, x.1 % 2 = 1 ∧ -15 ≤ x.1 ∧ x.1 ≤ 15) ∧ ∀ x ∈ c.dropLast, 0 < x.2

def cbit (c : Bool) : Nat := if c = true then 1 else 0

theorem bit_mod (k i : Nat) : k % 2 ^ (i + 1) = k % 2 ^ i + cbit (k.testBit i) * 2 ^ i := by
  rw [Nat.mod_pow_succ, Nat.testBit_eq_decide_div_mod_eq, cbit]
  rcases Nat.mod_two_eq_zero_or_one (k / 2 ^ i) with h | h <;> simp [h]

theorem skipBits_spec (k : Nat) (carry : Bool) (e : Nat) (he : k.testBit e ≠ carry) (fuel base lw : Nat) (hb : base ≤ e)
    (hf : e - base < fuel) :
    ∃ b', skipBits k carry fuel base lw = some (b', lw + (b' - base)) ∧ base ≤ b' ∧ b' ≤ e ∧ k.testBit b' ≠ carry ∧
      k % 2 ^ b' + cbit carry * 2 ^ base = k % 2 ^ base + cbit carry * 2 ^ b' := by
  induction fuel generalizing base lw with
  | zero => omega
  | succ fuel ih =>
    unfold skipBits
    by_cases h : k.testBit base = carry
    · rw [if_pos h]
      have hne : base ≠ e := by rintro rfl; exact he h
      obtain ⟨b', h1, h2, h3, h4, h5⟩ := ih (base + 1) (lw + 1) (by omega) (by omega)
      refine ⟨b', ?_, by omega, h3, h4, ?_⟩
      · rw [h1]
        have : lw + 1 + (b' - (base + 1)) = lw + (b' - base) := by omega
        rw [this]
      · rw [bit_mod, h, pow_succ] at h5
        linarith
    · rw [if_neg h]
      exact ⟨base, by simp, le_refl _, hb, h, rfl⟩

theorem takeBits_spec (k bits n : Nat) (num : Int) (base shift : Nat) (hb : base ≤ bits) :
    takeBits k bits n num base shift =
      (num + ((2 ^ shift * (k / 2 ^ base % 2 ^ min n (bits - base)) : Nat) : Int), base + min n (bits - base),
        shift + min n (bits - base)) := by
  induction n generalizing num base shift with
  | zero => simp [takeBits, Nat.mod_one]
  | succ n ih =>
    unfold takeBits
    by_cases h : base = bits
    · subst h
      simp [Nat.mod_one]
    · rw [if_pos h, ih _ _ _ (by omega)]
      have e : min (n + 1) (bits - base) = min n (bits - (base + 1)) + 1 := by omega
      rw [e]
      have e1 : k / 2 ^ base % 2 ^ (min n (bits - (base + 1)) + 1) =
          cbit (k.testBit base) + 2 * (k / 2 ^ (base + 1) % 2 ^ min n (bits - (base + 1))) := by
        rw [Nat.pow_succ', Nat.mod_mul, Nat.div_div_eq_div_mul, ← Nat.pow_succ, Nat.testBit_eq_decide_div_mod_eq, cbit]
        rcases Nat.mod_two_eq_zero_or_one (k / 2 ^ base) with h | h <;> simp [h]
      rw [e1]
      refine Prod.ext ?_ (Prod.ext ?_ ?_)
      · show _ = _
        dsimp only
        cases k.testBit base
        · simp only [cbit, Bool.false_eq_true, if_false]
          push_cast
          ring
        · simp only [cbit, if_true]
          push_cast
          ring
      · dsimp only; omega
      · dsimp only; omega

/-- The state of the loop. -/
structure RInv (k bits base : Nat) (carry : Bool) (lw : Nat) (c : Code) : Prop where
  le : base ≤ bits
  wid : width c + lw = base
  val : value c + (cbit carry * 2 ^ base : Nat) = (k % 2 ^ base : Nat)
  good : Good c
  pos : c ≠ [] → 0 < lw ∨ (base = bits ∧ carry = false)

theorem good_cons {n : Int} {w : Nat} {c : Code} (h : Good c) (hn : n % 2 = 1 ∧ -15 ≤ n ∧ n ≤ 15) (hw : c ≠ [] → 0 < w) :
    Good ((n, w) :: c) := by
  refine ⟨?_, ?_⟩
  · intro x hx
    rcases List.mem_cons.mp hx with rfl | hx
    · exact hn
    · exact h.1 x hx
  · cases c with
    | nil => intro x hx; simp at hx
    | cons y c =>
      intro x hx
      rw [List.dropLast_cons_of_ne_nil (by simp)] at hx
      rcases List.mem_cons.mp hx with rfl | hx
      · exact hw (by simp)
      · exact h.2 x hx

theorem digit_arith (num0 c s : Nat) (hs : num0 < 2 ^ s) (hs5 : s ≤ 5) (hc : c ≤ 1) (hpar : (num0 + c) % 2 = 1)
    (num : Int) (hnum : num = if (num0 : Int) + c ≥ 16 then -(32 - ((num0 : Int) + c)) else (num0 : Int) + c) :
    (num % 2 = 1 ∧ -15 ≤ num ∧ num ≤ 15) ∧ ((num0 : Int) + c ≥ 16 → s = 5) := by
  have hs' : s < 5 → num0 ≤ 15 := by
    intro h
    have : 2 ^ s ≤ 2 ^ 4 := Nat.pow_le_pow_right (by omega) (by omega)
    omega
  have h5 : num0 < 32 := lt_of_lt_of_le hs (by
    have : 2 ^ s ≤ 2 ^ 5 := Nat.pow_le_pow_right (by omega) hs5
    omega)
  by_cases h : (num0 : Int) + c ≥ 16
  · rw [if_pos h] at hnum
    refine ⟨by omega, fun _ => ?_⟩
    by_contra hh
    have := hs' (by omega)
    omega
  · rw [if_neg h] at hnum
    exact ⟨by omega, fun hh => absurd hh h⟩

theorem recodeLoop_spec (k bits : Nat) (hk : k < 2 ^ bits) (htop : 0 < bits → k.testBit (bits - 1) = true) (fuel offset base : Nat)
    (carry : Bool) (lw : Nat) (c : Code) (h : RInv k bits base carry lw c) (hf : bits - base < fuel)
    (ho : (bits - base) / 5 + 1 ≤ offset ∨ (base = bits ∧ carry = false)) :
    ∃ c' B, recodeLoop k bits fuel offset base carry lw c = some (c', B) ∧ Good c' ∧ value c' = k ∧ width c' = B := by
  induction fuel generalizing offset base carry lw c with
  | zero => omega
  | succ fuel ih =>
    unfold recodeLoop
    by_cases hb : base = bits
    · rw [if_pos hb]
      subst hb
      have hv := h.val
      rw [Nat.mod_eq_of_lt hk] at hv
      cases carry
      · rw [if_neg (by simp)]
        refine ⟨c, _, rfl, h.good, ?_, ?_⟩
        · simpa [cbit] using hv
        · have := h.wid; omega
      · rw [if_pos rfl]
        have ho' : offset ≠ 0 := by
          rcases ho with h | h
          · omega
          · exact absurd h.2 (by simp)
        rw [if_neg ho']
        refine ⟨_, _, rfl, good_cons h.good (by omega) (fun hc => ?_), ?_, ?_⟩
        · rcases h.pos hc with h | h
          · exact h
          · exact absurd h.2 (by simp)
        · have : lw + width c = base := by have := h.wid; omega
          simp only [value, this]
          simp only [cbit, if_true] at hv
          push_cast at hv ⊢
          linarith
        · have := h.wid
          simp only [width]; omega
    · rw [if_neg hb]
      have ho' : (bits - base) / 5 + 1 ≤ offset := by
        rcases ho with h | h
        · exact h
        · exact absurd h.1 hb
      have hle := h.le
      rw [if_neg (by omega)]
      obtain ⟨e, he1, he2, he3, he4⟩ : ∃ e, base ≤ e ∧ e ≤ bits ∧ k.testBit e ≠ carry ∧ (carry = false → e < bits) := by
        cases carry
        · exact ⟨bits - 1, by omega, by omega, by rw [htop (by omega)]; simp, fun _ => by omega⟩
        · exact ⟨bits, by omega, le_refl _, by rw [Nat.testBit_lt_two_pow hk]; simp, by simp⟩
      obtain ⟨b', h1, h2, h3, h4, h5⟩ := skipBits_spec k carry e he3 (bits + 2) base lw he1 (by omega)
      rw [h1]
      dsimp only
      rw [takeBits_spec k bits 5 0 b' 0 (by omega)]
      dsimp only
      generalize hs : min 5 (bits - b') = s
      have hs5 : s ≤ 5 := by omega
      generalize hn0 : k / 2 ^ b' % 2 ^ s = num0
      have hn0lt : num0 < 2 ^ s := by rw [← hn0]; exact Nat.mod_lt _ (by positivity)
      have hcb : (if carry = true then (1 : Int) else 0) = (cbit carry : Nat) := by cases carry <;> rfl
      rw [hcb]
      have hz : (0 : Int) + ((2 ^ 0 * num0 : Nat) : Int) = num0 := by push_cast; ring
      rw [hz]
      have hpar : (num0 + cbit carry) % 2 = 1 := by
        rcases Nat.eq_zero_or_pos s with h0 | h0
        · subst h0
          have : num0 = 0 := by simpa using hn0lt
          cases carry
          · exfalso
            have := he4 rfl
            omega
          · rw [this]; rfl
        · have e2 : num0 % 2 = k / 2 ^ b' % 2 := by
            rw [← hn0, Nat.mod_mod_of_dvd]
            exact dvd_pow_self 2 (by omega)
          have e3 := Nat.testBit_eq_decide_div_mod_eq (x := k) (i := b')
          cases carry
          · have : k.testBit b' = true := by simpa using h4
            rw [this] at e3
            have : k / 2 ^ b' % 2 = 1 := by simpa using e3.symm
            simp only [cbit, Bool.false_eq_true, if_false]
            omega
          · have : k.testBit b' = false := by simpa using h4
            rw [this] at e3
            have : ¬ k / 2 ^ b' % 2 = 1 := by simpa using e3.symm
            simp only [cbit, if_true]
            omega
      generalize hc' : decide ((num0 : Int) + (cbit carry : Nat) ≥ 16) = carry'
      generalize hnum : (if carry' = true then -(32 - ((num0 : Int) + (cbit carry : Nat))) else (num0 : Int) + (cbit carry : Nat)) = num
      have hcb1 : cbit carry ≤ 1 := by cases carry <;> simp [cbit]
      have hnum' : num = if (num0 : Int) + (cbit carry : Nat) ≥ 16 then -(32 - ((num0 : Int) + (cbit carry : Nat)))
          else (num0 : Int) + (cbit carry : Nat) := by
        rw [← hnum, ← hc']; simp
      obtain ⟨hdig, hfull⟩ := digit_arith num0 (cbit carry) s hn0lt hs5 hcb1 hpar num hnum'
      have hfull' : carry' = true → s = 5 := by
        intro h
        rw [← hc'] at h
        exact hfull (by simpa using h)
      have hw : lw + (b' - base) + width c = b' := by have := h.wid; omega
      have hnc : num = (num0 : Int) + (cbit carry : Nat) - 32 * (cbit carry' : Nat) := by
        rw [← hnum]
        cases carry' <;> simp [cbit] <;> ring
      apply ih
      · refine ⟨by omega, ?_, ?_, good_cons h.good hdig ?_, ?_⟩
        · simp only [width]; omega
        · simp only [value, hw]
          have hv := h.val
          have h5' : ((k % 2 ^ b' : Nat) : Int) + (cbit carry : Nat) * 2 ^ base = (k % 2 ^ base : Nat) + (cbit carry : Nat) * 2 ^ b' := by
            exact_mod_cast h5
          have hm : ((k % 2 ^ (b' + s) : Nat) : Int) = (k % 2 ^ b' : Nat) + 2 ^ b' * num0 := by
            rw [pow_add, Nat.mod_mul, hn0]; push_cast; ring
          rw [hm]
          have hp : (cbit carry' : Int) * 2 ^ (b' + s) = (cbit carry' : Nat) * (32 * 2 ^ b') := by
            cases hcc : carry'
            · simp [cbit]
            · rw [hfull' hcc, pow_add]; ring
          push_cast at hv h5' hp ⊢
          rw [hnc]
          push_cast
          linear_combination hv - h5' + hp
        · intro hc
          rcases h.pos hc with h | h
          · omega
          · exact absurd h.1 hb
        · intro _
          by_cases hs0 : s = 0
          · right
            refine ⟨by omega, ?_⟩
            cases hcc : carry'
            · rfl
            · have := hfull' hcc; omega
          · left; omega
      · by_cases hs0 : s = 0
        · have hca : carry = true := by
            cases carry
            · have := he4 rfl; omega
            · rfl
          omega
        · omega
      · by_cases hs0 : s = 5
        · left; omega
        · right
          refine ⟨by omega, ?_⟩
          cases hcc : carry'
          · rfl
          · exact absurd (hfull' hcc) hs0

theorem recode_spec (k : Nat) : ∃ c B, recode k = some (c, B) ∧ Good c ∧ value c = k ∧ width c = B := by
  unfold recode
  have hk : k < 2 ^ bits k := by
    unfold bits
    split
    · subst k; simp
    · exact Nat.lt_log2_self
  have htop : 0 < bits k → k.testBit (bits k - 1) = true := by
    unfold bits
    split
    · simp
    · rename_i h
      intro _
      rw [Nat.testBit_eq_decide_div_mod_eq]
      have h1 := Nat.log2_self_le h
      have h2 : k < 2 ^ (Nat.log2 k + 1) := Nat.lt_log2_self
      have : k / 2 ^ Nat.log2 k = 1 := by
        rw [Nat.div_eq_iff (by positivity)]
        rw [pow_succ] at h2
        omega
      simp [this]
  exact recodeLoop_spec k (bits k) hk htop _ _ _ _ _ _
    ⟨by omega, rfl, by simp [value, cbit, Nat.mod_one], ⟨by simp, by simp⟩, by simp⟩ (by omega) (Or.inl (by simp))

end Verif.Crypto.Ecc
