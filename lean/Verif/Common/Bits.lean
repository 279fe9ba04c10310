/-! Shared helpers: a tactic proving fixed-width bit identities one bit at a time (no `bv_decide`). -/
namespace Verif.Common

deriving instance DecidableEq for Except

/-- Bytes of the C code (`uint8_t`). -/
abbrev Byte := BitVec 8

theorem lt8_cases {i : Nat} (h : i < 8) :
    i = 0 ∨ i = 1 ∨ i = 2 ∨ i = 3 ∨ i = 4 ∨ i = 5 ∨ i = 6 ∨ i = 7 := by omega

/-- Prove an equation between 8-bit words bit by bit. -/
macro "bv_bits8" : tactic => `(tactic| (
  apply BitVec.eq_of_getElem_eq; intro i hi
  rcases lt8_cases hi with h | h | h | h | h | h | h | h <;> subst h <;> simp))

end Verif.Common
