import Mathlib.Data.Int.Notation
/-! FIPS 204, written out independently of the code: rounding (section 7.4), hints, and the canonical encoding of a
hint vector (section 7.1). -/
namespace Verif.Crypto.Mldsa.Spec

/-- The modulus (FIPS 204, section 4, Table 1). -/
def q : Int := 8380417

/-- `r mod± m`: the representative of `r` in `(-m/2, m/2]` (FIPS 204, section 2.3). -/
def cmod (r m : Int) : Int := if r % m > m / 2 then r % m - m else r % m

/-- Algorithm 35, Power2Round, with `d = 13`. -/
def power2Round (r : Int) : Int × Int :=
  let rp := r % q
  let r0 := cmod rp (2 ^ 13)
  ((rp - r0) / 2 ^ 13, r0)

/-- Algorithm 36, Decompose. -/
def decompose (gamma2 r : Int) : Int × Int :=
  let rp := r % q
  let r0 := cmod rp (2 * gamma2)
  if rp - r0 = q - 1 then (0, r0 - 1) else ((rp - r0) / (2 * gamma2), r0)

/-- Algorithm 37, HighBits. -/
def highBits (gamma2 r : Int) : Int := (decompose gamma2 r).1
/-- Algorithm 38, LowBits. -/
def lowBits (gamma2 r : Int) : Int := (decompose gamma2 r).2

/-- Algorithm 39, MakeHint. -/
def makeHint (gamma2 z r : Int) : Nat := if highBits gamma2 r ≠ highBits gamma2 (r + z) then 1 else 0

/-- Algorithm 40, UseHint. -/
def useHint (gamma2 : Int) (h : Nat) (r : Int) : Int :=
  let m := (q - 1) / (2 * gamma2)
  let d := decompose gamma2 r
  if h = 1 ∧ d.2 > 0 then (d.1 + 1) % m
  else if h = 1 ∧ d.2 ≤ 0 then (d.1 - 1) % m
  else d.1

/-- The positions of the ones of one row of the hint, in increasing order. -/
def positions (row : Nat → Int) : List Nat := (List.range 256).filter (fun j => row j ≠ 0)

/-- The number of ones in the first rows, one entry per row. -/
def counts (c : Nat) : List (Nat → Int) → List Nat
  | [] => []
  | row :: rest => (c + (positions row).length) :: counts (c + (positions row).length) rest

/-- The number of ones in the whole hint. -/
def weight (h : List (Nat → Int)) : Nat := (h.flatMap positions).length

/-- A hint of the parameter set: `k` rows of 256 zeros and ones (and nothing past the end of a row), at most `ω`
ones. -/
def IsHint (k omega : Nat) (h : List (Nat → Int)) : Prop :=
  h.length = k ∧ (∀ row ∈ h, ∀ x, (row x = 0 ∨ row x = 1) ∧ (256 ≤ x → row x = 0)) ∧ weight h ≤ omega

/-- The encoding of a hint as `ω + k` bytes (HintBitPack, Algorithm 20): the positions row by row, zeros up to `ω`,
and for each row the number of ones up to and including it. -/
def hintBytes (omega : Nat) (h : List (Nat → Int)) : List Nat :=
  h.flatMap positions ++ List.replicate (omega - weight h) 0 ++ counts 0 h

end Verif.Crypto.Mldsa.Spec
