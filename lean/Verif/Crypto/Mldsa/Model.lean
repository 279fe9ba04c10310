import Verif.Crypto.Mldsa.CodecModel
/-! Model of the portable ML-DSA rounding, hint and norm functions: `/repo/crypto/mldsa/src/ml_dsa_local.h`,
`ml_dsa_poly.c` and `ml_dsa_core.c`.

Integers are mathematical; every store into an `int32_t` or `uint32_t` applies the wrap of that type explicitly
(signed overflow is undefined in C; the model wraps there too, and the theorems show that no wrap ever happens).
A right shift of a signed number is the arithmetic shift of gcc and clang, i.e. floor division; `(x >> 31) & c` for
a signed `x` is therefore `c` if `x` is negative and 0 otherwise, and is written that way.  Loops whose iterations
touch one coefficient each are written as one function of the coefficient. -/
namespace Verif.Crypto.Mldsa
open Verif.Crypto.Mlkem (Poly i32 u32 u8 upd)

/-- `MLDSA_Q`, ml_dsa_local.h:41. -/
def Q : Int := 8380417

/-- `CRYPT_ML_DSA_Info`, ml_dsa_local.h:67-81. -/
structure Params where
  k : Nat
  l : Nat
  eta : Nat
  tau : Nat
  beta : Nat
  gamma1 : Nat
  gamma2 : Nat
  omega : Nat
  secBits : Nat
  pubLen : Nat
  prvLen : Nat
  sigLen : Nat
deriving DecidableEq

/-- `MLDSA_PARAMETERTER_44`, ml_dsa.c:34-35. -/
def mldsa44 : Params := ⟨4, 4, 2, 39, 78, 2 ^ 17, (8380417 - 1) / 88, 80, 128, 1312, 2560, 2420⟩
/-- `MLDSA_PARAMETERTER_65`, ml_dsa.c:37-38. -/
def mldsa65 : Params := ⟨6, 5, 4, 49, 196, 2 ^ 19, (8380417 - 1) / 32, 55, 192, 1952, 4032, 3309⟩
/-- `MLDSA_PARAMETERTER_87`, ml_dsa.c:40-41. -/
def mldsa87 : Params := ⟨8, 7, 2, 60, 120, 2 ^ 19, (8380417 - 1) / 32, 75, 256, 2592, 4896, 4627⟩
/-- `g_mldsaInfo`, ml_dsa.c:43-44. -/
def paramTable : List Params := [mldsa44, mldsa65, mldsa87]

/-- `MLDSA_MOD_Q`, ml_dsa_local.h:61-65. -/
def modQ (v : Int) : Int :=
  let m := i32 (v + 2 ^ 22) / 2 ^ 23
  i32 (v - i32 (m * Q))

/-- `x + (MLDSA_Q & (x >> 31))`, ml_dsa_poly.c:88, 120, 303. -/
def addQ (x : Int) : Int := i32 (x + (if x < 0 then Q else 0))

/-- The high part `t` of `MLDSA_Decompose`, ml_dsa_poly.c:49-57. -/
def decomposeHigh (p : Params) (r : Int) : Int :=
  let t := i32 (u32 (u32 r + 0x7f) / 2 ^ 7)
  if p.k = 4 then
    let t := i32 (u32 (u32 (u32 t * 11275) + 2 ^ 23) / 2 ^ 24)
    -- `t ^= ((43 - t) >> 31u) & t`
    if 43 - t < 0 then 0 else t
  else
    let t := i32 (u32 (u32 (u32 t * 1025) + 2 ^ 21) / 2 ^ 22)
    t % 16

/-- `MLDSA_Decompose`, ml_dsa_poly.c:47-62: `(r1, r0)`. -/
def decompose (p : Params) (r : Int) : Int × Int :=
  let t := decomposeHigh p r
  let r0 := i32 (u32 (r - u32 (u32 (t * 2) * p.gamma2)))
  (t, i32 (r0 - (if (Q - 1) / 2 - r0 < 0 then Q else 0)))

/-- `MLDSA_UseHint`, ml_dsa_poly.c:80-114, one coefficient. -/
def useHint (p : Params) (h w : Int) : Int :=
  let w := addQ w
  let (r1, r0) := decompose p w
  if h = 0 then r1
  else if p.gamma2 = 95232 then
    if r0 > 0 then (if r1 = 43 then 0 else r1 + 1) else (if r1 = 0 then 43 else r1 - 1)
  else (if r0 > 0 then r1 + 1 else r1 - 1) % 16

/-- `MLDSA_Batch_Decompose`, ml_dsa_poly.c:116-124, one coefficient: the new `(r1[i], a[i])`. -/
def batchDecompose (p : Params) (a : Int) : Int × Int := decompose p (addQ a)

/-- `MLDSA_ComputesPower2Round`, ml_dsa_poly.c:315-324, one coefficient: the new `(t1, t0)`. -/
def power2Round (t1 : Int) : Int × Int :=
  let t := i32 (i32 (t1 + 2 ^ (13 - 1)) - 1) / 2 ^ 13
  (t, i32 (t1 - i32 (t * 2 ^ 13)))

/-- `MLDSA_VectorsAdd`, ml_dsa_poly.c:291-297. -/
def vecAdd (a b : Poly) : Poly := fun i => modQ (i32 (a i + b i))
/-- `MLDSA_VectorsAddQ`, ml_dsa_poly.c:299-305. -/
def vecAddQ (a b : Poly) : Poly := fun i => addQ (i32 (a i + b i))
/-- `MLDSA_VectorsSub`, ml_dsa_poly.c:307-313. -/
def vecSub (a b : Poly) : Poly := fun i => modQ (i32 (a i - b i))

/-- The loop of `MLDSA_ValidityChecks`, ml_dsa_poly.c:280-287: `result` after `n` iterations. -/
def validityLoop (z : Poly) (t : Nat) : Nat → Nat
  | 0 => 0
  | j + 1 =>
    let n := u32 (if z j < 0 then -1 else 0)
    -- `n & (z << 1)`: `n` is all ones or zero
    let n := u32 (u32 (z j) - (if n = 0 then 0 else u32 (u32 (z j) * 2)))
    validityLoop z t j ||| ((u32 (t - 1 - n)).toNat >>> 31 &&& 1)

/-- `MLDSA_ValidityChecks`, ml_dsa_poly.c:278-289. -/
def validityChecks (z : Poly) (t : Nat) : Bool := validityLoop z t 256 == 0

/-- `((x | (0 - x)) >> 31)` on `uint32_t`, ml_dsa_core.c:780, 784. -/
def topOfOrNeg (x : Nat) : Nat := (x ||| w32 (0 - (x : Int))) >>> 31

/-- The body of `MakeHint`, ml_dsa_core.c:770-787: `w` is `st->w[i][j]`, `ct0` is `st->r0[i][j]`, `cs2` is
`st->y[i][j]`, `w1` is `st->w1[i][j]`. -/
def hintBit (p : Params) (w ct0 cs2 w1 : Int) : Nat :=
  let g : Int := p.gamma2
  let v := modQ (i32 (i32 (w + ct0) - cs2))
  let x := w32 (v + g)
  let c1 := (w32 (g - v) >>> 31) &&& 1
  let c2 := (x >>> 31) &&& 1
  let isZero := topOfOrNeg x ^^^ 1
  let isNonZero := topOfOrNeg (w32 w1) &&& 1
  c1 ||| c2 ||| (isZero &&& isNonZero)

/-! ## Hint encoding -/

/-- Outcome of the hint part of `SigDecode`. -/
inductive HintRes where
  /-- A byte outside the array is read. -/
  | oob
  /-- `CRYPT_MLDSA_SIGN_DATA_ERROR`. -/
  | reject
  /-- Success, with the rows `h[0], …` decoded. -/
  | ok (h : List Poly)

/-- The inner loop of `SigDecode`, ml_dsa_core.c:837-844: `n` rounds are left of `while (index < ptr[omega + i])`.
`none`: read outside the array; `some none`: `CRYPT_MLDSA_SIGN_DATA_ERROR`. -/
def hintRow (ptr : List Nat) (first : Nat) (h : Poly) (index : Nat) : Nat → Option (Option Poly)
  | 0 => some (some h)
  | n + 1 =>
    match ptr[index]?, ptr[index - 1]? with
    | some b, some a =>
      if index > first ∧ a ≥ b then some none
      else hintRow ptr first (upd h b 1) (index + 1) n
    | _, _ => none

/-- The final loop of `SigDecode`, ml_dsa_core.c:846-848, from index `i` with `n` rounds left. -/
def hintTail (ptr : List Nat) (i : Nat) : Nat → Option Bool
  | 0 => some true
  | n + 1 =>
    match ptr[i]? with
    | some b => if b ≠ 0 then some false else hintTail ptr (i + 1) n
    | none => none

/-- The outer loop of `SigDecode`, ml_dsa_core.c:829-848, from row `i` with `n` rows left. -/
def hintRows (omega : Nat) (ptr : List Nat) (i index : Nat) (acc : List Poly) : Nat → HintRes
  | 0 =>
    match hintTail ptr index (omega - index) with
    | some true => .ok acc
    | some false => .reject
    | none => .oob
  | n + 1 =>
    match ptr[omega + i]? with
    | none => .oob
    | some bound =>
      if bound < index ∨ bound > omega then .reject
      else match hintRow ptr index (fun _ => 0) index (bound - index) with
        | none => .oob
        | some none => .reject
        | some (some h) => hintRows omega ptr (i + 1) bound (acc ++ [h]) n

/-- The hint part of `SigDecode`, ml_dsa_core.c:829-849; `ptr` are the bytes after the packed `z`. -/
def hintDecode (p : Params) (ptr : List Nat) : HintRes := hintRows p.omega ptr 0 0 [] p.k

/-- The store `ptr[i] = v` (of a `uint8_t`); `none` is a store outside the array. -/
def store (ptr : List Nat) (i v : Nat) : Option (List Nat) :=
  if i < ptr.length then some (ptr.set i (u8 v)) else none

/-- The inner loop of `SigEncode`, ml_dsa_core.c:808-813, from column `j` with `n` columns left. -/
def hintEncRow (h : Poly) (j : Nat) (s : List Nat × Nat) : Nat → Option (List Nat × Nat)
  | 0 => some s
  | n + 1 =>
    if h j ≠ 0 then
      match store s.1 s.2 j with
      | some ptr => hintEncRow h (j + 1) (ptr, s.2 + 1) n
      | none => none
    else hintEncRow h (j + 1) s n

/-- The outer loop of `SigEncode`, ml_dsa_core.c:807-815, from row `i`. -/
def hintEncRows (omega i : Nat) (s : List Nat × Nat) : List Poly → Option (List Nat)
  | [] => some s.1
  | h :: rest =>
    match hintEncRow h 0 s 256 with
    | none => none
    | some s =>
      match store s.1 (omega + i) s.2 with
      | none => none
      | some ptr => hintEncRows omega (i + 1) (ptr, s.2) rest

/-- The hint part of `SigEncode`, ml_dsa_core.c:806-815: `memset` of the bytes after the packed `z`, then the loops. -/
def hintEncode (p : Params) (h : List Poly) : Option (List Nat) :=
  hintEncRows p.omega 0 (List.replicate (p.omega + p.k) 0, 0) h

end Verif.Crypto.Mldsa
