import Verif.Crypto.Bn.Limb
/-! Model of the signed big-number functions of /repo/crypto/bn/src/bn_operation.c and bn_ucal.c. `BnExtend` and the requests to the
optimizer for temporaries are taken to succeed; NULL checks are left out. `size` is the length of `data`. A destination that is also a source
gives the same result, since the model computes the new value before it is stored. -/
namespace Verif.Crypto.Bn

variable {h : Nat}

/-- `BN_BigNum`, crypto/bn/include/crypt_bn.h:61: `sign`, `size` and `data`. -/
structure Bn (h : Nat) where
  neg : Bool
  data : List (W h)
deriving DecidableEq

/-- `BN_Zeroize`, bn_basic.c:261-272. -/
def bnZero : Bn h := ⟨false, []⟩

/-- `BN_SetLimb`, bn_basic.c:283-299. -/
def bnLimb (w : W h) : Bn h := ⟨false, if w ≠ 0 then [w] else []⟩

/-- A vector cut to its `BinFixSize`. -/
def trim (l : List (W h)) : List (W h) := l.take (fixSize l l.length)

/-- `UAdd`, bn_ucal.c:91-94. -/
def addTail : List (W h) → W h → List (W h) × W h
  | [], carry => ([], carry)
  | a :: as, carry =>
    let (carry, r) := addAB a carry
    let (rs, carry) := addTail as carry
    (r :: rs, carry)

/-- `UAdd`, bn_ucal.c:70-100. -/
def uAdd (a b : List (W h)) : List (W h) :=
  let mx := if a.length < b.length then b else a
  let mn := if a.length < b.length then a else b
  let (lo, carry) := binAdd (mx.take mn.length) mn 0
  let (hi, carry) := addTail (mx.drop mn.length) carry
  if carry ≠ 0 then lo ++ hi ++ [carry] else lo ++ hi

/-- `USub`, bn_ucal.c:42-49. -/
def subTail : List (W h) → W h → List (W h)
  | [], _ => []
  | t :: as, borrow => (t - borrow) :: subTail as (if t < borrow then 1 else 0)

/-- `USub`, bn_ucal.c:24-59. -/
def uSub (a b : List (W h)) : List (W h) :=
  let (lo, borrow) := binSub (a.take b.length) b 0
  trim (lo ++ subTail (a.drop b.length) borrow)

/-- `BN_Cmp`, bn_operation.c:42-48. -/
def bnCmp (a b : Bn h) : Int :=
  if a.neg ≠ b.neg then (if a.neg = false then 1 else -1)
  else if a.neg = true then binCmp b.data a.data
  else binCmp a.data b.data

/-- `BN_Add`, bn_operation.c:51-72. -/
def bnAdd (a b : Bn h) : Bn h :=
  if a.neg = b.neg then ⟨a.neg, uAdd a.data b.data⟩
  else
    let res := binCmp a.data b.data
    if res > 0 then ⟨a.neg, uSub a.data b.data⟩
    else if res < 0 then ⟨b.neg, uSub b.data a.data⟩
    else bnZero

/-- `BN_Sub`, bn_operation.c:125-145. -/
def bnSub (a b : Bn h) : Bn h :=
  if a.neg ≠ b.neg then ⟨a.neg, uAdd a.data b.data⟩
  else
    let res := binCmp a.data b.data
    if res = 0 then bnZero
    else if res > 0 then ⟨a.neg, uSub a.data b.data⟩
    else ⟨!b.neg, uSub b.data a.data⟩

/-- `BinInc` and the carry stored after it, bn_operation.c:89-96 and 167-174. -/
def incData (a : List (W h)) (w : W h) : List (W h) :=
  let (r, carry) := binInc a w
  if carry ≠ 0 then r ++ [carry] else r

/-- `UDec`, bn_ucal.c:61-68. -/
def uDec (a : List (W h)) (w : W h) : List (W h) := trim (binDec a w).1

/-- `BN_AddLimb`, bn_operation.c:74-123. -/
def bnAddLimb (a : Bn h) (w : W h) : Bn h :=
  if a.data.length = 0 then bnLimb w
  else if a.neg = false then ⟨false, incData a.data w⟩
  else
    match a.data with
    | [a0] =>
      if a0 > w then ⟨true, [a0 - w]⟩
      else if a0 = w then ⟨false, []⟩
      else ⟨false, [w - a0]⟩
    | _ => ⟨true, uDec a.data w⟩

/-- `BN_SubLimb`, bn_operation.c:147-196. `old` is what the destination held before: line 183-185 leaves its sign. -/
def bnSubLimb (old a : Bn h) (w : W h) : Bn h :=
  if a.data.length = 0 then ⟨if w = 0 then false else true, (bnLimb w).data⟩
  else if a.neg = true then ⟨true, incData a.data w⟩
  else
    match a.data with
    | [a0] =>
      if a0 ≥ w then ⟨old.neg, trim [a0 - w]⟩
      else ⟨true, [w - a0]⟩
    | _ => ⟨false, uDec a.data w⟩

/-- `BN_Mul`, bn_operation.c:216-274, without HITLS_CRYPTO_BN_COMBA, into a destination of the given room. -/
def bnMul (room : Nat) (a b : Bn h) : Bn h :=
  if a.data.length = 0 ∨ b.data.length = 0 then bnZero
  else
    let (t, _) := binMul (max room (a.data.length + b.data.length)) a.data b.data
    ⟨a.neg != b.neg, t.take (fixSize t (a.data.length + b.data.length))⟩

/-- The loop of `BN_MulLimb`, bn_operation.c:293-299. -/
def mulLimbLoop (w : W h) : List (W h) → W h → List (W h)
  | [], carry => if carry ≠ 0 then [carry] else []
  | a :: as, carry =>
    let (rh, rl) := mulAB a w
    let (c, r) := addAB rl carry
    r :: mulLimbLoop w as (c + rh)

/-- `BN_MulLimb`, bn_operation.c:276-306. -/
def bnMulLimb (a : Bn h) (w : W h) : Bn h :=
  if a.data.length = 0 ∨ w = 0 then bnZero
  else ⟨a.neg, mulLimbLoop w a.data 0⟩

/-- `BN_Sqr`, bn_operation.c:308-347, without HITLS_CRYPTO_BN_COMBA. -/
def bnSqr (a : Bn h) : Option (Bn h) :=
  if a.data.length = 0 then some bnZero
  else
    match binSqr (a.data.length * 2) a.data with
    | none => none
    | some (r, _) => some ⟨false, r.take (fixSize r (a.data.length * 2))⟩

/-- `BN_Div`, bn_operation.c:349-451: quotient and remainder; the outer `none` is the error for a zero divisor. -/
def bnDiv (x y : Bn h) : Option (Option (Bn h × Bn h)) :=
  if y.data.length = 0 then none
  else
    let ret := binCmp x.data y.data
    if ret < 0 then some (some (bnZero, x))
    else if ret = 0 then some (some (⟨x.neg != y.neg, (bnLimb 1).data⟩, bnZero))
    else
      match binDiv x.data y.data with
      | none => some none
      | some ((r, rSize), (q, qSize)) =>
        some (some (⟨x.neg != y.neg, q.take qSize⟩, ⟨if rSize = 0 then false else x.neg, r.take rSize⟩))

/-- The loop of `BN_DivLimb`, bn_operation.c:497-501, from the most significant word on. -/
def divLimbLoop (y : W h) : List (W h) → Option (List (W h) × W h)
  | [] => some ([], 0)
  | x :: xs =>
    match divLimbLoop y xs with
    | none => none
    | some (qs, rem) =>
      match divND rem x y with
      | none => none
      | some (q, rem) => some (q :: qs, rem)

/-- `BN_DivLimb`, bn_operation.c:467-521: quotient and remainder; the outer `none` is the error for a zero divisor. -/
def bnDivLimb (x : Bn h) (y : W h) : Option (Option (Bn h × W h)) :=
  if y = 0 then none
  else if x.data.length = 0 then some (some (x, 0))
  else
    let shifts := zeroBits y
    match (if shifts ≠ 0 then binLshift x.data shifts else some x.data) with
    | none => some none
    | some data =>
      match divLimbLoop (y <<< shifts) data with
      | none => some none
      | some (q, rem) =>
        let q := trim q
        some (some (⟨if q.length = 0 then false else x.neg, q⟩, rem >>> shifts))

/-- `BN_Mod`, bn_operation.c:523-572. -/
def bnMod (a m : Bn h) : Option (Option (Bn h)) :=
  match bnDiv a m with
  | none => none
  | some none => some none
  | some (some (_, t)) =>
    if t.neg = false then some (some t)
    else if m.neg = true then some (some (bnSub t m))
    else some (some (bnAdd t m))

/-- `BN_ModLimb`, bn_operation.c:574-598. -/
def bnModLimb (a : Bn h) (m : W h) : Option (Option (W h)) :=
  if m = 0 then none
  else if a.data.length = 0 then some (some 0)
  else
    match bnDivLimb a m with
    | none => none
    | some none => some none
    | some (some (_, r)) => some (some (if a.neg = true then m - r else r))

/-- `BinBits`, bn_bincal.c:237-243. -/
def binBits (l : List (W h)) : Nat :=
  match l.getLast? with
  | none => 0
  | some top => l.length * (h + h) - zeroBits top

/-- `BN_GetBit`, bn_basic.c:314-326. -/
def getBit (l : List (W h)) (n : Nat) : Bool :=
  match l[n / (h + h)]? with
  | none => false
  | some x => x.getLsbD (n % (h + h))

/-- `BN_Rshift`, bn_operation.c:871-892. -/
def bnRshift (a : Bn h) (n : Nat) : Option (Bn h) :=
  if binBits a.data ≤ n then some bnZero
  else
    match binRshift a.data n with
    | none => none
    | some r => some ⟨a.neg, r⟩

/-- `BN_Lshift`, bn_operation.c:894-914. -/
def bnLshift (a : Bn h) (n : Nat) : Option (Bn h) :=
  if a.data.length ≠ 0 then
    match binLshift a.data n with
    | none => none
    | some r => some ⟨a.neg, r⟩
  else some ⟨a.neg, []⟩

end Verif.Crypto.Bn
