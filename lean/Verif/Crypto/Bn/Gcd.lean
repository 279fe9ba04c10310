import Verif.Crypto.Bn.Api
/-! Model of /repo/crypto/bn/src/bn_gcd.c. Memory is taken to be available; NULL checks are left out. In each result the outer `none` is an
error that the function returns and the inner `none` is a read outside of an array, a division by zero, or a loop that has not ended within
its bound. -/
namespace Verif.Crypto.Bn

variable {h : Nat}

/-- `BN_IsOne`, bn_basic.c:225-232. -/
def isOne (a : Bn h) : Bool := decide (a = ⟨false, [1]⟩)

/-- `BnGcdDiv`, bn_gcd.c:29-54. `fuel` bounds the number of rounds. -/
def gcdLoop : Nat → Bn h → Bn h → Option (Option (Bn h))
  | 0, _, _ => some none
  | fuel + 1, big, small =>
    match bnDiv big small with
    | none => none
    | some none => some none
    | some (some (_, big)) =>
      if isOne big = true then some (some big)
      else if big.data.length = 0 then some (some small)
      else gcdLoop fuel small big

/-- `BN_Gcd`, bn_gcd.c:78-128, with `BnGcdCheckInput`, bn_gcd.c:56-76. -/
def bnGcd (a b : Bn h) : Option (Option (Bn h)) :=
  if a.data.length = 0 ∨ b.data.length = 0 then none
  else
    let ret := binCmp a.data b.data
    if ret = 0 then some (some ⟨false, a.data⟩)
    else
      let big := if ret > 0 then a else b
      let small := if ret > 0 then b else a
      match gcdLoop ((2 ^ (h + h)) ^ small.data.length) big small with
      | none => none
      | some none => some none
      | some (some r) => some (some ⟨false, r.data⟩)

/-- `InverseCore`, bn_gcd.c:148-198. `fuel` bounds the number of rounds. -/
def invCoreLoop : Nat → Bn h → Bn h → Bn h → Bn h → Option (Option (Bn h))
  | 0, _, _, _, _ => some none
  | fuel + 1, a, b, c, d =>
    match bnDiv a b with
    | none => none
    | some none => some none
    | some (some (t, a)) =>
      if a.data.length = 0 then
        if isOne b = true then some (some (bnLimb 1)) else none
      else
        let t : Bn h := ⟨!t.neg, t.data⟩
        let e := bnMul (t.data.length + d.data.length) t d
        let c := bnAdd c e
        if isOne a = true then some (some c)
        else invCoreLoop fuel b a d c

/-- `BN_ModInv`, bn_gcd.c:215-257, with `InverseInputCheck`, bn_gcd.c:200-213, and `InverseReady`, bn_gcd.c:130-146. -/
def bnModInv (x m : Bn h) : Option (Option (Bn h)) :=
  if x.data.length = 0 ∨ m.data.length = 0 then none
  else
    let a : Bn h := ⟨false, m.data⟩
    match bnMod x m with
    | none => none
    | some none => some none
    | some (some b) =>
      if b.data.length = 0 then none
      else
        match invCoreLoop ((2 ^ (h + h)) ^ b.data.length) a b bnZero (bnLimb 1) with
        | none => none
        | some none => some none
        | some (some t) => bnMod t m

/-- `BN_Lcm`, bn_gcd.c:261-290. `rIsB`: the destination is the object of the second operand, so that line 279 overwrites it. -/
def bnLcm (rIsB : Bool) (a b : Bn h) : Option (Option (Bn h)) :=
  match bnGcd a b with
  | none => none
  | some none => some none
  | some (some gcd) =>
    if isOne gcd = false then
      match bnDiv a gcd with
      | none => none
      | some none => some none
      | some (some (r, _)) =>
        let b := if rIsB = true then r else b
        some (some (bnMul (r.data.length + b.data.length) r b))
    else some (some (bnMul (a.data.length + b.data.length) a b))

end Verif.Crypto.Bn
