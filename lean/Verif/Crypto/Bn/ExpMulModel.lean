import Verif.Crypto.Bn.Mont

/-! Model of the product of two powers, `BN_MontExpMul`, /repo/crypto/bn/src/bn_mont.c:486-735. A read outside an exponent or a table is
`none`, as is an error. -/
namespace Verif.Crypto.Bn

variable {h : Nat}

/-- `MontExpOddReady`, bn_mont.c:503-539: `b, b^3, b^5, ...`. -/
def oddReady (M : Mont h) (b : List (W h)) (num : Nat) : Option (List (List (W h))) :=
  if num = 1 then some [b]
  else
    match montSqr M b with
    | none => none
    | some sq =>
      match readyLoop M sq (num - 1) b with
      | none => none
      | some ts => some (b :: ts)

/-- The first loop of `GetOddLimbBin`, bn_mont.c:554-568: the zeros passed and the place of the first one, if any. -/
def oddSkip (e : List (W h)) : Nat → Nat → Nat × Option Nat
  | 0, k => (k, none)
  | loc + 1, k => if getBit e loc = true then (k, some loc) else oddSkip e loc (k + 1)

/-- The second loop of `GetOddLimbBin`, bn_mont.c:570-582. -/
def oddTake (e : List (W h)) : Nat → Nat → W h → Nat → Option (W h × Nat)
  | 0, _, limb, k => some (limb, k)
  | n + 1, loc, limb, k =>
    match e[loc / (h + h)]? with
    | none => none
    | some x =>
      let limb := (limb <<< 1) ||| ((x >>> (loc % (h + h))) &&& 1)
      if loc = 0 then some (limb, k + 1) else oddTake e n (loc - 1) limb (k + 1)

/-- The third loop of `GetOddLimbBin`, bn_mont.c:584-588, at most `fuel` rounds. -/
def oddStrip : Nat → W h → Nat → Option (W h × Nat)
  | 0, _, _ => none
  | fuel + 1, limb, k => if limb ≠ 0 ∧ limb &&& 1 = 0 then oddStrip fuel (limb >>> 1) (k - 1) else some (limb, k)

/-- `GetOddLimbBin`, bn_mont.c:543-590: an odd number or zero, and the bits it stands for. -/
def getOdd (e : List (W h)) (base bits : Nat) : Option (W h × Nat) :=
  match oddSkip e base 0 with
  | (k, none) => some (0, k)
  | (k, some loc) =>
    match oddTake e bits loc 0 k with
    | none => none
    | some (limb, k) => oddStrip (h + h + 1) limb k

/-- The next window of an exponent if the last one is used up, bn_mont.c:626-627. -/
def nextWindow (e : List (W h)) (base perSize bit : Nat) (limb : W h) : Option (W h × Nat) :=
  if bit = 0 then getOdd e base perSize else some (limb, bit)

/-- The multiplication at the end of a window, bn_mont.c:632-637. -/
def windowMul (M : Mont h) (table : List (List (W h))) (hit : Bool) (limb : W h) (r : List (W h)) : Option (List (W h)) :=
  if hit = true ∧ limb ≠ 0 then
    match table[((limb - 1) >>> 1).toNat]? with
    | none => none
    | some t => montMul M r t
  else some r

/-- The loop of `MontExpMul`, bn_mont.c:625-641. -/
def expMulLoop (M : Mont h) (t1 t2 : List (List (W h))) (e1 e2 : List (W h)) (p1 p2 : Nat) :
    Nat → Nat → Nat → W h → Nat → W h → List (W h) → Option (List (W h))
  | 0, _, _, _, _, _, _ => none
  | fuel + 1, base, bit1, limb1, bit2, limb2, r =>
    if base = 0 then some r
    else do
      let (limb1, bit1) ← nextWindow e1 base p1 bit1 limb1
      let (limb2, bit2) ← nextWindow e2 base p2 bit2 limb2
      let bit := if bit1 < bit2 then bit1 else bit2
      let r ← sqrTimes M bit r
      let r ← windowMul M t1 (decide (bit = bit1)) limb1 r
      let r ← windowMul M t2 (decide (bit = bit2)) limb2 r
      expMulLoop M t1 t2 e1 e2 p1 p2 fuel (base - bit) (bit1 - bit) limb1 (bit2 - bit) limb2 r

/-- `GetFirstData`, bn_mont.c:487-500. -/
def firstData (M : Mont h) (base1 base2 : Nat) (a1 a2 : List (W h)) : Option (List (W h)) :=
  if base1 = base2 then montMul M a1 a2 else if base1 > base2 then some a1 else some a2

/-- `MontExpMul`, bn_mont.c:593-645, for bases in the Montgomery domain. The first entry of a table is the base. -/
def montExpMulBin (M : Mont h) (a1 e1 a2 e2 : List (W h)) : Option (List (W h)) := do
  let base1 := binBits e1
  let base2 := binBits e2
  let base := if base1 > base2 then base1 else base2
  let perSize1 := readySize base1
  let perSize2 := readySize base2
  let t1 ← oddReady M a1 (2 ^ (perSize1 - 1))
  let t2 ← oddReady M a2 (2 ^ (perSize2 - 1))
  let r ← firstData M base1 base2 a1 a2
  expMulLoop M t1 t2 e1 e2 perSize1 perSize2 base (base - 1) 0 0 0 0 r

/-- A number padded to the limbs of the modulus (`MontsFactorGetByOptThenCopy`, bn_mont.c:669-695: a new number of that room). -/
def padTo (M : Mont h) (a : List (W h)) : List (W h) := a ++ List.replicate (M.mod.length - a.length) 0

/-- `BN_MontExpMul`, bn_mont.c:698-741. The signs of the bases are not looked at. -/
def bnMontExpMul (M : Mont h) (a1 e1 a2 e2 : Bn h) : Option (Bn h) :=
  if e1.neg = true ∨ e2.neg = true then none
  else if binCmp a2.data M.mod ≥ 0 ∨ binCmp a1.data M.mod ≥ 0 then none
  else if a1.data.length = 0 ∨ a2.data.length = 0 then some bnZero
  else if e1.data.length = 0 then montExpCore M a2 e2 false
  else if e2.data.length = 0 then montExpCore M a1 e1 false
  else do
    let b1 ← montEnc M (padTo M a1.data)
    let b2 ← montEnc M (padTo M a2.data)
    let r ← montExpMulBin M b1 e1.data b2 e2.data
    let r ← montDec M r
    some ⟨false, trim r⟩

end Verif.Crypto.Bn
