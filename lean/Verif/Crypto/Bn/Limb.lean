import Verif.Crypto.Bn.Word
/-! Model of the vector functions of /repo/crypto/bn/src/bn_bincal.c and noasm_bn_bincal.c. A vector is the list of its limbs,
least significant first; where the code has a pointer and a length, the list has that length. Loops that the code unrolls
four times are modelled as plain loops. -/
namespace Verif.Crypto.Bn

variable {h : Nat}

/-- `BinAdd`, noasm_bn_bincal.c:22-46, from a carry on. -/
def binAdd : List (W h) → List (W h) → W h → List (W h) × W h
  | a :: as, b :: bs, carry =>
    let (carry, r) := addABC a b carry
    let (rs, carry) := binAdd as bs carry
    (r :: rs, carry)
  | _, _, carry => ([], carry)

/-- `BinSub`, noasm_bn_bincal.c:48-72, from a borrow on. -/
def binSub : List (W h) → List (W h) → W h → List (W h) × W h
  | a :: as, b :: bs, borrow =>
    let (borrow, r) := subABC a b borrow
    let (rs, borrow) := binSub as bs borrow
    (r :: rs, borrow)
  | _, _, borrow => ([], borrow)

/-- `BinInc`, bn_bincal.c:24-38. -/
def binInc : List (W h) → W h → List (W h) × W h
  | [], carry => ([], carry)
  | a :: as, carry =>
    if carry = 0 then (a :: as, carry)
    else
      let (carry, r) := addAB a carry
      let (rs, carry) := binInc as carry
      (r :: rs, carry)

/-- `BinDec`, bn_bincal.c:40-53. -/
def binDec : List (W h) → W h → List (W h) × W h
  | [], borrow => ([], borrow)
  | a :: as, borrow =>
    if borrow = 0 then (a :: as, borrow)
    else
      let (borrow, r) := subAB a borrow
      let (rs, borrow) := binDec as borrow
      (r :: rs, borrow)

/-- `BinMulAcc`, bn_bincal.c:126-150, from a carry on: `r += a * b`. -/
def binMulAcc : List (W h) → List (W h) → W h → W h → List (W h) × W h
  | r :: rs, a :: as, b, c =>
    let (c, r) := mulAddABC c r a b
    let (rs, c) := binMulAcc rs as b c
    (r :: rs, c)
  | _, _, _, c => ([], c)

/-- `BinSubMul`, noasm_bn_bincal.c:94-106, from a borrow on: `r -= a * m`. -/
def binSubMul : List (W h) → List (W h) → W h → W h → List (W h) × W h
  | r :: rs, a :: as, m, borrow =>
    let (ah, al) := mulAB a m
    let (borrow, r) := subABC r al borrow
    let (rs, borrow) := binSubMul rs as m (borrow + ah)
    (r :: rs, borrow)
  | _, _, _, borrow => ([], borrow)

/-- The inner loop of `BinMul` and `BinSqr`, bn_bincal.c:162-164 and 184-186. -/
def mulRow : List (W h) → List (W h) → W h → W h → List (W h) × W h
  | r :: rs, a :: as, t, carry =>
    let (carry, r) := mulAdcAB r a t carry
    let (rs, carry) := mulRow rs as t carry
    (r :: rs, carry)
  | _, _, _, carry => ([], carry)

/-- The outer loop of `BinMul`, bn_bincal.c:158-168. `r` is the result from position `i` on. -/
def mulLoop : List (W h) → List (W h) → List (W h) → W h → List (W h) × W h
  | r, _, [], carry => (r, carry)
  | r, a, t :: b, _ =>
    let (row, carry) := mulRow (r.take a.length) a t 0
    let rest := r.drop a.length
    let rest := if carry ≠ 0 then rest.set 0 carry else rest
    match row ++ rest with
    | [] => ([], carry)
    | r0 :: r =>
      let (r, carry) := mulLoop r a b carry
      (r0 :: r, carry)

/-- `BinMul`, bn_bincal.c:153-170: the result and its size. -/
def binMul (rRoom : Nat) (a b : List (W h)) : List (W h) × Nat :=
  let (r, carry) := mulLoop (List.replicate rRoom 0) a b 0
  (r, a.length + b.length - if carry = 0 then 1 else 0)

/-- `BinRshift`, bn_bincal.c:74-84: `lo` is the current limb, the list is what follows. -/
def rshiftLoop (nb na : Nat) (mask : W h) : W h → List (W h) → List (W h)
  | lo, [] => if lo >>> nb ≠ 0 then [lo >>> nb] else []
  | lo, hi :: as => (lo >>> nb ||| ((hi <<< na) &&& mask)) :: rshiftLoop nb na mask hi as

/-- `BinRshift`, bn_bincal.c:58-86: the limbs of the result, whose number is the return value. `none`: a read outside of
`a`. -/
def binRshift (a : List (W h)) (bits : Nat) : Option (List (W h)) :=
  let nw := bits / (h + h)
  let nb := bits % (h + h)
  let na := (h + h - nb) % (h + h)
  let mask : W h := if nb = 0 then 0 else BitVec.allOnes (h + h)
  match a.drop nw with
  | [] => none
  | lo :: as => some (rshiftLoop nb na mask lo as)

/-- `BinLshift`, bn_bincal.c:102-117, written from the least significant limb on: `below` is the limb under the current one.
The code goes from the most significant limb down, so that `r` may be `a`. -/
def lshiftLoop (nb na : Nat) (mask : W h) : W h → List (W h) → List (W h)
  | below, [] =>
    let lo := (below >>> na) &&& mask
    if lo ≠ 0 then [lo] else []
  | below, a :: as => ((a <<< nb) ||| ((below >>> na) &&& mask)) :: lshiftLoop nb na mask a as

/-- `BinLshift`, bn_bincal.c:91-124: the limbs of the result, whose number is the return value. `none`: a read outside of
`a`. -/
def binLshift (a : List (W h)) (bits : Nat) : Option (List (W h)) :=
  let nw := bits / (h + h)
  let nb := bits % (h + h)
  let na := (h + h - nb) % (h + h)
  let mask : W h := if nb = 0 then 0 else BitVec.allOnes (h + h)
  match a with
  | [] => none
  | a0 :: as => some (List.replicate nw 0 ++ (a0 <<< nb) :: lshiftLoop nb na mask a0 as)

/-- The first loop of `BinSqr`, bn_bincal.c:181-188. `s` is the result from position `2 i + 1` on. -/
def sqrTri : List (W h) → List (W h) → List (W h)
  | s, t :: a :: as =>
    let (row, carry) := mulRow (s.take (as.length + 1)) (a :: as) t 0
    match row ++ (s.drop (as.length + 1)).set 0 carry with
    | s0 :: s1 :: s => s0 :: s1 :: sqrTri s (a :: as)
    | s => s
  | s, _ => s

/-- The last loop of `BinSqr`, bn_bincal.c:192-197. -/
def sqrDiag : List (W h) → List (W h) → W h → List (W h)
  | r0 :: r1 :: r, a :: as, carry =>
    let (rh, rl) := sqrA a
    let (carry, r0) := addABC r0 rl carry
    let (carry, r1) := addABC r1 rh carry
    r0 :: r1 :: sqrDiag r as carry
  | r, _, _ => r

/-- `BinSqr`, bn_bincal.c:174-199: the result and its size; `none`: a read outside of `r`. -/
def binSqr (rRoom : Nat) (a : List (W h)) : Option (List (W h) × Nat) :=
  match List.replicate rRoom 0 with
  | [] => none
  | r0 :: s =>
    let r := r0 :: sqrTri s a
    let n := 2 * a.length - 1
    match binLshift (r.take n) 1 with
    | none => none
    | some r' =>
      let r := r' ++ r.drop r'.length
      let r := sqrDiag r a 0
      match r[2 * a.length - 1]? with
      | none => none
      | some top => some (r, a.length + a.length - if top = 0 then 1 else 0)

/-- `BinFixSize`, bn_bincal.c:202-213. -/
def fixSize (data : List (W h)) : Nat → Nat
  | 0 => 0
  | i + 1 => if data[i]? = some 0 then fixSize data i else i + 1

/-- The loop of `BinCmp`, bn_bincal.c:225-231. -/
def cmpLoop (a b : List (W h)) : Nat → Int
  | 0 => 0
  | len + 1 =>
    match a[len]?, b[len]? with
    | some x, some y => if x ≠ y then (if x > y then 1 else -1) else cmpLoop a b len
    | _, _ => 0

/-- `BinCmp`, bn_bincal.c:220-234. -/
def binCmp (a b : List (W h)) : Int :=
  if a.length = b.length then cmpLoop a b a.length
  else if a.length > b.length then 1 else -1

/-- The loop of `GetZeroBitsUint`, noasm_bn_bincal.c:81-88. `fuel` bounds the number of rounds; `base` halves in each. -/
def zeroBitsLoop : Nat → W h → Nat → Nat → Nat
  | 0, tmp, bits, _ => bits - tmp.toNat
  | fuel + 1, tmp, bits, base =>
    let iter := tmp >>> base
    let (tmp, bits) := if iter ≠ 0 then (iter, bits - base) else (tmp, bits)
    if base / 2 ≠ 0 then zeroBitsLoop fuel tmp bits (base / 2) else bits - tmp.toNat

/-- `GetZeroBitsUint`, noasm_bn_bincal.c:75-91. -/
def zeroBits (x : W h) : Nat := zeroBitsLoop (h + h) x (h + h) ((h + h) / 2)

/-- `TryDiv`, bn_bincal.c:250-276. -/
def tryDiv (q hh l yh yl : W h) : W h :=
  let (rh, rl) := mulAB q yl
  if rh < hh ∨ (rh = hh ∧ rl ≤ l) then q
  else
    let nq := q - 1
    let nh := hh + yh
    if nh < yh then nq
    else
      let rh := if rl < yl then rh - 1 else rh
      let rl := rl - yl
      if rh < nh ∨ (rh = nh ∧ rl ≤ l) then nq else nq - 1

/-- The estimate of a quotient limb, bn_bincal.c:283-293: `s` is `x[i - ySize .. i]`, `xi` its top limb and `yy` that of `y`.
`none`: a read outside of an array or a division by zero. -/
def divEst (s y : List (W h)) (yy xi : W h) : Option (W h) :=
  if xi = yy then some (0 - 1)
  else do
    let xi1 ← s[y.length - 1]?
    let (qq, rr) ← divND xi xi1 yy
    if y.length > 1 then do
      let xi2 ← s[y.length - 2]?
      let yl ← y[y.length - 2]?
      some (tryDiv qq rr xi2 yy yl)
    else some qq

/-- Multiply, subtract and perhaps add back, bn_bincal.c:294-303: the new `x[i - ySize .. i]` and the quotient limb. -/
def divFinish (s y : List (W h)) (xi qq : W h) : List (W h) × W h :=
  if qq > 0 then
    let (low, ext) := binSubMul (s.take y.length) y qq 0
    let top := xi - ext
    if top > 0 then
      let (low, c) := binAdd low y 0
      (low ++ [top + c], qq - 1)
    else (low ++ [top], qq)
  else (s, qq)

/-- One round of `BinDivCore`, bn_bincal.c:283-309. -/
def divRound (s y : List (W h)) : Option (List (W h) × W h) := do
  let yy ← y[y.length - 1]?
  let xi ← s[y.length]?
  let qq ← divEst s y yy xi
  some (divFinish s y xi qq)

/-- The loop of `BinDivCore`, bn_bincal.c:282-310. `below` are the limbs under `s`, the nearest first; `tail` the limbs above
`s`; `q` the quotient limbs found so far. -/
def divLoop (y : List (W h)) : List (W h) → List (W h) → List (W h) → List (W h) → Nat → Option (List (W h) × List (W h) × Nat)
  | s, [], tail, q, qSize => do
    let (s, qq) ← divRound s y
    some (s ++ tail, qq :: q, if qq ≠ 0 then (if qSize > 1 then qSize else 1) else qSize)
  | s, b :: below, tail, q, qSize => do
    let (s, qq) ← divRound s y
    let top ← s.getLast?
    let i := below.length + 1
    divLoop y (b :: s.dropLast) below (top :: tail) (qq :: q) (if qq ≠ 0 then (if qSize > i + 1 then qSize else i + 1) else qSize)

/-- `BinDivCore`, bn_bincal.c:278-311, where `x` has `xSize + 1` limbs and `y` at least one. -/
def divCore (x : List (W h)) (xSize : Nat) (y : List (W h)) : Option (List (W h) × List (W h) × Nat) :=
  if xSize < y.length then some (x, [], 0)
  else divLoop y (x.drop (xSize - y.length)) (x.take (xSize - y.length)).reverse [] [] 0

/-- `BnLshiftSimple`, bn_bincal.c:314-324. -/
def lshiftSimple (bits : Nat) : W h → List (W h) → List (W h)
  | _, [] => []
  | nextBits, n :: a => (n <<< bits ||| nextBits) :: lshiftSimple bits (n >>> (h + h - bits)) a

/-- `BinDiv`, bn_bincal.c:333-348, where `x` has `xSize` limbs and the limbs that follow are 0: the remainder with its size,
and the quotient with its size. -/
def binDiv (x y : List (W h)) : Option ((List (W h) × Nat) × (List (W h) × Nat)) := do
  let ytop ← y[y.length - 1]?
  let shifts := zeroBits ytop
  if shifts ≠ 0 then
    let y := lshiftSimple shifts 0 y
    let x' ← binLshift x shifts
    let xNewSize := x'.length
    let (x', q, qSize) ← divCore (x' ++ List.replicate (x.length + 1 - x'.length) 0) x.length y
    let x'' ← binRshift (x'.take xNewSize) shifts
    some ((x'', fixSize x'' x''.length), (q, qSize))
  else
    let (x', q, qSize) ← divCore (x ++ [0]) x.length y
    some ((x', fixSize x' x.length), (q, qSize))

end Verif.Crypto.Bn
