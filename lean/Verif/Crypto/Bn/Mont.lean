import Verif.Crypto.Bn.Api
/-! Model of /repo/crypto/bn/src/bn_mont.c (with the wrappers of noasm_bn_mont.c) and of the modular functions of bn_operation.c, for a build
without HITLS_CRYPTO_BN_COMBA and without assembly. Memory for temporaries is taken to be available; `none` is a read or write outside of an
array or a division by zero, unless stated otherwise. -/
namespace Verif.Crypto.Bn

variable {h : Nat}

/-- One round of the loop of `Inverse`, bn_mont.c:56-63; the state is `(x, y, mask)`. -/
def invRound (m0 : W h) (s : W h × W h × W h) : W h × W h × W h :=
  let (x, y, mask) := s
  let mask := (mask <<< 1) ||| 1
  let (_, rL) := mulAB m0 y
  let y := if x < (rL &&& mask) then y + x else y
  (x <<< 1, y, mask)

/-- The loop of `Inverse`, bn_mont.c:56-64. -/
def invLoop (m0 : W h) : Nat → W h × W h × W h → W h × W h × W h
  | 0, s => s
  | n + 1, s => invLoop m0 n (invRound m0 s)

/-- `Inverse`, bn_mont.c:51-66. -/
def inverse (m0 : W h) : W h := 0 - (invLoop m0 (h + h - 1) (2, 1, 1)).2.1

/-- `CopyConsttime`, bn_mont.c:33-39. -/
def copyConsttime (mask : W h) : List (W h) → List (W h) → List (W h)
  | a :: as, b :: bs => ((a &&& mask) ^^^ (b &&& ~~~mask)) :: copyConsttime mask as bs
  | _, _ => []

/-- One round of `ReduceCore`, bn_mont.c:412-419: `s` is `x` from position `n` on. -/
def reduceRound (m : List (W h)) (m0 : W h) (s : List (W h)) (carry : W h) : Option (List (W h) × W h) :=
  match s, s[m.length]? with
  | s0 :: _, some t =>
    let q := s0 * m0
    let (low, tmp) := binMulAcc (s.take m.length) m q 0
    let tmp := tmp + carry
    let carry := if tmp < carry then 1 else 0
    let t := t + tmp
    let carry := if t < tmp then 1 else carry
    some (low ++ t :: s.drop (m.length + 1), carry)
  | _, _ => none

/-- The loop of `ReduceCore`, bn_mont.c:411-424: what is left of `x` after the given number of rounds, and the carry. -/
def reduceLoop (m : List (W h)) (m0 : W h) : Nat → List (W h) → W h → Option (List (W h) × W h)
  | 0, s, carry => some (s, carry)
  | n + 1, s, carry =>
    match reduceRound m m0 s carry with
    | none => none
    | some (s, carry) => reduceLoop m m0 n s.tail carry

/-- `ReduceCore`, bn_mont.c:406-428. -/
def reduce (x m : List (W h)) (m0 : W h) : Option (List (W h)) :=
  match reduceLoop m m0 m.length x 0 with
  | none => none
  | some (s, carry) =>
    let (r, borrow) := binSub s m 0
    some (copyConsttime (carry - borrow) s r)

/-- `BN_Mont`, bn_optimizer.h / crypt_bn.h: the fields that keep their value between calls. -/
structure Mont (h : Nat) where
  mod : List (W h)
  rr : List (W h)
  k0 : W h

/-- `SetMod`, bn_mont.c:330-344: `montRR` is 2 mSize + 1 limbs, of which the first mSize are used later. -/
def setMod (m : List (W h)) : Option (Mont h) :=
  match m with
  | [] => none
  | d0 :: _ =>
    match binDiv (List.replicate (2 * m.length) 0 ++ [1]) m with
    | none => none
    | some ((r, _), _) => some ⟨m, r.take m.length, inverse d0⟩

/-- `BN_MontCreate`, bn_mont.c:347-377: the outer `none` is NULL. The limit on the size of the allocation is left out. -/
def montCreate (m : Bn h) : Option (Option (Mont h)) :=
  if getBit m.data 0 = false ∨ m.neg = true then none else some (setMod m.data)

/-- `MontMulBinCore`, bn_mont.c:460-485. -/
def montMul (M : Mont h) (a b : List (W h)) : Option (List (W h)) :=
  reduce (binMul (2 * M.mod.length) a b).1 M.mod M.k0

/-- `MontSqrBinCore`, bn_mont.c:379-403. -/
def montSqr (M : Mont h) (a : List (W h)) : Option (List (W h)) :=
  match binSqr (2 * M.mod.length) a with
  | none => none
  | some (x, _) => reduce x M.mod M.k0

/-- `MontEncBinCore`, bn_mont.c:431-457. -/
def montEnc (M : Mont h) (r : List (W h)) : Option (List (W h)) :=
  reduce (binMul (2 * M.mod.length) r M.rr).1 M.mod M.k0

/-- `MontDecBin`, bn_mont.c:42-48. -/
def montDec (M : Mont h) (r : List (W h)) : Option (List (W h)) :=
  reduce (r ++ List.replicate M.mod.length 0) M.mod M.k0

/-- The loop of `MontExpReady`, bn_mont.c:82-87: the entries after `prev`. -/
def readyLoop (M : Mont h) (b : List (W h)) : Nat → List (W h) → Option (List (List (W h)))
  | 0, _ => some []
  | n + 1, prev =>
    match montMul M b prev with
    | none => none
    | some t =>
      match readyLoop M b n t with
      | none => none
      | some ts => some (t :: ts)

/-- `MontExpReady`, bn_mont.c:69-90. -/
def expReady (M : Mont h) (b : List (W h)) (num : Nat) : Option (List (List (W h))) :=
  match readyLoop M b (num - 2) b with
  | none => none
  | some ts => some (b :: b :: ts)

/-- The loop of `GetELimb`, bn_mont.c:99-105, for the bits below `base`. -/
def eLimbLoop (e : List (W h)) : Nat → Nat → W h → Option (W h)
  | 0, _, acc => some acc
  | n + 1, base, acc =>
    match e[(base - 1) / (h + h)]? with
    | none => none
    | some x => eLimbLoop e n (base - 1) ((acc <<< 1) ||| ((x >>> ((base - 1) % (h + h))) &&& 1))

/-- `GetELimb`, bn_mont.c:92-107: the bits and how many they are. -/
def getELimb (e : List (W h)) (base bits : Nat) : Option (W h × Nat) :=
  if bits > base then
    match e with
    | [] => none
    | e0 :: _ => some (e0 &&& (((1 : W h) <<< base) - 1), base)
  else
    match eLimbLoop e bits base 0 with
    | none => none
    | some x => some (x, bits)

/-- `GetReadySize`, bn_mont.c:109-127. -/
def readySize (bits : Nat) : Nat :=
  if bits > 512 then 6 else if bits > 256 then 5 else if bits > 128 then 4 else if bits > 64 then 3 else if bits > 32 then 2 else 1

/-- The squarings of one round, bn_mont.c:149-155. -/
def sqrTimes (M : Mont h) : Nat → List (W h) → Option (List (W h))
  | 0, r => some r
  | n + 1, r =>
    match montSqr M r with
    | none => none
    | some r => sqrTimes M n r

/-- The multiplication of one round, bn_mont.c:156-171. -/
def expMulStep (M : Mont h) (table : List (List (W h))) (consttime : Bool) (eLimb : W h) (r : List (W h)) : Option (List (W h)) :=
  match table[eLimb.toNat]? with
  | none => none
  | some t =>
    if consttime = true then
      match montMul M r t with
      | none => none
      | some x => some (copyConsttime (~~~(if eLimb = 0 then BitVec.allOnes (h + h) else 0)) x r)
    else if eLimb ≠ 0 then montMul M r t
    else some r

/-- The loop of `MontExpBin`, bn_mont.c:146-173. `fuel` bounds the number of rounds. -/
def expLoop (M : Mont h) (table : List (List (W h))) (consttime : Bool) (e : List (W h)) (perSize : Nat) : Nat → Nat → List (W h) → Option (List (W h))
  | 0, _, _ => none
  | fuel + 1, base, r =>
    match getELimb e base perSize with
    | none => none
    | some (eLimb, bit) =>
      match sqrTimes M bit r with
      | none => none
      | some r =>
        match expMulStep M table consttime eLimb r with
        | none => none
        | some r => if base - bit ≠ 0 then expLoop M table consttime e perSize fuel (base - bit) r else some r

/-- `MontExpBin`, bn_mont.c:130-177. -/
def montExpBin (M : Mont h) (r e : List (W h)) (consttime : Bool) : Option (List (W h)) :=
  let base := binBits e - 1
  let perSize := readySize base
  match expReady M r (2 ^ perSize) with
  | none => none
  | some table => expLoop M table consttime e perSize (base + 1) base r

/-- `DealBaseNum`, bn_mont.c:193-214: the limbs; the sign is that of `a`. -/
def dealBase (M : Mont h) (a : List (W h)) : Option (List (W h)) :=
  if binCmp a M.mod ≥ 0 then
    match binDiv a M.mod with
    | none => none
    | some ((r, rSize), _) => some (r.take rSize)
  else some a

/-- The three conversions of `MontExpCore`, bn_mont.c:252-267, on a base that is padded to mSize limbs (bn_mont.c:229). -/
def montExpData (M : Mont h) (a e : List (W h)) (consttime : Bool) : Option (List (W h)) :=
  match montEnc M (a ++ List.replicate (M.mod.length - a.length) 0) with
  | none => none
  | some r =>
    match montExpBin M r e consttime with
    | none => none
    | some r => montDec M r

/-- The sign, bn_mont.c:269-276. -/
def montExpSign (M : Mont h) (neg : Bool) (e r : List (W h)) : Option (List (W h)) :=
  match e with
  | [] => none
  | e0 :: _ =>
    if neg = true ∧ e0 &&& 1 = 1 ∧ (trim r).length ≠ 0 then some (trim (binSub M.mod r 0).1) else some (trim r)

/-- `MontExpCore`, bn_mont.c:233-280, after `MontParaCheck` has found a non-negative exponent. -/
def montExpCore (M : Mont h) (a e : Bn h) (consttime : Bool) : Option (Bn h) :=
  if binBits e.data = 0 then
    match M.mod with
    | [m0] => some (if m0 = 1 then bnZero else bnLimb 1)
    | _ => some (bnLimb 1)
  else if a.data.length = 0 then some bnZero
  else
    match dealBase M a.data with
    | none => none
    | some d =>
      match montExpData M d e.data consttime with
      | none => none
      | some r =>
        match montExpSign M a.neg e.data r with
        | none => none
        | some r => some ⟨false, r⟩

/-- `BN_MontExp` and `BN_MontExpConsttime`, bn_mont.c:179-191 and 282-309; the outer `none` is the error for a negative exponent. -/
def bnMontExp (M : Mont h) (a e : Bn h) (consttime : Bool) : Option (Option (Bn h)) :=
  if e.neg = true then none else some (montExpCore M a e consttime)

/-- `BN_ModAdd`, bn_operation.c:651-679. -/
def bnModAdd (a b m : Bn h) : Option (Option (Bn h)) := if m.data.length = 0 then none else bnMod (bnAdd a b) m

/-- `BN_ModSub`, bn_operation.c:621-649. -/
def bnModSub (a b m : Bn h) : Option (Option (Bn h)) := if m.data.length = 0 then none else bnMod (bnSub a b) m

/-- `BN_ModMul`, bn_operation.c:681-709. -/
def bnModMul (a b m : Bn h) : Option (Option (Bn h)) :=
  if m.data.length = 0 then none else bnMod (bnMul (a.data.length + b.data.length + 1) a b) m

/-- `BN_ModSqr`, bn_operation.c:711-745. -/
def bnModSqr (a m : Bn h) : Option (Option (Bn h)) :=
  if m.data.length = 0 then none
  else
    match bnSqr a with
    | none => some none
    | some t => bnMod t m

/-- The loop of `ModExpCore`, bn_operation.c:778-791: `n` rounds from bit `i` on. -/
def modExpLoop (e : List (W h)) (m : Bn h) : Nat → Nat → Bn h → Bn h → Option (Option (Bn h))
  | 0, _, x, _ => some (some x)
  | n + 1, i, x, y =>
    match bnModSqr y m with
    | none => none
    | some none => some none
    | some (some y) =>
      if getBit e i = true then
        match bnModMul x y m with
        | none => none
        | some none => some none
        | some (some x) => modExpLoop e m n (i + 1) x y
      else modExpLoop e m n (i + 1) x y

/-- `ModExpCore`, bn_operation.c:768-793. -/
def modExpCore (y : Bn h) (e : List (W h)) (m : Bn h) : Option (Option (Bn h)) :=
  modExpLoop e m (binBits e - 1) 1 (if getBit e 0 = true then y else bnLimb 1) y

/-- The part of `BN_ModExp` for an even or a negative modulus, bn_operation.c:823-868. -/
def modExpPlain (a e m : Bn h) : Option (Option (Bn h)) :=
  match bnMod a m with
  | none => none
  | some none => some none
  | some (some y) =>
    if e.data.length = 0 ∨ (y.data = [1] ∧ y.neg = false) then some (some (bnLimb 1))
    else if y.data.length = 0 then some (some bnZero)
    else modExpCore y e.data m

/-- `BN_ModExp`, bn_operation.c:807-869, with `ModExpInputCheck`, bn_operation.c:747-766, and `SwitchMont`, bn_operation.c:795-805. The outer
`none` is an error; `consttime` is whether a flag of `a` or `e` asks for constant time. -/
def bnModExp (a e m : Bn h) (consttime : Bool) : Option (Option (Bn h)) :=
  if m.data.length = 0 then none
  else if e.neg = true then none
  else if m.data = [1] then some (some bnZero)
  else if getBit m.data 0 = true ∧ m.neg = false then
    match montCreate m with
    | none => none
    | some none => some none
    | some (some M) => bnMontExp M a e consttime
  else modExpPlain a e m

end Verif.Crypto.Bn
