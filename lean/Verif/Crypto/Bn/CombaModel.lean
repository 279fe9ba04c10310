import Verif.Crypto.Bn.Mont
/-! Model of /repo/crypto/bn/src/bn_comba.c: the unrolled multiplications and the divide-and-conquer multiplication. A vector
is the list of its words, the lowest first. `none` is an access outside of a vector or of the workspace. -/
namespace Verif.Crypto.Bn

variable {h : Nat}

/-- `SQRADD_A`, bn_bincal_noasm.h:160-180: `(h, m, l)`. -/
def sqrAddA (hh m l v : W h) : W h × W h × W h :=
  let vl := lo v
  let vh := hi v
  let x3 := vh * vh
  let x2 := vh * vl
  let x1 := x2
  let x0 := vl * vl
  let x1 := x1 + hi x0
  let x0 := v * v
  let x1 := x1 + x2
  let x3 := x3 + hi x1
  let l := l + x0
  let x3 := if x1 < x2 then x3 + hc else x3
  let x3 := x3 + if l < x0 then 1 else 0
  let m := m + x3
  let hh := hh + if m < x3 then 1 else 0
  (hh, m, l)

/-- The lines of an unrolled multiplication: `MULADD_AB(.., a[i], b[j])`, `MULADD_AB2(.., a[i], a[j])` (which is `MULADD_AB`
twice, bn_bincal_noasm.h:153-157), `SQRADD_A(.., a[i])`. -/
inductive Line where
  | mul (i j : Nat)
  | mul2 (i j : Nat)
  | sqr (i : Nat)

/-- One line; `(h, m, l)` are the three accumulators, from the highest. -/
def runLine (a b : List (W h)) (s : W h × W h × W h) : Line → Option (W h × W h × W h)
  | .mul i j =>
    match a[i]?, b[j]? with
    | some x, some y => some (mulAddAB s.1 s.2.1 s.2.2 x y)
    | _, _ => none
  | .mul2 i j =>
    match a[i]?, b[j]? with
    | some x, some y =>
      let s := mulAddAB s.1 s.2.1 s.2.2 x y
      some (mulAddAB s.1 s.2.1 s.2.2 x y)
    | _, _ => none
  | .sqr i =>
    match a[i]? with
    | some x => some (sqrAddA s.1 s.2.1 s.2.2 x)
    | none => none

/-- The lines of a column. -/
def runCol (a b : List (W h)) : List Line → W h × W h × W h → Option (W h × W h × W h)
  | [], s => some s
  | i :: is, s =>
    match runLine a b s i with
    | none => none
    | some s => runCol a b is s

/-- The columns: after each, the lowest accumulator is stored and becomes the highest, cleared; after the last, the two
lowest are stored. -/
def runCols (a b : List (W h)) : List (List Line) → W h × W h × W h → Option (List (W h))
  | [], _ => some []
  | [c], s =>
    match runCol a b c s with
    | none => none
    | some (_, m, l) => some [l, m]
  | c :: c' :: cs, s =>
    match runCol a b c s with
    | none => none
    | some (hh, m, l) =>
      match runCols a b (c' :: cs) (0, hh, m) with
      | none => none
      | some r => some (l :: r)

/-- `SQR_COMBA_BEGIN_1`, bn_comba.c:22-37. -/
def sqrBegin1 : List (List Line) :=
  [[.sqr 0],
   [.mul2 0 1],
   [.mul2 0 2, .sqr 1],
   [.mul2 1 2, .mul2 0 3]]

/-- `SQR_COMBA_BEGIN_2`, bn_comba.c:39-50. -/
def sqrBegin2 : List (List Line) :=
  [[.mul2 0 4, .mul2 1 3, .sqr 2],
   [.mul2 2 3, .mul2 1 4, .mul2 0 5]]

/-- `MUL_COMBA_BEGIN_1`, bn_comba.c:52-71. -/
def mulBegin1 : List (List Line) :=
  [[.mul 0 0],
   [.mul 0 1, .mul 1 0],
   [.mul 2 0, .mul 1 1, .mul 0 2],
   [.mul 0 3, .mul 1 2, .mul 2 1, .mul 3 0]]

/-- `MUL_COMBA_BEGIN_2`, bn_comba.c:73-89. -/
def mulBegin2 : List (List Line) :=
  [[.mul 4 0, .mul 3 1, .mul 2 2, .mul 1 3, .mul 0 4],
   [.mul 0 5, .mul 1 4, .mul 2 3, .mul 3 2, .mul 4 1, .mul 5 0]]

/-- `MUL_COMBA_BEGIN_3`, bn_comba.c:91-120. -/
def mulBegin3 : List (List Line) :=
  [[.mul 6 0, .mul 5 1, .mul 4 2, .mul 3 3, .mul 2 4, .mul 1 5, .mul 0 6],
   [.mul 0 7, .mul 1 6, .mul 2 5, .mul 3 4, .mul 4 3, .mul 5 2, .mul 6 1, .mul 7 0],
   [.mul 7 1, .mul 6 2, .mul 5 3, .mul 4 4, .mul 3 5, .mul 2 6, .mul 1 7]]

/-- `SqrComba8`, bn_comba.c:122-181. -/
def sqrComba8 : List (List Line) := sqrBegin1 ++ sqrBegin2 ++
  [[.mul2 0 6, .mul2 1 5, .mul2 2 4, .sqr 3],
   [.mul2 3 4, .mul2 2 5, .mul2 1 6, .mul2 0 7],
   [.mul2 1 7, .mul2 2 6, .mul2 3 5, .sqr 4],
   [.mul2 4 5, .mul2 3 6, .mul2 2 7],
   [.mul2 3 7, .mul2 4 6, .sqr 5],
   [.mul2 5 6, .mul2 4 7],
   [.mul2 5 7, .sqr 6],
   [.mul2 6 7],
   [.sqr 7]]

/-- `SqrComba6`, bn_comba.c:183-215. -/
def sqrComba6 : List (List Line) := sqrBegin1 ++ sqrBegin2 ++
  [[.mul2 1 5, .mul2 2 4, .sqr 3],
   [.mul2 3 4, .mul2 2 5],
   [.mul2 3 5, .sqr 4],
   [.mul2 4 5],
   [.sqr 5]]

/-- `SqrComba4`, bn_comba.c:217-237. -/
def sqrComba4 : List (List Line) := sqrBegin1 ++
  [[.mul2 1 3, .sqr 2],
   [.mul2 2 3],
   [.sqr 3]]

/-- `MulComba8`, bn_comba.c:284-332. -/
def mulComba8 : List (List Line) := mulBegin1 ++ mulBegin2 ++ mulBegin3 ++
  [[.mul 2 7, .mul 3 6, .mul 4 5, .mul 5 4, .mul 6 3, .mul 7 2],
   [.mul 7 3, .mul 6 4, .mul 5 5, .mul 4 6, .mul 3 7],
   [.mul 4 7, .mul 5 6, .mul 6 5, .mul 7 4],
   [.mul 7 5, .mul 6 6, .mul 5 7],
   [.mul 6 7, .mul 7 6],
   [.mul 7 7]]

/-- `MulComba6`, bn_comba.c:334-372. -/
def mulComba6 : List (List Line) := mulBegin1 ++ mulBegin2 ++
  [[.mul 5 1, .mul 4 2, .mul 3 3, .mul 2 4, .mul 1 5],
   [.mul 2 5, .mul 3 4, .mul 4 3, .mul 5 2],
   [.mul 5 3, .mul 4 4, .mul 3 5],
   [.mul 4 5, .mul 5 4],
   [.mul 5 5]]

/-- `MulComba4`, bn_comba.c:374-396. -/
def mulComba4 : List (List Line) := mulBegin1 ++
  [[.mul 3 1, .mul 2 2, .mul 1 3],
   [.mul 2 3, .mul 3 2],
   [.mul 3 3]]

/-- `SqrComba` for size 3, bn_comba.c:244-266. -/
def sqrComba3 : List (List Line) :=
  [[.sqr 0],
   [.mul2 0 1],
   [.mul2 0 2, .sqr 1],
   [.mul2 1 2],
   [.sqr 2]]

/-- `SqrComba` for size 2, bn_comba.c:267-282. -/
def sqrComba2 : List (List Line) :=
  [[.sqr 0],
   [.mul2 0 1],
   [.sqr 1]]

/-- `MulComba` for size 3, bn_comba.c:403-428. -/
def mulComba3 : List (List Line) :=
  [[.mul 0 0],
   [.mul 0 1, .mul 1 0],
   [.mul 2 0, .mul 1 1, .mul 0 2],
   [.mul 1 2, .mul 2 1],
   [.mul 2 2]]

/-- `MulComba` for size 2, bn_comba.c:429-445. -/
def mulComba2 : List (List Line) :=
  [[.mul 0 0],
   [.mul 0 1, .mul 1 0],
   [.mul 1 1]]

/-- `MulComba`, bn_comba.c:398-445. -/
def mulSmall (a b : List (W h)) : Option (List (W h)) :=
  if a.length = 3 then runCols a b mulComba3 (0, 0, 0)
  else if a.length = 2 then runCols a b mulComba2 (0, 0, 0)
  else
    match a[0]?, b[0]? with
    | some x, some y => let (wh, wl) := mulAB x y; some [wl, wh]
    | _, _ => none

/-- `SqrComba`, bn_comba.c:239-282. -/
def sqrSmall (a : List (W h)) : Option (List (W h)) :=
  if a.length = 3 then runCols a a sqrComba3 (0, 0, 0)
  else if a.length = 2 then runCols a a sqrComba2 (0, 0, 0)
  else
    match a[0]? with
    | some x => let (wh, wl) := sqrA x; some [wl, wh]
    | none => none

/-- The sizes `MulConquer` does without splitting, bn_comba.c:509-531; `none`: the operands are split. -/
def mulBase (consttime : Bool) (a b : List (W h)) : Option (Option (List (W h))) :=
  if consttime = false then
    if a.length = 8 then some (runCols a b mulComba8 (0, 0, 0))
    else if a.length = 6 then some (runCols a b mulComba6 (0, 0, 0))
    else if a.length = 4 then some (runCols a b mulComba4 (0, 0, 0))
    else if a.length < 4 then some (mulSmall a b)
    else none
  else if a.length ≤ 8 then some (some (binMul (2 * a.length) a b).1)
  else none

/-- The same of `SqrConquer`, bn_comba.c:590-611. -/
def sqrBase (consttime : Bool) (a : List (W h)) : Option (Option (List (W h))) :=
  if consttime = false then
    if a.length = 8 then some (runCols a a sqrComba8 (0, 0, 0))
    else if a.length = 6 then some (runCols a a sqrComba6 (0, 0, 0))
    else if a.length = 4 then some (runCols a a sqrComba4 (0, 0, 0))
    else if a.length < 4 then some (sqrSmall a)
    else none
  else if a.length ≤ 8 then
    some (match binSqr (2 * a.length) a with | none => none | some (r, _) => some r)
  else none

/-- The loop of `SpaceSize`, bn_comba.c:449-452. -/
def spaceLoop : Nat → Nat → Nat → Nat
  | 0, _, base => base
  | fuel + 1, size, base => if size > base then spaceLoop fuel size (base * 2) else base

/-- `SpaceSize`, bn_comba.c:447-454. A size of 2^31 words or more, where the shift would wrap, is out of the model. -/
def spaceSize (size : Nat) : Nat := spaceLoop size size 8 * 4

/-- `ABS_Sub`, bn_comba.c:477-501: `a` has as many words as `b` or one more. The flag is set if `a ≤ b`. `BinCmpSame`
(bn_comba.c:461-470) is the loop `cmpLoop`. -/
def absSub (a b : List (W h)) : List (W h) × Bool :=
  let n := b.length
  match a.drop n with
  | [] =>
    if cmpLoop a b n > 0 then ((binSub a b 0).1, false) else ((binSub b a 0).1, true)
  | top :: _ =>
    if (if top > 0 then 1 else cmpLoop (a.take n) b n) > 0 then
      let (t, borrow) := binSub (a.take n) b 0
      (t ++ [top - borrow], false)
    else ((binSub b (a.take n) 0).1 ++ [top], true)

/-- `tmp2 = hi + lo`, bn_comba.c:557-570 and 632-646: the sum of the two products and its carry. -/
def sumHalves (lo hi : List (W h)) : List (W h) × W h :=
  let (s, carry) := binAdd lo (hi.take lo.length) 0
  match hi.drop lo.length with
  | x :: y :: _ =>
    let p := x + carry
    let c : W h := if p < carry then 1 else 0
    let q := y + c
    let c' : W h := if q < c then 1 else 0
    (s ++ [p, q], c')
  | _ => (s, carry)

/-- The end of `MulConquer`, bn_comba.c:557-581 (and 632-655): the two products are in place in `r`, the third is `t1`. -/
def merge (sign : Bool) (shift1 : Nat) (lo hi t1 : List (W h)) : List (W h) :=
  let (t2, carry) := sumHalves lo hi
  let (t1, carry) :=
    if sign = true then
      let (t, c) := binAdd t2 t1 0
      (t, carry + c)
    else
      let (t, c) := binSub t2 t1 0
      (t, carry - c)
  let r := lo ++ hi
  let (mid, c) := binAdd ((r.drop shift1).take t1.length) t1 0
  r.take shift1 ++ mid ++ (binInc (r.drop (shift1 + t1.length)) (carry + c)).1

/-- `MulConquer`, bn_comba.c:503-582. `room` is the number of words of the workspace; `fuel` bounds the depth, the callers
start with the size. What the workspace holds before a call is not read: each part is written first. -/
def mulConquer (consttime : Bool) : Nat → Nat → List (W h) → List (W h) → Option (List (W h))
  | 0, _, _, _ => none
  | fuel + 1, room, a, b =>
    match mulBase consttime a b with
    | some r => r
    | none =>
      let sizeLo := a.length / 2
      let sizeHi := a.length - sizeLo
      if room < 4 * sizeHi then none
      else
        let (ta, sa) := absSub (a.drop sizeLo) (a.take sizeLo)
        let (tb, sb) := absSub (b.drop sizeLo) (b.take sizeLo)
        match mulConquer consttime fuel (room - 4 * sizeHi) (a.take sizeLo) (b.take sizeLo),
            mulConquer consttime fuel (room - 4 * sizeHi) (a.drop sizeLo) (b.drop sizeLo),
            mulConquer consttime fuel (room - 4 * sizeHi) ta tb with
        | some lo, some hi, some t1 => some (merge (xor sa sb) sizeLo lo hi t1)
        | _, _, _ => none

/-- `SqrConquer`, bn_comba.c:584-656. -/
def sqrConquer (consttime : Bool) : Nat → Nat → List (W h) → Option (List (W h))
  | 0, _, _ => none
  | fuel + 1, room, a =>
    match sqrBase consttime a with
    | some r => r
    | none =>
      let sizeHi := (a.length + 1) / 2
      let sizeLo := a.length / 2
      if room < 4 * sizeHi then none
      else
        let (ta, _) := absSub (a.drop sizeLo) (a.take sizeLo)
        match sqrConquer consttime fuel (room - 4 * sizeHi) (a.take sizeLo),
            sqrConquer consttime fuel (room - 4 * sizeHi) (a.drop sizeLo),
            sqrConquer consttime fuel (room - 4 * sizeHi) ta with
        | some lo, some hi, some t1 => some (merge false sizeLo lo hi t1)
        | _, _, _ => none

/-- The workspace `BnMulConquer` and `BN_Sqr` give, bn_operation.c:201-209 and 328-337: none for a small even size. -/
def conquerRoom (size : Nat) : Nat := if size ≤ 8 ∧ size % 2 = 0 then 0 else spaceSize size

/-- `BN_Mul` with HITLS_CRYPTO_BN_COMBA, bn_operation.c:199-274. Numbers of different sizes go to `BinMul`. Failures of the
optimizer or of an allocation are not modelled. -/
def bnMulComba (room : Nat) (a b : Bn h) : Option (Bn h) :=
  if a.data.length = 0 ∨ b.data.length = 0 then some bnZero
  else if a.data.length = b.data.length then
    match mulConquer false a.data.length (conquerRoom a.data.length) a.data b.data with
    | none => none
    | some r => some ⟨a.neg != b.neg, trim r⟩
  else some (bnMul room a b)

/-- `BN_Sqr` with HITLS_CRYPTO_BN_COMBA, bn_operation.c:308-347. -/
def bnSqrComba (a : Bn h) : Option (Bn h) :=
  if a.data.length = 0 then some bnZero
  else
    match sqrConquer false a.data.length (conquerRoom a.data.length) a.data with
    | none => none
    | some r => some ⟨false, trim r⟩

end Verif.Crypto.Bn
