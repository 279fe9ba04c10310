/-! Model of /repo/crypto/ecc/src/ecp_nist.c and of the multiplications of ecp_simple.c: points in Jacobian coordinates of a
curve with `a = -3`, method EC_METHOD_NIST (ecc_method.c:38-53; also EC_METHOD_SM2_NIST, with other field routines).

The coordinates are of a type `α` and the field routines are a parameter (`Fld`); Verif/Crypto/Ecc/Bn.lean gives those of the
library. Allocation failures and NULL or curve id checks are not modelled. `none` is an error return or an access outside of
an array. -/
namespace Verif.Crypto.Ecc

/-- The routines on coordinates that the code calls. -/
structure Fld (α : Type) where
  /-- `bnModNistEccMul`, `bnModNistEccSqr` of the method. -/
  mul : α → α → Option α
  sqr : α → Option α
  /-- `BN_ModAddQuick`, `BN_ModSubQuick`. -/
  add : α → α → Option α
  sub : α → α → Option α
  /-- `BN_ModMul`, `BN_ModSqr`, `BN_ModAdd`, `BN_ModInv`, all modulo `para->p`. -/
  modMul : α → α → Option α
  modSqr : α → Option α
  modAdd : α → α → Option α
  modInv : α → Option α
  /-- `BN_Sub(r, para->p, a)`. -/
  subFromP : α → α
  /-- `BN_IsZero`, `BN_IsOne`, `BN_Cmp(..) == 0`. -/
  isZero : α → Bool
  isOne : α → Bool
  eq : α → α → Bool
  /-- The numbers 0 (a new number) and 1, and `ECP_HalfPGet` (ecp_simple.c:163-179). -/
  zero : α
  one : α
  half : α

/-- `ECC_Point`. -/
structure Pt (α : Type) where
  x : α
  y : α
  z : α

/-- The numbers a routine works on: the coordinates of the result and of the operands, and the temporaries. -/
inductive Reg where
  | rx | ry | rz | ax | ay | az | bx | by | bz | t1 | t2 | t3 | t4 | t5 | t6 | half
deriving DecidableEq

/-- A call of a field routine; the destination comes first. -/
inductive Instr where
  | mul (d a b : Reg)
  | sqr (d a : Reg)
  | add (d a b : Reg)
  | sub (d a b : Reg)
  | cpy (d a : Reg)

variable {α : Type}

/-- A store. -/
def upd (s : Reg → α) (d : Reg) (v : α) : Reg → α := fun r => if r = d then v else s r

/-- One call. -/
def step (S : Fld α) (s : Reg → α) : Instr → Option (Reg → α)
  | .mul d a b => match S.mul (s a) (s b) with | none => none | some v => some (upd s d v)
  | .sqr d a => match S.sqr (s a) with | none => none | some v => some (upd s d v)
  | .add d a b => match S.add (s a) (s b) with | none => none | some v => some (upd s d v)
  | .sub d a b => match S.sub (s a) (s b) with | none => none | some v => some (upd s d v)
  | .cpy d a => some (upd s d (s a))

/-- A sequence of calls, up to the first failure (`GOTO_ERR_IF`). -/
def run (S : Fld α) : List Instr → (Reg → α) → Option (Reg → α)
  | [], s => some s
  | i :: is, s => match step S s i with | none => none | some s => run S is s

/-- If the result is the same object as the operand `a`, their coordinates are the same numbers. -/
def same (r : Reg) : Reg := match r with | .ax => .rx | .ay => .ry | .az => .rz | r => r

def sameI : Instr → Instr
  | .mul d a b => .mul (same d) (same a) (same b)
  | .sqr d a => .sqr (same d) (same a)
  | .add d a b => .add (same d) (same a) (same b)
  | .sub d a b => .sub (same d) (same a) (same b)
  | .cpy d a => .cpy (same d) (same a)

/-- The calls as they act when the result is (`al`) or is not the operand `a`. -/
def aliased (al : Bool) (p : List Instr) : List Instr := if al = true then p.map sameI else p

/-- The numbers at the start: temporaries are new. -/
def regs (S : Fld α) (r a b : Pt α) : Reg → α
  | .rx => r.x | .ry => r.y | .rz => r.z
  | .ax => a.x | .ay => a.y | .az => a.z
  | .bx => b.x | .by => b.y | .bz => b.z
  | .half => S.half
  | _ => S.zero

def result (s : Reg → α) : Pt α := ⟨s .rx, s .ry, s .rz⟩

/-- The calls of `ECP_NistPointDouble`, ecp_nist.c:67-87. -/
def doubleProg : List Instr :=
  [.sqr .t1 .az, .sub .t2 .ax .t1, .add .t1 .ax .t1, .mul .t2 .t2 .t1, .add .t3 .t2 .t2, .add .t2 .t3 .t2,
   .add .ry .ay .ay, .mul .rz .ry .az, .sqr .ry .ry, .mul .t3 .ry .ax, .sqr .ry .ry, .mul .ry .ry .half, .sqr .rx .t2,
   .add .t1 .t3 .t3, .sub .rx .rx .t1, .sub .t1 .t3 .rx, .mul .t1 .t1 .t2, .sub .ry .t1 .ry]

/-- `ECP_NistPointDouble`, ecp_nist.c:51-95. `r` is what the result held before; with `al`, it is the operand. -/
def pointDouble (S : Fld α) (al : Bool) (r a : Pt α) : Option (Pt α) :=
  match run S (aliased al doubleProg) (regs S (if al = true then a else r) a a) with
  | none => none
  | some s => some (result s)

/-- `ECP_NistPointMultDouble` before the loop, ecp_nist.c:113-118. -/
def multInit : List Instr :=
  [.cpy .rx .ax, .add .ry .ay .ay, .cpy .rz .az, .sqr .t4 .az, .sqr .t4 .t4]

/-- The loop body up to the test of `tm`, ecp_nist.c:121-143. -/
def multBody : List Instr :=
  [.sqr .t1 .rx, .sub .t3 .t1 .t4, .add .t1 .t3 .t3, .add .t1 .t1 .t3, .sqr .t3 .ry, .mul .t2 .t3 .rx, .sqr .rx .t1,
   .sub .rx .rx .t2, .sub .rx .rx .t2, .mul .rz .rz .ry, .sqr .t3 .ry, .sqr .t3 .t3]

/-- The conditional call, ecp_nist.c:146. -/
def multTw : List Instr :=
  [.mul .t4 .t4 .t3]

/-- The rest of the body, ecp_nist.c:148-153. -/
def multTail : List Instr :=
  [.sub .ry .t2 .rx, .mul .ry .ry .t1, .add .ry .ry .ry, .sub .ry .ry .t3]

/-- After the loop, ecp_nist.c:155. -/
def multEnd : List Instr :=
  [.mul .ry .ry .half]

/-- The calls of the body when `tm` counts down to `n`. -/
def multRound (n : Nat) : List Instr := multBody ++ (if n > 0 then multTw else []) ++ multTail

/-- The calls of the loop, ecp_nist.c:120-154. -/
def multLoop : Nat → List Instr
  | 0 => []
  | n + 1 => multRound n ++ multLoop n

/-- `ECP_NistPointMultDouble`, ecp_nist.c:98-161. -/
def pointMultDouble (S : Fld α) (al : Bool) (r a : Pt α) (m : Nat) : Option (Pt α) :=
  match run S (aliased al (multInit ++ multLoop m ++ multEnd)) (regs S (if al = true then a else r) a a) with
  | none => none
  | some s => some (result s)

/-- `ECP_NistPointAddAffine` before the test, ecp_nist.c:184-189. -/
def affineProg1 : List Instr :=
  [.sqr .t1 .az, .mul .t2 .t1 .az, .mul .t1 .t1 .bx, .mul .t2 .t2 .by, .sub .t1 .t1 .ax, .sub .t2 .t2 .ay]

/-- … after it, ecp_nist.c:201-216. -/
def affineProg2 : List Instr :=
  [.mul .rz .az .t1, .sqr .t3 .t1, .mul .t4 .t1 .t3, .mul .t3 .t3 .ax, .add .t1 .t3 .t3, .sqr .rx .t2,
   .sub .rx .rx .t1, .sub .rx .rx .t4, .sub .t3 .t3 .rx, .mul .t3 .t3 .t2, .mul .t4 .t4 .ay, .sub .ry .t3 .t4]

/-- `ECP_NistPointAddAffine`, ecp_nist.c:165-221; the result is a third object, as in all callers. -/
def pointAddAffine (S : Fld α) (r a b : Pt α) : Option (Pt α) :=
  if S.isZero a.z = true then some b
  else
    match run S affineProg1 (regs S r a b) with
    | none => none
    | some s =>
      if S.isZero (s .t1) = true then
        if S.isZero (s .t2) = true then pointDouble S false (result s) b
        else some ⟨r.x, r.y, S.zero⟩
      else
        match run S affineProg2 s with
        | none => none
        | some s => some (result s)

/-- `ECP_NistPointAdd` before the test, ecp_nist.c:249-264. -/
def addProg1 : List Instr :=
  [.sqr .t1 .bz, .mul .t2 .t1 .bz, .mul .t5 .t1 .ax, .mul .t6 .t2 .ay, .sqr .t3 .az, .mul .ry .az .by,
   .mul .rz .az .bz, .mul .ry .t3 .ry, .mul .rx .t3 .bx, .sub .t1 .rx .t5, .sub .t2 .ry .t6]

/-- … after it, ecp_nist.c:269-285. -/
def addProg2 : List Instr :=
  [.mul .rz .t1 .rz, .sqr .t3 .t1, .mul .t1 .t1 .t3, .mul .t3 .t3 .t5, .sqr .rx .t2, .sub .rx .rx .t3,
   .sub .rx .rx .t3, .sub .rx .rx .t1, .sub .t3 .t3 .rx, .mul .t3 .t2 .t3, .mul .t1 .t1 .t6, .sub .ry .t3 .t1]

/-- `ECP_NistPointAdd`, ecp_nist.c:223-289. -/
def pointAdd (S : Fld α) (al : Bool) (r a b : Pt α) : Option (Pt α) :=
  if S.isZero a.z = true then some b
  else if S.isZero b.z = true then some a
  else
    match run S (aliased al addProg1) (regs S (if al = true then a else r) a b) with
    | none => none
    | some s =>
      if S.isZero (s .t1) = true ∧ S.isZero (s .t2) = true then pointDouble S false (result s) b
      else
        match run S (aliased al addProg2) s with
        | none => none
        | some s => some (result s)

/-- `ECP_Point2Affine`, ecp_simple.c:87-113. -/
def point2Affine (S : Fld α) (pt : Pt α) : Option (Pt α) := do
  let inv ← S.modInv pt.z
  let zz ← S.modSqr inv
  let x ← S.modMul pt.x zz
  let zz ← S.modMul zz inv
  let y ← S.modMul pt.y zz
  some ⟨x, y, S.one⟩

/-- `ECC_Point2Affine`, ecc.c:184-212. -/
def eccPoint2Affine (S : Fld α) (pt : Pt α) : Option (Pt α) :=
  if S.isZero pt.z = true then none
  else if S.isOne pt.z = true then some pt
  else point2Affine S pt

/-- `ECP_PointJacMulZ`, ecp_simple.c:207-230. -/
def jacMulZ (S : Fld α) (pt : Pt α) (z : α) : Option (Pt α) :=
  if S.isZero pt.z = true then none
  else do
    let z' ← S.modMul pt.z z
    let y ← S.modMul pt.y z
    let t ← S.modSqr z
    let x ← S.modMul pt.x t
    let y ← S.modMul y t
    some ⟨x, y, z'⟩

/-- `ECC_PointBlind`, ecp_simple.c:237-268; the random number is a parameter. -/
def pointBlind (S : Fld α) (pt : Pt α) (blind : α) : Option (Pt α) :=
  if S.isZero blind = true then none else jacMulZ S pt blind

/-- `ECC_PointCmp`, ecp_simple.c:270-307: `some true` if it returns CRYPT_SUCCESS, `some false` for CRYPT_ECC_POINT_NOT_EQUAL. -/
def pointCmp (S : Fld α) (a b : Pt α) : Option Bool :=
  if S.isZero a.z = true ∧ S.isZero b.z = true then some true
  else if S.isZero a.z = true ∨ S.isZero b.z = true then some false
  else do
    let az ← jacMulZ S a b.z
    let bz ← jacMulZ S b a.z
    some (S.eq az.x bz.x && S.eq az.y bz.y)

/-- `ECP_PointOnCurve`, ecp_simple.c:44-85: `some true` for CRYPT_SUCCESS, `some false` for CRYPT_ECC_POINT_NOT_ON_CURVE. -/
def pointOnCurve (S : Fld α) (ca cb : α) (pt : Pt α) : Option Bool :=
  if S.isZero pt.z = true then none
  else if S.isOne pt.z = false then none
  else do
    let x ← S.modSqr pt.x
    let x ← S.modAdd x ca
    let x ← S.modMul x pt.x
    let x ← S.modAdd x cb
    let y ← S.modSqr pt.y
    some (S.eq x y)

/-- The number of bits of a scalar, `BN_Bits`. -/
def bits (k : Nat) : Nat := if k = 0 then 0 else Nat.log2 k + 1

/-- The loop of `ECP_PointMul`, ecp_simple.c:147-153; the bit `i` is next. `t` is the temporary point. `BN_CopyWithMask`
(bn_operation.c:918-940) takes its second argument if the mask is zero, that is, if the bit is set. -/
def mulLoop (S : Fld α) (k : Nat) (base : Pt α) : Nat → Pt α → Pt α → Option (Pt α)
  | 0, r, _ => some r
  | i + 1, r, t =>
    match pointDouble S true r r with
    | none => none
    | some r =>
      match pointAddAffine S t r base with
      | none => none
      | some t => mulLoop S k base i (if k.testBit i = true then t else r) t

/-- `ECP_PointMul`, ecp_simple.c:126-161. The method has no Montgomery form, so `ECC_PointToMont` and `ECC_PointFromMont` do
nothing (ecc.c:427-454). The scalar is not zero. -/
def pointMul (S : Fld α) (k : Nat) (pt : Pt α) (blind : α) : Option (Pt α) :=
  match (if S.isOne pt.z = true then some pt else point2Affine S pt) with
  | none => none
  | some base =>
    match pointBlind S base blind with
    | none => none
    | some r => mulLoop S k base (bits k - 1) r ⟨S.zero, S.zero, S.zero⟩

/-- `ECC_PointMul`, ecc.c:276-292; `r` is what the result held before. -/
def eccPointMul (S : Fld α) (r : Pt α) (k : Nat) (pt : Pt α) (blind : α) : Option (Pt α) :=
  if S.isZero pt.z = true then none
  else if k = 0 then some ⟨r.x, r.y, S.zero⟩
  else pointMul S k pt blind

/-! ### Signed windows -/

/-- The search of the next item in `ECC_ReCodeK`, ecp_simple.c:466-469: `(base, lastWide)`. -/
def skipBits (k : Nat) (carry : Bool) : Nat → Nat → Nat → Option (Nat × Nat)
  | 0, _, _ => none
  | fuel + 1, base, lastWide =>
    if k.testBit base = carry then skipBits k carry fuel (base + 1) (lastWide + 1) else some (base, lastWide)

/-- The bits of an item, ecp_simple.c:473-478: `(num, base, shift)`; `n` bits are left to the size of the window. -/
def takeBits (k bits : Nat) : Nat → Int → Nat → Nat → Int × Nat × Nat
  | 0, num, base, shift => (num, base, shift)
  | n + 1, num, base, shift =>
    if base ≠ bits then takeBits k bits n (num + if k.testBit base = true then 2 ^ shift else 0) (base + 1) (shift + 1)
    else (num, base, shift)

/-- An item: its digit and the distance to the next lower one (`num`, `wide`). -/
abbrev Code := List (Int × Nat)

/-- The loop of `ECC_ReCodeK` and its end, ecp_simple.c:463-500, with PRE_COMPUTE_WINDOW = 5 (ecc_local.h:31). `offset` is
the number of free places in the arrays. Returns the items from the highest one and `baseBits`. -/
def recodeLoop (k bits : Nat) : Nat → Nat → Nat → Bool → Nat → Code → Option (Code × Nat)
  | 0, _, _, _, _, _ => none
  | fuel + 1, offset, base, carry, lastWide, code =>
    if base = bits then
      if carry = true then
        if offset = 0 then none else some ((1, lastWide) :: code, bits)
      else some (code, bits - lastWide)
    else if offset = 0 then none
    else
      match skipBits k carry (bits + 2) base lastWide with
      | none => none
      | some (base, lastWide) =>
        let (num, base, shift) := takeBits k bits 5 0 base 0
        let num := num + if carry = true then 1 else 0
        let carry : Bool := decide (num ≥ 16)
        let num := if carry = true then -(32 - num) else num
        recodeLoop k bits fuel (offset - 1) base carry shift ((num, lastWide) :: code)

/-- `ECC_ReCodeK`, ecp_simple.c:445-508. `int8_t` does not overflow: the digits are between -15 and 31. -/
def recode (k : Nat) : Option (Code × Nat) :=
  recodeLoop k (bits k) (bits k + 1) (bits k / 5 + 1) 0 false 0 []

/-- `NUMTOOFFSET`, ecc_local.h:39, with a table of 16 points. -/
def numToOffset (num : Int) : Int := if num < 0 then 8 - 1 - (num - 1).tdiv 2 else (num - 1).tdiv 2

/-- A point of a table. -/
def look (t : List (Pt α)) (num : Int) : Option (Pt α) :=
  if numToOffset num < 0 then none else t[(numToOffset num).toNat]?

/-- The additions of `ECP_PointPreCompute`, ecp_simple.c:366-368. -/
def oddPoints (S : Fld α) (dbl : Pt α) : Nat → Pt α → Option (List (Pt α))
  | 0, _ => some []
  | n + 1, p =>
    match pointAdd S false ⟨S.zero, S.zero, S.zero⟩ p dbl with
    | none => none
    | some q => match oddPoints S dbl n q with | none => none | some l => some (q :: l)

/-- `ECP_PointInvertAtAffine`, ecp_simple.c:323-334. -/
def pointInvert (S : Fld α) (p : Pt α) : Option (Pt α) :=
  if S.isZero p.z = true then none else some ⟨p.x, S.subFromP p.y, p.z⟩

/-- The negatives, ecp_simple.c:369-371. -/
def invertAll (S : Fld α) : List (Pt α) → Option (List (Pt α))
  | [] => some []
  | p :: ps =>
    match pointInvert S p with
    | none => none
    | some q => match invertAll S ps with | none => none | some l => some (q :: l)

/-- `ECP_PointPreCompute`, ecp_simple.c:336-382: the odd multiples up to 15 and their negatives. -/
def preCompute (S : Fld α) (pt : Pt α) : Option (List (Pt α)) :=
  match pointDouble S false ⟨S.zero, S.zero, S.zero⟩ pt with
  | none => none
  | some dbl =>
    match oddPoints S dbl 7 pt with
    | none => none
    | some l => match invertAll S (pt :: l) with | none => none | some n => some ((pt :: l) ++ n)

/-- The loop of `ECP_PointMulFast`, ecp_simple.c:578-582. -/
def fastLoop (S : Fld α) (t : List (Pt α)) : Code → Pt α → Option (Pt α)
  | [], r => some r
  | (n, w) :: cs, r =>
    match look t n with
    | none => none
    | some q =>
      match pointAdd S true r r q with
      | none => none
      | some r => match pointMultDouble S true r r w with | none => none | some r => fastLoop S t cs r

/-- `ECP_PointMulFast`, ecp_simple.c:552-590; `pt` is the generator if none is given. -/
def pointMulFast (S : Fld α) (k : Nat) (pt : Pt α) : Option (Pt α) :=
  match preCompute S pt, recode k with
  | some t, some ((n, w) :: cs, _) =>
    match look t n with
    | none => none
    | some r => match pointMultDouble S true r r w with | none => none | some r => fastLoop S t cs r
  | _, _ => none

/-- `MulAddOffData` and the result, ecp_simple.c:505-514. -/
structure MA (α : Type) where
  r : Pt α
  baseBits : Nat
  bit1 : Nat
  bit2 : Nat
  off1 : Nat
  off2 : Nat

/-- The width of the item before an offset, `code->wide[offset - 1]`. -/
def wideBefore (c : Code) (off : Nat) : Option Nat :=
  if off = 0 then none else match c[off - 1]? with | none => none | some (_, w) => some w

/-- `GetFirstData`, ecp_simple.c:516-549; `r` is the point of the caller. -/
def getFirst (S : Fld α) (tG tP : List (Pt α)) (c1 c2 : Code) (b1 b2 : Nat) (r : Pt α) : Option (MA α) :=
  match c1[0]?, c2[0]? with
  | some (n1, w1), some (n2, w2) =>
    if b1 = b2 then
      match look tG n1, look tP n2 with
      | some p, some q =>
        match pointAdd S false r p q with
        | none => none
        | some t => some ⟨t, b1, w1, w2, 1, 1⟩
      | _, _ => none
    else if b1 > b2 then
      match look tG n1 with
      | none => none
      | some t => some ⟨t, b1, w1, b1 - b2, 1, 0⟩
    else
      match look tP n2 with
      | none => none
      | some t => some ⟨t, b2, b2 - b1, w2, 0, 1⟩
  | _, _ => none

/-- The addition of the next item of a scalar if it is due, ecp_simple.c:638-647: the point and the new offset. -/
def addItem (S : Fld α) (t : List (Pt α)) (c : Code) (due : Bool) (off : Nat) (r : Pt α) : Option (Pt α × Nat) :=
  if due = true ∧ off < c.length then
    match c[off]? with
    | none => none
    | some (n, _) =>
      match look t n with
      | none => none
      | some q => match pointAdd S true r r q with | none => none | some r => some (r, off + 1)
  else some (r, off)

/-- The width that is used in an iteration, ecp_simple.c:634-635. -/
def curBit (c : Code) (off bit : Nat) : Option Nat := if bit = 0 then wideBefore c off else some bit

/-- An iteration of `ECP_PointMulAdd`, ecp_simple.c:632-651. -/
def maStep (S : Fld α) (tG tP : List (Pt α)) (c1 c2 : Code) (m : MA α) : Option (MA α) :=
  match curBit c1 m.off1 m.bit1, curBit c2 m.off2 m.bit2 with
  | some bit1, some bit2 =>
    let bit := if bit1 < bit2 then bit1 else bit2
    match pointMultDouble S true m.r m.r bit with
    | none => none
    | some r =>
      match addItem S tG c1 (decide (bit = bit1)) m.off1 r with
      | none => none
      | some (r, off1) =>
        match addItem S tP c2 (decide (bit = bit2)) m.off2 r with
        | none => none
        | some (r, off2) => some ⟨r, m.baseBits - bit, bit1 - bit, bit2 - bit, off1, off2⟩
  | _, _ => none

/-- The loop, ecp_simple.c:632-652. -/
def maLoop (S : Fld α) (tG tP : List (Pt α)) (c1 c2 : Code) : Nat → MA α → Option (Pt α)
  | 0, _ => none
  | fuel + 1, m =>
    if m.baseBits = 0 then some m.r
    else match maStep S tG tP c1 c2 m with | none => none | some m => maLoop S tG tP c1 c2 fuel m

/-- `ECP_PointMulAdd`, ecp_simple.c:608-660, with `KZeroHandle` (592-605): `k1` times the generator `g` plus `k2` times `pt`. -/
def pointMulAdd (S : Fld α) (r g : Pt α) (k1 k2 : Nat) (pt : Pt α) : Option (Pt α) :=
  if k1 = 0 ∧ k2 = 0 then some ⟨r.x, r.y, S.zero⟩
  else if k1 = 0 then pointMulFast S k2 pt
  else if k2 = 0 then pointMulFast S k1 g
  else
    match preCompute S g, preCompute S pt, recode k1, recode k2 with
    | some tG, some tP, some (c1, b1), some (c2, b2) =>
      match getFirst S tG tP c1 c2 b1 b2 r with
      | none => none
      | some m => maLoop S tG tP c1 c2 (m.baseBits + 1) m
    | _, _, _, _ => none

/-- `ECC_PointMulAdd`, ecc.c:262-274. -/
def eccPointMulAdd (S : Fld α) (r g : Pt α) (k1 k2 : Nat) (pt : Pt α) : Option (Pt α) :=
  if S.isZero pt.z = true then none else pointMulAdd S r g k1 k2 pt

end Verif.Crypto.Ecc
