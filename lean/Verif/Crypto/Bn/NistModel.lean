import Verif.Crypto.Bn.Mont
/-! Model of /repo/crypto/bn/src/bn_nistmod.c with 64-bit words (HITLS_SIXTY_FOUR_BITS): the reductions modulo the NIST
primes and the SM2 prime, and the quick modular operations built on them. With 32-bit words the code calls `BN_Mod`.
`none` is a read outside of an array. The carries, which the code keeps in an `int8_t`, are integers: each is a sum of
at most fourteen bits. -/
namespace Verif.Crypto.Bn

/-- A 64-bit word. -/
abbrev W64 := W 32

/-- `BN_UINT_LO_TO_HI`, bn_bincal.h:69. -/
def loHi (t : W64) : W64 := t <<< 32
/-- `BN_UINT_HI_TO_HI`, bn_bincal.h:72. -/
def hiHi (t : W64) : W64 := t &&& (0 - hc)

/-- `g_modDataP224`, bn_nistmod.c:53-62. -/
def tabP224 : List (List W64) :=
  [[0x0000000000000001, 0xffffffff00000000, 0xffffffffffffffff, 0x00000000ffffffff],
  [0x0000000000000002, 0xfffffffe00000000, 0xffffffffffffffff, 0x00000001ffffffff]]
/-- `g_modDataP256`, bn_nistmod.c:64-85. -/
def tabP256 : List (List W64) :=
  [[0xffffffffffffffff, 0x00000000ffffffff, 0x0000000000000000, 0xffffffff00000001],
  [0xfffffffffffffffe, 0x00000001ffffffff, 0x0000000000000000, 0xfffffffe00000002],
  [0xfffffffffffffffd, 0x00000002ffffffff, 0x0000000000000000, 0xfffffffd00000003],
  [0xfffffffffffffffc, 0x00000003ffffffff, 0x0000000000000000, 0xfffffffc00000004],
  [0xfffffffffffffffb, 0x00000004ffffffff, 0x0000000000000000, 0xfffffffb00000005]]
/-- `MODDATASM2P256`, bn_nistmod.c:87-140. -/
def tabSm2 : List (List W64) :=
  [[0xffffffffffffffff, 0xffffffff00000000, 0xffffffffffffffff, 0xfffffffeffffffff],
  [0xfffffffffffffffe, 0xfffffffe00000001, 0xffffffffffffffff, 0xfffffffdffffffff],
  [0xfffffffffffffffd, 0xfffffffd00000002, 0xffffffffffffffff, 0xfffffffcffffffff],
  [0xfffffffffffffffc, 0xfffffffc00000003, 0xffffffffffffffff, 0xfffffffbffffffff],
  [0xfffffffffffffffb, 0xfffffffb00000004, 0xffffffffffffffff, 0xfffffffaffffffff],
  [0xfffffffffffffffa, 0xfffffffa00000005, 0xffffffffffffffff, 0xfffffff9ffffffff],
  [0xfffffffffffffff9, 0xfffffff900000006, 0xffffffffffffffff, 0xfffffff8ffffffff],
  [0xfffffffffffffff8, 0xfffffff800000007, 0xffffffffffffffff, 0xfffffff7ffffffff],
  [0xfffffffffffffff7, 0xfffffff700000008, 0xffffffffffffffff, 0xfffffff6ffffffff],
  [0xfffffffffffffff6, 0xfffffff600000009, 0xffffffffffffffff, 0xfffffff5ffffffff],
  [0xfffffffffffffff5, 0xfffffff50000000a, 0xffffffffffffffff, 0xfffffff4ffffffff],
  [0xfffffffffffffff4, 0xfffffff40000000b, 0xffffffffffffffff, 0xfffffff3ffffffff],
  [0xfffffffffffffff3, 0xfffffff30000000c, 0xffffffffffffffff, 0xfffffff2ffffffff]]
/-- `MOD_DATA_P384`, bn_nistmod.c:143-164. -/
def tabP384 : List (List W64) :=
  [[0x00000000ffffffff, 0xffffffff00000000, 0xfffffffffffffffe, 0xffffffffffffffff, 0xffffffffffffffff, 0xffffffffffffffff],
  [0x00000001fffffffe, 0xfffffffe00000000, 0xfffffffffffffffd, 0xffffffffffffffff, 0xffffffffffffffff, 0xffffffffffffffff],
  [0x00000002fffffffd, 0xfffffffd00000000, 0xfffffffffffffffc, 0xffffffffffffffff, 0xffffffffffffffff, 0xffffffffffffffff],
  [0x00000003fffffffc, 0xfffffffc00000000, 0xfffffffffffffffb, 0xffffffffffffffff, 0xffffffffffffffff, 0xffffffffffffffff],
  [0x00000004fffffffb, 0xfffffffb00000000, 0xfffffffffffffffa, 0xffffffffffffffff, 0xffffffffffffffff, 0xffffffffffffffff]]
/-- `MOD_DATA_P521`, bn_nistmod.c:166-170. -/
def modP521 : List W64 :=
  [0xffffffffffffffff, 0xffffffffffffffff, 0xffffffffffffffff, 0xffffffffffffffff, 0xffffffffffffffff,
   0xffffffffffffffff, 0xffffffffffffffff, 0xffffffffffffffff, 0x00000000000001ff]

/-- `P256ADD`, bn_nistmod.c:379-387: the first word with `ADD_AB`, the others with `ADD_ABC`. -/
def p256Add : List W64 → List W64 → List W64 × W64
  | a :: as, b :: bs =>
    let (carry, r) := addAB a b
    let (rs, carry) := binAdd as bs carry
    (r :: rs, carry)
  | _, _ => ([], 0)

/-- `P256SUB`, bn_nistmod.c:369-377. -/
def p256Sub : List W64 → List W64 → List W64 × W64
  | a :: as, b :: bs =>
    let (borrow, r) := subAB a b
    let (rs, borrow) := binSub as bs borrow
    (r :: rs, borrow)
  | _, _ => ([], 0)

/-- The pair of operations a reduction uses: `P256ADD`/`P256SUB`, or `NistP384Add`/`NistP384Sub` (bn_nistmod.c:172-196),
which are `BinAdd`/`BinSub` unrolled. -/
structure Ops where
  add : List W64 → List W64 → List W64 × W64
  sub : List W64 → List W64 → List W64 × W64

def ops256 : Ops := ⟨p256Add, p256Sub⟩
def ops384 : Ops := ⟨fun a b => binAdd a b 0, fun a b => binSub a b 0⟩

/-- `carry += ADD(t, t, list)`. -/
def accAdd (o : Ops) (s : List W64 × Int) (l : List W64) : List W64 × Int :=
  let (t, c) := o.add s.1 l
  (t, s.2 + c.toNat)

/-- `carry -= SUB(t, t, list)`. -/
def accSub (o : Ops) (s : List W64 × Int) (l : List W64) : List W64 × Int :=
  let (t, c) := o.sub s.1 l
  (t, s.2 - c.toNat)

/-- The words shifted left by one bit, from the lowest on; `c` is the bit shifted in. Returns the bit shifted out too. -/
def dblWords : List W64 → W64 → List W64 × W64
  | [], c => ([], c)
  | x :: xs, c =>
    let (rs, top) := dblWords xs (x >>> 63)
    (((x <<< 1) ||| c) :: rs, top)

/-- `carry = carry * 2 + msb; t <<= 1`, bn_nistmod.c:433-438 and 665-670. -/
def accDbl (s : List W64 × Int) : List W64 × Int :=
  let (t, top) := dblWords s.1 0
  (t, s.2 * 2 + top.toNat)

/-- `ReduceNistP256`, bn_nistmod.c:418-477. -/
def reduceP256 : List W64 → Option (List W64 × Int)
  | a0 :: a1 :: a2 :: a3 :: a4 :: a5 :: a6 :: a7 :: _ =>
    let s := accAdd ops256 ([0, hiHi a5, loHi a7 ||| hi a6, hi a7], 0) [0, loHi a6, a6, a7]
    let s := accDbl s
    let s := accAdd ops256 s [a4, hiHi a6 ||| hi a5, a7, a7]
    let s := accAdd ops256 s [loHi a5 ||| hi a4, lo a5, 0, loHi a4 ||| hi a6]
    let s := accSub ops256 s [a7, a7, a5, hiHi a6 ||| hi a4]
    let s := accSub ops256 s [loHi a7 ||| hi a6, loHi a4 ||| hi a6, loHi a5 ||| hi a4, loHi a6 ||| lo a4]
    let s := accSub ops256 s [a6, hiHi a4 ||| hi a7, 0, hiHi a5]
    let s := accSub ops256 s [loHi a6 ||| hi a5, 0, 0, loHi a5]
    some (accAdd ops256 s [a0, a1, a2, a3])
  | _ => none

/-- `ReduceSm2P256`, bn_nistmod.c:632-724. -/
def reduceSm2 : List W64 → Option (List W64 × Int)
  | a0 :: a1 :: a2 :: a3 :: a4 :: a5 :: a6 :: a7 :: _ =>
    let s := accAdd ops256 ([loHi a7 ||| hi a6, 0, 0, loHi a7], 0) [a7, hiHi a6, a7, a7]
    let s := accAdd ops256 s [loHi a6 ||| hi a5, hiHi a5, a6, hiHi a6]
    let s := accAdd ops256 s [a4, 0, loHi a5 ||| hi a4, loHi a6 ||| hi a5]
    let s := accDbl s
    let s := accAdd ops256 s [a6, loHi a7, hi a7, hiHi a7]
    let s := accAdd ops256 s [hi a7, loHi a4, 0, hiHi a5]
    let s := accAdd ops256 s [a5, hiHi a7, 0, loHi a5]
    let s := accAdd ops256 s [loHi a5 ||| hi a4, 0, 0, hiHi a4]
    let s := accAdd ops256 s [hi a7, loHi a6, loHi a7 ||| hi a6, loHi a4 ||| hi a7]
    let s := accSub ops256 s [loHi a6 ||| hi a5, hiHi a5 ||| hi a6, a6, lo a7]
    let s := accSub ops256 s [a4, lo a7 + hi a4 + lo a4, loHi a5 ||| hi a4, hi a5]
    some (accAdd ops256 s [a0, a1, a2, a3])
  | _ => none

/-- `ReduceNistP384`, bn_nistmod.c:226-310. -/
def reduceP384 : List W64 → Option (List W64 × Int)
  | a0 :: a1 :: a2 :: a3 :: a4 :: a5 :: a6 :: a7 :: a8 :: a9 :: a10 :: a11 :: _ =>
    let s := accAdd ops384 ([a6, a7, a8, a9, a10, a11], 0) [loHi a11 ||| hi a10, loHi a6 ||| hi a11, loHi a7 ||| hi a6,
      loHi a8 ||| hi a7, loHi a9 ||| hi a8, loHi a10 ||| hi a9]
    let s := accAdd ops384 s [hiHi a11 ||| lo a10, loHi a10, a6, a7, a8, a9]
    let s := accAdd ops384 s [0, hiHi a10, a10, a11, 0, 0]
    let s := accAdd ops384 s [0, 0, a11, 0, 0, 0]
    let l2 := loHi a11 ||| hi a10
    let l3 := hi a11
    let s := accAdd ops384 s [0, 0, l2 <<< 1, (l2 >>> 63) ||| (l3 <<< 1), 0, 0]
    let s := accSub ops384 s [loHi a6 ||| hi a11, loHi a7 ||| hi a6, loHi a8 ||| hi a7, loHi a9 ||| hi a8,
      loHi a10 ||| hi a9, loHi a11 ||| hi a10]
    let s := accSub ops384 s [loHi a10, loHi a11 ||| hi a10, hi a11, 0, 0, 0]
    let s := accSub ops384 s [0, hiHi a11, hi a11, 0, 0, 0]
    some (accAdd ops384 s [a0, a1, a2, a3, a4, a5])
  | _ => none

/-- The end of `ModNistP256`, `ModNistP384` and `ModSm2P256`, first step (bn_nistmod.c:487-509, 319-325, 733-739): the
multiple of the prime that the carry selects is subtracted or added. -/
def fixCarry (o : Ops) (tab : List (List W64)) (r : List W64) (carry : Int) : Option (List W64 × Int) :=
  if carry > 0 then
    match tab[(carry - 1).toNat]? with
    | none => none
    | some m => let (r, b) := o.sub r m; some (r, 1 - (b.toNat : Int))
  else if carry < 0 then
    match tab[(-carry - 1).toNat]? with
    | none => none
    | some m => let (r, c) := o.add r m; some (r, -(1 - (c.toNat : Int)))
  else some (r, carry)

/-- … second step (bn_nistmod.c:510-514, 326-330, 740-744). -/
def fixLast (o : Ops) (mod r : List W64) (carry : Int) : List W64 :=
  if carry < 0 then (o.add r mod).1
  else if carry > 0 ∨ binCmp r mod ≥ 0 then (o.sub r mod).1
  else r

/-- Both steps. -/
def fixup (o : Ops) (tab : List (List W64)) (r : List W64) (carry : Int) : Option (List W64) :=
  match tab[0]? with
  | none => none
  | some mod =>
    match fixCarry o tab r carry with
    | none => none
    | some (r, c) => some (fixLast o mod r c)

/-- `ModNistP256`, bn_nistmod.c:481-517, before `UpdateSize`. -/
def modP256 (a : List W64) : Option (List W64) :=
  match reduceP256 a with
  | none => none
  | some (r, c) => fixup ops256 tabP256 r c

/-- `ModSm2P256`, bn_nistmod.c:727-747. -/
def modSm2 (a : List W64) : Option (List W64) :=
  match reduceSm2 a with
  | none => none
  | some (r, c) => fixup ops256 tabSm2 r c

/-- `ModNistP384`, bn_nistmod.c:313-333. -/
def modP384 (a : List W64) : Option (List W64) :=
  match reduceP384 a with
  | none => none
  | some (r, c) => fixup ops384 tabP384 r c

/-- `ReduceNistP224`, bn_nistmod.c:541-574. -/
def reduceP224 : List W64 → Option (List W64)
  | a0 :: a1 :: a2 :: a3 :: a4 :: a5 :: a6 :: _ =>
    let t := (p256Add [0, hiHi a5, a6, 0] [0, hiHi a3, a4, lo a5]).1
    let t := (p256Sub t [loHi a4 ||| hi a3, loHi a5 ||| hi a4, loHi a6 ||| hi a5, hi a6]).1
    let t := (p256Sub t [loHi a6 ||| hi a5, hi a6, 0, 0]).1
    some (p256Add [a0, a1, a2, lo a3] t).1
  | _ => none

/-- `(int8_t)((uint8_t)(BN_UINT_HI(r[3]) & 0xFF))`, bn_nistmod.c:585, 592. -/
def carry224 (r : List W64) : Option Int :=
  match r[3]? with
  | none => none
  | some x =>
    let v := (hi x &&& 0xFF).toNat
    some (if v < 128 then (v : Int) else (v : Int) - 256)

/-- The first correction of `ModNistP224`, bn_nistmod.c:586-590. -/
def fix224 (r : List W64) (carry : Int) : Option (List W64) :=
  if carry > 0 then
    match tabP224[(carry - 1).toNat]? with
    | none => none
    | some m => some (p256Sub r m).1
  else if carry < 0 then
    match tabP224[(-carry - 1).toNat]? with
    | none => none
    | some m => some (p256Add r m).1
  else some r

/-- `ModNistP224`, bn_nistmod.c:577-600. -/
def modP224 (a : List W64) : Option (List W64) :=
  match reduceP224 a with
  | none => none
  | some r =>
    match carry224 r with
    | none => none
    | some c =>
      match fix224 r c with
      | none => none
      | some r =>
        match carry224 r, tabP224[0]? with
        | some c, some mod => some (fixLast ops256 mod r c)
        | _, _ => none

/-- The loop of `ReduceNistP521`, bn_nistmod.c:344-347: the words of `a >> 521` below the top one; the argument is `a`
from word 8 on. -/
def shift521 : Nat → List W64 → Option (List W64)
  | 0, x :: _ => some [x >>> 9]
  | n + 1, x :: y :: xs =>
    match shift521 n (y :: xs) with
    | none => none
    | some t => some (((x >>> 9) ||| (y <<< 55)) :: t)
  | _, _ => none

/-- `ReduceNistP521`, bn_nistmod.c:336-353. -/
def reduceP521 (a : List W64) : Option (List W64) :=
  match shift521 8 (a.drop 8), a[8]? with
  | some t, some top => some (binAdd t (a.take 8 ++ [top &&& 0x1ff]) 0).1
  | _, _ => none

/-- `ModNistP521`, bn_nistmod.c:356-367. -/
def modP521Red (a : List W64) : Option (List W64) :=
  match reduceP521 a with
  | none => none
  | some r => some (if binCmp r modP521 ≥ 0 then (binSub r modP521 0).1 else r)

/-- The words of a number the code reads when it takes `n` words of its data. The room of the data is at least `n`, which
the callers check, and the words above the size are zero, which the library keeps (`BN_Copy`, `UpdateSize` and `BinFixSize`
clear them). -/
def words (n : Nat) (l : List W64) : List W64 := (l ++ List.replicate n 0).take n

/-- The return codes. `modMul` is the error of `BN_ModMul` for a zero modulus. -/
inductive EccErr where | spaceNotEnough | quickModData | modMul
deriving DecidableEq

/-- `BN_ModMul` and `BN_ModSqr`'s result, passed on. -/
def passOn : Option (Option (Bn 32)) → Option (Except EccErr (Bn 32))
  | none => some (.error .modMul)
  | some none => none
  | some (some r) => some (.ok r)

/-- `UpdateSize`, bn_nistmod.c:25-42, and the return. -/
def finish : Option (List W64) → Option (Except EccErr (Bn 32))
  | none => none
  | some r => some (.ok ⟨false, trim r⟩)

/-- The choice of the reduction by the size of the modulus, bn_nistmod.c:924-940 and 976-993. -/
def nistRed (bits : Nat) : Option (List W64 → Option (List W64)) :=
  if bits = 224 then some modP224
  else if bits = 256 then some modP256
  else if bits = 384 then some modP384
  else if bits = 521 then some modP521Red
  else none

/-- The product of `n` words by `n` words, in a zeroed buffer of `room` words (bn_nistmod.c:914-925). `MulNistP256P224` and
`MulNistP384` are `BinMul` in a build without HITLS_CRYPTO_BN_COMBA (bn_nistmod.c:834-835); the product with the unrolled
multiplications is the same number, see the comba functions. -/
def wideMul (room n : Nat) (a b : List W64) : Option (List W64) :=
  if 2 * n > room then none
  else some ((binMul (2 * n) (words n a) (words n b)).1 ++ List.replicate (room - 2 * n) 0)

/-- The square, bn_nistmod.c:966-977. -/
def wideSqr (room n : Nat) (a : List W64) : Option (List W64) :=
  if 2 * n > room then none
  else
    match binSqr (2 * n) (words n a) with
    | none => none
    | some (r, _) => some (r ++ List.replicate (room - 2 * n) 0)

/-- A reduction applied to a product. -/
def redProduct (red : List W64 → Option (List W64)) : Option (List W64) → Option (List W64)
  | none => none
  | some x => red x

/-- `BN_ModNistEccMul`, bn_nistmod.c:892-942. `ra`, `rb` are the rooms of `a` and `b`; the failure of an allocation is not
modelled. -/
def nistEccMul (ra rb : Nat) (mod a b : Bn 32) : Option (Except EccErr (Bn 32)) :=
  if mod.data.length > rb ∨ mod.data.length > ra then some (.error .spaceNotEnough)
  else if b.data.length = 0 ∨ a.data.length = 0 then some (.ok bnZero)
  else
    match nistRed (binBits mod.data) with
    | some red => finish (redProduct red (wideMul 18 mod.data.length a.data b.data))
    | none =>
      if binBits mod.data = 192 then passOn (bnModMul a b mod) else some (.error .quickModData)

/-- `BN_ModNistEccSqr`, bn_nistmod.c:944-994. -/
def nistEccSqr (ra : Nat) (mod a : Bn 32) : Option (Except EccErr (Bn 32)) :=
  if mod.data.length > ra then some (.error .spaceNotEnough)
  else if a.data.length = 0 then some (.ok bnZero)
  else
    match nistRed (binBits mod.data) with
    | some red => finish (redProduct red (wideSqr 18 mod.data.length a.data))
    | none =>
      if binBits mod.data = 192 then passOn (bnModSqr a mod) else some (.error .quickModData)

/-- `BN_ModSm2EccMul`, bn_nistmod.c:1002-1025. -/
def sm2EccMul (ra rb : Nat) (mod a b : Bn 32) : Option (Except EccErr (Bn 32)) :=
  if mod.data.length > rb ∨ mod.data.length > ra then some (.error .spaceNotEnough)
  else if a.data.length = 0 ∨ b.data.length = 0 then some (.ok bnZero)
  else finish (redProduct modSm2 (wideMul 8 mod.data.length a.data b.data))

/-- `BN_ModSm2EccSqr`, bn_nistmod.c:1029-1051. -/
def sm2EccSqr (ra : Nat) (mod a : Bn 32) : Option (Except EccErr (Bn 32)) :=
  if mod.data.length > ra then some (.error .spaceNotEnough)
  else if a.data.length = 0 then some (.ok bnZero)
  else finish (redProduct modSm2 (wideSqr 8 mod.data.length a.data))

/-- `BN_ModAddQuick`, bn_nistmod.c:841-867. -/
def modAddQuick (ra rb : Nat) (mod a b : Bn 32) : Except EccErr (Bn 32) :=
  let n := mod.data.length
  if n > ra ∨ n > rb then .error .spaceNotEnough
  else
    let (r, carry) := binAdd (words n a.data) (words n b.data) 0
    let r := if carry > 0 ∨ binCmp r mod.data ≥ 0 then (binSub r mod.data 0).1 else r
    .ok ⟨false, trim r⟩

/-- `BN_ModSubQuick`, bn_nistmod.c:871-890. -/
def modSubQuick (ra rb : Nat) (mod a b : Bn 32) : Except EccErr (Bn 32) :=
  let n := mod.data.length
  if n > ra ∨ n > rb then .error .spaceNotEnough
  else
    let r := (binSub (words n a.data) (words n b.data) 0).1
    let r := if binCmp a.data b.data < 0 then (binAdd r mod.data 0).1 else r
    .ok ⟨false, trim r⟩

end Verif.Crypto.Bn
