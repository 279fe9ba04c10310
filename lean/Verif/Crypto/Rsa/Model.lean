import Verif.Crypto.Bn.ExpMulModel
import Verif.Crypto.Bn.Gcd
import Verif.Crypto.Bn.ConvModel

/-! Model of the RSA primitives: /repo/crypto/rsa/src/rsa_encdec.c:36-423 and rsa_blinding.c, as the library is built by default, with
blinding. In each result the outer `none` is an error that is returned and the inner `none` an access outside of an array. Memory is taken to
be available; NULL checks of the caller's pointers are left out. -/
namespace Verif.Crypto.Rsa
open Verif.Crypto.Bn

/-- The public key with the length of the context (`CRYPT_RSA_PubKey`, rsa_local.h; `bits` is `CRYPT_RSA_GetBits`, rsa_keygen.c:593-608). The
Montgomery object is the one of `CRYPT_RSA_SetPubKey`, rsa_keyop.c:222, that is `BN_MontCreate(n)`. -/
structure Pub where
  n : Bn 32
  e : Bn 32
  bits : Nat

/-- The private key (`CRYPT_RSA_PrvKey`, rsa_local.h) with the flag `CRYPT_RSA_BLINDING` and the length of the context. A number that the
caller has not set is zero. -/
structure Prv where
  n : Bn 32
  d : Bn 32
  p : Bn 32
  q : Bn 32
  dP : Bn 32
  dQ : Bn 32
  qInv : Bn 32
  e : Bn 32
  bits : Nat
  blinding : Bool

/-- `BN_BITS_TO_BYTES`. -/
def toBytes (bits : Nat) : Nat := (bits + 7) / 8

/-- The words of a number made by `BN_Create(bits)`, bn_basic.c:26-48. -/
def roomOf (bits : Nat) : Nat := (bits + 63) / 64

/-- `AllocResultAndInputBN`, rsa_encdec.c:45-55, with `InputRangeCheck`, rsa_encdec.c:36-43. -/
def readInput (n : Bn 32) (input : List UInt8) : Option (Bn 32) :=
  match bin2Bn input with
  | none => none
  | some a => if bnCmp a n ≥ 0 then none else some a

/-- `CRYPT_RSA_PubEnc`, rsa_encdec.c:82-120, into a buffer that is large enough. -/
def pubEnc (k : Pub) (input : List UInt8) : Option (List UInt8) := do
  let M ← (montCreate k.n).join
  let a ← readInput k.n input
  let r ← (bnMontExp M a k.e false).join
  (bn2BinFix r (toBytes k.bits)).join

/-- `MontMulCore`, bn_mont.c:741-758, into the number `r` of the given room. `BN_COPY_BYTES`, bn_bincal.h:81-86, copies all words of the
operand whatever the size of the destination; the conversions then work on `mSize` words. -/
def montMulCore (room : Nat) (M : Mont 32) (r a b : Bn 32) : Option (Option (Bn 32)) :=
  if a.data.length > M.mod.length ∨ b.data.length > room then some none
  else
    match montEnc M (padTo M a.data), montEnc M ((padTo M b.data).take M.mod.length) with
    | some x, some y =>
      match montMul M x y with
      | none => some none
      | some z =>
        match montDec M z with
        | none => some none
        | some z => some (some ⟨r.neg, trim z⟩)
    | _, _ => some none

/-- `NormalDecProcedure`, rsa_encdec.c:157-207, up to the call of `MontMulCore`: the difference `mP - mQ` and `mQ`. -/
def crtPowers (k : Prv) (MP MQ : Mont 32) (c : Bn 32) : Option (Bn 32 × Bn 32) := do
  let cP ← (bnMod c k.p).join
  let cQ ← (bnMod c k.q).join
  let mP ← (bnMontExp MP cP k.dP true).join
  let mQ ← (bnMontExp MQ cQ k.dQ true).join
  let r ← (bnModSub mP mQ k.p).join
  some (r, mQ)

/-- `NormalDecProcedure`, rsa_encdec.c:157-207. The result has the room that `BN_Create(bits + 1)` gives it in `AllocResultAndInputBN`,
rsa_encdec.c:48. -/
def crtDec (k : Prv) (c : Bn 32) : Option (Option (Bn 32)) :=
  match (montCreate k.p).join, (montCreate k.q).join with
  | some MP, some MQ =>
    match crtPowers k MP MQ c with
    | none => none
    | some (r, mQ) =>
      match montMulCore (roomOf (k.bits + 1)) MP r r k.qInv with
      | none => none
      | some none => some none
      | some (some r) => some (some (bnAdd (bnMul (r.data.length + k.q.data.length) r k.q) mQ))
  | _, _ => none

/-- `CalcMontExp`, rsa_encdec.c:57-79, in constant time. -/
def plainDec (k : Prv) (c : Bn 32) : Option (Option (Bn 32)) :=
  if k.n.data.length = 0 ∨ k.d.data.length = 0 then none
  else
    match montCreate k.n with
    | none => none
    | some none => some none
    | some (some M) => bnMontExp M c k.d true

/-- `RSA_GetL` and `RSA_GetPublicExp`, rsa_encdec.c:211-271. -/
def getPublicExp (k : Prv) : Option (Bn 32) := do
  let r1 := bnSubLimb bnZero k.p 1
  let r2 := bnSubLimb bnZero k.q 1
  let l := bnMul (r1.data.length + r2.data.length) r1 r2
  let u ← (bnGcd r1 r2).join
  let l ← (bnDiv l u).join
  (bnModInv k.d l.1).join

/-- The field `scBlind` of the context: not made yet, made but without numbers, or with its two numbers. -/
inductive Blind where
  | unset
  | broken
  | pair (r rInv : Bn 32)

/-- What the surroundings deliver to an operation: the number of the random generator, or its failure, and whether the flags of the numbers
ask for constant time. -/
structure Env where
  rand : Option (Bn 32)
  consttime : Bool

/-- `RSA_BlindCreateParam`, rsa_blinding.c:114-158. -/
def blindCreate (v : Env) (e n : Bn 32) : Option (Bn 32 × Bn 32) := do
  let r ← v.rand
  let rInv ← (bnModInv r n).join
  let r ← (bnModExp r e n v.consttime).join
  some (r, rInv)

/-- The exponent of `RSA_InitBlind`, rsa_encdec.c:273-284. -/
def blindExp (k : Prv) : Option (Bn 32) := if k.e.data.length = 0 then getPublicExp k else some k.e

/-- `RSA_InitBlind`, rsa_encdec.c:273-294, where `scBlind` is not made yet: the new state, which stays when there are no numbers in it. -/
def initBlind (k : Prv) (v : Env) : Blind :=
  match blindExp k with
  | none => .unset
  | some e =>
    match blindCreate v e k.n with
    | none => .broken
    | some (r, rInv) => .pair r rInv

/-- `BlindUpdate`, rsa_blinding.c:48-60. -/
def blindUpdate (n r rInv : Bn 32) : Option (Bn 32 × Bn 32) := do
  let r ← (bnModMul r r n).join
  let rInv ← (bnModMul rInv rInv n).join
  some (r, rInv)

/-- `RSA_BlindCovert`, rsa_blinding.c:62-77. -/
def blindConvert (n r rInv c : Bn 32) : Option ((Bn 32 × Bn 32) × Bn 32) := do
  let (r, rInv) ← blindUpdate n r rInv
  let c ← (bnModMul c r n).join
  some ((r, rInv), c)

/-- The choice of `RSA_PrvProcess`, rsa_encdec.c:347-353. -/
def rawDec (k : Prv) (c : Bn 32) : Option (Option (Bn 32)) := if k.p.data.length = 0 then plainDec k c else crtDec k c

/-- `RSA_PrvProcess`, rsa_encdec.c:332-369, with `RSA_BlindProcess`, rsa_encdec.c:296-308, and `RSA_BlindInvert`, rsa_blinding.c:79-86: the
state of the blinding afterwards and the result. With a NULL number `BN_ModMul` returns an error. -/
def prvProcess (k : Prv) (s : Blind) (v : Env) (c : Bn 32) : Blind × Option (Option (Bn 32)) :=
  if k.blinding = false then (s, rawDec k c)
  else
    let s := match s with
      | .unset => initBlind k v
      | s => s
    match s with
    | .unset => (.unset, none)
    | .broken => (.broken, none)
    | .pair r rInv =>
      match blindConvert k.n r rInv c with
      | none => (.pair r rInv, none)
      | some ((r, rInv), c) =>
        (.pair r rInv,
          match rawDec k c with
          | none => none
          | some none => some none
          | some (some m) => bnModMul m rInv k.n)

/-- `CRYPT_RSA_PrvDec`, rsa_encdec.c:372-423, into a buffer that is large enough. -/
def prvDec (k : Prv) (s : Blind) (v : Env) (input : List UInt8) : Blind × Option (Option (List UInt8)) :=
  match readInput k.n input with
  | none => (s, none)
  | some c =>
    match prvProcess k s v c with
    | (s, none) => (s, none)
    | (s, some none) => (s, some none)
    | (s, some (some m)) => (s, bn2BinFix m (toBytes k.bits))

/-- The state of the blinding after a history of private operations on one context. -/
def prvState (k : Prv) (ops : List (Env × List UInt8)) : Blind := ops.foldl (fun s op => (prvDec k s op.1 op.2).1) .unset

/-- A history of private operations on one context: their results. -/
def prvRun (k : Prv) : Blind → List (Env × List UInt8) → List (Option (Option (List UInt8)))
  | _, [] => []
  | s, (v, input) :: ops => let (s, out) := prvDec k s v input; out :: prvRun k s ops

end Verif.Crypto.Rsa
