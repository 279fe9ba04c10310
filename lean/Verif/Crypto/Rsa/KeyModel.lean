import Verif.Crypto.Rsa.Model

/-! Model of the setting and the making of RSA keys: /repo/crypto/rsa/src/rsa_keyop.c:27-235 and rsa_keygen.c:1057-1257 without the search
for the primes. `none` is an error. An access outside of an array cannot happen in these functions beyond the number arithmetic they call;
there it is counted as `none` too, and the theorems show that it does not occur. Memory is taken to be available. -/
namespace Verif.Crypto.Rsa
open Verif.Crypto.Bn

/-- `CRYPT_RsaPrv`: `none` is a NULL pointer. The members `n` and `d` are not NULL. -/
structure PrvIn where
  n : List UInt8
  d : List UInt8
  e : Option (List UInt8)
  p : Option (List UInt8)
  q : Option (List UInt8)
  dP : Option (List UInt8)
  dQ : Option (List UInt8)
  qInv : Option (List UInt8)

/-- `CRYPT_RsaPub`. -/
structure PubIn where
  n : List UInt8
  e : List UInt8

/-- `SetPrvBasicCheck`, rsa_keyop.c:78-98: the input is taken. -/
def prvBasicOk (i : PrvIn) : Bool :=
  let invalidIn := (i.p.isNone != i.q.isNone) || (i.p.isNone && i.dP.isSome) ||
    ((i.dP.isNone || i.dQ.isNone || i.qInv.isNone) && (i.dP.isSome || i.dQ.isSome || i.qInv.isSome))
  decide (i.n.length ≠ 0) && decide (i.n.length ≤ 2048) && !invalidIn

/-- The length of a member; that of a NULL member is taken to be zero. -/
def lenOf (x : Option (List UInt8)) : Nat :=
  match x with
  | none => 0
  | some x => x.length

/-- `SetPrvBnLenCheck`, rsa_keyop.c:100-109. -/
def prvLenOk (i : PrvIn) : Bool :=
  decide (i.d.length ≤ i.n.length) && decide (lenOf i.p ≤ i.n.length) && decide (lenOf i.q ≤ i.n.length)

/-- The check of the modulus, rsa_keyop.c:32-36 and 197-203. -/
def modulusOk (n : Bn 32) : Bool := !(decide (binBits n.data > 16384) || decide (binBits n.data < 512))

/-- The numbers `n` and `d` of `SetPrvPara`, rsa_keyop.c:30-47. -/
def readND (i : PrvIn) : Option (Bn 32 × Bn 32) :=
  match bin2Bn i.n, bin2Bn i.d with
  | some n, some d =>
    if modulusOk n = false then none
    else if d.data.length = 0 ∨ isOne d = true then none
    else if bnCmp n d ≤ 0 then none
    else some (n, d)
  | _, _ => none

/-- The number `e` of `SetPrvPara`, rsa_keyop.c:48-58. -/
def readE (n : Bn 32) (e : Option (List UInt8)) : Option (Bn 32) :=
  match e with
  | none => some bnZero
  | some e =>
    match bin2Bn e with
    | none => none
    | some e => if bnCmp n e ≤ 0 then none else some e

/-- The last part of `RSA_CalcPrvKey`, rsa_keygen.c:1128-1149: `dP`, `dQ` and `qInv`. -/
def calcCrt (p q d : Bn 32) : Option (Bn 32 × Bn 32 × Bn 32) := do
  let pMinusOne := bnSubLimb bnZero p 1
  let qMinusOne := bnSubLimb bnZero q 1
  let qInv ← (bnModInv q p).join
  let dP ← (bnDiv d pMinusOne).join
  let dQ ← (bnDiv d qMinusOne).join
  some (dP.2, dQ.2, qInv)

/-- The primes and the numbers that come from them: `SetPrvPara`, rsa_keyop.c:59-72, and the call of `RSA_CalcPrvKey`,
rsa_keyop.c:133-145. -/
def readCrt (d : Bn 32) (i : PrvIn) (p q : List UInt8) : Option (Bn 32 × Bn 32 × Bn 32 × Bn 32 × Bn 32) := do
  let p ← bin2Bn p
  let q ← bin2Bn q
  if p.data.length = 0 ∨ q.data.length = 0 then none
  else
    match i.dP, i.dQ, i.qInv with
    | some dP, some dQ, some qInv =>
      let dP ← bin2Bn dP
      let dQ ← bin2Bn dQ
      let qInv ← bin2Bn qInv
      some (p, q, dP, dQ, qInv)
    | _, _, _ =>
      let (dP, dQ, qInv) ← calcCrt p q d
      some (p, q, dP, dQ, qInv)

/-- `CRYPT_RSA_SetPrvKey`, rsa_keyop.c:111-158, in a context without parameters: `CRYPT_RSA_GetBits` is the length of `n`. -/
def setPrv (blinding : Bool) (i : PrvIn) : Option Prv :=
  if prvBasicOk i = false ∨ prvLenOk i = false then none
  else do
    let (n, d) ← readND i
    let e ← readE n i.e
    match i.p, i.q with
    | some p, some q =>
      let (p, q, dP, dQ, qInv) ← readCrt d i p q
      some ⟨n, d, p, q, dP, dQ, qInv, e, binBits n.data, blinding⟩
    | _, _ => some ⟨n, d, bnZero, bnZero, bnZero, bnZero, bnZero, e, binBits n.data, blinding⟩

/-- `CRYPT_RSA_SetPubKey`, rsa_keyop.c:179-235, with `SetPubBasicCheck`, rsa_keyop.c:160-177, in a context without parameters and without a
private key. -/
def setPub (i : PubIn) : Option Pub :=
  if i.n.length > 2048 ∨ i.e.length > i.n.length then none
  else
    match bin2Bn i.n, bin2Bn i.e with
    | some n, some e =>
      if modulusOk n = false then none
      else if i.n.length > 384 ∧ bnBytes e > 8 then none
      else if bnCmp n e ≤ 0 ∨ e.data.length = 0 ∨ isOne e = true then none
      else if (montCreate n).join.isNone then none
      else some ⟨n, e, binBits n.data⟩
    | _, _ => none

/-- `RsaPrvKeyCalcND`, rsa_keygen.c:1057-1106: `n` and `d`. -/
def calcND (p q e : Bn 32) : Option (Bn 32 × Bn 32) := do
  let pMinusOne := bnSubLimb bnZero p 1
  let qMinusOne := bnSubLimb bnZero q 1
  let n := bnMul (p.data.length + q.data.length) p q
  let l := bnMul (pMinusOne.data.length + qMinusOne.data.length) pMinusOne qMinusOne
  let u ← (bnGcd pMinusOne qMinusOne).join
  let l ← (bnDiv l u).join
  let d ← (bnModInv e l.1).join
  some (n, d)

/-- `RSA_KeyValidationCheck`, rsa_keygen.c:1160-1183. -/
def pairCheck (n e d : Bn 32) : Bool :=
  match (montCreate n).join with
  | none => false
  | some M =>
    let val : Bn 32 := ⟨false, [2]⟩
    match (bnMontExp M val e false).join with
    | none => false
    | some x =>
      match (bnMontExp M x d true).join with
      | none => false
      | some x => decide (bnCmp val x = 0)

/-- `CRYPT_RSA_Gen`, rsa_keygen.c:1185-1257, after the search for the primes `p` and `q`; `bits` and `e` are the parameters. -/
def genKey (bits : Nat) (blinding : Bool) (p q e : Bn 32) : Option (Pub × Prv) := do
  let (n, d) ← calcND p q e
  let (dP, dQ, qInv) ← calcCrt p q d
  if pairCheck n e d then some (⟨n, e, bits⟩, ⟨n, d, p, q, dP, dQ, qInv, e, bits, blinding⟩) else none

end Verif.Crypto.Rsa
