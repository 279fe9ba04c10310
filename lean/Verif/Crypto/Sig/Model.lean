import Verif.Crypto.Ecc.Bn
import Verif.Crypto.Bn.ConvModel

/-! Model of the ECDSA and SM2 signatures and of the ECDH shared key: /repo/crypto/ecdsa/src/ecdsa.c, /repo/crypto/sm2/src/sm2_sign.c
and /repo/crypto/ecdh/src/ecdh.c, with the methods of the curve in C (no assembly). An error code is `none`. The hash function, the
encoding of the signature and memory allocation are not part of this model. -/
namespace Verif.Crypto.Sig
open Verif.Crypto.Bn Verif.Crypto.Ecc

/-- The parameters of a curve (`ECC_Para`, ecc_local.h): the routines of the field, the generator and its order. -/
structure Para where
  S : Fld (Bn 32)
  /-- `para->p`, for the length of a coordinate -/
  p : Bn 32
  /-- `para->x`, `para->y` and `Z = 1` (`ECC_GetGFromPara`, ecc.c:246-261) -/
  g : Pt (Bn 32)
  n : Bn 32

/-- What one round of a signature draws: the number `k` (`BN_RandRangeEx`) and the number to blind the multiplication with
(`ECP_PointBlind`). -/
structure Draw where
  k : Bn 32
  blind : Bn 32

/-- A new point, `ECC_NewPoint`, ecc.c:60-82. -/
def newPoint : Pt (Bn 32) := ⟨bnZero, bnZero, bnZero⟩

/-- `ECC_GetPointDataX`, ecc.c:225-244. -/
def getPointX (S : Fld (Bn 32)) (pt : Pt (Bn 32)) : Option (Bn 32) := (eccPoint2Affine S pt).map Pt.x

/-- The magnitude of a number as the scalar of a multiplication, which reads it bit by bit. -/
def scalar (k : Bn 32) : Nat := val k.data

/-! ### ECDSA -/

/-- `BN_Bin2Bn` into a new number with the error ignored, ecdsa.c:164: after an error the number is still zero. -/
def bin2BnVoid (data : List UInt8) : Bn 32 :=
  match bin2Bn data with
  | some r => r
  | none => bnZero

/-- `GetBnByData`, ecdsa.c:146-176. Lengths are 32-bit numbers, so `8 * dLen` wraps. -/
def getBnByData (n : Bn 32) (data : List UInt8) : Option (Bn 32) :=
  let nBits := binBits n.data
  let dLen := if (8 * data.length) % 2 ^ 32 > nBits then (nBits + 7) / 8 else data.length
  let d := bin2BnVoid (data.take dLen)
  if (8 * dLen) % 2 ^ 32 > nBits then bnRshift d (8 - nBits % 8) else some d

/-- One round of `EcdsaSignCore`, ecdsa.c:197-229: an error, another round (`some none`) or the signature. -/
def ecdsaRound (c : Para) (prv e : Bn 32) (dr : Draw) : Option (Option (Bn 32 × Bn 32)) :=
  if dr.k.data.length = 0 then some none
  else do
    let pt ← eccPointMul c.S newPoint (scalar dr.k) c.g dr.blind
    let x ← getPointX c.S pt
    let r ← (bnMod x c.n).join
    if r.data.length = 0 then some none
    else
      let s ← (bnModMul prv r c.n).join
      let s ← exOpt (modAddQuick c.n.data.length c.n.data.length c.n e s)
      let k2 ← (bnModInv dr.k c.n).join
      let s ← (bnModMul k2 s c.n).join
      if s.data.length = 0 then some none else some (some (r, s))

/-- The loop over the rounds; it ends with an error when the tries are used up. -/
def rounds (round : Draw → Option (Option (Bn 32 × Bn 32))) : List Draw → Option (Bn 32 × Bn 32)
  | [] => none
  | dr :: drs =>
    match round dr with
    | none => none
    | some none => rounds round drs
    | some (some sig) => some sig

/-- `CRYPT_ECC_TRY_MAX_CNT`, crypt_ecc_pkey.h:34. -/
def tryMax : Nat := 100

/-- `CryptEcdsaSign`, ecdsa.c:246-281, with `EcdsaSignCore`, ecdsa.c:178-244: `draws` are the results of the random generator. -/
def ecdsaSign (c : Para) (prv : Bn 32) (data : List UInt8) (draws : List Draw) : Option (Bn 32 × Bn 32) := do
  let e ← getBnByData c.n data
  rounds (ecdsaRound c prv e) (draws.take tryMax)

/-- `VerifyCheckSign`, ecdsa.c:338-350; the same in sm2_sign.c:725-744. -/
def checkSign (n r s : Bn 32) : Bool :=
  if bnCmp r n ≥ 0 ∨ bnCmp s n ≥ 0 then false
  else if r.data.length = 0 ∨ s.data.length = 0 then false
  else true

/-- `EcdsaVerifyCore`, ecdsa.c:352-405: the number to compare with `r`. -/
def ecdsaPointX (c : Para) (pub : Pt (Bn 32)) (e r s : Bn 32) : Option (Bn 32) := do
  let w ← (bnModInv s c.n).join
  let u1 ← (bnModMul e w c.n).join
  let u2 ← (bnModMul r w c.n).join
  let pt ← eccPointMulAdd c.S newPoint c.g (scalar u1) (scalar u2) pub
  let x ← getPointX c.S pt
  (bnMod x c.n).join

/-- The verification from `VerifyCheckSign` on, ecdsa.c:434-437: success or not. -/
def ecdsaCore (c : Para) (pub : Pt (Bn 32)) (e r s : Bn 32) : Bool :=
  if checkSign c.n r s = true then
    match ecdsaPointX c pub e r s with
    | none => false
    | some v => decide (bnCmp v r = 0)
  else false

/-- `CRYPT_ECDSA_VerifyData`, ecdsa.c:407-443, with the decoded signature. -/
def ecdsaVerify (c : Para) (pub : Pt (Bn 32)) (data : List UInt8) (r s : Bn 32) : Bool :=
  match getBnByData c.n data with
  | none => false
  | some e => ecdsaCore c pub e r s

/-! ### SM2 -/

/-- `Sm2CalcPrvInv`, sm2_sign.c:67-91. -/
def sm2PrvInv (c : Para) (prv : Bn 32) : Option (Bn 32) := (bnModInv (bnAddLimb prv 1) c.n).join

/-- One round of `Sm2SignCore`, sm2_sign.c:580-605. -/
def sm2Round (c : Para) (prv inv e : Bn 32) (dr : Draw) : Option (Option (Bn 32 × Bn 32)) :=
  if dr.k.data.length = 0 then some none
  else do
    let pt ← eccPointMul c.S newPoint (scalar dr.k) c.g dr.blind
    let x ← getPointX c.S pt
    let r ← (bnModAdd e x c.n).join
    let t := bnAdd r dr.k
    if r.data.length = 0 ∨ bnCmp t c.n = 0 then some none
    else
      let s ← (bnModMul prv r c.n).join
      let s ← (bnModSub dr.k s c.n).join
      let s ← (bnModMul inv s c.n).join
      if s.data.length = 0 then some none else some (some (r, s))

/-- `Sm2SignCore`, sm2_sign.c:548-620. A cached inverse (`ctx->prvInv`) is the same number. -/
def sm2Sign (c : Para) (prv e : Bn 32) (draws : List Draw) : Option (Bn 32 × Bn 32) := do
  let inv ← sm2PrvInv c prv
  rounds (sm2Round c prv inv e) (draws.take tryMax)

/-- `Sm2VerifyCore`, sm2_sign.c:746-784: the number to compare with `r`. -/
def sm2PointX (c : Para) (pub : Pt (Bn 32)) (e r s : Bn 32) : Option (Bn 32) := do
  let t ← exOpt (modAddQuick c.n.data.length c.n.data.length c.n r s)
  if t.data.length = 0 then none
  else
    let pt ← eccPointMulAdd c.S newPoint c.g (scalar s) (scalar t) pub
    let x ← getPointX c.S pt
    (bnModAdd e x c.n).join

/-- The verification from `VerifyCheckSign` on, sm2_sign.c:725-784. -/
def sm2Verify (c : Para) (pub : Pt (Bn 32)) (e r s : Bn 32) : Bool :=
  if checkSign c.n r s = true then
    match sm2PointX c pub e r s with
    | none => false
    | some v => decide (bnCmp r v = 0)
  else false

/-! ### ECDH -/

/-- `ECC_PointCheck`, ecc.c:401-412. -/
def pointCheck (S : Fld (Bn 32)) (pt : Pt (Bn 32)) : Bool := !S.isZero pt.z

/-- `ECC_GetPoint` without the second coordinate, ecc.c:146-186: `len` is the room for the result. -/
def getPointBytes (c : Para) (pt : Pt (Bn 32)) (len : Nat) : Option (List UInt8) :=
  let pBytes := bnBytes c.p
  if len < pBytes then none
  else do
    let x ← getPointX c.S pt
    (bn2BinFix x pBytes).join

/-- `CRYPT_ECDH_ComputeShareKey`, ecdh.c:136-180; the cofactor is one. -/
def ecdhShare (c : Para) (prv : Bn 32) (pub : Pt (Bn 32)) (blind : Bn 32) (len : Nat) : Option (List UInt8) := do
  let pt ← eccPointMul c.S newPoint (scalar prv) pub blind
  if pointCheck c.S pt = false then none else getPointBytes c pt len

end Verif.Crypto.Sig
