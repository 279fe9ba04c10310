import Verif.Crypto.Bn.ExpMulModel
import Verif.Crypto.Sig.Model

/-! Model of DSA signatures: /repo/crypto/dsa/src/dsa_core.c. An error code is `none`. The hash function, the encoding of the signature
and memory allocation are not part of this model. -/
namespace Verif.Crypto.Dsa
open Verif.Crypto.Bn Verif.Crypto.Sig

/-- The parameters (`struct DSA_Para`, dsa_local.h:36-40). -/
structure Para where
  p : Bn 32
  q : Bn 32
  g : Bn 32

/-- `DSA_Bits2Int`, dsa_core.c:806-822; the error of the conversion is ignored. -/
def dsaBits2Int (q : Bn 32) (data : List UInt8) : Bn 32 :=
  let qLen := bnBytes q
  let dLen := if data.length < qLen then data.length else qLen
  bin2BnVoid (data.take dLen)

/-- `CalcSValue`, dsa_core.c:827-860; `blind` is the number drawn. -/
def calcS (c : Para) (x r k d blind : Bn 32) : Option (Bn 32) := do
  let s ← (bnModMul blind x c.q).join
  let s ← (bnModMul s r c.q).join
  let blindm ← (bnModMul blind d c.q).join
  let s ← (bnModAdd s blindm c.q).join
  let k ← (bnModInv k c.q).join
  let s ← (bnModMul s k c.q).join
  let blind ← (bnModInv blind c.q).join
  (bnModMul s blind c.q).join

/-- One round of `SignCore`, dsa_core.c:874-906: an error, another round (`some none`) or the signature. The draws are the results of
`RandRangeQ` (dsa_core.c:632-649), which repeats until the number is not zero. -/
def dsaRound (c : Para) (M : Mont 32) (x d : Bn 32) (dr : Draw) : Option (Option (Bn 32 × Bn 32)) := do
  let r ← (bnMontExp M c.g dr.k true).join
  let r ← (bnMod r c.q).join
  if r.data.length = 0 then some none
  else
    let s ← calcS c x r dr.k d dr.blind
    if s.data.length = 0 then some none else some (some (r, s))

/-- `CRYPT_DSA_TRY_MAX_CNT`, crypt_dsa.h:33-35. -/
def dsaTryMax : Nat := 100

/-- `CryptDsaSign`, dsa_core.c:917-951, with `SignCore`, dsa_core.c:862-915. -/
def dsaSign (c : Para) (x : Bn 32) (data : List UInt8) (draws : List Draw) : Option (Bn 32 × Bn 32) := do
  let M ← (montCreate c.p).join
  rounds (dsaRound c M x (dsaBits2Int c.q data)) (draws.take dsaTryMax)

/-- `VerifyCore`, dsa_core.c:996-1054: the number to compare with `r`. -/
def dsaPower (c : Para) (y d r s : Bn 32) : Option (Bn 32) := do
  let M ← (montCreate c.p).join
  let w ← (bnModInv s c.q).join
  let u1 ← (bnModMul d w c.q).join
  let u2 ← (bnModMul r w c.q).join
  let v ← bnMontExpMul M c.g u1 y u2
  (bnMod v c.q).join

/-- `CRYPT_DSA_VerifyData`, dsa_core.c:1071-1105, with the decoded signature and `VerifyCheckSign`, dsa_core.c:1056-1069. -/
def dsaVerify (c : Para) (y : Bn 32) (data : List UInt8) (r s : Bn 32) : Bool :=
  if bnCmp r c.q ≥ 0 ∨ bnCmp s c.q ≥ 0 then false
  else if r.data.length = 0 ∨ s.data.length = 0 then false
  else
    match dsaPower c y (dsaBits2Int c.q data) r s with
    | none => false
    | some v => decide (bnCmp v r = 0)

end Verif.Crypto.Dsa
