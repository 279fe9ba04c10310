import Verif.Crypto.Rsa.Model

/-! Model of the blind signatures: /repo/crypto/rsa/src/rsa_encdec.c:500-711 and rsa_ctrl.c:513-576. In a result the outer `none` is an error that
is returned and the inner `none` an access outside of an array. The message is the one encoded by EMSA-PSS (`PssPad`), which is an input here.
Memory is taken to be available; the flag CRYPT_RSA_BSSA is set and the buffers are large enough. -/
namespace Verif.Crypto.Rsa
open Verif.Crypto.Bn

/-- `blindParam` of the context: NULL, or the numbers `r` and `rInv`. -/
abbrev Bssa := Option (Bn 32 × Bn 32)

/-- `RsaSetBssa`, rsa_ctrl.c:527-576: the factor chosen by the caller. The state is changed on an error as well if there is one: then the new
numbers, as far as they have been made, have replaced the old ones. `BN_ModInv` writes its result last, bn_gcd.c:249. -/
def setBssa (k : Pub) (s : Bssa) (ct : Bool) (r : List UInt8) : Bssa × Bool :=
  let fail (x : Bn 32) : Bssa × Bool := (match s with
    | none => none
    | some _ => some (x, bnZero), false)
  if r.length = 0 then (s, false)
  else
    match bin2Bn r with
    | none => fail bnZero
    | some x =>
      if x.data.length = 0 ∨ bnCmp x k.n ≥ 0 then fail x
      else
        match (bnModInv x k.n).join with
        | none => fail x
        | some i =>
          match (bnModExp x k.e k.n ct).join with
          | none => (match s with
            | none => none
            | some _ => some (x, i), false)
          | some y => (some (y, i), true)

/-- `BssaBlind`, rsa_encdec.c:517-574: the state afterwards and the result. -/
def bssaBlind (k : Pub) (s : Bssa) (v : Env) (pad : List UInt8) : Bssa × Option (Option (List UInt8)) :=
  match bin2Bn pad with
  | none => (s, none)
  | some m =>
    match (bnGcd m k.n).join with
    | none => (s, none)
    | some g =>
      if isOne g = false then (s, none)
      else
        match (match s with
          | none => blindCreate v k.e k.n
          | some b => some b) with
        | none => (s, none)
        | some (r, i) =>
          match (bnModMul m r k.n).join with
          | none => (s, none)
          | some z =>
            match bn2BinFix z (toBytes k.bits) with
            | none => (s, none)
            | some out => (some (r, i), some out)

/-- `BlindSign`, rsa_encdec.c:576-620: the private operation, checked with the public one. -/
def blindSign (k : Prv) (kp : Pub) (s : Blind) (v : Env) (data : List UInt8) : Blind × Option (Option (List UInt8)) :=
  match prvDec k s v data with
  | (s, none) => (s, none)
  | (s, some none) => (s, some none)
  | (s, some (some sig)) =>
    match pubEnc kp sig with
    | none => (s, none)
    | some m => if data.length ≠ m.length ∨ data ≠ m then (s, none) else (s, some (some sig))

/-- `BssaUnBlind`, rsa_encdec.c:651-693. -/
def bssaUnblind (k : Pub) (s : Bssa) (input : List UInt8) : Option (Option (List UInt8)) :=
  if input.length ≠ toBytes k.bits then none
  else
    match s with
    | none => none
    | some (_, i) =>
      let z := match bin2Bn input with
        | none => bnZero
        | some z => z
      match (bnModMul z i k.n).join with
      | none => none
      | some x => bn2BinFix x (toBytes k.bits)

/-- The operations of the requester on one context. -/
inductive BssaOp where
  | set (ct : Bool) (r : List UInt8)
  | blind (v : Env) (pad : List UInt8)
  | unblind (input : List UInt8)

/-- One operation: the state afterwards. -/
def bssaStep (k : Pub) (s : Bssa) : BssaOp → Bssa
  | .set ct r => (setBssa k s ct r).1
  | .blind v pad => (bssaBlind k s v pad).1
  | .unblind _ => s

end Verif.Crypto.Rsa
