import Verif.Crypto.Paillier.Model

/-! Model of ElGamal encryption: /repo/crypto/elgamal/src. In a result the outer `none` is an error that is returned and the inner `none` an
access outside of an array. Memory is taken to be available and the pointers are not NULL; the numbers of the random generator are inputs. -/
namespace Verif.Crypto.Elgamal
open Verif.Crypto.Bn Verif.Crypto.Rsa Verif.Crypto.Paillier

/-- `CRYPT_ELGAMAL_PubKey`, elgamal_local.h:32-37. -/
structure Pub where
  p : Bn 32
  g : Bn 32
  y : Bn 32
  q : Bn 32

/-- `CRYPT_ELGAMAL_PrvKey`, elgamal_local.h:39-43. -/
structure Prv where
  p : Bn 32
  g : Bn 32
  x : Bn 32

/-- `ELGAMAL_Ctx`, elgamal_local.h:51-57; of the parameters the length is kept, the rest is not used after the generation. -/
structure Ctx where
  bits : Option Nat
  pub : Option Pub
  prv : Option Prv

/-- `CRYPT_ELGAMAL_GetBits`, elgamal_keygen.c:333-348. -/
def getBits (c : Ctx) : Nat :=
  match c.bits with
  | some b => b
  | none =>
    match c.prv with
    | some k => binBits k.p.data
    | none =>
      match c.pub with
      | some k => binBits k.p.data
      | none => 0

/-- `ElGamal_GenP`, elgamal_keygen.c:400-438, from the prime `q` and the number `k` of `BN_RandEx`. -/
def genP (q k : Bn 32) : Bn 32 := bnAddLimb (bnMul (k.data.length + q.data.length) k q) 1

/-- The loop of `OriginalRoot`, originalroot.c:54-80. `draws` are the results of `BN_RandRangeEx`, as many as are made. -/
def root (p q : Bn 32) : List (Option (Bn 32)) → Option (Bn 32)
  | [] => none
  | none :: _ => none
  | some g :: ds =>
    match (bnModSqr g p).join with
    | none => none
    | some x1 =>
      if isOne x1 = true then root p q ds
      else
        match (bnModExp g q p false).join with
        | none => none
        | some x2 => if isOne x2 = true then root p q ds else some g

/-- `ElGamal_CalcPrvKey`, elgamal_keygen.c:440-475, `ElGamal_CalcPubKey`, elgamal_keygen.c:477-500, and `CRYPT_ELGAMAL_Gen`,
elgamal_keygen.c:502-565. The first call of `ElGamal_GenP`, whose results are replaced, is left out. -/
def gen (bits : Nat) (q k : Bn 32) (draws : List (Option (Bn 32))) (x : Option (Bn 32)) : Option Ctx :=
  let p := genP q k
  match root p q draws with
  | none => none
  | some g =>
    match x with
    | none => none
    | some x =>
      match (bnModExp g x p false).join with
      | none => none
      | some y => some ⟨some bits, some ⟨p, g, y, q⟩, some ⟨p, g, x⟩⟩

/-- `CRYPT_ELGAMAL_PubEnc`, elgamal_encdec.c:27-142. The loop of lines 83-99 is that of the Paillier encryption with another number. -/
def pubEnc (k : Pub) (bytes : Nat) (draws : List (Option (Bn 32))) (data : List UInt8) : Option (Option (List UInt8 × List UInt8)) :=
  match (montCreate k.p).join with
  | none => none
  | some M =>
    match bin2Bn data with
    | none => none
    | some m =>
      if m.neg = true then none
      else
        match pick (bnSubLimb bnZero k.q 1) draws with
        | none => none
        | some r =>
          match (bnMontExp M k.g r false).join, (bnMontExp M k.y r false).join with
          | some c1, some yr =>
            match (bnModMul m yr k.p).join with
            | none => none
            | some c2 =>
              match bn2BinFix c1 bytes, bn2BinFix c2 bytes with
              | none, _ => none
              | _, none => none
              | some (some a), some (some b) => some (some (a, b))
              | _, _ => some none
          | _, _ => none

/-- `CRYPT_ELGAMAL_Encrypt`, elgamal_encdec.c:228-267, with `EncryptInputCheck`, elgamal_encdec.c:201-226. -/
def encrypt (c : Ctx) (draws : List (Option (Bn 32))) (data : List UInt8) (len : Nat) : Option (Option (List UInt8)) :=
  match c.pub with
  | none => none
  | some k =>
    if len < 2 * toBytes (getBits c) then none
    else if data.length > toBytes (getBits c) then none
    else
      match pubEnc k (toBytes (getBits c)) draws data with
      | none => none
      | some none => some none
      | some (some (a, b)) => some (some (a ++ b))

/-- `CheckCiphertext`, elgamal_encdec.c:296-337. -/
def cipherOk (c1 c2 p : Bn 32) : Bool :=
  if bnCmp c1 p ≥ 0 ∨ c1.neg = true then false
  else if bnCmp c2 p ≥ 0 ∨ c2.neg = true then false
  else
    match (bnGcd c1 p).join with
    | none => false
    | some g =>
      if isOne g = false then false
      else
        match (bnGcd c2 p).join with
        | none => false
        | some g => isOne g

/-- `CRYPT_ELGAMAL_PrvDec`, elgamal_encdec.c:144-199. -/
def prvDec (k : Prv) (c1 c2 : Bn 32) (len : Nat) : Option (Option (List UInt8)) :=
  match (bnModExp c1 k.x k.p false).join with
  | none => none
  | some t =>
    match (bnModInv t k.p).join with
    | none => none
    | some i =>
      match (bnModMul c2 i k.p).join with
      | none => none
      | some m => bn2Bin m len

/-- `CRYPT_ELGAMAL_Decrypt`, elgamal_encdec.c:339-393, with `DecryptInputCheck`, elgamal_encdec.c:269-294. -/
def decrypt (c : Ctx) (data : List UInt8) (len : Nat) : Option (Option (List UInt8)) :=
  match c.prv with
  | none => none
  | some k =>
    let bytes := toBytes (getBits c)
    if len < bytes then none
    else if data.length ≠ 2 * bytes then none
    else
      match bin2Bn (data.take bytes), bin2Bn (data.drop bytes) with
      | some c1, some c2 => if cipherOk c1 c2 k.p = true then prvDec k c1 c2 len else none
      | _, _ => none

end Verif.Crypto.Elgamal
