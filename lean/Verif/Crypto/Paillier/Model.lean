import Verif.Crypto.Rsa.KeyModel

/-! Model of the Paillier cryptosystem: /repo/crypto/paillier/src. In a result the outer `none` is an error that is returned and the inner
`none` an access outside of an array. Memory is taken to be available and the pointers are not NULL; the numbers of the random generator, the
primes included, are inputs. The numbers are those of the model of the number library. -/
namespace Verif.Crypto.Paillier
open Verif.Crypto.Bn Verif.Crypto.Rsa

/-- `CRYPT_PAILLIER_PubKey`, paillier_local.h:31-35. -/
structure Pub where
  n : Bn 32
  g : Bn 32
  n2 : Bn 32

/-- `CRYPT_PAILLIER_PrvKey`, paillier_local.h:37-42. -/
structure Prv where
  n : Bn 32
  lambda : Bn 32
  mu : Bn 32
  n2 : Bn 32

/-- `PAILLIER_Ctx`, paillier_local.h:50-56; of the parameters the length is kept, the primes are not used after the generation. -/
structure Ctx where
  bits : Option Nat
  pub : Option Pub
  prv : Option Prv

/-- `CRYPT_PAILLIER_GetBits`, paillier_keygen.c:315-330. -/
def getBits (c : Ctx) : Nat :=
  match c.bits with
  | some b => b
  | none =>
    match c.prv with
    | some k => binBits k.lambda.data
    | none =>
      match c.pub with
      | some k => binBits k.n.data
      | none => 0

/-- `Paillier_CalcPubKey`, paillier_keygen.c:382-399. -/
def calcPub (p q : Bn 32) : Option Pub :=
  let n := bnMul (p.data.length + q.data.length) p q
  match bnSqr n with
  | none => none
  | some n2 => some ⟨n, bnAddLimb n 1, n2⟩

/-- `Paillier_CalcLambda`, paillier_keygen.c:401-429. -/
def calcLambda (p q : Bn 32) : Option (Bn 32) := (bnLcm false (bnSubLimb bnZero p 1) (bnSubLimb bnZero q 1)).join

/-- `Paillier_CalcMu`, paillier_keygen.c:431-472. -/
def calcMu (lambda : Bn 32) (k : Pub) : Option (Bn 32) :=
  match (bnModExp k.g lambda k.n2 false).join with
  | none => none
  | some x =>
    match (bnDiv (bnSubLimb bnZero x 1) k.n).join with
    | none => none
    | some (l, _) => (bnModInv l k.n).join

/-- `CRYPT_PAILLIER_Gen`, paillier_keygen.c:474-558, with the primes that `Paillier_GenPQ` has found. -/
def gen (bits : Nat) (p q : Bn 32) : Option Ctx :=
  match calcPub p q with
  | none => none
  | some k =>
    match calcLambda p q with
    | none => none
    | some l =>
      match calcMu l k with
      | none => none
      | some m => some ⟨some bits, some k, some ⟨k.n, l, m, k.n2⟩⟩

/-- `CheckSquare`, paillier_keyop.c:43-69. -/
def squareOk (n2 n : Bn 32) : Bool :=
  match bnSqr n with
  | none => false
  | some t => decide (bnCmp t n2 = 0)

/-- `CRYPT_PAILLIER_SetPubKey`, paillier_keyop.c:152-197. -/
def setPub (c : Ctx) (n g n2 : List UInt8) : Option Ctx :=
  if n.length > 16384 / 8 then none
  else
    match bin2Bn n with
    | none => none
    | some n =>
      if binBits n.data > 16384 ∨ binBits n.data = 0 then none
      else
        match bin2Bn g, bin2Bn n2 with
        | some g, some n2 => if squareOk n2 n = true then some ⟨c.bits, some ⟨n, g, n2⟩, c.prv⟩ else none
        | _, _ => none

/-- `CRYPT_PAILLIER_SetPrvKey`, paillier_keyop.c:71-150. -/
def setPrv (c : Ctx) (n lambda mu n2 : List UInt8) : Option Ctx :=
  if lambda.length = 0 ∨ mu.length = 0 ∨ n.length = 0 ∨ n2.length = 0 then none
  else
    match bin2Bn n with
    | none => none
    | some n =>
      if binBits n.data > 16384 ∨ binBits n.data = 0 then none
      else
        match bin2Bn lambda, bin2Bn mu, bin2Bn n2 with
        | some l, some m, some n2 =>
          if squareOk n2 n = false then none
          else if m.data.length = 0 ∨ isOne m = true then none
          else some ⟨c.bits, c.pub, some ⟨n, l, m, n2⟩⟩
        | _, _, _ => none

/-- The choice of `r` in `CRYPT_PAILLIER_PubEnc`, paillier_encdec.c:73-94. `draws` are the results of `BN_RandRangeEx`, as many as are made. -/
def pick (n : Bn 32) : List (Option (Bn 32)) → Option (Bn 32)
  | [] => none
  | none :: _ => none
  | some r :: ds =>
    match (bnGcd r n).join with
    | none => none
    | some g => if isOne g = true then some r else pick n ds

/-- `CRYPT_PAILLIER_PubEnc`, paillier_encdec.c:27-127, into a buffer of `len` bytes. -/
def pubEnc (k : Pub) (draws : List (Option (Bn 32))) (data : List UInt8) (len : Nat) : Option (Option (List UInt8)) :=
  match bin2Bn data with
  | none => none
  | some m =>
    if bnCmp m k.n ≥ 0 ∨ m.neg = true then none
    else
      match pick k.n draws with
      | none => none
      | some r =>
        match (bnModExp k.g m k.n2 false).join, (bnModExp r k.n k.n2 false).join with
        | some gm, some rn =>
          match (bnModMul gm rn k.n2).join with
          | none => none
          | some c => bn2Bin c len
        | _, _ => none

/-- `CRYPT_PAILLIER_Encrypt`, paillier_encdec.c:218-230, with `EncryptInputCheck`, paillier_encdec.c:191-216. -/
def encrypt (c : Ctx) (draws : List (Option (Bn 32))) (data : List UInt8) (len : Nat) : Option (Option (List UInt8)) :=
  match c.pub with
  | none => none
  | some k =>
    if len < toBytes (getBits c) then none
    else if data.length > toBytes (getBits c) then none
    else pubEnc k draws data len

/-- `CRYPT_PAILLIER_CheckCiphertext`, paillier_encdec.c:259-286, and `CRYPT_PAILLIER_CheckHECiphertext`, paillier_encdec.c:355-381. -/
def cipherOk (c n2 : Bn 32) : Bool :=
  if bnCmp c n2 ≥ 0 ∨ c.neg = true then false
  else
    match (bnGcd c n2).join with
    | none => false
    | some g => isOne g

/-- `CRYPT_PAILLIER_PrvDec`, paillier_encdec.c:129-189. -/
def prvDec (k : Prv) (c : Bn 32) (len : Nat) : Option (Option (List UInt8)) :=
  match (bnModExp c k.lambda k.n2 false).join with
  | none => none
  | some m =>
    match (bnDiv (bnSubLimb bnZero m 1) k.n).join with
    | none => none
    | some (l, _) =>
      match (bnModMul l k.mu k.n).join with
      | none => none
      | some r => bn2Bin r len

/-- `CRYPT_PAILLIER_Decrypt`, paillier_encdec.c:288-325, with `DecryptInputCheck`, paillier_encdec.c:232-257. -/
def decrypt (c : Ctx) (data : List UInt8) (len : Nat) : Option (Option (List UInt8)) :=
  match c.prv with
  | none => none
  | some k =>
    if len < toBytes (getBits c) then none
    else if data.length ≠ toBytes (getBits c) * 2 then none
    else
      match bin2Bn data with
      | none => none
      | some x => if cipherOk x k.n2 = true then prvDec k x len else none

/-- `CRYPT_PAILLIER_Add`, paillier_encdec.c:383-520: the bytes written. The copy of line 507 into a buffer that is cleared puts zeros in front. -/
def add (c : Ctx) (c1 c2 : List UInt8) (len : Nat) : Option (Option (List UInt8)) :=
  match c.pub with
  | none => none
  | some k =>
    let bytes := toBytes (getBits c) * 2
    if c1.length ≠ bytes ∨ c2.length ≠ bytes then none
    else if len < bytes then none
    else
      match bin2Bn c1, bin2Bn c2 with
      | some x, some y =>
        if cipherOk x k.n2 = false then none
        else if cipherOk y k.n2 = false then none
        else
          match (bnModMul x y k.n2).join with
          | none => none
          | some r =>
            match bn2Bin r bytes with
            | none => none
            | some none => some none
            | some (some bs) => some (some (List.replicate (bytes - bs.length) 0 ++ bs))
      | _, _ => none

end Verif.Crypto.Paillier
