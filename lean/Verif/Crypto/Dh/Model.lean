import Verif.Crypto.Rsa.KeyModel

/-! Model of the finite-field Diffie-Hellman key exchange: /repo/crypto/dh/src/dh_core.c. `none` is an error unless the comment says more.
Memory is taken to be available; the numbers of the random generator are inputs. The numbers are those of the model of the number library. -/
namespace Verif.Crypto.Dh
open Verif.Crypto.Bn Verif.Crypto.Rsa

/-- `CRYPT_DH_Para`, dh_local.h; `safe` says that the identifier is one of those of `IsKnownSafePrimeGroup`, dh_core.c:414-434. -/
structure Para where
  p : Bn 32
  g : Bn 32
  q : Option (Bn 32)
  safe : Bool

/-- `NewParaCheck`, dh_core.c:76-100: the input is taken. `none` is a NULL pointer with the length zero. -/
def newParaOk (p g : List UInt8) (q : Option (List UInt8)) : Bool :=
  if p.length = 0 ∨ g.length = 0 then false
  else if p.length > 1024 then false
  else if g.length > p.length then false
  else
    match q with
    | none => true
    | some q => !decide (q.length > p.length)

/-- `CRYPT_DH_NewPara`, dh_core.c:102-141. -/
def newPara (p g : List UInt8) (q : Option (List UInt8)) : Option Para :=
  if newParaOk p g q = false then none
  else
    match bin2Bn p, bin2Bn g with
    | some bp, some bg =>
      match q with
      | none => some ⟨bp, bg, none, false⟩
      | some q =>
        match bin2Bn q with
        | none => none
        | some bq => some ⟨bp, bg, some bq, false⟩
    | _, _ => none

/-- `ParaQCheck`, dh_core.c:169-207: the order is taken. -/
def paraQOk (q r : Bn 32) : Bool :=
  if binBits q.data < 160 then false
  else if getBit q.data 0 = false then false
  else if bnCmp q r ≥ 0 then false
  else
    match (bnDiv r q).join with
    | none => false
    | some (_, rem) => decide (rem.data.length = 0)

/-- `ParaDataCheck`, dh_core.c:209-254. -/
def paraDataOk (a : Para) : Bool :=
  if binBits a.p.data < 768 ∨ binBits a.p.data > 8192 then false
  else if getBit a.p.data 0 = false then false
  else if a.g.data.length = 0 ∨ isOne a.g = true then false
  else
    let r := bnSubLimb bnZero a.p 1
    if bnCmp a.g r ≥ 0 then false
    else
      match a.q with
      | none => true
      | some q => paraQOk q r

/-- `CRYPT_DH_SetPara` and `DhSetPara`, dh_core.c:328-361: the parameters of the context. -/
def setPara (p g : List UInt8) (q : Option (List UInt8)) : Option Para :=
  match newPara p g q with
  | none => none
  | some a => if paraDataOk a = true then some a else none

/-- `PubCheck`, dh_core.c:399-412. -/
def pubOk (y minP : Bn 32) : Bool :=
  if y.data.length = 0 ∨ isOne y = true then false
  else if bnCmp y minP ≥ 0 then false
  else true

/-- `PubSubgroupCheck`, dh_core.c:436-451. -/
def subgroupOk (a : Para) (y : Bn 32) (M : Mont 32) : Bool :=
  match a.q with
  | none => true
  | some q =>
    if a.safe = true then true
    else
      match (bnMontExp M y q false).join with
      | none => false
      | some t => isOne t

/-- `GetXLimb`, dh_core.c:454-462. -/
def xLimb (a : Para) : Bn 32 :=
  match a.q with
  | some q => bnSubLimb bnZero q 1
  | none => bnSubLimb bnZero a.p 2

/-- The private key and the public key of a context. -/
structure Pair where
  x : Bn 32
  y : Bn 32

/-- The first part of `BN_SecBits`, bn_basic.c:439-447. -/
def levelOf (pubLen : Nat) : Nat :=
  if pubLen < 1024 then 0
  else if pubLen < 2048 then 80
  else if pubLen < 3072 then 112
  else if pubLen < 7680 then 128
  else if pubLen < 15360 then 192
  else 256

/-- `CRYPT_DH_GetSecBits` with an order, dh_core.c:1087-1097, and `BN_SecBits`, bn_basic.c:437-456. -/
def secBits (p q : Bn 32) : Nat :=
  let bits := levelOf (binBits p.data)
  let half := binBits q.data / 2
  let bits := if half ≥ bits then bits else half
  if bits < 80 then 0 else bits

/-- The loop of `DH_GenSp80056ATestCandidates`, dh_core.c:508-521. `draws` are the results of `BN_RandRangeEx`, as many as there are tries. -/
def candLoop (g m : Bn 32) (M : Mont 32) : List (Option (Bn 32)) → Option Pair
  | [] => none
  | none :: _ => none
  | some c :: ds =>
    let x := bnAddLimb c 1
    if bnCmp x m ≥ 0 then candLoop g m M ds
    else
      match (bnMontExp M g x true).join with
      | none => none
      | some y => some ⟨x, y⟩

/-- `DH_GenSp80056ATestCandidates`, dh_core.c:478-528. -/
def genCand (a : Para) (q : Bn 32) (draws : List (Option (Bn 32))) : Option Pair :=
  let s := secBits a.p q
  if binBits a.p.data = 0 ∨ binBits q.data = 0 ∨ s = 0 then none
  else
    match (montCreate a.p).join, bnLshift (bnLimb 1 : Bn 32) (2 * s) with
    | some M, some twoPowN => candLoop a.g (if bnCmp twoPowN q < 0 then twoPowN else q) M (draws.take 100)
    | _, _ => none

/-- The loop of `DH_GenSp80056ASafePrime`, dh_core.c:547-560. -/
def safeLoop (g minP : Bn 32) (M : Mont 32) : List (Option (Bn 32)) → Option Pair
  | [] => none
  | none :: _ => none
  | some c :: ds =>
    let x := bnAddLimb c 1
    match (bnMontExp M g x true).join with
    | none => none
    | some y => if y.data.length = 0 ∨ isOne y = true ∨ bnCmp y minP ≥ 0 then safeLoop g minP M ds else some ⟨x, y⟩

/-- `DH_GenSp80056ASafePrime`, dh_core.c:530-569. -/
def genSafe (a : Para) (draws : List (Option (Bn 32))) : Option Pair :=
  match (montCreate a.p).join with
  | none => none
  | some M => safeLoop a.g (bnSubLimb bnZero a.p 1) M (draws.take 100)

/-- `CRYPT_DH_Gen`, dh_core.c:571-582. The bound of the drawn numbers is `drawBound`. -/
def gen (a : Para) (draws : List (Option (Bn 32))) : Option Pair :=
  match a.q with
  | none => genSafe a draws
  | some q => if secBits a.p q ≠ 0 then genCand a q draws else genSafe a draws

/-- The bound handed to `BN_RandRangeEx`, dh_core.c:510 and 549: the numbers drawn are below it. -/
def drawBound (a : Para) : Option (Bn 32) :=
  match a.q with
  | none => some (xLimb a)
  | some q => if secBits a.p q ≠ 0 then bnLshift (bnLimb 1 : Bn 32) (2 * secBits a.p q) else some (xLimb a)

/-- The first loop of `CheckAndFillZero`, dh_core.c:613-615, with `i` bytes to go. `none`: an access outside of the buffer. -/
def moveUp (fill : Nat) : Nat → List UInt8 → Option (List UInt8)
  | 0, buf => some buf
  | i + 1, buf =>
    match buf[i]? with
    | none => none
    | some b => if i + fill < buf.length then moveUp fill i (buf.set (i + fill) b) else none

/-- The second loop of `CheckAndFillZero`, dh_core.c:616-618: `n` bytes from `i` on. `none`: an access outside of the buffer. -/
def zeroUp : Nat → Nat → List UInt8 → Option (List UInt8)
  | _, 0, buf => some buf
  | i, n + 1, buf => if i < buf.length then zeroUp (i + 1) n (buf.set i 0) else none

/-- `CheckAndFillZero`, dh_core.c:606-620: the buffer and the length afterwards. `none`: an access outside of the buffer. The length is not
above `bytes`. -/
def fillZero (buf : List UInt8) (len bytes : Nat) : Option (List UInt8 × Nat) :=
  if len = bytes then some (buf, len)
  else
    match moveUp (bytes - len) len buf with
    | none => none
    | some buf =>
      match zeroUp 0 (bytes - len) buf with
      | none => none
      | some buf => some (buf, bytes)

/-- `CRYPT_DH_ComputeShareKey`, dh_core.c:622-671, with the checks of dh_core.c:584-604; the pointers are not NULL and the keys are set. `buf`
is the buffer of the caller, whose length is the one handed over. The result is the buffer and the length; `none` is an access outside of an
array and `some none` an error. -/
def share (a : Para) (x y : Bn 32) (noPad : Bool) (buf : List UInt8) : Option (Option (List UInt8 × Nat)) :=
  if bnBytes a.p > buf.length then some none
  else
    match (montCreate a.p).join with
    | none => some none
    | some M =>
      if pubOk y (bnSubLimb bnZero a.p 1) = false then some none
      else if subgroupOk a y M = false then some none
      else
        match (bnMontExp M y x true).join with
        | none => some none
        | some z =>
          match bn2Bin z buf.length with
          | none => some none
          | some none => none
          | some (some bs) =>
            let buf' := bs ++ buf.drop bs.length
            if noPad = true then some (some (buf', bs.length))
            else
              match fillZero buf' bs.length (toBytes (binBits a.p.data)) with
              | none => none
              | some r => some (some r)

/-- The greatest length of a private key in `PrvLenCheck`, dh_core.c:673-687. -/
def prvBytes (a : Para) : Nat :=
  match a.q with
  | some q => bnBytes q
  | none => bnBytes a.p

/-- `PrvLenCheck`, dh_core.c:673-687, and `CRYPT_DH_SetPrvKey`, dh_core.c:689-734. -/
def setPrv (a : Para) (prv : List UInt8) : Option (Bn 32) :=
  if prv.length = 0 then none
  else if prvBytes a < prv.length then none
  else
    match bin2Bn prv with
    | none => none
    | some x =>
      if bnCmp x (xLimb a) > 0 then none
      else if x.data.length = 0 then none
      else some x

/-- `CRYPT_DH_SetPubKey`, dh_core.c:739-766. -/
def setPub (pub : List UInt8) : Option (Bn 32) :=
  if pub.length = 0 then none
  else if pub.length > 1024 then none
  else bin2Bn pub

/-- `CRYPT_DH_GetPubKey`, dh_core.c:789-817, into a buffer of `len` bytes: the bytes written. `none`: an access outside of an array. -/
def getPub (a : Para) (y : Bn 32) (len : Nat) : Option (Option (List UInt8)) :=
  if len = 0 then some none
  else if bnBytes a.p > len then some none
  else
    match bn2BinFix y (bnBytes a.p) with
    | none => some none
    | some none => none
    | some (some bs) => some (some bs)

end Verif.Crypto.Dh
