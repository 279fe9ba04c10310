import Verif.Crypto.Bn.Api
/-! Model of the conversions of big numbers from and to bytes, hexadecimal and decimal text
(/repo/crypto/bn/src/bn_utils.c), with 64-bit words. A number that does not fit the limit of 2^29 bits is an error (`none`), the object
written to is not one with fixed memory, and allocations succeed. -/
namespace Verif.Crypto.Bn

/-- `BITS_TO_BN_UNIT(BN_MAX_BITS)`, crypt_bn.h:49-53: the words that `BnExtend` (bn_basic.c:407-425) grants. -/
def maxWords : Nat := 8388608

/-- The loop over leading zeros of `BN_Bin2Bn`, bn_utils.c:33-38. -/
def skipZeros : List UInt8 → List UInt8
  | [] => []
  | b :: bs => if b ≠ 0 then b :: bs else skipZeros bs

/-- The loop over the bytes of a word, bn_utils.c:56-58. -/
def limbOf (bs : List UInt8) : W 32 := bs.foldl (fun num b => (num <<< 8) ||| BitVec.ofNat (32 + 32) b.toNat) 0

/-- The loop over the words, bn_utils.c:52-61: `left` bytes of `base` remain, and the last `m` of them make the next word. -/
def binWords (base : List UInt8) : Nat → Nat → List (W 32)
  | 0, _ => []
  | _ + 1, 0 => []
  | fuel + 1, left + 1 =>
    let m := if left + 1 ≥ 8 then 8 else left + 1
    limbOf ((base.drop (left + 1 - m)).take m) :: binWords base fuel (left + 1 - m)

/-- `BN_Bin2Bn`, bn_utils.c:26-64. -/
def bin2Bn (bin : List UInt8) : Option (Bn 32) :=
  let base := skipZeros bin
  let left := base.length
  if left = 0 then some bnZero
  else
    let needRooms := if left % 8 = 0 then left / 8 else left / 8 + 1
    if needRooms > maxWords then none
    else some ⟨false, trim (binWords base left left)⟩

/-- `BN_Bytes`, bn_basic.c:402-405: the bits in bytes, rounded up. -/
def bnBytes (a : Bn 32) : Nat := (binBits a.data + 7) / 8

/-- One byte of a word: `(uint8_t)(num >> (8 * i))`. -/
def limbByte (w : W 32) (i : Nat) : UInt8 := UInt8.ofNat ((w >>> (8 * i)).toNat % 256)

/-- The first loop of `BN_Bn2BinFixZero`, bn_utils.c:130-139: the `left` low bytes of a word, the highest first. With eight bytes this is
`Limb2Bin`, bn_utils.c:67-74. -/
def topBytes (w : W 32) : Nat → List UInt8
  | 0 => []
  | left + 1 => limbByte w left :: topBytes w left

/-- The loop over the whole words, bn_utils.c:140-147, from the word below position `index`. A read outside the number is `none`. -/
def wordsDown (data : List (W 32)) : Nat → Nat → Option (List UInt8)
  | _, 0 => some []
  | 0, _ + 1 => none
  | index + 1, num + 1 =>
    match data[index]? with
    | none => none
    | some w =>
      match wordsDown data index num with
      | none => none
      | some r => some (topBytes w 8 ++ r)

/-- The bytes of a number that is not zero, bn_utils.c:129-147. -/
def bytesOf (data : List (W 32)) (bytes : Nat) : Option (List UInt8) :=
  let left := bytes % 8
  match data[data.length - 1]? with
  | none => none
  | some w =>
    match wordsDown data (if left ≠ 0 then data.length - 1 else data.length) (bytes / 8) with
    | none => none
    | some r => some (topBytes w left ++ r)

/-- `BN_Bn2BinFixZero`, bn_utils.c:111-150. The first `none` is the error code for a short buffer, the second a read outside the number. -/
def bn2BinFix (a : Bn 32) (binLen : Nat) : Option (Option (List UInt8)) :=
  let bytes := bnBytes a
  if binLen < bytes then none
  else
    let fix := List.replicate (binLen - bytes) 0
    if bytes = 0 then some (some fix)
    else
      match bytesOf a.data bytes with
      | none => some none
      | some r => some (some (fix ++ r))

/-- `BN_Bn2Bin`, bn_utils.c:76-103. -/
def bn2Bin (a : Bn 32) (binLen : Nat) : Option (Option (List UInt8)) :=
  let bytes := if bnBytes a = 0 then 1 else bnBytes a
  if binLen < bytes then none else bn2BinFix a bytes

/-! ### Text -/

/-- `IsXdigit`, bn_utils.c:270-284. -/
def isXdigit (isHex : Bool) (c : Char) : Bool :=
  if '0' ≤ c ∧ c ≤ '9' then true
  else if isHex = true then
    if 'A' ≤ c ∧ c ≤ 'F' then true
    else if 'a' ≤ c ∧ c ≤ 'f' then true
    else false
  else false

/-- `StrToHex`, bn_utils.c:286-298. -/
def strToHex (c : Char) : Nat :=
  if '0' ≤ c ∧ c ≤ '9' then c.toNat - '0'.toNat
  else if 'A' ≤ c ∧ c ≤ 'F' then c.toNat - 'A'.toNat + 10
  else if 'a' ≤ c ∧ c ≤ 'f' then c.toNat - 'a'.toNat + 10
  else 0

/-- `CheckInputStr`, bn_utils.c:300-329: the sign and the digits. -/
def checkInput (isHex : Bool) (str : List Char) : Option (Bool × List Char) :=
  match str with
  | [] => none
  | c :: cs =>
    let (neg, s) := if c = '-' then (true, cs) else (false, c :: cs)
    if s.length = 0 ∨ s.length > 134217728 then none
    else if s.all (isXdigit isHex) = true then some (neg, s)
    else none

/-- The loop over the digits of a word, bn_utils.c:381-387. -/
def limbOfHex (cs : List Char) : W 32 := cs.foldl (fun num c => (num <<< 4) ||| BitVec.ofNat (32 + 32) (strToHex c)) 0

/-- The loop over the words, bn_utils.c:380-390. -/
def hexWords (s : List Char) : Nat → Nat → List (W 32)
  | 0, _ => []
  | _ + 1, 0 => []
  | fuel + 1, len + 1 =>
    let m := if 16 ≤ len + 1 then 16 else len + 1
    limbOfHex ((s.drop (len + 1 - m)).take m) :: hexWords s fuel (len + 1 - 16)

/-- `if (!BN_IsZero(*r)) (*r)->sign = negtive`, bn_utils.c:392-394 and 508-510; the sign was cleared before. -/
def setSign (neg : Bool) (data : List (W 32)) : Bn 32 := ⟨if data.length ≠ 0 then neg else false, data⟩

/-- `BN_Hex2Bn`, bn_utils.c:350-396. -/
def hex2Bn (str : List Char) : Option (Bn 32) :=
  match checkInput true str with
  | none => none
  | some (neg, s) => some (setSign neg (trim (hexWords s s.length s.length)))

/-- `HEX_MAP`, bn_utils.c:265. -/
def hexMap (n : Nat) : Char := if n < 10 then Char.ofNat (48 + n) else Char.ofNat (55 + n)

/-- The loop over the bytes of a word in `BN_Bn2Hex`, bn_utils.c:423-432: `left` bytes remain. -/
def hexBytes (w : W 32) : Nat → Bool → List Char × Bool
  | 0, lead => ([], lead)
  | left + 1, lead =>
    let chars := (limbByte w left).toNat
    if lead = true ∧ chars = 0 then hexBytes w left lead
    else
      let (r, l) := hexBytes w left false
      (hexMap (chars / 16) :: hexMap (chars % 16) :: r, l)

/-- The loop over the words, bn_utils.c:422-433, from the highest. -/
def hexLimbs (data : List (W 32)) : Nat → Bool → Option (List Char)
  | 0, _ => some []
  | i + 1, lead =>
    match data[i]? with
    | none => none
    | some w =>
      let (r, l) := hexBytes w 8 lead
      match hexLimbs data i l with
      | none => none
      | some rs => some (r ++ rs)

/-- `BN_Bn2Hex`, bn_utils.c:398-436. -/
def bn2Hex (a : Bn 32) : Option (List Char) :=
  if a.data.length = 0 then some ['0']
  else
    match hexLimbs a.data a.data.length true with
    | none => none
    | some r => some (if a.neg = true then '-' :: r else r)

/-- `BN_DEC_VAL`, crypt_bn.h:36. -/
def decVal : W 32 := 10000000000000000000

/-- The digits of one round of `CalBnData`, bn_utils.c:452-457. -/
def limbOfDec (cs : List Char) : W 32 :=
  cs.foldl (fun v c => v * 10 + BitVec.ofNat (32 + 32) (c.toNat - '0'.toNat)) 0

/-- The loop of `CalBnData`, bn_utils.c:438-476: `take` digits in the first round, 19 in the others. -/
def decLoop : Nat → Nat → List Char → Bn 32 → Bn 32
  | 0, _, _, r => r
  | fuel + 1, take, p, r =>
    if p.length = 0 then r
    else decLoop fuel 19 (p.drop take) (bnAddLimb (bnMulLimb r decVal) (limbOfDec (p.take take)))

/-- `BN_Dec2Bn`, bn_utils.c:478-512. -/
def dec2Bn (str : List Char) : Option (Bn 32) :=
  match checkInput false str with
  | none => none
  | some (neg, s) =>
    let first := if s.length % 19 = 0 then 19 else s.length % 19
    some (setSign neg (decLoop s.length first s bnZero).data)

/-- `CalDecStr`, bn_utils.c:514-542: the remainders, at most `unitNum` of them. -/
def calDec : Nat → Bn 32 → Option (List (W 32))
  | 0, a => if a.data.length = 0 then some [] else none
  | unitNum + 1, a =>
    if a.data.length = 0 then some []
    else
      match bnDivLimb a decVal with
      | some (some (q, rem)) =>
        match calDec unitNum q with
        | none => none
        | some r => some (rem :: r)
      | _ => none

/-- The do loop of `NumToStr`, bn_utils.c:549-557: the lowest digit first; `none` if there is no space for a digit. -/
def numDigits : Nat → Nat → W 32 → Option (List Char)
  | 0, _, _ => none
  | _ + 1, 0, _ => none
  | fuel + 1, restLen + 1, num =>
    let d := Char.ofNat ((num % 10).toNat + 48)
    if num / 10 ≠ 0 then
      match numDigits fuel restLen (num / 10) with
      | none => none
      | some r => some (d :: r)
    else some [d]

/-- `NumToStr`, bn_utils.c:544-578. -/
def numToStr (restLen : Nat) (v : W 32) (pad : Bool) : Option (List Char) :=
  match numDigits 64 restLen v with
  | none => none
  | some l =>
    if pad = true then
      if restLen < 19 then none else some (l ++ List.replicate (19 - l.length) '0').reverse
    else some l.reverse

/-- The loop of `FmtDecOutput`, bn_utils.c:591-597, over the remainders below the highest. -/
def fmtLoop : Nat → List (W 32) → Option (List Char)
  | _, [] => some []
  | restLen, v :: vs =>
    match numToStr restLen v true with
    | none => none
    | some s =>
      match fmtLoop (restLen - s.length) vs with
      | none => none
      | some r => some (s ++ r)

/-- `FmtDecOutput`, bn_utils.c:580-600. `units` has the lowest remainder first. -/
def fmtDec (outLen : Nat) (units : List (W 32)) : Option (List Char) :=
  match units.reverse with
  | [] => none
  | v :: vs =>
    match numToStr (outLen - 1) v false with
    | none => none
    | some s =>
      match fmtLoop (outLen - 1 - s.length) vs with
      | none => none
      | some r => some (s ++ r)

/-- `numLen`, bn_utils.c:619. -/
def decEstimate (bits : Nat) : Nat := bits * 3 / 10 + bits * 3 / 1000 + 1

/-- `BN_Bn2Dec`, bn_utils.c:602-660. -/
def bn2Dec (a : Bn 32) : Option (List Char) :=
  let numLen := decEstimate (binBits a.data)
  let outLen := numLen + 3
  if a.data.length = 0 then some ['0']
  else
    match calDec (numLen / 19 + 1) a with
    | none => none
    | some units =>
      match fmtDec (if a.neg = true then outLen - 1 else outLen) units with
      | none => none
      | some r => some (if a.neg = true then '-' :: r else r)

end Verif.Crypto.Bn
