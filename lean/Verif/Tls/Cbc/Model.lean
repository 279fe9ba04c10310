import Verif.Bsl.Bytes.Model
/-!
Model of /repo/tls/record/src/rec_crypto_cbc.c and of the MAC helpers in /repo/tls/record/src/rec_conn.c.

Parameters: the hash function `H`, and the CBC cipher under the current key (`enc iv pt`, `dec iv ct`).
Simplifications: allocation and crypto-provider failures are not modelled; `SAL_CRYPT_Hmac*` is taken to be
HMAC (RFC 2104) over `H`; the record IV written by the sender is a parameter (`RecConnCopyIV` draws it at
random); alerts are error values; `none`/`Err.oob` marks a read outside the buffer.
-/
namespace Verif.Tls.Cbc
open Verif.Common Verif.Bsl.Bytes

inductive Err where
  | badRecordMac | encrypt | memcpyFail | oob
deriving DecidableEq, Repr

/-- The fields of `RecConnSuitInfo` used here, /repo/tls/record/src/rec_conn.h:45-70. -/
structure Suite where
  H : List Byte → List Byte
  blen : Nat
  macKey : List Byte
  macLen : Nat
  blockLength : Nat
  fixedIvLength : Nat
  recordIvLength : Nat

/-- CBC cipher under the current key. -/
structure Cipher where
  enc : List Byte → List Byte → List Byte
  dec : List Byte → List Byte → Option (List Byte)

/-- Header fields covered by the MAC. -/
structure Hdr where
  seq : List Byte
  type : Byte
  version : BitVec 16

/-- The 13 MAC header bytes, /repo/tls/record/src/rec_conn.c:146-155 and rec_crypto_cbc.c:199-206. -/
def macHeader (h : Hdr) (len : Nat) : List Byte :=
  h.seq.take 8 ++ [h.type] ++ uint16ToByte h.version ++ uint16ToByte (BitVec.ofNat 16 len)

/-- `RecConnGetCbcPaddingLen`, /repo/tls/record/src/rec_crypto_cbc.c:32-42. -/
def getCbcPaddingLen (blockLen plaintextLen : Nat) : Nat :=
  if blockLen = 0 then 0
  else
    let remainder := (plaintextLen + 1) % blockLen
    if remainder = 0 then 0 else blockLen - remainder

/-- `CbcCalCiphertextLen`, /repo/tls/record/src/rec_crypto_cbc.c:44-57. -/
def calCiphertextLen (s : Suite) (etm : Bool) (plaintextLen : Nat) : Nat :=
  let l := plaintextLen + s.recordIvLength
  if etm then l + (getCbcPaddingLen s.blockLength l + 1) + s.macLen
  else
    let l := l + s.macLen
    l + (getCbcPaddingLen s.blockLength l + 1)

/-- RFC 2104 HMAC over `H`; used for `SAL_CRYPT_HmacInit/Update/Final` (contract of the crypto layer). -/
def hmac (s : Suite) (msg : List Byte) : List Byte :=
  let k0 := s.macKey ++ List.replicate (s.blen - s.macKey.length) 0#8
  s.H (k0.map (· ^^^ 0x5c#8) ++ s.H (k0.map (· ^^^ 0x36#8) ++ msg))

/-- The 255-round padding loop, /repo/tls/record/src/rec_crypto_cbc.c:127-130 and 274-277. `n` is the
plaintext length, `is` the remaining values of `i`. -/
def padLoop (plain : List Byte) (n pad : BitVec 32) : List Nat → BitVec 32 → Option (BitVec 32)
  | [], good => some good
  | i :: is, good =>
    let mask := good &&& ctLe (BitVec.ofNat 32 i) pad
    match plain[(n - 1#32 - (BitVec.ofNat 32 i &&& mask)).toNat]? with
    | none => none
    | some b => padLoop plain n pad is (good &&& ctEqual (b.setWidth 32) pad)

/-- `UintPtrConstTimeSelect`, /repo/tls/record/src/rec_crypto_cbc.c:158-162: bit 31 of the mask selects the
first or second object. -/
def ptrSelect {α : Type} (mask : BitVec 32) (a b : α) : α :=
  if (mask >>> 31) &&& 1#32 = 1#32 then a else b

/-- The byte loop of `ConstTimeHmac`, /repo/tls/record/src/rec_crypto_cbc.c:218-223: `i` current index,
`count` remaining rounds; a hash context is the list of bytes absorbed so far. -/
def absorb (data : List Byte) (plainLen : BitVec 32) : (i count : Nat) → (main ob : List Byte) →
    Option (List Byte)
  | _, 0, main, _ => some main
  | i, count + 1, main, ob =>
    match data[i]? with
    | none => none
    | some b =>
      let usePlain := ctLt (BitVec.ofNat 32 i) plainLen
      let main' := ptrSelect usePlain (main ++ [b]) main
      let ob' := ptrSelect usePlain ob (ob ++ [b])
      absorb data plainLen (i + 1) count main' ob'

/-- `ConstTimeHmac`, /repo/tls/record/src/rec_crypto_cbc.c:169-236. `key` is a zeroed array of
`HMAC_MAX_BLEN = 144` bytes holding the MAC key. -/
def constTimeHmac (s : Suite) (good : BitVec 32) (h : Hdr) (data : List Byte) : Option (List Byte) :=
  let n := BitVec.ofNat 32 data.length
  match data[(n - 1#32).toNat]? with
  | none => none
  | some padByte =>
    let padLen := ctSelect good (padByte.setWidth 32) 0#32
    let plainLen := n - (BitVec.ofNat 32 s.macLen + padLen + 1#32)
    let plainLen := ctSelect good plainLen 0#32
    let key := s.macKey ++ List.replicate (144 - s.macKey.length) 0#8
    let ipad := (key.take s.blen).map (· ^^^ 0x36#8)
    let opad := (key.take s.blen).map (· ^^^ 0x5c#8)
    let header := macHeader h plainLen.toNat
    let maxLen := n - (BitVec.ofNat 32 s.macLen + 1#32)
    let maxLen := ctSelect good maxLen n
    let flag := ctGt maxLen 256#32
    let minLen := ctSelect flag (maxLen - 256#32) 0#32
    if data.length < minLen.toNat then none
    else
      match absorb data plainLen minLen.toNat (maxLen.toNat - minLen.toNat)
          (ipad ++ header ++ data.take minLen.toNat) (ipad ++ header ++ data.take minLen.toNat) with
      | none => none
      | some main => some (s.H (opad ++ s.H main))

/-- `RecConnCbcDecMtECheckMacTls`, /repo/tls/record/src/rec_crypto_cbc.c:244-290: the returned word
(`0` = success). -/
def decMtECheckMac (s : Suite) (h : Hdr) (plain : List Byte) : Option (BitVec 32) :=
  let n := BitVec.ofNat 32 plain.length
  match plain[(n - 1#32).toNat]? with
  | none => none
  | some padByte =>
    let pad : BitVec 32 := padByte.setWidth 32
    let good := ctGe n (BitVec.ofNat 32 s.macLen + pad + 1#32)
    match padLoop plain n pad (List.range' 1 255) good with
    | none => none
    | some good =>
      match constTimeHmac s good h plain with
      | none => none
      | some mac =>
        let retLen := ctSelect good pad 0#32
        let temp := n - (BitVec.ofNat 32 s.macLen + retLen + 1#32)
        -- ConstTimeSelectMemcmp(good, &plain[temp], mac, macLen): compares `macLen` (= digest length) bytes
        let a := ptrSelect good ((plain.drop temp.toNat).take mac.length) mac
        if a.length < mac.length then none
        else some (~~~ (good &&& ctMemcmp a mac))

/-- `RecConnDecrypt` + `RecConnCbcDecryptByMacThenEncrypt`, /repo/tls/record/src/rec_conn.c:243-256 and
rec_crypto_cbc.c:292-332. -/
def decryptMtE (c : Cipher) (s : Suite) (h : Hdr) (text : List Byte) : Except Err (List Byte) :=
  if text.length < calCiphertextLen s false 0 then .error .badRecordMac
  else if s.blockLength = 0 ∨ text.length % s.blockLength ≠ 0 then .error .badRecordMac
  else match c.dec (text.take s.fixedIvLength) (text.drop s.fixedIvLength) with
    | none => .error .badRecordMac
    | some plain =>
      match decMtECheckMac s h plain with
      | none => .error .oob
      | some ret =>
        if ret ≠ 0#32 then .error .badRecordMac
        else match plain[plain.length - 1]? with
          | none => .error .oob
          | some pad => .ok (plain.take (plain.length - (s.macLen + pad.toNat + 1)))

/-- `RecConnCbcDecCheckPaddingEtM`, /repo/tls/record/src/rec_crypto_cbc.c:106-139: `some true` = padding fine. -/
def checkPaddingEtM (plain : List Byte) : Option Bool :=
  let n := BitVec.ofNat 32 plain.length
  match plain[(n - 1#32).toNat]? with
  | none => none
  | some padByte =>
    if plain.length < padByte.toNat + 1 then some false
    else
      let pad : BitVec 32 := padByte.setWidth 32
      match padLoop plain n pad (List.range' 1 255) (ctGe n (pad + 1#32)) with
      | none => none
      | some good => some (good ≠ 0#32)

/-- `RecConnCheckMac`, /repo/tls/record/src/rec_conn.c:208-235: `true` = MAC fine. -/
def checkMac (s : Suite) (h : Hdr) (text : List Byte) : Bool :=
  let len := text.length - s.macLen
  let mac := hmac s (macHeader h len ++ text.take len)
  if mac.length ≠ s.macLen then false
  else ctMemcmp (text.drop len) mac ≠ 0#32

/-- `RecConnDecrypt` + `RecConnCbcDecryptByEncryptThenMac`, /repo/tls/record/src/rec_crypto_cbc.c:335-390. -/
def decryptEtM (c : Cipher) (s : Suite) (h : Hdr) (text : List Byte) : Except Err (List Byte) :=
  if text.length < calCiphertextLen s true 0 then .error .badRecordMac
  else if checkMac s h text = false then .error .badRecordMac
  else if s.blockLength = 0 ∨ (text.length - s.macLen) % s.blockLength ≠ 0 then .error .badRecordMac
  else match c.dec (text.take s.fixedIvLength)
      ((text.drop s.fixedIvLength).take (text.length - s.fixedIvLength - s.macLen)) with
    | none => .error .badRecordMac
    | some plain =>
      match plain[plain.length - 1]? with
      | none => .error .oob
      | some pad =>
        match checkPaddingEtM plain with
        | none => .error .oob
        | some false => .error .badRecordMac
        | some true => .ok (plain.take (plain.length - pad.toNat - 1))

/-- `RecConnCbcMacThenEncrypt` with `GenerateCbcPlainTextAfterMac`,
/repo/tls/record/src/rec_crypto_cbc.c:480-520, 568-613; `cipherTextLen` as computed by the callers. -/
def encryptMtE (c : Cipher) (s : Suite) (h : Hdr) (iv text : List Byte) : Except Err (List Byte) :=
  let cipherTextLen := calCiphertextLen s false text.length
  if text.length > cipherTextLen then .error .memcpyFail
  else
    let t := text ++ hmac s (macHeader h text.length ++ text)
    let paddingLen := getCbcPaddingLen s.blockLength t.length
    if paddingLen + 1 > cipherTextLen - t.length then .error .encrypt
    else
      let plainText := t ++ List.replicate (paddingLen + 1) (BitVec.ofNat 8 paddingLen)
      let e := c.enc iv plainText
      if e.length ≠ cipherTextLen - s.fixedIvLength then .error .encrypt
      else .ok (iv ++ e)

/-- `RecConnCbcEncryptThenMac` with `GenerateCbcPlainTextBeforeMac`,
/repo/tls/record/src/rec_crypto_cbc.c:434-460, 522-566. -/
def encryptEtM (c : Cipher) (s : Suite) (h : Hdr) (iv text : List Byte) : Except Err (List Byte) :=
  let cipherTextLen := calCiphertextLen s true text.length
  if text.length > cipherTextLen then .error .memcpyFail
  else
    let paddingLen := getCbcPaddingLen s.blockLength text.length
    if paddingLen + 1 > cipherTextLen - text.length then .error .encrypt
    else
      let plainText := text ++ List.replicate (paddingLen + 1) (BitVec.ofNat 8 paddingLen)
      let e := c.enc iv plainText
      if e.length ≠ cipherTextLen - s.fixedIvLength - s.macLen then .error .encrypt
      else .ok (iv ++ e ++ hmac s (macHeader h (cipherTextLen - s.macLen) ++ (iv ++ e)))

end Verif.Tls.Cbc
