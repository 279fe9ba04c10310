import Verif.Bsl.Asn1.LenProps
import Verif.Bsl.Time.Model
/-! Model of the primitive-value code of /repo/bsl/asn1/src/bsl_asn1.c: BOOLEAN, BIT STRING, UTCTime and
GeneralizedTime, BMPString, and of the list decoder. Buffers are lists of bytes as in `Asn1/Model.lean`. -/
namespace Verif.Bsl.Asn1
open Verif.Common Verif.Bsl.Time

/-- Outcomes of the functions below, /repo/include/bsl/bsl_errno.h; `oob` is an access outside the buffer. -/
inductive PErr
  | decodeBool | decodeBitString | decodeUtcTime | decodeGeneralTime | decodeTime | checkTime
  | encodeUtcTime | encodeGeneralizedTime | nullInput | invalidArg | oob
deriving DecidableEq, Repr

/-- `ParseBool`, /repo/bsl/asn1/src/bsl_asn1.c:168-175. -/
def parseBool (val : List Byte) : Except PErr Bool :=
  match val with
  | [b] => .ok (b != 0)
  | _ => .error .decodeBool

/-- `EncodeBool`, /repo/bsl/asn1/src/bsl_asn1.c:1018-1022. -/
def encodeBool (data : Bool) : List Byte := [if data then 0xFF else 0x00]

/-- `ParseBitString`, /repo/bsl/asn1/src/bsl_asn1.c:194-203: number of unused bits and the bytes. -/
def parseBitString (val : List Byte) : Except PErr (Byte × List Byte) :=
  match val with
  | [] => .error .decodeBitString
  | b :: rest => if b.toNat > 7 then .error .decodeBitString else .ok (b, rest)

/-- The statement pair :1032-1033 of `EncodeBitString` on the last byte. -/
def clearUnused (unused : Byte) (b : Byte) : Byte := (b >>> unused.toNat) <<< unused.toNat

/-- `EncodeBitString`, /repo/bsl/asn1/src/bsl_asn1.c:1024-1035, with `encodeLen = data->len + 1` from `GetContentLen`
:869-875. The last byte of what was written is rewritten. -/
def encodeBitString (unused : Byte) (buff : List Byte) : List Byte :=
  let written := unused :: buff
  match written.reverse with
  | [] => []
  | last :: before => (clearUnused unused last :: before).reverse

/-- `DecodeAsciiNum`, /repo/bsl/asn1/src/bsl_asn1.c:206-216: value and the advanced pointer. The bytes have been
checked to be digits, so `data[i] - '0'` is not negative; four digits fit `uint32_t`. -/
def decodeAsciiNum : Nat → Nat → List Byte → Option (Nat × List Byte)
  | 0, acc, l => some (acc, l)
  | n + 1, acc, b :: l => decodeAsciiNum n (acc * 10 + (b.toNat - 48)) l
  | _ + 1, _, [] => none

/-- `CheckTime`, /repo/bsl/asn1/src/bsl_asn1.c:218-226. -/
def checkTime : Nat → List Byte → Except PErr Unit
  | 0, _ => .ok ()
  | n + 1, b :: l => if b.toNat > 57 ∨ b.toNat < 48 then .error .decodeTime else checkTime n l
  | _ + 1, [] => .error .oob

/-- The field assignments :251-265 of `ParseTime`; the fraction fields keep their old value. The casts to `uint16_t`
and `uint8_t` do not change four- and two-digit numbers. -/
def timeFields (utc : Bool) (val : List Byte) (old : Date) : Option Date := do
  let (year, temp) ← decodeAsciiNum (if utc then 2 else 4) 0 val
  let year := if utc then (if year < 50 then year + 2000 else year + 1900) else year
  let (month, temp) ← decodeAsciiNum 2 0 temp
  let (day, temp) ← decodeAsciiNum 2 0 temp
  let (hour, temp) ← decodeAsciiNum 2 0 temp
  let (minute, temp) ← decodeAsciiNum 2 0 temp
  let (second, _) ← decodeAsciiNum 2 0 temp
  some ⟨year, month, day, hour, minute, second, old.milli, old.micro⟩

/-- `ParseTime`, /repo/bsl/asn1/src/bsl_asn1.c:229-267; `utc` says whether the tag is UTCTime (otherwise
GeneralizedTime). `old` is the caller's structure before the call. -/
def parseTime (utc : Bool) (val : List Byte) (old : Date) : Except PErr Date :=
  let len := val.length
  if utc ∧ (len ≠ 12 ∧ len ≠ 13) then .error .decodeUtcTime
  else if !utc ∧ (len ≠ 14 ∧ len ≠ 15) then .error .decodeGeneralTime
  else
    let digitLen := if utc then 12 else 14
    if len = digitLen + 1 ∧ val[len - 1]? ≠ some 0x5A then .error .decodeTime
    else
      match checkTime digitLen val with
      | .error e => .error e
      | .ok () =>
        match timeFields utc val old with
        | none => .error .oob
        | some t => if dateTimeCheck t then .ok t else .error .checkTime

/-- `EncodeNum2Ascii`, /repo/bsl/asn1/src/bsl_asn1.c:1037-1047: bytes written from the last to the first. -/
def encodeNum2Ascii : Nat → Nat → List Byte
  | 0, _ => []
  | k + 1, n => encodeNum2Ascii k (n / 10) ++ [BitVec.ofNat 8 (n % 10 + 48)]

/-- `EncodeTime`, /repo/bsl/asn1/src/bsl_asn1.c:1049-1063. -/
def encodeTime (utc : Bool) (t : Date) : List Byte :=
  (if utc then encodeNum2Ascii 2 (t.year % 100) else encodeNum2Ascii 4 t.year) ++
    encodeNum2Ascii 2 t.month ++ encodeNum2Ascii 2 t.day ++ encodeNum2Ascii 2 t.hour ++
    encodeNum2Ascii 2 t.minute ++ encodeNum2Ascii 2 t.second ++ [0x5A]

/-- `CheckBslTime`, /repo/bsl/asn1/src/bsl_asn1.c:1193-1210 (the structure-size check is met by construction). -/
def checkBslTime (utc : Bool) (t : Date) : Except PErr Unit :=
  if dateTimeCheck t = false then .error .checkTime
  else if utc ∧ (t.year < 2000 ∨ t.year > 2049) then .error .encodeUtcTime
  else if !utc ∧ t.year > 9999 then .error .encodeGeneralizedTime
  else .ok ()

/-- Contents octets of a time value through the encoder: the check of `CheckAsnArr` and `EncodeTime`. -/
def encodeTimeContent (utc : Bool) (t : Date) : Except PErr (List Byte) :=
  match checkBslTime utc t with
  | .error e => .error e
  | .ok () => .ok (encodeTime utc t)

/-- The loop of `ParseBMPString`, /repo/bsl/asn1/src/bsl_asn1.c:371-373: byte `2 i + 1` for each `i`. -/
def bmpLoop : List Byte → List Byte
  | _ :: b :: l => b :: bmpLoop l
  | _ => []

/-- `ParseBMPString`, /repo/bsl/asn1/src/bsl_asn1.c:359-377; allocation succeeds. -/
def parseBmp (bmp : List Byte) : Except PErr (List Byte) :=
  if bmp.length = 0 then .error .nullInput
  else if bmp.length % 2 ≠ 0 then .error .invalidArg
  else .ok (bmpLoop bmp)

/-- `EncodeBMPString`, /repo/bsl/asn1/src/bsl_asn1.c:386-395, after `CheckBMPString` :1212-1220. -/
def encodeBmp (s : List Byte) : Except PErr (List Byte) :=
  if s.any (fun b => decide (b.toNat > 127)) then .error .invalidArg else .ok (s.flatMap fun b => [0, b])

/-- Outcomes of the list decoder: an error of the decoder, or an error code of the callback. -/
inductive LErr (ε : Type)
  | mismatchTag | len (e : Err) | cb (e : ε) | oob
deriving DecidableEq, Repr

/-- Size after a decoded length field (for termination). -/
theorem decodeLen_length {enc rest : List Byte} {n : BitVec 32}
    (h : decodeLen false enc = .ok (n, rest)) : rest.length ≤ enc.length := by
  obtain ⟨octs, _, rfl, _⟩ := (decodeLen_iff _ _ _).1 h
  simp

/-- The loop of `DecodeTwoLayerListInternal`, /repo/bsl/asn1/src/bsl_asn1.c:269-300. The callback
`parseListItemCb` with its list and parameter is a state transformer on `σ`: it gets the tag and contents of the
item. `expTag` is `param->expTag[layer - 1]`. -/
def listInternal {σ ε : Type} (expTag : Byte) (cb : Byte → List Byte → σ → Except ε σ) (buff : List Byte) (s : σ) :
    Except (LErr ε) σ :=
  match buff with
  | [] => .ok s
  | b :: buff' =>
    if b ≠ expTag then .error .mismatchTag
    else
      match h : decodeLen false buff' with
      | .error e => .error (.len e)
      | .ok (encLen, rest) =>
        if encLen.toNat ≤ rest.length then
          match cb b (rest.take encLen.toNat) s with
          | .error e => .error (.cb e)
          | .ok s' => listInternal expTag cb (rest.drop encLen.toNat) s'
        else .error .oob
termination_by buff.length
decreasing_by
  have := decodeLen_length h
  simp only [List.length_drop, List.length_cons]; omega

/-- `DecodeOneLayerList`, /repo/bsl/asn1/src/bsl_asn1.c:302-305. -/
def decodeOneLayer {σ ε : Type} (tag1 : Byte) (cb : Nat → Byte → List Byte → σ → Except ε σ) (buff : List Byte) (s : σ) :
    Except (LErr ε) σ := listInternal tag1 (cb 1) buff s

/-- `DecodeTwoLayerList`, /repo/bsl/asn1/src/bsl_asn1.c:307-341: for each outer item the callback with layer 1, then
the inner list of its contents with layer 2. -/
def decodeTwoLayer {σ ε : Type} (tag1 tag2 : Byte) (cb : Nat → Byte → List Byte → σ → Except ε σ) (buff : List Byte)
    (s : σ) : Except (LErr ε) σ :=
  match buff with
  | [] => .ok s
  | b :: buff' =>
    if b ≠ tag1 then .error .mismatchTag
    else
      match h : decodeLen false buff' with
      | .error e => .error (.len e)
      | .ok (encLen, rest) =>
        if encLen.toNat ≤ rest.length then
          match cb 1 b (rest.take encLen.toNat) s with
          | .error e => .error (.cb e)
          | .ok s' =>
            match listInternal tag2 (cb 2) (rest.take encLen.toNat) s' with
            | .error e => .error e
            | .ok s'' => decodeTwoLayer tag1 tag2 cb (rest.drop encLen.toNat) s''
        else .error .oob
termination_by buff.length
decreasing_by
  have := decodeLen_length h
  simp only [List.length_drop, List.length_cons]; omega

end Verif.Bsl.Asn1
