import Verif.Bsl.Bytes.Model
/-! Model of /repo/bsl/tlv/src/tlv.c. Memory is a list of bytes; `uint32_t` subtraction wraps (`sub32`). A
read past the end of the memory gives `Err.oob`. -/
namespace Verif.Bsl.Tlv
open Verif.Common Verif.Bsl.Bytes

/-- Outcomes other than `BSL_SUCCESS`; `oob` is a read or write outside a buffer. -/
inductive Err
  | badParam | memcpyFail | noWantType | oob
deriving DecidableEq, Repr

/-- `uint32_t` subtraction. -/
def sub32 (a b : Nat) : Nat := (a + 2 ^ 32 - b) % 2 ^ 32

/-- `BSL_TLV_Pack`, /repo/bsl/tlv/src/tlv.c:28-50. `tlv->length` is `value.length`. The result is the bytes
written, `*usedLen` is their number; the rest of the `bufLen` bytes is untouched. -/
def pack (type : BitVec 32) (value : List Byte) (bufLen : Nat) : Except Err (List Byte) :=
  if bufLen < 8 ∨ value.length > sub32 bufLen 8 then .error .badParam
  else .ok (uint32ToByte type ++ uint32ToByte (BitVec.ofNat 32 value.length) ++ value)

/-- `TLV_ParseHeader`, /repo/bsl/tlv/src/tlv.c:52-70; `data` is the memory at `curPos`, `dataLen` the remaining
length. -/
def parseHeader (data : List Byte) (dataLen : Nat) : Except Err (BitVec 32 × BitVec 32) :=
  match byteToUint32 data, byteToUint32 (data.drop 4) with
  | some tlvType, some tlvLen =>
    if tlvLen.toNat > sub32 dataLen 8 then .error .badParam else .ok (tlvType, tlvLen)
  | _, _ => .error .oob

/-- The loop of `BSL_TLV_Parse`, /repo/bsl/tlv/src/tlv.c:79-107. `cap` is the capacity of the caller's value buffer
(`tlv->length` on entry). `fuel` bounds the number of rounds; it is set to the length of the data, and each round
consumes at least eight bytes. Returns the value copied and `*readLen`. -/
def parseLoop (want : BitVec 32) (cap dataLen : Nat) : Nat → List Byte → Nat → Except Err (List Byte × Nat)
  | 0, _, _ => .error .noWantType
  | fuel + 1, cur, remain =>
    if remain ≥ 8 then
      match parseHeader cur remain with
      | .error e => .error e
      | .ok (type, length) =>
        let remain' := sub32 remain ((8 + length.toNat) % 2 ^ 32)
        if want = type then
          if length.toNat > cap then .error .memcpyFail
          else if (cur.drop 8).length < length.toNat then .error .oob
          else .ok ((cur.drop 8).take length.toNat, sub32 dataLen remain')
        else parseLoop want cap dataLen fuel (cur.drop (8 + length.toNat)) remain'
    else .error .noWantType

/-- `BSL_TLV_Parse`, /repo/bsl/tlv/src/tlv.c:72-113. -/
def parse (want : BitVec 32) (data : List Byte) (cap : Nat) : Except Err (List Byte × Nat) :=
  parseLoop want cap data.length (data.length + 1) data data.length

/-- The loop of `BSL_TLV_FindValuePos`, /repo/bsl/tlv/src/tlv.c:122-138. Returns `*offset` and `*length`. -/
def findLoop (want : BitVec 32) (dataLen : Nat) : Nat → List Byte → Nat → Except Err (Nat × Nat)
  | 0, _, _ => .error .noWantType
  | fuel + 1, cur, remain =>
    if remain > 8 then
      match parseHeader cur remain with
      | .error e => .error e
      | .ok (type, length) =>
        if want = type then .ok ((sub32 dataLen remain + 8) % 2 ^ 32, length.toNat)
        else
          findLoop want dataLen fuel (cur.drop (8 + length.toNat)) (sub32 remain ((8 + length.toNat) % 2 ^ 32))
    else .error .noWantType

/-- `BSL_TLV_FindValuePos`, /repo/bsl/tlv/src/tlv.c:115-144. -/
def findValuePos (want : BitVec 32) (data : List Byte) : Except Err (Nat × Nat) :=
  findLoop want data.length (data.length + 1) data data.length

end Verif.Bsl.Tlv
