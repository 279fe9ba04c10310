import Verif.Common.Endian
/-! Model of the DER length, item and INTEGER code of /repo/bsl/asn1/src/bsl_asn1.c.

A `(uint8_t *encode, uint32_t encLen)` pair is the list of the `encLen` bytes from `encode` on; moving the
pointer forward and decreasing the length drops bytes of the list. A read that the list cannot serve gives
the distinct outcome `Err.oob`. `NULL` arguments are not modelled (the C code rejects them first). -/
namespace Verif.Bsl.Asn1
open Verif.Common

/-- Outcomes other than `BSL_SUCCESS`, /repo/include/bsl/bsl_errno.h; `oob` is a read outside the buffer. -/
inductive Err
  | decodeLen | maxLenNum | buffNotEnough | mismatchTag | invalidArg | decodeInt | oob
deriving DecidableEq, Repr

/-- The loop of `BSL_ASN1_DecodeLen`, /repo/bsl/asn1/src/bsl_asn1.c:68-72: `index` bytes, big-endian, in a
`uint32_t`. `none` stands for a read past the end of the buffer. -/
def readLen : Nat → BitVec 32 → List Byte → Option (BitVec 32 × List Byte)
  | 0, acc, temp => some (acc, temp)
  | _ + 1, _, [] => none
  | i + 1, acc, b :: temp => readLen i ((acc <<< 8) ||| b.setWidth 32) temp

/-- `BSL_ASN1_DecodeLen`, /repo/bsl/asn1/src/bsl_asn1.c:37-88. On success: the decoded length (`*len`) and
the bytes after the length field (`*encode`, `*encLen`). `completeLen` adds the size of the length field. -/
def decodeLen (completeLen : Bool) (encode : List Byte) : Except Err (BitVec 32 × List Byte) :=
  match encode with
  | [] => .error .decodeLen
  | b :: temp =>
    if b &&& 0x80 = 0 then
      let parseLen : BitVec 32 := b.setWidth 32 + (if completeLen then 1 else 0)
      let length := if completeLen then encode.length else temp.length
      if parseLen.toNat > length then .error .decodeLen else .ok (parseLen, temp)
    else if b = 0x80 then .error .decodeLen
    else
      let index := b.toNat - 0x80
      if index > 4 then .error .maxLenNum
      else if temp.length < index then .error .buffNotEnough
      else
        match readLen index 0 temp with
        | none => .error .oob
        | some (parseLen, rest) =>
          if parseLen.toNat ≥ 2 ^ 32 - 1 - index - 2 then .error .maxLenNum
          else
            let parseLen := parseLen + (if completeLen then BitVec.ofNat 32 (index + 1) else 0)
            let length := if completeLen then encode.length else rest.length
            if parseLen.toNat > length then .error .decodeLen else .ok (parseLen, rest)

/-- `BSL_ASN1_GetCompleteLen`, /repo/bsl/asn1/src/bsl_asn1.c:90-107: the size of the first item of the
buffer with its header (`*dataLen`). -/
def getCompleteLen (data : List Byte) : Except Err (BitVec 32) :=
  match data with
  | [] => .error .buffNotEnough
  | _ :: tmp =>
    match decodeLen true tmp with
    | .error e => .error e
    | .ok (len, _) => .ok (len + 1)

/-- `BSL_ASN1_DecodeTagLen`, /repo/bsl/asn1/src/bsl_asn1.c:109-137. -/
def decodeTagLen (tag : Byte) (encode : List Byte) : Except Err (BitVec 32 × List Byte) :=
  match encode with
  | [] => .error .invalidArg
  | b :: temp =>
    if tag ≠ b then .error .mismatchTag
    else
      match decodeLen false temp with
      | .error e => .error e
      | .ok (len, rest) => if len.toNat > rest.length then .error .buffNotEnough else .ok (len, rest)

/-- `BSL_ASN1_DecodeItem`, /repo/bsl/asn1/src/bsl_asn1.c:139-166. On success: tag, contents (`asnItem->buff`
with `asnItem->len`) and the bytes after the item. Contents that are not completely inside the buffer give
`Err.oob`: the C code does not check this again after `BSL_ASN1_DecodeLen`. -/
def decodeItem (encode : List Byte) : Except Err (Byte × List Byte × List Byte) :=
  match encode with
  | [] => .error .invalidArg
  | tag :: temp =>
    match decodeLen false temp with
    | .error e => .error e
    | .ok (len, rest) =>
      if len.toNat ≤ rest.length then .ok (tag, rest.take len.toNat, rest.drop len.toNat) else .error .oob

/-- `GetOctetNumOfUint`, /repo/bsl/asn1/src/bsl_asn1.c:814-821 (64-bit argument, at most 8 rounds). -/
def octetNumOfUint (n : BitVec 64) : Nat :=
  if h : n = 0 then 0 else octetNumOfUint (n >>> 8) + 1
termination_by n.toNat
decreasing_by
  have h0 : n.toNat ≠ 0 := fun h0 => h (BitVec.eq_of_toNat_eq (by simpa using h0))
  rw [BitVec.toNat_ushiftRight, Nat.shiftRight_eq_div_pow]; omega

/-- `GetLenOctetNum`, /repo/bsl/asn1/src/bsl_asn1.c:823-826. -/
def lenOctetNum (content : BitVec 32) : Nat :=
  if content.toNat ≤ 127 then 1 else 1 + octetNumOfUint (content.setWidth 64)

/-- The stores of `EncodeNumber`, /repo/bsl/asn1/src/bsl_asn1.c:991-1001: `encodeLen` bytes are written from
the last to the first, each time the low byte of `tmp`. The result is the bytes in memory order. -/
def encodeNumber (data : BitVec 64) : Nat → List Byte
  | 0 => []
  | k + 1 => encodeNumber (data >>> 8) k ++ [data.setWidth 8]

/-- `EncodeLength`, /repo/bsl/asn1/src/bsl_asn1.c:1003-1016 (with `lenOctetNum` from `GetLenOctetNum`, as in
`ComputeOctetNum` :907 and `ComputeConstructAsnOctetNum` :933). -/
def encodeLength (content : BitVec 32) : List Byte :=
  if content.toNat ≤ 127 then [content.setWidth 8]
  else (0x80 ||| BitVec.ofNat 8 (lenOctetNum content - 1)) ::
    encodeNumber (content.setWidth 64) (lenOctetNum content - 1)

/-- `BSL_ASN1_GetEncodeLen`, /repo/bsl/asn1/src/bsl_asn1.c:1427-1439: size of an item with `content` octets of
contents; `none` is `BSL_ASN1_ERR_LEN_OVERFLOW`. -/
def getEncodeLen (content : BitVec 32) : Option (BitVec 32) :=
  if 2 ^ 32 - 1 - (1 + lenOctetNum content) < content.toNat then none
  else some (BitVec.ofNat 32 (1 + lenOctetNum content) + content)

/-- The header and contents of one primitive item as `EncodeItem` writes them,
/repo/bsl/asn1/src/bsl_asn1.c:1107-1129. -/
def encodeItem (tag : Byte) (content : List Byte) : List Byte :=
  tag :: encodeLength (BitVec.ofNat 32 content.length) ++ content

/-- The loop of `GetContentLenOfInt`, /repo/bsl/asn1/src/bsl_asn1.c:834-840: `res` after skipping zero bytes. -/
def intRes : List Byte → Nat → Nat
  | [], res => res
  | b :: l, res => if b ≠ 0 then res else intRes l (res - 1)

/-- `GetContentLenOfInt`, /repo/bsl/asn1/src/bsl_asn1.c:828-855. `none`: length overflow
(`BSL_ASN1_ERR_LEN_OVERFLOW`) or, never reached, a read outside the buffer. -/
def contentLenOfInt (buff : List Byte) : Option Nat :=
  if buff.length = 0 then some 0
  else
    let res := intRes buff buff.length
    if res = 0 then some 1
    else
      match buff[buff.length - res]? with
      | none => none
      | some b =>
        if b &&& 0x80 ≠ 0 then (if res = 2 ^ 32 - 1 then none else some (res + 1)) else some res

/-- `EncodeInt`, /repo/bsl/asn1/src/bsl_asn1.c:1065-1075, into a zeroed buffer
(`BSL_SAL_Calloc` in `BSL_ASN1_EncodeTemplate`, :1335). -/
def encodeInt (buff : List Byte) (encodeLen : Nat) : List Byte :=
  if encodeLen < buff.length then (buff.drop (buff.length - encodeLen)).take encodeLen
  else List.replicate (encodeLen - buff.length) 0 ++ buff

/-- Contents octets of an INTEGER: `GetContentLenOfInt` then `EncodeInt`. -/
def encodeIntContent (buff : List Byte) : Option (List Byte) := (contentLenOfInt buff).map (encodeInt buff)

/-- The loop of `ProcessIntegerType`, /repo/bsl/asn1/src/bsl_asn1.c:493-496. -/
def stripZeros : List Byte → List Byte
  | b :: c :: l => if b = 0 then stripZeros (c :: l) else b :: c :: l
  | l => l

/-- `ProcessIntegerType`, /repo/bsl/asn1/src/bsl_asn1.c:478-500. An empty buffer would be read out of bounds. -/
def processIntegerType (content : List Byte) : Except Err (List Byte) :=
  match content with
  | [] => .error .oob
  | b :: rest =>
    if b &&& 0x80 ≠ 0 then .error .decodeInt
    else
      match b == 0, rest with
      | true, c :: _ => if c &&& 0x80 = 0 then .error .decodeInt else .ok (stripZeros content)
      | _, _ => .ok (stripZeros content)

/-- What `BSL_ASN1_ProcessNormal` does with the contents of an INTEGER or ENUMERATED item,
/repo/bsl/asn1/src/bsl_asn1.c:567-575: empty contents skip `ProcessIntegerType`. -/
def decodeIntContent (content : List Byte) : Except Err (List Byte) :=
  if content.length > 0 then processIntegerType content else .ok content

/-- The loop of `ParseInt`, /repo/bsl/asn1/src/bsl_asn1.c:184-189. -/
def parseIntLoop : List Byte → BitVec 64 → Except Err (BitVec 64)
  | [], acc => .ok acc
  | b :: l, acc =>
    let acc := (acc <<< 8) ||| b.setWidth 64
    if acc.toNat > 2147483647 then .error .decodeInt else parseIntLoop l acc

/-- `ParseInt`, /repo/bsl/asn1/src/bsl_asn1.c:177-192 (`int` has 4 bytes). -/
def parseInt (val : List Byte) : Except Err (BitVec 32) :=
  if val.length < 1 ∨ val.length > 4 then .error .decodeInt
  else
    match parseIntLoop val 0 with
    | .error e => .error e
    | .ok acc => .ok (acc.setWidth 32)

/-- `BSL_ASN1_EncodeLimb`, /repo/bsl/asn1/src/bsl_asn1.c:1407-1425: the buffer handed to the template encoder. -/
def encodeLimb (limb : BitVec 64) : List Byte :=
  if limb = 0 then [0] else encodeNumber limb (octetNumOfUint limb)

end Verif.Bsl.Asn1
