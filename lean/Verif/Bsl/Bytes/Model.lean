import Verif.Common.Bits
/-! Model of /repo/bsl/include/bsl_bytes.h. Pointers become byte lists (the callers guarantee enough
bytes; a too short list gives `none`, standing for an out-of-bounds read). -/
namespace Verif.Bsl.Bytes
open Verif.Common

/-- Low byte of a word shifted right by `s`: `(uint8_t)(num >> s)`. -/
def byteAt {w : Nat} (num : BitVec w) (s : Nat) : Byte := (num >>> s).setWidth 8

/-- `BSL_ByteToUint16`, /repo/bsl/include/bsl_bytes.h:34-38. -/
def byteToUint16 : List Byte → Option (BitVec 16)
  | d0 :: d1 :: _ => some ((d0.setWidth 16 <<< 8) ||| d1.setWidth 16)
  | _ => none

/-- `BSL_Uint16ToByte`, /repo/bsl/include/bsl_bytes.h:48-54. -/
def uint16ToByte (num : BitVec 16) : List Byte := [byteAt num 8, byteAt (num &&& 0xff) 0]

/-- `BSL_ByteToUint24`, /repo/bsl/include/bsl_bytes.h:65-70. -/
def byteToUint24 : List Byte → Option (BitVec 32)
  | d0 :: d1 :: d2 :: _ =>
    some ((d0.setWidth 32 <<< 16) ||| (d1.setWidth 32 <<< 8) ||| d2.setWidth 32)
  | _ => none

/-- `BSL_Uint24ToByte`, /repo/bsl/include/bsl_bytes.h:80-87. -/
def uint24ToByte (num : BitVec 32) : List Byte := [byteAt num 16, byteAt num 8, byteAt (num &&& 0xff) 0]

/-- `BSL_ByteToUint32`, /repo/bsl/include/bsl_bytes.h:98-103. -/
def byteToUint32 : List Byte → Option (BitVec 32)
  | d0 :: d1 :: d2 :: d3 :: _ =>
    some ((d0.setWidth 32 <<< 24) ||| (d1.setWidth 32 <<< 16) ||| (d2.setWidth 32 <<< 8) ||| d3.setWidth 32)
  | _ => none

/-- `BSL_Uint32ToByte`, /repo/bsl/include/bsl_bytes.h:171-179. -/
def uint32ToByte (num : BitVec 32) : List Byte :=
  [byteAt num 24, byteAt num 16, byteAt num 8, byteAt (num &&& 0xff) 0]

/-- `BSL_ByteToUint48`, /repo/bsl/include/bsl_bytes.h:114-121. -/
def byteToUint48 : List Byte → Option (BitVec 64)
  | d0 :: d1 :: d2 :: d3 :: d4 :: d5 :: _ =>
    some ((d0.setWidth 64 <<< 40) ||| (d1.setWidth 64 <<< 32) ||| (d2.setWidth 64 <<< 24) |||
      (d3.setWidth 64 <<< 16) ||| (d4.setWidth 64 <<< 8) ||| d5.setWidth 64)
  | _ => none

/-- `BSL_Uint48ToByte`, /repo/bsl/include/bsl_bytes.h:131-141. -/
def uint48ToByte (num : BitVec 64) : List Byte :=
  [byteAt num 40, byteAt num 32, byteAt num 24, byteAt num 16, byteAt num 8, byteAt (num &&& 0xff) 0]

/-- `BSL_ByteToUint64`, /repo/bsl/include/bsl_bytes.h:152-161. -/
def byteToUint64 : List Byte → Option (BitVec 64)
  | d0 :: d1 :: d2 :: d3 :: d4 :: d5 :: d6 :: d7 :: _ =>
    some ((d0.setWidth 64 <<< 56) ||| (d1.setWidth 64 <<< 48) ||| (d2.setWidth 64 <<< 40) |||
      (d3.setWidth 64 <<< 32) ||| (d4.setWidth 64 <<< 24) ||| (d5.setWidth 64 <<< 16) |||
      (d6.setWidth 64 <<< 8) ||| d7.setWidth 64)
  | _ => none

/-- `BSL_Uint64ToByte`, /repo/bsl/include/bsl_bytes.h:189-201. -/
def uint64ToByte (num : BitVec 64) : List Byte :=
  [byteAt num 56, byteAt num 48, byteAt num 40, byteAt num 32, byteAt num 24, byteAt num 16, byteAt num 8,
    byteAt (num &&& 0xff) 0]

/-- `Uint32ConstTimeMsb`, /repo/bsl/include/bsl_bytes.h:205-209. -/
def ctMsb (a : BitVec 32) : BitVec 32 := 0#32 - (a >>> 31)

/-- `Uint32ConstTimeIsZero`, /repo/bsl/include/bsl_bytes.h:212-215. -/
def ctIsZero (a : BitVec 32) : BitVec 32 := ctMsb (~~~a &&& (a - 1#32))

/-- `Uint32ConstTimeEqual`, /repo/bsl/include/bsl_bytes.h:218-221. -/
def ctEqual (a b : BitVec 32) : BitVec 32 := ctIsZero (a ^^^ b)

/-- `Uint32ConstTimeSelect`, /repo/bsl/include/bsl_bytes.h:225-228. -/
def ctSelect (mask a b : BitVec 32) : BitVec 32 := (mask &&& a) ||| (~~~mask &&& b)

/-- `Uint8ConstTimeSelect`, /repo/bsl/include/bsl_bytes.h:230-233 (operands promoted to 32 bits). -/
def ctSelect8 (mask : BitVec 32) (a b : Byte) : Byte :=
  ((((mask &&& a.setWidth 32) ||| (~~~mask &&& b.setWidth 32)) &&& 0xff#32)).setWidth 8

/-- `Uint32ConstTimeLt`, /repo/bsl/include/bsl_bytes.h:236-239. -/
def ctLt (a b : BitVec 32) : BitVec 32 := ctMsb (a ^^^ ((a ^^^ b) ||| ((a - b) ^^^ a)))

/-- `Uint32ConstTimeGe`, /repo/bsl/include/bsl_bytes.h:242-245. -/
def ctGe (a b : BitVec 32) : BitVec 32 := ~~~ ctLt a b

/-- `Uint32ConstTimeGt`, /repo/bsl/include/bsl_bytes.h:248-251. -/
def ctGt (a b : BitVec 32) : BitVec 32 := ctLt b a

/-- `Uint32ConstTimeLe`, /repo/bsl/include/bsl_bytes.h:254-257. -/
def ctLe (a b : BitVec 32) : BitVec 32 := ctGe b a

/-- The accumulation loop of `ConstTimeMemcmp`, /repo/bsl/include/bsl_bytes.h:262-265. The two pointers and
the common length `l` become two lists of length `l`. -/
def memcmpAcc : List Byte → List Byte → Byte → Byte
  | x :: xs, y :: ys, r => memcmpAcc xs ys (r ||| (x ^^^ y))
  | _, _, r => r

/-- `ConstTimeMemcmp`, /repo/bsl/include/bsl_bytes.h:260-267 (equal-length operands). -/
def ctMemcmp (a b : List Byte) : BitVec 32 := ctIsZero ((memcmpAcc a b 0).setWidth 32)

end Verif.Bsl.Bytes
