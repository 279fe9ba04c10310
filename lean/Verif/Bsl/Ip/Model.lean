import Verif.Common.Bits
/-! Model of `bsl/sal/src/sal_ip_util.c`: parsing of textual IP addresses.

A C string is the list of the bytes before its NUL. -/
namespace Verif.Bsl.Ip
open Verif.Common

def dot : Byte := 0x2e#8
def colon : Byte := 0x3a#8

/-- The end-of-segment checks of `SAL_ParseIpv4` (`bsl/sal/src/sal_ip_util.c:40-52`).  `seg` holds the
characters of the current segment, so `digitCount` is its length and `str[i - digitCount]` its first
character; `out` holds the bytes stored so far, so `segIndex` is its length. -/
def v4SegOk (seg out : List Byte) : Bool :=
  !(decide (seg.length = 0) || decide (out.length ≥ 4)) &&
  !(decide (seg.length > 1) && decide (seg.head? = some 0x30#8))

/-- The loop of `SAL_ParseIpv4` (`bsl/sal/src/sal_ip_util.c:36-79`) and the final test (`:82`). -/
def v4Loop : List Byte → Nat → List Byte → List Byte → Option (List Byte)
  | [], num, seg, out =>
    if v4SegOk seg out then
      (let out' := out ++ [BitVec.ofNat 8 num]
       if out'.length = 4 then some out' else none)
    else none
  | c :: cs, num, seg, out =>
    if c = dot then
      (if v4SegOk seg out then v4Loop cs 0 [] (out ++ [BitVec.ofNat 8 num]) else none)
    else if 0x30#8 ≤ c ∧ c ≤ 0x39#8 then
      let num' := num * 10 + (c.toNat - 0x30)
      if num' > 255 then none
      else if seg.length > 3 then none
      else v4Loop cs num' (seg ++ [c]) out
    else none

/-- `SAL_ParseIpv4` (`bsl/sal/src/sal_ip_util.c:30-83`): the four bytes, or `none` for `false`. -/
def parseIpv4 (str : List Byte) : Option (List Byte) := v4Loop str 0 [] []

/-- The backward search of `FindIpv4` (`bsl/sal/src/sal_ip_util.c:91-100`) for the last `c` among
`str[0..i)`. -/
def lastIdx (c : Byte) (str : List Byte) : Nat → Option Nat
  | 0 => none
  | i + 1 => if str[i]? = some c then some i else lastIdx c str i

/-- `FindIpv4` (`bsl/sal/src/sal_ip_util.c:86-115`): the length of the IPv6 part and the IPv4 bytes if
there is an IPv4 part; `none` for `-1`.  The inner loop (`:94-97`) stops at the last colon before the
last dot, or at `-1`. -/
def findIpv4 (str : List Byte) : Option (Nat × List Byte) :=
  match lastIdx dot str str.length with
  | none => some (str.length, [])
  | some i =>
    let ipv4Start := match lastIdx colon str (i + 1) with
      | none => 0
      | some j => j + 1
    match parseIpv4 (str.drop ipv4Start) with
    | none => none
    | some b => some (ipv4Start, b)

/-- `IsXdigit` (`bsl/sal/src/sal_ip_util.c:116-119`). -/
def isXdigit (c : Byte) : Bool :=
  (decide (0x30#8 ≤ c) && decide (c ≤ 0x39#8)) || (decide (0x61#8 ≤ c) && decide (c ≤ 0x66#8)) ||
    (decide (0x41#8 ≤ c) && decide (c ≤ 0x46#8))

/-- `CharToDigit` (`bsl/sal/src/sal_ip_util.c:121-132`), whose argument passed `IsXdigit`. -/
def charToDigit (c : Byte) : BitVec 16 :=
  if 0x30#8 ≤ c ∧ c ≤ 0x39#8 then (c - 0x30#8).setWidth 16
  else if 0x61#8 ≤ c ∧ c ≤ 0x66#8 then (c - 0x61#8).setWidth 16 + 10#16
  else (c - 0x41#8).setWidth 16 + 10#16

/-- Loop variables of `ParseIpv6HexSegments` (`bsl/sal/src/sal_ip_util.c:137-140`): `prev` is `str[i-1]`
(`none` when `i == 0`); `dc` is `*dcPos` with `none` for `-1`; `segs` are `segments[0..*segCount)`. -/
structure V6 where
  prev : Option Byte
  segs : List (BitVec 16)
  dc : Option Nat
  curr : BitVec 16
  currLen : Nat
  inSeg : Bool

/-- The single-colon branch (`bsl/sal/src/sal_ip_util.c:173-184`). -/
def colonEnd (st : V6) : Option V6 :=
  if !st.inSeg || decide (st.segs.length ≥ 8) then none
  else some { st with prev := some colon, segs := st.segs ++ [st.curr], curr := 0#16, currLen := 0,
                      inSeg := false }

/-- A colon (`bsl/sal/src/sal_ip_util.c:161-184`) followed by the bytes `cs`: the new state and whether
the next byte is skipped too (`i += 2`). -/
def colonStep (cs : List Byte) (st : V6) : Option (Bool × V6) :=
  if st.prev = none ∧ cs.head? = some colon then
    some (true, { st with prev := some colon, dc := some 0 })
  else if st.prev = some colon then
    (if st.dc ≠ none then none
     else some (false, { st with prev := some colon, dc := some st.segs.length }))
  else (colonEnd st).map (fun s => (false, s))

/-- The loop of `ParseIpv6HexSegments` (`bsl/sal/src/sal_ip_util.c:142-185`) over the bytes
`str[i..len)`, and the last segment (`:187-193`). -/
def hexLoop : List Byte → V6 → Option (List (BitVec 16) × Option Nat)
  | [], st =>
    if st.inSeg then
      (if st.segs.length ≥ 8 then none else some (st.segs ++ [st.curr], st.dc))
    else some (st.segs, st.dc)
  | c :: cs, st =>
    if c ≠ colon then
      if !isXdigit c then none
      else if st.currLen + 1 > 4 then none
      else hexLoop cs { st with prev := some c, inSeg := true, currLen := st.currLen + 1,
                                curr := (st.curr <<< 4) ||| charToDigit c }
    else
      match colonStep cs st with
      | none => none
      | some (false, st') => hexLoop cs st'
      | some (true, st') =>
        match cs with
        | [] => none  -- not reached: a skip is only taken when there is a next byte
        | _ :: cs' => hexLoop cs' st'

/-- `ParseIpv6HexSegments` (`bsl/sal/src/sal_ip_util.c:135-196`) on the bytes `str[0..len)`. -/
def parseHex (part : List Byte) : Option (List (BitVec 16) × Option Nat) :=
  hexLoop part ⟨none, [], none, 0#16, 0, false⟩

/-- The two 16-bit groups of the IPv4 part (`bsl/sal/src/sal_ip_util.c:232-237`, `:248-253`); the empty
list when there is none (`ipv4Bytes == NULL`). -/
def v4Groups (v4 : List Byte) : List (BitVec 16) :=
  match v4 with
  | [a, b, c, d] => [(a.setWidth 16 <<< 8) ||| b.setWidth 16, (c.setWidth 16 <<< 8) ||| d.setWidth 16]
  | _ => []

/-- `ExpandSegments` (`bsl/sal/src/sal_ip_util.c:199-256`).  Simplified: the copy loops into `final` are
written as the concatenation they produce; that it has exactly the eight entries of the array is proved,
not assumed. -/
def expand (segs : List (BitVec 16)) (dc : Option Nat) (v4 : List Byte) : Option (List (BitVec 16)) :=
  let nonZero := segs.length + (if v4.isEmpty then 0 else 2)
  match dc with
  | some k =>
    if nonZero ≥ 8 then none
    else some (segs.take k ++ List.replicate (8 - nonZero) 0#16 ++ segs.drop k ++ v4Groups v4)
  | none => if nonZero ≠ 8 then none else some (segs ++ v4Groups v4)

/-- The output loop (`bsl/sal/src/sal_ip_util.c:288-293`). -/
def groupBytes (l : List (BitVec 16)) : List Byte :=
  l.flatMap (fun (g : BitVec 16) => [(g >>> 8).setWidth 8, g.setWidth 8])

/-- `SAL_ParseIpv6` (`bsl/sal/src/sal_ip_util.c:258-295`). -/
def parseIpv6 (str : List Byte) : Option (List Byte) :=
  if str.length > 0 ∧ str.getLast? = some colon ∧
      (str.length = 1 ∨ str.dropLast.getLast? ≠ some colon) then none
  else
    match findIpv4 str with
    | none => none
    | some (ipv6Len, v4) =>
      match parseHex (str.take ipv6Len) with
      | none => none
      | some (segs, dc) =>
        match expand segs dc (if ipv6Len < str.length then v4 else []) with
        | none => none
        | some final => some (groupBytes final)

/-- `SAL_ParseIp` on non-NULL arguments with `*outLen ≥ 16` (`bsl/sal/src/sal_ip_util.c:297-327`): the
address bytes, whose number is stored to `*outLen`. -/
def parseIp (str : List Byte) : Option (List Byte) :=
  if str.length > 45 then none
  else if str.contains colon then parseIpv6 str
  else parseIpv4 str

end Verif.Bsl.Ip
