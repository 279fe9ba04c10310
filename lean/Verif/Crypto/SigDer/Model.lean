import Verif.Bsl.Asn1.Model
import Verif.Crypto.Sig.Model

/-! Model of the encoding of ECDSA, SM2 and DSA signatures: /repo/crypto/codecsdata/src/crypt_encode.c:25-240, with the part of the
template code of /repo/bsl/asn1/src/bsl_asn1.c it uses. An error code is `none` or an `Err`. Allocation and `NULL` arguments are not
modelled. -/
namespace Verif.Crypto.SigDer
open Verif.Common Verif.Bsl.Asn1 Verif.Crypto.Bn Verif.Crypto.Sig

/-- `BSL_ASN1_TemplateItem`; the flags of the template modelled are zero: every item is mandatory, none is read as a header only. -/
structure Item where
  tag : Byte
  depth : Nat

/-- `BSL_ASN1_IsConstructItem`, bsl_asn1.c:600-603. -/
def constructed (tag : Byte) : Bool := decide (tag &&& 0x20 ≠ 0)

/-- `BSL_ASN1_ProcessNormal`, bsl_asn1.c:546-587, with `ProcessTag`, :537-543, for a mandatory item whose tag is neither ANY nor CHOICE:
the contents, and the bytes passed (the header only for a constructed item). -/
def processNormal (tag : Byte) (view : List Byte) : Except Err (List Byte × Nat) :=
  match view with
  | [] => .error .decodeLen
  | b :: temp =>
    if tag ≠ b then .error .mismatchTag
    else
      match decodeLen false temp with
      | .error e => .error e
      | .ok (len, rest) =>
        if rest.length < len.toNat then .error .oob
        else
          let used := view.length - rest.length + (if constructed tag then 0 else len.toNat)
          match if tag = 2 ∨ tag = 10 then decodeIntContent (rest.take len.toNat) else .ok (rest.take len.toNat) with
          | .error e => .error e
          | .ok content => .ok (content, used)

/-- The loop of `BSL_ASN1_DecodeTemplate`, bsl_asn1.c:717-768: the contents of the primitive items and the place reached. `ends` holds the
ends of the layers (`layerEnd`). -/
def decodeTempl (data : List Byte) : List Item → Nat → List Nat → Except Err (List (List Byte) × Nat)
  | [], pos, _ => .ok ([], pos)
  | it :: items, pos, ends =>
    if it.depth > 6 then .error .invalidArg
    else
      match ends[it.depth]? with
      | none => .error .oob
      | some curEnd =>
        match processNormal it.tag ((data.drop pos).take (curEnd - pos)) with
        | .error e => .error e
        | .ok (content, used) =>
          if constructed it.tag then decodeTempl data items (pos + used) (ends.set (it.depth + 1) (pos + used + content.length))
          else
            match decodeTempl data items (pos + used) ends with
            | .error e => .error e
            | .ok (l, p) => .ok (content :: l, p)

/-- `g_signTempl`, crypt_encode.c:116-120. -/
def signTempl : List Item := [⟨0x30, 0⟩, ⟨2, 1⟩, ⟨2, 1⟩]

/-- `BN_Bin2Bn` of decoded contents. -/
def bnOf (c : List Byte) : Option (Bn 32) := bin2Bn (c.map UInt8.ofBitVec)

/-- `CRYPT_EAL_DecodeSign`, crypt_encode.c:207-240, with `DecodeAsn1Template`, :56-79. -/
def decodeSign (data : List Byte) : Option (Bn 32 × Bn 32) :=
  if data.length = 0 then none
  else
    match decodeTempl data signTempl 0 (data.length :: List.replicate 7 0) with
    | .ok ([a, b], pos) =>
      if a.length = 0 ∨ b.length = 0 then none
      else if pos ≠ data.length then none
      else
        match bnOf a, bnOf b with
        | some r, some s => some (r, s)
        | _, _ => none
    | _ => none

/-- One item: `ComputeOctetNum` or `ComputeConstructAsnOctetNum`, bsl_asn1.c:894-942, and `EncodeItem`, :1107-1129. -/
def encodeTlv (tag : Byte) (content : List Byte) : Option (List Byte) :=
  if lenOctetNum (BitVec.ofNat 32 content.length) + content.length > 2 ^ 32 - 2 then none else some (encodeItem tag content)

/-- `BSL_ASN1_EncodeTemplate`, bsl_asn1.c:1304-1336, for `g_signTempl`; the sum of the sizes is checked at :924. -/
def encodeTempl (a b : List Byte) : Option (List Byte) := do
  let c2 ← encodeIntContent b
  let i2 ← encodeTlv 2 c2
  let c1 ← encodeIntContent a
  let i1 ← encodeTlv 2 c1
  if i2.length > 2 ^ 32 - 1 - i1.length then none else encodeTlv 0x30 (i1 ++ i2)

/-- `ConvertBNToBuffer`, crypt_encode.c:144-163. -/
def bnBuffer (a : Bn 32) : Option (List Byte) := ((bn2Bin a (bnBytes a)).join).map (List.map UInt8.toBitVec)

/-- `CRYPT_EAL_EncodeSign`, crypt_encode.c:165-205, with `CheckSignBnParams`, :122-142, and `EncodeAsn1Template`, :28-51. `room` is
`*encodeLen`. -/
def encodeSign (r s : Bn 32) (room : Nat) : Option (List Byte) :=
  if r.neg = true ∨ s.neg = true then none
  else if r.data.length = 0 ∨ s.data.length = 0 then none
  else do
    let a ← bnBuffer r
    let b ← bnBuffer s
    let out ← encodeTempl a b
    if out.length > room then none else some out

/-- `CRYPT_EAL_GetSignEncodeLen`, crypt_encode.c:82-114. -/
def signEncodeLen (rLen sLen : BitVec 32) : Option (BitVec 32) :=
  if rLen = 0 ∨ rLen.toNat > 2 ^ 32 - 1 - 1 ∨ sLen = 0 ∨ sLen.toNat > 2 ^ 32 - 1 - 1 then none
  else
    match getEncodeLen (rLen + 1), getEncodeLen (sLen + 1) with
    | some a, some b => if a.toNat > 2 ^ 32 - 1 - b.toNat then none else getEncodeLen (a + b)
    | _, _ => none

end Verif.Crypto.SigDer
