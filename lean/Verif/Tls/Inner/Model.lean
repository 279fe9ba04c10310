import Verif.Common.Bits
/-!
Model of the TLS 1.3 inner-plaintext handling in /repo/tls/record/src/rec_crypto.c.
Simplifications: allocation never fails; the optional padding callback is given by the number it returns
(`none`: no callback); the alert is an error value.
-/
namespace Verif.Tls.Inner
open Verif.Common

inductive Err where
  | recordOverflow | unexpectedMessage
deriving DecidableEq, Repr

/-- `MAX_PADDING_LEN` = 2^14 + 1, /repo/tls/record/src/rec_crypto.h. -/
def maxPaddingLen : Nat := 16385

/-- The minimum padding, /repo/tls/record/src/rec_crypto.c:120-136. -/
def minPaddingLength (isDtls13 : Bool) (macLen plainLen : Nat) : Nat :=
  if isDtls13 then
    let minPlainLen := if macLen < 16 then 16 - macLen else 0
    if plainLen + 1 < minPlainLen then minPlainLen - plainLen - 1 else 0
  else 0

/-- The padding length used, /repo/tls/record/src/rec_crypto.c:114-139 (the callback result is cast to
`uint16_t`). -/
def paddingLength (isDtls13 : Bool) (macLen : Nat) (cb : Option Nat) (plainLen : Nat) : Nat :=
  let recPaddingLength := match cb with
    | some n => n % 65536
    | none => 0
  let m := minPaddingLength isDtls13 macLen plainLen
  if recPaddingLength < m then m % 65536 else recPaddingLength

/-- `DefaultEncryptPreProcess` in the TLS 1.3 protected case, /repo/tls/record/src/rec_crypto.c:99-171
(result: outer record type, inner plaintext). -/
def build (isDtls13 : Bool) (macLen : Nat) (cb : Option Nat) (recordType : Byte) (data : List Byte) :
    Except Err (Byte × List Byte) :=
  let pad := paddingLength isDtls13 macLen cb data.length
  if data.length + 1 + pad > maxPaddingLen then .error .recordOverflow
  else .ok (23#8, data ++ [recordType] ++ List.replicate pad 0#8)

/-- The backward scan of `RecParseInnerPlaintext`, /repo/tls/record/src/rec_crypto.c:67-74; `i` counts down
from the text length. -/
def scan (text : List Byte) : Nat → Except Err (Byte × List Byte)
  | 0 => .error .unexpectedMessage
  | i + 1 =>
    match text[i]? with
    | none => .error .unexpectedMessage   -- not reached: i < length
    | some b => if b ≠ 0#8 then .ok (b, text.take i) else scan text i

/-- `RecParseInnerPlaintext`, /repo/tls/record/src/rec_crypto.c:60-80 (result: content type and content). -/
def parse (text : List Byte) : Except Err (Byte × List Byte) := scan text text.length

end Verif.Tls.Inner
