import Verif.Common.Bits
/-!
# Object identifiers: texts, DER contents and the built-in table

/repo/bsl/obj/src/bsl_obj.c.  NULL arguments, allocation failures, locks and error-stack pushes are not modelled.
-/
namespace Verif.Bsl.Oid
open Verif.Common

/-- Failures: `invalid` is a NULL result, `oob` an access outside a local or allocated array. -/
inductive Err where
  | invalid
  | oob
deriving DecidableEq, Repr

/-- Result of a function that returns NULL on error. -/
abbrev M (α : Type) := Except Err α

/-- `%lu` and `%d` of `snprintf` for a value below `10^room`: the decimal digits (library function). -/
def decimal : (room : Nat) → Nat → List Byte
  | 0, _ => []
  | room + 1, n => if n < 10 then [BitVec.ofNat 8 (48 + n)] else decimal room (n / 10) ++ [BitVec.ofNat 8 (48 + n % 10)]

/-- The `for` loop of `BSL_OBJ_GetOidNumericString` with the test behind it, /repo/bsl/obj/src/bsl_obj.c:697-731.
`value` is the `uint64_t`, `text` the first `currentPos` bytes of `buffer`; a `snprintf` of 20 bytes or more is refused as
there. -/
def toTextLoop : List Byte → Nat → List Byte → M (List Byte)
  | [], value, text => if value ≠ 0 then .error .invalid else .ok text
  | b :: r, value, text =>
    if value > (2 ^ 64 - 1) >>> 7 then .error .invalid
    else if value = 0 ∧ b = 0x80#8 then .error .invalid
    else
      let v := (value <<< 7) % 2 ^ 64 ||| (b &&& 0x7f#8).toNat
      if b &&& 0x80#8 = 0#8 then
        let temp := 46#8 :: decimal 20 v
        if temp.length ≥ 20 then .error .invalid
        else if text.length + temp.length ≥ 256 then .error .invalid
        else toTextLoop r 0 (text ++ temp)
      else toTextLoop r v text

/-- `BSL_OBJ_GetOidNumericString`, /repo/bsl/obj/src/bsl_obj.c:685-734.  The result is the C string in the dumped buffer. -/
def toText (oid : List Byte) : M (List Byte) :=
  match oid with
  | [] => .error .invalid
  | b :: r =>
    if b.toNat > 119 then .error .invalid
    else toTextLoop r 0 (decimal 20 (b.toNat / 40) ++ 46#8 :: decimal 20 (b.toNat % 40))

/-- The `while` loop of `BslEncodeOidPart`, /repo/bsl/obj/src/bsl_obj.c:745-749; `room` is what is left of `temp[10]`. -/
def tempLoop : (room : Nat) → Nat → M (List Byte)
  | _, 0 => .ok []
  | 0, _ + 1 => .error .oob
  | room + 1, t =>
    match tempLoop room (t >>> 7) with
    | .error e => .error e
    | .ok r => .ok ((BitVec.ofNat 8 (t &&& 0x7f) ||| 0x80#8) :: r)

/-- `temp[0] &= 0x7F`, /repo/bsl/obj/src/bsl_obj.c:751. -/
def clearFirst : List Byte → List Byte
  | [] => []
  | b :: r => (b &&& 0x7f#8) :: r

/-- `BslEncodeOidPart`, /repo/bsl/obj/src/bsl_obj.c:736-757; the bytes appended to `output`. -/
def encodePart (num : Nat) : M (List Byte) :=
  if num < 0x80 then .ok [BitVec.ofNat 8 (num &&& 0x7f)]
  else
    match tempLoop 10 num with
    | .error e => .error e
    | .ok t => .ok (clearFirst t).reverse

/-- The `for` loop over the characters, /repo/bsl/obj/src/bsl_obj.c:782-807.  `done` are the finished numbers
(`count` of them), `cur` is `parts[count]`. -/
def partsLoop : List Byte → List Nat → Nat → M (List Nat)
  | [], done, cur => .ok (done ++ [cur])
  | c :: r, done, cur =>
    if c.toNat > 57 ∨ (c.toNat < 48 ∧ c ≠ 46#8) then .error .invalid
    else if c = 46#8 ∧ r.head? = some 46#8 then .error .invalid
    else if c ≠ 46#8 then
      if cur > (2 ^ 64 - 1 - (c.toNat - 48)) / 10 then .error .invalid
      else partsLoop r done (cur * 10 + (c.toNat - 48))
    else if done.length + 1 ≥ 128 then .error .invalid
    else partsLoop r (done ++ [cur]) 0

/-- The encoding loop, /repo/bsl/obj/src/bsl_obj.c:824-826; `cap` is the size of `outBuf`, `out` its first `offset` bytes. -/
def encodeLoop (cap : Nat) : List Nat → List Byte → M (List Byte)
  | [], out => .ok out
  | p :: r, out =>
    match encodePart p with
    | .error e => .error e
    | .ok b => if out.length + b.length > cap then .error .oob else encodeLoop cap r (out ++ b)

/-- `BslEncodeOidValueCheck` and the encoding, /repo/bsl/obj/src/bsl_obj.c:759-769, 809-828. -/
def encodeParts (parts : List Nat) : M (List Byte) :=
  match parts with
  | x :: y :: rest =>
    if x > 2 then .error .invalid
    else if y ≥ 40 then .error .invalid
    else encodeLoop (parts.length * 10) rest [BitVec.ofNat 8 (x * 40 + y)]
  | _ => .error .invalid

/-- `BSL_OBJ_GetOidFromNumericString`, /repo/bsl/obj/src/bsl_obj.c:772-829; `*outLen` is the length of the result. -/
def fromText (s : List Byte) : M (List Byte) :=
  if s = [] ∨ s.head? = some 46#8 ∨ s.getLast? = some 46#8 then .error .invalid
  else
    match partsLoop s [] 0 with
    | .error e => .error e
    | .ok parts => encodeParts parts

/-- One row of `g_oidTable`: `BslOidInfo`, /repo/bsl/obj/include/bsl_obj_internal.h; `cid` as the number of the enumerator in
/repo/include/bsl/bsl_obj.h. -/
structure Info where
  octs : List Nat
  name : String
  cid : Nat
deriving DecidableEq, Repr

/-- `g_oidTable`, /repo/bsl/obj/src/bsl_obj.c:41-252, row by row. -/
def oidTable : List Info := [
  ⟨[96, 134, 72, 1, 101, 3, 4, 1, 1], "aes-128-ecb", 18⟩,
  ⟨[96, 134, 72, 1, 101, 3, 4, 1, 2], "aes-128-cbc", 19⟩,
  ⟨[96, 134, 72, 1, 101, 3, 4, 1, 3], "aes-128-ofb", 20⟩,
  ⟨[96, 134, 72, 1, 101, 3, 4, 1, 4], "aes-128-cfb", 21⟩,
  ⟨[96, 134, 72, 1, 101, 3, 4, 1, 21], "aes-192-ecb", 22⟩,
  ⟨[96, 134, 72, 1, 101, 3, 4, 1, 22], "aes-192-cbc", 23⟩,
  ⟨[96, 134, 72, 1, 101, 3, 4, 1, 23], "aes-192-ofb", 24⟩,
  ⟨[96, 134, 72, 1, 101, 3, 4, 1, 24], "aes-192-cfb", 25⟩,
  ⟨[96, 134, 72, 1, 101, 3, 4, 1, 41], "aes-256-ecb", 26⟩,
  ⟨[96, 134, 72, 1, 101, 3, 4, 1, 42], "aes-256-cbc", 27⟩,
  ⟨[96, 134, 72, 1, 101, 3, 4, 1, 43], "aes-256-ofb", 28⟩,
  ⟨[96, 134, 72, 1, 101, 3, 4, 1, 44], "aes-256-cfb", 29⟩,
  ⟨[42, 134, 72, 134, 247, 13, 1, 1, 1], "rsaEncryption", 34⟩,
  ⟨[42, 134, 72, 206, 56, 4, 1], "dsaEncryption", 35⟩,
  ⟨[42, 134, 72, 206, 62, 2, 1], "dhPublicNumber", 38⟩,
  ⟨[42, 134, 72, 134, 247, 13, 2, 5], "MD5", 40⟩,
  ⟨[43, 14, 3, 2, 26], "SHA1", 41⟩,
  ⟨[96, 134, 72, 1, 101, 3, 4, 2, 4], "SHA224", 42⟩,
  ⟨[96, 134, 72, 1, 101, 3, 4, 2, 1], "SHA256", 43⟩,
  ⟨[96, 134, 72, 1, 101, 3, 4, 2, 2], "SHA384", 44⟩,
  ⟨[96, 134, 72, 1, 101, 3, 4, 2, 3], "SHA512", 45⟩,
  ⟨[43, 6, 1, 5, 5, 8, 1, 1], "HMAC-MD5", 46⟩,
  ⟨[42, 134, 72, 134, 247, 13, 2, 7], "HMAC-SHA1", 47⟩,
  ⟨[42, 134, 72, 134, 247, 13, 2, 8], "HMAC-SHA224", 48⟩,
  ⟨[42, 134, 72, 134, 247, 13, 2, 9], "HMAC-SHA256", 49⟩,
  ⟨[42, 134, 72, 134, 247, 13, 2, 10], "HMAC-SHA384", 50⟩,
  ⟨[42, 134, 72, 134, 247, 13, 2, 11], "HMAC-SHA512", 51⟩,
  ⟨[42, 134, 72, 134, 247, 13, 1, 1, 4], "md5WithRSAEncryption", 52⟩,
  ⟨[42, 134, 72, 134, 247, 13, 1, 1, 5], "sha1WithRSAEncryption", 53⟩,
  ⟨[42, 134, 72, 206, 56, 4, 3], "dsaWithSHA1", 55⟩,
  ⟨[42, 134, 72, 206, 61, 4, 1], "ecdsa-with-SHA1", 57⟩,
  ⟨[42, 134, 72, 206, 61, 4, 3, 1], "ecdsa-with-SHA224", 58⟩,
  ⟨[42, 134, 72, 206, 61, 4, 3, 2], "ecdsa-with-SHA256", 59⟩,
  ⟨[42, 134, 72, 206, 61, 4, 3, 3], "ecdsa-with-SHA384", 60⟩,
  ⟨[42, 134, 72, 206, 61, 4, 3, 4], "ecdsa-with-SHA512", 61⟩,
  ⟨[42, 134, 72, 134, 247, 13, 1, 1, 11], "sha256WithRSAEncryption", 63⟩,
  ⟨[42, 134, 72, 134, 247, 13, 1, 1, 12], "sha384WithRSAEncryption", 64⟩,
  ⟨[42, 134, 72, 134, 247, 13, 1, 1, 13], "sha512WithRSAEncryption", 65⟩,
  ⟨[42, 134, 72, 206, 61, 3, 1, 1], "prime192v1", 101⟩,
  ⟨[42, 134, 72, 206, 61, 3, 1, 7], "prime256v1", 107⟩,
  ⟨[42, 134, 72, 134, 247, 13, 1, 5, 12], "PBKDF2", 121⟩,
  ⟨[42, 134, 72, 134, 247, 13, 1, 5, 13], "PBES2", 128⟩,
  ⟨[42, 134, 72, 134, 247, 13, 1, 9, 14], "Extension Request", 143⟩,
  ⟨[85, 4, 4], "SN", 157⟩,
  ⟨[85, 4, 42], "GN", 158⟩,
  ⟨[85, 4, 43], "initials", 159⟩,
  ⟨[85, 4, 44], "generationQualifier", 160⟩,
  ⟨[85, 4, 3], "CN", 161⟩,
  ⟨[85, 4, 7], "L", 162⟩,
  ⟨[85, 4, 8], "ST", 163⟩,
  ⟨[85, 4, 10], "O", 164⟩,
  ⟨[85, 4, 11], "OU", 165⟩,
  ⟨[85, 4, 12], "title", 166⟩,
  ⟨[85, 4, 46], "dnQualifier", 167⟩,
  ⟨[85, 4, 6], "C", 168⟩,
  ⟨[85, 4, 5], "serialNumber", 169⟩,
  ⟨[85, 4, 65], "pseudonym", 170⟩,
  ⟨[9, 146, 38, 137, 147, 242, 44, 100, 1, 25], "DC", 171⟩,
  ⟨[42, 134, 72, 134, 247, 13, 1, 9, 1], "emailAddress", 172⟩,
  ⟨[85, 29, 35], "AuthorityKeyIdentifier", 174⟩,
  ⟨[85, 29, 14], "SubjectKeyIdentifier", 175⟩,
  ⟨[85, 29, 15], "KeyUsage", 176⟩,
  ⟨[85, 29, 17], "SubjectAltName", 181⟩,
  ⟨[85, 29, 18], "IssuerAlternativeName", 182⟩,
  ⟨[85, 29, 19], "BasicConstraints", 184⟩,
  ⟨[85, 29, 31], "CRLDistributionPoints", 187⟩,
  ⟨[85, 29, 37], "ExtendedKeyUsage", 188⟩,
  ⟨[85, 29, 37, 0], "AnyExtendedKeyUsage", 189⟩,
  ⟨[43, 6, 1, 5, 5, 7, 3, 1], "ServerAuth", 190⟩,
  ⟨[43, 6, 1, 5, 5, 7, 3, 2], "ClientAuth", 191⟩,
  ⟨[43, 6, 1, 5, 5, 7, 3, 3], "CodeSigning", 192⟩,
  ⟨[43, 6, 1, 5, 5, 7, 3, 4], "EmailProtection", 193⟩,
  ⟨[43, 6, 1, 5, 5, 7, 3, 8], "TimeStamping", 194⟩,
  ⟨[43, 6, 1, 5, 5, 7, 3, 9], "OSCPSigning", 195⟩,
  ⟨[85, 29, 46], "FreshestCRL", 198⟩,
  ⟨[43, 6, 1, 5, 5, 7, 1, 1], "AuthorityInformationAccess", 199⟩,
  ⟨[85, 29, 20], "CrlNumber", 201⟩,
  ⟨[85, 29, 28], "IssuingDistributionPoint", 202⟩,
  ⟨[85, 29, 27], "DeltaCrlIndicator", 203⟩,
  ⟨[85, 29, 21], "CrlReason", 204⟩,
  ⟨[85, 29, 29], "CertificateIssuer", 205⟩,
  ⟨[85, 29, 24], "InvalidityDate", 211⟩,
  ⟨[42, 134, 72, 134, 247, 13, 1, 12, 10, 1, 1], "keyBag", 251⟩,
  ⟨[42, 134, 72, 134, 247, 13, 1, 12, 10, 1, 2], "pkcs8shroudedkeyBag", 252⟩,
  ⟨[42, 134, 72, 134, 247, 13, 1, 12, 10, 1, 3], "certBag", 253⟩,
  ⟨[42, 134, 72, 134, 247, 13, 1, 12, 10, 1, 4], "crlBag", 254⟩,
  ⟨[42, 134, 72, 134, 247, 13, 1, 12, 10, 1, 5], "secretBag", 255⟩,
  ⟨[42, 134, 72, 134, 247, 13, 1, 12, 10, 1, 6], "safeContent", 256⟩,
  ⟨[42, 134, 72, 134, 247, 13, 1, 9, 22, 1], "x509Certificate", 257⟩,
  ⟨[42, 134, 72, 134, 247, 13, 1, 9, 20], "friendlyName", 259⟩,
  ⟨[42, 134, 72, 134, 247, 13, 1, 9, 21], "localKeyId", 260⟩,
  ⟨[42, 134, 72, 134, 247, 13, 1, 7, 1], "data", 263⟩,
  ⟨[42, 134, 72, 134, 247, 13, 1, 7, 2], "signedData", 264⟩,
  ⟨[42, 134, 72, 134, 247, 13, 1, 7, 6], "encryptedData", 268⟩,
  ⟨[42, 134, 72, 134, 247, 13, 1, 9, 3], "contentType", 270⟩,
  ⟨[42, 134, 72, 134, 247, 13, 1, 9, 4], "messageDigest", 271⟩,
  ⟨[42, 134, 72, 134, 247, 13, 1, 9, 5], "signingTime", 272⟩,
  ⟨[43, 129, 4, 0, 34], "secp384r1", 288⟩,
  ⟨[43, 129, 4, 0, 35], "secp521r1", 289⟩,
  ⟨[42, 129, 28, 207, 85, 1, 131, 17], "SM3", 290⟩,
  ⟨[42, 129, 28, 207, 85, 1, 131, 17, 3, 1], "HMAC-SM3", 291⟩,
  ⟨[42, 129, 28, 207, 85, 1, 131, 117], "SM2DSAWITHSM3", 292⟩,
  ⟨[42, 129, 28, 207, 85, 1, 131, 118], "SM2DSAWITHSHA1", 293⟩,
  ⟨[42, 129, 28, 207, 85, 1, 131, 119], "SM2DSAWITHSHA256", 294⟩,
  ⟨[42, 129, 28, 207, 85, 1, 130, 45], "SM2PRIME256", 295⟩,
  ⟨[85, 4, 9], "STREET", 314⟩,
  ⟨[43, 129, 4, 0, 33], "secp224r1", 321⟩,
  ⟨[43, 101, 112], "ED25519", 334⟩,
  ⟨[43, 101, 110], "X25519", 335⟩,
  ⟨[42, 134, 72, 134, 247, 13, 1, 1, 10], "RSASSA-PSS", 336⟩,
  ⟨[42, 134, 72, 134, 247, 13, 1, 1, 8], "MGF1", 337⟩,
  ⟨[42, 129, 28, 207, 85, 1, 104, 2], "sm4-cbc", 344⟩,
  ⟨[42, 129, 28, 207, 85, 1, 131, 120], "sm3WithRSAEncryption", 348⟩,
  ⟨[96, 134, 72, 1, 101, 3, 4, 3, 2], "dsa-with-SHA256", 2004⟩,
  ⟨[96, 134, 72, 1, 101, 3, 4, 3, 1], "dsa-with-SHA224", 2005⟩,
  ⟨[96, 134, 72, 1, 101, 3, 4, 3, 3], "dsa-with-SHA384", 2006⟩,
  ⟨[96, 134, 72, 1, 101, 3, 4, 3, 4], "dsa-with-SHA512", 2007⟩,
  ⟨[42, 134, 72, 134, 247, 13, 1, 1, 14], "sha224WithRSAEncryption", 2008⟩,
  ⟨[96, 134, 72, 1, 101, 3, 4, 2, 7], "SHA3-224", 2009⟩,
  ⟨[96, 134, 72, 1, 101, 3, 4, 2, 8], "SHA3-256", 2010⟩,
  ⟨[96, 134, 72, 1, 101, 3, 4, 2, 9], "SHA3-384", 2011⟩,
  ⟨[96, 134, 72, 1, 101, 3, 4, 2, 10], "SHA3-512", 2012⟩,
  ⟨[96, 134, 72, 1, 101, 3, 4, 2, 11], "SHAKE128", 2013⟩,
  ⟨[96, 134, 72, 1, 101, 3, 4, 2, 12], "SHAKE256", 2014⟩,
  ⟨[43, 111, 2, 140, 83, 0, 1, 1], "aes-128-xts", 2022⟩,
  ⟨[43, 111, 2, 140, 83, 0, 1, 2], "aes-256-xts", 2023⟩,
  ⟨[96, 134, 72, 1, 101, 3, 4, 1, 5], "aes-128-wrap-nopad", 2024⟩,
  ⟨[96, 134, 72, 1, 101, 3, 4, 1, 25], "aes-192-wrap-nopad", 2025⟩,
  ⟨[96, 134, 72, 1, 101, 3, 4, 1, 45], "aes-256-wrap-nopad", 2026⟩,
  ⟨[96, 134, 72, 1, 101, 3, 4, 1, 8], "aes-128-wrap-pad", 2027⟩,
  ⟨[96, 134, 72, 1, 101, 3, 4, 1, 28], "aes-192-wrap-pad", 2028⟩,
  ⟨[96, 134, 72, 1, 101, 3, 4, 1, 48], "aes-256-wrap-pad", 2029⟩,
  ⟨[42, 129, 28, 207, 85, 1, 104, 10], "sm4-xts", 2031⟩,
  ⟨[42, 129, 28, 207, 85, 1, 104, 7], "sm4-ctr", 2032⟩,
  ⟨[42, 129, 28, 207, 85, 1, 104, 8], "sm4-gcm", 2033⟩,
  ⟨[42, 129, 28, 207, 85, 1, 104, 4], "sm4-cfb", 2034⟩,
  ⟨[42, 129, 28, 207, 85, 1, 104, 3], "sm4-ofb", 2035⟩,
  ⟨[43, 36, 3, 3, 2, 8, 1, 1, 7], "brainpoolP256r1", 2073⟩,
  ⟨[43, 36, 3, 3, 2, 8, 1, 1, 11], "brainpoolP384r1", 2074⟩,
  ⟨[43, 36, 3, 3, 2, 8, 1, 1, 13], "brainpoolP512r1", 2075⟩,
  ⟨[42, 134, 72, 206, 61, 2, 1], "id-ecPublicKey", 2093⟩,
  ⟨[9, 146, 38, 137, 147, 242, 44, 100, 1, 1], "UID", 2094⟩,
  ⟨[96, 134, 72, 1, 101, 3, 4, 3, 17], "ML-DSA-44", 2120⟩,
  ⟨[96, 134, 72, 1, 101, 3, 4, 3, 18], "ML-DSA-65", 2121⟩,
  ⟨[96, 134, 72, 1, 101, 3, 4, 3, 19], "ML-DSA-87", 2122⟩,
  ⟨[96, 134, 72, 1, 101, 3, 4, 4, 1], "ML-KEM-512", 2123⟩,
  ⟨[96, 134, 72, 1, 101, 3, 4, 4, 2], "ML-KEM-768", 2124⟩,
  ⟨[96, 134, 72, 1, 101, 3, 4, 4, 3], "ML-KEM-1024", 2125⟩,
  ⟨[96, 134, 72, 1, 101, 3, 4, 3, 20], "SLH-DSA-SHA2-128S", 2126⟩,
  ⟨[96, 134, 72, 1, 101, 3, 4, 3, 26], "SLH-DSA-SHAKE-128S", 2127⟩,
  ⟨[96, 134, 72, 1, 101, 3, 4, 3, 21], "SLH-DSA-SHA2-128F", 2128⟩,
  ⟨[96, 134, 72, 1, 101, 3, 4, 3, 27], "SLH-DSA-SHAKE-128F", 2129⟩,
  ⟨[96, 134, 72, 1, 101, 3, 4, 3, 22], "SLH-DSA-SHA2-192S", 2130⟩,
  ⟨[96, 134, 72, 1, 101, 3, 4, 3, 28], "SLH-DSA-SHAKE-192S", 2131⟩,
  ⟨[96, 134, 72, 1, 101, 3, 4, 3, 23], "SLH-DSA-SHA2-192F", 2132⟩,
  ⟨[96, 134, 72, 1, 101, 3, 4, 3, 29], "SLH-DSA-SHAKE-192F", 2133⟩,
  ⟨[96, 134, 72, 1, 101, 3, 4, 3, 24], "SLH-DSA-SHA2-256S", 2134⟩,
  ⟨[96, 134, 72, 1, 101, 3, 4, 3, 30], "SLH-DSA-SHAKE-256S", 2135⟩,
  ⟨[96, 134, 72, 1, 101, 3, 4, 3, 25], "SLH-DSA-SHA2-256F", 2136⟩,
  ⟨[96, 134, 72, 1, 101, 3, 4, 3, 31], "SLH-DSA-SHAKE-256F", 2137⟩,
  ⟨[96, 134, 72, 1, 101, 3, 4, 3, 35], "HASH-SLH-DSA-SHA2-128S-WITH-SHA256", 2514⟩,
  ⟨[96, 134, 72, 1, 101, 3, 4, 3, 36], "HASH-SLH-DSA-SHA2-128F-WITH-SHA256", 2515⟩,
  ⟨[96, 134, 72, 1, 101, 3, 4, 3, 37], "HASH-SLH-DSA-SHA2-192S-WITH-SHA512", 2516⟩,
  ⟨[96, 134, 72, 1, 101, 3, 4, 3, 38], "HASH-SLH-DSA-SHA2-192F-WITH-SHA512", 2517⟩,
  ⟨[96, 134, 72, 1, 101, 3, 4, 3, 39], "HASH-SLH-DSA-SHA2-256S-WITH-SHA512", 2518⟩,
  ⟨[96, 134, 72, 1, 101, 3, 4, 3, 40], "HASH-SLH-DSA-SHA2-256F-WITH-SHA512", 2519⟩,
  ⟨[96, 134, 72, 1, 101, 3, 4, 3, 41], "HASH-SLH-DSA-SHAKE-128S-WITH-SHAKE128", 2520⟩,
  ⟨[96, 134, 72, 1, 101, 3, 4, 3, 42], "HASH-SLH-DSA-SHAKE-128F-WITH-SHAKE128", 2521⟩,
  ⟨[96, 134, 72, 1, 101, 3, 4, 3, 43], "HASH-SLH-DSA-SHAKE-192S-WITH-SHAKE256", 2522⟩,
  ⟨[96, 134, 72, 1, 101, 3, 4, 3, 44], "HASH-SLH-DSA-SHAKE-192F-WITH-SHAKE256", 2523⟩,
  ⟨[96, 134, 72, 1, 101, 3, 4, 3, 45], "HASH-SLH-DSA-SHAKE-256S-WITH-SHAKE256", 2524⟩,
  ⟨[96, 134, 72, 1, 101, 3, 4, 3, 46], "HASH-SLH-DSA-SHAKE-256F-WITH-SHAKE256", 2525⟩,
  ⟨[43, 6, 1, 5, 5, 7, 6, 34], "XMSS", 5207⟩,
  ⟨[43, 6, 1, 5, 5, 7, 6, 37], "MLDSA44-RSA2048-PSS-SHA256", 5209⟩,
  ⟨[43, 6, 1, 5, 5, 7, 6, 38], "MLDSA44-RSA2048-PKCS15-SHA256", 5210⟩,
  ⟨[43, 6, 1, 5, 5, 7, 6, 39], "MLDSA44-Ed25519-SHA512", 5211⟩,
  ⟨[43, 6, 1, 5, 5, 7, 6, 40], "MLDSA44-ECDSA-P256-SHA256", 5212⟩,
  ⟨[43, 6, 1, 5, 5, 7, 6, 41], "MLDSA65-RSA3072-PSS-SHA512", 5213⟩,
  ⟨[43, 6, 1, 5, 5, 7, 6, 42], "MLDSA65-RSA3072-PKCS15-SHA512", 5214⟩,
  ⟨[43, 6, 1, 5, 5, 7, 6, 43], "MLDSA65-RSA4096-PSS-SHA512", 5215⟩,
  ⟨[43, 6, 1, 5, 5, 7, 6, 44], "MLDSA65-RSA4096-PKCS15-SHA512", 5216⟩,
  ⟨[43, 6, 1, 5, 5, 7, 6, 45], "MLDSA65-ECDSA-P256-SHA512", 5217⟩,
  ⟨[43, 6, 1, 5, 5, 7, 6, 46], "MLDSA65-ECDSA-P384-SHA512", 5218⟩,
  ⟨[43, 6, 1, 5, 5, 7, 6, 47], "MLDSA65-ECDSA-brainpoolP256r1-SHA512", 5219⟩,
  ⟨[43, 6, 1, 5, 5, 7, 6, 48], "MLDSA65-Ed25519-SHA512", 5220⟩,
  ⟨[43, 6, 1, 5, 5, 7, 6, 49], "MLDSA87-ECDSA-P384-SHA512", 5221⟩,
  ⟨[43, 6, 1, 5, 5, 7, 6, 50], "MLDSA87-ECDSA-brainpoolP384r1-SHA512", 5222⟩,
  ⟨[43, 6, 1, 5, 5, 7, 6, 51], "MLDSA87-Ed448-SHAKE256", 5223⟩,
  ⟨[43, 6, 1, 5, 5, 7, 6, 52], "MLDSA87-RSA3072-PSS-SHA512", 5224⟩,
  ⟨[43, 6, 1, 5, 5, 7, 6, 53], "MLDSA87-RSA4096-PSS-SHA512", 5225⟩,
  ⟨[43, 6, 1, 5, 5, 7, 6, 54], "MLDSA87-ECDSA-P521-SHA512", 5226⟩,
  ⟨[43, 6, 1, 5, 5, 7, 6, 35], "XMSSMT", 5229⟩,
  ⟨[42, 134, 72, 134, 247, 13, 1, 9, 23, 1], "x509crl", 5305⟩,
  ⟨[42, 134, 72, 134, 247, 13, 1, 9, 15], "smimeCapabilities", 5306⟩,
  ⟨[43, 6, 1, 5, 5, 7, 8, 7], "id-on-dnsSRV", 5307⟩]

/-- The `while` loop of `GetOidIndex`, /repo/bsl/obj/src/bsl_obj.c:286-302.  `hi` is `right + 1`; every turn shrinks the
interval, so `fuel` at least `hi - lo` turns is no restriction (`GetOidIndex` is called with the size of the table). -/
def indexLoop (table : List Info) (cid : Nat) : (fuel lo hi : Nat) → M (Option Nat)
  | 0, _, _ => .ok none
  | fuel + 1, lo, hi =>
    if lo < hi then
      let mid := (hi - 1 - lo) / 2 + lo
      match table[mid]? with
      | none => .error .oob
      | some e =>
        if e.cid = cid then .ok (some mid)
        else if e.cid > cid then indexLoop table cid fuel lo mid
        else indexLoop table cid fuel (mid + 1) hi
    else .ok none

/-- `GetOidIndex`, /repo/bsl/obj/src/bsl_obj.c:286-302. -/
def getOidIndex (table : List Info) (cid : Nat) : M (Option Nat) := indexLoop table cid table.length 0 table.length

/-- The table search of `BSL_OBJ_GetCidFromOidBuff` and `BSL_OBJ_GetOidNameFromOidBuff`,
/repo/bsl/obj/src/bsl_obj.c:311-317, 407-413. -/
def findOid (oid : List Nat) : List Info → Option Info
  | [] => none
  | e :: r => if e.octs.length = oid.length ∧ e.octs = oid then some e else findOid oid r

/-- The registered objects (`g_oidHashTable`), in the order in which the iterator meets them. -/
abbrev Registry := List Info

/-- `BSL_HASH_At` on the registry, keyed by `cid` (/repo/bsl/obj/src/bsl_obj.c:389, 557, 600). -/
def findCid (cid : Nat) : Registry → Option Info
  | [] => none
  | e :: r => if e.cid = cid then some e else findCid cid r

/-- `BSL_OBJ_Create`, /repo/bsl/obj/src/bsl_obj.c:612-651: the result and the registry after it; `BSL_CID_UNKNOWN` is 0.
`place` is where the hash table puts the new entry in iteration order. -/
def create (place : Nat) (reg : Registry) (octs : List Nat) (name : String) (cid : Nat) : Bool × Registry :=
  if octs = [] ∨ cid = 0 then (false, reg)
  else if (findCid cid oidTable).isSome then (true, reg)
  else if (findCid cid reg).isSome then (true, reg)
  else (true, reg.take place ++ ⟨octs, name, cid⟩ :: reg.drop place)

/-- `BSL_OBJ_GetCidFromOidBuff`, /repo/bsl/obj/src/bsl_obj.c:304-349. -/
def getCid (reg : Registry) (oid : List Nat) : Nat :=
  if oid = [] then 0
  else
    match findOid oid oidTable with
    | some e => e.cid
    | none =>
      match findOid oid reg with
      | some e => e.cid
      | none => 0

/-- `BSL_OBJ_GetOidNameFromOidBuff`, /repo/bsl/obj/src/bsl_obj.c:400-446. -/
def getName (reg : Registry) (oid : List Nat) : Option String :=
  if oid = [] then none
  else
    match findOid oid oidTable with
    | some e => some e.name
    | none => (findOid oid reg).map (·.name)

/-- `BSL_OBJ_GetOID`, /repo/bsl/obj/src/bsl_obj.c:359-398. -/
def getOid (reg : Registry) (cid : Nat) : M (List Nat) :=
  if cid = 0 then .error .invalid
  else
    match getOidIndex oidTable cid with
    | .error e => .error e
    | .ok (some i) =>
      match oidTable[i]? with
      | none => .error .oob
      | some e => .ok e.octs
    | .ok none =>
      match findCid cid reg with
      | none => .error .invalid
      | some e => .ok e.octs

/-- `BSL_OBJ_GetOidNameFromCID`, /repo/bsl/obj/src/bsl_obj.c:511-521; `cidMax` is `BSL_CID_MAX`. -/
def getNameFromCid (cidMax cid : Nat) : M (Option String) :=
  if cid ≥ cidMax then .ok none
  else
    match getOidIndex oidTable cid with
    | .error e => .error e
    | .ok none => .ok none
    | .ok (some i) =>
      match oidTable[i]? with
      | none => .error .oob
      | some e => .ok (some e.name)

end Verif.Bsl.Oid
