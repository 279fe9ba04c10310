import Verif.Bsl.Bytes.Model
/-!
Model of /repo/tls/record/src/rec_crypto_aead.c.

Simplifications: the AEAD primitive (`SAL_CRYPT_Encrypt` / `SAL_CRYPT_Decrypt`) is a parameter; alerts sent on
failure are reduced to an error value; buffers are lists (`textLen` is the length of `text`).
-/
namespace Verif.Tls.Aead
open Verif.Common Verif.Bsl.Bytes

/-- Error results. `oob` stands for reading an array beyond its end. -/
inductive Err where
  | nonceParam | memcpyFail | encrypt | badRecordMac | invalidInput | oob
deriving DecidableEq, Repr

/-- Part of `RecConnSuitInfo` used here, /repo/tls/record/src/rec_conn.h:45-70 (`iv` is the whole
`REC_MAX_IV_LENGTH` array). -/
structure Suite where
  iv : List Byte
  fixedIvLength : Nat
  recordIvLength : Nat
  macLen : Nat

/-- `REC_TextInput`, /repo/tls/record/src/rec_conn.h:88-107. -/
structure TextInput where
  type : Byte
  version : BitVec 16
  negotiatedVersion : BitVec 16
  seq : List Byte
  dtls13Aad : List Byte
  dtls13Seq : List Byte
  text : List Byte

/-- `HITLS_VERSION_TLS13`, /repo/include/tls/hitls_type.h. -/
def versionTls13 : BitVec 16 := 0x0304
/-- `HITLS_VERSION_DTLS13`. -/
def versionDtls13 : BitVec 16 := 0xfefc

/-- `IS_TLS13_FAMILY_VERSION`, /repo/tls/include/tls.h:43. -/
def isTls13Family (v : BitVec 16) : Bool := v == versionTls13 || v == versionDtls13

/-- `REC_CONN_SEQ_SIZE`. -/
def seqSize : Nat := 8
/-- `AEAD_NONCE_SIZE`. -/
def nonceSize : Nat := 12
/-- `AEAD_AAD_MAX_SIZE` = `REC_DTLS13_AAD_MAX_SIZE` = 1 + 255 + 2 + 2,
/repo/tls/record/src/rec_header.h:58. -/
def aadMaxSize : Nat := 260

/-- `AeadGetNonce`, /repo/tls/record/src/rec_crypto_aead.c:65-106 (called with `nonceLen = 12`,
`seqLen = 8`). -/
def getNonce (s : Suite) (seq : List Byte) : Except Err (List Byte) :=
  if s.fixedIvLength + s.recordIvLength ≠ nonceSize then .error .nonceParam
  else if s.recordIvLength = seqSize then
    if s.iv.length < s.fixedIvLength ∨ seq.length < seqSize then .error .oob
    else .ok (s.iv.take s.fixedIvLength ++ seq.take seqSize)
  else if s.recordIvLength = 0 then
    if s.iv.length < nonceSize ∨ seq.length < seqSize then .error .oob
    else .ok (List.zipWith (· ^^^ ·) (List.replicate 4 0#8 ++ seq.take seqSize) (s.iv.take nonceSize))
  else .error .nonceParam

/-- `AeadGetAad`, /repo/tls/record/src/rec_crypto_aead.c:108-149. -/
def getAad (input : TextInput) (plainDataLen : Nat) : List Byte :=
  if input.negotiatedVersion = versionTls13 then
    [input.type] ++ uint16ToByte input.version ++ uint16ToByte (BitVec.ofNat 16 plainDataLen)
  else if input.negotiatedVersion = versionDtls13 then
    if input.dtls13Aad.length = 0 ∨ input.dtls13Aad.length > aadMaxSize then [] else input.dtls13Aad
  else
    input.seq.take seqSize ++ [input.type] ++ uint16ToByte input.version ++
      uint16ToByte (BitVec.ofNat 16 plainDataLen)

/-- `AeadCalCiphertextLen`, /repo/tls/record/src/rec_crypto_aead.c:151-156. -/
def calCiphertextLen (s : Suite) (plaintextLen : Nat) : Nat := plaintextLen + s.macLen + s.recordIvLength

/-- The AEAD algorithm under the current key: `enc nonce aad plaintext` (ciphertext followed by tag) and
`dec nonce aad ciphertext`. -/
structure Alg where
  enc : List Byte → List Byte → List Byte → List Byte
  dec : List Byte → List Byte → List Byte → Option (List Byte)

/-- `AeadEncrypt`, /repo/tls/record/src/rec_crypto_aead.c:265-326; `cipherTextLen` is
`AeadCalCiphertextLen` of the text, as computed by the callers (rec_write.c:329, 616). -/
def encrypt (alg : Alg) (s : Suite) (m : TextInput) : Except Err (List Byte) :=
  let cipherTextLen := calCiphertextLen s m.text.length
  if s.recordIvLength > 0 ∧ seqSize > cipherTextLen then .error .memcpyFail
  else
    let explicitIv := if s.recordIvLength > 0 then m.seq.take seqSize else []
    let nonceSeq := if m.negotiatedVersion = versionDtls13 then m.dtls13Seq else m.seq
    match getNonce s nonceSeq with
    | .error e => .error e
    | .ok nonce =>
      let textLen := if isTls13Family m.negotiatedVersion then cipherTextLen else m.text.length
      let out := alg.enc nonce (getAad m textLen) m.text
      if out.length ≠ cipherTextLen - explicitIv.length then .error .encrypt
      else .ok (explicitIv ++ out)

/-- `RecConnDecrypt` (length check, /repo/tls/record/src/rec_conn.c:243-256) followed by `AeadDecrypt`,
/repo/tls/record/src/rec_crypto_aead.c:172-250. `m.text` is the protected record. -/
def decrypt (alg : Alg) (s : Suite) (m : TextInput) : Except Err (List Byte) :=
  if m.text.length < calCiphertextLen s 0 then .error .badRecordMac
  else
    let cipherOffset := if s.recordIvLength > 0 then seqSize else 0
    let recordIv := if s.recordIvLength > 0 then m.text else m.seq
    let nonceSeq := if m.negotiatedVersion = versionDtls13 then m.dtls13Seq else recordIv
    match getNonce s nonceSeq with
    | .error e => .error e
    | .ok nonce =>
      let plainDataLen :=
        if isTls13Family m.negotiatedVersion then m.text.length
        else m.text.length - s.recordIvLength - s.macLen
      match alg.dec nonce (getAad m plainDataLen) (m.text.drop cipherOffset) with
      | none => .error .badRecordMac
      | some p => .ok p

end Verif.Tls.Aead
