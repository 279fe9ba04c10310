import Verif.Crypto.Modes.Cipher
import Verif.Bsl.Bytes.Model

/-!
# Model of the RSA paddings

`crypto/rsa/src/rsa_padding.c` and `crypto/util/crypt_util_mgf.c`.  Buffers are byte lists, the length
argument that goes with a buffer is the length of its list.  Null-pointer checks, allocation failures and
failures of the hash provider are left out.  `Err.oob` marks a read or write outside a buffer; it is not a
return code of the code, and the theorems show that it does not occur.
-/

namespace Verif.Crypto.RsaPad

open Verif.Common Verif.Bsl.Bytes Verif.Crypto.Modes

/-- `EAL_MdMethod` as used by `CRYPT_CalcHash` (`crypto/util/crypt_util_mgf.c:27-60`): a hash over the
concatenation of the pieces, `mdSize` bytes long. -/
structure Hash where
  size : Nat
  h : List Byte → List Byte
  pos : 0 < size
  len : ∀ x, (h x).length = size

/-- Return codes that the model distinguishes (`crypt_errno.h`). -/
inductive Err
  | keyBits | inputValue | buffLen | pssSaltLen | norVerify | mdAlgId | encBits | cpy | rand | oob
  deriving DecidableEq, Repr

/-- `RSA_MIN_MODULUS_BITS`, `crypto/rsa/include/crypt_rsa.h:32`. -/
def minBits : Nat := 512
/-- `RSA_MAX_MODULUS_BITS`, `crypt_rsa.h:33`. -/
def maxBits : Nat := 16384
/-- `RSA_MAX_MODULUS_LEN`, `crypt_rsa.h:37`. -/
def maxLen : Nat := 2048
/-- `HASH_MAX_MDSIZE` (64). -/
def maxMd : Nat := 64

/-! ## MGF1 -/

/-- The loop of `CRYPT_Mgf1`, `crypt_util_mgf.c:79-88`: block counter `i`, `outLen` bytes in `acc`. -/
def mgfLoop (H : Hash) (seed : List Byte) (maskLen i outLen : Nat) (acc : List Byte) : List Byte :=
  if outLen < maskLen then
    let partLen := if outLen + H.size ≤ maskLen then H.size else maskLen - outLen
    mgfLoop H seed maskLen (i + 1) (outLen + partLen) (acc ++ (H.h (seed ++ beBytes 4 i)).take partLen)
  else acc
termination_by maskLen - outLen
decreasing_by
  have := H.pos
  split <;> omega

/-- `CRYPT_Mgf1`, `crypt_util_mgf.c:62-92`.  With `maskLen = 0` the initial error code is returned. -/
def mgf1 (H : Hash) (seed : List Byte) (maskLen : Nat) : Except Err (List Byte) :=
  if H.size > maxMd then .error .inputValue
  else if maskLen = 0 then .error .inputValue
  else .ok (mgfLoop H seed maskLen 0 0 [])

/-! ## EMSA-PSS -/

/-- `BN_BITS_TO_BYTES`. -/
def bitsToBytes (n : Nat) : Nat := (n + 7) / 8

/-- `maskedDB[0] &= (uint8_t)(0xFF >> (8 - msBit))` unless `msBit` is 0, `rsa_padding.c:47-50`, `:220-222`. -/
def clearTop (msBit : Nat) : List Byte → Except Err (List Byte)
  | b :: r => if msBit = 0 then .ok (b :: r) else .ok ((b &&& (0xff#8 >>> (8 - msBit))) :: r)
  | [] => if msBit = 0 then .ok [] else .error .oob

/-- `MaskDB`, `rsa_padding.c:38-51`. -/
def maskDB (db salt : List Byte) (msBit : Nat) : Except Err (List Byte) :=
  if db.length < salt.length + 1 then .error .oob
  else
    let k := db.length - salt.length - 1
    clearTop msBit (db.take k ++ xorB (db.drop k) (1#8 :: salt))

/-- `CRYPT_RSA_SALTLEN_TYPE_HASHLEN` / `_MAXLEN` / `_AUTOLEN` cast to `uint32_t`, `crypt_types.h:79-84`. -/
def saltHash : Nat := 2 ^ 32 - 1
def saltMax : Nat := 2 ^ 32 - 2
def saltAuto : Nat := 2 ^ 32 - 3

/-- `PssEncodeLengthCheck`, `rsa_padding.c:53-86`. -/
def pssLengthCheck (modBits hLen saltLen dataLen padLen : Nat) : Except Err Unit :=
  if modBits < minBits ∨ modBits > maxBits then .error .keyBits
  else if hLen > maxLen ∨ dataLen ≠ hLen then .error .inputValue
  else if bitsToBytes modBits ≠ padLen then .error .buffLen
  else if saltLen = saltAuto then .ok ()
  else if saltLen > maxLen then .error .pssSaltLen
  else
    let emLen := if (modBits - 1) % 8 = 0 then bitsToBytes modBits - 1 else bitsToBytes modBits
    if emLen < hLen + saltLen + 2 then .error .pssSaltLen else .ok ()

/-- `GenPssSalt`, `rsa_padding.c:89-118`.  `rand n` is what `CRYPT_RandEx` delivers for `n` bytes. -/
def genSalt (rand : Nat → List Byte) (saltLen hLen padLen : Nat) : Except Err (List Byte) :=
  if saltLen = saltHash then .ok (rand hLen)
  else if saltLen = saltMax ∨ saltLen = saltAuto then
    if padLen ≤ hLen + 2 then .error .pssSaltLen else .ok (rand (padLen - hLen - 2))
  else .ok (rand saltLen)

/-- The salt of `CRYPT_RSA_SetPss`, `rsa_padding.c:161-171`: the one set in the context, else a random one,
else none. -/
def pickSalt (rand : Nat → List Byte) (kat : Option (List Byte)) (saltLen hLen padLen : Nat) :
    Except Err (List Byte) :=
  match kat with
  | some s => .ok s
  | none => if saltLen ≠ 0 then genSalt rand saltLen hLen padLen else .ok []

/-- `CRYPT_RSA_SetPss` after the salt has been chosen, `rsa_padding.c:173-207`; the `padLen` bytes of the
output buffer are all written, so its old content does not matter. -/
def pssEncode (H M : Hash) (modBits : Nat) (salt data : List Byte) (padLen : Nat) : Except Err (List Byte) := do
  pssLengthCheck modBits H.size salt.length data.length padLen
  let msBit := (modBits - 1) % 8
  let emLen := if msBit = 0 then bitsToBytes modBits - 1 else bitsToBytes modBits
  if emLen < H.size + 1 then .error .oob
  else
    let maskedDBLen := emLen - H.size - 1
    let h := H.h (List.replicate 8 0#8 ++ data ++ salt)
    let m ← mgf1 M h maskedDBLen
    let db ← maskDB m salt msBit
    .ok ((if msBit = 0 then [0#8] else []) ++ db ++ h ++ [0xbc#8])

/-- `CRYPT_RSA_SetPss`, `rsa_padding.c:153-207`. -/
def setPss (H M : Hash) (modBits : Nat) (rand : Nat → List Byte) (kat : Option (List Byte)) (saltLen : Nat)
    (data : List Byte) (padLen : Nat) : Except Err (List Byte) := do
  let salt ← pickSalt rand kat saltLen H.size padLen
  pssEncode H M modBits salt data padLen

/-- The loop of `GetVerifySaltLen`, `rsa_padding.c:223-238`: `tmp` and `em` from index `i` on; the first
non-zero `tmp[i] ^ em[i]` has to be 1, then the bytes after it are the salt. -/
def autoSalt : List Byte → List Byte → Except Err Nat
  | t :: ts, e :: es =>
    if t ^^^ e ≠ 0#8 then (if t ^^^ e = 1#8 then .ok ts.length else .error .pssSaltLen) else autoSalt ts es
  | _ :: _, [] => .error .oob
  | [], _ => .error .pssSaltLen

/-- `GetVerifySaltLen`, `rsa_padding.c:211-239`. -/
def getVerifySaltLen (em dbBuff : List Byte) (msBit : Nat) : Except Err Nat := do
  let tmp ← clearTop msBit dbBuff
  autoSalt tmp em

/-- `GetAndVerifyDB` once the mask and the salt length are known, `rsa_padding.c:259-266`: gives the unmasked
block and the salt length. -/
def dbCheck (m em : List Byte) (dbLen sl msBit : Nat) : Except Err (List Byte × Nat) := do
  if dbLen < sl then .error .oob
  else
    let db ← maskDB m ((em.drop (dbLen - sl)).take sl) msBit
    if db.take (dbLen - sl) ≠ em.take (dbLen - sl) then .error .norVerify
    else .ok (db, sl)

/-- `GetAndVerifyDB`, `rsa_padding.c:241-267`.  `em` is the encoded message, `dbLen` the length of the masked
block. -/
def getAndVerifyDB (M : Hash) (em : List Byte) (dbLen saltLen msBit : Nat) :
    Except Err (List Byte × Nat) := do
  let m ← mgf1 M ((em.drop dbLen).take (em.length - dbLen - 1)) dbLen
  let sl ← if saltLen = saltAuto then getVerifySaltLen em m msBit else .ok saltLen
  dbCheck m em dbLen sl msBit

/-- `VerifyH`, `rsa_padding.c:269-291`. -/
def verifyH (H : Hash) (mHash salt h : List Byte) : Except Err Unit :=
  if h ≠ H.h (List.replicate 8 0#8 ++ mHash ++ salt) then .error .norVerify else .ok ()

/-- `CRYPT_RSA_VerifyPss` after the length check, `rsa_padding.c:315-351`. -/
def verifyCore (H M : Hash) (modBits sl : Nat) (data pad : List Byte) : Except Err Unit :=
  match pad.getLast?, pad with
  | some l, p0 :: p1 =>
    if l ≠ 0xbc#8 then .error .norVerify
    else
      let msBit := (modBits - 1) % 8
      let em := if msBit = 0 then p1 else p0 :: p1
      if p0 >>> msBit ≠ 0#8 then .error .norVerify
      else if em.length < H.size + 1 then .error .norVerify
      else do
        let dbLen := em.length - H.size - 1
        let r ← getAndVerifyDB M em dbLen sl msBit
        verifyH H data ((r.1.drop (dbLen - r.2)).take r.2) ((em.drop dbLen).take H.size)
  | _, _ => .error .oob

/-- The salt length `CRYPT_RSA_VerifyPss` works with, `rsa_padding.c:305-311`. -/
def verifySalt (saltLen hLen padLen : Nat) : Nat :=
  if saltLen = saltHash then hLen
  else if saltLen = saltMax then (padLen + 2 ^ 32 - hLen - 2) % 2 ^ 32 else saltLen

/-- `CRYPT_RSA_VerifyPss`, `rsa_padding.c:295-351`. -/
def verifyPss (H M : Hash) (modBits saltLen : Nat) (data pad : List Byte) : Except Err Unit := do
  let sl := verifySalt saltLen H.size pad.length
  pssLengthCheck modBits H.size sl data.length pad.length
  verifyCore H M modBits sl data pad

/-! ## ISO 9796-2 -/

/-- `CRYPT_RSA_SetIso9796_2`, `rsa_padding.c:357-369`, after `Iso9796_2_CheckMlHashLen`
(`rsa_encdec.c:713-730`), for a buffer holding `pad` before the call. -/
def setIso (hLen : Nat) (mlHash pad : List Byte) : Except Err (List Byte) :=
  if pad.length < hLen + 2 then .error .inputValue
  else if mlHash.length ≠ pad.length - 2 then .error .inputValue
  else if mlHash.length > pad.length - 2 then .error .cpy
  else .ok (0x6a#8 :: mlHash ++ (pad.drop (1 + mlHash.length)).take (pad.length - 2 - mlHash.length) ++ [0xbc#8])

/-- `CRYPT_RSA_VerifyIso9796_2`, `rsa_padding.c:371-383`, after the same length check
(`rsa_encdec.c:922-926`). -/
def verifyIso (hLen : Nat) (mlHash pad : List Byte) : Except Err Unit :=
  if pad.length < hLen + 2 then .error .inputValue
  else if mlHash.length ≠ pad.length - 2 then .error .inputValue
  else if pad.head? ≠ some 0x6a#8 ∨ pad.getLast? ≠ some 0xbc#8 then .error .norVerify
  else if (pad.drop 1).take mlHash.length ≠ mlHash then .error .norVerify
  else .ok ()

/-! ## EMSA-PKCS1-v1_5 -/

/-- The hash identifiers `PkcsGetIdentifier` knows, and any other one. -/
inductive MdId
  | sha1 | sha224 | sha256 | sha384 | sha512 | md5 | sm3 | other
  deriving DecidableEq, Repr

/-- `PkcsGetIdentifier`, `rsa_padding.c:404-449`. -/
def identifier : MdId → Except Err (List Byte)
  | .sha1 => .ok [0x30, 0x21, 0x30, 0x09, 0x06, 0x05, 0x2b, 0x0e, 0x03, 0x02, 0x1a, 0x05, 0x00, 0x04, 0x14]
  | .sha224 => .ok [0x30, 0x2d, 0x30, 0x0d, 0x06, 0x09, 0x60, 0x86, 0x48, 0x01, 0x65, 0x03, 0x04, 0x02, 0x04,
      0x05, 0x00, 0x04, 0x1c]
  | .sha256 => .ok [0x30, 0x31, 0x30, 0x0d, 0x06, 0x09, 0x60, 0x86, 0x48, 0x01, 0x65, 0x03, 0x04, 0x02, 0x01,
      0x05, 0x00, 0x04, 0x20]
  | .sha384 => .ok [0x30, 0x41, 0x30, 0x0d, 0x06, 0x09, 0x60, 0x86, 0x48, 0x01, 0x65, 0x03, 0x04, 0x02, 0x02,
      0x05, 0x00, 0x04, 0x30]
  | .sha512 => .ok [0x30, 0x51, 0x30, 0x0d, 0x06, 0x09, 0x60, 0x86, 0x48, 0x01, 0x65, 0x03, 0x04, 0x02, 0x03,
      0x05, 0x00, 0x04, 0x40]
  | .md5 => .ok [0x30, 0x20, 0x30, 0x0c, 0x06, 0x08, 0x2a, 0x86, 0x48, 0x86, 0xf7, 0x0d, 0x02, 0x05, 0x05, 0x00,
      0x04, 0x10]
  | .sm3 => .ok [0x30, 0x30, 0x30, 0x0c, 0x06, 0x08, 0x2a, 0x81, 0x1c, 0xcf, 0x55, 0x01, 0x83, 0x11, 0x05, 0x00,
      0x04, 0x20]
  | .other => .error .mdAlgId

/-- `CRYPT_GetMdSizeById` for these identifiers (0 for an unknown one). -/
def mdSize : MdId → Nat
  | .sha1 => 20 | .sha224 => 28 | .sha256 => 32 | .sha384 => 48 | .sha512 => 64 | .md5 => 16 | .sm3 => 32
  | .other => 0

/-- `PkcsSetLengthCheck`, `rsa_padding.c:386-402`. -/
def pkcsLengthCheck (emLen hashLen algLen : Nat) : Except Err Unit :=
  if emLen > maxLen ∨ hashLen > maxLen then .error .inputValue
  else if hashLen = 0 then .error .inputValue
  else if emLen < hashLen + algLen + 11 then .error .buffLen
  else .ok ()

/-- `CRYPT_RSA_SetPkcsV15Type1`, `rsa_padding.c:453-506`: the pieces in the order they stand in the buffer
(`data` is moved to its end first, then 00 01, the `0xff` bytes, 00 and the identifier are written). -/
def setType1 (id : MdId) (data : List Byte) (padLen : Nat) : Except Err (List Byte) := do
  let alg ← identifier id
  pkcsLengthCheck padLen data.length alg.length
  let padSize := padLen - data.length - alg.length - 3
  if padSize > padLen - 2 then .error .cpy
  else if alg.length > padLen - 2 - padSize - 1 then .error .cpy
  else .ok ([0#8, 1#8] ++ List.replicate padSize 0xff#8 ++ [0#8] ++ alg ++ data)

/-- `CRYPT_RSA_VerifyPkcsV15Type1`, `rsa_padding.c:509-543`. -/
def verifyType1 (id : MdId) (pad data : List Byte) : Except Err Unit :=
  if pad.length = 0 ∨ data.length = 0 then .error .inputValue
  else do
    let b ← setType1 id data pad.length
    if pad ≠ b then .error .norVerify else .ok ()

/-- `CRYPT_RSA_UnPackPkcsV15Type1`, `rsa_padding.c:546-567`; `cap` is `*outLen`. -/
def unpackType1 (id : MdId) (em : List Byte) (cap : Nat) : Except Err (List Byte) :=
  let hashLen := mdSize id
  if hashLen = 0 ∨ hashLen > em.length then .error .mdAlgId
  else do
    let cand := em.drop (em.length - hashLen)
    verifyType1 id em cand
    if hashLen > cap then .error .buffLen else .ok cand

/-! ## RSAES-OAEP -/

/-- `OaepSetLengthCheck`, `rsa_padding.c:574-590`. -/
def oaepSetCheck (outLen inLen hashLen : Nat) : Except Err Unit :=
  if outLen > maxLen ∨ inLen > maxLen ∨ hashLen > maxMd then .error .inputValue
  else if outLen = 0 ∨ hashLen = 0 then .error .inputValue
  else if inLen + 2 * hashLen + 2 > outLen then .error .encBits
  else .ok ()

/-- `CRYPT_RSA_SetPkcs1Oaep` with `OaepSetPs`, `OaepSetMaskedDB`, `OaepSetSeedMask`,
`rsa_padding.c:592-750`.  `seed` is what `CRYPT_RandEx` delivers. -/
def setOaep (H M : Hash) (label seed msg : List Byte) (padLen : Nat) : Except Err (List Byte) := do
  oaepSetCheck padLen msg.length H.size
  let psLen := padLen - msg.length - 2 * H.size - 2
  if msg.length > padLen - 2 * H.size - 2 - psLen then .error .cpy
  else
    let db := H.h label ++ List.replicate psLen 0#8 ++ [1#8] ++ msg
    let dbMask ← mgf1 M seed (padLen - H.size - 1)
    let maskedDB := xorB db dbMask
    let seedMask ← mgf1 M maskedDB H.size
    .ok (0#8 :: xorB seed seedMask ++ maskedDB)

/-- `OaepVerifyLengthCheck`, `rsa_padding.c:757-773`. -/
def oaepVerifyCheck (outLen inLen hashLen : Nat) : Except Err Unit :=
  if inLen > maxLen ∨ hashLen > maxMd then .error .inputValue
  else if outLen = 0 ∨ hashLen = 0 ∨ inLen = 0 then .error .inputValue
  else if inLen < 2 * hashLen + 2 then .error .buffLen
  else .ok ()

/-- The scan of `OaepVerifyHashMaskDB`, `rsa_padding.c:828-834`: bytes from index `i` on. -/
def oaepScan : BitVec 32 → List Byte → BitVec 32 → BitVec 32
  | _, [], index => index
  | i, b :: r, index =>
    let notZero := ~~~ ctIsZero (b.setWidth 32)
    let firstFind := ctIsZero index
    oaepScan (i + 1#32) r (ctSelect firstFind (notZero &&& i) index)

/-- `OaepVerifyHashMaskDB`, `rsa_padding.c:815-844`: `(offset, valid)`. -/
def oaepVerifyDb (H : Hash) (label db : List Byte) (valid : BitVec 32) : Except Err (BitVec 32 × BitVec 32) :=
  let v1 := valid &&& ctMemcmp (db.take H.size) (H.h label)
  let index := oaepScan (BitVec.ofNat 32 H.size) (db.drop H.size) 0#32
  let v2 := v1 &&& ~~~ ctIsZero index
  let v3 := v2 &&& ctLt index (BitVec.ofNat 32 db.length)
  match db[index.toNat]? with
  | none => .error .oob
  | some b => .ok (index + 1#32, v3 &&& ctEqual (b.setWidth 32) 1#32)

/-- The copy loop of `CRYPT_RSA_VerifyPkcs1Oaep`, `rsa_padding.c:894-897`: `src` is the plaintext from
`offset` on, `msg` the caller's buffer, the first `n` bytes are gone through. -/
def ctCopy (valid : BitVec 32) : Nat → List Byte → List Byte → Except Err (List Byte)
  | 0, _, msg => .ok msg
  | n + 1, b :: src, m :: msg => do
    let r ← ctCopy valid n src msg
    .ok (ctSelect8 valid b m :: r)
  | _ + 1, _, _ => .error .oob

/-- What a decoder leaves behind: return code (`none` for success), the caller's buffer, and `*outLen`. -/
structure Dec where
  ret : Option Err
  buf : List Byte
  len : Nat
  deriving DecidableEq, Repr

/-- `CRYPT_RSA_VerifyPkcs1Oaep`, `rsa_padding.c:846-905`.  `buf` is the caller's buffer before the call, of
`*msgLen` bytes.  An error return before any output leaves buffer and length alone. -/
def verifyOaep (H M : Hash) (label inp buf : List Byte) : Dec :=
  let r : Except Err Dec := do
    if inp.length ≤ H.size + 1 then .error .inputValue
    else
      let dbLen := inp.length - H.size - 1
      oaepVerifyCheck buf.length inp.length H.size
      match inp with
      | [] => .error .oob
      | b0 :: rest =>
        let valid := 0xFFFFFFFF#32 &&& ctIsZero (b0.setWidth 32)
        let maskedSeed := rest.take H.size
        let maskedDB := rest.drop H.size
        let sm ← mgf1 M maskedDB H.size
        let seed := xorB sm maskedSeed
        let dm ← mgf1 M seed dbLen
        let db := xorB dm maskedDB
        let (offset, v) ← oaepVerifyDb H label db valid
        let avail := BitVec.ofNat 32 dbLen - offset
        let cap := BitVec.ofNat 32 buf.length
        let copyMask := ctGe cap avail
        let v' := v &&& copyMask
        let copyLen := ctSelect copyMask avail cap
        let out ← ctCopy v' copyLen.toNat (db.drop offset.toNat) buf
        .ok { ret := if (ctIsZero v') = 0#32 then none else some .norVerify
              buf := out
              len := (ctSelect v' avail cap).toNat }
  match r with
  | .ok d => d
  | .error e => { ret := some e, buf := buf, len := buf.length }

/-! ## RSAES-PKCS1-v1_5 -/

/-- `do { CRYPT_RandEx(ps + i, 1) } while (ps[i] == 0)`, `rsa_padding.c:944-950`: the first non-zero byte of
what the random source delivers, and the rest of it; an exhausted source is a failing one. -/
def nextNonZero : List Byte → Except Err (Byte × List Byte)
  | [] => .error .rand
  | b :: r => if b = 0#8 then nextNonZero r else .ok (b, r)

/-- The loop over PS, `rsa_padding.c:940-951`. -/
def fixPs : List Byte → List Byte → Except Err (List Byte)
  | _, [] => .ok []
  | rnd, p :: ps =>
    if p ≠ 0#8 then do
      let r ← fixPs rnd ps
      .ok (p :: r)
    else do
      let (b, rnd') ← nextNonZero rnd
      let r ← fixPs rnd' ps
      .ok (b :: r)

/-- `CRYPT_RSA_SetPkcsV15Type2`, `rsa_padding.c:910-954`.  `rand n` are the first random bytes, `rnd` what
the source delivers afterwards.  (`inLen + 11` is a `uint32_t` sum; lengths here are below 2^32 - 11.) -/
def setType2 (rand : Nat → List Byte) (rnd msg : List Byte) (outLen : Nat) : Except Err (List Byte) :=
  if msg.length + 11 > outLen then .error .buffLen
  else do
    let psLen := outLen - msg.length - 3
    if msg.length > outLen - (psLen + 3) then .error .cpy
    else
      let ps ← fixPs rnd (rand psLen)
      .ok ([0#8, 2#8] ++ ps ++ [0#8] ++ msg)

/-- The scan of both decoders, `rsa_padding.c:966-970`, `:1006-1010`: bytes from index `i` on, state
`(zeroIndex, index)`. -/
def t2Scan : BitVec 32 → List Byte → BitVec 32 × BitVec 32 → BitVec 32 × BitVec 32
  | _, [], s => s
  | i, b :: r, (zeroIndex, index) =>
    let equals0 := ctIsZero (b.setWidth 32)
    t2Scan (i + 1#32) r (ctSelect (index &&& equals0) i zeroIndex, ctSelect equals0 0#32 index)

/-- `CRYPT_RSA_VerifyPkcsV15Type2`, `rsa_padding.c:959-993`; `buf` as in `verifyOaep`. -/
def verifyType2 (inp buf : List Byte) : Dec :=
  match inp with
  | a :: b :: rest =>
    let s := t2Scan 2#32 rest (0#32, ~~~ 0#32)
    let valid := ctEqual (a.setWidth 32) 0#32 &&& ctEqual (b.setWidth 32) 2#32 &&& ~~~ s.2 &&& ctGe s.1 10#32
    let z := s.1 + 1#32
    let n := (BitVec.ofNat 32 inp.length - z).toNat
    if valid = 0#32 then { ret := some .norVerify, buf := buf, len := buf.length }
    else if n > buf.length then { ret := some .norVerify, buf := buf, len := buf.length }
    else if z.toNat + n > inp.length then { ret := some .oob, buf := buf, len := buf.length }
    else { ret := none, buf := (inp.drop z.toNat).take n ++ buf.drop n, len := n }
  | _ => { ret := some .oob, buf := buf, len := buf.length }

/-- The output loop of `CRYPT_RSA_VerifyPkcsV15Type2TLS`, `rsa_padding.c:1019-1023`: `n` bytes from index
`i` on. -/
def tlsOut (inp : List Byte) (valid secretLen z : BitVec 32) : Nat → BitVec 32 → Except Err (List Byte)
  | 0, _ => .ok []
  | n + 1, i =>
    let mask := valid &&& ctLt i secretLen
    let inIndex := ctSelect mask (z + i) 0#32
    match inp[inIndex.toNat]? with
    | none => .error .oob
    | some b => do
      let r ← tlsOut inp valid secretLen z n (i + 1#32)
      .ok (ctSelect8 mask b 0#8 :: r)

/-- `CRYPT_RSA_VerifyPkcsV15Type2TLS`, `rsa_padding.c:996-1029`. -/
def verifyType2Tls (inp buf : List Byte) : Dec :=
  match inp with
  | a :: b :: rest =>
    let s := t2Scan 2#32 rest (0#32, ~~~ 0#32)
    let v0 := ctEqual (a.setWidth 32) 0#32 &&& ctEqual (b.setWidth 32) 2#32 &&& ~~~ s.2 &&& ctGe s.1 10#32
    let z := s.1 + 1#32
    let secretLen := BitVec.ofNat 32 inp.length - z
    let cap := BitVec.ofNat 32 buf.length
    let valid := v0 &&& ~~~ ctGt secretLen cap
    match tlsOut inp valid secretLen z buf.length 0#32 with
    | .error e => { ret := some e, buf := buf, len := buf.length }
    | .ok out =>
      { ret := if ctIsZero valid = 0#32 then none else some .norVerify
        buf := out
        len := (ctSelect valid secretLen cap).toNat }
  | _ => { ret := some .norVerify, buf := buf, len := buf.length }

end Verif.Crypto.RsaPad
