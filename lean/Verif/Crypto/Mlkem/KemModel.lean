import Verif.Crypto.Mlkem.CodecModel
/-! Model of the byte-level operations: `PkeKeyGen`, `PkeEncrypt`, `PkeDecrypt`, `MLKEM_KeyGenInternal`,
`MLKEM_EncapsInternal`, `MLKEM_DecapsInternal`, `MLKEM_DecodeDk`, `MLKEM_DecodeEk` of
`/repo/crypto/mlkem/src/ml_kem_pke.c`, with the sampling of `ml_kem_poly.c`.

Not modelled: allocation failures, null checks, the lookup of the SHAKE128 method, clearing of buffers.  SHA3-256,
SHA3-512, SHAKE256 and SHAKE128 are parameters: any functions of their input bytes.  A byte buffer is a function of
the index. -/
namespace Verif.Crypto.Mlkem

/-- The hash functions, as arbitrary functions from input bytes to output bytes. -/
structure Prims where
  /-- `CRYPT_SHA3_512`; output byte `n`. -/
  G : List Nat → Nat → Nat
  /-- `CRYPT_SHA3_256`; output byte `n`. -/
  H : List Nat → Nat → Nat
  /-- `CRYPT_SHAKE256`; output byte `n` (a longer output extends a shorter one). -/
  J : List Nat → Nat → Nat
  /-- SHAKE128: block number `b` of 168 bytes. -/
  xof : List Nat → Nat → List Nat

/-- `CRYPT_MlKemInfo`, ml_kem_local.h:82-95 (the fields used here). -/
structure Params where
  k : Nat
  eta1 : Nat
  eta2 : Nat
  du : Nat
  dv : Nat

/-- `ML_KEM_INFO`, ml_kem.c:30-34. -/
def paramTable : List Params := [⟨2, 3, 2, 10, 4⟩, ⟨3, 2, 2, 10, 4⟩, ⟨4, 2, 2, 11, 5⟩]

/-- `cipherLen` of `ML_KEM_INFO`: 768, 1088, 1568 (checked in `Props`). -/
def cipherLen (p : Params) : Nat := 32 * (p.du * p.k + p.dv)

/-- The bytes `a[off .. off + len)`. -/
def bytes (a : Nat → Nat) (off len : Nat) : List Nat := (List.range len).map (fun i => a (off + i))

/-- `MLKEM_SamplePolyCBD` into a buffer of zeros. -/
def cbdPoly (eta : Nat) (buf : Nat → Nat) : Poly := fun x => match cbd eta buf x with
  | some v => v
  | none => 0

/-- `PRF`: `CRYPT_SHAKE256` of the 32-byte seed and the nonce byte, as in ml_kem_poly.c:255-257. -/
def prf (P : Prims) (seed : Nat → Nat) (nonce : Nat) : Nat → Nat := P.J (bytes seed 0 32 ++ [nonce])

/-- The entry `polyMatrix[i][j]` of `GenMatrix(…, isEnc = false)`, ml_kem_poly.c:338-356, when `fuel` blocks suffice. -/
def matrixEntry (P : Prims) (fuel : Nat) (rho : Nat → Nat) (i j : Nat) : Option Poly :=
  sampleNtt (fun _ => 0, 0) ((List.range fuel).map (P.xof (bytes rho 0 32 ++ [j, i])))

/-- The working form of a key, `MLKEM_MatrixSt`, ml_kem_local.h:74-80. -/
structure KeyData where
  a : Nat → Nat → Poly
  s : Nat → Poly
  t : Nat → Poly

/-- Concatenation of `k` encodings of 384 bytes each, ml_kem_poly.c:381-386. -/
def encVec (v : Nat → Poly) (n : Nat) : Nat := encodeBits12 (fun i => u16 (addQ (v (n / 384)) i)) (n % 384)

/-- `ek`: the encoded `t` and the seed, ml_kem_poly.c:381-388. -/
def ekBytes (k : Nat) (t : Nat → Poly) (rho : Nat → Nat) (n : Nat) : Nat :=
  if n < 384 * k then encVec t n else rho (n - 384 * k)

/-- `dk`: the encoded `s`, `ek`, `H(ek)` and `z`, `MLKEM_KeyGenInternal`, ml_kem_pke.c:472-487. -/
def dkBytes (P : Prims) (k : Nat) (s : Nat → Poly) (ek : Nat → Nat) (z : Nat → Nat) (n : Nat) : Nat :=
  if n < 384 * k then encVec s n
  else if n < 384 * k + (384 * k + 32) then ek (n - 384 * k)
  else if n < 384 * k + (384 * k + 32) + 32 then P.H (bytes ek 0 (384 * k + 32)) (n - (384 * k + (384 * k + 32)))
  else z (n - (384 * k + (384 * k + 32) + 32))

/-- The sampled secrets of key generation, `SampleEta1`, ml_kem_poly.c:248-268 (before the transform). -/
def genS (P : Prims) (p : Params) (sigma : Nat → Nat) (i : Nat) : Poly := cbdPoly p.eta1 (prf P sigma i)
/-- The sampled errors of key generation, ml_kem_poly.c:261-266. -/
def genE (P : Prims) (p : Params) (sigma : Nat → Nat) (i : Nat) : Poly := cbdPoly p.eta1 (prf P sigma (p.k + i))

/-- The message polynomial, ml_kem_pke.c:407-408. -/
def messagePoly (m : Nat → Nat) : Poly := fun x => decompress 1 (decodeBits1 m x : Int)

/-- Byte `n` of the ciphertext, ml_kem_poly.c:415-420; `none`: not written. -/
def ctByte (k du dv : Nat) (u : Nat → Option Poly) (c2 : Option Poly) (n : Nat) : Option Nat :=
  if n < 32 * du * k then
    (u (n / (32 * du))).bind fun f => (byteEncode du f).map fun r => r (n % (32 * du))
  else c2.bind fun f => (byteEncode dv f).map fun r => r (n - 32 * du * k)

/-- The ephemeral secret of `PkeEncrypt`, `SampleEta2`, ml_kem_poly.c:271-290 (before the transform). -/
def encY (P : Prims) (p : Params) (r : Nat → Nat) (i : Nat) : Poly := cbdPoly p.eta1 (prf P r i)
/-- The first error of `PkeEncrypt`, ml_kem_poly.c:284-288. -/
def encE1 (P : Prims) (p : Params) (r : Nat → Nat) (i : Nat) : Poly := cbdPoly p.eta2 (prf P r (p.k + i))
/-- The second error of `PkeEncrypt`, ml_kem_pke.c:403-405; the nonce `2 k` was left after the seed by
`SampleEta2`. -/
def encE2 (P : Prims) (p : Params) (r : Nat → Nat) : Poly := cbdPoly p.eta2 (prf P r (2 * p.k))

/-- `PkeEncrypt`, ml_kem_pke.c:376-418: byte `n` of the ciphertext. -/
def pkeEncrypt (P : Prims) (p : Params) (key : KeyData) (m r : Nat → Nat) (n : Nat) : Option Nat :=
  let out := pkeEnc p.k p.du p.dv key.a key.t (encY P p r) (encE1 P p r) (encE2 P p r) (messagePoly m)
  ctByte p.k p.du p.dv out.1 out.2 n

/-- `ByteDecode` and `PolyDeCompress` into a buffer of zeros (`BSL_SAL_Calloc`), ml_kem_pke.c:444-453. -/
def decodeDecompress (d : Nat) (r : Nat → Nat) : Poly :=
  let f : Poly := match byteDecode d r with
    | some f => f
    | none => fun _ => 0
  fun x => decompress d (f x)

/-- `PkeDecrypt`, ml_kem_pke.c:421-458: the bytes of the message. -/
def pkeDecrypt (p : Params) (key : KeyData) (ct : Nat → Nat) : Option (Nat → Nat) :=
  let c1 := fun i => decodeDecompress p.du (fun n => ct (32 * p.du * i + n))
  let c2 := decodeDecompress p.dv (fun n => ct (32 * p.du * p.k + n))
  (pkeDec p.k key.s c1 c2).bind (byteEncode 1)

/-- `MLKEM_EncapsInternal`, ml_kem_pke.c:495-519: byte `n` of the ciphertext, and the shared key. -/
def encaps (P : Prims) (p : Params) (key : KeyData) (ek m : Nat → Nat) : (Nat → Option Nat) × (Nat → Nat) :=
  let kr := P.G (bytes m 0 32 ++ bytes (P.H (bytes ek 0 (384 * p.k + 32))) 0 32)
  (pkeEncrypt P p key m (fun n => kr (32 + n)), kr)

/-- The comparison loop, ml_kem_pke.c:557-560 (first `n` bytes); reading a byte that was never written gives
`none`. -/
def diffMask (ct : Nat → Nat) (newCt : Nat → Option Nat) : Nat → Option Nat
  | 0 => some 0
  | n + 1 => match diffMask ct newCt n, newCt n with
    | some mask, some c => some (mask ||| (ct n ^^^ c))
    | _, _ => none

/-- Outcome of `MLKEM_DecapsInternal`. -/
inductive Decaps where
  /-- `CRYPT_MLKEM_INVALID_PRVKEY`. -/
  | invalidKey
  /-- A buffer that was never written is read. -/
  | undefined
  /-- Success, with the bytes of the shared key. -/
  | key (sk : Nat → Nat)

/-- `MLKEM_DecapsInternal`, ml_kem_pke.c:522-576. -/
def decaps (P : Prims) (p : Params) (key : KeyData) (dk ct : Nat → Nat) : Decaps :=
  let ekOff := 384 * p.k
  let hOff := ekOff + (384 * p.k + 32)
  let zOff := hOff + 32
  if bytes dk hOff 32 ≠ bytes (P.H (bytes dk ekOff (384 * p.k + 32))) 0 32 then .invalidKey
  else match pkeDecrypt p key ct with
    | none => .undefined
    | some m =>
      let kr := P.G (bytes m 0 32 ++ bytes dk hOff 32)
      let newCt := pkeEncrypt P p key m (fun n => kr (32 + n))
      match diffMask ct newCt (cipherLen p) with
      | none => .undefined
      | some mask =>
        let mask := (((mask : Int) - 1) / 2 ^ 8 % 2 ^ 8).toNat
        let r := P.J (bytes dk zOff 32 ++ bytes ct 0 (cipherLen p))
        .key (fun i => (kr i &&& mask) ||| (r i &&& (255 - mask)))

/-- The loops of `DecodeBits12` over the `k` components, ml_kem_pke.c:334-338, 365-370; `none`: the decoding error. -/
def decodeVec (k : Nat) (b : Nat → Nat) : Option (Nat → Poly) :=
  if ∀ i, i < k → (decodeBits12 (fun n => b (384 * i + n))).isSome then
    some fun i => match decodeBits12 (fun n => b (384 * i + n)) with
      | some f => f
      | none => fun _ => 0
  else none

/-- `GenMatrix(…, isEnc = false)`, ml_kem_poly.c:314-361, with `fuel` blocks for each entry. -/
def genMatrix (P : Prims) (k fuel : Nat) (rho : Nat → Nat) : Option (Nat → Nat → Poly) :=
  if ∀ i, i < k → ∀ j, j < k → (matrixEntry P fuel rho i j).isSome then
    some fun i j => match matrixEntry P fuel rho i j with
      | some v => v
      | none => fun _ => 0
  else none

/-- `MLKEM_DecodeEk` on a key of the right length, ml_kem_pke.c:347-373: the matrix and `t`. -/
def decodeEk (P : Prims) (p : Params) (fuel : Nat) (ek : Nat → Nat) : Option ((Nat → Nat → Poly) × (Nat → Poly)) :=
  (genMatrix P p.k fuel (fun n => ek (384 * p.k + n))).bind fun a =>
    (decodeVec p.k ek).map fun t => (a, t)

/-- `MLKEM_DecodeDk` on a key of the right length, ml_kem_pke.c:319-345. -/
def decodeDk (P : Prims) (p : Params) (fuel : Nat) (dk : Nat → Nat) : Option KeyData :=
  (decodeVec p.k dk).bind fun s =>
    (decodeEk P p fuel (fun n => dk (384 * p.k + n))).map fun at' => ⟨at'.1, s, at'.2⟩

/-- `MLKEM_KeyGenInternal` with `PkeKeyGen` and `MLKEM_PKEGen`, ml_kem_pke.c:301-317, 461-492 and
ml_kem_poly.c:363-392: `(ek, dk, working key)`.  `ByteEncode(…, 12)` leaves the reduced values in the working key. -/
def keyGen (P : Prims) (p : Params) (fuel : Nat) (d z : Nat → Nat) : Option ((Nat → Nat) × (Nat → Nat) × KeyData) :=
  let g := P.G (bytes d 0 32 ++ [p.k])
  let sigma := fun n => g (32 + n)
  (genMatrix P p.k fuel g).map fun a =>
    let st := pkeGen p.k a (genS P p sigma) (genE P p sigma)
    let ek := ekBytes p.k st.2 g
    (ek, dkBytes P p.k st.1 ek z, ⟨a, fun i => addQ (st.1 i), fun i => addQ (st.2 i)⟩)

end Verif.Crypto.Mlkem
