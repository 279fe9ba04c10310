import Verif.Crypto.Mldsa.NttModel
import Verif.Crypto.Mldsa.KeyModel
/-! Model of ML-DSA key generation, signing and verification: `/repo/crypto/mldsa/src/ml_dsa_core.c`,
`ml_dsa_poly.c` and the message encoding of `ml_dsa.c`.

SHAKE128 and SHAKE256 are abstract: a primitive gives, for a message, the unbounded stream of bytes that successive
`squeeze` calls return.  The rejection loops of the code have no bound; they carry a fuel and are `none` when it runs
out.  The configuration `HITLS_CRYPTO_MLDSA_X2` (two streams at a time) computes the same streams and is not
modelled.  Allocation and hash failures are not modelled.  The signing state (`MLDSA_SignMatrixSt`) reuses `w`, `r0`
and `y` for other values to save memory; the model gives each value its own name. -/
namespace Verif.Crypto.Mldsa
open Verif.Crypto.Mlkem (Poly i32 u32 u8 upd)

/-- The hash primitives: message, then position in the output. -/
structure Prims where
  shake128 : List Nat → Nat → Nat
  shake256 : List Nat → Nat → Nat

/-- The array of zeros. -/
def zeroPoly : Poly := fun _ => 0

/-- A loop `for (i = 0; i < n; i++)` whose round `i` fills element `i`; `none` if a round does not end. -/
def collect {α : Type} (d : α) (f : Nat → Option α) : Nat → Option (Nat → α)
  | 0 => some (fun _ => d)
  | n + 1 =>
    match collect d f n, f n with
    | some g, some a => some (fun i => if i = n then a else g i)
    | _, _ => none

/-! ## Samplers -/

/-- `a[i] = t & ~m; i += 1 + m` with `m = (bound - t) >> 31`, which is 0 or -1: `c` is the value of `t & ~0`. -/
def rejStore (s : Poly × Nat) (m c : Int) : Poly × Nat :=
  (upd s.1 s.2 (if m = 0 then c else 0), (s.2 + 1 + m).toNat)

/-- `buf[j]` as a little-endian word of the block `blk`, ml_dsa_poly.c:147-149. -/
def word (st : Nat → Nat) (off : Nat) : Nat :=
  st off + 2 ^ 8 * st (off + 1) + 2 ^ 16 * st (off + 2) + 2 ^ 24 * st (off + 3)

/-- One candidate of `MLDSA_RejNTTPoly`: the mask and the store, ml_dsa_poly.c:156-163. -/
def rejOne (s : Poly × Nat) (t : Nat) : Poly × Nat := rejStore s ((Q - 1 - t) / 2 ^ 31) t

/-- The guarded stores, ml_dsa_poly.c:164-177. -/
def rejGuard (s : Poly × Nat) (t : Nat) : Poly × Nat := if s.2 < 256 then rejOne s t else s

/-- One round of the loop of `MLDSA_RejNTTPoly`, ml_dsa_poly.c:147-177. -/
def rejRound (s : Poly × Nat) (w0 w1 w2 : Nat) : Poly × Nat :=
  let t0 := w0 &&& 0x7FFFFF
  let t1 := ((w0 >>> 24) ||| (w1 <<< 8) % 2 ^ 32) &&& 0x7FFFFF
  let t2 := ((w1 >>> 16) ||| (w2 <<< 16) % 2 ^ 32) &&& 0x7FFFFF
  let t3 := (w2 >>> 8) &&& 0x7FFFFF
  rejGuard (rejGuard (rejGuard (rejOne s t0) t1) t2) t3

/-- The loop of `MLDSA_RejNTTPoly`, ml_dsa_poly.c:145-184: `blk` counts the squeezed blocks of 168 bytes (42 words), `j`
is the word index in the block. -/
def rejNtt (st : Nat → Nat) : Nat → Nat → Nat → Poly × Nat → Option Poly
  | 0, _, _, s => if s.2 < 256 then none else some s.1
  | n + 1, blk, j, s =>
    if s.2 < 256 then
      let w := fun k => word st (168 * blk + 4 * (j + k))
      let s := rejRound s (w 0) (w 1) (w 2)
      if j + 3 ≥ 42 ∧ s.2 < 256 then rejNtt st n (blk + 1) 0 s else rejNtt st n blk (j + 3) s
    else some s.1

/-- One half byte of `MLDSA_RejBoundedPolyEta2` (ml_dsa_poly.c:220-226, 228-233) or `…Eta4` (263-265, 267-271). -/
def rejHalf (eta : Nat) (s : Poly × Nat) (z : Nat) : Poly × Nat :=
  if eta = 2 then rejStore s ((0xE - (z : Int)) / 2 ^ 31) (2 - ((z : Int) - ((205 * z) >>> 10 : Nat) * 5))
  else rejStore s ((0x8 - (z : Int)) / 2 ^ 31) (4 - (z : Int))

/-- One byte. -/
def rejByte (eta : Nat) (s : Poly × Nat) (b : Nat) : Poly × Nat :=
  let s := rejHalf eta s (b &&& 0x0F)
  if s.2 < 256 then rejHalf eta s (b >>> 4) else s

/-- The loop of `MLDSA_RejBoundedPolyEta2` / `…Eta4`, ml_dsa_poly.c:208-234, 253-272; the function is chosen by
`ExpandS`, ml_dsa_core.c:245-249. -/
def rejBounded (eta : Nat) (st : Nat → Nat) : Nat → Nat → Nat → Poly × Nat → Option Poly
  | 0, _, _, s => if s.2 < 256 then none else some s.1
  | n + 1, blk, j, s =>
    if s.2 < 256 then
      if j = 136 then rejBounded eta st n (blk + 1) 1 (rejByte eta s (st (136 * (blk + 1))))
      else rejBounded eta st n blk (j + 1) (rejByte eta s (st (136 * blk + j)))
    else some s.1

/-- The inner `do … while (j > i)` of `SampleInBall`, ml_dsa_core.c:691-698: the byte found, the block and the index. -/
def ballPos (st : Nat → Nat) (i : Nat) : Nat → Nat → Nat → Option (Nat × Nat × Nat)
  | 0, _, _ => none
  | n + 1, blk, index =>
    let (blk, index) := if index = 136 then (blk + 1, 0) else (blk, index)
    let j := st (136 * blk + index)
    if j > i then ballPos st i n blk (index + 1) else some (j, blk, index + 1)

/-- The state of `SampleInBall`: `c`, `h`, and the position in the stream. -/
structure Ball where
  c : Poly
  h : Nat
  blk : Nat
  index : Nat

/-- One round of the loop of `SampleInBall`, ml_dsa_core.c:690-703. -/
def ballStep (st : Nat → Nat) (fuel i : Nat) (s : Ball) : Option Ball :=
  match ballPos st i fuel s.blk s.index with
  | none => none
  | some (j, blk, index) =>
    let c := upd s.c i (s.c j)
    let c := upd c j (1 - 2 * ((s.h &&& 1 : Nat) : Int))
    some ⟨c, s.h >>> 1, blk, index⟩

/-- `n` rounds from `i = i0`. -/
def ballLoop (st : Nat → Nat) (fuel i0 : Nat) (s : Ball) : Nat → Option Ball
  | 0 => some s
  | n + 1 =>
    match ballLoop st fuel i0 s n with
    | none => none
    | some s => ballStep st fuel (i0 + n) s

/-- The first eight bytes, ml_dsa_core.c:687-689. -/
def ballSigns (st : Nat → Nat) : Nat → Nat
  | 0 => 0
  | n + 1 => ballSigns st n ||| st n <<< (8 * n)

/-- `SampleInBall`, ml_dsa_core.c:674-707, on an array that the caller has zeroed. -/
def sampleInBall (P : Prims) (p : Params) (fuel : Nat) (seed : List Nat) : Option Poly :=
  let st := P.shake256 seed
  match ballLoop st fuel (256 - p.tau) ⟨zeroPoly, ballSigns st 8, 0, 8⟩ p.tau with
  | none => none
  | some s => some s.c

/-! ## Expansion -/

/-- One row of `ExpandA`, ml_dsa_core.c:206-231; the same loop is in `ComputesT` (316-336) and `ComputesApproxW`
(865-885). -/
def expandRow (P : Prims) (p : Params) (fuel : Nat) (rho : Nat → Nat) (i : Nat) : Option (Nat → Poly) :=
  collect zeroPoly (fun j => rejNtt (P.shake128 (bytes rho 0 32 ++ [j, i])) fuel 0 0 (zeroPoly, 0)) p.l

/-- `ExpandA`, ml_dsa_core.c:201-232. -/
def expandA (P : Prims) (p : Params) (fuel : Nat) (rho : Nat → Nat) : Option (Nat → Nat → Poly) :=
  collect (fun _ => zeroPoly) (expandRow P p fuel rho) p.k

/-- One polynomial of `ExpandS`, ml_dsa_core.c:283-294. -/
def expandSPoly (P : Prims) (p : Params) (fuel : Nat) (prvSeed : Nat → Nat) (nonce : Nat) : Option Poly :=
  rejBounded p.eta (P.shake256 (bytes prvSeed 0 64 ++ [u8 nonce, 0])) fuel 0 0 (zeroPoly, 0)

/-- `ExpandMask`, ml_dsa_core.c:599-651; `u` is a `uint16_t`. -/
def expandMask (P : Prims) (p : Params) (rho2 : Nat → Nat) (u : Nat) : Nat → Poly := fun i =>
  let n := (u + i) % 2 ^ 16
  match signBitUnpack (gammaBits p) p.gamma1 (P.shake256 (bytes rho2 0 64 ++ [n % 2 ^ 8, n >>> 8])) with
  | some f => f
  | none => zeroPoly

/-! ## Key generation -/

/-- One polynomial of `ComputesT`, ml_dsa_core.c:313-341. -/
def computeT (P : Prims) (p : Params) (fuel : Nat) (rho : Nat → Nat) (s1 s2 : Nat → Poly) (i : Nat) : Option Poly :=
  match expandRow P p fuel rho i with
  | none => none
  | some row => some (vecAddQ (intt (matMul p.l row (fun j => ntt (s1 j)))) (s2 i))

/-- `MLDSA_KeyGenInternal`, ml_dsa_core.c:903-949: the public key and the private key; `pub` and `prv` are the contents
of the key buffers before the call. -/
def keyGen (P : Prims) (p : Params) (fuel : Nat) (d pub prv : Nat → Nat) : Option ((Nat → Nat) × (Nat → Nat)) :=
  let digest := P.shake256 (bytes d 0 32 ++ [p.k, p.l])
  let rho := digest
  let prvSeed := fun n => digest (32 + n)
  let signSeed := fun n => digest (96 + n)
  match collect zeroPoly (fun i => expandSPoly P p fuel prvSeed i) p.l,
    collect zeroPoly (fun i => expandSPoly P p fuel prvSeed (p.l + i)) p.k with
  | some s1, some s2 =>
    match collect zeroPoly (computeT P p fuel rho s1 s2) p.k with
    | none => none
    | some t =>
      let t1 := fun i x => (power2Round (t i x)).1
      let t0 := fun i x => (power2Round (t i x)).2
      let pk := pkEncode p pub rho t1
      let tr := P.shake256 (bytes pk 0 p.pubLen)
      some (pk, skEncode p prv rho signSeed tr s1 s2 t0)
  | _, _ => none

/-- Whether two arrays of 256 coefficients are equal (`memcmp`). -/
def polyEq (a b : Poly) : Bool := (List.range 256).all fun x => a x == b x

/-- `MLDSA_CalPub`, ml_dsa_core.c:1131-1168; `some none` is `CRYPT_MLDSA_PAIRWISE_CHECK_FAIL`. -/
def calPub (P : Prims) (p : Params) (fuel : Nat) (sk pub : Nat → Nat) : Option (Option (Nat → Nat)) :=
  let d := skDecode p sk
  match collect zeroPoly (computeT P p fuel d.rho d.s1 d.s2) p.k with
  | none => none
  | some t =>
    if (List.range p.k).all fun i => polyEq (fun x => (power2Round (t i x)).2) (d.t0 i) then
      some (some (pkEncode p pub d.rho (fun i x => (power2Round (t i x)).1)))
    else some none

/-- `MLDSA_KeyConsistenceCheck`, ml_dsa_core.c:1171-1212, for a context without a public key: the public key computed
(`some none`: `CRYPT_MLDSA_PAIRWISE_CHECK_FAIL`). -/
def consistenceCheck (P : Prims) (p : Params) (fuel : Nat) (sk pub : Nat → Nat) : Option (Option (Nat → Nat)) :=
  match calPub P p fuel sk pub with
  | none => none
  | some none => some none
  | some (some pk) =>
    if bytes (P.shake256 (bytes pk 0 p.pubLen)) 0 64 = bytes sk 64 64 then some (some pk) else some none

/-! ## Signing -/

/-- The message: the caller's external `μ` (64 bytes), or the encoded message `M'`. -/
inductive Msg where
  | mu (m : List Nat)
  | enc (m : List Nat)

/-- `uBuf`, ml_dsa_core.c:976-982, 1078-1085. -/
def muBytes (P : Prims) (tr : List Nat) : Msg → List Nat
  | .mu m => m
  | .enc m => bytes (P.shake256 (tr ++ m)) 0 64

/-- `bitLen` of `W1Encode`, ml_dsa_core.c:667. -/
def w1Bits (p : Params) : Nat := if p.k = 4 then 6 else 4
/-- `w1Len`, ml_dsa_core.c:963. -/
def w1Len (p : Params) : Nat := if p.k = 4 ∨ p.k = 6 then 768 else 1024
/-- `W1Encode`, ml_dsa_core.c:665-672; the block sizes 192 and 128 are `32 · bitLen`. -/
def w1Encode (p : Params) (buf : Nat → Nat) (w1 : Nat → Poly) : Nat → Nat :=
  (packLoop (w1Bits p) (fun i => byteEncode (w1Bits p) (w1 i)) (buf, 0) p.k).1

/-- `cBufLen`, ml_dsa_core.c:989. -/
def cLen (p : Params) : Nat := p.secBits / 4

/-- The challenge hash, ml_dsa_core.c:1000-1001, 1094-1095: the bytes written. -/
def challenge (P : Prims) (p : Params) (mu : List Nat) (buf : Nat → Nat) (w1 : Nat → Poly) : Nat → Nat :=
  P.shake256 (mu ++ bytes (w1Encode p buf w1) 0 (w1Len p))

/-- What the signing loop needs: `ExpandA`, `NTT(s1)`, `NTT(s2)`, `NTT(t0)`, `μ`, `ρ''`. -/
structure SignEnv where
  a : Nat → Nat → Poly
  s1 : Nat → Poly
  s2 : Nat → Poly
  t0 : Nat → Poly
  mu : List Nat
  rho2 : Nat → Nat

/-- `ValidityChecksL` / `ValidityChecksK`, ml_dsa_core.c:720-736. -/
def checkAll (n : Nat) (z : Nat → Poly) (t : Nat) : Bool := (List.range n).all fun i => validityChecks (z i) t

/-- The values of one round of the signing loop. -/
structure Round where
  /-- the challenge bytes `out[0 .. cBufLen)` -/
  ct : Nat → Nat
  z : Nat → Poly
  h : Nat → Poly

/-- `ComputesW` after `ComputesNTT(y, z)`, ml_dsa_core.c:654-662, 996-998: `(w1, w0)`. -/
def roundW (p : Params) (e : SignEnv) (y : Nat → Poly) : Nat → Nat → Int × Int := fun i x =>
  batchDecompose p (intt (matMul p.l (e.a i) (fun j => ntt (y j))) x)

/-- `ComputesZ`, ml_dsa_core.c:709-718. -/
def roundZ (e : SignEnv) (y : Nat → Poly) (c : Poly) : Nat → Poly := fun i => vecAdd (y i) (intt (vecMul c (e.s1 i)))
/-- `st->y` after `ComputesR`, ml_dsa_core.c:738-745. -/
def roundCs2 (e : SignEnv) (c : Poly) : Nat → Poly := fun i => intt (vecMul c (e.s2 i))
/-- `ComputesCT`, ml_dsa_core.c:747-754. -/
def roundCt0 (e : SignEnv) (c : Poly) : Nat → Poly := fun i => intt (vecMul c (e.t0 i))

/-- `MakeHint`, ml_dsa_core.c:756-791: the hint rows (256 coefficients each). -/
def roundHint (p : Params) (w : Nat → Nat → Int × Int) (ct0 cs2 : Nat → Poly) : Nat → Poly := fun i x =>
  if x < 256 then (hintBit p (w i x).2 (ct0 i x) (cs2 i x) (w i x).1 : Int) else 0
/-- `num` of `MakeHint`. -/
def hintCount (p : Params) (h : Nat → Poly) : Nat :=
  ((List.range p.k).map fun i => ((List.range 256).map fun j => (h i j).toNat).sum).sum

/-- One round of the signing loop, ml_dsa_core.c:992-1031: `none` when a sampler does not end, `some none` for
`continue`. `w1Buf` is the scratch buffer. -/
def signRound (P : Prims) (p : Params) (fuel : Nat) (e : SignEnv) (w1Buf : Nat → Nat) (u : Nat) : Option (Option Round) :=
  let y := expandMask P p e.rho2 u
  let w := roundW p e y
  let ct := challenge P p e.mu w1Buf (fun i x => (w i x).1)
  match sampleInBall P p fuel (bytes ct 0 (cLen p)) with
  | none => none
  | some c =>
    let c := ntt c
    let z := roundZ e y c
    if checkAll p.l z (p.gamma1 - p.beta) = false then some none
    else
      let cs2 := roundCs2 e c
      let r0 := fun i => vecSub (fun x => (w i x).2) (cs2 i)
      if checkAll p.k r0 (p.gamma2 - p.beta) = false then some none
      else
        let ct0 := roundCt0 e c
        if checkAll p.k ct0 p.gamma2 = false then some none
        else
          let h := roundHint p w ct0 cs2
          if hintCount p h > p.omega then some none
          else some (some ⟨ct, z, h⟩)

/-- The signing loop, ml_dsa_core.c:987-1032: at most `n` rounds from the counter `u`. -/
def signLoop (P : Prims) (p : Params) (fuel : Nat) (e : SignEnv) (w1Buf : Nat → Nat) : Nat → Nat → Option Round
  | 0, _ => none
  | n + 1, u =>
    match signRound P p fuel e w1Buf u with
    | none => none
    | some (some r) => some r
    | some none => signLoop P p fuel e w1Buf n ((u + p.l) % 2 ^ 16)

/-- The set-up of `MLDSA_SignInternal`, ml_dsa_core.c:970-985. -/
def signEnv (P : Prims) (p : Params) (d : SkData) (a : Nat → Nat → Poly) (msg : Msg) (rnd : Nat → Nat) : SignEnv :=
  let mu := muBytes P (bytes d.tr 0 64) msg
  { a := a, s1 := fun i => ntt (d.s1 i), s2 := fun i => ntt (d.s2 i), t0 := fun i => ntt (d.t0 i)
    mu := mu, rho2 := P.shake256 (bytes d.key 0 32 ++ bytes rnd 0 32 ++ mu) }

/-- `MLDSA_SignInternal`, ml_dsa_core.c:952-1043, with at most `rounds` rounds of the loop; `out` and `w1Buf` are the
contents of the buffers before the call. -/
def sign (P : Prims) (p : Params) (fuel rounds : Nat) (sk : Nat → Nat) (msg : Msg) (rnd out w1Buf : Nat → Nat) :
    Option (Nat → Nat) :=
  let d := skDecode p sk
  match expandA P p fuel d.rho with
  | none => none
  | some a =>
    match signLoop P p fuel (signEnv P p d a msg rnd) w1Buf rounds 0 with
    | none => none
    | some r => sigEncode p (put out 0 (cLen p) r.ct) (cLen p) r.z ((List.range p.k).map r.h)

/-! ## Verification -/

/-- Outcome of `MLDSA_VerifyInternal`. -/
inductive VerRes where
  /-- `CRYPT_SUCCESS` -/
  | success
  /-- `CRYPT_MLDSA_SIGN_DATA_ERROR` -/
  | dataError
  /-- `CRYPT_MLDSA_VERIFY_FAIL` -/
  | verifyFail
  /-- A byte outside the signature is read. -/
  | oob
deriving DecidableEq

/-- Row `i` of a hint. -/
def hintAt (h : List Poly) (i : Nat) : Poly :=
  match h[i]? with
  | some r => r
  | none => zeroPoly

/-- `st->t1[i]` after `t1 << MLDSA_D`, ml_dsa_core.c:886-889. -/
def shiftT1 (t : Poly) : Poly := fun m => i32 (u32 (u32 (t m) * 2 ^ 13))

/-- One row of `ComputesApproxW`, ml_dsa_core.c:863-898: `c` and `z` are already transformed. -/
def approxW (p : Params) (a : Nat → Poly) (z : Nat → Poly) (c t1 : Poly) : Poly :=
  intt (vecSub (matMul p.l a z) (vecMul (ntt (shiftT1 t1)) c))

/-- `MLDSA_VerifyInternal`, ml_dsa_core.c:1046-1107. -/
def verify (P : Prims) (p : Params) (fuel : Nat) (pk : Nat → Nat) (msg : Msg) (sig w1Buf : Nat → Nat) : Option VerRes :=
  let (rho, t1) := pkDecode pk
  let (z, hres) := sigDecode p sig (cLen p)
  match hres with
  | .oob => some .oob
  | .reject => some .dataError
  | .ok h =>
    if checkAll p.l z (p.gamma1 - p.beta) = false then some .dataError
    else
      let tr := bytes (P.shake256 (bytes pk 0 p.pubLen)) 0 64
      let mu := muBytes P tr msg
      match sampleInBall P p fuel (bytes sig 0 (cLen p)), expandA P p fuel rho with
      | some c, some a =>
        let w := fun i => approxW p (a i) (fun j => ntt (z j)) (ntt c) (t1 i)
        let w1 := fun i x => useHint p (hintAt h i x) (w i x)
        if bytes sig 0 (cLen p) = bytes (challenge P p mu w1Buf w1) 0 (cLen p) then some .success else some .verifyFail
      | _, _ => none

/-! ## The message encoding -/

/-- The fields of the context that `MLDSAEncodeInputData` reads; `ctx` is `ctxInfo[0 .. ctxLen)`. -/
structure Opts where
  isMuMsg : Bool
  needPreHash : Bool
  ctx : List Nat

/-- `MLDSAPreHashEncode` and `MLDSAEncodeInputData`, ml_dsa.c:738-832: `none` is `CRYPT_INVALID_ARG`. `oid` is the
content of the OID of the hash, `ph` the digest of the data. -/
def encodeInput (o : Opts) (oid ph data : List Nat) : Option Msg :=
  if o.isMuMsg then (if data.length ≠ 64 then none else some (.mu data))
  else if data.length > 4294967295 - 2 - o.ctx.length then none
  else if o.needPreHash then some (.enc ([1, u8 o.ctx.length] ++ o.ctx ++ [0x06, u8 oid.length] ++ oid ++ ph))
  else some (.enc ([0, u8 o.ctx.length] ++ o.ctx ++ data))

end Verif.Crypto.Mldsa
