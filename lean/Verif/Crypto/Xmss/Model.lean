import Verif.Common.Endian

/-!
# XMSS and XMSS^MT private key state

Model of the stateful part of crypto/hbs/xmss/src: parameter tables, key generation, key import and
export, duplication and signing, for both the single tree (XMSS) and the multi tree (XMSS^MT)
algorithm.  Every computation that can fail for reasons outside the key state (random generation,
the keyed hash functions, the Merkle tree and BDS machinery) is an input of the operation: it may
succeed with arbitrary bytes or fail with an arbitrary error code, so that the theorems quantify
over every failure point.
-/

namespace Verif.Crypto.Xmss

open Verif.Common

/-- One row of the parameter tables, xmss_params.h:44-76 (XmssParams) and :95-133 (XmssmtParams).
Simplification: `algId`, the Winternitz parameter (16 in every row), the public key size, the XDR
identifier and the hash selection are left out; they do not influence the key state. For XMSS the
row has `d = 1` and `hp = h`, as in HbsTreeCtx_InitForXmss (xmss_core.c:96-114). -/
structure Params where
  mt : Bool
  n : Nat
  h : Nat
  d : Nat
  hp : Nat
  wotsLen : Nat
  sigBytes : Nat
deriving DecidableEq, Repr

/-- g_xmssParams, xmss_params.c:38-73. -/
def xmssTable : List Params := [
  ⟨false, 32, 10, 1, 10, 67, 2500⟩,
  ⟨false, 32, 16, 1, 16, 67, 2692⟩,
  ⟨false, 32, 20, 1, 20, 67, 2820⟩,
  ⟨false, 64, 10, 1, 10, 131, 9092⟩,
  ⟨false, 64, 16, 1, 16, 131, 9476⟩,
  ⟨false, 64, 20, 1, 20, 131, 9732⟩,
  ⟨false, 32, 10, 1, 10, 67, 2500⟩,
  ⟨false, 32, 16, 1, 16, 67, 2692⟩,
  ⟨false, 32, 20, 1, 20, 67, 2820⟩,
  ⟨false, 64, 10, 1, 10, 131, 9092⟩,
  ⟨false, 64, 16, 1, 16, 131, 9476⟩,
  ⟨false, 64, 20, 1, 20, 131, 9732⟩,
  ⟨false, 24, 10, 1, 10, 51, 1492⟩,
  ⟨false, 24, 16, 1, 16, 51, 1636⟩,
  ⟨false, 24, 20, 1, 20, 51, 1732⟩,
  ⟨false, 32, 10, 1, 10, 67, 2500⟩,
  ⟨false, 32, 16, 1, 16, 67, 2692⟩,
  ⟨false, 32, 20, 1, 20, 67, 2820⟩,
  ⟨false, 24, 10, 1, 10, 51, 1492⟩,
  ⟨false, 24, 16, 1, 16, 51, 1636⟩,
  ⟨false, 24, 20, 1, 20, 51, 1732⟩]

/-- g_xmssmtParams, xmssmt_params.c:32-102. -/
def xmssmtTable : List Params := [
  ⟨true, 32, 20, 2, 10, 67, 4963⟩,
  ⟨true, 32, 20, 4, 5, 67, 9251⟩,
  ⟨true, 32, 40, 2, 20, 67, 5605⟩,
  ⟨true, 32, 40, 4, 10, 67, 9893⟩,
  ⟨true, 32, 40, 8, 5, 67, 18469⟩,
  ⟨true, 32, 60, 3, 20, 67, 8392⟩,
  ⟨true, 32, 60, 6, 10, 67, 14824⟩,
  ⟨true, 32, 60, 12, 5, 67, 27688⟩,
  ⟨true, 64, 20, 2, 10, 131, 18115⟩,
  ⟨true, 64, 20, 4, 5, 131, 34883⟩,
  ⟨true, 64, 40, 2, 20, 131, 19397⟩,
  ⟨true, 64, 40, 4, 10, 131, 36165⟩,
  ⟨true, 64, 40, 8, 5, 131, 69701⟩,
  ⟨true, 64, 60, 3, 20, 131, 29064⟩,
  ⟨true, 64, 60, 6, 10, 131, 54216⟩,
  ⟨true, 64, 60, 12, 5, 131, 104520⟩,
  ⟨true, 32, 20, 2, 10, 67, 4963⟩,
  ⟨true, 32, 20, 4, 5, 67, 9251⟩,
  ⟨true, 32, 40, 2, 20, 67, 5605⟩,
  ⟨true, 32, 40, 4, 10, 67, 9893⟩,
  ⟨true, 32, 40, 8, 5, 67, 18469⟩,
  ⟨true, 32, 60, 3, 20, 67, 8392⟩,
  ⟨true, 32, 60, 6, 10, 67, 14824⟩,
  ⟨true, 32, 60, 12, 5, 67, 27688⟩,
  ⟨true, 64, 20, 2, 10, 131, 18115⟩,
  ⟨true, 64, 20, 4, 5, 131, 34883⟩,
  ⟨true, 64, 40, 2, 20, 131, 19397⟩,
  ⟨true, 64, 40, 4, 10, 131, 36165⟩,
  ⟨true, 64, 40, 8, 5, 131, 69701⟩,
  ⟨true, 64, 60, 3, 20, 131, 29064⟩,
  ⟨true, 64, 60, 6, 10, 131, 54216⟩,
  ⟨true, 64, 60, 12, 5, 131, 104520⟩,
  ⟨true, 24, 20, 2, 10, 51, 2955⟩,
  ⟨true, 24, 20, 4, 5, 51, 5403⟩,
  ⟨true, 24, 40, 2, 20, 51, 3437⟩,
  ⟨true, 24, 40, 4, 10, 51, 5885⟩,
  ⟨true, 24, 40, 8, 5, 51, 10781⟩,
  ⟨true, 24, 60, 3, 20, 51, 5144⟩,
  ⟨true, 24, 60, 6, 10, 51, 8816⟩,
  ⟨true, 24, 60, 12, 5, 51, 16160⟩,
  ⟨true, 32, 20, 2, 10, 67, 4963⟩,
  ⟨true, 32, 20, 4, 5, 67, 9251⟩,
  ⟨true, 32, 40, 2, 20, 67, 5605⟩,
  ⟨true, 32, 40, 4, 10, 67, 9893⟩,
  ⟨true, 32, 40, 8, 5, 67, 18469⟩,
  ⟨true, 32, 60, 3, 20, 67, 8392⟩,
  ⟨true, 32, 60, 6, 10, 67, 14824⟩,
  ⟨true, 32, 60, 12, 5, 67, 27688⟩,
  ⟨true, 24, 20, 2, 10, 51, 2955⟩,
  ⟨true, 24, 20, 4, 5, 51, 5403⟩,
  ⟨true, 24, 40, 2, 20, 51, 3437⟩,
  ⟨true, 24, 40, 4, 10, 51, 5885⟩,
  ⟨true, 24, 40, 8, 5, 51, 10781⟩,
  ⟨true, 24, 60, 3, 20, 51, 5144⟩,
  ⟨true, 24, 60, 6, 10, 51, 8816⟩,
  ⟨true, 24, 60, 12, 5, 51, 16160⟩]

/-- Error codes (crypt_errno.h) returned by the modelled functions; `ext e` is a code coming out of
one of the unmodelled computations. -/
inductive Err
  | nullInput | keyInfoNotSet | notSupport | invalidSigLen | invalidArg | keyExpired
  | invalidAlgId | initRepeated | invalidKeyLen
  | ext (e : Nat)
deriving DecidableEq, Repr

/-- Number of index bytes in a signature: `sizeof(uint32_t)` for XMSS (xmss_core.c:358), and
`(h + 7) / 8` for XMSS^MT (xmssmt_core.c:432). -/
def idxBytes (p : Params) : Nat := if p.mt then (p.h + 7) / 8 else 4

/-- XmssMaskForBits, xmss_core.c:229-232 and XmssmtMaskForBits, xmssmt_core.c:181-184. -/
def maskForBits (bits : Nat) : Nat := if 64 ≤ bits then 2 ^ 64 - 1 else 2 ^ bits - 1

/-- XMSS_MAX_H, xmss_params.h:36. -/
def maxH : Nat := 60

/-- The key context: CryptXmssCtx / CryptXmssmtCtx with its XmssCtxCommon (xmss_local.h).
`params` is the pointer into the tables, `bds` is `ctx->bds.enabled`. Simplification: the BDS tree
states themselves are not part of the model; what they produce is an input of `sign`. -/
structure Ctx where
  params : Option Params
  n : Nat
  seed : List Byte
  prf : List Byte
  pubSeed : List Byte
  root : List Byte
  idx : Nat
  hasPriv : Bool
  bds : Bool
deriving DecidableEq, Repr

/-- CRYPT_XMSS_NewCtx (xmss_core.c:33-51), CRYPT_XMSSMT_NewCtx (xmssmt_core.c:27-42): everything
zero. -/
def newCtx : Ctx := ⟨none, 0, [], [], [], [], 0, false, false⟩

/-- CRYPT_XMSS_DupCtx, xmss_core.c:63-83 (XMSS^MT has the same code): the parameters and the public
key are copied, the private part, the index and the BDS state are not. -/
def dupCtx (c : Ctx) : Ctx :=
  { newCtx with params := c.params, n := c.n, pubSeed := c.pubSeed, root := c.root }

/-- XmssParams_FindByAlgId (xmss_params.c:76-84) and its siblings: a row of the table, or NULL.
Simplification: rows are named by their position instead of by their identifiers. -/
def findParams (mt : Bool) (k : Nat) : Option Params := (if mt then xmssmtTable else xmssTable)[k]?

/-- XmssSetParaId / XmssSetXdrAlgId (xmss_core.c:164-199) with XmssInitWithParams (:85-94) and
XmssInitInternal (xmss_common.c:44-64), after the lookup of `p` in the table. `hashOk` is the result
of XmssInitHashFuncs. -/
def setPara (c : Ctx) (p : Option Params) (hashOk : Except Nat Unit) : Except Err Unit × Ctx :=
  match c.params with
  | some _ => (.error .initRepeated, c)
  | none =>
    match p with
    | none => (.error .invalidAlgId, c)
    | some q =>
      match hashOk with
      | .error e => (.error (.ext e), { c with bds := false, n := q.n })
      | .ok _ => (.ok (), { params := some q, n := q.n, seed := [], prf := [], pubSeed := [],
                            root := [], idx := 0, hasPriv := false, bds := false })

/-- What the random generator and the tree computation deliver to one key generation. -/
structure GenExt where
  seed : Except Nat (List Byte)
  prf : Except Nat (List Byte)
  pubSeed : Except Nat (List Byte)
  initBds : Except Nat (List Byte)

/-- CRYPT_XMSS_Gen (xmss_core.c:320-340) and CRYPT_XMSSMT_Gen (xmssmt_core.c:400-419) with
XmssCheckGenReady (xmss_common.c:266-277) and XmssGenerateKeyMaterial (:66-88). `initBds` is the
result of XmssInitBds / XmssmtInitBds, the root on success; on failure the BDS state is freed. -/
def gen (c : Ctx) (x : GenExt) : Except Err Unit × Ctx :=
  if c.params = none ∨ c.n = 0 then (.error .invalidAlgId, c) else
  let c := { c with hasPriv := false }
  match x.seed with
  | .error e => (.error (.ext e), c)
  | .ok s =>
    let c := { c with seed := s }
    match x.prf with
    | .error e => (.error (.ext e), c)
    | .ok f =>
      let c := { c with prf := f }
      match x.pubSeed with
      | .error e => (.error (.ext e), c)
      | .ok ps =>
        let c := { c with pubSeed := ps, idx := 0 }
        match x.initBds with
        | .error e => (.error (.ext e), { c with bds := false })
        | .ok r => (.ok (), { c with root := r, bds := true, hasPriv := true })

/-- The parameters handed to SetPrvKey, after XPrvKeyParamCheck (xmss_common.c:336-362). The index
is a `uint64_t`, hence a 64-bit vector. `bds` is the optional BDS blob: the index in its header and
the verdict of the remaining checks (xmss_bds.c:574-660). -/
structure PrvParam where
  idx : BitVec 64
  seed : List Byte
  prf : List Byte
  pubSeed : List Byte
  root : List Byte
  bds : Option (BitVec 64 × Except Nat Unit)

/-- The index test of BdsImportStateCommon, xmss_bds.c:616-621, and the remaining checks. -/
def importBds (idx : BitVec 64) (b : BitVec 64 × Except Nat Unit) : Except Err Unit :=
  if b.1 ≠ idx then .error .invalidArg else
  match b.2 with
  | .error e => .error (.ext e)
  | .ok _ => .ok ()

/-- XmssSetPrvKeyCommon, xmss_common.c:462-525. -/
def setPrv (c : Ctx) (p : PrvParam) : Except Err Unit × Ctx :=
  if c.n = 0 then (.error .keyInfoNotSet, c) else
  if p.seed.length ≠ c.n ∨ p.prf.length ≠ c.n ∨ p.pubSeed.length ≠ c.n ∨ p.root.length ≠ c.n then
    (.error .invalidKeyLen, c) else
  let install (b : Bool) : Ctx :=
    { c with seed := p.seed, prf := p.prf, pubSeed := p.pubSeed, root := p.root, idx := p.idx.toNat,
             hasPriv := true, bds := b }
  match p.bds with
  | none => (.ok (), install false)
  | some b =>
    if c.params = none then (.error .keyInfoNotSet, c) else
    match importBds p.idx b with
    | .error e => (.error e, c)
    | .ok _ => (.ok (), install true)

/-- XmssGetPrvKeyCommon, xmss_common.c:364-412, without the BDS blob: what is exported. -/
def getPrv (c : Ctx) : Except Err (Nat × List Byte × List Byte × List Byte × List Byte) :=
  if c.n = 0 then .error .keyInfoNotSet else .ok (c.idx, c.seed, c.prf, c.pubSeed, c.root)

/-- CRYPT_XMSS_SetPubKey (xmss_core.c:446-454) with XmssSetPubKeyCommon (xmss_common.c:414-445). -/
def setPub (c : Ctx) (pubSeed root : List Byte) : Except Err Unit × Ctx :=
  if c.params = none then (.error .nullInput, c) else
  if c.n = 0 then (.error .keyInfoNotSet, c) else
  if pubSeed.length ≠ c.n ∨ root.length ≠ c.n then (.error .invalidKeyLen, c) else
  (.ok (), { c with pubSeed := pubSeed, root := root, bds := false })

/-- Outcomes of the unmodelled computations of one signing call. `rand`, `hash` are sigRandGen and
msgHash, `wots` is the computation of the tree signature, `post` is the advance of the BDS state
after the signature has been written; the functions give the bytes written. -/
structure SignExt where
  rand : Except Nat (Nat → Byte)
  hash : Except Nat (List Byte)
  wots : Except Nat (Nat → Byte)
  post : Except Nat Unit

/-- One use of a one-time key of the bottom layer: the private seed, the index taken from the key
state, and the position of the one-time key handed to the tree code. -/
structure Use where
  params : Params
  seed : List Byte
  index : Nat
  tree : Nat
  leaf : Nat
deriving DecidableEq, Repr

/-- The first `k` bytes delivered by an external computation. -/
def take (f : Nat → Byte) (k : Nat) : List Byte := (List.range k).map f

/-- Result of a signing call: return code, the caller's buffer and `*signLen` after the call, and
the one-time keys that have been exercised. -/
structure SignRes where
  ret : Except Err Unit
  buf : List Byte
  len : Nat
  uses : List Use

/-- Uint64ToBeBytes and the copy of the trailing `k` bytes, xmss_common.c:143-146. -/
def beBytes (k v : Nat) : List Byte := (List.range k).map (fun i => BitVec.ofNat 8 (v / 2 ^ (8 * (k - 1 - i))))

/-- Position of the one-time key: XMSS uses leaf `(uint32_t)index` of tree 0 (xmss_core.c:296, :388),
XMSS^MT splits the index (xmssmt_core.c:373-374, :450-451). -/
def position (p : Params) (index : Nat) : Nat × Nat :=
  if p.mt then (index / 2 ^ p.hp, (index &&& (2 ^ p.hp - 1)) % 2 ^ 32) else (0, index % 2 ^ 32)

/-- Length of the tree part of a signature: `(wotsLen + hp) * n` per layer. -/
def treeLen (p : Params) (n : Nat) : Nat := (p.wotsLen + p.hp) * n * p.d

/-- XmssPrepareSignData, xmss_common.c:109-166, up to the consumption of the index: the checks.
`signLen` is `*input->sigLen`. -/
def prepareCheck (p : Params) (idx signLen : Nat) : Except Err Unit :=
  if signLen < p.sigBytes then .error .invalidSigLen else
  if maxH < p.h then .error .invalidArg else
  if 8 < idxBytes p then .error .invalidArg else
  if 2 ^ p.h - 1 < idx then .error .keyExpired else
  .ok ()

/-- XmssPrepareSignData after the index has been consumed, xmss_common.c:143-165: the bytes written
so far, or the error. -/
def prepareData (p : Params) (n index signLen : Nat) (x : SignExt) : Except Err (List Byte) :=
  match x.rand with
  | .error e => .error (.ext e)
  | .ok r =>
    match x.hash with
    | .error e => .error (.ext e)
    | .ok _ =>
      if signLen < idxBytes p + n then .error .invalidSigLen
      else .ok (beBytes (idxBytes p) index ++ take r n)

/-- XmssSignWithBds (xmss_core.c:268-318) / XmssmtSignWithBds (xmssmt_core.c:345-398) when `bds`,
HbsTree_Sign / HbsHyperTree_Sign (common/hbs_tree.c:149-186, :310-361) otherwise. Returns the tree
signature or an error, and whether the one-time key was exercised. Simplifications: the order of
the XMSS^MT steps that follow the bottom layer is not kept; the range test on the leaf inside
XmssBds_WriteLayerSignature (xmss_bds.c:768-772) is the same as the test on the index. -/
def treeSign (p : Params) (n : Nat) (bds : Bool) (index room : Nat) (x : SignExt) :
    Except Err (List Byte) × Bool :=
  if bds ∧ p.mt = false ∧ maskForBits p.hp < index then (.error .invalidArg, false) else
  if room < treeLen p n then (.error .invalidSigLen, false) else
  match x.wots with
  | .error e => (.error (.ext e), true)
  | .ok t =>
    if bds then
      match x.post with
      | .error e => (.error (.ext e), true)
      | .ok _ => (.ok (take t (treeLen p n)), true)
    else (.ok (take t (treeLen p n)), true)

/-- The one-time key exercised when index `i` is handed to the tree code. -/
def useOf (c : Ctx) (p : Params) (i : Nat) : Use := ⟨p, c.seed, i, (position p i).1, (position p i).2⟩

/-- BSL_SAL_CleanseData of the signature buffer. -/
def cleanse (b : List Byte) : List Byte := List.replicate b.length 0#8

/-- The error exit after the index has been consumed, xmss_core.c:396-404 and
xmssmt_core.c:470-479. -/
def failConsumed (c : Ctx) (buf : List Byte) (e : Err) (uses : List Use) : SignRes × Ctx :=
  (⟨.error e, cleanse buf, 0, uses⟩, { c with bds := false })

/-- CRYPT_XMSS_Sign, xmss_core.c:342-405, and CRYPT_XMSSMT_Sign, xmssmt_core.c:421-480, with
XmssCheckSignReady (xmss_common.c:90-107). `buf` is the caller's buffer, whose length is `*signLen`
on entry. Simplification: NULL arguments are rejected before anything else and are left out. -/
def sign (c : Ctx) (buf : List Byte) (x : SignExt) : SignRes × Ctx :=
  match c.params with
  | none => (⟨.error .keyInfoNotSet, buf, buf.length, []⟩, c)
  | some p =>
    if c.hasPriv = false then (⟨.error .notSupport, buf, buf.length, []⟩, c) else
    match prepareCheck p c.idx buf.length with
    | .error e => (⟨.error e, buf, buf.length, []⟩, c)
    | .ok _ =>
      let index := c.idx
      let c := { c with idx := (index + 1) % 2 ^ 64 }
      match prepareData p c.n index buf.length x with
      | .error e => failConsumed c buf e []
      | .ok pre =>
        match treeSign p c.n c.bds index (buf.length - pre.length) x with
        | (.error e, used) => failConsumed c buf e (if used then [useOf c p index] else [])
        | (.ok t, _) =>
          (⟨.ok (), pre ++ t ++ buf.drop (pre.length + t.length), pre.length + t.length,
            [useOf c p index]⟩, c)

/-- The index a verifier reads from a signature: XmssBuildVerifyDigest, xmss_common.c:186-190. -/
def verifyIndex (p : Params) (sig : List Byte) : Nat :=
  (sig.take (idxBytes p)).foldl (fun a b => a * 256 + b.toNat) 0

/-! ## Histories -/

/-- A call by the application on context number `i`. `free` is CRYPT_XMSS_FreeCtx. -/
inductive Op
  | new
  | dup (i : Nat)
  | free (i : Nat)
  | setPara (i : Nat) (mt : Bool) (k : Nat) (hashOk : Except Nat Unit)
  | gen (i : Nat) (x : GenExt)
  | setPrv (i : Nat) (p : PrvParam)
  | setPub (i : Nat) (pubSeed root : List Byte)
  | sign (i : Nat) (buf : List Byte) (x : SignExt)

/-- What an observer of the library can see: all contexts, all one-time keys exercised (also by
failing calls), and all signatures released, oldest first. -/
structure World where
  ctxs : List Ctx
  uses : List Use
  sigs : List (List Byte × Use)

def World.init : World := ⟨[], [], []⟩

/-- Replace context `i`. -/
def World.put (w : World) (i : Nat) (c : Ctx) : World := { w with ctxs := w.ctxs.set i c }

/-- One call. Calls on a context that does not exist do nothing. -/
def step (w : World) : Op → World
  | .new => { w with ctxs := w.ctxs ++ [newCtx] }
  | .dup i => match w.ctxs[i]? with
    | none => w
    | some c => { w with ctxs := w.ctxs ++ [dupCtx c] }
  | .free i => w.put i newCtx
  | .setPara i mt k hashOk => match w.ctxs[i]? with
    | none => w
    | some c => w.put i (setPara c (findParams mt k) hashOk).2
  | .gen i x => match w.ctxs[i]? with
    | none => w
    | some c => w.put i (gen c x).2
  | .setPrv i p => match w.ctxs[i]? with
    | none => w
    | some c => w.put i (setPrv c p).2
  | .setPub i ps r => match w.ctxs[i]? with
    | none => w
    | some c => w.put i (setPub c ps r).2
  | .sign i buf x => match w.ctxs[i]? with
    | none => w
    | some c =>
      let r := sign c buf x
      { ctxs := w.ctxs.set i r.2
        uses := w.uses ++ r.1.uses
        sigs := w.sigs ++ (match r.1.ret with
          | .ok _ => r.1.uses.map (fun u => (r.1.buf.take r.1.len, u))
          | .error _ => []) }

def run (w : World) (ops : List Op) : World := ops.foldl step w

end Verif.Crypto.Xmss
