import Verif.Crypto.Xmss.Model

/-!
# Hash-based signatures: WOTS+, Merkle trees, hypertrees, FORS, and the XMSS and SLH-DSA signatures

Model of crypto/hbs/common/hbs_wots.c, hbs_tree.c, crypto/hbs/slh_dsa/src/slh_dsa_fors.c, the signing
and verification cores of slh_dsa_core.c, and the tree path (without BDS) of
crypto/hbs/xmss/src/xmss_core.c and xmssmt_core.c.

The keyed hash functions are the function table `HbsHashFuncs` (hbs_hash.h:34-44): arbitrary
deterministic functions that may fail.
-/

namespace Verif.Crypto.Hbs

open Verif.Common

/-- An n-byte string. -/
abbrev Blk := List Byte

/-- Error outcomes; `hash e` is an error of one of the hash functions, `ub` is undefined behaviour. -/
inductive Err
  | hash (e : Nat)
  | sigLen
  | badArg
  | mismatch
  | ub
deriving DecidableEq, Repr

/-- Early return on error. -/
def bindE {α β : Type} (x : Except Err α) (f : α → Except Err β) : Except Err β :=
  match x with
  | .error e => .error e
  | .ok a => f a

/-- Result of a hash function. -/
def liftH {α : Type} (x : Except Nat α) : Except Err α :=
  match x with
  | .error e => .error (.hash e)
  | .ok a => .ok a

/-! ## Addresses -/

/-- The 32-byte address: XmssAdrs (xmss_address.h:55-66) and SlhDsaAdrs (slh_dsa_local.h). The last
four words are the type specific words. Simplification: fields are numbers, not bytes; the
compressed SLH-DSA format keeps 8 bits of the layer and of the type and drops the last word, which
the hash functions, being arbitrary functions of the address, may do as well. -/
structure Adrs where
  layer : Nat
  tree : Nat
  type : Nat
  w1 : Nat
  w2 : Nat
  w3 : Nat
  w4 : Nat
deriving DecidableEq, Repr

/-- `uint8_t adrsBuffer[HBS_MAX_ADRS_SIZE] = {0}`. -/
def Adrs.zero : Adrs := ⟨0, 0, 0, 0, 0, 0, 0⟩

/-- xmss_address.c XmssAdrs_SetLayerAddr, slh_dsa_address.c:35-39. -/
def Adrs.setLayer (a : Adrs) (v : Nat) : Adrs := { a with layer := v % 2 ^ 32 }
/-- XmssAdrs_SetTreeAddr, slh_dsa_address.c:41-45. -/
def Adrs.setTree (a : Adrs) (v : Nat) : Adrs := { a with tree := v % 2 ^ 64 }
/-- XmssAdrs_SetType, slh_dsa_address.c:47-52: also clears the type specific words. -/
def Adrs.setType (a : Adrs) (t : Nat) : Adrs := { a with type := t, w1 := 0, w2 := 0, w3 := 0, w4 := 0 }
/-- XmssAdrs_SetKeyPairAddr, slh_dsa_address.c:54-58. -/
def Adrs.setKeyPair (a : Adrs) (v : Nat) : Adrs := { a with w1 := v % 2 ^ 32 }
/-- XmssAdrs_SetChainAddr, slh_dsa_address.c:60-64. -/
def Adrs.setChain (a : Adrs) (v : Nat) : Adrs := { a with w2 := v % 2 ^ 32 }
/-- XmssAdrs_SetHashAddr, slh_dsa_address.c:72-76. -/
def Adrs.setHash (a : Adrs) (v : Nat) : Adrs := { a with w3 := v % 2 ^ 32 }
/-- XmssAdrs_SetTreeHeight, slh_dsa_address.c:66-70: same word as the chain address. -/
def Adrs.setTreeHeight (a : Adrs) (v : Nat) : Adrs := { a with w2 := v % 2 ^ 32 }
/-- XmssAdrs_SetTreeIndex, slh_dsa_address.c:78-82: same word as the hash address. -/
def Adrs.setTreeIndex (a : Adrs) (v : Nat) : Adrs := { a with w3 := v % 2 ^ 32 }
/-- XmssAdrs_GetTreeIndex, slh_dsa_address.c:84-88. -/
def Adrs.getTreeIndex (a : Adrs) : Nat := a.w3
/-- XmssAdrs_CopyKeyPairAddr, slh_dsa_address.c:90-95. -/
def Adrs.copyKeyPair (dst src : Adrs) : Adrs := { dst with w1 := src.w1 }

/-- HbsHashFuncs, hbs_hash.h:34-44, with the context argument applied. `chain` (the optimised chain
of SLH-DSA) is left out: the generic loop of HbsWots_Chain is modelled. -/
structure Hash where
  skDerive : Adrs → Except Nat Blk
  chainHash : Adrs → Blk → Except Nat Blk
  nodeHash : Adrs → Blk → Except Nat Blk
  pkCompress : Adrs → Blk → Except Nat Blk
  msgHash : Blk → List Byte → Nat → Except Nat (List Byte)

/-- HbsTreeCtx, hbs_common.h:44-62. -/
structure Tree where
  n : Nat
  hp : Nat
  d : Nat
  otsLen : Nat
  xmss : Bool
  H : Hash

/-! ## WOTS+ -/

/-- The inner loop of BaseB, hbs_wots.c:56-60: fetch bytes until `b` bits are available. -/
def fill (b : Nat) : List Byte → Nat → Nat → List Byte × Nat × Nat
  | [], o, bit => ([], o, bit)
  | x :: xs, o, bit => if bit < b then fill b xs (o * 256 + x.toNat) (bit + 8) else (x :: xs, o, bit)

/-- BaseB, hbs_wots.c:46-66. `none`: the input is exhausted, `bit -= b` wraps around and the shift
is undefined. -/
def baseB (b : Nat) : Nat → List Byte → Nat → Nat → Option (List Nat)
  | 0, _, _, _ => some []
  | k + 1, xs, o, bit =>
    match fill b xs o bit with
    | (xs', o', bit') =>
      if bit' < b then none else
      match baseB b k xs' (o' % 2 ^ (bit' - b)) (bit' - b) with
      | none => none
      | some r => some (o' / 2 ^ (bit' - b) % 2 ^ 32 :: r)

/-- The checksum of HbsWots_MsgToBaseW, hbs_wots.c:85-89: sum of `W - 1 - out[i]`. -/
def csum (out : List Nat) : Nat := (out.map fun d => 15 - d).sum

/-- HbsWots_MsgToBaseW, hbs_wots.c:76-98. -/
def msgToBaseW (n : Nat) (msg : List Byte) : Except Err (List Nat) :=
  match baseB 4 (2 * n) msg 0 0 with
  | none => .error .ub
  | some out =>
    let c := csum out * 16
    match baseB 4 3 [BitVec.ofNat 8 (c / 256), BitVec.ofNat 8 c] 0 0 with
    | none => .error .ub
    | some cs => .ok (out ++ cs)

/-- HbsWots_Chain, hbs_wots.c:101-133, generic loop; also returns the address, which keeps the last
hash address. -/
def chain (H : Hash) : Nat → Adrs → Blk → Nat → Except Err (Blk × Adrs)
  | 0, a, x, _ => .ok (x, a)
  | k + 1, a, x, start =>
    bindE (liftH (H.chainHash (a.setHash start) x)) fun y => chain H k (a.setHash start) y (start + 1)

/-- The address for deriving secret elements: hbs_wots.c:149-155 and :212-218. -/
def skAdrs (t : Tree) (a : Adrs) : Adrs := if t.xmss then a else (a.setType 5).copyKeyPair a

/-- The loop of HbsWots_GeneratePublicKey, hbs_wots.c:157-179: `k` chains left, `i` is the number of
the next one. -/
def genLoop (t : Tree) : Nat → Nat → Adrs → Adrs → Except Err (List Blk × Adrs)
  | 0, _, _, a => .ok ([], a)
  | k + 1, i, sa, a =>
    bindE (liftH (t.H.skDerive (sa.setChain i))) fun sk =>
    bindE (chain t.H 15 (a.setChain i) sk 0) fun r =>
    bindE (genLoop t k (i + 1) (sa.setChain i) r.2) fun rest => .ok (r.1 :: rest.1, rest.2)

/-- The compression at the end of HbsWots_GeneratePublicKey and HbsWots_PkFromSig,
hbs_wots.c:182-188 and :290-295. -/
def compress (t : Tree) (a : Adrs) (tmp : List Blk) : Except Err Blk :=
  liftH (t.H.pkCompress ((a.setType 1).copyKeyPair a) tmp.flatten)

/-- HbsWots_GeneratePublicKey, hbs_wots.c:136-195. -/
def wotsPk (t : Tree) (a : Adrs) : Except Err Blk :=
  bindE (genLoop t t.otsLen 0 (skAdrs t a) a) fun r => compress t r.2 r.1

/-- The loop of HbsWots_Sign, hbs_wots.c:220-244. -/
def signLoop (t : Tree) : List Nat → Nat → Adrs → Adrs → Except Err (List Blk)
  | [], _, _, _ => .ok []
  | m :: ms, i, sa, a =>
    bindE (liftH (t.H.skDerive (sa.setChain i))) fun sk =>
    bindE (chain t.H m (a.setChain i) sk 0) fun r =>
    bindE (signLoop t ms (i + 1) (sa.setChain i) r.2) fun rest => .ok (r.1 :: rest)

/-- HbsWots_Sign, hbs_wots.c:205-250: the `len` elements of the signature. The array of digits has
`len` entries; writing past it, or reading entries that were not written, is undefined. -/
def wotsSign (t : Tree) (msg : List Byte) (a : Adrs) : Except Err (List Blk) :=
  bindE (msgToBaseW t.n msg) fun ds =>
  if ds.length ≠ t.otsLen then .error .ub else signLoop t ds 0 (skAdrs t a) a

/-- Element `i` of a string of n-byte elements. -/
def blk (n : Nat) (s : List Byte) (i : Nat) : Blk := (s.drop (i * n)).take n

/-- The loop of HbsWots_PkFromSig, hbs_wots.c:277-287. -/
def pkLoop (t : Tree) (sig : List Byte) : List Nat → Nat → Adrs → Except Err (List Blk × Adrs)
  | [], _, a => .ok ([], a)
  | m :: ms, i, a =>
    bindE (chain t.H (15 - m) (a.setChain i) (blk t.n sig i) m) fun r =>
    bindE (pkLoop t sig ms (i + 1) r.2) fun rest => .ok (r.1 :: rest.1, rest.2)

/-- HbsWots_PkFromSig, hbs_wots.c:253-307. -/
def wotsPkFromSig (t : Tree) (msg sig : List Byte) (a : Adrs) : Except Err Blk :=
  if sig.length < t.otsLen * t.n then .error .sigLen else
  bindE (msgToBaseW t.n msg) fun ds =>
  if ds.length ≠ t.otsLen then .error .ub else
  bindE (pkLoop t sig ds 0 a) fun r => compress t r.2 r.1

/-! ## Merkle tree -/

/-- ComputeLeafNode, hbs_tree.c:45-57. -/
def leafNode (t : Tree) (idx : Nat) (a : Adrs) : Except Err Blk :=
  wotsPk t ((a.setType 0).setKeyPair idx)

/-- HashInternalNode, hbs_tree.c:60-78. -/
def internalNode (t : Tree) (idx height : Nat) (a : Adrs) (l r : Blk) : Except Err Blk :=
  liftH (t.H.nodeHash
    (((a.setType 2).setTreeHeight (if t.xmss then height - 1 else height)).setTreeIndex idx) (l ++ r))

/-- CollectAuthPathNode, hbs_tree.c:81-91. `leaf` is `none` when `authPath == NULL`. Simplification:
the authentication path is a list of `hp` elements instead of `hp * n` bytes. -/
def collect (t : Tree) (leaf : Option Nat) (idx height : Nat) (node : Blk) (auth : List Blk) : List Blk :=
  match leaf with
  | none => auth
  | some l => if height = t.hp then auth
              else if idx = (l / 2 ^ height) ^^^ 1 then auth.set height node else auth

/-- ComputeNodeRecursive, hbs_tree.c:94-131: the node and the authentication path collected so far. -/
def computeNode (t : Tree) (a : Adrs) (leaf : Option Nat) :
    Nat → Nat → List Blk → Except Err (Blk × List Blk)
  | 0, idx, auth => bindE (leafNode t idx a) fun v => .ok (v, collect t leaf idx 0 v auth)
  | h + 1, idx, auth =>
    bindE (computeNode t a leaf h (2 * idx) auth) fun l =>
    bindE (computeNode t a leaf h (2 * idx + 1) l.2) fun r =>
    bindE (internalNode t idx (h + 1) a l.1 r.1) fun v => .ok (v, collect t leaf idx (h + 1) v r.2)

/-- The root of the tree at an address: HbsTree_ComputeNode(node, 0, hp, adrs, ctx, NULL, 0), as used
by key generation (slh_dsa_core.c:243-250) and by the key checks (xmss_common.c:544). -/
def treeRoot (t : Tree) (a : Adrs) : Except Err Blk :=
  bindE (computeNode t a none t.hp 0 []) fun r => .ok r.1

/-- HbsTree_Sign, hbs_tree.c:149-186: signature and root. -/
def treeSign (t : Tree) (msg : List Byte) (idx : Nat) (a : Adrs) : Except Err (List Byte × Blk) :=
  bindE (wotsSign t msg ((a.setType 0).setKeyPair idx)) fun ws =>
  bindE (computeNode t a (some idx) t.hp 0 (List.replicate t.hp [])) fun r =>
  .ok (ws.flatten ++ r.2.flatten, r.1)

/-- The loop of HbsTree_Verify, hbs_tree.c:221-249: `cnt` levels left, `k` is the next level. -/
def verifyLoop (t : Tree) (sig : List Byte) (idx : Nat) :
    Nat → Nat → Adrs → Blk → Except Err (Blk × Adrs)
  | 0, _, a, node => .ok (node, a)
  | cnt + 1, k, a, node =>
    let a := a.setTreeHeight (if t.xmss then k else k + 1)
    let sib := blk t.n sig (t.otsLen + k)
    let odd := idx / 2 ^ k % 2 ≠ 0
    let tmp := if odd then sib ++ node else node ++ sib
    let a := a.setTreeIndex (if odd then (a.getTreeIndex - 1) / 2 else a.getTreeIndex / 2)
    bindE (liftH (t.H.nodeHash a tmp)) fun node' => verifyLoop t sig idx cnt (k + 1) a node'

/-- HbsTree_Verify, hbs_tree.c:190-253: the reconstructed root, and the caller's address as it is
left behind. -/
def treeVerify (t : Tree) (msg sig : List Byte) (idx : Nat) (a : Adrs) : Except Err (Blk × Adrs) :=
  if sig.length < (t.otsLen + t.hp) * t.n then .error .sigLen else
  bindE (wotsPkFromSig t msg (sig.take (t.otsLen * t.n)) ((a.setType 0).setKeyPair idx)) fun node =>
  verifyLoop t sig idx t.hp 0 ((a.setType 2).setTreeIndex idx) node

/-! ## Hypertree -/

/-- The loop of HbsHyperTree_Sign, hbs_tree.c:337-358: `cnt` layers left, `j` is the next layer. -/
def hyperSignLoop (t : Tree) : Nat → Nat → List Byte → Nat → Nat → Except Err (List Byte × Blk)
  | 0, _, msg, _, _ => .ok ([], msg)
  | cnt + 1, j, msg, tree, leaf =>
    let leaf' := if j ≠ 0 then tree % 2 ^ t.hp % 2 ^ 32 else leaf
    let tree' := if j ≠ 0 then tree / 2 ^ t.hp else tree
    let a := (if j ≠ 0 then Adrs.zero.setLayer j else Adrs.zero).setTree tree'
    bindE (treeSign t msg leaf' a) fun r =>
    bindE (hyperSignLoop t cnt (j + 1) r.2 tree' leaf') fun rest => .ok (r.1 ++ rest.1, rest.2)

/-- HbsHyperTree_Sign, hbs_tree.c:310-361; `room` is `*sigLen` on entry. The message is padded with
zeros to `n` bytes (:333-335). -/
def hyperSign (t : Tree) (msg : List Byte) (tree leaf room : Nat) : Except Err (List Byte) :=
  if t.n = 0 ∨ 64 < t.n ∨ t.n < msg.length then .error .badArg else
  if room < (t.otsLen + t.hp) * t.n * t.d then .error .sigLen else
  bindE (hyperSignLoop t t.d 0 (msg ++ List.replicate (t.n - msg.length) 0#8) tree leaf) fun r => .ok r.1

/-- The loop of HbsHyperTree_Verify, hbs_tree.c:285-298: one address object for all layers. -/
def hyperVerifyLoop (t : Tree) (sig : List Byte) :
    Nat → Nat → Blk → Nat → Nat → Adrs → Except Err Blk
  | 0, _, node, _, _, _ => .ok node
  | cnt + 1, j, node, tree, leaf, a =>
    let leaf' := if j ≠ 0 then tree % 2 ^ t.hp % 2 ^ 32 else leaf
    let tree' := if j ≠ 0 then tree / 2 ^ t.hp else tree
    let a := (if j ≠ 0 then a.setLayer j else a).setTree tree'
    let len := (t.otsLen + t.hp) * t.n
    bindE (treeVerify t node ((sig.drop (j * len)).take len) leaf' a) fun r =>
    hyperVerifyLoop t sig cnt (j + 1) r.1 tree' leaf' r.2

/-- HbsHyperTree_Verify, hbs_tree.c:257-309. -/
def hyperVerify (t : Tree) (root : Blk) (msg sig : List Byte) (tree leaf : Nat) : Except Err Unit :=
  if t.n = 0 ∨ 64 < t.n ∨ t.n < msg.length then .error .badArg else
  if t.d = 0 ∨ sig.length / t.d < (t.otsLen + t.hp) * t.n then .error .sigLen else
  bindE (hyperVerifyLoop t sig t.d 0 (msg ++ List.replicate (t.n - msg.length) 0#8) tree leaf Adrs.zero)
    fun node => if node = root then .ok () else .error .mismatch

/-! ## XMSS and XMSS^MT -/

/-- The tree context of a parameter set, HbsTreeCtx_InitForXmss (xmss_core.c:96-114) and
HbsTreeCtx_InitForXmssmt (xmssmt_core.c:76-92). -/
def xmssTree (p : Xmss.Params) (H : Hash) : Tree := ⟨p.n, p.hp, p.d, p.wotsLen, true, H⟩

/-- The public root of an XMSS or XMSS^MT key: the root of the only tree of the top layer. -/
def xmssRoot (p : Xmss.Params) (H : Hash) : Except Err Blk :=
  treeRoot (xmssTree p H) (Adrs.zero.setLayer (p.d - 1))

/-- The signature made with index `index` and randomiser `r`: XmssPrepareSignData
(xmss_common.c:143-165) followed by HbsTree_Sign (xmss_core.c:379-390) or HbsHyperTree_Sign
(xmssmt_core.c:449-461). Simplification: the path through the BDS state is not modelled. -/
def xmssSign (p : Xmss.Params) (H : Hash) (r : Blk) (index : Nat) (msg : List Byte) :
    Except Err (List Byte) :=
  let t := xmssTree p H
  let pos := Xmss.position p index
  bindE (liftH (H.msgHash r msg index)) fun digest =>
  bindE (if p.mt then hyperSign t digest pos.1 pos.2 (p.sigBytes - Xmss.idxBytes p - p.n)
         else bindE (treeSign t digest pos.2 (Adrs.zero.setTree 0)) fun s => .ok s.1) fun ts =>
  .ok (Xmss.beBytes (Xmss.idxBytes p) index ++ r ++ ts)

/-- CRYPT_XMSS_Verify (xmss_core.c:407-442) and CRYPT_XMSSMT_Verify (xmssmt_core.c:482-514), with
XmssBuildVerifyDigest (xmss_common.c:179-201) and XmssCheckRoot (:203-214). -/
def xmssVerify (p : Xmss.Params) (H : Hash) (root : Blk) (msg sig : List Byte) : Except Err Unit :=
  let t := xmssTree p H
  if sig.length ≠ p.sigBytes then .error .sigLen else
  let index := Xmss.verifyIndex p sig
  let pos := Xmss.position p index
  let rest := sig.drop (Xmss.idxBytes p)
  bindE (liftH (H.msgHash (rest.take p.n) msg index)) fun digest =>
  if p.mt then hyperVerify t root digest (rest.drop p.n) pos.1 pos.2
  else bindE (treeVerify t digest (rest.drop p.n) pos.2 (Adrs.zero.setTree 0)) fun r =>
    if r.1 = root then .ok () else .error .mismatch

/-! ## FORS -/

/-- Parameters of SLH-DSA, slh_dsa_local.h SlhDsaMathParams: the security category and the hash
selection are left out. -/
structure SlhParams where
  n : Nat
  h : Nat
  d : Nat
  hp : Nat
  a : Nat
  k : Nat
  m : Nat
  sigBytes : Nat
deriving DecidableEq, Repr

/-- The inner loop of BaseB, slh_dsa_fors.c:37-41, with `total` reduced modulo 2^64; missing input
reads as zero. `fuel` bounds the number of rounds; `b` rounds are always enough. -/
def fillF (b : Nat) : Nat → List Byte → Nat → Nat → List Byte × Nat × Nat
  | 0, xs, total, bits => (xs, total, bits)
  | fuel + 1, xs, total, bits =>
    if bits < b then
      match xs with
      | [] => fillF b fuel [] (total * 256 % 2 ^ 64) (bits + 8)
      | x :: xs => fillF b fuel xs ((total * 256 + x.toNat) % 2 ^ 64) (bits + 8)
    else (xs, total, bits)

/-- BaseB, slh_dsa_fors.c:29-45. -/
def baseBF (b : Nat) : Nat → List Byte → Nat → Nat → List Nat
  | 0, _, _, _ => []
  | k + 1, xs, total, bits =>
    match fillF b b xs total bits with
    | (xs', total', bits') =>
      total' / 2 ^ (bits' - b) % 2 ^ b :: baseBF b k xs' total' (bits' - b)

/-- ForsGenPrvKey, slh_dsa_fors.c:167-175. -/
def forsSk (H : Hash) (a : Adrs) (idx : Nat) : Except Err Blk :=
  liftH (H.skDerive (((a.setType 6).copyKeyPair a).setTreeIndex idx))

/-- ForsNode, slh_dsa_fors.c:177-212; also returns the address as it is left behind. -/
def forsNode (H : Hash) : Nat → Nat → Adrs → Except Err (Blk × Adrs)
  | 0, idx, a =>
    bindE (forsSk H a idx) fun sk =>
    let a := (a.setTreeHeight 0).setTreeIndex idx
    bindE (liftH (H.chainHash a sk)) fun v => .ok (v, a)
  | h + 1, idx, a =>
    bindE (forsNode H h (idx * 2) a) fun l =>
    bindE (forsNode H h (idx * 2 + 1) l.2) fun r =>
    let a := (r.2.setTreeHeight (h + 1)).setTreeIndex idx
    bindE (liftH (H.nodeHash a (l.1 ++ r.1))) fun v => .ok (v, a)

/-- The authentication path of one FORS tree, slh_dsa_fors.c:75-82. -/
def forsAuth (H : Hash) (ah i ind : Nat) : Nat → Nat → Adrs → Except Err (List Blk × Adrs)
  | 0, _, a => .ok ([], a)
  | cnt + 1, j, a =>
    bindE (forsNode H j (i * 2 ^ (ah - j) + ((ind / 2 ^ j) ^^^ 1)) a) fun v =>
    bindE (forsAuth H ah i ind cnt (j + 1) v.2) fun rest => .ok (v.1 :: rest.1, rest.2)

/-- The loop of ForsSign, slh_dsa_fors.c:69-83. -/
def forsSignLoop (H : Hash) (ah : Nat) : List Nat → Nat → Adrs → Except Err (List Blk × Adrs)
  | [], _, a => .ok ([], a)
  | ind :: inds, i, a =>
    bindE (forsSk H a (ind + i * 2 ^ ah)) fun sk =>
    bindE (forsAuth H ah i ind ah 0 a) fun au =>
    bindE (forsSignLoop H ah inds (i + 1) au.2) fun rest => .ok (sk :: au.1 ++ rest.1, rest.2)

/-- ForsSign, slh_dsa_fors.c:47-91: signature and the address left behind. -/
def forsSign (p : SlhParams) (H : Hash) (md : List Byte) (a : Adrs) (room : Nat) :
    Except Err (List Byte × Adrs) :=
  if room < (p.a + 1) * p.n * p.k then .error .sigLen else
  bindE (forsSignLoop H p.a (baseBF p.a p.k md 0 0) 0 a) fun r => .ok (r.1.flatten, r.2)

/-- The inner loop of ForsPkFromSig, slh_dsa_fors.c:131-152. -/
def forsClimb (H : Hash) (n : Nat) (auth : List Byte) (ind : Nat) :
    Nat → Nat → Adrs → Blk → Except Err (Blk × Adrs)
  | 0, _, a, node => .ok (node, a)
  | cnt + 1, j, a, node =>
    let a := a.setTreeHeight (j + 1)
    let odd := ind / 2 ^ j % 2 = 1
    let a := a.setTreeIndex (if odd then (a.getTreeIndex - 1) / 2 else a.getTreeIndex / 2)
    let tmp := if odd then blk n auth j ++ node else node ++ blk n auth j
    bindE (liftH (H.nodeHash a tmp)) fun node' => forsClimb H n auth ind cnt (j + 1) a node'

/-- The outer loop of ForsPkFromSig, slh_dsa_fors.c:121-154. -/
def forsPkLoop (H : Hash) (n ah : Nat) (sig : List Byte) :
    List Nat → Nat → Adrs → Except Err (List Blk × Adrs)
  | [], _, a => .ok ([], a)
  | ind :: inds, i, a =>
    let a := (a.setTreeHeight 0).setTreeIndex (i * 2 ^ ah + ind)
    let mine := sig.drop ((ah + 1) * n * i)
    bindE (liftH (H.chainHash a (mine.take n))) fun node =>
    bindE (forsClimb H n (mine.drop n) ind ah 0 a node) fun r =>
    bindE (forsPkLoop H n ah sig inds (i + 1) r.2) fun rest => .ok (r.1 :: rest.1, rest.2)

/-- ForsPkFromSig, slh_dsa_fors.c:93-165. -/
def forsPkFromSig (p : SlhParams) (H : Hash) (sig md : List Byte) (a : Adrs) : Except Err Blk :=
  if sig.length < (p.a + 1) * p.n * p.k then .error .sigLen else
  bindE (forsPkLoop H p.n p.a sig (baseBF p.a p.k md 0 0) 0 a) fun r =>
  liftH (H.pkCompress ((r.2.setType 4).copyKeyPair r.2) r.1.flatten)

/-! ## SLH-DSA -/

/-- ToIntMod, slh_dsa_core.c:112-119. -/
def toIntMod (b : List Byte) (m : Nat) : Nat :=
  b.foldl (fun acc x => (acc * 256 + x.toNat) % 2 ^ 64) 0 % 2 ^ m

/-- SPLIT_BYTES, slh_dsa_core.c:48-49. -/
def splitBytes (x : Nat) : Nat := (x + 7) / 8

/-- GetTreeAndLeafIdx, slh_dsa_core.c:269-281. -/
def treeAndLeaf (p : SlhParams) (digest : List Byte) : Nat × Nat :=
  let mdIdx := splitBytes (p.k * p.a)
  let tl := splitBytes (p.h - p.h / p.d)
  let ll := splitBytes (p.h / p.d)
  (toIntMod ((digest.drop mdIdx).take tl) (p.h - p.h / p.d),
   toIntMod ((digest.drop (mdIdx + tl)).take ll) (p.h / p.d))

/-- HbsTreeCtx_InitFromSlhDsa, slh_dsa_hypertree.c:24-40. -/
def slhTree (p : SlhParams) (H : Hash) : Tree := ⟨p.n, p.hp, p.d, 2 * p.n + 3, false, H⟩

/-- The root computed by CRYPT_SLH_DSA_Gen, slh_dsa_core.c:243-256. -/
def slhRoot (p : SlhParams) (H : Hash) : Except Err Blk :=
  treeRoot (slhTree p H) (Adrs.zero.setLayer (p.d - 1))

/-- The address for FORS, slh_dsa_core.c:314-316 and :369-371. -/
def forsAdrs (tree leaf : Nat) : Adrs := ((Adrs.zero.setTree tree).setType 3).setKeyPair leaf

/-- SlhDsaSignInternal, slh_dsa_core.c:284-338, with the randomiser `r` (the result of sigRandGen).
`room` is `*sigLen`. -/
def slhSign (p : SlhParams) (H : Hash) (r : Blk) (msg : List Byte) (room : Nat) :
    Except Err (List Byte) :=
  bindE (liftH (H.msgHash r msg 0)) fun digest =>
  let pos := treeAndLeaf p digest
  let md := digest.take (splitBytes (p.k * p.a))
  bindE (forsSign p H md (forsAdrs pos.1 pos.2) room) fun f =>
  bindE (forsPkFromSig p H f.1 md f.2) fun pk =>
  bindE (hyperSign (slhTree p H) pk pos.1 pos.2 (room - (p.n + f.1.length))) fun ht =>
  .ok (r ++ f.1 ++ ht)

/-- SlhDsaVerifyInternal, slh_dsa_core.c:341-386. -/
def slhVerify (p : SlhParams) (H : Hash) (root : Blk) (msg sig : List Byte) : Except Err Unit :=
  if sig.length ≠ p.sigBytes then .error .sigLen else
  bindE (liftH (H.msgHash (sig.take p.n) msg 0)) fun digest =>
  let pos := treeAndLeaf p digest
  let md := digest.take (splitBytes (p.k * p.a))
  let fl := (1 + p.a) * p.k * p.n
  bindE (forsPkFromSig p H ((sig.drop p.n).take fl) md (forsAdrs pos.1 pos.2)) fun pk =>
  hyperVerify (slhTree p H) root pk (sig.drop (p.n + fl)) pos.1 pos.2

/-- g_slhDsaMathParams, slh_dsa_core.c:66-79 (the rows come in pairs that differ in the hash). -/
def slhTable : List SlhParams := [
  ⟨16, 63, 7, 9, 12, 14, 30, 7856⟩,
  ⟨16, 66, 22, 3, 6, 33, 34, 17088⟩,
  ⟨24, 63, 7, 9, 14, 17, 39, 16224⟩,
  ⟨24, 66, 22, 3, 8, 33, 42, 35664⟩,
  ⟨32, 64, 8, 8, 14, 22, 47, 29792⟩,
  ⟨32, 68, 17, 4, 9, 35, 49, 49856⟩]

/-- MsgEncode, slh_dsa_core.c:410-474: the message representative. `pre` is `some (oid, digest)` in
prehash mode, with the encoded object identifier of the hash. Simplification: the length additions
that overflow 32 bits are refused by the code and are left out. -/
def msgEncode (context : List Byte) (pre : Option (List Byte × List Byte)) (data : List Byte) : List Byte :=
  match pre with
  | none => 0#8 :: BitVec.ofNat 8 context.length :: (context ++ data)
  | some (oid, dg) =>
    1#8 :: BitVec.ofNat 8 context.length :: (context ++ (6#8 :: BitVec.ofNat 8 oid.length :: (oid ++ dg)))

end Verif.Crypto.Hbs
