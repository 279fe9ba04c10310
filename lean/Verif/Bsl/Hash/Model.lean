import Verif.Common.Bits
/-!
Model of the hash table with linear hashing, /repo/bsl/hash/src/bsl_hash.c.

The bucket array is a partial function (`none`: the slot is allocated but not initialised, or not allocated);
`cap` is the number of allocated slots. A bucket (`RawList`, a circular list of nodes) is the sequence of its nodes;
the pointer layer /repo/bsl/hash/src/list_base.c is not modelled. Keys and values are what the user stores: a copy made
by a registered `dupFunc` is taken to be equal to the original. Reading an uninitialised slot, a slot outside the
allocation or a division by zero is `none`. `uint32_t` fields are natural numbers reduced where the code's arithmetic
could wrap.
-/
namespace Verif.Bsl.Hash

/-- `struct BSL_HASH_Info`, /repo/bsl/hash/include/bsl_hash.h:388-400. `initialSize` is never read. -/
structure Tbl (K V : Type) where
  arr : Nat → Option (List (K × V))
  cap : Nat
  nextLevelSize : Nat
  nextSplit : Nat
  bucketSize : Nat
  count : Nat

/-- The functions registered by the user: `hashFunc` (a `uint32_t`) and `matchFunc`. -/
structure Cfg (K : Type) where
  hash : K → Nat
  mt : K → K → Bool

/-- Store of a slot. -/
def upd {K V : Type} (a : Nat → Option (List (K × V))) (i : Nat) (b : List (K × V)) : Nat → Option (List (K × V)) :=
  fun j => if j = i then some b else a j

/-- `IsMultiOverflow`, /repo/bsl/hash/src/hash_local.c:25-34. -/
def isMultiOverflow (x y : Nat) : Bool := decide (0 < x) && decide (0 < y) && decide ((2 ^ 32 - 1) / x < y)

/-- `sizeof(RawList)`, three pointers, on a 64-bit platform. -/
def sizeofRawList : Nat := 24

/-- `BSL_HASH_Create`, /repo/bsl/hash/src/bsl_hash.c:496-542, with the allocations succeeding; `none` is NULL. -/
def create {K V : Type} (bktSize : Nat) : Option (Tbl K V) :=
  let actual := if bktSize = 0 then 16 else bktSize
  if actual > (2 ^ 32 - 1) / 2 then none
  else
    let next := actual * 2
    if isMultiOverflow (next + 1) sizeofRawList then none
    else some ⟨fun i => if i < actual then some [] else none, next + 1, next, 0, actual, 0⟩

/-- `BSL_HASH_GetBucketIndex`, /repo/bsl/hash/src/bsl_hash.c:325-337. -/
def bucketIndex {K V : Type} (c : Cfg K) (t : Tbl K V) (k : K) : Option Nat :=
  let hv := c.hash k
  let nLevel := t.nextLevelSize / 2
  if nLevel = 0 then none
  else
    let b := hv % nLevel
    if b < t.nextSplit then some (hv % t.nextLevelSize) else some b

/-- Reading of bucket `i`. -/
def bucket {K V : Type} (t : Tbl K V) (i : Nat) : Option (List (K × V)) := if i < t.cap then t.arr i else none

/-- `BSL_HASH_FindNode`, /repo/bsl/hash/src/bsl_hash.c:222-235. -/
def findNode {K V : Type} (c : Cfg K) (b : List (K × V)) (k : K) : Option (K × V) := b.find? (fun e => c.mt e.1 k)

/-- `BSL_HASH_MoveNodes` with `isSplit`, /repo/bsl/hash/src/bsl_hash.c:360-384: the source and destination afterwards. -/
def moveNodes {K V : Type} (c : Cfg K) (nls target : Nat) : List (K × V) → List (K × V) → List (K × V) × List (K × V)
  | [], dst => ([], dst)
  | e :: src, dst =>
    if c.hash e.1 % nls = target then moveNodes c nls target src (dst ++ [e])
    else ((e :: (moveNodes c nls target src dst).1), (moveNodes c nls target src dst).2)

/-- The middle of `BSL_HASH_SplitBucket`, /repo/bsl/hash/src/bsl_hash.c:425-434: initialisation of the new bucket and
the move of nodes into it. The result is the new bucket array. -/
def splitMove {K V : Type} (c : Cfg K) (t : Tbl K V) (splitIndex newIndex : Nat) :
    Option (Nat → Option (List (K × V))) :=
  if newIndex < t.cap then do
    let t := { t with arr := upd t.arr newIndex [] }
    let src ← bucket t splitIndex
    let dst ← bucket t newIndex
    let r := moveNodes c t.nextLevelSize newIndex src dst
    some (upd (upd t.arr splitIndex r.1) newIndex r.2)
  else none

/-- `BSL_HASH_SplitBucket`, /repo/bsl/hash/src/bsl_hash.c:408-446, with `BSL_HASH_ResizeListArray` :387-405; `reallocOk`
is whether the reallocation succeeds. The `Bool` is whether `BSL_SUCCESS` is returned. -/
def splitBucket {K V : Type} (c : Cfg K) (reallocOk : Bool) (t : Tbl K V) : Option (Tbl K V × Bool) :=
  let nLevel := t.nextLevelSize / 2
  let splitIndex := t.nextSplit
  let newIndex := (nLevel + splitIndex) % 2 ^ 32
  let oldCap := (t.nextLevelSize + 1) % 2 ^ 32
  let newCap := (t.nextLevelSize * 2 + 1) % 2 ^ 32
  if splitIndex = (nLevel + 2 ^ 32 - 1) % 2 ^ 32 then
    if isMultiOverflow newCap sizeofRawList || isMultiOverflow oldCap sizeofRawList || !reallocOk then some (t, false)
    else do
      let arr ← splitMove c { t with cap := newCap } splitIndex newIndex
      some (⟨arr, newCap, t.nextLevelSize * 2 % 2 ^ 32, 0, (t.bucketSize + 1) % 2 ^ 32, t.count⟩, true)
  else do
    let arr ← splitMove c t splitIndex newIndex
    some (⟨arr, t.cap, t.nextLevelSize, (t.nextSplit + 1) % 2 ^ 32, (t.bucketSize + 1) % 2 ^ 32, t.count⟩, true)

/-- `BSL_HASH_CheckResize`, /repo/bsl/hash/src/bsl_hash.c:449-464. -/
def checkResize {K V : Type} (c : Cfg K) (reallocOk : Bool) (t : Tbl K V) : Option (Tbl K V × Bool) :=
  if isMultiOverflow t.count 100 || isMultiOverflow t.bucketSize 100 then some (t, false)
  else if t.count * 100 ≥ t.bucketSize * 100 then splitBucket c reallocOk t
  else some (t, true)

/-- `BSL_HASH_UpdateNode`, /repo/bsl/hash/src/bsl_hash.c:563-586: the value of the node found is replaced. -/
def updateNode {K V : Type} (c : Cfg K) (k : K) (v : V) : List (K × V) → List (K × V)
  | [] => []
  | e :: b => if c.mt e.1 k then (e.1, v) :: b else e :: updateNode c k v b

/-- Results of the allocator during one operation: the bucket array, the node with its copies. -/
structure Mem where
  realloc : Bool
  node : Bool

/-- `BSL_HASH_InsertOrUpdate`, /repo/bsl/hash/src/bsl_hash.c:588-630 (with `BSL_HASH_InsertNode` :544-561; no
`updateNodeFunc`). The first `Bool` is whether `BSL_SUCCESS` is returned, the second whether an allocation failed or a
size limit was hit. -/
def insertOrUpdate {K V : Type} (c : Cfg K) (m : Mem) (allowUpdate : Bool) (t : Tbl K V) (k : K) (v : V) :
    Option (Tbl K V × Bool × Bool) := do
  let (t, ok) ← checkResize c m.realloc t
  if !ok then some (t, false, true)
  else
    let i ← bucketIndex c t k
    let b ← bucket t i
    match findNode c b k with
    | some _ =>
      if !allowUpdate then some (t, false, false)
      else if m.node then some ({ t with arr := upd t.arr i (updateNode c k v b) }, true, false)
      else some (t, false, true)
    | none =>
      if m.node then some ({ t with arr := upd t.arr i (b ++ [(k, v)]), count := (t.count + 1) % 2 ^ 32 }, true, false)
      else some (t, false, true)

/-- `BSL_HASH_Find` / `BSL_HASH_At`, /repo/bsl/hash/src/bsl_hash.c:643-680; `some none` is the end iterator. -/
def find {K V : Type} (c : Cfg K) (t : Tbl K V) (k : K) : Option (Option (K × V)) := do
  let i ← bucketIndex c t k
  let b ← bucket t i
  some (findNode c b k)

/-- The loop over the following buckets in `BSL_HASH_Front` and `BSL_HASH_Next`,
/repo/bsl/hash/src/bsl_hash.c:237-255, 277-283: `n` buckets from bucket `i`. An iterator is the node it points to;
`some none` is the end. -/
def frontFrom {K V : Type} (t : Tbl K V) : Nat → Nat → Option (Option (K × V))
  | 0, _ => some none
  | n + 1, i => do
    let b ← bucket t i
    match b with
    | e :: _ => some (some e)
    | [] => frontFrom t n (i + 1)

/-- `BSL_HASH_IterBegin`, /repo/bsl/hash/src/bsl_hash.c:751-754. -/
def iterBegin {K V : Type} (t : Tbl K V) : Option (Option (K × V)) := frontFrom t t.bucketSize 0

/-- `ListRawGetNext`, for the node with this key (keys in a table do not match each other, so the key identifies the
node); a node that is not in the list is `none`. -/
def nextIn {K V : Type} (c : Cfg K) (k : K) : List (K × V) → Option (Option (K × V))
  | [] => none
  | e :: b => if c.mt e.1 k then some b.head? else nextIn c k b

/-- `BSL_HASH_Next`, /repo/bsl/hash/src/bsl_hash.c:257-287. -/
def next {K V : Type} (c : Cfg K) (t : Tbl K V) (k : K) : Option (Option (K × V)) := do
  let i ← bucketIndex c t k
  let b ← bucket t i
  let nx ← nextIn c k b
  match nx with
  | some e => some (some e)
  | none => frontFrom t (t.bucketSize - (i + 1)) (i + 1)

/-- `BSL_HASH_Erase`, /repo/bsl/hash/src/bsl_hash.c:692-714: new table and the returned iterator. -/
def erase {K V : Type} (c : Cfg K) (t : Tbl K V) (k : K) : Option (Tbl K V × Option (K × V)) := do
  let i ← bucketIndex c t k
  let b ← bucket t i
  match findNode c b k with
  | none => some (t, none)
  | some e =>
    let nx ← next c t e.1
    some ({ t with arr := upd t.arr i (b.eraseP (fun e => c.mt e.1 k)),
                   count := (t.count + 2 ^ 32 - 1) % 2 ^ 32 }, nx)

/-- The loop of `BSL_HASH_Clear`, /repo/bsl/hash/src/bsl_hash.c:727-735. -/
def clearLoop {K V : Type} : Nat → Tbl K V → Option (Tbl K V)
  | 0, t => some t
  | n + 1, t => do
    let t ← clearLoop n t
    let _ ← bucket t n
    some { t with arr := upd t.arr n [] }

/-- `BSL_HASH_Clear`, /repo/bsl/hash/src/bsl_hash.c:716-738. -/
def clear {K V : Type} (t : Tbl K V) : Option (Tbl K V) := do
  let t ← clearLoop t.bucketSize t
  some { t with count := 0 }

/-- A user's loop `for (it = IterBegin; it != IterEnd; it = IterNext(it))`, with a step bound. -/
def iterate {K V : Type} (c : Cfg K) (t : Tbl K V) : Nat → Option (K × V) → Option (List (K × V))
  | _, none => some []
  | 0, some _ => none
  | fuel + 1, some e => do
    let nx ← next c t e.1
    let r ← iterate c t fuel nx
    some (e :: r)

end Verif.Bsl.Hash
