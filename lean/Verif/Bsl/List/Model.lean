/-! Pointer-level model of /repo/bsl/list/src/bsl_list.c, bsl_list_internal.c and bsl_list_ex.c.

The heap maps addresses to nodes; `none` at an address means that no node is allocated there. Every access through a
NULL or dangling pointer makes the operation return `none`: in the model, undefined behaviour is a distinct outcome.
Loops that walk the list have a step bound of one more than the stored element count; running out of it (a list with
a cycle or a wrong count) also gives `none`. Data pointers are values of a type `D` and are not NULL
(`BSL_LIST_AddElement` :165 refuses NULL). The free function for the data is not modelled. -/
namespace Verif.Bsl.LinkedList

/-- `BslListNode`, /repo/bsl/list/include (struct with `prev`, `next`, `data`). `none` is NULL. -/
structure Node (D : Type) where
  prev : Option Nat
  next : Option Nat
  data : D

/-- The node memory. -/
abbrev Heap (D : Type) := Nat → Option (Node D)

/-- `BslList` (without `dataSize`). -/
structure Lst where
  first : Option Nat
  last : Option Nat
  curr : Option Nat
  count : Int
deriving DecidableEq, Repr

/-- Store of a node. -/
def upd {D : Type} (h : Heap D) (i : Nat) (n : Option (Node D)) : Heap D := fun j => if j = i then n else h j

/-- Dereference. -/
def deref {D : Type} (h : Heap D) : Option Nat → Option (Node D)
  | none => none
  | some i => h i

/-- `p->prev = v`. -/
def setPrev {D : Type} (h : Heap D) (p v : Option Nat) : Option (Heap D) :=
  match p with
  | none => none
  | some i => (h i).map fun n => upd h i (some { n with prev := v })

/-- `p->next = v`. -/
def setNext {D : Type} (h : Heap D) (p v : Option Nat) : Option (Heap D) :=
  match p with
  | none => none
  | some i => (h i).map fun n => upd h i (some { n with next := v })

/-- `if (nxt != NULL) nxt->prev = v; else pList->last = v;` (bsl_list.c:51-55, 230-234, 269-277, bsl_list_ex.c:131-135,
183-187). -/
def backLink {D : Type} (h : Heap D) (l : Lst) (nxt v : Option Nat) : Option (Heap D × Lst) :=
  match nxt with
  | some i => (setPrev h (some i) v).map fun h => (h, l)
  | none => some (h, { l with last := v })

/-- `if (prv != NULL) prv->next = v; else pList->first = v;` (bsl_list.c:86-90, 236-240, 283-289, bsl_list_ex.c:137-141,
189-193). -/
def fwdLink {D : Type} (h : Heap D) (l : Lst) (prv v : Option Nat) : Option (Heap D × Lst) :=
  match prv with
  | some i => (setNext h (some i) v).map fun h => (h, l)
  | none => some (h, { l with first := v })

/-- Return codes used. -/
inductive Code | success | invalidListCurrent | mallocFail | full
deriving DecidableEq, Repr

/-- `BslListPosition`, /repo/include/bsl/bsl_list.h:67-72. -/
inductive Pos | before | after | begin | end_
deriving DecidableEq, Repr

/-- `BSL_LIST_New`, /repo/bsl/list/src/bsl_list_internal.c:29-48. -/
def new : Lst := ⟨none, none, none, 0⟩

/-- `BslListAddAfterCurr`, /repo/bsl/list/src/bsl_list.c:30-62. `mem` is the result of the allocation. -/
def addAfterCurr {D : Type} (h : Heap D) (l : Lst) (mem : Option Nat) (d : D) : Option (Heap D × Lst × Code) :=
  match l.curr with
  | none => some (h, l, .invalidListCurrent)
  | some c =>
    match mem with
    | none => some (h, l, .mallocFail)
    | some n => do
      let h := upd h n (some ⟨none, none, d⟩)
      let cn ← h c
      let h := upd h n (some ⟨some c, cn.next, d⟩)
      let (h, l) ← backLink h l cn.next (some n)
      let h ← setNext h (some c) (some n)
      some (h, { l with curr := some n, count := l.count + 1 }, .success)

/-- `BslListInsertBeforeCurr`, /repo/bsl/list/src/bsl_list.c:64-97. -/
def insertBeforeCurr {D : Type} (h : Heap D) (l : Lst) (mem : Option Nat) (d : D) : Option (Heap D × Lst × Code) :=
  match l.curr with
  | none => some (h, l, .invalidListCurrent)
  | some c =>
    match mem with
    | none => some (h, l, .mallocFail)
    | some n => do
      let h := upd h n (some ⟨none, none, d⟩)
      let cn ← h c
      let h := upd h n (some ⟨cn.prev, some c, d⟩)
      let (h, l) ← fwdLink h l cn.prev (some n)
      let h ← setPrev h (some c) (some n)
      some (h, { l with curr := some n, count := l.count + 1 }, .success)

/-- The moves of the cursor in `BSL_LIST_AddElementInt`, /repo/bsl/list/src/bsl_list.c:125-134 (no cursor: the far end)
and :136-147 (`BSL_LIST_POS_END`, `BSL_LIST_POS_BEGIN`). -/
def anchor (l : Lst) (pos : Pos) : Lst :=
  let l := if l.curr = none then
      (if pos = .after then { l with curr := l.last }
       else if pos = .before then { l with curr := l.first } else l)
    else l
  if pos = .end_ then { l with curr := l.last } else if pos = .begin then { l with curr := l.first } else l

/-- `BSL_LIST_AddElementInt`, /repo/bsl/list/src/bsl_list.c:99-149; `max` is `g_maxListCount`. -/
def addElement {D : Type} (max : Int) (h : Heap D) (l : Lst) (mem : Option Nat) (d : D) (pos : Pos) :
    Option (Heap D × Lst × Code) :=
  if l.count ≥ max then some (h, l, .full)
  else if l.curr = none ∧ l.first = none then
    match mem with
    | none => some (h, l, .mallocFail)
    | some n => some (upd h n (some ⟨none, none, d⟩), ⟨some n, some n, some n, l.count + 1⟩, .success)
  else
    if pos = .after ∨ pos = .end_ then addAfterCurr h (anchor l pos) mem d
    else insertBeforeCurr h (anchor l pos) mem d

/-- `BSL_LIST_DeleteAll`, /repo/bsl/list/src/bsl_list.c:189-217: the loop with a step bound. -/
def deleteAllLoop {D : Type} : Nat → Heap D → Option Nat → Int → Option (Heap D × Int)
  | _, h, none, count => some (h, count)
  | 0, _, some _, _ => none
  | fuel + 1, h, some p, count => do
    let n ← h p
    deleteAllLoop fuel (upd h p none) n.next (count - 1)

/-- `BSL_LIST_DeleteAll`. -/
def deleteAll {D : Type} (h : Heap D) (l : Lst) : Option (Heap D × Lst) := do
  let (h, count) ← deleteAllLoop (l.count.toNat + 1) h l.first l.count
  some (h, ⟨none, none, none, count⟩)

/-- Unlinking of node `p` with the contents `n`, the statements shared by `BSL_LIST_DeleteCurrent`
/repo/bsl/list/src/bsl_list.c:229-240, `BSL_LIST_DeleteNode` and `BSL_LIST_DetachNode`
/repo/bsl/list/src/bsl_list_ex.c:131-141, 183-193. -/
def unlink {D : Type} (h : Heap D) (l : Lst) (n : Node D) : Option (Heap D × Lst) := do
  let (h, l) ← backLink h l n.next n.prev
  fwdLink h l n.prev n.next

/-- `BSL_LIST_DeleteCurrent`, /repo/bsl/list/src/bsl_list.c:219-255. -/
def deleteCurrent {D : Type} (h : Heap D) (l : Lst) : Option (Heap D × Lst) :=
  match l.curr with
  | none => some (h, l)
  | some c => do
    let n ← h c
    let (h, l) ← unlink h l n
    let n' ← h c
    let l := { l with curr := n'.next, count := l.count - 1 }
    some (upd h c none, l)

/-- `BSL_LIST_DetachCurrent`, /repo/bsl/list/src/bsl_list.c:257-297. -/
def detachCurrent {D : Type} (h : Heap D) (l : Lst) : Option (Heap D × Lst) :=
  match l.curr with
  | none => some (h, l)
  | some c => do
    let n ← h c
    let (h, l) ← backLink h l n.next n.prev
    let l := { l with curr := if n.next = none then l.last else n.next }
    let (h, l) ← fwdLink h l n.prev n.next
    some (upd h c none, { l with count := l.count - 1 })

/-- `BSL_LIST_DeleteNode`, /repo/bsl/list/src/bsl_list_ex.c:118-159; `p` is `pstCurrentNode`. -/
def deleteNodeLoop {D : Type} (target : Option Nat) : Nat → Option Nat → Heap D → Lst → Option (Heap D × Lst)
  | _, none, h, l => some (h, l)
  | 0, some _, _, _ => none
  | fuel + 1, some p, h, l => do
    let n ← h p
    if some p = target then do
      let (h, l) ← unlink h l n
      let n' ← h p
      let l := if some p = l.curr then { l with curr := n'.next } else l
      some (upd h p none, { l with count := l.count - 1 })
    else deleteNodeLoop target fuel n.next h l

/-- `BSL_LIST_DeleteNode`. -/
def deleteNode {D : Type} (h : Heap D) (l : Lst) (target : Option Nat) : Option (Heap D × Lst) :=
  deleteNodeLoop target (l.count.toNat + 1) l.first h l

/-- Storing the cursor and reading the element there, the common end of `BSL_LIST_Prev` and `BSL_LIST_Next`. -/
def readAt {D : Type} (h : Heap D) (l : Lst) (c : Option Nat) : Option (Lst × Option D) :=
  match c with
  | none => some ({ l with curr := c }, none)
  | some p => (h p).map fun n => ({ l with curr := c }, some n.data)

/-- `BSL_LIST_Prev`, /repo/bsl/list/src/bsl_list_internal.c:50-67, with the data read by the macro
`BSL_LIST_GET_PREV`, /repo/include/bsl/bsl_list.h:138. -/
def prev {D : Type} (h : Heap D) (l : Lst) : Option (Lst × Option D) := do
  let c ← (match l.curr with
    | some c => (h c).map (·.prev)
    | none => some l.last)
  readAt h l c

/-- `BSL_LIST_Next`, /repo/bsl/list/src/bsl_list_internal.c:69-86, with `BSL_LIST_GET_NEXT`. -/
def next {D : Type} (h : Heap D) (l : Lst) : Option (Lst × Option D) := do
  let c ← (match l.curr with
    | some c => (h c).map (·.next)
    | none => some l.first)
  readAt h l c

/-- `BSL_LIST_Last`, /repo/bsl/list/src/bsl_list_internal.c:88-101, with `BSL_LIST_GET_LAST`. -/
def last {D : Type} (h : Heap D) (l : Lst) : Option (Lst × Option D) :=
  match l.last with
  | none => some ({ l with curr := none }, none)
  | some p => (h p).map fun n => ({ l with curr := some p }, some n.data)

/-- `BSL_LIST_First`, /repo/bsl/list/src/bsl_list_internal.c:103-116, with `BSL_LIST_GET_FIRST`. -/
def first {D : Type} (h : Heap D) (l : Lst) : Option (Lst × Option D) :=
  match l.first with
  | none => some ({ l with curr := none }, none)
  | some p => (h p).map fun n => ({ l with curr := some p }, some n.data)

/-- `BSL_LIST_CURR_ELMT`, /repo/include/bsl/bsl_list.h:106. -/
def currElmt {D : Type} (h : Heap D) (l : Lst) : Option (Option D) :=
  match l.curr with
  | none => some none
  | some p => (h p).map fun n => some n.data

/-- Result of a comparison callback in a search. -/
inductive Hit | no | yes | intError
deriving DecidableEq, Repr

/-- The loop of `BSL_ListSearchInt`, /repo/bsl/list/src/bsl_list.c:322-339: the final `curr` and the element found.
`cmp` is the comparison with the object searched for (callback or `memcmp`); `wantErr` says whether `pstErr` is not
NULL, only then an internal error of the callback ends the search. -/
def searchLoop {D : Type} (cmp : D → Hit) (wantErr : Bool) (h : Heap D) : Nat → Option Nat →
    Option (Option Nat × Option D × Bool)
  | _, none => some (none, none, false)
  | 0, some _ => none
  | fuel + 1, some p => do
    let n ← h p
    match cmp n.data with
    | .intError => if wantErr then some (some p, none, true) else searchLoop cmp wantErr h fuel n.next
    | .yes => some (some p, some n.data, false)
    | .no => searchLoop cmp wantErr h fuel n.next

/-- `BSL_ListSearchInt`, /repo/bsl/list/src/bsl_list.c:309-345: new list, element found, `*pstErr` set. -/
def search {D : Type} (cmp : D → Hit) (wantErr : Bool) (h : Heap D) (l : Lst) : Option (Lst × Option D × Bool) := do
  let (c, r, err) ← searchLoop cmp wantErr h (l.count.toNat + 1) l.first
  match c with
  | some p => some ({ l with curr := some p }, r, err)
  | none => some (l, none, err)

/-- The loop of `BSL_LIST_GetIndexNode`, /repo/bsl/list/src/bsl_list.c:371-375: `n` times `BSL_LIST_GET_NEXT`. The
result `none` inside is the early `return NULL`. -/
def stepNext {D : Type} (h : Heap D) : Nat → Lst → Option (Lst × Bool)
  | 0, l => some (l, true)
  | n + 1, l => do
    let (l, d) ← next h l
    match d with
    | none => some (l, false)
    | some _ => stepNext h n l

/-- `BSL_LIST_GetIndexNode`, /repo/bsl/list/src/bsl_list.c:357-378. -/
def getIndexNode {D : Type} (h : Heap D) (l : Lst) (i : Nat) : Option (Lst × Option D) :=
  if (i : Int) ≥ l.count then some (l, none)
  else do
    let (l, d) ← first h l
    match d with
    | none => some (l, none)
    | some _ =>
      let (l, ok) ← stepNext h i l
      if ok then
        let n ← deref h l.curr
        some (l, some n.data)
      else some (l, none)

/-- The loop of `BSL_LIST_GetElmtIndex`, /repo/bsl/list/src/bsl_list_internal.c:137-149. -/
def elmtIndexLoop {D : Type} [DecidableEq D] (d : D) (h : Heap D) : Nat → Option Nat → Nat → Option (Option Nat)
  | _, none, _ => some none
  | 0, some _, _ => none
  | fuel + 1, some p, idx => do
    let n ← h p
    if n.data ≠ d then elmtIndexLoop d h fuel n.next (idx + 1) else some (some idx)

/-- `BSL_LIST_GetElmtIndex`, /repo/bsl/list/src/bsl_list_internal.c:127-154; `none` is -1. The cursor is restored. -/
def getElmtIndex {D : Type} [DecidableEq D] (d : D) (h : Heap D) (l : Lst) : Option (Option Nat) :=
  elmtIndexLoop d h (l.count.toNat + 1) l.first 0

/-- The loop of `BSL_LIST_RevList`, /repo/bsl/list/src/bsl_list.c:503-508. -/
def revLoop {D : Type} : Nat → Option Nat → Heap D → Option (Heap D)
  | _, none, h => some h
  | 0, some _, _ => none
  | fuel + 1, some p, h => do
    let n ← h p
    revLoop fuel n.next (upd h p (some ⟨n.next, n.prev, n.data⟩))

/-- `BSL_LIST_RevList`, /repo/bsl/list/src/bsl_list.c:493-514. -/
def revList {D : Type} (h : Heap D) (l : Lst) : Option (Heap D × Lst) := do
  let h ← revLoop (l.count.toNat + 1) l.first h
  some (h, ⟨l.last, l.first, l.last, l.count⟩)

/-- The first loop of `BSL_ListSortInternal`, /repo/bsl/list/src/bsl_list_internal.c:176-183: the elements read. -/
def readLoop {D : Type} (h : Heap D) : Nat → Option Nat → Option (List D)
  | _, none => some []
  | 0, some _ => none
  | fuel + 1, some p => do
    let n ← h p
    let r ← readLoop h fuel n.next
    some (n.data :: r)

/-- The second loop, :187-189: the sorted elements are stored into the nodes; reading past the array is `none`. -/
def writeLoop {D : Type} : Option Nat → List D → Heap D → Option (Heap D)
  | none, _, h => some h
  | some _, [], _ => none
  | some p, d :: ds, h => do
    let n ← h p
    writeLoop n.next ds (upd h p (some { n with data := d }))

/-- `BSL_ListSortInternal`, /repo/bsl/list/src/bsl_list_internal.c:156-195, below the qsort limit and with the array
allocated. `qsort` is the C library's sort of the array. -/
def sort {D : Type} (qsort : List D → List D) (h : Heap D) (l : Lst) : Option (Heap D × Lst) := do
  let a ← readLoop h (l.count.toNat + 1) l.first
  let h ← writeLoop l.first (qsort a) h
  some (h, { l with curr := none })

/-- `BSL_LIST_Concat`, /repo/bsl/list/src/bsl_list.c:516-555, for two different lists; the `Bool` is false when NULL is
returned because of the size limit. -/
def concat {D : Type} (max : Int) (h : Heap D) (dst src : Lst) : Option (Heap D × Lst × Bool) :=
  if src.count = 0 then some (h, dst, true)
  else if dst.count = 0 then some (h, ⟨src.first, src.last, src.first, src.count⟩, true)
  else if dst.count + src.count > max then some (h, dst, false)
  else do
    let h ← setPrev h src.first dst.last
    let h ← setNext h dst.last src.first
    some (h, { dst with count := dst.count + src.count, last := src.last }, true)

end Verif.Bsl.LinkedList
