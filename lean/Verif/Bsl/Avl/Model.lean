/-! Model of /repo/bsl/err/src/avl.c. A tree is a pointer to a node (`nil` for NULL); every node stores its height.
A dereference of NULL is `none`. Sharing does not occur: every child pointer is stored in one place. -/
namespace Verif.Bsl.Avl

/-- `BSL_AvlTree`, /repo/bsl/err/src/avl.h; `nil` is the NULL pointer. -/
inductive Tree (α : Type)
  | nil
  | node (height : Nat) (left : Tree α) (nodeId : Nat) (data : α) (right : Tree α)
deriving DecidableEq

variable {α : Type}

/-- `GetAvlTreeHeight`, /repo/bsl/err/src/avl.c:33-36. -/
def getHeight : Tree α → Nat
  | .nil => 0
  | .node h _ _ _ _ => h

/-- `UpdateAvlTreeHeight`, /repo/bsl/err/src/avl.c:38-48: the stored height is left alone once it is 64. -/
def updHeight (h : Nat) (l : Tree α) (k : Nat) (d : α) (r : Tree α) : Tree α :=
  if h ≥ 64 then .node h l k d r
  else .node (max (getHeight l) (getHeight r) + 1) l k d r

/-- `AVL_RotateLeft`, /repo/bsl/err/src/avl.c:72-88. -/
def rotateLeft : Tree α → Option (Tree α)
  | .node h l k d (.node h' l' k' d' r') => some (updHeight h' (updHeight h l k d l') k' d' r')
  | _ => none

/-- `AVL_RotateRight`, /repo/bsl/err/src/avl.c:95-111. -/
def rotateRight : Tree α → Option (Tree α)
  | .node h (.node h' l' k' d' r') k d r => some (updHeight h' l' k' d' (updHeight h r' k d r))
  | _ => none

/-- The pointer comparison in `AVL_RebalanceRight` (:127): the left grandchild is higher. -/
def leftHigher : Tree α → Option Bool
  | .node _ l _ _ r => some (getHeight l > getHeight r)
  | .nil => none

/-- The comparison in `AVL_RebalanceLeft` (:147): the right grandchild is higher. -/
def rightHigher : Tree α → Option Bool
  | .node _ l _ _ r => some (getHeight r > getHeight l)
  | .nil => none

/-- `AVL_RebalanceRight`, /repo/bsl/err/src/avl.c:118-131. -/
def rebalanceRight (h : Nat) (l : Tree α) (k : Nat) (d : α) (r : Tree α) : Option (Tree α) :=
  if getHeight l + 1 ≥ getHeight r then some (updHeight h l k d r)
  else do
    let lh ← leftHigher r
    let r ← if lh then rotateRight r else some r
    rotateLeft (.node h l k d r)

/-- `AVL_RebalanceLeft`, /repo/bsl/err/src/avl.c:138-151. -/
def rebalanceLeft (h : Nat) (l : Tree α) (k : Nat) (d : α) (r : Tree α) : Option (Tree α) :=
  if getHeight r + 1 ≥ getHeight l then some (updHeight h l k d r)
  else do
    let rh ← rightHigher l
    let l ← if rh then rotateLeft l else some l
    rotateRight (.node h l k d r)

/-- `BSL_AVL_InsertNode`, /repo/bsl/err/src/avl.c:160-183, of a node from `BSL_AVL_MakeLeafNode` (:50-65). The NULL
returned for an id that is present is stored by the caller like any other result. -/
def insert (t : Tree α) (id : Nat) (x : α) : Option (Tree α) :=
  match t with
  | .nil => some (.node 1 .nil id x .nil)
  | .node h l k d r =>
    if k > id then do
      let l ← insert l id x
      rebalanceLeft h l k d r
    else if k < id then do
      let r ← insert r id x
      rebalanceRight h l k d r
    else some .nil

/-- `BSL_AVL_SearchNode`, /repo/bsl/err/src/avl.c:185-203: the data of the node found. -/
def search : Tree α → Nat → Option α
  | .nil, _ => none
  | .node _ l k d r, id => if k = id then some d else if k > id then search l id else search r id

/-- `AVL_DeleteNodeWithTwoChilds`, /repo/bsl/err/src/avl.c:211-229: the new subtree, and the id and data that are stored
into the removed node. -/
def deleteMax : Tree α → Option (Tree α × Nat × α)
  | .nil => none
  | .node _ l k d .nil => some (l, k, d)
  | .node h l k d (.node h' l' k' d' r') => do
    let (r, k2, d2) ← deleteMax (.node h' l' k' d' r')
    let t ← rebalanceLeft h l k d r
    some (t, k2, d2)

/-- `BSL_AVL_DeleteNode`, /repo/bsl/err/src/avl.c:231-272. -/
def delete : Tree α → Nat → Option (Tree α)
  | .nil, _ => some .nil
  | .node h l k d r, id =>
    if k = id then
      match l, r with
      | .nil, r => some r
      | l, .nil => some l
      | .node hl ll lk ld lr, .node hr rl rk rd rr => do
        let (l, k2, d2) ← deleteMax (.node hl ll lk ld lr)
        rebalanceRight h l k2 d2 (.node hr rl rk rd rr)
    else if k > id then do
      let l ← delete l id
      rebalanceRight h l k d r
    else do
      let r ← delete r id
      rebalanceLeft h l k d r

/-- `curNode->data = …` after `BSL_AVL_SearchNode`, /repo/bsl/err/src/err.c:383-387. -/
def setData : Tree α → Nat → α → Tree α
  | .nil, _, _ => .nil
  | .node h l k d r, id, x =>
    if k = id then .node h l k x r
    else if k > id then .node h (setData l id x) k d r else .node h l k d (setData r id x)

/-- `AddErrDesc` for a non-negative code with the allocation succeeding, /repo/bsl/err/src/err.c:378-394. -/
def put (t : Tree α) (id : Nat) (x : α) : Option (Tree α) :=
  match search t id with
  | some _ => some (setData t id x)
  | none => insert t id x

end Verif.Bsl.Avl
