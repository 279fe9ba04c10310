import Verif.Bsl.Avl.Props
/-! Model of the per-thread error stacks, /repo/bsl/err/src/err.c. Every function holds the global lock for all its accesses,
so a concurrent execution is a sequence of atomic steps, each by one thread. The lock functions succeed (the module is
initialised). File names are opaque pointers of type `F`. -/
namespace Verif.Bsl.Err
open Verif.Bsl

/-- One index of the arrays `errorStack`, `errorFlags`, `filename`, `line` of `ErrorCodeStack`, err.c:46-55. The only flag
bit in use is `ERR_FLAG_POP_MARK`. -/
structure Slot (F : Type) where
  code : Int
  mark : Bool
  file : Option F
  line : Nat
deriving DecidableEq

/-- `StackResetIndex`, err.c:110-118. -/
def Slot.zero {F : Type} : Slot F := ⟨0, false, none, 0⟩

/-- `ErrorCodeStack`, err.c:38-56 (the field `flag` is never set). -/
structure Stack (F : Type) where
  bottom : Nat
  top : Nat
  slots : Nat → Slot F

def upd {F : Type} (s : Nat → Slot F) (i : Nat) (x : Slot F) : Nat → Slot F := fun j => if j = i then x else s j

/-- `BSL_SAL_Calloc(1, sizeof(ErrorCodeStack))`. -/
def Stack.new {F : Type} : Stack F := ⟨0, 0, fun _ => .zero⟩

/-- The two globals `g_avlRoot` and `g_avlNodeCount`. -/
structure St (F : Type) where
  root : Avl.Tree (Stack F)
  count : Nat

variable {F : Type}

/-- The body of `BSL_ERR_PushError` on the stack, err.c:174-181. -/
def pushOn (st : Stack F) (err : Int) (file : Option F) (line : Nat) : Stack F :=
  let bottom := if st.top = st.bottom ∧ (st.slots st.top).code ≠ 0 then (st.bottom + 1) % 20 else st.bottom
  ⟨bottom, (st.top + 1) % 20, upd st.slots st.top ⟨err, false, file, line⟩⟩

/-- `GetIndex`, err.c:241-255 and the same computation in `BSL_LIST_WriteLockCreate` :476-479, for `last`. -/
def topIndex (st : Stack F) : Nat := if st.top = 0 then 19 else if st.top - 1 ≥ 20 then 19 else st.top - 1

/-- The body of `GetErrorInfo` on the stack, err.c:286-316: the code, file and line returned. `NA` is `none`. -/
def getInfo (st : Stack F) (clr last : Bool) : Stack F × Int × Option F × Nat :=
  let idx := if last then topIndex st else st.bottom
  let s := st.slots idx
  if s.code = 0 then (st, 0, none, 0)
  else
    let st := if clr then
        if last then ⟨st.bottom, idx, upd st.slots idx .zero⟩ else ⟨(idx + 1) % 20, st.top, upd st.slots idx .zero⟩
      else st
    (st, s.code, s.file, match s.file with | none => 0 | some _ => s.line)

/-- Results. -/
inductive Out (F : Type)
  | done | noStack | noError | noMark | info (code : Int) (file : Option F) (line : Nat)
  | items (l : List (Slot F))
deriving DecidableEq

/-- The body of `BSL_ERR_SetMark`, err.c:492-500. -/
def setMarkOn (st : Stack F) : Stack F × Out F :=
  let top := topIndex st
  if (st.slots top).code = 0 then (st, .noError)
  else ({ st with slots := upd st.slots top { st.slots top with mark := true } }, .done)

/-- `top--` with wrap, err.c:514-517 and :542-545. -/
def prev (top : Nat) : Nat := if top = 0 then 19 else top - 1

/-- The loop of `BSL_ERR_PopToMark`, err.c:512-518; `none` when `fuel` iterations do not suffice. -/
def popLoop : Nat → (Nat → Slot F) → Nat → Option ((Nat → Slot F) × Nat)
  | 0, _, _ => none
  | fuel + 1, s, top =>
    if (s top).code ≠ 0 ∧ (s top).mark = false then popLoop fuel (upd s top .zero) (prev top) else some (s, top)

/-- The body of `BSL_ERR_PopToMark`, err.c:512-529. -/
def popToMarkOn (fuel : Nat) (st : Stack F) : Option (Stack F × Out F) := do
  let (s, top) ← popLoop fuel st.slots (topIndex st)
  if (s top).code = 0 then some (⟨st.bottom, (top + 1) % 20, s⟩, .noMark)
  else some (⟨st.bottom, (top + 1) % 20, upd s top { s top with mark := false }⟩, .done)

/-- The loop of `BSL_ERR_ClearLastMark`, err.c:541-546. -/
def clearLoop : Nat → (Nat → Slot F) → Nat → Option Nat
  | 0, _, _ => none
  | fuel + 1, s, top =>
    if (s top).code ≠ 0 ∧ (s top).mark = false then clearLoop fuel s (prev top) else some top

/-- The body of `BSL_ERR_ClearLastMark`, err.c:541-550. -/
def clearLastMarkOn (fuel : Nat) (st : Stack F) : Option (Stack F × Out F) := do
  let top ← clearLoop fuel st.slots (topIndex st)
  some ({ st with slots := upd st.slots top { st.slots top with mark := false } }, .done)

/-- The collecting loop of `BSL_ERR_OutputErrorStack`, err.c:578-593 (`n` is 20 minus the count). The replacement of a NULL
file by "NA" with line 0 is in `outItem`. -/
def collect (s : Nat → Slot F) : Nat → Nat → List (Slot F)
  | 0, _ => []
  | n + 1, idx => if (s idx).code ≠ 0 then s idx :: collect s n ((idx + 1) % 20) else []

/-- err.c:586-589. -/
def outItem (s : Slot F) : Slot F := { s with line := match s.file with | none => 0 | some _ => s.line }

/-- `BSL_ERR_RemoveErrorStack(true)`, err.c:222-226. -/
def removeAll (g : St F) : St F :=
  match g.root with
  | .nil => g
  | .node .. => ⟨.nil, 0⟩

/-- Calls. `mem` says whether the allocations of a push succeed. -/
inductive Op (F : Type)
  | push (err : Int) (file : Option F) (line : Nat) (mem : Bool)
  | clear
  | remove (all : Bool)
  | get (clr last : Bool)
  | setMark | popToMark | clearLastMark
  | output

/-- One call by thread `tid`; the `Bool` says that a push found no memory or no room for a stack. `none` is a loop that did
not end within `fuel` iterations or a NULL dereference in the tree. -/
def step (fuel : Nat) (g : St F) (tid : Nat) : Op F → Option (St F × Out F × Bool)
  /- `BSL_ERR_PushError` :158-185 with `GetStack` :125-156 -/
  | .push err file line mem =>
    if err = 0 then some (g, .done, false)
    else match Avl.search g.root tid with
      | some st => some (⟨Avl.setData g.root tid (pushOn st err file line), g.count⟩, .done, false)
      | none =>
        if g.count ≥ 0xFFFF || !mem then some (g, .done, true)
        else do
          let root ← Avl.insert g.root tid Stack.new
          let st ← Avl.search root tid
          some (⟨Avl.setData root tid (pushOn st err file line), (g.count + 1) % 2 ^ 32⟩, .done, false)
  /- `BSL_ERR_ClearError` :187-209 -/
  | .clear => match Avl.search g.root tid with
    | some _ => some (⟨Avl.setData g.root tid Stack.new, g.count⟩, .done, false)
    | none => some (g, .done, false)
  /- `BSL_ERR_RemoveErrorStack` :211-238 -/
  | .remove true => some (removeAll g, .done, false)
  | .remove false => match Avl.search g.root tid with
    | some _ => do
      let root ← Avl.delete g.root tid
      some (⟨root, (g.count + 2 ^ 32 - 1) % 2 ^ 32⟩, .done, false)
    | none => some (g, .done, false)
  /- `GetErrorInfo` :261-317 -/
  | .get clr last => match Avl.search g.root tid with
    | some st =>
      let r := getInfo st clr last
      some (⟨Avl.setData g.root tid r.1, g.count⟩, .info r.2.1 r.2.2.1 r.2.2.2, false)
    | none => some (g, .info 0 none 0, false)
  | .setMark => match Avl.search g.root tid with
    | some st => some (⟨Avl.setData g.root tid (setMarkOn st).1, g.count⟩, (setMarkOn st).2, false)
    | none => some (g, .noStack, false)
  | .popToMark => match Avl.search g.root tid with
    | some st => do
      let r ← popToMarkOn fuel st
      some (⟨Avl.setData g.root tid r.1, g.count⟩, r.2, false)
    | none => some (g, .noStack, false)
  | .clearLastMark => match Avl.search g.root tid with
    | some st => do
      let r ← clearLastMarkOn fuel st
      some (⟨Avl.setData g.root tid r.1, g.count⟩, r.2, false)
    | none => some (g, .noStack, false)
  /- `BSL_ERR_OutputErrorStack` :553-599: the calls of the registered function -/
  | .output => match Avl.search g.root tid with
    | some st => some (g, .items ((collect st.slots 20 st.bottom).map outItem), false)
    | none => some (g, .items [], false)

end Verif.Bsl.Err
