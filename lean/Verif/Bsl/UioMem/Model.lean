import Verif.Common.Bits
/-! Model of the memory UIO, /repo/bsl/uio/src/uio_mem.c, on /repo/bsl/buffer/src/bsl_buffer.c. Access outside a buffer is
`none`. `uio->init` and `uio->ctx` are set by `MemCreate`; the pointer handed out by `MemGetPtr` is not modelled. -/
namespace Verif.Bsl.UioMem
open Verif.Common

/-- `UIO_BufMem` (:28-33) with its `BSL_BufMem` (data, length, max), the read-only flag and the retry flag of the UIO. -/
structure St where
  data : Option (List Byte)
  length : Nat
  max : Nat
  readIndex : Nat
  eof : Int
  ro : Bool
  retry : Bool

/-- `MemCreate`, uio_mem.c:378-396, with `BSL_BufMemNew`, bsl_buffer.c:21-34. -/
def create : St := ⟨none, 0, 0, 0, -1, false, false⟩

/-- `memmove`/`memcpy` of `src` to offset `off` of `d`. -/
def store (d : List Byte) (off : Nat) (src : List Byte) : Option (List Byte) :=
  if off + src.length ≤ d.length then some (d.take off ++ src ++ d.drop (off + src.length)) else none

/-- Reading `n` bytes at `off`. -/
def load (d : List Byte) (off n : Nat) : Option (List Byte) :=
  if off + n ≤ d.length then some ((d.drop off).take n) else none

/-- Subtraction of `size_t`. -/
def subSize (a b : Nat) : Nat := (a + 2 ^ 64 - b) % 2 ^ 64

/-- The cast to `uint32_t`. -/
def toU32 (a : Nat) : Nat := a % 2 ^ 32

/-- `UioBufMemSync`, uio_mem.c:72-86. The `Bool` is success. -/
def sync (s : St) : Option (St × Bool) :=
  if s.readIndex ≠ 0 then
    let moveLen := subSize s.length s.readIndex
    if moveLen > s.length then some (s, false)
    else do
      let d ← s.data
      let part ← load d s.readIndex moveLen
      let d ← store d 0 part
      some ({ s with data := some d, length := s.length - s.readIndex, readIndex := 0 }, true)
  else some (s, true)

/-- Behaviour of the allocator: success, and the contents of the new block. -/
structure Alloc where
  ok : Bool
  fill : Nat → Byte

/-- The new block of `n` bytes, after the copy of the old one; bsl_buffer.c:70-79. -/
def freshBlock (a : Alloc) (n : Nat) (s : St) : Option (List Byte) :=
  match s.data with
  | none => some ((List.range n).map a.fill)
  | some d => do
    let old ← load d 0 s.max
    store ((List.range n).map a.fill) 0 old

/-- `BSL_BufMemGrowClean`, bsl_buffer.c:49-86; the `Bool` is whether the result is not 0. -/
def growClean (a : Alloc) (s : St) (len : Nat) : Option (St × Bool) :=
  if s.length ≥ len then
    if len > s.max then some (s, false)
    else do
      let d ← s.data
      let d ← store d len (List.replicate (s.length - len) 0)
      some ({ s with data := some d, length := len }, true)
  else if s.max ≥ len then do
    let d ← s.data
    let d ← store d s.length (List.replicate (len - s.length) 0)
    some ({ s with data := some d, length := len }, true)
  else
    let n := ((len + 3) / 3) * 4
    if n < len ∨ n > 2 ^ 32 - 1 then some (s, false)
    else if !a.ok then some (s, false)
    else do
      let fresh ← freshBlock a n s
      let fresh ← store fresh s.length (List.replicate (len - s.length) 0)
      some ({ s with data := some fresh, max := n, length := len }, true)

/-- Results. -/
inductive Out
  | fail | ok | bytes (b : List Byte) | num (n : Int)
deriving DecidableEq

/-- `BSL_UIO_Write` with `MemWrite`, uio_abstraction.c:180-202, uio_mem.c:88-128. The second `Bool` marks lack of room. -/
def write (a : Alloc) (s : St) (buf : List Byte) : Option (St × Out × Bool) :=
  if buf.length = 0 then some (s, .fail, false)
  else if s.ro then some (s, .fail, false)
  else do
    let (s, ok) ← sync { s with retry := false }
    if !ok then some (s, .fail, true)
    else
      let origLen := s.length
      if origLen > 2 ^ 32 - 1 - buf.length then some (s, .fail, true)
      else do
        let (s, ok) ← growClean a s (origLen + buf.length)
        if !ok then some (s, .fail, true)
        else do
          let d ← s.data
          let d ← store d origLen buf
          some ({ s with data := some d }, .num buf.length, false)

/-- `MemRead`, uio_mem.c:130-160, with a buffer that is not NULL. -/
def memRead (s : St) (len : Nat) : Option (St × List Byte) := do
  let s := { s with retry := false }
  let avail := subSize s.length s.readIndex
  let real := if len > avail then avail else len
  if real > 0 then do
    let d ← s.data
    let out ← load d s.readIndex real
    some ({ s with readIndex := s.readIndex + real }, out)
  else some ({ s with retry := s.eof ≠ 0 }, [])

/-- `BSL_UIO_Read`, uio_abstraction.c:204-224. -/
def read (s : St) (len : Nat) : Option (St × Out) :=
  if len = 0 then some (s, .fail) else (memRead s len).map fun (s, b) => (s, .bytes b)

/-- The loop of `MemGets`, uio_mem.c:345-350, over the bytes at `pre`: the number of bytes to take out of `len`. -/
def scan : Nat → List Byte → Option Nat
  | 0, _ => some 0
  | _ + 1, [] => none
  | n + 1, c :: d => if c = 10#8 then some 1 else do
    let k ← scan n d
    some (k + 1)

/-- `MemGets`, uio_mem.c:324-356. -/
def gets (s : St) (n : Nat) : Option (St × Out) :=
  if n = 0 then some (s, .bytes [])
  else
    let avail := subSize s.length s.readIndex
    let len := toU32 (if n - 1 ≥ avail then avail else n - 1)
    if len = 0 then some (s, .bytes [])
    else do
      let d ← s.data
      let cnt ← scan len (d.drop s.readIndex)
      let (s, b) ← memRead s cnt
      some (s, .bytes b)

/-- `MemPending`, uio_mem.c:162-177. -/
def pending (s : St) : Nat := subSize s.length s.readIndex

/-- `MemReset`, uio_mem.c:257-274. -/
def reset (s : St) : Option (St × Out) :=
  match s.data with
  | none => some (s, .fail)
  | some d =>
    if s.ro then some ({ s with readIndex := 0 }, .ok)
    else do
      let d ← store d 0 (List.replicate s.max 0)
      some ({ s with data := some d, length := 0, readIndex := 0 }, .ok)

/-- `MemNewBuf`, uio_mem.c:35-70, with a length that is not negative and a buffer that is not NULL; `tmpOk` is the
allocation of `tmpBuf`. -/
def newBuf (tmpOk : Bool) (s : St) (buf : List Byte) : St × Out :=
  if s.data.isSome ∧ s.ro = false then (s, .fail)
  else if !tmpOk then (s, .fail)
  else (⟨some buf, buf.length, buf.length, 0, 0, true, false⟩, .ok)

/-- `MemInfo`, uio_mem.c:189-205: the bytes that `data` and `size` describe. -/
def info (s : St) : Option (List Byte) :=
  match s.data with
  | none => if pending s = 0 then some [] else none
  | some d => load d s.readIndex (pending s)

end Verif.Bsl.UioMem
