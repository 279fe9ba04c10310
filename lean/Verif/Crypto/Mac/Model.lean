import Verif.Common.Endian
import Verif.Common.Bits

/-!
# Model of HMAC and of the MAC session layer

`crypto/hmac/src/hmac.c` over an abstract hash method table (`EAL_MdMethod`), and the state machine of
`crypto/eal/src/eal_mac.c`.
-/

namespace Verif.Crypto.Mac

open Verif.Common

/-- `EAL_MdMethod` (`crypto/include/eal_md_local.h`): a hash object.  `init` makes a fresh context
whatever was there before; results: success flag, digest or failure. -/
structure Md where
  C : Type
  blockSize : Nat
  mdSize : Nat
  init : C
  update : C → List Byte → C × Bool
  final : C → Nat → C × Option (List Byte)
  copy : C → C
  zero : C

/-- `CRYPT_HMAC_Ctx`, `hmac.c:29-38`. -/
structure HCtx (m : Md) where
  md : m.C
  i : m.C
  o : m.C

/-- `HMAC_MAXBLOCKSIZE`, `HMAC_MAXOUTSIZE`, `crypt_hmac.h:30-31`. -/
def maxBlock : Nat := 144
@[inherit_doc maxBlock] def maxOut : Nat := 64

/-- Key longer than a block: hash it, `hmac.c:147-153`.  `none`: a hash call failed. -/
def hashKey (m : Md) (key : List Byte) : Option (List Byte) :=
  if key.length > m.blockSize then
    let u := m.update m.init key
    if u.2 then (m.final u.1 maxBlock).2.map fun t => t.take m.mdSize else none
  else some key

/-- The `ipad` and `opad` loops, `hmac.c:154-161`; the arrays have `HMAC_MAXBLOCKSIZE` bytes, `none` when
the loops would leave them. -/
def mkPad (m : Md) (b : Byte) (k : List Byte) : Option (List Byte) :=
  if k.length ≤ maxBlock ∧ m.blockSize ≤ maxBlock then
    some (k.map (b ^^^ ·) ++ List.replicate (m.blockSize - k.length) b)
  else none

/-- Error exit of `CRYPT_HMAC_Init`, `hmac.c:169-173`: the three contexts are wiped. -/
def wiped (m : Md) : HCtx m := ⟨m.zero, m.zero, m.zero⟩

/-- `CRYPT_HMAC_Init`, `hmac.c:122-175` (allocation of the hash contexts in `HmacInitMdCtx` left out).
`none`: memory error. -/
def hmacInit (m : Md) (key : List Byte) : Option (HCtx m × Bool) :=
  match hashKey m key with
  | none => some (wiped m, false)
  | some k =>
    match mkPad m 0x36#8 k, mkPad m 0x5c#8 k with
    | some ipad, some opad =>
      let ui := m.update m.init (ipad.take m.blockSize)
      let uo := m.update m.init (opad.take m.blockSize)
      if ui.2 && uo.2 then some (⟨m.copy ui.1, ui.1, uo.1⟩, true) else some (wiped m, false)
    | _, _ => none

/-- `CRYPT_HMAC_Update`, `hmac.c:183-190`. -/
def hmacUpdate (m : Md) (h : HCtx m) (d : List Byte) : HCtx m × Bool :=
  let u := m.update h.md d
  ({ h with md := u.1 }, u.2)

/-- `CRYPT_HMAC_Final`, `hmac.c:192-228`: `cap` is `*len` on entry. -/
def hmacFinal (m : Md) (h : HCtx m) (cap : Nat) : HCtx m × Option (List Byte) :=
  if cap < m.mdSize then (h, none)
  else
    let f := m.final h.md maxOut
    match f.2 with
    | none => ({ h with md := f.1 }, none)
    | some tmp =>
      let u := m.update (m.copy h.o) tmp
      if u.2 then
        let g := m.final u.1 m.mdSize
        ({ h with md := g.1 }, g.2)
      else ({ h with md := u.1 }, none)

/-- `CRYPT_HMAC_Reinit`, `hmac.c:230-238`. -/
def hmacReinit (m : Md) (h : HCtx m) : HCtx m := { h with md := m.copy h.i }

/-- `CRYPT_HMAC_Deinit`, `hmac.c:240-249`. -/
def hmacDeinit (m : Md) : HCtx m := wiped m

/-- `CRYPT_HMAC_DupCtx`, `hmac.c:343-387` (method table present, memory available). -/
def hmacDup (m : Md) (h : HCtx m) : HCtx m :=
  let md := m.copy h.md
  let o := m.copy h.o
  let i := m.copy h.i
  ⟨md, i, o⟩

/-! ## The session layer -/

/-- `CRYPT_MAC_STATE_*`. -/
inductive State
  | new | init | update | final
  deriving DecidableEq, Repr

/-- Calls of the public API. -/
inductive Op
  | init (key : List Byte)
  | update (d : List Byte)
  | final (cap : Nat)
  | reinit
  | deinit
  | dup            -- continue with a duplicate of the context
  deriving DecidableEq, Repr

/-- What the caller sees. -/
inductive Res
  | ok | err | mac (t : List Byte)
  deriving DecidableEq, Repr

/-- `CRYPT_EAL_MacCtx`, `eal_mac_local.h`. -/
structure ECtx (m : Md) where
  st : State
  h : HCtx m

/-- `CRYPT_EAL_MacInit`, `MacUpdate`, `MacFinal`, `MacDeinit`, `MacReinit`, `MacDupCtx`,
`eal_mac.c:114-230`, `:312-335`.  `none`: memory error. -/
def step (m : Md) (c : ECtx m) : Op → Option (ECtx m × Res)
  | .init key => match hmacInit m key with
    | none => none
    | some (h, true) => some (⟨.init, h⟩, .ok)
    | some (h, false) => some ({ c with h := h }, .err)
  | .update d =>
    if c.st = .final ∨ c.st = .new then some (c, .err)
    else
      let u := hmacUpdate m c.h d
      if u.2 then some (⟨.update, u.1⟩, .ok) else some ({ c with h := u.1 }, .err)
  | .final cap =>
    if c.st = .new ∨ c.st = .final then some (c, .err)
    else
      let f := hmacFinal m c.h cap
      match f.2 with
      | none => some ({ c with h := f.1 }, .err)
      | some t => some (⟨.final, f.1⟩, .mac t)
  | .reinit =>
    if c.st = .new then some (c, .err) else some (⟨.init, hmacReinit m c.h⟩, .ok)
  | .deinit => some (⟨.new, hmacDeinit m⟩, .ok)
  | .dup => some ({ c with h := hmacDup m c.h }, .ok)

/-- A sequence of calls. -/
def run (m : Md) : ECtx m → List Op → Option (List Res)
  | _, [] => some []
  | c, op :: ops => match step m c op with
    | none => none
    | some (c1, r) => (run m c1 ops).map (r :: ·)

end Verif.Crypto.Mac
