import Verif.Common.Bits
/-!
Model of the TLS 1.0–1.2 key-block derivation: `RecConnKeyBlockGen` and `RecConnCalcWriteKey`,
/repo/tls/record/src/rec_conn.c:271-371, and the client/server assignment in `REC_InitPendingState`,
/repo/tls/record/src/record.c:575-632. The PRF is a parameter.
Simplifications: the unused tail of the fixed-size key arrays is not represented (a key is the list of the
`…KeyLen` bytes that the ciphers use).
-/
namespace Verif.Tls.KeyBlock
open Verif.Common

inductive Err where
  | notSupportCipher | prf
deriving DecidableEq, Repr

/-- The length fields and randoms of `REC_SecParameters`, /repo/tls/record/include/rec.h. -/
structure Param where
  isClient : Bool
  masterSecret : List Byte
  clientRandom : List Byte
  serverRandom : List Byte
  macKeyLen : Nat
  encKeyLen : Nat
  fixedIvLength : Nat

/-- Keys of one direction (`macKey`, `key`, `iv` of `RecConnSuitInfo`). -/
structure Keys where
  macKey : List Byte
  key : List Byte
  iv : List Byte
deriving DecidableEq, Repr

/-- `"key expansion"`. -/
def label : List Byte := [0x6b, 0x65, 0x79, 0x20, 0x65, 0x78, 0x70, 0x61, 0x6e, 0x73, 0x69, 0x6f, 0x6e]

/-- `keyBuf + offset` for `len` bytes. -/
def slice (buf : List Byte) (offset len : Nat) : List Byte := (buf.drop offset).take len

/-- `RecConnCalcWriteKey`, /repo/tls/record/src/rec_conn.c:271-320; `offset` is the running offset. -/
def calcWriteKey (p : Param) (buf : List Byte) : Keys × Keys :=
  let o0 := 0
  let cm := slice buf o0 p.macKeyLen
  let o1 := o0 + p.macKeyLen
  let sm := slice buf o1 p.macKeyLen
  let o2 := o1 + p.macKeyLen
  let ck := slice buf o2 p.encKeyLen
  let o3 := o2 + p.encKeyLen
  let sk := slice buf o3 p.encKeyLen
  let o4 := o3 + p.encKeyLen
  let ci := slice buf o4 p.fixedIvLength
  let o5 := o4 + p.fixedIvLength
  let si := slice buf o5 p.fixedIvLength
  (⟨cm, ck, ci⟩, ⟨sm, sk, si⟩)

/-- `RecConnKeyBlockGen`, /repo/tls/record/src/rec_conn.c:322-371. `prf secret label seed len`; array sizes:
64 (MAC key), 64 (key), 16 (IV). -/
def keyBlockGen (prf : List Byte → List Byte → List Byte → Nat → Option (List Byte)) (p : Param) :
    Except Err (Keys × Keys) :=
  let keyLen := p.macKeyLen * 2 + p.encKeyLen * 2 + p.fixedIvLength * 2
  if keyLen = 0 ∨ p.macKeyLen > 64 ∨ p.encKeyLen > 64 ∨ p.fixedIvLength > 16 then .error .notSupportCipher
  else match prf p.masterSecret label (p.serverRandom ++ p.clientRandom) keyLen with
    | none => .error .prf
    | some buf => .ok (calcWriteKey p buf)

/-- The write and read keys of the pending states. -/
structure Pending where
  write : Keys
  read : Keys
deriving DecidableEq, Repr

/-- `REC_InitPendingState`, /repo/tls/record/src/record.c:596-625. -/
def initPendingState (prf : List Byte → List Byte → List Byte → Nat → Option (List Byte)) (p : Param) :
    Except Err Pending :=
  match keyBlockGen prf p with
  | .error e => .error e
  | .ok (client, server) =>
    let out := if p.isClient then client else server
    let inn := if p.isClient then server else client
    .ok ⟨out, inn⟩

end Verif.Tls.KeyBlock
