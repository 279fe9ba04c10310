import Verif.Crypto.Mldsa.Model
/-! Model of the key and signature layouts of `/repo/crypto/mldsa/src/ml_dsa_core.c`.  A buffer is a function of the
index; its contents before the call are the argument `buf`. -/
namespace Verif.Crypto.Mldsa
open Verif.Crypto.Mlkem (Poly i32 u32 u8 upd)

/-- `memcpy(buf + off, src, n)`. -/
def put (buf : Nat → Nat) (off n : Nat) (src : Nat → Nat) : Nat → Nat :=
  fun i => if off ≤ i ∧ i < off + n then src (i - off) else buf i

/-- A packing function that writes `n` bytes at `buf + off`, or (for an unknown width) nothing. -/
def putPacked (buf : Nat → Nat) (off n : Nat) (src : Option (Nat → Nat)) : Nat → Nat :=
  match src with
  | some r => put buf off n r
  | none => buf

/-- The loops `for (i = 0; i < n; i++) { BitPack(key + index, …); index += MLDSA_N_BYTE * bits; }` of `SkEncode`,
`SigEncode` and (with a fixed start) `PkEncode`: the buffer and `index` after `n` rounds. -/
def packLoop (bits : Nat) (src : Nat → Option (Nat → Nat)) (s : (Nat → Nat) × Nat) : Nat → (Nat → Nat) × Nat
  | 0 => s
  | i + 1 =>
    let (buf, index) := packLoop bits src s i
    (putPacked buf index (32 * bits) (src i), index + 32 * bits)

/-- The unpacking loops; a width the function does not know leaves the array as it was allocated (zero). -/
def unpackAt (dec : (Nat → Nat) → Option Poly) (bits : Nat) (buf : Nat → Nat) (index : Nat) : Nat → Poly := fun i =>
  match dec (fun n => buf (index + 32 * bits * i + n)) with
  | some f => f
  | none => fun _ => 0

/-- `PkEncode`, ml_dsa_core.c:511-518; 320 = 32 · 10. -/
def pkEncode (p : Params) (buf rho : Nat → Nat) (t : Nat → Poly) : Nat → Nat :=
  (packLoop 10 (fun i => byteEncode 10 (t i)) (put buf 0 32 rho, 32) p.k).1

/-- `PkDecode`, ml_dsa_core.c:521-528: the seed and `t1`. -/
def pkDecode (pk : Nat → Nat) : (Nat → Nat) × (Nat → Poly) :=
  (pk, unpackAt (byteDecode 10) 10 pk 32)

/-- `bitLen` of `SkEncode`, ml_dsa_core.c:535. -/
def etaBits (p : Params) : Nat := if p.eta = 2 then 3 else 4

/-- `SkEncode`, ml_dsa_core.c:531-554. -/
def skEncode (p : Params) (buf rho key tr : Nat → Nat) (s1 s2 t0 : Nat → Poly) : Nat → Nat :=
  let buf := put buf 0 32 rho
  let buf := put buf 32 32 key
  let buf := put buf 64 64 tr
  let s := packLoop (etaBits p) (fun i => bitPack (etaBits p) p.eta (s1 i)) (buf, 128) p.l
  let s := packLoop (etaBits p) (fun i => bitPack (etaBits p) p.eta (s2 i)) s p.k
  (packLoop 13 (fun i => bitPack 13 4096 (t0 i)) s p.k).1

/-- The secret key after `SkDecode`. -/
structure SkData where
  rho : Nat → Nat
  key : Nat → Nat
  tr : Nat → Nat
  s1 : Nat → Poly
  s2 : Nat → Poly
  t0 : Nat → Poly

/-- `SkDecode`, ml_dsa_core.c:557-583 (and `DecodePrvKey`, 1107-1127). -/
def skDecode (p : Params) (sk : Nat → Nat) : SkData :=
  let i1 := 128
  let i2 := i1 + 32 * etaBits p * p.l
  let i3 := i2 + 32 * etaBits p * p.k
  { rho := sk
    key := fun n => sk (32 + n)
    tr := fun n => sk (64 + n)
    s1 := unpackAt (bitUnpack (etaBits p) p.eta) (etaBits p) sk i1
    s2 := unpackAt (bitUnpack (etaBits p) p.eta) (etaBits p) sk i2
    t0 := unpackAt (bitUnpack 13 4096) 13 sk i3 }

/-- The bytes of a list as a buffer. -/
def byteAt (b : List Nat) (n : Nat) : Nat :=
  match b[n]? with
  | some v => v
  | none => 0

/-- `bits` of `SigEncode` and `SigDecode`, ml_dsa_core.c:797, 822. -/
def gammaBits (p : Params) : Nat := if p.k = 4 then 18 else 20

/-- `SigEncode`, ml_dsa_core.c:793-816, after the `cLen` bytes of the challenge; `none`: a store outside the buffer of
`ω + k` hint bytes. -/
def sigEncode (p : Params) (out : Nat → Nat) (cLen : Nat) (z : Nat → Poly) (h : List Poly) : Option (Nat → Nat) :=
  let s := packLoop (gammaBits p) (fun i => signBitPack (gammaBits p) p.gamma1 (z i)) (out, cLen) p.l
  match hintEncode p h with
  | some b => some (put s.1 s.2 (p.omega + p.k) (byteAt b))
  | none => none

/-- `n` bytes of a buffer. -/
def bytes (f : Nat → Nat) (off n : Nat) : List Nat := (List.range n).map fun i => f (off + i)

/-- `SigDecode`, ml_dsa_core.c:818-850, on the signature bytes; the hint is read from the `ω + k` bytes after `z`. -/
def sigDecode (p : Params) (sig : Nat → Nat) (cLen : Nat) : (Nat → Poly) × HintRes :=
  (unpackAt (signBitUnpack (gammaBits p) p.gamma1) (gammaBits p) sig cLen,
   hintDecode p (bytes sig (cLen + 32 * gammaBits p * p.l) (p.omega + p.k)))

end Verif.Crypto.Mldsa
