import Verif.Crypto.Mlkem.CodecModel
/-! Model of the bit packing of `/repo/crypto/mldsa/src/ml_dsa_core.c` and `ml_dsa_poly.c`.

A byte array and a `uint32_t` array are functions of the index.  Each loop writes every output index once, from
inputs it does not change, so it is written as a function of the output index: output byte `idx` belongs to
iteration `idx / w` and is the `idx % w`-th byte that iteration stores (a byte stored by `=` and then by `|=` is
one expression).  The index `idx % w` is matched with a catch-all for its last value.  A left shift of a `uint32_t`
is cut to 32 bits in C; every result is then cut to 8 bits or masked to fewer than 32, so the cut is left out. -/
namespace Verif.Crypto.Mldsa
open Verif.Crypto.Mlkem (Poly i32 u32 u8)

/-- `ByteEncode(…, 10)`, ml_dsa_core.c:343-350. -/
def enc10 (t : Nat → Nat) (idx : Nat) : Nat :=
  let x := 4 * (idx / 5)
  match idx % 5 with
  | 0 => u8 (t x >>> 0)
  | 1 => u8 (t x >>> 8 ||| t (x + 1) <<< 2)
  | 2 => u8 (t (x + 1) >>> 6 ||| t (x + 2) <<< 4)
  | 3 => u8 (t (x + 2) >>> 4 ||| t (x + 3) <<< 6)
  | _ => u8 (t (x + 3) >>> 2)

/-- `ByteEncode(…, 6)`, ml_dsa_core.c:351-356. -/
def enc6 (t : Nat → Nat) (idx : Nat) : Nat :=
  let x := 4 * (idx / 3)
  match idx % 3 with
  | 0 => u8 (t x ||| t (x + 1) <<< 6)
  | 1 => u8 (t (x + 1) >>> 2 ||| t (x + 2) <<< 4)
  | _ => u8 (t (x + 2) >>> 4 ||| t (x + 3) <<< 2)

/-- `ByteEncode(…, 4)`, ml_dsa_core.c:357-361. -/
def enc4 (t : Nat → Nat) (i : Nat) : Nat := u8 (t (2 * i) ||| t (2 * i + 1) <<< 4)

/-- `BitPack(…, 3, …)`, ml_dsa_core.c:381-389, from the values `t`. -/
def enc3 (t : Nat → Nat) (idx : Nat) : Nat :=
  let x := 8 * (idx / 3)
  match idx % 3 with
  | 0 => u8 (t x ||| t (x + 1) <<< 3 ||| t (x + 2) <<< 6)
  | 1 => u8 (t (x + 2) >>> 2 ||| t (x + 3) <<< 1 ||| t (x + 4) <<< 4 ||| t (x + 5) <<< 7)
  | _ => u8 (t (x + 5) >>> 1 ||| t (x + 6) <<< 2 ||| t (x + 7) <<< 5)

/-- `BitPack(…, 13, …)`, ml_dsa_core.c:396-423, from the values `t`. -/
def enc13 (t : Nat → Nat) (idx : Nat) : Nat :=
  let x := 8 * (idx / 13)
  match idx % 13 with
  | 0 => u8 (t x)
  | 1 => u8 (u8 (t x >>> 8) ||| u8 (t (x + 1) <<< 5))
  | 2 => u8 (t (x + 1) >>> 3)
  | 3 => u8 (u8 (t (x + 1) >>> 11) ||| u8 (t (x + 2) <<< 2))
  | 4 => u8 (u8 (t (x + 2) >>> 6) ||| u8 (t (x + 3) <<< 7))
  | 5 => u8 (t (x + 3) >>> 1)
  | 6 => u8 (u8 (t (x + 3) >>> 9) ||| u8 (t (x + 4) <<< 4))
  | 7 => u8 (t (x + 4) >>> 4)
  | 8 => u8 (u8 (t (x + 4) >>> 12) ||| u8 (t (x + 5) <<< 1))
  | 9 => u8 (u8 (t (x + 5) >>> 7) ||| u8 (t (x + 6) <<< 6))
  | 10 => u8 (t (x + 6) >>> 2)
  | 11 => u8 (u8 (t (x + 6) >>> 10) ||| u8 (t (x + 7) <<< 3))
  | _ => u8 (t (x + 7) >>> 5)

/-- `SignBitPack(…, 18, …)`, ml_dsa_core.c:480-495, from the values `t`. -/
def enc18 (t : Nat → Nat) (idx : Nat) : Nat :=
  let x := 4 * (idx / 9)
  match idx % 9 with
  | 0 => u8 (t x)
  | 1 => u8 (t x >>> 8)
  | 2 => u8 (t x >>> 16 ||| t (x + 1) <<< 2)
  | 3 => u8 (t (x + 1) >>> 6)
  | 4 => u8 (t (x + 1) >>> 14 ||| t (x + 2) <<< 4)
  | 5 => u8 (t (x + 2) >>> 4)
  | 6 => u8 (t (x + 2) >>> 12 ||| t (x + 3) <<< 6)
  | 7 => u8 (t (x + 3) >>> 2)
  | _ => u8 (t (x + 3) >>> 10)

/-- `SignBitPack(…, 20, …)`, ml_dsa_core.c:496-507, from the values `t`. -/
def enc20 (t : Nat → Nat) (idx : Nat) : Nat :=
  let x := 2 * (idx / 5)
  match idx % 5 with
  | 0 => u8 (t x)
  | 1 => u8 (t x >>> 8)
  | 2 => u8 (t x >>> 16 ||| t (x + 1) <<< 4)
  | 3 => u8 (t (x + 1) >>> 4)
  | _ => u8 (t (x + 1) >>> 12)

/-- `ByteDecode(…, 10)`, ml_dsa_core.c:366-373. -/
def dec10 (v : Nat → Nat) (idx : Nat) : Nat :=
  let n := 5 * (idx / 4)
  match idx % 4 with
  | 0 => (v n ||| v (n + 1) <<< 8) &&& 0x3ff
  | 1 => (v (n + 1) >>> 2 ||| v (n + 2) <<< 6) &&& 0x3ff
  | 2 => (v (n + 2) >>> 4 ||| v (n + 3) <<< 4) &&& 0x3ff
  | _ => (v (n + 3) >>> 6 ||| v (n + 4) <<< 2) &&& 0x3ff

/-- The values `t` of `BitUnPake(…, 3, …)`, ml_dsa_core.c:432-442. -/
def dec3 (v : Nat → Nat) (idx : Nat) : Nat :=
  let n := 3 * (idx / 8)
  match idx % 8 with
  | 0 => v n &&& 0x7
  | 1 => (v n >>> 3) &&& 0x7
  | 2 => (v n >>> 6 ||| v (n + 1) <<< 2) &&& 0x7
  | 3 => (v (n + 1) >>> 1) &&& 0x7
  | 4 => (v (n + 1) >>> 4) &&& 0x7
  | 5 => (v (n + 1) >>> 7 ||| v (n + 2) <<< 1) &&& 0x7
  | 6 => (v (n + 2) >>> 2) &&& 0x7
  | _ => (v (n + 2) >>> 5) &&& 0x7

/-- The values `t` of `BitUnPake(…, 4, …)`, ml_dsa_core.c:448-451. -/
def dec4 (v : Nat → Nat) (idx : Nat) : Nat :=
  match idx % 2 with
  | 0 => v (idx / 2) &&& 0xf
  | _ => (v (idx / 2) >>> 4) &&& 0xf

/-- The values `t` of `BitUnPake(…, 13, …)`, ml_dsa_core.c:456-467. -/
def dec13 (v : Nat → Nat) (idx : Nat) : Nat :=
  let n := 13 * (idx / 8)
  match idx % 8 with
  | 0 => (v n ||| v (n + 1) <<< 8) &&& 0x1fff
  | 1 => (v (n + 1) >>> 5 ||| v (n + 2) <<< 3 ||| v (n + 3) <<< 11) &&& 0x1fff
  | 2 => (v (n + 3) >>> 2 ||| v (n + 4) <<< 6) &&& 0x1fff
  | 3 => (v (n + 4) >>> 7 ||| v (n + 5) <<< 1 ||| v (n + 6) <<< 9) &&& 0x1fff
  | 4 => (v (n + 6) >>> 4 ||| v (n + 7) <<< 4 ||| v (n + 8) <<< 12) &&& 0x1fff
  | 5 => (v (n + 8) >>> 1 ||| v (n + 9) <<< 7) &&& 0x1fff
  | 6 => (v (n + 9) >>> 6 ||| v (n + 10) <<< 2 ||| v (n + 11) <<< 10) &&& 0x1fff
  | _ => (v (n + 11) >>> 3 ||| v (n + 12) <<< 5) &&& 0x1fff

/-- The values `t` of `MLDSA_SignBitUnPack(…, 18, …)`, ml_dsa_poly.c:331-344. -/
def dec18 (v : Nat → Nat) (idx : Nat) : Nat :=
  let n := 9 * (idx / 4)
  match idx % 4 with
  | 0 => (v n ||| v (n + 1) <<< 8 ||| v (n + 2) <<< 16) &&& 0x3ffff
  | 1 => (v (n + 2) >>> 2 ||| v (n + 3) <<< 6 ||| v (n + 4) <<< 14) &&& 0x3ffff
  | 2 => (v (n + 4) >>> 4 ||| v (n + 5) <<< 4 ||| v (n + 6) <<< 12) &&& 0x3ffff
  | _ => (v (n + 6) >>> 6 ||| v (n + 7) <<< 2 ||| v (n + 8) <<< 10) &&& 0x3ffff

/-- The values `t` of `MLDSA_SignBitUnPack(…, 20, …)`, ml_dsa_poly.c:345-353. -/
def dec20 (v : Nat → Nat) (idx : Nat) : Nat :=
  let n := 5 * (idx / 2)
  match idx % 2 with
  | 0 => (v n ||| v (n + 1) <<< 8 ||| v (n + 2) <<< 16) &&& 0xfffff
  | _ => (v (n + 2) >>> 4 ||| v (n + 3) <<< 4 ||| v (n + 4) <<< 12) &&& 0xfffff

/-- Reading an `int32_t` as a `uint32_t`. -/
def w32 (x : Int) : Nat := (u32 x).toNat

/-- `ByteEncode`, ml_dsa_core.c:341-362; `none`: nothing is written. -/
def byteEncode (bits : Nat) (t : Poly) : Option (Nat → Nat) :=
  match bits with
  | 10 => some (enc10 (fun i => w32 (t i)))
  | 6 => some (enc6 (fun i => w32 (t i)))
  | 4 => some (enc4 (fun i => w32 (t i)))
  | _ => none

/-- `ByteDecode`, ml_dsa_core.c:364-374; `none`: nothing is written. -/
def byteDecode (bits : Nat) (buf : Nat → Nat) : Option Poly :=
  match bits with
  | 10 => some (fun i => (dec10 buf i : Int))
  | _ => none

/-- `BitPack`, ml_dsa_core.c:376-425: the values are `b - w[i]` in `uint32_t`; `none`: nothing is written. -/
def bitPack (bits b : Nat) (w : Poly) : Option (Nat → Nat) :=
  match bits with
  | 3 => some (enc3 (fun i => w32 (b - w i)))
  | 4 => some (enc4 (fun i => w32 (b - w i)))
  | 13 => some (enc13 (fun i => w32 (b - w i)))
  | _ => none

/-- `BitUnPake`, ml_dsa_core.c:427-473: `b - t` is stored through a `uint32_t *` into an `int32_t` array. -/
def bitUnpack (bits b : Nat) (v : Nat → Nat) : Option Poly :=
  match bits with
  | 3 => some (fun i => i32 (b - dec3 v i))
  | 4 => some (fun i => i32 (b - dec4 v i))
  | 13 => some (fun i => i32 (b - dec13 v i))
  | _ => none

/-- `SignBitPack`, ml_dsa_core.c:475-508. -/
def signBitPack (bits b : Nat) (w : Poly) : Option (Nat → Nat) :=
  match bits with
  | 18 => some (enc18 (fun i => w32 (b - w i)))
  | 20 => some (enc20 (fun i => w32 (b - w i)))
  | _ => none

/-- `MLDSA_SignBitUnPack`, ml_dsa_poly.c:326-355. -/
def signBitUnpack (bits b : Nat) (v : Nat → Nat) : Option Poly :=
  match bits with
  | 18 => some (fun i => i32 (b - dec18 v i))
  | 20 => some (fun i => i32 (b - dec20 v i))
  | _ => none

end Verif.Crypto.Mldsa
