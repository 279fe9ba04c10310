import Verif.Crypto.Md.Model

/-!
# Model of the SHA-2 block functions

`crypto/sha2/src/noasm_sha256.c` and `crypto/sha2/src/noasm_sha512.c`.
-/

namespace Verif.Crypto.Md.Sha2

open Verif.Common

/-- The eight working variables, `noasm_sha256.c:70-77`, `noasm_sha512.c:88-95`. -/
structure St (n : Nat) where
  a : BitVec n
  b : BitVec n
  c : BitVec n
  d : BitVec n
  e : BitVec n
  f : BitVec n
  g : BitVec n
  h : BitVec n
  deriving DecidableEq

/-- Array read.  The default is never used: every index below is in range (`Proof`, `length` lemmas). -/
def rd (w : List (BitVec n)) (i : Nat) : BitVec n := w.getD i 0

/-- `K256`, `noasm_sha256.c:23-32`. -/
def K256 : List (BitVec 32) := [
  0x428a2f98#32, 0x71374491#32, 0xb5c0fbcf#32, 0xe9b5dba5#32, 0x3956c25b#32, 0x59f111f1#32,
  0x923f82a4#32, 0xab1c5ed5#32, 0xd807aa98#32, 0x12835b01#32, 0x243185be#32, 0x550c7dc3#32,
  0x72be5d74#32, 0x80deb1fe#32, 0x9bdc06a7#32, 0xc19bf174#32, 0xe49b69c1#32, 0xefbe4786#32,
  0x0fc19dc6#32, 0x240ca1cc#32, 0x2de92c6f#32, 0x4a7484aa#32, 0x5cb0a9dc#32, 0x76f988da#32,
  0x983e5152#32, 0xa831c66d#32, 0xb00327c8#32, 0xbf597fc7#32, 0xc6e00bf3#32, 0xd5a79147#32,
  0x06ca6351#32, 0x14292967#32, 0x27b70a85#32, 0x2e1b2138#32, 0x4d2c6dfc#32, 0x53380d13#32,
  0x650a7354#32, 0x766a0abb#32, 0x81c2c92e#32, 0x92722c85#32, 0xa2bfe8a1#32, 0xa81a664b#32,
  0xc24b8b70#32, 0xc76c51a3#32, 0xd192e819#32, 0xd6990624#32, 0xf40e3585#32, 0x106aa070#32,
  0x19a4c116#32, 0x1e376c08#32, 0x2748774c#32, 0x34b0bcb5#32, 0x391c0cb3#32, 0x4ed8aa4a#32,
  0x5b9cca4f#32, 0x682e6ff3#32, 0x748f82ee#32, 0x78a5636f#32, 0x84c87814#32, 0x8cc70208#32,
  0x90befffa#32, 0xa4506ceb#32, 0xbef9a3f7#32, 0xc67178f2#32]

/-- `K512`, `noasm_sha512.c:28-49`. -/
def K512 : List (BitVec 64) := [
  0x428a2f98d728ae22#64, 0x7137449123ef65cd#64, 0xb5c0fbcfec4d3b2f#64, 0xe9b5dba58189dbbc#64,
  0x3956c25bf348b538#64, 0x59f111f1b605d019#64, 0x923f82a4af194f9b#64, 0xab1c5ed5da6d8118#64,
  0xd807aa98a3030242#64, 0x12835b0145706fbe#64, 0x243185be4ee4b28c#64, 0x550c7dc3d5ffb4e2#64,
  0x72be5d74f27b896f#64, 0x80deb1fe3b1696b1#64, 0x9bdc06a725c71235#64, 0xc19bf174cf692694#64,
  0xe49b69c19ef14ad2#64, 0xefbe4786384f25e3#64, 0x0fc19dc68b8cd5b5#64, 0x240ca1cc77ac9c65#64,
  0x2de92c6f592b0275#64, 0x4a7484aa6ea6e483#64, 0x5cb0a9dcbd41fbd4#64, 0x76f988da831153b5#64,
  0x983e5152ee66dfab#64, 0xa831c66d2db43210#64, 0xb00327c898fb213f#64, 0xbf597fc7beef0ee4#64,
  0xc6e00bf33da88fc2#64, 0xd5a79147930aa725#64, 0x06ca6351e003826f#64, 0x142929670a0e6e70#64,
  0x27b70a8546d22ffc#64, 0x2e1b21385c26c926#64, 0x4d2c6dfc5ac42aed#64, 0x53380d139d95b3df#64,
  0x650a73548baf63de#64, 0x766a0abb3c77b2a8#64, 0x81c2c92e47edaee6#64, 0x92722c851482353b#64,
  0xa2bfe8a14cf10364#64, 0xa81a664bbc423001#64, 0xc24b8b70d0f89791#64, 0xc76c51a30654be30#64,
  0xd192e819d6ef5218#64, 0xd69906245565a910#64, 0xf40e35855771202a#64, 0x106aa07032bbd1b8#64,
  0x19a4c116b8d2d0c8#64, 0x1e376c085141ab53#64, 0x2748774cdf8eeb99#64, 0x34b0bcb5e19b48a8#64,
  0x391c0cb3c5c95a63#64, 0x4ed8aa4ae3418acb#64, 0x5b9cca4f7763e373#64, 0x682e6ff3d6b2b8a3#64,
  0x748f82ee5defb2fc#64, 0x78a5636f43172f60#64, 0x84c87814a1f0ab72#64, 0x8cc702081a6439ec#64,
  0x90befffa23631e28#64, 0xa4506cebde82bde9#64, 0xbef9a3f7b2c67915#64, 0xc67178f2e372532b#64,
  0xca273eceea26619c#64, 0xd186b8c721c0c207#64, 0xeada7dd6cde0eb1e#64, 0xf57d4f7fee6ed178#64,
  0x06f067aa72176fba#64, 0x0a637dc5a2c898a6#64, 0x113f9804bef90dae#64, 0x1b710b35131c471b#64,
  0x28db77f523047d84#64, 0x32caab7b40c72493#64, 0x3c9ebe0a15c9bebc#64, 0x431d67c49c100d4c#64,
  0x4cc5d4becb3e42b6#64, 0x597f299cfc657e2a#64, 0x5fcb6fab3ad6faec#64, 0x6c44198c4a475817#64]

/-- `SHA256_INIT_STATE`, `sha2_256.c:27-38`. -/
def iv256 : St 32 := ⟨0x6a09e667#32, 0xbb67ae85#32, 0x3c6ef372#32, 0xa54ff53a#32, 0x510e527f#32,
  0x9b05688c#32, 0x1f83d9ab#32, 0x5be0cd19#32⟩
/-- `CRYPT_SHA2_224_Init`, `sha2_256.c:531-539`. -/
def iv224 : St 32 := ⟨0xc1059ed8#32, 0x367cd507#32, 0x3070dd17#32, 0xf70e5939#32, 0xffc00b31#32,
  0x68581511#32, 0x64f98fa7#32, 0xbefa4fa4#32⟩
/-- `CRYPT_SHA2_512_Init`, `sha2_512.c:94-101`. -/
def iv512 : St 64 := ⟨0x6a09e667f3bcc908#64, 0xbb67ae8584caa73b#64, 0x3c6ef372fe94f82b#64,
  0xa54ff53a5f1d36f1#64, 0x510e527fade682d1#64, 0x9b05688c2b3e6c1f#64, 0x1f83d9abfb41bd6b#64,
  0x5be0cd19137e2179#64⟩
/-- `CRYPT_SHA2_384_Init`, `sha2_512.c:282-289`. -/
def iv384 : St 64 := ⟨0xcbbb9d5dc1059ed8#64, 0x629a292a367cd507#64, 0x9159015a3070dd17#64,
  0x152fecd8f70e5939#64, 0x67332667ffc00b31#64, 0x8eb44a8768581511#64, 0xdb0c2e0d64f98fa7#64,
  0x47b5481dbefa4fa4#64⟩

/-- `ROTR32`, `ROTR64`: `noasm_sha256.c:33`, `crypt_utils.h:366`. -/
def rotr (x : BitVec n) (k : Nat) : BitVec n := (x <<< (n - k)) ||| (x >>> k)

/-- `GET_UINT32_BE`, `crypt_utils.h:78-84`.  A block has 64 bytes, so the default is not reached. -/
def getBe32 (d : List Byte) (i : Nat) : BitVec 32 :=
  match d.drop i with
  | b0 :: b1 :: b2 :: b3 :: _ =>
    (b0.setWidth 32 <<< 24) ||| (b1.setWidth 32 <<< 16) ||| (b2.setWidth 32 <<< 8) ||| b3.setWidth 32
  | _ => 0

/-- `Uint64FromBeBytes`, `crypt_utils.h:444-454`.  A block has 128 bytes, so the default is not reached. -/
def getBe64 (d : List Byte) (i : Nat) : BitVec 64 :=
  match d.drop i with
  | b0 :: b1 :: b2 :: b3 :: b4 :: b5 :: b6 :: b7 :: _ =>
    (b0.setWidth 64 <<< 56) ||| (b1.setWidth 64 <<< 48) ||| (b2.setWidth 64 <<< 40) |||
    (b3.setWidth 64 <<< 32) ||| (b4.setWidth 64 <<< 24) ||| (b5.setWidth 64 <<< 16) |||
    (b6.setWidth 64 <<< 8) ||| b7.setWidth 64
  | _ => 0

/-! ## SHA-256 -/

/-- `S0`, `S1`, `noasm_sha256.c:35-36`. -/
def s0 (x : BitVec 32) : BitVec 32 := rotr x 7 ^^^ rotr x 18 ^^^ (x >>> 3)
@[inherit_doc s0] def s1 (x : BitVec 32) : BitVec 32 := rotr x 17 ^^^ rotr x 19 ^^^ (x >>> 10)

/-- `R(w, t)`, `noasm_sha256.c:38-40`. -/
def R (w : List (BitVec 32)) (t : Nat) : BitVec 32 :=
  s1 (rd w (t - 2)) + rd w (t - 7) + s0 (rd w (t - 15)) + rd w (t - 16)

/-- `CRYPT_SHA256_ROUND`, `noasm_sha256.c:42-51`: the new values of its arguments `d` and `h`. -/
def round256 (a b c d e f g h i k : BitVec 32) : BitVec 32 × BitVec 32 :=
  let h1 := h + ((rotr e 6 ^^^ rotr e 11 ^^^ rotr e 25) + (g ^^^ (e &&& (f ^^^ g))) + k + i)
  let d1 := d + h1
  let h2 := h1 + ((rotr a 2 ^^^ rotr a 13 ^^^ rotr a 22) + ((a &&& (b ||| c)) ||| (b &&& c)))
  (d1, h2)

/-- The type of the round macros. -/
abbrev Round (n : Nat) := BitVec n → BitVec n → BitVec n → BitVec n → BitVec n → BitVec n → BitVec n →
  BitVec n → BitVec n → BitVec n → BitVec n × BitVec n

/-- The eight lines of the two loops, `noasm_sha256.c:81-88`, `:92-107`, and (twice in a row) of
`noasm_sha512.c:97-112`, `:116-131`: `x` is the message word and `k` the constant of the line. -/
def line0 (round : Round n) (x k : BitVec n) (s : St n) : St n :=
  let r := round s.a s.b s.c s.d s.e s.f s.g s.h x k
  { s with d := r.1, h := r.2 }
@[inherit_doc line0] def line1 (round : Round n) (x k : BitVec n) (s : St n) : St n :=
  let r := round s.h s.a s.b s.c s.d s.e s.f s.g x k
  { s with c := r.1, g := r.2 }
@[inherit_doc line0] def line2 (round : Round n) (x k : BitVec n) (s : St n) : St n :=
  let r := round s.g s.h s.a s.b s.c s.d s.e s.f x k
  { s with b := r.1, f := r.2 }
@[inherit_doc line0] def line3 (round : Round n) (x k : BitVec n) (s : St n) : St n :=
  let r := round s.f s.g s.h s.a s.b s.c s.d s.e x k
  { s with a := r.1, e := r.2 }
@[inherit_doc line0] def line4 (round : Round n) (x k : BitVec n) (s : St n) : St n :=
  let r := round s.e s.f s.g s.h s.a s.b s.c s.d x k
  { s with h := r.1, d := r.2 }
@[inherit_doc line0] def line5 (round : Round n) (x k : BitVec n) (s : St n) : St n :=
  let r := round s.d s.e s.f s.g s.h s.a s.b s.c x k
  { s with g := r.1, c := r.2 }
@[inherit_doc line0] def line6 (round : Round n) (x k : BitVec n) (s : St n) : St n :=
  let r := round s.c s.d s.e s.f s.g s.h s.a s.b x k
  { s with f := r.1, b := r.2 }
@[inherit_doc line0] def line7 (round : Round n) (x k : BitVec n) (s : St n) : St n :=
  let r := round s.b s.c s.d s.e s.f s.g s.h s.a x k
  { s with e := r.1, a := r.2 }

/-- The eight lines in a row.  In the second loops the code updates `w` between the lines; `w` does not
depend on the working variables, so those updates are done in `expand` instead: `x j` is the word line `j`
reads. -/
def eight (round : Round n) (x k : Nat → BitVec n) (s : St n) : St n :=
  line7 round (x 7) (k 7) (line6 round (x 6) (k 6) (line5 round (x 5) (k 5) (line4 round (x 4) (k 4)
    (line3 round (x 3) (k 3) (line2 round (x 2) (k 2) (line1 round (x 1) (k 1) (line0 round (x 0) (k 0) s)))))))

/-- `w[i + 0] = R(w, i + 0)` to `w[i + j - 1] = R(w, i + j - 1)`, `noasm_sha256.c:91-106`. -/
def expand (w : List (BitVec 32)) (i : Nat) : Nat → List (BitVec 32)
  | 0 => w
  | j + 1 => (expand w i j).set (i + j) (R (expand w i j) (i + j))

/-- The loop at `noasm_sha256.c:80-89`. -/
def loopA (w : List (BitVec 32)) (s : St 32) : St 32 :=
  let s1 := eight round256 (fun j => rd w (0 + j)) (fun j => rd K256 (0 + j)) s
  eight round256 (fun j => rd w (8 + j)) (fun j => rd K256 (8 + j)) s1

/-- The loop at `noasm_sha256.c:91-108`, `m` passes from `i`. -/
def loopB : Nat → Nat → List (BitVec 32) → St 32 → St 32
  | 0, _, _, s => s
  | m + 1, i, w, s =>
    loopB m (i + 8) (expand w i 8)
      (eight round256 (fun j => rd (expand w i (j + 1)) (i + j)) (fun j => rd K256 (i + j)) s)

/-- `state[0] += a; ...`, `noasm_sha256.c:112-119`, `noasm_sha512.c:135-142`. -/
def addSt (x y : St n) : St n :=
  ⟨x.a + y.a, x.b + y.b, x.c + y.c, x.d + y.d, x.e + y.e, x.f + y.f, x.g + y.g, x.h + y.h⟩

/-- `w[0..15]` filled with the block, the others not yet set (modelled as 0),
`noasm_sha256.c:55-62`. -/
def load256 (block : List Byte) : List (BitVec 32) :=
  (List.range 16).map (fun i => getBe32 block (4 * i)) ++ List.replicate 48 0#32

/-- `CompressBlock`, `noasm_sha256.c:53-120`. -/
def compress256 (state : St 32) (block : List Byte) : St 32 :=
  let w := load256 block
  addSt state (loopB 6 16 w (loopA w state))

/-- Output of the digest: `PUT_UINT32_BE` of the words, `sha2_256.c:258-261` (all eight; `Final` takes the
first `outlen / 4` words). -/
def out256 (s : St 32) : List Byte :=
  ([s.a, s.b, s.c, s.d, s.e, s.f, s.g, s.h].map fun x => beBytes 4 x.toNat).flatten

/-! ## SHA-512 -/

/-- The macros of `noasm_sha512.c:54-59`. -/
def ch5 (x y z : BitVec 64) : BitVec 64 := (x &&& y) ^^^ ((~~~x) &&& z)
@[inherit_doc ch5] def maj5 (x y z : BitVec 64) : BitVec 64 := (x &&& y) ^^^ (x &&& z) ^^^ (y &&& z)
@[inherit_doc ch5] def bsig0 (x : BitVec 64) : BitVec 64 := rotr x 28 ^^^ rotr x 34 ^^^ rotr x 39
@[inherit_doc ch5] def bsig1 (x : BitVec 64) : BitVec 64 := rotr x 14 ^^^ rotr x 18 ^^^ rotr x 41
@[inherit_doc ch5] def ssig0 (x : BitVec 64) : BitVec 64 := rotr x 1 ^^^ rotr x 8 ^^^ (x >>> 7)
@[inherit_doc ch5] def ssig1 (x : BitVec 64) : BitVec 64 := rotr x 19 ^^^ rotr x 61 ^^^ (x >>> 6)

/-- `SHA512_ROUND`, `noasm_sha512.c:61-66`. -/
def round512 (a b c d e f g h w k : BitVec 64) : BitVec 64 × BitVec 64 :=
  let h1 := h + (bsig1 e + ch5 e f g + k + w)
  let d1 := d + h1
  let h2 := h1 + (bsig0 a + maj5 a b c)
  (d1, h2)

/-- The `w` updates of the first `s` lines of the loop body, `ROUND16_79`, `noasm_sha512.c:74-78`. -/
def expand5 (w : List (BitVec 64)) : Nat → List (BitVec 64)
  | 0 => w
  | s + 1 =>
    let v := expand5 w s
    v.set s (rd v s + (ssig1 (rd v ((s + 14) &&& 0xF)) + rd v ((s + 9) &&& 0xF) + ssig0 (rd v ((s + 1) &&& 0xF))))

/-- The loop at `noasm_sha512.c:115-132`, `m` passes from `t`. -/
def loop5 : Nat → Nat → List (BitVec 64) → St 64 → St 64
  | 0, _, _, s => s
  | m + 1, t, w, s =>
    let s1 := eight round512 (fun j => rd (expand5 w (j + 1)) j) (fun j => rd K512 (t + j)) s
    let s2 := eight round512 (fun j => rd (expand5 w (8 + j + 1)) (8 + j)) (fun j => rd K512 (t + (8 + j))) s1
    loop5 m (t + 16) (expand5 w 16) s2

/-- One iteration of `SHA512CompressMultiBlocks`, `noasm_sha512.c:80-147`. -/
def compress512 (hash : St 64) (block : List Byte) : St 64 :=
  let w := (List.range 16).map fun t => getBe64 block (t * 8)
  let s1 := eight round512 (fun j => rd w j) (fun j => rd K512 j) hash
  let s2 := eight round512 (fun j => rd w (8 + j)) (fun j => rd K512 (8 + j)) s1
  addSt hash (loop5 4 16 w s2)

/-- Output of the digest, `sha2_512.c:255-261`. -/
def out512 (s : St 64) : List Byte :=
  ([s.a, s.b, s.c, s.d, s.e, s.f, s.g, s.h].map fun x => beBytes 8 x.toNat).flatten

end Verif.Crypto.Md.Sha2
