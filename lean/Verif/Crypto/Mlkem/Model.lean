import Verif.Crypto.Mlkem.Tables
/-! Model of the portable ML-KEM arithmetic: `/repo/crypto/mlkem/src/ml_kem_local.h`, `ml_kem_ntt.c`,
`ml_kem_poly.c` and the codecs of `ml_kem_pke.c`.

Integers are mathematical; every store into an `int16_t`, `int32_t`, `uint32_t` or `uint64_t` applies the wrap of
that type explicitly, so a result that does not fit is wrong in the model as it is in the program.  (Signed
overflow of `int32_t` is undefined in C; the model wraps there too, and the theorems show that no wrap ever
happens.)  A right shift of a signed number is the arithmetic shift of gcc and clang, i.e. floor division.

An array of 256 coefficients is a function `Nat → Int`; indices from 256 on are not part of the array.  The
in-place butterfly loops are modelled store by store.  Loops whose iterations touch one coefficient (or one pair)
each and read nothing another iteration writes are written as one function of the index. -/
namespace Verif.Crypto.Mlkem

/-- `MLKEM_Q`, ml_kem_local.h:37. -/
def q : Int := 3329

/-- Conversion to `int16_t`. -/
def i16 (x : Int) : Int := (x + 32768) % 65536 - 32768
/-- Conversion to `int32_t`. -/
def i32 (x : Int) : Int := (x + 2147483648) % 4294967296 - 2147483648
/-- Conversion to `uint32_t`. -/
def u32 (x : Int) : Int := x % 4294967296
/-- Conversion to `uint64_t`. -/
def u64 (x : Int) : Int := x % 18446744073709551616
/-- Reading an `int16_t` through a `uint16_t` pointer. -/
def u16 (x : Int) : Nat := (x % 65536).toNat

/-- `BarrettReduction`, ml_kem_local.h:57-63. -/
def barrett (a : Int) : Int :=
  let v : Int := (2 ^ 27 + 3329 / 2) / 3329
  let t := i32 ((v * a + 2 ^ 26) / 2 ^ 27)
  let t := i32 (t * q)
  i16 (i32 (a - t))

/-- `PlantardReduction`, ml_kem_local.h:65-72; the argument is a `uint32_t`. -/
def plantard (a : Int) : Int :=
  let tmp := i32 a
  let tmp := tmp / 2 ^ 16
  let tmp := i32 ((tmp + 2 ^ 3) * q)
  i16 (tmp / 2 ^ 16)

/-- An array of coefficients. -/
abbrev Poly := Nat → Int

/-- The store `a[i] = v`. -/
def upd (a : Poly) (i : Nat) (v : Int) : Poly := fun j => if j = i then v else a j

/-- `psi[k]`.  An index past the table would be an out-of-bounds read; it is given the value 0, which is not the
Plantard form of any root of unity, so that the transform theorems fail if it is ever used. -/
def tab (t : List Int) (k : Nat) : Int := match t[k]? with
  | some z => z
  | none => 0

/-- Body of the inner loop of `MLKEM_ComputNTT`, ml_kem_ntt.c:29-31. -/
def butterfly (zeta : Int) (len j : Nat) (a : Poly) : Poly :=
  let t := plantard (u32 (u32 (a (j + len)) * u32 zeta))
  let a := upd a (j + len) (i16 (a j - t))
  upd a j (i16 (a j + t))

/-- The inner loop `for (j = start; j < start + len; ++j)`, ml_kem_ntt.c:28-32 (first `n` iterations). -/
def nttBlock (zeta : Int) (len start : Nat) (a : Poly) : Nat → Poly
  | 0 => a
  | n + 1 => butterfly zeta len (start + n) (nttBlock zeta len start a n)

/-- The middle loop `for (start = 0; start < MLKEM_N; start = j + len)`, ml_kem_ntt.c:26-33, with the running table
index `k`; after the inner loop `j = start + len`, so the next `start` is `start + 2 len` (first `n` iterations). -/
def nttLayer (psi : List Int) (len : Nat) (s : Poly × Nat) : Nat → Poly × Nat
  | 0 => s
  | n + 1 =>
    let (a, k) := nttLayer psi len s n
    (nttBlock (tab psi k) len (2 * len * n) a len, k + 1)

/-- `MLKEM_ComputNTT`, ml_kem_ntt.c:20-36: `len` runs over 128, 64, …, 2 and the middle loop runs `256 / (2 len)`
times. -/
def ntt (psi : List Int) (a : Poly) : Poly :=
  ([128, 64, 32, 16, 8, 4, 2].foldl (fun s len => nttLayer psi len s (256 / (2 * len))) (a, 1)).1

/-- Body of the loop of `MLKEM_INTT_LOOP`, ml_kem_ntt.c:42-45. -/
def ibutterfly (zeta : Int) (len j : Nat) (a : Poly) : Poly :=
  let t := a j
  let a := upd a j (i16 (t + a (j + len)))
  let a := upd a (j + len) (i16 (a (j + len) - t))
  upd a (j + len) (plantard (u32 (u32 zeta * u32 (a (j + len)))))

/-- The inner loop of `MLKEM_INTT_LOOP`, ml_kem_ntt.c:41-46 (first `n` iterations). -/
def inttBlock (zeta : Int) (len start : Nat) (a : Poly) : Nat → Poly
  | 0 => a
  | n + 1 => ibutterfly zeta len (start + n) (inttBlock zeta len start a n)

/-- `MLKEM_INTT_LOOP(len, k, a, psi)`, ml_kem_ntt.c:38-47, with the running index `k` counting down (first `n`
iterations of the outer loop).  `k` never goes below 0 where it is read. -/
def inttLayer (psi : List Int) (len : Nat) (s : Poly × Nat) : Nat → Poly × Nat
  | 0 => s
  | n + 1 =>
    let (a, k) := inttLayer psi len s n
    (inttBlock (tab psi k) len (2 * len * n) a len, k - 1)

/-- `MLKEM_LAST_ROUND_ZETA`, ml_kem_local.h:51. -/
def lastRoundZeta : Int := 2131356556
/-- `MLKEM_HALF_DEGREE_INVERSE_MOD_Q`, ml_kem_local.h:52. -/
def halfDegreeInverse : Int := -33544352

/-- `for (i = 0; i < MLKEM_N; ++i) a[i] = BarrettReduction(a[i]);`, ml_kem_ntt.c:55-57 and 62-64. -/
def barrettAll (a : Poly) : Poly := fun i => barrett (a i)

/-- `for (j = 0; j < MLKEM_N / 2; j++) a[j] = PlantardReduction(…)`, ml_kem_ntt.c:76-78. -/
def scaleLow (a : Poly) : Poly :=
  fun i => if i < 128 then plantard (u32 (u32 (a i) * u32 halfDegreeInverse)) else a i

/-- `MLKEM_ComputINTT`, ml_kem_ntt.c:49-79.  The last layer (lines 66-74) has the same loop body as the macro, with
one block and a fixed constant. -/
def intt (psi : List Int) (a : Poly) : Poly :=
  let s := [2, 4, 8].foldl (fun s len => inttLayer psi len s (256 / (2 * len))) (a, 127)
  let s := (barrettAll s.1, s.2)
  let s := [16, 32, 64].foldl (fun s len => inttLayer psi len s (256 / (2 * len))) s
  let a := barrettAll s.1
  let a := inttBlock lastRoundZeta 128 0 a 128
  scaleLow a

/-- The common shape of `DivMlKemQBit{4,5,10,11}`, ml_kem_poly.c:74-108: `mul` and `mask` differ. -/
def divQ64 (mul mask : Nat) (x : Int) : Int :=
  let tmp := u64 (x + (if x < 0 then q else 0))
  let tmp := u64 (tmp * mul)
  i16 ((u64 (tmp + 2 ^ 32) / 2 ^ 33).toNat &&& mask : Nat)

/-- `DivMlKemQBit1`, ml_kem_poly.c:110-117. -/
def divQ1 (x : Int) : Int :=
  let tmp := u32 (x + (if x < 0 then q else 0))
  let tmp := u32 (tmp * 1290168)
  i16 ((u32 (tmp + 2 ^ 30) / 2 ^ 31).toNat &&& 1 : Nat)

/-- `PolyCompress`, ml_kem_poly.c:119-127, one coefficient; `none` is the call through a null pointer. -/
def compress (d : Nat) (x : Int) : Option Int :=
  match d with
  | 1 => some (divQ1 x)
  | 4 => some (divQ64 41285360 0xF x)
  | 5 => some (divQ64 82570720 0x1F x)
  | 10 => some (divQ64 2642263040 0x3FF x)
  | 11 => some (divQ64 5284526080 0x7FF x)
  | _ => none

/-- `PolyDeCompress`, ml_kem_pke.c:49-56, one coefficient. -/
def decompress (bits : Nat) (x : Int) : Int :=
  let product := u32 (u32 x * q)
  let power : Nat := 1 <<< bits
  i16 (u32 (product / 2 ^ bits + ((product.toNat &&& (power - 1)) >>> (bits - 1) : Nat)))

/-- `MlkemAddPoly(a, b)`, ml_kem_poly.c:129-134: the new `b`. -/
def addPoly (a b : Poly) : Poly := fun i => i16 (b i + a i)
/-- `MlkemSubPoly(a, b)`, ml_kem_poly.c:136-141: the new `b`. -/
def subPoly (a b : Poly) : Poly := fun i => i16 (a i - b i)

/-- `CircMulAdd` with `BaseMulAdd`, ml_kem_poly.c:144-149 and 158-167: pair `p` is `dest[2p], dest[2p+1]`. -/
def circMulAdd (factor : List Int) (dest f g : Poly) : Poly := fun i =>
  if i % 2 = 0 then
    i32 (dest i + (f i * g i + f (i + 1) * plantard (u32 (u32 (g (i + 1)) * u32 (tab factor (i / 2))))))
  else i32 (dest i + (f (i - 1) * g i + f i * g (i - 1)))

/-- `MLKEM_ComputeMulCache`, ml_kem_poly.c:187-195, for one polynomial. -/
def mulCache (factor : List Int) (g : Poly) : Poly := fun j =>
  plantard (u32 (u32 (g (2 * j + 1)) * u32 (tab factor j)))

/-- `CircMulAddUseCache` with `BaseMulAddCache`, ml_kem_poly.c:151-156 and 169-178. -/
def circMulAddCache (cache : Poly) (dest f g : Poly) : Poly := fun i =>
  if i % 2 = 0 then i32 (dest i + (f i * g i + f (i + 1) * cache (i / 2)))
  else i32 (dest i + (f (i - 1) * g i + f i * g (i - 1)))

/-- `PolyReduce`, ml_kem_poly.c:180-185. -/
def polyReduce (src : Poly) : Poly := fun i => barrett (src i)

/-- Row `i` of `MLKEM_MatrixMulAdd`, ml_kem_poly.c:198-217: `polyVecOut[i] += matrix[i] · polyVec`
(the `j` loop after `n` iterations). -/
def matrixRow (a : Nat → Nat → Poly) (v : Nat → Poly) (cache : Nat → Poly) (out : Poly) (i : Nat) : Nat → Poly
  | 0 => out
  | n + 1 => circMulAddCache (cache n) (matrixRow a v cache out i n) (a i n) (v n)

/-- `MLKEM_MatrixMulAdd`, ml_kem_poly.c:198-217. -/
def matrixMulAdd (k : Nat) (a : Nat → Nat → Poly) (v cache out : Nat → Poly) : Nat → Poly :=
  fun i => polyReduce (matrixRow a v cache (out i) i k)

/-- `MLKEM_TransposeMatrixMulAdd`, ml_kem_poly.c:220-236.  Despite the comment in the code the old contents of
`polyVecOut` are not added: the accumulator starts at zero. -/
def transposeMatrixMulAdd (k : Nat) (a : Nat → Nat → Poly) (v cache : Nat → Poly) : Nat → Poly :=
  fun i => polyReduce (matrixRow (fun r c => a c r) v cache (fun _ => 0) i k)

/-- The loop of `MLKEM_VectorInnerProductAdd`, ml_kem_poly.c:241-244 (first `n` iterations). -/
def innerProduct (factor : List Int) (v w : Nat → Poly) : Nat → Poly
  | 0 => fun _ => 0
  | n + 1 => circMulAdd factor (innerProduct factor v w n) (v n) (w n)

/-- `MLKEM_VectorInnerProductAdd`, ml_kem_poly.c:238-246. -/
def vectorInnerProduct (factor : List Int) (k : Nat) (v w : Nat → Poly) : Poly :=
  polyReduce (innerProduct factor v w k)

/-- Applying `PolyCompress` to a polynomial; `none` as in `compress`. -/
def polyCompress (d : Nat) (a : Poly) : Option Poly :=
  match compress d 0 with
  | none => none
  | some _ => some (fun i => match compress d (a i) with
    | some y => y
    | none => 0)

/-- The arithmetic of `MLKEM_PKEGen`, ml_kem_poly.c:371-381, after the sampling: `s`, `e` are the sampled
polynomials (before their transform, which `SampleEta1` applies, lines 248-267), `a` the matrix.  Result: the
vectors `s` and `t` that are encoded into the keys. -/
def pkeGen (k : Nat) (a : Nat → Nat → Poly) (s e : Nat → Poly) : (Nat → Poly) × (Nat → Poly) :=
  let s := fun i => barrettAll (ntt zetaPower1 (s i))
  let e := fun i => ntt zetaPower1 (e i)
  (s, matrixMulAdd k a s (fun i => mulCache zetaPower2 (s i)) e)

/-- `MLKEM_PKEEnc`, ml_kem_poly.c:394-422, before `ByteEncode`; `y` is the sampled vector before the transform of
`SampleEta2` (lines 271-290). -/
def pkeEnc (k du dv : Nat) (a : Nat → Nat → Poly) (t y e1 : Nat → Poly) (e2 mu : Poly) :
    (Nat → Option Poly) × Option Poly :=
  let y := fun i => ntt zetaPower1 (y i)
  let u := transposeMatrixMulAdd k a y (fun i => mulCache zetaPower2 (y i))
  let u := fun i => polyCompress du (addPoly (e1 i) (intt zetaPower1 (u i)))
  let c2 := intt zetaPower1 (vectorInnerProduct zetaPower2 k t y)
  let c2 := addPoly e2 c2
  let c2 := addPoly mu c2
  (u, polyCompress dv c2)

/-- `MLKEM_PKEDec`, ml_kem_poly.c:425-438, before `ByteEncode`. -/
def pkeDec (k : Nat) (s c1 : Nat → Poly) (c2 : Poly) : Option Poly :=
  let c1 := fun i => ntt zetaPower1 (c1 i)
  let m := intt zetaPower1 (vectorInnerProduct zetaPower2 k s c1)
  polyCompress 1 (subPoly c2 m)

/-! ## Sampling -/

/-- One candidate of `Parse`, ml_kem_poly.c:300-302 / 305-307: the store and the new `*curLen`. -/
def parseOne (a : Poly) (cur d : Nat) : Poly × Nat :=
  let mask := (u32 ((q - 1 - d) / 2 ^ 31)).toNat
  (upd a cur (d &&& (0xFFFFFFFF - mask) : Nat), (cur + (1 + mask) % 2 ^ 32) % 2 ^ 32)

/-- One round of the loop of `Parse`, ml_kem_poly.c:296-309. -/
def parseRound (a : Poly) (cur : Nat) (b0 b1 b2 : Nat) : Poly × Nat :=
  let d1 := b0 + (b1 &&& 0x0f) <<< 8
  let d2 := b1 >>> 4 + b2 <<< 4
  let (a, cur) := parseOne a cur d1
  if cur < 256 then parseOne a cur d2 else (a, cur)

/-- The loop of `Parse`, ml_kem_poly.c:292-312, over the bytes still to be read. -/
def parse (s : Poly × Nat) : List Nat → Poly × Nat
  | b0 :: b1 :: b2 :: rest =>
    if s.2 < 256 then parse (parseRound s.1 s.2 b0 b1 b2) rest else s
  | _ => s

/-- The squeeze loop of `GenMatrix` for one polynomial, ml_kem_poly.c:346-349, over the successive output blocks of
the XOF; `none` when the list of blocks ends first (the C loop would go on squeezing). -/
def sampleNtt (s : Poly × Nat) : List (List Nat) → Option Poly
  | [] => if s.2 < 256 then none else some s.1
  | blk :: rest => if s.2 < 256 then sampleNtt (parse s blk) rest else some s.1

/-- `MLKEM_SamplePolyCBD`, ml_kem_poly.c:440-476, coefficient `4 i + j`; `none` is any other `eta` (the array is
left as it is). -/
def cbd (eta : Nat) (buf : Nat → Nat) (idx : Nat) : Option Int :=
  let i := idx / 4
  let j := idx % 4
  match eta with
  | 3 =>
    let temp := buf (3 * i)
    let temp := temp ||| buf (3 * i + 1) <<< 8
    let temp := temp ||| buf (3 * i + 2) <<< 16
    let t1 := temp &&& 0x00249249
    let t1 := t1 + ((temp >>> 1) &&& 0x00249249)
    let t1 := t1 + ((temp >>> 2) &&& 0x00249249)
    let a := (t1 >>> (6 * j)) &&& 0x3
    let b := (t1 >>> (6 * j + eta)) &&& 0x3
    some ((a : Int) - b)
  | 2 =>
    let temp := buf (2 * i)
    let temp := temp ||| buf (2 * i + 1) <<< 8
    let t1 := temp &&& 0x5555
    let t1 := t1 + ((temp >>> 1) &&& 0x5555)
    let a := (t1 >>> (4 * j)) &&& 0x3
    let b := (t1 >>> (4 * j + eta)) &&& 0x3
    some ((a : Int) - b)
  | _ => none

end Verif.Crypto.Mlkem
