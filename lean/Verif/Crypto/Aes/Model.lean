import Verif.Bsl.Bytes.Model
import Verif.Crypto.Aes.Tables

/-!
# Model of the portable AES implementations

`crypto/aes/src/crypt_aes_sbox.c` (built without `HITLS_CRYPTO_AES_PRECALC_TABLES`) and
`crypto/aes/src/crypt_aes_tbox.c` (the default build).  Reads outside an array are `none`.
In the S-box variant `AES_S[..] << 24` shifts a promoted `int` and may reach its sign bit, which
ISO C before C23 leaves undefined; the model takes the two's complement value every supported
compiler produces (recorded as a finding).
-/

namespace Verif.Crypto.Aes

open Verif.Common Verif.Bsl.Bytes

/-- `GET_UINT32_BE(p, i)`, `crypto/include/crypt_utils.h:78-84`. -/
def getBe (p : List Byte) (i : Nat) : Option (BitVec 32) := byteToUint32 (p.drop i)

/-- `PUT_UINT32_BE(v, p, i)`, `crypto/include/crypt_utils.h:58-64`: the four bytes written. -/
def putBe (v : BitVec 32) : List Byte := uint32ToByte v

/-- `tab[(t >> s) & 0xff]`. -/
def look {w : Nat} (tab : List (BitVec w)) (t : BitVec 32) (s : Nat) : Option (BitVec w) :=
  tab[((t >>> s) &&& 0xff#32).toNat]?

/-- `tab[t >> 24]`. -/
def look24 {w : Nat} (tab : List (BitVec w)) (t : BitVec 32) : Option (BitVec w) :=
  tab[(t >>> 24).toNat]?

/-- The four words of the state. -/
structure St where
  s0 : BitVec 32
  s1 : BitVec 32
  s2 : BitVec 32
  s3 : BitVec 32
  deriving DecidableEq, Repr

/-- Loading a block: `crypt_aes_sbox.c:191-193`, `:237-239`. -/
def loadSt (inp : List Byte) : Option St := do
  some ⟨← getBe inp 0, ← getBe inp 4, ← getBe inp 8, ← getBe inp 12⟩

/-- Storing a block: `crypt_aes_sbox.c:206-208`, `:252-254`. -/
def storeSt (s : St) : List Byte := putBe s.s0 ++ putBe s.s1 ++ putBe s.s2 ++ putBe s.s3

/-! ## The S-box variant -/

/-- `SEARCH_SBOX` with `tab = AES_S` (`crypt_aes_sbox.c:76-78`), `SEARCH_INVSBOX` with
`tab = INV_S` (`:80-82`). -/
def search (tab : List Byte) (t : BitVec 32) : Option (BitVec 32) := do
  let a ← look24 tab t
  let b ← look tab t 16
  let c ← look tab t 8
  let d ← look tab t 0
  some ((a.setWidth 32 <<< 24) ||| (b.setWidth 32 <<< 16) ||| (c.setWidth 32 <<< 8) |||
    (d.setWidth 32 <<< 0))

/-- `ROTL32(x, n)`, `crypto/include/crypt_utils.h:364`. -/
def rotl32 (x : BitVec 32) (n : Nat) : BitVec 32 := (x <<< n) ||| (x >>> (32 - n))

/-- The first loop of `SetAesKeyExpansionSbox`, `crypt_aes_sbox.c:89-91`. -/
def loadKey (key : List Byte) : Nat → Option (List (BitVec 32))
  | 0 => some []
  | n + 1 => do
    let ws ← loadKey key n
    some (ws ++ [← getBe key (n * 4)])

/-- One iteration of the second loop, `crypt_aes_sbox.c:94-101`: the value of `ekey[i]`. -/
def nextKey (nk : Nat) (ws : List (BitVec 32)) (i : Nat) : Option (BitVec 32) := do
  if i % nk = 0 then
    let p ← ws[i - nk]?
    let q ← ws[i - 1]?
    let s ← search aesS (rotl32 q 8)
    let r ← rcon[i / nk - 1]?
    some (p ^^^ s ^^^ r)
  else if nk > 6 ∧ i % nk = 4 then
    let p ← ws[i - nk]?
    let q ← ws[i - 1]?
    let s ← search aesS q
    some (p ^^^ s)
  else
    let p ← ws[i - nk]?
    let q ← ws[i - 1]?
    some (p ^^^ q)

/-- The second loop, `crypt_aes_sbox.c:93-102`: `n` iterations left, `i = ws.length`. -/
def expandLoop (nk : Nat) : Nat → List (BitVec 32) → Option (List (BitVec 32))
  | 0, ws => some ws
  | n + 1, ws => do
    let v ← nextKey nk ws ws.length
    expandLoop nk n (ws ++ [v])

/-- `SetAesKeyExpansionSbox`, `crypt_aes_sbox.c:84-103`, for `nk = keyLenBits / 32` words. -/
def keyExpansionSbox (nk rounds : Nat) (key : List Byte) : Option (List (BitVec 32)) := do
  expandLoop nk (4 * (rounds + 1) - nk) (← loadKey key nk)

/-- `AesAddRoundKey`, `crypt_aes_sbox.c:105-110`. -/
def addRoundKey (s : St) (key : List (BitVec 32)) (nr : Nat) : Option St := do
  let k0 ← key[4 * nr + 0]?
  let k1 ← key[4 * nr + 1]?
  let k2 ← key[4 * nr + 2]?
  let k3 ← key[4 * nr + 3]?
  some ⟨s.s0 ^^^ k0, s.s1 ^^^ k1, s.s2 ^^^ k2, s.s3 ^^^ k3⟩

/-- `AesSubBytes` (`tab = AES_S`, `crypt_aes_sbox.c:112-117`), `InvSubBytes` (`tab = INV_S`,
`:224-229`). -/
def subBytes (tab : List Byte) (s : St) : Option St := do
  some ⟨← search tab s.s0, ← search tab s.s1, ← search tab s.s2, ← search tab s.s3⟩

/-- `(a & 0xFF000000) | (b & 0xFF0000) | (c & 0xFF00) | (d & 0xFF)`. -/
def gather (a b c d : BitVec 32) : BitVec 32 :=
  (a &&& 0xFF000000#32) ||| (b &&& 0xFF0000#32) ||| (c &&& 0xFF00#32) ||| (d &&& 0xFF#32)

/-- `AesShiftRows`, `crypt_aes_sbox.c:119-130`. -/
def shiftRows (s : St) : St :=
  ⟨gather s.s0 s.s1 s.s2 s.s3, gather s.s1 s.s2 s.s3 s.s0,
   gather s.s2 s.s3 s.s0 s.s1, gather s.s3 s.s0 s.s1 s.s2⟩

/-- `InvShiftRows`, `crypt_aes_sbox.c:211-222`. -/
def invShiftRows (s : St) : St :=
  ⟨gather s.s0 s.s3 s.s2 s.s1, gather s.s1 s.s0 s.s3 s.s2,
   gather s.s2 s.s1 s.s0 s.s3, gather s.s3 s.s2 s.s1 s.s0⟩

/-- `AesXtime`, `crypt_aes_sbox.c:132-135`. -/
def aesXtime (x : Byte) : Byte := (x <<< 1) ^^^ (((x >>> 7) &&& 1#8) * 0x1b#8)

/-- `AesXtimes`, `crypt_aes_sbox.c:137-146`. -/
def aesXtimes (x : Byte) : Nat → Byte
  | 0 => x
  | ts + 1 => aesXtimes (aesXtime x) ts

/-- `AesMul`, `crypt_aes_sbox.c:148-153`. -/
def aesMul (x y : Byte) : Byte :=
  (((y >>> 0) &&& 1#8) * aesXtimes x 0) ^^^ (((y >>> 1) &&& 1#8) * aesXtimes x 1) ^^^
  (((y >>> 2) &&& 1#8) * aesXtimes x 2) ^^^ (((y >>> 3) &&& 1#8) * aesXtimes x 3) ^^^
  (((y >>> 4) &&& 1#8) * aesXtimes x 4) ^^^ (((y >>> 5) &&& 1#8) * aesXtimes x 5) ^^^
  (((y >>> 6) &&& 1#8) * aesXtimes x 6) ^^^ (((y >>> 7) &&& 1#8) * aesXtimes x 7)

/-- `aesY`, `crypt_aes_sbox.c:162`. -/
def aesY : List Byte := [2, 3, 1, 1, 1, 2, 3, 1, 1, 1, 2, 3, 3, 1, 1, 2]
/-- `aesInvY`, `crypt_aes_sbox.c:163-164`. -/
def aesInvY : List Byte := [0x0e, 0x0b, 0x0d, 0x09, 0x09, 0x0e, 0x0b, 0x0d, 0x0d, 0x09, 0x0e, 0x0b,
  0x0b, 0x0d, 0x09, 0x0e]

/-- The loop over `j`, `crypt_aes_sbox.c:170-173`, for one column `t0..t3` of `ts`. -/
def mixByte (y : List Byte) (r : Nat) (t0 t1 t2 t3 : Byte) : Option Byte := do
  let y0 ← y[r * 4 + 0]?
  let y1 ← y[r * 4 + 1]?
  let y2 ← y[r * 4 + 2]?
  let y3 ← y[r * 4 + 3]?
  some (0#8 ^^^ aesMul t0 y0 ^^^ aesMul t1 y1 ^^^ aesMul t2 y2 ^^^ aesMul t3 y3)

/-- One column of `AesMixColumns`, `crypt_aes_sbox.c:168-178`: stored to bytes (`:159`), mixed,
loaded back (`:181`).  Column `i` uses only `ts[4i..4i+3]`, and the four results are computed
before any is written. -/
def mixColumn (y : List Byte) (w : BitVec 32) : Option (BitVec 32) :=
  match putBe w with
  | [t0, t1, t2, t3] => do
    let s0 ← mixByte y 0 t0 t1 t2 t3
    let s1 ← mixByte y 1 t0 t1 t2 t3
    let s2 ← mixByte y 2 t0 t1 t2 t3
    let s3 ← mixByte y 3 t0 t1 t2 t3
    getBe [s0, s1, s2, s3] 0
  | _ => none

/-- `AesMixColumns`, `crypt_aes_sbox.c:155-183`. -/
def mixColumns (s : St) (isMixColumns : Bool) : Option St := do
  let y := if isMixColumns then aesY else aesInvY
  some ⟨← mixColumn y s.s0, ← mixColumn y s.s1, ← mixColumn y s.s2, ← mixColumn y s.s3⟩

/-- The loop of `CRYPT_AES_EncryptSbox`, `crypt_aes_sbox.c:196-201`: `n` iterations from `nr`. -/
def encLoop (key : List (BitVec 32)) : Nat → Nat → St → Option St
  | 0, _, s => some s
  | n + 1, nr, s => do
    let s ← subBytes aesS s
    let s := shiftRows s
    let s ← mixColumns s true
    let s ← addRoundKey s key nr
    encLoop key n (nr + 1) s

/-- `CRYPT_AES_EncryptSbox`, `crypt_aes_sbox.c:186-209`. -/
def encryptSbox (key : List (BitVec 32)) (rounds : Nat) (inp : List Byte) : Option (List Byte) := do
  let s ← loadSt inp
  let s ← addRoundKey s key 0
  let s ← encLoop key (rounds - 1) 1 s
  let s ← subBytes aesS s
  let s := shiftRows s
  let s ← addRoundKey s key rounds
  some (storeSt s)

/-- The loop of `CRYPT_AES_DecryptSbox`, `crypt_aes_sbox.c:245-250`: `nr` counts down to 1. -/
def decLoop (key : List (BitVec 32)) : Nat → St → Option St
  | 0, s => some s
  | nr + 1, s => do
    let s ← addRoundKey s key (nr + 1)
    let s ← mixColumns s false
    let s := invShiftRows s
    let s ← subBytes invS s
    decLoop key nr s

/-- `CRYPT_AES_DecryptSbox`, `crypt_aes_sbox.c:232-256`. -/
def decryptSbox (key : List (BitVec 32)) (rounds : Nat) (inp : List Byte) : Option (List Byte) := do
  let s ← loadSt inp
  let s ← addRoundKey s key rounds
  let s := invShiftRows s
  let s ← subBytes invS s
  let s ← decLoop key (rounds - 1) s
  let s ← addRoundKey s key 0
  some (storeSt s)

/-! ## The table variant -/

/-- `TESEARCH`, `crypt_aes_tbox.c:50-52`. -/
def tesearch (t0 t1 t2 t3 : BitVec 32) : Option (BitVec 32) := do
  let a ← look24 te2 t0
  let b ← look te3 t1 16
  let c ← look te0 t2 8
  let d ← look te1 t3 0
  some ((a &&& 0xff000000#32) ^^^ (b &&& 0x00ff0000#32) ^^^ (c &&& 0x0000ff00#32) ^^^
    (d &&& 0x000000ff#32))

/-- `INVSSEARCH`, `crypt_aes_tbox.c:54-56`. -/
def invssearch (t0 t1 t2 t3 : BitVec 32) : Option (BitVec 32) := do
  let a ← look24 invST t0
  let b ← look invST t3 16
  let c ← look invST t2 8
  let d ← look invST t1 0
  some ((a.setWidth 32 <<< 24) ^^^ (b.setWidth 32 <<< 16) ^^^ (c.setWidth 32 <<< 8) ^^^
    d.setWidth 32)

/-- The new value of a round key word in `SetDecryptKeyTbox`, `crypt_aes_tbox.c:595-598`. -/
def dkWord (w : BitVec 32) : Option (BitVec 32) := do
  let a ← look td0 (← look24 te1 w) 0
  let b ← look td1 (← look te1 w 16) 0
  let c ← look td2 (← look te1 w 8) 0
  let d ← look td3 (← look te1 w 0) 0
  some (a ^^^ b ^^^ c ^^^ d)

/-- `SetDecryptKeyTbox`, `crypt_aes_tbox.c:588-601`: words `4 .. 4 * rounds - 1` are replaced
(`i = 1 .. rounds - 1`, four words each); every word is read before it is written, so the loop is
a map over that range. -/
def setDecryptKeyTbox (key : List (BitVec 32)) (rounds : Nat) : Option (List (BitVec 32)) := do
  let mid ← ((key.drop 4).take (4 * (rounds - 1))).mapM dkWord
  some (key.take 4 ++ mid ++ key.drop (4 + 4 * (rounds - 1)))

/-- `AES_G`, `crypt_aes_tbox.c:603-613`. -/
def aesG (w rc : BitVec 32) : Option (BitVec 32) := do
  let a ← look te2 w 16
  let b ← look te3 w 8
  let c ← look te0 w 0
  let d ← look24 te1 w
  some (0#32 ^^^ (a &&& 0xff000000#32) ^^^ (b &&& 0x00ff0000#32) ^^^ (c &&& 0x0000ff00#32) ^^^
    (d &&& 0x000000ff#32) ^^^ rc)

/-- The loop body of `SetEncryptKey128Tbox`, `crypt_aes_tbox.c:626-629` and its last copy
`:633-636`: the next four words from the previous four. -/
def step128 (e0 e1 e2 e3 : BitVec 32) (times : Nat) : Option (List (BitVec 32)) := do
  let r ← rconT[times]?
  let g ← aesG e3 r
  let e4 := g ^^^ e0
  let e5 := e4 ^^^ e1
  let e6 := e5 ^^^ e2
  let e7 := e6 ^^^ e3
  some [e4, e5, e6, e7]

/-- `SetEncryptKey128Tbox`, `crypt_aes_tbox.c:624-636`: `n` iterations left (nine of the loop and
the last one); the pointer `ekey` is at word `4 * times` of the array `ws`. -/
def loop128 : Nat → Nat → List (BitVec 32) → Option (List (BitVec 32))
  | 0, _, ws => some ws
  | n + 1, times, ws => do
    let e0 ← ws[4 * times + 0]?
    let e1 ← ws[4 * times + 1]?
    let e2 ← ws[4 * times + 2]?
    let e3 ← ws[4 * times + 3]?
    let new ← step128 e0 e1 e2 e3 times
    loop128 n (times + 1) (ws ++ new)

/-- The first four assignments of the loop body of `SetEncryptKey192Tbox`,
`crypt_aes_tbox.c:652-655`, repeated after the loop `:661-664`. -/
def half192 (e0 e1 e2 e3 e5 : BitVec 32) (times : Nat) : Option (List (BitVec 32)) := do
  let r ← rconT[times]?
  let g ← aesG e5 r
  let e6 := g ^^^ e0
  let e7 := e6 ^^^ e1
  let e8 := e7 ^^^ e2
  let e9 := e8 ^^^ e3
  some [e6, e7, e8, e9]

/-- `SetEncryptKey192Tbox`, `crypt_aes_tbox.c:649-664`: `n` iterations of the loop left, then the
last half iteration; `ekey` is at word `6 * times`. -/
def loop192 : Nat → Nat → List (BitVec 32) → Option (List (BitVec 32))
  | n, times, ws => do
    let e0 ← ws[6 * times + 0]?
    let e1 ← ws[6 * times + 1]?
    let e2 ← ws[6 * times + 2]?
    let e3 ← ws[6 * times + 3]?
    let e4 ← ws[6 * times + 4]?
    let e5 ← ws[6 * times + 5]?
    let new ← half192 e0 e1 e2 e3 e5 times
    let e9 ← new[3]?
    match n with
    | 0 => some (ws ++ new)
    | n + 1 => loop192 n (times + 1) (ws ++ new ++ [e9 ^^^ e4, e9 ^^^ e4 ^^^ e5])

/-- The first four assignments of the loop body of `SetEncryptKey256Tbox`,
`crypt_aes_tbox.c:683-686`, repeated after the loop `:696-699`. -/
def half256 (e0 e1 e2 e3 e7 : BitVec 32) (times : Nat) : Option (List (BitVec 32)) := do
  let r ← rconT[times]?
  let g ← aesG e7 r
  let e8 := g ^^^ e0
  let e9 := e8 ^^^ e1
  let e10 := e9 ^^^ e2
  let e11 := e10 ^^^ e3
  some [e8, e9, e10, e11]

/-- The rest of the loop body, `crypt_aes_tbox.c:688-692`. -/
def half256b (e4 e5 e6 e7 e11 : BitVec 32) : Option (List (BitVec 32)) := do
  let tmp := (e11 >>> 8) ||| (e11 <<< 24)
  let g ← aesG tmp 0#32
  let e12 := g ^^^ e4
  let e13 := e12 ^^^ e5
  let e14 := e13 ^^^ e6
  let e15 := e14 ^^^ e7
  some [e12, e13, e14, e15]

/-- `SetEncryptKey256Tbox`, `crypt_aes_tbox.c:680-699`; `ekey` is at word `8 * times`. -/
def loop256 : Nat → Nat → List (BitVec 32) → Option (List (BitVec 32))
  | 0, times, ws => do
    let e0 ← ws[8 * times + 0]?
    let e1 ← ws[8 * times + 1]?
    let e2 ← ws[8 * times + 2]?
    let e3 ← ws[8 * times + 3]?
    let e7 ← ws[8 * times + 7]?
    let new ← half256 e0 e1 e2 e3 e7 times
    some (ws ++ new)
  | n + 1, times, ws => do
    let e0 ← ws[8 * times + 0]?
    let e1 ← ws[8 * times + 1]?
    let e2 ← ws[8 * times + 2]?
    let e3 ← ws[8 * times + 3]?
    let e4 ← ws[8 * times + 4]?
    let e5 ← ws[8 * times + 5]?
    let e6 ← ws[8 * times + 6]?
    let e7 ← ws[8 * times + 7]?
    let new ← half256 e0 e1 e2 e3 e7 times
    let e11 ← new[3]?
    let new' ← half256b e4 e5 e6 e7 e11
    loop256 n (times + 1) (ws ++ new ++ new')

/-- `SetEncryptKey128Tbox`, `SetEncryptKey192Tbox`, `SetEncryptKey256Tbox`,
`crypt_aes_tbox.c:614-700`, after the loads, selected as in `:705-716`. -/
def setEncryptKeyTbox (nk : Nat) (ws : List (BitVec 32)) : Option (List (BitVec 32)) :=
  match nk with
  | 4 => loop128 10 0 ws
  | 6 => loop192 7 0 ws
  | 8 => loop256 6 0 ws
  | _ => none

/-- `SetAesKeyExpansionTbox`, `crypt_aes_tbox.c:702-721`, with `SetEncryptKey*Tbox`'s loads of the
key (`:618-621`, `:642-647`, `:670-677`); `nk` is the key length in words. -/
def keyExpansionTbox (nk rounds : Nat) (key : List Byte) (isEncrypt : Bool) :
    Option (List (BitVec 32)) := do
  let ws ← loadKey key nk
  let ek ← setEncryptKeyTbox nk ws
  if isEncrypt then some ek else setDecryptKeyTbox ek rounds

/-- One word of `AES_ENC_ROUND`, `crypt_aes_tbox.c:731-740`. -/
def encWord (a b c d : BitVec 32) (k : BitVec 32) : Option (BitVec 32) := do
  some ((← look24 te0 a) ^^^ (← look te1 b 16) ^^^ (← look te2 c 8) ^^^ (← look te3 d 0) ^^^ k)

/-- `AES_ENC_ROUND`, `crypt_aes_tbox.c:731-740`. -/
def encRound (key : List (BitVec 32)) (i : Nat) (s : St) : Option St := do
  let k0 ← key[4 * i + 0]?
  let k1 ← key[4 * i + 1]?
  let k2 ← key[4 * i + 2]?
  let k3 ← key[4 * i + 3]?
  some ⟨← encWord s.s0 s.s1 s.s2 s.s3 k0, ← encWord s.s1 s.s2 s.s3 s.s0 k1,
    ← encWord s.s2 s.s3 s.s0 s.s1 k2, ← encWord s.s3 s.s0 s.s1 s.s2 k3⟩

/-- One word of `AES_DEC_ROUND`, `crypt_aes_tbox.c:786-795`. -/
def decWord (a b c d : BitVec 32) (k : BitVec 32) : Option (BitVec 32) := do
  some ((← look24 td0 a) ^^^ (← look td1 b 16) ^^^ (← look td2 c 8) ^^^ (← look td3 d 0) ^^^ k)

/-- `AES_DEC_ROUND`, `crypt_aes_tbox.c:786-795`. -/
def decRound (key : List (BitVec 32)) (i : Nat) (s : St) : Option St := do
  let k0 ← key[4 * i + 0]?
  let k1 ← key[4 * i + 1]?
  let k2 ← key[4 * i + 2]?
  let k3 ← key[4 * i + 3]?
  some ⟨← decWord s.s0 s.s3 s.s2 s.s1 k0, ← decWord s.s1 s.s0 s.s3 s.s2 k1,
    ← decWord s.s2 s.s1 s.s0 s.s3 k2, ← decWord s.s3 s.s2 s.s1 s.s0 k3⟩

/-- A sequence of rounds. -/
def runRounds (f : Nat → St → Option St) : List Nat → St → Option St
  | [], s => some s
  | i :: is, s => do runRounds f is (← f i s)

/-- `CRYPT_AES_EncryptTbox`, `crypt_aes_tbox.c:742-784`. -/
def encryptTbox (key : List (BitVec 32)) (rounds : Nat) (inp : List Byte) : Option (List Byte) := do
  let s ← loadSt inp
  let s ← addRoundKey s key 0
  let s ← runRounds (encRound key) [1, 2, 3, 4, 5, 6, 7, 8, 9] s
  let s ← runRounds (encRound key) (if rounds > 10 then [10, 11] else []) s
  let s ← runRounds (encRound key) (if rounds > 12 then [12, 13] else []) s
  let s : St := ⟨← tesearch s.s0 s.s1 s.s2 s.s3, ← tesearch s.s1 s.s2 s.s3 s.s0,
    ← tesearch s.s2 s.s3 s.s0 s.s1, ← tesearch s.s3 s.s0 s.s1 s.s2⟩
  let s ← addRoundKey s key rounds
  some (storeSt s)

/-- `CRYPT_AES_DecryptTbox`, `crypt_aes_tbox.c:797-843`. -/
def decryptTbox (key : List (BitVec 32)) (rounds : Nat) (inp : List Byte) : Option (List Byte) := do
  let s ← loadSt inp
  let s ← addRoundKey s key rounds
  let s ← runRounds (decRound key) (if rounds > 12 then [13, 12] else []) s
  let s ← runRounds (decRound key) (if rounds > 10 then [11, 10] else []) s
  let s ← runRounds (decRound key) [9, 8, 7, 6, 5, 4, 3, 2, 1] s
  let s : St := ⟨← invssearch s.s0 s.s1 s.s2 s.s3, ← invssearch s.s1 s.s2 s.s3 s.s0,
    ← invssearch s.s2 s.s3 s.s0 s.s1, ← invssearch s.s3 s.s0 s.s1 s.s2⟩
  let s ← addRoundKey s key 0
  some (storeSt s)

/-! ## Entry points -/

/-- Return codes and a distinct outcome for a read outside an array. -/
inductive Res (α : Type)
  | keyLen
  | ok (a : α)
  | oob
  deriving DecidableEq, Repr

/-- `SetEncryptKey128/192/256`, `crypt_aes.c:30-58` (`SetDecryptKey*` `:60-88`): the number of
rounds for a key of `nk` words. -/
def roundsOf : Nat → Nat
  | 4 => 10
  | 6 => 12
  | _ => 14

/-- `CRYPT_AES_SetEncryptKey128/192/256` and `CRYPT_AES_SetDecryptKey128/192/256`,
`crypt_aes_setkey.c:25-107`: `nk` (4, 6 or 8 words) names the function, `tbl` the build
configuration (`HITLS_CRYPTO_AES_PRECALC_TABLES`).  Both key directions use the same expansion in
the S-box build (`crypt_aes.c:66`, `:76`, `:86`). -/
def setKey (tbl isEncrypt : Bool) (nk : Nat) (key : List Byte) : Res (List (BitVec 32)) :=
  if key.length ≠ 4 * nk then .keyLen
  else match (if tbl then keyExpansionTbox nk (roundsOf nk) key isEncrypt
      else keyExpansionSbox nk (roundsOf nk) key) with
    | some ws => .ok ws
    | none => .oob

/-- `CRYPT_AES_Encrypt`, `crypt_aes.c:90-98`. -/
def encrypt (tbl : Bool) (ctx : List (BitVec 32)) (rounds : Nat) (inp : List Byte) : Option (List Byte) :=
  if tbl then encryptTbox ctx rounds inp else encryptSbox ctx rounds inp

/-- `CRYPT_AES_Decrypt`, `crypt_aes.c:100-108`. -/
def decrypt (tbl : Bool) (ctx : List (BitVec 32)) (rounds : Nat) (inp : List Byte) : Option (List Byte) :=
  if tbl then decryptTbox ctx rounds inp else decryptSbox ctx rounds inp

end Verif.Crypto.Aes
