import Verif.Common.Bits
import Verif.Common.Endian

/-! Model of one-time passwords: /repo/auth/otp/src/otp.c and otp_util.c. Pointers are not NULL, allocations and MAC calls succeed. The
MAC is a parameter: the code calls it through `ctx->method.hmac`. A counter or a time is the 64-bit value read from the parameter. -/
namespace Verif.Auth.Otp
open Verif.Common

/-- The hash algorithms of `GenericOtpGen`, otp.c:87-100. -/
inductive Hash
  | sha1 | sha256 | sha512
  deriving DecidableEq

/-- `OTP_HmacSize`, otp.c:70-74. -/
def Hash.size : Hash → Nat
  | .sha1 => 20
  | .sha256 => 32
  | .sha512 => 64

/-- `struct Otp_Ctx` and `TotpCtx`, otp.h; `start` is the start offset after the cast to `uint64_t`. -/
structure Ctx where
  totp : Bool
  key : Option (List Byte)
  digits : Nat
  hash : Hash
  step : Nat
  start : Nat
  window : Nat
  deriving DecidableEq

/-- What a call returns: a value, an error, a mismatch, or a read outside the code of the MAC. -/
inductive Res (α : Type)
  | ok (a : α)
  | err
  | mismatch
  | fault
  deriving DecidableEq

/-- `HITLS_AUTH_ProviderOtpNewCtx`, otp_util.c:248-290, with `OtpNewTotpCtx`, :232-242. -/
def newCtx (totp : Bool) : Ctx := { totp := totp, key := none, digits := 6, hash := .sha1, step := 30, start := 0, window := 1 }

/-- The calls that change a context. -/
inductive Cmd
  | init (key : List Byte)
  | digits (n : Nat)
  | hash (h : Hash)
  | step (n : Nat)
  | start (n : Nat)
  | window (n : Nat)

/-- `HITLS_AUTH_OtpInit`, otp.c:31-68, with a given key, and `HITLS_AUTH_OtpCtxCtrl`, otp_util.c:194-212, with `OtpSetCtxContent`,
:24-118. A refused call leaves the context as it was. Only the three known hash identifiers are representable. -/
def Ctx.set (c : Ctx) : Cmd → Ctx
  | .init key => if key.length < 16 then c else { c with key := some key }
  | .digits n => if n < 6 ∨ n > 8 then c else { c with digits := n }
  | .hash h => { c with hash := h }
  | .step n => if c.totp = false then c else if n = 0 then c else { c with step := n }
  | .start n => if c.totp = false then c else { c with start := n % 2 ^ 64 }
  | .window n => if c.totp = false then c else if n > 10 then c else { c with window := n }

/-- The counter as bytes, otp.c:79-82: byte number `7 - i` is `movingFactor >> (8 * i)`. -/
def counter (mf : Nat) : List Byte := (List.range 8).map fun j => BitVec.ofNat 8 ((mf >>> (8 * (7 - j))) &&& 0xFF)

/-- Dynamic truncation, otp.c:109-110; `none` is a read outside the `hmacLen` bytes. -/
def truncate (hmac : List Byte) : Option Nat :=
  match hmac.getLast? with
  | none => none
  | some b =>
    let offset := (b &&& 0x0F).toNat
    if hmac.length < offset + 4 then none
    else some (beVal ((hmac.drop offset).take 4) &&& 0x7FFFFFFF)

/-- The loop of otp.c:113-115, `k` rounds to go; `acc` is what has been written so far, from the right. `div` and `mod` are 32-bit. -/
def digitsLoop (bin : Nat) : Nat → Nat → Nat → List Byte → List Byte
  | 0, _, _, acc => acc
  | k + 1, div, mod, acc => digitsLoop bin k (div * 10 % 2 ^ 32) (mod * 10 % 2 ^ 32) (BitVec.ofNat 8 (48 + bin % div / mod) :: acc)

variable (F : Hash → List Byte → List Byte → List Byte)

/-- `GenericOtpGen`, otp.c:76-120. -/
def generic (c : Ctx) (mf : Nat) : Res (List Byte) :=
  match c.key with
  | none => .err
  | some key =>
    match truncate (F c.hash key (counter mf)) with
    | none => .fault
    | some bin => .ok (digitsLoop bin c.digits 10 1 [])

/-- `TotpGen`, otp.c:145-176: the code and the moving factor. The offset is added in 64-bit arithmetic. -/
def totpGen (c : Ctx) (now : Nat) (offset : Int) : Res (List Byte × Nat) :=
  if now < c.start then .err
  else
    let mf := ((((now - c.start) / c.step : Nat) + offset : Int) % 2 ^ 64).toNat
    match generic F c mf with
    | .ok s => .ok (s, mf)
    | .err => .err
    | .mismatch => .mismatch
    | .fault => .fault

/-- `HITLS_AUTH_OtpGen`, otp.c:178-199, with `HotpGen`, :122-143; `value` is the counter or the time, `cap` the size of the buffer. -/
def gen (c : Ctx) (value cap : Nat) : Res (List Byte) :=
  if c.key = none then .err
  else if cap < c.digits then .err
  else if c.totp then
    match totpGen F c value 0 with
    | .ok r => .ok r.1
    | .err => .err
    | .mismatch => .mismatch
    | .fault => .fault
  else generic F c value

/-- The loop of `TotpValidate`, otp.c:237-252; `k` rounds to go. -/
def validateLoop (c : Ctx) (now : Nat) (otp : List Byte) : Nat → Int → Res Nat
  | 0, _ => .mismatch
  | k + 1, offset =>
    match totpGen F c now offset with
    | .ok r => if r.1.take otp.length = otp then .ok r.2 else validateLoop c now otp k (offset + 1)
    | .err => .err
    | .mismatch => .mismatch
    | .fault => .fault

/-- `HITLS_AUTH_OtpValidate`, otp.c:259-281, with `HotpValidate`, :201-224, and `TotpValidate`, :226-257; the result is `*matched`. -/
def validate (c : Ctx) (value : Nat) (otp : List Byte) : Res Nat :=
  if c.key = none ∨ otp.length = 0 then .err
  else if otp.length ≠ c.digits then .mismatch
  else if c.totp then validateLoop F c value otp (2 * c.window + 1) (-(c.window : Int))
  else
    match generic F c value with
    | .ok s => if s.take otp.length = otp then .ok value else .mismatch
    | .err => .err
    | .mismatch => .mismatch
    | .fault => .fault

end Verif.Auth.Otp
