import Verif.Common.Bits
import Verif.Common.Endian

/-! HOTP (RFC 4226 section 5.3) and the text of a code. -/
namespace Verif.Auth.Otp.Spec
open Verif.Common

/-- Dynamic truncation: the low four bits of the last byte say where four bytes are taken; 31 bits of them are kept. -/
def snum (hs : List Byte) : Nat :=
  let offset := (hs.getLastD 0).toNat % 16
  beVal ((hs.drop offset).take 4) % 2 ^ 31

/-- `HOTP(K, C) mod 10^Digit`, over the MAC `F`; the counter is eight bytes, the most significant first. -/
def hotp (F : List Byte → List Byte → List Byte) (K : List Byte) (C d : Nat) : Nat := snum (F K (beBytes 8 C)) % 10 ^ d

/-- The number a text of decimal digits denotes. -/
def value (s : List Byte) : Nat := s.foldl (fun n ch => 10 * n + (ch.toNat - 48)) 0

/-- `s` is the number `n` written with exactly `d` decimal digits. -/
def IsText (s : List Byte) (d n : Nat) : Prop := s.length = d ∧ (∀ ch ∈ s, 48 ≤ ch.toNat ∧ ch.toNat ≤ 57) ∧ value s = n

end Verif.Auth.Otp.Spec
