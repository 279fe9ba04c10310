import Verif.Common.Bits
/-! Specification of textual IP addresses (RFC 4291 section 2.2, dotted decimal without leading zeros). -/
namespace Verif.Bsl.Ip.Spec
open Verif.Common

/-- The decimal digit `d`. -/
def digit (d : Nat) : Byte := BitVec.ofNat 8 (48 + d)

/-- Decimal form of a number below 1000, without leading zeros. -/
def dec (n : Nat) : List Byte :=
  if n < 10 then [digit n]
  else if n < 100 then [digit (n / 10), digit (n % 10)]
  else [digit (n / 100), digit (n / 10 % 10), digit (n % 10)]

/-- `s` is the dotted decimal form of the four bytes `out`. -/
def V4 (s out : List Byte) : Prop :=
  ∃ a b c d : Byte, out = [a, b, c, d] ∧
    s = dec a.toNat ++ 0x2e#8 :: (dec b.toNat ++ 0x2e#8 :: (dec c.toNat ++ 0x2e#8 :: dec d.toNat))

/-- A hexadecimal digit of either case. -/
def IsHex (c : Byte) : Prop :=
  (48 ≤ c.toNat ∧ c.toNat ≤ 57) ∨ (97 ≤ c.toNat ∧ c.toNat ≤ 102) ∨ (65 ≤ c.toNat ∧ c.toNat ≤ 70)

/-- Its value. -/
def hexVal (c : Byte) : Nat :=
  if c.toNat ≤ 57 then c.toNat - 48 else if c.toNat ≤ 70 then c.toNat - 55 else c.toNat - 87

/-- A group: one to four hexadecimal digits. -/
def IsGroup (g : List Byte) : Prop := g ≠ [] ∧ g.length ≤ 4 ∧ ∀ c ∈ g, IsHex c

/-- Value of a group. -/
def groupVal (g : List Byte) : Nat := g.foldl (fun n c => 16 * n + hexVal c) 0

/-- Strings separated by single colons. -/
def join : List (List Byte) → List Byte
  | [] => []
  | [g] => g
  | g :: g' :: gs => g ++ 0x3a#8 :: join (g' :: gs)

/-- A sequence of groups, the last of which may be a dotted decimal address counting as two groups, and
its 16-bit values. -/
def Items (ts : List (List Byte)) (vs : List Nat) : Prop :=
  ((∀ g ∈ ts, IsGroup g) ∧ vs = ts.map groupVal) ∨
  ∃ gs q, ∃ a b c d : Byte, ts = gs ++ [q] ∧ (∀ g ∈ gs, IsGroup g) ∧ V4 q [a, b, c, d] ∧
    vs = gs.map groupVal ++ [256 * a.toNat + b.toNat, 256 * c.toNat + d.toNat]

/-- The 16 bytes of eight 16-bit values. -/
def bytes (vs : List Nat) : List Byte :=
  vs.flatMap (fun v => [BitVec.ofNat 8 (v / 256), BitVec.ofNat 8 v])

/-- `s` is a textual IPv6 address for the bytes `out`: eight groups separated by colons, or groups to the
left and right of one `::` which stands for the missing groups, at least one, all zero. -/
def V6 (s out : List Byte) : Prop :=
  ∃ vs, out = bytes vs ∧
    ((∃ ts, s = join ts ∧ Items ts vs ∧ vs.length = 8) ∨
     ∃ l r vr, s = join l ++ 0x3a#8 :: 0x3a#8 :: join r ∧ (∀ g ∈ l, IsGroup g) ∧ Items r vr ∧
       l.length + vr.length ≤ 7 ∧
       vs = l.map groupVal ++ List.replicate (8 - (l.length + vr.length)) 0 ++ vr)

end Verif.Bsl.Ip.Spec
