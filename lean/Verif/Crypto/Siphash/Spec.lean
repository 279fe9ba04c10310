import Verif.Crypto.Siphash.Model
import Mathlib.Logic.Function.Iterate

/-! Specification of SipHash-c-d with results of 64 and 128 bits (Aumasson, Bernstein: SipHash: a fast short-input PRF, 2.1 to 2.4). -/
namespace Verif.Crypto.Siphash.Spec
open Verif.Common

/-- The number a string of bytes stands for, the first byte lowest. -/
def word (b : List Byte) : BitVec 64 := BitVec.ofNat 64 (leVal b)

/-- SipRound, figure 2.1: the two halves side by side. -/
def round (s : St) : St :=
  let a0 := s.v0 + s.v1
  let a2 := s.v2 + s.v3
  let a1 := s.v1.rotateLeft 13 ^^^ a0
  let a3 := s.v3.rotateLeft 16 ^^^ a2
  let b0 := a0.rotateLeft 32 + a3
  let b2 := a2 + a1
  ⟨b0, a1.rotateLeft 17 ^^^ b2, b2.rotateLeft 32, a3.rotateLeft 21 ^^^ b0⟩

/-- Initialization; `long` for the result of 128 bits. -/
def start (key : List Byte) (long : Bool) : St :=
  let k0 := word (key.take 8)
  let k1 := word (key.drop 8)
  ⟨k0 ^^^ 0x736f6d6570736575, k1 ^^^ 0x646f72616e646f6d ^^^ (if long then 0xee else 0), k0 ^^^ 0x6c7967656e657261, k1 ^^^ 0x7465646279746573⟩

/-- Compression of one word. -/
def compress (c : Nat) (s : St) (m : BitVec 64) : St :=
  let t := round^[c] ⟨s.v0, s.v1, s.v2, s.v3 ^^^ m⟩
  ⟨t.v0 ^^^ m, t.v1, t.v2, t.v3⟩

/-- Finalization. -/
def finish (d : Nat) (long : Bool) (s : St) : List Byte :=
  let out (s : St) : List Byte := leBytes 8 (s.v0 ^^^ s.v1 ^^^ s.v2 ^^^ s.v3).toNat
  let s := round^[d] ⟨s.v0, s.v1, s.v2 ^^^ (if long then 0xee else 0xff), s.v3⟩
  if long then out s ++ out (round^[d] ⟨s.v0, s.v1 ^^^ 0xdd, s.v2, s.v3⟩) else out s

/-- The message with zeros and its length modulo 256 behind it, a multiple of 8 bytes. -/
def pad (m : List Byte) : List Byte := m ++ List.replicate (7 - m.length % 8) 0 ++ [BitVec.ofNat 8 m.length]

/-- `t` is the SipHash-c-d of `m`. -/
def IsSip (c d : Nat) (long : Bool) (key m t : List Byte) : Prop :=
  ∃ ws : List (List Byte), (∀ w ∈ ws, w.length = 8) ∧ pad m = ws.flatten ∧ t = finish d long (ws.foldl (fun s w => compress c s (word w)) (start key long))

end Verif.Crypto.Siphash.Spec
