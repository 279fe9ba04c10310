import Verif.Crypto.Hbs.Model

/-!
# What WOTS+, Merkle trees and FORS compute (RFC 8391, FIPS 205)

Written with explicit addresses `⟨layer, tree, type, w1, w2, w3, w4⟩` and without any of the
helpers of the model besides early return.
-/

namespace Verif.Crypto.Hbs

open Verif.Common

/-- The hash functions return `n` bytes. -/
structure LenOk (n : Nat) (H : Hash) : Prop where
  sk : ∀ a x, H.skDerive a = .ok x → x.length = n
  ch : ∀ a b x, b.length = n → H.chainHash a b = .ok x → x.length = n
  nd : ∀ a b x, H.nodeHash a b = .ok x → x.length = n
  pk : ∀ a b x, H.pkCompress a b = .ok x → x.length = n

/-- The number a byte string stands for, most significant byte first. -/
def beNat (xs : List Byte) : Nat := xs.foldl (fun a x => a * 256 + x.toNat) 0

/-- Digits of a byte string in base 16, most significant first. -/
def nibbles : List Byte → List Nat
  | [] => []
  | x :: xs => x.toNat / 16 :: x.toNat % 16 :: nibbles xs

namespace Spec

/-- Some call of one of the hash functions fails with `c`. -/
def Raises (H : Hash) (c : Nat) : Prop :=
  (∃ a, H.skDerive a = .error c) ∨ (∃ a x, H.chainHash a x = .error c) ∨ (∃ a x, H.nodeHash a x = .error c) ∨
  (∃ a x, H.pkCompress a x = .error c) ∨ (∃ r m i, H.msgHash r m i = .error c)

/-- `f` on each element, in order, up to the first failure. -/
def mapE {α β : Type} (f : α → Except Err β) : List α → Except Err (List β)
  | [] => .ok []
  | x :: xs => bindE (f x) fun y => bindE (mapE f xs) fun ys => .ok (y :: ys)

/-- Value number `k` of chain `i` of the WOTS+ key pair `kp` of the tree `T` of layer `L`; value 0 is
the secret element. -/
def link (t : Tree) (L T kp i : Nat) : Nat → Except Err Blk
  | 0 => liftH (t.H.skDerive ⟨L, T, if t.xmss then 0 else 5, kp, i, 0, 0⟩)
  | k + 1 => bindE (link t L T kp i k) fun x => liftH (t.H.chainHash ⟨L, T, 0, kp, i, k, 0⟩ x)

/-- WOTS+ public key: the compressed ends of all chains. -/
def wotsPk (t : Tree) (L T kp : Nat) : Except Err Blk :=
  bindE (mapE (fun i => link t L T kp i 15) (List.range t.otsLen)) fun ends =>
  liftH (t.H.pkCompress ⟨L, T, 1, kp, 0, 0, 0⟩ ends.flatten)

/-- Node `i` of height `h`: leaves are WOTS+ public keys. RFC 8391 counts the height of the children,
FIPS 205 the height of the node. -/
def node (t : Tree) (L T : Nat) : Nat → Nat → Except Err Blk
  | 0, i => wotsPk t L T i
  | h + 1, i =>
    bindE (node t L T h (2 * i)) fun l =>
    bindE (node t L T h (2 * i + 1)) fun r =>
    liftH (t.H.nodeHash ⟨L, T, 2, 0, if t.xmss then h else h + 1, i, 0⟩ (l ++ r))

/-- Node `i` of height `h` of the FORS trees of the key pair `kp` of the tree `T`. -/
def forsNode (H : Hash) (T kp : Nat) : Nat → Nat → Except Err Blk
  | 0, i => bindE (liftH (H.skDerive ⟨0, T, 6, kp, 0, i, 0⟩)) fun sk => liftH (H.chainHash ⟨0, T, 3, kp, 0, i, 0⟩ sk)
  | h + 1, i =>
    bindE (forsNode H T kp h (2 * i)) fun l =>
    bindE (forsNode H T kp h (2 * i + 1)) fun r =>
    liftH (H.nodeHash ⟨0, T, 3, kp, h + 1, i, 0⟩ (l ++ r))

/-- FORS public key: the compressed roots of all trees. -/
def forsPk (p : SlhParams) (H : Hash) (T kp : Nat) : Except Err Blk :=
  bindE (mapE (fun i => forsNode H T kp p.a i) (List.range p.k)) fun roots =>
  liftH (H.pkCompress ⟨0, T, 4, kp, 0, 0, 0⟩ roots.flatten)

end Spec
end Verif.Crypto.Hbs
