import Verif.Crypto.Mac.Model
import Verif.Crypto.Md.Props

/-! # HMAC: the hash interface, its instances, and the context invariant -/

namespace Verif.Crypto.Mac

open Verif.Common

/-- A hash object behaves like the function `H`: whatever was hashed in pieces, `final` gives `H` of the
whole.  Nothing is assumed about a context after `final`. -/
structure Lawful (m : Md) (H : List Byte → List Byte) (Abs : m.C → List Byte → Prop) : Prop where
  init : Abs m.init []
  update : ∀ c P d, Abs c P → d.length < 2 ^ 32 → P.length + d.length < 2 ^ 61 →
    (m.update c d).2 = true ∧ Abs (m.update c d).1 (P ++ d)
  final : ∀ c P cap, Abs c P → P.length < 2 ^ 61 → m.mdSize ≤ cap → (m.final c cap).2 = some (H P)
  copy : ∀ c P, Abs c P → Abs (m.copy c) P
  hlen : ∀ P, (H P).length = m.mdSize
  sizes : m.mdSize ≤ m.blockSize ∧ m.blockSize ≤ maxBlock ∧ m.mdSize ≤ maxOut

/-! ## Every Merkle–Damgård hash of the library is such an object -/

section
open Verif.Crypto.Md

/-- The method table of a hash (`EAL_MdMethod`) made from its update and final functions.  Where those
give `none` (memory error) the table reports failure; the law below shows it never happens. -/
def ofStream (B outLen : Nat) (upd : Ctx σ W → List Byte → Option (Ctx σ W × Except Err Unit))
    (fin : Nat → Ctx σ W → Option (Except Err (List Byte))) (c0 : Ctx σ W) : Mac.Md where
  C := Ctx σ W
  blockSize := B
  mdSize := outLen
  init := c0
  update c d := match upd c d with
    | some (c', .ok ()) => (c', true)
    | some (c', .error _) => (c', false)
    | none => (c, false)
  final c cap := (c0, match fin cap c with
    | some (.ok t) => some t
    | _ => none)
  copy c := c
  zero := c0

theorem updateAll_snoc (upd : Ctx σ W → List Byte → Option (Ctx σ W × Except Err Unit)) (xs : List (List Byte))
    (d : List Byte) (c0 c : Ctx σ W) (h : updateAll upd c0 xs = some (c, .ok ())) :
    updateAll upd c0 (xs ++ [d]) = upd c d := by
  induction xs generalizing c0 with
  | nil =>
    simp only [updateAll, Option.some.injEq, Prod.mk.injEq, and_true] at h
    subst h
    show updateAll upd c0 [d] = _
    unfold updateAll updateAll
    rcases upd c0 d with _ | ⟨c', _ | _⟩ <;> rfl
  | cons x xs ih =>
    rw [List.cons_append]
    unfold updateAll at h ⊢
    rcases hu : upd c0 x with _ | ⟨c', _ | _⟩ <;> rw [hu] at h
    · simp at h
    · simp at h
    · exact ih c' h

theorem ofStream_lawful (B outLen limit : Nat) (upd : Ctx σ W → List Byte → Option (Ctx σ W × Except Err Unit))
    (fin : Nat → Ctx σ W → Option (Except Err (List Byte))) (c0 : Ctx σ W) (H : List Byte → List Byte)
    (hs : Md.Spec.Streams upd fin c0 outLen limit H) (hlim : 64 ≤ limit) (hlen : ∀ P, (H P).length = outLen)
    (hsz : outLen ≤ B ∧ B ≤ maxBlock ∧ outLen ≤ maxOut) :
    Lawful (ofStream B outLen upd fin c0) H (fun c P => ∃ xs : List (List Byte), (∀ x ∈ xs, x.length < 2 ^ 32) ∧
      xs.flatten = P ∧ updateAll upd c0 xs = some (c, .ok ())) := by
  have hp : 2 ^ 64 ≤ 2 ^ limit := Nat.pow_le_pow_right (by omega) hlim
  refine ⟨⟨[], by simp, rfl, rfl⟩, ?_, ?_, fun c P h => h, hlen, hsz⟩
  · rintro c P d ⟨xs, hx, rfl, e⟩ hd ht
    have hx' : ∀ x ∈ xs ++ [d], x.length < 2 ^ 32 := by
      intro x hm
      rcases List.mem_append.mp hm with hm | hm
      · exact hx x hm
      · rw [List.mem_singleton.mp hm]; exact hd
    have hf : (xs ++ [d]).flatten = xs.flatten ++ d := by simp
    obtain ⟨c', e', -⟩ := (hs (xs ++ [d]) hx').1 (by rw [hf, List.length_append]; omega)
    have e2 := updateAll_snoc upd xs d c0 c e
    have hu : upd c d = some (c', .ok ()) := by rw [← e2, e']
    have hm : (ofStream B outLen upd fin c0).update c d = (c', true) := by
      show (match upd c d with
        | some (c', .ok ()) => (c', true)
        | some (c', .error _) => (c', false)
        | none => (c, false)) = _
      rw [hu]
    rw [hm]
    exact ⟨rfl, xs ++ [d], hx', hf, e'⟩
  · rintro c P cap ⟨xs, hx, rfl, e⟩ hP hcap
    obtain ⟨c', e', hfin, -⟩ := (hs xs hx).1 (by omega)
    have : c' = c := (congrArg Prod.fst (Option.some.inj (e.symm.trans e'))).symm
    subst this
    show (match fin cap c' with
      | some (.ok t) => some t
      | _ => none) = _
    rw [hfin cap hcap]

end

/-! ## The pads -/

/-- The block-long key of RFC 2104: hashed when too long, then padded with zeros. -/
def blockKey (H : List Byte → List Byte) (B : Nat) (key : List Byte) : List Byte :=
  let k := if B < key.length then H key else key
  k ++ List.replicate (B - k.length) 0#8

/-- `K ⊕ pad`. -/
def xorPad (b : Byte) (k : List Byte) : List Byte := k.map (b ^^^ ·)

theorem blockKey_length (m : Md) (H Abs) (hm : Lawful m H Abs) (key : List Byte) :
    (blockKey H m.blockSize key).length = m.blockSize := by
  have := hm.sizes
  have hl := hm.hlen key
  unfold blockKey
  by_cases h : m.blockSize < key.length
  · rw [if_pos h]; dsimp only; rw [List.length_append, List.length_replicate]; omega
  · rw [if_neg h]; dsimp only; rw [List.length_append, List.length_replicate]; omega

theorem hashKey_spec (m : Md) (H Abs) (hm : Lawful m H Abs) (key : List Byte) (hk : key.length < 2 ^ 32) :
    hashKey m key = some (if m.blockSize < key.length then H key else key) := by
  unfold hashKey
  by_cases h : m.blockSize < key.length
  · rw [if_pos h, if_pos h]
    obtain ⟨h1, h2⟩ := hm.update m.init [] key hm.init hk (by rw [List.length_nil]; omega)
    dsimp only
    rw [h1, if_pos rfl, hm.final _ _ maxBlock h2 (by rw [List.nil_append]; omega)
      (Nat.le_trans hm.sizes.1 hm.sizes.2.1), Option.map_some, List.nil_append]
    rw [List.take_of_length_le (Nat.le_of_eq (hm.hlen key))]
  · rw [if_neg h, if_neg h]

theorem mkPad_spec (m : Md) (H Abs) (hm : Lawful m H Abs) (b : Byte) (key : List Byte) :
    mkPad m b (if m.blockSize < key.length then H key else key) =
      some (xorPad b (blockKey H m.blockSize key)) := by
  have hs := hm.sizes
  have hl := hm.hlen key
  have hk : (if m.blockSize < key.length then H key else key).length ≤ m.blockSize := by
    split <;> omega
  unfold mkPad
  rw [if_pos ⟨Nat.le_trans hk hs.2.1, hs.2.1⟩]
  simp [xorPad, blockKey]

/-- Between `init` and `final`: the three hash contexts of a session keyed with `key` that has seen `P`. -/
structure HInv (m : Md) (H : List Byte → List Byte) (Abs : m.C → List Byte → Prop) (h : HCtx m)
    (key P : List Byte) : Prop where
  md : Abs h.md (xorPad 0x36#8 (blockKey H m.blockSize key) ++ P)
  i : Abs h.i (xorPad 0x36#8 (blockKey H m.blockSize key))
  o : Abs h.o (xorPad 0x5c#8 (blockKey H m.blockSize key))

/-- After `final`: only the keyed states matter. -/
structure Keyed (m : Md) (H : List Byte → List Byte) (Abs : m.C → List Byte → Prop) (h : HCtx m)
    (key : List Byte) : Prop where
  i : Abs h.i (xorPad 0x36#8 (blockKey H m.blockSize key))
  o : Abs h.o (xorPad 0x5c#8 (blockKey H m.blockSize key))

/-- RFC 2104. -/
def hmacOf (H : List Byte → List Byte) (B : Nat) (key msg : List Byte) : List Byte :=
  H (xorPad 0x5c#8 (blockKey H B key) ++ H (xorPad 0x36#8 (blockKey H B key) ++ msg))

theorem xorPad_length (b : Byte) (k : List Byte) : (xorPad b k).length = k.length := by simp [xorPad]

theorem hmacInit_spec (m : Md) (H Abs) (hm : Lawful m H Abs) (key : List Byte) (hk : key.length < 2 ^ 32) :
    ∃ h, hmacInit m key = some (h, true) ∧ HInv m H Abs h key [] := by
  have hs := hm.sizes
  have h144 : maxBlock = 144 := rfl
  have hl : ∀ b, (xorPad b (blockKey H m.blockSize key)).length = m.blockSize := fun b => by
    rw [xorPad_length, blockKey_length m H Abs hm]
  have ht : ∀ b, (xorPad b (blockKey H m.blockSize key)).take m.blockSize =
      xorPad b (blockKey H m.blockSize key) := fun b => List.take_of_length_le (Nat.le_of_eq (hl b))
  have hu : ∀ b, _ := fun b => hm.update m.init [] (xorPad b (blockKey H m.blockSize key)) hm.init
    (by rw [hl]; omega) (by rw [hl, List.length_nil]; omega)
  unfold hmacInit
  rw [hashKey_spec m H Abs hm key hk]
  dsimp only
  rw [mkPad_spec m H Abs hm, mkPad_spec m H Abs hm]
  dsimp only
  rw [ht, ht, (hu _).1, (hu _).1]
  refine ⟨_, rfl, ?_, ?_, ?_⟩
  · rw [List.append_nil]; exact hm.copy _ _ (hu 0x36#8).2
  · exact (hu 0x36#8).2
  · exact (hu 0x5c#8).2

theorem hmacUpdate_spec (m : Md) (H Abs) (hm : Lawful m H Abs) (h : HCtx m) (key P d : List Byte)
    (hi : HInv m H Abs h key P) (hd : d.length < 2 ^ 32) (hP : P.length + d.length < 2 ^ 60) :
    (hmacUpdate m h d).2 = true ∧ HInv m H Abs (hmacUpdate m h d).1 key (P ++ d) := by
  have hs := hm.sizes
  have h144 : maxBlock = 144 := rfl
  obtain ⟨h1, h2⟩ := hm.update _ _ d hi.md hd (by
    rw [List.length_append, xorPad_length, blockKey_length m H Abs hm]; omega)
  rw [List.append_assoc] at h2
  exact ⟨h1, h2, hi.i, hi.o⟩

theorem hmacFinal_spec (m : Md) (H Abs) (hm : Lawful m H Abs) (h : HCtx m) (key P : List Byte) (cap : Nat)
    (hi : HInv m H Abs h key P) (hP : P.length < 2 ^ 60) (hcap : m.mdSize ≤ cap) :
    (hmacFinal m h cap).2 = some (hmacOf H m.blockSize key P) ∧ Keyed m H Abs (hmacFinal m h cap).1 key := by
  have hs := hm.sizes
  have h144 : maxBlock = 144 := rfl
  have h64 : maxOut = 64 := rfl
  have hf := hm.final _ _ maxOut hi.md (by
    rw [List.length_append, xorPad_length, blockKey_length m H Abs hm]; omega) hs.2.2
  obtain ⟨h1, h2⟩ := hm.update (m.copy h.o) _
    (H (xorPad 0x36#8 (blockKey H m.blockSize key) ++ P)) (hm.copy _ _ hi.o) (by rw [hm.hlen]; omega) (by
    rw [xorPad_length, blockKey_length m H Abs hm, hm.hlen]; omega)
  have hg := hm.final _ _ m.mdSize h2 (by
    rw [List.length_append, xorPad_length, blockKey_length m H Abs hm, hm.hlen]; omega) (Nat.le_refl _)
  unfold hmacFinal
  rw [if_neg (by omega)]
  dsimp only
  rw [hf]
  dsimp only
  rw [h1, if_pos rfl]
  exact ⟨hg, hi.i, hi.o⟩

theorem hmacReinit_spec (m : Md) (H Abs) (hm : Lawful m H Abs) (h : HCtx m) (key : List Byte)
    (hi : Keyed m H Abs h key) : HInv m H Abs (hmacReinit m h) key [] := by
  refine ⟨?_, hi.i, hi.o⟩
  rw [List.append_nil]
  exact hm.copy _ _ hi.i

theorem hmacDup_spec (m : Md) (H Abs) (hm : Lawful m H Abs) (h : HCtx m) (key P : List Byte)
    (hi : HInv m H Abs h key P) : HInv m H Abs (hmacDup m h) key P :=
  ⟨hm.copy _ _ hi.md, hm.copy _ _ hi.i, hm.copy _ _ hi.o⟩

theorem hmacDup_keyed (m : Md) (H Abs) (hm : Lawful m H Abs) (h : HCtx m) (key : List Byte)
    (hi : Keyed m H Abs h key) : Keyed m H Abs (hmacDup m h) key :=
  ⟨hm.copy _ _ hi.i, hm.copy _ _ hi.o⟩

theorem HInv.keyed {m : Md} {H Abs} {h : HCtx m} {key P : List Byte} (hi : HInv m H Abs h key P) :
    Keyed m H Abs h key := ⟨hi.i, hi.o⟩

end Verif.Crypto.Mac
