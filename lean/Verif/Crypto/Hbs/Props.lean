import Verif.Crypto.Hbs.Proof4

/-!
# C60: hash-based signatures verify

For every hash family that returns `n` bytes or fails, every message, randomiser, index and
parameter set: what the signing functions return is accepted by the verification functions under the
root computed by key generation, signing fails only when a hash function fails, trees and FORS
compute the nodes of RFC 8391 and FIPS 205, and no WOTS+ signature can be advanced to another message.
-/

namespace Verif.Crypto.Hbs

open Verif.Common

/-- A hash family for the examples: never fails, depends on every input. -/
def toy (n : Nat) : Hash where
  skDerive a := .ok (List.replicate n (BitVec.ofNat 8 (7 * a.layer + 11 * a.tree + 3 * a.type + 5 * a.w1 + 13 * a.w2 + 17 * a.w3 + 1)))
  chainHash a x := .ok (List.replicate n (BitVec.ofNat 8 ((37 * beNat x + 3 * a.w2 + a.w3 * a.w3 + 9 * a.w1 + 77) % 251)))
  nodeHash a x := .ok (List.replicate n (BitVec.ofNat 8 ((5 * beNat x + 3 * a.w2 + 19 * a.w3 + a.layer) % 251)))
  pkCompress a x := .ok (List.replicate n (BitVec.ofNat 8 ((x.foldl (fun s b => 3 * s + b.toNat) a.w1) % 251)))
  msgHash r m i := .ok (List.replicate n (BitVec.ofNat 8 (beNat r + beNat m + 3 * i)))

theorem toy_len (n : Nat) : LenOk n (toy n) where
  sk := by intro a x h; simp only [toy, Except.ok.injEq] at h; simp [← h]
  ch := by intro a b x _ h; simp only [toy, Except.ok.injEq] at h; simp [← h]
  nd := by intro a b x h; simp only [toy, Except.ok.injEq] at h; simp [← h]
  pk := by intro a b x h; simp only [toy, Except.ok.injEq] at h; simp [← h]

/-- Both a signature and a root exist, `good` accepts and `bad` rejects. -/
def demo (s : Except Err (List Byte)) (r : Except Err Blk) (good bad : Blk → List Byte → Except Err Unit) : Bool :=
  match s, r with
  | .ok s, .ok r => decide (good r s = .ok ()) && decide (bad r s = .error .mismatch)
  | _, _ => false

/-! ## WOTS+ -/

/-- The public key recovered from a WOTS+ signature is the public key of the key pair, for every
message of (at least) `n` bytes. -/
theorem wots_signature_gives_the_public_key (t : Tree) (hl : LenOk t.n t.H) (msg : List Byte)
    (hm : t.n ≤ msg.length) (a : Adrs) (ws : List Blk) (pk : Blk)
    (h1 : wotsSign t msg a = .ok ws) (h2 : wotsPk t a = .ok pk) :
    ws.flatten.length = t.otsLen * t.n ∧ wotsPkFromSig t msg ws.flatten a = .ok pk := by
  obtain ⟨l1, l2, l3⟩ := wots_roundtrip t hl msg hm a ws pk h1 h2 []
  rw [List.append_nil] at l3
  exact ⟨by rw [flatten_len ws l2, l1], l3⟩

example : ∃ ws pk, wotsSign ⟨2, 2, 1, 7, true, toy 2⟩ [0xA3#8, 0x0F#8] Adrs.zero = .ok ws ∧
    wotsPk ⟨2, 2, 1, 7, true, toy 2⟩ Adrs.zero = .ok pk ∧ ws.length = 7 := by
  refine ⟨_, _, rfl, rfl, ?_⟩
  decide +kernel

/-- The digits signed for a message of `n` bytes: its base 16 digits followed by three base 16 digits
of the sum of their complements. Never undefined. -/
theorem wots_digits (n : Nat) (hn : n ≤ 64) (msg : List Byte) (hm : msg.length = n) :
    ∃ ds c, msgToBaseW n msg = .ok ds ∧ c = ((nibbles msg).map fun d => 15 - d).sum ∧
      ds = nibbles msg ++ [c / 256, c / 16 % 16, c % 16] ∧ ds.length = 2 * n + 3 ∧ (∀ d ∈ ds, d ≤ 15) ∧
      c < 4096 := by
  have h := msgToBaseW_eq n msg hm (by omega)
  refine ⟨_, _, h, rfl, rfl, (msgToBaseW_le n msg _ h (by omega)).1, (msgToBaseW_le n msg _ h (by omega)).2, ?_⟩
  have := csum_le (nibbles msg)
  rw [length_nibbles] at this
  show csum (nibbles msg) < 4096
  omega

example : msgToBaseW 2 [0xA3#8, 0x0F#8] = .ok [10, 3, 0, 15, 0, 2, 0] := by decide +kernel

/-- For two different messages, at least one chain of the second lies before that chain of the
first: a signature of one cannot be turned into a signature of the other by walking chains forward. -/
theorem wots_signature_cannot_be_advanced (n : Nat) (hn : n ≤ 64) (m m' : List Byte)
    (hm : m.length = n) (hm' : m'.length = n) (hne : m ≠ m') (ds ds' : List Nat)
    (h : msgToBaseW n m = .ok ds) (h' : msgToBaseW n m' = .ok ds') :
    ∃ (i x y : Nat), ds[i]? = some x ∧ ds'[i]? = some y ∧ y < x := by
  refine Classical.byContradiction fun hc => hne (wots_antichain n hn m m' hm hm' ds ds' h h' ?_)
  intro i x y hx hy
  refine Classical.byContradiction fun hlt => hc ⟨i, x, y, hx, hy, by omega⟩

example : ∃ ds ds', msgToBaseW 1 [0x12#8] = .ok ds ∧ msgToBaseW 1 [0x13#8] = .ok ds' :=
  ⟨_, _, rfl, rfl⟩

/-! ## Trees -/

/-- The root of the tree `T` of layer `L` is the root of RFC 8391 and FIPS 205. -/
theorem root_is_the_standard_root (t : Tree) (hhp : t.hp ≤ 32) (ho : t.otsLen ≤ 2 ^ 32)
    (L T : Nat) (hL : L < 2 ^ 32) (hT : T < 2 ^ 64) :
    treeRoot t ((Adrs.zero.setLayer L).setTree T) = Spec.node t L T t.hp 0 :=
  treeRoot_spec t hhp ho L T hL hT

/-- A tree signature consists of one value of each chain of the leaf's key pair, selected by the
digits of the message, and of the siblings of the path from the leaf to the root. -/
theorem tree_signature_contents (t : Tree) (hl : LenOk t.n t.H) (hhp : t.hp ≤ 32) (ho : t.otsLen ≤ 2 ^ 32)
    (L T : Nat) (hL : L < 2 ^ 32) (hT : T < 2 ^ 64) (msg : List Byte) (hm : t.n ≤ msg.length)
    (idx : Nat) (hidx : idx < 2 ^ t.hp) (sig : List Byte) (root : Blk)
    (h : treeSign t msg idx ((Adrs.zero.setLayer L).setTree T) = .ok (sig, root)) :
    ∃ (ds : List Nat) (ws auth : List Blk), msgToBaseW t.n msg = .ok ds ∧
      Spec.mapE (fun c => Spec.link t L T idx c.2 c.1) ds.zipIdx = .ok ws ∧
      auth.length = t.hp ∧
      (∀ (j : Nat) x, auth[j]? = some x → Spec.node t L T j ((idx / 2 ^ j) ^^^ 1) = .ok x) ∧
      Spec.node t L T t.hp 0 = .ok root ∧ sig = ws.flatten ++ auth.flatten :=
  treeSign_contents t hl hhp ho L T hL hT msg hm idx hidx sig root h

/-- A tree signature leads back to the root of the tree, the same for all messages and all leaves. -/
theorem tree_signature_gives_the_root (t : Tree) (hl : LenOk t.n t.H) (hhp : t.hp ≤ 32) (msg : List Byte)
    (hm : t.n ≤ msg.length) (idx : Nat) (hidx : idx < 2 ^ t.hp) (a : Adrs) (sig : List Byte) (root : Blk)
    (h : treeSign t msg idx a = .ok (sig, root)) :
    treeRoot t a = .ok root ∧ sig.length = (t.otsLen + t.hp) * t.n ∧
    ∃ b, treeVerify t msg sig idx a = .ok (root, b) := by
  obtain ⟨h1, h2, _, h4⟩ := tree_roundtrip t hl hhp msg hm idx hidx a sig root h
  exact ⟨h1, h2, h4⟩

example : ∃ sig root, treeSign ⟨2, 2, 1, 7, true, toy 2⟩ [0xA3#8, 0x0F#8] 2 ((Adrs.zero.setLayer 1).setTree 5) = .ok (sig, root) ∧
    treeSign ⟨2, 2, 1, 7, true, toy 2⟩ [0x00#8, 0x77#8] 3 ((Adrs.zero.setLayer 1).setTree 5) ≠ .ok (sig, root) :=
  ⟨_, _, rfl, by decide +kernel⟩

/-- A hypertree signature verifies under the root of the top layer, for every position of the bottom
layer. -/
theorem hypertree_signature_verifies (t : Tree) (hl : LenOk t.n t.H) (hhp : t.hp ≤ 32) (hd : 1 ≤ t.d)
    (msg : List Byte) (tree leaf room : Nat) (hleaf : leaf < 2 ^ t.hp) (htree : tree < 2 ^ (t.hp * (t.d - 1)))
    (sig : List Byte) (root : Blk) (h : hyperSign t msg tree leaf room = .ok sig)
    (hr : treeRoot t (Adrs.zero.setLayer (t.d - 1)) = .ok root) :
    sig.length = (t.otsLen + t.hp) * t.n * t.d ∧ hyperVerify t root msg sig tree leaf = .ok () :=
  hyper_roundtrip t hl hhp hd msg tree leaf room hleaf htree sig root h hr

example :
    demo (hyperSign ⟨2, 2, 2, 7, false, toy 2⟩ [0xA3#8, 0x0F#8] 3 1 36)
      (treeRoot ⟨2, 2, 2, 7, false, toy 2⟩ (Adrs.zero.setLayer 1))
      (fun root sig => hyperVerify ⟨2, 2, 2, 7, false, toy 2⟩ root [0xA3#8, 0x0F#8] sig 3 1)
      (fun root sig => hyperVerify ⟨2, 2, 2, 7, false, toy 2⟩ root [0x15#8, 0xC2#8] sig 3 1) = true := by
  decide +kernel

/-! ## XMSS and XMSS^MT -/

theorem tab_row {p : Xmss.Params} (hp : p ∈ Xmss.xmssTable ∨ p ∈ Xmss.xmssmtTable) : Xmss.RowOk p ∧ TabOk p := by
  rcases hp with h | h
  · exact ⟨Xmss.xmssTable_ok p h, xmssTable_tab p h⟩
  · exact ⟨Xmss.xmssmtTable_ok p h, xmssmtTable_tab p h⟩

/-- Every XMSS and XMSS^MT signature has the length of the parameter set and is accepted under the
root of the key, for every parameter set, unused or used index, message and randomiser. -/
theorem xmss_signature_verifies (p : Xmss.Params) (hp : p ∈ Xmss.xmssTable ∨ p ∈ Xmss.xmssmtTable) (H : Hash)
    (hl : LenOk p.n H) (hml : ∀ r m i x, H.msgHash r m i = .ok x → x.length = p.n)
    (r : Blk) (hrl : r.length = p.n) (index : Nat) (hi : index < 2 ^ p.h) (msg sig : List Byte) (root : Blk)
    (hs : xmssSign p H r index msg = .ok sig) (hroot : xmssRoot p H = .ok root) :
    sig.length = p.sigBytes ∧ xmssVerify p H root msg sig = .ok () :=
  xmss_roundtrip p (tab_row hp).1 (tab_row hp).2 H hl hml r hrl index hi msg sig root hs hroot

/-- XMSS and XMSS^MT signing fails only when a hash function fails: in particular it never reads or
writes outside its arrays and never runs out of room. -/
theorem xmss_signing_fails_only_with_a_hash (p : Xmss.Params) (hp : p ∈ Xmss.xmssTable ∨ p ∈ Xmss.xmssmtTable)
    (H : Hash) (hl : LenOk p.n H) (hml : ∀ r m i x, H.msgHash r m i = .ok x → x.length = p.n)
    (r : Blk) (index : Nat) (hi : index < 2 ^ p.h) (msg : List Byte) (e : Err)
    (h : xmssSign p H r index msg = .error e) : ∃ c, e = .hash c ∧ Spec.Raises H c :=
  xmssSign_he p (tab_row hp).1 (tab_row hp).2 H hl hml r index hi msg e h

/-- The root of the key is the root of RFC 8391. -/
theorem xmss_root_is_the_standard_root (p : Xmss.Params) (hp : p ∈ Xmss.xmssTable ∨ p ∈ Xmss.xmssmtTable)
    (H : Hash) : xmssRoot p H = Spec.node ⟨p.n, p.hp, p.d, p.wotsLen, true, H⟩ (p.d - 1) 0 p.hp 0 := by
  obtain ⟨t1, t2, t3, t4, t5, t6, t7, t8⟩ := (tab_row hp).2
  have hd : p.d ≤ 12 := by
    have : ∀ q ∈ Xmss.xmssTable ++ Xmss.xmssmtTable, q.d ≤ 12 := by decide +kernel
    exact this p (List.mem_append.2 hp)
  exact treeRoot_spec (xmssTree p H) t3 (by show p.wotsLen ≤ 2 ^ 32; omega) (p.d - 1) 0 (by omega) (by omega)

theorem toy_raises (n c : Nat) : ¬ Spec.Raises (toy n) c := by
  rintro (⟨_, h⟩ | ⟨_, _, h⟩ | ⟨_, _, h⟩ | ⟨_, _, h⟩ | ⟨_, _, _, h⟩) <;> simp [toy] at h

/-- Signing with the example hash family succeeds for every parameter set: the hypotheses of
`xmss_signature_verifies` can be met. -/
example (p : Xmss.Params) (hp : p ∈ Xmss.xmssTable ∨ p ∈ Xmss.xmssmtTable) (r : Blk)
    (index : Nat) (hi : index < 2 ^ p.h) (msg : List Byte) : ∃ sig, xmssSign p (toy p.n) r index msg = .ok sig := by
  cases h : xmssSign p (toy p.n) r index msg with
  | ok sig => exact ⟨sig, rfl⟩
  | error e =>
    obtain ⟨c, _, hc⟩ := xmss_signing_fails_only_with_a_hash p hp _ (toy_len p.n)
      (by intro r m i x h; simp only [toy, Except.ok.injEq] at h; simp [← h]) r index hi msg e h
    exact absurd hc (toy_raises _ _)

example (p : Xmss.Params) : ∃ root, xmssRoot p (toy p.n) = .ok root := by
  cases h : xmssRoot p (toy p.n) with
  | ok root => exact ⟨root, rfl⟩
  | error e =>
    obtain ⟨c, _, hc⟩ := treeRoot_he (xmssTree p (toy p.n)) _ e h
    exact absurd hc (toy_raises _ _)

/-- A small XMSS^MT-like parameter set that meets the facts used about the tables. -/
def tiny : Xmss.Params := ⟨true, 2, 4, 2, 2, 7, 39⟩

example : Xmss.RowOk tiny ∧ TabOk tiny := by decide +kernel

example : demo (xmssSign tiny (toy 2) [9#8, 8#8] 13 [1#8, 2#8, 3#8]) (xmssRoot tiny (toy 2))
    (fun root sig => xmssVerify tiny (toy 2) root [1#8, 2#8, 3#8] sig)
    (fun root sig => xmssVerify tiny (toy 2) root [1#8, 2#8, 4#8] sig) = true := by decide +kernel

/-! ## FORS -/

/-- The digits signed by FORS: digit `j` is bits `j * b` to `(j + 1) * b` of the digest, counted from
the most significant bit. -/
theorem fors_digits (b k : Nat) (hb : 1 ≤ b) (hb' : b ≤ 56) (md : List Byte) (hlen : b * k ≤ 8 * md.length) :
    baseBF b k md 0 0 = (List.range k).map fun j => beNat md / 2 ^ (8 * md.length - b * (j + 1)) % 2 ^ b := by
  have := baseBF_spec b hb hb' md k 0 [] md 0 0 rfl (by simp [beNat]) (by simp) (by omega) (by simpa using hlen)
  simpa using this

example : baseBF 6 4 [0xAB#8, 0xCD#8, 0xEF#8] 0 0 = [42, 60, 55, 47] := by decide +kernel

/-- The FORS public key recovered from a signature is the public key of FIPS 205, the same for every
digest, or the same failure of a hash function. -/
theorem fors_signature_gives_the_public_key (p : SlhParams) (hp : p ∈ slhTable) (H : Hash) (hl : LenOk p.n H)
    (T kp : Nat) (hT : T < 2 ^ 64) (hkp : kp < 2 ^ 32) (md : List Byte) (room : Nat) (sig : List Byte) (a' : Adrs)
    (h : forsSign p H md (forsAdrs T kp) room = .ok (sig, a')) :
    sig.length = (p.a + 1) * p.n * p.k ∧ forsPkFromSig p H sig md (forsAdrs T kp) = Spec.forsPk p H T kp := by
  obtain ⟨t1, t2, t3, t4, t5, t6, t7, t8, t9, t10, t11⟩ := slhTable_ok p hp
  exact fors_pk p H hl t6 (by omega) T kp hT hkp md room sig a' h

example : ∃ sig a', forsSign ⟨2, 4, 2, 2, 3, 4, 4, 0⟩ (toy 2) [0xA3#8, 0x5F#8] (forsAdrs 3 1) 32 = .ok (sig, a') ∧
    forsPkFromSig ⟨2, 4, 2, 2, 3, 4, 4, 0⟩ (toy 2) sig [0xA3#8, 0x5F#8] (forsAdrs 3 1) =
    Spec.forsPk ⟨2, 4, 2, 2, 3, 4, 4, 0⟩ (toy 2) 3 1 := by
  refine ⟨_, _, rfl, ?_⟩
  decide +kernel

/-! ## SLH-DSA -/

/-- Every SLH-DSA signature has the length of the parameter set and is accepted under the root
computed by key generation, for every parameter set, message representative and randomiser. -/
theorem slh_signature_verifies (p : SlhParams) (hp : p ∈ slhTable) (H : Hash) (hl : LenOk p.n H)
    (r : Blk) (hrl : r.length = p.n) (msg : List Byte) (room : Nat) (sig : List Byte) (root : Blk)
    (hs : slhSign p H r msg room = .ok sig) (hroot : slhRoot p H = .ok root) :
    sig.length = p.sigBytes ∧ slhVerify p H root msg sig = .ok () :=
  slh_roundtrip p (slhTable_ok p hp) H hl r hrl msg room sig root hs hroot

/-- SLH-DSA signing into a large enough buffer fails only when a hash function fails. -/
theorem slh_signing_fails_only_with_a_hash (p : SlhParams) (hp : p ∈ slhTable) (H : Hash) (hl : LenOk p.n H)
    (r : Blk) (msg : List Byte) (room : Nat) (hroom : p.sigBytes ≤ room) (e : Err)
    (h : slhSign p H r msg room = .error e) : ∃ c, e = .hash c ∧ Spec.Raises H c :=
  slhSign_he p (slhTable_ok p hp) H hl r msg room hroom e h

/-- The root of the key is the root of FIPS 205. -/
theorem slh_root_is_the_standard_root (p : SlhParams) (hp : p ∈ slhTable) (H : Hash) :
    slhRoot p H = Spec.node ⟨p.n, p.hp, p.d, 2 * p.n + 3, false, H⟩ (p.d - 1) 0 p.hp 0 := by
  obtain ⟨t1, t2, t3, t4, t5, t6, t7, t8, t9⟩ := slhTable_ok p hp
  have hd : p.d ≤ 22 := by
    have : ∀ q ∈ slhTable, q.d ≤ 22 := by decide +kernel
    exact this p hp
  exact treeRoot_spec (slhTree p H) t3 (by show 2 * p.n + 3 ≤ 2 ^ 32; omega) (p.d - 1) 0 (by omega) (by omega)

/-- The three parts read from the digest fill it exactly, and select an existing leaf. -/
theorem slh_digest_is_used_exactly (p : SlhParams) (hp : p ∈ slhTable) (dg : List Byte) :
    (p.k * p.a + 7) / 8 + (p.h - p.hp + 7) / 8 + (p.hp + 7) / 8 = p.m ∧
    (treeAndLeaf p dg).2 < 2 ^ p.hp ∧ (treeAndLeaf p dg).1 < 2 ^ (p.h - p.hp) := by
  have hrow := slhTable_ok p hp
  obtain ⟨q1, q2⟩ := slh_pos p hrow dg
  obtain ⟨t1, t2, t3, t4, t5, t6, t7, t8, t9, _⟩ := hrow
  refine ⟨?_, q1, ?_⟩
  · rw [t7] at t9; exact t9
  · rw [t1]
    rw [Nat.mul_sub_one] at q2
    exact q2

/-- The two positions are the numbers in the second and third part of the digest. -/
theorem slh_positions (p : SlhParams) (hp : p ∈ slhTable) (dg : List Byte) :
    (treeAndLeaf p dg).1 = beNat ((dg.drop ((p.k * p.a + 7) / 8)).take ((p.h - p.hp + 7) / 8)) % 2 ^ (p.h - p.hp) ∧
    (treeAndLeaf p dg).2 = beNat ((dg.drop ((p.k * p.a + 7) / 8 + (p.h - p.hp + 7) / 8)).take ((p.hp + 7) / 8)) % 2 ^ p.hp := by
  have key : ∀ (xs : List Byte) (m : Nat), m ≤ 64 → toIntMod xs m = beNat xs % 2 ^ m := by
    intro xs m hm
    have h1 : ∀ (ys : List Byte) (a b : Nat), a = b % 2 ^ 64 →
        ys.foldl (fun acc x => (acc * 256 + x.toNat) % 2 ^ 64) a = ys.foldl (fun acc x => acc * 256 + x.toNat) b % 2 ^ 64 := by
      intro ys
      induction ys with
      | nil => intro a b h; exact h
      | cons y ys ih =>
        intro a b h
        simp only [List.foldl_cons]
        exact ih _ _ (by rw [h]; omega)
    rw [toIntMod, h1 xs 0 0 rfl, Nat.mod_mod_of_dvd _ (Nat.pow_dvd_pow 2 hm)]
    rfl
  have hrow := slhTable_ok p hp
  obtain ⟨t1, t2, t3, t4, t5, t6, t7, t8, t9, _⟩ := hrow
  have hm : p.h - p.hp ≤ 64 ∧ p.hp ≤ 64 := by
    have : ∀ q ∈ slhTable, q.h - q.hp ≤ 64 ∧ q.hp ≤ 64 := by decide +kernel
    exact this p hp
  simp only [treeAndLeaf, splitBytes, t7]
  exact ⟨key _ _ hm.1, key _ _ hm.2⟩

/-- A small SLH-DSA-like parameter set that meets the facts used about the table. -/
def tinySlh : SlhParams := ⟨2, 4, 2, 2, 3, 2, 3, 54⟩

example : SlhOk tinySlh := by decide +kernel

example : demo (slhSign tinySlh (toy 2) [9#8, 8#8] [1#8, 2#8, 3#8] 58) (slhRoot tinySlh (toy 2))
    (fun root sig => slhVerify tinySlh (toy 2) root [1#8, 2#8, 3#8] sig)
    (fun root sig => slhVerify tinySlh (toy 2) root [1#8, 2#8, 4#8] sig) = true := by decide +kernel

/-- Signing with the example hash family succeeds for every parameter set. -/
example (p : SlhParams) (hp : p ∈ slhTable) (r : Blk) (msg : List Byte) :
    ∃ sig, slhSign p (toy p.n) r msg p.sigBytes = .ok sig := by
  cases h : slhSign p (toy p.n) r msg p.sigBytes with
  | ok sig => exact ⟨sig, rfl⟩
  | error e =>
    obtain ⟨c, _, hc⟩ := slh_signing_fails_only_with_a_hash p hp _ (toy_len p.n) r msg _ (Nat.le_refl _) e h
    exact absurd hc (toy_raises _ _)

/-- The message representative determines the context, whether the message was hashed first, with
which function, and the message or its hash: contexts have at most 255 bytes (CRYPT_SLH_DSA_Ctrl) and
object identifiers of hash functions at most 127. -/
theorem message_representative_is_injective (c c' : List Byte) (pre pre' : Option (List Byte × List Byte))
    (d d' : List Byte) (hc : c.length ≤ 255) (hc' : c'.length ≤ 255)
    (ho : ∀ x, pre = some x → x.1.length ≤ 127) (ho' : ∀ x, pre' = some x → x.1.length ≤ 127)
    (h : msgEncode c pre d = msgEncode c' pre' d') : c = c' ∧ pre = pre' ∧ (pre = none → d = d') :=
  msgEncode_inj c c' pre pre' d d' hc hc' ho ho' h

example : msgEncode [1#8] none [2#8] ≠ msgEncode [] none [1#8, 2#8] ∧
    msgEncode [1#8] (some ([5#8], [7#8])) [2#8] ≠ msgEncode [1#8] none [6#8, 1#8, 5#8, 7#8] := by decide +kernel

end Verif.Crypto.Hbs
