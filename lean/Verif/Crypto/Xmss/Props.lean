import Verif.Crypto.Xmss.Proof

/-!
# C35: stateful hash-based signing never reuses an index
-/

namespace Verif.Crypto.Xmss

open Verif.Common

/-- C35, main statement. Take any number of contexts and any history of calls (creating, copying and
freeing contexts, choosing parameters, generating, importing, signing) with failures at any point.
If private keys are only installed at a position that has not been used (`Spec.Disciplined`), no
index of a private key is ever used twice, not even by calls that failed. -/
theorem no_index_reuse (ops : List Op) (h : Spec.Disciplined World.init ops) :
    ((run World.init ops).uses.map fun u => (u.seed, u.index)).Nodup :=
  (inv_run h inv_init).nodup

/-- Hence no one-time key (the position in the tree that is handed to the signing code) is exercised
twice under the same private seed and parameter set. -/
theorem no_one_time_key_reuse (ops : List Op) (h : Spec.Disciplined World.init ops) :
    ((run World.init ops).uses.map fun u => (u.params, u.seed, u.tree, u.leaf)).Nodup :=
  nodup_positions (inv_run h inv_init)

/-- Every released signature has the length of the parameter set, carries the index it was made
with (as a verifier reads it), and the index is below `2^h`. All released signatures of one private
key carry different indices. -/
theorem signatures_carry_fresh_indices (ops : List Op) (h : Spec.Disciplined World.init ops) :
    (∀ s ∈ (run World.init ops).sigs, s.1.length = s.2.params.sigBytes ∧
      verifyIndex s.2.params s.1 = s.2.index ∧ s.2.index < 2 ^ s.2.params.h) ∧
    ((run World.init ops).sigs.map fun s => (s.2.seed, s.2.index)).Nodup :=
  ⟨fun s hs => (inv_run h inv_init).sigOk s hs, nodup_sigs (inv_run h inv_init)⟩

/-- A private key produces at most `2^h` signatures. -/
theorem at_most_two_pow_h (ops : List Op) (h : Spec.Disciplined World.init ops) (p : Params)
    (seed : List Byte) :
    ((run World.init ops).sigs.filter fun s => s.2.seed = seed ∧ s.2.params = p).length ≤ 2 ^ p.h :=
  count_sigs (inv_run h inv_init) p seed

/-- Once the index has passed the last leaf, signing fails, whatever the buffer and whatever the
rest of the library does, changes nothing and releases nothing. -/
theorem exhausted_key_never_signs (c : Ctx) (p : Params) (hp : c.params = some p)
    (hx : 2 ^ p.h ≤ c.idx) (buf : List Byte) (x : SignExt) :
    (∃ e, (sign c buf x).1.ret = .error e) ∧ (sign c buf x).1.buf = buf ∧
    (sign c buf x).1.uses = [] ∧ (sign c buf x).2 = c :=
  sign_exhausted c p hp hx buf x

/-- A failing call releases no part of a signature: either nothing has happened, or the index is
consumed, the whole buffer is zero and the reported length is zero. -/
theorem failed_sign_releases_nothing (c : Ctx) (hc : c.idx < 2 ^ 64) (buf : List Byte) (x : SignExt)
    (e : Err) (h : (sign c buf x).1.ret = .error e) :
    ((sign c buf x).1.buf = buf ∧ (sign c buf x).1.uses = [] ∧ (sign c buf x).2 = c) ∨
    ((∀ b ∈ (sign c buf x).1.buf, b = 0#8) ∧ (sign c buf x).1.buf.length = buf.length ∧
      (sign c buf x).1.len = 0 ∧ (sign c buf x).2.idx = c.idx + 1 ∧ (sign c buf x).2.bds = false) :=
  sign_error c hc buf x e h

/-- A successful call uses exactly the current index and moves the key to the next one. -/
theorem successful_sign_advances (c : Ctx) (hc : c.idx < 2 ^ 64) (buf : List Byte) (x : SignExt)
    (h : (sign c buf x).1.ret = .ok ()) :
    (sign c buf x).2.idx = c.idx + 1 ∧ ∃ u, (sign c buf x).1.uses = [u] ∧ u.index = c.idx ∧
      u.seed = c.seed :=
  sign_ok_advances c hc buf x h

/-- Signing is not refused without reason: with a private key, a parameter set of the tables, an
index below `2^h`, a buffer of the advertised size, and no failure in the rest of the library, it
succeeds. -/
theorem sign_succeeds (c : Ctx) (p : Params) (hp : c.params = some p)
    (ht : p ∈ xmssTable ∨ p ∈ xmssmtTable) (hn : c.n = p.n) (hk : c.hasPriv = true)
    (hi : c.idx < 2 ^ p.h) (buf : List Byte) (hb : p.sigBytes ≤ buf.length) (x : SignExt)
    (r : Nat → Byte) (d : List Byte) (t : Nat → Byte) (hr : x.rand = .ok r) (hd : x.hash = .ok d)
    (hw : x.wots = .ok t) (hq : x.post = .ok ()) :
    (sign c buf x).1.ret = .ok () ∧ (sign c buf x).1.len = p.sigBytes :=
  sign_live c p hp ht hn hk hi buf hb x r d t hr hd hw hq

/-- A copy of a context cannot sign. -/
theorem copy_cannot_sign (c : Ctx) (buf : List Byte) (x : SignExt) :
    ∃ e, (sign (dupCtx c) buf x).1.ret = .error e := by
  unfold sign dupCtx newCtx
  cases c.params <;> simp

/-- A key generation or a choice of parameters that fails leaves no usable half-made key. -/
theorem failed_gen_cannot_sign (c : Ctx) (g : GenExt) (e : Err) (h : (gen c g).1 = .error e)
    (hr : c.params ≠ none) (hn : c.n ≠ 0) (buf : List Byte) (x : SignExt) :
    ∃ e', (sign (gen c g).2 buf x).1.ret = .error e' :=
  gen_error_no_sign c g e h hr hn buf x

/-- A generated key is the one that was drawn, starts at index 0 and can sign. -/
theorem generated_key_starts_at_zero (c : Ctx) (g : GenExt) (h : (gen c g).1 = .ok ()) :
    (gen c g).2.idx = 0 ∧ (gen c g).2.hasPriv = true ∧ g.seed = .ok (gen c g).2.seed ∧
    (gen c g).2.params = c.params :=
  gen_ok_spec c g h

/-- An imported key is the one that was given, at the index that was given; a BDS state that comes
with it is accepted only when it was made for the same index. A refused import changes nothing. -/
theorem imported_key_is_the_given_one (c : Ctx) (p : PrvParam) :
    ((setPrv c p).1 = .ok () → (setPrv c p).2.idx = p.idx.toNat ∧ (setPrv c p).2.seed = p.seed ∧
      (setPrv c p).2.hasPriv = true ∧ ((setPrv c p).2.bds = true ↔ p.bds.isSome) ∧
      ∀ i v, p.bds = some (i, v) → i = p.idx) ∧
    (∀ e, (setPrv c p).1 = .error e → (setPrv c p).2 = c) :=
  setPrv_spec c p

/-- Moving a key is safe: whatever the history, what GetPrvKey exports can be installed anywhere
once the exporting context has been freed. -/
theorem export_free_import_safe (ops : List Op) (h : Spec.Disciplined World.init ops) (i : Nat)
    (c : Ctx) (hi : (run World.init ops).ctxs[i]? = some c) (hk : c.hasPriv = true)
    (idx : Nat) (seed prf ps root : List Byte) (he : getPrv c = .ok (idx, seed, prf, ps, root))
    (j : Nat) :
    Spec.SafeInstall (run World.init (ops ++ [.free i])) j seed idx :=
  export_safe (inv_run h inv_init) i c hi hk idx seed prf ps root he j

/-! ## Non-vacuity and the necessity of the discipline -/

namespace Demo

def seedA : List Byte := List.replicate 32 7#8
def zeros : List Byte := List.replicate 32 0#8
def goodExt : SignExt := ⟨.ok fun _ => 1#8, .ok [], .ok fun _ => 2#8, .ok ()⟩
/-- The tree computation fails after the one-time signature was made. -/
def badExt : SignExt := ⟨.ok fun _ => 1#8, .ok [], .ok fun _ => 2#8, .error 5⟩
def goodGen : GenExt := ⟨.ok seedA, .ok zeros, .ok zeros, .ok zeros⟩
def buffer : List Byte := List.replicate 2500 9#8
def again : PrvParam := ⟨0#64, seedA, zeros, zeros, zeros, none⟩
def forward : PrvParam := ⟨3#64, seedA, zeros, zeros, zeros, none⟩

/-- Generate, sign, fail, sign again, export by hand, import in a second context and sign. -/
def history : List Op :=
  [.new, .setPara 0 false 0 (.ok ()), .gen 0 goodGen, .sign 0 buffer goodExt, .sign 0 buffer badExt,
   .sign 0 buffer goodExt, .dup 0, .free 0, .setPrv 1 forward, .sign 1 buffer goodExt]

example : Spec.Disciplined World.init history := by decide +kernel
example : (run World.init history).uses.map (·.index) = [0, 1, 2, 3] := by decide +kernel
example : (run World.init history).sigs.map (·.2.index) = [0, 2, 3] := by decide +kernel

/-- The same key installed again at its old position: not disciplined. -/
def rollback : List Op :=
  [.new, .setPara 0 false 0 (.ok ()), .gen 0 goodGen, .sign 0 buffer goodExt, .setPrv 0 again,
   .sign 0 buffer goodExt]

end Demo

/-- The discipline is necessary: SetPrvKey accepts an index lower than the current one, also on the
context that holds the same key, and the next signature repeats the index. -/
theorem import_can_roll_back :
    (run World.init Demo.rollback).sigs.map (fun s => (s.2.seed, s.2.index)) =
      [(Demo.seedA, 0), (Demo.seedA, 0)] := by decide +kernel

end Verif.Crypto.Xmss
