import Verif.Tls.KeyBlock.Model
/-!
# C06 — key block partition (RFC 5246 section 6.3)
-/
namespace Verif.Tls.KeyBlock
open Verif.Common

/-- The PRF returns as many bytes as it is asked for. -/
def PrfLen (prf : List Byte → List Byte → List Byte → Nat → Option (List Byte)) : Prop :=
  ∀ s l d n b, prf s l d n = some b → b.length = n

theorem partition_of_length : ∀ (b : List Byte) (m k i : Nat), b.length = m * 2 + k * 2 + i * 2 →
    slice b 0 m ++ slice b (0 + m) m ++ slice b (0 + m + m) k ++ slice b (0 + m + m + k) k ++
      slice b (0 + m + m + k + k) i ++ slice b (0 + m + m + k + k + i) i = b := by
  intro b m k i h
  have step : ∀ (o n : Nat), b.take o ++ slice b o n = b.take (o + n) := by
    intro o n
    rw [slice, ← List.take_add]
  have h0 : slice b 0 m = b.take (0 + m) := by simp [slice]
  rw [h0, step, step, step, step, step]
  exact List.take_of_length_le (by omega)

/-- C06. The key block is, in this order and with nothing left over or shared, client MAC key, server MAC key,
client key, server key, client IV, server IV, of the negotiated lengths; it is
PRF(master_secret, "key expansion", server_random ‖ client_random). -/
theorem keyBlock_spec (prf : List Byte → List Byte → List Byte → Nat → Option (List Byte)) (hprf : PrfLen prf)
    (p : Param) (c s : Keys) (h : keyBlockGen prf p = .ok (c, s)) :
    prf p.masterSecret ("key expansion".toUTF8.toList.map (fun b => b.toBitVec)) (p.serverRandom ++ p.clientRandom)
      (2 * (p.macKeyLen + p.encKeyLen + p.fixedIvLength)) =
        some (c.macKey ++ s.macKey ++ c.key ++ s.key ++ c.iv ++ s.iv) ∧
    c.macKey.length = p.macKeyLen ∧ s.macKey.length = p.macKeyLen ∧
    c.key.length = p.encKeyLen ∧ s.key.length = p.encKeyLen ∧
    c.iv.length = p.fixedIvLength ∧ s.iv.length = p.fixedIvLength := by
  have hl : ("key expansion".toUTF8.toList.map (fun b => b.toBitVec)) = label := by decide +kernel
  unfold keyBlockGen at h
  simp only at h
  split at h
  · cases h
  · split at h
    · cases h
    · rename_i buf hbuf
      have hlen := hprf _ _ _ _ _ hbuf
      cases h
      have hn : 2 * (p.macKeyLen + p.encKeyLen + p.fixedIvLength) =
        p.macKeyLen * 2 + p.encKeyLen * 2 + p.fixedIvLength * 2 := by omega
      rw [hl, hn, hbuf]
      refine ⟨?_, ?_⟩
      · rw [partition_of_length buf _ _ _ hlen]
      · simp only [slice, List.length_take, List.length_drop, hlen]
        omega

/-- C06. Client and server that agree on master secret, randoms and lengths end with matching keys: what one
writes with, the other reads with. -/
theorem peers_agree (prf : List Byte → List Byte → List Byte → Nat → Option (List Byte)) (pc ps : Param)
    (hc : pc.isClient = true) (hs : ps = { pc with isClient := false }) (kc ks : Pending)
    (h1 : initPendingState prf pc = .ok kc) (h2 : initPendingState prf ps = .ok ks) :
    kc.write = ks.read ∧ ks.write = kc.read := by
  subst hs
  have hg : keyBlockGen prf { pc with isClient := false } = keyBlockGen prf pc := rfl
  unfold initPendingState at h1 h2
  rw [hg] at h2
  cases hk : keyBlockGen prf pc with
  | error e => rw [hk] at h1; cases h1
  | ok r =>
    obtain ⟨c, s⟩ := r
    rw [hk] at h1 h2
    simp only [hc, if_true] at h1
    simp only [Bool.false_eq_true, if_false] at h2
    cases h1; cases h2
    exact ⟨rfl, rfl⟩

/-- C06. The client's write direction gets the client half of the block, the server's write direction the
server half. -/
theorem direction_spec (prf : List Byte → List Byte → List Byte → Nat → Option (List Byte)) (p : Param)
    (c s : Keys) (h : keyBlockGen prf p = .ok (c, s)) :
    initPendingState prf p = .ok (if p.isClient then ⟨c, s⟩ else ⟨s, c⟩) := by
  unfold initPendingState
  rw [h]
  cases p.isClient <;> rfl

/-- C06. Lengths that exceed the key arrays (or an all-zero set of lengths) are refused, so no key is ever
truncated. -/
theorem keyBlock_bounds (prf : List Byte → List Byte → List Byte → Nat → Option (List Byte)) (p : Param)
    (c s : Keys) (h : keyBlockGen prf p = .ok (c, s)) :
    p.macKeyLen ≤ 64 ∧ p.encKeyLen ≤ 64 ∧ p.fixedIvLength ≤ 16 ∧
      0 < p.macKeyLen + p.encKeyLen + p.fixedIvLength := by
  unfold keyBlockGen at h
  simp only at h
  split at h
  · cases h
  · omega

/-- A PRF that counts, with the lengths of TLS_RSA_WITH_AES_128_CBC_SHA-like suites. -/
def toyPrf : List Byte → List Byte → List Byte → Nat → Option (List Byte) :=
  fun _ _ _ n => some ((List.range n).map (BitVec.ofNat 8))

example : PrfLen toyPrf := by
  intro s l d n b h; simp only [toyPrf, Option.some.injEq] at h; rw [← h]; simp

example : ∃ c s, keyBlockGen toyPrf ⟨true, [], [], [], 2, 3, 1⟩ = .ok (c, s) ∧
    c.macKey = [0#8, 1#8] ∧ s.macKey = [2#8, 3#8] ∧ c.key = [4#8, 5#8, 6#8] ∧ s.iv = [11#8] :=
  ⟨_, _, rfl, by decide, by decide, by decide, by decide⟩

end Verif.Tls.KeyBlock
