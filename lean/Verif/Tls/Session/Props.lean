import Verif.Tls.Session.Proof
/-!
# Serialised sessions: theorems
-/
namespace Verif.Tls.Session.Props
open Verif.Common Verif.Bsl Verif.Bsl.Bytes

/-- Encoding succeeds exactly when the buffer is large enough, and writes the objects of the session. -/
theorem encode_iff (s : Sess) (hc : ∀ c, s.peerCert = some c → c.length < 2 ^ 24) (n : Nat) (hn : n < 2 ^ 32)
    (out : List Byte) : encode s n = .ok out ↔ out = Spec.wire (Spec.items s) ∧ out.length ≤ n :=
  encode_spec s hc n hn out

/-- The announced size is the size of the encoding, so that a buffer of that size suffices. -/
theorem size_exact (s : Sess) (hc : ∀ c, s.peerCert = some c → c.length < 2 ^ 24)
    (hs : (Spec.wire (Spec.items s)).length < 2 ^ 32) :
    totalEncodeSize s = (Spec.wire (Spec.items s)).length ∧
    encode s (totalEncodeSize s) = .ok (Spec.wire (Spec.items s)) := by
  have h : totalEncodeSize s = (Spec.wire (Spec.items s)).length := by
    rw [totalEncodeSize_spec s hc, Nat.mod_eq_of_lt hs]
  exact ⟨h, (encode_spec s hc _ (by omega) _).mpr ⟨rfl, by omega⟩⟩

/-- Decoding accepts exactly the sequences of admissible objects whose types are in the order of the table, each at most
once, the last one being the ticket age; the session takes the values of the objects. -/
theorem decode_iff (certOk : List Byte → Bool) (data : List Byte) (hlen : data.length < 2 ^ 32) (s s' : Sess) :
    decode certOk s data = .ok s' ↔
      ∃ items : List (Obj × List Byte), data = Spec.wire items ∧ List.Sublist (items.map (·.1)) objList ∧
        (items.map (·.1)).getLast? = some .ageAdd ∧ (∀ p ∈ items, Spec.Admissible certOk p.1 p.2) ∧
        s' = items.foldl Spec.assign s :=
  (decLoop_spec certOk objList (by decide) data hlen s s').2

/-- Decoding never leaves its input. -/
theorem decode_in_bounds (certOk : List Byte → Bool) (data : List Byte) (hlen : data.length < 2 ^ 32) (s : Sess) :
    decode certOk s data ≠ .error .oob :=
  (decLoop_spec certOk objList (by decide) data hlen s s).1

theorem le_back (w k : Nat) (x : BitVec w) (hw : 256 ^ k = 2 ^ w) :
    BitVec.ofNat w (leVal (leBytes k x.toNat)) = x := by
  rw [leVal_leBytes, hw, Nat.mod_eq_of_lt x.isLt, BitVec.ofNat_toNat, BitVec.setWidth_eq]

/-- A session within the limits is restored by decoding its encoding. -/
theorem roundtrip (certOk : List Byte → Bool) (s : Sess) (hl : Spec.Limits certOk s) (n : Nat) (hn : n < 2 ^ 32)
    (out : List Byte) (h : encode s n = .ok out) : decode certOk fresh out = .ok s := by
  have hc : ∀ c, s.peerCert = some c → c.length < 2 ^ 24 := fun c e => (hl.cert c e).2.1
  obtain ⟨rfl, hlen⟩ := (encode_spec s hc n hn out).mp h
  refine (decode_iff certOk _ (by omega) fresh s).mpr ⟨Spec.items s, rfl, ?_, ?_, ?_, ?_⟩
  · unfold Spec.items objList
    rcases hp : s.peerCert with _ | _ | ⟨a, c⟩ <;> by_cases h1 : s.hostName = [] <;>
      by_cases h2 : s.sessionIdCtx = [] <;> by_cases h3 : s.sessionId = [] <;>
      simp only [h1, h2, h3, if_true, if_false, List.append_nil, List.nil_append, List.cons_append, List.map_cons,
        List.map_nil] <;> decide
  · unfold Spec.items
    rw [List.map_append, List.getLast?_append]
    rfl
  · intro p hp
    unfold Spec.items at hp
    simp only [List.mem_append, List.mem_cons, List.not_mem_nil, or_false] at hp
    rcases hp with ((((((rfl | rfl | rfl) | hp) | rfl | rfl) | hp) | hp) | hp) | rfl | rfl | rfl
    · simp [Spec.Admissible, leBytes_length]
    · simp [Spec.Admissible, leBytes_length]
    · exact hl.key
    · rcases hq : s.peerCert with _ | _ | ⟨a, c⟩ <;> rw [hq] at hp
      · cases hp
      · cases hp
      · rw [List.mem_singleton.mp hp]
        exact ⟨a :: c, rfl, (hl.cert _ hq).2⟩
    · simp [Spec.Admissible, leBytes_length]
    · simp [Spec.Admissible, leBytes_length]
    · split at hp
      · cases hp
      · rename_i hne
        rw [List.mem_singleton.mp hp]
        exact hl.host.resolve_left hne
    · split at hp
      · cases hp
      · rw [List.mem_singleton.mp hp]; exact hl.ctx
    · split at hp
      · cases hp
      · rw [List.mem_singleton.mp hp]; exact hl.id
    · simp [Spec.Admissible]
    · simp [Spec.Admissible, leBytes_length]
    · simp [Spec.Admissible, leBytes_length]
  · unfold Spec.items
    have hcert : s.peerCert ≠ some [] := fun e => (hl.cert [] e).1 rfl
    have hb : decide (leVal [if s.haveExtMasterSecret = true then 1#8 else 0#8] ≠ 0) = s.haveExtMasterSecret := by
      cases s.haveExtMasterSecret <;> decide
    obtain ⟨ver, cs, mk, pc, st, to, hn, ctx, sid, em, vr, aa⟩ := s
    simp only at hcert hb
    rcases pc with _ | _ | ⟨a, c⟩
    · by_cases h1 : hn = [] <;> by_cases h2 : ctx = [] <;> by_cases h3 : sid = [] <;>
      simp only [h1, h2, h3, if_true, if_false, List.append_nil, List.nil_append, List.cons_append, List.foldl_cons,
        List.foldl_nil, Spec.assign, fresh, hb, le_back 16 2 _ (by decide), le_back 64 8 _ (by decide),
        le_back 32 4 _ (by decide)]
    · exact absurd rfl hcert
    · by_cases h1 : hn = [] <;> by_cases h2 : ctx = [] <;> by_cases h3 : sid = [] <;>
      simp only [h1, h2, h3, if_true, if_false, List.append_nil, List.nil_append, List.cons_append, List.foldl_cons,
        List.foldl_nil, Spec.assign, fresh, hb, le_back 16 2 _ (by decide), le_back 64 8 _ (by decide),
        le_back 32 4 _ (by decide), List.drop_left' (beBytes_length 3 _)]

/-- Outside the limits a session is encoded but cannot be decoded: a server name of more than 255 bytes. -/
theorem long_host_lost (certOk : List Byte → Bool) (s : Sess) (hc : ∀ c, s.peerCert = some c → c.length < 2 ^ 24)
    (hh : 255 < s.hostName.length) (n : Nat) (hn : n < 2 ^ 32) (out : List Byte) (h : encode s n = .ok out) :
    ∃ e, decode certOk fresh out = .error e := by
  obtain ⟨rfl, hlen⟩ := (encode_spec s hc n hn out).mp h
  cases hd : decode certOk fresh (Spec.wire (Spec.items s)) with
  | error e => exact ⟨e, rfl⟩
  | ok s' =>
    exfalso
    obtain ⟨items, e1, _, _, e4, _⟩ := (decode_iff certOk _ (by omega) fresh s').mp hd
    have hinj := wire_inj (Spec.items s) items (by omega) e1
    have hmem : (Obj.hostName, s.hostName) ∈ Spec.items s := by
      unfold Spec.items
      have hne : s.hostName ≠ [] := by intro e; rw [e] at hh; exact absurd hh (by decide)
      simp [hne]
    have hx : s.hostName.length ≤ 255 ∧ s.hostName.getLast? = some 0#8 := e4 (Obj.hostName, s.hostName) (hinj ▸ hmem)
    omega

/-- Decoding does not require any object but the last: eight bytes are a session. -/
theorem minimal_accepted (certOk : List Byte → Bool) :
    decode certOk fresh [0, 0, 1, 0x0D, 0, 0, 0, 0] = .ok fresh := by
  refine (decode_iff certOk _ (by decide) fresh fresh).mpr ⟨[(.ageAdd, [])], by decide, by decide, by decide, ?_, by decide⟩
  intro p hp
  rw [List.mem_singleton.mp hp]
  show ([] : List Byte).length ≤ 4
  decide

/-! ## Concrete cases -/

/-- A session with every object. -/
def sample : Sess :=
  ⟨0x0303, 0xC02F, [1, 2, 3, 4], some [0x30, 0x00], 1700000000, 7200, [0x61, 0x2e, 0x62, 0], [9, 9], [7, 7, 7], true, 0, 5⟩

theorem sample_limits : Spec.Limits (fun c => decide (c.length = 2)) sample := by
  refine ⟨by decide, ?_, Or.inr (by decide), by decide, by decide⟩
  intro c h
  have : c = [0x30, 0x00] := by simpa [sample] using h.symm
  subst this; exact ⟨by decide, by decide, by decide⟩

example : ∃ out, encode sample 200 = .ok out ∧ decode (fun c => decide (c.length = 2)) fresh out = .ok sample := by
  have he : encode sample 200 = .ok (Spec.wire (Spec.items sample)) :=
    (encode_iff sample (fun c h => (sample_limits.cert c h).2.1) 200 (by decide) _).mpr ⟨rfl, by decide +kernel⟩
  exact ⟨_, he, roundtrip _ sample sample_limits 200 (by decide) _ he⟩

example : totalEncodeSize sample = 143 := by decide +kernel
example : encode sample 142 = .error (.enc .ageAdd) := by decide +kernel
example : 255 < ({ sample with hostName := List.replicate 256 0x61#8 }).hostName.length := by decide +kernel

end Verif.Tls.Session.Props
