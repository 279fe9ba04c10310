import Verif.Tls.Session.Spec
/-!
# Serialised sessions: proofs
-/
namespace Verif.Tls.Session
open Verif.Common Verif.Bsl Verif.Bsl.Bytes

/-- The objects of one member. -/
def itemOf (s : Sess) (o : Obj) : List (Obj × List Byte) :=
  if o = .peerCert then
    match s.peerCert with
    | some (a :: c) => [(.peerCert, beBytes 3 (a :: c).length ++ (a :: c))]
    | _ => []
  else
    match encValue s o with
    | none => []
    | some v => [(o, v)]

theorem items_eq (s : Sess) : Spec.items s = objList.flatMap (itemOf s) := by
  unfold Spec.items objList
  simp only [List.flatMap_cons, List.flatMap_nil, List.append_nil]
  have h1 : itemOf s .hostName = if s.hostName = [] then [] else [(.hostName, s.hostName)] := by
    unfold itemOf
    rw [if_neg (by decide)]
    simp only [encValue, List.length_eq_zero_iff]
    by_cases h : s.hostName = []
    · simp [h]
    · simp [h]
  have h2 : itemOf s .sessionIdCtx = if s.sessionIdCtx = [] then [] else [(.sessionIdCtx, s.sessionIdCtx)] := by
    unfold itemOf
    rw [if_neg (by decide)]
    simp only [encValue, List.length_eq_zero_iff]
    by_cases h : s.sessionIdCtx = []
    · simp [h]
    · simp [h]
  have h3 : itemOf s .sessionId = if s.sessionId = [] then [] else [(.sessionId, s.sessionId)] := by
    unfold itemOf
    rw [if_neg (by decide)]
    simp only [encValue, List.length_eq_zero_iff]
    by_cases h : s.sessionId = []
    · simp [h]
    · simp [h]
  rw [h1, h2, h3]
  simp only [itemOf, encValue]
  rcases h : s.peerCert with _ | _ | ⟨a, c⟩ <;> simp

theorem wire_nil : Spec.wire [] = [] := rfl

theorem wire_append (a b : List (Obj × List Byte)) : Spec.wire (a ++ b) = Spec.wire a ++ Spec.wire b := by
  unfold Spec.wire Tlv.Spec.seq; rw [List.map_append, List.flatMap_append]

theorem wire_one (o : Obj) (v : List Byte) : Spec.wire [(o, v)] = Tlv.Spec.one o.code v := by
  simp [Spec.wire, Tlv.Spec.seq]

theorem wire_cons (o : Obj) (v : List Byte) (r : List (Obj × List Byte)) :
    Spec.wire ((o, v) :: r) = Tlv.Spec.one o.code v ++ Spec.wire r := by
  simp [Spec.wire, Tlv.Spec.seq]

/-- Certificates that fit the length computations. -/
def CertFits (s : Sess) : Prop := ∀ c, s.peerCert = some c → c.length < 2 ^ 24

theorem encObj_spec (s : Sess) (hc : CertFits s) (o : Obj) (n : Nat) (hn : n < 2 ^ 32) (b : List Byte) :
    encObj s o n = .ok b ↔ b = Spec.wire (itemOf s o) ∧ b.length ≤ n := by
  unfold encObj itemOf
  by_cases ho : o = .peerCert
  · rw [if_pos ho, if_pos ho]
    unfold encPeerCert
    cases hp : s.peerCert with
    | none =>
      simp only [wire_nil]
      constructor
      · intro h; injection h with h; subst h; exact ⟨rfl, by simp⟩
      · rintro ⟨rfl, _⟩; rfl
    | some c =>
      have hlen := hc c hp
      cases c with
      | nil =>
        simp only [wire_nil, peerCertSize, List.length_nil, if_true]
        constructor
        · intro h; injection h with h; subst h; exact ⟨rfl, by simp⟩
        · rintro ⟨rfl, _⟩; rfl
      | cons a c =>
        simp only
        have hsz : peerCertSize (a :: c) = (a :: c).length + 3 := by
          unfold peerCertSize
          rw [if_neg (by simp), Nat.mod_eq_of_lt (by omega)]
        rw [hsz, if_neg (by omega), wire_one]
        generalize hx : (a :: c) = x at hlen ⊢
        have hw : uint32ToByte Obj.peerCert.code ++ uint32ToByte (BitVec.ofNat 32 (x.length + 3)) ++
            (uint24ToByte (BitVec.ofNat 32 x.length) ++ x) =
            Tlv.Spec.one Obj.peerCert.code (beBytes 3 x.length ++ x) := by
          unfold Tlv.Spec.one
          rw [uint32ToByte_spec, uint32ToByte_spec, uint24ToByte_spec, BitVec.toNat_ofNat, BitVec.toNat_ofNat,
            Nat.mod_eq_of_lt (by omega), Nat.mod_eq_of_lt (by omega), List.length_append, beBytes_length, Nat.add_comm 3]
        rw [hw]
        have hl : (Tlv.Spec.one Obj.peerCert.code (beBytes 3 x.length ++ x)).length = 8 + (3 + x.length) := by
          rw [Tlv.one_length, List.length_append, beBytes_length]
        by_cases h8 : n < 8 ∨ x.length + 3 > Tlv.sub32 n 8
        · rw [if_pos h8]
          constructor
          · intro h; cases h
          · rintro ⟨rfl, h⟩
            rw [hl] at h
            have : ¬ n < 8 := by omega
            rw [Tlv.sub32_eq (by omega) hn] at h8
            omega
        · rw [if_neg h8, if_neg (by omega)]
          have h8' : ¬ n < 8 := fun h => h8 (Or.inl h)
          rw [Tlv.sub32_eq (by omega) hn] at h8
          constructor
          · intro h; injection h with h; subst h; exact ⟨rfl, by rw [hl]; omega⟩
          · rintro ⟨h, _⟩; rw [h]
  · rw [if_neg ho, if_neg ho]
    cases hv : encValue s o with
    | none =>
      simp only [wire_nil]
      constructor
      · intro h; injection h with h; subst h; exact ⟨rfl, by simp⟩
      · rintro ⟨rfl, _⟩; rfl
    | some v =>
      simp only [wire_one]
      have hp := Tlv.pack_iff o.code v n hn
      cases hq : Tlv.pack o.code v n with
      | error e =>
        simp only
        constructor
        · intro h; cases h
        · intro h; have := (hp b).mpr h; rw [hq] at this; cases this
      | ok b' =>
        simp only
        rw [← hp b, hq]
        constructor
        · intro h; injection h with h; rw [h]
        · intro h; injection h with h; rw [h]

theorem encLoop_spec (s : Sess) (hc : CertFits s) (n : Nat) (hn : n < 2 ^ 32) (os : List Obj) (out res : List Byte)
    (hout : out.length ≤ n) :
    encLoop s n os out = .ok res ↔ res = out ++ Spec.wire (os.flatMap (itemOf s)) ∧ res.length ≤ n := by
  induction os generalizing out with
  | nil =>
    rw [encLoop, List.flatMap_nil, wire_nil, List.append_nil]
    constructor
    · intro h; injection h with h; subst h; exact ⟨rfl, hout⟩
    · rintro ⟨rfl, _⟩; rfl
  | cons o r ih =>
    rw [encLoop, Tlv.sub32_eq hout hn, List.flatMap_cons, wire_append, ← List.append_assoc]
    have ho := encObj_spec s hc o (n - out.length) (by omega)
    cases h : encObj s o (n - out.length) with
    | error e =>
      simp only
      constructor
      · intro h; cases h
      · rintro ⟨rfl, h2⟩
        have := (ho (Spec.wire (itemOf s o))).mpr ⟨rfl, by simp only [List.length_append] at h2; omega⟩
        rw [h] at this; cases this
    | ok b =>
      simp only
      obtain ⟨rfl, hb⟩ := (ho b).mp h
      exact ih _ (by rw [List.length_append]; omega)

theorem encode_spec (s : Sess) (hc : CertFits s) (n : Nat) (hn : n < 2 ^ 32) (out : List Byte) :
    encode s n = .ok out ↔ out = Spec.wire (Spec.items s) ∧ out.length ≤ n := by
  unfold encode
  rw [encLoop_spec s hc n hn objList [] out (by simp), items_eq, List.nil_append]

theorem encObjSize_spec (s : Sess) (hc : CertFits s) (o : Obj) :
    encObjSize s o = (Spec.wire (itemOf s o)).length % 2 ^ 32 := by
  unfold encObjSize itemOf
  by_cases ho : o = .peerCert
  · rw [if_pos ho, if_pos ho]
    cases hp : s.peerCert with
    | none => rfl
    | some c =>
      have hlen := hc c hp
      cases c with
      | nil => rfl
      | cons a c =>
        have hsz : peerCertSize (a :: c) = (a :: c).length + 3 := by
          unfold peerCertSize
          rw [if_neg (by simp), Nat.mod_eq_of_lt (by omega)]
        simp only [hsz]
        rw [if_neg (by omega), wire_one, Tlv.one_length, List.length_append, beBytes_length]
        rw [Nat.add_comm 3]
  · rw [if_neg ho, if_neg ho]
    cases hv : encValue s o with
    | none => rfl
    | some v => simp only [wire_one, Tlv.one_length]

theorem totalEncodeSize_spec (s : Sess) (hc : CertFits s) :
    totalEncodeSize s = (Spec.wire (Spec.items s)).length % 2 ^ 32 := by
  have key : ∀ (os : List Obj) (k : Nat), k < 2 ^ 32 →
      os.foldl (fun off o => (off + encObjSize s o) % 2 ^ 32) k =
        (k + (Spec.wire (os.flatMap (itemOf s))).length) % 2 ^ 32 := by
    intro os
    induction os with
    | nil => intro k hk; simp [wire_nil, Nat.mod_eq_of_lt hk]
    | cons o r ih =>
      intro k hk
      rw [List.foldl_cons, ih _ (Nat.mod_lt _ (by decide)), encObjSize_spec s hc, List.flatMap_cons, wire_append,
        List.length_append]
      omega
  unfold totalEncodeSize
  rw [key objList 0 (by decide), items_eq, Nat.zero_add]

theorem code_inj {a b : Obj} (h : a.code = b.code) : a = b := by
  revert h; cases a <;> cases b <;> decide

/-- The first object of a text. -/
theorem header (o : BitVec 32) (v r : List Byte) (hv : v.length < 2 ^ 32) :
    byteToUint32 (Tlv.Spec.one o v ++ r) = some o ∧
    byteToUint32 ((Tlv.Spec.one o v ++ r).drop 4) = some (BitVec.ofNat 32 v.length) ∧
    (Tlv.Spec.one o v ++ r).drop 8 = v ++ r := by
  have e1 : Tlv.Spec.one o v ++ r = uint32ToByte o ++ (uint32ToByte (BitVec.ofNat 32 v.length) ++ (v ++ r)) := by
    unfold Tlv.Spec.one
    rw [uint32ToByte_spec, uint32ToByte_spec, BitVec.toNat_ofNat, Nat.mod_eq_of_lt hv]
    simp only [List.append_assoc]
  have l1 : ∀ x : BitVec 32, (uint32ToByte x).length = 4 := fun x => by rw [uint32ToByte_spec, beBytes_length]
  refine ⟨by rw [e1, load_store32], ?_, ?_⟩
  · rw [e1, List.drop_left' (l1 _), load_store32]
  · rw [e1, ← List.append_assoc, List.drop_left' (by rw [List.length_append, l1, l1])]

/-- Any text of at least eight bytes starts with a type and a length. -/
theorem split_header (data : List Byte) (h : 8 ≤ data.length) :
    ∃ t l : BitVec 32, byteToUint32 data = some t ∧ byteToUint32 (data.drop 4) = some l ∧
      (l.toNat ≤ data.length - 8 → ∃ v r, data = Tlv.Spec.one t v ++ r ∧ v.length = l.toNat) := by
  obtain ⟨t, l, r, e⟩ := Tlv.header_split data h
  have hb : ∀ x : BitVec 32, (beBytes 4 x.toNat).length = 4 := fun x => beBytes_length 4 _
  refine ⟨t, l, ?_, ?_, ?_⟩
  · rw [e, ← uint32ToByte_spec, List.append_assoc, load_store32]
  · rw [e, List.append_assoc, List.drop_left' (hb t), ← uint32ToByte_spec, load_store32]
  · intro hl
    have hr : r.length = data.length - 8 := by rw [e]; simp only [List.length_append, hb]; omega
    refine ⟨r.take l.toNat, r.drop l.toNat, ?_, by rw [List.length_take]; omega⟩
    have hlen : (r.take l.toNat).length = l.toNat := by rw [List.length_take]; omega
    rw [Tlv.one_eq t l _ hlen.symm, List.append_assoc, List.take_append_drop, ← e]

theorem one_cancel {t : BitVec 32} {v r v' r' : List Byte} (hv : v.length < 2 ^ 32) (hv' : v'.length < 2 ^ 32)
    (h : Tlv.Spec.one t v ++ r = Tlv.Spec.one t v' ++ r') : v = v' ∧ r = r' := by
  have h1 := (header t v r hv).2
  have h2 := (header t v' r' hv').2
  rw [h] at h1
  have e1 := h1.1.symm.trans h2.1
  injection e1 with e1
  have e2 := congrArg BitVec.toNat e1
  rw [BitVec.toNat_ofNat, BitVec.toNat_ofNat, Nat.mod_eq_of_lt hv, Nat.mod_eq_of_lt hv'] at e2
  exact List.append_inj (h1.2.symm.trans h2.2) e2

/-- A matching object is the first one. -/
theorem parse_first (t : BitVec 32) (data : List Byte) (cap : Nat) (hlen : data.length < 2 ^ 32)
    (ht : byteToUint32 data = some t) (v : List Byte) (n : Nat) :
    Tlv.parse t data cap = .ok (v, n) ↔ ∃ r, data = Tlv.Spec.one t v ++ r ∧ v.length ≤ cap ∧ n = 8 + v.length := by
  rw [Tlv.parse_iff t data hlen cap v n]
  constructor
  · rintro ⟨before, rest, e, hb, hc, hn⟩
    cases before with
    | nil =>
      refine ⟨rest, by simpa [Tlv.Spec.seq] using e, hc, ?_⟩
      rw [hn]; simp only [Tlv.Spec.seq, List.flatMap_nil, List.nil_append]; exact Tlv.one_length _ _
    | cons p l =>
      exfalso
      obtain ⟨pt, pv⟩ := p
      have hpv : pv.length < 2 ^ 32 := by
        have := congrArg List.length e
        simp only [Tlv.Spec.seq, List.flatMap_cons, List.length_append, Tlv.one_length] at this
        omega
      have : data = Tlv.Spec.one pt pv ++ (Tlv.Spec.seq l ++ Tlv.Spec.one t v ++ rest) := by
        rw [e]; simp [Tlv.Spec.seq]
      have h1 := (header pt pv (Tlv.Spec.seq l ++ Tlv.Spec.one t v ++ rest) hpv).1
      rw [← this, ht] at h1
      injection h1 with h1
      exact hb (pt, pv) (by simp) h1.symm
  · rintro ⟨r, e, hc, hn⟩
    refine ⟨[], r, by simpa [Tlv.Spec.seq] using e, by simp, hc, ?_⟩
    rw [hn]; simp only [Tlv.Spec.seq, List.flatMap_nil, List.nil_append]; exact (Tlv.one_length _ _).symm

theorem decSimple_spec (s : Sess) (o : Obj) (data : List Byte) (hlen : data.length < 2 ^ 32)
    (ht : byteToUint32 data = some o.code) :
    decSimple s o data ≠ .error .oob ∧ ∀ s' n, decSimple s o data = .ok (s', n) ↔
      ∃ v r, data = Tlv.Spec.one o.code v ++ r ∧ v.length ≤ capacity o ∧ n = 8 + v.length ∧ s' = store s v o := by
  have hp := parse_first o.code data (capacity o) hlen ht
  have hb := Tlv.parse_in_bounds o.code data hlen (capacity o)
  unfold decSimple
  cases h : Tlv.parse o.code data (capacity o) with
  | error e =>
    have : ∀ v n, ¬ ∃ r, data = Tlv.Spec.one o.code v ++ r ∧ v.length ≤ capacity o ∧ n = 8 + v.length := by
      intro v n hh
      have := (hp v n).mpr hh
      rw [h] at this; cases this
    have hne : e ≠ .oob := fun he => hb (by rw [h, he])
    cases e with
    | oob => exact absurd rfl hne
    | badParam =>
      refine ⟨by simp, fun s' n => ⟨fun hh => (by cases hh), ?_⟩⟩
      rintro ⟨v, r, e, hc, hn, _⟩; exact absurd ⟨r, e, hc, hn⟩ (this v n)
    | memcpyFail =>
      refine ⟨by simp, fun s' n => ⟨fun hh => (by cases hh), ?_⟩⟩
      rintro ⟨v, r, e, hc, hn, _⟩; exact absurd ⟨r, e, hc, hn⟩ (this v n)
    | noWantType =>
      refine ⟨by simp, fun s' n => ⟨fun hh => (by cases hh), ?_⟩⟩
      rintro ⟨v, r, e, hc, hn, _⟩; exact absurd ⟨r, e, hc, hn⟩ (this v n)
  | ok p =>
    obtain ⟨v, n⟩ := p
    obtain ⟨r, e1, e2, e3⟩ := (hp v n).mp h
    refine ⟨by simp, fun s' n' => ⟨fun hh => ?_, ?_⟩⟩
    · injection hh with hh
      injection hh with h1 h2
      exact ⟨v, r, e1, e2, h2 ▸ e3, h1.symm⟩
    · rintro ⟨v', r', f1, f2, f3, f4⟩
      have := (hp v' n').mpr ⟨r', f1, f2, f3⟩
      rw [h] at this
      injection this with this
      injection this with g1 g2
      rw [f4, g1, g2]

theorem decHostName_spec (s : Sess) (data : List Byte) (hlen : data.length < 2 ^ 32) (h8 : 8 ≤ data.length)
    (ht : byteToUint32 data = some Obj.hostName.code) :
    decHostName s data ≠ .error .oob ∧ ∀ s' n, decHostName s data = .ok (s', n) ↔
      ∃ v r, data = Tlv.Spec.one Obj.hostName.code v ++ r ∧ (v.length ≤ 255 ∧ v.getLast? = some 0#8) ∧ n = 8 + v.length ∧
        s' = store s v .hostName := by
  obtain ⟨t, l, e1, e2, e3⟩ := split_header data h8
  have hfirst : ∀ v r, data = Tlv.Spec.one Obj.hostName.code v ++ r → v.length = l.toNat := by
    intro v r h
    have hv : v.length < 2 ^ 32 := by
      rw [h, List.length_append, Tlv.one_length] at hlen; omega
    have := (header Obj.hostName.code v r hv).2.1
    rw [← h, e2] at this
    injection this with this
    rw [this, BitVec.toNat_ofNat, Nat.mod_eq_of_lt hv]
  unfold decHostName
  rw [e2]
  simp only
  by_cases hc : l.toNat > 0xff ∨ l.toNat = 0
  · rw [if_pos hc]
    refine ⟨by simp, fun s' n => ⟨fun hh => (by cases hh), ?_⟩⟩
    rintro ⟨v, r, h, ⟨h1, h2⟩, _⟩
    have := hfirst v r h
    cases v with
    | nil => cases h2
    | cons a b => simp only [List.length_cons] at this h1; omega
  · rw [if_neg hc]
    have hp := parse_first Obj.hostName.code data l.toNat hlen ht
    have hb := Tlv.parse_in_bounds Obj.hostName.code data hlen l.toNat
    cases h : Tlv.parse Obj.hostName.code data l.toNat with
    | error e =>
      have hno : ∀ s' n, ¬ ∃ v r, data = Tlv.Spec.one Obj.hostName.code v ++ r ∧
          (v.length ≤ 255 ∧ v.getLast? = some 0#8) ∧ n = 8 + v.length ∧ s' = store s v .hostName := by
        rintro s' n ⟨v, r, h1, h2, h3, _⟩
        have := (hp v n).mpr ⟨r, h1, Nat.le_of_eq (hfirst v r h1), h3⟩
        rw [h] at this; cases this
      have hne : e ≠ .oob := fun he => hb (by rw [h, he])
      cases e with
      | oob => exact absurd rfl hne
      | badParam => exact ⟨by simp, fun s' n => ⟨fun hh => (by cases hh), fun hh => absurd hh (hno s' n)⟩⟩
      | memcpyFail => exact ⟨by simp, fun s' n => ⟨fun hh => (by cases hh), fun hh => absurd hh (hno s' n)⟩⟩
      | noWantType => exact ⟨by simp, fun s' n => ⟨fun hh => (by cases hh), fun hh => absurd hh (hno s' n)⟩⟩
    | ok p =>
      obtain ⟨v, n⟩ := p
      obtain ⟨r, f1, f2, f3⟩ := (hp v n).mp h
      simp only
      have huniq : ∀ v' r', data = Tlv.Spec.one Obj.hostName.code v' ++ r' → v' = v := by
        intro v' r' h'
        have a1 : v'.length < 2 ^ 32 := by rw [h', List.length_append, Tlv.one_length] at hlen; omega
        have a2 : v.length < 2 ^ 32 := by rw [f1, List.length_append, Tlv.one_length] at hlen; omega
        exact (one_cancel a1 a2 (h'.symm.trans f1)).1
      by_cases hl : v.getLast? ≠ some 0#8
      · rw [if_pos hl]
        refine ⟨by simp, fun s' n' => ⟨fun hh => (by cases hh), ?_⟩⟩
        rintro ⟨v', r', g1, ⟨_, g2⟩, _⟩
        rw [huniq v' r' g1] at g2
        exact absurd g2 hl
      · rw [if_neg hl]
        have hl : v.getLast? = some 0#8 := Decidable.of_not_not hl
        refine ⟨by simp, fun s' n' => ⟨fun hh => ?_, ?_⟩⟩
        · injection hh with hh
          injection hh with h1 h2
          have := hfirst v r f1
          exact ⟨v, r, f1, ⟨by omega, hl⟩, h2 ▸ f3, h1.symm⟩
        · rintro ⟨v', r', g1, _, g3, g4⟩
          have := huniq v' r' g1
          subst this
          rw [g3, g4, f3]

theorem beVal3_lt (a b c : Byte) : beVal [a, b, c] < 2 ^ 24 := by
  have := beVal_lt [a, b, c]
  have e : 256 ^ [a, b, c].length = 2 ^ 24 := by rw [show [a, b, c].length = 3 from rfl]
  rwa [e] at this

theorem decPeerCert_spec (certOk : List Byte → Bool) (s : Sess) (data : List Byte) (hlen : data.length < 2 ^ 32)
    (h8 : 8 ≤ data.length) (ht : byteToUint32 data = some Obj.peerCert.code) :
    decPeerCert certOk s data ≠ .error .oob ∧ ∀ s' n, decPeerCert certOk s data = .ok (s', n) ↔
      ∃ v r, data = Tlv.Spec.one Obj.peerCert.code v ++ r ∧
        (∃ c, v = beBytes 3 c.length ++ c ∧ c.length < 2 ^ 24 ∧ certOk c = true) ∧ n = 8 + v.length ∧
        s' = store s (v.drop 3) .peerCert := by
  obtain ⟨t, l, e1, e2, e3⟩ := split_header data h8
  have ht' : t = Obj.peerCert.code := by rw [ht] at e1; injection e1 with e1; exact e1.symm
  subst ht'
  have hfirst : ∀ v r, data = Tlv.Spec.one Obj.peerCert.code v ++ r → v.length = l.toNat ∧ v.length ≤ data.length - 8 := by
    intro v r h
    have hl := congrArg List.length h
    rw [List.length_append, Tlv.one_length] at hl
    have hv : v.length < 2 ^ 32 := by omega
    have := (header Obj.peerCert.code v r hv).2.1
    rw [← h, e2] at this
    injection this with this
    refine ⟨?_, by omega⟩
    rw [this, BitVec.toNat_ofNat, Nat.mod_eq_of_lt hv]
  have hcert : ∀ v c : List Byte, v = beBytes 3 c.length ++ c → v.length = 3 + c.length ∧ v.drop 3 = c := by
    intro v c h
    rw [h, List.length_append, beBytes_length, List.drop_left' (beBytes_length _ _)]
    exact ⟨rfl, rfl⟩
  unfold decPeerCert
  rw [e2]
  simp only
  rw [Tlv.sub32_eq h8 hlen]
  by_cases hc : l.toNat = 0 ∨ l.toNat > data.length - 8
  · rw [if_pos hc]
    refine ⟨by simp, fun s' n => ⟨fun hh => (by cases hh), ?_⟩⟩
    rintro ⟨v, r, h, ⟨c, h1, _⟩, _⟩
    have := hfirst v r h
    have := (hcert v c h1).1
    omega
  · rw [if_neg hc, if_neg (by rw [List.length_drop]; omega)]
    obtain ⟨v, r, f1, f2⟩ := e3 (by omega)
    have hv32 : v.length < 2 ^ 32 := by rw [f1, List.length_append, Tlv.one_length] at hlen; omega
    have hd : (data.drop 8).take l.toNat = v := by
      rw [f1, (header _ v r hv32).2.2, ← f2, List.take_left]
    rw [hd]
    have huniq : ∀ v' r', data = Tlv.Spec.one Obj.peerCert.code v' ++ r' → v' = v := by
      intro v' r' h'
      have a1 : v'.length < 2 ^ 32 := by rw [h', List.length_append, Tlv.one_length] at hlen; omega
      exact (one_cancel a1 hv32 (h'.symm.trans f1)).1
    have hn : (l.toNat + 8) % 2 ^ 32 = 8 + v.length := by
      rw [f1, List.length_append, Tlv.one_length] at hlen
      rw [Nat.mod_eq_of_lt (by omega)]; omega
    rw [hn]
    unfold parseBufToCert
    by_cases h3 : v.length < 3
    · rw [if_pos h3]
      refine ⟨by simp, fun s' n => ⟨fun hh => (by cases hh), ?_⟩⟩
      rintro ⟨v', r', g1, ⟨c, g2, _⟩, _⟩
      have := huniq v' r' g1
      subst this
      have := (hcert v' c g2).1
      omega
    · rw [if_neg h3]
      obtain ⟨a, b, c, w, hw⟩ : ∃ a b c w, v = a :: b :: c :: w := by
        match v, h3 with
        | a :: b :: c :: w, _ => exact ⟨a, b, c, w, rfl⟩
        | [], h => exact absurd (by simp) h
        | [_], h => exact absurd (by simp) h
        | [_, _], h => exact absurd (by simp) h
      have hbe : beVal [a, b, c] < 2 ^ 24 := beVal3_lt a b c
      have h24 : byteToUint24 v = some (BitVec.ofNat 32 (beVal [a, b, c])) := by rw [hw, byteToUint24_spec]
      rw [h24]
      simp only
      rw [BitVec.toNat_ofNat, Nat.mod_eq_of_lt (by omega)]
      have hdw : v.drop 3 = w := by rw [hw]; rfl
      have hlw : v.length - 3 = w.length := by rw [hw]; simp
      rw [hdw, hlw]
      have hiff : (∃ c, v = beBytes 3 c.length ++ c ∧ c.length < 2 ^ 24 ∧ certOk c = true) ↔
          beVal [a, b, c] = w.length ∧ certOk w = true := by
        constructor
        · rintro ⟨x, x1, x2, x3⟩
          have hx : w = x := by rw [← hdw]; exact (hcert v x x1).2
          subst hx
          refine ⟨?_, x3⟩
          rw [hw] at x1
          have : [a, b, c] = beBytes 3 w.length := by
            have := List.append_inj (s₁ := [a, b, c]) (t₁ := w) x1 (by rw [beBytes_length]; rfl)
            exact this.1
          rw [this, beVal_beBytes, Nat.mod_eq_of_lt (by simpa using x2)]
        · rintro ⟨x1, x2⟩
          refine ⟨w, ?_, by omega, x2⟩
          have hb3 : beBytes 3 (beVal [a, b, c]) = [a, b, c] := beBytes_beVal [a, b, c]
          rw [← x1, hb3, hw]; rfl
      by_cases h5 : beVal [a, b, c] ≠ w.length
      · rw [if_pos h5]
        refine ⟨by simp, fun s' n => ⟨fun hh => (by cases hh), ?_⟩⟩
        rintro ⟨v', r', g1, g2, _⟩
        rw [huniq v' r' g1] at g2
        exact absurd (hiff.mp g2).1 h5
      · rw [if_neg h5]
        have h5 : beVal [a, b, c] = w.length := Decidable.of_not_not h5
        cases hok : certOk w with
        | false =>
          rw [if_neg (by simp)]
          refine ⟨by simp, fun s' n => ⟨fun hh => (by cases hh), ?_⟩⟩
          rintro ⟨v', r', g1, g2, _⟩
          rw [huniq v' r' g1] at g2
          have := (hiff.mp g2).2
          rw [hok] at this; cases this
        | true =>
          rw [if_pos rfl]
          refine ⟨by simp, fun s' n => ⟨fun hh => ?_, ?_⟩⟩
          · injection hh with hh
            injection hh with h1 h2
            exact ⟨v, r, f1, hiff.mpr ⟨h5, hok⟩, h2.symm, by rw [hdw, h1]⟩
          · rintro ⟨v', r', g1, _, g3, g4⟩
            have := huniq v' r' g1
            subst this
            rw [g3, g4, hdw]

/-- Every object: what is accepted, and its effect. -/
theorem decObj_spec (certOk : List Byte → Bool) (s : Sess) (o : Obj) (data : List Byte) (hlen : data.length < 2 ^ 32)
    (h8 : 8 ≤ data.length) (ht : byteToUint32 data = some o.code) :
    decObj certOk s o data ≠ .error .oob ∧ ∀ s' n, decObj certOk s o data = .ok (s', n) ↔
      ∃ v r, data = Tlv.Spec.one o.code v ++ r ∧ Spec.Admissible certOk o v ∧ n = 8 + v.length ∧
        s' = Spec.assign s (o, v) := by
  unfold decObj
  by_cases h1 : o = .peerCert
  · subst h1; rw [if_pos rfl]; exact decPeerCert_spec certOk s data hlen h8 ht
  by_cases h2 : o = .hostName
  · subst h2; rw [if_neg (by decide), if_pos rfl]; exact decHostName_spec s data hlen h8 ht
  rw [if_neg h1, if_neg h2]
  have h := decSimple_spec s o data hlen ht
  cases o <;> first | exact absurd rfl h1 | exact absurd rfl h2 | exact h

/-- The objects of a text against a list of expected types. -/
def Matches (certOk : List Byte → Bool) (os : List Obj) (data : List Byte) (s s' : Sess) : Prop :=
  ∃ items : List (Obj × List Byte), data = Spec.wire items ∧ List.Sublist (items.map (·.1)) os ∧
    (items.map (·.1)).getLast? = os.getLast? ∧ (∀ p ∈ items, Spec.Admissible certOk p.1 p.2) ∧
    s' = items.foldl Spec.assign s

theorem decLoop_spec (certOk : List Byte → Bool) (os : List Obj) (hn : os.Nodup) (data : List Byte)
    (hlen : data.length < 2 ^ 32) (s s' : Sess) :
    decLoop certOk os data s ≠ .error .oob ∧ (decLoop certOk os data s = .ok s' ↔ Matches certOk os data s s') := by
  induction os generalizing data s with
  | nil =>
    rw [decLoop]
    constructor
    · split <;> simp
    · constructor
      · intro h
        split at h
        · cases h
        rename_i h0
        injection h with h
        have : data = [] := List.length_eq_zero_iff.mp (by omega)
        exact ⟨[], by rw [this, wire_nil], by simp, by simp, by simp, by simp [h]⟩
      · rintro ⟨items, h1, h2, _, _, h5⟩
        have : items = [] := by
          have := List.sublist_nil.mp h2
          simpa using this
        subst this
        rw [h1, wire_nil, if_neg (by simp)]
        rw [h5]; rfl
  | cons o r ih =>
    rw [decLoop]
    have hnr : r.Nodup := (List.nodup_cons.mp hn).2
    have hor : o ∉ r := (List.nodup_cons.mp hn).1
    by_cases h8 : data.length < 8
    · rw [if_pos h8]
      refine ⟨by simp, fun h => (by cases h), ?_⟩
      rintro ⟨items, h1, h2, h3, _⟩
      cases items with
      | nil => simp [List.getLast?_cons] at h3
      | cons p q =>
        rw [h1, wire_cons, List.length_append, Tlv.one_length] at h8; omega
    · rw [if_neg h8]
      obtain ⟨t, l, e1, e2, e3⟩ := split_header data (by omega)
      rw [e1]
      simp only
      by_cases ht : o.code ≠ t
      · rw [if_pos ht]
        refine ⟨(ih hnr data hlen s).1, ?_⟩
        rw [(ih hnr data hlen s).2]
        constructor
        · rintro ⟨items, h1, h2, h3, h4, h5⟩
          refine ⟨items, h1, h2.cons o, ?_, h4, h5⟩
          rw [h3]
          cases r with
          | nil =>
            exfalso
            have : items = [] := by simpa using List.sublist_nil.mp h2
            rw [h1, this, wire_nil] at h8
            exact h8 (by decide)
          | cons a b => rw [List.getLast?_cons_cons]
        · rintro ⟨items, h1, h2, h3, h4, h5⟩
          cases items with
          | nil => rw [h1, wire_nil] at h8; exact absurd (by decide) h8
          | cons p q =>
            obtain ⟨po, pv⟩ := p
            have hpv : pv.length < 2 ^ 32 := by
              rw [h1, wire_cons, List.length_append, Tlv.one_length] at hlen; omega
            have hpo : po ≠ o := by
              intro hh
              have := (header po.code pv (Spec.wire q) hpv).1
              rw [← wire_cons, ← h1, e1] at this
              injection this with this
              exact ht (by rw [this, hh])
            refine ⟨(po, pv) :: q, h1, ?_, ?_, h4, h5⟩
            · cases h2 with
              | cons _ h => exact h
              | cons_cons _ h => exact absurd rfl hpo
            · rw [h3]
              cases r with
              | nil =>
                exfalso
                cases h2 with
                | cons _ h => have := List.sublist_nil.mp h; simp at this
                | cons_cons _ h => exact hpo rfl
              | cons a b => rw [List.getLast?_cons_cons]
      · rw [if_neg ht]
        have ht : t = o.code := (Decidable.of_not_not ht).symm
        rw [ht] at e1
        obtain ⟨d1, d2⟩ := decObj_spec certOk s o data hlen (by omega) e1
        cases hd : decObj certOk s o data with
        | error e =>
          refine ⟨fun hh => ?_, fun h => (by cases h), ?_⟩
          · injection hh with hh; exact d1 (by rw [hd, hh])
          · rintro ⟨items, h1, h2, h3, h4, h5⟩
            exfalso
            cases items with
            | nil => rw [h1, wire_nil] at h8; exact h8 (by decide)
            | cons p q =>
              obtain ⟨po, pv⟩ := p
              have hpv : pv.length < 2 ^ 32 := by
                rw [h1, wire_cons, List.length_append, Tlv.one_length] at hlen; omega
              have hpo : po = o := by
                have := (header po.code pv (Spec.wire q) hpv).1
                rw [← wire_cons, ← h1, e1] at this
                injection this with this
                exact (code_inj this).symm
              subst hpo
              have := (d2 _ _).mpr ⟨pv, Spec.wire q, by rw [h1, wire_cons], h4 (po, pv) (by simp), rfl, rfl⟩
              rw [hd] at this; cases this
        | ok res =>
          obtain ⟨s1, n⟩ := res
          obtain ⟨v, rest, f1, f2, f3, f4⟩ := (d2 s1 n).mp hd
          simp only
          have hl1 : (Tlv.Spec.one o.code v).length = n := by rw [Tlv.one_length, f3]
          have hle : ¬ n > data.length := by rw [f1, List.length_append, hl1]; omega
          rw [if_neg hle]
          have hdrop : data.drop n = rest := by rw [f1, List.drop_left' hl1]
          rw [hdrop]
          have hrl : rest.length < 2 ^ 32 := by rw [f1, List.length_append] at hlen; omega
          have hv32 : v.length < 2 ^ 32 := by rw [f1, List.length_append, Tlv.one_length] at hlen; omega
          refine ⟨(ih hnr rest hrl s1).1, ?_⟩
          rw [(ih hnr rest hrl s1).2]
          constructor
          · rintro ⟨items, h1, h2, h3, h4, h5⟩
            refine ⟨(o, v) :: items, by rw [wire_cons, f1, h1], ?_, ?_, ?_, ?_⟩
            · rw [List.map_cons]; exact List.Sublist.cons_cons o h2
            · rw [List.map_cons]
              cases r with
              | nil =>
                have : items = [] := by simpa using List.sublist_nil.mp h2
                subst this; rfl
              | cons a b =>
                cases items with
                | nil => simp [List.getLast?_cons] at h3
                | cons p q =>
                  rw [List.map_cons, List.getLast?_cons_cons, List.getLast?_cons_cons]
                  exact h3
            · intro p hp
              rcases List.mem_cons.mp hp with rfl | hp
              · exact f2
              · exact h4 p hp
            · rw [List.foldl_cons, ← f4, h5]
          · rintro ⟨items, h1, h2, h3, h4, h5⟩
            cases items with
            | nil => rw [h1, wire_nil] at h8; exact absurd (by decide) h8
            | cons p q =>
              obtain ⟨po, pv⟩ := p
              have hpv : pv.length < 2 ^ 32 := by
                rw [h1, wire_cons, List.length_append, Tlv.one_length] at hlen; omega
              have hpo : po = o := by
                have := (header po.code pv (Spec.wire q) hpv).1
                rw [← wire_cons, ← h1, e1] at this
                injection this with this
                exact (code_inj this).symm
              subst hpo
              have hcan := one_cancel hpv hv32 (by rw [← wire_cons, ← h1, f1])
              obtain ⟨rfl, hq⟩ := hcan
              refine ⟨q, hq.symm, ?_, ?_, fun p hp => h4 p (List.mem_cons_of_mem _ hp), ?_⟩
              · cases h2 with
                | cons _ h => exact absurd (h.subset (by simp)) hor
                | cons_cons _ h => exact h
              · rw [List.map_cons] at h3
                have hsub : List.Sublist (q.map (·.1)) r := by
                  cases h2 with
                  | cons _ h => exact absurd (h.subset (by simp)) hor
                  | cons_cons _ h => exact h
                cases r with
                | nil =>
                  have : q = [] := by simpa using List.sublist_nil.mp hsub
                  subst this; rfl
                | cons a b =>
                  cases q with
                  | nil =>
                    exfalso
                    rw [List.getLast?_cons_cons] at h3
                    have : (a :: b).getLast? = some po := by rw [← h3]; rfl
                    exact hor (List.mem_of_getLast? this)
                  | cons p' q' =>
                    rw [List.map_cons, List.getLast?_cons_cons, List.getLast?_cons_cons] at h3
                    rw [List.map_cons, h3]
              · rw [List.foldl_cons, ← f4] at h5; exact h5

/-- A serialisation determines its objects. -/
theorem wire_inj (a b : List (Obj × List Byte)) (hlen : (Spec.wire a).length < 2 ^ 32) (h : Spec.wire a = Spec.wire b) :
    a = b := by
  induction a generalizing b with
  | nil =>
    cases b with
    | nil => rfl
    | cons p q =>
      have := congrArg List.length h
      rw [wire_cons, List.length_append, Tlv.one_length, wire_nil, List.length_nil] at this; omega
  | cons p q ih =>
    obtain ⟨po, pv⟩ := p
    cases b with
    | nil =>
      have := congrArg List.length h
      rw [wire_cons, List.length_append, Tlv.one_length, wire_nil, List.length_nil] at this; omega
    | cons p' q' =>
      obtain ⟨po', pv'⟩ := p'
      have hl := congrArg List.length h
      rw [wire_cons, wire_cons, List.length_append, List.length_append, Tlv.one_length, Tlv.one_length] at hl
      rw [wire_cons, List.length_append, Tlv.one_length] at hlen
      rw [wire_cons, wire_cons] at h
      have h1 := (header po.code pv (Spec.wire q) (by omega)).1
      rw [h, (header po'.code pv' (Spec.wire q') (by omega)).1] at h1
      injection h1 with h1
      have ho := code_inj h1
      subst ho
      obtain ⟨rfl, hq⟩ := one_cancel (by omega) (by omega) h
      rw [ih q' (by omega) hq]

end Verif.Tls.Session
