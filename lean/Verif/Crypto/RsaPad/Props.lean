import Verif.Crypto.RsaPad.Proof2

/-!
# C32 — RSA paddings

The encodings of RFC 8017 are in `Spec.lean`.  `H` is the hash, `M` the hash of MGF1; both are arbitrary
functions with outputs of a fixed length of at most 64 bytes.
-/

namespace Verif.Crypto.RsaPad

open Verif.Common Verif.Bsl.Bytes Verif.Crypto.Modes Verif.Crypto.Kdf

/-- A small hash for the examples: the length, and the exclusive or of all bytes. -/
def toy : Hash where
  size := 2
  h := fun x => [BitVec.ofNat 8 x.length, x.foldl (· ^^^ ·) 0#8]
  pos := by decide
  len := fun _ => rfl

/-- C32. `CRYPT_Mgf1` is MGF1. -/
theorem mgf1_spec (H : Hash) (hs : H.size ≤ 64) (seed : List Byte) (n : Nat) (hn : 0 < n) :
    mgf1 H seed n = .ok (Spec.mgf1 H seed n) ∧ (Spec.mgf1 H seed n).length = n :=
  ⟨mgf1_ok H hs seed n hn, mgf_length H seed n⟩

example : Spec.mgf1 toy [5#8] 3 = [5#8, 5#8, 5#8] := by decide

/-! ## PSS -/

/-- The salt a signature uses: the one set by the caller, else a random one of the requested length (`k` is
the number of octets of the modulus). -/
def Spec.signSalt (rand : Nat → List Byte) (kat : Option (List Byte)) (saltLen hLen k : Nat) : Option (List Byte) :=
  match kat with
  | some s => some s
  | none =>
    if saltLen = saltHash then some (rand hLen)
    else if saltLen = saltMax ∨ saltLen = saltAuto then
      if hLen + 2 < k then some (rand (k - hLen - 2)) else none
    else some (rand saltLen)

theorem pickSalt_spec (rand : Nat → List Byte) (hr : ∀ n, (rand n).length = n) (kat : Option (List Byte))
    (saltLen hLen k : Nat) (salt : List Byte) :
    pickSalt rand kat saltLen hLen k = .ok salt ↔ Spec.signSalt rand kat saltLen hLen k = some salt := by
  cases kat with
  | some s => simp [pickSalt, Spec.signSalt]
  | none =>
    have h0 : rand 0 = [] := List.length_eq_zero_iff.1 (hr 0)
    unfold pickSalt Spec.signSalt genSalt
    dsimp only
    by_cases hz : saltLen = 0
    · subst hz
      simp [saltHash, saltMax, saltAuto, h0]
    · rw [if_pos hz]
      by_cases h1 : saltLen = saltHash
      · rw [if_pos h1, if_pos h1]; simp
      rw [if_neg h1, if_neg h1]
      by_cases h2 : saltLen = saltMax ∨ saltLen = saltAuto
      · rw [if_pos h2, if_pos h2]
        by_cases h3 : hLen + 2 < k
        · rw [if_neg (by omega), if_pos h3]; simp
        · rw [if_pos (by omega), if_neg h3]; simp
      · rw [if_neg h2, if_neg h2]; simp

/-- C32. PSS padding for a signature succeeds exactly when the modulus size is allowed, the digest has the
length of the hash, the buffer the length of the modulus and the salt fits; and it writes the RFC encoding. -/
theorem pss_sign (H M : Hash) (hH : H.size ≤ 64) (hM : M.size ≤ 64) (modBits : Nat) (rand : Nat → List Byte)
    (hr : ∀ n, (rand n).length = n) (kat : Option (List Byte)) (hkat : ∀ s, kat = some s → s.length ≤ 16384)
    (saltLen : Nat) (data : List Byte) (padLen : Nat) (hpl : padLen ≤ 16384) (pad : List Byte) :
    setPss H M modBits rand kat saltLen data padLen = .ok pad ↔
      512 ≤ modBits ∧ modBits ≤ 16384 ∧ data.length = H.size ∧ padLen = (modBits + 7) / 8 ∧
        ∃ salt, Spec.signSalt rand kat saltLen H.size padLen = some salt ∧
          Spec.pss H M modBits data salt = some pad := by
  unfold setPss
  have hps := pickSalt_spec rand hr kat saltLen H.size padLen
  have hne : ∀ salt, Spec.signSalt rand kat saltLen H.size padLen = some salt → salt.length ≠ saltAuto := by
    intro salt hs
    unfold Spec.signSalt at hs
    cases kat with
    | some s =>
      simp only [Option.some.injEq] at hs
      subst hs
      have := hkat s rfl
      unfold saltAuto; omega
    | none =>
      dsimp only at hs
      split at hs
      · injection hs with hs; rw [← hs, hr]; unfold saltAuto; omega
      · split at hs
        · split at hs
          · injection hs with hs; rw [← hs, hr]; unfold saltAuto; omega
          · cases hs
        · rename_i h2
          injection hs with hs; rw [← hs, hr]
          exact fun e => h2 (Or.inr e)
  cases hp : pickSalt rand kat saltLen H.size padLen with
  | error e =>
    simp only [bind, Except.bind]
    constructor
    · intro h; cases h
    · rintro ⟨-, -, -, -, salt, hs, -⟩
      rw [(hps salt).2 hs] at hp
      cases hp
  | ok salt =>
    simp only [bind, Except.bind]
    have hs := (hps salt).1 hp
    rw [pssEncode_eq H M hH hM modBits salt data padLen (hne salt hs)]
    constructor
    · rintro ⟨h1, h2, h3, h4, h5⟩; exact ⟨h1, h2, h3, h4, salt, hs, h5⟩
    · rintro ⟨h1, h2, h3, h4, s, hs', h5⟩
      rw [hs] at hs'
      injection hs' with hs'
      subst hs'
      exact ⟨h1, h2, h3, h4, h5⟩

/-- The salt lengths a verifier admits for its parameter; `k` is the number of octets of the modulus. -/
def Spec.saltAdmitted (saltLen hLen k n : Nat) : Prop :=
  if saltLen = saltHash then n = hLen
  else if saltLen = saltMax then n + hLen + 2 = k
  else saltLen = saltAuto ∨ n = saltLen

/-- C32. PSS verification accepts a block exactly when it is the RFC 8017 encoding of the digest under some
salt of an admitted length: every other block, of any content, is rejected. -/
theorem pss_verify (H M : Hash) (hH : H.size ≤ 64) (hM : M.size ≤ 64) (modBits saltLen : Nat)
    (data pad : List Byte) (hpl : pad.length < 2 ^ 31) :
    verifyPss H M modBits saltLen data pad = .ok () ↔
      512 ≤ modBits ∧ modBits ≤ 16384 ∧ data.length = H.size ∧ pad.length = (modBits + 7) / 8 ∧
        ∃ salt, Spec.saltAdmitted saltLen H.size pad.length salt.length ∧
          Spec.pss H M modBits data salt = some pad := by
  unfold verifyPss
  dsimp only
  -- admitted lengths
  have hadm : ∀ salt, 512 ≤ modBits → modBits ≤ 16384 → pad.length = (modBits + 7) / 8 →
      Spec.pss H M modBits data salt = some pad →
      (Spec.saltAdmitted saltLen H.size pad.length salt.length ↔
        (verifySalt saltLen H.size pad.length ≠ saltAuto →
          salt.length = verifySalt saltLen H.size pad.length)) := by
    intro salt hb hb2 hp hs
    have := spec_pss_room _ _ _ _ _ _ hs
    unfold Spec.saltAdmitted verifySalt
    by_cases h1 : saltLen = saltHash
    · rw [if_pos h1, if_pos h1]
      constructor
      · exact fun h _ => h
      · intro h; exact h (by unfold saltAuto; omega)
    rw [if_neg h1, if_neg h1]
    by_cases h2 : saltLen = saltMax
    · rw [if_pos h2, if_pos h2]
      have e : (pad.length + 2 ^ 32 - H.size - 2) % 2 ^ 32 = pad.length - H.size - 2 := by omega
      rw [e]
      constructor
      · intro h _; omega
      · intro h
        have := h (by unfold saltAuto; omega)
        omega
    rw [if_neg h2, if_neg h2]
    constructor
    · rintro (h | h) hn
      · exact absurd h hn
      · exact h
    · intro h
      by_cases ha : saltLen = saltAuto
      · exact Or.inl ha
      · exact Or.inr (h ha)
  constructor
  · intro hv
    cases hc : pssLengthCheck modBits H.size (verifySalt saltLen H.size pad.length) data.length pad.length with
    | error e => rw [hc] at hv; cases hv
    | ok u =>
      rw [hc] at hv
      simp only [bind, Except.bind] at hv
      by_cases ha : verifySalt saltLen H.size pad.length = saltAuto
      · rw [ha] at hc
        obtain ⟨h1, h2, h3, h4⟩ := (pssCheck_auto _ _ _ _ hH).1 hc
        obtain ⟨salt, hs, he⟩ := (core_iff H M hM modBits _ data pad h1 h4 (fun h => absurd ha h)).1 hv
        exact ⟨h1, h2, h3, h4, salt, (hadm salt h1 h2 h4 he).2 hs, he⟩
      · obtain ⟨h1, h2, h3, h4, h5⟩ := (pssCheck_ok _ _ _ _ _ ha hH).1 hc
        obtain ⟨salt, hs, he⟩ := (core_iff H M hM modBits _ data pad h1 h4 (fun _ => h5)).1 hv
        exact ⟨h1, h2, h3, h4, salt, (hadm salt h1 h2 h4 he).2 hs, he⟩
  · rintro ⟨h1, h2, h3, h4, salt, hs, he⟩
    have hs' := (hadm salt h1 h2 h4 he).1 hs
    have hroom := spec_pss_room _ _ _ _ _ _ he
    by_cases ha : verifySalt saltLen H.size pad.length = saltAuto
    · have hc := (pssCheck_auto modBits H.size data.length pad.length hH).2 ⟨h1, h2, h3, h4⟩
      rw [ha, hc]
      simp only [bind, Except.bind]
      exact (core_iff H M hM modBits _ data pad h1 h4 (fun h => absurd rfl h)).2 ⟨salt, fun h => absurd rfl h, he⟩
    · have hsl := hs' ha
      have hc := (pssCheck_ok modBits H.size _ data.length pad.length ha hH).2
        ⟨h1, h2, h3, h4, by rw [← hsl]; exact hroom⟩
      rw [hc]
      simp only [bind, Except.bind]
      exact (core_iff H M hM modBits _ data pad h1 h4 (fun _ => by rw [← hsl]; exact hroom)).2 ⟨salt, hs', he⟩

/-- C32. Every signature block made is accepted, by a verifier with the same salt parameter and by one that
recovers the salt length. -/
theorem pss_roundtrip (H M : Hash) (hH : H.size ≤ 64) (hM : M.size ≤ 64) (modBits : Nat) (rand : Nat → List Byte)
    (hr : ∀ n, (rand n).length = n) (saltLen : Nat) (data : List Byte) (padLen : Nat) (hpl : padLen ≤ 16384)
    (pad : List Byte) (h : setPss H M modBits rand none saltLen data padLen = .ok pad) :
    verifyPss H M modBits saltLen data pad = .ok () ∧ verifyPss H M modBits saltAuto data pad = .ok () := by
  obtain ⟨h1, h2, h3, h4, salt, h5, h6⟩ := (pss_sign H M hH hM modBits rand hr none (by simp) saltLen data padLen hpl
    pad).1 h
  have hroom := spec_pss_room _ _ _ _ _ _ h6
  have hlen : pad.length = (modBits + 7) / 8 := by
    unfold Spec.pss at h6
    dsimp only at h6
    rw [if_neg (by omega)] at h6
    injection h6 with h6
    rw [← h6, zeroLeft_eq _ (by omega)]
    rw [List.length_append, List.length_append, List.length_append, clr_length, H.len]
    have : (Spec.xor (List.replicate ((modBits - 1 + 7) / 8 - salt.length - H.size - 2) 0#8 ++ [1#8] ++ salt)
      (Spec.mgf1 M (H.h (List.replicate 8 0#8 ++ data ++ salt)) ((modBits - 1 + 7) / 8 - H.size - 1))).length =
        (modBits - 1 + 7) / 8 - H.size - 1 := by
      show (xorB _ _).length = _
      rw [xorB_length, mgf_length]
      simp only [List.length_append, List.length_replicate, List.length_singleton]
      omega
    rw [this]
    simp only [List.length_replicate, List.length_singleton]
    omega
  rw [pss_verify H M hH hM modBits saltLen data pad (by omega), pss_verify H M hH hM modBits saltAuto data pad (by omega)]
  refine ⟨⟨h1, h2, h3, hlen, salt, ?_, h6⟩, ⟨h1, h2, h3, hlen, salt, ?_, h6⟩⟩
  · unfold Spec.signSalt at h5
    dsimp only at h5
    unfold Spec.saltAdmitted
    split at h5
    · rename_i c; injection h5 with h5; rw [if_pos c, ← h5, hr]
    · rename_i c1
      rw [if_neg c1]
      split at h5
      · rename_i c2
        split at h5
        · injection h5 with h5
          by_cases c3 : saltLen = saltMax
          · rw [if_pos c3, ← h5, hr]; omega
          · rw [if_neg c3]; exact Or.inl (c2.resolve_left c3)
        · cases h5
      · rename_i c2
        injection h5 with h5
        rw [if_neg (fun e => c2 (Or.inl e))]
        right; rw [← h5, hr]
  · unfold Spec.saltAdmitted
    simp [saltAuto, saltHash, saltMax]

/-- Non-vacuity of `pss_sign`, `pss_verify`, `pss_roundtrip`: an encoding exists (also for a modulus of
513 bits, where the block starts with a zero octet). -/
example : (Spec.pss toy toy 512 [1#8, 2#8] [7#8, 8#8, 9#8]).isSome = true ∧
    ((Spec.pss toy toy 513 [1#8, 2#8] [7#8]).map (·.take 1)) = some [0#8] := by decide

example : ∃ pad, setPss toy toy 512 (fun n => List.replicate n 3#8) none saltHash [1#8, 2#8] 64 = .ok pad := by
  refine ⟨_, (pss_sign toy toy (by decide) (by decide) 512 _ (by simp) none (by simp) saltHash _ 64 (by decide) _).2
    ⟨by decide, by decide, rfl, by decide, List.replicate 2 3#8, ?_, rfl⟩⟩
  simp [Spec.signSalt, toy]

/-- Finding. For a modulus whose bit length is 1 more than a multiple of 8, the "maximal salt" parameter
always fails, at signing and at verifying: the salt length is computed from the length of the modulus, which
is one more than the length of the encoded message there. -/
theorem pss_max_fails (H M : Hash) (hH : H.size ≤ 64) (hM : M.size ≤ 64) (modBits : Nat) (rand : Nat → List Byte)
    (hr : ∀ n, (rand n).length = n) (data pad : List Byte) (padLen : Nat) (hpl : padLen ≤ 16384)
    (hp2 : pad.length < 2 ^ 31) (h8 : (modBits - 1) % 8 = 0) :
    (∀ p, setPss H M modBits rand none saltMax data padLen ≠ .ok p) ∧
      verifyPss H M modBits saltMax data pad ≠ .ok () := by
  constructor
  · intro p h
    obtain ⟨h1, h2, h3, h4, salt, h5, h6⟩ := (pss_sign H M hH hM modBits rand hr none (by simp) saltMax data padLen hpl
      p).1 h
    have hroom := spec_pss_room _ _ _ _ _ _ h6
    unfold Spec.signSalt at h5
    dsimp only at h5
    rw [if_neg (by decide), if_pos (Or.inl rfl)] at h5
    split at h5
    · injection h5 with h5
      have := congrArg List.length h5
      rw [hr] at this
      omega
    · cases h5
  · intro h
    obtain ⟨h1, h2, h3, h4, salt, h5, h6⟩ := (pss_verify H M hH hM modBits saltMax data pad hp2).1 h
    have hroom := spec_pss_room _ _ _ _ _ _ h6
    unfold Spec.saltAdmitted at h5
    rw [if_neg (by decide), if_pos rfl] at h5
    omega

/-- … although the RFC encoding with the longest salt exists for such a modulus. -/
example : (513 - 1) % 8 = 0 ∧ (Spec.pss toy toy 513 [1#8, 2#8] (List.replicate 60 7#8)).isSome = true := by decide

/-! ## ISO 9796-2 -/

/-- C32. ISO 9796-2: accepted exactly when the block is 6A ‖ (recoverable part ‖ hash) ‖ BC. -/
theorem iso_verify (hLen : Nat) (ml pad : List Byte) :
    verifyIso hLen ml pad = .ok () ↔ hLen ≤ ml.length ∧ pad = [0x6a#8] ++ ml ++ [0xbc#8] := by
  unfold verifyIso
  constructor
  · intro h
    split at h
    · cases h
    split at h
    · cases h
    split at h
    · cases h
    split at h
    · cases h
    rename_i h1 h2 h3 h4
    have h2' : ml.length = pad.length - 2 := not_not.1 h2
    have h4' := not_not.1 h4
    obtain ⟨a, r, rfl⟩ : ∃ a r, pad = a :: r := List.exists_cons_of_ne_nil (by intro e; rw [e] at h1; simp at h1)
    simp only [List.length_cons] at h1 h2'
    obtain ⟨q, l, rfl, hq⟩ := last_split r (r.length - 1) (by omega)
    simp only [List.length_append, List.length_singleton] at hq h1 h2'
    have hg : (a :: (q ++ [l])).getLast? = some l := by
      rw [← List.cons_append]; exact List.getLast?_concat
    rw [hg] at h3
    simp only [List.head?_cons, not_or, not_not, Option.some.injEq] at h3
    rw [List.drop_succ_cons, List.drop_zero, List.take_left' (by omega)] at h4'
    subst h4'
    refine ⟨by omega, ?_⟩
    rw [h3.1, h3.2]; simp
  · rintro ⟨h1, rfl⟩
    have hg : ([0x6a#8] ++ ml ++ [0xbc#8]).getLast? = some 0xbc#8 := List.getLast?_concat
    rw [if_neg (by simp; omega), if_neg (by simp), if_neg (by rw [hg]; simp), if_neg]
    simp

/-- C32. ISO 9796-2 padding is accepted. -/
theorem iso_roundtrip (hLen : Nat) (ml old pad : List Byte) (h : setIso hLen ml old = .ok pad) :
    verifyIso hLen ml pad = .ok () := by
  rw [iso_verify]
  unfold setIso at h
  split at h
  · cases h
  split at h
  · cases h
  split at h
  · cases h
  rename_i h1 h2 h3
  have h2' := not_not.1 h2
  injection h with h
  refine ⟨by omega, ?_⟩
  rw [← h]
  have : old.length - 2 - ml.length = 0 := by omega
  rw [this]
  simp

example : setIso 2 [1#8, 2#8, 3#8] (List.replicate 5 0#8) = .ok [0x6a#8, 1#8, 2#8, 3#8, 0xbc#8] := by decide

/-! ## PKCS#1 v1.5 signatures -/

/-- C32. The padding written for a digest is the EMSA-PKCS1-v1_5 encoding with the DER `DigestInfo`. -/
theorem type1_sign (id : MdId) (hid : id ≠ .other) (d : List Byte) (hd : d.length = Spec.hashSize id) (k : Nat)
    (hk : k ≤ 2048) (pad : List Byte) :
    setType1 id d k = .ok pad ↔ Spec.type1 id d k = some pad := setType1_eq id hid d hd k hk pad

/-- C32. Verification accepts that one block and nothing else. -/
theorem type1_verify (id : MdId) (hid : id ≠ .other) (d pad : List Byte) (hd : d.length = Spec.hashSize id)
    (hk : pad.length ≤ 2048) :
    verifyType1 id pad d = .ok () ↔ Spec.type1 id d pad.length = some pad := by
  have hpos : d.length ≠ 0 := by
    rw [hd]; cases id <;> simp [Spec.hashSize] at hid ⊢
  unfold verifyType1
  by_cases hp : pad.length = 0
  · rw [if_pos (Or.inl hp)]
    constructor
    · intro h; cases h
    · intro h
      unfold Spec.type1 at h
      dsimp only at h
      rw [if_pos (by omega)] at h
      cases h
  · rw [if_neg (by omega)]
    rw [← setType1_eq id hid d hd pad.length hk pad]
    cases hs : setType1 id d pad.length with
    | error e =>
      simp only [bind, Except.bind]
      constructor <;> intro h <;> cases h
    | ok b =>
      simp only [bind, Except.bind]
      constructor
      · intro h
        split at h
        · cases h
        · rename_i hb; rw [not_not.1 hb]
      · intro h
        injection h with h
        rw [if_neg (by simp [h])]

/-- C32. No block is accepted for two different (hash, digest) pairs. -/
theorem type1_unique (i j : MdId) (hi : i ≠ .other) (hj : j ≠ .other) (d e pad : List Byte)
    (hd : d.length = Spec.hashSize i) (he : e.length = Spec.hashSize j) (hk : pad.length ≤ 2048)
    (h1 : verifyType1 i pad d = .ok ()) (h2 : verifyType1 j pad e = .ok ()) : i = j ∧ d = e := by
  rw [type1_verify i hi d pad hd hk] at h1
  rw [type1_verify j hj e pad he hk] at h2
  unfold Spec.type1 at h1 h2
  dsimp only at h1 h2
  split at h1
  · cases h1
  split at h2
  · cases h2
  injection h1 with h1
  injection h2 with h2
  have h3 := h1.trans h2.symm
  simp only [List.cons_append, List.nil_append, List.append_assoc, List.cons.injEq, true_and] at h3
  obtain ⟨-, h4⟩ := ff_unique _ _ _ _ h3
  exact digestInfo_inj i j hi hj d e hd he h4

/-- C32. Message recovery gives exactly the digest of an acceptable block. -/
theorem type1_recover (id : MdId) (hid : id ≠ .other) (em : List Byte) (cap : Nat) (hk : em.length ≤ 2048)
    (hcap : Spec.hashSize id ≤ cap) (d : List Byte) :
    unpackType1 id em cap = .ok d ↔ d.length = Spec.hashSize id ∧ Spec.type1 id d em.length = some em := by
  have hpos : Spec.hashSize id ≠ 0 := by cases id <;> simp [Spec.hashSize] at hid ⊢
  unfold unpackType1
  dsimp only
  rw [mdSize_eq]
  by_cases hs : Spec.hashSize id > em.length
  · rw [if_pos (Or.inr hs)]
    constructor
    · intro h; cases h
    · rintro ⟨h1, h2⟩
      exfalso
      obtain ⟨alg, -, ha, -⟩ := identifier_spec id hid d h1
      unfold Spec.type1 at h2
      dsimp only at h2
      rw [if_pos] at h2
      · cases h2
      · rw [← ha, List.length_append]; omega
  · rw [if_neg (by omega)]
    have hcl : (em.drop (em.length - Spec.hashSize id)).length = Spec.hashSize id := by
      rw [List.length_drop]; omega
    have hv := type1_verify id hid (em.drop (em.length - Spec.hashSize id)) em hcl hk
    constructor
    · intro h
      cases hc : verifyType1 id em (em.drop (em.length - Spec.hashSize id)) with
      | error e => rw [hc] at h; cases h
      | ok u =>
        rw [hc] at h
        simp only [bind, Except.bind] at h
        rw [if_neg (by omega)] at h
        injection h with h
        rw [← h]
        exact ⟨hcl, hv.1 hc⟩
    · rintro ⟨h1, h2⟩
      have hd : em.drop (em.length - Spec.hashSize id) = d := by
        obtain ⟨alg, -, ha, -⟩ := identifier_spec id hid d h1
        unfold Spec.type1 at h2
        dsimp only at h2
        split at h2
        · cases h2
        injection h2 with h2
        rw [← ha, ← List.append_assoc] at h2
        have hl := congrArg List.length h2
        rw [List.length_append, h1] at hl
        generalize [0#8, 1#8] ++ _ ++ [0#8] ++ alg = x at h2 hl
        subst h2
        exact List.drop_left' (by rw [List.length_append, h1]; omega)
      rw [hd] at hv ⊢
      rw [hv.2 h2]
      simp only [bind, Except.bind]
      rw [if_neg (by omega)]

example : (Spec.type1 .sha256 (List.replicate 32 7#8) 64).isSome = true := by decide
example : Spec.digestInfo .md5 (List.replicate 16 7#8) =
    [0x30, 0x20, 0x30, 0x0c, 0x06, 0x08, 0x2a, 0x86, 0x48, 0x86, 0xf7, 0x0d, 0x02, 0x05, 0x05, 0x00, 0x04, 0x10] ++
      List.replicate 16 7#8 := by decide

/-! ## OAEP -/

/-- C32. OAEP padding writes the RFC encoding. -/
theorem oaep_encrypt (H M : Hash) (hH : H.size ≤ 64) (hM : M.size ≤ 64) (label seed msg : List Byte) (k : Nat)
    (hk : k ≤ 2048) (hs : seed.length = H.size) (pad : List Byte) :
    setOaep H M label seed msg k = .ok pad ↔ Spec.oaep H M label seed msg k = some pad :=
  setOaep_eq H M hH hM label seed msg k hk hs pad

/-- C32. The branch-free OAEP decoder, for every block `inp` of an allowed length and every output buffer:
either `inp` is the RFC encoding of a message that fits, under some seed, and that message is delivered; or
the decoder reports failure and leaves the output buffer and its length as they were. -/
theorem oaep_decrypt (H M : Hash) (hH : H.size ≤ 64) (hM : M.size ≤ 64) (label inp buf : List Byte)
    (hk : 2 * H.size + 2 ≤ inp.length) (hk2 : inp.length ≤ 2048) (hbuf : 0 < buf.length) (hb2 : buf.length < 2 ^ 32) :
    (∃ seed m, Spec.oaep H M label seed m inp.length = some inp ∧ m.length ≤ buf.length ∧
      verifyOaep H M label inp buf = ⟨none, m ++ buf.drop m.length, m.length⟩) ∨
    ((∀ seed m, Spec.oaep H M label seed m inp.length = some inp → buf.length < m.length) ∧
      verifyOaep H M label inp buf = ⟨some .norVerify, buf, buf.length⟩) := by
  obtain ⟨b0, r, rfl⟩ : ∃ a r, inp = a :: r := List.exists_cons_of_ne_nil (by intro e; rw [e] at hk; simp at hk)
  have hrl : H.size ≤ r.length := by simp only [List.length_cons] at hk; omega
  obtain ⟨ms, mdb, rfl, hms, -⟩ := split_at r H.size hrl
  rcases verifyOaep_cases H M hH hM label ms mdb buf b0 hms hk hk2 hbuf hb2 with ⟨n, m, h1, h2, h3, h4⟩ | ⟨h1, h2⟩
  · left
    obtain ⟨seed, hs⟩ := (oaep_inv H M label ms mdb m b0 hms).2 ⟨h1, n, h2⟩
    exact ⟨seed, m, hs, h3, h4⟩
  · right
    refine ⟨?_, h2⟩
    intro seed m hs
    obtain ⟨e1, n, e2⟩ := (oaep_inv H M label ms mdb m b0 hms).1 ⟨seed, hs⟩
    exact h1 n m e1 e2

/-- C32. Blocks too short or too long for OAEP, and an empty output buffer, are refused without output. -/
theorem oaep_refuse (H M : Hash) (label inp buf : List Byte)
    (h : inp.length < 2 * H.size + 2 ∨ 2048 < inp.length ∨ buf.length = 0) :
    ∃ e, e ≠ .oob ∧ verifyOaep H M label inp buf = ⟨some e, buf, buf.length⟩ := by
  unfold verifyOaep
  by_cases h1 : inp.length ≤ H.size + 1
  · rw [if_pos h1]; exact ⟨_, by decide, rfl⟩
  · rw [if_neg h1]
    have hck : oaepVerifyCheck buf.length inp.length H.size = .error .inputValue ∨
        oaepVerifyCheck buf.length inp.length H.size = .error .buffLen := by
      unfold oaepVerifyCheck maxLen maxMd
      by_cases c1 : inp.length > 2048 ∨ H.size > 64
      · rw [if_pos c1]; left; rfl
      rw [if_neg c1]
      by_cases c2 : buf.length = 0 ∨ H.size = 0 ∨ inp.length = 0
      · rw [if_pos c2]; left; rfl
      rw [if_neg c2, if_pos (by omega)]
      right; rfl
    rcases hck with hck | hck <;> rw [hck] <;> exact ⟨_, by decide, rfl⟩

/-- C32. Decoding gives back the encoded message. -/
theorem oaep_roundtrip (H M : Hash) (hH : H.size ≤ 64) (hM : M.size ≤ 64) (label seed msg buf pad : List Byte)
    (k : Nat) (hk : k ≤ 2048) (hs : seed.length = H.size) (h : setOaep H M label seed msg k = .ok pad)
    (hbuf : msg.length ≤ buf.length) (hb0 : 0 < buf.length) (hb2 : buf.length < 2 ^ 32) :
    verifyOaep H M label pad buf = ⟨none, msg ++ buf.drop msg.length, msg.length⟩ := by
  rw [oaep_encrypt H M hH hM label seed msg k hk hs pad] at h
  have hk1 : msg.length + 2 * H.size + 2 ≤ k := by
    by_contra hc
    unfold Spec.oaep at h
    rw [if_pos (by omega)] at h
    cases h
  have hpl : pad.length = k := by
    unfold Spec.oaep at h
    rw [if_neg (by omega)] at h
    injection h with h
    rw [← h]
    change (([0#8] ++ xorB _ _) ++ xorB _ _).length = k
    rw [List.length_append, List.length_append, xorB_length, xorB_length, mgf_length, mgf_length]
    simp only [List.length_append, List.length_replicate, List.length_singleton, H.len]
    omega
  obtain ⟨b0, r, rfl⟩ : ∃ a r, pad = a :: r := List.exists_cons_of_ne_nil (by
    intro e; rw [e] at hpl; simp at hpl; omega)
  have hrl : H.size ≤ r.length := by simp only [List.length_cons] at hpl; omega
  obtain ⟨ms, mdb, rfl, hms, -⟩ := split_at r H.size hrl
  rw [← hpl] at h
  obtain ⟨e1, n, e2⟩ := (oaep_inv H M label ms mdb msg b0 hms).1 ⟨seed, h⟩
  rcases verifyOaep_cases H M hH hM label ms mdb buf b0 hms (by omega) (by omega) hb0 hb2 with
    ⟨n', m, h1, h2, h3, h4⟩ | ⟨h1, h2⟩
  · rw [e2] at h2
    have := List.append_cancel_left h2
    obtain ⟨-, -, rfl⟩ := zeros_unique _ _ _ _ _ _ (by decide) (by decide) this
    exact h4
  · exact absurd (h1 n msg e1 e2) (by omega)

example : (Spec.oaep toy toy [1#8] [4#8, 5#8] [9#8, 9#8] 12).isSome = true := by decide
example : ∃ pad, setOaep toy toy [1#8] [4#8, 5#8] [9#8, 9#8] 12 = .ok pad :=
  ⟨_, (oaep_encrypt toy toy (by decide) (by decide) [1#8] [4#8, 5#8] [9#8, 9#8] 12 (by decide) rfl _).2 rfl⟩

/-! ## PKCS#1 v1.5 encryption -/

/-- C32. A block written is of the required form and of the length of the modulus. -/
theorem type2_encrypt (rand : Nat → List Byte) (hr : ∀ n, (rand n).length = n) (rnd msg : List Byte) (k : Nat)
    (em : List Byte) (h : setType2 rand rnd msg k = .ok em) : Spec.Type2 em msg ∧ em.length = k := by
  unfold setType2 at h
  by_cases c1 : msg.length + 11 > k
  · rw [if_pos c1] at h; cases h
  rw [if_neg c1] at h
  dsimp only at h
  rw [if_neg (by omega)] at h
  cases hf : fixPs rnd (rand (k - msg.length - 3)) with
  | error e => rw [hf] at h; cases h
  | ok ps =>
    rw [hf] at h
    simp only [bind, Except.bind, Except.ok.injEq] at h
    obtain ⟨h1, h2⟩ := fixPs_ok _ _ _ hf
    rw [hr] at h1
    refine ⟨⟨ps, h.symm, by omega, h2⟩, ?_⟩
    rw [← h]
    simp only [List.length_append, List.length_cons, List.length_nil]
    omega

/-- C32. A message that fits is encoded whenever the random source delivers enough non-zero bytes. -/
theorem type2_encrypt_ok (rand : Nat → List Byte) (rnd msg : List Byte) (k : Nat) (hk : msg.length + 11 ≤ k)
    (hn : ∀ n, ∀ b ∈ rand n, b ≠ 0#8) : ∃ em, setType2 rand rnd msg k = .ok em := by
  have hf : ∀ ps : List Byte, (∀ b ∈ ps, b ≠ 0#8) → fixPs rnd ps = .ok ps := by
    intro ps
    induction ps with
    | nil => intro _; rfl
    | cons p ps ih =>
      intro h
      rw [fixPs, if_pos (h p (by simp)), ih (fun b hb => h b (by simp [hb]))]
      rfl
  unfold setType2
  rw [if_neg (by omega)]
  dsimp only
  rw [if_neg (by omega), hf _ (hn _)]
  exact ⟨_, rfl⟩

/-- C32. The branch-free decoder: either the block has the form 00 02 PS 00 M with at least eight non-zero
padding bytes and a message that fits, and M is delivered; or failure is reported and nothing is written. -/
theorem type2_decrypt (inp buf : List Byte) (h2 : 2 ≤ inp.length) (hl : inp.length < 2 ^ 32) :
    (∃ m, Spec.Type2 inp m ∧ m.length ≤ buf.length ∧
      verifyType2 inp buf = ⟨none, m ++ buf.drop m.length, m.length⟩) ∨
    ((∀ m, Spec.Type2 inp m → buf.length < m.length) ∧
      verifyType2 inp buf = ⟨some .norVerify, buf, buf.length⟩) := verifyType2_cases inp buf h2 hl

/-- C32. The TLS variant delivers the same messages (zero-filled up to the buffer length); for a malformed
block it reports failure, and the buffer holds only zeros: nothing of the block shows in it. -/
theorem type2_tls (inp buf : List Byte) (h2 : 2 ≤ inp.length) (hl : inp.length < 2 ^ 32) (hb : buf.length < 2 ^ 32) :
    (∃ m, Spec.Type2 inp m ∧ m.length ≤ buf.length ∧
      verifyType2Tls inp buf = ⟨none, m ++ List.replicate (buf.length - m.length) 0#8, m.length⟩) ∨
    ((∀ m, Spec.Type2 inp m → buf.length < m.length) ∧
      verifyType2Tls inp buf = ⟨some .norVerify, List.replicate buf.length 0#8, buf.length⟩) :=
  verifyType2Tls_cases inp buf h2 hl hb

/-- C32. What has been encoded is decoded to the same message, by both decoders. -/
theorem type2_roundtrip (rand : Nat → List Byte) (hr : ∀ n, (rand n).length = n) (rnd msg buf : List Byte) (k : Nat)
    (em : List Byte) (h : setType2 rand rnd msg k = .ok em) (hk : k < 2 ^ 32) (hb : msg.length ≤ buf.length)
    (hb2 : buf.length < 2 ^ 32) :
    verifyType2 em buf = ⟨none, msg ++ buf.drop msg.length, msg.length⟩ ∧
      verifyType2Tls em buf = ⟨none, msg ++ List.replicate (buf.length - msg.length) 0#8, msg.length⟩ := by
  obtain ⟨ht, hl⟩ := type2_encrypt rand hr rnd msg k em h
  have h2 : 2 ≤ em.length := by
    obtain ⟨ps, e, -, -⟩ := ht
    rw [e]; simp
  constructor
  · rcases type2_decrypt em buf h2 (by omega) with ⟨m, h1, -, h3⟩ | ⟨h1, -⟩
    · rw [type2_unique em m msg h1 ht] at h3; exact h3
    · exact absurd (h1 msg ht) (by omega)
  · rcases type2_tls em buf h2 (by omega) hb2 with ⟨m, h1, -, h3⟩ | ⟨h1, -⟩
    · rw [type2_unique em m msg h1 ht] at h3; exact h3
    · exact absurd (h1 msg ht) (by omega)

example : setType2 (fun n => (0#8 :: List.replicate (n - 1) 5#8)) [0#8, 0#8, 6#8] [1#8, 0#8] 13 =
    .ok [0#8, 2#8, 6#8, 5#8, 5#8, 5#8, 5#8, 5#8, 5#8, 5#8, 0#8, 1#8, 0#8] := by decide
example : verifyType2 [0#8, 2#8, 6#8, 5#8, 5#8, 5#8, 5#8, 5#8, 5#8, 5#8, 0#8, 1#8, 0#8] [7#8, 7#8, 7#8] =
    ⟨none, [1#8, 0#8, 7#8], 2⟩ := by decide
example : verifyType2Tls [0#8, 2#8, 6#8, 5#8, 5#8, 5#8, 5#8, 5#8, 5#8, 0#8, 0#8, 1#8, 0#8] [7#8, 7#8, 7#8] =
    ⟨some .norVerify, [0#8, 0#8, 0#8], 3⟩ := by decide

end Verif.Crypto.RsaPad
