import Verif.Crypto.Chacha.Aead

/-!
# C31: ChaCha20, Poly1305 and ChaCha20-Poly1305 are RFC 8439

The specification is `Spec.lean`: a 4 × 4 matrix with column and diagonal rounds, Horner evaluation modulo
`2^130 - 5`, and the AEAD construction.  The theorems quantify over all keys, nonces, additional data,
messages and ways of cutting a message into calls.
-/

namespace Verif.Crypto.Chacha

open Verif.Common

/-! ## ChaCha20 -/

/-- Feeding pieces to the stream cipher; stops at the first refusal. -/
def streamAll : Ctx → List (List Byte) → Ctx × Except Err (List Byte)
  | c, [] => (c, .ok [])
  | c, d :: ds =>
    match update c d with
    | (c1, .error e) => (c1, .error e)
    | (c1, .ok o) => match streamAll c1 ds with
      | (c2, .error e) => (c2, .error e)
      | (c2, .ok os) => (c2, .ok (o ++ os))

theorem streamAll_inv (key nonce : List Byte) (hk : key.length = 32) (hn : nonce.length = 12) (c0 : Nat)
    (ds : List (List Byte)) : ∀ (n : Nat) (c : Ctx), Inv key nonce c0 n c → (∀ d ∈ ds, d ≠ [] ∧ d.length < 2 ^ 32) →
      c0 + nb (n + ds.flatten.length) ≤ 2 ^ 32 →
      ∃ c', streamAll c ds = (c', .ok (Spec.crypt key nonce c0 n ds.flatten)) ∧ Inv key nonce c0 (n + ds.flatten.length) c' := by
  induction ds with
  | nil => intro n c h _ _; exact ⟨c, rfl, h⟩
  | cons d ds ih =>
    intro n c h hd hle
    rw [List.flatten_cons, List.length_append] at hle
    obtain ⟨hd1, hd2⟩ := hd d (List.mem_cons_self ..)
    obtain ⟨hu, -⟩ := update_spec key nonce hk hn c0 n c d h hd1 hd2
    obtain ⟨c1, e1, h1⟩ := hu (by unfold nb at *; omega)
    obtain ⟨c2, e2, h2⟩ := ih (n + d.length) c1 h1 (fun x hx => hd x (List.mem_cons_of_mem _ hx))
      (by rw [Nat.add_assoc]; exact hle)
    refine ⟨c2, ?_, ?_⟩
    · unfold streamAll
      rw [e1]
      dsimp only
      rw [e2, List.flatten_cons, crypt_append]
    · rw [List.flatten_cons, List.length_append, ← Nat.add_assoc]; exact h2

/-- A context in which `key`, `nonce` and the start block `cnt` (4 bytes, little endian) have been set. -/
def Started (key nonce cnt : List Byte) (c : Ctx) : Prop :=
  ∃ c0 c1 c2, setKey c0 key = (c1, .ok ()) ∧ setNonce c1 nonce = (c2, .ok ()) ∧ setCount c2 cnt = (c, .ok ())

/-- **C31.**  ChaCha20 is the RFC 8439 key stream: from any start block, and however the message is cut into
calls, byte `i` of the output is byte `i` of the input xor byte `i` of the key stream. -/
theorem chacha20_stream (key nonce cnt : List Byte) (c : Ctx) (hk : key.length = 32) (hn : nonce.length = 12)
    (hc : cnt.length = 4) (hs : Started key nonce cnt c) (ds : List (List Byte)) (hd : ∀ d ∈ ds, d ≠ [] ∧ d.length < 2 ^ 32)
    (hle : leVal cnt + (ds.flatten.length + 63) / 64 ≤ 2 ^ 32) :
    ∃ c', streamAll c ds = (c', .ok (Spec.crypt key nonce (leVal cnt) 0 ds.flatten)) := by
  obtain ⟨c0, c1, c2, e1, e2, e3⟩ := hs
  obtain ⟨d1, d2, d3, f1, f2, f3, h⟩ := start_inv c0 key nonce cnt hk hn hc
  rw [e1] at f1; cases f1
  rw [e2] at f2; cases f2
  rw [e3] at f3; cases f3
  obtain ⟨c', e, -⟩ := streamAll_inv key nonce hk hn _ ds 0 c h hd (by rw [Nat.zero_add]; exact hle)
  exact ⟨c', e⟩

/-- **C31.**  The 32-bit block counter never wraps: after any successful calls, a call is refused, and changes
nothing, exactly when it would need a block number beyond `2^32 - 1`. -/
theorem chacha20_limit (key nonce cnt : List Byte) (c : Ctx) (hk : key.length = 32) (hn : nonce.length = 12)
    (hc : cnt.length = 4) (hs : Started key nonce cnt c) (ds : List (List Byte)) (hd : ∀ d ∈ ds, d ≠ [] ∧ d.length < 2 ^ 32)
    (hle : leVal cnt + (ds.flatten.length + 63) / 64 ≤ 2 ^ 32) (d : List Byte) (hd0 : d ≠ []) (hdl : d.length < 2 ^ 32) :
    let c' := (streamAll c ds).1
    if leVal cnt + (ds.flatten.length + d.length + 63) / 64 ≤ 2 ^ 32 then
      (update c' d).2 = .ok (Spec.crypt key nonce (leVal cnt) ds.flatten.length d)
    else update c' d = (c', .error .overflow) := by
  obtain ⟨c0, c1, c2, e1, e2, e3⟩ := hs
  obtain ⟨d1, d2, d3, f1, f2, f3, h⟩ := start_inv c0 key nonce cnt hk hn hc
  rw [e1] at f1; cases f1
  rw [e2] at f2; cases f2
  rw [e3] at f3; cases f3
  obtain ⟨c', e, h'⟩ := streamAll_inv key nonce hk hn _ ds 0 c h hd (by rw [Nat.zero_add]; exact hle)
  rw [Nat.zero_add] at h'
  obtain ⟨u1, u2⟩ := update_spec key nonce hk hn _ _ c' d h' hd0 hdl
  dsimp only
  rw [e]
  split
  · rename_i hh
    obtain ⟨c'', ec, -⟩ := u1 hh
    rw [ec]
  · rename_i hh
    exact u2 (by unfold nb; omega)

/-- Decryption is encryption: applying the stream twice gives the message back. -/
theorem chacha20_involution (key nonce : List Byte) (c0 n : Nat) (d : List Byte) :
    Spec.crypt key nonce c0 n (Spec.crypt key nonce c0 n d) = d := crypt_crypt key nonce c0 n d

/-! ## Poly1305 -/

/-- Feeding pieces to the authenticator. -/
def polyAll : Poly → List (List Byte) → Option Poly
  | p, [] => some p
  | p, d :: ds => (polyUpdate p d).bind fun p' => polyAll p' ds

/-- **C31.**  The limb arithmetic computes Poly1305: for every 32-byte key and every message, however cut into
calls, no write leaves the buffer and the tag is `((Σ block · r^…) mod (2^130 - 5) + s) mod 2^128`. -/
theorem poly1305_correct (key : List Byte) (hk : key.length = 32) (ds : List (List Byte))
    (hd : ∀ d ∈ ds, d.length < 2 ^ 32) :
    (polyAll (polySetKey key) ds).bind polyFinal = some (Spec.poly1305 key ds.flatten) := by
  have : ∀ (ds : List (List Byte)) (p : Poly) (msg : List Byte), (∀ d ∈ ds, d.length < 2 ^ 32) → PInv key msg p →
      ∃ p', polyAll p ds = some p' ∧ PInv key (msg ++ ds.flatten) p' := by
    intro ds
    induction ds with
    | nil => intro p msg _ h; exact ⟨p, rfl, by rw [List.flatten_nil, List.append_nil]; exact h⟩
    | cons d ds ih =>
      intro p msg hd h
      obtain ⟨p1, e1, h1⟩ := polyUpdate_inv key msg d p h (hd d (List.mem_cons_self ..))
      obtain ⟨p2, e2, h2⟩ := ih p1 _ (fun x hx => hd x (List.mem_cons_of_mem _ hx)) h1
      refine ⟨p2, ?_, ?_⟩
      · unfold polyAll; rw [e1]; exact e2
      · rw [List.flatten_cons, ← List.append_assoc]; exact h2
  obtain ⟨p', e, h⟩ := this ds (polySetKey key) [] hd (polySetKey_inv key hk)
  rw [e]
  exact polyFinal_spec key _ p' h

/-! ## The AEAD -/

/-- A context after `Init`, additional data and, when decrypting, `SET_TAG`. -/
def Ready (key iv aad : List Byte) (enc : Bool) (tag : List Byte) (c : Aead) : Prop :=
  ∃ c0 c1 c2, initCtx c0 key iv enc = (c1, .ok ()) ∧ setAad c1 aad = some (c2, .ok ()) ∧
    if enc then c = c2 else setTag c2 tag = (c, .ok ())

theorem ready_inv (key iv aad tag : List Byte) (enc : Bool) (c : Aead) (hk : key.length = 32)
    (hiv : iv.length = 12 ∨ iv.length = 8) (ha : aad.length < 2 ^ 32) (h : Ready key iv aad enc tag c) :
    AInv key (nonceOf iv) aad [] c ∧ c.enc = enc ∧ (enc = false → c.vfyTag = tag) := by
  obtain ⟨c0, c1, c2, e1, e2, e3⟩ := h
  obtain ⟨d1, f1, h1, -, n1⟩ := initCtx_ok c0 key iv enc hk hiv
  rw [e1] at f1; cases f1
  obtain ⟨d2, f2, h2, -, n2⟩ := setAad_ok key (nonceOf iv) c1 aad h1 ha
  rw [e2] at f2; cases f2
  cases enc
  · rw [if_neg (by decide)] at e3
    unfold setTag at e3
    split at e3
    · cases e3
    · split at e3
      · cases e3
      · cases e3
        exact ⟨⟨h2.hkey, h2.hnonce, h2.inv, h2.pinv, h2.hal, h2.hcl, h2.aadLt⟩, n2.trans n1, fun _ => rfl⟩
  · rw [if_pos rfl] at e3
    subst e3
    exact ⟨h2, n2.trans n1, fun h => absurd h (by decide)⟩

/-- **C31.**  Encryption: whatever the context held before, for every key, nonce (12 bytes, or 8 bytes behind
four zero bytes), additional data and message, cut in any way, the output is the RFC 8439 ciphertext and the
tag is the RFC 8439 tag.  The key stream starts at block 1, so block 0 (the Poly1305 key) is never reused. -/
theorem aead_encrypt (key iv aad : List Byte) (c : Aead) (hk : key.length = 32) (hiv : iv.length = 12 ∨ iv.length = 8)
    (ha : aad.length < 2 ^ 32) (h : Ready key iv aad true [] c) (ds : List (List Byte))
    (hd : ∀ d ∈ ds, d.length < 2 ^ 32) (hle : (ds.flatten.length + 63) / 64 < 2 ^ 32) :
    ∃ c', updateAll c ds = some (c', .ok (Spec.crypt key (nonceOf iv) 1 0 ds.flatten)) ∧
      getTag c' 16 = some (.ok (Spec.tag key (nonceOf iv) aad (Spec.crypt key (nonceOf iv) 1 0 ds.flatten))) := by
  obtain ⟨h1, h2, -⟩ := ready_inv key iv aad [] true c hk hiv ha h
  obtain ⟨c', e, h', -, -⟩ := updateAll_ok key (nonceOf iv) aad ds c [] h1 hd
    (by rw [List.length_nil, Nat.zero_add]; unfold nb; omega)
  rw [h2] at h'
  exact ⟨c', e, getTag_spec _ _ _ _ _ h'⟩

/-- **C31.**  Decryption: the output is the ciphertext xor the key stream and verification succeeds exactly when
the given tag is the full 16-byte RFC 8439 tag of additional data and ciphertext. -/
theorem aead_decrypt (key iv aad tag : List Byte) (c : Aead) (hk : key.length = 32) (hiv : iv.length = 12 ∨ iv.length = 8)
    (ha : aad.length < 2 ^ 32) (h : Ready key iv aad false tag c) (ds : List (List Byte))
    (hd : ∀ d ∈ ds, d.length < 2 ^ 32) (hle : (ds.flatten.length + 63) / 64 < 2 ^ 32) :
    ∃ c' r, updateAll c ds = some (c', .ok (Spec.crypt key (nonceOf iv) 1 0 ds.flatten)) ∧ final c' = some r ∧
      (r = .ok () ↔ tag = Spec.tag key (nonceOf iv) aad ds.flatten) := by
  obtain ⟨h1, h2, h3⟩ := ready_inv key iv aad tag false c hk hiv ha h
  obtain ⟨c', e, h', v', n'⟩ := updateAll_ok key (nonceOf iv) aad ds c [] h1 hd
    (by rw [List.length_nil, Nat.zero_add]; unfold nb; omega)
  rw [h2] at h'
  obtain ⟨r, e2, h4⟩ := final_spec _ _ _ _ _ h' (n'.trans h2)
  rw [v', h3 rfl] at h4
  exact ⟨c', r, e, e2, h4⟩

/-- **C31.**  Round trip: the ciphertext and tag of an encryption, cut into other pieces, decrypt to the message
and verify. -/
theorem aead_round_trip (key iv aad : List Byte) (c1 c2 : Aead) (hk : key.length = 32)
    (hiv : iv.length = 12 ∨ iv.length = 8) (ha : aad.length < 2 ^ 32) (msg : List (List Byte)) (ct : List Byte) (c1' : Aead)
    (tag : List Byte) (cts : List (List Byte))
    (h1 : Ready key iv aad true [] c1) (hm : ∀ d ∈ msg, d.length < 2 ^ 32) (hle : (msg.flatten.length + 63) / 64 < 2 ^ 32)
    (e1 : updateAll c1 msg = some (c1', .ok ct)) (e2 : getTag c1' 16 = some (.ok tag))
    (hc : cts.flatten = ct) (hcl : ∀ d ∈ cts, d.length < 2 ^ 32) (h2 : Ready key iv aad false tag c2) :
    ∃ c2', updateAll c2 cts = some (c2', .ok msg.flatten) ∧ final c2' = some (.ok ()) := by
  obtain ⟨d1, f1, f2⟩ := aead_encrypt key iv aad c1 hk hiv ha h1 msg hm hle
  rw [e1] at f1; cases f1
  rw [e2] at f2; cases f2
  obtain ⟨c2', r, g1, g2, g3⟩ := aead_decrypt key iv aad _ c2 hk hiv ha h2 cts hcl
    (by rw [hc, crypt_length]; exact hle)
  rw [hc, crypt_crypt] at g1
  rw [hc] at g3
  rw [g3.mpr rfl] at g2
  exact ⟨c2', g1, g2⟩

/-- **C31.**  The length limit: a message of at most `2^32 - 1` blocks; the call that would exceed it is refused
and, when encrypting, changes nothing (not even the authenticator). -/
theorem aead_limit (key iv aad tag : List Byte) (enc : Bool) (c : Aead) (hk : key.length = 32)
    (hiv : iv.length = 12 ∨ iv.length = 8) (ha : aad.length < 2 ^ 32) (h : Ready key iv aad enc tag c)
    (ds : List (List Byte)) (hd : ∀ d ∈ ds, d.length < 2 ^ 32) (hle : (ds.flatten.length + 63) / 64 < 2 ^ 32)
    (c' : Aead) (o : List Byte) (e : updateAll c ds = some (c', .ok o)) (d : List Byte) (hdl : d.length < 2 ^ 32)
    (hgt : (ds.flatten.length + d.length + 63) / 64 ≥ 2 ^ 32) :
    ∃ c'', aeadUpdate c' d d.length = some (c'', .error .overflow) ∧ (enc = true → c'' = c') := by
  obtain ⟨h1, h2, -⟩ := ready_inv key iv aad tag enc c hk hiv ha h
  obtain ⟨d1, f1, h', -, n'⟩ := updateAll_ok key (nonceOf iv) aad ds c [] h1 hd
    (by rw [List.length_nil, Nat.zero_add]; unfold nb; omega)
  rw [e] at f1; cases f1
  have hl : ([] ++ ctOf c.enc key (nonceOf iv) ([] : List Byte).length ds.flatten).length = ds.flatten.length := by
    rw [List.nil_append, ctOf_length]
  obtain ⟨c'', e1, e2, -⟩ := aeadUpdate_limit key (nonceOf iv) aad _ c' d d.length h' hdl (Nat.le_refl _)
    (by rw [hl]; unfold nb; omega)
  exact ⟨c'', e1, fun he => e2 (by rw [n', h2, he])⟩

/-- **C31.**  Additional data cannot be set twice, nor after text. -/
theorem aead_aad_once (key iv aad tag : List Byte) (enc : Bool) (c : Aead) (hk : key.length = 32)
    (hiv : iv.length = 12 ∨ iv.length = 8) (ha : aad.length < 2 ^ 32) (h : Ready key iv aad enc tag c)
    (ds : List (List Byte)) (hd : ∀ d ∈ ds, d.length < 2 ^ 32) (hle : (ds.flatten.length + 63) / 64 < 2 ^ 32)
    (c' : Aead) (o : List Byte) (e : updateAll c ds = some (c', .ok o)) (hne : aad ≠ [] ∨ ds.flatten ≠ []) (x : List Byte) :
    setAad c' x = some (c', .error .aadRepeat) := by
  obtain ⟨h1, h2, -⟩ := ready_inv key iv aad tag enc c hk hiv ha h
  obtain ⟨d1, f1, h', -, -⟩ := updateAll_ok key (nonceOf iv) aad ds c [] h1 hd
    (by rw [List.length_nil, Nat.zero_add]; unfold nb; omega)
  rw [e] at f1; cases f1
  apply setAad_again key (nonceOf iv) aad _ c' x h'
  rcases hne with hne | hne
  · exact Or.inl hne
  · right
    intro e0
    have := congrArg List.length e0
    rw [List.nil_append, ctOf_length] at this
    exact hne (List.length_eq_zero_iff.mp this)

/-- Reading the tag does not disturb the session: `getTag` works on a copy, so later calls go on as if it had
not been made; and only a request for 16 bytes succeeds. -/
theorem getTag_len (c : Aead) (n : Nat) (h : n ≠ 16) : getTag c n = some (.error .tagLen) := by
  unfold getTag; rw [if_pos h]

/-- **Finding.**  Unlike `REINIT`, `Init` keeps the tag of the previous message: a context that is initialised
again and verified without `SET_TAG` compares with the old tag instead of failing for lack of one. -/
theorem init_keeps_old_tag (c : Aead) (key iv : List Byte) (enc : Bool) (hk : key.length = 32)
    (hiv : iv.length = 12 ∨ iv.length = 8) : (initCtx c key iv enc).1.vfyTag = c.vfyTag := by
  obtain ⟨c', e, -, h, -⟩ := initCtx_ok c key iv enc hk hiv
  rw [e]; exact h

/-- `REINIT` forgets the tag, so verification fails until a new one is set. -/
theorem reinit_needs_tag (c c' : Aead) (iv : List Byte) (h : reinit c iv = (c', .ok ())) (hd : c'.enc = false) :
    final c' = some (.error .tagLen) := by
  have hv : c'.vfyTag = [] := by
    unfold reinit at h
    dsimp only at h
    split at h
    · cases h
    · cases h; rfl
  unfold final
  rw [hd, if_neg (by decide), hv, getTag_len _ _ (by decide)]

/-! ## Test vectors and concrete instances -/

/-- An all-zero context, as after allocation. -/
def ctx0 : Ctx := ⟨⟨0, 0, 0, 0, 0, 0, 0, 0, 0, 0, 0, 0, 0, 0, 0, 0⟩, List.replicate 64 0, 0, 0, false, false⟩

/-- An all-zero AEAD context. -/
def aead0 : Aead := ⟨ctx0, polySetKey [], 0, 0, [], false⟩

/-- The key `80 81 … 9f` of RFC 8439, 2.8.2. -/
def tvKey : List Byte := (List.range 32).map fun i => BitVec.ofNat 8 (0x80 + i)
/-- The nonce of RFC 8439, 2.8.2. -/
def tvNonce : List Byte := [0x07, 0, 0, 0, 0x40, 0x41, 0x42, 0x43, 0x44, 0x45, 0x46, 0x47]
/-- The additional data of RFC 8439, 2.8.2. -/
def tvAad : List Byte := [0x50, 0x51, 0x52, 0x53, 0xc0, 0xc1, 0xc2, 0xc3, 0xc4, 0xc5, 0xc6, 0xc7]
/-- "Ladies and Gentlemen of the class of '99: If I could offer you only one tip for the future, sunscreen would
be it." -/
def tvMsg : List Byte :=
  "Ladies and Gentlemen of the class of '99: If I could offer you only one tip for the future, sunscreen would be it.".toList.map
    fun ch => BitVec.ofNat 8 ch.toNat

/-- The whole session on the model. -/
def tvRun (ds : List (List Byte)) : Option (List Byte × List Byte) :=
  match setAad (initCtx aead0 tvKey tvNonce true).1 tvAad with
  | some (c, .ok ()) => match updateAll c ds with
    | some (c', .ok ct) => match getTag c' 16 with
      | some (.ok t) => some (ct, t)
      | _ => none
    | _ => none
  | _ => none

/-- RFC 8439, 2.8.2: start of the ciphertext, and the tag, with the message cut at byte 37. -/
example : (tvRun [tvMsg.take 37, tvMsg.drop 37]).map (fun r => (r.1.take 16, r.2)) =
    some ([0xd3, 0x1a, 0x8d, 0x34, 0x64, 0x8e, 0x60, 0xdb, 0x7b, 0x86, 0xaf, 0xbc, 0x53, 0xef, 0x7e, 0xc2],
      [0x1a, 0xe1, 0x0b, 0x59, 0x4f, 0x09, 0xe2, 0x6a, 0x7e, 0x90, 0x2e, 0xcb, 0xd0, 0x60, 0x06, 0x91]) := by
  decide +kernel

/-- RFC 8439, 2.5.2: the Poly1305 test vector. -/
example : (polyAll (polySetKey
    [0x85, 0xd6, 0xbe, 0x78, 0x57, 0x55, 0x6d, 0x33, 0x7f, 0x44, 0x52, 0xfe, 0x42, 0xd5, 0x06, 0xa8,
     0x01, 0x03, 0x80, 0x8a, 0xfb, 0x0d, 0xb2, 0xfd, 0x4a, 0xbf, 0xf6, 0xaf, 0x41, 0x49, 0xf5, 0x1b])
    ["Cryptographic Forum Research Group".toList.map fun ch => BitVec.ofNat 8 ch.toNat]).bind polyFinal =
    some [0xa8, 0x06, 0x1d, 0xc1, 0x30, 0x51, 0x36, 0xc6, 0xc2, 0x2b, 0x8b, 0xaf, 0x0c, 0x01, 0x27, 0xa9] := by
  decide +kernel

/-- The hypotheses `Started` and `Ready` are met from a fresh context. -/
example : ∃ c, Started tvKey tvNonce [1, 0, 0, 0] c := by
  obtain ⟨c1, c2, c3, e1, e2, e3, -⟩ := start_inv ctx0 tvKey tvNonce [1, 0, 0, 0] (by decide) rfl rfl
  exact ⟨c3, ctx0, c1, c2, e1, e2, e3⟩

example : ∃ c, Ready tvKey tvNonce tvAad true [] c := by
  obtain ⟨c1, e1, h1, -⟩ := initCtx_ok aead0 tvKey tvNonce true (by decide) (by decide)
  obtain ⟨c2, e2, -⟩ := setAad_ok _ _ c1 tvAad h1 (by decide)
  exact ⟨c2, aead0, c1, c2, e1, e2, rfl⟩

example : ∃ c, Ready tvKey tvNonce tvAad false (List.replicate 16 7#8) c := by
  obtain ⟨c1, e1, h1, -, n1⟩ := initCtx_ok aead0 tvKey tvNonce false (by decide) (by decide)
  obtain ⟨c2, e2, -, -, n2⟩ := setAad_ok _ _ c1 tvAad h1 (by decide)
  refine ⟨{ c2 with vfyTag := List.replicate 16 7#8 }, aead0, c1, c2, e1, e2, ?_⟩
  rw [if_neg (by decide)]
  unfold setTag
  rw [if_neg (by rw [n2, n1]; decide), if_neg (by decide)]

end Verif.Crypto.Chacha
