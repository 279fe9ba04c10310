import Verif.Crypto.Chacha.Poly

/-! # ChaCha20-Poly1305: sessions -/

namespace Verif.Crypto.Chacha

open Verif.Common

theorem nb_zero : nb 0 = 0 := rfl

/-- Setting key, nonce and counter starts a message, whatever the context held. -/
theorem start_inv (c : Ctx) (key nonce cnt : List Byte) (hk : key.length = 32) (hn : nonce.length = 12)
    (hc : cnt.length = 4) : ∃ c1 c2 c3, setKey c key = (c1, .ok ()) ∧ setNonce c1 nonce = (c2, .ok ()) ∧
      setCount c2 cnt = (c3, .ok ()) ∧ Inv key nonce (leVal cnt) 0 c3 := by
  refine ⟨_, _, _, by unfold setKey; rw [if_neg (by omega), if_neg (by omega)],
    by unfold setNonce; rw [if_neg (by omega)], by unfold setCount; rw [if_neg (by omega)], ?_⟩
  have hlt := leVal_lt cnt
  rw [hc] at hlt
  have hg : getLe cnt 0 = BitVec.ofNat 32 (leVal cnt) := by
    unfold getLe
    rw [List.drop_zero, List.take_of_length_le (by omega)]
  refine ⟨rfl, rfl, ?_, ?_, ?_, rfl, ?_⟩
  · rw [nb_zero, Nat.add_zero, input_words key nonce hk hn, ← hg]
  · show ((getLe cnt 0).setWidth 64).toNat = _
    rw [hg, BitVec.toNat_setWidth, BitVec.toNat_ofNat, nb_zero]
    omega
  · rw [nb_zero]; omega
  · intro h
    exact absurd rfl h

/-- The AEAD context after additional data `aad` and ciphertext `ct`. -/
structure AInv (key nonce aad ct : List Byte) (c : Aead) : Prop where
  hkey : key.length = 32
  hnonce : nonce.length = 12
  inv : Inv key nonce 1 ct.length c.key
  pinv : PInv (Spec.otk key nonce) (Spec.pad16 aad ++ ct) c.poly
  hal : c.aadLen = BitVec.ofNat 64 aad.length
  hcl : c.ctLen = BitVec.ofNat 64 ct.length
  aadLt : aad.length < 2 ^ 32

theorem otk_length (key nonce : List Byte) : (Spec.otk key nonce).length = 32 := by unfold Spec.otk; simp

theorem crypt_zeros (key nonce : List Byte) : Spec.crypt key nonce 0 0 (List.replicate 32 0#8) = Spec.otk key nonce := by
  have : ∀ n, Spec.crypt key nonce 0 0 (List.replicate n 0#8) = (List.range n).map (Spec.keystream key nonce 0) := by
    intro n
    apply List.ext_getElem
    · simp [Spec.crypt]
    · intro i h1 h2
      simp [Spec.crypt]
  exact this 32

theorem nonceOf_length (iv : List Byte) (h : iv.length = 12 ∨ iv.length = 8) : (nonceOf iv).length = 12 := by
  unfold nonceOf
  split
  · rw [List.length_append, List.length_replicate]; omega
  · omega

theorem setIv_ok (c : Aead) (key iv : List Byte) (hk : key.length = 32) (hiv : iv.length = 12 ∨ iv.length = 8)
    (c0 : Ctx) (hc : (setKey c0 key).1 = c.key) :
    ∃ c', setIv c iv = (c', .ok ()) ∧ AInv key (nonceOf iv) [] [] c' ∧ c'.vfyTag = c.vfyTag ∧ c'.enc = c.enc := by
  have hn := nonceOf_length iv hiv
  obtain ⟨c1, c2, c3, e1, e2, e3, h0⟩ := start_inv c0 key (nonceOf iv) [0#8, 0#8, 0#8, 0#8] hk hn rfl
  rw [e1] at hc
  have hc : c1 = c.key := hc
  subst hc
  have hz : leVal [0#8, 0#8, 0#8, 0#8] = 0 := by decide
  rw [hz] at h0
  obtain ⟨h1, -⟩ := update_spec key (nonceOf iv) hk hn 0 0 c3 (List.replicate 32 0#8) h0 (by decide) (by decide)
  obtain ⟨c4, e4, h4⟩ := h1 (by decide)
  rw [crypt_zeros] at e4
  have hs : ∃ c5, setCount c4 [1#8, 0#8, 0#8, 0#8] = (c5, .ok ()) ∧ Inv key (nonceOf iv) 1 0 c5 := by
    refine ⟨{ c4 with state := { c4.state with x12 := 1#32 }, totalLen := 1#64, lastLen := 0 }, rfl,
      h4.hk, h4.hn, ?_, rfl, by decide, rfl, fun h => absurd rfl h⟩
    have e := mat_inj (h4.st.trans (input_words key (nonceOf iv) hk hn _))
    rw [input_words key (nonceOf iv) hk hn]
    show St.mat { c4.state with x12 := _ } = _
    rw [e]
    rfl
  obtain ⟨c5, e5, h5⟩ := hs
  unfold setIv
  rw [if_neg (by omega)]
  dsimp only
  rw [e2]
  dsimp only
  rw [e3]
  dsimp only
  rw [e4]
  dsimp only
  rw [e5]
  exact ⟨_, rfl, ⟨hk, hn, h5, polySetKey_inv _ (otk_length _ _), rfl, rfl, by decide⟩, rfl, rfl⟩

theorem initCtx_ok (c : Aead) (key iv : List Byte) (enc : Bool) (hk : key.length = 32)
    (hiv : iv.length = 12 ∨ iv.length = 8) :
    ∃ c', initCtx c key iv enc = (c', .ok ()) ∧ AInv key (nonceOf iv) [] [] c' ∧ c'.vfyTag = c.vfyTag ∧ c'.enc = enc := by
  have e1 : ∃ k, setKey c.key key = (k, .ok ()) := ⟨_, by unfold setKey; rw [if_neg (by omega), if_neg (by omega)]⟩
  obtain ⟨k, e1⟩ := e1
  obtain ⟨c', e2, h2, h3, h4⟩ := setIv_ok { c with key := k } key iv hk hiv c.key (by rw [e1])
  unfold initCtx
  rw [e1]
  dsimp only
  rw [e2]
  exact ⟨_, rfl, ⟨h2.hkey, h2.hnonce, h2.inv, h2.pinv, h2.hal, h2.hcl, h2.aadLt⟩, h3, rfl⟩

theorem ofNat64_zero (n : Nat) (h : n < 2 ^ 64) : BitVec.ofNat 64 n = 0#64 ↔ n = 0 := by
  constructor
  · intro e
    have := congrArg BitVec.toNat e
    rw [BitVec.toNat_ofNat, Nat.mod_eq_of_lt h] at this
    exact this
  · intro e; rw [e]

/-- Additional data, once and before the text. -/
theorem setAad_ok (key nonce : List Byte) (c : Aead) (aad : List Byte) (h : AInv key nonce [] [] c)
    (ha : aad.length < 2 ^ 32) :
    ∃ c', setAad c aad = some (c', .ok ()) ∧ AInv key nonce aad [] c' ∧ c'.vfyTag = c.vfyTag ∧ c'.enc = c.enc := by
  unfold setAad
  rw [if_neg (by rw [h.hal, h.hcl]; decide)]
  by_cases h0 : aad.length = 0
  · rw [if_pos h0]
    have : aad = [] := List.length_eq_zero_iff.mp h0
    subst this
    exact ⟨c, rfl, h, rfl, rfl⟩
  · rw [if_neg h0]
    obtain ⟨p1, e1, h1⟩ := polyUpdate_inv _ _ aad _ h.pinv ha
    obtain ⟨p2, e2, h2⟩ := polyUpdate_inv _ _ (List.replicate ((16 - aad.length % 16) % 16) 0#8) _ h1
      (by rw [List.length_replicate]; omega)
    rw [e1]
    dsimp only
    rw [e2]
    have hz : Spec.pad16 [] ++ [] ++ aad ++ List.replicate ((16 - aad.length % 16) % 16) 0#8 = Spec.pad16 aad ++ [] := by
      unfold Spec.pad16; simp
    rw [hz] at h2
    exact ⟨_, rfl, ⟨h.hkey, h.hnonce, h.inv, h2, rfl, h.hcl, ha⟩, rfl, rfl⟩

theorem inv_len (key nonce : List Byte) (n : Nat) (c : Ctx) (h : Inv key nonce 1 n c) : n < 2 ^ 38 := by
  have := h.le
  have := nb_cases n
  omega

/-- More additional data, or additional data after text, is refused. -/
theorem setAad_again (key nonce aad ct : List Byte) (c : Aead) (x : List Byte) (h : AInv key nonce aad ct c)
    (hne : aad ≠ [] ∨ ct ≠ []) : setAad c x = some (c, .error .aadRepeat) := by
  have hct := inv_len _ _ _ _ h.inv
  have ha := h.aadLt
  unfold setAad
  rw [if_pos]
  rcases hne with h1 | h1
  · left
    rw [h.hal]
    intro e
    exact h1 (List.length_eq_zero_iff.mp ((ofNat64_zero _ (by omega)).mp e))
  · right
    rw [h.hcl]
    intro e
    exact h1 (List.length_eq_zero_iff.mp ((ofNat64_zero _ (by omega)).mp e))

/-- The ciphertext a piece stands for. -/
def ctOf (enc : Bool) (key nonce : List Byte) (n : Nat) (d : List Byte) : List Byte :=
  if enc then Spec.crypt key nonce 1 n d else d

theorem ctOf_length (enc : Bool) (key nonce : List Byte) (n : Nat) (d : List Byte) :
    (ctOf enc key nonce n d).length = d.length := by
  unfold ctOf; split
  · exact crypt_length _ _ _ _ _
  · rfl

theorem ctOf_append (enc : Bool) (key nonce : List Byte) (n : Nat) (a b : List Byte) :
    ctOf enc key nonce n (a ++ b) = ctOf enc key nonce n a ++ ctOf enc key nonce (n + a.length) b := by
  unfold ctOf; split
  · exact crypt_append _ _ _ _ _ _
  · rfl

theorem aeadUpdate_ok (key nonce aad ct : List Byte) (c : Aead) (d : List Byte) (cap : Nat) (h : AInv key nonce aad ct c)
    (hd : d.length < 2 ^ 32) (hcap : d.length ≤ cap) (hle : 1 + nb (ct.length + d.length) ≤ 2 ^ 32) :
    ∃ c', aeadUpdate c d cap = some (c', .ok (Spec.crypt key nonce 1 ct.length d)) ∧
      AInv key nonce aad (ct ++ ctOf c.enc key nonce ct.length d) c' ∧ c'.vfyTag = c.vfyTag ∧ c'.enc = c.enc := by
  unfold aeadUpdate
  by_cases h0 : d.length = 0
  · rw [if_pos h0]
    have : d = [] := List.length_eq_zero_iff.mp h0
    subst this
    have e : ctOf c.enc key nonce ct.length [] = [] := by
      apply List.length_eq_zero_iff.mp; rw [ctOf_length]; rfl
    refine ⟨c, rfl, ?_, rfl, rfl⟩
    rw [e, List.append_nil]; exact h
  · rw [if_neg h0, if_neg (by omega)]
    obtain ⟨hu, -⟩ := update_spec key nonce h.hkey h.hnonce 1 ct.length c.key d h.inv
      (fun e => h0 (by rw [e]; rfl)) hd
    obtain ⟨k', ek, hk'⟩ := hu hle
    have hlen : (ct ++ ctOf c.enc key nonce ct.length d).length = ct.length + d.length := by
      rw [List.length_append, ctOf_length]
    have hctl : c.ctLen + BitVec.ofNat 64 d.length = BitVec.ofNat 64 (ct ++ ctOf c.enc key nonce ct.length d).length := by
      rw [hlen, h.hcl, BitVec.ofNat_add]
    cases hen : c.enc
    · rw [if_neg (by decide)]
      unfold aeadDecrypt
      obtain ⟨p', ep, hp'⟩ := polyUpdate_inv _ _ d _ h.pinv hd
      rw [ep]
      dsimp only
      rw [ek]
      refine ⟨_, rfl, ⟨h.hkey, h.hnonce, ?_, ?_, h.hal, ?_, h.aadLt⟩, rfl, hen⟩
      · rw [← hen, hlen]; exact hk'
      · rw [← List.append_assoc]; exact hp'
      · rw [← hen]; exact hctl
    · rw [if_pos rfl]
      unfold aeadEncrypt
      rw [ek]
      dsimp only
      obtain ⟨p', ep, hp'⟩ := polyUpdate_inv _ _ (Spec.crypt key nonce 1 ct.length d) _ h.pinv
        (by rw [crypt_length]; exact hd)
      rw [ep]
      refine ⟨_, rfl, ⟨h.hkey, h.hnonce, ?_, ?_, h.hal, ?_, h.aadLt⟩, rfl, hen⟩
      · rw [← hen, hlen]; exact hk'
      · rw [← List.append_assoc]; exact hp'
      · rw [← hen]; exact hctl

/-- Past the counter the call is refused; when encrypting nothing changes. -/
theorem aeadUpdate_limit (key nonce aad ct : List Byte) (c : Aead) (d : List Byte) (cap : Nat) (h : AInv key nonce aad ct c)
    (hd : d.length < 2 ^ 32) (hcap : d.length ≤ cap) (hgt : 1 + nb (ct.length + d.length) > 2 ^ 32) :
    ∃ c', aeadUpdate c d cap = some (c', .error .overflow) ∧ (c.enc = true → c' = c) ∧ c'.key = c.key := by
  have hne : d ≠ [] := by
    intro e
    subst e
    have := h.inv.le
    rw [List.length_nil, Nat.add_zero] at hgt
    omega
  have h0 : d.length ≠ 0 := fun e => hne (List.length_eq_zero_iff.mp e)
  unfold aeadUpdate
  rw [if_neg h0, if_neg (by omega)]
  obtain ⟨-, hu⟩ := update_spec key nonce h.hkey h.hnonce 1 ct.length c.key d h.inv hne hd
  have ek := hu hgt
  cases hen : c.enc
  · rw [if_neg (by decide)]
    unfold aeadDecrypt
    obtain ⟨p', ep, hp'⟩ := polyUpdate_inv _ _ d _ h.pinv hd
    rw [ep]
    dsimp only
    rw [ek]
    exact ⟨_, rfl, fun h => absurd h (by decide), rfl⟩
  · rw [if_pos rfl]
    unfold aeadEncrypt
    rw [ek]
    exact ⟨_, rfl, fun _ => by cases c; rfl, rfl⟩

theorem updateAll_ok (key nonce aad : List Byte) (ds : List (List Byte)) :
    ∀ (c : Aead) (ct : List Byte), AInv key nonce aad ct c → (∀ d ∈ ds, d.length < 2 ^ 32) →
      1 + nb (ct.length + ds.flatten.length) ≤ 2 ^ 32 →
      ∃ c', updateAll c ds = some (c', .ok (Spec.crypt key nonce 1 ct.length ds.flatten)) ∧
        AInv key nonce aad (ct ++ ctOf c.enc key nonce ct.length ds.flatten) c' ∧ c'.vfyTag = c.vfyTag ∧ c'.enc = c.enc := by
  induction ds with
  | nil =>
    intro c ct h _ _
    refine ⟨c, rfl, ?_, rfl, rfl⟩
    have e : ctOf c.enc key nonce ct.length [] = [] := by
      apply List.length_eq_zero_iff.mp; rw [ctOf_length]; rfl
    rw [List.flatten_nil, e, List.append_nil]; exact h
  | cons d ds ih =>
    intro c ct h hd hle
    rw [List.flatten_cons, List.length_append] at hle
    have hd1 := hd d (List.mem_cons_self ..)
    obtain ⟨c1, e1, h1, v1, n1⟩ := aeadUpdate_ok key nonce aad ct c d d.length h hd1 (Nat.le_refl _)
      (by unfold nb at *; omega)
    have hl1 : (ct ++ ctOf c.enc key nonce ct.length d).length = ct.length + d.length := by
      rw [List.length_append, ctOf_length]
    obtain ⟨c2, e2, h2, v2, n2⟩ := ih c1 _ h1 (fun x hx => hd x (List.mem_cons_of_mem _ hx))
      (by rw [hl1, show ct.length + d.length + ds.flatten.length = ct.length + (d.length + ds.flatten.length) by omega]; exact hle)
    refine ⟨c2, ?_, ?_, v2.trans v1, n2.trans n1⟩
    · unfold updateAll
      rw [e1]
      dsimp only
      rw [e2, List.flatten_cons, crypt_append, hl1]
    · rw [List.flatten_cons, ctOf_append, ← List.append_assoc]
      rw [hl1, n1] at h2
      exact h2

theorem replicate_pad (d : List Byte) (k : Nat) (hk : k % 16 = 0) (a : List Byte) (ha : a.length = k) :
    (if (a ++ d).length % 16 ≠ 0 then List.replicate (16 - (a ++ d).length % 16) 0#8 else []) =
      List.replicate ((16 - d.length % 16) % 16) 0#8 := by
  rw [List.length_append, ha, show (k + d.length) % 16 = d.length % 16 by omega]
  split
  · congr 1; omega
  · rw [show (16 - d.length % 16) % 16 = 0 by omega]; rfl

theorem pad16_mod (d : List Byte) : (Spec.pad16 d).length % 16 = 0 := by
  unfold Spec.pad16
  rw [List.length_append, List.length_replicate]; omega

/-- The tag. -/
theorem getTag_spec (key nonce aad ct : List Byte) (c : Aead) (h : AInv key nonce aad ct c) :
    getTag c 16 = some (.ok (Spec.tag key nonce aad ct)) := by
  have hct := inv_len _ _ _ _ h.inv
  have ha := h.aadLt
  have hll := h.pinv.ll
  have hpad := replicate_pad ct _ (pad16_mod aad) (Spec.pad16 aad) rfl
  rw [← hll] at hpad
  have h1 : ∃ p, (if c.poly.lastLen ≠ 0 then polyUpdate c.poly (List.replicate (16 - c.poly.lastLen) 0#8) else some c.poly)
      = some p ∧ PInv (Spec.otk key nonce) (Spec.pad16 aad ++ Spec.pad16 ct) p := by
    have e : Spec.pad16 aad ++ Spec.pad16 ct = (Spec.pad16 aad ++ ct) ++ List.replicate ((16 - ct.length % 16) % 16) 0#8 := by
      rw [List.append_assoc]; rfl
    rw [e, ← hpad]
    split
    · exact polyUpdate_inv _ _ _ _ h.pinv (by rw [List.length_replicate]; omega)
    · rw [List.append_nil]; exact ⟨_, rfl, h.pinv⟩
  obtain ⟨p, e1, h1⟩ := h1
  obtain ⟨p2, e2, h2⟩ := polyUpdate_inv _ _ (leBytes 8 aad.length ++ leBytes 8 ct.length) _ h1
    (by rw [List.length_append, leBytes_length, leBytes_length]; decide)
  unfold getTag cipherTextPad
  rw [if_neg (by decide), e1]
  have ea : c.aadLen.toNat = aad.length := by rw [h.hal, BitVec.toNat_ofNat, Nat.mod_eq_of_lt (by omega)]
  have ec : c.ctLen.toNat = ct.length := by rw [h.hcl, BitVec.toNat_ofNat, Nat.mod_eq_of_lt (by omega)]
  rw [ea, ec]
  show ((polyUpdate p _).bind polyFinal).map _ = _
  rw [e2]
  show (polyFinal p2).map _ = _
  rw [polyFinal_spec _ _ _ h2]
  unfold Spec.tag
  rw [List.append_assoc (Spec.pad16 aad ++ Spec.pad16 ct)]
  rfl

theorem tag_length (key nonce aad ct : List Byte) : (Spec.tag key nonce aad ct).length = 16 := by
  unfold Spec.tag Spec.poly1305
  exact leBytes_length _ _

/-- Verification succeeds exactly for the right 16-byte tag. -/
theorem final_spec (key nonce aad ct : List Byte) (c : Aead) (h : AInv key nonce aad ct c) (hd : c.enc = false) :
    ∃ r, final c = some r ∧ (r = .ok () ↔ c.vfyTag = Spec.tag key nonce aad ct) := by
  unfold final
  rw [hd, if_neg (by decide)]
  by_cases hl : c.vfyTag.length = 16
  · rw [hl, getTag_spec key nonce aad ct c h]
    dsimp only
    rw [Verif.Bsl.Bytes.ctMemcmp_spec _ _ (by rw [tag_length, hl])]
    by_cases he : Spec.tag key nonce aad ct = c.vfyTag
    · rw [if_neg (by rw [Verif.Bsl.Bytes.mask, if_pos he]; decide)]
      exact ⟨_, rfl, fun _ => he.symm, fun _ => rfl⟩
    · rw [if_pos (by rw [Verif.Bsl.Bytes.mask, if_neg he])]
      exact ⟨_, rfl, fun e => (by cases e), fun e => absurd e.symm he⟩
  · have : getTag c c.vfyTag.length = some (.error .tagLen) := by unfold getTag; rw [if_pos hl]
    rw [this]
    exact ⟨_, rfl, fun e => (by cases e), fun e => absurd (by rw [e, tag_length]) hl⟩

end Verif.Crypto.Chacha
