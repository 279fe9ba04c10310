import Verif.Crypto.Modes.StreamProof

namespace Verif.Crypto.Modes

open Verif.Common

/-! ### CFB with byte-sized segments -/

def cfbReload (K : Cipher) (fb : Nat) (c : SCtx) : SCtx :=
  { iv := c.iv.drop fb ++ (K.enc c.iv).take fb, buf := if fb = 16 then c.buf else K.enc c.iv,
    off := 16 - fb }

def cfbUse (enc : Bool) (c : SCtx) (b : Byte) : Option (SCtx × Byte) :=
  match c.iv[c.off]? with
  | none => none
  | some k => some ({ c with iv := c.iv.set c.off (if enc then k ^^^ b else b),
                             off := (c.off + 1) % 16 }, k ^^^ b)

def cfbStep (K : Cipher) (enc : Bool) (fb : Nat) := stepG (cfbReload K fb) (cfbUse enc)

theorem cfbLast_eq (enc : Bool) (c : SCtx) (inp : List Byte) :
    cfbLast enc c inp = lastG (cfbUse enc) c inp := by
  induction inp generalizing c with
  | nil => rfl
  | cons b bs ih =>
    simp only [cfbLast, lastG, cfbUse, ih]
    split
    · rfl
    · cases c.iv[c.off]? with
      | none => rfl
      | some k => rfl

theorem cfbUse_cons (enc : Bool) (p s buf : List Byte) (k b : Byte) :
    cfbUse enc ⟨p ++ k :: s, buf, p.length⟩ b
      = some (⟨p ++ [if enc then k ^^^ b else b] ++ s, buf, (p.length + 1) % 16⟩, k ^^^ b) := by
  simp [cfbUse]

theorem cfb_tail (K : Cipher) (enc : Bool) (fb : Nat) (buf bs : List Byte) :
    ∀ (p s : List Byte) (b : Byte), p.length + s.length = 16 → (b :: bs).length ≤ s.length →
    thenFold (cfbStep K enc fb) bs (cfbUse enc ⟨p ++ s, buf, p.length⟩ b)
      = some (⟨p ++ (if enc then xorB (b :: bs) s else b :: bs) ++ s.drop (b :: bs).length, buf,
          (p.length + (b :: bs).length) % 16⟩, xorB (b :: bs) s) := by
  induction bs with
  | nil =>
    intro p s b h1 h2
    cases s with
    | nil => simp at h2
    | cons k s =>
      rw [cfbUse_cons]
      cases enc <;> simp [thenFold, foldB, xorB_cons, xorB_nil_left, BitVec.xor_comm]
  | cons b2 bs ih =>
    intro p s b h1 h2
    cases s with
    | nil => simp at h2
    | cons k s =>
      simp only [List.length_cons] at h1 h2
      rw [cfbUse_cons, thenFold, Option.bind_some, foldB_cons]
      have hm : (p.length + 1) % 16 = p.length + 1 := by omega
      simp only [hm]
      have hs : ∀ q, cfbStep K enc fb ⟨q, buf, p.length + 1⟩ b2
          = cfbUse enc ⟨q, buf, p.length + 1⟩ b2 := by
        intro q; simp [cfbStep, stepG]
      rw [hs]
      have hl : p.length + 1 = (p ++ [if enc then k ^^^ b else b]).length := by simp
      rw [hl, ih _ s b2 (by rw [← hl]; omega) (by simp only [List.length_cons]; omega)]
      rw [← hl]
      have e : p.length + 1 + (bs.length + 1) = p.length + (bs.length + 1 + 1) := by omega
      simp only [Option.map_some, xorB_cons, List.length_cons, List.drop_succ_cons, e]
      cases enc <;> simp [BitVec.xor_comm]

theorem xorB_take_right (x t : List Byte) (n : Nat) (h : x.length ≤ n) :
    xorB x (t.take n) = xorB x t := by
  induction x generalizing t n with
  | nil => rfl
  | cons a x ih =>
    cases t with
    | nil => simp
    | cons y t =>
      cases n with
      | zero => simp at h
      | succ n =>
        rw [List.take_succ_cons, xorB_cons, xorB_cons, ih]
        simpa using h

theorem cfb_block (K : Cipher) (enc : Bool) (fb : Nat) (c : SCtx) (x : List Byte)
    (hiv : c.iv.length = 16) (hfb : fb ≤ 16) (h0 : c.off = 0) (h1 : 0 < x.length)
    (h2 : x.length ≤ fb) :
    foldB (cfbStep K enc fb) c x
      = some (⟨c.iv.drop fb ++ (if enc then xorB x (K.enc c.iv) else x)
            ++ ((K.enc c.iv).drop x.length).take (fb - x.length),
          if fb = 16 then c.buf else K.enc c.iv, (16 - fb + x.length) % 16⟩,
          xorB x (K.enc c.iv)) := by
  cases x with
  | nil => simp at h1
  | cons b bs =>
    have hp : (c.iv.drop fb).length = 16 - fb := by simp [hiv]
    have ht : ((K.enc c.iv).take fb).length = fb := by simp [K.encLen _ hiv, hfb]
    have hs : cfbStep K enc fb c b = cfbUse enc ⟨c.iv.drop fb ++ (K.enc c.iv).take fb,
        if fb = 16 then c.buf else K.enc c.iv, (c.iv.drop fb).length⟩ b := by
      rw [hp]
      simp [cfbStep, stepG, h0, cfbReload]
    rw [foldB_cons, hs, cfb_tail K enc fb _ bs _ _ b (by omega) (by omega)]
    rw [hp, xorB_take_right _ _ _ h2, List.drop_take]

theorem cfbBlocks_eq (K : Cipher) (enc : Bool) (fb : Nat) (hfb : fb < 16) (hfb0 : 0 < fb)
    (fuel : Nat) (c : SCtx)
    (inp : List Byte) (hiv : c.iv.length = 16) (h0 : c.off = 0) (hf : inp.length ≤ fuel) :
    foldB (cfbStep K enc fb) c inp = some (cfbBlocks K enc fb fuel c inp) := by
  have hne : fb ≠ 16 := by omega
  induction fuel generalizing c inp with
  | zero =>
    have : inp = [] := List.eq_nil_of_length_eq_zero (by omega)
    subst this
    rfl
  | succ fuel ih =>
    by_cases hz : inp.length = 0
    · have : inp = [] := List.eq_nil_of_length_eq_zero hz
      subst this
      simp [foldB, cfbBlocks]
    · by_cases hl : inp.length ≥ fb
      · simp only [cfbBlocks, if_neg hz, if_pos hl]
        conv => lhs; rw [← List.take_append_drop fb inp]
        have ht : (inp.take fb).length = fb := by simp; omega
        rw [foldB_append_some (cfb_block K enc fb c (inp.take fb) hiv (by omega) h0 (by omega)
          (by omega)), ht]
        have hd : (inp.drop fb).length ≤ fuel := by simp; omega
        have hxl : (if enc then xorB (inp.take fb) (K.enc c.iv) else inp.take fb).length = fb := by
          cases enc
          · simp [ht]
          · simp [xorB_length, K.encLen _ hiv]; omega
        have := ih ⟨c.iv.drop fb ++ (if enc then xorB (inp.take fb) (K.enc c.iv) else inp.take fb),
          K.enc c.iv, c.off⟩ (inp.drop fb)
          (by simp only [List.length_append, List.length_drop, hxl]; omega) h0 hd
        have e0 : (16 - fb + fb) % 16 = c.off := by omega
        rw [if_neg hne, e0]
        simp only [Nat.sub_self, List.take_zero, List.append_nil, this, Option.map_some]
      · simp only [cfbBlocks, if_neg hz, if_neg hl]
        rw [cfb_block K enc fb c inp hiv (by omega) h0 (by omega) (by omega), if_neg hne,
          Nat.mod_eq_of_lt (by omega)]

theorem cfb128Blocks_eq (K : Cipher) (enc : Bool) (fuel : Nat) (c : SCtx)
    (inp : List Byte) (hiv : c.iv.length = 16) (h0 : c.off = 0) (hf : inp.length ≤ fuel) :
    foldB (cfbStep K enc 16) c inp = some (cfb128Blocks K enc fuel c inp) := by
  induction fuel generalizing c inp with
  | zero =>
    have : inp = [] := List.eq_nil_of_length_eq_zero (by omega)
    subst this
    rfl
  | succ fuel ih =>
    by_cases hl : inp.length ≥ 16
    · simp only [cfb128Blocks, if_pos hl]
      conv => lhs; rw [← List.take_append_drop 16 inp]
      have ht : (inp.take 16).length = 16 := by simp; omega
      rw [foldB_append_some (cfb_block K enc 16 c (inp.take 16) hiv (by omega) h0 (by omega)
        (by omega)), ht]
      have hd : (inp.drop 16).length ≤ fuel := by simp; omega
      have hxl : (if enc then xorB (inp.take 16) (K.enc c.iv) else inp.take 16).length = 16 := by
        cases enc
        · simp [ht]
        · simp [xorB_length, K.encLen _ hiv]; omega
      have := ih ⟨if enc then xorB (inp.take 16) (K.enc c.iv) else inp.take 16, c.buf, c.off⟩
        (inp.drop 16) hxl h0 hd
      have e0 : (16 - 16 + 16) % 16 = c.off := by omega
      have e1 : c.iv.drop 16 = [] := by simp [hiv]
      rw [if_pos rfl, e0, e1]
      simp only [Nat.sub_self, List.take_zero, List.append_nil, List.nil_append, this,
        Option.map_some, xorB_comm (K.enc c.iv)]
    · by_cases hz : inp.length > 0
      · simp only [cfb128Blocks, if_neg hl, if_pos hz]
        rw [cfb_block K enc 16 c inp hiv (by omega) h0 (by omega) (by omega), if_pos rfl,
          Nat.mod_eq_of_lt (by omega)]
        have e1 : c.iv.drop 16 = [] := by simp [hiv]
        have e2 : ((K.enc c.iv).drop inp.length).take (16 - inp.length)
            = (K.enc c.iv).drop inp.length := by
          apply List.take_of_length_le
          simp [K.encLen _ hiv]
        rw [e1, e2]
        simp [xorB_comm (K.enc c.iv)]
      · have : inp = [] := List.eq_nil_of_length_eq_zero (by omega)
        subst this
        simp [foldB, cfb128Blocks]

theorem cfbUse_iv (enc : Bool) (c : SCtx) (b : Byte) (c' : SCtx) (o : Byte)
    (h : cfbUse enc c b = some (c', o)) : c'.iv.length = c.iv.length := by
  simp only [cfbUse] at h
  split at h
  · cases h
  · simp only [Option.some.injEq, Prod.mk.injEq] at h
    rw [← h.1]
    simp

theorem cfbStep_ivLen (K : Cipher) (enc : Bool) (fb : Nat) (hfb : fb ≤ 16) (c : SCtx) (b : Byte)
    (c' : SCtx) (o : Byte)
    (hc : c.iv.length = 16) (h : cfbStep K enc fb c b = some (c', o)) : c'.iv.length = 16 := by
  simp only [cfbStep, stepG] at h
  split at h
  · rw [cfbUse_iv _ _ _ _ _ h]
    simp [cfbReload, K.encLen _ hc, hc]
    omega
  · rw [cfbUse_iv _ _ _ _ _ h, hc]

theorem cfbStep_inv (K : Cipher) (fb : Nat) (c : SCtx) (b : Byte) (c' : SCtx) (o : Byte)
    (h : cfbStep K true fb c b = some (c', o)) : cfbStep K false fb c o = some (c', b) := by
  have hu : ∀ c b c' o, cfbUse true c b = some (c', o) → cfbUse false c o = some (c', b) := by
    intro c b c' o h
    simp only [cfbUse] at h ⊢
    split at h
    · cases h
    · rename_i k hk
      simp only [Option.some.injEq, Prod.mk.injEq, if_true] at h
      rw [← h.1, ← h.2, xor_cancel_left]
      simp
  simp only [cfbStep, stepG] at h ⊢
  split
  · rename_i h0
    rw [if_pos h0] at h
    exact hu _ _ _ _ h
  · rename_i h0
    rw [if_neg h0] at h
    exact hu _ _ _ _ h

/-- The CFB functions with byte-sized feedback as a byte transducer. -/
theorem cfbCrypt_eq (K : Cipher) (enc : Bool) (bits : Nat) (hb : bits = 8 ∨ bits = 64 ∨ bits = 128)
    (junk : Byte) (c : SCtx) (inp : List Byte) (hiv : c.iv.length = 16) (hl : 0 < inp.length) :
    cfbCrypt K enc bits junk c inp
      = (foldB (cfbStep K enc (bits / 8)) c inp).map fun r => (r.1, .ok r.2) := by
  rw [cfbStep, foldB_lastG, ← cfbLast_eq]
  unfold cfbCrypt
  rw [if_neg (by omega), if_neg (by omega)]
  rcases hb with rfl | rfl | rfl
  · rw [if_pos (by simp)]
    cases hL : cfbLast enc c inp with
    | none => rfl
    | some r =>
      obtain ⟨c1, o, rest⟩ := r
      rw [cfbLast_eq] at hL
      simp only
      have hl := lastG_ivLen (cfbUse_iv enc) hL
      rcases lastG_rest hL with h | h
      · subst h; simp [cfbBlocks, foldB]
      · have := cfbBlocks_eq K enc (8 / 8) (by omega) (by omega) rest.length c1 rest (by omega) h
          (Nat.le_refl _)
        rw [cfbStep] at this
        rw [this]; rfl
  · rw [if_pos (by simp)]
    cases hL : cfbLast enc c inp with
    | none => rfl
    | some r =>
      obtain ⟨c1, o, rest⟩ := r
      rw [cfbLast_eq] at hL
      simp only
      have hl := lastG_ivLen (cfbUse_iv enc) hL
      rcases lastG_rest hL with h | h
      · subst h; simp [cfbBlocks, foldB]
      · have := cfbBlocks_eq K enc (64 / 8) (by omega) (by omega) rest.length c1 rest (by omega) h
          (Nat.le_refl _)
        rw [cfbStep] at this
        rw [this]; rfl
  · rw [if_neg (by omega), if_pos rfl]
    cases hL : cfbLast enc c inp with
    | none => rfl
    | some r =>
      obtain ⟨c1, o, rest⟩ := r
      rw [cfbLast_eq] at hL
      simp only
      have hl := lastG_ivLen (cfbUse_iv enc) hL
      rcases lastG_rest hL with h | h
      · subst h; simp [cfb128Blocks, foldB]
      · have := cfb128Blocks_eq K enc rest.length c1 rest (by omega) h (Nat.le_refl _)
        rw [cfbStep] at this
        rw [this]; rfl

end Verif.Crypto.Modes
