import Verif.Crypto.Gcm.GhashProof
import Verif.Bsl.Bytes.Props

/-!
# GCM: the streaming implementation computes the mode of SP 800-38D
-/

namespace Verif.Crypto.Gcm

open Verif.Common
open Verif.Crypto.Modes (Cipher xorB xorB_length)

/-! ## Specification (SP 800-38D, section 7) -/

namespace Spec

/-- `inc_32` applied `j` times. -/
def cb (j0 : List Byte) (j : Nat) : List Byte :=
  j0.take 12 ++ beBytes 4 ((beVal (j0.drop 12) + j) % 2 ^ 32)

/-- The first `n` blocks of the key stream `E(inc(J0)) ‖ E(inc²(J0)) ‖ …`. -/
def keystream (K : Cipher) (j0 : List Byte) (n : Nat) : List Byte :=
  (List.range n).flatMap fun j => K.enc (cb j0 (j + 1))

/-- `GCTR_K(inc_32(J0), X)`. -/
def gctr (K : Cipher) (j0 x : List Byte) : List Byte := xorB x (keystream K j0 (x.length / 16 + 1))

/-- Zero padding to a whole number of blocks. -/
def zpad (x : List Byte) : List Byte := x ++ List.replicate ((16 - x.length % 16) % 16) 0#8

/-- The hash subkey. -/
def hkey (K : Cipher) : List Byte := K.enc (List.replicate 16 0#8)

/-- The pre-counter block `J0`. -/
def j0 (K : Cipher) (iv : List Byte) : List Byte :=
  if iv.length = 12 then iv ++ [0#8, 0#8, 0#8, 1#8]
  else ghash (hkey K) (zpad iv ++ List.replicate 8 0#8 ++ beBytes 8 (8 * iv.length))

/-- The authentication tag before truncation. -/
def fullTag (K : Cipher) (iv aad ct : List Byte) : List Byte :=
  xorB (ghash (hkey K) (zpad aad ++ zpad ct ++ beBytes 8 (8 * aad.length) ++ beBytes 8 (8 * ct.length)))
    (K.enc (j0 K iv))

end Spec

open Spec

/-! ## GHASH of pieces -/

theorem ghashFrom_add (hk : List Byte) (a : Nat) : ∀ (b : Nat) (y x : List Byte),
    ghashFrom hk (a + b) y x = ghashFrom hk b (ghashFrom hk a y x) (x.drop (16 * a)) := by
  induction a with
  | zero => intro b y x; rw [Nat.zero_add]; rfl
  | succ a ih =>
    intro b y x
    rw [show a + 1 + b = (a + b) + 1 by omega, ghashFrom, ghashFrom, ih, List.drop_drop,
      show 16 * (a + 1) = 16 + 16 * a by omega]

theorem ghashFrom_take (hk : List Byte) (k : Nat) : ∀ (y x z : List Byte), 16 * k ≤ x.length →
    ghashFrom hk k y (x ++ z) = ghashFrom hk k y x := by
  induction k with
  | zero => intro y x z _; rfl
  | succ k ih =>
    intro y x z h
    rw [ghashFrom, ghashFrom, List.take_append_of_le_length (by omega),
      List.drop_append_of_le_length (by omega), ih _ _ _ (by rw [List.length_drop]; omega)]

theorem ghashFrom_length (hk : List Byte) (k : Nat) (y x : List Byte) (hy : y.length = 16) :
    (ghashFrom hk k y x).length = 16 := by
  induction k generalizing y x with
  | zero => exact hy
  | succ k ih => rw [ghashFrom]; exact ih _ _ (by simp [mul])

theorem zpad_length (x : List Byte) : (zpad x).length = 16 * ((x.length + 15) / 16) := by
  unfold zpad; rw [List.length_append, List.length_replicate]; omega

/-- Hash of the whole blocks, then of the padded rest. -/
theorem zpad_hash (hk y x : List Byte) (tail : List Byte) (ht : tail = x.drop (16 * (x.length / 16))) :
    ghashFrom hk ((zpad x).length / 16) y (zpad x) =
      if x.length % 16 = 0 then ghashFrom hk (x.length / 16) y x
      else ghashFrom hk 1 (ghashFrom hk (x.length / 16) y x)
        (tail ++ List.replicate (16 - x.length % 16) 0#8) := by
  rw [zpad_length]
  split
  · rename_i h
    have : zpad x = x := by unfold zpad; rw [h]; simp
    rw [this, show 16 * ((x.length + 15) / 16) / 16 = x.length / 16 by omega]
  · rename_i h
    rw [show 16 * ((x.length + 15) / 16) / 16 = x.length / 16 + 1 by omega, ghashFrom_add]
    unfold zpad
    rw [ghashFrom_take _ _ _ _ _ (by omega), List.drop_append_of_le_length (by omega), ht,
      show (16 - x.length % 16) % 16 = 16 - x.length % 16 by omega]

theorem hashPadded_spec (tb : Nat → GF) (hk : List Byte) (hg : GoodTable tb hk) (t x : List Byte)
    (ht : t.length = 16) :
    hashPadded tb t x = some (ghashFrom hk ((zpad x).length / 16) t (zpad x)) := by
  rw [zpad_hash hk t x _ rfl]
  have hbl : x.length / 16 * 16 = 16 * (x.length / 16) := Nat.mul_comm _ _
  have h1 : (if x.length / 16 * 16 > 0 then Gcm.ghash tb t (x.take (x.length / 16 * 16)) else some t)
      = some (ghashFrom hk (x.length / 16) t x) := by
    split
    · have := (ghash_spec tb hk hg t (x.take (x.length / 16 * 16)) ht).1
      rw [this, List.length_take, show min (x.length / 16 * 16) x.length / 16 = x.length / 16 by omega]
      have h2 := ghashFrom_take hk (x.length / 16) t (x.take (x.length / 16 * 16))
        (x.drop (x.length / 16 * 16)) (by rw [List.length_take]; omega)
      rw [List.take_append_drop] at h2
      rw [h2]
    · have : x.length / 16 = 0 := by omega
      rw [this]; rfl
  unfold hashPadded
  simp only [h1]
  unfold hashTail
  rw [List.length_drop, hbl]
  have hmod : x.length - 16 * (x.length / 16) = x.length % 16 := by omega
  rw [hmod]
  by_cases h : x.length % 16 = 0
  · rw [if_neg (by omega), if_pos h]
  · rw [if_pos (by omega), if_neg h]
    have hl : (x.drop (16 * (x.length / 16)) ++ List.replicate (16 - x.length % 16) 0#8).length = 16 := by
      rw [List.length_append, List.length_drop, List.length_replicate]; omega
    rw [(ghash_spec tb hk hg _ _ (ghashFrom_length _ _ _ _ ht)).1, hl]

theorem beBytes_mod (n m : Nat) : beBytes n (m % 256 ^ n) = beBytes n m := by
  apply beVal_inj
  · simp
  · rw [beVal_beBytes, beVal_beBytes, Nat.mod_mod]

theorem beBytes8_bits (n : Nat) : beBytes 8 ((n <<< 3) % 2 ^ 64) = beBytes 8 (8 * n) := by
  have := beBytes_mod 8 (n <<< 3)
  rw [show (256 : Nat) ^ 8 = 2 ^ 64 by norm_num] at this
  rw [this, Nat.shiftLeft_eq, Nat.mul_comm]

theorem hkey_len (K : Cipher) : (hkey K).length = 16 := K.encLen _ (by simp)

theorem preCounter_spec (K : Cipher) (tb : Nat → GF) (hg : GoodTable tb (hkey K)) (iv : List Byte) :
    preCounter tb iv = some (j0 K iv) := by
  unfold preCounter j0
  split
  · rfl
  · rw [hashPadded_spec tb _ hg _ _ (by simp)]
    simp only
    rw [(ghash_spec tb _ hg _ _ (ghashFrom_length _ _ _ _ (by simp))).1]
    unfold Spec.ghash
    rw [List.append_assoc, beBytes8_bits]
    have hl : (List.replicate 8 0#8 ++ beBytes 8 (8 * iv.length)).length = 16 := by simp
    have hz := zpad_length iv
    rw [List.length_append (as := zpad iv), hl,
      show ((zpad iv).length + 16) / 16 = (zpad iv).length / 16 + 1 by omega,
      ghashFrom_append _ _ _ _ _ _ (by omega)]

theorem j0_len (K : Cipher) (iv : List Byte) : (j0 K iv).length = 16 := by
  unfold j0
  split
  · rename_i h; simp [h]
  · exact ghashFrom_length _ _ _ _ (by simp)

/-! ## Counter blocks and key stream -/

theorem cb_len (j : List Byte) (hj : j.length = 16) (n : Nat) : (cb j n).length = 16 := by
  unfold cb; rw [List.length_append, List.length_take, beBytes_length]; omega

theorem inc32_cb (j : List Byte) (hj : j.length = 16) (n : Nat) : inc32 (cb j n) = cb j (n + 1) := by
  unfold inc32 cb
  have h12 : (j.take 12).length = 12 := by rw [List.length_take]; omega
  rw [List.take_append_of_le_length (by omega), List.take_of_length_le (by omega),
    List.drop_append_of_le_length (by omega), List.drop_of_length_le (by omega), List.nil_append,
    beVal_beBytes]
  congr 2
  norm_num
  omega

theorem inc32_eq_cb (j : List Byte) : inc32 j = cb j 1 := rfl

theorem ks_len (K : Cipher) (j : List Byte) (hj : j.length = 16) (n : Nat) :
    (keystream K j n).length = 16 * n := by
  unfold keystream
  induction n with
  | zero => rfl
  | succ n ih =>
    rw [List.range_succ, List.flatMap_append, List.length_append, ih]
    simp only [List.flatMap_cons, List.flatMap_nil, List.append_nil]
    rw [K.encLen _ (cb_len j hj _)]; omega

theorem ks_succ (K : Cipher) (j : List Byte) (n : Nat) :
    keystream K j (n + 1) = keystream K j n ++ K.enc (cb j (n + 1)) := by
  unfold keystream
  rw [List.range_succ, List.flatMap_append]
  simp

theorem ks_add (K : Cipher) (j : List Byte) (n m : Nat) :
    ∃ t, keystream K j (n + m) = keystream K j n ++ t := by
  induction m with
  | zero => exact ⟨[], by simp⟩
  | succ m ih =>
    obtain ⟨t, h⟩ := ih
    exact ⟨t ++ K.enc (cb j (n + m + 1)), by rw [← Nat.add_assoc, ks_succ, h, List.append_assoc]⟩

theorem xorB_append (a b c d : List Byte) (h : a.length = c.length) :
    xorB (a ++ b) (c ++ d) = xorB a c ++ xorB b d := by
  unfold xorB; exact List.zipWith_append h

theorem xorB_extra (x k t : List Byte) (h : x.length ≤ k.length) : xorB x (k ++ t) = xorB x k := by
  have e : x = x ++ [] := by simp
  have hk : k = k.take x.length ++ k.drop x.length := (List.take_append_drop _ _).symm
  have h1 : x.length = (k.take x.length).length := by rw [List.length_take]; omega
  rw [hk, List.append_assoc]
  conv => lhs; rw [e]
  conv => rhs; rw [e]
  rw [xorB_append _ _ _ _ (by rw [List.append_nil]; exact h1), xorB_append _ _ _ _ (by rw [List.append_nil]; exact h1)]
  rfl

theorem gctr_any (K : Cipher) (j : List Byte) (hj : j.length = 16) (x : List Byte) (n : Nat)
    (h : x.length ≤ 16 * n) : xorB x (keystream K j n) = gctr K j x := by
  unfold gctr
  have key : ∀ a b, x.length ≤ 16 * a → a ≤ b → xorB x (keystream K j b) = xorB x (keystream K j a) := by
    intro a b ha hab
    obtain ⟨t, ht⟩ := ks_add K j a (b - a)
    rw [show a + (b - a) = b by omega] at ht
    rw [ht, xorB_extra _ _ _ (by rw [ks_len K j hj]; exact ha)]
  rcases Nat.le_total n (x.length / 16 + 1) with h1 | h1
  · exact (key n _ h h1).symm
  · exact key _ n (by omega) h1

theorem gctr_length (K : Cipher) (j : List Byte) (hj : j.length = 16) (x : List Byte) :
    (gctr K j x).length = x.length := by
  unfold gctr
  rw [xorB_length, ks_len K j hj]; omega

/-- Extending a message within its current block. -/
theorem gctr_step (K : Cipher) (j : List Byte) (hj : j.length = 16) (p x : List Byte)
    (h : p.length % 16 + x.length ≤ 16) :
    gctr K j (p ++ x) = gctr K j p ++ xorB x ((K.enc (cb j (p.length / 16 + 1))).drop (p.length % 16)) := by
  rw [← gctr_any K j hj (p ++ x) (p.length / 16 + 1) (by rw [List.length_append]; omega)]
  have hks : keystream K j (p.length / 16 + 1) =
      (keystream K j (p.length / 16 + 1)).take p.length ++
        (K.enc (cb j (p.length / 16 + 1))).drop (p.length % 16) := by
    conv => lhs; rw [← List.take_append_drop p.length (keystream K j (p.length / 16 + 1))]
    congr 1
    rw [ks_succ, List.drop_append, ks_len K j hj, List.drop_of_length_le (by rw [ks_len K j hj]; omega),
      List.nil_append]
    congr 1
    omega
  have hl : p.length = ((keystream K j (p.length / 16 + 1)).take p.length).length := by
    rw [List.length_take, ks_len K j hj]; omega
  rw [hks, xorB_append _ _ _ _ hl]
  congr 1
  rw [← gctr_any K j hj p (p.length / 16 + 1) (by omega)]
  conv => rhs; rw [← List.take_append_drop p.length (keystream K j (p.length / 16 + 1))]
  rw [xorB_extra _ _ _ (by omega)]

/-! ## The streaming invariant -/

/-- The ciphertext side of the data processed so far. -/
def ctOf (K : Cipher) (j : List Byte) (enc : Bool) (p : List Byte) : List Byte :=
  if enc then gctr K j p else p

theorem ctOf_length (K : Cipher) (j : List Byte) (hj : j.length = 16) (enc : Bool) (p : List Byte) :
    (ctOf K j enc p).length = p.length := by
  unfold ctOf; split
  · exact gctr_length K j hj p
  · rfl

/-- State after processing `p`. `g0`: hash of the additional data. -/
structure Inv (K : Cipher) (hk j g0 : List Byte) (c : Ctx) (p : List Byte) : Prop where
  tb : GoodTable c.hTable hk
  iv : c.iv = cb j (1 + (p.length + 15) / 16)
  lastLen : c.lastLen = (16 - p.length % 16) % 16
  last : p.length % 16 ≠ 0 → c.last = K.enc (cb j (p.length / 16 + 1))
  remLen : c.remCt.length = 16
  rem : p.length % 16 ≠ 0 →
    c.remCt.take (p.length % 16) = (ctOf K j c.enc p).drop (16 * (p.length / 16))
  gh : c.ghash = ghashFrom hk (p.length / 16) g0 (ctOf K j c.enc p)

/-- The parts of the context that processing data leaves alone. -/
structure Same (c c' : Ctx) : Prop where
  ek0 : c'.ek0 = c.ek0
  aadLen : c'.aadLen = c.aadLen
  tagLen : c'.tagLen = c.tagLen
  enc : c'.enc = c.enc
  vfyTag : c'.vfyTag = c.vfyTag
  cryptCnt : c'.cryptCnt = c.cryptCnt
  plaintextLen : c'.plaintextLen = c.plaintextLen

theorem Same.rfl' (c : Ctx) : Same c c := ⟨rfl, rfl, rfl, rfl, rfl, rfl, rfl⟩

theorem Same.trans {a b c : Ctx} (h1 : Same a b) (h2 : Same b c) : Same a c :=
  ⟨h2.1.trans h1.1, h2.2.trans h1.2, h2.3.trans h1.3, h2.4.trans h1.4, h2.5.trans h1.5,
    h2.6.trans h1.6, h2.7.trans h1.7⟩

theorem ctOf_append (K : Cipher) (j : List Byte) (enc : Bool) (p x o : List Byte)
    (h : gctr K j (p ++ x) = gctr K j p ++ o) :
    ctOf K j enc (p ++ x) = ctOf K j enc p ++ (if enc then o else x) := by
  unfold ctOf; cases enc <;> simp [h]

theorem lastHandle_spec (K : Cipher) (hk j g0 : List Byte) (hj : j.length = 16) (hg0 : g0.length = 16)
    (c : Ctx) (p inp : List Byte) (hI : Inv K hk j g0 c p) :
    ∃ c' o n, lastHandle c inp = some (c', o, n) ∧ Same c c' ∧ n = min c.lastLen inp.length ∧
      Inv K hk j g0 c' (p ++ inp.take n) ∧ gctr K j (p ++ inp.take n) = gctr K j p ++ o ∧
      ((p.length + n) % 16 = 0 ∨ n = inp.length) := by
  have hL := hI.lastLen
  unfold lastHandle
  by_cases h0 : c.lastLen > 0
  · rw [if_pos h0]
    have hr : p.length % 16 ≠ 0 := by omega
    have hoff : 16 - c.lastLen = p.length % 16 := by omega
    have hn : (if c.lastLen < inp.length then c.lastLen else inp.length) = min c.lastLen inp.length := by
      split <;> omega
    dsimp only
    rw [hn, hoff]
    have hx : (inp.take (min c.lastLen inp.length)).length = min c.lastLen inp.length := by
      rw [List.length_take]; omega
    have hkle : p.length % 16 + min c.lastLen inp.length ≤ 16 := by omega
    have hkN : min c.lastLen inp.length = c.lastLen ∨ min c.lastLen inp.length = inp.length := by omega
    have hkl : min c.lastLen inp.length ≤ c.lastLen := by omega
    generalize hk' : min c.lastLen inp.length = k at *
    generalize hxd : inp.take k = x at *
    have hg := gctr_step K j hj p x (by omega)
    rw [← hI.last hr] at hg
    generalize ho : xorB x (c.last.drop (p.length % 16)) = o at *
    have hol : o.length = k := by
      rw [← ho, xorB_length, List.length_drop, hI.last hr, K.encLen _ (cb_len j hj _)]; omega
    have hct := ctOf_append K j c.enc p x o hg
    generalize hctx : (if c.enc then o else x) = ct at *
    have hctl : ct.length = k := by rw [← hctx]; split <;> omega
    have hcl := ctOf_length K j hj c.enc p
    have hput : putAt c.remCt (p.length % 16) ct =
        c.remCt.take (p.length % 16) ++ ct ++ c.remCt.drop (p.length % 16 + k) := by
      unfold putAt; rw [hctl]
    have hdrop : (ctOf K j c.enc (p ++ x)).drop (16 * (p.length / 16)) =
        c.remCt.take (p.length % 16) ++ ct := by
      rw [hct, List.drop_append_of_le_length (by omega), hI.rem hr]
    have htl : (c.remCt.take (p.length % 16)).length = p.length % 16 := by
      rw [List.length_take, hI.remLen]; omega
    have hputl : (putAt c.remCt (p.length % 16) ct).length = 16 := by
      rw [hput, List.length_append, List.length_append, List.length_drop, htl, hI.remLen]; omega
    by_cases hfull : c.lastLen - k = 0
    · have hke : p.length % 16 + k = 16 := by omega
      have hd : c.remCt.drop (p.length % 16 + k) = [] := List.drop_of_length_le (by rw [hI.remLen]; omega)
      have hgl : c.ghash.length = 16 := by rw [hI.gh]; exact ghashFrom_length _ _ _ _ hg0
      have hgs := (ghash_spec c.hTable hk hI.tb c.ghash (putAt c.remCt (p.length % 16) ct) hgl).1
      rw [hputl] at hgs
      simp only [hfull, if_true, hgs]
      refine ⟨_, o, k, rfl, ⟨rfl, rfl, rfl, rfl, rfl, rfl, rfl⟩, rfl, ?_, by rw [hxd]; exact hg, Or.inl (by omega)⟩
      rw [hxd]
      have hpl : (p ++ x).length = p.length + k := by rw [List.length_append, hx]
      refine ⟨hI.tb, ?_, ?_, ?_, hputl, ?_, ?_⟩
      · show c.iv = _
        rw [hI.iv, hpl]; congr 1; omega
      · show 0 = _
        rw [hpl]; omega
      · intro h; rw [hpl] at h; omega
      · intro h; rw [hpl] at h; omega
      · show ghashFrom hk (16 / 16) c.ghash (putAt c.remCt (p.length % 16) ct) =
          ghashFrom hk ((p ++ x).length / 16) g0 (ctOf K j c.enc (p ++ x))
        rw [hpl, show (p.length + k) / 16 = p.length / 16 + 1 by omega, ghashFrom_add, hdrop, hct,
          ghashFrom_take hk (p.length / 16) g0 (ctOf K j c.enc p) ct (by omega), hI.gh, hput, hd, List.append_nil]
    · simp only [hfull, if_false]
      refine ⟨_, o, k, rfl, ⟨rfl, rfl, rfl, rfl, rfl, rfl, rfl⟩, rfl, ?_, by rw [hxd]; exact hg, Or.inr (by omega)⟩
      rw [hxd]
      have hpl : (p ++ x).length = p.length + k := by rw [List.length_append, hx]
      have hlt : p.length % 16 + k < 16 := by omega
      have hmod : (p.length + k) % 16 = p.length % 16 + k := by omega
      have hdiv : (p.length + k) / 16 = p.length / 16 := by omega
      refine ⟨hI.tb, ?_, ?_, ?_, hputl, ?_, ?_⟩
      · show c.iv = _
        rw [hI.iv, hpl]; congr 1; omega
      · show c.lastLen - k = _
        rw [hpl, hmod]; omega
      · intro _
        show c.last = _
        rw [hpl, hdiv]; exact hI.last hr
      · intro _
        show (putAt c.remCt (p.length % 16) ct).take _ = (ctOf K j c.enc (p ++ x)).drop _
        rw [hpl, hdiv, hmod, hdrop, hput, List.take_append_of_le_length (by rw [List.length_append]; omega),
          List.take_of_length_le (by rw [List.length_append]; omega)]
      · show c.ghash = ghashFrom hk ((p ++ x).length / 16) g0 (ctOf K j c.enc (p ++ x))
        rw [hpl, hdiv, hct, ghashFrom_take _ _ _ _ _ (by omega), hI.gh]
  · rw [if_neg h0]
    have hr : p.length % 16 = 0 := by omega
    refine ⟨c, [], 0, rfl, Same.rfl' c, by omega, ?_, ?_, Or.inl (by omega)⟩
    · rw [List.take_zero, List.append_nil]; exact hI
    · simp

theorem multiLoop_spec (K : Cipher) (j : List Byte) (hj : j.length = 16) (m : Nat) :
    ∀ (p inp last : List Byte), p.length % 16 = 0 → inp.length = 16 * m →
    ∃ l o, multiLoop K m (cb j (1 + p.length / 16)) last inp = (cb j (1 + p.length / 16 + m), l, o) ∧
      gctr K j (p ++ inp) = gctr K j p ++ o ∧ o.length = 16 * m := by
  induction m with
  | zero =>
    intro p inp last _ hi
    have : inp = [] := List.eq_nil_of_length_eq_zero (by omega)
    subst this
    exact ⟨last, [], rfl, by simp, rfl⟩
  | succ m ih =>
    intro p inp last hp hi
    have htl : (inp.take 16).length = 16 := by rw [List.length_take]; omega
    have hpl : (p ++ inp.take 16).length = p.length + 16 := by rw [List.length_append, htl]
    obtain ⟨l, o, h1, h2, h3⟩ := ih (p ++ inp.take 16) (inp.drop 16) (K.enc (cb j (1 + p.length / 16)))
      (by omega) (by rw [List.length_drop]; omega)
    have hs := gctr_step K j hj p (inp.take 16) (by omega)
    rw [hp, List.drop_zero, Nat.add_comm (p.length / 16) 1] at hs
    rw [multiLoop]
    rw [inc32_cb j hj, show 1 + p.length / 16 + 1 = 1 + (p ++ inp.take 16).length / 16 by omega, h1]
    refine ⟨l, xorB (inp.take 16) (K.enc (cb j (1 + p.length / 16))) ++ o, ?_, ?_, ?_⟩
    · simp only [Prod.mk.injEq, and_true]
      congr 1; omega
    · rw [← List.append_assoc, ← hs, ← h2, List.append_assoc, List.take_append_drop]
    · rw [List.length_append, h3, xorB_length, htl, K.encLen _ (cb_len j hj _)]; omega

theorem multiCrypt_spec (K : Cipher) (hk j g0 : List Byte) (hj : j.length = 16) (hg0 : g0.length = 16)
    (c : Ctx) (p inp : List Byte) (hI : Inv K hk j g0 c p) (hp : p.length % 16 = 0)
    (hi : inp.length % 16 = 0) :
    ∃ c' o, multiCrypt K c inp = some (c', o) ∧ Same c c' ∧ Inv K hk j g0 c' (p ++ inp) ∧
      gctr K j (p ++ inp) = gctr K j p ++ o := by
  have hiv : c.iv = cb j (1 + p.length / 16) := by rw [hI.iv]; congr 1; omega
  obtain ⟨l, o, h1, h2, h3⟩ := multiLoop_spec K j hj (inp.length / 16) p inp c.last hp (by omega)
  have hgl : c.ghash.length = 16 := by rw [hI.gh]; exact ghashFrom_length _ _ _ _ hg0
  have hct := ctOf_append K j c.enc p inp o h2
  have hcl := ctOf_length K j hj c.enc p
  unfold multiCrypt
  rw [hiv, h1]
  simp only
  generalize hctx : (if c.enc then o else inp) = ct at *
  have hctl : ct.length = inp.length := by rw [← hctx]; split <;> omega
  rw [(ghash_spec c.hTable hk hI.tb c.ghash ct hgl).1]
  refine ⟨_, _, rfl, ⟨rfl, rfl, rfl, rfl, rfl, rfl, rfl⟩, ?_, h2⟩
  have hpl : (p ++ inp).length = p.length + inp.length := List.length_append
  refine ⟨hI.tb, ?_, ?_, ?_, hI.remLen, ?_, ?_⟩
  · show cb j (1 + p.length / 16 + inp.length / 16) = _
    rw [hpl]; congr 1; omega
  · show c.lastLen = _
    rw [hI.lastLen, hpl]; omega
  · intro h; rw [hpl] at h; omega
  · intro h; rw [hpl] at h; omega
  · show ghashFrom hk (ct.length / 16) c.ghash ct =
      ghashFrom hk ((p ++ inp).length / 16) g0 (ctOf K j c.enc (p ++ inp))
    rw [hpl, show (p.length + inp.length) / 16 = p.length / 16 + ct.length / 16 by omega, hct,
      ghashFrom_append _ _ _ _ _ _ (by omega), hI.gh]

theorem remCrypt_spec (K : Cipher) (hk j g0 : List Byte) (hj : j.length = 16)
    (c : Ctx) (p inp : List Byte) (hI : Inv K hk j g0 c p) (hp : p.length % 16 = 0)
    (hi : inp.length < 16) :
    Same c (remCrypt K c inp).1 ∧ Inv K hk j g0 (remCrypt K c inp).1 (p ++ inp) ∧
      gctr K j (p ++ inp) = gctr K j p ++ (remCrypt K c inp).2 := by
  have hiv : c.iv = cb j (1 + p.length / 16) := by rw [hI.iv]; congr 1; omega
  unfold remCrypt
  split
  · rename_i h0
    simp only
    have hs := gctr_step K j hj p inp (by omega)
    rw [hp, List.drop_zero, Nat.add_comm (p.length / 16) 1, ← hiv] at hs
    have hct := ctOf_append K j c.enc p inp _ hs
    have hol : (xorB inp (K.enc c.iv)).length = inp.length := by
      rw [xorB_length, hiv, K.encLen _ (cb_len j hj _)]; omega
    generalize xorB inp (K.enc c.iv) = o at *
    generalize hctx : (if c.enc then o else inp) = ct at *
    have hctl : ct.length = inp.length := by rw [← hctx]; split <;> omega
    have hcl := ctOf_length K j hj c.enc p
    have hpl : (p ++ inp).length = p.length + inp.length := List.length_append
    have hput : putAt c.remCt 0 ct = ct ++ c.remCt.drop inp.length := by
      unfold putAt; rw [hctl]; simp
    refine ⟨⟨rfl, rfl, rfl, rfl, rfl, rfl, rfl⟩, ⟨hI.tb, ?_, ?_, ?_, ?_, ?_, ?_⟩, hs⟩
    · show inc32 c.iv = _
      rw [hiv, inc32_cb j hj, hpl]; congr 1; omega
    · show 16 - inp.length = _
      rw [hpl]; omega
    · intro _
      show K.enc c.iv = _
      rw [hiv, hpl]; congr 2; omega
    · show (putAt c.remCt 0 ct).length = 16
      rw [hput, List.length_append, List.length_drop, hI.remLen]; omega
    · intro _
      show (putAt c.remCt 0 ct).take _ = (ctOf K j c.enc (p ++ inp)).drop _
      rw [hput, hpl, hct, List.drop_append,
        List.drop_of_length_le (show (ctOf K j c.enc p).length ≤ 16 * ((p.length + inp.length) / 16) by omega), hcl, List.nil_append,
        List.take_append_of_le_length (by omega), List.take_of_length_le (by omega),
        show 16 * ((p.length + inp.length) / 16) - p.length = 0 by omega, List.drop_zero]
    · show c.ghash = ghashFrom hk ((p ++ inp).length / 16) g0 (ctOf K j c.enc (p ++ inp))
      rw [hpl, show (p.length + inp.length) / 16 = p.length / 16 by omega, hct,
        ghashFrom_take _ _ _ _ _ (by omega), hI.gh]
  · rename_i h0
    have : inp = [] := List.eq_nil_of_length_eq_zero (by omega)
    subst this
    simp only [List.append_nil]
    exact ⟨⟨rfl, rfl, rfl, rfl, rfl, rfl, rfl⟩,
      ⟨hI.tb, hI.iv, by show 0 = _; omega, hI.last, hI.remLen, hI.rem, hI.gh⟩, trivial⟩

theorem inv_plaintextLen (K : Cipher) (hk j g0 : List Byte) (c : Ctx) (p : List Byte) (n : Nat)
    (hI : Inv K hk j g0 c p) : Inv K hk j g0 { c with plaintextLen := n } p :=
  ⟨hI.tb, hI.iv, hI.lastLen, hI.last, hI.remLen, hI.rem, hI.gh⟩

/-- As `Same`, but with the data length counted. -/
structure After (c c' : Ctx) (n : Nat) : Prop where
  ek0 : c'.ek0 = c.ek0
  aadLen : c'.aadLen = c.aadLen
  tagLen : c'.tagLen = c.tagLen
  enc : c'.enc = c.enc
  vfyTag : c'.vfyTag = c.vfyTag
  cryptCnt : c'.cryptCnt = c.cryptCnt
  plaintextLen : c'.plaintextLen = c.plaintextLen + n

theorem crypt_spec (K : Cipher) (hk j g0 : List Byte) (hj : j.length = 16) (hg0 : g0.length = 16)
    (c : Ctx) (p inp : List Byte) (hI : Inv K hk j g0 c p)
    (hl : c.plaintextLen + inp.length ≤ maxLen) :
    ∃ c' o, crypt K c inp = some (c', .ok o) ∧ After c c' inp.length ∧ Inv K hk j g0 c' (p ++ inp) ∧
      gctr K j (p ++ inp) = gctr K j p ++ o := by
  unfold crypt
  rw [if_neg (by omega)]
  obtain ⟨c1, o1, n, h1, hs1, hn, hI1, hg1, hd⟩ := lastHandle_spec K hk j g0 hj hg0
    { c with plaintextLen := c.plaintextLen + inp.length } p inp (inv_plaintextLen K hk j g0 c p _ hI)
  simp only [h1]
  by_cases hall : n = inp.length
  · rw [if_pos hall]
    refine ⟨c1, o1, rfl, ⟨hs1.1, hs1.2, hs1.3, hs1.4, hs1.5, hs1.6, hs1.7⟩, ?_, ?_⟩
    · rw [hall, List.take_length] at hI1; exact hI1
    · rw [hall, List.take_length] at hg1; exact hg1
  · rw [if_neg hall]
    have hnl : n ≤ inp.length := by rw [hn]; exact Nat.min_le_right _ _
    have hp1 : (p ++ inp.take n).length % 16 = 0 := by
      rw [List.length_append, List.length_take, Nat.min_eq_left hnl]
      rcases hd with h | h
      · exact h
      · exact absurd h hall
    generalize hp1' : p ++ inp.take n = p1 at *
    have hinp : p ++ inp = p1 ++ inp.drop n := by rw [← hp1', List.append_assoc, List.take_append_drop]
    rw [hinp]
    generalize inp.drop n = rest at *
    have hm : ∃ c2 o2, (if rest.length / 16 * 16 > 0 then multiCrypt K c1 (rest.take (rest.length / 16 * 16))
          else some (c1, [])) = some (c2, o2) ∧ Same c1 c2 ∧
        Inv K hk j g0 c2 (p1 ++ rest.take (rest.length / 16 * 16)) ∧
        gctr K j (p1 ++ rest.take (rest.length / 16 * 16)) = gctr K j p1 ++ o2 := by
      split
      · exact multiCrypt_spec K hk j g0 hj hg0 c1 p1 _ hI1 hp1 (by rw [List.length_take]; omega)
      · rename_i h0
        rw [show rest.length / 16 * 16 = 0 by omega, List.take_zero, List.append_nil]
        exact ⟨c1, [], rfl, Same.rfl' c1, hI1, by simp⟩
    obtain ⟨c2, o2, h2, hs2, hI2, hg2⟩ := hm
    rw [h2]
    simp only
    have hp2 : (p1 ++ rest.take (rest.length / 16 * 16)).length % 16 = 0 := by
      rw [List.length_append, List.length_take]; omega
    obtain ⟨hs3, hI3, hg3⟩ := remCrypt_spec K hk j g0 hj c2 _ (rest.drop (rest.length / 16 * 16)) hI2 hp2
      (by rw [List.length_drop]; omega)
    rw [List.append_assoc, List.take_append_drop] at hI3 hg3
    have hs := (hs1.trans hs2).trans hs3
    refine ⟨_, _, rfl, ⟨hs.1, hs.2, hs.3, hs.4, hs.5, hs.6, hs.7⟩, hI3, ?_⟩
    rw [hg3, hg2, hg1]
    simp only [List.append_assoc]

/-- A sequence of updates. -/
theorem updateAll_spec (K : Cipher) (hk j g0 : List Byte) (hj : j.length = 16) (hg0 : g0.length = 16)
    (xs : List (List Byte)) : ∀ (c : Ctx) (p : List Byte), Inv K hk j g0 c p →
    c.plaintextLen = p.length → p.length + xs.flatten.length ≤ maxLen →
    ∃ c' o, updateAll K c xs = some (c', .ok o) ∧ After c c' xs.flatten.length ∧
      Inv K hk j g0 c' (p ++ xs.flatten) ∧ gctr K j (p ++ xs.flatten) = gctr K j p ++ o := by
  induction xs with
  | nil =>
    intro c p hI hp _
    exact ⟨c, [], rfl, ⟨rfl, rfl, rfl, rfl, rfl, rfl, by simp⟩, by simpa using hI, by simp⟩
  | cons x xs ih =>
    intro c p hI hp hl
    rw [List.flatten_cons, List.length_append] at hl
    have hx : ∃ c1 o1, update K c x x.length = some (c1, .ok o1) ∧ After c c1 x.length ∧
        Inv K hk j g0 c1 (p ++ x) ∧ gctr K j (p ++ x) = gctr K j p ++ o1 := by
      unfold update
      by_cases h0 : x.length = 0
      · rw [if_pos h0]
        have : x = [] := List.eq_nil_of_length_eq_zero h0
        subst this
        exact ⟨c, [], rfl, ⟨rfl, rfl, rfl, rfl, rfl, rfl, by simp⟩, by simpa using hI, by simp⟩
      · rw [if_neg h0, if_neg (by omega)]
        exact crypt_spec K hk j g0 hj hg0 c p x hI (by omega)
    obtain ⟨c1, o1, h1, ha1, hI1, hg1⟩ := hx
    obtain ⟨c2, o2, h2, ha2, hI2, hg2⟩ := ih c1 (p ++ x) hI1
      (by rw [ha1.plaintextLen, hp, List.length_append]) (by rw [List.length_append]; omega)
    rw [updateAll, h1]
    simp only [h2]
    refine ⟨c2, o1 ++ o2, rfl, ⟨ha2.1.trans ha1.1, ha2.2.trans ha1.2, ha2.3.trans ha1.3, ha2.4.trans ha1.4,
      ha2.5.trans ha1.5, ha2.6.trans ha1.6, ?_⟩, ?_, ?_⟩
    · rw [ha2.plaintextLen, ha1.plaintextLen, List.flatten_cons, List.length_append]; omega
    · rw [List.flatten_cons, ← List.append_assoc]; exact hI2
    · rw [List.flatten_cons, ← List.append_assoc, hg2, hg1, List.append_assoc]

theorem pad_spec (K : Cipher) (hk j g0 : List Byte) (hj : j.length = 16) (hg0 : g0.length = 16)
    (c : Ctx) (p : List Byte) (hI : Inv K hk j g0 c p) (hp : c.plaintextLen = p.length) :
    pad c = some (ghashFrom hk 1
      (ghashFrom hk ((zpad (ctOf K j c.enc p)).length / 16) g0 (zpad (ctOf K j c.enc p)))
      (beBytes 8 (8 * c.aadLen) ++ beBytes 8 (8 * p.length))) := by
  have hcl := ctOf_length K j hj c.enc p
  have hgl : c.ghash.length = 16 := by rw [hI.gh]; exact ghashFrom_length _ _ _ _ hg0
  have h1 : (if c.lastLen ≠ 0 then
      Gcm.ghash c.hTable c.ghash (c.remCt.take (16 - c.lastLen) ++ List.replicate c.lastLen 0#8)
      else some c.ghash) =
      some (ghashFrom hk ((zpad (ctOf K j c.enc p)).length / 16) g0 (zpad (ctOf K j c.enc p))) := by
    rw [zpad_hash hk g0 (ctOf K j c.enc p) _ rfl, hcl]
    have hL := hI.lastLen
    by_cases h : p.length % 16 = 0
    · rw [if_neg (by omega), if_pos h, hI.gh]
    · rw [if_pos (by omega), if_neg h, show 16 - c.lastLen = p.length % 16 by omega, hI.rem h,
        show c.lastLen = 16 - p.length % 16 by omega]
      rw [(ghash_spec c.hTable hk hI.tb _ _ hgl).1, hI.gh]
      have hl : ((ctOf K j c.enc p).drop (16 * (p.length / 16)) ++
          List.replicate (16 - p.length % 16) 0#8).length = 16 := by
        rw [List.length_append, List.length_drop, List.length_replicate, hcl]; omega
      rw [hl]
  unfold pad
  simp only [h1]
  rw [beBytes8_bits, beBytes8_bits, hp,
    (ghash_spec c.hTable hk hI.tb _ _ (ghashFrom_length _ _ _ _ hg0)).1]
  simp

/-- The state right after the IV is set. -/
theorem setIv_spec (K : Cipher) (c : Ctx) (iv : List Byte) (hg : GoodTable c.hTable (hkey K))
    (hne : iv.length ≠ 0) (hcnt : c.cryptCnt ≠ 2 ^ 32 - 1) :
    ∃ c', setIv K c iv = some (c', .ok ()) ∧
      Inv K (hkey K) (j0 K iv) (List.replicate 16 0#8) c' [] ∧ c'.ek0 = K.enc (j0 K iv) ∧
      c'.aadLen = 0 ∧ c'.plaintextLen = 0 ∧ c'.tagLen = c.tagLen ∧ c'.enc = c.enc ∧
      c'.vfyTag = c.vfyTag ∧ c'.cryptCnt = c.cryptCnt := by
  unfold setIv
  rw [if_neg hne, if_neg hcnt, preCounter_spec K _ hg]
  refine ⟨_, rfl, ⟨hg, rfl, rfl, ?_, by simp, ?_, rfl⟩, rfl, rfl, rfl, rfl, rfl, rfl, rfl⟩ <;>
    · intro h; simp at h

end Verif.Crypto.Gcm
