import Verif.Crypto.Modes.Xts
import Verif.Crypto.Modes.BlockProof

namespace Verif.Crypto.Modes

open Verif.Common

/-! ## Doubling -/

theorem lor_bit (a b : Nat) (hb : b < 2) : (2 * a) ||| b = 2 * a + b := by
  have := Nat.two_pow_add_eq_or_of_lt (i := 1) (b := b) (by simpa using hb) a
  simpa using this.symm

theorem xor_low (a b c : Nat) (k : Nat) (ha : a < 2 ^ k) (hc : c < 2 ^ k) :
    (a + 2 ^ k * b) ^^^ c = (a ^^^ c) + 2 ^ k * b := by
  have h1 : ((a + 2 ^ k * b) ^^^ c) % 2 ^ k = a ^^^ c := by
    rw [Nat.xor_mod_two_pow, Nat.add_mul_mod_self_left, Nat.mod_eq_of_lt ha, Nat.mod_eq_of_lt hc]
  have h2 : ((a + 2 ^ k * b) ^^^ c) / 2 ^ k = b := by
    rw [Nat.xor_div_two_pow, Nat.add_mul_div_left _ _ (Nat.two_pow_pos k), Nat.div_eq_of_lt ha,
      Nat.div_eq_of_lt hc]
    simp
  have := Nat.mod_add_div ((a + 2 ^ k * b) ^^^ c) (2 ^ k)
  rw [h1, h2] at this
  exact this.symm

theorem gfMul_length (a : List Byte) : (gfMul a).length = 16 := by
  unfold gfMul
  simp only [List.length_append, leBytes_length]

theorem gfMul_val (a : List Byte) (h : a.length = 16) :
    leVal (gfMul a) = (2 * leVal a) % 2 ^ 128 ^^^ (if 2 ^ 127 ≤ leVal a then 0x87 else 0) := by
  have hl0 : leVal (a.take 8) < 2 ^ 64 := by
    have := leVal_lt (a.take 8)
    rw [List.length_take, h] at this
    exact this
  have hl1 : leVal (a.drop 8) < 2 ^ 64 := by
    have := leVal_lt (a.drop 8)
    rw [List.length_drop, h] at this
    exact this
  have hv : leVal a = leVal (a.take 8) + 2 ^ 64 * leVal (a.drop 8) := by
    conv => lhs; rw [← List.take_append_drop 8 a]
    rw [leVal_append, List.length_take, h]
    norm_num
  rw [hv]
  unfold gfMul
  simp only [leVal_append, leBytes_length, leVal_leBytes]
  generalize leVal (a.take 8) = x at *
  generalize leVal (a.drop 8) = y at *
  have e1 : (BitVec.ofNat 64 y <<< 1 ||| BitVec.ofNat 64 x >>> 63).toNat = 2 * y % 2 ^ 64 + x / 2 ^ 63 := by
    rw [BitVec.toNat_or, BitVec.toNat_shiftLeft, BitVec.toNat_ushiftRight, BitVec.toNat_ofNat,
      BitVec.toNat_ofNat, Nat.mod_eq_of_lt hl0, Nat.mod_eq_of_lt hl1, Nat.shiftLeft_eq, Nat.shiftRight_eq_div_pow]
    have : y * 2 ^ 1 % 2 ^ 64 = 2 * (y % 2 ^ 63) := by omega
    rw [this, lor_bit _ _ (by omega)]
    omega
  have e2 : (BitVec.ofNat 64 x <<< 1).toNat = 2 * x % 2 ^ 64 := by
    rw [BitVec.toNat_shiftLeft, BitVec.toNat_ofNat, Nat.mod_eq_of_lt hl0, Nat.shiftLeft_eq]
    omega
  have e3 : ((BitVec.setWidth 8 (BitVec.ofNat 64 y >>> 63) &&& 0xff#8) ≠ 0) ↔ 2 ^ 127 ≤ x + 2 ^ 64 * y := by
    have e4 : (BitVec.setWidth 8 (BitVec.ofNat 64 y >>> 63) &&& 0xff#8).toNat = y / 2 ^ 63 := by
      have : (0xff#8 : Byte) = BitVec.allOnes 8 := rfl
      rw [this, BitVec.and_allOnes, BitVec.toNat_setWidth, BitVec.toNat_ushiftRight, BitVec.toNat_ofNat,
        Nat.mod_eq_of_lt hl1, Nat.shiftRight_eq_div_pow]
      omega
    constructor
    · intro hc
      by_contra hlt
      apply hc
      apply BitVec.eq_of_toNat_eq
      rw [e4]
      show y / 2 ^ 63 = 0
      omega
    · intro hge hc
      rw [hc] at e4
      have : (0 : Byte).toNat = 0 := rfl
      omega
  have hs : (2 * (x + 2 ^ 64 * y)) % 2 ^ 128 = 2 * x % 2 ^ 64 + 2 ^ 64 * (2 * y % 2 ^ 64 + x / 2 ^ 63) := by
    omega
  rw [e1, hs]
  by_cases hc : 2 ^ 127 ≤ x + 2 ^ 64 * y
  · rw [if_pos (e3.mpr hc), if_pos hc, xor_low _ _ _ 64 (by omega) (by omega), BitVec.toNat_xor, e2]
    have h1 : (2 * x % 2 ^ 64 ^^^ BitVec.toNat 0x87#64) < 2 ^ 64 := Nat.xor_lt_two_pow (by omega) (by decide)
    rw [show (256 : Nat) ^ 8 = 2 ^ 64 by norm_num, Nat.mod_eq_of_lt h1,
      Nat.mod_eq_of_lt (a := 2 * y % 2 ^ 64 + x / 2 ^ 63) (by omega)]
    rfl
  · rw [if_neg (fun hh => hc (e3.mp hh)), if_neg hc, Nat.xor_zero, e2]
    rw [show (256 : Nat) ^ 8 = 2 ^ 64 by norm_num, Nat.mod_eq_of_lt (a := 2 * x % 2 ^ 64) (by omega),
      Nat.mod_eq_of_lt (a := 2 * y % 2 ^ 64 + x / 2 ^ 63) (by omega)]

theorem leVal_cons (x : Byte) (l : List Byte) : leVal (x :: l) = x.toNat + 256 * leVal l := rfl

theorem gfMulBELoop_spec (l : List Byte) : ∀ inn : Byte, inn.toNat ≤ 1 →
    (gfMulBELoop inn l).1.length = l.length ∧ (gfMulBELoop inn l).2.toNat ≤ 1 ∧
    leVal (gfMulBELoop inn l).1 + 256 ^ l.length * (gfMulBELoop inn l).2.toNat
      = 2 * leVal l + inn.toNat := by
  induction l with
  | nil => intro inn h; simp [gfMulBELoop, h, leVal]
  | cons x l ih =>
    intro inn h
    have hx := x.isLt
    have ho : ((x >>> 7) &&& 1#8).toNat = x.toNat / 128 := by
      rw [BitVec.toNat_and, BitVec.toNat_ushiftRight, Nat.shiftRight_eq_div_pow]
      show x.toNat / 128 &&& 1 = _
      rw [Nat.and_one_is_mod]
      omega
    obtain ⟨h1, h2, h3⟩ := ih ((x >>> 7) &&& 1#8) (by omega)
    refine ⟨by simp [gfMulBELoop, h1], h2, ?_⟩
    simp only [gfMulBELoop, leVal_cons]
    have e : ((x <<< 1) + inn).toNat = 2 * x.toNat % 256 + inn.toNat := by
      rw [BitVec.toNat_add, BitVec.toNat_shiftLeft, Nat.shiftLeft_eq]
      omega
    rw [e]
    rw [ho] at h3
    rw [List.length_cons, pow_succ]
    generalize gfMulBELoop ((x >>> 7) &&& 1#8) l = r at *
    have : 256 ^ l.length * 256 * r.2.toNat = 256 * (256 ^ l.length * r.2.toNat) := by ring
    rw [this]
    omega

/-- Both builds of the doubling routine agree. -/
theorem gfMulBE_eq (a : List Byte) (h : a.length = 16) : gfMulBE a = gfMul a := by
  obtain ⟨h1, h2, h3⟩ := gfMulBELoop_spec a 0#8 (by decide)
  apply leVal_inj
  · unfold gfMulBE
    rw [gfMul_length]
    generalize gfMulBELoop 0#8 a = r at *
    obtain ⟨r1, r2⟩ := r
    cases r1 with
    | nil => simp at h1; omega
    | cons y ys => simp only at h1 ⊢; split <;> simp at h1 ⊢ <;> omega
  · rw [gfMul_val a h]
    unfold gfMulBE
    generalize gfMulBELoop 0#8 a = r at *
    obtain ⟨r1, r2⟩ := r
    cases r1 with
    | nil => simp at h1; omega
    | cons y ys =>
      simp only at h1 h2 h3 ⊢
      have hb := leVal_lt (y :: ys)
      have ha := leVal_lt a
      rw [h1] at hb
      rw [h] at h3 hb ha
      norm_num at h3 hb ha
      have hy := y.isLt
      by_cases hc : r2.toNat > 0
      · have : r2.toNat = 1 := by omega
        rw [if_pos hc, if_pos (by omega)]
        have e : 2 * leVal a % 2 ^ 128 = leVal (y :: ys) := by omega
        rw [e, leVal_cons, leVal_cons, BitVec.toNat_xor]
        have := xor_low y.toNat (leVal ys) 0x87 8 hy (by decide)
        norm_num at this ⊢
        omega
      · have : r2.toNat = 0 := by omega
        rw [if_neg hc, if_neg (by omega), Nat.xor_zero]
        omega

theorem gfMulGMLoop_spec (l : List Byte) : ∀ inn : Byte, (inn = 0#8 ∨ inn = 0x80#8) →
    (gfMulGMLoop inn l).1.length = l.length ∧
    ((gfMulGMLoop inn l).2 = if l = [] then inn else if beVal l % 2 = 1 then 0x80#8 else 0#8) ∧
    2 * beVal (gfMulGMLoop inn l).1 + beVal l % 2
      = beVal l + (if inn = 0x80#8 ∧ l ≠ [] then 256 ^ l.length else 0) := by
  induction l with
  | nil => intro inn h; simp [gfMulGMLoop]
  | cons x l ih =>
    intro inn h
    have hx := x.isLt
    have hp : 256 ^ l.length * x.toNat % 2 = if l = [] then x.toNat % 2 else 0 := by
      cases l with
      | nil => simp
      | cons y l =>
        rw [List.length_cons, pow_succ, Nat.mul_assoc, Nat.mul_comm, Nat.mul_assoc, if_neg (by simp)]
        omega
    have ho : (x <<< 7) &&& 0x80#8 = if x.toNat % 2 = 1 then 0x80#8 else 0#8 := by
      clear ih hp hx
      revert x; decide +kernel
    have ho' : (x <<< 7) &&& 0x80#8 = 0#8 ∨ (x <<< 7) &&& 0x80#8 = 0x80#8 := by
      rw [ho]
      by_cases hb : x.toNat % 2 = 1
      · right; rw [if_pos hb]
      · left; rw [if_neg hb]
    obtain ⟨h1, h2, h3⟩ := ih _ ho'
    have e : ((x >>> 1) + inn).toNat = x.toNat / 2 + inn.toNat := by
      rw [BitVec.toNat_add, BitVec.toNat_ushiftRight, Nat.shiftRight_eq_div_pow]
      rcases h with rfl | rfl
      · show (x.toNat / 2 ^ 1 + 0) % 256 = x.toNat / 2 + 0; omega
      · show (x.toNat / 2 ^ 1 + 128) % 256 = x.toNat / 2 + 128; omega
    refine ⟨by simp [gfMulGMLoop, h1], ?_, ?_⟩
    · simp only [gfMulGMLoop]
      rw [h2, if_neg (List.cons_ne_nil x l), beVal_cons, Nat.add_mod, hp]
      by_cases hl : l = []
      · subst hl
        rw [if_pos rfl, if_pos rfl, ho]
        simp
      · rw [if_neg hl, if_neg hl]; simp
    · simp only [gfMulGMLoop]
      rw [beVal_cons, beVal_cons, h1, e, Nat.add_mod, hp]
      have hinn : inn.toNat = if inn = 0x80#8 then 128 else 0 := by
        rcases h with rfl | rfl <;> rfl
      rw [hinn]
      generalize gfMulGMLoop (x <<< 7 &&& 0x80#8) l = r at *
      by_cases hl : l = []
      · subst hl
        have : r.1 = [] := List.eq_nil_of_length_eq_zero (by simpa using h1)
        rw [this]
        by_cases hi : inn = 0x80#8 <;> simp [hi] <;> omega
      · rw [if_neg hl, List.length_cons, pow_succ]
        rw [ho] at h3
        have hdist : 2 * (256 ^ l.length * (x.toNat / 2 + if inn = 0x80#8 then 128 else 0) + beVal r.1)
            = 256 ^ l.length * (2 * (x.toNat / 2)) + 256 ^ l.length * (if inn = 0x80#8 then 256 else 0)
              + 2 * beVal r.1 := by
          split <;> ring
        rw [hdist]
        have hxe : 256 ^ l.length * x.toNat
            = 256 ^ l.length * (2 * (x.toNat / 2)) + 256 ^ l.length * (x.toNat % 2) := by
          rw [← Nat.mul_add]
          congr 1
          omega
        rw [hxe]
        by_cases hi : inn = 0x80#8
        · rw [if_pos hi, if_pos ⟨hi, by simp⟩]
          by_cases hb : x.toNat % 2 = 1
          · rw [if_pos hb, if_pos ⟨rfl, hl⟩] at h3
            rw [hb]
            omega
          · have hb0 : x.toNat % 2 = 0 := by omega
            rw [if_neg hb, if_neg (fun hh => absurd hh.1 (by decide))] at h3
            rw [hb0]
            omega
        · rw [if_neg hi, if_neg (by tauto)]
          by_cases hb : x.toNat % 2 = 1
          · rw [if_pos hb, if_pos ⟨rfl, hl⟩] at h3
            rw [hb]
            omega
          · have hb0 : x.toNat % 2 = 0 := by omega
            rw [if_neg hb, if_neg (fun hh => absurd hh.1 (by decide))] at h3
            rw [hb0]
            omega

theorem gfMulGM_length (a : List Byte) : (gfMulGM a).length = a.length := by
  obtain ⟨h1, -, -⟩ := gfMulGMLoop_spec a 0#8 (by simp)
  unfold gfMulGM
  generalize gfMulGMLoop 0#8 a = r at *
  obtain ⟨r1, r2⟩ := r
  cases r1 with
  | nil => simpa using h1
  | cons y ys => simp only at h1 ⊢; split <;> simpa using h1

theorem gfMulGM_val (a : List Byte) (h : a.length = 16) :
    beVal (gfMulGM a) = beVal a / 2 ^^^ (if beVal a % 2 = 1 then 0xE1 * 2 ^ 120 else 0) := by
  obtain ⟨h1, h2, h3⟩ := gfMulGMLoop_spec a 0#8 (by simp)
  have hne : a ≠ [] := by intro hh; subst hh; simp at h
  rw [if_neg (fun hh => absurd hh.1 (by decide))] at h3
  rw [if_neg hne] at h2
  unfold gfMulGM
  generalize gfMulGMLoop 0#8 a = r at *
  obtain ⟨r1, r2⟩ := r
  cases r1 with
  | nil => simp at h1; omega
  | cons y ys =>
    simp only at h1 h2 h3 ⊢
    have hys : ys.length = 15 := by simp at h1; omega
    have hyl := beVal_lt ys
    rw [hys] at hyl
    have hv : beVal (y :: ys) = beVal a / 2 := by omega
    by_cases hc : beVal a % 2 = 1
    · rw [if_pos hc] at h2
      rw [if_pos (by rw [h2]; decide), if_pos hc, ← hv, beVal_cons, beVal_cons, hys, BitVec.toNat_xor]
      have e1 : ∀ z w : Nat, w < 256 ^ 15 → 256 ^ 15 * z + w = w + 2 ^ 120 * z := by
        intro z w _; rw [show (256 : Nat) ^ 15 = 2 ^ 120 by norm_num]; omega
      rw [e1 _ _ hyl, e1 _ _ hyl]
      have h120 : beVal ys < 2 ^ 120 := by rw [show (2 : Nat) ^ 120 = 256 ^ 15 by norm_num]; exact hyl
      have hx : (beVal ys + 2 ^ 120 * y.toNat) ^^^ (0xE1 * 2 ^ 120)
          = beVal ys + 2 ^ 120 * (y.toNat ^^^ 0xE1) := by
        have g1 : ((beVal ys + 2 ^ 120 * y.toNat) ^^^ (0xE1 * 2 ^ 120)) % 2 ^ 120 = beVal ys := by
          rw [Nat.xor_mod_two_pow, Nat.add_mul_mod_self_left, Nat.mod_eq_of_lt h120,
            Nat.mul_mod_left, Nat.xor_zero]
        have g2 : ((beVal ys + 2 ^ 120 * y.toNat) ^^^ (0xE1 * 2 ^ 120)) / 2 ^ 120 = y.toNat ^^^ 0xE1 := by
          rw [Nat.xor_div_two_pow, Nat.add_mul_div_left _ _ (Nat.two_pow_pos 120), Nat.div_eq_of_lt h120,
            Nat.mul_div_cancel _ (Nat.two_pow_pos 120), Nat.zero_add]
        have := Nat.mod_add_div ((beVal ys + 2 ^ 120 * y.toNat) ^^^ (0xE1 * 2 ^ 120)) (2 ^ 120)
        rw [g1, g2] at this
        exact this.symm
      rw [hx]
      rfl
    · rw [if_neg hc] at h2
      rw [if_neg (by rw [h2]; decide), if_neg hc, Nat.xor_zero, hv]

theorem tweakNext_length (sm4 : Bool) (t : List Byte) (h : t.length = 16) :
    (tweakNext sm4 t).length = 16 := by
  cases sm4
  · exact gfMul_length t
  · simp only [tweakNext, if_true]; rw [gfMulGM_length, h]

/-! ## Blocks -/

theorem xtsBlock_length (K : Cipher) (e : Bool) (x t : List Byte) (hx : x.length = 16) (ht : t.length = 16) :
    (xtsBlock K e x t).length = 16 := by
  have h3 : (xorB x t).length = 16 := by rw [xorB_length]; omega
  have h1 := K.encLen _ h3
  have h2 := K.decLen _ h3
  cases e <;> simp only [xtsBlock] <;> rw [xorB_length] <;> simp <;> omega

theorem xorB_cancel' (a b : List Byte) (h : a.length = b.length) : xorB (xorB a b) b = a := by
  rw [xorB_comm, xorB_cancel a b h]

theorem xtsBlock_inv (K : Cipher) (e : Bool) (x t : List Byte) (hx : x.length = 16) (ht : t.length = 16) :
    xtsBlock K (!e) (xtsBlock K e x t) t = x := by
  have h3 : (xorB x t).length = 16 := by rw [xorB_length]; omega
  have h1 := K.encLen _ h3
  have h2 := K.decLen _ h3
  cases e
  · simp only [xtsBlock, Bool.not_false, if_true, Bool.false_eq_true, if_false]
    rw [xorB_cancel' _ _ (by omega), K.inv' _ h3, xorB_cancel' _ _ (by omega)]
  · simp only [xtsBlock, Bool.not_true, if_true, Bool.false_eq_true, if_false]
    rw [xorB_cancel' _ _ (by omega), K.inv _ h3, xorB_cancel' _ _ (by omega)]

/-! ## One step of the mode -/

/-- The common shape of both directions on an input of at least two blocks. -/
def pre (o : List Byte) : Except Err (List Byte × List Byte) → Except Err (List Byte × List Byte)
  | .error e => .error e
  | .ok (t, x) => .ok (t, o ++ x)

theorem xtsBlocks_fuel (K : Cipher) (sm4 e : Bool) (x : List Byte) : ∀ (f f' : Nat) (t : List Byte),
    x.length ≤ f → x.length ≤ f' → xtsBlocks K sm4 e f t x = xtsBlocks K sm4 e f' t x := by
  induction x using block_induction with
  | short x h =>
    intro f f' t h1 h2
    have : ∀ g, xtsBlocks K sm4 e g t x = (t, [], x) := by
      intro g; cases g with
      | zero => rfl
      | succ g => rw [xtsBlocks, if_neg (by omega)]
    rw [this, this]
  | step x h ih =>
    intro f f' t h1 h2
    cases f with
    | zero => omega
    | succ f =>
      cases f' with
      | zero => omega
      | succ f' =>
        rw [xtsBlocks, xtsBlocks]
        split
        · rw [ih f f' _ (by rw [List.length_drop]; omega) (by rw [List.length_drop]; omega)]
        · rfl

theorem xtsBlocks_step (K : Cipher) (sm4 e : Bool) (x t : List Byte) (h : 32 ≤ x.length) :
    xtsBlocks K sm4 e x.length t x =
      ((xtsBlocks K sm4 e (x.drop 16).length (tweakNext sm4 t) (x.drop 16)).1,
       xtsBlock K e (x.take 16) t ++ (xtsBlocks K sm4 e (x.drop 16).length (tweakNext sm4 t) (x.drop 16)).2.1,
       (xtsBlocks K sm4 e (x.drop 16).length (tweakNext sm4 t) (x.drop 16)).2.2) := by
  obtain ⟨n, hn⟩ : ∃ n, x.length = n + 1 := ⟨x.length - 1, by omega⟩
  rw [hn, xtsBlocks, if_pos (by omega)]
  rw [xtsBlocks_fuel K sm4 e (x.drop 16) n (x.drop 16).length _ (by rw [List.length_drop]; omega) (Nat.le_refl _)]

theorem xtsBlocks_short (K : Cipher) (sm4 e : Bool) (x t : List Byte) (h : x.length < 32) :
    xtsBlocks K sm4 e x.length t x = (t, [], x) := by
  cases hx : x.length with
  | zero => rfl
  | succ n => rw [xtsBlocks, if_neg (by omega)]

theorem xtsEncrypt_step (K : Cipher) (sm4 ip : Bool) (t x : List Byte) (h : 32 ≤ x.length) :
    xtsEncrypt K sm4 ip t x
      = pre (xtsBlock K true (x.take 16) t) (xtsEncrypt K sm4 ip (tweakNext sm4 t) (x.drop 16)) := by
  have g1 : ¬ x.length < 16 := by omega
  have g2 : ¬ (x.drop 16).length < 16 := by rw [List.length_drop]; omega
  unfold xtsEncrypt
  rw [if_neg g1, if_neg g2]
  simp only
  rw [xtsBlocks_step K sm4 true x t h]
  generalize xtsBlocks K sm4 true (x.drop 16).length (tweakNext sm4 t) (x.drop 16) = r
  simp only
  split <;> simp [pre]

theorem xtsDecrypt_step (K : Cipher) (sm4 ip : Bool) (t x : List Byte) (h : 32 ≤ x.length) :
    xtsDecrypt K sm4 ip t x
      = pre (xtsBlock K false (x.take 16) t) (xtsDecrypt K sm4 ip (tweakNext sm4 t) (x.drop 16)) := by
  have g1 : ¬ x.length < 16 := by omega
  have g2 : ¬ (x.drop 16).length < 16 := by rw [List.length_drop]; omega
  unfold xtsDecrypt
  rw [if_neg g1, if_neg g2]
  simp only
  rw [xtsBlocks_step K sm4 false x t h]
  generalize xtsBlocks K sm4 false (x.drop 16).length (tweakNext sm4 t) (x.drop 16) = r
  simp only
  split <;> simp [pre]

theorem xtsEncrypt_last (K : Cipher) (sm4 : Bool) (t x : List Byte) (h : x.length = 16) (ip : Bool) :
    xtsEncrypt K sm4 ip t x = .ok (tweakNext sm4 t, xtsBlock K true x t) := by
  unfold xtsEncrypt
  rw [if_neg (by omega), xtsBlocks_short K sm4 true x t (by omega)]
  simp only
  rw [if_pos (by rw [List.length_drop]; omega), List.take_of_length_le (by omega)]
  rfl

theorem xtsDecrypt_last (K : Cipher) (sm4 : Bool) (t x : List Byte) (h : x.length = 16) (ip : Bool) :
    xtsDecrypt K sm4 ip t x = .ok (tweakNext sm4 t, xtsBlock K false x t) := by
  unfold xtsDecrypt
  rw [if_neg (by omega), xtsBlocks_short K sm4 false x t (by omega)]
  simp only
  rw [if_pos h]
  rfl

theorem xtsEncrypt_steal (K : Cipher) (sm4 : Bool) (t a b : List Byte) (ha : a.length = 16)
    (hb : 0 < b.length) (hb' : b.length < 16) :
    xtsEncrypt K sm4 false t (a ++ b) = .ok (tweakNext sm4 t,
      xtsBlock K true (b ++ (xtsBlock K true a t).drop b.length) (tweakNext sm4 t)
        ++ (xtsBlock K true a t).take b.length) := by
  unfold xtsEncrypt
  rw [if_neg (by simp; omega), xtsBlocks_short K sm4 true _ t (by simp; omega)]
  simp only
  have e1 : (a ++ b).take 16 = a := by
    rw [List.take_append_of_le_length (by omega), List.take_of_length_le (by omega)]
  have e2 : (a ++ b).drop 16 = b := by
    rw [List.drop_append_of_le_length (by omega), List.drop_of_length_le (by omega), List.nil_append]
  rw [e1, e2, if_neg (by omega)]
  simp [stealEnc]

theorem xtsDecrypt_steal (K : Cipher) (sm4 : Bool) (t a b : List Byte) (ha : a.length = 16)
    (hb : 0 < b.length) (hb' : b.length < 16) :
    xtsDecrypt K sm4 false t (a ++ b) = .ok (tweakNext sm4 t,
      xtsBlock K false (b ++ (xtsBlock K false a (tweakNext sm4 t)).drop b.length) t
        ++ (xtsBlock K false a (tweakNext sm4 t)).take b.length) := by
  unfold xtsDecrypt
  rw [if_neg (by simp; omega), xtsBlocks_short K sm4 false _ t (by simp; omega)]
  simp only
  have e1 : (a ++ b).take 16 = a := by
    rw [List.take_append_of_le_length (by omega), List.take_of_length_le (by omega)]
  have e2 : (a ++ b).drop 16 = b := by
    rw [List.drop_append_of_le_length (by omega), List.drop_of_length_le (by omega), List.nil_append]
  rw [e1, e2, if_neg (by simp; omega)]
  simp [stealDec]

/-- Induction over XTS inputs: one block, a stolen pair, or one more leading block. -/
theorem xts_induction {motive : (x : List Byte) → 16 ≤ x.length → Prop}
    (last : ∀ x (h : x.length = 16), motive x (by omega))
    (steal : ∀ (a b : List Byte) (ha : a.length = 16), 0 < b.length → b.length < 16 →
      motive (a ++ b) (by rw [List.length_append]; omega))
    (step : ∀ x (h : 32 ≤ x.length), motive (x.drop 16) (by rw [List.length_drop]; omega) →
      motive x (by omega)) : ∀ x (h : 16 ≤ x.length), motive x h := by
  have key : ∀ n (x : List Byte) (_ : x.length = n) (h : 16 ≤ x.length), motive x h := by
    intro n
    induction n using Nat.strong_induction_on with
    | _ n ih =>
      intro x hn h
      by_cases h1 : n = 16
      · exact last x (by omega)
      · by_cases h2 : n < 32
        · have := steal (x.take 16) (x.drop 16) (by rw [List.length_take]; omega)
            (by rw [List.length_drop]; omega) (by rw [List.length_drop]; omega)
          simpa only [List.take_append_drop] using this
        · exact step x (by omega) (ih (n - 16) (by omega) _ (by rw [List.length_drop]; omega) _)
  intro x h
  exact key x.length x rfl h

theorem xts_enc_ok (K : Cipher) (sm4 : Bool) (x : List Byte) (hx : 16 ≤ x.length) :
    ∀ t : List Byte, t.length = 16 → ∃ t' ct, xtsEncrypt K sm4 false t x = .ok (t', ct) ∧
      ct.length = x.length ∧ xtsDecrypt K sm4 false t ct = .ok (t', x) := by
  induction x, hx using xts_induction with
  | last x h =>
    intro t ht
    have hl := xtsBlock_length K true x t h ht
    refine ⟨_, _, xtsEncrypt_last K sm4 t x h false, by omega, ?_⟩
    rw [xtsDecrypt_last K sm4 t _ hl]
    have := xtsBlock_inv K true x t h ht
    simp only [Bool.not_true] at this
    rw [this]
  | steal a b ha hb hb' =>
    intro t ht
    have ht' := tweakNext_length sm4 t ht
    have hl := xtsBlock_length K true a t ha ht
    generalize hcc : xtsBlock K true a t = cc at *
    have hpp : (b ++ cc.drop b.length).length = 16 := by
      rw [List.length_append, List.length_drop]; omega
    have hl2 := xtsBlock_length K true _ (tweakNext sm4 t) hpp ht'
    have htk : (cc.take b.length).length = b.length := by rw [List.length_take]; omega
    refine ⟨_, _, xtsEncrypt_steal K sm4 t a b ha hb hb', ?_, ?_⟩
    · rw [hcc, List.length_append, List.length_append, hl2, htk, ha]
    · rw [hcc, xtsDecrypt_steal K sm4 t _ _ hl2 (by omega) (by omega)]
      have h1 := xtsBlock_inv K true _ (tweakNext sm4 t) hpp ht'
      simp only [Bool.not_true] at h1
      rw [h1, htk, List.take_append_of_le_length (Nat.le_refl _), List.take_length,
        List.drop_append_of_le_length (Nat.le_refl _), List.drop_length, List.nil_append,
        List.take_append_drop, ← hcc]
      have h2 := xtsBlock_inv K true a t ha ht
      simp only [Bool.not_true] at h2
      rw [h2]
  | step x h ih =>
    intro t ht
    have hx16 : (x.take 16).length = 16 := by rw [List.length_take]; omega
    obtain ⟨t', ct, h1, h2, h3⟩ := ih _ (tweakNext_length sm4 t ht)
    have hl := xtsBlock_length K true _ t hx16 ht
    rw [List.length_drop] at h2
    refine ⟨t', xtsBlock K true (x.take 16) t ++ ct, ?_, ?_, ?_⟩
    · rw [xtsEncrypt_step K sm4 false t x h, h1]; rfl
    · rw [List.length_append, hl, h2]; omega
    · rw [xtsDecrypt_step K sm4 false t _ (by rw [List.length_append]; omega)]
      rw [List.take_append_of_le_length (by omega), List.take_of_length_le (by omega),
        List.drop_append_of_le_length (by omega), List.drop_of_length_le (by omega), List.nil_append, h3]
      have h4 := xtsBlock_inv K true _ t hx16 ht
      simp only [Bool.not_true] at h4
      rw [h4]
      simp [pre]

theorem xts_dec_ok (K : Cipher) (sm4 : Bool) (x : List Byte) (hx : 16 ≤ x.length) :
    ∀ t : List Byte, t.length = 16 → ∃ t' pt, xtsDecrypt K sm4 false t x = .ok (t', pt) ∧
      pt.length = x.length ∧ xtsEncrypt K sm4 false t pt = .ok (t', x) := by
  induction x, hx using xts_induction with
  | last x h =>
    intro t ht
    have hl := xtsBlock_length K false x t h ht
    refine ⟨_, _, xtsDecrypt_last K sm4 t x h false, by omega, ?_⟩
    rw [xtsEncrypt_last K sm4 t _ hl]
    have := xtsBlock_inv K false x t h ht
    simp only [Bool.not_false] at this
    rw [this]
  | steal a b ha hb hb' =>
    intro t ht
    have ht' := tweakNext_length sm4 t ht
    have hl := xtsBlock_length K false a _ ha ht'
    generalize hcc : xtsBlock K false a (tweakNext sm4 t) = cc at *
    have hpp : (b ++ cc.drop b.length).length = 16 := by
      rw [List.length_append, List.length_drop]; omega
    have hl2 := xtsBlock_length K false _ t hpp ht
    have htk : (cc.take b.length).length = b.length := by rw [List.length_take]; omega
    refine ⟨_, _, xtsDecrypt_steal K sm4 t a b ha hb hb', ?_, ?_⟩
    · rw [hcc, List.length_append, List.length_append, hl2, htk, ha]
    · rw [hcc, xtsEncrypt_steal K sm4 t _ _ hl2 (by omega) (by omega)]
      have h1 := xtsBlock_inv K false _ t hpp ht
      simp only [Bool.not_false] at h1
      rw [h1, htk, List.take_append_of_le_length (Nat.le_refl _), List.take_length,
        List.drop_append_of_le_length (Nat.le_refl _), List.drop_length, List.nil_append,
        List.take_append_drop, ← hcc]
      have h2 := xtsBlock_inv K false a _ ha ht'
      simp only [Bool.not_false] at h2
      rw [h2]
  | step x h ih =>
    intro t ht
    have hx16 : (x.take 16).length = 16 := by rw [List.length_take]; omega
    obtain ⟨t', ct, h1, h2, h3⟩ := ih _ (tweakNext_length sm4 t ht)
    have hl := xtsBlock_length K false _ t hx16 ht
    rw [List.length_drop] at h2
    refine ⟨t', xtsBlock K false (x.take 16) t ++ ct, ?_, ?_, ?_⟩
    · rw [xtsDecrypt_step K sm4 false t x h, h1]; rfl
    · rw [List.length_append, hl, h2]; omega
    · rw [xtsEncrypt_step K sm4 false t _ (by rw [List.length_append]; omega)]
      rw [List.take_append_of_le_length (by omega), List.take_of_length_le (by omega),
        List.drop_append_of_le_length (by omega), List.drop_of_length_le (by omega), List.nil_append, h3]
      have h4 := xtsBlock_inv K false _ t hx16 ht
      simp only [Bool.not_false] at h4
      rw [h4]
      simp [pre]

end Verif.Crypto.Modes
