import Verif.Crypto.Modes.CfbProof

namespace Verif.Crypto.Modes

open Verif.Common

/-- Following a transducer whose pad depends on the history of "ciphertext" bytes. -/
theorem foldB_hist {α σ : Type} {step : σ → α → Option (σ × α)} {P : List α → σ → Prop}
    {x : α → α → α} {pad : List α → Option α} {enc : Bool}
    (hstep : ∀ C c b, P C c → ∃ c' k, pad C = some k ∧ step c b = some (c', x b k) ∧
      P (C ++ [if enc then x b k else b]) c') :
    ∀ (msg C : List α) (c : σ), P C c → ∃ c' out, foldB step c msg = some (c', out) ∧
      P (C ++ (if enc then out else msg)) c' ∧ out.length = msg.length ∧
      ∀ i b, msg[i]? = some b → ∃ k, pad (C ++ (if enc then out else msg).take i) = some k ∧
        out[i]? = some (x b k) := by
  intro msg
  induction msg with
  | nil =>
    intro C c h
    refine ⟨c, [], rfl, ?_, rfl, ?_⟩
    · cases enc <;> simpa using h
    · intro i b hb; simp at hb
  | cons b bs ih =>
    intro C c h
    obtain ⟨c1, k, hk, hs, hP⟩ := hstep C c b h
    obtain ⟨c2, out, hf, hP2, hl, ho⟩ := ih _ _ hP
    refine ⟨c2, x b k :: out, ?_, ?_, by simp [hl], ?_⟩
    · simp only [foldB, hs, hf]
    · cases enc <;> simpa using hP2
    · intro i b' hb'
      cases i with
      | zero =>
        simp only [List.getElem?_cons_zero, Option.some.injEq] at hb'
        subst hb'
        refine ⟨k, ?_, by simp⟩
        simpa using hk
      | succ i =>
        simp only [List.getElem?_cons_succ] at hb'
        obtain ⟨k', hk', ho'⟩ := ho i b' hb'
        refine ⟨k', ?_, by simpa using ho'⟩
        rw [← hk']
        cases enc <;> simp

/-! ### CTR -/

/-- The `j`-th counter block after `iv`. -/
def ctrBlk (iv : List Byte) (j : Nat) : List Byte := beBytes 16 ((beVal iv + j) % 2 ^ 128)

theorem ctrBlk_length (iv : List Byte) (j : Nat) : (ctrBlk iv j).length = 16 := by simp [ctrBlk]

theorem ctrBlk_zero (iv : List Byte) (h : iv.length = 16) : ctrBlk iv 0 = iv := by
  have h1 := beVal_lt iv
  rw [h] at h1
  have e : (256 : Nat) ^ 16 = 2 ^ 128 := by norm_num
  rw [e] at h1
  rw [ctrBlk, Nat.add_zero, Nat.mod_eq_of_lt h1]
  have := beBytes_beVal iv
  rwa [h] at this

theorem incCounter_ctrBlk (iv : List Byte) (j : Nat) :
    incCounter (ctrBlk iv j) = ctrBlk iv (j + 1) := by
  have e : (256 : Nat) ^ 16 = 2 ^ 128 := by norm_num
  rw [incCounter_eq, ctrBlk_length, ctrBlk, ctrBlk, beVal_beBytes, e, Nat.mod_mod,
    Nat.mod_add_mod, Nat.add_assoc]

def CtrAt (K : Cipher) (iv : List Byte) (C : List Byte) (c : SCtx) : Prop :=
  c.iv = ctrBlk iv ((C.length + 15) / 16) ∧ c.off = C.length % 16 ∧
    (C.length % 16 ≠ 0 → c.buf = K.enc (ctrBlk iv (C.length / 16)))

theorem ctr_hist (K : Cipher) (iv : List Byte) (C : List Byte) (c : SCtx) (b : Byte)
    (h : CtrAt K iv C c) : ∃ c' k,
      (K.enc (ctrBlk iv (C.length / 16)))[C.length % 16]? = some k ∧
      ctrStep K c b = some (c', b ^^^ k) ∧ CtrAt K iv (C ++ [if false then b ^^^ k else b]) c' := by
  obtain ⟨h1, h2, h3⟩ := h
  have hlen := K.encLen _ (ctrBlk_length iv (C.length / 16))
  have hlt : C.length % 16 < (K.enc (ctrBlk iv (C.length / 16))).length := by omega
  by_cases hz : C.length % 16 = 0
  · have e1 : (C.length + 15) / 16 = C.length / 16 := by omega
    refine ⟨⟨ctrBlk iv (C.length / 16 + 1), K.enc (ctrBlk iv (C.length / 16)), 1⟩, _,
      List.getElem?_eq_getElem hlt, ?_, ?_⟩
    · have hlt0 : 0 < (K.enc (ctrBlk iv (C.length / 16))).length := by omega
      simp only [ctrStep, stepG, h2, hz, if_true, ctrReload, ctrUse, h1, e1, incCounter_ctrBlk,
        List.getElem?_eq_getElem hlt0]
    · have e2 : (C.length + 1 + 15) / 16 = C.length / 16 + 1 := by omega
      have e3 : (C.length + 1) / 16 = C.length / 16 := by omega
      refine ⟨?_, ?_, ?_⟩
      · simp [e2]
      · simp; omega
      · intro _; simp [e3]
  · have hb := h3 hz
    refine ⟨{ c with off := (c.off + 1) % 16 }, _, List.getElem?_eq_getElem hlt, ?_, ?_⟩
    · have h2' : c.off ≠ 0 := by omega
      simp only [ctrStep, stepG, if_neg h2', ctrUse, hb, h2, List.getElem?_eq_getElem hlt, if_neg hz]
    · refine ⟨?_, ?_, ?_⟩
      · simp only [h1, List.length_append, List.length_singleton]
        congr 1; omega
      · simp only [h2, List.length_append, List.length_singleton]; omega
      · intro hq
        simp only [List.length_append, List.length_singleton] at hq ⊢
        have : (C.length + 1) / 16 = C.length / 16 := by omega
        rw [hb, this]

/-! ### OFB -/

/-- `n` applications of the block cipher. -/
def encIter (K : Cipher) : Nat → List Byte → List Byte
  | 0, x => x
  | n + 1, x => K.enc (encIter K n x)

theorem encIter_length (K : Cipher) (n : Nat) (x : List Byte) (h : x.length = 16) :
    (encIter K n x).length = 16 := by
  induction n with
  | zero => exact h
  | succ n ih => exact K.encLen _ ih

def OfbAt (K : Cipher) (iv : List Byte) (C : List Byte) (c : SCtx) : Prop :=
  c.iv = encIter K ((C.length + 15) / 16) iv ∧ c.off = C.length % 16

theorem ofb_hist (K : Cipher) (iv : List Byte) (hiv : iv.length = 16) (C : List Byte) (c : SCtx)
    (b : Byte) (h : OfbAt K iv C c) : ∃ c' k,
      (encIter K (C.length / 16 + 1) iv)[C.length % 16]? = some k ∧
      ofbStep K c b = some (c', b ^^^ k) ∧ OfbAt K iv (C ++ [if false then b ^^^ k else b]) c' := by
  obtain ⟨h1, h2⟩ := h
  have hlen := encIter_length K (C.length / 16 + 1) iv hiv
  have hlt : C.length % 16 < (encIter K (C.length / 16 + 1) iv).length := by omega
  by_cases hz : C.length % 16 = 0
  · have e1 : (C.length + 15) / 16 = C.length / 16 := by omega
    refine ⟨⟨encIter K (C.length / 16 + 1) iv, c.buf, 1⟩, _, List.getElem?_eq_getElem hlt, ?_, ?_⟩
    · have e4 : K.enc c.iv = encIter K (C.length / 16 + 1) iv := by rw [h1, e1, encIter]
      have hlt0 : 0 < (encIter K (C.length / 16 + 1) iv).length := by omega
      simp only [ofbStep, stepG, h2, hz, if_true, ofbReload, ofbUse, e4,
        List.getElem?_eq_getElem hlt0, BitVec.xor_comm b]
    · have e2 : (C.length + 1 + 15) / 16 = C.length / 16 + 1 := by omega
      refine ⟨?_, ?_⟩
      · simp [e2]
      · simp; omega
  · have e1 : (C.length + 15) / 16 = C.length / 16 + 1 := by omega
    rw [e1] at h1
    refine ⟨{ c with off := (c.off + 1) % 16 }, _, List.getElem?_eq_getElem hlt, ?_, ?_⟩
    · have h2' : c.off ≠ 0 := by omega
      simp only [ofbStep, stepG, if_neg h2', ofbUse, h1, h2, List.getElem?_eq_getElem hlt,
        BitVec.xor_comm b, if_neg hz]
    · refine ⟨?_, ?_⟩
      · simp only [h1, List.length_append, List.length_singleton]
        congr 1; omega
      · simp only [h2, List.length_append, List.length_singleton]; omega

/-! ### CFB -/

/-- The shift register for segment `j` of `s` bytes: 16 bytes of `iv ++ ciphertext` from byte
`j * s` on. -/
def cfbReg (iv ct : List Byte) (s j : Nat) : List Byte := ((iv ++ ct).drop (j * s)).take 16

theorem cfbReg_length (iv ct : List Byte) (s j : Nat) (hiv : iv.length = 16)
    (h : j * s ≤ ct.length) : (cfbReg iv ct s j).length = 16 := by
  simp [cfbReg, hiv]; omega

theorem cfbReg_append (iv ct x : List Byte) (s j : Nat) (hiv : iv.length = 16)
    (h : j * s ≤ ct.length) : cfbReg iv (ct ++ x) s j = cfbReg iv ct s j := by
  unfold cfbReg
  rw [← List.append_assoc, List.drop_append_of_le_length (by simp [hiv]; omega),
    List.take_append_of_le_length (by simp [hiv]; omega)]

def CfbAt (K : Cipher) (s : Nat) (iv : List Byte) (C : List Byte) (c : SCtx) : Prop :=
  if C.length % s = 0 then c.off = 0 ∧ c.iv = (iv ++ C).drop C.length
  else c.off = 16 - s + C.length % s ∧
    c.iv = (iv ++ C).drop (C.length / s * s + s) ++
      ((K.enc (cfbReg iv C s (C.length / s))).take s).drop (C.length % s)

theorem cfb_hist (K : Cipher) (enc : Bool) (s : Nat) (hs0 : 0 < s) (hs : s ≤ 16) (iv : List Byte)
    (hiv : iv.length = 16) (C : List Byte) (c : SCtx) (b : Byte) (h : CfbAt K s iv C c) : ∃ c' k,
      (K.enc (cfbReg iv C s (C.length / s)))[C.length % s]? = some k ∧
      cfbStep K enc s c b = some (c', b ^^^ k) ∧
      CfbAt K s iv (C ++ [if enc then b ^^^ k else b]) c' := by
  generalize hr : C.length % s = r at *
  generalize hj : C.length / s = j at *
  have hdiv := Nat.div_add_mod C.length s
  rw [hr, hj, Nat.mul_comm] at hdiv
  have hrs : r < s := hr ▸ Nat.mod_lt _ hs0
  set R := cfbReg iv C s j with hR
  have hRl : R.length = 16 := cfbReg_length iv C s j hiv (by omega)
  have htl := K.encLen _ hRl
  have hlt : r < (K.enc R).length := by omega
  -- the state just before the pad byte is used
  have huse : ∃ buf, cfbStep K enc s c b = cfbUse enc
      ⟨(iv ++ C).drop (j * s + s) ++ ((K.enc R).take s).drop r, buf, 16 - s + r⟩ b := by
    unfold CfbAt at h
    rw [hr, hj] at h
    split at h
    · rename_i hz
      obtain ⟨h1, h2⟩ := h
      subst hz
      have hc : j * s = C.length := by omega
      have e1 : c.iv = R := by
        rw [h2, hR, cfbReg, hc, List.take_of_length_le]
        simp [hiv]
      have e2 : R.drop s = (iv ++ C).drop (j * s + s) := by
        rw [← e1, h2, List.drop_drop, hc]
      refine ⟨(cfbReload K s c).buf, ?_⟩
      simp only [cfbStep, stepG, h1, if_true]
      congr 1
      unfold cfbReload
      rw [e1, e2]
      simp
    · rename_i hz
      obtain ⟨h1, h2⟩ := h
      refine ⟨c.buf, ?_⟩
      have h1' : c.off ≠ 0 := by omega
      simp only [cfbStep, stepG, if_neg h1']
      rw [← h1, ← hR] at *
      rw [← h2]
  obtain ⟨buf, huse⟩ := huse
  have hpl : ((iv ++ C).drop (j * s + s)).length = 16 - s + r := by simp [hiv]; omega
  have hr' : r < ((K.enc R).take s).length := by simp; omega
  have hsd : ((K.enc R).take s).drop r = (K.enc R)[r] :: ((K.enc R).take s).drop (r + 1) := by
    rw [List.drop_eq_getElem_cons hr', List.getElem_take]
  rw [hsd, ← hpl, cfbUse_cons] at huse
  refine ⟨_, _, List.getElem?_eq_getElem hlt, by rw [huse, BitVec.xor_comm b], ?_⟩
  rw [BitVec.xor_comm b]
  generalize (if enc = true then (K.enc R)[r] ^^^ b else b) = cb
  unfold CfbAt
  have hl : (C ++ [cb]).length = C.length + 1 := by simp
  rw [hl, hpl]
  have hdrop : (iv ++ (C ++ [cb])).drop (j * s + s) = (iv ++ C).drop (j * s + s) ++ [cb] := by
    rw [← List.append_assoc, List.drop_append_of_le_length (by simp [hiv]; omega)]
  by_cases hend : r + 1 = s
  · have hm : (C.length + 1) % s = 0 := by
      have : C.length + 1 = (j + 1) * s := by rw [Nat.succ_mul]; omega
      rw [this, Nat.mul_mod_left]
    rw [if_pos hm]
    refine ⟨by simp only; omega, ?_⟩
    have e1 : C.length + 1 = j * s + s := by omega
    rw [e1, hdrop]
    have e2 : ((K.enc R).take s).drop (r + 1) = [] := by
      apply List.drop_of_length_le; simp; omega
    simp [e2]
  · have e0 : C.length + 1 = r + 1 + s * j := by rw [Nat.mul_comm s j]; omega
    have hm : (C.length + 1) % s = r + 1 := by
      rw [e0, Nat.add_mul_mod_self_left, Nat.mod_eq_of_lt (by omega)]
    have hd : (C.length + 1) / s = j := by
      rw [e0, Nat.add_mul_div_left _ _ hs0, Nat.div_eq_of_lt (by omega), Nat.zero_add]
    rw [hm, hd, if_neg (by omega), cfbReg_append iv C [cb] s j hiv (by omega), hdrop]
    exact ⟨by simp only; omega, rfl⟩

/-! ### CFB-1 -/

/-- The bits of a byte, most significant first. -/
def bitsDown (b : Byte) : Nat → List Bool
  | 0 => []
  | n + 1 => b.getLsbD n :: bitsDown b n

/-- The bits of a byte string, most significant first. -/
def bitsOf : List Byte → List Bool
  | [] => []
  | b :: bs => bitsDown b 8 ++ bitsOf bs

theorem bitsDown_length (b : Byte) (n : Nat) : (bitsDown b n).length = n := by
  induction n with
  | zero => rfl
  | succ n ih => simp [bitsDown, ih]

theorem bitsOf_length (l : List Byte) : (bitsOf l).length = 8 * l.length := by
  induction l with
  | nil => rfl
  | cons b bs ih => simp [bitsOf, ih, bitsDown_length]; omega

theorem shr7_ne_zero (x : Byte) : ((x >>> 7) != 0#8) = x.getLsbD 7 := by
  revert x; decide

theorem and_bit_ne_zero (b : Byte) (pos : Nat) (h : pos < 8) :
    ((b &&& ((1 : Byte) <<< pos)) != 0#8) = b.getLsbD pos := by
  have : ∀ p : Fin 8, ∀ b : Byte, ((b &&& ((1 : Byte) <<< p.val)) != 0#8) = b.getLsbD p.val := by
    decide
  exact this ⟨pos, h⟩ b

theorem set_bit (o : Byte) (bit : Bool) (pos : Nat) (h : pos < 8) (i : Nat) :
    ((o &&& ~~~((1 : Byte) <<< pos)) ||| ((if bit then (1 : Byte) else 0) <<< pos)).getLsbD i
      = if i = pos then bit else o.getLsbD i := by
  by_cases hi : i < 8
  · have : ∀ p i : Fin 8, ∀ bit : Bool, ∀ o : Byte,
        ((o &&& ~~~((1 : Byte) <<< p.val)) ||| ((if bit then (1 : Byte) else 0) <<< p.val)).getLsbD i.val
      = if i.val = p.val then bit else o.getLsbD i.val := by
      intro p i bit o
      have h1 : ∀ p i : Fin 8, ((1 : Byte) <<< p.val).getLsbD i.val = decide (i.val = p.val) := by
        decide
      have h0 : ∀ p i : Fin 8, ((0 : Byte) <<< p.val).getLsbD i.val = false := by decide
      rw [BitVec.getLsbD_or, BitVec.getLsbD_and, BitVec.getLsbD_not, h1]
      cases bit
      · simp only [Bool.false_eq_true, if_false, h0, i.isLt, decide_true]
        by_cases hip : i.val = p.val <;> simp [hip]
      · simp only [if_true, h1, i.isLt, decide_true]
        by_cases hip : i.val = p.val <;> simp [hip]
    exact this ⟨pos, h⟩ ⟨i, hi⟩ bit o
  · rw [BitVec.getLsbD_of_ge _ _ (by omega), BitVec.getLsbD_of_ge _ _ (by omega), if_neg (by omega)]

theorem shl_bits (x : Byte) (c : Byte) (hc : ∀ i, 0 < i → c.getLsbD i = false) :
    bitsDown ((x <<< 1) ||| c) 8 = (bitsDown x 8).drop 1 ++ [c.getLsbD 0] := by
  have hh : ∀ i, 0 < i → i < 8 → ((x <<< 1) ||| c).getLsbD i = x.getLsbD (i - 1) := by
    intro i h0 h8
    rw [BitVec.getLsbD_or, hc i h0, BitVec.getLsbD_shiftLeft]
    simp [h8, show ¬ i < 1 by omega]
  have hz : ((x <<< 1) ||| c).getLsbD 0 = c.getLsbD 0 := by
    rw [BitVec.getLsbD_or, BitVec.getLsbD_shiftLeft]; simp
  simp only [bitsDown, hz, hh 7 (by omega) (by omega), hh 6 (by omega) (by omega),
    hh 5 (by omega) (by omega), hh 4 (by omega) (by omega), hh 3 (by omega) (by omega),
    hh 2 (by omega) (by omega), hh 1 (by omega) (by omega)]
  rfl

theorem bitsOf_shl1 (l : List Byte) (bit : Bool) (h : l ≠ []) :
    bitsOf (shl1 l bit) = (bitsOf l).drop 1 ++ [bit] := by
  induction l with
  | nil => simp at h
  | cons x r ih =>
    cases r with
    | nil =>
      simp only [shl1, bitsOf, List.append_nil]
      rw [shl_bits]
      · cases bit <;> rfl
      · intro i hi
        cases bit
        · simp
        · simp only [if_true]
          rcases i with _ | i
          · omega
          · simp
    | cons y r =>
      rw [shl1, bitsOf, ih (by simp), shl_bits]
      · have e : (y >>> 7).getLsbD 0 = y.getLsbD 7 := by simp
        rw [e]
        simp [bitsOf, bitsDown]
      · intro i hi
        rw [BitVec.getLsbD_ushiftRight]
        exact BitVec.getLsbD_of_ge _ _ (by omega)

theorem shl1_length (l : List Byte) (bit : Bool) : (shl1 l bit).length = l.length := by
  induction l with
  | nil => rfl
  | cons x r ih => cases r with
    | nil => rfl
    | cons y r => simp [shl1, ih]

/-- One byte of CFB-1 is eight bit steps. -/
theorem cfb1Byte_bits (K : Cipher) (enc : Bool) (b : Byte) (n : Nat) (hn : n ≤ 8) (c : SCtx)
    (o : Byte) :
    match foldB (cfb1Bit K enc) c (bitsDown b n) with
    | none => cfb1Byte K enc b n c o = none
    | some (c', bs) => ∃ o', cfb1Byte K enc b n c o = some (c', o') ∧ bitsDown o' n = bs ∧
        ∀ i, n ≤ i → o'.getLsbD i = o.getLsbD i := by
  induction n generalizing c o with
  | zero => exact ⟨o, rfl, rfl, fun _ _ => rfl⟩
  | succ n ih =>
    simp only [bitsDown, foldB, cfb1Byte, and_bit_ne_zero b n (by omega)]
    cases hb : cfb1Bit K enc c (b.getLsbD n) with
    | none => rfl
    | some r =>
      obtain ⟨c1, bit⟩ := r
      simp only
      have := ih (by omega) c1
        ((o &&& ~~~((1 : Byte) <<< n)) ||| ((if bit then (1 : Byte) else 0) <<< n))
      cases hf : foldB (cfb1Bit K enc) c1 (bitsDown b n) with
      | none => rw [hf] at this; exact this
      | some r2 =>
        obtain ⟨c2, bs⟩ := r2
        rw [hf] at this
        obtain ⟨o', h1, h2, h3⟩ := this
        refine ⟨o', h1, ?_, ?_⟩
        · rw [h3 n (Nat.le_refl _), set_bit o bit n (by omega), if_pos rfl, h2]
        · intro i hi
          rw [h3 i (by omega), set_bit o bit n (by omega), if_neg (by omega)]

theorem bitsDown_inj {a b : Byte} (h : bitsDown a 8 = bitsDown b 8) : a = b := by
  simp only [bitsDown, List.cons.injEq, and_true] at h
  obtain ⟨h7, h6, h5, h4, h3, h2, h1, h0⟩ := h
  apply BitVec.eq_of_getLsbD_eq
  intro i hi
  rcases i with _ | _ | _ | _ | _ | _ | _ | _ | i
  all_goals first | assumption | omega

theorem cfb1Crypt_bits (K : Cipher) (enc : Bool) (junk : Byte) (msg : List Byte) (c : SCtx) :
    match foldB (cfb1Bit K enc) c (bitsOf msg) with
    | none => cfb1Crypt K enc junk c msg = none
    | some (c', bs) => ∃ out, cfb1Crypt K enc junk c msg = some (c', out) ∧ bitsOf out = bs := by
  induction msg generalizing c with
  | nil => exact ⟨[], rfl, rfl⟩
  | cons b bs ih =>
    simp only [bitsOf, cfb1Crypt]
    rw [foldB_append]
    have h1 := cfb1Byte_bits K enc b 8 (Nat.le_refl _) c junk
    cases hf : foldB (cfb1Bit K enc) c (bitsDown b 8) with
    | none => rw [hf] at h1; simp only at h1 ⊢; rw [h1]
    | some r =>
      obtain ⟨c1, o1⟩ := r
      rw [hf] at h1
      obtain ⟨o', e1, e2, -⟩ := h1
      simp only [e1]
      have h2 := ih c1
      cases hg : foldB (cfb1Bit K enc) c1 (bitsOf bs) with
      | none => rw [hg] at h2; simp only at h2 ⊢; rw [h2]
      | some r2 =>
        obtain ⟨c2, o2⟩ := r2
        rw [hg] at h2
        obtain ⟨out, e3, e4⟩ := h2
        simp only [e3]
        exact ⟨o' :: out, rfl, by simp [bitsOf, e2, e4]⟩

/-- The shift register of CFB-1 before bit `i`. -/
def Cfb1At (iv : List Byte) (C : List Bool) (c : SCtx) : Prop :=
  c.iv.length = 16 ∧ bitsOf c.iv = (bitsOf iv ++ C).drop C.length

theorem bitsOf_inj {a b : List Byte} (h : bitsOf a = bitsOf b) : a = b := by
  induction a generalizing b with
  | nil =>
    cases b with
    | nil => rfl
    | cons y b => simp [bitsOf, bitsDown] at h
  | cons x a ih =>
    cases b with
    | nil => simp [bitsOf, bitsDown] at h
    | cons y b =>
      simp only [bitsOf] at h
      have := List.append_inj h (by simp [bitsDown_length])
      rw [bitsDown_inj this.1, ih this.2]

/-- The first bit of the encryption of a 128-bit register, given as a bit string. -/
def cfb1Pad (K : Cipher) (reg : List Bool) (k : Bool) : Prop :=
  ∃ R t, R.length = 16 ∧ bitsOf R = reg ∧ (K.enc R)[0]? = some t ∧ k = t.getLsbD 7

theorem cfb1_bit_step (K : Cipher) (enc : Bool) (iv : List Byte) (hiv : iv.length = 16)
    (C : List Bool) (c : SCtx) (b : Bool) (h : Cfb1At iv C c) : ∃ c' k,
      cfb1Pad K ((bitsOf iv ++ C).drop C.length) k ∧
      cfb1Bit K enc c b = some (c', b ^^ k) ∧
      Cfb1At iv (C ++ [if enc then b ^^ k else b]) c' := by
  obtain ⟨h1, h2⟩ := h
  have hl := K.encLen _ h1
  obtain ⟨t, ts, ht⟩ : ∃ t ts, K.enc c.iv = t :: ts := by
    cases hh : K.enc c.iv with
    | nil => rw [hh] at hl; simp at hl
    | cons t ts => exact ⟨t, ts, rfl⟩
  have e1 : ((t ^^^ (if b then 0x80#8 else 0#8)) >>> 7 != 0#8) = (b ^^ t.getLsbD 7) := by
    rw [shr7_ne_zero, BitVec.getLsbD_xor]
    cases b
    · simp
    · simp
  have e2 : (((if b then 0x80#8 else 0#8 : Byte)) >>> 7 != 0#8) = b := by
    cases b <;> rfl
  refine ⟨{ iv := shl1 c.iv (if enc then (b ^^ t.getLsbD 7) else b), buf := t :: ts, off := c.off },
    t.getLsbD 7, ⟨c.iv, t, h1, h2, by simp [ht], rfl⟩, ?_, ?_⟩
  · unfold cfb1Bit
    simp only [ht, List.getElem?_cons_zero, e1, e2]
  · refine ⟨by simp [shl1_length, h1], ?_⟩
    simp only
    have hne : c.iv ≠ [] := by intro hc; rw [hc] at h1; simp at h1
    rw [bitsOf_shl1 _ _ hne, h2]
    generalize (if enc = true then b ^^ t.getLsbD 7 else b) = d
    have hll : (bitsOf iv ++ C).length = 128 + C.length := by simp [bitsOf_length, hiv]
    rw [List.drop_drop, List.length_append, List.length_singleton, ← List.append_assoc,
      List.drop_append_of_le_length (l₁ := bitsOf iv ++ C) (by omega)]

theorem cfb1_bit_inv (K : Cipher) (c : SCtx) (b : Bool) (c' : SCtx) (o : Bool)
    (h : cfb1Bit K true c b = some (c', o)) : cfb1Bit K false c o = some (c', b) := by
  unfold cfb1Bit at h ⊢
  simp only at h ⊢
  split at h
  · cases h
  · rename_i t ht
    simp only [Option.some.injEq, Prod.mk.injEq, if_true] at h
    obtain ⟨h1, h2⟩ := h
    have e2 : ∀ o : Bool, (((if o then 0x80#8 else 0#8 : Byte)) >>> 7 != 0#8) = o := by
      intro o; cases o <;> rfl
    have e1 : ∀ b : Bool, ((t ^^^ (if b then 0x80#8 else 0#8)) >>> 7 != 0#8) = (b ^^ t.getLsbD 7) := by
      intro b
      rw [shr7_ne_zero, BitVec.getLsbD_xor]
      cases b <;> simp
    rw [e1] at h1 h2
    simp only [Bool.false_eq_true, if_false, e1, e2, ← h1, ← h2]
    simp

end Verif.Crypto.Modes
