import Verif.Crypto.Modes.StreamSpec

/-!
# C24 and the stream part of C25: what CTR, OFB and CFB compute

A cipher context is given an IV (`CRYPT_EAL_CipherInit` / `REINIT`) and then fed by any sequence of
`CRYPT_EAL_CipherUpdate` calls (`streamAll`).  The statements describe the concatenated output byte
by byte, with no reference to how the input was cut.
-/

namespace Verif.Crypto.Modes

open Verif.Common

/-! ## Specification -/

namespace Spec

/-- NIST SP 800-38A counter block `j`: the IV as a 128-bit big-endian number plus `j`. -/
def counterBlock (iv : List Byte) (j : Nat) : List Byte := beBytes 16 ((beVal iv + j) % 2 ^ 128)

/-- OFB pad block `j` (from 0): the cipher applied `j + 1` times to the IV. -/
def ofbBlock (K : Cipher) (iv : List Byte) (j : Nat) : List Byte := (K.enc)^[j + 1] iv

/-- CFB input block of segment `j` with `s`-byte segments: the last 16 bytes of the IV followed by
the first `j` ciphertext segments, i.e. 16 bytes of `iv ++ ct` from byte `j * s`. -/
def cfbInput (iv ct : List Byte) (s j : Nat) : List Byte := ((iv ++ ct).drop (j * s)).take 16

/-- Bits of a byte string, most significant bit of each byte first. -/
def bits (l : List Byte) : List Bool :=
  l.flatMap fun b => (List.range 8).map fun i => b.getLsbD (7 - i)

end Spec

/-- A small concrete cipher for the examples: add 1 to each byte and reverse the block. -/
def toy : Cipher where
  enc x := (x.map (· + 1#8)).reverse
  dec x := x.reverse.map (· - 1#8)
  encLen x h := by simp [h]
  decLen x h := by simp [h]
  inv x _ := by
    simp only [List.reverse_reverse, List.map_map]
    have : ((fun b : Byte => b - 1#8) ∘ fun b => b + 1#8) = id := by
      funext b
      exact BitVec.add_sub_cancel b 1#8
    rw [this, List.map_id]
  inv' x _ := by
    rw [List.map_map]
    have : ((fun b : Byte => b + 1#8) ∘ fun b => b - 1#8) = id := by
      funext b
      exact BitVec.sub_add_cancel b 1#8
    rw [this, List.map_id, List.reverse_reverse]

/-- A context that has just been given an IV, whatever was in it before. -/
def fresh (c : SCtx) (iv : List Byte) : SCtx := (setIv c iv).1

theorem fresh_iv (c : SCtx) (iv : List Byte) (h : iv.length = 16) :
    (fresh c iv).iv = iv ∧ (fresh c iv).off = 0 := by
  simp [fresh, setIv, h]

theorem streamAll_fold {K : Cipher} {m : StreamMode} {junk : Byte}
    {step : SCtx → Byte → Option (SCtx × Byte)} {ok : List Byte → Prop}
    (hc : ∀ c inp, c.iv.length = 16 → 0 < inp.length → ok inp →
      streamCrypt K m junk c inp = (foldB step c inp).map fun r => (r.1, .ok r.2))
    (hs : ∀ c b c' o, c.iv.length = 16 → step c b = some (c', o) → c'.iv.length = 16)
    (chunks : List (List Byte)) (hok : ∀ x ∈ chunks, ok x) (c : SCtx) (hiv : c.iv.length = 16) :
    streamAll K m junk c chunks = (foldB step c chunks.flatten).map fun r => (r.1, .ok r.2) := by
  induction chunks generalizing c with
  | nil => simp [streamAll, foldB]
  | cons x xs ih =>
    have hokx := hok x (by simp)
    have ih' := fun c h => ih (fun y hy => hok y (by simp [hy])) c h
    rw [streamAll, List.flatten_cons]
    unfold streamUpdate
    by_cases hx : x.length = 0
    · have : x = [] := List.eq_nil_of_length_eq_zero hx
      subst this
      simp only [List.length_nil, if_true, List.nil_append, ih' c hiv]
      cases foldB step c xs.flatten with
      | none => rfl
      | some r => rfl
    · rw [if_neg hx, if_neg (by omega), hc c x hiv (by omega) hokx, foldB_append]
      cases hf : foldB step c x with
      | none => rfl
      | some r =>
        obtain ⟨c1, o⟩ := r
        simp only [Option.map_some]
        rw [ih' c1 (foldB_ivLen hs hiv hf)]
        cases foldB step c1 xs.flatten with
        | none => rfl
        | some r2 => rfl

theorem streamAll_ctr (K : Cipher) (junk : Byte) (chunks : List (List Byte)) (c : SCtx)
    (hiv : c.iv.length = 16) :
    streamAll K .ctr junk c chunks
      = (foldB (ctrStep K) c chunks.flatten).map fun r => (r.1, .ok r.2) :=
  streamAll_fold (ok := fun _ => True) (fun c inp h _ _ => by simp [streamCrypt, ctrCrypt_eq K c inp h])
    (ctrStep_ivLen K) chunks (fun _ _ => trivial) c hiv

theorem streamAll_ofb (K : Cipher) (junk : Byte) (chunks : List (List Byte)) (c : SCtx)
    (hiv : c.iv.length = 16) :
    streamAll K .ofb junk c chunks
      = (foldB (ofbStep K) c chunks.flatten).map fun r => (r.1, .ok r.2) :=
  streamAll_fold (ok := fun _ => True) (fun c inp h _ _ => by simp [streamCrypt, ofbCrypt_eq K c inp h])
    (ofbStep_ivLen K) chunks (fun _ _ => trivial) c hiv

theorem streamAll_cfb (K : Cipher) (enc : Bool) (bits : Nat)
    (hb : bits = 8 ∨ bits = 64 ∨ bits = 128) (junk : Byte) (chunks : List (List Byte)) (c : SCtx)
    (hiv : c.iv.length = 16) :
    streamAll K (.cfb enc bits) junk c chunks
      = (foldB (cfbStep K enc (bits / 8)) c chunks.flatten).map fun r => (r.1, .ok r.2) :=
  streamAll_fold (ok := fun _ => True)
    (fun c inp h hl _ => by simp only [streamCrypt]; exact cfbCrypt_eq K enc bits hb junk c inp h hl)
    (cfbStep_ivLen K enc (bits / 8) (by omega)) chunks (fun _ _ => trivial) c hiv

def cfb1Step (K : Cipher) (enc : Bool) (junk : Byte) (c : SCtx) (b : Byte) : Option (SCtx × Byte) :=
  cfb1Byte K enc b 8 c junk

theorem cfb1Crypt_fold (K : Cipher) (enc : Bool) (junk : Byte) (c : SCtx) (inp : List Byte) :
    cfb1Crypt K enc junk c inp = foldB (cfb1Step K enc junk) c inp := by
  induction inp generalizing c with
  | nil => rfl
  | cons b bs ih =>
    simp only [cfb1Crypt, foldB, cfb1Step, ih]
    cases cfb1Byte K enc b 8 c junk with
    | none => rfl
    | some r =>
      obtain ⟨c1, o⟩ := r
      simp only [cfb1Step]
      cases foldB (cfb1Step K enc junk) c1 bs with
      | none => rfl
      | some r2 => rfl

theorem cfb1Bit_ivLen (K : Cipher) (enc : Bool) (c : SCtx) (b : Bool) (c' : SCtx) (o : Bool)
    (h : cfb1Bit K enc c b = some (c', o)) : c'.iv.length = c.iv.length := by
  unfold cfb1Bit at h
  simp only at h
  split at h
  · cases h
  · simp only [Option.some.injEq, Prod.mk.injEq] at h
    rw [← h.1]
    simp [shl1_length]

theorem cfb1Byte_ivLen (K : Cipher) (enc : Bool) (b : Byte) (n : Nat) (c : SCtx) (o : Byte)
    (c' : SCtx) (o' : Byte) (h : cfb1Byte K enc b n c o = some (c', o')) :
    c'.iv.length = c.iv.length := by
  induction n generalizing c o with
  | zero => simp [cfb1Byte] at h; rw [h.1]
  | succ n ih =>
    simp only [cfb1Byte] at h
    split at h
    · cases h
    · rename_i h1
      rw [ih _ _ h, cfb1Bit_ivLen _ _ _ _ _ _ h1]

theorem streamAll_cfb1 (K : Cipher) (enc : Bool) (junk : Byte) (chunks : List (List Byte))
    (hch : ∀ x ∈ chunks, x.length < 2 ^ 29) (c : SCtx) (hiv : c.iv.length = 16) :
    streamAll K (.cfb enc 1) junk c chunks
      = (cfb1Crypt K enc junk c chunks.flatten).map fun r => (r.1, .ok r.2) := by
  rw [cfb1Crypt_fold]
  refine streamAll_fold (ok := fun x => x.length < 2 ^ 29) ?_ ?_ chunks hch c hiv
  · intro c inp h hl hx
    simp only [streamCrypt, cfbCrypt]
    rw [if_neg (by omega), if_pos trivial, if_neg (by norm_num at hx ⊢; omega), cfb1Crypt_fold]
    cases foldB (cfb1Step K enc junk) c inp with
    | none => rfl
    | some r => rfl
  · intro c b c' o h hs
    rw [cfb1Byte_ivLen _ _ _ _ _ _ _ _ hs, h]

theorem encIter_eq (K : Cipher) (n : Nat) (x : List Byte) : encIter K n x = (K.enc)^[n] x := by
  induction n with
  | zero => rfl
  | succ n ih => rw [encIter, ih, Function.iterate_succ_apply']

theorem bitsOf_eq (l : List Byte) : bitsOf l = Spec.bits l := by
  induction l with
  | nil => rfl
  | cons b bs ih =>
    rw [bitsOf, ih, Spec.bits, Spec.bits, List.flatMap_cons]
    rfl

/-! ## C24: counter mode -/

/-- **C24.** Feeding a message to a CTR context in any pieces yields, at every position `i`, the
message byte xored with byte `i mod 16` of the encryption of (IV + i div 16) as a 128-bit big-endian
counter.  It never fails, never reads outside its buffers, and does not depend on the history of the
context. -/
theorem ctr_any_chunking (K : Cipher) (junk : Byte) (prior : SCtx) (iv : List Byte)
    (hiv : iv.length = 16) (chunks : List (List Byte)) :
    ∃ c' out, streamAll K .ctr junk (fresh prior iv) chunks = some (c', .ok out) ∧
      out.length = chunks.flatten.length ∧
      ∀ i b, chunks.flatten[i]? = some b →
        ∃ k, (K.enc (Spec.counterBlock iv (i / 16)))[i % 16]? = some k ∧ out[i]? = some (b ^^^ k) := by
  obtain ⟨h1, h2⟩ := fresh_iv prior iv hiv
  have h0 : CtrAt K iv [] (fresh prior iv) := by
    refine ⟨?_, h2, ?_⟩
    · rw [h1]; exact (ctrBlk_zero iv hiv).symm
    · intro h; exact absurd rfl h
  obtain ⟨c', out, hf, -, hl, ho⟩ := foldB_hist (x := fun b k => b ^^^ k) (enc := false)
    (fun C c b h => ctr_hist K iv C c b h) chunks.flatten [] _ h0
  refine ⟨c', out, ?_, hl, ?_⟩
  · rw [streamAll_ctr K junk chunks _ (by rw [h1, hiv]), hf]; rfl
  · intro i b hb
    obtain ⟨k, hk, hout⟩ := ho i b hb
    have hi : i < chunks.flatten.length := by
      by_contra hc
      rw [List.getElem?_eq_none (by omega)] at hb
      cases hb
    have e : (chunks.flatten.take i).length = i := by rw [List.length_take]; omega
    simp only [Bool.false_eq_true, if_false, List.nil_append, e] at hk
    exact ⟨k, hk, hout⟩

/-- **C24.** CTR decryption (the same operation) restores the message, however the message and the
ciphertext are cut into pieces. -/
theorem ctr_roundtrip (K : Cipher) (junk : Byte) (prior prior' : SCtx) (iv : List Byte)
    (hiv : iv.length = 16) (chunks chunks' : List (List Byte)) (c' : SCtx) (ct : List Byte)
    (henc : streamAll K .ctr junk (fresh prior iv) chunks = some (c', .ok ct))
    (hct : chunks'.flatten = ct) :
    ∃ c'', streamAll K .ctr junk (fresh prior' iv) chunks' = some (c'', .ok chunks.flatten) := by
  obtain ⟨h1, h2⟩ := fresh_iv prior iv hiv
  obtain ⟨h1', h2'⟩ := fresh_iv prior' iv hiv
  obtain ⟨c2, out, he, hl, ho⟩ := ctr_any_chunking K junk prior iv hiv chunks
  obtain ⟨c3, out', he', hl', ho'⟩ := ctr_any_chunking K junk prior' iv hiv chunks'
  rw [henc] at he
  simp only [Option.some.injEq, Prod.mk.injEq, Except.ok.injEq] at he
  refine ⟨c3, ?_⟩
  rw [he']
  have e : out' = chunks.flatten := by
    apply List.ext_getElem?
    intro i
    by_cases hi : i < chunks.flatten.length
    · obtain ⟨k, hk, hko⟩ := ho i _ (List.getElem?_eq_getElem hi)
      rw [← he.2, ← hct] at hko
      obtain ⟨k', hk', hko'⟩ := ho' i _ hko
      rw [hk] at hk'
      cases hk'
      rw [hko', xor_cancel, List.getElem?_eq_getElem hi]
    · rw [List.getElem?_eq_none (by rw [hl', hct, he.2, hl]; omega), List.getElem?_eq_none (by omega)]
  rw [e]

/-- **C24.** Within one IV the counter blocks of the first `2^128` blocks are pairwise different: no
keystream block is ever reused. -/
theorem ctr_counters_distinct (iv : List Byte) (j j' : Nat) (h : j < 2 ^ 128)
    (h' : j' < 2 ^ 128) (heq : Spec.counterBlock iv j = Spec.counterBlock iv j') : j = j' := by
  have e : (256 : Nat) ^ 16 = 2 ^ 128 := by norm_num
  have hlt : ∀ n : Nat, n % 2 ^ 128 < 256 ^ 16 := by
    intro n; rw [e]; exact Nat.mod_lt _ (by norm_num)
  have := beBytes_inj (hlt _) (hlt _) heq
  generalize beVal iv = v at this
  omega

/-- **C24.** An output buffer smaller than the input is refused and nothing changes; an empty input
succeeds and nothing changes (all stream modes). -/
theorem stream_update_refuses (K : Cipher) (m : StreamMode) (junk : Byte) (c : SCtx)
    (inp : List Byte) (cap : Nat) (h : cap < inp.length) :
    streamUpdate K m junk c inp cap = some (c, .error .modeBuffLen) := by
  simp only [streamUpdate]
  rw [if_neg (by omega), if_pos h]

example : (streamAll toy .ctr 0 (fresh ⟨[], [], 7⟩ (List.replicate 16 0xff#8))
    [[1#8, 2#8], [], [3#8] ++ List.replicate 14 0#8, [4#8]]).map (·.2)
    = some (.ok ([1#8, 2#8, 3#8] ++ List.replicate 13 0#8 ++ [1#8, 5#8])) := by decide +kernel

/-! ## C25: OFB and CFB -/

/-- **C25 (OFB).** Output byte `i` is the input byte xored with byte `i mod 16` of the cipher applied
`i div 16 + 1` times to the IV, for every way of cutting the message. -/
theorem ofb_any_chunking (K : Cipher) (junk : Byte) (prior : SCtx) (iv : List Byte)
    (hiv : iv.length = 16) (chunks : List (List Byte)) :
    ∃ c' out, streamAll K .ofb junk (fresh prior iv) chunks = some (c', .ok out) ∧
      out.length = chunks.flatten.length ∧
      ∀ i b, chunks.flatten[i]? = some b →
        ∃ k, (Spec.ofbBlock K iv (i / 16))[i % 16]? = some k ∧ out[i]? = some (b ^^^ k) := by
  obtain ⟨h1, h2⟩ := fresh_iv prior iv hiv
  have h0 : OfbAt K iv [] (fresh prior iv) := ⟨h1, h2⟩
  obtain ⟨c', out, hf, -, hl, ho⟩ := foldB_hist (x := fun b k => b ^^^ k) (enc := false)
    (fun C c b h => ofb_hist K iv hiv C c b h) chunks.flatten [] _ h0
  refine ⟨c', out, ?_, hl, ?_⟩
  · rw [streamAll_ofb K junk chunks _ (by rw [h1, hiv]), hf]; rfl
  · intro i b hb
    obtain ⟨k, hk, hout⟩ := ho i b hb
    have hi : i < chunks.flatten.length := by
      by_contra hc
      rw [List.getElem?_eq_none (by omega)] at hb
      cases hb
    have e : (chunks.flatten.take i).length = i := by rw [List.length_take]; omega
    simp only [Bool.false_eq_true, if_false, List.nil_append, e, encIter_eq] at hk
    exact ⟨k, hk, hout⟩

/-- **C25 (OFB).** Applying OFB twice with the same IV restores the message, for any two cuttings. -/
theorem ofb_roundtrip (K : Cipher) (junk : Byte) (prior prior' : SCtx) (iv : List Byte)
    (hiv : iv.length = 16) (chunks chunks' : List (List Byte)) (c' : SCtx) (ct : List Byte)
    (henc : streamAll K .ofb junk (fresh prior iv) chunks = some (c', .ok ct))
    (hct : chunks'.flatten = ct) :
    ∃ c'', streamAll K .ofb junk (fresh prior' iv) chunks' = some (c'', .ok chunks.flatten) := by
  obtain ⟨h1, h2⟩ := fresh_iv prior iv hiv
  obtain ⟨c2, out, he, hl, ho⟩ := ofb_any_chunking K junk prior iv hiv chunks
  obtain ⟨c3, out', he', hl', ho'⟩ := ofb_any_chunking K junk prior' iv hiv chunks'
  rw [henc] at he
  simp only [Option.some.injEq, Prod.mk.injEq, Except.ok.injEq] at he
  refine ⟨c3, ?_⟩
  rw [he']
  have e : out' = chunks.flatten := by
    apply List.ext_getElem?
    intro i
    by_cases hi : i < chunks.flatten.length
    · obtain ⟨k, hk, hko⟩ := ho i _ (List.getElem?_eq_getElem hi)
      rw [← he.2, ← hct] at hko
      obtain ⟨k', hk', hko'⟩ := ho' i _ hko
      rw [hk] at hk'
      cases hk'
      rw [hko', xor_cancel, List.getElem?_eq_getElem hi]
    · rw [List.getElem?_eq_none (by rw [hl', hct, he.2, hl]; omega), List.getElem?_eq_none (by omega)]
  rw [e]

example : (streamAll toy .ofb 0 (fresh ⟨[], [], 7⟩ (List.replicate 16 0#8))
    [[1#8, 2#8], List.replicate 14 0#8, [4#8]]).map (·.2)
    = some (.ok ([0#8, 3#8] ++ List.replicate 14 1#8 ++ [6#8])) := by decide +kernel

/-- **C25 (CFB-8/64/128).** With `s`-byte segments, output byte `i` is the input byte xored with byte
`i mod s` of the encryption of the CFB input block of segment `i div s`, which is built from the IV and
the ciphertext (the output when encrypting, the input when decrypting).  Holds for every cutting of
the message. -/
theorem cfb_any_chunking (K : Cipher) (enc : Bool) (bits : Nat)
    (hbits : bits = 8 ∨ bits = 64 ∨ bits = 128) (junk : Byte) (prior : SCtx) (iv : List Byte)
    (hiv : iv.length = 16) (chunks : List (List Byte)) :
    ∃ c' out, streamAll K (.cfb enc bits) junk (fresh prior iv) chunks = some (c', .ok out) ∧
      out.length = chunks.flatten.length ∧
      ∀ i b, chunks.flatten[i]? = some b →
        ∃ k, (K.enc (Spec.cfbInput iv (if enc then out else chunks.flatten) (bits / 8)
            (i / (bits / 8))))[i % (bits / 8)]? = some k ∧ out[i]? = some (b ^^^ k) := by
  obtain ⟨h1, h2⟩ := fresh_iv prior iv hiv
  have hs0 : 0 < bits / 8 := by omega
  have hs : bits / 8 ≤ 16 := by omega
  have h0 : CfbAt K (bits / 8) iv [] (fresh prior iv) := by
    simp [CfbAt, h1, h2]
  obtain ⟨c', out, hf, -, hl, ho⟩ := foldB_hist (x := fun b k => b ^^^ k) (enc := enc)
    (fun C c b h => cfb_hist K enc (bits / 8) hs0 hs iv hiv C c b h) chunks.flatten [] _ h0
  refine ⟨c', out, ?_, hl, ?_⟩
  · rw [streamAll_cfb K enc bits hbits junk chunks _ (by rw [h1, hiv]), hf]; rfl
  · intro i b hb
    obtain ⟨k, hk, hout⟩ := ho i b hb
    have hi : i < chunks.flatten.length := by
      by_contra hc
      rw [List.getElem?_eq_none (by omega)] at hb
      cases hb
    generalize hct : (if enc = true then out else chunks.flatten) = ct at hk ⊢
    have hctl : ct.length = chunks.flatten.length := by rw [← hct]; cases enc <;> simp [hl]
    have e : (ct.take i).length = i := by rw [List.length_take]; omega
    rw [List.nil_append, e] at hk
    refine ⟨k, ?_, hout⟩
    have := cfbReg_append iv (ct.take i) (ct.drop i) (bits / 8) (i / (bits / 8)) hiv
      (by rw [e]; exact Nat.div_mul_le_self _ _)
    rw [List.take_append_drop] at this
    rw [← hk, ← this]
    rfl

/-- **C25 (CFB-8/64/128).** Decrypting restores the message, however message and ciphertext are cut. -/
theorem cfb_roundtrip (K : Cipher) (bits : Nat) (hbits : bits = 8 ∨ bits = 64 ∨ bits = 128)
    (junk junk' : Byte) (prior prior' : SCtx) (iv : List Byte) (hiv : iv.length = 16)
    (chunks chunks' : List (List Byte)) (c' : SCtx) (ct : List Byte)
    (henc : streamAll K (.cfb true bits) junk (fresh prior iv) chunks = some (c', .ok ct))
    (hct : chunks'.flatten = ct) :
    ∃ c'', streamAll K (.cfb false bits) junk' (fresh prior' iv) chunks'
      = some (c'', .ok chunks.flatten) := by
  obtain ⟨c2, out, he, hl, ho⟩ := cfb_any_chunking K true bits hbits junk prior iv hiv chunks
  obtain ⟨c3, out', he', hl', ho'⟩ := cfb_any_chunking K false bits hbits junk' prior' iv hiv chunks'
  rw [henc] at he
  simp only [Option.some.injEq, Prod.mk.injEq, Except.ok.injEq] at he
  refine ⟨c3, ?_⟩
  rw [he']
  have e : out' = chunks.flatten := by
    apply List.ext_getElem?
    intro i
    by_cases hi : i < chunks.flatten.length
    · obtain ⟨k, hk, hko⟩ := ho i _ (List.getElem?_eq_getElem hi)
      rw [← he.2, ← hct] at hko
      obtain ⟨k', hk', hko'⟩ := ho' i _ hko
      rw [if_pos rfl, ← he.2, ← hct] at hk
      rw [if_neg (by simp)] at hk'
      rw [hk] at hk'
      cases hk'
      rw [hko', xor_cancel, List.getElem?_eq_getElem hi]
    · rw [List.getElem?_eq_none (by rw [hl', hct, he.2, hl]; omega), List.getElem?_eq_none (by omega)]
  rw [e]

example : (streamAll toy (.cfb true 64) 0 (fresh ⟨[], [], 7⟩ (List.replicate 16 0#8))
      [[1#8, 2#8], List.replicate 9 0#8, [4#8]]).map (·.2)
    = some (.ok ([0#8, 3#8] ++ List.replicate 6 1#8 ++ [2#8, 2#8, 2#8, 6#8])) := by
  decide +kernel

/-- **C25 (CFB-1).** Output bit `i` (bits numbered from the most significant bit of the first byte) is
the input bit xored with the first bit of the encryption of the register made of the 128 bits of
`iv ++ ciphertext` that precede it.  Every call processes fewer than `2^29` bytes (the library's limit);
the old contents of the output buffer (`junk`) do not matter. -/
theorem cfb1_any_chunking (K : Cipher) (enc : Bool) (junk : Byte) (prior : SCtx) (iv : List Byte)
    (hiv : iv.length = 16) (chunks : List (List Byte)) (hch : ∀ x ∈ chunks, x.length < 2 ^ 29) :
    ∃ c' out, streamAll K (.cfb enc 1) junk (fresh prior iv) chunks = some (c', .ok out) ∧
      out.length = chunks.flatten.length ∧
      ∀ i b, (Spec.bits chunks.flatten)[i]? = some b →
        ∃ R k, R.length = 16 ∧
          Spec.bits R = ((Spec.bits iv ++ Spec.bits (if enc then out else chunks.flatten)).drop i).take 128 ∧
          (K.enc R)[0]? = some k ∧ (Spec.bits out)[i]? = some (b ^^ k.getLsbD 7) := by
  obtain ⟨h1, h2⟩ := fresh_iv prior iv hiv
  have h0 : Cfb1At iv [] (fresh prior iv) := by
    simp [Cfb1At, h1, hiv]
  classical
  obtain ⟨c', bs, hf, -, hl, ho⟩ := foldB_hist (x := fun b k => b ^^ k) (enc := enc)
    (P := Cfb1At iv) (step := cfb1Bit K enc)
    (pad := fun C => if h : ∃ k, cfb1Pad K ((bitsOf iv ++ C).drop C.length) k then some h.choose else none)
    (fun C c b h => by
      obtain ⟨c', k, hk, hs, hP⟩ := cfb1_bit_step K enc iv hiv C c b h
      have hex : ∃ k, cfb1Pad K ((bitsOf iv ++ C).drop C.length) k := ⟨k, hk⟩
      have huniq : hex.choose = k := by
        obtain ⟨R, t, r1, r2, r3, r4⟩ := hex.choose_spec
        obtain ⟨R', t', r1', r2', r3', r4'⟩ := hk
        have : R = R' := bitsOf_inj (by rw [r2, r2'])
        subst this
        rw [r3] at r3'
        cases r3'
        rw [r4, r4']
      refine ⟨c', k, ?_, hs, hP⟩
      rw [dif_pos hex, huniq])
    (bitsOf chunks.flatten) [] _ h0
  have hbits := cfb1Crypt_bits K enc junk chunks.flatten (fresh prior iv)
  rw [hf] at hbits
  obtain ⟨out, hcr, hob⟩ := hbits
  have hlo : out.length = chunks.flatten.length := by
    have := bitsOf_length out
    rw [hob, hl, bitsOf_length] at this
    omega
  refine ⟨c', out, ?_, hlo, ?_⟩
  · rw [streamAll_cfb1 K enc junk chunks hch _ (by rw [h1, hiv]), hcr]; rfl
  · intro i b hb
    rw [← bitsOf_eq] at hb
    obtain ⟨k, hk, hout⟩ := ho i b hb
    have hi : i < (bitsOf chunks.flatten).length := by
      by_contra hc
      rw [List.getElem?_eq_none (by omega)] at hb
      cases hb
    simp only [List.nil_append] at hk
    have hct : (if enc = true then bs else bitsOf chunks.flatten)
        = bitsOf (if enc = true then out else chunks.flatten) := by
      cases enc <;> simp [hob]
    rw [hct] at hk
    generalize hctd : (if enc = true then out else chunks.flatten) = ct at hk ⊢
    have hctl : ct.length = chunks.flatten.length := by rw [← hctd]; cases enc <;> simp [hlo]
    have e : ((bitsOf ct).take i).length = i := by
      rw [List.length_take, bitsOf_length, hctl]
      rw [bitsOf_length] at hi; omega
    split at hk
    · rename_i hex
      obtain ⟨R, t, r1, r2, r3, r4⟩ := hex.choose_spec
      simp only [Option.some.injEq] at hk
      refine ⟨R, t, r1, ?_, r3, ?_⟩
      · rw [← bitsOf_eq, ← bitsOf_eq, ← bitsOf_eq, r2, e]
        have hil : i ≤ (bitsOf iv).length + ((bitsOf ct).take i).length := by omega
        conv => rhs; rw [← List.take_append_drop i (bitsOf ct)]
        rw [← List.append_assoc, List.drop_append_of_le_length (l₁ := bitsOf iv ++ (bitsOf ct).take i)
            (by rw [List.length_append]; exact hil),
          List.take_append_of_le_length, List.take_of_length_le (i := 128)]
        · rw [List.length_drop, List.length_append, bitsOf_length, hiv, e]; omega
        · rw [List.length_drop, List.length_append, bitsOf_length, hiv, e]; omega
      · rw [← bitsOf_eq, hob, hout, ← r4, hk]
    · cases hk

/-- **C25 (CFB-1).** Decrypting restores the message, however message and ciphertext are cut. -/
theorem cfb1_roundtrip (K : Cipher) (junk junk' : Byte) (prior prior' : SCtx) (iv : List Byte)
    (hiv : iv.length = 16) (chunks chunks' : List (List Byte)) (c' : SCtx) (ct : List Byte)
    (hch : ∀ x ∈ chunks, x.length < 2 ^ 29) (hch' : ∀ x ∈ chunks', x.length < 2 ^ 29)
    (henc : streamAll K (.cfb true 1) junk (fresh prior iv) chunks = some (c', .ok ct))
    (hct : chunks'.flatten = ct) :
    ∃ c'', streamAll K (.cfb false 1) junk' (fresh prior' iv) chunks'
      = some (c'', .ok chunks.flatten) := by
  obtain ⟨h1, h2⟩ := fresh_iv prior iv hiv
  obtain ⟨h1', h2'⟩ := fresh_iv prior' iv hiv
  obtain ⟨c2, out, he, hl, ho⟩ := cfb1_any_chunking K true junk prior iv hiv chunks hch
  obtain ⟨c3, out', he', hl', ho'⟩ := cfb1_any_chunking K false junk' prior' iv hiv chunks' hch'
  rw [henc] at he
  simp only [Option.some.injEq, Prod.mk.injEq, Except.ok.injEq] at he
  refine ⟨c3, ?_⟩
  rw [he']
  have e : out' = chunks.flatten := by
    apply bitsOf_inj
    rw [bitsOf_eq, bitsOf_eq]
    have hbl : ∀ l, (Spec.bits l).length = 8 * l.length := by
      intro l; rw [← bitsOf_eq, bitsOf_length]
    apply List.ext_getElem?
    intro i
    by_cases hi : i < (Spec.bits chunks.flatten).length
    · obtain ⟨R, k, r1, r2, r3, hko⟩ := ho i _ (List.getElem?_eq_getElem hi)
      rw [← he.2, ← hct] at hko
      obtain ⟨R', k', r1', r2', r3', hko'⟩ := ho' i _ hko
      rw [if_pos rfl, ← he.2, ← hct] at r2
      rw [if_neg (by simp)] at r2'
      rw [← r2', ← bitsOf_eq, ← bitsOf_eq] at r2
      have := bitsOf_inj r2
      subst this
      rw [r3] at r3'
      cases r3'
      rw [hko', List.getElem?_eq_getElem hi, Bool.xor_assoc, Bool.xor_self, Bool.xor_false]
    · rw [hbl] at hi
      rw [List.getElem?_eq_none (by rw [hbl, hl', hct, he.2, hl]; omega),
        List.getElem?_eq_none (by rw [hbl]; omega)]
  rw [e]

example : (streamAll toy (.cfb true 1) 0xa5 (fresh ⟨[], [], 7⟩ (List.replicate 16 0x80#8))
      [[0x81#8], [2#8]]).map (·.2) = some (.ok [1#8, 3#8]) := by
  decide +kernel

end Verif.Crypto.Modes
