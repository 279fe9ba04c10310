import Verif.Crypto.Wrap.Proof
/-! C46: key wrap computes RFC 3394 / RFC 5649, unwrap is its exact inverse and accepts nothing else. -/
namespace Verif.Crypto.Wrap
open Verif.Common Verif.Crypto.Modes

/-- A block cipher for the examples: every byte is complemented and the halves are swapped. -/
def exCipher : Cipher where
  enc x := (x.drop 8 ++ x.take 8).map (~~~ ·)
  dec x := (x.drop 8 ++ x.take 8).map (~~~ ·)
  encLen x h := by simp [h]
  decLen x h := by simp [h]
  inv x h := by
    rw [← List.map_drop, ← List.map_take, List.drop_left' (by simp [h]), List.take_left' (by simp [h]),
      ← List.map_append, List.take_append_drop, List.map_map]
    simp [Function.comp_def]
  inv' x h := by
    rw [← List.map_drop, ← List.map_take, List.drop_left' (by simp [h]), List.take_left' (by simp [h]),
      ← List.map_append, List.take_append_drop, List.map_map]
    simp [Function.comp_def]

/-- The field `iv` is an array of 8 bytes. -/
def Wf (c : Ctx) : Prop := c.iv.length = 8

theorem zeros_at {m : List Byte} {n : Nat} (h : n ≤ m.length) :
    wr m 0 (List.replicate n 0#8) = some (List.replicate n 0#8 ++ m.drop n) := by
  rw [wr_at (by simpa using h)]; simp

/-! ### without padding -/

/-- C46.  Without padding, wrapping a plaintext of at least two blocks computes RFC 3394's key wrap with
the context's IV, and writes nothing after it. -/
theorem wrap_rfc3394 (C : Cipher) {c : Ctx} {p out : List Byte} {outLen : Nat} (hc : Wf c)
    (hpad : c.flagPad = false) (h8 : p.length % 8 = 0) (h16 : 16 ≤ p.length) (hmax : p.length ≤ 2 ^ 32 - 24)
    (hout : p.length + 8 ≤ outLen) (hcap : outLen ≤ out.length) :
    encrypt C c p out outLen =
      some (.success, Spec.wrap C.enc c.iv p ++ out.drop (p.length + 8), p.length + 8) := by
  rw [encrypt, if_pos hpad, if_neg (by omega), wr_at (by omega)]
  simp only [Option.bind_eq_bind, Option.bind_some]
  rw [wrapEncrypt_spec C hc (by rw [List.length_take]; omega) h8 h16 (by unfold maxInput; omega)]
  simp only [Option.bind_some]
  rw [if_neg (by simp), Nat.add_comm 8]

example : encrypt exCipher (newCtx false) (List.replicate 16 7#8) (List.replicate 30 1#8) 24 =
    some (.success, Spec.wrap exCipher.enc (List.replicate 8 0xa6#8) (List.replicate 16 7#8) ++
      List.replicate 6 1#8, 24) :=
  wrap_rfc3394 exCipher rfl rfl rfl (by decide) (by decide) (by decide) (by decide)

/-- C46.  Any other plaintext length is refused and the output area is cleared. -/
theorem wrap_rejects (C : Cipher) {c : Ctx} {p out : List Byte} {outLen : Nat}
    (hpad : c.flagPad = false) (hbad : p.length < 16 ∨ 2 ^ 32 - 24 < p.length ∨ p.length % 8 ≠ 0)
    (hout : p.length + 8 ≤ outLen) (hcap : outLen ≤ out.length) :
    encrypt C c p out outLen =
      some (.inputLen, List.replicate outLen 0#8 ++ out.drop outLen, outLen) := by
  rw [encrypt, if_pos hpad, if_neg (by omega), wr_at (by omega)]
  simp only [Option.bind_eq_bind, Option.bind_some]
  rw [wrapEncrypt, if_pos (by unfold maxInput; omega)]
  simp only [Option.bind_some]
  rw [if_pos (by simp)]
  have hl : (out.take 8 ++ (p ++ out.drop (8 + p.length))).length = out.length := by simp; omega
  rw [zeros_at (by omega)]
  simp only [Option.bind_some]
  congr 3
  rw [← List.append_assoc, List.drop_append, List.drop_of_length_le (by simp; omega), List.nil_append,
    List.drop_drop]
  congr 2; simp; omega

example : encrypt exCipher (newCtx false) (List.replicate 8 7#8) (List.replicate 30 1#8) 24 =
    some (.inputLen, List.replicate 24 0#8 ++ List.replicate 6 1#8, 24) :=
  wrap_rejects exCipher rfl (by decide) (by decide) (by decide)

theorem wrapDecrypt_nopad (C : Cipher) {c : Ctx} {inp out : List Byte} (hc : Wf c)
    (hpad : c.flagPad = false) (h8 : inp.length % 8 = 0) (h16 : 16 ≤ inp.length) (hmax : inp.length ≤ maxInput)
    (hcap : inp.length - 8 ≤ out.length) :
    ∃ a p, a.length = 8 ∧ p.length = inp.length - 8 ∧ Spec.wrap C.enc a p = inp ∧
      wrapDecrypt C c inp out = if c.iv = a then some (.success, [], p ++ out.drop (inp.length - 8))
        else some (.decError, [], List.replicate (inp.length - 8) 0#8 ++ out.drop (inp.length - 8)) := by
  obtain ⟨a, p, ha, hp, hw, hd⟩ := decRounds_wrap C h8 h16 hmax hcap
  refine ⟨a, p, ha, hp, hw, ?_⟩
  rw [wrapDecrypt]
  simp only [Option.bind_eq_bind] at hd ⊢
  have assoc : ∀ f : BitVec 32 × List Byte × List Byte → Option (Ret × List Byte × List Byte),
      ((rd inp 0 8).bind fun a => (rd inp 8 (inp.length - 8)).bind fun d => (wr out 0 d).bind fun out =>
        (decRounds C (inp.length - 8) 6 (BitVec.ofNat 32 (6 * ((inp.length - 8) / 8))) a out).bind f) =
      f (0#32, a, p ++ out.drop (inp.length - 8)) := by
    intro f
    have := congrArg (fun o => Option.bind o f) hd
    simpa only [Option.bind_assoc, Option.bind_some] using this
  rw [assoc]
  dsimp only
  rw [if_neg (by simp [hpad]), Bsl.Bytes.ctMemcmp_spec _ _ (by rw [ha]; exact hc), Bsl.Bytes.mask]
  by_cases h : c.iv = a
  · rw [if_pos h, if_neg (by decide), if_pos h]
  · rw [if_neg h, if_pos rfl, if_neg h, zeros_at (by simp; omega)]
    simp only [Option.bind_some]
    rw [List.drop_left' hp]

/-- C46.  Without padding, unwrapping succeeds exactly when the input is the key wrap, under the same IV,
of some plaintext; then that (unique) plaintext is returned.  Otherwise it fails with the decryption error
and the output area holds zeros. -/
theorem unwrap_exact (C : Cipher) {c : Ctx} {inp out : List Byte} {outLen : Nat} (hc : Wf c)
    (hpad : c.flagPad = false) (h8 : inp.length % 8 = 0) (h16 : 16 ≤ inp.length)
    (hmax : inp.length ≤ 2 ^ 32 - 24) (hout : inp.length - 8 ≤ outLen) (hcap : outLen ≤ out.length) :
    (∃ p, p.length % 8 = 0 ∧ Spec.wrap C.enc c.iv p = inp ∧ decrypt C c inp out outLen =
      some (.success, p ++ out.drop p.length, p.length)) ∨
    ((∀ p, p.length % 8 = 0 → Spec.wrap C.enc c.iv p ≠ inp) ∧ decrypt C c inp out outLen =
      some (.decError, List.replicate (inp.length - 8) 0#8 ++ out.drop (inp.length - 8), inp.length - 8)) := by
  obtain ⟨a, p, ha, hp, hw, hd⟩ := wrapDecrypt_nopad C (out := out) hc hpad h8 h16
    (by unfold maxInput; omega) (by omega)
  have hdec : decrypt C c inp out outLen = (wrapDecrypt C c inp out).bind
      (fun x => some (x.1, x.2.2, inp.length - 8)) := by
    rw [decrypt, if_neg (by unfold maxInput; omega), if_neg (by omega), if_pos hpad]; rfl
  rw [hdec, hd]
  by_cases h : c.iv = a
  · left
    rw [if_pos h]
    refine ⟨p, by omega, by rw [h, hw], ?_⟩
    simp only [Option.bind_some, hp]
  · right
    rw [if_neg h]
    refine ⟨fun q hq e => h ?_, rfl⟩
    have hq' : q.length = 8 * (q.length / 8) := by omega
    have hl := wrap_length C (n := q.length / 8) hc hq'
    rw [e] at hl
    exact (wrap_inj C hc ha hq' (by omega) (e.trans hw.symm)).1

/-- C46.  Unwrapping what wrapping produced gives back the plaintext. -/
theorem unwrap_wrap (C : Cipher) {c : Ctx} {p w out out' : List Byte} {outLen outLen' n : Nat} (hc : Wf c)
    (hpad : c.flagPad = false) (hcap : outLen ≤ out.length) (hcap' : outLen' ≤ out'.length)
    (hmax : p.length ≤ 2 ^ 32 - 32) (hl : p.length ≤ outLen')
    (h : encrypt C c p out outLen = some (.success, w, n)) :
    n = p.length + 8 ∧
    decrypt C c (w.take n) out' outLen' = some (.success, p ++ out'.drop p.length, p.length) := by
  by_cases hb : outLen < p.length + 8
  · rw [encrypt, if_pos hpad, if_pos hb] at h; simp at h
  by_cases hbad : p.length < 16 ∨ 2 ^ 32 - 24 < p.length ∨ p.length % 8 ≠ 0
  · rw [wrap_rejects C hpad hbad (by omega) hcap] at h; simp at h
  have h8 : p.length = 8 * (p.length / 8) := by omega
  rw [wrap_rfc3394 C hc hpad (by omega) (by omega) (by omega) (by omega) hcap] at h
  simp only [Option.some.injEq, Prod.mk.injEq, true_and] at h
  obtain ⟨rfl, rfl⟩ := h
  have hwl := wrap_length C hc h8
  rw [List.take_left' hwl]
  refine ⟨rfl, ?_⟩
  rcases unwrap_exact C (outLen := outLen') (out := out') (inp := Spec.wrap C.enc c.iv p) hc hpad (by omega)
    (by omega) (by omega) (by omega) hcap' with ⟨q, hq, e, hd⟩ | ⟨hn, _⟩
  · have hq' : q.length = 8 * (q.length / 8) := by omega
    have hl := wrap_length C (n := q.length / 8) hc hq'
    rw [e] at hl
    obtain ⟨_, rfl⟩ := wrap_inj C (n := p.length / 8) hc hc (by omega) (by omega) e
    exact hd
  · exact absurd rfl (hn p (by omega))

example : ∃ w, encrypt exCipher (newCtx false) (List.replicate 16 7#8) (List.replicate 24 1#8) 24 =
    some (.success, w, 24) ∧ decrypt exCipher (newCtx false) (w.take 24) (List.replicate 16 0#8) 16 =
    some (.success, List.replicate 16 7#8, 16) := by
  have h := wrap_rfc3394 exCipher (c := newCtx false) (p := List.replicate 16 7#8)
    (out := List.replicate 24 1#8) (outLen := 24) rfl rfl rfl (by decide) (by decide) (by decide) (by decide)
  exact ⟨_, h, (unwrap_wrap exCipher (c := newCtx false) (out' := List.replicate 16 0#8) (outLen' := 16) rfl rfl (by decide)
    (by decide) (by decide) (by decide) h).2⟩

/-- C46 finding.  A plaintext of the largest size wrapping accepts yields a ciphertext unwrapping refuses:
both directions apply the same limit to their input. -/
theorem largest_not_unwrappable (C : Cipher) {c : Ctx} {p out : List Byte} {outLen : Nat} (hc : Wf c)
    (hp : p.length = 2 ^ 32 - 24) :
    decrypt C c (Spec.wrap C.enc c.iv p) out outLen = some (.inputLen, out, outLen) := by
  have hl := wrap_length C (n := p.length / 8) (iv := c.iv) (p := p) hc (by omega)
  rw [decrypt, if_pos (by unfold maxInput; omega)]

/-! ### with padding -/

theorem padded_length (p : List Byte) : (Spec.padded p).length = 8 * ((p.length + 7) / 8) := by
  rw [Spec.padded, List.length_append, List.length_replicate]; omega

theorem aiv_eq {iv : List Byte} (hi : iv.length = 8) {n : Nat} (hn : n < 2 ^ 32) :
    dataBytesXor (iv.take 4 ++ List.replicate 4 0#8) (BitVec.ofNat 32 n) = iv.take 4 ++ beBytes 4 n := by
  rw [dataBytesXor_spec (by simp [hi]) hn, beBytes8 n hn, beBytes4]
  match iv, hi with
  | [a, b, c, d, _, _, _, _], _ => simp [Spec.xor]

theorem wrapPad_length (C : Cipher) {iv p : List Byte} (hi : iv.length = 8) (hp : p ≠ []) :
    (Spec.wrapPad C.enc (iv.take 4) p).length = (Spec.padded p).length + 8 := by
  have ha : (iv.take 4 ++ beBytes 4 p.length).length = 8 := by
    rw [List.length_append, beBytes_length, List.length_take]; omega
  have hpos := List.length_pos_iff.mpr hp
  rw [Spec.wrapPad]
  by_cases h : p.length ≤ 8
  · have hl : (Spec.padded p).length = 8 := by rw [padded_length]; omega
    rw [if_pos h, C.encLen _ (by rw [List.length_append, ha, hl]), hl]
  · rw [if_neg h, wrap_length C ha (padded_length p)]

/-- C46.  With padding, wrapping a nonempty plaintext computes RFC 5649's key wrap with the upper half of
the context's IV, and writes nothing after it. -/
theorem wrap_rfc5649 (C : Cipher) {c : Ctx} {p out : List Byte} {outLen : Nat} (hc : Wf c)
    (hpad : c.flagPad = true) (h1 : 1 ≤ p.length) (hmax : p.length ≤ 2 ^ 32 - 24)
    (hout : (Spec.padded p).length + 8 ≤ outLen) (hcap : outLen ≤ out.length) :
    encrypt C c p out outLen =
      some (.success, Spec.wrapPad C.enc (c.iv.take 4) p ++ out.drop ((Spec.padded p).length + 8),
        (Spec.padded p).length + 8) := by
  have hpl : ∀ k, (if p.length % 8 ≠ 0 then 8 - p.length % 8 else 0) = k → k = (8 - p.length % 8) % 8 := by
    intro k h; split at h <;> omega
  have hlen : p.length + (8 - p.length % 8) % 8 = (Spec.padded p).length := by
    rw [Spec.padded, List.length_append, List.length_replicate]
  rw [encrypt, if_neg (by simp [hpad]), encryptPad, if_neg (by unfold maxInput; omega)]
  dsimp only
  rw [hpl _ rfl, if_neg (by omega), wr_at (by omega)]
  simp only [Option.bind_eq_bind, Option.bind_some]
  have e1 : out.take 8 ++ (p ++ out.drop (8 + p.length)) = (out.take 8 ++ p) ++ out.drop (8 + p.length) := by
    rw [List.append_assoc]
  have hl8 : (out.take 8).length = 8 := by rw [List.length_take]; omega
  have e2 : wr (out.take 8 ++ (p ++ out.drop (8 + p.length))) (p.length + 8)
      (List.replicate ((8 - p.length % 8) % 8) 0#8) =
      some (out.take 8 ++ (Spec.padded p ++ out.drop ((Spec.padded p).length + 8))) := by
    rw [wr_at (by simp; omega), e1, List.take_left' (by simp; omega), List.length_replicate,
      ← List.drop_drop, List.drop_left' (by simp; omega), List.drop_drop, ← hlen, Spec.padded]
    simp only [List.append_assoc]
    congr 5; omega
  rw [e2, aiv_eq hc (by omega)]
  simp only [Option.bind_some]
  have ha : (c.iv.take 4 ++ beBytes 4 p.length).length = 8 := by
    rw [List.length_append, beBytes_length, List.length_take, hc]; rfl
  have core : encryptPadCore C (out.take 8 ++ (Spec.padded p ++ out.drop ((Spec.padded p).length + 8)))
      p.length ((8 - p.length % 8) % 8) (c.iv.take 4 ++ beBytes 4 p.length) =
      some (.success, Spec.wrapPad C.enc (c.iv.take 4) p ++ out.drop ((Spec.padded p).length + 8)) := by
    rw [encryptPadCore, Spec.wrapPad]
    by_cases h : p.length ≤ 8
    · have hl : (Spec.padded p).length = 8 := by rw [padded_length]; omega
      rw [if_pos h, if_pos h]
      have w1 := wr_mid (pre := []) (r := out.take 8) (d := c.iv.take 4 ++ beBytes 4 p.length) (o := 0)
        (post := Spec.padded p ++ out.drop ((Spec.padded p).length + 8)) (by rw [ha, hl8]) rfl
      rw [List.nil_append, List.nil_append] at w1
      rw [w1]
      simp only [Option.bind_eq_bind, Option.bind_some]
      rw [← List.append_assoc]
      have hl16 : (c.iv.take 4 ++ beBytes 4 p.length ++ Spec.padded p).length = 16 := by
        rw [List.length_append, ha, hl]
      have r1 := rd_mid (pre := []) (o := 0) (post := out.drop ((Spec.padded p).length + 8)) hl16 rfl
      have w2 := wr_mid (pre := []) (o := 0) (r := c.iv.take 4 ++ beBytes 4 p.length ++ Spec.padded p)
        (post := out.drop ((Spec.padded p).length + 8))
        (d := C.enc (c.iv.take 4 ++ beBytes 4 p.length ++ Spec.padded p)) (by rw [C.encLen _ hl16, hl16]) rfl
      rw [List.nil_append] at r1
      rw [List.nil_append, List.nil_append] at w2
      rw [r1]
      simp only [Option.bind_some]
      rw [w2]
      rfl
    · rw [if_neg h, if_neg h, hlen]
      have := padded_length p
      exact wrapEncrypt_spec C ha hl8 (by omega) (by omega) (by unfold maxInput; omega)
  rw [core]
  simp only [Option.bind_some]
  rw [if_neg (by simp), hlen]

example : encrypt exCipher (newCtx true) [1#8, 2#8, 3#8] (List.replicate 20 9#8) 16 =
    some (.success, exCipher.enc ([0xa6#8, 0x59#8, 0x59#8, 0xa6#8, 0#8, 0#8, 0#8, 3#8] ++
      [1#8, 2#8, 3#8, 0#8, 0#8, 0#8, 0#8, 0#8]) ++ List.replicate 4 9#8, 16) :=
  wrap_rfc5649 exCipher (c := newCtx true) (p := [1#8, 2#8, 3#8]) rfl rfl (by decide) (by decide) (by decide)
    (by decide)

theorem padded_inj {p q : List Byte} (hl : p.length = q.length) (h : Spec.padded p = Spec.padded q) : p = q :=
  (List.append_inj h hl).1

theorem resultLen_spec {c : Ctx} {a p post : List Byte} (hc : Wf c) (ha : a.length = 8)
    (hp : p.length % 8 = 0) (h8 : 8 ≤ p.length) (h32 : p.length < 2 ^ 32) :
    (∃ q, q ≠ [] ∧ Spec.padded q = p ∧ a = c.iv.take 4 ++ beBytes 4 q.length ∧
      resultLen c (p ++ post) a p.length (p.length + 8) = some (some q.length)) ∨
    ((∀ q, q ≠ [] → Spec.padded q = p → a ≠ c.iv.take 4 ++ beBytes 4 q.length) ∧
      resultLen c (p ++ post) a p.length (p.length + 8) = some none) := by
  have hi4 : (c.iv.take 4).length = 4 := by rw [List.length_take, hc]; rfl
  have ha4 : (a.take 4).length = 4 := by rw [List.length_take, ha]; rfl
  have hqb : ∀ q, q ≠ [] → Spec.padded q = p → p.length - 8 < q.length ∧ q.length ≤ p.length := by
    intro q hq e
    have := congrArg List.length e
    rw [padded_length] at this
    have := List.length_pos_iff.mpr hq
    omega
  rw [resultLen, Bsl.Bytes.ctMemcmp_spec _ _ (by rw [ha4, hi4]), Bsl.Bytes.mask]
  by_cases h : a.take 4 = c.iv.take 4
  swap
  · right
    rw [if_neg h, if_pos rfl]
    refine ⟨fun q _ _ e => h ?_, rfl⟩
    rw [e, List.take_left' hi4]
  rw [if_pos h, if_neg (by decide)]
  obtain ⟨w, x, y, z, hd⟩ : ∃ w x y z, a.drop 4 = [w, x, y, z] := by
    match a, ha with
    | [_, _, _, _, w, x, y, z], _ => exact ⟨w, x, y, z, rfl⟩
  have hlt : beVal [w, x, y, z] < 2 ^ 32 := by
    have := beVal_lt [w, x, y, z]; simpa using this
  have hbe : beBytes 4 (beVal [w, x, y, z]) = [w, x, y, z] := beBytes_beVal [w, x, y, z]
  rw [hd, Bsl.Bytes.byteToUint32_spec]
  simp only [Option.bind_eq_bind, Option.bind_some, BitVec.toNat_ofNat]
  rw [Nat.mod_eq_of_lt hlt]
  generalize beVal [w, x, y, z] = v at hlt hbe
  have hval : ∀ q : List Byte, q.length ≤ p.length → a = c.iv.take 4 ++ beBytes 4 q.length → q.length = v := by
    intro q hq e
    have e2 : a.drop 4 = beBytes 4 q.length := by rw [e, List.drop_left' hi4]
    rw [hd, ← hbe] at e2
    exact (beBytes_inj (by omega) (by omega) e2).symm
  by_cases hv : v > p.length ∨ v ≤ p.length + 8 - 16
  · right
    rw [if_pos hv]
    refine ⟨fun q h1 h2 e => ?_, rfl⟩
    have := hqb q h1 h2
    have := hval q this.2 e
    omega
  rw [if_neg hv]
  have hzl : (List.replicate (p.length - v) 0#8).length = p.length - v := by simp
  have r1 : rd (p ++ post) v (p.length - v) = some (p.drop v) := by
    rw [rd, if_pos (by simp; omega), List.drop_append_of_le_length (by omega),
      List.take_left' (by rw [List.length_drop])]
  have r2 : rd (List.replicate 8 0#8) 0 (p.length - v) = some (List.replicate (p.length - v) 0#8) := by
    rw [rd, if_pos (by simp; omega), List.drop_zero, List.take_replicate, Nat.min_eq_left (by omega)]
  rw [r1, r2]
  simp only [Option.bind_some]
  rw [Bsl.Bytes.ctMemcmp_spec _ _ (by simp), Bsl.Bytes.mask]
  have hpadv : (8 - v % 8) % 8 = p.length - v := by omega
  by_cases hz : p.drop v = List.replicate (p.length - v) 0#8
  · left
    have htl : (p.take v).length = v := by rw [List.length_take]; omega
    rw [if_pos hz, if_neg (by decide)]
    refine ⟨p.take v, ?_, ?_, ?_, by rw [htl]⟩
    · intro e; rw [e] at htl; simp at htl; omega
    · rw [Spec.padded, htl, hpadv, ← hz, List.take_append_drop]
    · rw [htl, hbe, ← h, ← hd, List.take_append_drop]
  · right
    rw [if_neg hz, if_pos rfl]
    refine ⟨fun q h1 h2 e => hz ?_, rfl⟩
    have := hval q (hqb q h1 h2).2 e
    rw [← h2, Spec.padded, this, List.drop_left' this, List.length_append, List.length_replicate, this]
    congr 1; omega

theorem decryptPadCore_spec (C : Cipher) {c : Ctx} {inp out : List Byte}
    (hpad : c.flagPad = true) (h8 : inp.length % 8 = 0) (h16 : 16 ≤ inp.length) (hmax : inp.length ≤ maxInput)
    (hcap : inp.length - 8 ≤ out.length) :
    ∃ a p, a.length = 8 ∧ p.length = inp.length - 8 ∧
      (if p.length ≤ 8 then C.enc (a ++ p) else Spec.wrap C.enc a p) = inp ∧
      decryptPadCore C c inp out = some (.success, a, p ++ out.drop (inp.length - 8), inp.length - 8) := by
  by_cases h : inp.length = 16
  · have hb := C.decLen _ h
    refine ⟨(C.dec inp).take 8, (C.dec inp).drop 8, (half hb).1, by rw [(half hb).2, h], ?_, ?_⟩
    · rw [if_pos (by rw [(half hb).2]), List.take_append_drop, C.inv' _ h]
    · rw [decryptPadCore, if_pos h]
      dsimp only
      rw [wr_at (by rw [(half hb).2]; omega)]
      simp only [Option.bind_eq_bind, Option.bind_some, List.take_zero, List.nil_append]
      rw [(half hb).2, h]
  · obtain ⟨a, p, ha, hp, hw, hd⟩ := decRounds_wrap C h8 h16 hmax hcap
    refine ⟨a, p, ha, hp, by rw [if_neg (by omega), hw], ?_⟩
    rw [decryptPadCore, if_neg h, wrapDecrypt]
    simp only [Option.bind_eq_bind] at hd ⊢
    have assoc : ∀ f : BitVec 32 × List Byte × List Byte → Option (Ret × List Byte × List Byte),
        ((rd inp 0 8).bind fun a => (rd inp 8 (inp.length - 8)).bind fun d => (wr out 0 d).bind fun out =>
          (decRounds C (inp.length - 8) 6 (BitVec.ofNat 32 (6 * ((inp.length - 8) / 8))) a out).bind f) =
        f (0#32, a, p ++ out.drop (inp.length - 8)) := by
      intro f
      have := congrArg (fun o => Option.bind o f) hd
      simpa only [Option.bind_assoc, Option.bind_some] using this
    rw [assoc]
    dsimp only
    rw [if_pos hpad]
    rfl

/-- C46.  With padding, unwrapping succeeds exactly when the input is the padded key wrap, under the same
IV, of some nonempty plaintext; then that (unique) plaintext is returned, its padding zeros after it.
Otherwise it fails with the decryption error and the whole output area holds zeros. -/
theorem unwrap_pad_exact (C : Cipher) {c : Ctx} {inp out : List Byte} {outLen : Nat} (hc : Wf c)
    (hpad : c.flagPad = true) (h8 : inp.length % 8 = 0) (h16 : 16 ≤ inp.length)
    (hmax : inp.length ≤ 2 ^ 32 - 24) (hout : inp.length - 8 ≤ outLen) (hcap : outLen ≤ out.length) :
    (∃ p, p ≠ [] ∧ Spec.wrapPad C.enc (c.iv.take 4) p = inp ∧ decrypt C c inp out outLen =
      some (.success, Spec.padded p ++ out.drop (inp.length - 8), p.length)) ∨
    ((∀ p, p ≠ [] → Spec.wrapPad C.enc (c.iv.take 4) p ≠ inp) ∧ decrypt C c inp out outLen =
      some (.decError, List.replicate outLen 0#8 ++ out.drop outLen, outLen)) := by
  obtain ⟨a, p, ha, hp, hw, hd⟩ := decryptPadCore_spec C (out := out) hpad h8 h16
    (by unfold maxInput; omega) (by omega)
  have hdec : decrypt C c inp out outLen = decryptPad C c inp out outLen := by
    rw [decrypt, if_neg (by unfold maxInput; omega), if_neg (by omega), if_neg (by simp [hpad])]
  rw [hdec, decryptPad, hd]
  simp only [Option.bind_eq_bind, Option.bind_some]
  rw [if_neg (by simp), ← hp, show inp.length = p.length + 8 by omega]
  rcases resultLen_spec (p := p) (post := out.drop p.length) hc ha (by omega) (by omega) (by omega) with
    ⟨q, h1, h2, h3, h4⟩ | ⟨h1, h4⟩
  · left
    rw [h4]
    refine ⟨q, h1, ?_, by simp only [Option.bind_some]; rw [h2]⟩
    rw [Spec.wrapPad, ← h3, h2]
    have := padded_length q
    rw [h2] at this
    have e : (q.length ≤ 8) = (p.length ≤ 8) := by
      have := List.length_pos_iff.mpr h1
      apply propext; constructor <;> intro <;> omega
    simp only [e]
    exact hw
  · right
    rw [h4]
    simp only [Option.bind_some]
    refine ⟨fun q hq e => ?_, ?_⟩
    · have hl := wrapPad_length C (iv := c.iv) hc hq
      rw [e] at hl
      have hql : (Spec.padded q).length = p.length := by omega
      have haq : (c.iv.take 4 ++ beBytes 4 q.length).length = 8 := by
        rw [List.length_append, beBytes_length, List.length_take, hc]; rfl
      have hpl := padded_length q
      have hqpos := List.length_pos_iff.mpr hq
      rw [Spec.wrapPad] at e
      by_cases h : q.length ≤ 8
      · rw [if_pos h] at e
        rw [if_pos (by omega)] at hw
        have l1 : (a ++ p).length = 16 := by rw [List.length_append, ha]; omega
        have l2 : (c.iv.take 4 ++ beBytes 4 q.length ++ Spec.padded q).length = 16 := by
          rw [List.length_append, haq]; omega
        have e2 : a ++ p = c.iv.take 4 ++ beBytes 4 q.length ++ Spec.padded q := by
          rw [← C.inv _ l1, hw, ← e, C.inv _ l2]
        obtain ⟨e3, e4⟩ := List.append_inj e2 (by rw [ha, haq])
        exact h1 q hq e4.symm e3
      · rw [if_neg h] at e
        rw [if_neg (by omega)] at hw
        obtain ⟨e3, e4⟩ := wrap_inj C (n := p.length / 8) ha haq (by omega) (by omega) (hw.trans e.symm)
        exact h1 q hq e4.symm e3
    · rw [zeros_at (by simp; omega)]
      simp only [Option.bind_some]
      rw [List.drop_append, List.drop_of_length_le (by omega), List.nil_append, List.drop_drop,
        Nat.add_sub_cancel' (by omega)]

theorem wrapPad_inj (C : Cipher) {iv p q : List Byte} (hi : iv.length = 8) (hp : p ≠ []) (hq : q ≠ [])
    (hmax : p.length < 2 ^ 32 - 8) (h : Spec.wrapPad C.enc (iv.take 4) p = Spec.wrapPad C.enc (iv.take 4) q) :
    p = q := by
  have hl := wrapPad_length C hi hp
  rw [h, wrapPad_length C hi hq] at hl
  have h1 := padded_length p
  have h2 := padded_length q
  have hpp := List.length_pos_iff.mpr hp
  have hqp := List.length_pos_iff.mpr hq
  have lp : (iv.take 4 ++ beBytes 4 p.length).length = 8 := by
    rw [List.length_append, beBytes_length, List.length_take, hi]; rfl
  have lq : (iv.take 4 ++ beBytes 4 q.length).length = 8 := by
    rw [List.length_append, beBytes_length, List.length_take, hi]; rfl
  have key : iv.take 4 ++ beBytes 4 p.length = iv.take 4 ++ beBytes 4 q.length ∧ Spec.padded p = Spec.padded q := by
    rw [Spec.wrapPad, Spec.wrapPad] at h
    by_cases h8 : p.length ≤ 8
    · rw [if_pos h8, if_pos (by omega)] at h
      have l1 : (iv.take 4 ++ beBytes 4 p.length ++ Spec.padded p).length = 16 := by
        rw [List.length_append, lp]; omega
      have l2 : (iv.take 4 ++ beBytes 4 q.length ++ Spec.padded q).length = 16 := by
        rw [List.length_append, lq]; omega
      refine List.append_inj ?_ (by rw [lp, lq])
      rw [← C.inv _ l1, h, C.inv _ l2]
    · rw [if_neg h8, if_neg (by omega)] at h
      exact wrap_inj C (n := (p.length + 7) / 8) lp lq (by omega) (by omega) h
  have e := List.append_cancel_left key.1
  exact padded_inj (beBytes_inj (by omega) (by omega) e) key.2

/-- C46.  Unwrapping what padded wrapping produced gives back the plaintext and its length. -/
theorem unwrap_wrap_pad (C : Cipher) {c : Ctx} {p w out out' : List Byte} {outLen outLen' n : Nat} (hc : Wf c)
    (hpad : c.flagPad = true) (h1 : 1 ≤ p.length) (hcap : outLen ≤ out.length) (hcap' : outLen' ≤ out'.length)
    (hmax : p.length ≤ 2 ^ 32 - 32) (hl : (Spec.padded p).length ≤ outLen')
    (h : encrypt C c p out outLen = some (.success, w, n)) :
    ∃ rest, decrypt C c (w.take n) out' outLen' = some (.success, p ++ rest, p.length) := by
  have hpne : p ≠ [] := List.length_pos_iff.mp h1
  have hpl := padded_length p
  by_cases hb : outLen < (Spec.padded p).length + 8
  · exfalso
    have hpl : ∀ k, (if p.length % 8 ≠ 0 then 8 - p.length % 8 else 0) = k → k = (8 - p.length % 8) % 8 := by
      intro k h; split at h <;> omega
    rw [encrypt, if_neg (by simp [hpad]), encryptPad, if_neg (by unfold maxInput; omega)] at h
    dsimp only at h
    rw [hpl _ rfl, if_pos (by omega)] at h
    simp at h
  rw [wrap_rfc5649 C hc hpad h1 (by omega) (by omega) hcap] at h
  simp only [Option.some.injEq, Prod.mk.injEq, true_and] at h
  obtain ⟨rfl, rfl⟩ := h
  have hwl := wrapPad_length C hc hpne
  rw [List.take_left' hwl]
  rcases unwrap_pad_exact C (outLen := outLen') (out := out') (inp := Spec.wrapPad C.enc (c.iv.take 4) p) hc hpad
    (by omega) (by omega) (by omega) (by omega) hcap' with ⟨q, hq, e, hd⟩ | ⟨hn, _⟩
  · have := wrapPad_inj C hc hpne hq (by omega) e.symm
    subst this
    rw [hd, Spec.padded, List.append_assoc]
    exact ⟨_, rfl⟩
  · exact absurd rfl (hn p hpne)

example : ∃ w rest, encrypt exCipher (newCtx true) [1#8, 2#8, 3#8] (List.replicate 16 1#8) 16 =
    some (.success, w, 16) ∧ decrypt exCipher (newCtx true) (w.take 16) (List.replicate 8 5#8) 8 =
    some (.success, [1#8, 2#8, 3#8] ++ rest, 3) := by
  have h := wrap_rfc5649 exCipher (c := newCtx true) (p := [1#8, 2#8, 3#8])
    (out := List.replicate 16 1#8) (outLen := 16) rfl rfl (by decide) (by decide) (by decide) (by decide)
  obtain ⟨rest, hr⟩ := unwrap_wrap_pad exCipher (c := newCtx true) (out' := List.replicate 8 5#8) (outLen' := 8) rfl rfl (by decide)
    (by decide) (by decide) (by decide) (by decide) h
  exact ⟨_, rest, h, hr⟩

/-- C46.  An input that is not a whole number of 8-byte blocks, is shorter than two, or is too long is
refused without touching the output. -/
theorem unwrap_rejects_length (C : Cipher) {c : Ctx} {inp out : List Byte} {outLen : Nat}
    (h : inp.length % 8 ≠ 0 ∨ inp.length < 16 ∨ 2 ^ 32 - 24 < inp.length) :
    decrypt C c inp out outLen = some (.inputLen, out, outLen) := by
  rw [decrypt, if_pos (by unfold maxInput; omega)]

example : decrypt exCipher (newCtx true) [1#8] [2#8] 1 = some (.inputLen, [2#8], 1) :=
  unwrap_rejects_length exCipher (by decide)

/-- C46.  A buffer that cannot hold the result is refused without touching it. -/
theorem small_buffer (C : Cipher) {c : Ctx} {p inp out : List Byte} {outLen : Nat}
    (h1 : c.flagPad = false → outLen < p.length + 8)
    (h2 : c.flagPad = true → 1 ≤ p.length ∧ p.length ≤ 2 ^ 32 - 24 ∧ outLen < (Spec.padded p).length + 8)
    (h3 : inp.length % 8 = 0 ∧ 16 ≤ inp.length ∧ inp.length ≤ 2 ^ 32 - 24 ∧ outLen < inp.length - 8) :
    encrypt C c p out outLen = some (.buffLen, out, outLen) ∧
    decrypt C c inp out outLen = some (.buffLen, out, outLen) := by
  constructor
  · rw [encrypt]
    by_cases hp : c.flagPad = false
    · rw [if_pos hp, if_pos (h1 hp)]
    · obtain ⟨g1, g2, g3⟩ := h2 (by simpa using hp)
      rw [if_neg hp, encryptPad, if_neg (by unfold maxInput; omega)]
      dsimp only
      rw [padded_length] at g3
      rw [if_pos]
      split <;> omega
  · rw [decrypt, if_neg (by unfold maxInput; omega), if_pos h3.2.2.2]

example : encrypt exCipher (newCtx true) [1#8] (List.replicate 15 3#8) 15 =
      some (.buffLen, List.replicate 15 3#8, 15) ∧
    decrypt exCipher (newCtx true) (List.replicate 24 0#8) (List.replicate 15 3#8) 15 =
      some (.buffLen, List.replicate 15 3#8, 15) :=
  small_buffer exCipher (by simp [newCtx, resetIv]) (fun _ => by decide) (by decide)

/-- C46.  Whatever the input, neither direction accesses memory outside the buffers it was given. -/
theorem no_overrun (C : Cipher) {c : Ctx} {p out : List Byte} {outLen : Nat} (hc : Wf c)
    (hcap : outLen ≤ out.length) :
    encrypt C c p out outLen ≠ none ∧ decrypt C c p out outLen ≠ none := by
  constructor
  · cases hp : c.flagPad with
    | false =>
      by_cases hb : outLen < p.length + 8
      · rw [encrypt, if_pos hp, if_pos hb]; simp
      by_cases hbad : p.length < 16 ∨ 2 ^ 32 - 24 < p.length ∨ p.length % 8 ≠ 0
      · rw [wrap_rejects C hp hbad (by omega) hcap]; simp
      · rw [wrap_rfc3394 C hc hp (by omega) (by omega) (by omega) (by omega) hcap]; simp
    | true =>
      by_cases h0 : p.length = 0 ∨ p.length > maxInput
      · rw [encrypt, if_neg (by simp [hp]), encryptPad, if_pos h0]; simp
      by_cases hb : outLen < (Spec.padded p).length + 8
      · rw [encrypt, if_neg (by simp [hp]), encryptPad, if_neg h0]
        dsimp only
        rw [padded_length] at hb
        rw [if_pos]
        · simp
        · split <;> omega
      by_cases hm : p.length ≤ 2 ^ 32 - 24
      · rw [wrap_rfc5649 C hc hp (by omega) hm (by omega) hcap]; simp
      · rw [padded_length] at hb
        rw [encrypt, if_neg (by simp [hp]), encryptPad, if_neg h0]
        dsimp only
        have hpl : ∀ k, (if p.length % 8 ≠ 0 then 8 - p.length % 8 else 0) = k → k = (8 - p.length % 8) % 8 := by
          intro k h; split at h <;> omega
        rw [hpl _ rfl, if_neg (by omega), wr_at (by omega)]
        simp only [Option.bind_eq_bind, Option.bind_some]
        rw [wr_at (by simp; omega)]
        simp only [Option.bind_some]
        rw [encryptPadCore, if_neg (by omega), wrapEncrypt, if_pos (by unfold maxInput at *; omega)]
        simp only [Option.bind_some]
        rw [if_pos (by simp), zeros_at (by simp; omega)]
        simp
  · by_cases h0 : p.length < 16 ∨ p.length > maxInput ∨ p.length % 8 ≠ 0
    · rw [decrypt, if_pos h0]; simp
    by_cases hb : outLen < p.length - 8
    · rw [decrypt, if_neg h0, if_pos hb]; simp
    have hm : p.length ≤ 2 ^ 32 - 24 := by unfold maxInput at h0; omega
    cases hp : c.flagPad with
    | false =>
      rcases unwrap_exact C (out := out) (inp := p) hc hp (by omega) (by omega) hm (by omega) hcap with
        ⟨_, _, _, h⟩ | ⟨_, h⟩ <;> rw [h] <;> simp
    | true =>
      rcases unwrap_pad_exact C (out := out) (inp := p) hc hp (by omega) (by omega) hm (by omega) hcap with
        ⟨_, _, _, h⟩ | ⟨_, h⟩ <;> rw [h] <;> simp

example : Wf (newCtx true) ∧ (24 : Nat) ≤ (List.replicate 30 0#8 : List Byte).length := ⟨rfl, by decide⟩

/-! ### the IV -/

/-- C46.  A context starts with the RFC's initial value, keeps an 8-byte field whatever is set, and an
accepted IV is the one used and reported; a refused one changes nothing. -/
theorem iv_rules (pad : Bool) (c : Ctx) (hc : Wf c) (v : Option (List Byte)) :
    (newCtx pad).iv.take (if pad then 4 else 8) =
      (if pad then [0xa6#8, 0x59#8, 0x59#8, 0xa6#8] else List.replicate 8 0xa6#8) ∧
    Wf (newCtx pad) ∧ (newCtx pad).flagPad = pad ∧
    Wf (setIv c v).2 ∧ (setIv c v).2.flagPad = c.flagPad ∧
    ((setIv c v).1 = .success → getIv (setIv c v).2 8 = (.success,
      v.getD (if c.flagPad then [0xa6#8, 0x59#8, 0x59#8, 0xa6#8] else List.replicate 8 0xa6#8))) ∧
    ((setIv c v).1 ≠ .success → (setIv c v).2 = c) := by
  have hc' : c.iv.length = 8 := hc
  refine ⟨by cases pad <;> rfl, by cases pad <;> rfl, by cases pad <;> rfl, ?_⟩
  rcases c with ⟨fp, iv⟩
  cases v with
  | none =>
    cases fp with
    | true => simp [setIv, resetIv, Wf, getIv] at hc' ⊢; omega
    | false => simp [setIv, resetIv, Wf, getIv]
  | some v =>
    cases fp with
    | true =>
      by_cases h : v.length = 4
      · simp [setIv, Wf, getIv, h, List.take_left' h] at hc' ⊢; omega
      · simp [setIv, Wf, h]; exact hc
    | false =>
      by_cases h : v.length = 8
      · simp [setIv, Wf, getIv, h, List.take_left' h] at hc' ⊢; omega
      · simp [setIv, Wf, h]; exact hc

example : (setIv (newCtx true) (some [1#8, 2#8, 3#8, 4#8])).1 = .success ∧
    (setIv (newCtx true) (some [1#8])).1 = .ivLen := by decide

end Verif.Crypto.Wrap
