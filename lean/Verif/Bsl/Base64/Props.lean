import Verif.Bsl.Base64.Proof
/-!
# C07, C08, C09 — base64

Specification: `Verif/Bsl/Base64/Spec.lean` (RFC 4648 on bit strings).
-/
namespace Verif.Bsl.Base64
open Verif.Common

/-- The text without blanks (space, LF, CR). -/
def Spec.strip (s : List Byte) : List Byte := s.filter (fun c => !Spec.isBlank c)

/-- The streamed text: lines of 48 encoded bytes, each ended by LF unless `noNewline`. -/
def Spec.streamText (noNewline : Bool) (m : List Byte) : List Byte :=
  (Spec.lines m).flatMap (fun l => Spec.encode l ++ if noNewline then [] else [10#8])

/-! ## C07: one-shot encode/decode -/

/-- C07. Complete behaviour of one-shot encoding: refused exactly for an empty input or an output buffer
that cannot hold the text and its NUL; otherwise the RFC 4648 text, and no table is read out of bounds. -/
theorem encode_spec (src : List Byte) (dstLen : Nat) (hlen : dstLen ≤ uint32Max) :
    encode src dstLen =
      if src = [] then .error .nullInput
      else if dstLen < (Spec.encode src).length + 1 then .error .bufNotEnough
      else .ok (Spec.encode src) := by
  have hl := encodeProc_length src (Spec.encode src) (encodeProc_eq_spec src)
  unfold encode
  by_cases h : src = []
  · simp [h]
  · have h0 : src.length ≠ 0 := fun hh => h (List.length_eq_zero_iff.mp hh)
    simp only [if_neg h0, if_neg h, hl, encodeProc_eq_spec]
    by_cases h2 : dstLen < (src.length + 2) / 3 * 4 + 1
    · rw [if_pos (Or.inr h2), if_pos h2]
    · rw [if_neg (by omega), if_neg h2]

example : encode [77#8, 97#8] 5 = .ok [84#8, 87#8, 69#8, 61#8] := by rfl
example : encode [77#8, 97#8] 4 = .error .bufNotEnough := by rfl

/-- C07/C08. One-shot decoding accepts exactly the well-formed texts, whatever the input, and yields the
denoted bytes. -/
theorem decode_iff (s m : List Byte) (dstLen : Nat) (hlen : dstLen ≤ uint32Max)
    (hbuf : (s.length + 3) / 4 * 3 ≤ dstLen) :
    decode s dstLen = .ok m ↔ Spec.strip s ≠ [] ∧ Spec.Denotes (Spec.strip s) m := by
  unfold decode
  simp only
  rw [if_neg (by omega)]
  rw [show Spec.strip s = removeBlank s from (removeBlank_eq s).symm]
  constructor
  · intro h
    split at h
    · cases h
    · rename_i p heq
      obtain ⟨hne, h4, pad, hp, he, hd⟩ := (normalization_iff s p).mp heq
      cases h
      obtain ⟨h64, hmap⟩ := data_eq_map p hd
      refine ⟨hne, p.map (fun c => (dec c).toNat), pad, h64, hp, by rw [← hmap]; exact he, h4, ?_⟩
      conv => lhs; rw [hmap]
      rw [decodeBuffer_eq_spec _ h64]
  · rintro ⟨hne, ds, pad, hd, hp, he, h4, rfl⟩
    have := (normalization_iff s (ds.map Spec.char)).mpr ⟨hne, h4, pad, hp, he, by
      intro c hc
      obtain ⟨d, hd', rfl⟩ := List.mem_map.mp hc
      exact isData_char (hd d hd')⟩
    rw [this]
    simp only
    rw [decodeBuffer_eq_spec _ hd]

example : decode [84#8, 10#8, 87#8, 69#8, 61#8] 6 = .ok [77#8, 97#8] := by rfl
example : decode [84#8, 87#8, 61#8, 69#8] 6 = .error .invalidCharacter := by rfl

/-- C08. A decode never reports more bytes than the output buffer holds, for every input and size. -/
theorem decode_bounds (s m : List Byte) (dstLen : Nat) (h : decode s dstLen = .ok m) :
    m.length ≤ dstLen := by
  unfold decode at h
  simp only at h
  split at h
  · cases h
  · rename_i hb
    split at h
    · cases h
    · rename_i p heq
      cases h
      obtain ⟨_, h4, pad, _, he, _⟩ := (normalization_iff s p).mp heq
      have hle : (removeBlank s).length ≤ s.length := by
        unfold removeBlank; exact List.length_filter_le _ _
      have hpl := congrArg List.length he
      simp only [List.length_append, List.length_replicate] at hpl
      rw [decodeBuffer_length]
      omega

example : ∃ m, decode [84#8, 87#8, 69#8, 61#8] 3 = .ok m := ⟨_, rfl⟩

theorem encode_denotes (m : List Byte) : Spec.Denotes (Spec.encode m) m := by
  have h64 : ∀ m : List Byte, ∀ d ∈ Spec.digits (m.flatMap Spec.bits8), d < 64 := digits_lt
  refine ⟨Spec.digits (m.flatMap Spec.bits8), (3 - m.length % 3) % 3, h64 m, by omega, rfl, ?_, ?_⟩
  · rw [encodeProc_length m _ (encodeProc_eq_spec m)]; omega
  · exact (bytes_digits m).symm

theorem strip_encode (m : List Byte) : Spec.strip (Spec.encode m) = Spec.encode m := by
  apply List.filter_eq_self.mpr
  intro c hc
  unfold Spec.encode at hc
  rcases List.mem_append.mp hc with h | h
  · obtain ⟨d, hd, rfl⟩ := List.mem_map.mp h
    have hlt := digits_lt m d hd
    have : ∀ d : Fin 64, (!Spec.isBlank (Spec.char d.val)) = true := by decide +kernel
    exact this ⟨d, hlt⟩
  · rw [(List.mem_replicate.mp h).2]; decide

/-- C07. Decoding the text produced by encoding gives the input back, for every byte string. -/
theorem roundtrip (m : List Byte) (e t : Nat) (txt : List Byte) (ht : t ≤ uint32Max)
    (henc : encode m e = .ok txt) (hbuf : txt.length / 4 * 3 ≤ t) : decode txt t = .ok m := by
  have htxt : txt = Spec.encode m ∧ m ≠ [] := by
    unfold encode at henc
    by_cases h : m = []
    · simp [h] at henc
    · have h0 : m.length ≠ 0 := fun hh => h (List.length_eq_zero_iff.mp hh)
      simp only [if_neg h0] at henc
      split at henc
      · cases henc
      · rw [encodeProc_eq_spec] at henc; cases henc; exact ⟨rfl, h⟩
  obtain ⟨rfl, hne⟩ := htxt
  have hl := encodeProc_length m _ (encodeProc_eq_spec m)
  have hm : m.length ≠ 0 := fun hh => hne (List.length_eq_zero_iff.mp hh)
  rw [decode_iff _ _ _ ht (by omega), strip_encode]
  refine ⟨?_, encode_denotes m⟩
  intro hc
  rw [hc] at hl
  simp at hl
  omega

example : ∃ txt, encode [1#8, 2#8, 3#8, 4#8] 100 = .ok txt ∧ txt.length / 4 * 3 ≤ 6 := ⟨_, rfl, by decide⟩

/-! ## C09: streaming -/

/-- C09. Streaming encoding does not depend on how the input is cut into chunks: with enough output space
the concatenated output is the line-broken encoding of the concatenated input. -/
theorem encodeStream_spec (nn : Bool) (chunks : List (List Byte)) (dstLen : Nat)
    (hmin : 66 ≤ dstLen) (hmax : dstLen ≤ uint32Max)
    (hc : ∀ c ∈ chunks, c ≠ [] ∧ (c.length + 47) / 48 * 65 + 1 ≤ dstLen) :
    encodeStream nn chunks dstLen = .ok (Spec.streamText nn chunks.flatten) := by
  unfold encodeStream
  rw [encodeStream_go dstLen hmin hmax chunks _ (by simp [ctxInit]) hc]
  rfl

example : encodeStream false [[77#8], [97#8]] 100 = .ok [84#8, 87#8, 69#8, 61#8, 10#8] := by rfl

/-- C09. Without newlines the streamed text is the one-shot text. -/
theorem streamText_noNewline (m : List Byte) : Spec.streamText true m = Spec.encode m := by
  unfold Spec.streamText
  simp only [if_true, List.append_nil]
  exact flatMap_lines m

/-- C09. Streaming decoding accepts exactly the (possibly empty) well-formed texts, independently of the
cutting into chunks, and yields the denoted bytes. -/
theorem decodeStream_iff (chunks : List (List Byte)) (dstLen : Nat) (m : List Byte)
    (hmin : 48 ≤ dstLen) (hmax : dstLen ≤ uint32Max)
    (hc : ∀ c ∈ chunks, c ≠ [] ∧ (c.length + 63) / 64 * 48 ≤ dstLen) :
    decodeStream chunks dstLen = .ok m ↔ Spec.Denotes (Spec.strip chunks.flatten) m := by
  unfold decodeStream
  rw [decodeStream_go dstLen hmax chunks ctxInit (by simp [ctxInit]) (by simp [ctxInit]) hc]
  rw [show Spec.strip chunks.flatten = removeBlank chunks.flatten from (removeBlank_eq _).symm]
  exact decodeWhole_iff chunks.flatten dstLen m hmin

example : decodeStream [[84#8, 10#8], [87#8, 69#8], [61#8]] 48 = .ok [77#8, 97#8] := by rfl

/-- C09. Streaming decode inverts streaming encode for every message and both chunkings. -/
theorem stream_roundtrip (nn : Bool) (inChunks outChunks : List (List Byte)) (e d : Nat) (txt : List Byte)
    (he : 66 ≤ e) (hemax : e ≤ uint32Max)
    (hin : ∀ c ∈ inChunks, c ≠ [] ∧ (c.length + 47) / 48 * 65 + 1 ≤ e)
    (henc : encodeStream nn inChunks e = .ok txt)
    (hcut : outChunks.flatten = txt)
    (hd : 48 ≤ d) (hdmax : d ≤ uint32Max)
    (hout : ∀ c ∈ outChunks, c ≠ [] ∧ (c.length + 63) / 64 * 48 ≤ d) :
    decodeStream outChunks d = .ok inChunks.flatten := by
  rw [encodeStream_spec nn inChunks e he hemax hin] at henc
  cases henc
  rw [decodeStream_iff outChunks d _ hd hdmax hout, hcut]
  have : Spec.strip (Spec.streamText nn inChunks.flatten) = Spec.encode inChunks.flatten := by
    rw [← streamText_noNewline]
    unfold Spec.streamText Spec.strip
    rw [List.filter_flatMap]
    congr 1
    funext l
    have := strip_encode l
    unfold Spec.strip at this
    rw [List.filter_append, this]
    cases nn <;> simp [Spec.isBlank]
  rw [this]
  exact encode_denotes _

example : ∃ txt, encodeStream false [[77#8], [97#8]] 66 = .ok txt ∧ [txt.take 2, txt.drop 2].flatten = txt :=
  ⟨_, rfl, rfl⟩

theorem encode_length (m : List Byte) : (Spec.encode m).length = (m.length + 2) / 3 * 4 :=
  encodeProc_length m _ (encodeProc_eq_spec m)

theorem render_length (nn : Bool) (ls : List (List Byte)) (h : ∀ l ∈ ls, l.length = 48) :
    (render nn ls).length ≤ ls.length * 65 := by
  induction ls with
  | nil => simp [render]
  | cons l ls ih =>
    have h1 := ih (fun x hx => h x (by simp [hx]))
    have h2 : (renderLine nn l).length ≤ 65 := by
      unfold renderLine
      rw [List.length_append, encode_length, h l (by simp)]
      split <;> simp
    have : (render nn (l :: ls)).length = (renderLine nn l).length + (render nn ls).length := by
      simp [render]
    rw [this, List.length_cons]; omega

/-- C09. A streaming encode update writes at most its output buffer (terminating NUL included) and keeps
fewer than 48 bytes pending. -/
theorem encodeUpdate_bounds (ctx ctx' : Ctx) (src out : List Byte) (dstLen : Nat)
    (hb : ctx.buf.length < 48) (hmax : dstLen ≤ uint32Max)
    (h : encodeUpdate ctx src dstLen = .ok (ctx', out)) :
    out.length + 1 ≤ dstLen ∧ ctx'.buf.length < 48 := by
  by_cases hne : src = []
  · subst hne; unfold encodeUpdate at h; simp at h
  by_cases hd : (src.length + ctx.buf.length) / 48 * 65 + 1 ≤ dstLen
  · obtain ⟨full, tail, he, hlt, hall, heq, -⟩ := encodeUpdate_spec ctx src dstLen hb hne hd hmax
    rw [he] at h
    cases h
    refine ⟨?_, hlt⟩
    have h1 := render_length ctx.noNewline full hall
    have h2 : full.flatten.length = 48 * full.length := by
      clear h1 heq he
      induction full with
      | nil => simp
      | cons l ls ih =>
        have := ih (fun x hx => hall x (by simp [hx]))
        rw [List.flatten_cons, List.length_append, this, hall l (by simp), List.length_cons]; omega
    have h3 := congrArg List.length heq
    simp only [List.length_append, h2] at h3
    omega
  · unfold encodeUpdate at h
    have h0 : src.length ≠ 0 := fun hh => hne (List.length_eq_zero_iff.mp hh)
    simp only [if_neg h0] at h
    rw [if_pos (Or.inr (by omega))] at h
    cases h

example : encodeUpdate ctxInit [1#8, 2#8] 1 = .ok ({ ctxInit with buf := [1#8, 2#8] }, []) := rfl

/-- C09. The final call of a streaming encode writes at most its output buffer, NUL included. -/
theorem encodeFinal_bounds (ctx ctx' : Ctx) (out : List Byte) (dstLen : Nat) (hne : ctx.buf ≠ [])
    (h : encodeFinal ctx dstLen = .ok (ctx', out)) : out.length + 1 ≤ dstLen := by
  unfold encodeFinal at h
  have h0 : ctx.buf.length ≠ 0 := fun hh => hne (List.length_eq_zero_iff.mp hh)
  simp only [if_neg h0, encodeProc_eq_spec, bind, Except.bind, pure, Except.pure] at h
  have hl := encode_length ctx.buf
  cases hnn : ctx.noNewline <;> rw [hnn] at h <;> simp only [Bool.false_eq_true, if_false, if_true] at h
  · by_cases hd : dstLen < (ctx.buf.length + 2) / 3 * 4 + 1 + 1
    · rw [if_pos hd] at h; cases h
    · rw [if_neg hd] at h; cases h; simp; omega
  · by_cases hd : dstLen < (ctx.buf.length + 2) / 3 * 4 + 1 + 0
    · rw [if_pos hd] at h; cases h
    · rw [if_neg hd] at h; cases h; omega

example : ∃ r, encodeFinal { ctxInit with buf := [1#8] } 6 = .ok r := ⟨_, rfl⟩

/-- C08/C09. The final call of a streaming decode writes at most its output buffer. -/
theorem decodeFinal_bounds (ctx ctx' : Ctx) (out : List Byte) (dstLen : Nat)
    (h : decodeFinal ctx dstLen = .ok (ctx', out)) : out.length ≤ dstLen := by
  unfold decodeFinal at h
  simp only at h
  split at h
  · cases h
  · split at h
    · cases h; simp
    · split at h
      · cases h
      · cases h; rw [decodeBuffer_length]; omega

example : ∃ r, decodeFinal { ctxInit with buf := [84#8, 87#8, 69#8], paddingCnt := 1 } 3 = .ok r := ⟨_, rfl⟩

/-- C09. Witness that the streaming decoder, unlike the one-shot one, accepts an empty text. -/
theorem decodeStream_accepts_empty : decodeStream [[10#8]] 48 = .ok [] ∧
    decode [10#8] 48 = .error .invalidEncode := ⟨rfl, rfl⟩

/-- C08/C09. An update never writes more than the output buffer holds. -/
theorem update_bounds (ctx ctx' : Ctx) (src out : List Byte) (dstLen : Nat)
    (hb : ctx.buf.length < 64) (hp : ctx.paddingCnt ≤ 2)
    (h : decodeUpdate ctx src dstLen = .ok (ctx', out)) :
    out.length ≤ dstLen ∧ ctx'.buf.length < 64 ∧ ctx'.paddingCnt ≤ 2 := by
  unfold decodeUpdate at h
  split at h
  · cases h
  · simp only at h
    split at h
    · cases h
    · split at h
      · cases h
      · rename_i hb1 b p o heq
        cases h
        obtain ⟨D, _, hp', he, blocks, hm, hb', hbuf, rfl⟩ := (decodeLoop_iff _ _ _ hb hp _ _ _).mp heq
        refine ⟨?_, hb', hp'⟩
        rw [decodeBuffer_length]
        have h1 := congrArg List.length he
        have h2 := congrArg List.length hbuf
        have hle : (removeBlank src).length ≤ src.length := by
          unfold removeBlank; exact List.length_filter_le _ _
        simp only [List.length_append, List.length_replicate] at h1 h2
        by_cases hp0 : ctx.paddingCnt = 0
        · omega
        · -- some padding seen: no digit can follow
          have hD : D = [] := by
            cases D with
            | nil => rfl
            | cons x xs =>
              exfalso
              obtain ⟨n, hn⟩ : ∃ n, ctx.paddingCnt = n + 1 := ⟨ctx.paddingCnt - 1, by omega⟩
              rw [hn] at he
              rename_i hDd
              simp [List.replicate_succ] at he
              exact not_data_61 (he.1 ▸ hDd x (by simp))
          subst hD
          simp at h2
          omega

example : ∃ r, decodeUpdate ctxInit [84#8, 87#8, 69#8, 61#8] 0 = .ok r ∧ ctxInit.buf.length < 64 := ⟨_, rfl, by decide⟩

end Verif.Bsl.Base64
