import Verif.Crypto.Modes.BlockProof
import Verif.Crypto.Modes.StreamProps

/-!
# C25 (CBC, ECB) and C26 (block padding)

A cipher context with an IV, a direction and a padding type is fed by any sequence of
`CRYPT_EAL_CipherUpdate` calls and one `CRYPT_EAL_CipherFinal` (`runAll`).
-/

namespace Verif.Crypto.Modes

open Verif.Common

/-! ## Specification -/

namespace Spec

/-- Block `i` of a byte string. -/
def blk (x : List Byte) (i : Nat) : List Byte := (x.drop (16 * i)).take 16

/-- The padding appended to a message of `n` bytes. -/
def padding : Pad → Nat → List Byte
  | .none, _ => []
  | .zeros, n => List.replicate (16 - n % 16) 0#8
  | .iso7816, n => 0x80#8 :: List.replicate (15 - n % 16) 0#8
  | .x923, n => List.replicate (15 - n % 16) 0#8 ++ [BitVec.ofNat 8 (16 - n % 16)]
  | .pkcs5, n => List.replicate (16 - n % 16) (BitVec.ofNat 8 (16 - n % 16))
  | .pkcs7, n => List.replicate (16 - n % 16) (BitVec.ofNat 8 (16 - n % 16))

/-- `ct` is the CBC / ECB encryption of the whole-block string `pt` (NIST SP 800-38A). -/
def IsEnc (K : Cipher) (m : BMode) (iv pt ct : List Byte) : Prop :=
  ct.length = pt.length ∧ ∀ i, 16 * i < pt.length →
    blk ct i = match m with
      | .ecb => K.enc (blk pt i)
      | .cbc => K.enc (xorB (blk pt i) (blk (iv ++ ct) i))

end Spec

/-- A context that has just been initialised. -/
def bfresh (enc : Bool) (p : Pad) (iv : List Byte) : BCtx := { enc := enc, pad := p, iv := iv, data := [] }

/-! ## Glue between the specification and the proofs -/

theorem padding_eq (p : Pad) (n : Nat) : Spec.padding p n = padTail p n := by
  cases p <;> simp only [Spec.padding, padTail] <;> congr 2 <;> omega

theorem blk_zero (a b : List Byte) (h : a.length = 16) : Spec.blk (a ++ b) 0 = a := by
  unfold Spec.blk
  rw [Nat.mul_zero, List.drop_zero, List.take_append_of_le_length (by omega), List.take_of_length_le (by omega)]

theorem blk_succ (a b : List Byte) (i : Nat) (h : a.length = 16) :
    Spec.blk (a ++ b) (i + 1) = Spec.blk b i := by
  unfold Spec.blk
  have : 16 * (i + 1) = a.length + 16 * i := by omega
  rw [this, List.drop_append, List.drop_of_length_le (by omega)]
  simp

theorem chain_isEnc (K : Cipher) (m : BMode) (pt : List Byte) : ∀ iv : List Byte, iv.length = 16 →
    pt.length % 16 = 0 → Spec.IsEnc K m iv pt (chain K m true iv pt).2 := by
  induction pt using block_induction with
  | short x h =>
    intro iv hiv hm
    have : x = [] := List.eq_nil_of_length_eq_zero (by omega)
    subst this
    exact ⟨rfl, fun i hi => by simp at hi⟩
  | step x h ih =>
    intro iv hiv hm
    have ht : (x.take 16).length = 16 := by rw [List.length_take]; omega
    have hs := chainStep_len K m true iv (x.take 16) hiv ht
    have hx : x = x.take 16 ++ x.drop 16 := (List.take_append_drop 16 x).symm
    obtain ⟨ih1, ih2⟩ := ih _ hs.1 (by rw [List.length_drop]; omega)
    rw [chain_block K m true iv x h]
    constructor
    · simp only [List.length_append, hs.2, ih1, List.length_drop]; omega
    · intro i hi
      cases i with
      | zero =>
        have hx0 : Spec.blk x 0 = x.take 16 := by
          conv => lhs; rw [hx]
          exact blk_zero _ _ ht
        rw [blk_zero _ _ hs.2, hx0]
        cases m
        · rfl
        · simp only [blk_zero iv _ hiv]; rfl
      | succ i =>
        have hx0 : Spec.blk x (i + 1) = Spec.blk (x.drop 16) i := by
          conv => lhs; rw [hx]
          exact blk_succ _ _ _ ht
        rw [blk_succ _ _ _ hs.2, hx0, ih2 i (by rw [List.length_drop]; omega)]
        cases m
        · rfl
        · simp only [blk_succ iv _ _ hiv]; rfl

/-- The encryption of a whole-block string is unique. -/
theorem isEnc_unique (K : Cipher) (m : BMode) (iv pt : List Byte) (hiv : iv.length = 16)
    (hm : pt.length % 16 = 0) (c c' : List Byte) (h : Spec.IsEnc K m iv pt c)
    (h' : Spec.IsEnc K m iv pt c') : c = c' := by
  have key : ∀ n, 16 * n ≤ pt.length → c.take (16 * n) = c'.take (16 * n) := by
    intro n
    induction n with
    | zero => intro; simp
    | succ n ih =>
      intro hn
      have ih := ih (by omega)
      have e1 : ∀ d : List Byte, d.take (16 * (n + 1)) = d.take (16 * n) ++ Spec.blk d n := by
        intro d; unfold Spec.blk
        rw [show 16 * (n + 1) = 16 * n + 16 by omega, List.take_add]
      rw [e1, e1, ih, h.2 n (by omega), h'.2 n (by omega)]
      congr 1
      cases m
      · rfl
      · simp only
        congr 2
        have e2 : ∀ d : List Byte, Spec.blk (iv ++ d) n = Spec.blk (iv ++ d.take (16 * n)) n := by
          intro d
          cases n with
          | zero => rw [blk_zero _ _ hiv, blk_zero _ _ hiv]
          | succ k =>
            rw [blk_succ _ _ _ hiv, blk_succ _ _ _ hiv]
            unfold Spec.blk
            rw [List.drop_take, List.take_take]
            congr 1
            omega
        rw [e2 c, e2 c', ih]
  have := key (pt.length / 16) (by omega)
  rw [List.take_of_length_le (by have := h.1; omega), List.take_of_length_le (by have := h'.1; omega)] at this
  exact this

/-- `Final` on an encryption context holding `d` bytes. -/
theorem final_enc (K : Cipher) (m : BMode) (p : Pad) (iv d : List Byte) (hp : p ≠ .none)
    (hd : d.length < 16) :
    (final K m ⟨true, p, iv, d⟩ 16).map (·.2)
      = some (.ok (chain K m true iv (d ++ padTail p d.length)).2) := by
  have hl : (d ++ padTail p d.length).length = 16 := by
    rw [List.length_append, padTail_length p _ hp]; omega
  unfold final
  rw [if_pos rfl, if_neg (by omega)]
  simp only [blockPadding_eq p d hp hd]
  rw [if_neg (by omega), blockCrypt_ok K m true iv _ (by omega) (by omega)]
  rfl

theorem final_enc_none (K : Cipher) (m : BMode) (iv d : List Byte) (hd : d.length < 16) :
    (final K m ⟨true, .none, iv, d⟩ 16).map (·.2)
      = if d = [] then some (.ok []) else some (.error .inputLen) := by
  cases d with
  | nil => rfl
  | cons x d =>
    simp only [List.length_cons] at hd
    have : ¬ (d.length + 1) % 16 = 0 := by omega
    simp [final, blockPadding, this]

theorem runAll_enc (K : Cipher) (m : BMode) (p : Pad) (iv : List Byte) (hiv : iv.length = 16)
    (hp : p ≠ .none) (chunks : List (List Byte)) :
    runAll K m (bfresh true p iv) chunks
      = some (.ok (chain K m true iv (chunks.flatten ++ padTail p chunks.flatten.length)).2) := by
  obtain ⟨Q, D, hQ, hsp, hc, -, hr⟩ := runAll_spec K m chunks (bfresh true p iv) hiv
    (by simp [cacheOk, bfresh]) (by simp [bfresh])
  simp only [bfresh, List.nil_append] at hsp hc hr ⊢
  have hD : D.length < 16 := by simpa [cacheOk] using hc
  have hf := final_enc K m p (chain K m true iv Q).1 D hp hD
  rw [hr]
  cases hfe : final K m ⟨true, p, (chain K m true iv Q).1, D⟩ 16 with
  | none => rw [hfe] at hf; cases hf
  | some r =>
    rw [hfe] at hf
    simp only [Option.map_some, Option.some.injEq] at hf ⊢
    rw [hf, prepend, hsp, List.append_assoc, chain_append K m true Q iv _ hQ]
    have : padTail p (Q ++ D).length = padTail p D.length :=
      padTail_mod _ _ _ (by rw [List.length_append]; omega)
    rw [this]

/-! ## C25 / C26: encryption -/

/-- **C25/C26 (CBC, ECB encryption).**  However the message is cut into `Update` calls, the output of
`Update*; Final` is the encryption of the message followed by its padding; never an error, never out
of bounds. -/
theorem block_encrypt_any_chunking (K : Cipher) (m : BMode) (p : Pad) (iv : List Byte)
    (hiv : iv.length = 16) (hp : p ≠ .none) (chunks : List (List Byte)) :
    ∃ ct, runAll K m (bfresh true p iv) chunks = some (.ok ct) ∧
      Spec.IsEnc K m iv (chunks.flatten ++ Spec.padding p chunks.flatten.length) ct := by
  refine ⟨_, runAll_enc K m p iv hiv hp chunks, ?_⟩
  rw [padding_eq]
  refine chain_isEnc K m _ iv hiv ?_
  rw [List.length_append, padTail_length p _ hp]
  omega

theorem block_encrypt_nopad_aux (K : Cipher) (m : BMode) (e : Bool) (iv : List Byte)
    (hiv : iv.length = 16) (chunks : List (List Byte)) :
    runAll K m (bfresh e .none iv) chunks =
      if chunks.flatten.length % 16 = 0 then some (.ok (chain K m e iv chunks.flatten).2)
      else some (.error .inputLen) := by
  obtain ⟨Q, D, hQ, hsp, hc, -, hr⟩ := runAll_spec K m chunks (bfresh e .none iv) hiv
    (by simp [cacheOk, bfresh]) (by simp [bfresh])
  simp only [bfresh, List.nil_append] at hsp hc hr ⊢
  have hD : D.length < 16 := by simpa [cacheOk] using hc
  rw [hr, hsp, List.length_append]
  by_cases h0 : D = []
  · subst h0
    rw [if_pos (by simpa using hQ)]
    simp only [List.append_nil]
    cases e <;> simp [final, blockPadding, prepend]
  · have : 0 < D.length := List.length_pos_iff.mpr h0
    rw [if_neg (by omega)]
    cases e
    · simp only [final, Bool.false_eq_true, if_false]
      rw [if_neg (by omega)]
      have hb := blockCrypt_bad K m false (chain K m false iv Q).1 D (by omega)
      rw [hb]
      rfl
    · have : ¬ D.length % 16 = 0 := by omega
      simp [final, blockPadding, prepend, this]

/-- **C25 (CBC, ECB without padding).**  A message of whole blocks is encrypted as specified; any
other message is refused at `Final`. -/
theorem block_encrypt_nopad (K : Cipher) (m : BMode) (iv : List Byte) (hiv : iv.length = 16)
    (chunks : List (List Byte)) :
    (chunks.flatten.length % 16 = 0 →
      ∃ ct, runAll K m (bfresh true .none iv) chunks = some (.ok ct) ∧
        Spec.IsEnc K m iv chunks.flatten ct) ∧
    (chunks.flatten.length % 16 ≠ 0 →
      runAll K m (bfresh true .none iv) chunks = some (.error .inputLen)) := by
  rw [block_encrypt_nopad_aux K m true iv hiv]
  constructor
  · intro h
    rw [if_pos h]
    exact ⟨_, rfl, chain_isEnc K m _ iv hiv h⟩
  · intro h; rw [if_neg h]

/-! ## Decryption -/

/-- A decryption context with padding, on a non-empty whole-block ciphertext: everything but the last
block, then the last block with its padding removed. -/
theorem runAll_dec (K : Cipher) (m : BMode) (p : Pad) (iv : List Byte) (hiv : iv.length = 16)
    (hp : p ≠ .none) (chunks : List (List Byte)) (hne : chunks.flatten ≠ [])
    (h16 : chunks.flatten.length % 16 = 0) :
    ∃ P L, (chain K m false iv chunks.flatten).2 = P ++ L ∧ P.length % 16 = 0 ∧ L.length = 16 ∧
      runAll K m (bfresh false p iv) chunks = (blockUnPadding p L 16).map fun r =>
        match r with
        | .error e => .error e
        | .ok n => if n > 16 then .error .ealBuffLen else .ok (P ++ L.take n) := by
  obtain ⟨Q, D, hQ, hsp, hc, hn, hr⟩ := runAll_spec K m chunks (bfresh false p iv) hiv
    (by simp [cacheOk, bfresh]) (by intro _ _ h1 h2; subst h2; simp [bfresh] at h1)
  simp only [bfresh, List.nil_append] at hsp hc hr hn ⊢
  have hD0 : D ≠ [] := hn trivial hp hne
  have hDl : 0 < D.length := List.length_pos_iff.mpr hD0
  have hD : D.length = 16 := by
    have h1 : D.length ≤ 16 := by unfold cacheOk at hc; split at hc <;> omega
    rw [hsp, List.length_append] at h16
    omega
  have hl := chain_len K m false Q iv hiv
  have hL := chain_len K m false D _ hl.1
  refine ⟨(chain K m false iv Q).2, (chain K m false (chain K m false iv Q).1 D).2, ?_, ?_, ?_, ?_⟩
  · rw [hsp, chain_append K m false Q iv D hQ]
  · rw [hl.2]; omega
  · rw [hL.2, hD]
  · rw [hr]
    unfold final
    simp only [Bool.false_eq_true, if_false]
    rw [if_neg (by omega), blockCrypt_ok K m false _ D (by omega) (by omega)]
    simp only [hD]
    cases blockUnPadding p (chain K m false (chain K m false iv Q).1 D).2 16 with
    | none => rfl
    | some r =>
      cases r with
      | error e => rfl
      | ok n =>
        simp only [Option.map_some]
        by_cases h : n > 16
        · simp [h, prepend]
        · simp [h, prepend]

theorem runAll_dec_bad (K : Cipher) (m : BMode) (p : Pad) (iv : List Byte) (hiv : iv.length = 16)
    (chunks : List (List Byte)) (h16 : chunks.flatten.length % 16 ≠ 0) :
    runAll K m (bfresh false p iv) chunks = some (.error .inputLen) := by
  by_cases hp : p = .none
  · subst hp; rw [block_encrypt_nopad_aux K m false iv hiv, if_neg h16]
  obtain ⟨Q, D, hQ, hsp, hc, hn, hr⟩ := runAll_spec K m chunks (bfresh false p iv) hiv
    (by simp [cacheOk, bfresh]) (by intro _ _ h1 h2; subst h2; simp [bfresh] at h1)
  simp only [bfresh, List.nil_append] at hsp hc hr hn ⊢
  have hD : D.length % 16 ≠ 0 := by rw [hsp, List.length_append] at h16; omega
  rw [hr]
  simp only [final, Bool.false_eq_true, if_false]
  rw [if_neg (by omega)]
  have hb := blockCrypt_bad K m false (chain K m false iv Q).1 D hD
  rw [hb]
  rfl

/-- The two ways to end a padded message: cut off the padding of the whole message, or of its last
block. -/
theorem pad_split (p : Pad) (hp : p ≠ .none) (msg P L : List Byte)
    (h : msg ++ padTail p msg.length = P ++ L) (hP : P.length % 16 = 0) (hL : L.length = 16) :
    ∃ d, d.length < 16 ∧ L = d ++ padTail p d.length ∧ msg = P ++ d := by
  have hlen := congrArg List.length h
  rw [List.length_append, List.length_append, padTail_length p _ hp, hL] at hlen
  have hle : P.length ≤ msg.length := by omega
  have e1 := congrArg (List.take P.length) h
  rw [List.take_append_of_le_length hle, List.take_append_of_le_length (Nat.le_refl _), List.take_length] at e1
  have e2 := congrArg (List.drop P.length) h
  rw [List.drop_append_of_le_length hle, List.drop_append_of_le_length (Nat.le_refl _), List.drop_length,
    List.nil_append] at e2
  have hdl : (msg.drop P.length).length < 16 := by rw [List.length_drop]; omega
  refine ⟨msg.drop P.length, hdl, ?_, ?_⟩
  · rw [← e2]
    congr 1
    apply padTail_mod
    rw [List.length_drop]; omega
  · conv => lhs; rw [← List.take_append_drop P.length msg, e1]

/-- **C26 (round trip).**  Decrypting what encryption produced, with the same padding, gives back
exactly the message — for every message, every chunking on both sides, and every padding type except
ZEROS. -/
theorem block_roundtrip (K : Cipher) (m : BMode) (p : Pad) (iv : List Byte) (hiv : iv.length = 16)
    (hz : p ≠ .zeros) (chunks chunks' : List (List Byte)) (ct : List Byte)
    (henc : runAll K m (bfresh true p iv) chunks = some (.ok ct)) (hcut : chunks'.flatten = ct) :
    runAll K m (bfresh false p iv) chunks' = some (.ok chunks.flatten) := by
  by_cases hp : p = .none
  · subst hp
    rw [block_encrypt_nopad_aux K m true iv hiv] at henc
    rw [block_encrypt_nopad_aux K m false iv hiv]
    split at henc
    · rename_i h
      cases henc
      have hl := chain_len K m true chunks.flatten iv hiv
      rw [hcut, hl.2, if_pos (by omega)]
      have := chain_inv K m true chunks.flatten iv hiv h
      simp only [Bool.not_true] at this
      rw [this]
    · cases henc
  · rw [runAll_enc K m p iv hiv hp] at henc
    cases henc
    have hmod : (chunks.flatten ++ padTail p chunks.flatten.length).length % 16 = 0 := by
      rw [List.length_append, padTail_length p _ hp]; omega
    have hl := chain_len K m true (chunks.flatten ++ padTail p chunks.flatten.length) iv hiv
    have hpos : 16 ≤ (chunks.flatten ++ padTail p chunks.flatten.length).length := by
      rw [List.length_append, padTail_length p _ hp]; omega
    have hne : chunks'.flatten ≠ [] := by
      intro h
      rw [h] at hcut
      have := congrArg List.length hcut
      rw [hl.2] at this
      simp only [List.length_nil] at this
      omega
    obtain ⟨P, L, h1, h2, h3, h4⟩ := runAll_dec K m p iv hiv hp chunks' hne (by rw [hcut, hl.2]; omega)
    have hinv := chain_inv K m true _ iv hiv hmod
    simp only [Bool.not_true] at hinv
    rw [hcut, hinv] at h1
    obtain ⟨d, hd, hLd, hmsg⟩ := pad_split p hp _ P L h1 h2 h3
    rw [h4]
    rcases blockUnPadding_spec p L h3 hp hz with ⟨n, hu, hn, d', hd', hL'⟩ | ⟨-, hbad⟩
    · have : d = d' := padTail_unique p hp hz d d' hd (by omega) (by rw [← hLd, hL', hd'])
      rw [hu]
      simp only [Option.map_some]
      rw [if_neg (by omega), hmsg, hL', List.take_append_of_le_length (by omega),
        List.take_of_length_le (by omega), this]
    · exact absurd hLd (hbad d hd)

/-- With ZEROS padding, decryption returns the message with its zero padding still attached
(`modes.c:80-83` documents this). -/
theorem block_roundtrip_zeros (K : Cipher) (m : BMode) (iv : List Byte) (hiv : iv.length = 16)
    (chunks chunks' : List (List Byte)) (ct : List Byte)
    (henc : runAll K m (bfresh true .zeros iv) chunks = some (.ok ct)) (hcut : chunks'.flatten = ct) :
    runAll K m (bfresh false .zeros iv) chunks'
      = some (.ok (chunks.flatten ++ List.replicate (16 - chunks.flatten.length % 16) 0#8)) := by
  have hp : Pad.zeros ≠ .none := by decide
  rw [runAll_enc K m .zeros iv hiv hp] at henc
  cases henc
  have hmod : (chunks.flatten ++ padTail .zeros chunks.flatten.length).length % 16 = 0 := by
    rw [List.length_append, padTail_length .zeros _ hp]; omega
  have hl := chain_len K m true (chunks.flatten ++ padTail .zeros chunks.flatten.length) iv hiv
  have hpos : 16 ≤ (chunks.flatten ++ padTail .zeros chunks.flatten.length).length := by
    rw [List.length_append, padTail_length .zeros _ hp]; omega
  have hne : chunks'.flatten ≠ [] := by
    intro h
    rw [h] at hcut
    have := congrArg List.length hcut
    rw [hl.2] at this
    simp only [List.length_nil] at this
    omega
  obtain ⟨P, L, h1, h2, h3, h4⟩ := runAll_dec K m .zeros iv hiv hp chunks' hne (by rw [hcut, hl.2]; omega)
  have hinv := chain_inv K m true _ iv hiv hmod
  simp only [Bool.not_true] at hinv
  rw [hcut, hinv] at h1
  rw [h4]
  simp only [blockUnPadding, Option.map_some]
  rw [if_neg (by omega), List.take_of_length_le (by omega)]
  simp only [← h1]
  rfl

/-- **C26 (only well-padded data is accepted).**  If decryption of a non-empty ciphertext succeeds,
that ciphertext is the encryption of the returned message with the declared padding: every padding
byte was checked.  Anything else is refused. -/
theorem block_decrypt_accepts_only_padded (K : Cipher) (m : BMode) (p : Pad) (iv : List Byte)
    (hiv : iv.length = 16) (hz : p ≠ .zeros) (chunks : List (List Byte)) (hne : chunks.flatten ≠ [])
    (msg : List Byte) (h : runAll K m (bfresh false p iv) chunks = some (.ok msg)) :
    runAll K m (bfresh true p iv) [msg] = some (.ok chunks.flatten) ∧
      Spec.IsEnc K m iv (msg ++ Spec.padding p msg.length) chunks.flatten := by
  have h16 : chunks.flatten.length % 16 = 0 := by
    by_contra hc
    rw [runAll_dec_bad K m p iv hiv chunks hc] at h
    cases h
  have hinv := chain_inv K m false chunks.flatten iv hiv h16
  simp only [Bool.not_false] at hinv
  by_cases hp : p = .none
  · subst hp
    rw [block_encrypt_nopad_aux K m false iv hiv, if_pos h16] at h
    cases h
    have hl := chain_len K m false chunks.flatten iv hiv
    have hmod : (chain K m false iv chunks.flatten).2.length % 16 = 0 := by rw [hl.2]; omega
    have hsp := chain_isEnc K m _ iv hiv hmod
    rw [hinv] at hsp
    rw [block_encrypt_nopad_aux K m true iv hiv]
    simp only [List.flatten_cons, List.flatten_nil, List.append_nil, Spec.padding]
    rw [if_pos hmod, hinv]
    exact ⟨rfl, hsp⟩
  · obtain ⟨P, L, h1, h2, h3, h4⟩ := runAll_dec K m p iv hiv hp chunks hne h16
    rw [h4] at h
    rcases blockUnPadding_spec p L h3 hp hz with ⟨n, hu, hn, d, hd, hL⟩ | ⟨hu, -⟩
    · rw [hu] at h
      simp only [Option.map_some] at h
      rw [if_neg (by omega), hL, List.take_append_of_le_length (by omega),
        List.take_of_length_le (by omega)] at h
      cases h
      have hpt : (P ++ d) ++ padTail p (P ++ d).length = (chain K m false iv chunks.flatten).2 := by
        rw [h1, hL, List.append_assoc]
        congr 2
        apply padTail_mod
        rw [List.length_append]; omega
      have hl := chain_len K m false chunks.flatten iv hiv
      constructor
      · rw [runAll_enc K m p iv hiv hp]
        simp only [List.flatten_cons, List.flatten_nil, List.append_nil]
        rw [hpt, hinv]
      · rw [padding_eq, hpt]
        have hsp := chain_isEnc K m (chain K m false iv chunks.flatten).2 iv hiv (by rw [hl.2]; omega)
        rw [hinv] at hsp
        exact hsp
    · rw [hu] at h; cases h

/-- **C26 (refusal is an error, and never a memory error).**  On every ciphertext, however cut,
decryption either returns a message or one of two errors: length not a multiple of the block, or bad
padding. -/
theorem block_decrypt_total (K : Cipher) (m : BMode) (p : Pad) (iv : List Byte)
    (hiv : iv.length = 16) (hz : p ≠ .zeros) (chunks : List (List Byte)) :
    (chunks.flatten.length % 16 ≠ 0 ∧ runAll K m (bfresh false p iv) chunks = some (.error .inputLen)) ∨
    (chunks.flatten.length % 16 = 0 ∧
      ((∃ msg, runAll K m (bfresh false p iv) chunks = some (.ok msg)) ∨
        runAll K m (bfresh false p iv) chunks = some (.error .dataError) ∧
        ∀ msg, ¬ Spec.IsEnc K m iv (msg ++ Spec.padding p msg.length) chunks.flatten)) := by
  by_cases h16 : chunks.flatten.length % 16 = 0
  swap
  · left; exact ⟨h16, runAll_dec_bad K m p iv hiv chunks h16⟩
  right
  refine ⟨h16, ?_⟩
  by_cases hp : p = .none
  · subst hp
    left
    rw [block_encrypt_nopad_aux K m false iv hiv, if_pos h16]
    exact ⟨_, rfl⟩
  by_cases hne : chunks.flatten = []
  · left
    obtain ⟨Q, D, hQ, hsp, hc, hn, hr⟩ := runAll_spec K m chunks (bfresh false p iv) hiv
      (by simp [cacheOk, bfresh]) (by intro _ _ h1 h2; subst h2; simp [bfresh] at h1)
    simp only [bfresh, List.nil_append] at hsp hc hr hn ⊢
    rw [hne] at hsp
    have hD : D = [] := (List.append_eq_nil_iff.mp hsp.symm).2
    subst hD
    rw [hr]
    exact ⟨_, rfl⟩
  · obtain ⟨P, L, h1, h2, h3, h4⟩ := runAll_dec K m p iv hiv hp chunks hne h16
    rcases blockUnPadding_spec p L h3 hp hz with ⟨n, hu, hn, d, hd, hL⟩ | ⟨hu, hbad⟩
    · left
      rw [h4, hu]
      simp only [Option.map_some]
      rw [if_neg (by omega)]
      exact ⟨_, rfl⟩
    · right
      rw [h4, hu]
      refine ⟨rfl, ?_⟩
      intro msg hmsg
      have hmod : (msg ++ padTail p msg.length).length % 16 = 0 := by
        rw [List.length_append, padTail_length p _ hp]; omega
      rw [padding_eq] at hmsg
      have heq := isEnc_unique K m iv _ hiv hmod _ _ hmsg (chain_isEnc K m _ iv hiv hmod)
      have hinv := chain_inv K m true _ iv hiv hmod
      simp only [Bool.not_true] at hinv
      rw [heq, hinv] at h1
      obtain ⟨d, hd, hLd, -⟩ := pad_split p hp _ P L h1 h2 h3
      exact hbad d hd hLd

/-! ## Boundary of the accepted set -/

/-- The empty ciphertext is the encryption of no message under any padding, yet decryption of it
succeeds with an empty message (`modes.c:406-409`): the reason for the non-emptiness hypothesis
above. -/
theorem block_decrypt_empty (K : Cipher) (m : BMode) (p : Pad) (iv : List Byte) :
    runAll K m (bfresh false p iv) [] = some (.ok []) ∧
    (p ≠ .none → ∀ msg : List Byte, msg ++ Spec.padding p msg.length ≠ []) := by
  refine ⟨rfl, ?_⟩
  intro hp msg h
  have := congrArg List.length h
  rw [padding_eq, List.length_append, padTail_length p _ hp] at this
  simp only [List.length_nil] at this
  omega

/-! ## Concrete cases -/

def iv0 : List Byte := (List.range 16).map (BitVec.ofNat 8)
def msg20 : List Byte := (List.range 20).map fun i => BitVec.ofNat 8 (3 * i + 1)

example : runAll toy .cbc (bfresh true .pkcs7 iv0) [msg20.take 3, [], msg20.drop 3]
    = runAll toy .cbc (bfresh true .pkcs7 iv0) [msg20] := by decide +kernel
example : (runAll toy .cbc (bfresh true .pkcs7 iv0) [msg20]).map (fun r => r.map List.length)
    = some (.ok 32) := by decide +kernel
example : (runAll toy .ecb (bfresh true .none iv0) [msg20]) = some (.error .inputLen) := by decide +kernel
example : ∀ ct, runAll toy .cbc (bfresh true .iso7816 iv0) [msg20] = some (.ok ct) →
    runAll toy .cbc (bfresh false .iso7816 iv0) [ct.take 16, ct.drop 16] = some (.ok msg20) := by
  intro ct h
  have := block_roundtrip toy .cbc .iso7816 iv0 rfl (by decide) [msg20] [ct.take 16, ct.drop 16] ct h (by simp)
  simpa using this
/-- A last block whose padding is wrong is refused. -/
example : runAll toy .ecb (bfresh false .pkcs7 iv0) [toy.enc (List.replicate 15 7#8 ++ [2#8])]
    = some (.error .dataError) := by decide +kernel
/-- Failing `Update` (no output room) has already taken input into the cache: the caller cannot
simply repeat the call with more room (`modes.c:345-361`). -/
example : (update toy .cbc { bfresh true .pkcs7 iv0 with data := [1#8] } msg20 0).2 = .error .ealBuffLen ∧
    (update toy .cbc { bfresh true .pkcs7 iv0 with data := [1#8] } msg20 0).1.data.length = 16 := by
  decide +kernel

end Verif.Crypto.Modes
