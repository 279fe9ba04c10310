import Verif.Tls.Inner.Model
/-!
# C50 — TLS 1.3 inner plaintext: what the peer reads is what was sent
-/
namespace Verif.Tls.Inner
open Verif.Common

theorem scan_zeros (text : List Byte) (z k : Nat) (hz : ∀ j, k ≤ j → j < k + z → text[j]? = some 0#8) :
    scan text (k + z) = scan text k := by
  induction z with
  | zero => rfl
  | succ z ih =>
    rw [← Nat.add_assoc, scan, hz (k + z) (by omega) (by omega)]
    simp only [ne_eq, not_true_eq_false, if_false]
    exact ih (fun j h1 h2 => hz j h1 (by omega))

/-- Parsing accepts exactly the texts `content ‖ type ‖ zeros` with a non-zero type byte (RFC 8446 5.4), and
returns that type and content. -/
theorem parse_iff (text content : List Byte) (type : Byte) :
    parse text = .ok (type, content) ↔
      type ≠ 0#8 ∧ ∃ z, text = content ++ [type] ++ List.replicate z 0#8 := by
  constructor
  · intro h
    have key : ∀ i, i ≤ text.length → (∀ j, i ≤ j → j < text.length → text[j]? = some 0#8) →
        scan text i = .ok (type, content) →
        type ≠ 0#8 ∧ ∃ z, text = content ++ [type] ++ List.replicate z 0#8 := by
      intro i
      induction i with
      | zero => intro _ _ h; simp [scan] at h
      | succ i ih =>
        intro hi hz h
        have hi' : i < text.length := by omega
        rw [scan, List.getElem?_eq_getElem hi'] at h
        simp only at h
        by_cases hb : text[i] = 0#8
        · rw [if_neg (by simpa using hb)] at h
          refine ih (by omega) ?_ h
          intro j h1 h2
          by_cases hj : j = i
          · subst hj; rw [List.getElem?_eq_getElem hi', hb]
          · exact hz j (by omega) h2
        · rw [if_pos hb] at h
          cases h
          refine ⟨hb, text.length - (i + 1), ?_⟩
          apply List.ext_getElem?
          intro j
          by_cases h1 : j < i
          · rw [List.append_assoc, List.getElem?_append_left (by simp; omega), List.getElem?_take_of_lt h1]
          · by_cases h2 : j = i
            · subst h2
              rw [List.append_assoc, List.getElem?_append_right (by simp; omega)]
              simp [Nat.min_eq_left (Nat.le_of_lt hi')]
            · by_cases h3 : j < text.length
              · rw [hz j (by omega) h3, List.getElem?_append_right (by simp; omega)]
                rw [List.getElem?_replicate_of_lt (by simp; omega)]
              · rw [List.getElem?_eq_none (by omega), List.getElem?_eq_none (by simp; omega)]
    exact key text.length (Nat.le_refl _) (fun j h1 h2 => by omega) h
  · rintro ⟨ht, z, rfl⟩
    unfold parse
    have hl : (content ++ [type] ++ List.replicate z 0#8).length = (content.length + 1) + z := by simp; omega
    rw [hl, scan_zeros]
    · rw [scan, List.append_assoc, List.getElem?_append_right (by simp)]
      simp [ht]
    · intro j h1 h2
      rw [List.getElem?_append_right (by simp; omega), List.getElem?_replicate_of_lt (by simp; omega)]

/-- C50. Whatever the content, content type and padding, the receiver recovers exactly the content and type
the sender framed; the outer type is always application data. -/
theorem parse_build (isDtls13 : Bool) (macLen : Nat) (cb : Option Nat) (type : Byte) (data : List Byte)
    (outer : Byte) (text : List Byte) (ht : type ≠ 0#8) (h : build isDtls13 macLen cb type data = .ok (outer, text)) :
    outer = 23#8 ∧ text.length ≤ 16385 ∧ parse text = .ok (type, data) := by
  unfold build at h
  simp only at h
  split at h
  · cases h
  · rename_i hlen
    cases h
    refine ⟨rfl, ?_, (parse_iff _ _ _).2 ⟨ht, _, rfl⟩⟩
    simp only [maxPaddingLen] at hlen
    simp; omega

/-- C50. Building fails exactly when content, type byte and padding exceed 2^14 + 1 bytes. -/
theorem build_ok_iff (isDtls13 : Bool) (macLen : Nat) (cb : Option Nat) (type : Byte) (data : List Byte) :
    (∃ r, build isDtls13 macLen cb type data = .ok r) ↔
      data.length + 1 + paddingLength isDtls13 macLen cb data.length ≤ 16385 := by
  have hm : maxPaddingLen = 16385 := rfl
  unfold build
  simp only
  by_cases hb : data.length + 1 + paddingLength isDtls13 macLen cb data.length > maxPaddingLen
  · simp only [if_pos hb]
    constructor
    · rintro ⟨r, h⟩; cases h
    · intro h; omega
  · simp only [if_neg hb]
    exact ⟨fun _ => by omega, fun _ => ⟨_, rfl⟩⟩

/-- C50. In DTLS 1.3 the protected record always carries at least 16 bytes of ciphertext (what the record
number encryption of RFC 9147 4.2.3 samples). -/
theorem dtls13_min_ciphertext (macLen : Nat) (cb : Option Nat) (type : Byte) (data : List Byte)
    (outer : Byte) (text : List Byte) (h : build true macLen cb type data = .ok (outer, text)) :
    16 ≤ text.length + macLen := by
  unfold build at h
  simp only at h
  split at h
  · cases h
  · cases h
    simp only [List.length_append, List.length_cons, List.length_nil, List.length_replicate, paddingLength,
      minPaddingLength, if_true]
    split <;> split <;> (try split) <;> (try split) <;> omega

/-- Two messages with the same wire inner plaintext are the same message. -/
theorem parse_inj (t1 t2 : Byte) (c1 c2 : List Byte) (z1 z2 : Nat) (h1 : t1 ≠ 0#8) (h2 : t2 ≠ 0#8)
    (h : c1 ++ [t1] ++ List.replicate z1 0#8 = c2 ++ [t2] ++ List.replicate z2 0#8) : t1 = t2 ∧ c1 = c2 := by
  have e1 := (parse_iff _ c1 t1).2 ⟨h1, z1, rfl⟩
  have e2 := (parse_iff _ c2 t2).2 ⟨h2, z2, h⟩
  have := Except.ok.inj (e1.symm.trans e2)
  exact ⟨congrArg Prod.fst this, congrArg Prod.snd this⟩

/-- Content that itself ends in zeros, with padding. -/
example : build false 16 (some 3) 22#8 [1#8, 0#8, 0#8] =
    .ok (23#8, [1#8, 0#8, 0#8, 22#8, 0#8, 0#8, 0#8]) := by rfl
example : parse [1#8, 0#8, 0#8, 22#8, 0#8, 0#8, 0#8] = .ok (22#8, [1#8, 0#8, 0#8]) := by rfl
example : parse [0#8, 0#8] = .error .unexpectedMessage := by rfl

end Verif.Tls.Inner
