import Verif.Bsl.Ip.Proof
/-! C59: textual IP addresses are accepted exactly when well formed, with the value they denote. -/
namespace Verif.Bsl.Ip
open Verif.Common

/-- The bytes of a string of ASCII characters. -/
def str (s : String) : List Byte := s.toList.map (fun c => BitVec.ofNat 8 c.toNat)

/-- C59.  A string is accepted exactly when it has at most 45 characters and is a dotted decimal IPv4
address or a textual IPv6 address, and then the result is the address it denotes. -/
theorem parse_ip_iff {s out : List Byte} :
    parseIp s = some out ↔ s.length ≤ 45 ∧ (Spec.V4 s out ∨ Spec.V6 s out) := by
  rw [parseIp]
  by_cases hl : s.length > 45
  · rw [if_pos hl]; simp; omega
  rw [if_neg hl]
  have hl' : s.length ≤ 45 := by omega
  by_cases hc : s.contains colon = true
  · rw [if_pos hc]
    have hm : colon ∈ s := by simpa using hc
    exact ⟨fun h => ⟨hl', Or.inr (parseIpv6_sound h)⟩, fun ⟨_, h⟩ => h.elim
      (fun h => absurd hm (v4_chars h).1) parseIpv6_complete⟩
  · rw [if_neg hc, parseIpv4_spec]
    have hm : colon ∉ s := by simpa using hc
    exact ⟨fun h => ⟨hl', Or.inl h⟩, fun ⟨_, h⟩ => h.elim id (fun h => absurd (v6_colon h) hm)⟩

example : parseIp (str "192.168.0.1") = some [192#8, 168#8, 0#8, 1#8] :=
  parse_ip_iff.mpr ⟨by decide, Or.inl ⟨_, _, _, _, rfl, by decide⟩⟩

example : parseIp (str "::1") = some (List.replicate 15 0#8 ++ [1#8]) := by
  refine parse_ip_iff.mpr ⟨by decide, Or.inr ⟨[0, 0, 0, 0, 0, 0, 0, 1], by decide, Or.inr
    ⟨[], [str "1"], [1], by decide, by simp, Or.inl ⟨?_, by decide⟩, by decide, by decide⟩⟩⟩
  intro g hg
  simp only [List.mem_singleton] at hg
  subst hg
  refine ⟨by decide, by decide, fun c hc => ?_⟩
  have : c = 0x31#8 := by simpa [str] using hc
  subst this; left; decide

example : parseIp (str "01.2.3.4") = none := by decide +kernel
example : parseIp (str "1.2.3.256") = none := by decide +kernel
example : parseIp (str "1::2::3") = none := by decide +kernel
example : parseIp (str "fe80::1%eth0") = none := by decide +kernel
example : parseIp (str "2001:DB8::ffff:10.0.0.7") =
    some [0x20#8, 0x01#8, 0x0d#8, 0xb8#8, 0#8, 0#8, 0#8, 0#8, 0#8, 0#8, 0xff#8, 0xff#8, 10#8, 0#8, 0#8, 7#8] := by
  decide +kernel

theorem items_length {ts : List (List Byte)} {vs : List Nat} (h : Spec.Items ts vs) :
    ts.length ≤ vs.length := by
  rcases h with ⟨_, rfl⟩ | ⟨gs, q, a, b, c, d, rfl, _, _, rfl⟩ <;> simp

/-- C59.  The result has 4 bytes for an IPv4 address and 16 for an IPv6 address, so it fits the 16-byte
buffer, and the two kinds are told apart by a colon in the text. -/
theorem parse_ip_length {s out : List Byte} (h : parseIp s = some out) :
    (0x3a#8 ∉ s ∧ out.length = 4) ∨ (0x3a#8 ∈ s ∧ out.length = 16) := by
  rcases (parse_ip_iff.mp h).2 with h | h
  · exact Or.inl ⟨(v4_chars h).1, (v4_chars h).2.2.2⟩
  · refine Or.inr ⟨v6_colon h, ?_⟩
    obtain ⟨vs, rfl, hv⟩ := h
    have h8 : vs.length = 8 := by
      rcases hv with ⟨_, _, _, h⟩ | ⟨l, r, vr, _, _, _, h7, rfl⟩
      · exact h
      · simp; omega
    have : ∀ vs : List Nat, (Spec.bytes vs).length = 2 * vs.length := by
      intro vs
      induction vs with
      | nil => rfl
      | cons v vs ih =>
        rw [Spec.bytes, List.flatMap_cons, List.length_append, ← Spec.bytes, ih]
        simp only [List.length_cons, List.length_nil]; omega
    rw [this, h8]

example : parseIp (str "::") = some (List.replicate 16 0#8) ∧ 0x3a#8 ∈ str "::" := by decide +kernel

/-- C59.  An IPv4 address has exactly one accepted spelling: every four bytes have one, and no other
string yields them (so no octal, hexadecimal or abbreviated forms). -/
theorem ipv4_one_spelling (a b c d : Byte) : ∃ s, parseIp s = some [a, b, c, d] ∧
    ∀ t, parseIp t = some [a, b, c, d] → t = s := by
  refine ⟨_, parse_ip_iff.mpr ⟨?_, Or.inl ⟨a, b, c, d, rfl, rfl⟩⟩, ?_⟩
  · have : ∀ v : Nat, (Spec.dec v).length ≤ 3 := by
      intro v; rw [Spec.dec]; split_ifs <;> simp
    have h1 := this a.toNat; have h2 := this b.toNat; have h3 := this c.toNat; have h4 := this d.toNat
    simp only [List.length_append, List.length_cons]; omega
  · intro t ht
    rcases parse_ip_length ht with ⟨hc, _⟩ | ⟨_, h⟩
    · rcases (parse_ip_iff.mp ht).2 with ⟨a', b', c', d', e, rfl⟩ | h
      · simp only [List.cons.injEq, and_true] at e
        obtain ⟨rfl, rfl, rfl, rfl⟩ := e
        rfl
      · exact absurd (v6_colon h) hc
    · simp at h

example : parseIp (str "127.0.0.1") = some [127#8, 0#8, 0#8, 1#8] ∧ parseIp (str "127.1") = none ∧
    parseIp (str "0x7f.0.0.1") = none := by decide +kernel

/-- C59.  Every 16 bytes have a spelling: the text of eight groups denotes them. -/
theorem ipv6_text_accepted {ts : List (List Byte)} (h8 : ts.length = 8) (hg : ∀ g ∈ ts, Spec.IsGroup g) :
    parseIp (Spec.join ts) = some (Spec.bytes (ts.map Spec.groupVal)) := by
  refine parse_ip_iff.mpr ⟨?_, Or.inr ⟨_, rfl, Or.inl ⟨ts, rfl, Or.inl ⟨hg, rfl⟩, by simpa using h8⟩⟩⟩
  have : ∀ ts : List (List Byte), (∀ g ∈ ts, Spec.IsGroup g) → (Spec.join ts).length ≤ 5 * ts.length := by
    intro ts
    induction ts with
    | nil => intro _; simp [Spec.join]
    | cons g gs ih =>
      intro hg
      have h1 := (hg g (by simp)).2.1
      have h2 := ih (fun x hx => hg x (by simp [hx]))
      cases gs with
      | nil => simp [Spec.join]; omega
      | cons g' gs => rw [Spec.join]; simp at h2 ⊢; omega
  have h3 := this ts hg
  match ts, h8 with
  | [a, b, c, d, e, f, g, h], _ =>
    have ha := (hg a (by simp)).2.1
    have hb := (hg b (by simp)).2.1
    have hc := (hg c (by simp)).2.1
    have hd := (hg d (by simp)).2.1
    have he := (hg e (by simp)).2.1
    have hf := (hg f (by simp)).2.1
    have hgg := (hg g (by simp)).2.1
    have hh := (hg h (by simp)).2.1
    simp only [Spec.join, List.length_append, List.length_cons]; omega

example : parseIp (str "1:2:3:4:5:6:7:8") =
    some [0#8, 1#8, 0#8, 2#8, 0#8, 3#8, 0#8, 4#8, 0#8, 5#8, 0#8, 6#8, 0#8, 7#8, 0#8, 8#8] := by decide +kernel

end Verif.Bsl.Ip
