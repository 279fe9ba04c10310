import Verif.Crypto.Scrypt.Props
import Verif.Crypto.Kdf.Props

/-! C78: scrypt with the PBKDF2 of the library in the place of the parameter. -/
namespace Verif.Crypto.Scrypt
open Verif.Common

/-- `CRYPT_PBKDF2_HMAC` with one iteration, as `CRYPT_SCRYPT` calls it (scrypt.c:293, :300); every call starts from a context of its own. -/
def pbkdf2Prf (M : Kdf.Macm) (c : M.C) (L : Nat) (pw salt : List Byte) (len : Nat) : Option (List Byte) :=
  match (Kdf.pbkdf2 M c L pw salt 1 len).2 with
  | .ok o => some o
  | _ => none

section
variable {M : Kdf.Macm} {F : List Byte → List Byte → List Byte} {L : Nat}
  {Act : M.C → List Byte → List Byte → Prop} {Key : M.C → List Byte → Prop}

theorem pbkdf2Prf_eq (hM : Kdf.Lawful M F L Act Key) (c : M.C) (pw salt : List Byte) (len : Nat) (hp : pw.length < 2 ^ 32)
    (hs : salt.length < 2 ^ 32) (h0 : 0 < len) (hlen : len < 2 ^ 32) :
    pbkdf2Prf M c L pw salt len = some (Kdf.Spec.cut (Kdf.Spec.pbT F pw salt 1) L len) := by
  unfold pbkdf2Prf
  rw [Kdf.pbkdf2_derive hM c pw salt 1 len hp hs hlen, if_neg (by omega)]

theorem cut_len (hM : Kdf.Lawful M F L Act Key) (pw salt : List Byte) (len : Nat) :
    (Kdf.Spec.cut (Kdf.Spec.pbT F pw salt 1) L len).length = len :=
  (Kdf.cut_length_prefix _ L len len hM.size.1 (fun i => (Kdf.blocks_tag hM pw salt 0 i).2.1) (le_refl _)).1

theorem roMix_len (N r : Nat) (hN : 0 < N) (B : List Byte) : (Spec.roMix N r B).length = 128 * r := X_step_len N r _ _ hN

/-- C78. With the library's PBKDF2 over any MAC `F` that the library implements correctly, the derivation succeeds on all allowed
parameters, and the output is that of the RFC: `B` is PBKDF2 of password and salt, each of its `p` blocks goes through scryptROMix, and
the result is the salt of a second PBKDF2. -/
theorem scrypt_pbkdf2 (hM : Kdf.Lawful M F L Act Key) (c : M.C) (key salt : List Byte) (n r p len : Nat)
    (hk : key.length < 2 ^ 32) (hs : salt.length < 2 ^ 32) (hlen : len < 2 ^ 32) (hr : r < 2 ^ 32) (hp : p < 2 ^ 32) (hn : n < 2 ^ 32)
    (h : Spec.Allowed n r p ∧ 128 * r * (p + n + 1) < 2 ^ 32 ∧ 0 < len) :
    ∃ B out, B = Kdf.Spec.cut (Kdf.Spec.pbT F key salt 1) L (p * 128 * r)
      ∧ out = Kdf.Spec.cut (Kdf.Spec.pbT F key
          ((List.range p).flatMap fun i => Spec.roMix n r ((B.drop (i * (128 * r))).take (128 * r))) 1) L len
      ∧ scrypt (pbkdf2Prf M c L) key salt n r p len = some out ∧ out.length = len := by
  have c2 : 128 * r * (p + n + 1) = p * (128 * r) + n * (128 * r) + 128 * r := by ring
  have c3 : p * 128 * r = p * (128 * r) := by ring
  have hsz := h.2.1
  rw [c2] at hsz
  have hpos : 0 < p * (128 * r) := Nat.mul_pos h.1.2.1 (by have := h.1.1; omega)
  have h1 := pbkdf2Prf_eq hM c key salt (p * 128 * r) hk hs (by omega) (by omega)
  refine ⟨_, _, rfl, rfl, ?_, cut_len hM _ _ _⟩
  rw [(scrypt_exact (pbkdf2Prf M c L) key salt n r p len (fun o ho => by
    rw [h1] at ho; cases ho; exact cut_len hM _ _ _) hr hp hn).1 h]
  unfold Spec.scrypt
  rw [h1]
  refine pbkdf2Prf_eq hM c key _ len hk ?_ h.2.2 hlen
  have hN : 0 < n := by have := h.1.2.2.1; omega
  rw [List.length_flatMap]
  simp only [roMix_len n r hN, List.map_const', List.length_range, List.sum_replicate_nat]
  omega

end

/-- The case the library uses, `CRYPT_MAC_HMAC_SHA256` (scrypt.c:308): a lawful MAC in the sense of the theorem above exists, it is
HMAC-SHA-256. -/
theorem scrypt_sha256 (iv : Md.Sha2.St 32) (c : (Kdf.hmacMeth (Mac.ofStream 64 32 (Md.update256 Md.Sha2.compress256)
      (fun cap => Md.final256 Md.Sha2.compress256 Md.Sha2.out256 32 cap) (Md.init 32 iv 64))).C)
    (key salt : List Byte) (n r p len : Nat)
    (hk : key.length < 2 ^ 32) (hs : salt.length < 2 ^ 32) (hlen : len < 2 ^ 32) (hr : r < 2 ^ 32) (hp : p < 2 ^ 32) (hn : n < 2 ^ 32)
    (h : Spec.Allowed n r p ∧ 128 * r * (p + n + 1) < 2 ^ 32 ∧ 0 < len) :
    let F := Mac.Spec.hmac (Md.Spec.sha256 (Md.Sha2.rd Md.Sha2.K256) iv 32) 64
    ∃ B out, B = Kdf.Spec.cut (Kdf.Spec.pbT F key salt 1) 32 (p * 128 * r)
      ∧ out = Kdf.Spec.cut (Kdf.Spec.pbT F key
          ((List.range p).flatMap fun i => Spec.roMix n r ((B.drop (i * (128 * r))).take (128 * r))) 1) 32 len
      ∧ scrypt (pbkdf2Prf _ c 32) key salt n r p len = some out ∧ out.length = len := by
  obtain ⟨Act, Key, hM⟩ := Kdf.hmac_sha256_lawful iv 32 (by decide) (by decide)
  exact scrypt_pbkdf2 hM c key salt n r p len hk hs hlen hr hp hn h

/-- The hypotheses are met by the parameters recommended in RFC 7914. -/
example : Spec.Allowed 16384 8 1 ∧ 128 * 8 * (1 + 16384 + 1) < 2 ^ 32 :=
  ⟨⟨by decide, by decide, by decide, ⟨14, by norm_num⟩, by norm_num, by norm_num⟩, by norm_num⟩

/-- The first eight bytes of the first test vector of RFC 7914, section 12 (empty password and salt, `N = 16`, `r = p = 1`), computed
by the model with its own HMAC-SHA-256. -/
example : scrypt (pbkdf2Prf Kdf.exMac Kdf.exCtx 32) [] [] 16 1 1 8 = some [0x77, 0xd6, 0x57, 0x62, 0x38, 0x65, 0x7b, 0x20] := by
  decide +kernel

end Verif.Crypto.Scrypt
