import Verif.Crypto.Kdf.Proof

/-!
# HKDF, PBKDF2 and the TLS 1.2 PRF (C30)

Specification: RFC 5869, RFC 8018 section 5.2, RFC 5246 section 5, over a MAC `F key message` with
`h`-byte tags.  Each of them cuts the first `len` bytes from a stream of blocks `T(1) ‖ T(2) ‖ …`.
-/

namespace Verif.Crypto.Kdf

open Verif.Common

/-- The first `len` bytes of `T(1) ‖ T(2) ‖ … ‖ T(⌈len / h⌉)`. -/
def Spec.cut (T : Nat → List Byte) (h len : Nat) : List Byte :=
  ((List.range ((len + h - 1) / h)).flatMap fun i => T (i + 1)).take len

/-- RFC 5869 section 2.3: `T(0)` is empty, `T(i) = HMAC(PRK, T(i-1) ‖ info ‖ i)`. -/
def Spec.hkdfT (F : List Byte → List Byte → List Byte) (prk info : List Byte) : Nat → List Byte
  | 0 => []
  | i + 1 => F prk (Spec.hkdfT F prk info i ++ info ++ [BitVec.ofNat 8 (i + 1)])

/-- RFC 8018 section 5.2: `U_1 = PRF(P, S ‖ INT(i))`, `U_j = PRF(P, U_{j-1})`; here `n = j - 1`. -/
def Spec.pbU (F : List Byte → List Byte → List Byte) (pw salt : List Byte) (i : Nat) (n : Nat) : List Byte :=
  (F pw)^[n] (F pw (salt ++ beBytes 4 i))

/-- RFC 8018 section 5.2: block `i` is `U_1 xor U_2 xor … xor U_c`. -/
def Spec.pbT (F : List Byte → List Byte → List Byte) (pw salt : List Byte) (c i : Nat) : List Byte :=
  ((List.range (c - 1)).map fun n => Spec.pbU F pw salt i (n + 1)).foldl (List.zipWith (· ^^^ ·))
    (Spec.pbU F pw salt i 0)

/-- RFC 5246 section 5: `A(0) = seed`, `A(i) = HMAC(secret, A(i-1))`, the blocks are
`HMAC(secret, A(i) ‖ seed)`. -/
def Spec.tlsT (F : List Byte → List Byte → List Byte) (secret seed : List Byte) (i : Nat) : List Byte :=
  F secret ((F secret)^[i] seed ++ seed)

/-! ## The specifications used in the proofs are these -/

theorem hkdfT_eq (F : List Byte → List Byte → List Byte) (prk info : List Byte) :
    hkdfT F prk info = Spec.hkdfT F prk info := by
  funext i
  induction i with
  | zero => rfl
  | succ i ih => simp only [hkdfT, Spec.hkdfT, ih]

theorem pbU_eq (F : List Byte → List Byte → List Byte) (pw salt : List Byte) (i n : Nat) :
    pbU F pw salt i n = Spec.pbU F pw salt i n := by
  induction n with
  | zero => rfl
  | succ n ih => simp only [pbU, Spec.pbU, Function.iterate_succ_apply', ih]

theorem pbX_eq (F : List Byte → List Byte → List Byte) (pw salt : List Byte) (i n : Nat) :
    pbX F pw salt i n = Spec.pbT F pw salt (n + 1) i := by
  induction n with
  | zero => simp only [pbX, pbU_eq, Spec.pbT]; rfl
  | succ n ih =>
    simp only [pbX, ih, pbU_eq, Spec.pbT, Nat.add_sub_cancel, List.range_succ, List.map_append, List.foldl_append,
      List.map_cons, List.map_nil, List.foldl_cons, List.foldl_nil]
    rfl

theorem tlsT_eq (F : List Byte → List Byte → List Byte) (secret s : List Byte) :
    tlsT F secret s = Spec.tlsT F secret s := by
  have h : ∀ i, tlsA F secret s i = (F secret)^[i] s := by
    intro i
    induction i with
    | zero => rfl
    | succ i ih => simp only [tlsA, Function.iterate_succ_apply', ih]
  funext i
  simp only [tlsT, Spec.tlsT, h]

/-! ## Any MAC -/

section
variable {M : Macm} {F : List Byte → List Byte → List Byte} {L : Nat}
  {Act : M.C → List Byte → List Byte → Prop} {Key : M.C → List Byte → Prop}

/-- **HKDF-Extract.** -/
theorem hkdf_extract (hM : Lawful M F L Act Key) (c : M.C) (key salt : List Byte) (cap : Nat)
    (hk : key.length < 2 ^ 32) (hs : salt.length < 2 ^ 32) (hc : L ≤ cap) :
    (extract M c key salt cap).2 = .ok (F salt key) := extract_spec hM c key salt cap hk hs hc

/-- **HKDF-Expand.**  From any state of the MAC context: length 0 is refused, lengths above 255 tags are
refused, every other length gives that many bytes of the RFC's stream. -/
theorem hkdf_expand (hM : Lawful M F L Act Key) (c : M.C) (prk info : List Byte) (len : Nat)
    (hp : prk.length < 2 ^ 32) (hi : info.length < 2 ^ 32) :
    (expand M c L prk info len).2 =
      if len = 0 then .param
      else if 255 * L < len then .overflow
      else .ok (Spec.cut (Spec.hkdfT F prk info) L len) := by
  rw [expand_spec hM c prk info len hp hi, hkdfT_eq]; rfl

/-- **HKDF.** -/
theorem hkdf_full (hM : Lawful M F L Act Key) (c : M.C) (key salt info : List Byte) (len : Nat)
    (hk : key.length < 2 ^ 32) (hs : salt.length < 2 ^ 32) (hi : info.length < 2 ^ 32) :
    (hkdf M c L key salt info len).2 =
      if len = 0 then .param
      else if 255 * L < len then .overflow
      else .ok (Spec.cut (Spec.hkdfT F (F salt key) info) L len) := by
  rw [hkdf_spec hM c key salt info len hk hs hi, hkdfT_eq]; rfl

/-- **PBKDF2.**  For every iteration count and every length of the API; 0 of either is refused. -/
theorem pbkdf2_derive (hM : Lawful M F L Act Key) (c : M.C) (pw salt : List Byte) (it len : Nat)
    (hp : pw.length < 2 ^ 32) (hs : salt.length < 2 ^ 32) (hlen : len < 2 ^ 32) :
    (pbkdf2 M c L pw salt it len).2 =
      if len = 0 ∨ it = 0 then .param else .ok (Spec.cut (Spec.pbT F pw salt it) L len) := by
  rw [pbkdf2_spec hM c pw salt it len hp hs hlen]
  by_cases h : len = 0 ∨ it = 0
  · rw [if_pos h, if_pos h]
  · rw [if_neg h, if_neg h]
    have : (fun i => pbX F pw salt i (it - 1)) = Spec.pbT F pw salt it := by
      funext i
      rw [pbX_eq, show it - 1 + 1 = it by omega]
    rw [this]; rfl

/-- **TLS 1.2 PRF.** -/
theorem tls12_derive (hM : Lawful M F L Act Key) (c : M.C) (key label seed : List Byte) (len : Nat)
    (hk : key.length < 2 ^ 32) (hl : label.length < 2 ^ 32) (hs : seed.length < 2 ^ 32) :
    (tls12 M c key label seed len).2 =
      if len = 0 then .param else .ok (Spec.cut (Spec.tlsT F key (label ++ seed)) L len) := by
  rw [tls12_spec hM c key label seed len hk hl hs, tlsT_eq]; rfl

/-- **Length and prefix.**  With blocks of `h` bytes, the cut has the requested length, and a shorter
request is a prefix of a longer one. -/
theorem cut_length_prefix (T : Nat → List Byte) (h a b : Nat) (hh : 0 < h) (hT : ∀ i, (T (i + 1)).length = h)
    (hab : a ≤ b) :
    (Spec.cut T h b).length = b ∧ Spec.cut T h a = (Spec.cut T h b).take a := by
  have hb : b ≤ (b + h - 1) / h * h := by
    have h1 := Nat.div_add_mod (b + h - 1) h
    have h2 := Nat.mod_lt (b + h - 1) hh
    rw [Nat.mul_comm] at h1
    generalize (b + h - 1) / h * h = x at *
    omega
  constructor
  · show ((blocks T _).take b).length = b
    rw [taken_length T h _ _ hT]; omega
  · show (blocks T _).take a = ((blocks T _).take b).take a
    rw [List.take_take, Nat.min_eq_left hab]
    exact (blocks_ceil (L := h) T a hh hT _ (by omega)).symm

/-- The blocks of all three streams have the length of a tag (as `cut_length_prefix` requires). -/
theorem blocks_tag (hM : Lawful M F L Act Key) (k s : List Byte) (c i : Nat) :
    (Spec.hkdfT F k s (i + 1)).length = L ∧ (Spec.pbT F k s (c + 1) (i + 1)).length = L ∧
    (Spec.tlsT F k s (i + 1)).length = L :=
  ⟨hM.len _ _, by rw [← pbX_eq]; exact pbX_length hM _ _ _ _, hM.len _ _⟩

end

/-! ## HMAC-SHA-2 -/

/-- SHA-256 based HMAC is a lawful MAC, for tags of 1 to 32 bytes. -/
theorem hmac_sha256_lawful (iv : Md.Sha2.St 32) (outLen : Nat) (h0 : 0 < outLen) (ho : outLen ≤ 32) :
    ∃ Act Key, Lawful (hmacMeth (Mac.ofStream 64 outLen (Md.update256 Md.Sha2.compress256)
        (fun cap => Md.final256 Md.Sha2.compress256 Md.Sha2.out256 outLen cap) (Md.init 32 iv 64)))
      (Mac.Spec.hmac (Md.Spec.sha256 (Md.Sha2.rd Md.Sha2.K256) iv outLen) 64) outLen Act Key :=
  ⟨_, _, hmac_lawful _ _ _ (Mac.ofStream_lawful 64 outLen 64 _ _ _ _ (Md.sha256_stream iv outLen) (by omega)
    (fun P => by unfold Md.Spec.sha256; exact Mac.digest_len _ _ _ _ _ _ _ (fun s => by simp; omega) P)
    (by simp only [Mac.maxBlock, Mac.maxOut]; omega)) h0⟩

/-- SHA-512 based HMAC is a lawful MAC, for tags of 1 to 64 bytes. -/
theorem hmac_sha512_lawful (iv : Md.Sha2.St 64) (outLen : Nat) (h0 : 0 < outLen) (ho : outLen ≤ 64) :
    ∃ Act Key, Lawful (hmacMeth (Mac.ofStream 128 outLen (Md.update512 Md.Sha2.compress512)
        (fun cap => Md.final512 Md.Sha2.compress512 Md.Sha2.out512 outLen cap) (Md.init 64 iv 128)))
      (Mac.Spec.hmac (Md.Spec.sha512 (Md.Sha2.rd Md.Sha2.K512) iv outLen) 128) outLen Act Key :=
  ⟨_, _, hmac_lawful _ _ _ (Mac.ofStream_lawful 128 outLen 128 _ _ _ _ (Md.sha512_stream iv outLen) (by omega)
    (fun P => by unfold Md.Spec.sha512; exact Mac.digest_len _ _ _ _ _ _ _ (fun s => by simp; omega) P)
    (by simp only [Mac.maxBlock, Mac.maxOut]; omega)) h0⟩

/-- HMAC-SHA-256 and a new context for the examples. -/
def exMac : Macm := hmacMeth Mac.sha256Md
@[inherit_doc exMac] def exCtx : exMac.C := ⟨Mac.sha256Md.zero, Mac.sha256Md.zero, Mac.sha256Md.zero⟩
/-- Text as bytes. -/
def txt (s : String) : List Byte := s.toList.map fun c => BitVec.ofNat 8 c.toNat

/-- RFC 5869, test case 1 (42 bytes: two blocks). -/
example : (hkdf exMac exCtx 32 (List.replicate 22 0x0b#8) ((List.range 13).map (BitVec.ofNat 8 ·))
      ((List.range 10).map fun i => BitVec.ofNat 8 (0xf0 + i)) 42).2 =
    .ok (beBytes 42 0x3cb25f25faacd57a90434f64d0362f2a2d2d0a90cf1a5a4c5db02d56ecc4c5bf34007208d5b887185865) := by
  decide +kernel

example : (hkdf exMac exCtx 32 [1#8] [] [] 8161).2 = .overflow := by decide +kernel

/-- Two iterations. -/
example : ((pbkdf2 exMac exCtx 32 (txt "password") (txt "salt") 2 32).2 =
    .ok (beBytes 32 0xae4d0c95af6b46d32d0adff928f06dd02a303f8ef3c251dfd6e2d85a95474c43)) := by
  decide +kernel

/-- RFC 7914 section 11 (64 bytes: two blocks). -/
example : ((pbkdf2 exMac exCtx 32 (txt "passwd") (txt "salt") 1 64).2 =
    .ok (beBytes 64 0x55ac046e56e3089fec1691c22544b605f94185216dde0465e68b9d57c20dacbc49ca9cccf179b645991664b39d77ef317c71b845b1e30bd509112041d3a19783)) := by
  decide +kernel

/-- The commonly used test vector of the TLS 1.2 PRF with SHA-256 (100 bytes: four blocks). -/
example : ((tls12 exMac exCtx (beBytes 16 0x9bbe436ba940f017b17652849a71db35) (txt "test label")
      (beBytes 16 0xa0ba9f936cda311827a6f796ffd5198c) 100).2 =
    .ok (beBytes 100 0xe3f229ba727be17b8d122620557cd453c2aab21d07c3d495329b52d4e61edb5a6b301791e90d35c9c9a46b4e14baf9af0fa022f7077def17abfd3797c0564bab4fbc91666e9def9b97fce34f796789baa48082d122ee42c5a72e5a5110fff70187347b66)) := by
  decide +kernel

end Verif.Crypto.Kdf
