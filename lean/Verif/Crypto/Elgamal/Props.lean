import Verif.Crypto.Elgamal.Spec
import Verif.Crypto.Paillier.Props

/-! C75: ElGamal encryption. -/
namespace Verif.Crypto.Elgamal
open Verif.Crypto.Bn Verif.Crypto.Sig Verif.Crypto.Sig.Spec Verif.Crypto.Rsa Verif.Crypto.Paillier Spec

theorem genP_is {q k : Bn 32} {Q K : Nat} (hq : Is q Q) (hk : Is k K) : Is (genP q k) (K * Q + 1) := Dh.add_one (Is.mul' _ hk hq)

/-- The base that is found. -/
theorem root_spec {p q : Bn 32} {P Q : Nat} (hp : Is p P) (hq : Is q Q) (h1 : 1 < P) (ds : List (Option (Bn 32)))
    (hd : ∀ r, some r ∈ ds → ∃ R, Is r R) (g : Bn 32) (h : root p q ds = some g) :
    some g ∈ ds ∧ ∃ G, Is g G ∧ G * G % P ≠ 1 ∧ G ^ Q % P ≠ 1 := by
  induction ds with
  | nil => cases h
  | cons d ds ih =>
    cases d with
    | none => cases h
    | some s =>
      obtain ⟨S, hs⟩ := hd s (by simp)
      have rest : root p q ds = some g → some g ∈ some s :: ds ∧ ∃ G, Is g G ∧ G * G % P ≠ 1 ∧ G ^ Q % P ≠ 1 := by
        intro h
        obtain ⟨a, b⟩ := ih (fun r hr => hd r (by simp [hr])) h
        exact ⟨by simp [a], b⟩
      obtain ⟨x1, e1, f1, f2⟩ := bnModSqr_spec (j := 5) rfl s p hs.wf hp.wf (hp.ne (by omega))
      have i1 : Is x1 (S * S % P) := .mk' f2 (by rw [f1, hs.toInt, hp.toInt]; norm_cast)
      obtain ⟨x2, e2, i2⟩ := exp_is hs hq hp (by omega)
      unfold root at h
      rw [e1] at h
      simp only [Option.join_some, e2] at h
      split at h
      · exact rest h
      rename_i c1
      split at h
      · exact rest h
      rename_i c2
      cases h
      rw [isOne_iff i1] at c1
      rw [isOne_iff i2] at c2
      exact ⟨by simp, S, hs, c1, c2⟩

/-- The first number that is good is taken. -/
theorem root_first {p q : Bn 32} {P Q : Nat} (hp : Is p P) (hq : Is q Q) (h1 : 1 < P) (bad : List (Bn 32))
    (hbad : ∀ s ∈ bad, ∃ S, Is s S ∧ (S * S % P = 1 ∨ S ^ Q % P = 1)) {g : Bn 32} {G : Nat} (hg : Is g G) (g1 : G * G % P ≠ 1) (g2 : G ^ Q % P ≠ 1)
    (rest : List (Option (Bn 32))) : root p q (bad.map some ++ some g :: rest) = some g := by
  have sq : ∀ {s : Bn 32} {S : Nat}, Is s S → ∃ x, bnModSqr s p = some (some x) ∧ Is x (S * S % P) := by
    intro s S hs
    obtain ⟨x1, e1, f1, f2⟩ := bnModSqr_spec (j := 5) rfl s p hs.wf hp.wf (hp.ne (by omega))
    exact ⟨x1, e1, .mk' f2 (by rw [f1, hs.toInt, hp.toInt]; norm_cast)⟩
  induction bad with
  | nil =>
    obtain ⟨x1, e1, i1⟩ := sq hg
    obtain ⟨x2, e2, i2⟩ := exp_is hg hq hp (by omega)
    rw [List.map_nil, List.nil_append]
    unfold root
    rw [e1]
    simp only [Option.join_some, e2]
    rw [if_neg (fun h => g1 ((isOne_iff i1).mp h)), if_neg (fun h => g2 ((isOne_iff i2).mp h))]
  | cons s bad ih =>
    obtain ⟨S, hs, h⟩ := hbad s (by simp)
    have ih := ih fun s hs => hbad s (by simp [hs])
    obtain ⟨x1, e1, i1⟩ := sq hs
    obtain ⟨x2, e2, i2⟩ := exp_is hs hq hp (by omega)
    rw [List.map_cons, List.cons_append]
    unfold root
    rw [e1]
    simp only [Option.join_some, e2]
    by_cases c : S * S % P = 1
    · rw [if_pos ((isOne_iff i1).mpr c), ih]
    · rw [if_neg (fun h => c ((isOne_iff i1).mp h)), if_pos ((isOne_iff i2).mpr (h.resolve_left c)), ih]

/-- C75: a key is made, with the first drawn number whose square and whose power to the order are not one. -/
theorem gen_some {q k x g : Bn 32} {Q K X G : Nat} (bits : Nat) (hq : Is q Q) (hk : Is k K) (hx : Is x X) (h1 : 2 < Q) (h2 : 0 < K)
    (bad : List (Bn 32)) (hbad : ∀ s ∈ bad, ∃ S, Is s S ∧ (S * S % (K * Q + 1) = 1 ∨ S ^ Q % (K * Q + 1) = 1)) (hg : Is g G)
    (g1 : G * G % (K * Q + 1) ≠ 1) (g2 : G ^ Q % (K * Q + 1) ≠ 1) (rest : List (Option (Bn 32))) :
    ∃ u v, gen bits q k (bad.map some ++ some g :: rest) (some x) = some ⟨some bits, some u, some v⟩ ∧
      PubKey u (K * Q + 1) G (G ^ X % (K * Q + 1)) Q ∧ Is v.p (K * Q + 1) ∧ Is v.g G ∧ Is v.x X := by
  have hp := genP_is hq hk
  have hb : 1 < K * Q + 1 := by
    have := Nat.mul_pos h2 (show 0 < Q by omega)
    omega
  obtain ⟨y, ey, iy⟩ := exp_is hg hx hp (by omega)
  refine ⟨⟨genP q k, g, y, q⟩, ⟨genP q k, g, x⟩, ?_, ⟨hp, hg, iy, hq, hb, h1⟩, hp, hg, hx⟩
  unfold gen
  dsimp only
  rw [root_first hp hq hb bad hbad hg g1 g2 rest]
  simp only [ey]

/-- C75: what the generation of a key returns. The modulus is `k q + 1` for the number `k` that was drawn, whatever it is. -/
theorem gen_exact {q k x : Bn 32} {Q K X : Nat} (bits : Nat) (hq : Is q Q) (hk : Is k K) (hx : Is x X) (h1 : 2 < Q) (h2 : 0 < K)
    (draws : List (Option (Bn 32))) (hd : ∀ r, some r ∈ draws → ∃ R, Is r R) (c : Ctx) (h : gen bits q k draws (some x) = some c) :
    ∃ u v G, c = ⟨some bits, some u, some v⟩ ∧ PubKey u (K * Q + 1) G (G ^ X % (K * Q + 1)) Q ∧ Is v.p (K * Q + 1) ∧ Is v.x X ∧
      G * G % (K * Q + 1) ≠ 1 ∧ G ^ Q % (K * Q + 1) ≠ 1 := by
  have hp := genP_is hq hk
  have hb : 1 < K * Q + 1 := by
    have := Nat.mul_pos h2 (show 0 < Q by omega)
    omega
  unfold gen at h
  dsimp only at h
  cases er : root (genP q k) q draws with
  | none => rw [er] at h; cases h
  | some g =>
    obtain ⟨-, G, ig, g1, g2⟩ := root_spec hp hq hb draws hd g er
    obtain ⟨y, ey, iy⟩ := exp_is ig hx hp (by omega)
    rw [er] at h
    simp only [ey] at h
    cases h
    exact ⟨_, _, G, rfl, ⟨hp, ig, iy, hq, hb, h1⟩, hp, hx, g1, g2⟩

section
variable {c : Ctx} {k : Pub} {P G Y Q : Nat} (hk : c.pub = some k) (K : PubKey k P G Y Q)
include hk K

/-- C75: with a modulus that is odd and fits the length of the context, every message is encrypted, with the first drawn number that is prime to
`q - 1`. The message is not compared with the modulus. -/
theorem enc_exact (hodd : P % 2 = 1) (hfits : P ≤ 256 ^ ((getBits c + 7) / 8)) (data : List UInt8) (len : Nat) (hl : 2 * ((getBits c + 7) / 8) ≤ len)
    (hd : data.length ≤ (getBits c + 7) / 8) (hd' : data.length ≤ 2 ^ 16) (bad : List (Bn 32)) (r : Bn 32) (R : Nat) (rest : List (Option (Bn 32)))
    (hbad : ∀ s ∈ bad, ∃ S, Is s S ∧ S ≠ 0 ∧ ¬ Nat.Coprime S (Q - 1)) (hr : Is r R) (hR : Nat.Coprime R (Q - 1)) :
    ∃ a b, encrypt c (bad.map some ++ some r :: rest) data len = some (some (a ++ b)) ∧ a.length = (getBits c + 7) / 8 ∧ b.length = (getBits c + 7) / 8 ∧
      Encrypts P G Y (Bn.Spec.bigEndian data) R (Bn.Spec.bigEndian a) (Bn.Spec.bigEndian b) := by
  have hP := K.big
  obtain ⟨M, eM, -, -, hM⟩ := mont_is K.modulus hodd
  obtain ⟨m, em, im⟩ := big_some (by decide) (len_lt hd')
  have hQ := K.order_big
  have htop := sub_one K.order (by omega)
  have hpk := pick_first htop (by omega) bad hbad r hr hR rest
  obtain ⟨c1, e1, i1⟩ := hM k.g r G R K.base hr false
  obtain ⟨yr, e2, i2⟩ := hM k.y r Y R K.power hr false
  obtain ⟨c2, e3, i3⟩ := im.mul i2 K.modulus (by omega)
  have fit : ∀ {a : Bn 32} {x : Nat}, Is a (x % P) → ∃ bs, bn2BinFix a ((getBits c + 7) / 8) = some (some bs) ∧ bs.length = (getBits c + 7) / 8 ∧
      Bn.Spec.bigEndian bs = x % P := by
    intro a x ha
    have h := (bn2BinFix_exact a ha.1 ((getBits c + 7) / 8)).1 (by
      rw [ha.2, Int.natAbs_natCast]
      exact Nat.lt_of_lt_of_le (Nat.mod_lt _ (by omega)) hfits)
    rwa [ha.2, Int.natAbs_natCast] at h
  obtain ⟨a, a1, a2, a3⟩ := fit i1
  obtain ⟨b, b1, b2, b3⟩ := fit i3
  refine ⟨a, b, ?_, a2, b2, a3, ?_⟩
  · have : pubEnc k ((getBits c + 7) / 8) (bad.map some ++ some r :: rest) data = some (some (a, b)) := by
      unfold pubEnc
      simp only [eM, em, hpk, e1, e2, e3, a1, b1, neg_false im, Option.join_some, Bool.false_eq_true, if_false]
    unfold encrypt toBytes
    rw [hk]
    dsimp only
    rw [if_neg (by omega), if_neg (by omega), this]
  · rw [b3, Nat.mul_mod, Nat.mod_mod, ← Nat.mul_mod]

omit K in
/-- C75: a message that is longer than the length of the context is refused, and so is a buffer shorter than twice that length. -/
theorem enc_refuses (draws : List (Option (Bn 32))) (data : List UInt8) (len : Nat)
    (h : len < 2 * ((getBits c + 7) / 8) ∨ (getBits c + 7) / 8 < data.length) : encrypt c draws data len = none := by
  unfold encrypt toBytes
  rw [hk]
  dsimp only
  split
  · rfl
  rw [if_pos (by omega)]

/-- C75: with an even modulus nothing is encrypted. -/
theorem enc_even (heven : P % 2 = 0) (draws : List (Option (Bn 32))) (data : List UInt8) (len : Nat) : encrypt c draws data len = none := by
  have h0 : montCreate k.p = none := (montCreate_ok (j := 5) rfl k.p K.modulus.wf).2 (by rw [K.modulus.toInt]; omega)
  have h1 : ∀ b, pubEnc k b draws data = none := by
    intro b
    unfold pubEnc
    rw [h0]
    rfl
  unfold encrypt
  rw [hk]
  dsimp only
  split
  · rfl
  split
  · rfl
  rw [h1]

end

theorem cipherOk_iff {a b p : Bn 32} {A B P : Nat} (ha : Is a A) (hb : Is b B) (hp : Is p P) (h1 : 1 < P) :
    cipherOk a b p = true ↔ (A < P ∧ Nat.Coprime A P) ∧ (B < P ∧ Nat.Coprime B P) := by
  have z : ∀ {x : Nat}, Nat.Coprime x P → x ≠ 0 := by
    rintro x hx rfl
    rw [Nat.coprime_zero_left] at hx
    omega
  unfold cipherOk
  simp only [(ha.cmp hp).1, (hb.cmp hp).1, neg_false ha, neg_false hb, Bool.false_eq_true, or_false]
  by_cases c1 : P ≤ A
  · rw [if_pos c1]
    simp only [Bool.false_eq_true, false_iff]
    omega
  rw [if_neg c1]
  by_cases c2 : P ≤ B
  · rw [if_pos c2]
    simp only [Bool.false_eq_true, false_iff]
    omega
  rw [if_neg c2]
  obtain ⟨g1, g2⟩ := gcd_is ha hp (by omega)
  obtain ⟨k1, k2⟩ := gcd_is hb hp (by omega)
  by_cases c3 : A = 0
  · rw [g1 c3]
    simp only [Bool.false_eq_true, false_iff]
    exact fun h => z h.1.2 c3
  obtain ⟨t, e, i⟩ := g2 c3
  rw [e]
  dsimp only
  by_cases c4 : Nat.Coprime A P
  swap
  · rw [if_pos (by rw [← Bool.not_eq_true]; exact fun h => c4 (i.mp h))]
    simp only [Bool.false_eq_true, false_iff]
    exact fun h => c4 h.1.2
  rw [if_neg (by rw [i.mpr c4]; decide)]
  by_cases c5 : B = 0
  · rw [k1 c5]
    simp only [Bool.false_eq_true, false_iff]
    exact fun h => z h.2.2 c5
  obtain ⟨t', e', i'⟩ := k2 c5
  rw [e']
  dsimp only
  rw [i']
  exact ⟨fun h => ⟨⟨by omega, c4⟩, by omega, h⟩, fun h => h.2.2⟩

section
variable {c : Ctx} {v : Prv} {P X : Nat} (hv : c.prv = some v) (V : PrvKey v P X) (hb : 0 < getBits c)
include hv V hb

/-- C75: what decryption returns. The two halves are taken exactly when they are below the modulus and prime to it; the result is the number that
the power of the first half multiplies to the second one. -/
theorem dec_exact (a b : List UInt8) (len : Nat) (hl : (getBits c + 7) / 8 ≤ len) (hP : P ≤ 256 ^ len) (ha : a.length = (getBits c + 7) / 8)
    (hbl : b.length = (getBits c + 7) / 8) :
    let A := Bn.Spec.bigEndian a
    let B := Bn.Spec.bigEndian b
    let ok := (A < P ∧ Nat.Coprime A P) ∧ (B < P ∧ Nat.Coprime B P)
    (ok → ∃ out M, decrypt c (a ++ b) len = some (some out) ∧ Paillier.Spec.Short out M ∧ M < P ∧ M * A ^ X % P = B) ∧
    (¬ ok → decrypt c (a ++ b) len = none) := by
  intro A B ok
  have h1 := V.big
  unfold decrypt toBytes
  rw [hv]
  dsimp only
  rw [if_neg (by omega), if_neg (by rw [List.length_append]; omega), ← ha, List.take_left' rfl, List.drop_left' rfl]
  by_cases hok : ok
  · refine ⟨fun _ => ?_, fun h => absurd hok h⟩
    obtain ⟨x, ex, ix⟩ := big_some (x := a) (n := 32768) (by decide) (Nat.lt_trans hok.1.1 V.fits)
    obtain ⟨y, ey, iy⟩ := big_some (x := b) (n := 32768) (by decide) (Nat.lt_trans hok.2.1 V.fits)
    rw [ex, ey]
    dsimp only
    rw [if_pos ((cipherOk_iff ix iy V.modulus h1).mpr hok)]
    obtain ⟨t, e1, i1⟩ := exp_is ix V.exponent V.modulus (by omega)
    have hco : Nat.Coprime (A ^ X % P) P := by
      show Nat.gcd _ _ = 1
      rw [← Nat.gcd_rec, Nat.gcd_comm]
      exact Nat.Coprime.pow_left _ hok.1.2
    obtain ⟨i, w, e2, i2, w1, w2⟩ := (i1.inv V.modulus h1).1 hco
    obtain ⟨m, e3, i3⟩ := iy.mul i2 V.modulus (by omega)
    obtain ⟨bs, f1, f2, -⟩ := (short_is (len := len) i3 (by omega)).1 (Nat.lt_of_lt_of_le (Nat.mod_lt _ (by omega)) hP)
    refine ⟨bs, B * w % P, ?_, f2, Nat.mod_lt _ (by omega), ?_⟩
    · unfold prvDec
      simp only [e1, e2, e3, f1]
    · have e4 : B * w * (A ^ X) ≡ B * 1 [MOD P] := by
        rw [Nat.mul_assoc]
        refine Nat.ModEq.mul_left B ?_
        show _ % _ = _ % _
        rw [Nat.mul_mod, Nat.mod_eq_of_lt w1, Nat.mod_eq_of_lt h1]
        rw [Nat.mul_mod, Nat.mod_eq_of_lt w1, Nat.mod_mod] at w2
        exact w2
      have e5 : B * w % P * A ^ X ≡ B [MOD P] := ((Nat.mod_modEq _ _).mul_right _).trans (by rwa [Nat.mul_one] at e4)
      rw [show B * w % P * A ^ X % P = B % P from e5, Nat.mod_eq_of_lt hok.2.1]
  · refine ⟨fun h => absurd h hok, fun _ => ?_⟩
    cases ex : bin2Bn a with
    | none => rfl
    | some x =>
      cases ey : bin2Bn b with
      | none => rfl
      | some y =>
        dsimp only
        rw [if_neg (fun h => hok ((cipherOk_iff (bin_is ex) (bin_is ey) V.modulus h1).mp h))]

omit V hb in
/-- C75: a ciphertext of another length is refused, and so is a buffer shorter than the length of the context. -/
theorem dec_refuses (data : List UInt8) (len : Nat) (h : len < (getBits c + 7) / 8 ∨ data.length ≠ 2 * ((getBits c + 7) / 8)) :
    decrypt c data len = none := by
  unfold decrypt toBytes
  rw [hv]
  dsimp only
  split
  · rfl
  rw [if_pos (by omega)]

/-- C75: an encryption of a message is decrypted to it, modulo the modulus, when the base and the message are prime to the modulus; otherwise
the ciphertext is refused or its base is of no use. This holds for every modulus, prime or not. -/
theorem dec_correct (a b : List UInt8) (len : Nat) (hl : (getBits c + 7) / 8 ≤ len) (hP : P ≤ 256 ^ len) (ha : a.length = (getBits c + 7) / 8)
    (hbl : b.length = (getBits c + 7) / 8) (G M R : Nat) (he : Encrypts P G (G ^ X % P) M R (Bn.Spec.bigEndian a) (Bn.Spec.bigEndian b)) (hG : Nat.Coprime G P) :
    (Nat.Coprime M P → ∃ out, decrypt c (a ++ b) len = some (some out) ∧ Paillier.Spec.Short out (M % P)) ∧
    (¬ Nat.Coprime M P → decrypt c (a ++ b) len = none) := by
  have h1 := V.big
  obtain ⟨eA, eB⟩ := he
  have hY : M * (G ^ X % P) ^ R ≡ M * (G ^ R % P) ^ X [MOD P] := by
    refine Nat.ModEq.mul_left M ?_
    refine ((Nat.mod_modEq _ _).pow R).trans (Nat.ModEq.trans ?_ ((Nat.mod_modEq _ _).pow X).symm)
    rw [← pow_mul, ← pow_mul, Nat.mul_comm]
  have hm : ∀ x, Nat.Coprime (x % P) P ↔ Nat.Coprime x P := by
    intro x
    show Nat.gcd _ _ = 1 ↔ Nat.gcd _ _ = 1
    rw [← Nat.gcd_rec, Nat.gcd_comm]
  have cA : Nat.Coprime (Bn.Spec.bigEndian a) P := by
    rw [eA, hm]
    exact Nat.Coprime.pow_left _ hG
  have cY : Nat.Coprime ((G ^ X % P) ^ R) P := Nat.Coprime.pow_left _ ((hm _).mpr (Nat.Coprime.pow_left _ hG))
  have cB : Nat.Coprime (Bn.Spec.bigEndian b) P ↔ Nat.Coprime M P := by
    rw [eB, hm]
    exact ⟨fun h => Nat.Coprime.coprime_mul_right h, fun h => h.mul_left cY⟩
  have lA : Bn.Spec.bigEndian a < P := by rw [eA]; exact Nat.mod_lt _ (by omega)
  have lB : Bn.Spec.bigEndian b < P := by rw [eB]; exact Nat.mod_lt _ (by omega)
  obtain ⟨d1, d2⟩ := dec_exact hv V hb a b len hl hP ha hbl
  refine ⟨fun hc => ?_, fun hc => d2 fun h => hc (cB.mp h.2.2)⟩
  obtain ⟨out, M', e, s, l, u⟩ := d1 ⟨⟨lA, cA⟩, lB, cB.mpr hc⟩
  have e1 : M' * Bn.Spec.bigEndian a ^ X ≡ M * Bn.Spec.bigEndian a ^ X [MOD P] := by
    show _ % _ = _ % _
    rw [u, eB, eA]
    exact hY
  have e2 : M' ≡ M [MOD P] := Nat.ModEq.cancel_right_of_coprime (by rw [Nat.gcd_comm]; exact Nat.Coprime.pow_left _ cA) e1
  have e3 : M' = M % P := by rw [← Nat.mod_eq_of_lt l]; exact e2
  exact ⟨out, e, e3 ▸ s⟩

end

/-- C75, the finding: nothing makes the modulus of a generated key a prime. For every odd `q` and every odd number drawn it is even, and the context
encrypts nothing. -/
theorem gen_even_useless {q k x : Bn 32} {Q K X : Nat} (bits : Nat) (hq : Is q Q) (hk : Is k K) (hx : Is x X) (h1 : 2 < Q) (hQ : Q % 2 = 1)
    (hK : K % 2 = 1) (draws : List (Option (Bn 32))) (hd : ∀ r, some r ∈ draws → ∃ R, Is r R) (c : Ctx)
    (h : gen bits q k draws (some x) = some c) (ds : List (Option (Bn 32))) (data : List UInt8) (len : Nat) : encrypt c ds data len = none := by
  obtain ⟨u, v, G, rfl, K', -⟩ := gen_exact bits hq hk hx h1 (by omega) draws hd c h
  refine enc_even rfl K' ?_ ds data len
  rw [Nat.add_mod, Nat.mul_mod, hQ, hK]

/-- C75, the finding: a message that is not below the modulus is encrypted; the result is an encryption of its remainder. -/
theorem enc_wraps {P G Y M R A B : Nat} (h : Encrypts P G Y M R A B) : Encrypts P G Y (M % P) R A B := by
  refine ⟨h.1, ?_⟩
  rw [h.2, Nat.mul_mod, Nat.mul_mod (M % P) (Y ^ R), Nat.mod_mod]

/-- C75: the length of a context. Without parameters it is that of the modulus of the private key, and without
one that of the modulus of the public key. -/
theorem bits_exact (c : Ctx) :
    (∀ b, c.bits = some b → getBits c = b) ∧
    (∀ v L, c.bits = none → c.prv = some v → Is v.p L → getBits c = Bn.Spec.bits L) ∧
    (∀ k N, c.bits = none → c.prv = none → c.pub = some k → Is k.p N → getBits c = Bn.Spec.bits N) := by
  unfold getBits
  refine ⟨?_, ?_, ?_⟩
  · intro b h
    rw [h]
  · intro v L h1 h2 h
    rw [h1, h2]
    exact bits_is h
  · intro k N h1 h2 h3 h
    rw [h1, h2, h3]
    exact bits_is h

/-! ### The statements are not empty -/

/-- The order 11 and the number 2 give the prime modulus 23, with 5 as base; the order 11 and the number 3 the even modulus 34; the order 13
and the number 2 the modulus 27, which is not a prime either. -/
def exGen (q k g x : W 32) : Option Ctx := gen 8 ⟨false, [q]⟩ ⟨false, [k]⟩ [some ⟨false, [1]⟩, some ⟨false, [g]⟩] (some ⟨false, [x]⟩)

example : ((exGen 11 2 5 6).bind fun c => encrypt c [some ⟨false, [5]⟩, some ⟨false, [3]⟩] [7] 2) = some (some [10, 19]) := by decide +kernel
example : ((exGen 11 2 5 6).bind fun c => decrypt c [10, 19] 1) = some (some [7]) := by decide +kernel
example : ((exGen 11 2 5 6).bind fun c => encrypt c [some ⟨false, [3]⟩] [30] 2) = some (some [10, 19]) := by decide +kernel
example : (exGen 11 3 5 6).isSome = true ∧ ((exGen 11 3 5 6).bind fun c => encrypt c [some ⟨false, [3]⟩] [7] 2) = none := by decide +kernel
example : (exGen 13 2 5 6).isSome = true ∧ ¬ Nat.Prime (2 * 13 + 1) := ⟨by decide +kernel, by norm_num⟩
example : Nat.Coprime 7 23 ∧ Nat.Coprime 5 23 ∧ Nat.Coprime 3 (11 - 1) ∧ ¬ Nat.Coprime 5 (11 - 1) ∧ 23 ≤ 256 ^ ((8 + 7) / 8) := by decide +kernel
example (c : Ctx) (h : exGen 11 2 5 6 = some c) : ∃ u v G, c = ⟨some 8, some u, some v⟩ ∧ PubKey u (2 * 11 + 1) G (G ^ 6 % (2 * 11 + 1)) 11 :=
  let ⟨u, v, G, e, K, _⟩ := gen_exact 8 (is_small 11 11 rfl (by decide)) (is_small 2 2 rfl (by decide)) (is_small 6 6 rfl (by decide)) (by decide) (by decide)
    [some ⟨false, [1]⟩, some ⟨false, [5]⟩] (by
      intro r hr
      simp only [List.mem_cons, Option.some.injEq, List.not_mem_nil, or_false] at hr
      rcases hr with rfl | rfl
      · exact ⟨1, is_small 1 1 rfl (by decide)⟩
      · exact ⟨5, is_small 5 5 rfl (by decide)⟩) c h
  ⟨u, v, G, e, K⟩

end Verif.Crypto.Elgamal
