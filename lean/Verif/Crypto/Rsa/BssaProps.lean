import Verif.Crypto.Rsa.BssaSpec
import Verif.Crypto.Rsa.KeyProof
import Verif.Crypto.Sig.Props

/-! C73: RSA blind signatures. -/
namespace Verif.Crypto.Rsa
open Verif.Crypto.Bn Verif.Crypto.Sig Verif.Crypto.Sig.Spec Spec

section
variable {k : Pub} {N E : Nat} (K : PubKey k N E) (h1 : 1 < N)
include K h1

/-- The numbers made from a drawn or chosen one. -/
theorem factor_make {x : Bn 32} {u : Nat} (hx : Is x u) (ct : Bool) :
    (Nat.Coprime u N → ∃ i y, (bnModInv x k.n).join = some i ∧ (bnModExp x k.e k.n ct).join = some y ∧ Factor N E (some (y, i)) u) ∧
    (¬ Nat.Coprime u N → (bnModInv x k.n).join = none) := by
  refine ⟨fun hc => ?_, (hx.inv K.modulus h1).2⟩
  obtain ⟨i, w, f1, f2, f3, f4⟩ := (hx.inv K.modulus h1).1 hc
  obtain ⟨y, g1, g2, g3⟩ := (modExp_exact (j := 5) rfl (by decide) x k.e k.n hx.1 K.exponent.1 K.modulus.1 ct).1
    (by rw [K.modulus.2]; omega) (by rw [K.exponent.2]; exact Int.natCast_nonneg _)
  refine ⟨i, y, f1, by rw [g1]; rfl, y, i, w, rfl, ⟨g3, ?_⟩, f2, ?_⟩
  · rw [g2, hx.2, K.exponent.2, K.modulus.2, Int.toNat_natCast]; push_cast; rfl
  · show u * w % N = 1 % N
    rw [Nat.mul_comm, f4, Nat.mod_eq_of_lt h1]

/-- C73: a factor of the caller is taken exactly when it is between one and the modulus and has an inverse. -/
theorem setBssa_exact (s : Bssa) (ct : Bool) (r : List UInt8) :
    let R := Bn.Spec.bigEndian r
    (0 < R ∧ R < N ∧ Nat.Coprime R N → (setBssa k s ct r).2 = true ∧ Factor N E (setBssa k s ct r).1 R) ∧
    (¬ (0 < R ∧ R < N ∧ Nat.Coprime R N) → (setBssa k s ct r).2 = false) := by
  intro R
  have hR : R = Bn.Spec.bigEndian r := rfl
  have hN : N ≤ 2 ^ 16384 := Nat.le_trans (Nat.le_of_lt K.fits) (Nat.pow_le_pow_right (by decide) K.len)
  unfold setBssa
  constructor
  · rintro ⟨a1, a2, a3⟩
    have hl : r.length ≠ 0 := by
      intro h0
      rw [List.length_eq_zero_iff.mp h0] at hR
      exact absurd (show Bn.Spec.bigEndian [] = 0 from rfl) (by omega)
    obtain ⟨x, e, g⟩ := bin_some (Nat.lt_of_lt_of_le a2 hN)
    obtain ⟨i, y, f1, f2, f3⟩ := (factor_make K h1 g ct).1 a3
    rw [if_neg hl, e]
    dsimp only
    rw [if_neg (by rw [g.zero, (g.cmp K.modulus).1]; omega), f1]
    dsimp only
    rw [f2]
    exact ⟨rfl, f3⟩
  · intro h
    dsimp only
    split
    · rfl
    cases e : bin2Bn r with
    | none => rfl
    | some x =>
      have g := bin_is e
      dsimp only
      by_cases c : x.data.length = 0 ∨ bnCmp x k.n ≥ 0
      · rw [if_pos c]
      · rw [if_neg c]
        rw [g.zero, (g.cmp K.modulus).1] at c
        rw [(factor_make K h1 g ct).2 (fun hc => h ⟨by omega, by omega, hc⟩)]

/-- C73: blinding succeeds exactly for a message that is prime to the modulus, once there is a factor or one can be drawn; the result is the
message times the power of the factor. A factor in place is kept. -/
theorem blind_exact (s : Bssa) (v : Env) (pad : List UInt8) (hp : Bn.Spec.bigEndian pad < 2 ^ 16384) :
    let M := Bn.Spec.bigEndian pad
    (∀ u, Nat.Coprime M N → (Factor N E s u ∨ (s = none ∧ Nat.Coprime u N ∧ ∃ r, v.rand = some r ∧ Is r u)) →
      ∃ out, (bssaBlind k s v pad).2 = some (some out) ∧ out.length = (k.bits + 7) / 8 ∧ Bn.Spec.bigEndian out = M * (u ^ E % N) % N ∧
        Factor N E (bssaBlind k s v pad).1 u ∧ (s ≠ none → (bssaBlind k s v pad).1 = s)) ∧
    (¬ Nat.Coprime M N → bssaBlind k s v pad = (s, none)) ∧
    (s = none → (v.rand = none ∨ ∃ r u, v.rand = some r ∧ Is r u ∧ ¬ Nat.Coprime u N) → bssaBlind k s v pad = (s, none)) := by
  intro M
  have hM : M = Bn.Spec.bigEndian pad := rfl
  obtain ⟨m, e, g⟩ := bin_some hp
  have hg : (Nat.Coprime M N → ∃ t, (bnGcd m k.n).join = some t ∧ isOne t = true) ∧
      (¬ Nat.Coprime M N → (bnGcd m k.n).join = none ∨ ∃ t, (bnGcd m k.n).join = some t ∧ isOne t = false) := by
    obtain ⟨q1, q2⟩ := gcd_exact (j := 5) rfl m k.n g.1 K.modulus.1
    by_cases h0 : M = 0
    · have := q2 (.inl (by rw [g.2]; exact_mod_cast h0))
      rw [this]
      refine ⟨fun hc => ?_, fun _ => .inl rfl⟩
      rw [h0, Nat.coprime_zero_left] at hc
      omega
    · obtain ⟨t, t1, t2, t3⟩ := q1 ⟨by rw [g.2]; exact_mod_cast h0, by rw [K.modulus.2]; omega⟩
      rw [g.2, K.modulus.2, Int.gcd_natCast_natCast] at t2
      have ht : Is t (Nat.gcd M N) := ⟨t3, t2⟩
      have := isOne_iff ht
      rw [t1]
      refine ⟨fun hc => ⟨t, rfl, this.mpr hc⟩, fun hc => .inr ⟨t, rfl, ?_⟩⟩
      rw [← Bool.not_eq_true, this]
      exact hc
  have core : ∀ r i u, Factor N E (some (r, i)) u → ∃ z out, (bnModMul m r k.n).join = some z ∧ bn2BinFix z (toBytes k.bits) = some (some out) ∧
      out.length = (k.bits + 7) / 8 ∧ Bn.Spec.bigEndian out = M * (u ^ E % N) % N := by
    rintro r i u ⟨r', i', w, he, b1, b2, b3⟩
    cases he
    obtain ⟨z, e1, g1⟩ := g.mul b1 K.modulus (by omega)
    obtain ⟨out, e2, g2, g3⟩ := write_spec (bits := k.bits) g1 (Nat.mod_lt _ (by omega)) K.fits
    exact ⟨z, out, e1, e2, g2, g3⟩
  refine ⟨fun u hc hf => ?_, fun hc => ?_, fun hs hr => ?_⟩
  · obtain ⟨t, t1, t2⟩ := hg.1 hc
    rcases hf with hf | ⟨rfl, cu, r, hr, hu⟩
    · obtain ⟨r, i, w, rfl, b⟩ := hf
      have hf : Factor N E (some (r, i)) u := ⟨r, i, w, rfl, b⟩
      obtain ⟨z, out, e1, e2, g2, g3⟩ := core r i u hf
      have : bssaBlind k (some (r, i)) v pad = (some (r, i), some (some out)) := by
        unfold bssaBlind
        simp only [e, t1, t2, e1, e2, Bool.true_eq_false, if_false]
      rw [this]
      exact ⟨out, rfl, g2, g3, hf, fun _ => rfl⟩
    · obtain ⟨i, y, f1, f2, f3⟩ := (factor_make K h1 hu v.consttime).1 cu
      obtain ⟨z, out, e1, e2, g2, g3⟩ := core y i u f3
      have hb : blindCreate v k.e k.n = some (y, i) := by
        unfold blindCreate
        simp only [hr, f1, f2, Option.bind_eq_bind, Option.bind_some]
      have : bssaBlind k none v pad = (some (y, i), some (some out)) := by
        unfold bssaBlind
        simp only [e, t1, t2, hb, e1, e2, Bool.true_eq_false, if_false]
      rw [this]
      exact ⟨out, rfl, g2, g3, f3, fun h => absurd rfl h⟩
  · unfold bssaBlind
    rw [e]
    dsimp only
    rcases hg.2 hc with t1 | ⟨t, t1, t2⟩
    · rw [t1]
    · rw [t1]
      dsimp only
      rw [if_pos t2]
  · subst hs
    have hb : blindCreate v k.e k.n = none := by
      unfold blindCreate
      rcases hr with hr | ⟨r, u, hr, hu, cu⟩
      · simp only [hr, Option.bind_eq_bind, Option.bind_none]
      · simp only [hr, (factor_make K h1 hu true).2 cu, Option.bind_eq_bind, Option.bind_some, Option.bind_none]
    unfold bssaBlind
    rw [e]
    dsimp only
    by_cases hc : Nat.Coprime M N
    · obtain ⟨t, t1, t2⟩ := hg.1 hc
      rw [t1]
      dsimp only
      rw [if_neg (by rw [t2]; decide), hb]
    · rcases hg.2 hc with t1 | ⟨t, t1, t2⟩
      · rw [t1]
      · rw [t1]
        dsimp only
        rw [if_pos t2]

/-- C73: after any history in which no setting of the factor failed there is no factor or a right one. -/
theorem clean_ready (ops : List BssaOp) (hpad : ∀ v pad, BssaOp.blind v pad ∈ ops → Bn.Spec.bigEndian pad < 2 ^ 16384) (s : Bssa) (hs : Ready N E s)
    (hc : Clean k s ops) : Ready N E (ops.foldl (bssaStep k) s) := by
  induction ops generalizing s with
  | nil => exact hs
  | cons op ops ih =>
    rw [List.foldl_cons]
    have hpad' : ∀ v pad, BssaOp.blind v pad ∈ ops → Bn.Spec.bigEndian pad < 2 ^ 16384 := fun v pad h => hpad v pad (List.mem_cons_of_mem _ h)
    cases op with
    | set ct r =>
      refine ih hpad' _ ?_ hc.2
      obtain ⟨a, b⟩ := setBssa_exact K h1 s ct r
      by_cases hx : 0 < Bn.Spec.bigEndian r ∧ Bn.Spec.bigEndian r < N ∧ Nat.Coprime (Bn.Spec.bigEndian r) N
      · exact .inr ⟨_, (a hx).2⟩
      · have := b hx
        rw [hc.1] at this
        cases this
    | unblind input => exact ih hpad' _ hs hc
    | blind v pad =>
      refine ih hpad' _ ?_ hc.2
      obtain ⟨a, b, c⟩ := blind_exact K h1 s v pad (hpad v pad List.mem_cons_self)
      show Ready N E (bssaBlind k s v pad).1
      by_cases hm : Nat.Coprime (Bn.Spec.bigEndian pad) N
      · rcases hs with rfl | ⟨u, hu⟩
        · cases hr : v.rand with
          | none => rw [c rfl (.inl hr)]; exact .inl rfl
          | some r =>
            obtain ⟨u, hu⟩ := hc.1 r hr
            by_cases cu : Nat.Coprime u N
            · obtain ⟨out, -, -, -, f, -⟩ := a u hm (.inr ⟨rfl, cu, r, hr, hu⟩)
              exact .inr ⟨u, f⟩
            · rw [c rfl (.inr ⟨r, u, hr, hu, cu⟩)]; exact .inl rfl
        · obtain ⟨out, -, -, -, f, -⟩ := a u hm (.inl hu)
          exact .inr ⟨u, f⟩
      · rw [b hm]; exact hs

/-- C73: removing the factor multiplies with its inverse; it needs a factor and an input of the length of the modulus. -/
theorem unblind_exact {s : Bssa} {u : Nat} (hf : Factor N E s u) (input : List UInt8) :
    (input.length = (k.bits + 7) / 8 → ∃ out w, bssaUnblind k s input = some (some out) ∧ out.length = (k.bits + 7) / 8 ∧ u * w ≡ 1 [MOD N] ∧
      Bn.Spec.bigEndian out = Bn.Spec.bigEndian input * w % N) ∧
    (input.length ≠ (k.bits + 7) / 8 → bssaUnblind k s input = none) ∧ bssaUnblind k none input = none := by
  obtain ⟨r, i, w, rfl, b1, b2, b3⟩ := hf
  unfold bssaUnblind toBytes
  refine ⟨fun hl => ?_, fun hl => if_pos hl, by split <;> rfl⟩
  rw [if_neg (by rw [hl]; simp)]
  have := K.len
  obtain ⟨z, e, g⟩ := bin_some (big_lt (x := input) (by omega))
  obtain ⟨x, e1, g1⟩ := g.mul b2 K.modulus (by omega)
  obtain ⟨out, e2, g2, g3⟩ := write_spec (bits := k.bits) g1 (Nat.mod_lt _ (by omega)) K.fits
  refine ⟨out, w, ?_, g2, b3, g3⟩
  unfold toBytes at e2
  simp only [e, e1, e2]

/-- C73, against RFC 9474, 4.2: the factor is not drawn anew. Two messages that are blinded with the same context can be linked by the signer
without any secret: the blinded messages are in the proportion of the messages. What the random generator would deliver the second time does not
matter. -/
theorem blind_linkable (s : Bssa) (v₁ v₂ : Env) (p₁ p₂ z₁ z₂ : List UInt8) (hs : Ready N E s) (hv : ∀ r, v₁.rand = some r → ∃ u, Is r u)
    (l1 : Bn.Spec.bigEndian p₁ < 2 ^ 16384) (l2 : Bn.Spec.bigEndian p₂ < 2 ^ 16384)
    (e1 : (bssaBlind k s v₁ p₁).2 = some (some z₁)) (e2 : (bssaBlind k (bssaBlind k s v₁ p₁).1 v₂ p₂).2 = some (some z₂)) :
    Bn.Spec.bigEndian z₁ * Bn.Spec.bigEndian p₂ ≡ Bn.Spec.bigEndian z₂ * Bn.Spec.bigEndian p₁ [MOD N] ∧
    ∀ v, bssaBlind k (bssaBlind k s v₁ p₁).1 v p₂ = bssaBlind k (bssaBlind k s v₁ p₁).1 v₂ p₂ := by
  obtain ⟨a, b, c⟩ := blind_exact K h1 s v₁ p₁ l1
  have m1 : Nat.Coprime (Bn.Spec.bigEndian p₁) N := by
    by_contra hc
    rw [b hc] at e1
    cases e1
  have hu : ∃ u, Bn.Spec.bigEndian z₁ = Bn.Spec.bigEndian p₁ * (u ^ E % N) % N ∧ Factor N E (bssaBlind k s v₁ p₁).1 u := by
    have fin : ∀ u, (Factor N E s u ∨ (s = none ∧ Nat.Coprime u N ∧ ∃ r, v₁.rand = some r ∧ Is r u)) →
        Bn.Spec.bigEndian z₁ = Bn.Spec.bigEndian p₁ * (u ^ E % N) % N ∧ Factor N E (bssaBlind k s v₁ p₁).1 u := by
      intro u h
      obtain ⟨out, f1, -, f3, f4, -⟩ := a u m1 h
      rw [e1] at f1
      cases f1
      exact ⟨f3, f4⟩
    rcases hs with rfl | ⟨u, hu⟩
    · cases hr : v₁.rand with
      | none => rw [c rfl (.inl hr)] at e1; cases e1
      | some r =>
        obtain ⟨u, hu⟩ := hv r hr
        by_cases cu : Nat.Coprime u N
        · exact ⟨u, fin u (.inr ⟨rfl, cu, r, hr, hu⟩)⟩
        · rw [c rfl (.inr ⟨r, u, hr, hu, cu⟩)] at e1; cases e1
    · exact ⟨u, fin u (.inl hu)⟩
  obtain ⟨u, q1, q2⟩ := hu
  generalize (bssaBlind k s v₁ p₁).1 = s' at *
  obtain ⟨a', b', -⟩ := blind_exact K h1 s' v₂ p₂ l2
  have m2 : Nat.Coprime (Bn.Spec.bigEndian p₂) N := by
    by_contra hc
    rw [b' hc] at e2
    cases e2
  obtain ⟨out, f1, -, f3, -, -⟩ := a' u m2 (.inl q2)
  rw [e2] at f1
  cases f1
  refine ⟨?_, fun v => ?_⟩
  · rw [q1, f3]
    refine ((Nat.mod_modEq _ _).mul_right _).trans (Nat.ModEq.trans ?_ ((Nat.mod_modEq _ _).mul_right _).symm)
    rw [Nat.mul_right_comm, Nat.mul_right_comm (Bn.Spec.bigEndian p₂), Nat.mul_comm (Bn.Spec.bigEndian p₂)]
  · obtain ⟨r, i, w, rfl, -⟩ := q2
    rfl

/-- C73, a failed setting: if there is a factor, a refused one takes its place. A message is then blinded without an error, and removing the
factor gives zero whatever the signer answers. -/
theorem setBssa_spoils {s : Bssa} (hs : s ≠ none) (ct : Bool) (r : List UInt8) (hr : N ≤ Bn.Spec.bigEndian r) (hl : Bn.Spec.bigEndian r < 2 ^ 16384) :
    (setBssa k s ct r).2 = false ∧
    (∀ v pad, Bn.Spec.bigEndian pad < 2 ^ 16384 → Nat.Coprime (Bn.Spec.bigEndian pad) N → ∃ z, (bssaBlind k (setBssa k s ct r).1 v pad).2 = some (some z)) ∧
    ∀ input, input.length = (k.bits + 7) / 8 → ∃ out, bssaUnblind k (setBssa k s ct r).1 input = some (some out) ∧ Bn.Spec.bigEndian out = 0 := by
  obtain ⟨x, e, g⟩ := bin_some hl
  obtain ⟨b, rfl⟩ := Option.ne_none_iff_exists'.mp hs
  have hl0 : r.length ≠ 0 := by
    intro h0
    rw [List.length_eq_zero_iff.mp h0] at hr
    exact absurd (show Bn.Spec.bigEndian [] = 0 from rfl) (by omega)
  have hset : setBssa k (some b) ct r = (some (x, bnZero), false) := by
    unfold setBssa
    rw [if_neg hl0, e]
    dsimp only
    rw [if_pos (.inr ((g.cmp K.modulus).1.mpr hr))]
  rw [hset]
  refine ⟨rfl, fun v pad hp hc => ?_, fun input hi => ?_⟩
  · obtain ⟨m, em, gm⟩ := bin_some hp
    have h0 : Bn.Spec.bigEndian pad ≠ 0 := by
      intro h0
      rw [h0, Nat.coprime_zero_left] at hc
      omega
    obtain ⟨t, t1, t2, t3⟩ := (gcd_exact (j := 5) rfl m k.n gm.1 K.modulus.1).1 ⟨by rw [gm.2]; exact_mod_cast h0, by rw [K.modulus.2]; omega⟩
    rw [gm.2, K.modulus.2, Int.gcd_natCast_natCast] at t2
    have ht : isOne t = true := (isOne_iff (x := Nat.gcd (Bn.Spec.bigEndian pad) N) ⟨t3, t2⟩).mpr hc
    obtain ⟨z, e1, g1⟩ := gm.mul g K.modulus (by omega)
    obtain ⟨out, e2, g2, g3⟩ := write_spec (bits := k.bits) g1 (Nat.mod_lt _ (by omega)) K.fits
    refine ⟨out, ?_⟩
    unfold bssaBlind
    simp only [em, t1, ht, e1, e2, Option.join_some, Bool.true_eq_false, if_false]
  · have := K.len
    obtain ⟨z, ez, gz⟩ := bin_some (big_lt (x := input) (by omega))
    obtain ⟨y, e1, g1⟩ := gz.mul isZero' K.modulus (by omega)
    obtain ⟨out, e2, g2, g3⟩ := write_spec (bits := k.bits) g1 (Nat.mod_lt _ (by omega)) K.fits
    refine ⟨out, ?_, by rw [g3, Nat.mul_zero, Nat.zero_mod]⟩
    unfold bssaUnblind
    rw [if_neg (by rw [hi]; simp [toBytes])]
    simp only [ez, e1, e2]

end

/-- C73: a blinded message, signed blindly and freed from the factor, is the signature of the message: what the private operation makes of it,
and what the public operation turns into the message again. -/
theorem bssa_correct {k : Prv} {kp : Pub} {P Q D E : Nat} (K : PrvKey k P Q D) (C : Crt k P Q D ∨ NoCrt k) (KP : PubKey kp (P * Q) E)
    (hE : Inverse P Q E D) (hbits : kp.bits = k.bits) {s : Bssa} {u : Nat} (hf : Factor (P * Q) E s u) (v : Env) (pad : List UInt8)
    (hp : Bn.Spec.bigEndian pad < 2 ^ 16384) (ops : List (Env × List UInt8)) (ho : Drawn ops) (v' : Env) (hv : ∀ r, v'.rand = some r → ∃ u, Is r u)
    {z sig : List UInt8} (h1 : (bssaBlind kp s v pad).2 = some (some z)) (h2 : (blindSign k kp (prvState k ops) v' z).2 = some (some sig)) :
    ∃ out, bssaUnblind kp (bssaBlind kp s v pad).1 sig = some (some out) ∧ out.length = (k.bits + 7) / 8 ∧
      Bn.Spec.bigEndian out = Bn.Spec.bigEndian pad ^ D % (P * Q) ∧
      ∃ m, pubEnc kp out = some m ∧ Bn.Spec.bigEndian m = Bn.Spec.bigEndian pad % (P * Q) := by
  have hN := N_pos K
  obtain ⟨a, b, -⟩ := blind_exact KP hN s v pad hp
  have hm : Nat.Coprime (Bn.Spec.bigEndian pad) (P * Q) := by
    by_contra hc
    rw [b hc] at h1
    cases h1
  obtain ⟨z', f1, f2, f3, f4, -⟩ := a u hm (.inl hf)
  rw [h1] at f1
  cases f1
  have hd : (prvDec k (prvState k ops) v' z).2 = some (some sig) := by
    unfold blindSign at h2
    rcases hx : prvDec k (prvState k ops) v' z with ⟨s', _ | _ | o⟩
    · rw [hx] at h2; cases h2
    · rw [hx] at h2; cases h2
    · rw [hx] at h2
      dsimp only at h2
      cases hy : pubEnc kp o with
      | none => rw [hy] at h2; cases h2
      | some m =>
        rw [hy] at h2
        dsimp only at h2
        split at h2
        · cases h2
        · exact h2
  obtain ⟨-, q2, -⟩ := prvDec_spec K C _ (prvState_ok K C ops ho) v' hv z
  rcases q2 with q2 | ⟨hi, o, q2, q3, q4⟩
  · rw [hd] at q2; cases q2
  rw [hd] at q2
  cases q2
  obtain ⟨out, w, g1, g2, g3, g4⟩ := (unblind_exact KP hN f4 sig).1 (by rw [q3, hbits])
  have hout : Bn.Spec.bigEndian out = Bn.Spec.bigEndian pad ^ D % (P * Q) := by
    rw [g4, q4, f3]
    refine ((Nat.mod_modEq _ _).mul_right w).trans ?_
    refine (((Nat.mod_modEq _ _).pow D).mul_right w).trans ?_
    have h3 : (u ^ E % (P * Q)) ^ D ≡ u [MOD P * Q] := by
      refine ((Nat.mod_modEq _ _).pow D).trans ?_
      rw [← pow_mul]
      exact pow_inverse K.primeP K.primeQ K.oddP K.oddQ K.ne hE u
    rw [mul_pow, Nat.mul_assoc]
    have := (Nat.ModEq.refl (Bn.Spec.bigEndian pad ^ D)).mul ((h3.mul_right w).trans g3)
    rwa [Nat.mul_one] at this
  refine ⟨out, g1, by rw [g2, hbits], hout, ?_⟩
  obtain ⟨m, e1, -, e3⟩ := (pubEnc_exact KP out).1 (by rw [hout]; exact Nat.mod_lt _ (by omega))
  refine ⟨m, e1, ?_⟩
  rw [e3, hout]
  refine ((Nat.mod_modEq _ _).pow E).trans ?_
  rw [← pow_mul, Nat.mul_comm D E]
  exact pow_inverse K.primeP K.primeQ K.oddP K.oddQ K.ne hE _

/-- C73: the signer signs every message of the length and below the modulus, when the private operation can be done; nothing that does not
verify leaves it. -/
theorem blindSign_exact {k : Prv} {kp : Pub} {P Q D E : Nat} (K : PrvKey k P Q D) (C : Crt k P Q D ∨ NoCrt k) (KP : PubKey kp (P * Q) E)
    (hE : Inverse P Q E D) (hbits : kp.bits = k.bits) (ops : List (Env × List UInt8)) (ho : Drawn ops) (v : Env) (hv : ∀ r, v.rand = some r → ∃ u, Is r u)
    (data : List UInt8) :
    (data.length ≠ (k.bits + 7) / 8 ∨ P * Q ≤ Bn.Spec.bigEndian data → (blindSign k kp (prvState k ops) v data).2 = none) ∧
    (data.length = (k.bits + 7) / 8 → (blindSign k kp (prvState k ops) v data).2 = (prvDec k (prvState k ops) v data).2) := by
  obtain ⟨-, q2, -⟩ := prvDec_spec K C _ (prvState_ok K C ops ho) v hv data
  have hN := N_pos K
  rcases hx : prvDec k (prvState k ops) v data with ⟨s', r⟩
  rw [hx] at q2
  dsimp only at q2
  unfold blindSign
  rw [hx]
  rcases q2 with rfl | ⟨hi, o, rfl, q3, q4⟩
  · exact ⟨fun _ => rfl, fun _ => rfl⟩
  · dsimp only
    obtain ⟨m, e1, e2, e3⟩ := (pubEnc_exact KP o).1 (by rw [q4]; exact Nat.mod_lt _ (by omega))
    have hm : Bn.Spec.bigEndian m = Bn.Spec.bigEndian data := by
      rw [e3, q4]
      have : (Bn.Spec.bigEndian data ^ D % (P * Q)) ^ E ≡ Bn.Spec.bigEndian data [MOD P * Q] := by
        refine ((Nat.mod_modEq _ _).pow E).trans ?_
        rw [← pow_mul, Nat.mul_comm D E]
        exact pow_inverse K.primeP K.primeQ K.oddP K.oddQ K.ne hE _
      have h5 : (Bn.Spec.bigEndian data ^ D % (P * Q)) ^ E % (P * Q) = Bn.Spec.bigEndian data % (P * Q) := this
      rw [h5, Nat.mod_eq_of_lt hi]
    rw [e1]
    dsimp only
    constructor
    · intro h
      have hl := h.resolve_right (by omega)
      rw [if_pos (.inl (by rw [e2, hbits]; exact hl))]
    · intro hl
      have : data = m := bigEndian_inj (by rw [e2, hbits, hl]) hm.symm
      rw [if_neg (by rw [← this]; simp)]

/-! ### The hypotheses can be met -/

/-- The factor 5, set by the caller; the message 65 is blinded, signed and freed; the signature is the one of the message. -/
example : (setBssa exPub none true [5]).2 = true ∧
    (bssaBlind exPub (setBssa exPub none true [5]).1 ⟨none, true⟩ [0, 65]).2 = some (some [0, 144]) ∧
    (blindSign exPrv exPub .unset ⟨some ⟨false, [7]⟩, true⟩ [0, 144]).2 = some (some [11, 124]) ∧
    bssaUnblind exPub (setBssa exPub none true [5]).1 [11, 124] = some (some [2, 76]) ∧
    (prvDec exPrv .unset ⟨some ⟨false, [7]⟩, true⟩ [0, 65]).2 = some (some [2, 76]) := by decide +kernel
theorem exPub_key : PubKey exPub (61 * 53) 17 := ⟨is_small _ _ rfl (by decide), by decide, is_small _ _ rfl (by decide), by decide, by decide⟩
example : ∃ u, Factor (61 * 53) 17 (setBssa exPub none true [5]).1 u :=
  ⟨_, ((setBssa_exact exPub_key (by decide) none true [5]).1 (by decide +kernel)).2⟩

/-- The factor 65535 is refused after the factor 5 was set; removing the factor then gives zero. -/
example : (setBssa exPub (setBssa exPub none true [5]).1 true [255, 255]).2 = false ∧
    bssaUnblind exPub (setBssa exPub (setBssa exPub none true [5]).1 true [255, 255]).1 [3, 7] = some (some [0, 0]) := by decide +kernel
/-- Two messages are blinded with the factor 7 that was drawn for the first; the factor 11 that could be drawn for the second is not. -/
example : ∃ z₁ z₂, (bssaBlind exPub none ⟨some ⟨false, [7]⟩, true⟩ [65]).2 = some (some z₁) ∧
    (bssaBlind exPub (bssaBlind exPub none ⟨some ⟨false, [7]⟩, true⟩ [65]).1 ⟨some ⟨false, [11]⟩, true⟩ [66]).2 = some (some z₂) ∧
    Bn.Spec.bigEndian z₁ * 66 % (61 * 53) = Bn.Spec.bigEndian z₂ * 65 % (61 * 53) := by
  obtain ⟨z₁, e1, -, -, f, -⟩ := (blind_exact exPub_key (by decide) none ⟨some ⟨false, [7]⟩, true⟩ [65] (by decide +kernel)).1 7 (by decide +kernel)
    (.inr ⟨rfl, by decide, _, rfl, is_small 7 7 rfl (by decide)⟩)
  obtain ⟨z₂, e2, -⟩ := (blind_exact exPub_key (by decide) _ ⟨some ⟨false, [11]⟩, true⟩ [66] (by decide +kernel)).1 7 (by decide +kernel) (.inl f)
  refine ⟨z₁, z₂, e1, e2, (blind_linkable exPub_key (by decide) none _ _ [65] [66] z₁ z₂ (.inl rfl) (fun r h => ?_) (by decide +kernel)
    (by decide +kernel) e1 e2).1⟩
  cases h
  exact ⟨7, is_small 7 7 rfl (by decide)⟩

end Verif.Crypto.Rsa
