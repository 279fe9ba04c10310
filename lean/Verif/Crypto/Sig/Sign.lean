import Verif.Crypto.Sig.Proof
import Mathlib.Data.Nat.ModEq
namespace Verif.Crypto.Sig
open Verif.Crypto.Bn Verif.Crypto.Ecc Spec

section
variable {p : Nat} [Fact p.Prime] {b : ZMod p} {c : Para} {G : (Ecc.Spec.Curve b).Point} {N : Nat} (D : Domain c p b G N)

/-- What a round does, for the specification `sign` of the signature. -/
def RoundOk (sign : Nat → Nat → Nat → Prop) (round : Draw → Option (Option (Bn 32 × Bn 32))) (dr : Draw) (k : Nat) : Prop :=
  (∃ r s rn sn, round dr = some (some (r, s)) ∧ Is r rn ∧ Is s sn ∧ sign k rn sn) ∨ (round dr = some none ∧ ∀ rn sn, ¬ sign k rn sn)

theorem rounds_spec {sign : Nat → Nat → Nat → Prop} {round : Draw → Option (Option (Bn 32 × Bn 32))} {P : Draw → Nat → Prop}
    (h : ∀ dr k, P dr k → RoundOk sign round dr k) : ∀ {draws : List Draw} {ks : List Nat}, List.Forall₂ P draws ks →
    (∃ r s rn sn, rounds round draws = some (r, s) ∧ Is r rn ∧ Is s sn ∧ First sign ks rn sn) ∨
      (rounds round draws = none ∧ ∀ rn sn, ¬ First sign ks rn sn)
  | _, _, .nil => .inr ⟨rfl, fun _ _ h => h⟩
  | _, _, .cons (a := dr) (b := k) (l₁ := drs) (l₂ := ks) h1 h2 => by
    unfold rounds
    rcases h dr k h1 with ⟨r, s, rn, sn, e, hr, hs, hsig⟩ | ⟨e, hno⟩
    · rw [e]
      exact .inl ⟨r, s, rn, sn, rfl, hr, hs, .inl hsig⟩
    · rw [e]
      rcases rounds_spec h h2 with ⟨r, s, rn, sn, e', hr, hs, hf⟩ | ⟨e', hf⟩
      · exact .inl ⟨r, s, rn, sn, e', hr, hs, .inr ⟨hno, hf⟩⟩
      · refine .inr ⟨e', fun rn sn hx => ?_⟩
        rcases hx with hx | ⟨-, hx⟩
        · exact hno _ _ hx
        · exact hf _ _ hx

theorem xCoord_zero : xCoord ((0 : Nat) • G) = none := by rw [zero_nsmul]; rfl

include D in
theorem ecdsaRound_spec {prv e : Bn 32} {d en : Nat} (hd : Is prv d) (he : Is e en) (hl : e.data.length ≤ c.n.data.length) (dr : Draw) (k : Nat)
    (h : Drawn p N dr k) : RoundOk (EcdsaSign N G d en) (ecdsaRound c prv e) dr k := by
  have hN0 : 0 < N := D.prime.pos
  have hk := h.1
  unfold RoundOk ecdsaRound
  by_cases hk0 : k = 0
  · rw [if_pos (hk.zero.mpr hk0)]
    refine .inr ⟨rfl, ?_⟩
    rintro rn sn ⟨⟨x, hx, -⟩, -⟩
    rw [hk0, xCoord_zero] at hx
    cases hx
  · rw [if_neg (fun e => hk0 (hk.zero.mp e))]
    obtain ⟨q, e1, hq⟩ := drawn_mul D h D.gen D.ne
    obtain ⟨x, hx⟩ := xCoord_some D (ord_of_mul D h.2.1 hk0)
    obtain ⟨a, e2, ha, -⟩ := (getX_spec D hq).1 x hx
    obtain ⟨r, e3, hr⟩ := ha.mod D.order hN0
    simp only [e1, e2, e3, Option.bind_eq_bind, Option.bind_some]
    by_cases hr0 : x % N = 0
    · rw [if_pos (hr.zero.mpr hr0)]
      refine .inr ⟨rfl, ?_⟩
      rintro rn sn ⟨⟨x', hx', h1⟩, h2, -⟩
      rw [hx, Option.some.injEq] at hx'
      exact h2 (by rw [h1, ← hx', hr0])
    · rw [if_neg (fun e => hr0 (hr.zero.mp e))]
      obtain ⟨s0, e4, hs0⟩ := hd.mul hr D.order hN0
      obtain ⟨s1, z, e5, hz, hz1, -⟩ := he.addQuick hs0 D.order (Nat.mod_lt _ hN0) hl
      obtain ⟨k2, w, e6, hw, -, hinv⟩ := (hk.inv D.order D.prime.one_lt).1 (coprime_lt D h.2.1 hk0)
      obtain ⟨s, e7, hs⟩ := hw.mul hz D.order hN0
      simp only [e4, e5, e6, e7, Option.bind_some]
      have hzm : z ≡ en + d * (x % N) [MOD N] := Nat.ModEq.trans hz1 (Nat.ModEq.add_left _ (Nat.mod_modEq _ _))
      have hinv' : w * k ≡ 1 [MOD N] := by
        show w * k % N = 1 % N
        rw [hinv, Nat.mod_eq_of_lt D.prime.one_lt]
      by_cases hs00 : w * z % N = 0
      · rw [if_pos (hs.zero.mpr hs00)]
        refine .inr ⟨rfl, ?_⟩
        rintro rn sn ⟨⟨x', hx', h1⟩, h2, h3, h4, h5⟩
        rw [hx, Option.some.injEq] at hx'
        subst hx'
        rw [h1] at h5
        have t : sn ≡ w * z [MOD N] := by
          have t1 : w * (k * sn) ≡ w * z [MOD N] := Nat.ModEq.mul_left w (Nat.ModEq.trans h5 hzm.symm)
          have t2 : w * (k * sn) ≡ 1 * sn [MOD N] := by rw [← Nat.mul_assoc]; exact Nat.ModEq.mul_right sn hinv'
          rw [Nat.one_mul] at t2
          exact t2.symm.trans t1
        have t' : sn % N = w * z % N := t
        rw [hs00, Nat.mod_eq_of_lt h4] at t'
        exact h3 t'
      · rw [if_neg (fun e => hs00 (hs.zero.mp e))]
        refine .inl ⟨r, s, _, _, rfl, hr, hs, ⟨x, hx, rfl⟩, hr0, hs00, Nat.mod_lt _ hN0, ?_⟩
        have t1 : k * (w * z % N) ≡ k * (w * z) [MOD N] := Nat.ModEq.mul_left k (Nat.mod_modEq _ _)
        have t2 : k * (w * z) ≡ 1 * z [MOD N] := by
          rw [← Nat.mul_assoc, Nat.mul_comm k w]; exact Nat.ModEq.mul_right z hinv'
        rw [Nat.one_mul] at t2
        exact (t1.trans t2).trans hzm

include D in
theorem sm2Round_spec {prv inv e : Bn 32} {d i en : Nat} (hd : Is prv d) (hi : Is inv i) (hi1 : i * (d + 1) % N = 1) (he : Is e en) (dr : Draw) (k : Nat)
    (h : Drawn p N dr k) : RoundOk (Sm2Sign N G d en) (sm2Round c prv inv e) dr k := by
  have hN0 : 0 < N := D.prime.pos
  have hk := h.1
  unfold RoundOk sm2Round
  by_cases hk0 : k = 0
  · rw [if_pos (hk.zero.mpr hk0)]
    refine .inr ⟨rfl, ?_⟩
    rintro rn sn ⟨⟨x, hx, -⟩, -⟩
    rw [hk0, xCoord_zero] at hx
    cases hx
  · rw [if_neg (fun e => hk0 (hk.zero.mp e))]
    obtain ⟨q, e1, hq⟩ := drawn_mul D h D.gen D.ne
    obtain ⟨x, hx⟩ := xCoord_some D (ord_of_mul D h.2.1 hk0)
    obtain ⟨a, e2, ha, -⟩ := (getX_spec D hq).1 x hx
    obtain ⟨r, e3, hr⟩ := he.add ha D.order hN0
    simp only [e1, e2, e3, Option.bind_eq_bind, Option.bind_some]
    have ht : Is (bnAdd r dr.k) ((en + x) % N + k) := by
      obtain ⟨t1, t2⟩ := bn_add (by decide) r dr.k hr.1 hk.1
      exact ⟨t2, by rw [t1, hr.2, hk.2]; push_cast; rfl⟩
    by_cases hr0 : (en + x) % N = 0 ∨ (en + x) % N + k = N
    · rw [if_pos (by rw [hr.zero, (ht.cmp D.order).2]; exact hr0)]
      refine .inr ⟨rfl, ?_⟩
      rintro rn sn ⟨⟨x', hx', h1⟩, h2, h3, -⟩
      rw [hx, Option.some.injEq] at hx'
      subst hx'
      rw [← h1] at hr0
      exact hr0.elim h2 h3
    · rw [if_neg (by rw [hr.zero, (ht.cmp D.order).2]; exact hr0)]
      rw [not_or] at hr0
      obtain ⟨s0, e4, hs0⟩ := hd.mul hr D.order hN0
      obtain ⟨s1, z, e5, hz, -, hz1⟩ := hk.sub hs0 D.order hN0
      obtain ⟨s, e7, hs⟩ := hi.mul hz D.order hN0
      simp only [e4, e5, e7, Option.bind_some]
      generalize hrn : (en + x) % N = rr at *
      have hzm : z + d * rr ≡ k [MOD N] := Nat.ModEq.trans (Nat.ModEq.add_left z (Nat.mod_modEq _ _).symm) hz1
      have hinv' : i * (d + 1) ≡ 1 [MOD N] := by
        show i * (d + 1) % N = 1 % N
        rw [hi1, Nat.mod_eq_of_lt D.prime.one_lt]
      by_cases hs00 : i * z % N = 0
      · rw [if_pos (hs.zero.mpr hs00)]
        refine .inr ⟨rfl, ?_⟩
        rintro rn sn ⟨⟨x', hx', h1⟩, h2, h3, h4, h5, h6⟩
        rw [hx, Option.some.injEq] at hx'
        subst hx'
        rw [hrn] at h1
        subst h1
        have c1 : (1 + d) * sn + rn * d ≡ z + rn * d [MOD N] := by
          have h6' : (1 + d) * sn + rn * d ≡ k [MOD N] := h6
          rw [Nat.mul_comm d rn] at hzm
          exact h6'.trans hzm.symm
        have c2 : (1 + d) * sn ≡ z [MOD N] := Nat.ModEq.add_right_cancel' _ c1
        have c3 : i * ((1 + d) * sn) ≡ i * z [MOD N] := Nat.ModEq.mul_left i c2
        have c4 : i * ((1 + d) * sn) ≡ 1 * sn [MOD N] := by
          rw [← Nat.mul_assoc, Nat.add_comm 1 d]; exact Nat.ModEq.mul_right sn hinv'
        rw [Nat.one_mul] at c4
        have t' : sn % N = i * z % N := c4.symm.trans c3
        rw [hs00, Nat.mod_eq_of_lt h5] at t'
        exact h4 t'
      · rw [if_neg (fun e => hs00 (hs.zero.mp e))]
        refine .inl ⟨r, s, _, _, rfl, hr, hs, ⟨x, hx, hrn.symm⟩, hr0.1, hr0.2, hs00, Nat.mod_lt _ hN0, ?_⟩
        have c1 : (1 + d) * (i * z % N) ≡ (1 + d) * (i * z) [MOD N] := Nat.ModEq.mul_left _ (Nat.mod_modEq _ _)
        have c2 : (1 + d) * (i * z) ≡ 1 * z [MOD N] := by
          rw [← Nat.mul_assoc, Nat.add_comm 1 d, Nat.mul_comm (d + 1) i]; exact Nat.ModEq.mul_right z hinv'
        rw [Nat.one_mul] at c2
        have c3 := Nat.ModEq.add_right (rr * d) (c1.trans c2)
        rw [Nat.mul_comm d rr] at hzm
        exact c3.trans hzm

/-! ### Signatures are valid -/

include D in
theorem ecdsa_valid {d en k r s : Nat} (h : EcdsaSign N G d en k r s) : EcdsaValid N G (d • G) en r s := by
  obtain ⟨⟨x, hx, h1⟩, h2, h3, h4, h5⟩ := h
  have hN0 : 0 < N := D.prime.pos
  obtain ⟨w, -, hw⟩ := Nat.exists_mul_mod_eq_one_of_coprime (coprime_lt D h4 h3) D.prime.one_lt
  refine ⟨⟨by omega, by rw [h1]; exact Nat.mod_lt _ hN0⟩, ⟨by omega, h4⟩, w, x, hw, ?_, h1.symm⟩
  rw [← hx, smul_smul, ← add_smul]
  congr 1
  apply smul_mod D D.nsmul
  have hw' : s * w ≡ 1 [MOD N] := by show s * w % N = 1 % N; rw [hw, Nat.mod_eq_of_lt D.prime.one_lt]
  have t1 : en * w % N + r * w % N * d ≡ en * w + r * w * d [MOD N] :=
    Nat.ModEq.add (Nat.mod_modEq _ _) (Nat.ModEq.mul_right d (Nat.mod_modEq _ _))
  have t2 : k * s * w ≡ (en + d * r) * w [MOD N] := Nat.ModEq.mul_right w h5
  have t3 : k * s * w ≡ k * 1 [MOD N] := by rw [Nat.mul_assoc]; exact Nat.ModEq.mul_left k hw'
  rw [show en * w + r * w * d = (en + d * r) * w by ring] at t1
  rw [Nat.mul_one] at t3
  exact t1.trans (t2.symm.trans t3)

include D in
theorem sm2_valid {d en k r s : Nat} (hk : k < N) (h : Sm2Sign N G d en k r s) : Sm2Valid N G (d • G) en r s := by
  obtain ⟨⟨x, hx, h1⟩, h2, h3, h4, h5, h6⟩ := h
  have hN0 : 0 < N := D.prime.pos
  have hr : r < N := by rw [h1]; exact Nat.mod_lt _ hN0
  have h6' : (1 + d) * s + r * d ≡ k [MOD N] := h6
  refine ⟨⟨by omega, hr⟩, ⟨by omega, h5⟩, ?_, x, ?_, h1.symm⟩
  · intro h0
    have t0 : r + s ≡ 0 [MOD N] := by show (r + s) % N = 0 % N; rw [h0, Nat.zero_mod]
    have t1 : (r + s) * (1 + d) ≡ 0 * (1 + d) [MOD N] := Nat.ModEq.mul_right _ t0
    have t2 : (1 + d) * s + r * d + r ≡ k + r [MOD N] := Nat.ModEq.add_right r h6'
    rw [show (1 + d) * s + r * d + r = (r + s) * (1 + d) by ring] at t2
    have t3 : (k + r) % N = 0 := by
      have : k + r ≡ 0 * (1 + d) [MOD N] := t2.symm.trans t1
      rw [Nat.zero_mul] at this
      have := this
      unfold Nat.ModEq at this
      rwa [Nat.zero_mod] at this
    obtain ⟨q, hq⟩ := Nat.dvd_of_mod_eq_zero t3
    have : q = 1 := by
      rcases Nat.lt_or_ge q 1 with hlt | hge
      · have : q = 0 := by omega
        subst this; omega
      · rcases Nat.lt_or_ge 1 q with hgt | hle
        · have := Nat.mul_le_mul_left N (show 2 ≤ q by omega)
          omega
        · omega
    subst this
    omega
  · rw [← hx, smul_smul, ← add_smul]
    congr 1
    apply smul_mod D D.nsmul
    have t1 : s + (r + s) % N * d ≡ s + (r + s) * d [MOD N] := Nat.ModEq.add_left s (Nat.ModEq.mul_right d (Nat.mod_modEq _ _))
    rw [show s + (r + s) * d = (1 + d) * s + r * d by ring] at t1
    exact t1.trans h6'

theorem first_mem {sign : Nat → Nat → Nat → Prop} : ∀ {ks : List Nat} {r s : Nat}, First sign ks r s → ∃ k ∈ ks, sign k r s
  | [], _, _, h => h.elim
  | k :: ks, r, s, h => by
    rcases h with h | ⟨-, h⟩
    · exact ⟨k, List.mem_cons_self, h⟩
    · obtain ⟨k', hk, hs⟩ := first_mem h
      exact ⟨k', List.mem_cons_of_mem _ hk, hs⟩

end

end Verif.Crypto.Sig
