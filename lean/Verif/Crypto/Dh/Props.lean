import Verif.Crypto.Dh.Proof
import Verif.Crypto.Sig.Props

/-! C72: the finite-field Diffie-Hellman key exchange. -/
namespace Verif.Crypto.Dh
open Verif.Crypto.Bn Verif.Crypto.Sig Verif.Crypto.Sig.Spec Verif.Crypto.Rsa Spec

/-- C72: parameters are taken exactly when the lengths are right and the numbers good, and set as given. -/
theorem setPara_exact (p g : List UInt8) (q : Option (List UInt8)) :
    let ok := (p.length ≠ 0 ∧ p.length ≤ 1024) ∧ (g.length ≠ 0 ∧ g.length ≤ p.length) ∧ (∀ b, q = some b → b.length ≤ p.length) ∧
      Good (Bn.Spec.bigEndian p) (Bn.Spec.bigEndian g) (q.map Bn.Spec.bigEndian)
    (ok → ∃ a, setPara p g q = some a ∧ a.safe = false ∧ Domain a (Bn.Spec.bigEndian p) (Bn.Spec.bigEndian g) (q.map Bn.Spec.bigEndian)) ∧
    (¬ ok → setPara p g q = none) := by
  intro ok
  have hok : newParaOk p g q = true ↔ (p.length ≠ 0 ∧ p.length ≤ 1024) ∧ (g.length ≠ 0 ∧ g.length ≤ p.length) ∧ (∀ b, q = some b → b.length ≤ p.length) := by
    unfold newParaOk
    cases q with
    | none =>
      split_ifs <;> simp only [reduceCtorEq, false_implies, implies_true, and_true, true_iff, Bool.false_eq_true, false_iff] <;> omega
    | some b =>
      have hb : (∀ b', some b = some b' → b'.length ≤ p.length) ↔ b.length ≤ p.length :=
        ⟨fun h => h b rfl, fun h b' e => by cases e; exact h⟩
      rw [hb]
      dsimp only
      split_ifs <;> simp only [Bool.false_eq_true, false_iff, Bool.not_eq_true', decide_eq_false_iff_not] <;> omega
  have key : newParaOk p g q = true → ∃ a, newPara p g q = some a ∧ a.safe = false ∧ Is a.p (Bn.Spec.bigEndian p) ∧ Is a.g (Bn.Spec.bigEndian g) ∧
      ((a.q = none ∧ q.map Bn.Spec.bigEndian = none) ∨ ∃ b n, a.q = some b ∧ q.map Bn.Spec.bigEndian = some n ∧ Is b n) := by
    intro h
    unfold newPara
    rw [if_neg (by rw [h]; decide)]
    obtain ⟨h1, h2, h3⟩ := hok.mp h
    obtain ⟨bp, e1, g1⟩ := bin_some (big_lt (show p.length ≤ 2048 by omega))
    obtain ⟨bg, e2, g2⟩ := bin_some (big_lt (show g.length ≤ 2048 by omega))
    rw [e1, e2]
    cases q with
    | none => exact ⟨_, rfl, rfl, g1, g2, .inl ⟨rfl, rfl⟩⟩
    | some b =>
      have := h3 b rfl
      obtain ⟨bq, e3, g3⟩ := bin_some (big_lt (show b.length ≤ 2048 by omega))
      dsimp only
      rw [e3]
      exact ⟨_, rfl, rfl, g1, g2, .inr ⟨bq, _, rfl, rfl, g3⟩⟩
  unfold setPara
  constructor
  · rintro ⟨h1, h2, h3, h4⟩
    obtain ⟨a, e, f1, f2, f3, f4⟩ := key (hok.mpr ⟨h1, h2, h3⟩)
    rw [e]
    dsimp only
    rw [if_pos ((paraDataOk_iff f2 f3 f4).mpr h4)]
    exact ⟨a, rfl, f1, f2, f3, f4, h4⟩
  · intro h
    by_cases c : newParaOk p g q = true
    · obtain ⟨a, e, f1, f2, f3, f4⟩ := key c
      rw [e]
      dsimp only
      rw [if_neg]
      intro hc
      obtain ⟨h1, h2, h3⟩ := hok.mp c
      exact h ⟨h1, h2, h3, (paraDataOk_iff f2 f3 f4).mp hc⟩
    · unfold newPara
      rw [if_pos (by rw [← Bool.not_eq_true]; exact c)]

/-- C72: a private key is taken exactly when it is not longer than the order (or the modulus) and between one and the greatest one. -/
theorem setPrv_exact {a : Para} {P G : Nat} {Q : Option Nat} (D : Domain a P G Q) (prv : List UInt8) :
    let X := Bn.Spec.bigEndian prv
    let ok := (∀ len, Bn.Spec.IsByteLen len (Q.getD P) → prv.length ≤ len) ∧ 0 < X ∧ X ≤ maxPrv P Q
    (ok → ∃ x, setPrv a prv = some x ∧ Is x X) ∧ (¬ ok → setPrv a prv = none) := by
  intro X ok
  have hX : X = Bn.Spec.bigEndian prv := rfl
  have hlen : ∃ B, prvBytes a = B ∧ Bn.Spec.IsByteLen B (Q.getD P) ∧ ∀ len, Bn.Spec.IsByteLen len (Q.getD P) → len = B := by
    unfold prvBytes
    rcases D.order with ⟨e1, rfl⟩ | ⟨q, n, e1, rfl, g⟩
    · rw [e1]
      have h := byteLen_iff a.p D.modulus.1
      rw [D.modulus.2, Int.natAbs_natCast] at h
      exact ⟨_, rfl, h, fun len hl => (bytes_is D.modulus hl).symm⟩
    · rw [e1]
      have h := byteLen_iff q g.1
      rw [g.2, Int.natAbs_natCast] at h
      exact ⟨_, rfl, h, fun len hl => (bytes_is g hl).symm⟩
  obtain ⟨B, hB, hb, hu⟩ := hlen
  have hle : (∀ len, Bn.Spec.IsByteLen len (Q.getD P) → prv.length ≤ len) ↔ prv.length ≤ B :=
    ⟨fun h => h B hb, fun h len hl => by rw [hu len hl]; exact h⟩
  have hB2 : B ≤ 1024 := by
    refine hb.2 1024 ?_
    have hp : P < 2 ^ 8192 := D.good.1.2
    rw [show (256 : Nat) = 2 ^ 8 from rfl, ← pow_mul]
    cases Q with
    | none => exact hp
    | some n => exact Nat.lt_of_lt_of_le (Nat.lt_of_lt_of_le (D.good.2.2.2 n rfl).2.2.1 (Nat.sub_le _ _)) (Nat.le_of_lt hp)
  have hx := xLimb_is D
  unfold setPrv
  rw [hB]
  constructor
  · rintro ⟨h1, h2, h3⟩
    have h1 := hle.mp h1
    obtain ⟨x, e, g⟩ := bin_some (big_lt (show prv.length ≤ 2048 by omega))
    rw [if_neg, if_neg (by omega), e]
    · dsimp only
      have := cmp_le g hx
      rw [if_neg (by have := this.mpr h3; omega), if_neg (by rw [g.zero]; omega)]
      exact ⟨x, rfl, g⟩
    · intro h0
      rw [List.length_eq_zero_iff.mp h0] at hX
      exact absurd (show Bn.Spec.bigEndian [] = 0 from rfl) (by omega)
  · intro h
    split
    · rfl
    split
    · rfl
    rename_i c1 c2
    obtain ⟨x, e, g⟩ := bin_some (big_lt (show prv.length ≤ 2048 by omega))
    rw [e]
    dsimp only
    have m := cmp_le g hx
    by_cases c3 : X ≤ maxPrv P Q
    · rw [if_neg (by have := m.mpr c3; omega)]
      by_cases c4 : 0 < X
      · exact absurd ⟨hle.mpr (by omega), c4, c3⟩ h
      · rw [if_pos (by rw [g.zero]; omega)]
    · rw [if_pos]
      by_contra hc
      exact c3 (m.mp (by omega))

/-- C72: the shared secret is the public key to the power of the private key. It is computed exactly when the buffer has room for the modulus
and the public key is valid; it is written with leading zeros to the length of the modulus, or without any if so configured, and nothing
behind it changes. -/
theorem share_exact {a : Para} {P G : Nat} {Q : Option Nat} (D : Domain a P G Q) {x y : Bn 32} {X Y n : Nat} (hx : Is x X) (hy : Is y Y)
    (hn : Bn.Spec.IsByteLen n P) (noPad : Bool) (buf : List UInt8) :
    let Z := Y ^ X % P
    (n ≤ buf.length ∧ Valid a P Q Y → ∃ bs len, share a x y noPad buf = some (some (bs ++ buf.drop len, len)) ∧ Encodes bs len Z ∧
      (noPad = false → len = n) ∧ (noPad = true → len ≠ 0 ∧ ∀ m, m ≠ 0 → Z < 256 ^ m → len ≤ m)) ∧
    (¬ (n ≤ buf.length ∧ Valid a P Q Y) → share a x y noPad buf = some none) := by
  intro Z
  have hP : 1 < P := Nat.lt_of_lt_of_le (Nat.one_lt_two_pow (by decide)) D.good.1.1
  have hZ : Z < P := Nat.mod_lt _ (by omega)
  obtain ⟨M, a1, -, -, a4⟩ := mont_is D.modulus D.good.2.1
  have hb := bytes_is D.modulus hn
  have ht := toBytes_is D.modulus hn
  have hpub := pubOk_iff hy (sub_one D.modulus (by omega))
  have hsub : subgroupOk a y M = true ↔ ∀ n, Q = some n → a.safe = false → Y ^ n % P = 1 := by
    unfold subgroupOk
    rcases D.order with ⟨e1, rfl⟩ | ⟨q, n, e1, rfl, g⟩
    · rw [e1]
      exact ⟨fun _ n h => by (cases h), fun _ => rfl⟩
    · rw [e1]
      dsimp only
      by_cases hs : a.safe = true
      · rw [if_pos hs]
        exact ⟨fun _ n _ h => by (rw [hs] at h; cases h), fun _ => rfl⟩
      · rw [if_neg hs]
        obtain ⟨t, e2, g2⟩ := a4 y q _ _ hy g false
        rw [e2, Option.join_some]
        dsimp only
        rw [isOne_iff g2]
        refine ⟨fun h n' e _ => ?_, fun h => h n rfl (by rw [← Bool.not_eq_true]; exact hs)⟩
        cases e
        exact h
  unfold share
  rw [hb, ht]
  constructor
  · rintro ⟨h1, h2, h3⟩
    rw [if_neg (by omega), a1, Option.join_some]
    dsimp only
    rw [if_neg (by rw [hpub.mpr h2]; decide), if_neg (by rw [hsub.mpr h3]; decide)]
    obtain ⟨z, e1, g1⟩ := a4 y x _ _ hy hx true
    rw [e1, Option.join_some]
    dsimp only
    have hn0 : n ≠ 0 := by
      rintro rfl
      have := hn.1
      rw [Nat.pow_zero] at this
      omega
    have hfit : Z < 256 ^ n := Nat.lt_trans hZ hn.1
    have hw := (bn2Bin_exact z g1.1 buf.length (by omega)).1 (by
      rw [g1.2, Int.natAbs_natCast]
      exact Nat.lt_of_lt_of_le hfit (Nat.pow_le_pow_right (by decide) h1))
    rw [g1.2, Int.natAbs_natCast] at hw
    obtain ⟨bs, e2, w1, w2, w3, w4⟩ := hw
    rw [e2]
    dsimp only
    have hmin : bs.length ≠ 0 ∧ ∀ m, m ≠ 0 → Z < 256 ^ m → bs.length ≤ m := by
      by_cases hz : Z = 0
      · rw [w4 (by exact_mod_cast hz)]
        exact ⟨by decide, fun m h _ => by rw [List.length_singleton]; omega⟩
      · have := w3 (by exact_mod_cast hz)
        refine ⟨fun h0 => ?_, fun m _ h => this.2 m h⟩
        have h := this.1
        rw [h0, Nat.pow_zero] at h
        exact hz (by omega)
    cases noPad with
    | true =>
      rw [if_pos rfl]
      exact ⟨bs, bs.length, rfl, ⟨rfl, w1⟩, by simp, fun _ => hmin⟩
    | false =>
      rw [if_neg (by decide)]
      have hl := hmin.2 n hn0 hfit
      rw [fillZero_spec bs _ n hl (by rw [List.length_drop]; omega)]
      dsimp only
      refine ⟨List.replicate (n - bs.length) 0 ++ bs, n, ?_, ⟨?_, ?_⟩, fun _ => rfl, by simp⟩
      · rw [List.drop_drop, show bs.length + (n - bs.length) = n by omega]
      · rw [List.length_append, List.length_replicate]; omega
      · rw [big_zeros]; exact w1
  · intro h
    split
    · rfl
    rw [a1, Option.join_some]
    dsimp only
    split
    · rfl
    split
    · rfl
    rename_i c1 c2 c3
    rw [Bool.not_eq_false] at c2 c3
    exact absurd ⟨by omega, hpub.mp c2, hsub.mp c3⟩ h

/-- C72: two parties with the same parameters whose public keys are valid compute the same bytes, those of the generator to the power of both
private keys. -/
theorem share_agrees {a : Para} {P G : Nat} {Q : Option Nat} (D : Domain a P G Q) {x₁ y₁ x₂ y₂ : Bn 32} {X₁ X₂ n : Nat} (h1 : Is x₁ X₁) (h2 : Is x₂ X₂)
    (h3 : Is y₁ (G ^ X₁ % P)) (h4 : Is y₂ (G ^ X₂ % P)) (v1 : Valid a P Q (G ^ X₁ % P)) (v2 : Valid a P Q (G ^ X₂ % P))
    (hn : Bn.Spec.IsByteLen n P) (b₁ b₂ : List UInt8) (l1 : n ≤ b₁.length) (l2 : n ≤ b₂.length) :
    ∃ bs, Encodes bs n (G ^ (X₁ * X₂) % P) ∧ share a x₁ y₂ false b₁ = some (some (bs ++ b₁.drop n, n)) ∧
      share a x₂ y₁ false b₂ = some (some (bs ++ b₂.drop n, n)) := by
  obtain ⟨s1, m1, e1, f1, g1, -⟩ := (share_exact D h1 h4 hn false b₁).1 ⟨l1, v2⟩
  obtain ⟨s2, m2, e2, f2, g2, -⟩ := (share_exact D h2 h3 hn false b₂).1 ⟨l2, v1⟩
  have g1 := g1 rfl
  have g2 := g2 rfl
  subst g1 g2
  have k1 : (G ^ X₂ % P) ^ X₁ % P = G ^ (X₁ * X₂) % P := by rw [← Nat.pow_mod, ← pow_mul, Nat.mul_comm]
  have k2 : (G ^ X₁ % P) ^ X₂ % P = G ^ (X₁ * X₂) % P := by rw [← Nat.pow_mod, ← pow_mul]
  rw [k1] at f1
  rw [k2] at f2
  have : s2 = s1 := bigEndian_inj (by rw [f1.1, f2.1]) (by rw [f1.2, f2.2])
  subst this
  exact ⟨s2, f1, e1, e2⟩

theorem candLoop_spec {g m p : Bn 32} {P G B : Nat} {M : Mont 32} (hg : Is g G) (hm : Is m B)
    (hM : ∀ (a e : Bn 32) (x y : Nat), Is a x → Is e y → ∀ ct, ∃ r, bnMontExp M a e ct = some (some r) ∧ Is r (x ^ y % P))
    (cs : List (Bn 32)) (Cs : List Nat) (h : List.Forall₂ Is cs Cs) :
    (∀ X, FirstOf (fun X => X < B) (Cs.map (· + 1)) X → ∃ k, candLoop g m M (cs.map some) = some k ∧ Is k.x X ∧ Is k.y (G ^ X % P)) ∧
    ((∀ X, ¬ FirstOf (fun X => X < B) (Cs.map (· + 1)) X) → candLoop g m M (cs.map some) = none) := by
  induction h with
  | nil => exact ⟨fun X h => h.elim, fun _ => rfl⟩
  | @cons c C cs Cs hc _ ih =>
    simp only [List.map_cons, candLoop, FirstOf]
    have hx := add_one hc
    have hcmp := (hx.cmp hm).1
    by_cases h1 : C + 1 < B
    · rw [if_neg (by rw [hcmp]; omega)]
      obtain ⟨y, e, g⟩ := hM g _ _ _ hg hx true
      rw [e, Option.join_some]
      refine ⟨fun X h => ?_, fun h => absurd (.inl ⟨h1, rfl⟩) (h (C + 1))⟩
      rcases h with ⟨_, rfl⟩ | ⟨hn, _⟩
      · exact ⟨_, rfl, hx, g⟩
      · exact absurd h1 hn
    · rw [if_pos (by rw [hcmp]; omega)]
      refine ⟨fun X h => ih.1 X ?_, fun h => ih.2 fun X hX => h X (.inr ⟨h1, hX⟩)⟩
      rcases h with ⟨h, _⟩ | ⟨_, h⟩
      · exact absurd h h1
      · exact h

theorem safeLoop_spec {g m : Bn 32} {P G : Nat} {M : Mont 32} (hg : Is g G) (hm : Is m (P - 1))
    (hM : ∀ (a e : Bn 32) (x y : Nat), Is a x → Is e y → ∀ ct, ∃ r, bnMontExp M a e ct = some (some r) ∧ Is r (x ^ y % P))
    (cs : List (Bn 32)) (Cs : List Nat) (h : List.Forall₂ Is cs Cs) :
    let W := fun X => 1 < G ^ X % P ∧ G ^ X % P < P - 1
    (∀ X, FirstOf W (Cs.map (· + 1)) X → ∃ k, safeLoop g m M (cs.map some) = some k ∧ Is k.x X ∧ Is k.y (G ^ X % P)) ∧
    ((∀ X, ¬ FirstOf W (Cs.map (· + 1)) X) → safeLoop g m M (cs.map some) = none) := by
  intro W
  induction h with
  | nil => exact ⟨fun X h => h.elim, fun _ => rfl⟩
  | @cons c C cs Cs hc _ ih =>
    simp only [List.map_cons, safeLoop, FirstOf]
    have hx := add_one hc
    obtain ⟨y, e, gy⟩ := hM g _ _ _ hg hx true
    rw [e, Option.join_some]
    dsimp only
    have hcmp := (gy.cmp hm).1
    have hone := isOne_iff gy
    have hzero := gy.zero
    by_cases h1 : W (C + 1)
    · have h1' : 1 < G ^ (C + 1) % P ∧ G ^ (C + 1) % P < P - 1 := h1
      rw [if_neg (by rw [hcmp, hone, hzero]; omega)]
      refine ⟨fun X h => ?_, fun h => absurd (.inl ⟨h1, rfl⟩) (h (C + 1))⟩
      rcases h with ⟨_, rfl⟩ | ⟨hn, _⟩
      · exact ⟨_, rfl, hx, gy⟩
      · exact absurd h1 hn
    · have h1' : ¬ (1 < G ^ (C + 1) % P ∧ G ^ (C + 1) % P < P - 1) := h1
      rw [if_pos (by rw [hcmp, hone, hzero]; omega)]
      refine ⟨fun X h => ih.1 X ?_, fun h => ih.2 fun X hX => h X (.inr ⟨h1, hX⟩)⟩
      rcases h with ⟨h, _⟩ | ⟨_, h⟩
      · exact absurd h h1
      · exact h

/-- C72: the generated key is made from the first of at most a hundred drawn numbers that is wanted, the public key is the generator to the
power of the private key, and if there is none an error is returned. -/
theorem gen_exact {a : Para} {P G : Nat} {Q : Option Nat} (D : Domain a P G Q) (cs : List (Bn 32)) (Cs : List Nat) (h : List.Forall₂ Is cs Cs) :
    let Xs := (Cs.take 100).map (· + 1)
    (∀ X, FirstOf (Wanted P G Q) Xs X → ∃ k, gen a (cs.map some) = some k ∧ Is k.x X ∧ Is k.y (G ^ X % P)) ∧
    ((∀ X, ¬ FirstOf (Wanted P G Q) Xs X) → gen a (cs.map some) = none) := by
  intro Xs
  have hP : 1 < P := Nat.lt_of_lt_of_le (Nat.one_lt_two_pow (by decide)) D.good.1.1
  obtain ⟨M, a1, -, -, a4⟩ := mont_is D.modulus D.good.2.1
  have ht : List.Forall₂ Is (cs.take 100) (Cs.take 100) := List.forall₂_take 100 h
  have hsafe := safeLoop_spec D.gen (sub_one D.modulus (by omega)) a4 _ _ ht
  unfold gen
  rcases D.order with ⟨e1, rfl⟩ | ⟨q, n, e1, rfl, g⟩
  · rw [e1]
    dsimp only
    unfold genSafe
    rw [a1, Option.join_some, ← List.map_take]
    exact hsafe
  · rw [e1]
    dsimp only
    have hs := secBits_is D.modulus g D.good.1.2
    rw [hs]
    unfold Wanted
    dsimp only
    by_cases h0 : strength P n ≠ 0
    · simp only [if_pos h0]
      unfold genCand
      dsimp only
      rw [hs]
      have b1 : binBits a.p.data ≠ 0 := by
        rw [bits_is D.modulus]; intro hc
        have := (bits_lt P 0).mp (by omega)
        rw [Nat.pow_zero] at this; omega
      have hn1 : 1 < n := Nat.lt_of_lt_of_le (Nat.one_lt_two_pow (by decide)) (D.good.2.2.2 n rfl).1
      have b2 : binBits q.data ≠ 0 := by
        rw [bits_is g]; intro hc
        have := (bits_lt n 0).mp (by omega)
        rw [Nat.pow_zero] at this; omega
      rw [if_neg (by simp only [not_or]; exact ⟨b1, b2, h0⟩), a1, Option.join_some]
      obtain ⟨t, e2, g2⟩ := two_pow (2 * strength P n)
      rw [e2, ← List.map_take]
      dsimp only
      have hm : Is (if bnCmp t q < 0 then t else q) (min (2 ^ (2 * strength P n)) n) := by
        have := (g2.cmp g).1
        by_cases hc : n ≤ 2 ^ (2 * strength P n)
        · rw [if_neg (by have := this.mpr hc; omega), Nat.min_eq_right hc]; exact g
        · rw [if_pos (by by_contra hx; exact hc (this.mp (by omega))), Nat.min_eq_left (by omega)]; exact g2
      have hw : (fun X => X < min (2 ^ (2 * strength P n)) n) = fun X => X < 2 ^ (2 * strength P n) ∧ X < n := by
        funext X; exact propext Nat.lt_min
      have := candLoop_spec (p := a.p) D.gen hm a4 _ _ ht
      rw [hw] at this
      exact this
    · simp only [if_neg h0]
      unfold genSafe
      rw [a1, Option.join_some, ← List.map_take]
      exact hsafe

theorem first_mem {W : Nat → Prop} : ∀ {Xs : List Nat} {X : Nat}, FirstOf W Xs X → X ∈ Xs ∧ W X
  | [], _, h => h.elim
  | _ :: _, _, .inl ⟨h, e⟩ => ⟨by rw [e]; exact List.mem_cons_self, by rw [e]; exact h⟩
  | _ :: _, _, .inr ⟨_, h⟩ => ⟨List.mem_cons_of_mem _ (first_mem h).1, (first_mem h).2⟩

/-- C72: a generated private key is one that the setting of private keys takes, when the numbers drawn are below the bound asked for. -/
theorem gen_range {a : Para} {P G : Nat} {Q : Option Nat} (D : Domain a P G Q) (cs : List (Bn 32)) (Cs : List Nat) (h : List.Forall₂ Is cs Cs)
    (hb : ∀ b B, drawBound a = some b → Is b B → ∀ C ∈ Cs, C < B) {k : Pair} (hk : gen a (cs.map some) = some k) :
    ∃ X, Is k.x X ∧ Is k.y (G ^ X % P) ∧ 0 < X ∧ X ≤ maxPrv P Q := by
  obtain ⟨e1, e2⟩ := gen_exact D cs Cs h
  by_cases hc : ∃ X, FirstOf (Wanted P G Q) ((Cs.take 100).map (· + 1)) X
  · obtain ⟨X, hX⟩ := hc
    obtain ⟨k', f1, f2, f3⟩ := e1 X hX
    rw [hk] at f1
    cases f1
    obtain ⟨hm, hw⟩ := first_mem hX
    obtain ⟨C, hC, rfl⟩ := List.mem_map.mp hm
    refine ⟨C + 1, f2, f3, by omega, ?_⟩
    have hC := List.mem_of_mem_take hC
    have hx := xLimb_is D
    unfold drawBound at hb
    rcases D.order with ⟨q1, rfl⟩ | ⟨q, n, q1, rfl, g⟩
    · rw [q1] at hb
      have := hb _ _ rfl hx C hC
      omega
    · rw [q1] at hb
      dsimp only at hb
      rw [secBits_is D.modulus g D.good.1.2] at hb
      by_cases h0 : strength P n ≠ 0
      · unfold Wanted at hw
        dsimp only at hw
        rw [if_pos h0] at hw
        unfold maxPrv
        have := hw.2
        dsimp only
        omega
      · rw [if_neg h0] at hb
        have := hb _ _ rfl hx C hC
        omega
  · rw [e2 (fun X hX => hc ⟨X, hX⟩)] at hk
    cases hk

/-- C72: a public key is taken unchecked when it has between 1 and 1024 bytes; written out, it has the length of the modulus, and read again it
is the same. -/
theorem pub_exact {a : Para} {P G : Nat} {Q : Option Nat} (D : Domain a P G Q) {y : Bn 32} {Y n : Nat} (hy : Is y Y) (hn : Bn.Spec.IsByteLen n P) :
    (∀ pub, (pub.length ≠ 0 ∧ pub.length ≤ 1024 → ∃ r, setPub pub = some r ∧ Is r (Bn.Spec.bigEndian pub)) ∧
      (¬ (pub.length ≠ 0 ∧ pub.length ≤ 1024) → setPub pub = none)) ∧
    (∀ len, n ≤ len ∧ Y < 256 ^ n → ∃ bs, getPub a y len = some (some bs) ∧ Encodes bs n Y ∧ setPub bs = some y) ∧
    (∀ len, ¬ (n ≤ len ∧ Y < 256 ^ n) → getPub a y len = some none) := by
  have hP : 1 < P := Nat.lt_of_lt_of_le (Nat.one_lt_two_pow (by decide)) D.good.1.1
  have hb := bytes_is D.modulus hn
  have hn0 : n ≠ 0 := by
    rintro rfl
    have := hn.1
    rw [Nat.pow_zero] at this
    omega
  have hset : ∀ pub : List UInt8, (pub.length ≠ 0 ∧ pub.length ≤ 1024 → ∃ r, setPub pub = some r ∧ Is r (Bn.Spec.bigEndian pub)) ∧
      (¬ (pub.length ≠ 0 ∧ pub.length ≤ 1024) → setPub pub = none) := by
    intro pub
    unfold setPub
    constructor
    · rintro ⟨h1, h2⟩
      obtain ⟨r, e, g⟩ := bin_some (big_lt (show pub.length ≤ 2048 by omega))
      rw [if_neg h1, if_neg (by omega)]
      exact ⟨r, e, g⟩
    · intro h
      split
      · rfl
      · rw [if_pos (by omega)]
  have hfix := bn2BinFix_exact y hy.1 n
  rw [hy.2, Int.natAbs_natCast] at hfix
  refine ⟨hset, ?_, ?_⟩
  · rintro len ⟨h1, h2⟩
    obtain ⟨bs, e, w1, w2⟩ := hfix.1 h2
    unfold getPub
    rw [hb, if_neg (by clear hset hfix; omega), if_neg (by clear hset hfix; omega), e]
    refine ⟨bs, rfl, ⟨w1, w2⟩, ?_⟩
    have : n ≤ 1024 := by
      refine hn.2 1024 ?_
      rw [show (256 : Nat) = 2 ^ 8 from rfl, ← pow_mul]
      exact D.good.1.2
    obtain ⟨r, e1, g1⟩ := (hset bs).1 ⟨by rw [w1]; exact hn0, by rw [w1]; exact this⟩
    rw [e1]
    rw [w2] at g1
    rw [g1.eq hy]
  · intro len h
    unfold getPub
    rw [hb]
    split
    · rfl
    split
    · rfl
    rename_i c1 c2
    rw [hfix.2 (by
      clear hset hfix
      by_contra hc
      exact h ⟨by omega, by omega⟩)]

/-- Numbers that are no parameters of a key exchange: the modulus is a multiple of three, and three is the generator. -/
def badP : List UInt8 := [128, 0, 0, 0, 0, 0, 0, 0, 0, 0, 0, 0, 0, 0, 0, 0, 0, 0, 0, 0, 128, 0, 0, 0, 0, 0, 0, 0, 0, 0, 0, 0, 0, 0, 0, 0, 0, 0, 0, 0, 0, 0,
  0, 0, 0, 0, 0, 0, 0, 0, 0, 0, 0, 0, 0, 0, 0, 0, 0, 0, 0, 0, 0, 0, 0, 0, 0, 0, 0, 0, 0, 0, 0, 0, 0, 2, 0, 0, 0, 0, 0, 0, 0, 0, 0,
  0, 0, 0, 0, 0, 0, 0, 0, 0, 0, 3]
def badQ : List UInt8 := [1, 0, 0, 0, 0, 0, 0, 0, 0, 0, 0, 0, 0, 0, 0, 0, 0, 0, 0, 0, 1]

/-- C72, the limit of the check of the parameters: neither is the modulus checked to be a prime nor the generator to be of the given order. There are
parameters that are taken although every public key made from them is refused. -/
theorem generator_unchecked : ∃ p g q a P G n, setPara p g (some q) = some a ∧ Domain a P G (some n) ∧ G ^ n % P ≠ 1 ∧
    ∀ (x y : Bn 32) (X Y : Nat) (noPad : Bool) (buf : List UInt8), Is x X → Is y (G ^ Y % P) → 0 < Y → share a x y noPad buf = some none := by
  obtain ⟨a, e, hs, D⟩ := (setPara_exact badP [3] (some badQ)).1 (by
    refine ⟨⟨by decide, by decide⟩, ⟨by decide, by decide⟩, fun b h => ?_, by decide +kernel, by decide +kernel, by decide +kernel, fun n h => ?_⟩
    · cases h; decide
    · cases h; decide +kernel)
  have h3 : 3 ∣ Bn.Spec.bigEndian badP := by decide +kernel
  have hg : Bn.Spec.bigEndian [3] = 3 := by decide
  have hq : 0 < Bn.Spec.bigEndian badQ := by decide +kernel
  rw [hg] at D
  have key : ∀ b k, 3 ∣ b → 0 < k → b ^ k % Bn.Spec.bigEndian badP ≠ 1 := by
    intro b k hb hk h
    have : 3 ∣ b ^ k % Bn.Spec.bigEndian badP := (Nat.dvd_mod_iff h3).mpr (dvd_pow hb (by omega))
    rw [h] at this
    omega
  refine ⟨badP, [3], badQ, a, _, 3, _, e, D, key 3 _ (dvd_refl 3) hq, fun x y X Y noPad buf hx hy hY => ?_⟩
  have hn := byteLen_iff a.p D.modulus.1
  rw [D.modulus.2, Int.natAbs_natCast] at hn
  refine (share_exact D hx hy hn noPad buf).2 ?_
  rintro ⟨-, -, h⟩
  exact key _ _ ((Nat.dvd_mod_iff h3).mpr (dvd_pow (dvd_refl 3) (by omega))) hq (h _ rfl hs)

/-! ### The hypotheses can be met: the group of RFC 2409 with 768 bits, dh_para.c:30-37. -/

def rfc768 : List UInt8 := [255, 255, 255, 255, 255, 255, 255, 255, 201, 15, 218, 162, 33, 104, 194, 52, 196, 198, 98, 139, 128, 220, 28, 209, 41, 2, 78, 8,
  138, 103, 204, 116, 2, 11, 190, 166, 59, 19, 155, 34, 81, 74, 8, 121, 142, 52, 4, 221, 239, 149, 25, 179, 205, 58, 67, 27, 48, 43,
  10, 109, 242, 95, 20, 55, 79, 225, 53, 109, 109, 81, 194, 69, 228, 133, 181, 118, 98, 94, 126, 198, 244, 76, 66, 233, 166, 58, 54,
  32, 255, 255, 255, 255, 255, 255, 255, 255]

theorem rfc768_domain : ∃ a, setPara rfc768 [2] none = some a ∧ a.safe = false ∧ Domain a (Bn.Spec.bigEndian rfc768) 2 none := by
  obtain ⟨a, e, hs, D⟩ := (setPara_exact rfc768 [2] none).1 (by
    refine ⟨⟨by decide, by decide⟩, ⟨by decide, by decide⟩, fun b h => (by cases h), by decide +kernel, by decide +kernel, by decide +kernel, fun n h => (by cases h)⟩)
  rw [show Bn.Spec.bigEndian [2] = 2 by decide] at D
  exact ⟨a, e, hs, D⟩

theorem rfc768_len : Bn.Spec.IsByteLen 96 (Bn.Spec.bigEndian rfc768) := by
  refine ⟨by decide +kernel, fun m h => ?_⟩
  by_contra hc
  have h1 : 256 ^ m ≤ 256 ^ 95 := Nat.pow_le_pow_right (by decide) (by omega)
  have h2 : 256 ^ 95 ≤ Bn.Spec.bigEndian rfc768 := by decide +kernel
  omega

/-- The keys 5 and 7 give the secret of the exponent 35, with its zeros in front. -/
example : ∃ a, setPara rfc768 [2] none = some a ∧ ∃ bs, Encodes bs 96 (2 ^ 35) ∧
    share a ⟨false, [5]⟩ ⟨false, [128]⟩ false (List.replicate 96 255) = some (some (bs ++ [], 96)) ∧
    share a ⟨false, [7]⟩ ⟨false, [32]⟩ false (List.replicate 100 255) = some (some (bs ++ [255, 255, 255, 255], 96)) := by
  obtain ⟨a, e, hs, D⟩ := rfc768_domain
  have e5 : 2 ^ 5 % Bn.Spec.bigEndian rfc768 = 32 := by decide +kernel
  have e7 : 2 ^ 7 % Bn.Spec.bigEndian rfc768 = 128 := by decide +kernel
  have e35 : 2 ^ (5 * 7) % Bn.Spec.bigEndian rfc768 = 2 ^ 35 := by decide +kernel
  have hv : ∀ Y, 1 < Y → Y < 200 → Valid a (Bn.Spec.bigEndian rfc768) none Y := by
    intro Y h1 h2
    have : 200 < Bn.Spec.bigEndian rfc768 - 1 := by decide +kernel
    exact ⟨⟨h1, by omega⟩, fun n h => (by cases h)⟩
  obtain ⟨bs, f1, f2, f3⟩ := share_agrees D (X₁ := 5) (X₂ := 7) (is_small 5 5 rfl (by decide)) (is_small 7 7 rfl (by decide))
    (by rw [e5]; exact is_small 32 32 rfl (by decide)) (by rw [e7]; exact is_small 128 128 rfl (by decide))
    (by rw [e5]; exact hv _ (by decide) (by decide)) (by rw [e7]; exact hv _ (by decide) (by decide)) rfc768_len
    (List.replicate 96 255) (List.replicate 100 255) (by decide) (by decide)
  rw [e35] at f1
  exact ⟨a, e, bs, f1, f2, f3⟩

/-- The trivial public keys are refused, the private key zero as well. -/
example : ∃ a, setPara rfc768 [2] none = some a ∧ share a ⟨false, [5]⟩ ⟨false, [1]⟩ false (List.replicate 96 255) = some none ∧
    setPrv a [0] = none ∧ ∃ x, setPrv a [0, 5] = some x ∧ Is x 5 := by
  obtain ⟨a, e, hs, D⟩ := rfc768_domain
  refine ⟨a, e, (share_exact D (is_small 5 5 rfl (by decide)) (is_small 1 1 rfl (by decide)) rfc768_len false _).2 ?_,
    (setPrv_exact D [0]).2 (fun h => absurd h.2.1 (by decide)), ?_⟩
  · rintro ⟨-, ⟨h, -⟩, -⟩
    omega
  · refine (setPrv_exact D [0, 5]).1 ⟨fun len hl => ?_, by decide, ?_⟩
    · rw [hl.2 96 rfc768_len.1 |>.antisymm (rfc768_len.2 _ hl.1)]; decide
    · unfold maxPrv; decide +kernel

/-- The number 0 is drawn and the private key 1 is made from it, with the public key 2. -/
example : ∃ a, setPara rfc768 [2] none = some a ∧ ∃ k, gen a [some bnZero] = some k ∧ Is k.x 1 ∧ Is k.y 2 := by
  obtain ⟨a, e, hs, D⟩ := rfc768_domain
  have e1 : 2 ^ 1 % Bn.Spec.bigEndian rfc768 = 2 := by decide +kernel
  obtain ⟨k, f1, f2, f3⟩ := (gen_exact D [bnZero] [0] (.cons isZero' .nil)).1 1 (.inl ⟨by unfold Wanted; decide +kernel, rfl⟩)
  rw [e1] at f3
  exact ⟨a, e, k, f1, f2, f3⟩

example : strength (2 ^ 2047 + 1) (2 ^ 255 + 1) = 112 := by decide +kernel
example : fillZero ([7, 8, 9] ++ [1, 1, 1, 1]) 3 5 = some ([0, 0, 7, 8, 9, 1, 1], 5) := by decide

end Verif.Crypto.Dh
