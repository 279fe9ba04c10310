import Verif.Crypto.Rsa.Proof

/-! C70: the RSA primitives. -/
namespace Verif.Crypto.Rsa
open Verif.Crypto.Bn Verif.Crypto.Sig Verif.Crypto.Sig.Spec Spec

/-- C70: the public operation delivers the power, on as many bytes as the modulus has, for the inputs below the modulus, and an error for
all others. -/
theorem pubEnc_exact {k : Pub} {N E : Nat} (K : PubKey k N E) (input : List UInt8) :
    (Bn.Spec.bigEndian input < N → ∃ out, pubEnc k input = some out ∧ out.length = (k.bits + 7) / 8 ∧
      Bn.Spec.bigEndian out = Bn.Spec.bigEndian input ^ E % N) ∧
    (N ≤ Bn.Spec.bigEndian input → pubEnc k input = none) := by
  have hN : N ≤ 2 ^ 16384 := Nat.le_trans (Nat.le_of_lt K.fits) (Nat.pow_le_pow_right (by decide) K.len)
  obtain ⟨h1, h2⟩ := readInput_spec K.modulus hN input
  obtain ⟨M, a1, -, -, a4⟩ := mont_is K.modulus K.odd
  constructor
  · intro h
    obtain ⟨a, e1, g1⟩ := h1 h
    obtain ⟨r, e2, g2⟩ := a4 a k.e _ _ g1 K.exponent false
    obtain ⟨out, e3, g3, g4⟩ := write_spec (bits := k.bits) g2 (Nat.mod_lt _ (by have := K.odd; omega)) K.fits
    refine ⟨out, ?_, g3, g4⟩
    unfold pubEnc
    simp only [a1, e1, e2, e3, Option.bind_eq_bind, Option.bind_some, Option.join_some]
  · intro h
    unfold pubEnc
    simp only [a1, h2 h, Option.bind_eq_bind, Option.bind_some, Option.join_some, Option.bind_none]

section
variable {k : Prv} {P Q D : Nat} (K : PrvKey k P Q D)
include K

/-- One private operation in a state that earlier ones can leave: the right result or an error, and such a state again. -/
theorem prvProcess_spec (C : Crt k P Q D ∨ NoCrt k) (s : Blind) (hs : BlindOk (P * Q) D s) (v : Env) (hv : ∀ r, v.rand = some r → ∃ u, Is r u)
    {c : Bn 32} {x : Nat} (hc : Is c x) :
    BlindOk (P * Q) D (prvProcess k s v c).1 ∧
    ((prvProcess k s v c).2 = none ∨ ∃ r, (prvProcess k s v c).2 = some (some r) ∧ Is r (x ^ D % (P * Q))) ∧
    (k.blinding = false ∨ (∃ r i, s = .pair r i) ∨ (s = .unset ∧ HasExp k ∧ ∃ r u, v.rand = some r ∧ Is r u ∧ Nat.Coprime u (P * Q)) →
      (prvProcess k s v c).2 ≠ none ∧ (k.blinding = true → ∃ r i, (prvProcess k s v c).1 = .pair r i)) := by
  have hN := N_pos K
  unfold prvProcess
  by_cases hb : k.blinding = false
  · rw [if_pos hb]
    obtain ⟨r, e, g⟩ := rawDec_spec K C hc
    exact ⟨hs, .inr ⟨r, e, g⟩, fun _ => ⟨by rw [e]; exact Option.some_ne_none _, fun h => by rw [hb] at h; cases h⟩⟩
  rw [if_neg hb]
  -- the state before the message is blinded
  have main : ∀ s : Blind, BlindOk (P * Q) D s →
      let o := (match s with
        | .unset => (Blind.unset, none)
        | .broken => (Blind.broken, none)
        | .pair r rInv =>
          match blindConvert k.n r rInv c with
          | none => (Blind.pair r rInv, none)
          | some ((r, rInv), c) => (Blind.pair r rInv, match rawDec k c with
            | none => none
            | some none => some none
            | some (some m) => bnModMul m rInv k.n) : Blind × Option (Option (Bn 32)))
      BlindOk (P * Q) D o.1 ∧ (o.2 = none ∨ ∃ r, o.2 = some (some r) ∧ Is r (x ^ D % (P * Q))) ∧
      ((∃ r i, s = .pair r i) → o.2 ≠ none ∧ ∃ r i, o.1 = .pair r i) := by
    intro s hs
    cases s with
    | unset => exact ⟨trivial, .inl rfl, fun ⟨_, _, h⟩ => by cases h⟩
    | broken => exact ⟨trivial, .inl rfl, fun ⟨_, _, h⟩ => by cases h⟩
    | pair r i =>
      obtain ⟨r', i', c', y, w, z, e1, g1, g2, g3, g4, g5⟩ := blindConvert_spec K hs hc
      obtain ⟨m, e2, g6⟩ := rawDec_spec K C g2
      obtain ⟨o, e3, e4, e5⟩ := bnModMul_spec (j := 5) rfl m i' k.n g6.wf g3.wf K.modulus.wf (K.modulus.ne (by omega))
      dsimp only
      rw [e1]
      dsimp only
      rw [e2]
      dsimp only
      rw [e3]
      refine ⟨g1, .inr ⟨o, rfl, .mk' e5 ?_⟩, fun _ => ⟨Option.some_ne_none _, r', i', rfl⟩⟩
      rw [e4, g6.toInt, g3.toInt, K.modulus.toInt]
      have : (y ^ D % (P * Q)) * w ≡ x ^ D [MOD P * Q] := by
        refine ((Nat.mod_modEq _ _).mul_right w).trans ?_
        rw [g4]
        refine (((Nat.mod_modEq _ _).pow D).mul_right w).trans ?_
        rw [mul_pow, Nat.mul_assoc]
        simpa using g5.mul_left (x ^ D)
      exact_mod_cast this
  cases s with
  | broken =>
    obtain ⟨m1, m2, -⟩ := main .broken trivial
    refine ⟨m1, m2, fun h => ?_⟩
    rcases h with h | ⟨_, _, h⟩ | ⟨h, -⟩
    · exact absurd h hb
    · cases h
    · cases h
  | pair r i =>
    obtain ⟨m1, m2, m3⟩ := main (.pair r i) hs
    exact ⟨m1, m2, fun _ => ⟨(m3 ⟨r, i, rfl⟩).1, fun _ => (m3 ⟨r, i, rfl⟩).2⟩⟩
  | unset =>
    have hi : BlindOk (P * Q) D (initBlind k v) ∧
        ((HasExp k ∧ ∃ r u, v.rand = some r ∧ Is r u ∧ Nat.Coprime u (P * Q)) → ∃ r i, initBlind k v = .pair r i) := by
      unfold initBlind
      by_cases hx : HasExp k
      · obtain ⟨e, E, e1, g1, g2⟩ := blindExp_spec K C hx
        rw [e1]
        dsimp only
        rcases hr : v.rand with _ | r
        · have : blindCreate v e k.n = none := by
            unfold blindCreate
            simp only [hr, Option.bind_eq_bind, Option.bind_none]
          rw [this]
          exact ⟨trivial, fun ⟨_, _, _, h, _⟩ => by cases h⟩
        · obtain ⟨u, hu⟩ := hv r hr
          obtain ⟨b1, b2⟩ := blindCreate_spec K g1 g2 v hr hu
          by_cases hco : Nat.Coprime u (P * Q)
          · obtain ⟨a, b, e2, g3⟩ := b1 hco
            rw [e2]
            exact ⟨g3, fun _ => ⟨a, b, rfl⟩⟩
          · rw [b2 hco]
            refine ⟨trivial, fun ⟨_, r', u', h1, h2, h3⟩ => ?_⟩
            cases h1
            rw [h2.inj hu] at h3
            exact absurd h3 hco
      · unfold HasExp at hx
        push Not at hx
        rw [noExp_spec K hx.2 (hx.1.zero.mpr rfl)]
        exact ⟨trivial, fun ⟨h, _⟩ => by rcases h with h | h <;> [exact absurd hx.1 h; exact absurd hx.2 h]⟩
    obtain ⟨m1, m2, m3⟩ := main (initBlind k v) hi.1
    refine ⟨m1, m2, fun h => ?_⟩
    rcases h with h | ⟨_, _, h⟩ | ⟨-, h⟩
    · exact absurd h hb
    · cases h
    · exact ⟨(m3 (hi.2 h)).1, fun _ => (m3 (hi.2 h)).2⟩

theorem prvDec_spec (C : Crt k P Q D ∨ NoCrt k) (s : Blind) (hs : BlindOk (P * Q) D s) (v : Env) (hv : ∀ r, v.rand = some r → ∃ u, Is r u)
    (input : List UInt8) :
    BlindOk (P * Q) D (prvDec k s v input).1 ∧
    ((prvDec k s v input).2 = none ∨ (Bn.Spec.bigEndian input < P * Q ∧ ∃ out, (prvDec k s v input).2 = some (some out) ∧
      out.length = (k.bits + 7) / 8 ∧ Bn.Spec.bigEndian out = Bn.Spec.bigEndian input ^ D % (P * Q))) ∧
    (Bn.Spec.bigEndian input < P * Q → k.blinding = false ∨ (∃ r i, s = .pair r i) ∨
      (s = .unset ∧ HasExp k ∧ ∃ r u, v.rand = some r ∧ Is r u ∧ Nat.Coprime u (P * Q)) →
      (prvDec k s v input).2 ≠ none ∧ (k.blinding = true → ∃ r i, (prvDec k s v input).1 = .pair r i)) := by
  have hN : P * Q ≤ 2 ^ 16384 := Nat.le_trans (Nat.le_of_lt K.fits) (Nat.pow_le_pow_right (by decide) K.len)
  obtain ⟨h1, h2⟩ := readInput_spec K.modulus hN input
  unfold prvDec
  by_cases h : Bn.Spec.bigEndian input < P * Q
  · obtain ⟨a, e1, g1⟩ := h1 h
    rw [e1]
    dsimp only
    obtain ⟨q1, q2, q3⟩ := prvProcess_spec K C s hs v hv g1
    rcases hp : prvProcess k s v a with ⟨s', o⟩
    rw [hp] at q1 q2 q3
    rcases q2 with q2 | ⟨r, q2, g2⟩
    · dsimp only at q2
      subst q2
      exact ⟨q1, .inl rfl, fun _ hx => absurd rfl (q3 hx).1⟩
    · dsimp only at q2
      subst q2
      obtain ⟨out, e3, g3, g4⟩ := write_spec (bits := k.bits) g2 (Nat.mod_lt _ (by have := N_pos K; omega)) K.fits
      dsimp only
      rw [e3]
      exact ⟨q1, .inr ⟨h, out, rfl, g3, g4⟩, fun _ hx => ⟨Option.some_ne_none _, (q3 hx).2⟩⟩
  · rw [h2 (by omega)]
    exact ⟨hs, .inl rfl, fun hx => absurd hx h⟩

/-- C70: whatever operations came before on the context and whatever the random generator delivered to the blinding, each private operation
delivers the power with the private exponent, on as many bytes as the modulus has, or an error; never anything else. -/
theorem prvRun_exact (C : Crt k P Q D ∨ NoCrt k) (ops : List (Env × List UInt8)) (hv : Drawn ops) :
    List.Forall₂ (fun op out => out = none ∨ (Bn.Spec.bigEndian op.2 < P * Q ∧ ∃ bs, out = some (some bs) ∧ bs.length = (k.bits + 7) / 8 ∧
      Bn.Spec.bigEndian bs = Bn.Spec.bigEndian op.2 ^ D % (P * Q))) ops (prvRun k .unset ops) := by
  suffices h : ∀ (ops : List (Env × List UInt8)) (s : Blind), BlindOk (P * Q) D s → (∀ op ∈ ops, ∀ r, op.1.rand = some r → ∃ u, Is r u) →
      List.Forall₂ (fun op out => out = none ∨ (Bn.Spec.bigEndian op.2 < P * Q ∧ ∃ bs, out = some (some bs) ∧ bs.length = (k.bits + 7) / 8 ∧
      Bn.Spec.bigEndian bs = Bn.Spec.bigEndian op.2 ^ D % (P * Q))) ops (prvRun k s ops) from h ops .unset trivial hv
  clear hv ops
  intro ops
  induction ops with
  | nil => intro s _ _; exact .nil
  | cons op ops ih =>
    intro s hs hv
    obtain ⟨q1, q2, -⟩ := prvDec_spec K C s hs op.1 (hv op List.mem_cons_self) op.2
    exact .cons q2 (ih _ q1 (fun o ho => hv o (List.mem_cons_of_mem _ ho)))

/-- C70: without blinding, or with numbers from the random generator that have no factor in common with the modulus and a key that has a
public exponent or the primes, every input below the modulus gives the power and every other input an error, in every history. -/
theorem prvRun_total (C : Crt k P Q D ∨ NoCrt k) (ops : List (Env × List UInt8))
    (hv : k.blinding = false ∨ (HasExp k ∧ ∀ op ∈ ops, ∃ r u, op.1.rand = some r ∧ Is r u ∧ Nat.Coprime u (P * Q)))
    (hw : Drawn ops) :
    List.Forall₂ (fun op out => (P * Q ≤ Bn.Spec.bigEndian op.2 ∧ out = none) ∨ (Bn.Spec.bigEndian op.2 < P * Q ∧ ∃ bs, out = some (some bs) ∧
      bs.length = (k.bits + 7) / 8 ∧ Bn.Spec.bigEndian bs = Bn.Spec.bigEndian op.2 ^ D % (P * Q))) ops (prvRun k .unset ops) := by
  suffices h : ∀ (ops : List (Env × List UInt8)) (s : Blind), BlindOk (P * Q) D s → s ≠ .broken →
      (k.blinding = false ∨ (HasExp k ∧ ∀ op ∈ ops, ∃ r u, op.1.rand = some r ∧ Is r u ∧ Nat.Coprime u (P * Q))) →
      (∀ op ∈ ops, ∀ r, op.1.rand = some r → ∃ u, Is r u) →
      List.Forall₂ (fun op out => (P * Q ≤ Bn.Spec.bigEndian op.2 ∧ out = none) ∨ (Bn.Spec.bigEndian op.2 < P * Q ∧ ∃ bs, out = some (some bs) ∧
      bs.length = (k.bits + 7) / 8 ∧ Bn.Spec.bigEndian bs = Bn.Spec.bigEndian op.2 ^ D % (P * Q))) ops (prvRun k s ops)
      from h ops .unset trivial (fun h => by cases h) hv hw
  clear hv hw ops
  intro ops
  induction ops with
  | nil => intro s _ _ _ _; exact .nil
  | cons op ops ih =>
    intro s hs hb hv hw
    have step : prvRun k s (op :: ops) = (prvDec k s op.1 op.2).2 :: prvRun k (prvDec k s op.1 op.2).1 ops := rfl
    rw [step]
    obtain ⟨q1, q2, q3⟩ := prvDec_spec K C s hs op.1 (hw op List.mem_cons_self) op.2
    have hv' : k.blinding = false ∨ (HasExp k ∧ ∀ op ∈ ops, ∃ r u, op.1.rand = some r ∧ Is r u ∧ Nat.Coprime u (P * Q)) :=
      hv.imp id (fun h => ⟨h.1, fun o ho => h.2 o (List.mem_cons_of_mem _ ho)⟩)
    have hw' : ∀ op ∈ ops, ∀ r, op.1.rand = some r → ∃ u, Is r u := fun o ho => hw o (List.mem_cons_of_mem _ ho)
    by_cases hl : Bn.Spec.bigEndian op.2 < P * Q
    · have hc : k.blinding = false ∨ (∃ r i, s = .pair r i) ∨ (s = .unset ∧ HasExp k ∧ ∃ r u, op.1.rand = some r ∧ Is r u ∧ Nat.Coprime u (P * Q)) := by
        rcases hv with hv | hv
        · exact .inl hv
        · cases s with
          | unset => exact .inr (.inr ⟨rfl, hv.1, hv.2 op List.mem_cons_self⟩)
          | broken => exact absurd rfl hb
          | pair r i => exact .inr (.inl ⟨r, i, rfl⟩)
      obtain ⟨n1, n2⟩ := q3 hl hc
      refine .cons (.inr (q2.resolve_left n1)) (ih _ q1 ?_ hv' hw')
      cases hbl : k.blinding
      · intro he
        apply hb
        have : (prvDec k s op.1 op.2).1 = s := by
          unfold prvDec
          rcases readInput k.n op.2 with _ | a
          · rfl
          · dsimp only
            unfold prvProcess
            rw [if_pos hbl]
            rcases rawDec k a with _ | _ | r <;> rfl
        rw [← this]; exact he
      · obtain ⟨r, i, e⟩ := n2 hbl
        rw [e]
        intro h
        cases h
    · have hN : P * Q ≤ 2 ^ 16384 := Nat.le_trans (Nat.le_of_lt K.fits) (Nat.pow_le_pow_right (by decide) K.len)
      have e : prvDec k s op.1 op.2 = (s, none) := by
        unfold prvDec
        rw [(readInput_spec K.modulus hN op.2).2 (by omega)]
      refine .cons (.inl ⟨by omega, by rw [e]⟩) (ih _ q1 (by rw [e]; exact hb) hv' hw')

/-- C70, what goes wrong at the boundary of `prvRun_total`: when the random generator fails once, at the first operation, all later
operations on the context fail too, although the generator has recovered. -/
theorem blind_stuck (C : Crt k P Q D ∨ NoCrt k) (hx : HasExp k) (hb : k.blinding = true) (ct : Bool) (input : List UInt8)
    (hi : Bn.Spec.bigEndian input < P * Q) (ops : List (Env × List UInt8)) :
    ∀ out ∈ prvRun k .unset ((⟨none, ct⟩, input) :: ops), out = none := by
  have hN : P * Q ≤ 2 ^ 16384 := Nat.le_trans (Nat.le_of_lt K.fits) (Nat.pow_le_pow_right (by decide) K.len)
  have stay : ∀ (ops : List (Env × List UInt8)), ∀ out ∈ prvRun k .broken ops, out = none := by
    intro ops
    induction ops with
    | nil => intro out h; cases h
    | cons op ops ih =>
      have e : prvDec k .broken op.1 op.2 = (.broken, none) := by
        unfold prvDec
        rcases readInput k.n op.2 with _ | a
        · rfl
        · dsimp only
          unfold prvProcess
          rw [if_neg (by rw [hb]; decide)]
      intro out h
      unfold prvRun at h
      rw [e] at h
      rcases List.mem_cons.mp h with h | h
      · exact h
      · exact ih out h
  obtain ⟨a, e1, -⟩ := (readInput_spec K.modulus hN input).1 hi
  obtain ⟨e, E, e2, -⟩ := blindExp_spec K C hx
  have e : prvDec k .unset ⟨none, ct⟩ input = (.broken, none) := by
    unfold prvDec
    rw [e1]
    dsimp only
    unfold prvProcess
    rw [if_neg (by rw [hb]; decide)]
    unfold initBlind
    rw [e2]
    dsimp only
    unfold blindCreate
    simp only [Option.bind_eq_bind, Option.bind_none]
  intro out h
  unfold prvRun at h
  rw [e] at h
  rcases List.mem_cons.mp h with h | h
  · exact h
  · exact stay ops out h

/-- C70, what goes wrong at the boundary of `prvRun_total`: a key of modulus and private exponent alone, which can be set, cannot be used
while blinding is on. -/
theorem no_exponent (C : NoCrt k) (hx : Is k.e 0) (hb : k.blinding = true) (ops : List (Env × List UInt8)) :
    ∀ out ∈ prvRun k .unset ops, out = none := by
  induction ops with
  | nil => intro out h; cases h
  | cons op ops ih =>
    have e : prvDec k .unset op.1 op.2 = (.unset, none) := by
      unfold prvDec
      rcases readInput k.n op.2 with _ | a
      · rfl
      · dsimp only
        unfold prvProcess
        rw [if_neg (by rw [hb]; decide)]
        unfold initBlind
        rw [noExp_spec K C (hx.zero.mpr rfl)]
    intro out h
    unfold prvRun at h
    rw [e] at h
    rcases List.mem_cons.mp h with h | h
    · exact h
    · exact ih out h

/-- C70, what goes wrong at the boundary of `Crt`: a coefficient that is longer than the result, which can be set since its length is not
looked at, is written outside of the result. -/
theorem qInv_overflow (hb : k.blinding = false) (hp : Is k.p P) (hq : Is k.q Q) (hdP : ∃ x, Is k.dP x) (hdQ : ∃ x, Is k.dQ x)
    (hl : roomOf (k.bits + 1) < k.qInv.data.length) (s : Blind) (v : Env) (input : List UInt8) (hi : Bn.Spec.bigEndian input < P * Q) :
    (prvDec k s v input).2 = some none := by
  have hN : P * Q ≤ 2 ^ 16384 := Nat.le_trans (Nat.le_of_lt K.fits) (Nat.pow_le_pow_right (by decide) K.len)
  obtain ⟨c, e1, hc⟩ := (readInput_spec K.modulus hN input).1 hi
  obtain ⟨dp, hdp⟩ := hdP
  obtain ⟨dq, hdq⟩ := hdQ
  obtain ⟨MP, a1, -, -, a4⟩ := mont_is hp (odd_of K K.primeP K.oddP)
  obtain ⟨MQ, b1, -, -, b4⟩ := mont_is hq (odd_of K K.primeQ K.oddQ)
  obtain ⟨cP, f1, g1⟩ := hc.mod hp K.primeP.pos
  obtain ⟨cQ, f2, g2⟩ := hc.mod hq K.primeQ.pos
  obtain ⟨mP, f3, g3⟩ := a4 cP k.dP _ _ g1 hdp true
  obtain ⟨mQ, f4, g4⟩ := b4 cQ k.dQ _ _ g2 hdq true
  obtain ⟨r, z, f5, g5, g6, g7⟩ := g3.sub g4 hp K.primeP.pos
  have hpw : crtPowers k MP MQ c = some (r, mQ) := by
    unfold crtPowers
    simp only [f1, f2, f3, f4, f5, Option.bind_eq_bind, Option.bind_some, Option.join_some]
  have hr : rawDec k c = some none := by
    unfold rawDec
    rw [if_neg (by rw [hp.zero]; have := K.primeP.pos; omega)]
    unfold crtDec
    rw [a1, b1]
    simp only [Option.join_some]
    rw [hpw]
    dsimp only
    unfold montMulCore
    rw [if_pos (.inr hl)]
  unfold prvDec
  rw [e1]
  dsimp only
  unfold prvProcess
  rw [if_pos hb, hr]

theorem prvState_ok (C : Crt k P Q D ∨ NoCrt k) (ops : List (Env × List UInt8)) (hv : Drawn ops) : BlindOk (P * Q) D (prvState k ops) := by
  suffices h : ∀ (ops : List (Env × List UInt8)) (s : Blind), BlindOk (P * Q) D s → Drawn ops →
      BlindOk (P * Q) D (ops.foldl (fun s op => (prvDec k s op.1 op.2).1) s) from h ops .unset trivial hv
  clear hv ops
  intro ops
  induction ops with
  | nil => intro s hs _; exact hs
  | cons op ops ih =>
    intro s hs hv
    exact ih _ (prvDec_spec K C s hs op.1 (hv op List.mem_cons_self) op.2).1 (fun o ho => hv o (List.mem_cons_of_mem _ ho))

/-- C70: what the public operation makes of a message, the private operation turns back, in every history. -/
theorem decrypt_encrypt (C : Crt k P Q D ∨ NoCrt k) {kp : Pub} {E : Nat} (KP : PubKey kp (P * Q) E) (hE : Inverse P Q E D)
    (ops : List (Env × List UInt8)) (ho : Drawn ops) (v : Env) (hv : ∀ r, v.rand = some r → ∃ u, Is r u) (input c out : List UInt8)
    (h1 : pubEnc kp input = some c) (h2 : (prvDec k (prvState k ops) v c).2 = some (some out)) : Bn.Spec.bigEndian out = Bn.Spec.bigEndian input := by
  obtain ⟨e1, e2⟩ := pubEnc_exact KP input
  have hi : Bn.Spec.bigEndian input < P * Q := by
    by_contra hc
    rw [e2 (by omega)] at h1
    cases h1
  obtain ⟨c', f1, -, f3⟩ := e1 hi
  rw [h1] at f1
  cases f1
  obtain ⟨-, q2, -⟩ := prvDec_spec K C _ (prvState_ok K C ops ho) v hv c
  rcases q2 with q2 | ⟨-, o, q2, -, q4⟩
  · rw [h2] at q2; cases q2
  · rw [h2] at q2
    cases q2
    rw [q4, f3, ← Nat.mod_eq_of_lt hi]
    refine ((Nat.mod_modEq _ _).pow D).trans ?_
    rw [← pow_mul]
    exact (pow_inverse K.primeP K.primeQ K.oddP K.oddQ K.ne hE _).trans (by rw [Nat.mod_eq_of_lt hi])

/-- C70: what the private operation makes of a message (a signature), the public operation turns back, in every history. -/
theorem verify_sign (C : Crt k P Q D ∨ NoCrt k) {kp : Pub} {E : Nat} (KP : PubKey kp (P * Q) E) (hE : Inverse P Q E D)
    (ops : List (Env × List UInt8)) (ho : Drawn ops) (v : Env) (hv : ∀ r, v.rand = some r → ∃ u, Is r u) (input sig : List UInt8)
    (h1 : (prvDec k (prvState k ops) v input).2 = some (some sig)) : ∃ out, pubEnc kp sig = some out ∧ Bn.Spec.bigEndian out = Bn.Spec.bigEndian input := by
  obtain ⟨-, q2, -⟩ := prvDec_spec K C _ (prvState_ok K C ops ho) v hv input
  rcases q2 with q2 | ⟨hi, o, q2, -, q4⟩
  · rw [h1] at q2; cases q2
  · rw [h1] at q2
    cases q2
    obtain ⟨out, f1, -, f3⟩ := (pubEnc_exact KP sig).1 (by rw [q4]; exact Nat.mod_lt _ (by omega))
    refine ⟨out, f1, ?_⟩
    rw [f3, q4, ← Nat.mod_eq_of_lt hi]
    refine ((Nat.mod_modEq _ _).pow E).trans ?_
    rw [← pow_mul, Nat.mul_comm D E]
    exact (pow_inverse K.primeP K.primeQ K.oddP K.oddQ K.ne hE _).trans (by rw [Nat.mod_eq_of_lt hi])

end

/-! ### A case that meets the hypotheses: 61 and 53, the exponents 17 and 413. -/

theorem is_small (w : W 32) (n : Nat) (hn : w.toNat = n) (h0 : w ≠ 0) : Is ⟨false, [w]⟩ n := by
  refine ⟨⟨fun x h => ?_, fun h => by cases h⟩, ?_⟩
  · rw [show ([w] : List (W 32)).getLast? = some w from rfl] at h
    cases h
    exact h0
  · rw [← hn, int_eq]
    show ((val [w] : Nat) : Int) = _
    rw [val, val, Nat.mul_zero, Nat.add_zero]

def exPub : Pub := ⟨⟨false, [3233]⟩, ⟨false, [17]⟩, 12⟩
def exPrv : Prv := ⟨⟨false, [3233]⟩, ⟨false, [413]⟩, ⟨false, [61]⟩, ⟨false, [53]⟩, ⟨false, [53]⟩, ⟨false, [49]⟩, ⟨false, [38]⟩, bnZero, 12, true⟩
/-- The same key without its primes. -/
def exPlain : Prv := ⟨⟨false, [3233]⟩, ⟨false, [413]⟩, bnZero, bnZero, bnZero, bnZero, bnZero, bnZero, 12, true⟩
/-- The same key with a coefficient of two words. -/
def exLong : Prv := { exPrv with qInv := ⟨false, [38, 1]⟩, blinding := false }

example : PubKey exPub (61 * 53) 17 := ⟨is_small _ _ rfl (by decide), by decide, is_small _ _ rfl (by decide), by decide, by decide⟩

theorem exInverse : Inverse 61 53 17 413 := by unfold Inverse; decide

theorem exKey (k : Prv) (hn : k.n = ⟨false, [3233]⟩) (hd : k.d = ⟨false, [413]⟩) (he : k.e = bnZero) (hb : k.bits = 12) : PrvKey k 61 53 413 :=
  ⟨by norm_num, by norm_num, by decide, by decide, by decide, by rw [hn]; exact is_small _ _ rfl (by decide), by rw [hd]; exact is_small _ _ rfl (by decide),
    by rw [hb]; decide, by rw [hb]; decide, ⟨17, exInverse⟩, ⟨0, by rw [he]; exact isZero', .inl rfl⟩⟩

example : PrvKey exPrv 61 53 413 ∧ HasExp exPrv := ⟨exKey _ rfl rfl rfl rfl, .inr (fun h => absurd (h.1.inj (is_small 61 61 rfl (by decide))) (by decide))⟩
theorem exCrt : Crt exPrv 61 53 413 :=
  ⟨is_small _ _ rfl (by decide), is_small _ _ rfl (by decide), ⟨53, is_small _ _ rfl (by decide), by decide⟩, ⟨49, is_small _ _ rfl (by decide), by decide⟩,
    ⟨38, is_small _ _ rfl (by decide), by decide, by decide⟩⟩
example : PrvKey exPlain 61 53 413 ∧ NoCrt exPlain ∧ Is exPlain.e 0 := ⟨exKey _ rfl rfl rfl rfl, ⟨isZero', isZero'⟩, isZero'⟩
example : PrvKey exLong 61 53 413 ∧ roomOf (exLong.bits + 1) < exLong.qInv.data.length := ⟨exKey _ rfl rfl rfl rfl, by decide⟩

/-- The message 65 becomes 2790 and 65 again, twice, with the blinding numbers made at the first operation. -/
example : pubEnc exPub [65] = some [10, 230] ∧
    prvRun exPrv .unset [(⟨some ⟨false, [7]⟩, false⟩, [10, 230]), (⟨none, false⟩, [0, 10, 230]), (⟨none, false⟩, [12, 161])] =
      [some (some [0, 65]), some (some [0, 65]), none] := by decide +kernel
example : prvRun exPrv .unset [(⟨none, false⟩, [10, 230]), (⟨some ⟨false, [7]⟩, false⟩, [10, 230])] = [none, none] := by decide +kernel
example : prvRun exPlain .unset [(⟨some ⟨false, [7]⟩, false⟩, [10, 230])] = [none] := by decide +kernel
example : (prvDec exLong .unset ⟨none, false⟩ [10, 230]).2 = some none := by decide +kernel

end Verif.Crypto.Rsa
