import Verif.Crypto.Rsa.KeyProof
import Verif.Crypto.Sig.P256

/-! C71: setting and making RSA keys. -/
namespace Verif.Crypto.Rsa
open Verif.Crypto.Bn Verif.Crypto.Sig Verif.Crypto.Sig.Spec Spec

theorem ranges_iff (i : PrvIn) (h1 : i.n.length ≤ 2048) (h2 : i.d.length ≤ i.n.length) :
    (Ranges i → ∃ n d e, readND i = some (n, d) ∧ readE n i.e = some e ∧ Is n (Bn.Spec.bigEndian i.n) ∧ Is d (Bn.Spec.bigEndian i.d) ∧ Is e (valOf i.e)) ∧
    (¬ Ranges i → readND i = none ∨ ∃ n d, readND i = some (n, d) ∧ readE n i.e = none) := by
  obtain ⟨a, b⟩ := readND_spec i h1 h2
  constructor
  · rintro ⟨-, -, r1, r2, r3, r4⟩
    obtain ⟨n, d, e1, g1, g2⟩ := a ⟨r1, r2, r3⟩
    obtain ⟨e, e2, g3⟩ := (readE_spec g1 (by omega) (big_lt h1) i.e).1 r4
    exact ⟨n, d, e, e1, e2, g1, g2, g3⟩
  · intro h
    by_cases hr : 2 ^ 511 ≤ Bn.Spec.bigEndian i.n ∧ 1 < Bn.Spec.bigEndian i.d ∧ Bn.Spec.bigEndian i.d < Bn.Spec.bigEndian i.n
    · obtain ⟨n, d, e1, g1, g2⟩ := a hr
      refine .inr ⟨n, d, e1, ?_⟩
      exact (readE_spec g1 (by omega) (big_lt h1) i.e).2 (fun hc => h ⟨h1, h2, hr.1, hr.2.1, hr.2.2, hc⟩)
    · exact .inl (b hr)

theorem pos_len {x : List UInt8} (h : 2 ^ 511 ≤ Bn.Spec.bigEndian x) : x.length ≠ 0 := by
  intro h0
  rw [List.length_eq_zero_iff.mp h0] at h
  exact absurd (show Bn.Spec.bigEndian [] = 0 from rfl) (by have : (0 : Nat) < 2 ^ 511 := Nat.pow_pos (by decide); omega)

/-- C71: a private key of modulus and exponents alone is taken exactly when these are in range, and set as given. -/
theorem setPrv_nd (b : Bool) (i : PrvIn) (hs : NoPrimes i) :
    (Ranges i → ∃ k, setPrv b i = some k ∧ Holds i k ∧ NoCrt k ∧ k.blinding = b) ∧ (¬ Ranges i → setPrv b i = none) := by
  obtain ⟨s1, s2, s3, s4, s5⟩ := hs
  have hb : prvBasicOk i = (decide (i.n.length ≠ 0) && decide (i.n.length ≤ 2048)) := by
    unfold prvBasicOk; rw [s1, s2, s3, s4, s5]; simp
  have hl : prvLenOk i = decide (i.d.length ≤ i.n.length) := by
    unfold prvLenOk; rw [s1, s2]; simp [lenOf]
  unfold setPrv
  rw [hb, hl]
  constructor
  · intro hr
    obtain ⟨n, d, e, e1, e2, g1, g2, g3⟩ := (ranges_iff i hr.1 hr.2.1).1 hr
    have := pos_len hr.2.2.1
    rw [if_neg (by simp [this, hr.1, hr.2.1])]
    simp only [e1, e2, s1, s2, Option.bind_eq_bind, Option.bind_some]
    exact ⟨_, rfl, ⟨g1, g2, g3, bits_is g1⟩, ⟨isZero', isZero'⟩, rfl⟩
  · intro hr
    split
    · rfl
    · rename_i hc
      simp only [Bool.and_eq_false_iff, decide_eq_false_iff_not, not_or, not_not] at hc
      rcases (ranges_iff i hc.1.2 hc.2).2 hr with e | ⟨n, d, e1, e2⟩
      · simp only [e, Option.bind_eq_bind, Option.bind_none]
      · simp only [e1, e2, Option.bind_eq_bind, Option.bind_some, Option.bind_none]

/-- C71: a private key with two primes is taken exactly when the numbers are in range, and the second prime has an inverse modulo the first;
the other numbers of RFC 8017 are then computed from it. Nothing ties the modulus to the primes. -/
theorem setPrv_primes (b : Bool) (i : PrvIn) {p q : List UInt8} (hs : Primes i p q) :
    let P := Bn.Spec.bigEndian p
    let Q := Bn.Spec.bigEndian q
    let ok := Ranges i ∧ p.length ≤ i.n.length ∧ q.length ≤ i.n.length ∧ 1 < P ∧ 1 < Q ∧ Nat.Coprime Q P
    (ok → ∃ k, setPrv b i = some k ∧ Holds i k ∧ k.blinding = b ∧ Is k.p P ∧ Is k.q Q ∧ Is k.dP (Bn.Spec.bigEndian i.d % (P - 1)) ∧
      Is k.dQ (Bn.Spec.bigEndian i.d % (Q - 1)) ∧ ∃ x, Is k.qInv x ∧ x < P ∧ x * Q % P = 1) ∧
    (¬ ok → setPrv b i = none) := by
  intro P Q ok
  obtain ⟨s1, s2, s3, s4, s5⟩ := hs
  have hb : prvBasicOk i = (decide (i.n.length ≠ 0) && decide (i.n.length ≤ 2048)) := by
    unfold prvBasicOk; rw [s1, s2, s3, s4, s5]; simp
  have hl : prvLenOk i = (decide (i.d.length ≤ i.n.length) && decide (p.length ≤ i.n.length) && decide (q.length ≤ i.n.length)) := by
    unfold prvLenOk; rw [s1, s2]; rfl
  have hP : P = Bn.Spec.bigEndian p := rfl
  have hQ : Q = Bn.Spec.bigEndian q := rfl
  unfold setPrv
  rw [hb, hl]
  have key : ∀ d : Bn 32, Is d (Bn.Spec.bigEndian i.d) → p.length ≤ 2048 → q.length ≤ 2048 →
      (1 < P ∧ 1 < Q ∧ Nat.Coprime Q P → ∃ bp bq dP dQ qInv x, readCrt d i p q = some (bp, bq, dP, dQ, qInv) ∧ Is bp P ∧ Is bq Q ∧
        Is dP (Bn.Spec.bigEndian i.d % (P - 1)) ∧ Is dQ (Bn.Spec.bigEndian i.d % (Q - 1)) ∧ Is qInv x ∧ x < P ∧ x * Q % P = 1) ∧
      (¬ (1 < P ∧ 1 < Q ∧ Nat.Coprime Q P) → readCrt d i p q = none) := by
    intro d hd l1 l2
    obtain ⟨bp, e1, g1⟩ := bin_some (big_lt l1)
    obtain ⟨bq, e2, g2⟩ := bin_some (big_lt l2)
    have z1 := g1.zero
    have z2 := g2.zero
    unfold readCrt
    simp only [e1, e2, s3, s4, s5, Option.bind_eq_bind, Option.bind_some]
    constructor
    · intro h
      obtain ⟨dP, dQ, qInv, x, f1, f2, f3, f4, f5, f6⟩ := (calcCrt_spec g1 g2 hd (by omega) (by omega)).1 h
      rw [if_neg (by rw [z1, z2]; omega)]
      simp only [f1, Option.bind_some]
      exact ⟨bp, bq, dP, dQ, qInv, x, rfl, g1, g2, f2, f3, f4, f5, f6⟩
    · intro h
      split
      · rfl
      · rename_i hc
        rw [z1, z2] at hc
        simp only [(calcCrt_spec g1 g2 hd (by omega) (by omega)).2 h, Option.bind_none]
  constructor
  · rintro ⟨hr, l1, l2, h⟩
    obtain ⟨n, d, e, e1, e2, g1, g2, g3⟩ := (ranges_iff i hr.1 hr.2.1).1 hr
    have := pos_len hr.2.2.1
    rw [if_neg (by simp [this, hr.1, hr.2.1, l1, l2])]
    obtain ⟨bp, bq, dP, dQ, qInv, x, f1, f2, f3, f4, f5, f6, f7⟩ := (key d g2 (Nat.le_trans l1 hr.1) (Nat.le_trans l2 hr.1)).1 h
    simp only [e1, e2, s1, s2, f1, Option.bind_eq_bind, Option.bind_some]
    exact ⟨_, rfl, ⟨g1, g2, g3, bits_is g1⟩, rfl, f2, f3, f4, f5, x, f6, f7⟩
  · intro hr
    split
    · rfl
    · rename_i hc
      simp only [Bool.and_eq_false_iff, decide_eq_false_iff_not, not_or, not_not] at hc
      by_cases hR : Ranges i
      · obtain ⟨n, d, e, e1, e2, g1, g2, g3⟩ := (ranges_iff i hR.1 hR.2.1).1 hR
        have f := (key d g2 (Nat.le_trans hc.2.1.2 hR.1) (Nat.le_trans hc.2.2 hR.1)).2 (fun h => hr ⟨hR, hc.2.1.2, hc.2.2, h⟩)
        simp only [e1, e2, s1, s2, f, Option.bind_eq_bind, Option.bind_some, Option.bind_none]
      · rcases (ranges_iff i hc.1.2 hc.2.1.1).2 hR with e | ⟨n, d, e1, e2⟩
        · simp only [e, Option.bind_eq_bind, Option.bind_none]
        · simp only [e1, e2, Option.bind_eq_bind, Option.bind_some, Option.bind_none]

/-- C71: a private key with all numbers is taken when the modulus and the exponents are in range and no prime is zero, and set as given:
neither the primes nor the other numbers are checked. -/
theorem setPrv_full (b : Bool) (i : PrvIn) {p q dP dQ qInv : List UInt8} (hs : Full i p q dP dQ qInv)
    (h1 : Bn.Spec.bigEndian dP < 2 ^ 16384) (h2 : Bn.Spec.bigEndian dQ < 2 ^ 16384) (h3 : Bn.Spec.bigEndian qInv < 2 ^ 16384) :
    let ok := Ranges i ∧ p.length ≤ i.n.length ∧ q.length ≤ i.n.length ∧ 0 < Bn.Spec.bigEndian p ∧ 0 < Bn.Spec.bigEndian q
    (ok → ∃ k, setPrv b i = some k ∧ Holds i k ∧ k.blinding = b ∧ Is k.p (Bn.Spec.bigEndian p) ∧ Is k.q (Bn.Spec.bigEndian q) ∧
      Is k.dP (Bn.Spec.bigEndian dP) ∧ Is k.dQ (Bn.Spec.bigEndian dQ) ∧ Is k.qInv (Bn.Spec.bigEndian qInv)) ∧
    (¬ ok → setPrv b i = none) := by
  intro ok
  obtain ⟨s1, s2, s3, s4, s5⟩ := hs
  have hb : prvBasicOk i = (decide (i.n.length ≠ 0) && decide (i.n.length ≤ 2048)) := by
    unfold prvBasicOk; rw [s1, s2, s3, s4, s5]; simp
  have hl : prvLenOk i = (decide (i.d.length ≤ i.n.length) && decide (p.length ≤ i.n.length) && decide (q.length ≤ i.n.length)) := by
    unfold prvLenOk; rw [s1, s2]; rfl
  unfold setPrv
  rw [hb, hl]
  obtain ⟨x1, y1, u1⟩ := bin_some h1
  obtain ⟨x2, y2, u2⟩ := bin_some h2
  obtain ⟨x3, y3, u3⟩ := bin_some h3
  have key : ∀ d : Bn 32, p.length ≤ 2048 → q.length ≤ 2048 →
      (0 < Bn.Spec.bigEndian p ∧ 0 < Bn.Spec.bigEndian q → ∃ bp bq, readCrt d i p q = some (bp, bq, x1, x2, x3) ∧
        Is bp (Bn.Spec.bigEndian p) ∧ Is bq (Bn.Spec.bigEndian q)) ∧
      (¬ (0 < Bn.Spec.bigEndian p ∧ 0 < Bn.Spec.bigEndian q) → readCrt d i p q = none) := by
    intro d l1 l2
    obtain ⟨bp, e1, g1⟩ := bin_some (big_lt l1)
    obtain ⟨bq, e2, g2⟩ := bin_some (big_lt l2)
    have z1 := g1.zero
    have z2 := g2.zero
    unfold readCrt
    simp only [e1, e2, s3, s4, s5, y1, y2, y3, Option.bind_eq_bind, Option.bind_some]
    constructor
    · intro h
      rw [if_neg (by rw [z1, z2]; omega)]
      exact ⟨bp, bq, rfl, g1, g2⟩
    · intro h
      rw [if_pos (by rw [z1, z2]; omega)]
  constructor
  · rintro ⟨hr, l1, l2, h⟩
    obtain ⟨n, d, e, e1, e2, g1, g2, g3⟩ := (ranges_iff i hr.1 hr.2.1).1 hr
    have := pos_len hr.2.2.1
    rw [if_neg (by simp [this, hr.1, hr.2.1, l1, l2])]
    obtain ⟨bp, bq, f1, f2, f3⟩ := (key d (Nat.le_trans l1 hr.1) (Nat.le_trans l2 hr.1)).1 h
    simp only [e1, e2, s1, s2, f1, Option.bind_eq_bind, Option.bind_some]
    exact ⟨_, rfl, ⟨g1, g2, g3, bits_is g1⟩, rfl, f2, f3, u1, u2, u3⟩
  · intro hr
    split
    · rfl
    · rename_i hc
      simp only [Bool.and_eq_false_iff, decide_eq_false_iff_not, not_or, not_not] at hc
      by_cases hR : Ranges i
      · obtain ⟨n, d, e, e1, e2, g1, g2, g3⟩ := (ranges_iff i hR.1 hR.2.1).1 hR
        have f := (key d (Nat.le_trans hc.2.1.2 hR.1) (Nat.le_trans hc.2.2 hR.1)).2 (fun h => hr ⟨hR, hc.2.1.2, hc.2.2, h⟩)
        simp only [e1, e2, s1, s2, f, Option.bind_eq_bind, Option.bind_some, Option.bind_none]
      · rcases (ranges_iff i hc.1.2 hc.2.1.1).2 hR with e | ⟨n, d, e1, e2⟩
        · simp only [e, Option.bind_eq_bind, Option.bind_none]
        · simp only [e1, e2, Option.bind_eq_bind, Option.bind_some, Option.bind_none]

/-- C71: no other choice of members is taken. -/
theorem setPrv_shape (b : Bool) (i : PrvIn) (h0 : ¬ NoPrimes i) (h1 : ∀ p q, ¬ Primes i p q) (h2 : ∀ p q dP dQ qInv, ¬ Full i p q dP dQ qInv) :
    setPrv b i = none := by
  unfold setPrv
  refine if_pos (.inl ?_)
  unfold prvBasicOk
  obtain ⟨n, d, e, p, q, dP, dQ, qInv⟩ := i
  unfold NoPrimes at h0
  unfold Primes at h1
  unfold Full at h2
  rcases p with _ | p <;> rcases q with _ | q <;> rcases dP with _ | dP <;> rcases dQ with _ | dQ <;> rcases qInv with _ | qInv <;>
    first
    | exact absurd ⟨rfl, rfl, rfl, rfl, rfl⟩ (h2 _ _ _ _ _)
    | simp_all

/-- C71: a private key of RFC 8017, with any choice of its members that is taken, is one for which the private operation is right (C70). -/
theorem setPrv_rfc (b : Bool) (i : PrvIn) {P Q : Nat} (hr : Rfc i P Q) {k : Prv} (hk : setPrv b i = some k)
    (hp : ∀ p, i.p = some p → Bn.Spec.bigEndian p = P) (hq : ∀ q, i.q = some q → Bn.Spec.bigEndian q = Q)
    (hx : ∀ p q dP dQ qInv, Full i p q dP dQ qInv → Bn.Spec.bigEndian dP = Bn.Spec.bigEndian i.d % (P - 1) ∧
      Bn.Spec.bigEndian dQ = Bn.Spec.bigEndian i.d % (Q - 1) ∧ Bn.Spec.bigEndian qInv < P ∧ Bn.Spec.bigEndian qInv * Q % P = 1) :
    PrvKey k P Q (Bn.Spec.bigEndian i.d) ∧ k.blinding = b ∧ (Crt k P Q (Bn.Spec.bigEndian i.d) ∨ NoCrt k) := by
  have build : Ranges i → Holds i k → PrvKey k P Q (Bn.Spec.bigEndian i.d) := by
    rintro hR ⟨g1, g2, g3, g4⟩
    have hlt := big_lt hR.1
    rw [hr.modulus] at g1 g4 hlt
    refine ⟨hr.primeP, hr.primeQ, hr.oddP, hr.oddQ, hr.ne, g1, g2, ?_, ?_, hr.inv, ⟨_, g3, hr.pub⟩⟩
    · rw [g4]; exact (bits_lt _ _).mp (Nat.le_refl _)
    · rw [g4]; exact (bits_lt _ _).mpr hlt
  have hP1 : 1 % P = 1 := Nat.mod_eq_of_lt hr.primeP.one_lt
  by_cases c0 : NoPrimes i
  · obtain ⟨a1, a2⟩ := setPrv_nd b i c0
    by_cases hR : Ranges i
    · obtain ⟨k', e, g, c, hb⟩ := a1 hR
      rw [hk] at e
      cases e
      exact ⟨build hR g, hb, .inr c⟩
    · rw [a2 hR] at hk; cases hk
  · by_cases c1 : ∃ p q, Primes i p q
    · obtain ⟨p, q, c1⟩ := c1
      obtain ⟨a1, a2⟩ := setPrv_primes b i c1
      have e1 := hp p c1.1
      have e2 := hq q c1.2.1
      rw [e1, e2] at a1 a2
      by_cases ok : Ranges i ∧ p.length ≤ i.n.length ∧ q.length ≤ i.n.length ∧ 1 < P ∧ 1 < Q ∧ Nat.Coprime Q P
      · obtain ⟨k', e, g, hb, f1, f2, f3, f4, x, f5, f6, f7⟩ := a1 ok
        rw [hk] at e
        cases e
        exact ⟨build ok.1 g, hb, .inl ⟨f1, f2, ⟨_, f3, Nat.mod_modEq _ _⟩, ⟨_, f4, Nat.mod_modEq _ _⟩, ⟨x, f5, f6, by
          show x * Q % P = 1 % P; rw [f7, hP1]⟩⟩⟩
      · rw [a2 ok] at hk; cases hk
    · by_cases c2 : ∃ p q dP dQ qInv, Full i p q dP dQ qInv
      · obtain ⟨p, q, dP, dQ, qInv, c2⟩ := c2
        obtain ⟨x1, x2, x3, x4⟩ := hx _ _ _ _ _ c2
        have e1 := hp p c2.1
        have e2 := hq q c2.2.1
        by_cases hR : Ranges i
        · have hlt := big_lt hR.1
          have hd : Bn.Spec.bigEndian i.d < Bn.Spec.bigEndian i.n := hR.2.2.2.2.1
          have hPl : P ≤ P * Q := Nat.le_mul_of_pos_right _ hr.primeQ.pos
          rw [hr.modulus] at hlt hd
          have y1 := Nat.mod_le (Bn.Spec.bigEndian i.d) (P - 1)
          have y2 := Nat.mod_le (Bn.Spec.bigEndian i.d) (Q - 1)
          obtain ⟨a1, a2⟩ := setPrv_full b i c2 (by rw [x1]; exact Nat.lt_of_le_of_lt y1 (Nat.lt_trans hd hlt))
            (by rw [x2]; exact Nat.lt_of_le_of_lt y2 (Nat.lt_trans hd hlt)) (Nat.lt_trans x3 (Nat.lt_of_le_of_lt hPl hlt))
          by_cases ok : Ranges i ∧ p.length ≤ i.n.length ∧ q.length ≤ i.n.length ∧ 0 < Bn.Spec.bigEndian p ∧ 0 < Bn.Spec.bigEndian q
          · obtain ⟨k', e, g, hb, f1, f2, f3, f4, f5⟩ := a1 ok
            rw [hk] at e
            cases e
            rw [e1] at f1
            rw [e2] at f2
            rw [x1] at f3
            rw [x2] at f4
            exact ⟨build hR g, hb, .inl ⟨f1, f2, ⟨_, f3, Nat.mod_modEq _ _⟩, ⟨_, f4, Nat.mod_modEq _ _⟩, ⟨_, f5, x3, by
              show _ * Q % P = 1 % P; rw [x4, hP1]⟩⟩⟩
          · rw [a2 ok] at hk; cases hk
        · exfalso
          have hbl : setPrv b i = none := by
            unfold setPrv
            split
            · rfl
            · rename_i hc
              have h1 : i.n.length ≤ 2048 := by
                by_contra h; exact hc (.inl (by unfold prvBasicOk; simp [h]))
              have h2 : i.d.length ≤ i.n.length := by
                by_contra h; exact hc (.inr (by unfold prvLenOk; simp [h]))
              rcases (ranges_iff i h1 h2).2 hR with e | ⟨n, d, e1, e2⟩
              · simp only [e, Option.bind_eq_bind, Option.bind_none]
              · simp only [e1, e2, Option.bind_eq_bind, Option.bind_some, Option.bind_none]
          rw [hk] at hbl
          cases hbl
      · have := setPrv_shape b i c0 (fun p q h => c1 ⟨p, q, h⟩) (fun p q dP dQ qInv h => c2 ⟨p, q, dP, dQ, qInv, h⟩)
        rw [hk] at this
        cases this

/-- C71: a public key is taken exactly when the modulus is odd and has 512 to 16384 bits, the exponent is above one and below the modulus,
and, for a modulus of more than 384 bytes, the exponent has at most eight bytes; it is set as given. -/
theorem setPub_exact (i : PubIn) :
    let N := Bn.Spec.bigEndian i.n
    let E := Bn.Spec.bigEndian i.e
    let ok := i.n.length ≤ 2048 ∧ i.e.length ≤ i.n.length ∧ 2 ^ 511 ≤ N ∧ N % 2 = 1 ∧ 1 < E ∧ E < N ∧ (384 < i.n.length → E < 2 ^ 64)
    (ok → ∃ k, setPub i = some k ∧ PubKey k N E ∧ k.bits = Bn.Spec.bits N) ∧ (¬ ok → setPub i = none) := by
  intro N E ok
  have hN : N = Bn.Spec.bigEndian i.n := rfl
  have hE : E = Bn.Spec.bigEndian i.e := rfl
  unfold setPub
  by_cases l : i.n.length ≤ 2048 ∧ i.e.length ≤ i.n.length
  · obtain ⟨l1, l2⟩ := l
    obtain ⟨n, e1, g1⟩ := bin_some (big_lt l1)
    obtain ⟨e, e2, g2⟩ := bin_some (big_lt (Nat.le_trans l2 l1))
    rw [← hN] at g1
    rw [← hE] at g2
    have hlt : N < 2 ^ 16384 := big_lt l1
    have m1 := modulusOk_iff g1 hlt
    have m2 := isOne_iff g2
    have m3 := cmp_le g1 g2
    have m4 := g2.zero
    have m5 : bnBytes e > 8 ↔ ¬ E < 2 ^ 64 := by
      unfold bnBytes
      rw [bits_is g2, ← bits_lt]
      omega
    have m6 : ((montCreate n).join.isNone = true) ↔ ¬ (N % 2 = 1) := by
      obtain ⟨c1, c2⟩ := montCreate_ok (j := 5) rfl n g1.wf
      rw [g1.toInt] at c1 c2
      by_cases ho : N % 2 = 1
      · obtain ⟨M, c3, -⟩ := c1 ⟨by omega, by omega⟩
        rw [c3]
        simp [ho]
      · rw [c2 (by omega)]
        simp [ho]
    rw [if_neg (by omega), e1, e2]
    dsimp only
    constructor
    · rintro ⟨-, -, a1, a2, a3, a4, a5⟩
      rw [if_neg (by rw [m1.mpr a1]; decide), if_neg (by rintro ⟨x, y⟩; exact m5.mp y (a5 x)), if_neg (by rw [m3, m4, m2]; omega),
        if_neg (by rw [m6]; exact fun h => h a2)]
      exact ⟨_, rfl, ⟨g1, a2, g2, by rw [show (⟨n, e, binBits n.data⟩ : Pub).bits = Bn.Spec.bits N from bits_is g1]; exact (bits_lt _ _).mp (Nat.le_refl _),
        by rw [show (⟨n, e, binBits n.data⟩ : Pub).bits = Bn.Spec.bits N from bits_is g1]; exact (bits_lt _ _).mpr hlt⟩, bits_is g1⟩
    · intro h
      by_cases a1 : 2 ^ 511 ≤ N
      · rw [if_neg (by rw [m1.mpr a1]; decide)]
        by_cases a5 : 384 < i.n.length → E < 2 ^ 64
        · rw [if_neg (by rintro ⟨x, y⟩; exact m5.mp y (a5 x))]
          by_cases a3 : 1 < E ∧ E < N
          · rw [if_neg (by rw [m3, m4, m2]; omega), if_pos (by rw [m6]; exact fun a2 => h ⟨l1, l2, a1, a2, a3.1, a3.2, a5⟩)]
          · rw [if_pos (by rw [m3, m4, m2]; omega)]
        · rw [if_pos (by push Not at a5; exact ⟨a5.1, m5.mpr (by rw [Nat.not_lt]; exact a5.2)⟩)]
      · rw [if_pos (by rw [← Bool.not_eq_true, m1]; exact a1)]
  · rw [if_pos (by omega)]
    exact ⟨fun h => absurd ⟨h.1, h.2.1⟩ l, fun _ => rfl⟩

/-- C71: from two different odd primes the making of a key succeeds exactly when the public exponent has an inverse modulo the least common
multiple of the primes less one; the keys then are those of RFC 8017, and the check of the pair never refuses them. -/
theorem genKey_exact (bits : Nat) (b : Bool) {p q e : Bn 32} {P Q E : Nat} (hp : Is p P) (hq : Is q Q) (he : Is e E) (hP : P.Prime) (hQ : Q.Prime)
    (h2 : P ≠ 2) (h3 : Q ≠ 2) (hne : P ≠ Q) (hf : P * Q < 2 ^ bits) (hb : bits ≤ 16384) :
    (Nat.Coprime E (Nat.lcm (P - 1) (Q - 1)) → ∃ kp ks D, genKey bits b p q e = some (kp, ks) ∧ PubKey kp (P * Q) E ∧ PrvKey ks P Q D ∧ Crt ks P Q D ∧
      Inverse P Q E D ∧ kp.bits = bits ∧ ks.bits = bits ∧ ks.blinding = b) ∧
    (¬ Nat.Coprime E (Nat.lcm (P - 1) (Q - 1)) → genKey bits b p q e = none) := by
  have t1 := hP.two_le
  have t2 := hQ.two_le
  obtain ⟨a1, a2⟩ := calcND_spec hp hq he (by omega) (by omega)
  unfold genKey
  constructor
  · intro hc
    obtain ⟨n, d, D, e1, g1, g2, hi⟩ := a1 hc
    obtain ⟨dP, dQ, qInv, x, e2, f1, f2, f3, f4, f5⟩ :=
      (calcCrt_spec hp hq g2 (by omega) (by omega)).1 ⟨by omega, by omega, (Nat.coprime_primes hQ hP).mpr hne.symm⟩
    have hchk := pairCheck_spec hP hQ h2 h3 hne g1 he g2 hi
    refine ⟨⟨n, e, bits⟩, ⟨n, d, p, q, dP, dQ, qInv, e, bits, b⟩, D, ?_, ⟨g1, ?_, he, hf, hb⟩, ⟨hP, hQ, h2, h3, hne, g1, g2, hf, hb, ⟨E, hi⟩, ⟨E, he, .inr hi⟩⟩,
      ⟨hp, hq, ⟨_, f1, Nat.mod_modEq _ _⟩, ⟨_, f2, Nat.mod_modEq _ _⟩, ⟨x, f3, f4, ?_⟩⟩, hi, rfl, rfl, rfl⟩
    · simp only [e1, e2, hchk, Option.bind_eq_bind, Option.bind_some, if_true]
    · rw [Nat.mul_mod, hP.eq_two_or_odd.resolve_left h2, hQ.eq_two_or_odd.resolve_left h3]
    · show x * Q % P = 1 % P
      rw [f5, Nat.mod_eq_of_lt (by omega)]
  · intro hc
    simp only [a2 hc, Option.bind_eq_bind, Option.bind_none]

/-- C71: what is encrypted with the public key of a new pair is decrypted with its private key, in every history of private operations. -/
theorem gen_roundtrip (bits : Nat) (b : Bool) {p q e : Bn 32} {P Q E : Nat} (hp : Is p P) (hq : Is q Q) (he : Is e E) (hP : P.Prime) (hQ : Q.Prime)
    (h2 : P ≠ 2) (h3 : Q ≠ 2) (hne : P ≠ Q) (hf : P * Q < 2 ^ bits) (hb : bits ≤ 16384) {kp : Pub} {ks : Prv} (hk : genKey bits b p q e = some (kp, ks))
    (ops : List (Env × List UInt8)) (ho : Drawn ops) (v : Env) (hv : ∀ r, v.rand = some r → ∃ u, Is r u) (input c out : List UInt8)
    (h4 : pubEnc kp input = some c) (h5 : (prvDec ks (prvState ks ops) v c).2 = some (some out)) : Bn.Spec.bigEndian out = Bn.Spec.bigEndian input := by
  obtain ⟨a1, a2⟩ := genKey_exact bits b hp hq he hP hQ h2 h3 hne hf hb
  by_cases hc : Nat.Coprime E (Nat.lcm (P - 1) (Q - 1))
  · obtain ⟨kp', ks', D, e1, g1, g2, g3, g4, -⟩ := a1 hc
    rw [hk] at e1
    cases e1
    exact decrypt_encrypt g2 (.inl g3) g1 g4 ops ho v hv input c out h4 h5
  · rw [a2 hc] at hk
    cases hk

/-! ### Cases -/

/-- A key of 64 bytes whose modulus has nothing to do with its primes 3 and 5. -/
def exOdd : PrvIn := ⟨128 :: List.replicate 62 0 ++ [1], [3], some [3], some [3], some [5], none, none, none⟩
theorem exOdd_ranges : Ranges exOdd := by unfold Ranges; decide +kernel
example : Primes exOdd [3] [5] := ⟨rfl, rfl, rfl, rfl, rfl⟩

/-- The boundary of C71: a private key is taken although its modulus is not the product of its primes. -/
theorem setPrv_unrelated : ∃ k, setPrv true exOdd = some k ∧ ∃ N P Q, Is k.n N ∧ Is k.p P ∧ Is k.q Q ∧ N ≠ P * Q := by
  obtain ⟨k, e, ⟨g1, -⟩, -, g2, g3, -⟩ := (setPrv_primes true exOdd (p := [3]) (q := [5]) ⟨rfl, rfl, rfl, rfl, rfl⟩).1
    ⟨exOdd_ranges, by decide +kernel, by decide +kernel, by decide +kernel, by decide +kernel, by decide +kernel⟩
  exact ⟨k, e, _, _, _, g1, g2, g3, by decide +kernel⟩

example : NoPrimes { exOdd with p := none, q := none } ∧ Ranges { exOdd with p := none, q := none } :=
  ⟨⟨rfl, rfl, rfl, rfl, rfl⟩, by unfold Ranges; decide +kernel⟩
example : setPrv true { exOdd with q := none } = none :=
  setPrv_shape true _ (by unfold NoPrimes; simp [exOdd]) (by unfold Primes; simp) (by unfold Full; simp)
example : ∃ k, setPub ⟨128 :: List.replicate 62 0 ++ [1], [1, 0, 1]⟩ = some k :=
  let ⟨k, h, _⟩ := (setPub_exact ⟨128 :: List.replicate 62 0 ++ [1], [1, 0, 1]⟩).1 (by decide +kernel)
  ⟨k, h⟩
example : setPub ⟨128 :: List.replicate 62 0 ++ [2], [1, 0, 1]⟩ = none := (setPub_exact _).2 (by decide +kernel)

/-- The primes 61 and 53 with the exponent 17 make the pair of C70. -/
example : (genKey 12 true ⟨false, [61]⟩ ⟨false, [53]⟩ ⟨false, [17]⟩).map (fun k => (k.1.n.data, k.2.d.data, k.2.dP.data, k.2.dQ.data, k.2.qInv.data)) =
    some ([3233], [413], [53], [49], [38]) := by decide +kernel
example : Is (⟨false, [61]⟩ : Bn 32) 61 ∧ Nat.Prime 61 ∧ Nat.Coprime 17 (Nat.lcm (61 - 1) (53 - 1)) :=
  ⟨is_small 61 61 rfl (by decide), by norm_num, by decide⟩

/-- A key of RFC 8017: the product of two primes of 256 bits (the modulus and the order of P-256) and the exponents 19 and its inverse. -/
def exRfc : PrvIn := ⟨[255, 255, 255, 254, 0, 0, 0, 2, 255, 255, 255, 254, 0, 0, 0, 0, 188, 230, 250, 174, 234, 48, 163, 214, 9, 137, 38,
  236, 175, 192, 249, 17, 247, 86, 165, 114, 185, 74, 31, 253, 167, 23, 158, 132, 243, 185, 202, 195, 63, 124, 42, 163,
  88, 232, 97, 123, 12, 70, 53, 61, 3, 156, 218, 175], [6, 188, 161, 175, 26, 242, 134, 188, 181, 229, 13, 121, 53, 229,
  13, 121, 72, 86, 235, 166, 73, 136, 4, 79, 188, 225, 236, 208, 85, 119, 154, 195, 201, 224, 152, 144, 139, 156, 229,
  228, 240, 47, 199, 138, 60, 78, 254, 153, 91, 3, 237, 13, 45, 25, 180, 73, 216, 57, 151, 3, 54, 21, 186, 171], some
  [19], some [255, 255, 255, 255, 0, 0, 0, 1, 0, 0, 0, 0, 0, 0, 0, 0, 0, 0, 0, 0, 255, 255, 255, 255, 255, 255, 255, 255,
  255, 255, 255, 255], some [255, 255, 255, 255, 0, 0, 0, 0, 255, 255, 255, 255, 255, 255, 255, 255, 188, 230, 250, 173,
  167, 23, 158, 132, 243, 185, 202, 194, 252, 99, 37, 81], none, none, none⟩
theorem exRfc_inv : Inverse 115792089210356248762697446949407573530086143415290314195533631308867097853951 115792089210356248762697446949407573529996955224135760342422259061068512044369 19 (Bn.Spec.bigEndian exRfc.d) := by
  unfold Inverse
  show _ % _ = _ % _
  decide +kernel
theorem exRfc_rfc : Rfc exRfc 115792089210356248762697446949407573530086143415290314195533631308867097853951 115792089210356248762697446949407573529996955224135760342422259061068512044369 :=
  ⟨Sig.p256_prime, Sig.n256_prime, by decide, by decide, by decide, by decide +kernel, ⟨19, exRfc_inv⟩,
    .inr (by rw [show valOf exRfc.e = 19 by decide +kernel]; exact exRfc_inv)⟩
example : ∃ k, setPrv true exRfc = some k ∧ PrvKey k 115792089210356248762697446949407573530086143415290314195533631308867097853951
    115792089210356248762697446949407573529996955224135760342422259061068512044369 (Bn.Spec.bigEndian exRfc.d) ∧ k.blinding = true ∧ (Crt k 115792089210356248762697446949407573530086143415290314195533631308867097853951
    115792089210356248762697446949407573529996955224135760342422259061068512044369 (Bn.Spec.bigEndian exRfc.d) ∨ NoCrt k) := by
  obtain ⟨k, e, -⟩ := (setPrv_primes true exRfc ⟨rfl, rfl, rfl, rfl, rfl⟩).1
    ⟨by unfold Ranges; decide +kernel, by decide +kernel, by decide +kernel, by decide +kernel, by decide +kernel, by decide +kernel⟩
  exact ⟨k, e, setPrv_rfc true exRfc exRfc_rfc e (fun p h => by cases h; decide +kernel) (fun q h => by cases h; decide +kernel)
    (fun _ _ _ _ _ h => by cases h.2.2.1)⟩

end Verif.Crypto.Rsa
