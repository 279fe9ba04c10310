import Verif.Crypto.Paillier.Proof

/-! C74: the Paillier cryptosystem. -/
namespace Verif.Crypto.Paillier
open Verif.Crypto.Bn Verif.Crypto.Sig Verif.Crypto.Sig.Spec Verif.Crypto.Rsa Spec

/-- C74: from two primes (numbers above two do) a key is made exactly when there is the inverse, and it is the key of these primes. The context
has the length of the primes, not that of the modulus. -/
theorem gen_exact {p q : Bn 32} {P Q : Nat} (bits : Nat) (hp : Is p P) (hq : Is q Q) (h1 : 2 < P) (h2 : 2 < Q)
    (h3 : P < 2 ^ 16384) (h4 : Q < 2 ^ 16384) :
    (Nat.Coprime (Nat.lcm (P - 1) (Q - 1)) (P * Q) → ∃ k v L U, gen bits p q = some ⟨some bits, some k, some v⟩ ∧
      PubKey k (P * Q) (P * Q + 1) ∧ PrvKey v (P * Q) L U ∧ Secret P Q L U) ∧
    (¬ Nat.Coprime (Nat.lcm (P - 1) (Q - 1)) (P * Q) → gen bits p q = none) := by
  have hN : 1 < P * Q := Nat.lt_of_lt_of_le (show 1 < P by omega) (Nat.le_mul_of_pos_right _ (by omega))
  have hf : P * Q < 2 ^ 32768 := by
    have : (2 : Nat) ^ 32768 = 2 ^ 16384 * 2 ^ 16384 := by rw [← pow_add]
    rw [this]
    exact Nat.mul_lt_mul'' h3 h4
  have hn := Is.mul' (p.data.length + q.data.length) hp hq
  obtain ⟨n2, e2, g2⟩ := sqr_is hn
  have hg := Dh.add_one hn
  obtain ⟨l, el, gl⟩ := lcm_is (sub_one hp (by omega)) (sub_one hq (by omega)) (by omega) (by omega)
  have hk : PubKey ⟨_, _, n2⟩ (P * Q) (P * Q + 1) := ⟨hn, hg, g2, hN, hf⟩
  have hNN : 0 < P * Q * (P * Q) := Nat.mul_pos (by omega) (by omega)
  obtain ⟨x, ex, gx⟩ := exp_is hg gl g2 hNN
  have hx : (P * Q + 1) ^ Nat.lcm (P - 1) (Q - 1) % (P * Q * (P * Q)) = (1 + Nat.lcm (P - 1) (Q - 1) * (P * Q)) % (P * Q * (P * Q)) := by
    have a1 := binom (P * Q) 1 (Nat.lcm (P - 1) (Q - 1))
    rw [Nat.one_mul, Nat.mul_one, Nat.add_comm 1 (P * Q)] at a1
    exact a1
  rw [hx] at gx
  have hpos : 0 < (1 + Nat.lcm (P - 1) (Q - 1) * (P * Q)) % (P * Q * (P * Q)) := by rw [val_mod _ _ hN]; omega
  obtain ⟨y, y', ey, gy⟩ := quot_is (sub_one gx hpos) hn (by omega)
  rw [log_val _ _ hN] at gy
  have hco : Nat.Coprime (Nat.lcm (P - 1) (Q - 1) % (P * Q)) (P * Q) ↔ Nat.Coprime (Nat.lcm (P - 1) (Q - 1)) (P * Q) := by
    show Nat.gcd _ _ = 1 ↔ Nat.gcd _ _ = 1
    rw [← Nat.gcd_rec, Nat.gcd_comm]
  obtain ⟨i1, i2⟩ := gy.inv hn hN
  unfold gen calcPub calcLambda calcMu
  simp only [e2, el, ex, ey]
  constructor
  · intro hc
    obtain ⟨m, w, f1, f2, f3, f4⟩ := i1 (hco.mpr hc)
    simp only [f1]
    refine ⟨_, _, _, w, rfl, hk, ⟨hn, gl, f2, g2, hN, hf⟩, rfl, ?_⟩
    rw [Nat.mul_mod, Nat.mod_mod, ← Nat.mul_mod] at f4
    rw [Nat.mul_mod] at f4 ⊢
    simpa using f4
  · intro hc
    simp only [i2 (fun h => hc (hco.mp h))]

theorem len_lt {x : List UInt8} (hx : x.length ≤ 2 ^ 16) : Bn.Spec.bigEndian x < 2 ^ (8 * 2 ^ 16) := by
  have h1 := numeral_lt 256 (x.map UInt8.toNat) (by
    intro d hd
    obtain ⟨c, _, rfl⟩ := List.mem_map.mp hd
    exact c.toNat_lt)
  rw [List.length_map] at h1
  refine Nat.lt_of_lt_of_le h1 ?_
  rw [show (256 : Nat) = 2 ^ 8 from rfl, ← pow_mul]
  exact Nat.pow_le_pow_right (by decide) (by omega)

/-- C74: a public key is taken exactly when the modulus is not zero, has 2048 bytes at most and the square is its square. The base is not looked at. -/
theorem setPub_exact (c : Ctx) (n g n2 : List UInt8) (hg : g.length ≤ 2 ^ 16) (hn2 : n2.length ≤ 2 ^ 16) :
    let N := Bn.Spec.bigEndian n
    (n.length ≤ 2048 ∧ 0 < N ∧ Bn.Spec.bigEndian n2 = N * N → ∃ k, setPub c n g n2 = some ⟨c.bits, some k, c.prv⟩ ∧ Is k.n N ∧
      Is k.g (Bn.Spec.bigEndian g) ∧ Is k.n2 (N * N)) ∧
    (¬ (n.length ≤ 2048 ∧ 0 < N ∧ Bn.Spec.bigEndian n2 = N * N) → setPub c n g n2 = none) := by
  intro N
  obtain ⟨bg, eg, ig⟩ := big_some (by decide) (len_lt hg)
  obtain ⟨b2, e2, i2⟩ := big_some (by decide) (len_lt hn2)
  unfold setPub
  by_cases c0 : n.length > 16384 / 8
  · rw [if_pos c0]
    exact ⟨fun h => absurd h.1 (by omega), fun _ => rfl⟩
  rw [if_neg c0]
  have hlt : N < 2 ^ 16384 := big_lt (by omega)
  obtain ⟨bn, en, i⟩ := bin_some hlt
  have i' : Is bn N := i
  rw [en]
  dsimp only
  have hb : (binBits bn.data > 16384 ∨ binBits bn.data = 0) ↔ N = 0 := by
    rw [bits_is i']
    have a1 := (bits_lt N 16384).mpr hlt
    have a2 := bits_lt N 0
    rw [pow_zero] at a2
    omega
  obtain ⟨t, et, it⟩ := sqr_is i'
  by_cases c1 : N = 0
  · rw [if_pos (hb.mpr c1)]
    exact ⟨fun h => absurd h.2.1 (by omega), fun _ => rfl⟩
  rw [if_neg (fun h => c1 (hb.mp h)), eg, e2]
  dsimp only
  have hs : squareOk b2 bn = true ↔ Bn.Spec.bigEndian n2 = N * N := by
    unfold squareOk
    rw [et]
    dsimp only
    rw [decide_eq_true_iff, (it.cmp i2).2]
    exact eq_comm
  by_cases c2 : Bn.Spec.bigEndian n2 = N * N
  · rw [if_pos (hs.mpr c2)]
    rw [c2] at i2
    exact ⟨fun _ => ⟨_, rfl, i', ig, i2⟩, fun h => absurd ⟨by omega, by omega, c2⟩ h⟩
  · rw [if_neg (fun h => c2 (hs.mp h))]
    exact ⟨fun h => absurd h.2.2 c2, fun _ => rfl⟩

/-- C74: a private key is taken exactly when the modulus is not zero and has 16384 bits at most, the square is its square and the second of the
secret numbers is neither zero nor one. Nothing else is checked of the secret numbers. -/
theorem setPrv_exact (c : Ctx) (n l m n2 : List UInt8) (hn : n.length ≤ 2 ^ 16) (hl : l.length ≤ 2 ^ 16) (hm : m.length ≤ 2 ^ 16)
    (hn2 : n2.length ≤ 2 ^ 16) :
    let N := Bn.Spec.bigEndian n
    let ok := l ≠ [] ∧ 0 < N ∧ N < 2 ^ 16384 ∧ Bn.Spec.bigEndian n2 = N * N ∧ 1 < Bn.Spec.bigEndian m
    (ok → ∃ v, setPrv c n l m n2 = some ⟨c.bits, c.pub, some v⟩ ∧ Is v.n N ∧ Is v.lambda (Bn.Spec.bigEndian l) ∧ Is v.mu (Bn.Spec.bigEndian m) ∧
      Is v.n2 (N * N)) ∧
    (¬ ok → setPrv c n l m n2 = none) := by
  intro N ok
  obtain ⟨bn, en, i⟩ := big_some (by decide) (len_lt hn)
  have i' : Is bn N := i
  obtain ⟨bl, el, il⟩ := big_some (by decide) (len_lt hl)
  obtain ⟨bm, em, im⟩ := big_some (by decide) (len_lt hm)
  obtain ⟨b2, e2, i2⟩ := big_some (by decide) (len_lt hn2)
  have h0 : Bn.Spec.bigEndian [] = 0 := rfl
  have hNN : 0 < N → 0 < N * N := fun h => Nat.mul_pos h h
  unfold setPrv
  by_cases c0 : l.length = 0 ∨ m.length = 0 ∨ n.length = 0 ∨ n2.length = 0
  · rw [if_pos c0]
    refine ⟨fun h => ?_, fun _ => rfl⟩
    obtain ⟨a1, a2, -, a3, a4⟩ := h
    rcases c0 with h | h | h | h <;> rw [List.length_eq_zero_iff] at h
    · exact absurd h a1
    · rw [h, h0] at a4; omega
    · have : N = Bn.Spec.bigEndian n := rfl
      rw [h, h0] at this; omega
    · rw [h, h0] at a3
      have := hNN a2
      omega
  rw [if_neg c0, en]
  dsimp only
  have hb : (binBits bn.data > 16384 ∨ binBits bn.data = 0) ↔ ¬ (0 < N ∧ N < 2 ^ 16384) := by
    rw [bits_is i']
    have a1 := bits_lt N 16384
    have a2 := bits_lt N 0
    rw [pow_zero] at a2
    constructor
    · rintro (h | h) ⟨b1, b2⟩
      · have := a1.mpr b2; omega
      · have := a2.mp (by omega); omega
    · intro h
      by_cases z : N = 0
      · exact .inr (by have := a2.mpr (by omega); omega)
      · refine .inl ?_
        by_contra hc
        exact h ⟨by omega, a1.mp (by omega)⟩
  obtain ⟨t, et, it⟩ := sqr_is i'
  by_cases c1 : 0 < N ∧ N < 2 ^ 16384
  swap
  · rw [if_pos (hb.mpr c1)]
    exact ⟨fun h => absurd ⟨h.2.1, h.2.2.1⟩ c1, fun _ => rfl⟩
  rw [if_neg (fun h => hb.mp h c1), el, em, e2]
  dsimp only
  have hs : squareOk b2 bn = true ↔ Bn.Spec.bigEndian n2 = N * N := by
    unfold squareOk
    rw [et]
    dsimp only
    rw [decide_eq_true_iff, (it.cmp i2).2]
    exact eq_comm
  by_cases c2 : Bn.Spec.bigEndian n2 = N * N
  swap
  · rw [if_pos (by rw [← Bool.not_eq_true]; exact fun h => c2 (hs.mp h))]
    exact ⟨fun h => absurd h.2.2.2.1 c2, fun _ => rfl⟩
  rw [if_neg (by rw [hs.mpr c2]; decide)]
  have hm1 : (bm.data.length = 0 ∨ isOne bm = true) ↔ ¬ 1 < Bn.Spec.bigEndian m := by
    rw [im.zero, isOne_iff im]; omega
  by_cases c3 : 1 < Bn.Spec.bigEndian m
  · rw [if_neg (fun h => hm1.mp h c3)]
    rw [c2] at i2
    refine ⟨fun _ => ⟨_, rfl, i', il, im, i2⟩, fun h => absurd ⟨?_, c1.1, c1.2, c2, c3⟩ h⟩
    rintro rfl
    exact c0 (.inl rfl)
  · rw [if_pos (hm1.mpr c3)]
    exact ⟨fun h => absurd h.2.2.2.2 c3, fun _ => rfl⟩

/-- The random number that is taken. -/
theorem pick_spec {n : Bn 32} {N : Nat} (hn : Is n N) (h1 : 1 < N) (ds : List (Option (Bn 32))) (hd : ∀ r, some r ∈ ds → ∃ R, Is r R) (r : Bn 32) :
    pick n ds = some r → some r ∈ ds ∧ ∃ R, Is r R ∧ Nat.Coprime R N := by
  induction ds with
  | nil => intro h; cases h
  | cons d ds ih =>
    cases d with
    | none => intro h; cases h
    | some s =>
      obtain ⟨S, hs⟩ := hd s (by simp)
      obtain ⟨g1, g2⟩ := gcd_is hs hn (by omega)
      unfold pick
      by_cases c : S = 0
      · rw [g1 c]
        intro h
        cases h
      · obtain ⟨t, e, i⟩ := g2 c
        rw [e]
        dsimp only
        split
        · rename_i ho
          intro h
          cases h
          exact ⟨by simp, S, hs, i.mp ho⟩
        · intro h
          obtain ⟨a, b⟩ := ih (fun r hr => hd r (by simp [hr])) h
          exact ⟨by simp [a], b⟩

/-- The numbers that have a factor in common with the modulus are passed over. -/
theorem pick_first {n : Bn 32} {N R : Nat} (hn : Is n N) (h1 : 1 < N) (bad : List (Bn 32)) (hb : ∀ r ∈ bad, ∃ S, Is r S ∧ S ≠ 0 ∧ ¬ Nat.Coprime S N)
    (r : Bn 32) (hr : Is r R) (hc : Nat.Coprime R N) (rest : List (Option (Bn 32))) : pick n (bad.map some ++ some r :: rest) = some r := by
  induction bad with
  | nil =>
    have h0 : R ≠ 0 := by rintro rfl; rw [Nat.coprime_zero_left] at hc; omega
    obtain ⟨t, e, i⟩ := (gcd_is hr hn (by omega)).2 h0
    show pick n (some r :: rest) = some r
    unfold pick
    rw [e]
    dsimp only
    rw [if_pos (i.mpr hc)]
  | cons s bad ih =>
    obtain ⟨S, hs, h0, hS⟩ := hb s (by simp)
    obtain ⟨t, e, i⟩ := (gcd_is hs hn (by omega)).2 h0
    show pick n (some s :: (bad.map some ++ some r :: rest)) = some r
    unfold pick
    rw [e]
    dsimp only
    rw [if_neg (fun h => hS (i.mp h))]
    exact ih (fun r hr => hb r (by simp [hr]))

section
variable {c : Ctx} {k : Pub} {N G : Nat} (hk : c.pub = some k) (K : PubKey k N G) (hb : 0 < getBits c)
include hk K hb

/-- C74: what encryption returns. For a message below the modulus and a drawn number prime to it, after any that are not, it is the bytes of
`G ^ M * R ^ N`; the buffer must hold them. A message that is not below the modulus is refused. -/
theorem enc_exact (data : List UInt8) (len : Nat) (hl : (getBits c + 7) / 8 ≤ len) (hd : data.length ≤ (getBits c + 7) / 8) :
    let M := Bn.Spec.bigEndian data
    (∀ (bad : List (Bn 32)) r R rest, M < N → (∀ s ∈ bad, ∃ S, Is s S ∧ S ≠ 0 ∧ ¬ Nat.Coprime S N) → Is r R → Nat.Coprime R N →
      (G ^ M * R ^ N % (N * N) < 256 ^ len → ∃ out, encrypt c (bad.map some ++ some r :: rest) data len = some (some out) ∧
        Short out (G ^ M * R ^ N % (N * N)) ∧ Encrypts N G M R (Bn.Spec.bigEndian out)) ∧
      (256 ^ len ≤ G ^ M * R ^ N % (N * N) → encrypt c (bad.map some ++ some r :: rest) data len = none)) ∧
    (N ≤ M → ∀ draws, encrypt c draws data len = none) := by
  intro M
  have hlen : 1 ≤ len := by omega
  have hNN : 0 < N * N := Nat.mul_pos (by have := K.big; omega) (by have := K.big; omega)
  have he : ∀ draws, encrypt c draws data len = pubEnc k draws data len := by
    intro draws
    unfold encrypt toBytes
    rw [hk]
    dsimp only
    rw [if_neg (by omega), if_neg (by omega)]
  constructor
  · intro bad r R rest hM hbad hr hR
    obtain ⟨m, em, im⟩ := big_some (x := data) (n := 32768) (by decide) (Nat.lt_trans hM K.fits)
    obtain ⟨gm, e1, g1⟩ := exp_is K.base im K.square hNN
    obtain ⟨rn, e2, g2⟩ := exp_is hr K.modulus K.square hNN
    obtain ⟨z, e3, g3⟩ := g1.mul g2 K.square hNN
    rw [← Nat.mul_mod] at g3
    have hz : pubEnc k (bad.map some ++ some r :: rest) data len = bn2Bin z len := by
      unfold pubEnc
      rw [em]
      dsimp only
      rw [if_neg (by rw [(im.cmp K.modulus).1, neg_false im]; simp; exact hM), pick_first K.modulus K.big bad hbad r hr hR rest]
      dsimp only
      rw [e1, e2]
      dsimp only
      rw [e3]
    rw [he, hz]
    obtain ⟨s1, s2⟩ := short_is g3 hlen
    refine ⟨fun h => ?_, s2⟩
    obtain ⟨bs, f1, f2, f3⟩ := s1 h
    exact ⟨bs, f1, f2, hR, f2.1⟩
  · intro hM draws
    rw [he]
    unfold pubEnc
    cases em : bin2Bn data with
    | none => rfl
    | some m =>
      dsimp only
      rw [if_pos (.inl (((bin_is em).cmp K.modulus).1.mpr hM))]

/-- C74: whatever was drawn, a result is an encryption of the message with one of the drawn numbers. -/
theorem enc_sound (draws : List (Option (Bn 32))) (hdr : ∀ r, some r ∈ draws → ∃ R, Is r R) (data : List UInt8) (len : Nat) (out : List UInt8)
    (h : encrypt c draws data len = some (some out)) :
    Bn.Spec.bigEndian data < N ∧ out.length ≤ len ∧
    ∃ r R, some r ∈ draws ∧ Is r R ∧ Encrypts N G (Bn.Spec.bigEndian data) R (Bn.Spec.bigEndian out) ∧ Short out (Bn.Spec.bigEndian out) := by
  have hNN : 0 < N * N := Nat.mul_pos (by have := K.big; omega) (by have := K.big; omega)
  unfold encrypt toBytes at h
  rw [hk] at h
  dsimp only at h
  split at h
  · cases h
  rename_i hl
  split at h
  · cases h
  unfold pubEnc at h
  cases em : bin2Bn data with
  | none => rw [em] at h; cases h
  | some m =>
    rw [em] at h
    dsimp only at h
    have im := bin_is em
    split at h
    · cases h
    rename_i hM
    rw [(im.cmp K.modulus).1] at hM
    cases ep : pick k.n draws with
    | none => rw [ep] at h; cases h
    | some r =>
      obtain ⟨m1, R, hr, hR⟩ := pick_spec K.modulus K.big draws hdr r ep
      rw [ep] at h
      obtain ⟨gm, e1, g1⟩ := exp_is K.base im K.square hNN
      obtain ⟨rn, e2, g2⟩ := exp_is hr K.modulus K.square hNN
      obtain ⟨z, e3, g3⟩ := g1.mul g2 K.square hNN
      rw [← Nat.mul_mod] at g3
      simp only [e1, e2, e3] at h
      obtain ⟨s1, s2⟩ := short_is (len := len) g3 (by omega)
      by_cases hz : G ^ Bn.Spec.bigEndian data * R ^ N % (N * N) < 256 ^ len
      · obtain ⟨bs, f1, f2, f3⟩ := s1 hz
        rw [f1] at h
        cases h
        refine ⟨by omega, f3, r, R, m1, hr, ⟨hR, f2.1⟩, ?_⟩
        rw [f2.1]
        exact f2
      · rw [s2 (by omega)] at h
        cases h

/-- C74: adding two ciphertexts. They are taken exactly with the right length, below the square and prime to the modulus; the result is their
product, with the same length. -/
theorem add_exact (x y : List UInt8) (len : Nat) (hl : 2 * ((getBits c + 7) / 8) ≤ len) :
    let X := Bn.Spec.bigEndian x
    let Y := Bn.Spec.bigEndian y
    let ok := (x.length = 2 * ((getBits c + 7) / 8) ∧ X < N * N ∧ Nat.Coprime X N) ∧ (y.length = 2 * ((getBits c + 7) / 8) ∧ Y < N * N ∧ Nat.Coprime Y N)
    (ok → X * Y % (N * N) < 256 ^ (2 * ((getBits c + 7) / 8)) → ∃ out, add c x y len = some (some out) ∧ out.length = 2 * ((getBits c + 7) / 8) ∧
      Bn.Spec.bigEndian out = X * Y % (N * N)) ∧
    (¬ ok ∨ 256 ^ (2 * ((getBits c + 7) / 8)) ≤ X * Y % (N * N) → add c x y len = none) := by
  intro X Y ok
  have hNN : 0 < N * N := Nat.mul_pos (by have := K.big; omega) (by have := K.big; omega)
  have hB : 1 ≤ 2 * ((getBits c + 7) / 8) := by omega
  unfold add toBytes
  rw [hk, Nat.mul_comm _ 2]
  dsimp only
  by_cases c1 : x.length ≠ 2 * ((getBits c + 7) / 8) ∨ y.length ≠ 2 * ((getBits c + 7) / 8)
  · rw [if_pos c1]
    exact ⟨fun h => by obtain ⟨⟨a, -⟩, b, -⟩ := h; omega, fun _ => rfl⟩
  rw [if_neg c1, if_neg (by omega)]
  have l1 : x.length = 2 * ((getBits c + 7) / 8) := by omega
  have l2 : y.length = 2 * ((getBits c + 7) / 8) := by omega
  have key : ∀ {b : List UInt8} {a : Bn 32}, bin2Bn b = some a → (cipherOk a k.n2 = true ↔ Bn.Spec.bigEndian b < N * N ∧ Nat.Coprime (Bn.Spec.bigEndian b) N) :=
    fun e => cipherOk_iff (bin_is e) K.square K.big
  by_cases hok : ok
  · obtain ⟨⟨-, a2, a3⟩, -, b2, b3⟩ := hok
    obtain ⟨p, ep, ip⟩ := big_some (x := x) (n := 65536) (by decide) (Nat.lt_trans a2 (fits_sq K.fits))
    obtain ⟨q, eq, iq⟩ := big_some (x := y) (n := 65536) (by decide) (Nat.lt_trans b2 (fits_sq K.fits))
    obtain ⟨r, er, ir⟩ := ip.mul iq K.square hNN
    rw [ep, eq]
    dsimp only
    rw [if_neg (by rw [(key ep).mpr ⟨a2, a3⟩]; decide), if_neg (by rw [(key eq).mpr ⟨b2, b3⟩]; decide), er]
    dsimp only
    obtain ⟨s1, s2⟩ := short_is ir hB
    constructor
    · intro _ hlt
      obtain ⟨bs, f1, f2, f3⟩ := s1 hlt
      rw [f1]
      refine ⟨_, rfl, ?_, ?_⟩
      · rw [List.length_append, List.length_replicate]; omega
      · rw [Dh.big_zeros, f2.1]
    · rintro (h | h)
      · exact absurd ⟨⟨l1, a2, a3⟩, l2, b2, b3⟩ h
      · rw [s2 h]
  · refine ⟨fun h => absurd h hok, fun _ => ?_⟩
    cases ep : bin2Bn x with
    | none => rfl
    | some p =>
      cases eq : bin2Bn y with
      | none => rfl
      | some q =>
        dsimp only
        split
        · rfl
        rename_i d1
        split
        · rfl
        rename_i d2
        rw [Bool.not_eq_false, key ep] at d1
        rw [Bool.not_eq_false, key eq] at d2
        exact absurd ⟨⟨l1, d1⟩, l2, d2⟩ hok

end

section
variable {c : Ctx} {v : Prv} {N L U : Nat} (hv : c.prv = some v) (V : PrvKey v N L U) (hb : 0 < getBits c)
include hv V hb

/-- C74: what decryption returns. The ciphertext is taken exactly with the right length, below the square and prime to the modulus. -/
theorem dec_exact (data : List UInt8) (len : Nat) (hl : (getBits c + 7) / 8 ≤ len) :
    let C := Bn.Spec.bigEndian data
    let ok := data.length = 2 * ((getBits c + 7) / 8) ∧ C < N * N ∧ Nat.Coprime C N
    let M := (C ^ L % (N * N) - 1) / N * U % N
    (ok → M < 256 ^ len → ∃ out, decrypt c data len = some (some out) ∧ Short out M) ∧
    (¬ ok ∨ 256 ^ len ≤ M → decrypt c data len = none) := by
  intro C ok M
  have hN := V.big
  have hNN : 1 < N * N := Nat.lt_of_lt_of_le hN (Nat.le_mul_of_pos_right _ (by omega))
  unfold decrypt toBytes
  rw [hv]
  dsimp only
  rw [if_neg (by omega)]
  by_cases c1 : data.length ≠ (getBits c + 7) / 8 * 2
  · rw [if_pos c1]
    exact ⟨fun h => absurd h.1 (by omega), fun _ => rfl⟩
  rw [if_neg c1]
  by_cases hok : C < N * N ∧ Nat.Coprime C N
  · obtain ⟨x, ex, ix⟩ := big_some (x := data) (n := 65536) (by decide) (Nat.lt_trans hok.1 (fits_sq V.fits))
    have ix : Is x C := ix
    rw [ex]
    dsimp only
    rw [if_pos ((cipherOk_iff ix V.square hN).mpr hok)]
    obtain ⟨m, e1, g1⟩ := exp_is ix V.lambda V.square (by omega)
    have hpos : 0 < C ^ L % (N * N) := by
      rw [Nat.pos_iff_ne_zero]
      intro h0
      have h2 : Nat.Coprime (C ^ L) (N * N) := Nat.Coprime.pow_left _ (hok.2.mul_right hok.2)
      have h3 : Nat.gcd (N * N) (C ^ L) = 1 := by rw [Nat.gcd_comm]; exact h2
      rw [Nat.gcd_rec, h0, Nat.gcd_zero_left] at h3
      omega
    obtain ⟨q, q', e2, g2⟩ := quot_is (sub_one g1 hpos) V.modulus (by omega)
    obtain ⟨r, e3, g3⟩ := g2.mul V.mu V.modulus (by omega)
    have hz : prvDec v x len = bn2Bin r len := by
      unfold prvDec
      simp only [e1, e2, e3]
    rw [hz]
    obtain ⟨s1, s2⟩ := short_is (len := len) g3 (by omega)
    constructor
    · intro _ hlt
      obtain ⟨bs, f1, f2, -⟩ := s1 hlt
      exact ⟨bs, f1, f2⟩
    · rintro (h | h)
      · exact absurd ⟨by omega, hok⟩ h
      · exact s2 h
  · refine ⟨fun h => absurd h.2 hok, fun _ => ?_⟩
    cases ex : bin2Bn data with
    | none => rfl
    | some x =>
      dsimp only
      rw [if_neg (fun h => hok ((cipherOk_iff (bin_is ex) V.square hN).mp h))]

/-- C74: with the secret numbers of two primes, an encryption of `M` is decrypted to `M`, for every message and every random number, once its
bytes have the length asked for. -/
theorem dec_correct {P Q : Nat} (hP : P.Prime) (hQ : Q.Prime) (hne : P ≠ Q) (hN : N = P * Q) (hs : Secret P Q L U) (data : List UInt8) (len M R : Nat)
    (hl : (getBits c + 7) / 8 ≤ len) (hlen : data.length = 2 * ((getBits c + 7) / 8)) (hM : M % N < 256 ^ len)
    (hc : Encrypts N (N + 1) M R (Bn.Spec.bigEndian data)) : ∃ out, decrypt c data len = some (some out) ∧ Short out (M % N) := by
  have h1 := encrypts_coprime hc
  have h2 : Bn.Spec.bigEndian data < N * N := by
    rw [hc.2]
    exact Nat.mod_lt _ (Nat.mul_pos (by have := V.big; omega) (by have := V.big; omega))
  have h := (dec_exact hv V hb data len hl).1 ⟨hlen, h2, h1⟩
  subst hN
  rw [decrypt_val hP hQ hne hs hc] at h
  exact h hM

/-- C74, the finding: the length asked for is twice that of the length of the context. Every other one is refused, that of the encryption too. -/
theorem dec_refuses_length (data : List UInt8) (len : Nat) (h : data.length ≠ 2 * ((getBits c + 7) / 8)) : decrypt c data len = none := by
  unfold decrypt toBytes
  rw [hv]
  dsimp only
  split
  · rfl
  · rw [if_pos (by omega)]

end

/-- C74: the product of encryptions of two messages is one of their sum. -/
theorem add_correct {N G M₁ M₂ R₁ R₂ C₁ C₂ : Nat} (h1 : Encrypts N G M₁ R₁ C₁) (h2 : Encrypts N G M₂ R₂ C₂) :
    Encrypts N G (M₁ + M₂) (R₁ * R₂) (C₁ * C₂ % (N * N)) := by
  obtain ⟨a1, rfl⟩ := h1
  obtain ⟨b1, rfl⟩ := h2
  refine ⟨Nat.Coprime.mul_left a1 b1, ?_⟩
  rw [← Nat.mul_mod, pow_add, mul_pow]
  congr 1
  ring

/-- C74, the finding: a context that has generated its key refuses its own ciphertexts, for all primes, all messages and all numbers drawn, unless
the number happens to fit into the length of the modulus, half of that of the square. -/
theorem gen_refuses_own {p q : Bn 32} {P Q b : Nat} (hp : Is p P) (hq : Is q Q) (h1 : 2 < P) (h2 : 2 < Q) (h3 : P < 2 ^ 16384) (h4 : Q < 2 ^ 16384)
    (hb : 0 < b) {c : Ctx} (hg : gen b p q = some c) (draws : List (Option (Bn 32))) (hdr : ∀ r, some r ∈ draws → ∃ R, Is r R)
    (data : List UInt8) (len len' : Nat) (out : List UInt8) (he : encrypt c draws data len = some (some out))
    (hout : 256 ^ (2 * ((b + 7) / 8)) ≤ Bn.Spec.bigEndian out) : decrypt c out len' = none := by
  by_cases hc : Nat.Coprime (Nat.lcm (P - 1) (Q - 1)) (P * Q)
  · obtain ⟨k, v, L, U, e, K, V, -⟩ := (gen_exact b hp hq h1 h2 h3 h4).1 hc
    rw [hg] at e
    cases e
    refine dec_refuses_length (c := ⟨some b, some k, some v⟩) rfl V hb out len' ?_
    intro hl
    have h5 := numeral_lt 256 (out.map UInt8.toNat) (by
      intro d hd
      obtain ⟨c, _, rfl⟩ := List.mem_map.mp hd
      exact c.toNat_lt)
    rw [List.length_map, hl] at h5
    exact absurd hout (Nat.not_le.mpr h5)
  · rw [(gen_exact b hp hq h1 h2 h3 h4).2 hc] at hg
    cases hg

/-- C74, the finding: the base of a public key is not checked. With the base one, which is taken, encryptions of all messages are encryptions of zero. -/
theorem base_unchecked (n n2 : List UInt8) (h1 : n.length ≤ 2048) (h2 : n2.length ≤ 2 ^ 16) (h3 : 1 < Bn.Spec.bigEndian n)
    (h4 : Bn.Spec.bigEndian n2 = Bn.Spec.bigEndian n * Bn.Spec.bigEndian n) :
    ∃ k, setPub ⟨none, none, none⟩ n [1] n2 = some ⟨none, some k, none⟩ ∧ PubKey k (Bn.Spec.bigEndian n) 1 ∧
      ∀ M R C, Encrypts (Bn.Spec.bigEndian n) 1 M R C → Encrypts (Bn.Spec.bigEndian n) 1 0 R C := by
  obtain ⟨k, e, i1, i2, i3⟩ := (setPub_exact ⟨none, none, none⟩ n [1] n2 (by decide) h2).1 ⟨h1, by omega, h4⟩
  refine ⟨k, e, ⟨i1, i2, i3, h3, Nat.lt_trans (big_lt h1) (Nat.pow_lt_pow_right (by decide) (by decide))⟩, ?_⟩
  rintro M R C ⟨a, rfl⟩
  exact ⟨a, by rw [one_pow, pow_zero]⟩

/-- C74: the length of a context. Without parameters it is that of the exponent of the private key, even when a public key is there, and otherwise
that of the modulus. -/
theorem bits_exact (c : Ctx) :
    (∀ b, c.bits = some b → getBits c = b) ∧
    (∀ v L, c.bits = none → c.prv = some v → Is v.lambda L → getBits c = Bn.Spec.bits L) ∧
    (∀ k N, c.bits = none → c.prv = none → c.pub = some k → Is k.n N → getBits c = Bn.Spec.bits N) := by
  unfold getBits
  refine ⟨?_, ?_, ?_⟩
  · intro b h
    rw [h]
  · intro v L h1 h2 h
    rw [h1, h2]
    exact bits_is h
  · intro k N h1 h2 h3 h
    rw [h1, h2, h3]
    exact bits_is h

/-! ### The statements are not empty -/

/-- The primes 251 and 241 give a key. The context refuses what it has encrypted; without the parameters it is decrypted. -/
def exCtx : Option Ctx := gen 8 ⟨false, [251]⟩ ⟨false, [241]⟩
def exNoPara : Option Ctx := exCtx.map fun c => ⟨none, c.pub, c.prv⟩
theorem exP : Is (⟨false, [251]⟩ : Bn 32) 251 := is_small _ _ rfl (by decide)
theorem exQ : Is (⟨false, [241]⟩ : Bn 32) 241 := is_small _ _ rfl (by decide)

example : Nat.Coprime (Nat.lcm (251 - 1) (241 - 1)) (251 * 241) := by decide +kernel
example : (exCtx.bind fun c => encrypt c [some ⟨false, [502]⟩, some ⟨false, [7]⟩] [42] 4) = some (some [149, 145, 153, 185]) := by decide +kernel
example : (exCtx.bind fun c => decrypt c [149, 145, 153, 185] 4) = none := by decide +kernel
example : (exNoPara.bind fun c => decrypt c [149, 145, 153, 185] 4) = some (some [42]) := by decide +kernel
example : (exNoPara.bind fun c => add c [149, 145, 153, 185] [149, 145, 153, 185] 4).bind (fun o => o.bind fun s => exNoPara.bind fun c => decrypt c s 4) =
    some (some [84]) := by decide +kernel
example : ∃ k v L U, exCtx = some ⟨some 8, some k, some v⟩ ∧ PubKey k (251 * 241) (251 * 241 + 1) ∧ PrvKey v (251 * 241) L U ∧ Secret 251 241 L U :=
  (gen_exact 8 exP exQ (by decide) (by decide) (Nat.lt_trans (by decide : 251 < 2 ^ 8) (Nat.pow_lt_pow_right (by decide) (by decide)))
    (Nat.lt_trans (by decide : 241 < 2 ^ 8) (Nat.pow_lt_pow_right (by decide) (by decide)))).1 (by decide +kernel)
/-- The hypotheses of the refusal are met. -/
example : 256 ^ (2 * ((8 + 7) / 8)) ≤ Bn.Spec.bigEndian [149, 145, 153, 185] := by decide +kernel
/-- A modulus of 35 with the base one. -/
example : 1 < Bn.Spec.bigEndian [35] ∧ Bn.Spec.bigEndian [4, 201] = Bn.Spec.bigEndian [35] * Bn.Spec.bigEndian [35] := by decide +kernel
example : ∃ v, setPrv ⟨none, none, none⟩ [35] [12] [3] [4, 201] = some ⟨none, none, some v⟩ :=
  let ⟨v, e, _⟩ := (setPrv_exact ⟨none, none, none⟩ [35] [12] [3] [4, 201] (by decide) (by decide) (by decide) (by decide)).1
    ⟨by decide, by decide, Nat.lt_trans (by decide : 35 < 2 ^ 8) (Nat.pow_lt_pow_right (by decide) (by decide)), by decide, by decide⟩
  ⟨v, e⟩

end Verif.Crypto.Paillier
