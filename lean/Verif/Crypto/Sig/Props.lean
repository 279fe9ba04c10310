import Verif.Crypto.Sig.Sign
import Verif.Crypto.Sig.P256

/-! C65: ECDSA and SM2 signatures. C66: the ECDH shared key. -/
namespace Verif.Crypto.Sig
open Verif.Crypto.Bn Verif.Crypto.Ecc Spec

section
variable {p : Nat} [Fact p.Prime] {b : ZMod p} {c : Para} {G : (Ecc.Spec.Curve b).Point} {N : Nat} (D : Domain c p b G N)

include D in
theorem order_bits : binBits c.n.data = Bn.Spec.bits N ∧ binBits c.n.data ≤ 1024 ∧ binBits c.n.data ≤ 64 * c.n.data.length := by
  have h := D.order
  have hn : c.n.data ≠ [] := by
    intro e
    have := h.zero.mp (by rw [e]; rfl)
    have := D.big
    omega
  obtain ⟨h1, h2, h3, h4, h5⟩ := binBits_spec (j := 5) rfl c.n.data h.wf.1 hn
  refine ⟨by rw [bn_bits (j := 5) rfl c.n h.1, h.2]; rfl, ?_, h5⟩
  have hv : val c.n.data = N := h.scalar
  rw [hv] at h2
  have : 2 ^ (binBits c.n.data - 1) < 2 ^ 1024 := Nat.lt_of_le_of_lt h2 D.fits
  have := (Nat.pow_lt_pow_iff_right (a := 2) (by decide)).mp this
  omega

include D in
/-- C65: the data become the number of their leftmost bits, as many as the order has. -/
theorem getBn_exact (data : List UInt8) (hl : data.length < 2 ^ 29) :
    ∃ e, getBnByData c.n data = some e ∧ Is e (bits2int (Bn.Spec.bits N) data) := by
  obtain ⟨h1, h2, -⟩ := order_bits D
  obtain ⟨e, e1, e2⟩ := getBn_spec c.n data hl (by omega)
  rw [h1] at e2
  exact ⟨e, e1, e2⟩

include D in
/-- C65, what is wrong at the boundary of `getBn_exact`: data of `2 ^ 29` bytes that do not begin with a zero byte are all treated as the
number zero, because eight times the length wraps and the error of the conversion is ignored. -/
theorem getBn_wrap (data : List UInt8) (x : UInt8) (xs : List UInt8) (hd : data = x :: xs) (hx : x ≠ 0) (hl : data.length = 2 ^ 29) :
    getBnByData c.n data = some bnZero := by
  unfold getBnByData
  dsimp only
  rw [hl]
  have hw : ¬ 8 * 2 ^ 29 % 2 ^ 32 > binBits c.n.data := by rw [show 8 * 2 ^ 29 % 2 ^ 32 = 0 from rfl]; exact Nat.not_lt_zero _
  simp only [if_neg hw]
  rw [← hl, List.take_length]
  congr 1
  have hs : skipZeros data = data := by
    rw [hd]; unfold skipZeros
    rw [if_pos hx]
  unfold bin2BnVoid bin2Bn
  dsimp only
  rw [hs, hl]
  rfl

include D in
/-- C65: ECDSA verification accepts exactly the valid signatures. The public key is a point of the group other than infinity. -/
theorem ecdsaVerify_exact (pub : Pt (Bn 32)) (Q : (Ecc.Spec.Curve b).Point) (hQ : Ecc.Spec.Represents D.I pub Q) (hN : N • Q = 0) (h0 : Q ≠ 0)
    (data : List UInt8) (hl : data.length < 2 ^ 29) (r s : Bn 32) (rn sn : Nat) (hr : Is r rn) (hs : Is s sn) :
    ecdsaVerify c pub data r s = true ↔ EcdsaValid N G Q (bits2int (Bn.Spec.bits N) data) rn sn := by
  obtain ⟨e, e1, e2⟩ := getBn_exact D data hl
  unfold ecdsaVerify
  rw [e1]
  exact ecdsaCore_spec D hQ hN h0 e2 hr hs

include D in
/-- C65: SM2 verification accepts exactly the valid signatures. -/
theorem sm2Verify_exact (pub : Pt (Bn 32)) (Q : (Ecc.Spec.Curve b).Point) (hQ : Ecc.Spec.Represents D.I pub Q) (hN : N • Q = 0) (h0 : Q ≠ 0)
    (e r s : Bn 32) (en rn sn : Nat) (he : Is e en) (hr : Is r rn) (hs : Is s sn) :
    sm2Verify c pub e r s = true ↔ Sm2Valid N G Q en rn sn :=
  sm2Verify_spec D hQ hN h0 he hr hs

theorem forall2_take {α β : Type} {R : α → β → Prop} : ∀ (n : Nat) {l : List α} {m : List β}, List.Forall₂ R l m → List.Forall₂ R (l.take n) (m.take n)
  | 0, _, _, _ => by simpa using List.Forall₂.nil
  | n + 1, _, _, .nil => by simpa using List.Forall₂.nil
  | n + 1, _, _, .cons h t => by simpa using List.Forall₂.cons h (forall2_take n t)

include D in
/-- C65: ECDSA delivers the signature of the first of at most 100 secrets that gives one, and fails if none does. -/
theorem ecdsaSign_exact (prv : Bn 32) (d : Nat) (hd : Is prv d) (data : List UInt8) (hl : data.length < 2 ^ 29) (draws : List Draw) (ks : List Nat)
    (hk : List.Forall₂ (Drawn p N) draws ks) :
    let sign := EcdsaSign N G d (bits2int (Bn.Spec.bits N) data)
    (∃ r s rn sn, ecdsaSign c prv data draws = some (r, s) ∧ Is r rn ∧ Is s sn ∧ First sign (ks.take 100) rn sn) ∨
      (ecdsaSign c prv data draws = none ∧ ∀ rn sn, ¬ First sign (ks.take 100) rn sn) := by
  intro sign
  obtain ⟨e, e1, e2⟩ := getBn_exact D data hl
  obtain ⟨b1, b2, b3⟩ := order_bits D
  have hlen : e.data.length ≤ c.n.data.length := by
    refine norm_len e2.wf.1 ?_
    have hv : val e.data = _ := e2.scalar
    rw [hv, ← Nat.pow_mul]
    refine Nat.lt_of_lt_of_le (bits2int_lt _ data) (Nat.pow_le_pow_right (by decide) ?_)
    rw [← b1]
    exact b3
  have h := rounds_spec (P := Drawn p N) (fun dr k h => ecdsaRound_spec D hd e2 hlen dr k h) (forall2_take tryMax hk)
  unfold ecdsaSign
  rw [e1]
  exact h

include D in
/-- C65: SM2 delivers the signature of the first of at most 100 secrets that gives one, and fails if none does. -/
theorem sm2Sign_exact (prv : Bn 32) (d : Nat) (hd : Is prv d) (hd1 : d + 1 < N) (e : Bn 32) (en : Nat) (he : Is e en) (draws : List Draw)
    (ks : List Nat) (hk : List.Forall₂ (Drawn p N) draws ks) :
    (∃ r s rn sn, sm2Sign c prv e draws = some (r, s) ∧ Is r rn ∧ Is s sn ∧ First (Sm2Sign N G d en) (ks.take 100) rn sn) ∨
      (sm2Sign c prv e draws = none ∧ ∀ rn sn, ¬ First (Sm2Sign N G d en) (ks.take 100) rn sn) := by
  have h1 : Is (bnAddLimb prv 1) (d + 1) := by
    obtain ⟨t1, t2⟩ := bn_addLimb (by decide) prv 1 hd.1
    exact ⟨t2, by rw [t1, hd.2]; rfl⟩
  obtain ⟨inv, i, e1, hi, -, hi1⟩ := (h1.inv D.order D.prime.one_lt).1 (coprime_lt D hd1 (by omega))
  have h := rounds_spec (P := Drawn p N) (fun dr k h => sm2Round_spec D hd hi hi1 he dr k h) (forall2_take tryMax hk)
  unfold sm2Sign sm2PrvInv
  rw [e1]
  exact h

include D in
/-- C65: with the private key `N - 1` SM2 has no signature and the code reports an error. -/
theorem sm2Sign_last (prv : Bn 32) (d : Nat) (hd : Is prv d) (hd1 : d + 1 = N) (e : Bn 32) (draws : List Draw) : sm2Sign c prv e draws = none := by
  have h1 : Is (bnAddLimb prv 1) (d + 1) := by
    obtain ⟨t1, t2⟩ := bn_addLimb (by decide) prv 1 hd.1
    exact ⟨t2, by rw [t1, hd.2]; rfl⟩
  have h2 := (h1.inv D.order D.prime.one_lt).2 (by
    rw [hd1, Nat.coprime_self]
    have := D.big
    omega)
  unfold sm2Sign sm2PrvInv
  rw [h2]
  rfl

include D in
theorem key_ok {d : Nat} (h0 : 0 < d) (hd : d < N) : N • (d • G) = 0 ∧ d • G ≠ 0 := by
  refine ⟨?_, ord_of_mul D hd (by omega)⟩
  rw [smul_smul, Nat.mul_comm, mul_smul, D.nsmul, nsmul_zero]

include D in
/-- C65: every ECDSA signature that the code delivers is accepted with the public key of the signer. -/
theorem ecdsa_sign_verifies (prv : Bn 32) (d : Nat) (hd : Is prv d) (h0 : 0 < d) (hdN : d < N) (data : List UInt8) (hl : data.length < 2 ^ 29)
    (draws : List Draw) (ks : List Nat) (hk : List.Forall₂ (Drawn p N) draws ks) (pub : Pt (Bn 32)) (hQ : Ecc.Spec.Represents D.I pub (d • G))
    (r s : Bn 32) (h : ecdsaSign c prv data draws = some (r, s)) : ecdsaVerify c pub data r s = true := by
  obtain ⟨q1, q2⟩ := key_ok D h0 hdN
  rcases ecdsaSign_exact D prv d hd data hl draws ks hk with ⟨r', s', rn, sn, e, hr, hs, hf⟩ | ⟨e, -⟩
  · rw [e, Option.some.injEq, Prod.mk.injEq] at h
    obtain ⟨rfl, rfl⟩ := h
    obtain ⟨k, -, hsig⟩ := first_mem hf
    exact (ecdsaVerify_exact D pub _ hQ q1 q2 data hl _ _ rn sn hr hs).mpr (ecdsa_valid D hsig)
  · rw [e] at h
    cases h

theorem forall2_mem {α β : Type} {R : α → β → Prop} : ∀ {l : List α} {m : List β}, List.Forall₂ R l m → ∀ y ∈ m, ∃ x ∈ l, R x y
  | _, _, .nil, y, h => by cases h
  | _, _, .cons h t, y, hy => by
    rcases List.mem_cons.mp hy with rfl | hy
    · exact ⟨_, List.mem_cons_self, h⟩
    · obtain ⟨x, h1, h2⟩ := forall2_mem t y hy
      exact ⟨x, List.mem_cons_of_mem _ h1, h2⟩

include D in
/-- C65: every SM2 signature that the code delivers is accepted with the public key of the signer. -/
theorem sm2_sign_verifies (prv : Bn 32) (d : Nat) (hd : Is prv d) (h0 : 0 < d) (hdN : d < N) (e : Bn 32) (en : Nat) (he : Is e en)
    (draws : List Draw) (ks : List Nat) (hk : List.Forall₂ (Drawn p N) draws ks) (pub : Pt (Bn 32)) (hQ : Ecc.Spec.Represents D.I pub (d • G))
    (r s : Bn 32) (h : sm2Sign c prv e draws = some (r, s)) : sm2Verify c pub e r s = true := by
  obtain ⟨q1, q2⟩ := key_ok D h0 hdN
  rcases Nat.lt_or_ge (d + 1) N with hlt | hge
  · rcases sm2Sign_exact D prv d hd hlt e en he draws ks hk with ⟨r', s', rn, sn, e', hr, hs, hf⟩ | ⟨e', -⟩
    · rw [e', Option.some.injEq, Prod.mk.injEq] at h
      obtain ⟨rfl, rfl⟩ := h
      obtain ⟨k, hk', hsig⟩ := first_mem hf
      obtain ⟨dr, -, hdr⟩ := forall2_mem hk k (List.mem_of_mem_take hk')
      exact (sm2Verify_exact D pub _ hQ q1 q2 e _ _ en rn sn he hr hs).mpr (sm2_valid D hdr.2.1 hsig)
    · rw [e'] at h
      cases h
  · rw [sm2Sign_last D prv d hd (by omega) e draws] at h
    cases h

/-! ### ECDH -/

theorem bigEndian_inj : ∀ {l m : List UInt8}, l.length = m.length → Bn.Spec.bigEndian l = Bn.Spec.bigEndian m → l = m
  | [], [], _, _ => rfl
  | x :: l, y :: m, h, e => by
    have hlen : l.length = m.length := by simpa using h
    have c1 : Bn.Spec.bigEndian (x :: l) = x.toNat * 256 ^ l.length + Bn.Spec.bigEndian l := by
      unfold Bn.Spec.bigEndian; rw [List.map_cons, numeral_cons, List.length_map]
    have c2 : Bn.Spec.bigEndian (y :: m) = y.toNat * 256 ^ m.length + Bn.Spec.bigEndian m := by
      unfold Bn.Spec.bigEndian; rw [List.map_cons, numeral_cons, List.length_map]
    have b1 := bigEndian_lt l
    have b2 := bigEndian_lt m
    rw [c1, c2, ← hlen] at e
    rw [← hlen] at b2
    have t : x.toNat = y.toNat := by
      have d1 : (x.toNat * 256 ^ l.length + Bn.Spec.bigEndian l) / 256 ^ l.length = x.toNat := by
        rw [Nat.add_comm, Nat.add_mul_div_right _ _ (Nat.pow_pos (by decide)), Nat.div_eq_of_lt b1, Nat.zero_add]
      have d2 : (y.toNat * 256 ^ l.length + Bn.Spec.bigEndian m) / 256 ^ l.length = y.toNat := by
        rw [Nat.add_comm, Nat.add_mul_div_right _ _ (Nat.pow_pos (by decide)), Nat.div_eq_of_lt b2, Nat.zero_add]
      rw [← d1, e, d2]
    rw [t, Nat.add_left_cancel_iff] at e
    rw [UInt8.toNat_inj.mp t, bigEndian_inj hlen e]

include D in
/-- C66: the shared key is the first coordinate of the private key times the peer's point, as many big-endian bytes as the modulus has;
there is none when that point is at infinity or the room is too small. -/
theorem ecdhShare_exact (prv : Bn 32) (d : Nat) (hd : Is prv d) (pub : Pt (Bn 32)) (Q : (Ecc.Spec.Curve b).Point)
    (hQ : Ecc.Spec.Represents D.I pub Q) (h0 : Q ≠ 0) (blind : Bn 32) (v : Nat) (hb : Is blind v) (hv : 0 < v ∧ v < p) (n len : Nat)
    (hn : Bn.Spec.IsByteLen n p) :
    (∀ x, xCoord (d • Q) = some x → n ≤ len →
      ∃ key, ecdhShare c prv pub blind len = some key ∧ key.length = n ∧ Bn.Spec.bigEndian key = x) ∧
    (xCoord (d • Q) = none ∨ len < n → ecdhShare c prv pub blind len = none) := by
  have hnp : bnBytes c.p = n := by
    have h1 := byteLen_iff c.p D.modulus.1
    rw [D.modulus.2, Int.natAbs_natCast] at h1
    exact Nat.le_antisymm (h1.2 _ hn.1) (hn.2 _ h1.1)
  obtain ⟨q, e1, hq⟩ := mul_exact D.I newPoint pub d blind Q (newPoint_ok D) hQ h0 ((D.ok _).mpr ⟨v, hv.2, hb⟩) (by
    rw [D.rep, hb.2]
    intro hz
    have hz' : ((v : Nat) : ZMod p) = 0 := by exact_mod_cast hz
    rw [ZMod.natCast_eq_zero_iff] at hz'
    have := Nat.le_of_dvd hv.1 hz'
    omega)
  unfold ecdhShare
  simp only [hd.scalar, e1, Option.bind_eq_bind, Option.bind_some]
  obtain ⟨g1, g2⟩ := getX_spec D hq
  have hz := not_zero D.I hq
  constructor
  · intro x hx hlen
    have hne : ¬ c.S.isZero q.z = true := by
      intro e
      rw [hz.mp e] at hx
      cases hx
    obtain ⟨a, ea, ha, hxp⟩ := g1 x hx
    rw [if_neg (by unfold pointCheck; simpa using hne)]
    unfold getPointBytes
    dsimp only
    rw [hnp, if_neg (by omega), ea]
    obtain ⟨bs, e2, e3, e4⟩ := (bn2BinFix_exact a ha.1 n).1 (by rw [ha.2, Int.natAbs_natCast]; exact Nat.lt_trans hxp hn.1)
    refine ⟨bs, ?_, e3, by rw [e4, ha.2, Int.natAbs_natCast]⟩
    simp only [Option.bind_eq_bind, Option.bind_some, e2]
    rfl
  · intro h
    split
    · rfl
    · unfold getPointBytes
      dsimp only
      rw [hnp]
      split
      · rfl
      · rcases h with h | h
        · rw [g2 h]; rfl
        · omega

include D in
/-- C66: two parties that multiply each other's public point obtain the same shared key, whatever they blind the multiplication with. -/
theorem ecdh_agree (prv₁ prv₂ : Bn 32) (d₁ d₂ : Nat) (hd₁ : Is prv₁ d₁) (hd₂ : Is prv₂ d₂) (h₁ : 0 < d₁ ∧ d₁ < N) (h₂ : 0 < d₂ ∧ d₂ < N)
    (pub₁ pub₂ : Pt (Bn 32)) (hQ₁ : Ecc.Spec.Represents D.I pub₁ (d₁ • G)) (hQ₂ : Ecc.Spec.Represents D.I pub₂ (d₂ • G))
    (blind₁ blind₂ : Bn 32) (v₁ v₂ : Nat) (hb₁ : Is blind₁ v₁) (hv₁ : 0 < v₁ ∧ v₁ < p) (hb₂ : Is blind₂ v₂) (hv₂ : 0 < v₂ ∧ v₂ < p)
    (n len₁ len₂ : Nat) (hn : Bn.Spec.IsByteLen n p) (hl₁ : n ≤ len₁) (hl₂ : n ≤ len₂) :
    ∃ key, ecdhShare c prv₁ pub₂ blind₁ len₁ = some key ∧ ecdhShare c prv₂ pub₁ blind₂ len₂ = some key := by
  have k1 := key_ok D h₁.1 h₁.2
  have k2 := key_ok D h₂.1 h₂.2
  have hsame : d₂ • (d₁ • G) = d₁ • (d₂ • G) := by rw [smul_smul, smul_smul, Nat.mul_comm]
  have hmul : d₁ * d₂ % N ≠ 0 := by
    intro h
    rcases (Nat.Prime.dvd_mul D.prime).mp (Nat.dvd_of_mod_eq_zero h) with h | h
    · have := Nat.le_of_dvd h₁.1 h; omega
    · have := Nat.le_of_dvd h₂.1 h; omega
  have hne : d₁ • (d₂ • G) ≠ 0 := by
    rw [smul_smul, smul_mod D D.nsmul (show d₁ * d₂ % N = d₁ * d₂ % N % N by rw [Nat.mod_mod])]
    exact ord_of_mul D (Nat.mod_lt _ D.prime.pos) hmul
  obtain ⟨x, hx⟩ := xCoord_some D hne
  obtain ⟨key₁, e1, e2, e3⟩ := (ecdhShare_exact D prv₁ d₁ hd₁ pub₂ _ hQ₂ k2.2 blind₁ v₁ hb₁ hv₁ n len₁ hn).1 x hx hl₁
  obtain ⟨key₂, f1, f2, f3⟩ := (ecdhShare_exact D prv₂ d₂ hd₂ pub₁ _ hQ₁ k1.2 blind₂ v₂ hb₂ hv₂ n len₂ hn).1 x (by rw [hsame]; exact hx) hl₂
  refine ⟨key₁, e1, ?_⟩
  rw [f1]
  congr 1
  exact bigEndian_inj (by rw [e2, f2]) (by rw [e3, f3])

end

/-! ### Cases that meet the hypotheses: P-256, the hash of "sample" (RFC 6979, A.2.5), the private key 1, the secret 1. -/

def exData : List UInt8 := [175, 43, 219, 225, 170, 155, 110, 193, 226, 173, 225, 214, 148, 244, 31, 199, 26, 131, 29, 2, 104, 233, 137, 21, 98, 17, 61, 138, 98, 173, 209, 191]
def exE : Bn 32 := ⟨false, [0x62113d8a62add1bf, 0x1a831d0268e98915, 0xe2ade1d694f41fc7, 0xaf2bdbe1aa9b6ec1]⟩
def exDraws : List Draw := [⟨⟨false, [1]⟩, ⟨false, [5]⟩⟩]

theorem five_is : Is ⟨false, [5]⟩ 5 :=
  ⟨⟨fun x h => by rw [show ([5] : List (W 32)).getLast? = some 5 from rfl] at h; cases h; decide, fun h => by cases h⟩, by decide⟩

theorem exE_is : Is exE 79232240492262066599341792208678897019497196617930543451364792016062498329023 :=
  ⟨⟨fun x h => by rw [show exE.data.getLast? = some 0xaf2bdbe1aa9b6ec1 from rfl] at h; cases h; decide, fun h => by cases h⟩, by decide +kernel⟩

theorem exDraws_ok : List.Forall₂ (Drawn p256 n256) exDraws [1] :=
  .cons ⟨one_is, by decide +kernel, 5, five_is, by decide, by decide +kernel⟩ .nil

theorem exX : xCoord (1 • G256) = some gx256 := by
  rw [one_nsmul]
  show some ((gx256 : ZMod p256)).val = _
  rw [ZMod.val_natCast, Nat.mod_eq_of_lt (by decide +kernel)]

theorem exHash : bits2int (Bn.Spec.bits n256) exData = 79232240492262066599341792208678897019497196617930543451364792016062498329023 := by decide +kernel

theorem exPub : Ecc.Spec.Represents domain256.I c256.g (1 • G256) := by rw [one_nsmul]; exact domain256.gen

example : ∃ r s, ecdsaSign c256 ⟨false, [1]⟩ exData exDraws = some (r, s) ∧ Is r gx256 ∧
    Is s 11879712575812269595696930512069237692263190919836531104786613672076390919940 ∧ ecdsaVerify c256 c256.g exData r s = true := by
  have hs : EcdsaSign n256 G256 1 79232240492262066599341792208678897019497196617930543451364792016062498329023 1 gx256 11879712575812269595696930512069237692263190919836531104786613672076390919940 :=
    ⟨⟨gx256, exX, by decide +kernel⟩, by decide +kernel, by decide +kernel, by decide +kernel, by decide +kernel⟩
  have h := ecdsaSign_exact domain256 ⟨false, [1]⟩ 1 one_is exData (by decide) exDraws [1] exDraws_ok
  rw [exHash] at h
  rcases h with ⟨r, s, rn, sn, e1, hr, hsn, hf⟩ | ⟨-, hno⟩
  · rcases hf with hf | ⟨hno, -⟩
    · obtain ⟨⟨x, hx, h1⟩, h2, h3, h4, h5⟩ := hf
      rw [exX, Option.some.injEq] at hx
      subst hx
      obtain ⟨⟨x, hx', g1⟩, g2, g3, g4, g5⟩ := hs
      have hrn : rn = gx256 := by rw [h1]; decide +kernel
      subst hrn
      have hsn' : sn = 11879712575812269595696930512069237692263190919836531104786613672076390919940 := by
        rw [Nat.one_mul, Nat.mod_eq_of_lt h4] at h5
        rw [h5]; decide +kernel
      subst hsn'
      exact ⟨r, s, e1, hr, hsn, ecdsa_sign_verifies domain256 ⟨false, [1]⟩ 1 one_is (by decide) (by decide +kernel) exData (by decide)
        exDraws [1] exDraws_ok c256.g exPub r s e1⟩
    · exact absurd hs (hno _ _)
  · exact absurd (Or.inl hs) (hno _ _)

example : EcdsaValid n256 G256 (1 • G256) 79232240492262066599341792208678897019497196617930543451364792016062498329023 gx256 11879712575812269595696930512069237692263190919836531104786613672076390919940 :=
  ecdsa_valid domain256 (k := 1) ⟨⟨gx256, exX, by decide +kernel⟩, by decide +kernel, by decide +kernel, by decide +kernel, by decide +kernel⟩

example : ∃ r s, sm2Sign c256 ⟨false, [1]⟩ exE exDraws = some (r, s) ∧ sm2Verify c256 c256.g exE r s = true := by
  have hs : Sm2Sign n256 G256 1 79232240492262066599341792208678897019497196617930543451364792016062498329023 1 11879712575812269595696930512069237692263190919836531104786613672076390919940 51956188317271989583500258218669167918866882152149614618817822694496060562215 :=
    ⟨⟨gx256, exX, by decide +kernel⟩, by decide +kernel, by decide +kernel, by decide +kernel, by decide +kernel, by decide +kernel⟩
  rcases sm2Sign_exact domain256 ⟨false, [1]⟩ 1 one_is (by decide +kernel) exE _ exE_is exDraws [1] exDraws_ok with ⟨r, s, rn, sn, e1, -⟩ | ⟨-, hno⟩
  · exact ⟨r, s, e1, sm2_sign_verifies domain256 ⟨false, [1]⟩ 1 one_is (by decide) (by decide +kernel) exE _ exE_is exDraws [1] exDraws_ok c256.g exPub r s e1⟩
  · exact absurd (Or.inl hs) (hno _ _)

/-- Two messages of `2 ^ 29` bytes with different numbers that the code does not tell apart. -/
example : ∃ l m : List UInt8, l.length = 2 ^ 29 ∧ m.length = 2 ^ 29 ∧ l.head? ≠ m.head? ∧ getBnByData bn256 l = getBnByData bn256 m := by
  have h : ∀ x : UInt8, (x :: List.replicate 536870911 (0 : UInt8)).length = 2 ^ 29 := by
    intro x; rw [List.length_cons, List.length_replicate]; norm_num
  refine ⟨1 :: List.replicate 536870911 0, 2 :: List.replicate 536870911 0, h _, h _, by decide, ?_⟩
  rw [show bn256 = c256.n from rfl, getBn_wrap domain256 _ 1 _ rfl (by decide) (h _), getBn_wrap domain256 _ 2 _ rfl (by decide) (h _)]

theorem p256_bytes : Bn.Spec.IsByteLen 32 p256 :=
  ⟨by decide +kernel, fun m hm => by
    by_contra hc
    have := Nat.pow_le_pow_right (n := 256) (by decide) (show m ≤ 31 by omega)
    have : (256 : Nat) ^ 31 ≤ p256 := by decide +kernel
    omega⟩

example : ∃ key, ecdhShare c256 ⟨false, [1]⟩ c256.g ⟨false, [5]⟩ 32 = some key ∧ key.length = 32 ∧ Bn.Spec.bigEndian key = gx256 :=
  (ecdhShare_exact domain256 _ 1 one_is c256.g G256 domain256.gen g256_ne _ 5 five_is ⟨by decide, by decide +kernel⟩ 32 32 p256_bytes).1 gx256 exX (by decide)

example (pub₂ : Pt (Bn 32)) (h : Ecc.Spec.Represents domain256.I pub₂ (5 • G256)) :
    ∃ key, ecdhShare c256 ⟨false, [1]⟩ pub₂ ⟨false, [5]⟩ 32 = some key ∧ ecdhShare c256 ⟨false, [5]⟩ c256.g ⟨false, [1]⟩ 40 = some key :=
  ecdh_agree domain256 _ _ 1 5 one_is five_is ⟨by decide, by decide +kernel⟩ ⟨by decide, by decide +kernel⟩ c256.g pub₂ exPub h _ _ 5 1
    five_is ⟨by decide, by decide +kernel⟩ one_is ⟨by decide, by decide +kernel⟩ 32 32 40 p256_bytes (by decide) (by decide)

end Verif.Crypto.Sig
