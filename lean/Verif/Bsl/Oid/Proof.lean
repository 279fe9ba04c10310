import Verif.Bsl.Oid.Model
import Verif.Bsl.Oid.Spec
/-!
# Object identifiers: digits and the conversion to text
-/
namespace Verif.Bsl.Oid
open Verif.Common

theorem digits_small {b n : Nat} (h : n < b + 2) : Spec.digits b n = [n] := by
  rw [Spec.digits, if_pos h]

theorem digits_big {b n : Nat} (h : ¬ n < b + 2) :
    Spec.digits b n = Spec.digits b (n / (b + 2)) ++ [n % (b + 2)] := by
  rw [Spec.digits, if_neg h]

theorem digits_ne (b n : Nat) : Spec.digits b n ≠ [] := by
  rw [Spec.digits]; split <;> simp

theorem digits_snoc {b v d : Nat} (hv : 0 < v) (hd : d < b + 2) :
    Spec.digits b (v * (b + 2) + d) = Spec.digits b v ++ [d] := by
  have h1 : ¬ v * (b + 2) + d < b + 2 := by
    have : 1 * (b + 2) ≤ v * (b + 2) := Nat.mul_le_mul_right _ hv
    omega
  rw [digits_big h1, Nat.mul_comm, Nat.mul_add_div (by omega), Nat.div_eq_of_lt hd, Nat.mul_add_mod,
    Nat.mod_eq_of_lt hd, Nat.add_zero]

theorem digits_lt (b n : Nat) : ∀ d ∈ Spec.digits b n, d < b + 2 := by
  induction n using Nat.strongRecOn with
  | ind n ih =>
    intro d hd
    by_cases h : n < b + 2
    · rw [digits_small h] at hd
      have : d = n := by simpa using hd
      omega
    · rw [digits_big h] at hd
      rcases List.mem_append.mp hd with h1 | h1
      · exact ih _ (Nat.div_lt_self (by omega) (by omega)) d h1
      · have : d = n % (b + 2) := by simpa using h1
        rw [this]; exact Nat.mod_lt _ (by omega)

theorem value_snoc (base : Nat) (ds : List Nat) (d : Nat) :
    Spec.value base (ds ++ [d]) = base * Spec.value base ds + d := by
  unfold Spec.value; rw [List.foldl_append]; rfl

theorem value_digits (b n : Nat) : Spec.value (b + 2) (Spec.digits b n) = n := by
  induction n using Nat.strongRecOn with
  | ind n ih =>
    by_cases h : n < b + 2
    · rw [digits_small h]; simp [Spec.value]
    · rw [digits_big h, value_snoc, ih _ (Nat.div_lt_self (by omega) (by omega))]
      exact Nat.div_add_mod n (b + 2)

theorem digits_length {b n : Nat} (k : Nat) : (Spec.digits b n).length ≤ k + 1 ↔ n < (b + 2) ^ (k + 1) := by
  induction k generalizing n with
  | zero =>
    by_cases h : n < b + 2
    · rw [digits_small h]; simp [h]
    · rw [digits_big h]
      have := List.length_pos_iff.mpr (digits_ne b (n / (b + 2)))
      rw [List.length_append, Nat.zero_add, Nat.pow_one]
      simp only [List.length_cons, List.length_nil]
      omega
  | succ k ih =>
    by_cases h : n < b + 2
    · rw [digits_small h]
      have : (b + 2) ^ 1 ≤ (b + 2) ^ (k + 1 + 1) := Nat.pow_le_pow_right (by omega) (by omega)
      rw [Nat.pow_one] at this
      simp only [List.length_cons, List.length_nil]
      omega
    · rw [digits_big h, List.length_append]
      simp only [List.length_cons, List.length_nil]
      have hi := ih (n := n / (b + 2))
      rw [Nat.div_lt_iff_lt_mul (by omega), ← Nat.pow_succ] at hi
      rw [← hi]; omega

theorem decimal_eq (room n : Nat) (h : n < 10 ^ (room + 1)) : decimal (room + 1) n = Spec.number n := by
  induction room generalizing n with
  | zero =>
    have h : n < 10 := by simpa using h
    unfold decimal Spec.number
    rw [if_pos h, digits_small (by omega)]; rfl
  | succ room ih =>
    unfold decimal
    by_cases h0 : n < 10
    · rw [if_pos h0]; unfold Spec.number; rw [digits_small (by omega)]; rfl
    · rw [if_neg h0, ih (n / 10) (by rw [Nat.div_lt_iff_lt_mul (by omega), ← Nat.pow_succ]; exact h)]
      unfold Spec.number
      rw [digits_big (n := n) (by omega), List.map_append]; rfl

theorem number_length {n : Nat} (k : Nat) : (Spec.number n).length ≤ k + 1 ↔ n < 10 ^ (k + 1) := by
  unfold Spec.number; rw [List.length_map]; exact digits_length k

/-- The value read so far with one more byte. -/
theorem step_value {v : Nat} (b : Byte) (h : ¬ v > (2 ^ 64 - 1) >>> 7) :
    (v <<< 7) % 2 ^ 64 ||| (b &&& 0x7f#8).toNat = v * 128 + b.toNat % 128 := by
  have h1 : (2 ^ 64 - 1) >>> 7 = 2 ^ 57 - 1 := by decide
  rw [h1] at h
  have hb : (b &&& 0x7f#8).toNat = b.toNat % 128 := by
    rw [BitVec.toNat_and]
    exact Nat.and_two_pow_sub_one_eq_mod b.toNat 7
  rw [hb, Nat.mod_eq_of_lt (by rw [Nat.shiftLeft_eq]; omega), ← Nat.shiftLeft_add_eq_or_of_lt (i := 7) (by omega),
    Nat.shiftLeft_eq]

theorem top_bit (b : Byte) : b &&& 0x80#8 = 0#8 ↔ b.toNat < 128 := by
  revert b; decide +kernel

/-- The step of the loop. -/
theorem loop_cons (b : Byte) (r : List Byte) (v : Nat) (text : List Byte) (hv : v < 2 ^ 57) :
    toTextLoop (b :: r) v text =
      if v = 0 ∧ b = 0x80#8 then .error .invalid
      else if b.toNat < 128 then
        if v * 128 + b.toNat < 10 ^ 18 ∧ text.length + 1 + (Spec.number (v * 128 + b.toNat)).length < 256 then
          toTextLoop r 0 (text ++ 46#8 :: Spec.number (v * 128 + b.toNat))
        else .error .invalid
      else toTextLoop r (v * 128 + b.toNat % 128) text := by
  have hs : ¬ v > (2 ^ 64 - 1) >>> 7 := by
    have h1 : (2 ^ 64 - 1) >>> 7 = 2 ^ 57 - 1 := by decide
    rw [h1]; omega
  rw [toTextLoop, if_neg hs]
  split
  · rfl
  simp only
  rw [step_value b hs]
  by_cases hb : b.toNat < 128
  · rw [if_pos ((top_bit b).mpr hb), if_pos hb, Nat.mod_eq_of_lt hb,
      decimal_eq 19 _ (Nat.lt_trans (m := 2 ^ 64) (by omega) (by decide))]
    have hn := number_length (n := v * 128 + b.toNat) 17
    simp only [List.length_cons]
    generalize Spec.number (v * 128 + b.toNat) = t at hn ⊢
    generalize v * 128 + b.toNat = w at hn ⊢
    generalize (10 : Nat) ^ 18 = p at hn ⊢
    by_cases h1 : w < p ∧ text.length + 1 + t.length < 256
    · have := hn.mpr h1.1
      rw [if_pos h1, if_neg (by omega), if_neg (by omega)]
    · rw [if_neg h1]
      by_cases h2 : t.length + 1 ≥ 20
      · rw [if_pos h2]
      · have := hn.mp (by omega)
        rw [if_neg h2, if_pos]
        have h1 : ¬ text.length + 1 + t.length < 256 := fun h => h1 ⟨this, h⟩
        omega
  · rw [if_neg (fun h => hb ((top_bit b).mp h)), if_neg hb]

/-- A value too large to be shifted is refused. -/
theorem loop_big (bs : List Byte) (v : Nat) (text : List Byte) (hv : ¬ v < 2 ^ 57) :
    toTextLoop bs v text = .error .invalid := by
  cases bs with
  | nil => rw [toTextLoop, if_pos (by omega)]
  | cons b r =>
    rw [toTextLoop, if_pos]
    have h1 : (2 ^ 64 - 1) >>> 7 = 2 ^ 57 - 1 := by decide
    rw [h1]; omega

theorem subId_small {n : Nat} (h : n < 128) : Spec.subId n = [BitVec.ofNat 8 n] := by
  unfold Spec.subId
  rw [digits_small (by omega), Nat.mod_eq_of_lt h]; rfl

theorem subId_snoc {v d : Nat} (hv : 0 < v) (hd : d < 128) :
    Spec.subId (v * 128 + d) = (Spec.digits 126 v).map (fun d => BitVec.ofNat 8 (128 + d)) ++ [BitVec.ofNat 8 d] := by
  unfold Spec.subId
  rw [digits_snoc (b := 126) hv (by omega), List.dropLast_concat, show (v * 128 + d) % 128 = d by omega]

theorem ofNat_toNat (b : Byte) : BitVec.ofNat 8 b.toNat = b := by
  apply BitVec.eq_of_toNat_eq
  rw [BitVec.toNat_ofNat, Nat.mod_eq_of_lt b.isLt]

theorem cont_byte {b : Byte} (h : ¬ b.toNat < 128) : BitVec.ofNat 8 (128 + b.toNat % 128) = b := by
  have := b.isLt
  rw [show 128 + b.toNat % 128 = b.toNat by omega, ofNat_toNat]

/-- The middle of a subidentifier: what the loop does once it has read `v > 0`. -/
theorem loop_mid (bs : List Byte) (v : Nat) (text cs : List Byte) (hv : 0 < v)
    (h : toTextLoop bs v text = .ok cs) :
    ∃ n mid r, bs = mid ++ r ∧
      Spec.subId n = (Spec.digits 126 v).map (fun d => BitVec.ofNat 8 (128 + d)) ++ mid ∧ r.length < bs.length ∧
      n < 10 ^ 18 ∧ text.length + 1 + (Spec.number n).length < 256 ∧
      toTextLoop r 0 (text ++ 46#8 :: Spec.number n) = .ok cs := by
  induction bs generalizing v with
  | nil => rw [toTextLoop, if_pos (by omega)] at h; cases h
  | cons b r ih =>
    by_cases hb : v < 2 ^ 57
    · rw [loop_cons b r v text hb, if_neg (by omega)] at h
      by_cases h1 : b.toNat < 128
      · rw [if_pos h1] at h
        split at h
        · rename_i h2
          refine ⟨_, [b], r, rfl, ?_, Nat.lt_succ_self _, h2.1, h2.2, h⟩
          rw [subId_snoc hv h1, ofNat_toNat]
        · cases h
      · rw [if_neg h1] at h
        obtain ⟨n, mid, r', e1, e2, e3, e4⟩ := ih _ (by omega) h
        refine ⟨n, b :: mid, r', by rw [e1]; rfl, ?_, by simp only [List.length_cons]; omega, e4⟩
        rw [e2, digits_snoc (b := 126) hv (by omega), List.map_append, List.append_assoc]
        simp only [List.map_cons, List.map_nil, cont_byte h1]; rfl
    · rw [loop_big _ _ _ hb] at h; cases h

/-- One subidentifier off the front. -/
theorem loop_first (b : Byte) (r text cs : List Byte) (h : toTextLoop (b :: r) 0 text = .ok cs) :
    ∃ n r', b :: r = Spec.subId n ++ r' ∧ r'.length < (b :: r).length ∧
      n < 10 ^ 18 ∧ text.length + 1 + (Spec.number n).length < 256 ∧
      toTextLoop r' 0 (text ++ 46#8 :: Spec.number n) = .ok cs := by
  rw [loop_cons b r 0 text (by decide)] at h
  split at h
  · cases h
  rename_i h0
  by_cases h1 : b.toNat < 128
  · rw [if_pos h1, Nat.zero_mul, Nat.zero_add] at h
    split at h
    · rename_i h2
      refine ⟨b.toNat, r, ?_, Nat.lt_succ_self _, h2.1, h2.2, h⟩
      rw [subId_small h1, ofNat_toNat]; rfl
    · cases h
  · rw [if_neg h1, Nat.zero_mul, Nat.zero_add] at h
    have hb := b.isLt
    have hpos : 0 < b.toNat % 128 := by
      apply Nat.pos_of_ne_zero
      intro hz
      apply h0
      refine ⟨rfl, ?_⟩
      apply BitVec.eq_of_toNat_eq
      show b.toNat = 128
      omega
    obtain ⟨n, mid, r', e1, e2, e3, e4⟩ := loop_mid r _ text cs hpos h
    refine ⟨n, r', ?_, by simp only [List.length_cons]; omega, e4⟩
    rw [e2, digits_small (by omega), e1]
    simp only [List.map_cons, List.map_nil, cont_byte h1, List.cons_append, List.nil_append]

/-- The loop over the middle of a subidentifier, given its digits. -/
theorem loop_digits (v : Nat) (tl text : List Byte) (hv : v < 2 ^ 57) (h0 : 0 < v) :
    toTextLoop ((Spec.digits 126 v).map (fun d => BitVec.ofNat 8 (128 + d)) ++ tl) 0 text = toTextLoop tl v text := by
  induction v using Nat.strongRecOn generalizing tl with
  | ind v ih =>
    have hbyte : ∀ d, d < 128 → (BitVec.ofNat 8 (128 + d)).toNat = 128 + d := by
      intro d hd; rw [BitVec.toNat_ofNat]; omega
    by_cases hs : v < 128
    · rw [digits_small (by omega)]
      simp only [List.map_cons, List.map_nil, List.cons_append, List.nil_append]
      rw [loop_cons _ _ _ _ (by decide), hbyte v hs, if_neg ?_, if_neg (by omega)]
      · congr 1; omega
      · rintro ⟨_, h⟩
        have := congrArg BitVec.toNat h
        rw [hbyte v hs] at this
        have e : (0x80#8 : Byte).toNat = 128 := rfl
        omega
    · rw [digits_big (by omega), List.map_append, List.append_assoc,
        ih (v / (126 + 2)) (by omega) _ (by omega) (by omega)]
      simp only [List.map_cons, List.map_nil, List.cons_append, List.nil_append]
      rw [loop_cons _ _ _ _ (by omega), if_neg (by omega), hbyte _ (by omega), if_neg (by omega)]
      congr 1; omega

/-- The loop over a whole subidentifier. -/
theorem loop_subId (n : Nat) (tl text : List Byte) (hn : n < 10 ^ 18)
    (hl : text.length + 1 + (Spec.number n).length < 256) :
    toTextLoop (Spec.subId n ++ tl) 0 text = toTextLoop tl 0 (text ++ 46#8 :: Spec.number n) := by
  have hbyte : ∀ d, d < 128 → (BitVec.ofNat 8 d).toNat = d := by
    intro d hd; rw [BitVec.toNat_ofNat]; omega
  by_cases hs : n < 128
  · rw [subId_small hs]
    simp only [List.cons_append, List.nil_append]
    rw [loop_cons _ _ _ _ (by decide), hbyte n hs, if_neg ?_, if_pos hs, Nat.zero_mul, Nat.zero_add, if_pos ⟨hn, hl⟩]
    rintro ⟨_, h⟩
    have := congrArg BitVec.toNat h
    rw [hbyte n hs] at this
    have e : (0x80#8 : Byte).toNat = 128 := rfl
    omega
  · have e : n = n / 128 * 128 + n % 128 := by omega
    have hq : n / 128 < 2 ^ 57 := by omega
    have h1 : Spec.subId n = (Spec.digits 126 (n / 128)).map (fun d => BitVec.ofNat 8 (128 + d)) ++
        [BitVec.ofNat 8 (n % 128)] := by
      conv => lhs; rw [e]
      exact subId_snoc (by omega) (by omega)
    rw [h1, List.append_assoc, loop_digits _ _ _ hq (by omega)]
    simp only [List.cons_append, List.nil_append]
    rw [loop_cons _ _ _ _ hq, if_neg (by omega), hbyte _ (by omega), if_pos (by omega), ← e, if_pos ⟨hn, hl⟩]

/-- The text appended for a list of numbers. -/
def tailText (rest : List Nat) : List Byte := (rest.map fun n => 46#8 :: Spec.number n).flatten

theorem dotted_cons (t : List Byte) (rest : List Nat) :
    Spec.dotted (t :: rest.map Spec.number) = t ++ tailText rest := by
  induction rest generalizing t with
  | nil => simp [Spec.dotted, tailText]
  | cons n r ih => rw [List.map_cons, Spec.dotted, ih]; simp [tailText]

theorem text_cons (x y : Nat) (rest : List Nat) :
    Spec.text (x :: y :: rest) = Spec.number x ++ 46#8 :: Spec.number y ++ tailText rest := by
  unfold Spec.text
  rw [List.map_cons, dotted_cons]
  simp [tailText]

/-- The loop, completely. -/
theorem loop_spec (bs text cs : List Byte) (ht : text.length < 256) :
    toTextLoop bs 0 text = .ok cs ↔
      ∃ rest : List Nat, bs = (rest.map Spec.subId).flatten ∧ (∀ n ∈ rest, n < 10 ^ 18) ∧
        cs = text ++ tailText rest ∧ cs.length < 256 := by
  constructor
  · intro h
    induction hn : bs.length using Nat.strongRecOn generalizing bs text with
    | ind k ih =>
      subst hn
      cases bs with
      | nil =>
        rw [toTextLoop, if_neg (by omega)] at h
        cases h
        exact ⟨[], rfl, by simp, by simp [tailText], ht⟩
      | cons b r =>
        obtain ⟨n, r', e1, e2, e3, e4, e5⟩ := loop_first b r text cs h
        obtain ⟨rest, f1, f2, f3, f4⟩ := ih r'.length e2 r' _
          (by rw [List.length_append, List.length_cons]; omega) e5 rfl
        refine ⟨n :: rest, by rw [e1, f1]; simp, ?_, by rw [f3]; simp [tailText], f4⟩
        intro m hm
        rcases List.mem_cons.mp hm with rfl | hm
        · exact e3
        · exact f2 m hm
  · rintro ⟨rest, rfl, h2, rfl, h4⟩
    clear ht
    induction rest generalizing text with
    | nil =>
      simp only [List.map_nil, List.flatten_nil]
      rw [toTextLoop, if_neg (by omega)]; simp [tailText]
    | cons n r ih =>
      have hc : tailText (n :: r) = (46#8 :: Spec.number n) ++ tailText r := by simp [tailText]
      rw [hc, ← List.append_assoc] at h4 ⊢
      rw [List.map_cons, List.flatten_cons, loop_subId _ _ _ (h2 n (by simp)) ?_]
      · exact ih _ (fun m hm => h2 m (List.mem_cons_of_mem _ hm)) h4
      · simp only [List.length_append, List.length_cons] at h4; omega

theorem number_short (n : Nat) (h : n < 100) : (Spec.number n).length ≤ 2 :=
  (number_length 1).mpr (by omega)

theorem toText_spec (bs cs : List Byte) :
    toText bs = .ok cs ↔
      ∃ x y rest, x ≤ 2 ∧ y < 40 ∧ (∀ n ∈ rest, n < 10 ^ 18) ∧ bs = Spec.der x y rest ∧ cs = Spec.text (x :: y :: rest) ∧
        cs.length < 256 := by
  cases bs with
  | nil => 
    constructor
    · intro h; cases h
    · rintro ⟨x, y, rest, _, _, _, h, _⟩; cases h
  | cons b r =>
    have hlen : ∀ x y, x < 100 → y < 100 → (Spec.number x ++ 46#8 :: Spec.number y).length < 256 := by
      intro x y hx hy
      have := number_short x hx
      have := number_short y hy
      rw [List.length_append, List.length_cons]; omega
    have hbig : ∀ n, n < 100 → n < 10 ^ (19 + 1) := fun n h => Nat.lt_of_lt_of_le h (by decide)
    have hb := b.isLt
    unfold toText
    simp only
    constructor
    · intro h
      split at h
      · cases h
      rename_i h0
      rw [decimal_eq 19 _ (hbig _ (by omega)), decimal_eq 19 _ (hbig _ (by omega)),
        loop_spec _ _ _ (hlen _ _ (by omega) (by omega))] at h
      obtain ⟨rest, e1, e2, e3, e4⟩ := h
      refine ⟨b.toNat / 40, b.toNat % 40, rest, by omega, by omega, e2, ?_, by rw [e3, text_cons], e4⟩
      unfold Spec.der
      rw [show 40 * (b.toNat / 40) + b.toNat % 40 = b.toNat by omega, ofNat_toNat, e1]
    · rintro ⟨x, y, rest, hx, hy, h1, h2, h3, h4⟩
      unfold Spec.der at h2
      injection h2 with e1 e2
      have hv : b.toNat = 40 * x + y := by rw [e1, BitVec.toNat_ofNat]; omega
      rw [if_neg (by omega), show b.toNat / 40 = x by omega, show b.toNat % 40 = y by omega,
        decimal_eq 19 _ (hbig _ (by omega)), decimal_eq 19 _ (hbig _ (by omega)),
        loop_spec _ _ _ (hlen _ _ (by omega) (by omega))]
      exact ⟨rest, e2, h1, by rw [h3, text_cons], h4⟩

theorem toText_no_oob (bs : List Byte) : toText bs ≠ .error .oob := by
  have hl : ∀ (bs : List Byte) v t, toTextLoop bs v t ≠ .error .oob := by
    intro bs
    induction bs with
    | nil => intro v t; rw [toTextLoop]; split <;> simp
    | cons b r ih =>
      intro v t
      rw [toTextLoop]
      split
      · simp
      split
      · simp
      simp only
      split
      · split
        · simp
        split
        · simp
        · exact ih _ _
      · exact ih _ _
  cases bs with
  | nil => simp [toText]
  | cons b r =>
    unfold toText
    simp only
    split
    · simp
    · exact hl _ _ _

end Verif.Bsl.Oid
