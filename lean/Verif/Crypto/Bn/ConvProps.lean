import Verif.Crypto.Bn.ConvDec
/-! C64: conversions of big numbers from and to bytes and text. -/
namespace Verif.Crypto.Bn

/-! ### Specification -/

/-- The number with the big-endian bytes `bs`. -/
def Spec.bigEndian (bs : List UInt8) : Nat := Spec.numeral 256 (bs.map UInt8.toNat)

/-- The bytes needed for a number: the least `n` with `v < 256 ^ n`. -/
def Spec.IsByteLen (n v : Nat) : Prop := v < 256 ^ n ∧ ∀ m, v < 256 ^ m → n ≤ m

def Spec.decimalDigits : List (Char × Nat) :=
  [('0', 0), ('1', 1), ('2', 2), ('3', 3), ('4', 4), ('5', 5), ('6', 6), ('7', 7), ('8', 8), ('9', 9)]

def Spec.hexDigits : List (Char × Nat) := Spec.decimalDigits ++
  [('A', 10), ('B', 11), ('C', 12), ('D', 13), ('E', 14), ('F', 15), ('a', 10), ('b', 11), ('c', 12), ('d', 13), ('e', 14), ('f', 15)]

/-- `s` is a numeral, of at least one digit, for `v`. -/
def Spec.Numeral (digits : List (Char × Nat)) (base : Nat) (s : List Char) (v : Nat) : Prop :=
  ∃ ds : List (Char × Nat), ds ≠ [] ∧ (∀ d ∈ ds, d ∈ digits) ∧ s = ds.map Prod.fst ∧ v = Spec.numeral base (ds.map Prod.snd)

/-- `s` is a numeral for the integer `v`, with a minus sign or without. -/
def Spec.Text (digits : List (Char × Nat)) (base : Nat) (s : List Char) (v : Int) : Prop :=
  (∃ n, Spec.Numeral digits base s n ∧ v = n) ∨ (∃ t n, s = '-' :: t ∧ Spec.Numeral digits base t n ∧ v = -(n : Int))

/-- The number of digits is within the limit of 2^29 bits, at four bits for a digit. -/
def Spec.Fits (s : List Char) : Prop := (s.filter (· ≠ '-')).length ≤ 2 ^ 27

/-! ### Bytes -/

theorem skipZeros_ne (l : List UInt8) {b : UInt8} {bs : List UInt8} (h : skipZeros l = b :: bs) : b ≠ 0 := by
  induction l with
  | nil => cases h
  | cons x xs ih =>
    unfold skipZeros at h
    split at h
    · rename_i hx
      rw [List.cons.injEq] at h
      rw [← h.1]; exact hx
    · exact ih h

/-- C64: reading bytes gives the number they stand for, normalised, if it has no more than 2^29 bits; leading zeros do not matter. -/
theorem bin2Bn_exact (bin : List UInt8) (bits : Nat) (hbits : bits ≤ 2 ^ 29) (h : Spec.bigEndian bin < 2 ^ bits) :
    ∃ r, bin2Bn bin = some r ∧ Spec.int r = Spec.bigEndian bin ∧ Spec.WellFormed r := by
  have hlen : (skipZeros bin).length ≤ 8 * maxWords := by
    by_contra hc
    have : Spec.bigEndian bin = Spec.numeral 256 ((skipZeros bin).map UInt8.toNat) := (skipZeros_val bin).symm
    rw [this] at h
    cases hs : skipZeros bin with
    | nil => rw [hs] at hc; simp [maxWords] at hc
    | cons b bs =>
      have hb : b ≠ 0 := skipZeros_ne bin hs
      have hb' : 1 ≤ b.toNat := by
        rcases Nat.eq_zero_or_pos b.toNat with h0 | h0
        · exact absurd (UInt8.toNat_inj.mp (by rw [h0]; rfl)) hb
        · exact h0
      rw [hs] at h hc
      rw [List.map_cons, numeral_cons, List.length_map] at h
      rw [List.length_cons] at hc
      have h2 := Nat.mul_le_mul_right (256 ^ bs.length) hb'
      have h3 : (256 : Nat) ^ bs.length = 2 ^ (8 * bs.length) := by rw [Nat.pow_mul]
      have h4 : (2 : Nat) ^ bits ≤ 2 ^ (8 * bs.length) := Nat.pow_le_pow_right (by decide) (by simp only [maxWords] at hc; omega)
      rw [← h3] at h4
      generalize (256 : Nat) ^ bs.length = X at h h2 h4
      generalize (2 : Nat) ^ bits = Y at h h4
      omega
  obtain ⟨r, e, h1, h2⟩ := bin2Bn_some bin hlen
  exact ⟨r, e, by rw [int_eq, h1]; rfl, (wf_iff (by decide) r).mpr h2⟩
theorem byteLen_iff (a : Bn 32) (ha : Spec.WellFormed a) : Spec.IsByteLen (bnBytes a) (Spec.int a).natAbs := by
  have hv : (Spec.int a).natAbs = val a.data := by rw [int_eq]; unfold Bn.toInt; split <;> simp
  rw [wf_iff (by decide)] at ha
  rw [hv]
  unfold bnBytes
  by_cases hne : a.data = []
  · rw [hne]
    exact ⟨by decide, fun m _ => Nat.zero_le _⟩
  · obtain ⟨c1, -, -, c4, c5⟩ := bytes_bounds a.data ha.1 hne
    refine ⟨c4, fun m hm => ?_⟩
    by_contra hc
    have : 256 ^ m ≤ 256 ^ ((binBits a.data + 7) / 8 - 1) := Nat.pow_le_pow_right (by decide) (by omega)
    omega

theorem bn2BinFix_spec (a : Bn 32) (ha : Spec.WellFormed a) (binLen : Nat) (h : bnBytes a ≤ binLen) :
    ∃ bs, bn2BinFix a binLen = some (some bs) ∧ bs.length = binLen ∧ Spec.bigEndian bs = (Spec.int a).natAbs := by
  have hv : (Spec.int a).natAbs = val a.data := by rw [int_eq]; unfold Bn.toInt; split <;> simp
  rw [wf_iff (by decide)] at ha
  rw [hv]
  unfold bn2BinFix
  dsimp only
  rw [if_neg (by omega)]
  by_cases hne : a.data = []
  · rw [if_pos (by unfold bnBytes; rw [hne]; rfl)]
    have e0 : bnBytes a = 0 := by unfold bnBytes; rw [hne]; rfl
    refine ⟨_, rfl, by rw [List.length_replicate, e0]; rfl, ?_⟩
    unfold Spec.bigEndian
    rw [List.map_replicate, hne]
    exact numeral_replicate 256 _
  · obtain ⟨c1, -⟩ := bytes_bounds a.data ha.1 hne
    rw [if_neg (by unfold bnBytes; omega)]
    obtain ⟨r, e, h1, h2⟩ := bytesOf_spec a.data ha.1 hne
    unfold bnBytes at h ⊢
    rw [e]
    refine ⟨_, rfl, by rw [List.length_append, List.length_replicate, h1]; omega, ?_⟩
    unfold Spec.bigEndian
    rw [List.map_append, numeral_append, List.map_replicate, show UInt8.toNat 0 = 0 from rfl, numeral_replicate, Nat.zero_mul, Nat.zero_add, h2]

/-- C64: writing a number to a buffer of a given length gives its big-endian bytes with zeros in front, exactly when it fits. -/
theorem bn2BinFix_exact (a : Bn 32) (ha : Spec.WellFormed a) (binLen : Nat) :
    ((Spec.int a).natAbs < 256 ^ binLen →
      ∃ bs, bn2BinFix a binLen = some (some bs) ∧ bs.length = binLen ∧ Spec.bigEndian bs = (Spec.int a).natAbs) ∧
    (256 ^ binLen ≤ (Spec.int a).natAbs → bn2BinFix a binLen = none) := by
  have hb := byteLen_iff a ha
  refine ⟨fun h => bn2BinFix_spec a ha binLen (hb.2 _ h), fun h => ?_⟩
  unfold bn2BinFix
  dsimp only
  rw [if_pos]
  by_contra hc
  have : 256 ^ bnBytes a ≤ 256 ^ binLen := Nat.pow_le_pow_right (by decide) (by omega)
  have := hb.1
  omega

/-- C64: without a given length the bytes have no zeros in front (zero is one byte). -/
theorem bn2Bin_exact (a : Bn 32) (ha : Spec.WellFormed a) (binLen : Nat) (h1 : 1 ≤ binLen) :
    ((Spec.int a).natAbs < 256 ^ binLen →
      ∃ bs, bn2Bin a binLen = some (some bs) ∧ Spec.bigEndian bs = (Spec.int a).natAbs ∧ bs.length ≤ binLen ∧
        (Spec.int a ≠ 0 → Spec.IsByteLen bs.length (Spec.int a).natAbs) ∧ (Spec.int a = 0 → bs = [0])) ∧
    (256 ^ binLen ≤ (Spec.int a).natAbs → bn2Bin a binLen = none) := by
  have hb := byteLen_iff a ha
  unfold bn2Bin
  dsimp only
  refine ⟨fun h => ?_, fun h => ?_⟩
  · have := hb.2 _ h
    rw [if_neg (by split <;> omega)]
    obtain ⟨bs, e, h2, h3⟩ := bn2BinFix_spec a ha (if bnBytes a = 0 then 1 else bnBytes a) (by split <;> omega)
    refine ⟨bs, e, h3, by rw [h2]; split <;> omega, fun hne => ?_, fun h0 => ?_⟩
    · have : bnBytes a ≠ 0 := by
        intro e0
        have := hb.1
        rw [e0, Nat.pow_zero] at this
        omega
      rw [h2, if_neg this]
      exact hb
    · have e0 : bnBytes a = 0 := Nat.le_zero.mp (hb.2 0 (by rw [h0]; decide))
      rw [if_pos e0] at h2
      obtain ⟨b, rfl⟩ := List.length_eq_one_iff.mp h2
      rw [h0] at h3
      have h4 : b.toNat = 0 := by simpa [Spec.bigEndian, Spec.numeral] using h3
      rw [UInt8.toNat_inj.mp (show b.toNat = (0 : UInt8).toNat by rw [h4]; rfl)]
  · rw [if_pos]
    by_contra hc
    have : 256 ^ bnBytes a ≤ 256 ^ binLen := Nat.pow_le_pow_right (by decide) (by split at hc <;> omega)
    have := hb.1
    omega

/-- C64: reading back the bytes of a number that is not negative gives the same object. -/
theorem bin_round_trip (a : Bn 32) (ha : Spec.WellFormed a) (h0 : 0 ≤ Spec.int a) (bits : Nat) (hbits : bits ≤ 2 ^ 29) (hm : Spec.int a < 2 ^ bits) (binLen : Nat) (bs : List UInt8)
    (h : bn2BinFix a binLen = some (some bs) ∨ bn2Bin a binLen = some (some bs)) : bin2Bn bs = some a := by
  have hval : Spec.bigEndian bs = (Spec.int a).natAbs := by
    rcases h with h | h
    · by_cases hl : (Spec.int a).natAbs < 256 ^ binLen
      · obtain ⟨r, e, -, h3⟩ := (bn2BinFix_exact a ha binLen).1 hl
        rw [e, Option.some.injEq, Option.some.injEq] at h
        rw [← h]; exact h3
      · rw [(bn2BinFix_exact a ha binLen).2 (by omega)] at h
        cases h
    · by_cases h1 : 1 ≤ binLen
      · by_cases hl : (Spec.int a).natAbs < 256 ^ binLen
        · obtain ⟨r, e, h3, -⟩ := (bn2Bin_exact a ha binLen h1).1 hl
          rw [e, Option.some.injEq, Option.some.injEq] at h
          rw [← h]; exact h3
        · rw [(bn2Bin_exact a ha binLen h1).2 (by omega)] at h
          cases h
      · unfold bn2Bin at h
        dsimp only at h
        rw [if_pos (by split <;> omega)] at h
        cases h
  have hm' : Spec.bigEndian bs < 2 ^ bits := by
    rw [hval]
    have : ((2 ^ bits : Nat) : Int) = 2 ^ bits := by push_cast; rfl
    rw [← this] at hm
    generalize (2 : Nat) ^ bits = y at hm ⊢
    omega
  obtain ⟨r, e, h1, h2⟩ := bin2Bn_exact bs bits hbits hm'
  rw [e, bn_canonical (by decide) r a h2 ha (by rw [h1, hval]; omega)]

/-! ### Text -/

theorem mem_hex {c : Char} (h : isXdigit true c = true) : (c, strToHex c) ∈ Spec.hexDigits := by
  have h2 : ∀ n < 128, isXdigit true (Char.ofNat n) = true → (Char.ofNat n, strToHex (Char.ofNat n)) ∈ Spec.hexDigits := by decide +kernel
  have hc : c.toNat < 128 := by
    unfold isXdigit at h
    split at h
    · rename_i x
      exact Nat.lt_of_le_of_lt (char_sub c _ _ x.1 x.2).2 (by decide)
    · rw [if_pos rfl] at h
      split at h
      · rename_i x
        exact Nat.lt_of_le_of_lt (char_sub c _ _ x.1 x.2).2 (by decide)
      · split at h
        · rename_i x
          exact Nat.lt_of_le_of_lt (char_sub c _ _ x.1 x.2).2 (by decide)
        · cases h
  have := h2 c.toNat hc
  rw [Char.ofNat_toNat] at this
  exact this h

theorem hex_mem : ∀ d ∈ Spec.hexDigits, isXdigit true d.1 = true ∧ strToHex d.1 = d.2 ∧ d.1 ≠ '-' := by decide +kernel

theorem mem_dec {c : Char} (h : isXdigit false c = true) : (c, decDigit c) ∈ Spec.decimalDigits := by
  have h2 : ∀ n < 128, isXdigit false (Char.ofNat n) = true → (Char.ofNat n, decDigit (Char.ofNat n)) ∈ Spec.decimalDigits := by decide +kernel
  have hc : c.toNat < 128 := by
    unfold isXdigit at h
    split at h
    · rename_i x
      exact Nat.lt_of_le_of_lt (char_sub c _ _ x.1 x.2).2 (by decide)
    · simp at h
  have := h2 c.toNat hc
  rw [Char.ofNat_toNat] at this
  exact this h

theorem dec_mem : ∀ d ∈ Spec.decimalDigits, isXdigit false d.1 = true ∧ decDigit d.1 = d.2 ∧ d.1 ≠ '-' := by decide +kernel

/-- The checked text and the specification. -/
theorem numeral_iff {digits : List (Char × Nat)} {base : Nat} {hex : Bool} {f : Char → Nat}
    (h1 : ∀ {c}, isXdigit hex c = true → (c, f c) ∈ digits) (h2 : ∀ d ∈ digits, isXdigit hex d.1 = true ∧ f d.1 = d.2 ∧ d.1 ≠ '-')
    (s : List Char) (v : Nat) :
    Spec.Numeral digits base s v ↔ s ≠ [] ∧ (∀ c ∈ s, isXdigit hex c = true) ∧ v = Spec.numeral base (s.map f) := by
  constructor
  · rintro ⟨ds, n0, n1, rfl, rfl⟩
    refine ⟨fun e => n0 (List.map_eq_nil_iff.mp e), ?_, ?_⟩
    · intro c hc
      obtain ⟨d, hd, rfl⟩ := List.mem_map.mp hc
      exact (h2 d (n1 d hd)).1
    · rw [List.map_map]
      congr 1
      exact List.map_congr_left (fun d hd => (h2 d (n1 d hd)).2.1.symm)
  · rintro ⟨n0, n1, rfl⟩
    refine ⟨s.map (fun c => (c, f c)), fun e => n0 (List.map_eq_nil_iff.mp e), ?_, ?_, ?_⟩
    · intro d hd
      obtain ⟨c, hc, rfl⟩ := List.mem_map.mp hd
      exact h1 (n1 c hc)
    · rw [List.map_map]
      exact (List.map_id s).symm.trans (List.map_congr_left (fun c _ => rfl))
    · rw [List.map_map]
      congr 1

theorem filter_digits {hex : Bool} {s : List Char} (h : ∀ c ∈ s, isXdigit hex c = true) : s.filter (· ≠ '-') = s := by
  rw [List.filter_eq_self]
  intro c hc
  have := h c hc
  rw [decide_eq_true_iff]
  rintro rfl
  revert this
  cases hex <;> decide

theorem check_pos {hex : Bool} {s : List Char} (h0 : s ≠ []) (h : ∀ c ∈ s, isXdigit hex c = true) (hl : s.length ≤ 2 ^ 27) :
    checkInput hex s = some (false, s) := by
  cases s with
  | nil => exact absurd rfl h0
  | cons c cs =>
    have hc : c ≠ '-' := by
      rintro rfl
      have := h '-' List.mem_cons_self
      revert this
      cases hex <;> decide
    unfold checkInput
    dsimp only
    rw [if_neg hc]
    dsimp only
    rw [if_neg (by rw [List.length_cons] at hl ⊢; omega), if_pos (List.all_eq_true.mpr h)]

theorem check_neg {hex : Bool} {s : List Char} (h0 : s ≠ []) (h : ∀ c ∈ s, isXdigit hex c = true) (hl : s.length ≤ 2 ^ 27) :
    checkInput hex ('-' :: s) = some (true, s) := by
  unfold checkInput
  dsimp only
  rw [if_pos rfl]
  dsimp only
  have : s.length ≠ 0 := fun e => h0 (List.length_eq_zero_iff.mp e)
  rw [if_neg (by omega), if_pos (List.all_eq_true.mpr h)]

theorem check_some {hex : Bool} {str : List Char} {neg : Bool} {s : List Char} (h : checkInput hex str = some (neg, s)) :
    s ≠ [] ∧ (∀ c ∈ s, isXdigit hex c = true) ∧ s.length ≤ 2 ^ 27 ∧ str = if neg = true then '-' :: s else s := by
  unfold checkInput at h
  cases str with
  | nil => cases h
  | cons c cs =>
    dsimp only at h
    have key : ∀ (n : Bool) (t : List Char), (if t.length = 0 ∨ t.length > 134217728 then none
        else if t.all (isXdigit hex) = true then some (n, t) else none) = some (neg, s) →
        n = neg ∧ t = s ∧ s ≠ [] ∧ (∀ c ∈ s, isXdigit hex c = true) ∧ s.length ≤ 2 ^ 27 := by
      intro n t ht
      split at ht
      · cases ht
      · rename_i hl
        split at ht
        · rename_i ha
          rw [Option.some.injEq, Prod.mk.injEq] at ht
          obtain ⟨rfl, rfl⟩ := ht
          refine ⟨rfl, rfl, fun e => hl (.inl (by rw [e]; rfl)), List.all_eq_true.mp ha, by omega⟩
        · cases ht
    by_cases hc : c = '-'
    · rw [if_pos hc] at h
      obtain ⟨rfl, rfl, h1, h2, h3⟩ := key true cs h
      exact ⟨h1, h2, h3, by rw [hc]; rfl⟩
    · rw [if_neg hc] at h
      obtain ⟨rfl, rfl, h1, h2, h3⟩ := key false (c :: cs) h
      exact ⟨h1, h2, h3, rfl⟩

theorem setSign_spec (neg : Bool) (data : List (W 32)) (hn : Norm data) :
    (setSign neg data).toInt = (if neg = true then -(val data : Int) else val data) ∧ (setSign neg data).WF := by
  unfold setSign
  by_cases h : data = []
  · subst h
    exact ⟨by cases neg <;> rfl, wf_zero⟩
  · rw [if_pos (fun e => h (List.length_eq_zero_iff.mp e))]
    exact ⟨rfl, hn, fun _ => h⟩

/-- A text reader: what is common to the two bases. -/
theorem text_exact {digits : List (Char × Nat)} {base : Nat} {hex : Bool} {f : Char → Nat}
    (h1 : ∀ {c}, isXdigit hex c = true → (c, f c) ∈ digits) (h2 : ∀ d ∈ digits, isXdigit hex d.1 = true ∧ f d.1 = d.2 ∧ d.1 ≠ '-')
    (read : List Char → Option (Bn 32)) (conv : List Char → List (W 32))
    (hread : ∀ str, read str = match checkInput hex str with | none => none | some (neg, s) => some (setSign neg (conv s)))
    (hconv : ∀ s : List Char, (∀ c ∈ s, isXdigit hex c = true) → s ≠ [] → val (conv s) = Spec.numeral base (s.map f) ∧ Norm (conv s)) (str : List Char) :
    (∀ v, Spec.Text digits base str v → Spec.Fits str → ∃ r, read str = some r ∧ Spec.int r = v ∧ Spec.WellFormed r) ∧
    ((∀ v, ¬ Spec.Text digits base str v) ∨ ¬ Spec.Fits str → read str = none) := by
  have hf : ∀ {s : List Char}, (∀ c ∈ s, isXdigit hex c = true) → (Spec.Fits s ↔ s.length ≤ 2 ^ 27) := by
    intro s hs
    unfold Spec.Fits
    rw [filter_digits hs]
  have hf' : ∀ {s : List Char}, (∀ c ∈ s, isXdigit hex c = true) → (Spec.Fits ('-' :: s) ↔ s.length ≤ 2 ^ 27) := by
    intro s hs
    unfold Spec.Fits
    rw [List.filter_cons_of_neg (by decide), filter_digits hs]
  constructor
  · rintro v (⟨n, hn, rfl⟩ | ⟨t, n, rfl, hn, rfl⟩) hfit
    · obtain ⟨n0, n1, rfl⟩ := (numeral_iff h1 h2 _ _).mp hn
      rw [hread, check_pos n0 n1 ((hf n1).mp hfit)]
      obtain ⟨c1, c2⟩ := hconv str n1 n0
      obtain ⟨s1, s2⟩ := setSign_spec false (conv str) c2
      exact ⟨_, rfl, by rw [int_eq, s1, c1]; rfl, (wf_iff (by decide) _).mpr s2⟩
    · obtain ⟨n0, n1, rfl⟩ := (numeral_iff h1 h2 _ _).mp hn
      rw [hread, check_neg n0 n1 ((hf' n1).mp hfit)]
      obtain ⟨c1, c2⟩ := hconv t n1 n0
      obtain ⟨s1, s2⟩ := setSign_spec true (conv t) c2
      exact ⟨_, rfl, by rw [int_eq, s1, c1]; rfl, (wf_iff (by decide) _).mpr s2⟩
  · intro h
    rw [hread]
    cases hc : checkInput hex str with
    | none => rfl
    | some p =>
      exfalso
      obtain ⟨neg, s⟩ := p
      obtain ⟨k1, k2, k3, k4⟩ := check_some hc
      have hnum : Spec.Numeral digits base s (Spec.numeral base (s.map f)) := (numeral_iff h1 h2 _ _).mpr ⟨k1, k2, rfl⟩
      cases neg with
      | false =>
        rw [if_neg (by decide)] at k4
        subst k4
        rcases h with h | h
        · exact h _ (.inl ⟨_, hnum, rfl⟩)
        · exact h ((hf k2).mpr k3)
      | true =>
        rw [if_pos rfl] at k4
        subst k4
        rcases h with h | h
        · exact h _ (.inr ⟨s, _, rfl, hnum, rfl⟩)
        · exact h ((hf' k2).mpr k3)

/-- C64: a text is read as a hexadecimal number exactly if it is one (an optional minus sign and at least one digit, upper or lower case, within the
limit), and then the result is the number. -/
theorem hex2Bn_exact (str : List Char) :
    (∀ v, Spec.Text Spec.hexDigits 16 str v → Spec.Fits str → ∃ r, hex2Bn str = some r ∧ Spec.int r = v ∧ Spec.WellFormed r) ∧
    ((∀ v, ¬ Spec.Text Spec.hexDigits 16 str v) ∨ ¬ Spec.Fits str → hex2Bn str = none) := by
  refine text_exact (hex := true) (f := strToHex) mem_hex hex_mem hex2Bn (fun s => trim (hexWords s s.length s.length)) (fun _ => rfl) ?_ str
  intro s _ _
  obtain ⟨h1, h2⟩ := trim_spec (hexWords s s.length s.length)
  exact ⟨by rw [h1, hexWords_val s _ _ (Nat.le_refl _) (Nat.le_refl _), List.take_length], h2⟩

/-- C64: the same for decimal text. -/
theorem dec2Bn_exact (str : List Char) :
    (∀ v, Spec.Text Spec.decimalDigits 10 str v → Spec.Fits str → ∃ r, dec2Bn str = some r ∧ Spec.int r = v ∧ Spec.WellFormed r) ∧
    ((∀ v, ¬ Spec.Text Spec.decimalDigits 10 str v) ∨ ¬ Spec.Fits str → dec2Bn str = none) := by
  refine text_exact (hex := false) (f := decDigit) mem_dec dec_mem dec2Bn
    (fun s => (decLoop s.length (if s.length % 19 = 0 then 19 else s.length % 19) s bnZero).data) (fun _ => rfl) ?_ str
  intro s hs hne
  have hl : 0 < s.length := List.length_pos_iff.mpr hne
  obtain ⟨h1, h2⟩ := decLoop_spec s.length (if s.length % 19 = 0 then 19 else s.length % 19) s bnZero (Nat.le_refl _) (by split <;> omega) (by split <;> omega)
    (by split <;> omega) (.inl (by split <;> omega)) hs (.inr (.inr rfl)) wf_zero (Int.le_refl _)
  rw [toInt_zero, Int.zero_mul, Int.zero_add] at h1
  generalize decLoop s.length (if s.length % 19 = 0 then 19 else s.length % 19) s bnZero = r at h1 h2
  refine ⟨?_, h2.1⟩
  unfold Bn.toInt at h1
  split at h1 <;> omega

/-- C64: the hexadecimal text of a number stands for it, and has no byte of zeros in front. -/
theorem bn2Hex_exact (a : Bn 32) (ha : Spec.WellFormed a) :
    ∃ s, bn2Hex a = some s ∧ Spec.Text Spec.hexDigits 16 s (Spec.int a) ∧ (s.filter (· ≠ '-')).take 2 ≠ ['0', '0'] := by
  have ha' := (wf_iff (by decide) a).mp ha
  unfold bn2Hex
  by_cases h0 : a.data.length = 0
  · rw [if_pos h0]
    have hd := List.length_eq_zero_iff.mp h0
    have h1 : Spec.int a = 0 := by rw [int_eq]; unfold Bn.toInt; rw [hd]; split <;> rfl
    exact ⟨_, rfl, .inl ⟨0, ⟨[('0', 0)], by decide, by decide, rfl, rfl⟩, h1⟩, by decide⟩
  · rw [if_neg h0]
    have hne : a.data ≠ [] := fun e => h0 (by rw [e]; rfl)
    obtain ⟨r, e, ⟨h1, h2, h3⟩, -⟩ := hexLimbs_spec a.data a.data.length true (Nat.le_refl _)
    rw [e]
    rw [List.take_length] at h2
    have hpos := val_pos_of_norm (by decide) ha'.1 hne
    have hr : r ≠ [] := by
      rintro rfl
      rw [show Spec.numeral 16 (([] : List Char).map strToHex) = 0 from rfl] at h2
      omega
    have hx : ∀ c ∈ r, isXdigit true c = true := fun c hc => (h1 c hc).1
    have hnum : Spec.Numeral Spec.hexDigits 16 r (val a.data) := (numeral_iff mem_hex hex_mem _ _).mpr ⟨hr, hx, h2.symm⟩
    refine ⟨_, rfl, ?_, ?_⟩
    · cases hs : a.neg with
      | false =>
        rw [if_neg (by decide)]
        refine .inl ⟨_, hnum, ?_⟩
        rw [int_eq]; unfold Bn.toInt; rw [hs]; rfl
      | true =>
        rw [if_pos rfl]
        refine .inr ⟨r, _, rfl, hnum, ?_⟩
        rw [int_eq]; unfold Bn.toInt; rw [hs]; rfl
    · have : (if a.neg = true then '-' :: r else r).filter (· ≠ '-') = r := by
        split
        · rw [List.filter_cons_of_neg (by decide), filter_digits hx]
        · exact filter_digits hx
      rw [this]
      exact (h3 rfl hr).1

/-- C64: the decimal text of a number stands for it, without zeros in front; in particular the estimate of its length is never too short. -/
theorem bn2Dec_exact (a : Bn 32) (ha : Spec.WellFormed a) :
    ∃ s, bn2Dec a = some s ∧ Spec.Text Spec.decimalDigits 10 s (Spec.int a) ∧
      ((s.filter (· ≠ '-')).head? = some '0' → Spec.int a = 0 ∧ s = ['0']) := by
  have ha' := (wf_iff (by decide) a).mp ha
  obtain ⟨s, e, h1, h2, h3, h4⟩ := bn2Dec_spec a ha'
  have hnum : Spec.Numeral Spec.decimalDigits 10 s (val a.data) := (numeral_iff mem_dec dec_mem _ _).mpr ⟨h1, h2, h3.symm⟩
  refine ⟨_, e, ?_, ?_⟩
  · cases hs : a.neg with
    | false =>
      rw [if_neg (by decide)]
      refine .inl ⟨_, hnum, ?_⟩
      rw [int_eq]; unfold Bn.toInt; rw [hs]; rfl
    | true =>
      rw [if_pos rfl]
      refine .inr ⟨s, _, rfl, hnum, ?_⟩
      rw [int_eq]; unfold Bn.toInt; rw [hs]; rfl
  · intro hh
    have hf : (if a.neg = true then '-' :: s else s).filter (· ≠ '-') = s := by
      split
      · rw [List.filter_cons_of_neg (by decide), filter_digits h2]
      · exact filter_digits h2
    rw [hf] at hh
    have hs := h4 hh
    have hz : val a.data = 0 := by rw [← h3, hs]; rfl
    have hn : a.neg = false := by
      cases h : a.neg
      · rfl
      · have := wf_val_pos (by decide) ha' h
        omega
    refine ⟨?_, by rw [hn, hs]; rfl⟩
    rw [int_eq]; unfold Bn.toInt; rw [hn, hz]; rfl

/-- C64: reading back the text of a number gives the same object. -/
theorem text_round_trip (a : Bn 32) (ha : Spec.WellFormed a) (s : List Char) (hs : Spec.Fits s) :
    (bn2Hex a = some s → hex2Bn s = some a) ∧ (bn2Dec a = some s → dec2Bn s = some a) := by
  constructor
  · intro h
    obtain ⟨t, e, h1, -⟩ := bn2Hex_exact a ha
    rw [e, Option.some.injEq] at h
    subst h
    obtain ⟨r, e', h2, h3⟩ := (hex2Bn_exact t).1 _ h1 hs
    rw [e', bn_canonical (by decide) r a h3 ha h2]
  · intro h
    obtain ⟨t, e, h1, -⟩ := bn2Dec_exact a ha
    rw [e, Option.some.injEq] at h
    subst h
    obtain ⟨r, e', h2, h3⟩ := (dec2Bn_exact t).1 _ h1 hs
    rw [e', bn_canonical (by decide) r a h3 ha h2]

/-! ### Examples -/

example : bin2Bn [0, 0, 1, 2, 3, 4, 5, 6, 7, 8, 9] = some ⟨false, [0x0203040506070809, 1]⟩ := by decide +kernel
example : bn2BinFix ⟨false, [0x0203040506070809, 1]⟩ 10 = some (some [0, 1, 2, 3, 4, 5, 6, 7, 8, 9]) := by decide +kernel
example : bn2BinFix ⟨false, [0x0203040506070809, 1]⟩ 8 = none := by decide +kernel
example : bn2Bin bnZero 4 = some (some [0]) := by decide +kernel
example : hex2Bn "-00".toList = some bnZero := by decide +kernel
example : hex2Bn "1G".toList = none := by decide +kernel
example : dec2Bn "-18446744073709551617".toList = some ⟨true, [1, 1]⟩ := by decide +kernel
example : bn2Dec ⟨true, [1, 1]⟩ = some "-18446744073709551617".toList := by decide +kernel
example : bn2Hex ⟨true, [0xa, 0x123]⟩ = some "-0123000000000000000A".toList := by decide +kernel
example : Spec.Text Spec.hexDigits 16 "-0fF".toList (-255) :=
  .inr ⟨_, 255, rfl, ⟨[('0', 0), ('f', 15), ('F', 15)], by decide, by decide, rfl, rfl⟩, rfl⟩
example : Spec.WellFormed (⟨true, [0xa, 0x123]⟩ : Bn 32) :=
  ⟨fun x h => by rw [show (⟨true, [0xa, 0x123]⟩ : Bn 32).data.getLast? = some 0x123 from rfl] at h; cases h; decide, fun _ => by intro e; cases e⟩
example : Spec.bigEndian [1, 0] < 2 ^ 9 := by decide

end Verif.Crypto.Bn
