import Verif.Crypto.Scrypt.Model
import Verif.Crypto.Scrypt.Spec
import Mathlib.Tactic.NormNum
import Mathlib.Tactic.Ring
import Mathlib.Data.Nat.Bitwise

/-! C78: scrypt. -/
namespace Verif.Crypto.Scrypt
open Verif.Common

/-! ## Salsa20/8 -/

/-- The words of the code as a function. -/
def fn (x : List (BitVec 32)) (i : Fin 16) : BitVec 32 := x.getD i.val 0

theorem rotl_eq (x : BitVec 32) (n : Nat) (h : n < 32) : rotl x n = x.rotateLeft n := by
  simp [rotl, BitVec.rotateLeft, BitVec.rotateLeftAux, Nat.mod_eq_of_lt h]

theorem fn_stmt (x : List (BitVec 32)) (hx : x.length = 16) (k i j : Fin 16) (s : Nat) (hs : s < 32) (t : Fin 16) :
    fn (stmt x (k.val, i.val, j.val, s)) t = if t = k then fn x k ^^^ (fn x i + fn x j).rotateLeft s else fn x t := by
  have ht : t.val < x.length := by omega
  have e : (t = k) ↔ (k.val = t.val) := by rw [Fin.ext_iff]; exact eq_comm
  unfold fn stmt
  simp only [List.getD_eq_getElem?_getD, List.getElem?_set, rotl_eq _ _ hs]
  by_cases h : k.val = t.val
  · have h2 : t = k := e.mpr h
    subst h2
    simp [ht]
  · simp [h, mt e.mp h]

theorem stmt_len (x : List (BitVec 32)) (q : Nat × Nat × Nat × Nat) : (stmt x q).length = x.length := by simp [stmt]

/-- Four statements of the code are a quarter-round. -/
theorem fn_four (x : List (BitVec 32)) (hx : x.length = 16) (a b c d : Fin 16) (hab : a ≠ b) (hac : a ≠ c) (had : a ≠ d)
    (hbc : b ≠ c) (hbd : b ≠ d) (hcd : c ≠ d) :
    fn (stmt (stmt (stmt (stmt x (b.val, a.val, d.val, 7)) (c.val, b.val, a.val, 9)) (d.val, c.val, b.val, 13)) (a.val, d.val, c.val, 18))
      = Spec.quarter a b c d (fn x) := by
  funext t
  rw [fn_stmt _ (by simp [stmt_len, hx]) a d c 18 (by decide)]
  simp only [fn_stmt _ (show (stmt (stmt x (b.val, a.val, d.val, 7)) (c.val, b.val, a.val, 9)).length = 16 by simp [stmt_len, hx]) d c b 13 (by decide),
    fn_stmt _ (show (stmt x (b.val, a.val, d.val, 7)).length = 16 by simp [stmt_len, hx]) c b a 9 (by decide),
    fn_stmt _ hx b a d 7 (by decide)]
  unfold Spec.quarter
  simp only [hab, hac, had, hbc, hbd, hcd, hab.symm, hac.symm, had.symm, hbc.symm, hbd.symm, hcd.symm, if_true, if_false]
  by_cases h1 : t = a
  · simp [h1]
  · by_cases h2 : t = b
    · subst h2; simp [h1, hbc, hbd]
    · by_cases h3 : t = c
      · subst h3; simp [h1, h2, hcd]
      · simp [h1, h2, h3]

/-- The same with the numbers of the words as they stand in the code. -/
theorem fn_four_nat (a' b' c' d' : Nat) (x : List (BitVec 32)) (hx : x.length = 16) (a b c d : Fin 16) (ha : a.val = a') (hb : b.val = b')
    (hc : c.val = c') (hd : d.val = d') (hne : a ≠ b ∧ a ≠ c ∧ a ≠ d ∧ b ≠ c ∧ b ≠ d ∧ c ≠ d) :
    fn (stmt (stmt (stmt (stmt x (b', a', d', 7)) (c', b', a', 9)) (d', c', b', 13)) (a', d', c', 18)) = Spec.quarter a b c d (fn x) := by
  subst ha hb hc hd
  exact fn_four x hx a b c d hne.1 hne.2.1 hne.2.2.1 hne.2.2.2.1 hne.2.2.2.2.1 hne.2.2.2.2.2

theorem foldl_len (l : List (Nat × Nat × Nat × Nat)) (x : List (BitVec 32)) : (l.foldl stmt x).length = x.length := by
  induction l generalizing x with
  | nil => rfl
  | cons q l ih => rw [List.foldl_cons, ih, stmt_len]

theorem body_eq (x : List (BitVec 32)) (hx : x.length = 16) :
    fn (body.foldl stmt x) = Spec.rowRound (Spec.columnRound (fn x)) := by
  unfold Spec.rowRound Spec.columnRound
  rw [← fn_four_nat 0 4 8 12 x hx 0 4 8 12 rfl rfl rfl rfl (by decide)]
  rw [← fn_four_nat 5 9 13 1 _ (by simp [stmt_len, hx]) 5 9 13 1 rfl rfl rfl rfl (by decide)]
  rw [← fn_four_nat 10 14 2 6 _ (by simp [stmt_len, hx]) 10 14 2 6 rfl rfl rfl rfl (by decide)]
  rw [← fn_four_nat 15 3 7 11 _ (by simp [stmt_len, hx]) 15 3 7 11 rfl rfl rfl rfl (by decide)]
  rw [← fn_four_nat 0 1 2 3 _ (by simp [stmt_len, hx]) 0 1 2 3 rfl rfl rfl rfl (by decide)]
  rw [← fn_four_nat 5 6 7 4 _ (by simp [stmt_len, hx]) 5 6 7 4 rfl rfl rfl rfl (by decide)]
  rw [← fn_four_nat 10 11 8 9 _ (by simp [stmt_len, hx]) 10 11 8 9 rfl rfl rfl rfl (by decide)]
  rw [← fn_four_nat 15 12 13 14 _ (by simp [stmt_len, hx]) 15 12 13 14 rfl rfl rfl rfl (by decide)]
  simp only [body, List.foldl_cons, List.foldl_nil]

theorem rounds_eq (x : List (BitVec 32)) (hx : x.length = 16) :
    fn (rounds 8 x) = (fun x => Spec.rowRound (Spec.columnRound x))^[4] (fn x) := by
  have h8 : rounds 8 x = body.foldl stmt (body.foldl stmt (body.foldl stmt (body.foldl stmt x))) := by
    rw [rounds, if_pos (by decide), rounds, if_pos (by decide), rounds, if_pos (by decide), rounds, if_pos (by decide), rounds,
      if_neg (by decide)]
  rw [h8, body_eq _ (by simp [foldl_len, hx]), body_eq _ (by simp [foldl_len, hx]), body_eq _ (by simp [foldl_len, hx]), body_eq _ hx]
  rfl

theorem words_len (t : List Byte) : (words t).length = 16 := by simp [words]

theorem fn_words (t : List Byte) : fn (words t) = Spec.word t := by
  funext i
  unfold fn words Spec.word
  rw [List.getD_eq_getElem?_getD, List.getElem?_map, List.getElem?_range i.isLt]
  rfl

/-- The Salsa20 core of the code is Salsa20/8 of RFC 7914, for every input. -/
theorem salsa_exact (t : List Byte) : salsa t = Spec.salsa208 t := by
  have h1 := rounds_eq (words t) (words_len t)
  rw [fn_words] at h1
  have hr : List.range 16 = (List.finRange 16).map Fin.val := by decide
  unfold salsa Spec.salsa208
  rw [hr, List.flatMap_map]
  show (List.finRange 16).flatMap (fun i => leBytes 4 (fn (rounds 8 (words t)) i + fn (words t) i).toNat) = _
  rw [h1, fn_words]

theorem salsa_len (t : List Byte) : (Spec.salsa208 t).length = 64 := by
  unfold Spec.salsa208
  simp only [List.length_flatMap, leBytes_length]
  rfl

/-! ## scryptBlockMix -/

theorem mixLoop_eq (r : Nat) (b : List Byte) : ∀ k i, mixLoop b k i (Spec.X r b (2 * i))
    = ((List.range k).flatMap (fun t => Spec.Y r b (2 * (i + t))), (List.range k).flatMap (fun t => Spec.Y r b (2 * (i + t) + 1))) := by
  intro k
  induction k with
  | zero => intro i; rfl
  | succ k ih =>
    intro i
    have h0 : salsa (xorBytes (Spec.X r b (2 * i)) (at64 b (128 * i))) = Spec.Y r b (2 * i) := by
      rw [salsa_exact, show 128 * i = 64 * (2 * i) by ring]; rfl
    have h1 : salsa (xorBytes (Spec.Y r b (2 * i)) (at64 b (128 * i + 64))) = Spec.Y r b (2 * i + 1) := by
      rw [salsa_exact, show 128 * i + 64 = 64 * (2 * i + 1) by ring]; rfl
    have h2 : Spec.Y r b (2 * i + 1) = Spec.X r b (2 * (i + 1)) := rfl
    unfold mixLoop
    simp only [h0, h1]
    rw [h2, ih (i + 1), List.range_succ_eq_map, List.flatMap_cons, List.flatMap_cons, List.flatMap_map, List.flatMap_map, ← h2]
    simp only [Nat.add_zero, Nat.succ_eq_add_one, show ∀ t, i + 1 + t = i + (t + 1) from fun t => by omega]

/-- The block mixing of the code, with its two output halves, is scryptBlockMix. -/
theorem blockMix_exact (r : Nat) (hr : 0 < r) (b : List Byte) : blockMix r b = Spec.blockMix r b := by
  have h := mixLoop_eq r b r 0
  have hx : Spec.X r b (2 * 0) = at64 b (128 * r - 64) := by
    show (b.drop (64 * (2 * r - 1))).take 64 = _
    rw [show 64 * (2 * r - 1) = 128 * r - 64 by omega]; rfl
  rw [hx] at h
  unfold blockMix Spec.blockMix
  simp only [h, Nat.zero_add]

theorem Y_len (r : Nat) (B : List Byte) (i : Nat) : (Spec.Y r B i).length = 64 := salsa_len _

theorem blockMix_len (r : Nat) (B : List Byte) : (Spec.blockMix r B).length = 128 * r := by
  unfold Spec.blockMix
  simp only [List.length_append, List.length_flatMap, Y_len, List.map_const', List.length_range, List.sum_replicate_nat]
  omega

/-! ## scryptROMix -/

theorem iter_len (r : Nat) (B : List Byte) (hB : B.length = 128 * r) (i : Nat) : ((Spec.blockMix r)^[i] B).length = 128 * r := by
  cases i with
  | zero => exact hB
  | succ i => rw [Function.iterate_succ_apply']; exact blockMix_len _ _

theorem fill_eq (r : Nat) (hr : 0 < r) (B : List Byte) : ∀ k i v, fill r k v ((Spec.blockMix r)^[i] B)
    = (v ++ (List.range k).flatMap (fun t => (Spec.blockMix r)^[i + t] B), (Spec.blockMix r)^[i + k] B) := by
  intro k
  induction k with
  | zero => intro i v; simp [fill]
  | succ k ih =>
    intro i v
    unfold fill
    rw [blockMix_exact r hr, ← Function.iterate_succ_apply' (Spec.blockMix r), ih (i + 1), List.range_succ_eq_map, List.flatMap_cons,
      List.flatMap_map]
    simp only [Nat.add_zero, Nat.succ_eq_add_one, show ∀ t, i + 1 + t = i + (t + 1) from fun t => by omega, List.append_assoc]

theorem read_flat (L : Nat) (f : Nat → List Byte) (hf : ∀ i, (f i).length = L) : ∀ n j, j < n →
    (((List.range n).flatMap f).drop (j * L)).take L = f j := by
  intro n j
  induction n generalizing j f with
  | zero => intro h; omega
  | succ n ih =>
    intro h
    rw [List.range_succ_eq_map, List.flatMap_cons, List.flatMap_map]
    cases j with
    | zero => simp [hf]
    | succ j =>
      rw [show (j + 1) * L = (f 0).length + j * L by rw [hf]; ring, List.drop_append, List.drop_eq_nil_of_le (by omega),
        List.nil_append, Nat.add_sub_cancel_left]
      exact ih (fun i => f (i + 1)) (fun i => hf (i + 1)) j (by omega)

/-- The masked low word is Integerify modulo `N`. -/
theorem index_exact (k r : Nat) (hk : k ≤ 32) (hr : 0 < r) (b : List Byte) (hb : b.length = 128 * r) :
    leVal ((b.drop (128 * r - 64)).take 4) &&& (2 ^ k - 1) = Spec.integerify r b % 2 ^ k := by
  rw [Nat.and_two_pow_sub_one_eq_mod]
  unfold Spec.integerify Spec.blk
  rw [show 64 * (2 * r - 1) = 128 * r - 64 by omega]
  generalize hd : b.drop (128 * r - 64) = d
  have hdl : d.length = 64 := by rw [← hd, List.length_drop]; omega
  have : d.take 64 = d.take 4 ++ (d.drop 4).take 60 := by
    rw [← List.take_add]
  rw [this, leVal_append, List.length_take, hdl, show min 4 64 = 4 from rfl,
    show (256 : Nat) ^ 4 = 2 ^ k * 2 ^ (32 - k) by rw [← pow_add, show k + (32 - k) = 32 by omega]; norm_num, mul_assoc,
    Nat.add_mul_mod_self_left]

/-- The memory-hard loop of the code is scryptROMix, whenever the table fits a 32-bit index. -/
theorem roMix_exact (N k r : Nat) (hN : N = 2 ^ k) (hr : 0 < r) (hs : N * (128 * r) < 2 ^ 32) (B : List Byte) (hB : B.length = 128 * r) :
    roMix N r B = Spec.roMix N r B := by
  have hk : k ≤ 32 := by
    by_contra hc
    have h1 : (2 : Nat) ^ 32 ≤ 2 ^ k := Nat.pow_le_pow_right (by decide) (by omega)
    have h2 : N * 1 ≤ N * (128 * r) := Nat.mul_le_mul_left _ (by omega)
    omega
  have hf := fill_eq r hr B N 0 []
  simp only [Function.iterate_zero, id, Nat.zero_add, List.nil_append] at hf
  unfold roMix Spec.roMix
  simp only [hf]
  have hstep : ∀ b : List Byte, b.length = 128 * r →
      step N r ((List.range N).flatMap (fun t => (Spec.blockMix r)^[t] B)) b
        = Spec.blockMix r (Spec.xor b ((Spec.blockMix r)^[Spec.integerify r b % N] B)) := by
    intro b hb
    have hpos : 0 < N := by rw [hN]; exact Nat.two_pow_pos k
    have hj := Nat.mod_lt (Spec.integerify r b) hpos
    unfold step
    simp only []
    have hi := index_exact k r hk hr b hb
    rw [← hN] at hi
    rw [hi]
    have hlt : Spec.integerify r b % N * (128 * r) < 2 ^ 32 :=
      lt_of_le_of_lt (Nat.mul_le_mul_right _ hj.le) hs
    rw [Nat.mod_eq_of_lt hlt, read_flat (128 * r) _ (fun i => iter_len r B hB i) N _ hj, blockMix_exact r hr]
    rfl
  have hm : ∀ m (b : List Byte), b.length = 128 * r →
      mixes N r ((List.range N).flatMap (fun t => (Spec.blockMix r)^[t] B)) m b
        = (fun X => Spec.blockMix r (Spec.xor X ((Spec.blockMix r)^[Spec.integerify r X % N] B)))^[m] b := by
    intro m
    induction m with
    | zero => intro b _; rfl
    | succ m ih =>
      intro b hb
      unfold mixes
      rw [hstep b hb, ih _ (blockMix_len _ _), Function.iterate_succ_apply]
  exact hm N _ (iter_len r B hB N)

theorem X_step_len (N r : Nat) (B : List Byte) (f : List Byte → List Byte) (hN : 0 < N) :
    ((fun X => Spec.blockMix r (f X))^[N] B).length = 128 * r := by
  obtain ⟨m, rfl⟩ : ∃ m, N = m + 1 := ⟨N - 1, by omega⟩
  rw [Function.iterate_succ_apply']; exact blockMix_len _ _

/-! ## Parameters -/

/-- Which parameters are accepted: exactly those the RFC allows whose working memory is below 4 GiB, with an output that is not empty. -/
theorem checkParam_exact (n r p len : Nat) (hr : r < 2 ^ 32) (hp : p < 2 ^ 32) (hn : n < 2 ^ 32) :
    checkParam n r p len = true ↔ Spec.Allowed n r p ∧ 128 * r * (p + n + 1) < 2 ^ 32 ∧ 0 < len := by
  have pow : 1 < n → (n &&& (n - 1) = 0 ↔ ∃ k, n = 2 ^ k) := fun h =>
    Nat.and_sub_one_eq_zero_iff_isPowerOfTwo (by omega)
  have e8 : 128 * r / 8 = 16 * r := by omega
  have hbig : 2 ≤ r → 2 ^ 32 ≤ 2 ^ (16 * r) := fun h => Nat.pow_le_pow_right (by decide) (by omega)
  unfold checkParam Spec.Allowed
  rw [e8]
  by_cases h0 : r = 0 ∨ p = 0 ∨ n ≤ 1 ∨ n &&& (n - 1) ≠ 0
  · rw [if_pos h0]
    refine ⟨fun h => by simp at h, ?_⟩
    rintro ⟨⟨h1, h2, h3, h4, _⟩, _⟩
    rcases h0 with h | h | h | h
    · omega
    · omega
    · omega
    · exact absurd ((pow h3).mpr h4) h
  rw [if_neg h0]
  simp only [not_or, not_not] at h0
  obtain ⟨hr0, hp0, hn1, hpw⟩ := h0
  have hr' : 0 < r := by omega
  have hp' : 0 < p := by omega
  have hpw' := (pow (by omega)).mp hpw
  have a1 : p > (2 ^ 30 - 1) / r ↔ ¬ p * r ≤ 2 ^ 30 - 1 := by rw [gt_iff_lt, ← not_le, Nat.le_div_iff_mul_le hr']
  have a2 : r > ((2 ^ 32 - 1) / 128) / p ↔ ¬ r * p ≤ (2 ^ 32 - 1) / 128 := by rw [gt_iff_lt, ← not_le, Nat.le_div_iff_mul_le hp']
  have a3 : n > ((2 ^ 32 - 1) / 128) / r ↔ ¬ n * r ≤ (2 ^ 32 - 1) / 128 := by rw [gt_iff_lt, ← not_le, Nat.le_div_iff_mul_le hr']
  have a4 : p ≤ (2 ^ 32 - 1) * 32 / (128 * r) ↔ p * (128 * r) ≤ (2 ^ 32 - 1) * 32 := Nat.le_div_iff_mul_le (by omega)
  have c1 : p * (128 * r) = 128 * (p * r) := by ring
  have c2 : 128 * r * (p + n + 1) = 128 * (p * r) + 128 * (n * r) + 128 * r := by ring
  have c3 : p * 128 * r = 128 * (p * r) := by ring
  have c4 : n * 128 * r = 128 * (n * r) := by ring
  have c5 : r * p = p * r := Nat.mul_comm _ _
  have cr : r ≤ p * r := Nat.le_mul_of_pos_left _ hp'
  simp only [a1, a2, a3, a4, c1, c2, c3, c4, c5]
  generalize p * r = A at *
  generalize n * r = C at *
  have hsmall : (r ≤ 3 ∧ n ≥ 2 ^ (16 * r)) ↔ ¬ n < 2 ^ (16 * r) := by
    constructor
    · rintro ⟨_, h⟩; omega
    · intro h
      refine ⟨?_, by omega⟩
      by_contra hc
      have := hbig (by omega)
      omega
  simp only [hsmall]
  have hone : 1 < n := by omega
  by_cases h5 : n < 2 ^ (16 * r)
  · simp only [h5, not_true, if_false, hr', hp', hone, hpw', true_and]
    split_ifs <;> simp <;> omega
  · simp only [h5, not_false_eq_true, if_true, false_and, and_false, iff_false]
    split_ifs <;> simp

/-- The size of the allocation does not wrap: it holds the `p` blocks, the table of `n` blocks and one more block. -/
theorem sumLen_exact (n r p len : Nat) (hr : r < 2 ^ 32) (hp : p < 2 ^ 32) (hn : n < 2 ^ 32) (h : checkParam n r p len = true) :
    sumLen n r p = p * (128 * r) + n * (128 * r) + 128 * r := by
  obtain ⟨_, hs, _⟩ := (checkParam_exact n r p len hr hp hn).mp h
  have c2 : 128 * r * (p + n + 1) = p * (128 * r) + n * (128 * r) + 128 * r := by ring
  rw [c2] at hs
  have m1 : 128 * r % 2 ^ 32 = 128 * r := Nat.mod_eq_of_lt (by omega)
  unfold sumLen
  simp only [m1, Nat.mul_comm (128 * r)]
  rw [Nat.mod_eq_of_lt (show p * (128 * r) < 2 ^ 32 by omega), Nat.mod_eq_of_lt (show n * (128 * r) < 2 ^ 32 by omega), Nat.mod_eq_of_lt hs]

/-! ## scrypt -/

theorem roMixAll_eq (N k r : Nat) (hN : N = 2 ^ k) (hr : 0 < r) (hs : N * (128 * r) < 2 ^ 32) : ∀ p (B : List Byte), B.length = p * (128 * r) →
    roMixAll N r p B = (List.range p).flatMap fun i => Spec.roMix N r ((B.drop (i * (128 * r))).take (128 * r)) := by
  intro p
  induction p with
  | zero => intro B hB; simp at hB; simp [roMixAll, hB]
  | succ p ih =>
    intro B hB
    have hl : B.length = p * (128 * r) + 128 * r := by rw [hB]; ring
    unfold roMixAll
    rw [List.range_succ_eq_map, List.flatMap_cons, List.flatMap_map, roMix_exact N k r hN hr hs _ (by rw [List.length_take]; omega),
      ih _ (by rw [List.length_drop]; omega)]
    simp only [Nat.zero_mul, List.drop_zero, List.drop_drop, Nat.succ_eq_add_one]
    simp only [show ∀ i, 128 * r + i * (128 * r) = (i + 1) * (128 * r) from fun i => by ring]

/-- C78. Whatever PBKDF2 is, as long as its first call returns as many bytes as it was asked for, the function of the library is scrypt of RFC 7914
on every set of parameters it accepts, and it refuses all others. -/
theorem scrypt_exact (prf : List Byte → List Byte → Nat → Option (List Byte))
    (key salt : List Byte) (n r p len : Nat) (hprf : ∀ o, prf key salt (p * 128 * r) = some o → o.length = p * 128 * r)
    (hr : r < 2 ^ 32) (hp : p < 2 ^ 32) (hn : n < 2 ^ 32) :
    (Spec.Allowed n r p ∧ 128 * r * (p + n + 1) < 2 ^ 32 ∧ 0 < len → scrypt prf key salt n r p len = Spec.scrypt prf key salt n r p len)
    ∧ (¬ (Spec.Allowed n r p ∧ 128 * r * (p + n + 1) < 2 ^ 32 ∧ 0 < len) → scrypt prf key salt n r p len = none) := by
  have hc := checkParam_exact n r p len hr hp hn
  constructor
  · intro h
    have h' := h
    obtain ⟨⟨hr0, hp0, _, ⟨k, hk⟩, _⟩, hs, _⟩ := h
    have c2 : 128 * r * (p + n + 1) = p * (128 * r) + n * (128 * r) + 128 * r := by ring
    rw [c2] at hs
    have hlen : 128 * r % 2 ^ 32 * p % 2 ^ 32 = p * 128 * r := by
      rw [Nat.mod_eq_of_lt (show 128 * r < 2 ^ 32 by omega), Nat.mul_comm (128 * r) p, Nat.mod_eq_of_lt (by omega)]; ring
    unfold scrypt Spec.scrypt
    rw [if_pos (hc.mpr h'), hlen]
    cases hB : prf key salt (p * 128 * r) with
    | none => rfl
    | some B =>
      have hBl : B.length = p * (128 * r) := by rw [hprf _ hB]; ring
      show prf key (roMixAll n r p B) len = _
      rw [roMixAll_eq n k r hk hr0 (by omega) p B hBl]
      rfl
  · intro h
    unfold scrypt
    rw [if_neg (fun hh => h (hc.mp hh))]

/-- The parameters of the RFC's own examples are accepted: `N = 16384, r = 8, p = 1` and `N = 1024, r = 8, p = 16`; `N = 2^20, r = 8`
needs 1 GiB and is accepted; `N = 2^22, r = 8` would need 4 GiB and is not. -/
example : checkParam 16384 8 1 64 = true ∧ checkParam 1024 8 16 64 = true ∧ checkParam 1048576 8 1 64 = true
    ∧ checkParam (2 ^ 22) 8 1 64 = false ∧ checkParam 16 1 1 64 = true ∧ checkParam 65536 1 1 64 = false ∧ checkParam 15 1 1 64 = false := by
  decide +kernel

/-- Test vector of RFC 7914, section 8, first and last bytes: Salsa20/8. -/
example : (salsa [0x7e, 0x87, 0x9a, 0x21, 0x4f, 0x3e, 0xc9, 0x86, 0x7c, 0xa9, 0x40, 0xe6, 0x41, 0x71, 0x8f, 0x26,
    0xba, 0xee, 0x55, 0x5b, 0x8c, 0x61, 0xc1, 0xb5, 0x0d, 0xf8, 0x46, 0x11, 0x6d, 0xcd, 0x3b, 0x1d,
    0xee, 0x24, 0xf3, 0x19, 0xdf, 0x9b, 0x3d, 0x85, 0x14, 0x12, 0x1e, 0x4b, 0x5a, 0xc5, 0xaa, 0x32,
    0x76, 0x02, 0x1d, 0x29, 0x09, 0xc7, 0x48, 0x29, 0xed, 0xeb, 0xc6, 0x8d, 0xb8, 0xb8, 0xc2, 0x5e]).take 8
    = [0xa4, 0x1f, 0x85, 0x9c, 0x66, 0x08, 0xcc, 0x99] := by
  rw [salsa_exact]; decide +kernel

/-- A function that meets the hypothesis on PBKDF2, with a non-trivial derivation. -/
example : ∃ prf : List Byte → List Byte → Nat → Option (List Byte), (∀ pw s l o, prf pw s l = some o → o.length = l)
    ∧ Spec.Allowed 16 1 2 ∧ 128 * 1 * (2 + 16 + 1) < 2 ^ 32
    ∧ (∃ o, scrypt prf [1] [2] 16 1 2 4 = some o ∧ o.length = 4) := by
  refine ⟨fun pw s l => some ((pw ++ s ++ List.replicate l 0).take l), ?_, ⟨by decide, by decide, by decide, ⟨4, rfl⟩, by decide, by decide⟩, by decide, ?_⟩
  · rintro pw s l o ⟨⟩
    simp; omega
  · have h : checkParam 16 1 2 4 = true := by decide +kernel
    unfold scrypt
    rw [if_pos h]
    refine ⟨_, rfl, ?_⟩
    generalize roMixAll 16 1 2 _ = z
    rw [List.length_take, List.length_append, List.length_replicate]
    omega

end Verif.Crypto.Scrypt
