import Verif.Crypto.Kdf.Model
import Verif.Crypto.Mac.Props

/-! # Key derivation: loops against block streams -/

namespace Verif.Crypto.Kdf

open Verif.Common

/-- A MAC object behaves like the keyed function `F` with `L`-byte tags.  `Act c k P`: keyed with `k`,
has seen `P`; `Key c k`: keyed with `k`, tag delivered. -/
structure Lawful (M : Macm) (F : List Byte → List Byte → List Byte) (L : Nat)
    (Act : M.C → List Byte → List Byte → Prop) (Key : M.C → List Byte → Prop) : Prop where
  init : ∀ c k, k.length < 2 ^ 32 → (M.init c k).2 = true ∧ Act (M.init c k).1 k []
  update : ∀ c k P d, Act c k P → d.length < 2 ^ 32 → P.length + d.length < 2 ^ 60 →
    (M.update c d).2 = true ∧ Act (M.update c d).1 k (P ++ d)
  final : ∀ c k P cap, Act c k P → P.length < 2 ^ 60 → L ≤ cap →
    (M.final c cap).2 = some (F k P) ∧ Key (M.final c cap).1 k
  reinit : ∀ c k, Key c k → Act (M.reinit c) k []
  key : ∀ c k P, Act c k P → Key c k
  len : ∀ k P, (F k P).length = L
  size : 0 < L ∧ L ≤ maxTag

/-- HMAC over a lawful hash is such an object. -/
theorem hmac_lawful (m : Mac.Md) (H Abs) (hm : Mac.Lawful m H Abs) (hp : 0 < m.mdSize) :
    Lawful (hmacMeth m) (Mac.Spec.hmac H m.blockSize) m.mdSize (fun c k P => Mac.HInv m H Abs c k P)
      (fun c k => Mac.Keyed m H Abs c k) := by
  refine ⟨?_, ?_, ?_, ?_, fun c k P h => h.keyed, ?_, hp, ?_⟩
  · intro c k hk
    obtain ⟨h, e, i⟩ := Mac.hmacInit_spec m H Abs hm k hk
    have : (hmacMeth m).init c k = (h, true) := by
      show (match Mac.hmacInit m k with
        | some r => r
        | none => (c, false)) = _
      rw [e]
    rw [this]
    exact ⟨rfl, i⟩
  · intro c k P d hi hd hP
    exact Mac.hmacUpdate_spec m H Abs hm c k P d hi hd hP
  · intro c k P cap hi hP hc
    have := Mac.hmacFinal_spec m H Abs hm c k P cap hi hP hc
    rw [Mac.hmacOf_spec] at this
    exact this
  · intro c k hi
    exact Mac.hmacReinit_spec m H Abs hm c k hi
  · intro k P
    unfold Mac.Spec.hmac
    exact hm.hlen _
  · exact hm.sizes.2.2

/-- The first `n` blocks of a stream. -/
def blocks (T : Nat → List Byte) (n : Nat) : List Byte := (List.range n).flatMap fun i => T (i + 1)

theorem blocks_succ (T : Nat → List Byte) (n : Nat) : blocks T (n + 1) = blocks T n ++ T (n + 1) := by
  simp [blocks, List.range_succ]

theorem blocks_length (T : Nat → List Byte) (L n : Nat) (hT : ∀ i, (T (i + 1)).length = L) :
    (blocks T n).length = n * L := by
  induction n with
  | zero => simp [blocks]
  | succ n ih => rw [blocks_succ, List.length_append, ih, hT]; ring

theorem take_append_blocks (T : Nat → List Byte) (j len : Nat) :
    (blocks T j).take len ++ (T (j + 1)).take (len - ((blocks T j).take len).length) =
      (blocks T (j + 1)).take len := by
  rw [blocks_succ, List.take_append, List.length_take]
  congr 2
  omega

theorem take_min (t : List Byte) (n : Nat) : t.take (if t.length > n then n else t.length) = t.take n := by
  by_cases h : t.length > n
  · rw [if_pos h]
  · rw [if_neg h, List.take_length, List.take_of_length_le (by omega)]

theorem taken_length (T : Nat → List Byte) (L j len : Nat) (hT : ∀ i, (T (i + 1)).length = L) :
    ((blocks T j).take len).length = min len (j * L) := by
  rw [List.length_take, blocks_length T L j hT]

theorem blocks_take (T : Nat → List Byte) (L j len : Nat) (hT : ∀ i, (T (i + 1)).length = L)
    (h : len ≤ j * L) (k : Nat) : (blocks T (j + k)).take len = (blocks T j).take len := by
  induction k with
  | zero => rfl
  | succ k ih =>
    rw [← Nat.add_assoc, blocks_succ, List.take_append, ih, blocks_length T L _ hT]
    have : len - (j + k) * L = 0 := by
      have : j * L ≤ (j + k) * L := Nat.mul_le_mul_right _ (by omega)
      omega
    rw [this]; simp

/-! ## HKDF -/

variable {M : Macm} {F : List Byte → List Byte → List Byte} {L : Nat}
  {Act : M.C → List Byte → List Byte → Prop} {Key : M.C → List Byte → Prop}

/-- RFC 5869: the blocks of HKDF-Expand. -/
def hkdfT (F : List Byte → List Byte → List Byte) (prk info : List Byte) : Nat → List Byte
  | 0 => []
  | i + 1 => F prk (hkdfT F prk info i ++ info ++ [BitVec.ofNat 8 (i + 1)])

theorem extract_spec (hM : Lawful M F L Act Key) (c : M.C) (key salt : List Byte) (cap : Nat)
    (hk : key.length < 2 ^ 32) (hs : salt.length < 2 ^ 32) (hc : L ≤ cap) :
    (extract M c key salt cap).2 = .ok (F salt key) := by
  obtain ⟨a1, a2⟩ := hM.init (M.deinit c) salt hs
  obtain ⟨b1, b2⟩ := hM.update _ _ _ key a2 hk (by simp; omega)
  have f := hM.final _ _ _ cap b2 (by simp; omega) hc
  unfold extract
  dsimp only
  rw [a1, if_pos rfl, b1, if_pos rfl, f.1, List.nil_append]

theorem expandBlock_spec (hM : Lawful M F L Act Key) (info : List Byte) (c : M.C) (prk P : List Byte) (n : Byte)
    (cap : Nat) (hc : Act c prk P) (hi : info.length < 2 ^ 32) (hP : P.length ≤ 64) (hcap : L ≤ cap) :
    (expandBlock M info c n cap).2 = some (F prk (P ++ info ++ [n])) ∧ Key (expandBlock M info c n cap).1 prk := by
  obtain ⟨a1, a2⟩ := hM.update _ _ _ info hc hi (by omega)
  obtain ⟨b1, b2⟩ := hM.update _ _ _ [n] a2 (by simp) (by simp; omega)
  have f := hM.final _ _ _ cap b2 (by simp; omega) hcap
  unfold expandBlock
  dsimp only
  rw [a1, if_pos rfl, b1, if_pos rfl]
  exact f

theorem hkdfT_length (hM : Lawful M F L Act Key) (prk info : List Byte) (i : Nat) :
    (hkdfT F prk info (i + 1)).length = L := hM.len _ _

theorem expandLoop_spec (hM : Lawful M F L Act Key) (prk info : List Byte) (hi : info.length < 2 ^ 32)
    (len : Nat) (k j : Nat) (c : M.C) (hash : List Byte) (hl : Nat)
    (hc : if j = 0 then Act c prk [] else Key c prk ∧ hash = hkdfT F prk info j)
    (hhl : 0 < k → hl = L) (hend : 0 < k → (j + k - 1) * L < len) :
    (expandLoop M info len k (decide (j = 0)) c (BitVec.ofNat 8 (j + 1)) hash hl
      ((blocks (hkdfT F prk info) j).take len)).2 = .ok ((blocks (hkdfT F prk info) (j + k)).take len) := by
  induction k generalizing j c hash hl with
  | zero => rfl
  | succ k ih =>
    have hL := hM.size
    have h64 : maxTag = 64 := rfl
    have hh := hhl (by omega)
    subst hh
    unfold expandLoop
    dsimp only
    have hact : (expandChain M (decide (j = 0)) c hash hl).2 = true ∧
        Act (expandChain M (decide (j = 0)) c hash hl).1 prk (hkdfT F prk info j) ∧
        (hkdfT F prk info j).length ≤ 64 := by
      unfold expandChain
      by_cases h0 : j = 0
      · subst h0
        simp only [decide_true, if_true]
        exact ⟨trivial, hc, by simp [hkdfT]⟩
      · rw [if_neg h0] at hc
        obtain ⟨hk, rfl⟩ := hc
        obtain ⟨j', rfl⟩ : ∃ j', j = j' + 1 := ⟨j - 1, by omega⟩
        have hlen := hkdfT_length hM prk info j'
        simp only [h0, decide_false, Bool.false_eq_true, if_false]
        rw [List.take_of_length_le (Nat.le_of_eq hlen)]
        obtain ⟨u1, u2⟩ := hM.update _ _ _ (hkdfT F prk info (j' + 1)) (hM.reinit _ _ hk)
          (by rw [hlen]; omega) (by rw [hlen]; simp; omega)
        exact ⟨u1, u2, by omega⟩
    obtain ⟨e1, e2, e3⟩ := hact
    rw [e1, if_pos rfl]
    obtain ⟨f1, f2⟩ := expandBlock_spec hM info _ prk _ (BitVec.ofNat 8 (j + 1)) hl e2 hi e3 (Nat.le_refl _)
    rw [f1]
    dsimp only
    rw [show F prk (hkdfT F prk info j ++ info ++ [BitVec.ofNat 8 (j + 1)]) = hkdfT F prk info (j + 1) from rfl]
    have hlen := hkdfT_length hM prk info j
    rw [if_pos (by omega), take_min, take_append_blocks]
    have hcnt : BitVec.ofNat 8 (j + 1) + 1#8 = BitVec.ofNat 8 (j + 1 + 1) := by
      rw [BitVec.ofNat_add (j + 1) 1]
    have := ih (j + 1) (expandBlock M info (expandChain M (decide (j = 0)) c hash hl).1 (BitVec.ofNat 8 (j + 1)) hl).1
      (hkdfT F prk info (j + 1))
      (if (hkdfT F prk info (j + 1)).length > len - ((blocks (hkdfT F prk info) j).take len).length then
        len - ((blocks (hkdfT F prk info) j).take len).length else (hkdfT F prk info (j + 1)).length)
      (by rw [if_neg (by omega)]; exact ⟨f2, rfl⟩)
      (by
        intro hk
        have h1 := hend (by omega)
        rw [taken_length _ hl _ _ (hkdfT_length hM prk info), hlen]
        have h2 : (j + 1) * hl ≤ (j + (k + 1) - 1) * hl := Nat.mul_le_mul_right _ (by omega)
        have h3 : (j + 1) * hl = j * hl + hl := by ring
        rw [if_neg (by omega)])
      (by
        intro hk
        have h1 := hend (by omega)
        rwa [show j + 1 + k - 1 = j + (k + 1) - 1 by omega])
    rw [hcnt, show j + (k + 1) = j + 1 + k by omega, ← this]
    simp

theorem expand_spec (hM : Lawful M F L Act Key) (c : M.C) (prk info : List Byte) (len : Nat)
    (hp : prk.length < 2 ^ 32) (hi : info.length < 2 ^ 32) :
    (expand M c L prk info len).2 = if len = 0 then .param else if 255 * L < len then .overflow else
      .ok ((blocks (hkdfT F prk info) ((len + L - 1) / L)).take len) := by
  have hL := hM.size
  unfold expand
  by_cases h0 : len = 0
  · rw [if_pos h0, if_pos h0]
  · rw [if_neg h0, if_neg h0, if_neg (by omega)]
    by_cases h1 : 255 * L < len
    · rw [if_pos (by omega), if_pos h1]
    · rw [if_neg (by omega), if_neg h1]
      obtain ⟨a1, a2⟩ := hM.init (M.deinit c) prk hp
      dsimp only
      rw [a1, if_pos rfl]
      have hn : 0 < (len + L - 1) / L := Nat.div_pos (by omega) hL.1
      have hlt : ((len + L - 1) / L - 1) * L < len := by
        have := Nat.div_mul_le_self (len + L - 1) L
        rw [Nat.sub_mul]; omega
      have := expandLoop_spec hM prk info hi len ((len + L - 1) / L) 0 (M.init (M.deinit c) prk).1 [] L
        a2 (fun _ => rfl) (fun _ => by rw [Nat.zero_add]; exact hlt)
      have e : 0 + (len + L - 1) / L = (len + L - 1) / L := Nat.zero_add _
      rw [e] at this
      rw [← this]
      simp [blocks]

theorem hkdf_spec (hM : Lawful M F L Act Key) (c : M.C) (key salt info : List Byte) (len : Nat)
    (hk : key.length < 2 ^ 32) (hs : salt.length < 2 ^ 32) (hi : info.length < 2 ^ 32) :
    (hkdf M c L key salt info len).2 = if len = 0 then .param else if 255 * L < len then .overflow else
      .ok ((blocks (hkdfT F (F salt key) info) ((len + L - 1) / L)).take len) := by
  have hL := hM.size
  have h64 : maxTag = 64 := rfl
  have he := extract_spec hM c key salt maxTag hk hs hL.2
  unfold hkdf
  rcases hx : extract M c key salt maxTag with ⟨c1, o⟩
  rw [hx] at he
  dsimp only at he
  subst he
  exact expand_spec hM c1 _ info len (by rw [hM.len]; omega) hi

/-! ## PBKDF2 -/

/-- RFC 8018: `U_j` for block `i`. -/
def pbU (F : List Byte → List Byte → List Byte) (pw salt : List Byte) (i : Nat) : Nat → List Byte
  | 0 => F pw (salt ++ beBytes 4 i)
  | j + 1 => F pw (pbU F pw salt i j)

/-- RFC 8018: `U_1 xor … xor U_{n+1}`. -/
def pbX (F : List Byte → List Byte → List Byte) (pw salt : List Byte) (i : Nat) : Nat → List Byte
  | 0 => pbU F pw salt i 0
  | n + 1 => dataXor (pbX F pw salt i n) (pbU F pw salt i (n + 1))

theorem pbU_length (hM : Lawful M F L Act Key) (pw salt : List Byte) (i j : Nat) :
    (pbU F pw salt i j).length = L := by cases j <;> exact hM.len _ _

theorem pbX_length (hM : Lawful M F L Act Key) (pw salt : List Byte) (i n : Nat) :
    (pbX F pw salt i n).length = L := by
  induction n with
  | zero => exact pbU_length hM _ _ _ _
  | succ n ih => simp [pbX, dataXor, ih, pbU_length hM]

theorem un_spec (hM : Lawful M F L Act Key) (c : M.C) (pw u : List Byte) (hc : Key c pw) (hu : u.length = L) :
    (un M c u u.length).2 = some (F pw u) ∧ Key (un M c u u.length).1 pw := by
  have hL := hM.size
  have h64 : maxTag = 64 := rfl
  obtain ⟨a1, a2⟩ := hM.update _ _ _ u (hM.reinit _ _ hc) (by omega) (by simp; omega)
  have f := hM.final _ _ _ u.length a2 (by simp; omega) (by omega)
  unfold un
  rw [List.take_length]
  dsimp only
  rw [a1, if_pos rfl]
  exact f

theorem calcLoop_spec (hM : Lawful M F L Act Key) (pw salt : List Byte) (i k n : Nat) (c : M.C) (hc : Key c pw) :
    (calcLoop M k c (pbU F pw salt i n) (pbX F pw salt i n)).2 = some (pbX F pw salt i (n + k)) ∧
    Key (calcLoop M k c (pbU F pw salt i n) (pbX F pw salt i n)).1 pw := by
  induction k generalizing n c with
  | zero => exact ⟨rfl, hc⟩
  | succ k ih =>
    obtain ⟨a1, a2⟩ := un_spec hM c pw _ hc (pbU_length hM pw salt i n)
    unfold calcLoop
    dsimp only
    rw [a1]
    have := ih (n + 1) _ a2
    rw [show n + (k + 1) = n + 1 + k by omega]
    exact this

theorem calcT_spec (hM : Lawful M F L Act Key) (pw salt : List Byte) (hs : salt.length < 2 ^ 32) (it : Nat)
    (i : BitVec 32) (tlen : Nat) (c : M.C) (hc : Key c pw) :
    (calcT M c salt it i tlen).2 = some ((pbX F pw salt i.toNat (it - 1)).take tlen) ∧
    Key (calcT M c salt it i tlen).1 pw := by
  have hL := hM.size
  obtain ⟨a1, a2⟩ := hM.update _ _ _ salt (hM.reinit _ _ hc) hs (by simp; omega)
  obtain ⟨b1, b2⟩ := hM.update _ _ _ (beBytes 4 i.toNat) a2 (by simp) (by simp; omega)
  have f := hM.final _ _ _ maxTag b2 (by simp; omega) hL.2
  have hu : u1 M c salt i maxTag = M.final (M.update (M.update (M.reinit c) salt).1 (beBytes 4 i.toNat)).1 maxTag := by
    unfold u1
    dsimp only
    rw [a1, if_pos rfl, b1, if_pos rfl]
  unfold calcT
  dsimp only
  rw [hu, f.1]
  dsimp only
  rw [List.nil_append]
  have g := calcLoop_spec hM pw salt i.toNat (it - 1) 0 _ f.2
  rw [Nat.zero_add] at g
  have g1 : (calcLoop M (it - 1)
      (M.final (M.update (M.update (M.reinit c) salt).1 (beBytes 4 i.toNat)).1 maxTag).1
      (F pw (salt ++ beBytes 4 i.toNat)) (F pw (salt ++ beBytes 4 i.toNat))).2 =
      some (pbX F pw salt i.toNat (it - 1)) := g.1
  rw [g1]
  refine ⟨?_, g.2⟩
  dsimp only
  congr 1
  by_cases h : tlen > (pbX F pw salt i.toNat (it - 1)).length
  · rw [if_pos h, List.take_length, List.take_of_length_le (by omega)]
  · rw [if_neg h]

theorem genLoop_spec (hM : Lawful M F L Act Key) (pw salt : List Byte) (hs : salt.length < 2 ^ 32) (it len : Nat)
    (hlen : len < 2 ^ 32) (k j : Nat) (c : M.C) (hc : Key c pw) (hj : j ≤ len) (hk : len - j * L ≤ k) :
    (genLoop M salt it k c (BitVec.ofNat 32 (j + 1)) (len - j * L)
      ((blocks (fun i => pbX F pw salt i (it - 1)) j).take len)).2 =
      .ok ((blocks (fun i => pbX F pw salt i (it - 1)) (j + k)).take len) := by
  have hL := hM.size
  have hT : ∀ i, (pbX F pw salt (i + 1) (it - 1)).length = L := fun i => pbX_length hM _ _ _ _
  have done : len - j * L = 0 → ∀ k, ((blocks (fun i => pbX F pw salt i (it - 1)) j).take len) =
      (blocks (fun i => pbX F pw salt i (it - 1)) (j + k)).take len := fun h k =>
    (blocks_take (fun i => pbX F pw salt i (it - 1)) L j len hT (by omega) k).symm
  induction k generalizing j c with
  | zero =>
    unfold genLoop
    rw [if_neg (by omega)]; rfl
  | succ k ih =>
    unfold genLoop
    by_cases h : len - j * L > 0
    · rw [if_pos h]
      dsimp only
      have hjl : j < len := by
        have : j * 1 ≤ j * L := Nat.mul_le_mul_left _ hL.1
        omega
      have hi : (BitVec.ofNat 32 (j + 1)).toNat = j + 1 := by
        rw [BitVec.toNat_ofNat, Nat.mod_eq_of_lt (by omega)]
      obtain ⟨a1, a2⟩ := calcT_spec hM pw salt hs it (BitVec.ofNat 32 (j + 1)) (len - j * L) c hc
      rw [a1]
      dsimp only
      rw [hi]
      have hm : (j + 1) * L = j * L + L := by ring
      have e1 : len - j * L - ((pbX F pw salt (j + 1) (it - 1)).take (len - j * L)).length = len - (j + 1) * L := by
        rw [List.length_take, hT]; omega
      have e2 := take_append_blocks (fun i => pbX F pw salt i (it - 1)) j len
      rw [taken_length (fun i => pbX F pw salt i (it - 1)) L j len hT,
        show len - min len (j * L) = len - j * L by omega] at e2
      have e3 : BitVec.ofNat 32 (j + 1) + 1#32 = BitVec.ofNat 32 (j + 1 + 1) := by
        rw [BitVec.ofNat_add (j + 1) 1]
      rw [e1, e2, e3, ih (j + 1) _ a2 (by omega) (by omega) (fun h k =>
        (blocks_take (fun i => pbX F pw salt i (it - 1)) L (j + 1) len hT (by omega) k).symm)]
      rw [show j + 1 + k = j + (k + 1) by omega]
    · rw [if_neg h]
      show Out.ok _ = _
      rw [done (by omega) (k + 1)]

theorem blocks_ceil (T : Nat → List Byte) (len : Nat) (hL : 0 < L) (hT : ∀ i, (T (i + 1)).length = L)
    (n : Nat) (hn : len ≤ n * L) :
    (blocks T n).take len = (blocks T ((len + L - 1) / L)).take len := by
  have h1 : len ≤ (len + L - 1) / L * L := by
    have h1 := Nat.div_add_mod (len + L - 1) L
    have h2 := Nat.mod_lt (len + L - 1) hL
    rw [Nat.mul_comm] at h1
    generalize (len + L - 1) / L * L = x at *
    omega
  rcases Nat.le_total n ((len + L - 1) / L) with h | h
  · rw [← blocks_take T L n len hT hn ((len + L - 1) / L - n)]
    congr 2; omega
  · rw [← blocks_take T L _ len hT h1 (n - (len + L - 1) / L)]
    congr 2; omega

theorem pbkdf2_spec (hM : Lawful M F L Act Key) (c : M.C) (pw salt : List Byte) (it len : Nat)
    (hp : pw.length < 2 ^ 32) (hs : salt.length < 2 ^ 32) (hlen : len < 2 ^ 32) :
    (pbkdf2 M c L pw salt it len).2 = if len = 0 ∨ it = 0 then .param else
      .ok ((blocks (fun i => pbX F pw salt i (it - 1)) ((len + L - 1) / L)).take len) := by
  have hL := hM.size
  unfold pbkdf2
  rw [if_neg (by omega)]
  by_cases h0 : len = 0 ∨ it = 0
  · rw [if_pos h0, if_pos h0]
  · rw [if_neg h0, if_neg h0]
    obtain ⟨a1, a2⟩ := hM.init c pw hp
    unfold genDk
    dsimp only
    rw [a1, if_pos rfl]
    have := genLoop_spec hM pw salt hs it len hlen len 0 _ (hM.key _ _ _ a2) (by omega) (by omega)
    rw [Nat.zero_mul, Nat.sub_zero, Nat.zero_add, Nat.zero_add] at this
    rw [← blocks_ceil (L := L) (fun i => pbX F pw salt i (it - 1)) len hL.1 (fun i => pbX_length hM _ _ _ _) len (Nat.le_mul_of_pos_right _ hL.1)]
    rw [← this]
    simp [blocks]

/-! ## TLS 1.2 PRF -/

/-- RFC 5246: `A(i)`. -/
def tlsA (F : List Byte → List Byte → List Byte) (key s : List Byte) : Nat → List Byte
  | 0 => s
  | i + 1 => F key (tlsA F key s i)

theorem phashFirst_spec (hM : Lawful M F L Act Key) (c : M.C) (key label seed : List Byte) (cap : Nat)
    (hk : key.length < 2 ^ 32) (hl : label.length < 2 ^ 32) (hs : seed.length < 2 ^ 32) (hc : L ≤ cap) :
    (phashFirst M c key label seed cap).2 = some (F key (label ++ seed)) ∧
    Key (phashFirst M c key label seed cap).1 key := by
  obtain ⟨a1, a2⟩ := hM.init c key hk
  obtain ⟨b1, b2⟩ := hM.update _ _ _ label a2 hl (by simp; omega)
  obtain ⟨d1, d2⟩ := hM.update _ _ _ seed b2 hs (by simp; omega)
  have f := hM.final _ _ _ cap d2 (by simp; omega) hc
  unfold phashFirst
  dsimp only
  rw [a1, if_pos rfl, b1, if_pos rfl, d1, if_pos rfl]
  exact f

theorem phashOut_spec (hM : Lawful M F L Act Key) (c : M.C) (key next label seed : List Byte) (cap : Nat)
    (hc : Key c key) (hn : next.length = L) (hl : label.length < 2 ^ 32) (hs : seed.length < 2 ^ 32) (hcap : L ≤ cap) :
    (phashOut M c next label seed cap).2 = some (F key (next ++ (label ++ seed))) ∧
    Key (phashOut M c next label seed cap).1 key := by
  have hL := hM.size
  have h64 : maxTag = 64 := rfl
  obtain ⟨a1, a2⟩ := hM.update _ _ _ next (hM.reinit _ _ hc) (by omega) (by simp; omega)
  obtain ⟨b1, b2⟩ := hM.update _ _ _ label a2 hl (by simp; omega)
  obtain ⟨d1, d2⟩ := hM.update _ _ _ seed b2 hs (by simp; omega)
  have f := hM.final _ _ _ cap d2 (by simp; omega) hcap
  rw [List.nil_append, List.append_assoc] at f
  unfold phashOut
  dsimp only
  rw [a1, if_pos rfl, b1, if_pos rfl, d1, if_pos rfl]
  exact f

theorem kdfHmac_spec (hM : Lawful M F L Act Key) (c : M.C) (key u : List Byte) (hc : Key c key) (hu : u.length = L) :
    (kdfHmac M c u L).2 = some (F key u) ∧ Key (kdfHmac M c u L).1 key := by
  have := un_spec hM c key u hc hu
  rw [hu] at this
  exact this

/-- RFC 5246: the blocks of `P_hash`. -/
def tlsT (F : List Byte → List Byte → List Byte) (key s : List Byte) (i : Nat) : List Byte :=
  F key (tlsA F key s i ++ s)

theorem phashLoop_spec (hM : Lawful M F L Act Key) (key label seed : List Byte)
    (hk : key.length < 2 ^ 32) (hl : label.length < 2 ^ 32) (hs : seed.length < 2 ^ 32) (len : Nat)
    (k j : Nat) (c : M.C) (next : List Byte) (nl ol : Nat)
    (hc : if j = 0 then L ≤ nl ∧ L ≤ ol else Key c key ∧ next = tlsA F key (label ++ seed) j ∧ nl = L ∧ ol = L)
    (hrem : len - j * L ≤ k) :
    (phashLoop M key label seed len k c next nl ol ((blocks (tlsT F key (label ++ seed)) j).take len)).2 =
      .ok ((blocks (tlsT F key (label ++ seed)) (j + k)).take len) := by
  have hL := hM.size
  have hT : ∀ i, (tlsT F key (label ++ seed) (i + 1)).length = L := fun i => hM.len _ _
  induction k generalizing j c next nl ol with
  | zero =>
    unfold phashLoop
    rw [taken_length _ L _ _ hT, if_neg (by omega)]; rfl
  | succ k ih =>
    unfold phashLoop
    rw [taken_length _ L _ _ hT]
    by_cases h : len > min len (j * L)
    · rw [if_pos h]
      dsimp only
      have hout : min len (j * L) = j * L := by omega
      have hnext : (phashNext M c key label seed (min len (j * L)) next nl).2 =
          some (tlsA F key (label ++ seed) (j + 1)) ∧
          Key (phashNext M c key label seed (min len (j * L)) next nl).1 key ∧ L ≤ ol := by
        rw [hout]
        unfold phashNext
        by_cases h0 : j = 0
        · subst h0
          rw [if_pos rfl] at hc
          rw [if_pos (by omega)]
          have := phashFirst_spec hM c key label seed nl hk hl hs hc.1
          exact ⟨this.1, this.2, hc.2⟩
        · rw [if_neg h0] at hc
          obtain ⟨h1, h2, h3, h4⟩ := hc
          rw [if_neg (Nat.mul_ne_zero h0 (by omega))]
          have hlen : (tlsA F key (label ++ seed) j).length = L := by
            obtain ⟨j', rfl⟩ : ∃ j', j = j' + 1 := ⟨j - 1, by omega⟩
            exact hM.len _ _
          rw [h2, h3]
          have := kdfHmac_spec hM c key _ h1 hlen
          exact ⟨this.1, this.2, Nat.le_of_eq h4.symm⟩
      obtain ⟨n1, n2, n3⟩ := hnext
      rw [n1]
      dsimp only
      have o := phashOut_spec hM _ key (tlsA F key (label ++ seed) (j + 1)) label seed ol n2 (hM.len _ _) hl hs n3
      rw [o.1]
      dsimp only
      have e2 := take_append_blocks (tlsT F key (label ++ seed)) j len
      rw [taken_length _ L _ _ hT] at e2
      rw [take_min]
      rw [show F key (tlsA F key (label ++ seed) (j + 1) ++ (label ++ seed)) = tlsT F key (label ++ seed) (j + 1)
        from rfl, e2, hT]
      have hm : (j + 1) * L = j * L + L := by ring
      rw [show j + (k + 1) = j + 1 + k by omega]
      exact ih (j + 1) _ _ _ _ (by
        rw [if_neg (by omega)]
        exact ⟨o.2, rfl, hM.len _ _, rfl⟩) (by omega)
    · rw [if_neg h]
      show Out.ok _ = _
      rw [blocks_take _ L j len hT (by omega) (k + 1)]

theorem tls12_spec (hM : Lawful M F L Act Key) (c : M.C) (key label seed : List Byte) (len : Nat)
    (hk : key.length < 2 ^ 32) (hl : label.length < 2 ^ 32) (hs : seed.length < 2 ^ 32) :
    (tls12 M c key label seed len).2 = if len = 0 then .param else
      .ok ((blocks (tlsT F key (label ++ seed)) ((len + L - 1) / L)).take len) := by
  have hL := hM.size
  unfold tls12
  by_cases h0 : len = 0
  · rw [if_pos h0, if_pos h0]
  · rw [if_neg h0, if_neg h0]
    dsimp only
    rw [← blocks_ceil (L := L) _ len hL.1 (fun i => hM.len _ _) len (Nat.le_mul_of_pos_right _ hL.1)]
    have := phashLoop_spec hM key label seed hk hl hs len len 0 c [] maxTag maxTag ⟨hL.2, hL.2⟩ (by omega)
    rw [Nat.zero_add] at this
    rw [← this]
    simp [blocks]

end Verif.Crypto.Kdf
