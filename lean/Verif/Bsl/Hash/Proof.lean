import Verif.Bsl.Hash.Model
namespace Verif.Bsl.Hash
variable {K V : Type}

/-- The user's functions are fit for a table: `mt` is an equivalence and matching keys have the same hash. -/
structure Good (c : Cfg K) : Prop where
  refl : ∀ a, c.mt a a = true
  symm : ∀ a b, c.mt a b = true → c.mt b a = true
  trans : ∀ a b d, c.mt a b = true → c.mt b d = true → c.mt a d = true
  hash : ∀ a b, c.mt a b = true → c.hash a = c.hash b

theorem Good.congr {c : Cfg K} (g : Good c) {a b : K} (h : c.mt a b = true) (k : K) : c.mt a k = c.mt b k := by
  cases h1 : c.mt a k with
  | true => exact (g.trans _ _ _ (g.symm _ _ h) h1).symm
  | false =>
    cases h2 : c.mt b k with
    | false => rfl
    | true => rw [g.trans _ _ _ h h2] at h1; exact absurd h1 (by simp)

theorem Good.comm {c : Cfg K} (g : Good c) (a b : K) : c.mt a b = c.mt b a := by
  cases h : c.mt a b with
  | true => exact (g.symm _ _ h).symm
  | false =>
    cases h2 : c.mt b a with
    | false => rfl
    | true => rw [g.symm _ _ h2] at h; exact absurd h (by simp)

/-! ### Association lists -/

def Sep (c : Cfg K) (L : List (K × V)) : Prop := L.Pairwise fun a b => c.mt a.1 b.1 = false

def lookup (c : Cfg K) (L : List (K × V)) (k : K) : Option V := (L.find? fun e => c.mt e.1 k).map (·.2)

theorem Sep.perm {c : Cfg K} (g : Good c) {L L' : List (K × V)} (h : Sep c L) (p : L.Perm L') : Sep c L' :=
  p.pairwise h (fun {x y} e => by rw [g.comm]; exact e)

theorem find_iff {c : Cfg K} (g : Good c) {L : List (K × V)} (h : Sep c L) (k : K) (e : K × V) :
    L.find? (fun e => c.mt e.1 k) = some e ↔ e ∈ L ∧ c.mt e.1 k = true := by
  constructor
  · intro he
    exact ⟨List.mem_of_find?_eq_some he, by simpa using List.find?_some he⟩
  · rintro ⟨hm, hk⟩
    induction L with
    | nil => simp at hm
    | cons x L ih =>
      obtain ⟨h1, h2⟩ := List.pairwise_cons.1 h
      rw [List.find?_cons]
      rcases List.mem_cons.1 hm with rfl | hm
      · rw [hk]
      · have : c.mt x.1 k = false := by
          cases hx : c.mt x.1 k with
          | false => rfl
          | true =>
            have := h1 e hm
            rw [g.trans _ _ _ hx (g.symm _ _ hk)] at this
            exact absurd this (by simp)
        rw [this]
        exact ih h2 hm

theorem find_perm {c : Cfg K} (g : Good c) {L L' : List (K × V)} (h : Sep c L) (p : L.Perm L') (k : K) :
    L.find? (fun e => c.mt e.1 k) = L'.find? (fun e => c.mt e.1 k) := by
  apply Option.ext
  intro e
  rw [find_iff g h, find_iff g (h.perm g p), p.mem_iff]

theorem lookup_perm {c : Cfg K} (g : Good c) {L L' : List (K × V)} (h : Sep c L) (p : L.Perm L') (k : K) :
    lookup c L k = lookup c L' k := by
  unfold lookup; rw [find_perm g h p]

theorem find_none {c : Cfg K} (L : List (K × V)) (k : K) :
    L.find? (fun e => c.mt e.1 k) = none ↔ ∀ e ∈ L, c.mt e.1 k = false := by
  rw [List.find?_eq_none]
  simp

theorem lookup_snoc {c : Cfg K} (g : Good c) {R : List (K × V)} {k0 : K} {v : V} (h : Sep c (R ++ [(k0, v)])) (k : K) :
    lookup c (R ++ [(k0, v)]) k = (if c.mt k0 k then some v else lookup c R k) ∧
      (c.mt k0 k = true → lookup c R k = none) := by
  have hno : c.mt k0 k = true → R.find? (fun e => c.mt e.1 k) = none := by
    intro hk
    rw [find_none]
    intro e he
    have := (List.pairwise_append.1 h).2.2 e he (k0, v) (by simp)
    simp only at this
    cases hx : c.mt e.1 k with
    | false => rfl
    | true => rw [g.trans _ _ _ hx (g.symm _ _ hk)] at this; exact absurd this (by simp)
  constructor
  · unfold lookup
    rw [List.find?_append]
    by_cases hk : c.mt k0 k = true
    · rw [hno hk, if_pos hk]; simp [hk]
    · rw [if_neg hk]
      have : ([(k0, v)] : List (K × V)).find? (fun e => c.mt e.1 k) = none := by simp [hk]
      rw [this]; simp
  · intro hk; unfold lookup; rw [hno hk]; rfl

theorem sep_snoc {c : Cfg K} (g : Good c) {R : List (K × V)} {k : K} {v : V} (h : Sep c R)
    (hk : R.find? (fun e => c.mt e.1 k) = none) : Sep c (R ++ [(k, v)]) := by
  rw [Sep, List.pairwise_append]
  refine ⟨h, List.pairwise_singleton _ _, ?_⟩
  intro a ha b hb
  simp only [List.mem_singleton] at hb
  subst hb
  exact (find_none R k).1 hk a ha

/-! ### The bucket array -/

theorem flat_congr (n : Nat) (f f' : Nat → List (K × V)) (h : ∀ j, j < n → f' j = f j) :
    (List.range n).flatMap f' = (List.range n).flatMap f := by
  induction n with
  | zero => rfl
  | succ n ih =>
    rw [List.range_succ, List.flatMap_append, List.flatMap_append, ih (fun j hj => h j (by omega))]
    simp [h n (by omega)]

theorem flat_upd (n i : Nat) (f f' : Nat → List (K × V)) (X Y : List (K × V)) (hi : i < n)
    (hne : ∀ j, j < n → j ≠ i → f' j = f j) (h1 : (f i).Perm (X ++ Y)) (h2 : (f' i).Perm X) :
    ((List.range n).flatMap f).Perm ((List.range n).flatMap f' ++ Y) := by
  induction n with
  | zero => omega
  | succ n ih =>
    rw [List.range_succ, List.flatMap_append, List.flatMap_append]
    simp only [List.flatMap_cons, List.flatMap_nil, List.append_nil]
    by_cases hin : i = n
    · subst hin
      rw [flat_congr i f f' (fun j hj => hne j (by omega) (by omega)), List.append_assoc]
      exact List.Perm.append_left _ (h1.trans (List.Perm.append_right _ h2.symm))
    · have := ih (by omega) (fun j hj => hne j (by omega))
      rw [hne n (by omega) (by omega)]
      refine (List.Perm.append_right _ this).trans ?_
      rw [List.append_assoc, List.append_assoc]
      exact List.Perm.append_left _ List.perm_append_comm

theorem flat_find (n i : Nat) (f : Nat → List (K × V)) (p : K × V → Bool) (hi : i < n)
    (h : ∀ j, j < n → j ≠ i → ∀ e ∈ f j, p e = false) :
    ((List.range n).flatMap f).find? p = (f i).find? p := by
  have hnone : ∀ m, (∀ j, j < m → ∀ e ∈ f j, p e = false) → ((List.range m).flatMap f).find? p = none := by
    intro m hm
    rw [List.find?_eq_none]
    intro e he
    obtain ⟨j, hj, hej⟩ := List.mem_flatMap.1 he
    rw [hm j (List.mem_range.1 hj) e hej]; simp
  induction n with
  | zero => omega
  | succ n ih =>
    rw [List.range_succ, List.flatMap_append, List.find?_append]
    simp only [List.flatMap_cons, List.flatMap_nil, List.append_nil]
    by_cases hin : i = n
    · subst hin
      rw [hnone i (fun j hj => h j (by omega) (by omega))]
      simp
    · rw [ih (by omega) (fun j hj => h j (by omega))]
      have : (f n).find? p = none := by
        rw [List.find?_eq_none]
        intro e he
        rw [h n (by omega) (by omega) e he]; simp
      rw [this]; simp

def bk (t : Tbl K V) (i : Nat) : List (K × V) := (t.arr i).getD []

/-- All entries, bucket by bucket. -/
def E (t : Tbl K V) : List (K × V) := (List.range t.bucketSize).flatMap (bk t)

def idx (c : Cfg K) (lv split : Nat) (k : K) : Nat :=
  if c.hash k % lv < split then c.hash k % (2 * lv) else c.hash k % lv

structure Inv (c : Cfg K) (t : Tbl K V) (lv : Nat) : Prop where
  pos : 0 < lv
  nls : t.nextLevelSize = 2 * lv
  split : t.nextSplit < lv
  size : t.bucketSize = lv + t.nextSplit
  cap : t.cap = 2 * lv + 1
  bound : (2 * lv + 1) * 24 < 2 ^ 32
  init : ∀ i, i < t.bucketSize → t.arr i = some (bk t i)
  home : ∀ i, i < t.bucketSize → ∀ e ∈ bk t i, idx c lv t.nextSplit e.1 = i
  sep : Sep c (E t)
  cnt : t.count = (E t).length
  cntle : t.count ≤ 42949673

theorem mod_double (h lv : Nat) (hl : 0 < lv) : h % (2 * lv) = h % lv ∨ h % (2 * lv) = h % lv + lv := by
  have h1 : h % (2 * lv) % lv = h % lv := by rw [Nat.mul_comm]; exact Nat.mod_mul_right_mod h lv 2
  have h2 : h % (2 * lv) < 2 * lv := Nat.mod_lt _ (by omega)
  have h3 : h % lv < lv := Nat.mod_lt _ hl
  generalize h % (2 * lv) = x at *
  by_cases hx : x < lv
  · rw [Nat.mod_eq_of_lt hx] at h1; omega
  · rw [Nat.mod_eq_sub_mod (by omega), Nat.mod_eq_of_lt (by omega)] at h1; omega

theorem idx_lt (c : Cfg K) (lv split : Nat) (k : K) (hl : 0 < lv) : idx c lv split k < lv + split := by
  unfold idx
  have h3 : c.hash k % lv < lv := Nat.mod_lt _ hl
  have := mod_double (c.hash k) lv hl
  split <;> omega

theorem bucketIndex_eq {c : Cfg K} {t : Tbl K V} {lv : Nat} (hi : Inv c t lv) (k : K) :
    bucketIndex c t k = some (idx c lv t.nextSplit k) ∧ idx c lv t.nextSplit k < t.bucketSize ∧
      bucket t (idx c lv t.nextSplit k) = some (bk t (idx c lv t.nextSplit k)) := by
  have hlt : idx c lv t.nextSplit k < t.bucketSize := by rw [hi.size]; exact idx_lt c lv _ k hi.pos
  refine ⟨?_, hlt, ?_⟩
  · have hn : t.nextLevelSize / 2 = lv := by rw [hi.nls]; omega
    have hp := hi.pos
    unfold bucketIndex idx
    simp only [hn]
    rw [if_neg (by omega), hi.nls]
    split <;> rfl
  · unfold bucket
    rw [if_pos (by have := hi.cap; have := hi.size; have := hi.split; omega), hi.init _ hlt]

theorem idx_match {c : Cfg K} (g : Good c) (lv split : Nat) {a b : K} (h : c.mt a b = true) :
    idx c lv split a = idx c lv split b := by
  unfold idx; rw [g.hash a b h]

theorem bucket_find {c : Cfg K} (g : Good c) {t : Tbl K V} {lv : Nat} (hi : Inv c t lv) (k : K) :
    findNode c (bk t (idx c lv t.nextSplit k)) k = (E t).find? (fun e => c.mt e.1 k) := by
  unfold findNode E
  rw [flat_find t.bucketSize (idx c lv t.nextSplit k) (bk t) _ (bucketIndex_eq hi k).2.1]
  intro j hj hne e he
  cases hx : c.mt e.1 k with
  | false => rfl
  | true => exact absurd ((hi.home j hj e he).symm.trans (idx_match g _ _ hx)) hne

theorem overflow_iff (x y : Nat) (hy : 0 < y) : isMultiOverflow x y = true ↔ x * y ≥ 2 ^ 32 := by
  unfold isMultiOverflow
  by_cases hx : 0 < x
  · simp only [hx, hy, decide_true, Bool.true_and, decide_eq_true_eq]
    rw [Nat.div_lt_iff_lt_mul hx, Nat.mul_comm]
    omega
  · have : x = 0 := by omega
    subst this
    simp

theorem overflow_false (x y : Nat) (hy : 0 < y) : isMultiOverflow x y = false ↔ x * y < 2 ^ 32 := by
  rw [← Bool.not_eq_true, overflow_iff x y hy]; omega

theorem moveNodes_eq (c : Cfg K) (nls target : Nat) (src dst : List (K × V)) :
    moveNodes c nls target src dst =
      (src.filter (fun e => !decide (c.hash e.1 % nls = target)), dst ++ src.filter (fun e => decide (c.hash e.1 % nls = target))) := by
  induction src generalizing dst with
  | nil => simp [moveNodes]
  | cons e src ih =>
    unfold moveNodes
    by_cases h : c.hash e.1 % nls = target
    · rw [if_pos h, ih]; simp [h]
    · rw [if_neg h, ih]; simp [h]

theorem filter_perm (p : K × V → Bool) (L : List (K × V)) : L.Perm (L.filter (fun e => !p e) ++ L.filter p) := by
  induction L with
  | nil => exact .refl _
  | cons x L ih =>
    by_cases h : p x = true
    · rw [List.filter_cons_of_neg (by simp [h]), List.filter_cons_of_pos h]
      exact (List.Perm.cons x ih).trans List.perm_middle.symm
    · rw [List.filter_cons_of_pos (by simp [h]), List.filter_cons_of_neg h]
      exact List.Perm.cons x ih

/-- The move of nodes of a split. -/
theorem splitMove_spec {c : Cfg K} {t : Tbl K V} {lv : Nat} (hi : Inv c t lv) (cap : Nat) (hcap : 2 * lv + 1 ≤ cap) :
    ∃ arr, splitMove c { t with cap := cap } t.nextSplit (lv + t.nextSplit) = some arr ∧
      (∀ j, j ≠ t.nextSplit → j ≠ lv + t.nextSplit → arr j = t.arr j) ∧
      arr t.nextSplit = some ((bk t t.nextSplit).filter fun e => !decide (c.hash e.1 % (2 * lv) = lv + t.nextSplit)) ∧
      arr (lv + t.nextSplit) = some ((bk t t.nextSplit).filter fun e => decide (c.hash e.1 % (2 * lv) = lv + t.nextSplit)) := by
  have hpos := hi.pos
  have hsz := hi.size
  have hsp := hi.split
  have hne : t.nextSplit ≠ lv + t.nextSplit := by omega
  have hb : bucket { t with cap := cap, arr := upd t.arr (lv + t.nextSplit) [] } t.nextSplit = some (bk t t.nextSplit) := by
    unfold bucket
    simp only
    rw [if_pos (by omega)]
    simp only [upd, if_neg hne]
    exact hi.init _ (by omega)
  have hd : bucket { t with cap := cap, arr := upd t.arr (lv + t.nextSplit) [] } (lv + t.nextSplit) = some [] := by
    unfold bucket
    simp only
    rw [if_pos (by omega)]
    simp [upd]
  unfold splitMove
  simp only
  rw [if_pos (by omega)]
  simp only [hb, hd, Option.bind_eq_bind, Option.bind_some]
  simp only [moveNodes_eq, hi.nls, List.nil_append]
  refine ⟨_, rfl, ?_, ?_, ?_⟩
  · intro j h1 h2; simp [upd, h1, h2]
  · simp only [upd, if_neg hne, if_true]
  · simp only [upd, if_true]

/-- A table with the array after the move, at any split pointer giving the same indices, is well formed. -/
theorem split_inv {c : Cfg K} (g : Good c) {t t' : Tbl K V} {lv lv' : Nat} (hi : Inv c t lv)
    (hframe : ∀ j, j ≠ t.nextSplit → j ≠ lv + t.nextSplit → t'.arr j = t.arr j)
    (h1 : t'.arr t.nextSplit = some ((bk t t.nextSplit).filter fun e => !decide (c.hash e.1 % (2 * lv) = lv + t.nextSplit)))
    (h2 : t'.arr (lv + t.nextSplit) = some ((bk t t.nextSplit).filter fun e => decide (c.hash e.1 % (2 * lv) = lv + t.nextSplit)))
    (hbs : t'.bucketSize = t.bucketSize + 1) (hcnt : t'.count = t.count)
    (hidx : ∀ k, idx c lv' t'.nextSplit k = if c.hash k % lv < t.nextSplit + 1 then c.hash k % (2 * lv) else c.hash k % lv)
    (hpos : 0 < lv') (hnls : t'.nextLevelSize = 2 * lv') (hsp : t'.nextSplit < lv') (hsz : t'.bucketSize = lv' + t'.nextSplit)
    (hcap : t'.cap = 2 * lv' + 1) (hbound : (2 * lv' + 1) * 24 < 2 ^ 32) :
    Inv c t' lv' ∧ (E t).Perm (E t') := by
  have p0 := hi.pos
  have p1 := hi.size
  have p2 := hi.split
  have hbk : ∀ j, j ≠ t.nextSplit → j ≠ lv + t.nextSplit → bk t' j = bk t j := by
    intro j a b; unfold bk; rw [hframe j a b]
  have hb1 : bk t' t.nextSplit = (bk t t.nextSplit).filter fun e => !decide (c.hash e.1 % (2 * lv) = lv + t.nextSplit) := by
    unfold bk; rw [h1]; rfl
  have hb2 : bk t' (lv + t.nextSplit) = (bk t t.nextSplit).filter fun e => decide (c.hash e.1 % (2 * lv) = lv + t.nextSplit) := by
    unfold bk; rw [h2]; rfl
  have hperm : (E t).Perm (E t') := by
    unfold E
    rw [hbs, List.range_succ, List.flatMap_append]
    simp only [List.flatMap_cons, List.flatMap_nil, List.append_nil]
    rw [show bk t' t.bucketSize = bk t' (lv + t.nextSplit) by rw [p1], hb2]
    refine flat_upd t.bucketSize t.nextSplit (bk t) (bk t') _ _ (by omega) ?_ (filter_perm _ _) ?_
    · intro j hj hne; exact hbk j hne (by omega)
    · rw [hb1]
  refine ⟨⟨hpos, hnls, hsp, hsz, hcap, hbound, ?_, ?_, hi.sep.perm g hperm, ?_, ?_⟩, hperm⟩
  · intro i hlt
    by_cases hx : i = t.nextSplit
    · subst hx; rw [h1, hb1]
    · by_cases hy : i = lv + t.nextSplit
      · subst hy; rw [h2, hb2]
      · rw [hframe i hx hy, hbk i hx hy]; exact hi.init i (by omega)
  · intro i hlt e he
    rw [hidx]
    have hmod := mod_double (c.hash e.1) lv p0
    have hmlt : c.hash e.1 % lv < lv := Nat.mod_lt _ p0
    by_cases hx : i = t.nextSplit
    · subst hx
      rw [hb1, List.mem_filter] at he
      have hh := hi.home _ (by omega) e he.1
      have hp : ¬ c.hash e.1 % (2 * lv) = lv + t.nextSplit := by simpa using he.2
      unfold idx at hh
      generalize c.hash e.1 % (2 * lv) = x at *
      generalize c.hash e.1 % lv = y at *
      split at hh <;> split <;> omega
    · by_cases hy : i = lv + t.nextSplit
      · subst hy
        rw [hb2, List.mem_filter] at he
        have hh := hi.home _ (by omega) e he.1
        have hp : c.hash e.1 % (2 * lv) = lv + t.nextSplit := by simpa using he.2
        unfold idx at hh
        generalize c.hash e.1 % (2 * lv) = x at *
        generalize c.hash e.1 % lv = y at *
        split at hh <;> split <;> omega
      · rw [hbk i hx hy] at he
        have hh := hi.home i (by omega) e he
        unfold idx at hh
        generalize c.hash e.1 % (2 * lv) = x at *
        generalize c.hash e.1 % lv = y at *
        split at hh <;> split <;> omega
  · rw [hcnt, hi.cnt, hperm.length_eq]
  · rw [hcnt]; exact hi.cntle

/-- The split of a bucket. -/
theorem split_spec {c : Cfg K} (g : Good c) {t : Tbl K V} {lv : Nat} (hi : Inv c t lv) (reallocOk : Bool)
    (hs : t.bucketSize ≤ 42949672) :
    (reallocOk = false ∧ t.nextSplit = lv - 1 ∧ splitBucket c reallocOk t = some (t, false)) ∨
    (∃ t' lv', splitBucket c reallocOk t = some (t', true) ∧ Inv c t' lv' ∧ (E t).Perm (E t') ∧ t'.count = t.count ∧
      t'.bucketSize = t.bucketSize + 1) := by
  have hpos := hi.pos
  have hsz := hi.size
  have hsp := hi.split
  have hcap := hi.cap
  have hn : t.nextLevelSize / 2 = lv := by rw [hi.nls]; omega
  have e1 : (lv + t.nextSplit) % 2 ^ 32 = lv + t.nextSplit := Nat.mod_eq_of_lt (by omega)
  have e2 : (lv + 2 ^ 32 - 1) % 2 ^ 32 = lv - 1 := by omega
  have e3 : (t.nextLevelSize + 1) % 2 ^ 32 = 2 * lv + 1 := by rw [hi.nls]; exact Nat.mod_eq_of_lt (by omega)
  have e4 : (t.nextLevelSize * 2 + 1) % 2 ^ 32 = 4 * lv + 1 := by rw [hi.nls]; omega
  have e5 : isMultiOverflow (4 * lv + 1) sizeofRawList = false := by
    rw [overflow_false _ _ (by decide)]; show (4 * lv + 1) * 24 < 2 ^ 32; omega
  have e6 : isMultiOverflow (2 * lv + 1) sizeofRawList = false := by
    rw [overflow_false _ _ (by decide)]; show (2 * lv + 1) * 24 < 2 ^ 32; omega
  have e7 : (t.bucketSize + 1) % 2 ^ 32 = t.bucketSize + 1 := Nat.mod_eq_of_lt (by omega)
  have e8 : t.nextLevelSize * 2 % 2 ^ 32 = 2 * (2 * lv) := by rw [hi.nls]; omega
  have e9 : (t.nextSplit + 1) % 2 ^ 32 = t.nextSplit + 1 := Nat.mod_eq_of_lt (by omega)
  unfold splitBucket
  simp only [hn, e1, e2, e3, e4, e5, e6, e7, e8, e9, Bool.false_or]
  by_cases htr : t.nextSplit = lv - 1
  · rw [if_pos htr]
    cases reallocOk with
    | false => exact .inl ⟨rfl, htr, by simp⟩
    | true =>
      right
      obtain ⟨arr, a1, a2, a3, a4⟩ := splitMove_spec (c := c) hi (4 * lv + 1) (by omega)
      simp only [Bool.not_true, Bool.false_eq_true, if_false, a1, Option.bind_eq_bind, Option.bind_some]
      refine ⟨_, 2 * lv, rfl, ?_⟩
      have := split_inv (t' := ⟨arr, 4 * lv + 1, 2 * (2 * lv), 0, t.bucketSize + 1, t.count⟩) (lv' := 2 * lv) g hi a2 a3 a4
        rfl rfl ?_ (by omega) rfl (by simp only; omega) (by simp only; omega) (by simp only; omega) (by omega)
      · exact ⟨this.1, this.2, rfl, rfl⟩
      · intro k
        unfold idx
        simp only
        rw [if_neg (by omega), if_pos (by have : c.hash k % lv < lv := Nat.mod_lt _ hpos; omega)]
  · rw [if_neg htr]
    right
    obtain ⟨arr, a1, a2, a3, a4⟩ := splitMove_spec (c := c) hi t.cap (by omega)
    have a1' : splitMove c t t.nextSplit (lv + t.nextSplit) = some arr := a1
    simp only [a1', Option.bind_eq_bind, Option.bind_some]
    refine ⟨_, lv, rfl, ?_⟩
    have := split_inv (t' := ⟨arr, t.cap, t.nextLevelSize, t.nextSplit + 1, t.bucketSize + 1, t.count⟩) (lv' := lv) g hi a2 a3 a4
      rfl rfl ?_ hpos hi.nls (by simp only; omega) (by simp only; omega) hcap hi.bound
    · exact ⟨this.1, this.2, rfl, rfl⟩
    · intro k; rfl

/-- The check before an insertion. -/
theorem checkResize_spec {c : Cfg K} (g : Good c) {t : Tbl K V} {lv : Nat} (hi : Inv c t lv) (reallocOk : Bool) :
    ((reallocOk = false ∨ t.count > 42949672 ∨ t.bucketSize > 42949672) ∧ checkResize c reallocOk t = some (t, false)) ∨
    (∃ t' lv', checkResize c reallocOk t = some (t', true) ∧ Inv c t' lv' ∧ (E t).Perm (E t') ∧ t'.count = t.count ∧
      t.count ≤ 42949672 ∧ t'.bucketSize ≤ max t.bucketSize (t.count + 1)) := by
  unfold checkResize
  by_cases hov : isMultiOverflow t.count 100 || isMultiOverflow t.bucketSize 100
  · rw [if_pos hov]
    rw [Bool.or_eq_true, overflow_iff _ _ (by decide), overflow_iff _ _ (by decide)] at hov
    refine .inl ⟨.inr ?_, rfl⟩
    omega
  · rw [if_neg hov]
    rw [Bool.not_eq_true, Bool.or_eq_false_iff, overflow_false _ _ (by decide), overflow_false _ _ (by decide)] at hov
    by_cases hge : t.count * 100 ≥ t.bucketSize * 100
    · rw [if_pos hge]
      rcases split_spec g hi reallocOk (by omega) with ⟨h1, h2, h3⟩ | ⟨t', lv', h1, h2, h3, h4, h5⟩
      · exact .inl ⟨.inl h1, h3⟩
      · exact .inr ⟨t', lv', h1, h2, h3, h4, by omega, by omega⟩
    · rw [if_neg hge]
      exact .inr ⟨t, lv, rfl, hi, .refl _, rfl, by omega, by omega⟩

end Verif.Bsl.Hash
