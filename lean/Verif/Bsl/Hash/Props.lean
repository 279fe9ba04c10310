import Verif.Bsl.Hash.Proof
/-! C15: every history on the hash table is a history on a finite map; iteration visits every entry once. -/
namespace Verif.Bsl.Hash
variable {K V : Type}

/-! ### Specification -/

/-- A finite map up to matching of keys, with its number of entries. -/
structure Spec.Map (K V : Type) where
  get : K → Option V
  size : Nat

/-- The operations. `mem` of insert and put are the results of the allocator. -/
inductive Op (K V : Type)
  | insert (k : K) (v : V) | put (k : K) (v : V) | at_ (k : K) | erase (k : K) | clear | size

/-- Results: return code, value found, size. -/
inductive Out (V : Type)
  | ok | fail | value (v : Option V) | size (n : Nat)
deriving DecidableEq

/-- The map with the value of `k` (and of the keys that match it) set. -/
def Spec.set (c : Cfg K) (m : Spec.Map K V) (k : K) (v : Option V) (n : Nat) : Spec.Map K V :=
  ⟨fun k' => if c.mt k k' then v else m.get k', n⟩

/-- One operation on the map; `lack` says that the implementation ran out of memory or hit a size limit, in which case
nothing may change. -/
def Spec.step (c : Cfg K) (lack : Bool) (m : Spec.Map K V) : Op K V → Spec.Map K V × Out V
  | .insert k v =>
    if lack then (m, .fail)
    else match m.get k with
      | some _ => (m, .fail)
      | none => (Spec.set c m k (some v) (m.size + 1), .ok)
  | .put k v =>
    if lack then (m, .fail)
    else match m.get k with
      | some _ => (Spec.set c m k (some v) m.size, .ok)
      | none => (Spec.set c m k (some v) (m.size + 1), .ok)
  | .at_ k => (m, .value (m.get k))
  | .erase k => match m.get k with
    | some _ => (Spec.set c m k none (m.size - 1), .ok)
    | none => (m, .fail)
  | .clear => (⟨fun _ => none, 0⟩, .ok)
  | .size => (m, .size m.size)

/-- One operation of the model: new table, result, and whether memory or a limit was lacking. -/
def step (c : Cfg K) (mem : Mem) (t : Tbl K V) : Op K V → Option (Tbl K V × Out V × Bool)
  | .insert k v => (insertOrUpdate c mem false t k v).map fun (t, ok, lack) => (t, if ok then .ok else .fail, lack)
  | .put k v => (insertOrUpdate c mem true t k v).map fun (t, ok, lack) => (t, if ok then .ok else .fail, lack)
  | .at_ k => (find c t k).map fun r => (t, .value (r.map (·.2)), false)
  | .erase k => do
    let r ← find c t k
    let (t, _) ← erase c t k
    some (t, if r.isSome then .ok else .fail, false)
  | .clear => (clear t).map fun t => (t, .ok, false)
  | .size => some (t, .size t.count, false)

/-! ### Proof -/

structure Rel (c : Cfg K) (t : Tbl K V) (m : Spec.Map K V) : Prop where
  inv : ∃ lv, Inv c t lv
  get : ∀ k, m.get k = lookup c (E t) k
  size : m.size = (E t).length

/-- Replacement of one bucket. -/
theorem set_bucket {c : Cfg K} (g : Good c) {t : Tbl K V} {lv : Nat} (hi : Inv c t lv) (i : Nat) (hlt : i < t.bucketSize)
    (b' : List (K × V)) (n : Nat) (hn : n ≤ 42949673) (hhome : ∀ e ∈ b', idx c lv t.nextSplit e.1 = i)
    (hsep : Sep c (E { t with arr := upd t.arr i b', count := n }))
    (hcnt : n = (E { t with arr := upd t.arr i b', count := n }).length) :
    Inv c { t with arr := upd t.arr i b', count := n } lv := by
  refine ⟨hi.pos, hi.nls, hi.split, hi.size, hi.cap, hi.bound, ?_, ?_, hsep, hcnt, hn⟩
  · intro j hj
    by_cases h : j = i
    · subst h; simp [bk, upd]
    · simp only [bk, upd, if_neg h]; exact hi.init j hj
  · intro j hj e he
    by_cases h : j = i
    · subst h; simp only [bk, upd, if_true, Option.getD_some] at he; exact hhome e he
    · simp only [bk, upd, if_neg h] at he; exact hi.home j hj e he

theorem bk_upd (t : Tbl K V) (i : Nat) (b' : List (K × V)) (n : Nat) :
    bk { t with arr := upd t.arr i b', count := n } i = b' := by simp [bk, upd]

theorem bk_upd_ne (t : Tbl K V) (i j : Nat) (b' : List (K × V)) (n : Nat) (h : j ≠ i) :
    bk { t with arr := upd t.arr i b', count := n } j = bk t j := by simp [bk, upd, h]

/-- Entries after appending one entry to a bucket. -/
theorem E_snoc (t : Tbl K V) (i : Nat) (hlt : i < t.bucketSize) (e : K × V) (n : Nat) :
    (E { t with arr := upd t.arr i (bk t i ++ [e]), count := n }).Perm (E t ++ [e]) := by
  unfold E
  refine flat_upd t.bucketSize i _ (bk t) (bk t i) [e] hlt ?_ ?_ (.refl _)
  · intro j _ hne; exact (bk_upd_ne t i j _ n hne).symm
  · rw [bk_upd]

theorem E_split (t : Tbl K V) (i : Nat) (hlt : i < t.bucketSize) (X Y b' : List (K × V)) (n : Nat)
    (h1 : (bk t i).Perm (X ++ Y)) (h2 : b'.Perm X) :
    (E t).Perm (E { t with arr := upd t.arr i b', count := n } ++ Y) := by
  unfold E
  refine flat_upd t.bucketSize i (bk t) _ X Y hlt ?_ h1 ?_
  · intro j _ hne; exact bk_upd_ne t i j _ n hne
  · rw [bk_upd]; exact h2

theorem E_count (t : Tbl K V) (n : Nat) : E { t with count := n } = E t := rfl

theorem insert_spec {c : Cfg K} (g : Good c) {t : Tbl K V} {lv : Nat} (hi : Inv c t lv) (hc : t.count ≤ 42949672)
    (k : K) (v : V) (hno : (E t).find? (fun e => c.mt e.1 k) = none) :
    let t' : Tbl K V := { t with arr := upd t.arr (idx c lv t.nextSplit k) (bk t (idx c lv t.nextSplit k) ++ [(k, v)]),
                                 count := (t.count + 1) % 2 ^ 32 }
    Inv c t' lv ∧ (∀ k', lookup c (E t') k' = if c.mt k k' then some v else lookup c (E t) k') ∧
      (E t').length = (E t).length + 1 ∧ t'.count = t.count + 1 := by
  intro t'
  obtain ⟨_, hlt, _⟩ := bucketIndex_eq hi k
  have hperm : (E t').Perm (E t ++ [(k, v)]) := E_snoc t _ hlt (k, v) _
  have hsep : Sep c (E t ++ [(k, v)]) := sep_snoc g hi.sep hno
  have hsep' : Sep c (E t') := hsep.perm g hperm.symm
  have hlen : (E t').length = (E t).length + 1 := by rw [hperm.length_eq]; simp
  have hmod : (t.count + 1) % 2 ^ 32 = t.count + 1 := Nat.mod_eq_of_lt (by omega)
  refine ⟨?_, ?_, hlen, hmod⟩
  · refine set_bucket g hi _ hlt _ _ (by omega) ?_ hsep' ?_
    · intro e he
      rcases List.mem_append.1 he with he | he
      · exact hi.home _ hlt e he
      · simp only [List.mem_singleton] at he; rw [he]
    · show (t.count + 1) % 2 ^ 32 = (E t').length
      rw [hlen, hmod, hi.cnt]
  · intro k'
    rw [lookup_perm g hsep' hperm, (lookup_snoc g hsep k').1]

theorem updateNode_eq {c : Cfg K} (k : K) (v : V) (b : List (K × V)) (e : K × V) (h : findNode c b k = some e) :
    ∃ X Y, b = X ++ e :: Y ∧ updateNode c k v b = X ++ (e.1, v) :: Y := by
  induction b with
  | nil => simp [findNode] at h
  | cons x b ih =>
    unfold findNode at h
    rw [List.find?_cons] at h
    unfold updateNode
    cases hx : c.mt x.1 k with
    | true => rw [hx] at h; simp only [Option.some.injEq] at h; subst h; exact ⟨[], b, rfl, by simp⟩
    | false =>
      rw [hx] at h
      obtain ⟨X, Y, h1, h2⟩ := ih h
      exact ⟨x :: X, Y, by rw [h1]; rfl, by simp [h2]⟩

theorem update_spec {c : Cfg K} (g : Good c) {t : Tbl K V} {lv : Nat} (hi : Inv c t lv) (k : K) (v : V) (e : K × V)
    (hyes : (E t).find? (fun e => c.mt e.1 k) = some e) :
    let t' : Tbl K V := { t with arr := upd t.arr (idx c lv t.nextSplit k) (updateNode c k v (bk t (idx c lv t.nextSplit k))) }
    Inv c t' lv ∧ (∀ k', lookup c (E t') k' = if c.mt k k' then some v else lookup c (E t) k') ∧
      (E t').length = (E t).length := by
  intro t'
  obtain ⟨_, hlt, _⟩ := bucketIndex_eq hi k
  have hf := bucket_find g hi k
  rw [hyes] at hf
  obtain ⟨X, Y, h1, h2⟩ := updateNode_eq k v _ e hf
  have hek : c.mt e.1 k = true := by simpa using List.find?_some hyes
  -- the other entries
  obtain ⟨R, hR⟩ : ∃ R, R = E { t with arr := upd t.arr (idx c lv t.nextSplit k) (X ++ Y), count := t.count } := ⟨_, rfl⟩
  have p1 : (E t).Perm (R ++ [e]) := by
    rw [hR]
    refine E_split t _ hlt (X ++ Y) [e] (X ++ Y) t.count ?_ (.refl _)
    rw [h1]
    refine List.perm_middle.trans ?_
    exact (List.perm_append_singleton e (X ++ Y)).symm
  have p2 : (E t').Perm (R ++ [(e.1, v)]) := by
    rw [hR]
    have hx : { t with arr := upd t.arr (idx c lv t.nextSplit k) (X ++ Y), count := t.count } =
        { t' with arr := upd t'.arr (idx c lv t.nextSplit k) (X ++ Y), count := t'.count } := by
      show Tbl.mk .. = Tbl.mk ..
      congr 1
      funext j
      simp only [upd, t']
      split <;> rfl
    rw [hx]
    refine E_split t' _ hlt (X ++ Y) [(e.1, v)] (X ++ Y) t'.count ?_ (.refl _)
    have : bk t' (idx c lv t.nextSplit k) = updateNode c k v (bk t (idx c lv t.nextSplit k)) := by simp [bk, t', upd]
    rw [this, h2]
    refine List.perm_middle.trans ?_
    exact (List.perm_append_singleton _ (X ++ Y)).symm
  have hs1 : Sep c (R ++ [(e.1, e.2)]) := hi.sep.perm g p1
  have hs2 : Sep c (R ++ [(e.1, v)]) := by
    unfold Sep at *
    rw [List.pairwise_append] at *
    refine ⟨hs1.1, List.pairwise_singleton _ _, ?_⟩
    intro a ha b hb
    simp only [List.mem_singleton] at hb
    subst hb
    exact hs1.2.2 a ha (e.1, e.2) (by simp)
  have hsep' : Sep c (E t') := hs2.perm g p2.symm
  have hlen : (E t').length = (E t).length := by rw [p1.length_eq, p2.length_eq]; simp
  refine ⟨?_, ?_, hlen⟩
  · refine set_bucket g hi _ hlt _ t.count hi.cntle ?_ hsep' (by show t.count = (E t').length; rw [hlen]; exact hi.cnt)
    intro e' he'
    rw [h2] at he'
    rcases List.mem_append.1 he' with he' | he'
    · exact hi.home _ hlt e' (by rw [h1]; exact List.mem_append_left _ he')
    · rcases List.mem_cons.1 he' with rfl | he'
      · exact idx_match g _ _ hek
      · exact hi.home _ hlt e' (by rw [h1]; exact List.mem_append_right _ (List.mem_cons_of_mem _ he'))
  · intro k'
    rw [lookup_perm g hsep' p2, (lookup_snoc g hs2 k').1, lookup_perm g hi.sep p1, (lookup_snoc g hs1 k').1, g.congr hek k']
    split <;> rfl

theorem erase_inv {c : Cfg K} (g : Good c) {t : Tbl K V} {lv : Nat} (hi : Inv c t lv) (k : K) (e : K × V)
    (hyes : (E t).find? (fun e => c.mt e.1 k) = some e) :
    let t' : Tbl K V := { t with
      arr := upd t.arr (idx c lv t.nextSplit k) ((bk t (idx c lv t.nextSplit k)).eraseP (fun e => c.mt e.1 k)),
      count := (t.count + 2 ^ 32 - 1) % 2 ^ 32 }
    Inv c t' lv ∧ (∀ k', lookup c (E t') k' = if c.mt k k' then none else lookup c (E t) k') ∧
      (E t').length = (E t).length - 1 ∧ t'.count = t.count - 1 := by
  intro t'
  obtain ⟨_, hlt, _⟩ := bucketIndex_eq hi k
  have hf := bucket_find g hi k
  rw [hyes] at hf
  have hek : c.mt e.1 k = true := by simpa using List.find?_some hyes
  obtain ⟨a, X, Y, _, ha, h1, h2⟩ := List.exists_of_eraseP (p := fun e => c.mt e.1 k)
    (l := bk t (idx c lv t.nextSplit k)) (List.mem_of_find?_eq_some hf) hek
  have p1 : (E t).Perm (E t' ++ [(a.1, a.2)]) := by
    refine E_split t _ hlt (X ++ Y) [a] _ _ ?_ ?_
    · rw [h1]; exact List.perm_middle.trans (List.perm_append_singleton a (X ++ Y)).symm
    · rw [h2]
  have hs1 : Sep c (E t' ++ [(a.1, a.2)]) := hi.sep.perm g p1
  have hlen : (E t).length = (E t').length + 1 := by rw [p1.length_eq]; simp
  have hcnt := hi.cnt
  have hcle := hi.cntle
  have hmod : (t.count + 2 ^ 32 - 1) % 2 ^ 32 = t.count - 1 := by omega
  refine ⟨?_, ?_, by omega, hmod⟩
  · refine set_bucket g hi _ hlt _ _ (by omega) ?_ (List.pairwise_append.1 hs1).1 ?_
    · intro e' he'
      exact hi.home _ hlt e' (List.mem_of_mem_eraseP he')
    · show (t.count + 2 ^ 32 - 1) % 2 ^ 32 = (E t').length
      omega
  · intro k'
    have := lookup_snoc g hs1 k'
    rw [lookup_perm g hi.sep p1, this.1, ← g.congr ha k']
    by_cases h : c.mt a.1 k' = true
    · rw [if_pos h, this.2 h]
    · rw [if_neg h, if_neg h]

/-! ### Iteration -/

theorem frontFrom_spec {c : Cfg K} {t : Tbl K V} {lv : Nat} (hi : Inv c t lv) (n i : Nat) (h : i + n = t.bucketSize) :
    frontFrom t n i = some ((List.range' i n).flatMap (bk t)).head? := by
  induction n generalizing i with
  | zero => simp [frontFrom]
  | succ n ih =>
    have hb : bucket t i = some (bk t i) := by
      unfold bucket
      rw [if_pos (by have := hi.cap; have := hi.size; have := hi.split; omega), hi.init i (by omega)]
    unfold frontFrom
    simp only [hb, Option.bind_eq_bind, Option.bind_some, List.range'_succ, List.flatMap_cons]
    cases hbk : bk t i with
    | nil => simp only [List.nil_append]; exact ih (i + 1) (by omega)
    | cons e b => simp

theorem nextIn_spec {c : Cfg K} (g : Good c) (X Y : List (K × V)) (e : K × V)
    (hX : ∀ x ∈ X, c.mt x.1 e.1 = false) : nextIn c e.1 (X ++ e :: Y) = some Y.head? := by
  induction X with
  | nil => simp [nextIn, g.refl]
  | cons x X ih =>
    simp only [List.cons_append, nextIn]
    rw [hX x (by simp)]
    simp only [Bool.false_eq_true, if_false]
    exact ih (fun y hy => hX y (by simp [hy]))

/-- `IterNext`: the successor in the sequence of all entries. -/
theorem next_spec {c : Cfg K} (g : Good c) {t : Tbl K V} {lv : Nat} (hi : Inv c t lv) (A B : List (K × V)) (e : K × V)
    (h : E t = A ++ e :: B) : next c t e.1 = some B.head? := by
  obtain ⟨hidx, hlt, hb⟩ := bucketIndex_eq hi e.1
  generalize hii : idx c lv t.nextSplit e.1 = i at *
  have hcut : E t = (List.range i).flatMap (bk t) ++ (bk t i ++ (List.range' (i + 1) (t.bucketSize - (i + 1))).flatMap (bk t)) := by
    unfold E
    have : List.range t.bucketSize = List.range i ++ (i :: List.range' (i + 1) (t.bucketSize - (i + 1))) := by
      rw [List.range_eq_range', List.range_eq_range']
      have h1 : List.range' 0 i ++ List.range' (0 + i) (t.bucketSize - i) = List.range' 0 (i + (t.bucketSize - i)) :=
        List.range'_append_1
      rw [show i + (t.bucketSize - i) = t.bucketSize by omega] at h1
      rw [← h1, Nat.zero_add, show t.bucketSize - i = (t.bucketSize - (i + 1)) + 1 by omega, List.range'_succ]
    rw [this, List.flatMap_append, List.flatMap_cons]
  have hemem : e ∈ bk t i := by
    have : e ∈ E t := by rw [h]; simp
    obtain ⟨j, hj, hej⟩ := List.mem_flatMap.1 this
    have := hi.home j (List.mem_range.1 hj) e hej
    rw [hii] at this
    rw [this]; exact hej
  obtain ⟨X, Y, hXY⟩ := List.append_of_mem hemem
  have hsep := hi.sep
  rw [hcut, hXY] at hsep
  have hsX : ∀ x ∈ X, c.mt x.1 e.1 = false := by
    intro x hx
    have h1 := (List.pairwise_append.1 hsep).2.1
    have h2 := (List.pairwise_append.1 h1).1
    exact (List.pairwise_append.1 h2).2.2 x hx e (by simp)
  have hB : B = Y ++ (List.range' (i + 1) (t.bucketSize - (i + 1))).flatMap (bk t) := by
    -- `e` occurs once
    have heq : A ++ e :: B = ((List.range i).flatMap (bk t) ++ X) ++ e ::
        (Y ++ (List.range' (i + 1) (t.bucketSize - (i + 1))).flatMap (bk t)) := by
      rw [← h, hcut, hXY]; simp
    have hsepA : Sep c (A ++ e :: B) := by rw [← h]; exact hi.sep
    generalize ((List.range i).flatMap (bk t) ++ X) = A' at heq
    generalize (Y ++ (List.range' (i + 1) (t.bucketSize - (i + 1))).flatMap (bk t)) = B' at heq ⊢
    clear h hcut hXY hsep hsX hb hidx hii
    have key : ∀ (A A' : List (K × V)), Sep c (A ++ e :: B) → A ++ e :: B = A' ++ e :: B' → B = B' := by
      intro A
      induction A with
      | nil =>
        intro A' hs heq
        cases A' with
        | nil => simpa using heq
        | cons y A' =>
          simp only [List.nil_append, List.cons_append, List.cons.injEq] at heq
          have := (List.pairwise_cons.1 hs).1 e (by rw [heq.2]; simp)
          rw [g.refl] at this; exact absurd this (by simp)
      | cons x A ih =>
        intro A' hs heq
        cases A' with
        | nil =>
          simp only [List.nil_append, List.cons_append, List.cons.injEq] at heq
          have := (List.pairwise_cons.1 hs).1 e (by simp)
          rw [heq.1, g.refl] at this; exact absurd this (by simp)
        | cons y A' =>
          simp only [List.cons_append, List.cons.injEq] at heq
          exact ih A' (List.pairwise_cons.1 hs).2 heq.2
    exact key A A' hsepA heq
  unfold next
  simp only [hidx, hb, Option.bind_eq_bind, Option.bind_some, hXY]
  rw [nextIn_spec g X Y e hsX]
  simp only [Option.bind_some]
  cases hY : Y with
  | cons y Y' => rw [hB, hY]; rfl
  | nil =>
    rw [hB, hY, List.nil_append]
    simp only [List.head?_nil]
    exact frontFrom_spec hi _ _ (by omega)

/-- A full iteration visits every entry exactly once, and ends. -/
theorem iterate_all {c : Cfg K} (g : Good c) {t : Tbl K V} {m : Spec.Map K V} (hr : Rel c t m) :
    ∃ L first, iterBegin t = some first ∧ iterate c t m.size first = some L ∧ L.length = m.size ∧
      (∀ e ∈ L, m.get e.1 = some e.2) ∧ (∀ k v, m.get k = some v → ∃ e ∈ L, c.mt e.1 k = true ∧ e.2 = v) ∧
      L.Pairwise (fun a b => c.mt a.1 b.1 = false) := by
  obtain ⟨lv, hi⟩ := hr.inv
  have hb : iterBegin t = some (E t).head? := by
    unfold iterBegin E
    rw [frontFrom_spec hi _ _ (Nat.zero_add _), List.range_eq_range']
  have hit : ∀ (B A : List (K × V)) (fuel : Nat), E t = A ++ B → B.length ≤ fuel → iterate c t fuel B.head? = some B := by
    intro B
    induction B with
    | nil => intro A fuel _ _; cases fuel <;> rfl
    | cons e B ih =>
      intro A fuel h hf
      match fuel, hf with
      | fuel + 1, hf =>
        simp only [List.head?_cons, iterate, next_spec g hi A B e h, Option.bind_eq_bind, Option.bind_some]
        rw [ih (A ++ [e]) fuel (by rw [h]; simp) (by simpa using hf)]
        rfl
  refine ⟨E t, (E t).head?, hb, hit (E t) [] m.size rfl (by rw [hr.size]; exact Nat.le_refl _), hr.size.symm, ?_, ?_, hi.sep⟩
  · intro e he
    rw [hr.get]
    unfold lookup
    rw [(find_iff g hi.sep e.1 e).2 ⟨he, g.refl _⟩]; rfl
  · intro k v hk
    rw [hr.get] at hk
    unfold lookup at hk
    cases hf : (E t).find? (fun e => c.mt e.1 k) with
    | none => rw [hf] at hk; simp at hk
    | some e =>
      rw [hf] at hk
      have := (find_iff g hi.sep k e).1 hf
      exact ⟨e, this.1, this.2, by simpa using hk⟩

/-- `BSL_HASH_Erase` gives back the iterator that `IterNext` gave for the erased entry. -/
theorem erase_next {c : Cfg K} (g : Good c) {t : Tbl K V} {m : Spec.Map K V} (hr : Rel c t m) (k : K) (v : V)
    (hk : m.get k = some v) :
    ∃ e t' nx, find c t k = some (some e) ∧ e.2 = v ∧ erase c t k = some (t', nx) ∧ next c t e.1 = some nx := by
  obtain ⟨lv, hi⟩ := hr.inv
  obtain ⟨hidx, hlt, hb⟩ := bucketIndex_eq hi k
  rw [hr.get] at hk
  unfold lookup at hk
  cases hf : (E t).find? (fun e => c.mt e.1 k) with
  | none => rw [hf] at hk; simp at hk
  | some e =>
    rw [hf] at hk
    have hfn := bucket_find g hi k
    rw [hf] at hfn
    obtain ⟨A, B, hAB⟩ := List.append_of_mem (List.mem_of_find?_eq_some hf)
    have hn := next_spec g hi A B e hAB
    have he : ∃ t', erase c t k = some (t', B.head?) := by
      simp only [erase, hidx, hb, Option.bind_eq_bind, Option.bind_some, hfn, hn]
      exact ⟨_, rfl⟩
    obtain ⟨t', he⟩ := he
    refine ⟨e, t', B.head?, ?_, by simpa using hk, he, hn⟩
    simp only [find, hidx, hb, Option.bind_eq_bind, Option.bind_some, hfn]

/-! ### Histories -/

theorem erase_eq {c : Cfg K} {t : Tbl K V} {k : K} {i : Nat} {b : List (K × V)} {e : K × V} {nx : Option (K × V)}
    (h1 : bucketIndex c t k = some i) (h2 : bucket t i = some b) (h3 : findNode c b k = some e)
    (h4 : next c t e.1 = some nx) :
    erase c t k = some ({ t with arr := upd t.arr i (b.eraseP (fun e => c.mt e.1 k)),
                                 count := (t.count + 2 ^ 32 - 1) % 2 ^ 32 }, nx) := by
  unfold erase
  rw [h1, Option.bind_eq_bind, Option.bind_some, h2, Option.bind_eq_bind, Option.bind_some, h3]
  show (next c t e.1 >>= _) = _
  rw [h4, Option.bind_eq_bind, Option.bind_some]

theorem erase_none {c : Cfg K} {t : Tbl K V} {k : K} {i : Nat} {b : List (K × V)}
    (h1 : bucketIndex c t k = some i) (h2 : bucket t i = some b) (h3 : findNode c b k = none) :
    erase c t k = some (t, none) := by
  unfold erase
  rw [h1, Option.bind_eq_bind, Option.bind_some, h2, Option.bind_eq_bind, Option.bind_some, h3]

theorem find_eq {c : Cfg K} {t : Tbl K V} {k : K} {i : Nat} {b : List (K × V)}
    (h1 : bucketIndex c t k = some i) (h2 : bucket t i = some b) : find c t k = some (findNode c b k) := by
  unfold find
  rw [h1, Option.bind_eq_bind, Option.bind_some, h2, Option.bind_eq_bind, Option.bind_some]



theorem clearLoop_spec {c : Cfg K} {t : Tbl K V} {lv : Nat} (hi : Inv c t lv) (n : Nat) (hn : n ≤ t.bucketSize) :
    ∃ arr, clearLoop n t = some { t with arr := arr } ∧ (∀ j, j < n → arr j = some []) ∧ (∀ j, n ≤ j → arr j = t.arr j) := by
  induction n with
  | zero => exact ⟨t.arr, rfl, fun j hj => by omega, fun _ _ => rfl⟩
  | succ n ih =>
    obtain ⟨arr, h1, h2, h3⟩ := ih (by omega)
    have hb : bucket { t with arr := arr } n = some (bk t n) := by
      unfold bucket
      simp only
      rw [if_pos (by have := hi.cap; have := hi.size; have := hi.split; omega), h3 n (Nat.le_refl _)]
      exact hi.init n (by omega)
    refine ⟨upd arr n [], ?_, ?_, ?_⟩
    · simp only [clearLoop, h1, Option.bind_eq_bind, Option.bind_some, hb]
    · intro j hj
      by_cases h : j = n
      · simp [upd, h]
      · simp only [upd, if_neg h]; exact h2 j (by omega)
    · intro j hj
      simp only [upd, if_neg (show j ≠ n by omega)]
      exact h3 j (by omega)

/-- One step. `lack` can only be true when an allocation failed or a limit of 42949672 entries or buckets is hit. -/
theorem step_refines {c : Cfg K} (g : Good c) (mem : Mem) {t : Tbl K V} {m : Spec.Map K V} (hr : Rel c t m) (op : Op K V) :
    ∃ t' lack, step c mem t op = some (t', (Spec.step c lack m op).2, lack) ∧ Rel c t' (Spec.step c lack m op).1 ∧
      (lack = true → mem.realloc = false ∨ mem.node = false ∨ m.size > 42949672 ∨ t.bucketSize > 42949672) ∧
      t'.bucketSize ≤ max t.bucketSize (m.size + 1) := by
  obtain ⟨lv, hi⟩ := hr.inv
  have hsz : m.size = t.count := by rw [hr.size, hi.cnt]
  have hins : ∀ (up : Bool) (k : K) (v : V), ∃ t' ok lack, insertOrUpdate c mem up t k v = some (t', ok, lack) ∧
      (lack = true → mem.realloc = false ∨ mem.node = false ∨ m.size > 42949672 ∨ t.bucketSize > 42949672) ∧
      t'.bucketSize ≤ max t.bucketSize (m.size + 1) ∧
      (∃ lv', Inv c t' lv') ∧
      ((lack = true ∧ ok = false ∧ (E t).Perm (E t')) ∨
       (lack = false ∧ up = false ∧ ok = false ∧ (∃ v, m.get k = some v) ∧ (E t).Perm (E t')) ∨
       (lack = false ∧ up = true ∧ ok = true ∧ (∃ v, m.get k = some v) ∧ (E t').length = (E t).length ∧
          ∀ k', lookup c (E t') k' = if c.mt k k' then some v else lookup c (E t) k') ∨
       (lack = false ∧ ok = true ∧ m.get k = none ∧ (E t').length = (E t).length + 1 ∧
          ∀ k', lookup c (E t') k' = if c.mt k k' then some v else lookup c (E t) k')) := by
    intro up k v
    rcases checkResize_spec g hi mem.realloc with ⟨h1, h2⟩ | ⟨t1, lv1, h1, hi1, hp, hcnt, hcle, hbs⟩
    · refine ⟨t, false, true, ?_, ?_, by omega, ⟨lv, hi⟩, .inl ⟨rfl, rfl, .refl _⟩⟩
      · simp [insertOrUpdate, h2]
      · intro _
        rcases h1 with h1 | h1 | h1
        · exact .inl h1
        · exact .inr (.inr (.inl (by omega)))
        · exact .inr (.inr (.inr h1))
    · obtain ⟨hidx, hlt, hb⟩ := bucketIndex_eq hi1 k
      have hf := bucket_find g hi1 k
      have hget : m.get k = ((E t1).find? (fun e => c.mt e.1 k)).map (·.2) := by
        rw [hr.get, lookup_perm g hi.sep hp]; rfl
      have hlk : ∀ k', lookup c (E t1) k' = lookup c (E t) k' := fun k' => (lookup_perm g hi.sep hp k').symm
      unfold insertOrUpdate
      simp only [-Nat.reducePow, h1, Option.bind_eq_bind, Option.bind_some, Bool.not_true, Bool.false_eq_true, if_false, hidx, hb, hf]
      cases hfe : (E t1).find? (fun e => c.mt e.1 k) with
      | some e =>
        rw [hfe] at hget
        simp only
        cases up with
        | false =>
          refine ⟨t1, false, false, by simp, by simp, by omega, ⟨lv1, hi1⟩, .inr (.inl ⟨rfl, rfl, rfl, ⟨_, hget⟩, hp⟩)⟩
        | true =>
          cases hm : mem.node with
          | false => exact ⟨t1, false, true, by simp, by simp, by omega, ⟨lv1, hi1⟩, .inl ⟨rfl, rfl, hp⟩⟩
          | true =>
            obtain ⟨i1, i2, i3⟩ := update_spec g hi1 k v e hfe
            refine ⟨_, true, false, by simp only [-Nat.reducePow, if_true]; rfl, by simp, ?_, ⟨lv1, i1⟩,
              .inr (.inr (.inl ⟨rfl, rfl, rfl, ⟨_, hget⟩, ?_, ?_⟩))⟩
            · simp only; omega
            · rw [i3, ← hp.length_eq]
            · intro k'; rw [i2, hlk]
      | none =>
        rw [hfe] at hget
        simp only
        cases hm : mem.node with
        | false => exact ⟨t1, false, true, by simp, by simp, by omega, ⟨lv1, hi1⟩, .inl ⟨rfl, rfl, hp⟩⟩
        | true =>
          obtain ⟨t', h1', hb', i1, i2, i3, i4⟩ : ∃ t' : Tbl K V, t' = { t1 with
                arr := upd t1.arr (idx c lv1 t1.nextSplit k) (bk t1 (idx c lv1 t1.nextSplit k) ++ [(k, v)]),
                count := (t1.count + 1) % 2 ^ 32 } ∧ t'.bucketSize = t1.bucketSize ∧ Inv c t' lv1 ∧
              (∀ k', lookup c (E t') k' = if c.mt k k' then some v else lookup c (E t1) k') ∧
              (E t').length = (E t1).length + 1 ∧ t'.count = t1.count + 1 :=
            ⟨_, rfl, rfl, insert_spec g hi1 (by omega) k v hfe⟩
          rw [← h1']
          refine ⟨t', true, false, by simp only [if_true], by simp, by omega, ⟨lv1, i1⟩,
            .inr (.inr (.inr ⟨rfl, rfl, hget, ?_, ?_⟩))⟩
          · rw [i3, ← hp.length_eq]
          · intro k'; rw [i2, hlk]
  cases op with
  | insert k v =>
    obtain ⟨t', ok, lack, h1, h2, h3, h4, h5⟩ := hins false k v
    refine ⟨t', lack, ?_, ?_, h2, h3⟩ <;> rcases h5 with ⟨rfl, rfl, hp⟩ | ⟨rfl, _, rfl, ⟨v', hv⟩, hp⟩ | ⟨_, h, _⟩ | ⟨rfl, rfl, hv, hl, hk⟩
    · simp [step, h1, Spec.step]
    · simp [step, h1, Spec.step, hv]
    · simp at h
    · simp [step, h1, Spec.step, hv]
    · exact ⟨h4, fun k' => by simp only [Spec.step, if_true]; rw [hr.get, lookup_perm g hi.sep hp],
        by simp only [Spec.step, if_true]; rw [hr.size, hp.length_eq]⟩
    · exact ⟨h4, fun k' => by simp only [Spec.step, hv]; simp only [Bool.false_eq_true, if_false]; rw [hr.get, lookup_perm g hi.sep hp],
        by simp only [Spec.step, hv]; simp only [Bool.false_eq_true, if_false]; rw [hr.size, hp.length_eq]⟩
    · simp at h
    · exact ⟨h4, fun k' => by simp only [Spec.step, hv, Spec.set]; simp only [Bool.false_eq_true, if_false]; rw [hk, hr.get],
        by simp only [Spec.step, hv, Spec.set]; simp only [Bool.false_eq_true, if_false]; rw [hl, hr.size]⟩
  | put k v =>
    obtain ⟨t', ok, lack, h1, h2, h3, h4, h5⟩ := hins true k v
    refine ⟨t', lack, ?_, ?_, h2, h3⟩ <;> rcases h5 with ⟨rfl, rfl, hp⟩ | ⟨_, h, _⟩ | ⟨rfl, _, rfl, ⟨v', hv⟩, hl, hk⟩ | ⟨rfl, rfl, hv, hl, hk⟩
    · simp [step, h1, Spec.step]
    · simp at h
    · simp [step, h1, Spec.step, hv]
    · simp [step, h1, Spec.step, hv]
    · exact ⟨h4, fun k' => by simp only [Spec.step, if_true]; rw [hr.get, lookup_perm g hi.sep hp],
        by simp only [Spec.step, if_true]; rw [hr.size, hp.length_eq]⟩
    · simp at h
    · exact ⟨h4, fun k' => by simp only [Spec.step, hv, Spec.set]; simp only [Bool.false_eq_true, if_false]; rw [hk, hr.get],
        by simp only [Spec.step, hv, Spec.set]; simp only [Bool.false_eq_true, if_false]; rw [hl, hr.size]⟩
    · exact ⟨h4, fun k' => by simp only [Spec.step, hv, Spec.set]; simp only [Bool.false_eq_true, if_false]; rw [hk, hr.get],
        by simp only [Spec.step, hv, Spec.set]; simp only [Bool.false_eq_true, if_false]; rw [hl, hr.size]⟩
  | at_ k =>
    obtain ⟨hidx, hlt, hb⟩ := bucketIndex_eq hi k
    refine ⟨t, false, ?_, hr, by simp, by omega⟩
    simp only [step, find, hidx, hb, Option.bind_eq_bind, Option.bind_some, bucket_find g hi k, Option.map_some, Spec.step, hr.get]
    rfl
  | erase k =>
    obtain ⟨hidx, hlt, hb⟩ := bucketIndex_eq hi k
    have hf := bucket_find g hi k
    have hget : m.get k = ((E t).find? (fun e => c.mt e.1 k)).map (·.2) := hr.get k
    cases hfe : (E t).find? (fun e => c.mt e.1 k) with
    | none =>
      rw [hfe] at hf hget
      refine ⟨t, false, ?_, ?_, by simp, by omega⟩
      · simp [step, find_eq hidx hb, erase_none hidx hb hf, hf, Spec.step, hget]
      · simp only [Spec.step, hget, Option.map_none]; exact hr
    | some e =>
      rw [hfe] at hf hget
      obtain ⟨A, B, hAB⟩ := List.append_of_mem (List.mem_of_find?_eq_some hfe)
      have hn := next_spec g hi A B e hAB
      have hbs : ∀ (a : Nat → Option (List (K × V))) (n : Nat), ({ t with arr := a, count := n } : Tbl K V).bucketSize = t.bucketSize :=
        fun _ _ => rfl
      obtain ⟨t', h1, hb', i1, i2, i3, i4⟩ : ∃ t', erase c t k = some (t', B.head?) ∧ t'.bucketSize = t.bucketSize ∧ Inv c t' lv ∧
          (∀ k', lookup c (E t') k' = if c.mt k k' then none else lookup c (E t) k') ∧
          (E t').length = (E t).length - 1 ∧ t'.count = t.count - 1 :=
        ⟨_, erase_eq hidx hb hf hn, hbs _ _, erase_inv g hi k e hfe⟩
      refine ⟨t', false, ?_, ⟨⟨lv, i1⟩, ?_, ?_⟩, by simp, by omega⟩
      · simp only [step, find_eq hidx hb, hf, h1, Option.bind_eq_bind, Option.bind_some, Spec.step, hget, Option.map_some]
        rfl
      · intro k'; simp only [Spec.step, hget, Option.map_some, Spec.set]; rw [i2, hr.get]
      · simp only [Spec.step, hget, Option.map_some, Spec.set]; rw [i3, hr.size]
  | clear =>
    obtain ⟨arr, h1, h2, h3⟩ := clearLoop_spec hi t.bucketSize (Nat.le_refl _)
    have hE : E { t with arr := arr, count := 0 } = [] := by
      unfold E
      simp only
      rw [List.flatMap_eq_nil_iff]
      intro j hj
      simp [bk, h2 j (List.mem_range.1 hj)]
    refine ⟨{ t with arr := arr, count := 0 }, false, ?_, ⟨⟨lv, hi.pos, hi.nls, hi.split, hi.size, hi.cap, hi.bound, ?_, ?_, ?_, ?_, ?_⟩, ?_, ?_⟩, by simp, by simp only; omega⟩
    · simp only [step, clear, h1, Option.bind_eq_bind, Option.bind_some, Option.map_some, Spec.step]
    · intro j hj; simp [bk, h2 j hj]
    · intro j hj e he; simp [bk, h2 j hj] at he
    · rw [hE]; exact List.Pairwise.nil
    · rw [hE]; rfl
    · simp
    · intro k; rw [hE]; rfl
    · rw [hE]; rfl
  | size =>
    exact ⟨t, false, by simp [step, Spec.step, hsz], hr, by simp, by omega⟩

/-- A history of operations on the table, with the answers of the allocator; the results with the lack flags. -/
def run (c : Cfg K) : List (Op K V × Mem) → Tbl K V → Option (Tbl K V × List (Out V × Bool))
  | [], t => some (t, [])
  | (op, mem) :: ops, t => do
    let (t, out, lack) ← step c mem t op
    let (t, outs) ← run c ops t
    some (t, (out, lack) :: outs)

/-- The same history on the finite map, given the lack flags. -/
def Spec.run (c : Cfg K) : List (Op K V) → List Bool → Spec.Map K V → Spec.Map K V × List (Out V)
  | op :: ops, lack :: lacks, m =>
    let r := Spec.step c lack m op
    let rest := Spec.run c ops lacks r.1
    (rest.1, r.2 :: rest.2)
  | _, _, m => (m, [])

/-- The empty map. -/
def Spec.empty : Spec.Map K V := ⟨fun _ => none, 0⟩

theorem create_rel {c : Cfg K} (n : Nat) (t : Tbl K V) (h : create n = some t) :
    Rel c t Spec.empty ∧ t.bucketSize = if n = 0 then 16 else n := by
  unfold create at h
  simp only at h
  generalize hact : (if n = 0 then 16 else n) = act at h ⊢
  have hpos : 0 < act := by rw [← hact]; split <;> omega
  by_cases h1 : act > (2 ^ 32 - 1) / 2
  · rw [if_pos h1] at h; simp at h
  · rw [if_neg h1] at h
    by_cases h2 : isMultiOverflow (act * 2 + 1) sizeofRawList = true
    · rw [if_pos h2] at h; simp at h
    · rw [if_neg h2] at h
      rw [Bool.not_eq_true, overflow_false _ _ (by decide)] at h2
      simp only [Option.some.injEq] at h
      subst h
      have hE : E (⟨fun i => if i < act then some [] else none, act * 2 + 1, act * 2, 0, act, 0⟩ : Tbl K V) = [] := by
        unfold E
        simp only
        rw [List.flatMap_eq_nil_iff]
        intro j hj
        simp [bk, List.mem_range.1 hj]
      refine ⟨⟨⟨act, hpos, by simp only; omega, hpos, rfl, by simp only; omega, ?_, ?_, ?_, ?_, ?_, ?_⟩, ?_, ?_⟩, rfl⟩
      · have : sizeofRawList = 24 := rfl
        rw [this] at h2
        omega
      · intro j hj; simp only at hj; simp [bk, hj]
      · intro j hj e he; simp only at hj; simp [bk, hj] at he
      · rw [hE]; exact List.Pairwise.nil
      · rw [hE]; rfl
      · simp
      · intro k; rw [hE]; rfl
      · rw [hE]; rfl

/-- Every history on a created table, for every hash function, every matching relation it respects and every behaviour
of the allocator: no slot outside the initialised buckets is read, and the results are those of a finite map. Memory or
a size limit is lacking only if an allocation of that operation failed, or the table was created with more than
42949672 buckets, or at least 42949672 operations were done before. -/
theorem run_refines {c : Cfg K} (g : Good c) (n : Nat) (t : Tbl K V) (hc : create n = some t) (ops : List (Op K V × Mem)) :
    ∃ t' outs, run c ops t = some (t', outs) ∧ outs.length = ops.length ∧
      outs.map (·.1) = (Spec.run c (ops.map (·.1)) (outs.map (·.2)) Spec.empty).2 ∧
      Rel c t' (Spec.run c (ops.map (·.1)) (outs.map (·.2)) Spec.empty).1 ∧
      (∀ i op mem out, ops[i]? = some (op, mem) → outs[i]? = some (out, true) →
        mem.realloc = false ∨ mem.node = false ∨ n > 42949672 ∨ i ≥ 42949672) := by
  obtain ⟨h0, hb0⟩ := create_rel (c := c) n t hc
  have key : ∀ (ops : List (Op K V × Mem)) (t : Tbl K V) (m : Spec.Map K V) (d : Nat), Rel c t m → m.size ≤ d →
      t.bucketSize ≤ max (max n 16) (d + 1) → 
      ∃ t' outs, run c ops t = some (t', outs) ∧ outs.length = ops.length ∧
        outs.map (·.1) = (Spec.run c (ops.map (·.1)) (outs.map (·.2)) m).2 ∧
        Rel c t' (Spec.run c (ops.map (·.1)) (outs.map (·.2)) m).1 ∧
        (∀ i op mem out, ops[i]? = some (op, mem) → outs[i]? = some (out, true) →
          mem.realloc = false ∨ mem.node = false ∨ n > 42949672 ∨ i + d ≥ 42949672) := by
    intro ops
    induction ops with
    | nil => intro t m d hr _ _; exact ⟨t, [], rfl, rfl, rfl, hr, fun i op mem out h => by simp at h⟩
    | cons x ops ih =>
      intro t m d hr hd hb
      obtain ⟨op, mem⟩ := x
      obtain ⟨t1, lack, s1, s2, s3, s4⟩ := step_refines g mem hr op
      have hsz : (Spec.step c lack m op).1.size ≤ d + 1 := by
        cases op <;> simp only [Spec.step, Spec.set] <;> (try (split <;> try split)) <;> (try simp only) <;> omega
      obtain ⟨t', outs, r1, r2, r3, r4, r5⟩ := ih t1 _ (d + 1) s2 hsz (by omega)
      refine ⟨t', ((Spec.step c lack m op).2, lack) :: outs, ?_, by simp [r2], ?_, ?_, ?_⟩
      · simp only [run, s1, Option.bind_eq_bind, Option.bind_some, r1]
      · simp only [List.map_cons, Spec.run, r3]
      · simp only [List.map_cons, Spec.run]; exact r4
      · intro i op' mem' out h1 h2
        cases i with
        | zero =>
          simp only [List.getElem?_cons_zero, Option.some.injEq, Prod.mk.injEq] at h1 h2
          rw [← h1.2]
          rcases s3 h2.2 with h | h | h
          · exact .inl h
          · exact .inr (.inl h)
          · exact .inr (.inr (by omega))
        | succ i =>
          simp only [List.getElem?_cons_succ] at h1 h2
          rcases r5 i op' mem' out h1 h2 with h | h | h
          · exact .inl h
          · exact .inr (.inl h)
          · exact .inr (.inr (by omega))
  have := key ops t Spec.empty 0 h0 (Nat.le_refl _) (by rw [hb0]; split <;> omega)
  simpa using this

/-- A table created with more than 42949672 buckets (creation succeeds up to 89478484) refuses every insertion. -/
theorem create_too_large (c : Cfg K) (t : Tbl K V) (hc : create 42949673 = some t) (mem : Mem) (k : K) (v : V) :
    insertOrUpdate c mem false t k v = some (t, false, true) := by
  obtain ⟨_, hb⟩ := create_rel (c := c) 42949673 t hc
  have : checkResize c mem.realloc t = some (t, false) := by
    unfold checkResize
    rw [if_pos]
    rw [Bool.or_eq_true]
    right
    rw [overflow_iff _ _ (by decide), hb]
    decide
  simp [insertOrUpdate, this]

-- Non-vacuity: integer keys, an awful hash function, a table of 1 bucket.
def exCfg : Cfg Nat := ⟨fun k => k * 7 % 5, fun a b => a == b⟩

example : Good exCfg := ⟨by simp [exCfg], by simp [exCfg], by simp [exCfg], by
  intro a b h; simp [exCfg] at h ⊢; rw [h]⟩

example : ((create 1 : Option (Tbl Nat Nat)).bind fun t => (run exCfg
    ([.insert 1 10, .insert 2 20, .insert 3 30, .insert 2 99, .put 2 21, .at_ 2, .erase 1, .at_ 1, .at_ 3, .size].map
      fun o => (o, ⟨true, true⟩)) t).map fun r => (r.1.bucketSize, r.2.map (·.1))) =
    some (4, [.ok, .ok, .ok, .fail, .ok, .value (some 21), .ok, .value none, .value (some 30), .size 2]) := by
  decide +kernel

example : (create 42949673 : Option (Tbl Nat Nat)).isSome = true := by decide +kernel

end Verif.Bsl.Hash
