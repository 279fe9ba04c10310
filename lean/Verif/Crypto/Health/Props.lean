import Verif.Crypto.Health.Model
/-! C20: the health tests fire exactly at the cutoffs. -/
namespace Verif.Crypto.Health
open Verif.Common

/-! ### Specification -/

/-- The repetition count test on the samples so far (oldest first) ending with `x`: the last `cutoff` samples are all `x`. -/
def Spec.rctFires (cutoff : Nat) (before : List Byte) (x : Byte) : Prop :=
  ∃ ys, before ++ [x] = ys ++ List.replicate cutoff x

/-- The samples of the current window when `x` is the newest sample: windows are consecutive blocks of `w` samples. -/
def Spec.window (w : Nat) (before : List Byte) (x : Byte) : List Byte := (before ++ [x]).drop (before.length / w * w)

/-- The adaptive proportion test: `x` is the first sample of its window and occurs in the window `cutoff` times by now. -/
def Spec.aptFires (cutoff w : Nat) (before : List Byte) (x : Byte) : Prop :=
  (Spec.window w before x).head? = some x ∧ cutoff ≤ (Spec.window w before x).count x

/-! ### Repetition count -/

def feedRct (s : Rct) : List Byte → Rct
  | [] => s
  | b :: bs => feedRct (rct s b).1 bs

def feedApt (s : Apt) : List Byte → Apt
  | [] => s
  | b :: bs => feedApt (apt s b).1 bs

theorem feedRct_append (s : Rct) (a b : List Byte) : feedRct s (a ++ b) = feedRct (feedRct s a) b := by
  induction a generalizing s with
  | nil => rfl
  | cons x a ih => exact ih _

theorem feedApt_append (s : Apt) (a b : List Byte) : feedApt s (a ++ b) = feedApt (feedApt s a) b := by
  induction a generalizing s with
  | nil => rfl
  | cons x a ih => exact ih _

theorem rct_same {s : Rct} {b : Byte} (h : b = s.lastData) :
    rct s b = ({ s with count := (s.count + 1) % 2 ^ 32 }, decide (¬ (s.count + 1) % 2 ^ 32 ≥ s.cutoff)) := by
  unfold rct; rw [if_pos h]; simp only; split
  · rename_i h; rw [decide_eq_false (not_not_intro h)]
  · rename_i h; rw [decide_eq_true h]

theorem rct_diff {s : Rct} {b : Byte} (h : b ≠ s.lastData) : rct s b = ({ s with lastData := b, count := 1 }, true) := by
  unfold rct; rw [if_neg h]

theorem apt_new {s : Apt} {b : Byte} (h : s.baseSet = false) :
    apt s b = ({ s with baseSet := true, base := b, count := 1, observed := 1 }, true) := by
  unfold apt; rw [if_pos h]

theorem apt_same {s : Apt} {b : Byte} (h : s.baseSet = true) (hb : s.base = b) :
    apt s b = ({ s with count := (s.count + 1) % 2 ^ 32, observed := (s.observed + 1) % 2 ^ 32,
                        baseSet := decide (¬ (s.observed + 1) % 2 ^ 32 ≥ s.windowSize) }, decide (¬ (s.count + 1) % 2 ^ 32 ≥ s.cutoff)) := by
  unfold apt; rw [if_neg (by simp [h])]; simp only [if_pos hb]
  split
  · rename_i h; rw [decide_eq_false (not_not_intro h)]
  · rename_i h'; rw [decide_eq_true h', h]

theorem apt_diff {s : Apt} {b : Byte} (h : s.baseSet = true) (hb : s.base ≠ b) :
    apt s b = ({ s with observed := (s.observed + 1) % 2 ^ 32,
                        baseSet := decide (¬ (s.observed + 1) % 2 ^ 32 ≥ s.windowSize) }, true) := by
  unfold apt; rw [if_neg (by simp [h])]; simp only [if_neg hb]
  split
  · rename_i h; rw [decide_eq_false (not_not_intro h)]
  · rename_i h'; rw [decide_eq_true h', h]

theorem rct_cutoff (s : Rct) (b : Byte) : (rct s b).1.cutoff = s.cutoff := by
  unfold rct; split
  · simp only; split <;> rfl
  · rfl

/-- The state after `bs`: the last sample and the length of its run. -/
theorem feedRct_state (s : Rct) (xs : List Byte) (h : xs.length < 2 ^ 32) (hne : xs ≠ []) :
    (feedRct (resetRct s) xs).cutoff = s.cutoff ∧
    ∃ ys, xs = ys ++ List.replicate (feedRct (resetRct s) xs).count (feedRct (resetRct s) xs).lastData ∧
      ys.getLast? ≠ some (feedRct (resetRct s) xs).lastData ∧ 1 ≤ (feedRct (resetRct s) xs).count := by
  induction hn : xs.length generalizing xs with
  | zero => exact absurd (List.length_eq_zero_iff.1 hn) hne
  | succ n ih =>
    obtain ⟨pre, x, rfl⟩ : ∃ pre x, xs = pre ++ [x] := ⟨xs.dropLast, xs.getLast hne, (List.dropLast_concat_getLast hne).symm⟩
    have hlen : pre.length = n := by simpa using hn
    simp only [List.length_append, List.length_singleton] at h
    rw [feedRct_append]
    simp only [feedRct]
    by_cases hp : pre = []
    · subst hp
      refine ⟨by rw [rct_cutoff]; rfl, [], ?_⟩
      simp only [feedRct]
      by_cases hx : x = 0
      · rw [rct_same (show x = (resetRct s).lastData from hx)]; simp [resetRct, hx]
      · rw [rct_diff (show x ≠ (resetRct s).lastData from hx)]; simp
    · obtain ⟨h1, ys, h2, h3, h4⟩ := ih pre (by omega) hp hlen
      refine ⟨by rw [rct_cutoff, h1], ?_⟩
      generalize feedRct (resetRct s) pre = t at *
      have hc : t.count ≤ pre.length := by
        have := congrArg List.length h2
        simp at this; omega
      by_cases hx : x = t.lastData
      · rw [rct_same hx]
        have hm : (t.count + 1) % 2 ^ 32 = t.count + 1 := Nat.mod_eq_of_lt (by omega)
        have key : pre ++ [x] = ys ++ List.replicate (t.count + 1) t.lastData := by
          rw [List.replicate_succ', ← List.append_assoc, ← h2, hx]
        simp only [hm]
        exact ⟨ys, key, h3, by simp⟩
      · rw [rct_diff hx]
        refine ⟨pre, rfl, ?_, Nat.le_refl 1⟩
        simp only
        rw [h2, List.getLast?_append, List.getLast?_replicate, if_neg (by omega)]
        simpa using fun h => hx h.symm

/-- C20 (repetition count). After a reset and any samples, the test fails on a sample exactly when it completes a run of
at least `cutoff` equal samples. -/
theorem rct_iff (s : Rct) (before : List Byte) (x : Byte) (hc : 2 ≤ s.cutoff) (h : before.length + 1 < 2 ^ 32) :
    (rct (feedRct (resetRct s) before) x).2 = false ↔ Spec.rctFires s.cutoff before x := by
  unfold Spec.rctFires
  by_cases hb : before = []
  · subst hb
    simp only [feedRct]
    constructor
    · intro hf
      by_cases hx : x = (resetRct s).lastData
      · rw [rct_same hx] at hf
        simp [resetRct] at hf; omega
      · rw [rct_diff hx] at hf; cases hf
    · rintro ⟨ys, hy⟩
      have := congrArg List.length hy
      simp at this; omega
  · obtain ⟨h1, ys, h2, h3, h4⟩ := feedRct_state s before (by omega) hb
    generalize feedRct (resetRct s) before = t at *
    have hcl : t.count ≤ before.length := by
      have := congrArg List.length h2
      simp at this; omega
    by_cases hx : x = t.lastData
    · rw [rct_same hx]
      have hm : (t.count + 1) % 2 ^ 32 = t.count + 1 := Nat.mod_eq_of_lt (by omega)
      have key : before ++ [x] = ys ++ List.replicate (t.count + 1) x := by
        rw [List.replicate_succ', ← List.append_assoc, hx, ← h2]
      simp only [hm, h1]
      by_cases hge : t.count + 1 ≥ s.cutoff
      · rw [decide_eq_false (not_not_intro hge)]
        refine ⟨fun _ => ⟨ys ++ List.replicate (t.count + 1 - s.cutoff) x, ?_⟩, fun _ => rfl⟩
        rw [key, List.append_assoc, List.replicate_append_replicate]
        congr 2; omega
      · rw [decide_eq_true hge]
        refine ⟨(fun hf => by cases hf), ?_⟩
        rintro ⟨zs, hz⟩
        rw [key] at hz
        -- the last element before the run would be in the run
        exfalso
        have hle : List.replicate s.cutoff x = List.replicate (s.cutoff - (t.count + 1)) x ++ List.replicate (t.count + 1) x := by
          rw [List.replicate_append_replicate]; congr 1; omega
        rw [hle, ← List.append_assoc] at hz
        have hz := List.append_cancel_right hz
        apply h3
        rw [hz, List.getLast?_append, List.getLast?_replicate, if_neg (by omega), hx]
        rfl
    · rw [rct_diff hx]
      refine ⟨(fun hf => by cases hf), ?_⟩
      rintro ⟨zs, hz⟩
      exfalso
      have hle : s.cutoff = (s.cutoff - 1) + 1 := by omega
      rw [hle, List.replicate_succ', ← List.append_assoc] at hz
      have hz := List.append_cancel_right hz
      rw [h2] at hz
      have := congrArg List.getLast? hz
      rw [List.getLast?_append, List.getLast?_append, List.getLast?_replicate, List.getLast?_replicate, if_neg (by omega), if_neg (by omega)] at this
      simp at this
      exact hx this.symm

-- Non-vacuity: cutoff 3, the third equal sample fires.
example : (rct (feedRct (resetRct ⟨3, 9, 9⟩) [1, 7, 7]) 7).2 = false ∧ (rct (feedRct (resetRct ⟨3, 9, 9⟩) [7, 1, 7]) 7).2 = true := by decide

/-! ### Adaptive proportion -/

theorem apt_params (s : Apt) (b : Byte) : (apt s b).1.cutoff = s.cutoff ∧ (apt s b).1.windowSize = s.windowSize := by
  cases h : s.baseSet with
  | false => rw [apt_new h]; exact ⟨rfl, rfl⟩
  | true =>
    by_cases hb : s.base = b
    · rw [apt_same h hb]; exact ⟨rfl, rfl⟩
    · rw [apt_diff h hb]; exact ⟨rfl, rfl⟩

theorem window_facts (w : Nat) (hw : 2 ≤ w) (n : Nat) :
    (n + 1) / w * w = (if n % w + 1 = w then n + 1 else n / w * w) := by
  have h1 := Nat.div_add_mod n w
  have h2 := Nat.mod_lt n (show 0 < w by omega)
  rw [Nat.mul_comm] at h1
  split
  · rename_i h
    have : n + 1 = (n / w + 1) * w := by rw [Nat.add_mul]; omega
    rw [this, Nat.mul_div_cancel _ (by omega)]
  · rename_i h
    congr 1
    apply Nat.div_eq_of_lt_le
    · omega
    · rw [Nat.succ_mul]; omega

/-- The samples of the open window after `xs`. -/
def cur (w : Nat) (xs : List Byte) : List Byte := xs.drop (xs.length / w * w)

theorem cur_len (w : Nat) (hw : 2 ≤ w) (xs : List Byte) : (cur w xs).length = xs.length % w := by
  have h1 := Nat.div_add_mod xs.length w
  rw [Nat.mul_comm] at h1
  simp only [cur, List.length_drop]; omega

theorem window_eq (w : Nat) (hw : 2 ≤ w) (xs : List Byte) (x : Byte) : Spec.window w xs x = cur w xs ++ [x] := by
  have h1 := Nat.div_add_mod xs.length w
  rw [Nat.mul_comm] at h1
  unfold Spec.window cur
  rw [List.drop_append_of_le_length (by omega)]

theorem cur_snoc (w : Nat) (hw : 2 ≤ w) (xs : List Byte) (x : Byte) :
    cur w (xs ++ [x]) = if xs.length % w + 1 = w then [] else cur w xs ++ [x] := by
  have := window_facts w hw xs.length
  have h1 := Nat.div_add_mod xs.length w
  rw [Nat.mul_comm] at h1
  unfold cur
  simp only [List.length_append, List.length_singleton]
  rw [this]
  split
  · exact List.drop_eq_nil_of_le (by simp)
  · rw [List.drop_append_of_le_length (by omega)]

theorem feedApt_state (s : Apt) (xs : List Byte) (hw : 2 ≤ s.windowSize) (hw2 : s.windowSize < 2 ^ 32) :
    (feedApt (resetApt s) xs).cutoff = s.cutoff ∧ (feedApt (resetApt s) xs).windowSize = s.windowSize ∧
    (if cur s.windowSize xs = [] then (feedApt (resetApt s) xs).baseSet = false
     else (feedApt (resetApt s) xs).baseSet = true ∧ (cur s.windowSize xs).head? = some (feedApt (resetApt s) xs).base ∧
      (feedApt (resetApt s) xs).count = (cur s.windowSize xs).count (feedApt (resetApt s) xs).base ∧
      (feedApt (resetApt s) xs).observed = (cur s.windowSize xs).length) := by
  induction hn : xs.length generalizing xs with
  | zero =>
    have := List.length_eq_zero_iff.1 hn
    subst this
    refine ⟨rfl, rfl, ?_⟩
    rw [if_pos (by simp [cur])]
    rfl
  | succ n ih =>
    have hne : xs ≠ [] := by intro h; subst h; cases hn
    obtain ⟨pre, x, rfl⟩ : ∃ pre x, xs = pre ++ [x] := ⟨xs.dropLast, xs.getLast hne, (List.dropLast_concat_getLast hne).symm⟩
    have hlen : pre.length = n := by simpa using hn
    obtain ⟨h1, h2, h3⟩ := ih pre hlen
    rw [feedApt_append]
    simp only [feedApt]
    generalize feedApt (resetApt s) pre = t at *
    refine ⟨by rw [(apt_params t x).1, h1], by rw [(apt_params t x).2, h2], ?_⟩
    have hcl := cur_len s.windowSize hw pre
    rw [cur_snoc s.windowSize hw]
    have hlt := Nat.mod_lt pre.length (show 0 < s.windowSize by omega)
    by_cases hcur : cur s.windowSize pre = []
    · rw [if_pos hcur] at h3
      rw [hcur] at hcl
      simp only [List.length_nil] at hcl
      rw [if_neg (show ¬ (pre.length % s.windowSize + 1 = s.windowSize) by omega), if_neg (by simp), hcur]
      rw [apt_new h3]
      simp
    · rw [if_neg hcur] at h3
      obtain ⟨b1, b2, b3, b4⟩ := h3
      have hcount : t.count ≤ (cur s.windowSize pre).length := by rw [b3]; exact List.count_le_length
      have hm1 : (t.count + 1) % 2 ^ 32 = t.count + 1 := Nat.mod_eq_of_lt (by omega)
      have hm2 : (t.observed + 1) % 2 ^ 32 = t.observed + 1 := Nat.mod_eq_of_lt (by omega)
      have hhead : (cur s.windowSize pre ++ [x]).head? = some t.base := by
        rw [List.head?_append, b2]; rfl
      by_cases hx : t.base = x
      · rw [apt_same b1 hx]
        simp only [hm1, hm2, h2]
        by_cases hend : pre.length % s.windowSize + 1 = s.windowSize
        · rw [if_pos hend, if_pos rfl]
          exact decide_eq_false (by omega)
        · rw [if_neg hend, if_neg (by simp)]
          refine ⟨decide_eq_true (by omega), hhead, ?_, ?_⟩
          · simp only [List.count_append, b3, hx]; simp
          · simp [b4]
      · rw [apt_diff b1 hx]
        simp only [hm2, h2]
        by_cases hend : pre.length % s.windowSize + 1 = s.windowSize
        · rw [if_pos hend, if_pos rfl]
          exact decide_eq_false (by omega)
        · rw [if_neg hend, if_neg (by simp)]
          refine ⟨decide_eq_true (by omega), hhead, ?_, ?_⟩
          · simp only [List.count_append, b3]
            have : ([x] : List Byte).count t.base = 0 := List.count_eq_zero.2 (by simpa using hx)
            omega
          · simp [b4]

/-- C20 (adaptive proportion). After a reset and any samples, the test fails on a sample exactly when the sample equals
the first of its window and has been seen at least `cutoff` times in the window. -/
theorem apt_iff (s : Apt) (before : List Byte) (x : Byte) (hc : 2 ≤ s.cutoff) (hw : 2 ≤ s.windowSize)
    (hw2 : s.windowSize < 2 ^ 32) :
    (apt (feedApt (resetApt s) before) x).2 = false ↔ Spec.aptFires s.cutoff s.windowSize before x := by
  obtain ⟨h1, h2, h3⟩ := feedApt_state s before hw hw2
  unfold Spec.aptFires
  rw [window_eq _ hw]
  generalize feedApt (resetApt s) before = t at *
  have hcl := cur_len s.windowSize hw before
  have hlt := Nat.mod_lt before.length (show 0 < s.windowSize by omega)
  by_cases hcur : cur s.windowSize before = []
  · rw [if_pos hcur] at h3
    rw [hcur]
    rw [apt_new h3]
    simp; omega
  · rw [if_neg hcur] at h3
    obtain ⟨b1, b2, b3, b4⟩ := h3
    have hcount : t.count ≤ (cur s.windowSize before).length := by rw [b3]; exact List.count_le_length
    have hm1 : (t.count + 1) % 2 ^ 32 = t.count + 1 := Nat.mod_eq_of_lt (by omega)
    have hhead : (cur s.windowSize before ++ [x]).head? = some t.base := by
      rw [List.head?_append, b2]; rfl
    rw [hhead]
    by_cases hx : t.base = x
    · rw [apt_same b1 hx]
      simp only [hm1, h1]
      rw [List.count_append, ← hx, ← b3]
      simp
    · rw [apt_diff b1 hx]
      simp [hx]

example : (apt (feedApt (resetApt ⟨3, 4, true, 9, 9, 9⟩) [5, 6, 7, 8, 1, 2, 1]) 1).2 = false ∧
    (apt (feedApt (resetApt ⟨3, 4, true, 9, 9, 9⟩) [5, 1, 7, 1, 1, 2, 2]) 2).2 = true := by decide

/-! ### Reads -/

theorem nsTest_true {bs : List Byte} {r : Rct} {a : Apt} (h : (nsTest bs r a).2.2 = true) :
    (nsTest bs r a).1 = feedRct r bs ∧ (nsTest bs r a).2.1 = feedApt a bs ∧
    ∀ pre x post, bs = pre ++ x :: post → (rct (feedRct r pre) x).2 = true ∧ (apt (feedApt a pre) x).2 = true := by
  induction bs generalizing r a with
  | nil => exact ⟨rfl, rfl, fun pre x post h => by simp at h⟩
  | cons b bs ih =>
    rw [nsTest] at h ⊢
    match hr : rct r b with
    | (r', false) => rw [hr] at h; cases h
    | (r', true) =>
      rw [hr] at h
      simp only at h ⊢
      match ha : apt a b with
      | (a', false) => rw [ha] at h; cases h
      | (a', true) =>
        rw [ha] at h
        simp only at h ⊢
        obtain ⟨i1, i2, i3⟩ := ih h
        refine ⟨by rw [i1, feedRct, hr], by rw [i2, feedApt, ha], ?_⟩
        intro pre x post he
        cases pre with
        | nil =>
          simp only [List.nil_append, List.cons.injEq] at he
          obtain ⟨rfl, rfl⟩ := he
          simp [feedRct, feedApt, hr, ha]
        | cons p pre =>
          simp only [List.cons_append, List.cons.injEq] at he
          obtain ⟨rfl, rfl⟩ := he
          simp only [feedRct, feedApt, hr, ha]
          exact i3 pre x post rfl

theorem nsReads_true {bufs : List (List Byte)} {r : Rct} {a : Apt} (h : ∀ v ∈ nsReads bufs r a, v = true) :
    ∀ pre x post, bufs.flatten = pre ++ x :: post → (rct (feedRct r pre) x).2 = true ∧ (apt (feedApt a pre) x).2 = true := by
  induction bufs generalizing r a with
  | nil => intro pre x post he; simp at he
  | cons buf bufs ih =>
    rw [nsReads] at h
    obtain ⟨i1, i2, i3⟩ := nsTest_true (h _ List.mem_cons_self)
    intro pre x post he
    rw [List.flatten_cons] at he
    by_cases hlt : pre.length < buf.length
    · have hb : ∃ post', buf = pre ++ x :: post' := by
        refine ⟨buf.drop (pre.length + 1), ?_⟩
        have h1 : buf.take pre.length = pre := by
          have ht := congrArg (List.take pre.length) he
          rwa [List.take_append_of_le_length (by omega), List.take_left] at ht
        have h2 : buf[pre.length]? = some x := by
          have ht := congrArg (·[pre.length]?) he
          simpa [List.getElem?_append_left hlt] using ht
        have h3 : buf[pre.length] = x := by
          rw [List.getElem?_eq_getElem hlt, Option.some.injEq] at h2; exact h2
        rw [← h3, ← List.drop_eq_getElem_cons hlt]
        conv => lhs; rw [← List.take_append_drop pre.length buf, h1]
      obtain ⟨post', hb⟩ := hb
      exact i3 pre x post' hb
    · have hp : ∃ pre', pre = buf ++ pre' := by
        have ht := congrArg (List.take buf.length) he
        rw [List.take_left, List.take_append_of_le_length (by omega)] at ht
        exact ⟨pre.drop buf.length, by conv => lhs; rw [← List.take_append_drop buf.length pre]
                                       rw [← ht]⟩
      obtain ⟨pre', rfl⟩ := hp
      rw [List.append_assoc] at he
      have he := List.append_cancel_left he
      rw [feedRct_append, feedApt_append, ← i1, ← i2]
      exact ih (fun v hv => h v (List.mem_cons_of_mem _ hv)) pre' x post he

/-- C20 (reads). If every read since the last reset has succeeded, then nowhere in the whole stream of samples, across the
boundaries of reads, is there a run of `cutoff` equal samples or a window with `cutoff` copies of its first sample. -/
theorem reads_healthy (r : Rct) (a : Apt) (bufs : List (List Byte)) (hr : 2 ≤ r.cutoff) (hc : 2 ≤ a.cutoff) (hw : 2 ≤ a.windowSize)
    (hw2 : a.windowSize < 2 ^ 32) (hlen : bufs.flatten.length < 2 ^ 32)
    (h : ∀ v ∈ nsReads bufs (resetRct r) (resetApt a), v = true) :
    ∀ pre x post, bufs.flatten = pre ++ x :: post → ¬ Spec.rctFires r.cutoff pre x ∧ ¬ Spec.aptFires a.cutoff a.windowSize pre x := by
  intro pre x post he
  obtain ⟨h1, h2⟩ := nsReads_true h pre x post he
  have : bufs.flatten.length = pre.length + (post.length + 1) := by rw [he]; simp
  constructor
  · intro hf; rw [(rct_iff r pre x hr (by omega)).2 hf] at h1; cases h1
  · intro hf; rw [(apt_iff a pre x hc hw hw2).2 hf] at h2; cases h2

example : nsReads [[1, 1, 2], [2, 1]] (resetRct ⟨3, 0, 0⟩) (resetApt ⟨4, 8, true, 0, 0, 0⟩) = [true, true] ∧
    nsReads [[1, 1, 2], [2, 2]] (resetRct ⟨3, 0, 0⟩) (resetApt ⟨4, 8, true, 0, 0, 0⟩) = [true, false] := by decide

/-! ### Cutoffs and the timer -/

/-- Every cutoff that the library computes for the delta sources satisfies the hypotheses above and can be reached: it is at
least 2, and the proportion cutoff does not exceed the window of 512. -/
theorem osrCutoffs_ok (osr c1 c2 c3 c4 : Nat) (h : osrCutoffs osr = some (c1, c2, c3, c4)) :
    2 ≤ c1 ∧ 2 ≤ c2 ∧ c2 ≤ c4 ∧ c4 ≤ 512 ∧ c1 ≤ c3 := by
  have h15 : 1 ≤ osr ∧ osr ≤ 15 := by
    unfold osrCutoffs at h
    split at h
    · cases h
    · omega
  have all : ∀ o ∈ List.range 16, ∀ q, osrCutoffs o = some q → 2 ≤ q.1 ∧ 2 ≤ q.2.1 ∧ q.2.1 ≤ q.2.2.2 ∧ q.2.2.2 ≤ 512 ∧ q.1 ≤ q.2.2.1 := by
    intro o ho q hq
    have h : ∀ o ∈ List.range 16, (osrCutoffs o).all (fun q => decide (2 ≤ q.1 ∧ 2 ≤ q.2.1 ∧ q.2.1 ≤ q.2.2.2 ∧ q.2.2.2 ≤ 512 ∧ q.1 ≤ q.2.2.1)) = true := by
      decide +kernel
    have := h o ho
    rw [hq] at this
    simpa using this
  exact all osr (List.mem_range.2 (by omega)) _ h

/-- Sum of the absolute differences of neighbours. -/
def Spec.variation : List Nat → Nat
  | a :: b :: l => (a - b) + (b - a) + Spec.variation (b :: l)
  | _ => 0

theorem timerLoop_spec (target : Nat) : ∀ (ds : List Nat) (p v : Nat) (b : Bool),
    timerLoop target ds false p v b = if 0 ∈ ds then none else
      some (if v < target then min target (v + Spec.variation (p :: ds)) else v, b || decide (∃ d ∈ ds, d % 256 ≠ p % 256))
  | [], p, v, b => by simp [timerLoop, Spec.variation]; omega
  | d :: ds, p, v, b => by
    rw [timerLoop]
    by_cases hd : d = 0
    · simp [hd]
    · rw [if_neg hd]
      simp only [true_and]
      rw [timerLoop_spec target ds d]
      have hmem : (0 ∈ d :: ds) ↔ 0 ∈ ds := by simp [Ne.symm hd]
      by_cases h0 : 0 ∈ ds
      · rw [if_pos h0, if_pos (hmem.2 h0)]
      · rw [if_neg h0, if_neg (fun h => h0 (hmem.1 h))]
        congr 1
        refine Prod.ext ?_ ?_
        · simp only [Spec.variation]
          by_cases hv : v < target
          · rw [if_pos hv]
            by_cases hge : d ≥ p
            · rw [if_pos hge, if_pos hv]
              split <;> split <;> omega
            · rw [if_neg hge, if_pos hv]
              split <;> split <;> omega
          · rw [if_neg hv, if_neg hv]
            rw [if_neg hv]
        · simp only
          by_cases hm : d % 256 = p % 256
          · simp [hm]
          · rw [if_pos hm]
            simp [hm]

/-- C20 (timer). The timer check accepts a window exactly when there is a sample, no delta is zero, the total variation of
neighbouring deltas is at least `count / osr` rounded up, and (with more than one sample) the deltas do not all share one
low byte. -/
theorem timerCheck_iff (ds : List Nat) (osr : Nat) :
    timerCheck ds osr = true ↔ 0 < osr ∧ ds ≠ [] ∧ 0 ∉ ds ∧ ds.length ≤ osr * Spec.variation ds ∧
      (1 < ds.length → ∃ d ∈ ds, ∃ d' ∈ ds, d % 256 ≠ d' % 256) := by
  unfold timerCheck
  by_cases ho : osr = 0
  · simp [ho]
  · rw [if_neg ho]
    cases ds with
    | nil => simp
    | cons d ds =>
      rw [if_neg (by simp)]
      simp only
      generalize hT : ((d :: ds).length / osr + if (d :: ds).length % osr ≠ 0 then 1 else 0) = T
      have hTv : ∀ v, T ≤ v ↔ (d :: ds).length ≤ osr * v := by
        intro v
        have h1 := Nat.div_add_mod (d :: ds).length osr
        have h2 := Nat.mod_lt (d :: ds).length (show 0 < osr by omega)
        rw [← hT]
        generalize (d :: ds).length / osr = q at *
        generalize (d :: ds).length % osr = r at *
        split
        · constructor
          · intro hle
            have := Nat.mul_le_mul_left osr hle
            rw [Nat.mul_add] at this; omega
          · intro hle
            have : osr * q < osr * v := by omega
            have := Nat.lt_of_mul_lt_mul_left this
            omega
        · rename_i hr
          have hr : r = 0 := Decidable.not_not.1 hr
          constructor
          · intro hle
            have := Nat.mul_le_mul_left osr (show q ≤ v from hle)
            omega
          · intro hle
            have : osr * q ≤ osr * v := by omega
            exact Nat.le_of_mul_le_mul_left this (by omega)
      have hTpos : 0 < T := by
        rcases Nat.eq_zero_or_pos T with h | h
        · have := (hTv 0).1 (by omega); simp at this
        · exact h
      rw [timerLoop]
      by_cases hd : d = 0
      · simp [hd]
      · rw [if_neg hd]
        simp only [Bool.true_eq_false, false_and, if_false]
        rw [timerLoop_spec]
        have hmem : (0 ∈ d :: ds) ↔ 0 ∈ ds := by simp [Ne.symm hd]
        by_cases h0 : 0 ∈ ds
        · rw [if_pos h0]; simp [h0]
        · rw [if_neg h0, if_pos hTpos]
          simp only [Nat.zero_add, Bool.false_or]
          have hvar : (∃ x ∈ d :: ds, ∃ y ∈ d :: ds, x % 256 ≠ y % 256) ↔ ∃ x ∈ ds, x % 256 ≠ d % 256 := by
            constructor
            · rintro ⟨x, hx, y, hy, hxy⟩
              rcases List.mem_cons.1 hx with rfl | hx
              · rcases List.mem_cons.1 hy with rfl | hy
                · exact absurd rfl hxy
                · exact ⟨y, hy, Ne.symm hxy⟩
              · by_cases hxd : x % 256 = d % 256
                · rcases List.mem_cons.1 hy with rfl | hy
                  · exact absurd hxd hxy
                  · exact ⟨y, hy, fun h => hxy (hxd.trans h.symm)⟩
                · exact ⟨x, hx, hxd⟩
            · rintro ⟨x, hx, hxd⟩
              exact ⟨x, List.mem_cons_of_mem _ hx, d, List.mem_cons_self, hxd⟩
          rw [hvar, hmem, ← hTv]
          simp only [Bool.not_or, Bool.and_eq_true, Bool.not_eq_true', decide_eq_false_iff_not, Bool.and_eq_false_iff, Bool.not_eq_false',
            decide_eq_true_eq]
          constructor
          · rintro ⟨h1, h2⟩
            refine ⟨Nat.pos_of_ne_zero ho, by simp, h0, Nat.le_trans (Nat.not_lt.1 h1) (Nat.min_le_right _ _), fun h => ?_⟩
            rcases h2 with h2 | h2
            · exact absurd h h2
            · exact h2
          · rintro ⟨h1, _, _, h2, h3⟩
            refine ⟨by rw [Nat.min_eq_left h2]; exact Nat.lt_irrefl T, ?_⟩
            by_cases hl : 1 < (d :: ds).length
            · exact .inr (h3 hl)
            · exact .inl hl

example : timerCheck [3, 4, 4, 6] 2 = true ∧ timerCheck [3, 4, 4, 4] 2 = false ∧ timerCheck [3, 259, 515] 1 = false := by decide

end Verif.Crypto.Health
