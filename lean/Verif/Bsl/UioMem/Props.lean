import Verif.Bsl.UioMem.Model
/-! C44: the memory UIO is a FIFO byte queue. -/
namespace Verif.Bsl.UioMem
open Verif.Common

/-! ### Specification -/

/-- The bytes not read yet; the whole buffer in read-only mode; whether a buffer exists; the two flags. -/
structure Spec.Q where
  q : List Byte
  ro : Option (List Byte)
  has : Bool
  eof : Int
  retry : Bool

inductive Op
  | write (b : List Byte) (a : Alloc) | read (n : Nat) | gets (n : Nat) | pending | reset
  | newBuf (b : List Byte) (tmpOk : Bool) | setEof (e : Int) | getEof | info | retry

/-- The first line of `l`, with its newline, or everything. -/
def Spec.line : List Byte → List Byte
  | [] => []
  | c :: l => if c = 10#8 then [c] else c :: Spec.line l

/-- One call; `lack` is lack of room. -/
def Spec.step (lack : Bool) (s : Spec.Q) : Op → Spec.Q × Out
  | .write b _ =>
    if b = [] then (s, .fail)
    else match s.ro with
      | some _ => (s, .fail)
      | none => if lack then ({ s with retry := false }, .fail)
        else ({ s with q := s.q ++ b, has := true, retry := false }, .num b.length)
  | .read n =>
    if n = 0 then (s, .fail)
    else ({ s with q := s.q.drop n, retry := decide (s.q = [] ∧ s.eof ≠ 0) }, .bytes (s.q.take n))
  | .gets n =>
    let l := Spec.line (s.q.take (n - 1))
    if l = [] then (s, .bytes []) else ({ s with q := s.q.drop l.length, retry := false }, .bytes l)
  | .pending => (s, .num s.q.length)
  | .reset => if s.has then (match s.ro with | some w => { s with q := w } | none => { s with q := [] }, .ok) else (s, .fail)
  | .newBuf b tmpOk =>
    if (s.has ∧ s.ro = none) ∨ tmpOk = false then (s, .fail) else (⟨b, some b, true, 0, false⟩, .ok)
  | .setEof e => ({ s with eof := e }, .ok)
  | .getEof => (s, .num s.eof)
  | .info => (s, .bytes s.q)
  | .retry => (s, .num (if s.retry then 1 else 0))

def Spec.empty : Spec.Q := ⟨[], none, false, -1, false⟩

def step (s : St) : Op → Option (St × Out × Bool)
  | .write b a => write a s b
  | .read n => (read s n).map fun (s, o) => (s, o, false)
  | .gets n => (gets s n).map fun (s, o) => (s, o, false)
  | .pending => some (s, .num (pending s), false)
  | .reset => (reset s).map fun (s, o) => (s, o, false)
  | .newBuf b t => some ((newBuf t s b).1, (newBuf t s b).2, false)
  | .setEof e => some ({ s with eof := e }, .ok, false)
  | .getEof => some (s, .num s.eof, false)
  | .info => (info s).map fun b => (s, .bytes b, false)
  | .retry => some (s, .num (if s.retry then 1 else 0), false)

/-- Sizes that fit the C types of the calls: buffers and lengths are below 2^32. -/
def Op.Sized : Op → Prop
  | .write b _ => b.length < 4294967296
  | .newBuf b _ => b.length < 2147483648
  | .read n => n < 4294967296
  | .gets n => n < 4294967296
  | _ => True

/-! ### Proof -/

theorem subSize_eq {a b : Nat} (h : b ≤ a) (ha : a < 2 ^ 32) : subSize a b = a - b := by unfold subSize; omega

theorem toU32_eq {a : Nat} (ha : a < 2 ^ 32) : toU32 a = a := Nat.mod_eq_of_lt ha

attribute [local irreducible] subSize toU32

structure Rel (s : St) (z : Spec.Q) : Prop where
  eof : z.eof = s.eof
  retry : z.retry = s.retry
  has : z.has = s.data.isSome
  roeq : z.ro = if s.ro then s.data else none
  rodata : s.ro = true → s.data.isSome = true
  none : s.data = none → s.length = 0 ∧ s.max = 0 ∧ s.readIndex = 0 ∧ z.q = []
  some : ∀ d, s.data = some d → d.length = s.max ∧ s.readIndex ≤ s.length ∧ s.length ≤ s.max ∧ s.max < 2 ^ 32 ∧
    z.q = (d.take s.length).drop s.readIndex ∧ (s.ro = true → s.length = s.max)

theorem Rel.pend {s : St} {z : Spec.Q} (h : Rel s z) : pending s = z.q.length ∧ s.readIndex + z.q.length = s.length ∧ s.length < 2 ^ 32 := by
  unfold pending
  cases hd : s.data with
  | none =>
    obtain ⟨h1, h2, h3, h4⟩ := h.none hd
    rw [h1, h3, h4, subSize_eq (by omega) (by decide)]; decide
  | some d =>
    obtain ⟨h1, h2, h3, h4, h5, _⟩ := h.some d hd
    have hl : z.q.length = s.length - s.readIndex := by rw [h5]; simp; omega
    rw [hl, subSize_eq h2 (by omega)]
    refine ⟨rfl, by omega, by omega⟩

theorem load_eq {d : List Byte} {off n : Nat} (h : off + n ≤ d.length) : load d off n = some ((d.drop off).take n) := by
  unfold load; rw [if_pos h]

theorem store_eq {d src : List Byte} {off : Nat} (h : off + src.length ≤ d.length) :
    store d off src = some (d.take off ++ src ++ d.drop (off + src.length)) := by unfold store; rw [if_pos h]

theorem store_take {d src d' : List Byte} {off : Nat} (h : store d off src = some d') :
    d'.length = d.length ∧ d'.take (off + src.length) = d.take off ++ src ∧ off + src.length ≤ d.length := by
  unfold store at h
  by_cases hc : off + src.length ≤ d.length
  · rw [if_pos hc] at h
    simp only [Option.some.injEq] at h
    subst h
    refine ⟨by simp; omega, ?_, hc⟩
    rw [List.take_append_of_le_length (by simp; omega), List.take_of_length_le (by simp; omega)]
  · rw [if_neg hc] at h; cases h

theorem sync_rel {s : St} {z : Spec.Q} (h : Rel s z) (hro : s.ro = false) :
    ∃ s', sync s = some (s', true) ∧ Rel s' z ∧ s'.readIndex = 0 ∧ s'.ro = false := by
  obtain ⟨hp1, hp2, hp3⟩ := h.pend
  unfold sync
  by_cases h0 : s.readIndex ≠ 0
  · rw [if_pos h0]
    cases hd : s.data with
    | none => exact absurd (h.none hd).2.2.1 h0
    | some d =>
      obtain ⟨h1, h2, h3, h4, h5, h6⟩ := h.some d hd
      have hm : subSize s.length s.readIndex = s.length - s.readIndex := subSize_eq h2 (by omega)
      simp only
      rw [hm, if_neg (by omega)]
      have hl := load_eq (d := d) (off := s.readIndex) (n := s.length - s.readIndex) (by omega)
      have hst := store_eq (d := d) (off := 0) (src := (d.drop s.readIndex).take (s.length - s.readIndex)) (by simp; omega)
      simp only [Option.bind_eq_bind, Option.bind_some, hl, hst]
      obtain ⟨t1, t2, t3⟩ := store_take hst
      refine ⟨_, rfl, ⟨h.eof, h.retry, ?_, ?_, ?_, ?_, ?_⟩, rfl, hro⟩
      · simp only [Option.isSome_some]; rw [h.has, hd]; rfl
      · simp only; rw [h.roeq, hro]; simp
      · intro hc; simp only at hc; rw [hro] at hc; cases hc
      · intro hc; cases hc
      · intro d' hd'
        simp only [Option.some.injEq] at hd'
        rw [hd'] at t1 t2
        refine ⟨by rw [t1]; exact h1, by simp, by simp only; omega, h4, ?_, fun hc => by simp only at hc; rw [hro] at hc; cases hc⟩
        simp only [List.drop_zero]
        have hlen : (List.take (s.length - s.readIndex) (List.drop s.readIndex d)).length = s.length - s.readIndex := by
          simp; omega
        rw [hlen, Nat.zero_add] at t2
        rw [t2, h5, List.drop_take]; rfl
  · rw [if_neg h0]
    exact ⟨s, rfl, h, by omega, hro⟩

/-- Writing after compaction. -/
theorem write_rel {s : St} {z : Spec.Q} (h : Rel s z) (hro : s.ro = false) (a : Alloc) (b : List Byte) (hb : b ≠ [])
    (hlen : b.length < 4294967296) :
    (∃ s', write a s b = some (s', .num b.length, false) ∧ Rel s' { z with q := z.q ++ b, has := true, retry := false }) ∨
    (∃ s', write a s b = some (s', .fail, true) ∧ Rel s' { z with retry := false } ∧
      (a.ok = false ∨ z.q.length + b.length ≥ 3221225469)) := by
  have hbl : 0 < b.length := List.length_pos_iff.2 hb
  have h0 : Rel { s with retry := false } { z with retry := false } := ⟨h.eof, rfl, h.has, h.roeq, h.rodata, h.none, h.some⟩
  obtain ⟨s1, e1, r1, e2, e3⟩ := sync_rel h0 hro
  have e1' : sync ⟨s.data, s.length, s.max, s.readIndex, s.eof, false, false⟩ = some (s1, true) := by rw [← e1, ← hro]
  obtain ⟨hp1, hp2, hp3⟩ := r1.pend
  simp only at hp1 hp2 hp3
  rw [e2, Nat.zero_add] at hp2
  unfold write
  rw [if_neg (by omega), hro]
  simp only [Bool.false_eq_true, if_false, e1', Option.bind_eq_bind, Option.bind_some, Bool.not_true]
  by_cases hov : s1.length > 2 ^ 32 - 1 - b.length
  · rw [if_pos hov]
    exact .inr ⟨s1, rfl, r1, .inr (by omega)⟩
  · rw [if_neg hov]
    unfold growClean
    rw [if_neg (by omega)]
    by_cases hmx : s1.max ≥ s1.length + b.length
    · rw [if_pos hmx]
      cases hd : s1.data with
      | none => have := r1.none hd; omega
      | some d =>
        obtain ⟨h1, h2, h3, h4, h5, h6⟩ := r1.some d hd
        have hs1 := store_eq (d := d) (off := s1.length) (src := List.replicate (s1.length + b.length - s1.length) 0) (by simp; omega)
        obtain ⟨t1, t2, t3⟩ := store_take hs1
        generalize d.take s1.length ++ List.replicate (s1.length + b.length - s1.length) 0 ++
          d.drop (s1.length + (List.replicate (s1.length + b.length - s1.length) (0 : Byte)).length) = d1 at hs1 t1 t2
        have hs2 := store_eq (d := d1) (off := s1.length) (src := b) (by omega)
        obtain ⟨u1, u2, u3⟩ := store_take hs2
        simp only [Option.bind_eq_bind, Option.bind_some, hs1, Bool.not_true, Bool.false_eq_true, if_false, hs2]
        refine .inl ⟨_, rfl, ⟨r1.eof, r1.retry, rfl, ?_, ?_, ?_, ?_⟩⟩
        · simp only; rw [e3]; simp only [Bool.false_eq_true, if_false]; rw [h.roeq, hro]; rfl
        · intro _; rfl
        · intro hc; cases hc
        · intro d' hd'
          simp only [Option.some.injEq] at hd'
          rw [hd'] at u1 u2
          refine ⟨by simp only; omega, by simp only; omega, hmx, h4, ?_, fun hc => by simp only at hc; rw [e3] at hc; cases hc⟩
          simp only [e2, List.drop_zero] at h5 ⊢
          rw [u2, h5]
          congr 1
          have : d1.take s1.length = (d1.take (s1.length + (List.replicate (s1.length + b.length - s1.length) (0 : Byte)).length)).take s1.length := by
            rw [List.take_take]; congr 1; omega
          rw [this, t2, List.take_append_of_le_length (by simp; omega), List.take_take]
          congr 1; omega
    · rw [if_neg hmx]
      simp only
      generalize hn : (s1.length + b.length + 3) / 3 * 4 = n
      by_cases hbig : n < s1.length + b.length ∨ n > 2 ^ 32 - 1
      · rw [if_pos hbig]
        simp only [Option.bind_some, Bool.not_false, if_true]
        exact .inr ⟨s1, rfl, r1, .inr (by omega)⟩
      · rw [if_neg hbig]
        cases hok : a.ok with
        | false =>
          simp only [Bool.not_false, if_true, Option.bind_some]
          exact .inr ⟨s1, rfl, r1, .inl trivial⟩
        | true =>
          simp only [Bool.not_true, Bool.false_eq_true, if_false]
          -- the new block with the old contents
          have hfresh : ∃ f : List Byte, freshBlock a n s1 = some f ∧ f.length = n ∧ f.take s1.length = z.q := by
            unfold freshBlock
            cases hd : s1.data with
            | none =>
              obtain ⟨n1, n2, n3, n4⟩ := r1.none hd
              refine ⟨_, rfl, by simp, ?_⟩
              simp only at n4
              rw [n1, List.take_zero, n4]
            | some d =>
              obtain ⟨h1, h2, h3, h4, h5, h6⟩ := r1.some d hd
              simp only
              have hl := load_eq (d := d) (off := 0) (n := s1.max) (by omega)
              rw [List.drop_zero, List.take_of_length_le (by omega)] at hl
              have hst := store_eq (d := (List.range n).map a.fill) (off := 0) (src := d) (by simp; omega)
              obtain ⟨t1, t2, t3⟩ := store_take hst
              simp only [e2, List.drop_zero] at h5
              rw [h5]
              rw [Nat.zero_add] at t2
              generalize hf : List.take 0 ((List.range n).map a.fill) ++ d ++ List.drop (0 + d.length) ((List.range n).map a.fill) = f at hst t1
              rw [Nat.zero_add] at hf
              rw [hf, List.take_zero, List.nil_append] at t2
              simp only [hl, Option.bind_eq_bind, Option.bind_some, hst]
              refine ⟨f, rfl, by rw [t1]; simp, ?_⟩
              have : f.take s1.length = (f.take d.length).take s1.length := by
                rw [List.take_take]; congr 1; omega
              rw [this, t2]
          obtain ⟨f, f1, f2, f3⟩ := hfresh
          have hs1 := store_eq (d := f) (off := s1.length) (src := List.replicate (s1.length + b.length - s1.length) 0) (by simp; omega)
          obtain ⟨t1, t2, t3⟩ := store_take hs1
          generalize f.take s1.length ++ List.replicate (s1.length + b.length - s1.length) 0 ++
            f.drop (s1.length + (List.replicate (s1.length + b.length - s1.length) (0 : Byte)).length) = d1 at hs1 t1 t2
          have hs2 := store_eq (d := d1) (off := s1.length) (src := b) (by omega)
          obtain ⟨u1, u2, u3⟩ := store_take hs2
          simp only [f1, Option.bind_eq_bind, Option.bind_some, hs1, Bool.not_true, Bool.false_eq_true, if_false, hs2]
          refine .inl ⟨_, rfl, ⟨r1.eof, r1.retry, rfl, ?_, ?_, ?_, ?_⟩⟩
          · simp only; rw [e3]; simp only [Bool.false_eq_true, if_false]; rw [h.roeq, hro]; rfl
          · intro _; rfl
          · intro hc; cases hc
          · intro d' hd'
            simp only [Option.some.injEq] at hd'
            rw [hd'] at u1 u2
            refine ⟨by simp only; omega, by simp only; omega, by simp only; omega, by simp only; omega, ?_, fun hc => by simp only at hc; rw [e3] at hc; cases hc⟩
            simp only [e2, List.drop_zero]
            rw [u2, ← f3]
            congr 1
            have : d1.take s1.length = (d1.take (s1.length + (List.replicate (s1.length + b.length - s1.length) (0 : Byte)).length)).take s1.length := by
              rw [List.take_take]; congr 1; omega
            rw [this, t2, List.take_append_of_le_length (by simp; omega), List.take_take]
            congr 1; omega

theorem memRead_rel {s : St} {z : Spec.Q} (h : Rel s z) (n : Nat) (hn : 0 < n) :
    ∃ s', memRead s n = some (s', z.q.take n) ∧ Rel s' { z with q := z.q.drop n, retry := decide (z.q = [] ∧ z.eof ≠ 0) } := by
  obtain ⟨hp1, hp2, hp3⟩ := h.pend
  have hav : subSize s.length s.readIndex = z.q.length := hp1
  unfold memRead
  simp only [hav]
  by_cases hz : z.q = []
  · have : (if n > z.q.length then z.q.length else n) = 0 := by rw [hz]; simp
    rw [this, if_neg (by omega)]
    rw [hz, List.take_nil]
    refine ⟨_, rfl, ⟨h.eof, ?_, h.has, h.roeq, h.rodata, ?_, ?_⟩⟩
    · simp only [hz, true_and]; rw [h.eof]
    · intro hd; obtain ⟨a, b, c, d⟩ := h.none hd; exact ⟨a, b, c, by simp [hz]⟩
    · intro d hd; obtain ⟨h1, h2, h3, h4, h5, h6⟩ := h.some d hd
      exact ⟨h1, h2, h3, h4, by simp only; rw [← h5, hz]; simp, h6⟩
  · have hpos : 0 < z.q.length := List.length_pos_iff.2 hz
    cases hd : s.data with
    | none => exact absurd (h.none hd).2.2.2 hz
    | some d =>
      obtain ⟨h1, h2, h3, h4, h5, h6⟩ := h.some d hd
      have hreal : (if n > z.q.length then z.q.length else n) = min n z.q.length := by
        split <;> omega
      rw [hreal, if_pos (by omega)]
      have hl := load_eq (d := d) (off := s.readIndex) (n := min n z.q.length) (by omega)
      simp only [Option.bind_eq_bind, Option.bind_some, hl]
      have htk : (d.drop s.readIndex).take (min n z.q.length) = z.q.take n := by
        have hqq : z.q = (d.drop s.readIndex).take z.q.length := by
          have : s.length - s.readIndex = z.q.length := by omega
          rw [← this, ← List.drop_take]; exact h5
        conv => rhs; rw [hqq]
        rw [List.take_take]
      rw [htk]
      refine ⟨_, rfl, ⟨h.eof, ?_, ?_, ?_, ?_, ?_, ?_⟩⟩
      · simp [hz]
      · simp only; rw [h.has, hd]
      · simp only; rw [h.roeq, hd]
      · intro _; rfl
      · intro hc; cases hc
      · intro d' hd'
        simp only [Option.some.injEq] at hd'
        subst hd'
        refine ⟨h1, by simp only; omega, h3, h4, ?_, h6⟩
        simp only
        by_cases hx : n ≤ z.q.length
        · rw [Nat.min_eq_left hx, h5, List.drop_drop]
        · rw [Nat.min_eq_right (by omega), List.drop_eq_nil_of_le (by omega), List.drop_eq_nil_of_le (by simp; omega)]

theorem scan_spec : ∀ (n : Nat) (l : List Byte), n ≤ l.length → scan n l = some (Spec.line (l.take n)).length ∧
    Spec.line (l.take n) = l.take (Spec.line (l.take n)).length ∧ (0 < n → 0 < (Spec.line (l.take n)).length)
  | 0, l, _ => ⟨rfl, by simp [Spec.line], by simp⟩
  | n + 1, [], h => by simp at h
  | n + 1, c :: l, h => by
    obtain ⟨i1, i2, i3⟩ := scan_spec n l (by simpa using h)
    simp only [scan, List.take_succ_cons, Spec.line]
    by_cases hc : c = 10#8
    · simp [hc]
    · simp only [hc, if_false, i1, Option.bind_eq_bind, Option.bind_some, List.length_cons, List.take_succ_cons]
      exact ⟨trivial, by rw [← i2], by omega⟩

theorem line_len (l : List Byte) : (Spec.line l).length ≤ l.length := by
  induction l with
  | nil => simp [Spec.line]
  | cons c l ih => unfold Spec.line; split <;> simp; omega

theorem line_nil (l : List Byte) : Spec.line l = [] ↔ l = [] := by
  cases l with
  | nil => simp [Spec.line]
  | cons c l => unfold Spec.line; split <;> simp

theorem gets_cnt {z : Spec.Q} {n : Nat} (hz : z.q.length < 2 ^ 32) (hn : n < 4294967296) :
    toU32 (if n - 1 ≥ z.q.length then z.q.length else n - 1) = min (n - 1) z.q.length := by
  rw [toU32_eq]
  · split <;> omega
  · split <;> omega

theorem gets_eq (s : St) {n k : Nat} (hn : n ≠ 0)
    (hk : toU32 (if n - 1 ≥ subSize s.length s.readIndex then subSize s.length s.readIndex else n - 1) = k) :
    gets s n = if k = 0 then some (s, .bytes []) else
          s.data.bind fun d => (scan k (d.drop s.readIndex)).bind fun cnt =>
            (memRead s cnt).bind fun r => some (r.1, .bytes r.2) := by
  subst hk
  unfold gets
  rw [if_neg hn]
  rfl

theorem gets_rel {s : St} {z : Spec.Q} (h : Rel s z) (n : Nat) (hs : n < 4294967296) :
    ∃ s', gets s n = some (s', (Spec.step false z (.gets n)).2) ∧ Rel s' (Spec.step false z (.gets n)).1 := by
  obtain ⟨hp1, hp2, hp3⟩ := h.pend
  by_cases hn : n = 0
  · subst hn
    have hsp : Spec.step false z (.gets 0) = (z, .bytes []) := by simp [Spec.step, Spec.line]
    exact ⟨s, by rw [hsp, gets, if_pos rfl], by rw [hsp]; exact h⟩
  · rw [gets_eq s hn (k := min (n - 1) z.q.length)]
    · simp only [Spec.step]
      by_cases hz : z.q.take (n - 1) = []
      · have hm : min (n - 1) z.q.length = 0 := by
          have := congrArg List.length hz
          simpa using this
        rw [hm]
        have hl0 : Spec.line (z.q.take (n - 1)) = [] := (line_nil _).2 hz
        exact ⟨s, by simp [hl0], by simpa [hl0] using h⟩
      · have hm : 0 < min (n - 1) z.q.length := by
          have := List.length_pos_iff.2 hz
          simpa using this
        have hlne : Spec.line (z.q.take (n - 1)) ≠ [] := fun hc => hz ((line_nil _).1 hc)
        have hqne : z.q ≠ [] := by intro hc; rw [hc] at hz; simp at hz
        rw [if_neg (by omega)]
        cases hd : s.data with
        | none => exact absurd (h.none hd).2.2.2 hqne
        | some d =>
          obtain ⟨h1, h2, h3, h4, h5, h6⟩ := h.some d hd
          obtain ⟨c1, c2, c3⟩ := scan_spec (min (n - 1) z.q.length) (d.drop s.readIndex) (by simp; omega)
          have htk : (d.drop s.readIndex).take (min (n - 1) z.q.length) = z.q.take (n - 1) := by
            have hqq : z.q = (d.drop s.readIndex).take z.q.length := by
              have : s.length - s.readIndex = z.q.length := by omega
              rw [← this, ← List.drop_take]; exact h5
            conv => rhs; rw [hqq]
            rw [List.take_take]
          rw [htk] at c1 c2 c3
          obtain ⟨s', e1, e2⟩ := memRead_rel h (Spec.line (z.q.take (n - 1))).length (c3 hm)
          have hle := line_len (z.q.take (n - 1))
          rw [List.length_take] at hle
          have hqt : z.q.take (Spec.line (z.q.take (n - 1))).length = Spec.line (z.q.take (n - 1)) := by
            have : z.q.take (Spec.line (z.q.take (n - 1))).length =
                (z.q.take (n - 1)).take (Spec.line (z.q.take (n - 1))).length := by
              rw [List.take_take, Nat.min_eq_left (by omega)]
            rw [this, ← htk, List.take_take, htk, Nat.min_eq_left (by omega)]
            exact c2.symm
          refine ⟨s', ?_, ?_⟩
          · rw [Option.bind_some, c1, Option.bind_some, e1, Option.bind_some, hqt, if_neg hlne]
          · simp only [if_neg hlne]
            simpa [hqne] using e2
    · rw [show subSize s.length s.readIndex = z.q.length from hp1]
      exact gets_cnt (by omega) hs

/-- One call. -/
theorem step_refines {s : St} {z : Spec.Q} (h : Rel s z) (op : Op) (hs : op.Sized) :
    ∃ s' lack, step s op = some (s', (Spec.step lack z op).2, lack) ∧ Rel s' (Spec.step lack z op).1 ∧
      (lack = true → ∃ b a, op = .write b a ∧ (a.ok = false ∨ z.q.length + b.length ≥ 3221225469)) := by
  have hself : ∀ (s : St) (z : Spec.Q), Rel s z → Rel s z := fun _ _ h => h
  obtain ⟨hp1, hp2, hp3⟩ := h.pend
  cases op with
  | write b a =>
    by_cases hb : b = []
    · refine ⟨s, false, ?_, ?_, by simp⟩
      · subst hb; simp [step, write, Spec.step]
      · simp only [Spec.step, if_pos hb]; exact h
    · cases hro : s.ro with
      | true =>
        have hroz : ∃ w, z.ro = some w := by
          rw [h.roeq, hro]; simp only [if_true]
          exact Option.isSome_iff_exists.1 (h.rodata hro)
        obtain ⟨w, hw⟩ := hroz
        refine ⟨s, false, ?_, ?_, by simp⟩
        · have : b.length ≠ 0 := fun hc => hb (List.length_eq_zero_iff.1 hc)
          simp [step, write, Spec.step, hb, hw, hro]
        · simp only [Spec.step, if_neg hb, hw]; exact h
      | false =>
        have hw : z.ro = none := by rw [h.roeq, hro]; rfl
        rcases write_rel h hro a b hb hs with ⟨s', e1, e2⟩ | ⟨s', e1, e2, e3⟩
        · refine ⟨s', false, ?_, ?_, by simp⟩
          · simp only [step, e1, Spec.step, if_neg hb, hw, Bool.false_eq_true, if_false]
          · simp only [Spec.step, if_neg hb, hw, Bool.false_eq_true, if_false]
            rw [hw] at e2; exact e2
        · refine ⟨s', true, ?_, ?_, fun _ => ⟨b, a, rfl, e3⟩⟩
          · simp only [step, e1, Spec.step, if_neg hb, hw, if_true]
          · simp only [Spec.step, if_neg hb, hw, if_true]
            rw [hw] at e2; exact e2
  | read n =>
    by_cases hn : n = 0
    · exact ⟨s, false, by simp [step, read, Spec.step, hn], by simp only [Spec.step, if_pos hn]; exact h, by simp⟩
    · obtain ⟨s', e1, e2⟩ := memRead_rel h n (by omega)
      refine ⟨s', false, ?_, by simp only [Spec.step, if_neg hn]; exact e2, by simp⟩
      simp [step, read, Spec.step, hn, e1]
  | gets n =>
    obtain ⟨s', e1, e2⟩ := gets_rel h n hs
    exact ⟨s', false, by rw [step, e1]; rfl, e2, by simp⟩
  | pending =>
    exact ⟨s, false, by simp [step, Spec.step, hp1], h, by simp⟩
  | reset =>
    simp only [step, reset, Spec.step]
    cases hd : s.data with
    | none =>
      have hh : z.has = false := by rw [h.has, hd]; rfl
      exact ⟨s, false, by simp [hh], by simpa [hh] using h, by simp⟩
    | some d =>
      have hh : z.has = true := by rw [h.has, hd]; rfl
      obtain ⟨h1, h2, h3, h4, h5, h6⟩ := h.some d hd
      simp only [hh, if_true]
      cases hro : s.ro with
      | true =>
        have hw : z.ro = some d := by rw [h.roeq, hro, hd]; rfl
        simp only [hw, if_true, Option.map_some]
        refine ⟨_, false, rfl, ⟨h.eof, h.retry, rfl, rfl, fun _ => rfl, ?_, ?_⟩, by simp⟩
        · intro hc; cases hc
        · intro d' hd'
          simp only [Option.some.injEq] at hd'
          subst hd'
          have := h6 hro
          refine ⟨h1, by simp, h3, h4, ?_, fun _ => this⟩
          simp only [List.drop_zero]
          rw [List.take_of_length_le (by omega)]
      | false =>
        have hw : z.ro = none := by rw [h.roeq, hro]; rfl
        have hst := store_eq (d := d) (off := 0) (src := List.replicate s.max 0) (by simp; omega)
        obtain ⟨t1, t2, t3⟩ := store_take hst
        simp only [hw, Bool.false_eq_true, if_false, Option.bind_eq_bind, hst, Option.bind_some, Option.map_some]
        refine ⟨_, false, rfl, ⟨h.eof, h.retry, ?_, ?_, ?_, ?_, ?_⟩, by simp⟩
        · rfl
        · rfl
        · intro _; rfl
        · intro hc; cases hc
        · intro d' hd'
          simp only [Option.some.injEq] at hd'
          rw [hd'] at t1
          refine ⟨by simp only; omega, by simp, by simp, h4, by simp, fun hc => by cases hc⟩
  | newBuf b tmpOk =>
    have hsb : b.length < 2147483648 := hs
    have hcond : (s.data.isSome = true ∧ s.ro = false) ↔ (z.has = true ∧ z.ro = none) := by
      rw [h.has, h.roeq]
      constructor
      · rintro ⟨h1, h2⟩; exact ⟨h1, by rw [h2]; rfl⟩
      · rintro ⟨h1, h2⟩
        refine ⟨h1, ?_⟩
        cases hro : s.ro with
        | false => rfl
        | true => rw [hro] at h2; simp only [if_true] at h2; rw [h2] at h1; cases h1
    simp only [step, newBuf, Spec.step]
    by_cases h1 : s.data.isSome = true ∧ s.ro = false
    · rw [if_pos h1, if_pos (Or.inl (hcond.1 h1))]
      exact ⟨s, false, rfl, h, by simp⟩
    · rw [if_neg h1]
      cases tmpOk with
      | false =>
        simp only [Bool.not_false, if_true, or_true]
        exact ⟨s, false, rfl, h, by simp⟩
      | true =>
        simp only [Bool.not_true, Bool.false_eq_true, if_false]
        rw [if_neg (by rintro (hc | hc); exact h1 (hcond.2 hc); cases hc)]
        refine ⟨_, false, rfl, ⟨rfl, rfl, rfl, rfl, fun _ => rfl, fun hc => (by cases hc), ?_⟩, by simp⟩
        intro d hd
        simp only [Option.some.injEq] at hd
        subst hd
        refine ⟨rfl, by simp, by simp, by simp only; omega, by simp, fun _ => rfl⟩
  | setEof e =>
    exact ⟨_, false, rfl, ⟨rfl, h.retry, h.has, h.roeq, h.rodata, h.none, h.some⟩, by simp⟩
  | getEof => exact ⟨s, false, by simp [step, Spec.step, h.eof], h, by simp⟩
  | info =>
    refine ⟨s, false, ?_, h, by simp⟩
    simp only [step, info, hp1, Spec.step]
    cases hd : s.data with
    | none => obtain ⟨_, _, _, hq⟩ := h.none hd; simp [hq]
    | some d =>
      obtain ⟨h1, h2, h3, h4, h5, h6⟩ := h.some d hd
      simp only
      rw [load_eq (by omega)]
      have : s.length - s.readIndex = z.q.length := by omega
      rw [← this, ← List.drop_take, ← h5]; rfl
  | retry => exact ⟨s, false, by simp [step, Spec.step, h.retry], h, by simp⟩

def run : List Op → St → Option (St × List (Out × Bool))
  | [], s => some (s, [])
  | op :: ops, s => do
    let (s, o, lack) ← step s op
    let (s, os) ← run ops s
    some (s, (o, lack) :: os)

def Spec.run : List Op → List Bool → Spec.Q → Spec.Q × List Out
  | op :: ops, lack :: lacks, z =>
    let r := Spec.step lack z op
    let t := Spec.run ops lacks r.1
    (t.1, r.2 :: t.2)
  | _, _, z => (z, [])

/-- Room was lacking only in a write whose allocation failed or that would have brought the queue to 3221225469 bytes. -/
def Spec.lackOk : List Op → List Bool → Spec.Q → Prop
  | op :: ops, lack :: lacks, z =>
    (lack = true → ∃ b a, op = .write b a ∧ (a.ok = false ∨ z.q.length + b.length ≥ 3221225469)) ∧
      Spec.lackOk ops lacks (Spec.step lack z op).1
  | _, _, _ => True

theorem rel_create : Rel create Spec.empty :=
  ⟨rfl, rfl, rfl, rfl, fun h => (by cases h), fun _ => ⟨rfl, rfl, rfl, rfl⟩, fun d h => by cases h⟩

/-- C44. Every history of calls on a new memory UIO, for every behaviour of the allocator: no access outside a buffer, and
the results are those of a byte queue. A write lacks room only if the allocation failed or 3221225469 bytes would be
queued. -/
theorem run_refines (ops : List Op) (hs : ∀ op ∈ ops, op.Sized) :
    ∃ s outs, run ops create = some (s, outs) ∧ outs.length = ops.length ∧
      outs.map (·.1) = (Spec.run ops (outs.map (·.2)) Spec.empty).2 ∧ Spec.lackOk ops (outs.map (·.2)) Spec.empty := by
  have key : ∀ (ops : List Op), (∀ op ∈ ops, op.Sized) → ∀ (s : St) (z : Spec.Q), Rel s z →
      ∃ s' outs, run ops s = some (s', outs) ∧ outs.length = ops.length ∧
      outs.map (·.1) = (Spec.run ops (outs.map (·.2)) z).2 ∧ Spec.lackOk ops (outs.map (·.2)) z := by
    intro ops
    induction ops with
    | nil => intro _ s z h; exact ⟨s, [], rfl, rfl, rfl, trivial⟩
    | cons op ops ih =>
      intro hs s z h
      obtain ⟨s1, lack, e1, e2, e3⟩ := step_refines h op (hs op (by simp))
      obtain ⟨s2, outs, r1, r2, r3, r4⟩ := ih (fun o ho => hs o (by simp [ho])) s1 _ e2
      refine ⟨s2, ((Spec.step lack z op).2, lack) :: outs, ?_, by simp [r2], ?_, ?_⟩
      · simp only [run, e1, r1, Option.bind_eq_bind, Option.bind_some]
      · simp only [List.map_cons, Spec.run, r3]
      · simp only [List.map_cons, Spec.lackOk]; exact ⟨e3, r4⟩
  exact key ops hs _ _ rel_create

/-- The bytes read, in order. -/
def Spec.readBytes : List Op → List Out → List Byte
  | .read _ :: ops, .bytes b :: os => b ++ Spec.readBytes ops os
  | .gets _ :: ops, .bytes b :: os => b ++ Spec.readBytes ops os
  | _ :: ops, _ :: os => Spec.readBytes ops os
  | _, _ => []

/-- The bytes written successfully, in order. -/
def Spec.written : List Op → List Out → List Byte
  | .write b _ :: ops, .num _ :: os => b ++ Spec.written ops os
  | _ :: ops, _ :: os => Spec.written ops os
  | _, _ => []

theorem line_prefix (l : List Byte) : ∃ r, l = Spec.line l ++ r := by
  induction l with
  | nil => exact ⟨[], rfl⟩
  | cons c l ih =>
    obtain ⟨r, hr⟩ := ih
    unfold Spec.line
    split
    · exact ⟨l, rfl⟩
    · exact ⟨r, by rw [List.cons_append, ← hr]⟩

/-- Without a reset or an external buffer, what has been read followed by what is pending is what was written. -/
theorem fifo (ops : List Op) (lacks : List Bool) (hl : lacks.length = ops.length)
    (hn : ∀ op ∈ ops, op ≠ .reset ∧ ∀ b t, op ≠ .newBuf b t) :
    let r := Spec.run ops lacks Spec.empty
    Spec.written ops r.2 = Spec.readBytes ops r.2 ++ r.1.q := by
  have hgen : ∀ (q l r : List Byte), q = l ++ r → q = l ++ q.drop l.length := by
    intro q l r h; subst h; simp
  have key : ∀ (ops : List Op) (lacks : List Bool) (z : Spec.Q), lacks.length = ops.length → z.ro = none →
      (∀ op ∈ ops, op ≠ .reset ∧ ∀ b t, op ≠ .newBuf b t) →
      z.q ++ Spec.written ops (Spec.run ops lacks z).2 = Spec.readBytes ops (Spec.run ops lacks z).2 ++ (Spec.run ops lacks z).1.q := by
    intro ops
    induction ops with
    | nil => intro lacks z _ _ _; cases lacks <;> simp [Spec.run, Spec.written, Spec.readBytes]
    | cons op ops ih =>
      intro lacks z hl hro hn
      match lacks, hl with
      | lack :: lacks, hl =>
        have ih' := fun z' (h : z'.ro = none) => ih lacks z' (by simpa using hl) h (fun o ho => hn o (by simp [ho]))
        have hop := hn op (by simp)
        simp only [Spec.run]
        cases op with
        | write b a =>
          have hcase : Spec.step lack z (.write b a) = (z, .fail) ∨ Spec.step lack z (.write b a) = ({ z with retry := false }, .fail) ∨
              Spec.step lack z (.write b a) = ({ z with q := z.q ++ b, has := true, retry := false }, .num b.length) := by
            simp only [Spec.step, hro]
            split
            · exact .inl rfl
            · cases lack
              · exact .inr (.inr rfl)
              · exact .inr (.inl rfl)
          rcases hcase with h | h | h <;> rw [h]
          · simp only [Spec.written, Spec.readBytes]; exact ih' z hro
          · simp only [Spec.written, Spec.readBytes]; exact ih' { z with retry := false } hro
          · simp only [Spec.written, Spec.readBytes]
            have := ih' { z with q := z.q ++ b, has := true, retry := false } hro
            rw [← this]; simp
        | read n =>
          by_cases h0 : n = 0
          · simp only [Spec.step, if_pos h0, Spec.written, Spec.readBytes]; exact ih' z hro
          · simp only [Spec.step, if_neg h0, Spec.written, Spec.readBytes]
            have := ih' { z with q := z.q.drop n, retry := decide (z.q = [] ∧ z.eof ≠ 0) } hro
            rw [List.append_assoc, ← this, ← List.append_assoc, List.take_append_drop]
        | gets n =>
          simp only [Spec.step]
          by_cases h0 : Spec.line (z.q.take (n - 1)) = []
          · simp only [h0, if_true, Spec.written, Spec.readBytes, List.nil_append]; exact ih' z hro
          · simp only [if_neg h0, Spec.written, Spec.readBytes]
            have := ih' { z with q := z.q.drop (Spec.line (z.q.take (n - 1))).length, retry := false } hro
            rw [List.append_assoc, ← this, ← List.append_assoc]
            congr 1
            obtain ⟨r, hr⟩ := line_prefix (z.q.take (n - 1))
            have hz : z.q = Spec.line (z.q.take (n - 1)) ++ (r ++ z.q.drop (n - 1)) := by
              rw [← List.append_assoc, ← hr, List.take_append_drop]
            exact hgen _ _ _ hz
        | pending => simp only [Spec.step, Spec.written, Spec.readBytes]; exact ih' z hro
        | reset => exact absurd rfl hop.1
        | newBuf b t => exact absurd rfl (hop.2 b t)
        | setEof e => simp only [Spec.step, Spec.written, Spec.readBytes]; exact ih' { z with eof := e } hro
        | getEof => simp only [Spec.step, Spec.written, Spec.readBytes]; exact ih' z hro
        | info => simp only [Spec.step, Spec.written, Spec.readBytes]; exact ih' z hro
        | retry => simp only [Spec.step, Spec.written, Spec.readBytes]; exact ih' z hro
  intro r
  exact key ops lacks Spec.empty hl rfl hn

-- Non-vacuity: growth, compaction, a line read, an empty read.
example : ((run [.write [1#8, 2#8, 3#8] ⟨true, fun _ => 0#8⟩, .read 2, .write [4#8, 10#8, 5#8] ⟨true, fun _ => 7#8⟩, .pending,
    .gets 9, .read 5, .read 5, .retry] create).map fun r => r.2.map (·.1)) =
    some [.num 3, .bytes [1#8, 2#8], .num 3, .num 4, .bytes [3#8, 4#8, 10#8], .bytes [5#8], .bytes [], .num 1] := by decide +kernel

end Verif.Bsl.UioMem
