import Verif.Auth.Otp.Model
import Verif.Auth.Otp.Spec
import Mathlib.Tactic.NormNum
import Mathlib.Tactic.Ring
import Mathlib.Tactic.IntervalCases

/-! C79: one-time passwords. -/
namespace Verif.Auth.Otp
open Verif.Common

/-! ## Contexts -/

/-- What holds of a context after any history of calls. -/
structure Inv (c : Ctx) : Prop where
  lo : 6 ≤ c.digits
  hi : c.digits ≤ 8
  step : 0 < c.step
  window : c.window ≤ 10
  start : c.start < 2 ^ 64
  key : ∀ k, c.key = some k → 16 ≤ k.length

/-- A context after a history of calls. -/
def after (totp : Bool) (h : List Cmd) : Ctx := h.foldl Ctx.set (newCtx totp)

theorem inv_set {c : Ctx} (h : Inv c) (x : Cmd) : Inv (c.set x) := by
  obtain ⟨h1, h2, h3, h4, h5, h6⟩ := h
  cases x <;> simp only [Ctx.set] <;> (try split_ifs) <;> constructor <;> (try simp only) <;> (try assumption) <;> (try omega)
  intro k hk; cases hk; omega

/-- Every history of calls leaves a usable context: 6 to 8 digits, a step that is not 0, a window of at most 10 steps, a key of at least
128 bits if any. -/
theorem after_inv (totp : Bool) (h : List Cmd) : Inv (after totp h) := by
  have : ∀ (l : List Cmd) (c : Ctx), Inv c → Inv (l.foldl Ctx.set c) := by
    intro l
    induction l with
    | nil => intro c hc; exact hc
    | cons x l ih => intro c hc; exact ih _ (inv_set hc x)
  refine this h _ ⟨?_, ?_, ?_, ?_, ?_, ?_⟩ <;> simp [newCtx]

/-- What each call changes: the value of the call is in force afterwards exactly when it is allowed, and nothing else changes. -/
theorem set_exact (c : Ctx) (key : List Byte) (n : Nat) (h : Hash) :
    ((c.set (.init key)).key = if 16 ≤ key.length then some key else c.key)
    ∧ ((c.set (.digits n)).digits = if 6 ≤ n ∧ n ≤ 8 then n else c.digits)
    ∧ ((c.set (.hash h)).hash = h)
    ∧ ((c.set (.step n)).step = if c.totp = true ∧ 0 < n then n else c.step)
    ∧ ((c.set (.start n)).start = if c.totp = true then n % 2 ^ 64 else c.start)
    ∧ ((c.set (.window n)).window = if c.totp = true ∧ n ≤ 10 then n else c.window)
    ∧ { c.set (.init key) with key := c.key } = c ∧ { c.set (.digits n) with digits := c.digits } = c
    ∧ { c.set (.hash h) with hash := c.hash } = c ∧ { c.set (.step n) with step := c.step } = c
    ∧ { c.set (.start n) with start := c.start } = c ∧ { c.set (.window n) with window := c.window } = c := by
  obtain ⟨totp, key', d, hh, st, sta, w⟩ := c
  refine ⟨?_, ?_, ?_, ?_, ?_, ?_, ?_, ?_, ?_, ?_, ?_, ?_⟩ <;> cases totp <;> simp only [Ctx.set] <;> (try split_ifs) <;>
    first | rfl | (exfalso; omega) | simp_all

/-- The kind of a context never changes. -/
theorem after_totp (totp : Bool) (h : List Cmd) : (after totp h).totp = totp := by
  have one : ∀ (c : Ctx) (x : Cmd), (c.set x).totp = c.totp := by
    intro c x
    cases x <;> simp only [Ctx.set] <;> (try split_ifs) <;> rfl
  have : ∀ (l : List Cmd) (c : Ctx), (l.foldl Ctx.set c).totp = c.totp := by
    intro l
    induction l with
    | nil => intro c; rfl
    | cons x l ih => intro c; rw [List.foldl_cons, ih, one]
  exact this h _

/-! ## Text -/

theorem value_cons (ch : Byte) (s : List Byte) : Spec.value (ch :: s) = 10 ^ s.length * (ch.toNat - 48) + Spec.value s := by
  have gen : ∀ (s : List Byte) (n : Nat), s.foldl (fun n ch => 10 * n + (ch.toNat - 48)) n = 10 ^ s.length * n + Spec.value s := by
    intro s
    induction s with
    | nil => intro n; simp [Spec.value]
    | cons x s ih =>
      intro n
      have e := ih (10 * 0 + (x.toNat - 48))
      unfold Spec.value
      rw [List.foldl_cons, List.foldl_cons, ih, e, List.length_cons, pow_succ]; ring
  unfold Spec.value
  rw [List.foldl_cons, gen]; simp [Spec.value]

theorem value_lt (s : List Byte) (h : ∀ ch ∈ s, 48 ≤ ch.toNat ∧ ch.toNat ≤ 57) : Spec.value s < 10 ^ s.length := by
  induction s with
  | nil => simp [Spec.value]
  | cons x s ih =>
    rw [value_cons, List.length_cons, pow_succ]
    have h1 := ih fun ch hc => h ch (List.mem_cons_of_mem _ hc)
    have h2 := h x List.mem_cons_self
    have h3 : 10 ^ s.length * (x.toNat - 48) ≤ 10 ^ s.length * 9 := Nat.mul_le_mul_left _ (by omega)
    omega

/-- A number has one text of a given length. -/
theorem isText_unique {s t : List Byte} {d n : Nat} (hs : Spec.IsText s d n) (ht : Spec.IsText t d n) : s = t := by
  induction s generalizing t d n with
  | nil =>
    obtain ⟨h1, _, _⟩ := hs
    obtain ⟨h2, _, _⟩ := ht
    cases t with
    | nil => rfl
    | cons => simp at h1 h2; omega
  | cons x s ih =>
    obtain ⟨a1, a2, a3⟩ := hs
    obtain ⟨b1, b2, b3⟩ := ht
    cases t with
    | nil => simp at a1 b1; omega
    | cons y t =>
      have hl : s.length = t.length := by simp at a1 b1; omega
      have hx := a2 x List.mem_cons_self
      have hy := b2 y List.mem_cons_self
      have s' := fun ch hc => a2 ch (List.mem_cons_of_mem _ hc)
      have t' := fun ch hc => b2 ch (List.mem_cons_of_mem _ hc)
      have l1 := value_lt s s'
      have l2 := value_lt t t'
      rw [value_cons] at a3 b3
      rw [← hl] at l2 b3
      have e : 10 ^ s.length * (x.toNat - 48) + Spec.value s = 10 ^ s.length * (y.toNat - 48) + Spec.value t := by omega
      have pos : 0 < 10 ^ s.length := Nat.pow_pos (by decide)
      have q := congrArg (· / 10 ^ s.length) e
      simp only [Nat.mul_add_div pos, Nat.div_eq_of_lt l1, Nat.div_eq_of_lt l2, Nat.add_zero] at q
      have hxy : x = y := BitVec.eq_of_toNat_eq (by omega)
      subst hxy
      rw [ih ⟨rfl, s', rfl⟩ ⟨hl.symm, t', by omega⟩]

theorem digit_toNat (n : Nat) (h : n < 10) : (BitVec.ofNat 8 (48 + n)).toNat = 48 + n := by
  rw [BitVec.toNat_ofNat, Nat.mod_eq_of_lt (by omega)]

/-- The loop writes the decimal digits. -/
theorem digitsLoop_text (bin : Nat) : ∀ k i acc, i + k ≤ 8 → Spec.IsText acc i (bin % 10 ^ i) →
    Spec.IsText (digitsLoop bin k (10 ^ (i + 1)) (10 ^ i) acc) (i + k) (bin % 10 ^ (i + k)) := by
  intro k
  induction k with
  | zero => intro i acc _ h; exact h
  | succ k ih =>
    intro i acc hk h
    have p1 : (10 : Nat) ^ (i + 1) ≤ 10 ^ 8 := Nat.pow_le_pow_right (by decide) (by omega)
    have e1 : 10 ^ (i + 1) * 10 % 2 ^ 32 = 10 ^ (i + 1 + 1) := by
      rw [Nat.mod_eq_of_lt (by omega), ← pow_succ]
    have e2 : 10 ^ i * 10 % 2 ^ 32 = 10 ^ (i + 1) := by
      rw [← pow_succ, Nat.mod_eq_of_lt (by omega)]
    unfold digitsLoop
    rw [e1, e2, show i + (k + 1) = i + 1 + k by omega]
    refine ih (i + 1) _ (by omega) ?_
    obtain ⟨a1, a2, a3⟩ := h
    have pos : 0 < 10 ^ i := Nat.pow_pos (by decide)
    have hd : bin % 10 ^ (i + 1) / 10 ^ i < 10 := by
      rw [Nat.div_lt_iff_lt_mul pos]
      have := Nat.mod_lt bin (show 0 < 10 ^ (i + 1) from Nat.pow_pos (by decide))
      rw [pow_succ] at this ⊢
      omega
    refine ⟨by simp [a1], ?_, ?_⟩
    · intro ch hc
      rcases List.mem_cons.mp hc with h | h
      · subst h; rw [digit_toNat _ hd]; exact ⟨Nat.le_add_right _ _, Nat.add_le_add_left (Nat.le_of_lt_succ hd) 48⟩
      · exact a2 ch h
    · rw [value_cons, digit_toNat _ hd, a1, a3, Nat.add_sub_cancel_left]
      have hm : bin % 10 ^ i = bin % 10 ^ (i + 1) % 10 ^ i := by
        rw [Nat.mod_mod_of_dvd _ (pow_dvd_pow 10 (Nat.le_succ i))]
      rw [hm]
      exact Nat.div_add_mod _ _

/-! ## The code of a counter -/

theorem counter_eq (mf : Nat) : counter mf = beBytes 8 mf := by
  have hb : ∀ x : Nat, BitVec.ofNat 8 (x &&& 0xFF) = BitVec.ofNat 8 x := by
    intro x
    apply BitVec.eq_of_toNat_eq
    rw [BitVec.toNat_ofNat, BitVec.toNat_ofNat, show (0xFF : Nat) = 2 ^ 8 - 1 from rfl, Nat.and_two_pow_sub_one_eq_mod, Nat.mod_mod]
  unfold counter
  simp only [hb, Nat.shiftRight_eq_div_pow]
  simp only [List.range_succ, List.range_zero, List.map_append, List.map_cons, List.map_nil, List.nil_append]
  simp only [beBytes]
  simp [Nat.div_div_eq_div_mul]

theorem truncate_eq (hs : List Byte) (h : 20 ≤ hs.length) : truncate hs = some (Spec.snum hs) := by
  have hne : hs ≠ [] := by intro e; subst e; simp at h
  unfold truncate Spec.snum
  have hl : hs.getLast? = some (hs.getLast hne) := List.getLast?_eq_some_getLast hne
  have hd : hs.getLastD 0 = hs.getLast hne := by rw [List.getLastD_eq_getLast?, hl]; rfl
  rw [hl, hd]
  have ho : (hs.getLast hne &&& 0x0F).toNat = (hs.getLast hne).toNat % 16 := by
    rw [BitVec.toNat_and]
    exact Nat.and_two_pow_sub_one_eq_mod _ 4
  simp only [ho]
  have := Nat.mod_lt (hs.getLast hne).toNat (show 16 > 0 by decide)
  rw [if_neg (by omega)]
  exact congrArg some (Nat.and_two_pow_sub_one_eq_mod _ 31)

section
variable {F : Hash → List Byte → List Byte → List Byte}

/-- The code of a counter: there is no read outside the MAC, and the text is that of RFC 4226. -/
theorem generic_exact (hF : ∀ h k m, (F h k m).length = h.size) (c : Ctx) (hc : Inv c) (key : List Byte) (hk : c.key = some key) (mf : Nat) :
    ∃ s, generic F c mf = .ok s ∧ Spec.IsText s c.digits (Spec.hotp (F c.hash) key mf c.digits) := by
  have hl : 20 ≤ (F c.hash key (beBytes 8 mf)).length := by rw [hF]; cases c.hash <;> decide
  unfold generic
  simp only [hk, counter_eq, truncate_eq _ hl]
  refine ⟨_, rfl, ?_⟩
  have := digitsLoop_text (Spec.snum (F c.hash key (beBytes 8 mf))) c.digits 0 [] (by have := hc.hi; omega)
    ⟨rfl, by simp, by simp [Spec.value, Nat.mod_one]⟩
  simpa [Spec.hotp] using this

/-- C79. Generation, in any history: a context with a key gives the code of RFC 4226 for the counter, or for the time step of RFC 6238;
the only errors are a small buffer and a time before the start. -/
theorem gen_exact (hF : ∀ h k m, (F h k m).length = h.size) (totp : Bool) (h : List Cmd) (key : List Byte)
    (hk : (after totp h).key = some key) (v cap : Nat) (hv : v < 2 ^ 64) :
    let c := after totp h
    (cap < c.digits ∨ (totp = true ∧ v < c.start) → gen F c v cap = .err)
    ∧ (c.digits ≤ cap → totp = false → ∃ s, gen F c v cap = .ok s ∧ Spec.IsText s c.digits (Spec.hotp (F c.hash) key v c.digits))
    ∧ (c.digits ≤ cap → totp = true → c.start ≤ v →
        ∃ s, gen F c v cap = .ok s ∧ Spec.IsText s c.digits (Spec.hotp (F c.hash) key ((v - c.start) / c.step) c.digits)) := by
  intro c
  have hi : Inv c := after_inv totp h
  have hk' : c.key = some key := hk
  have hkn : ¬ c.key = none := by rw [hk']; simp
  rw [← (show c.totp = totp from after_totp _ _)]
  refine ⟨?_, ?_, ?_⟩
  · rintro (h1 | ⟨h1, h2⟩)
    · unfold gen; rw [if_neg hkn, if_pos h1]
    · unfold gen totpGen
      rw [if_neg hkn]
      simp [h1, h2]
  · intro h1 h2
    unfold gen
    rw [if_neg hkn, if_neg (by omega), if_neg (by simp [h2])]
    exact generic_exact hF c hi key hk' v
  · intro h1 h2 h3
    have hm : ((((v - c.start) / c.step : Nat) + (0 : Int)) % 2 ^ 64).toNat = (v - c.start) / c.step := by
      have : (v - c.start) / c.step ≤ v - c.start := Nat.div_le_self _ _
      generalize (v - c.start) / c.step = q at *
      omega
    obtain ⟨s, e1, e2⟩ := generic_exact hF c hi key hk' ((v - c.start) / c.step)
    refine ⟨s, ?_, e2⟩
    unfold gen totpGen
    rw [if_neg hkn, if_neg (by omega), if_pos h2, if_neg (by omega)]
    simp only [hm, e1]

/-! ## Validation -/

/-- C79. Validation with a counter accepts exactly the code of that counter. -/
theorem hotp_validate (hF : ∀ h k m, (F h k m).length = h.size) (h : List Cmd) (key : List Byte)
    (hk : (after false h).key = some key) (C : Nat) (otp : List Byte) (m : Nat) :
    let c := after false h
    validate F c C otp = .ok m ↔ m = C ∧ Spec.IsText otp c.digits (Spec.hotp (F c.hash) key C c.digits) := by
  intro c
  have hi : Inv c := after_inv false h
  have hk' : c.key = some key := hk
  have ht' : c.totp = false := after_totp _ _
  obtain ⟨s, e1, e2⟩ := generic_exact hF c hi key hk' C
  unfold validate
  by_cases h0 : otp.length = 0
  · rw [if_pos (Or.inr h0)]
    refine ⟨fun h => by simp at h, ?_⟩
    rintro ⟨_, h1, _⟩
    have := hi.lo; omega
  rw [if_neg (by simp [hk', h0])]
  by_cases hl : otp.length = c.digits
  · rw [if_neg (by simp [hl]), if_neg (by simp [ht'])]
    simp only [e1]
    rw [List.take_of_length_le (by rw [e2.1]; omega)]
    by_cases hs : s = otp
    · rw [if_pos hs]
      subst hs
      exact ⟨fun h => by cases h; exact ⟨rfl, e2⟩, fun h => by rw [h.1]⟩
    · rw [if_neg hs]
      refine ⟨fun h => by simp at h, ?_⟩
      rintro ⟨_, h1⟩
      exact absurd (isText_unique e2 h1) hs
  · rw [if_pos hl]
    refine ⟨fun h => by simp at h, ?_⟩
    rintro ⟨_, h1, _⟩
    exact absurd h1 hl

/-- The counter number `i` of the window: 64-bit arithmetic. -/
def slot (T : Nat) (o : Int) : Nat := (((T : Int) + o) % 2 ^ 64).toNat

theorem loop_exact (hF : ∀ h k m, (F h k m).length = h.size) (c : Ctx) (hc : Inv c) (key : List Byte) (hk : c.key = some key)
    (now : Nat) (hn : c.start ≤ now) (otp : List Byte) (hl : otp.length = c.digits) (m : Nat) : ∀ k o,
    validateLoop F c now otp k o = .ok m ↔
      ∃ i < k, m = slot ((now - c.start) / c.step) (o + i) ∧ Spec.IsText otp c.digits (Spec.hotp (F c.hash) key m c.digits)
        ∧ ∀ j < i, ¬ Spec.IsText otp c.digits (Spec.hotp (F c.hash) key (slot ((now - c.start) / c.step) (o + j)) c.digits) := by
  intro k
  induction k with
  | zero => intro o; simp [validateLoop]
  | succ k ih =>
    intro o
    obtain ⟨s, e1, e2⟩ := generic_exact hF c hc key hk (slot ((now - c.start) / c.step) o)
    have et : totpGen F c now o = .ok (s, slot ((now - c.start) / c.step) o) := by
      unfold totpGen
      rw [if_neg (by omega)]
      unfold slot at e1
      simp only [e1]; rfl
    unfold validateLoop
    simp only [et]
    rw [List.take_of_length_le (by rw [e2.1]; omega)]
    by_cases hs : s = otp
    · rw [if_pos hs]
      subst hs
      constructor
      · intro h; cases h
        exact ⟨0, by omega, by simp, e2, fun j hj => by omega⟩
      · rintro ⟨i, hi, h1, h2, h3⟩
        cases i with
        | zero => rw [h1]; simp
        | succ i => exact absurd (by simpa using e2) (h3 0 (by omega))
    · rw [if_neg hs, ih (o + 1)]
      constructor
      · rintro ⟨i, hi, h1, h2, h3⟩
        refine ⟨i + 1, by omega, by rw [h1]; congr 1; push_cast; ring, h2, ?_⟩
        intro j hj
        cases j with
        | zero => intro h; exact hs (isText_unique e2 (by simpa using h))
        | succ j =>
          have := h3 j (by omega)
          rwa [show o + 1 + (j : Int) = o + ((j + 1 : Nat) : Int) by push_cast; ring] at this
      · rintro ⟨i, hi, h1, h2, h3⟩
        cases i with
        | zero =>
          refine absurd (isText_unique e2 ?_) hs
          rw [h1] at h2
          simpa using h2
        | succ i =>
          refine ⟨i, by omega, by rw [h1]; congr 1; push_cast; ring, h2, ?_⟩
          intro j hj
          have := h3 (j + 1) (by omega)
          rwa [show o + ((j + 1 : Nat) : Int) = o + 1 + (j : Int) by push_cast; ring] at this

/-- C79. Validation at a time, when the window does not reach below step 0: the code is accepted exactly when it is the code of a step at
most `window` steps away, and the step reported is the earliest such. -/
theorem totp_validate (hF : ∀ h k m, (F h k m).length = h.size) (h : List Cmd) (key : List Byte)
    (hk : (after true h).key = some key) (now : Nat) (hs : (after true h).start ≤ now)
    (T w : Nat) (hT : T = (now - (after true h).start) / (after true h).step) (hw : w = (after true h).window)
    (hlow : w ≤ T) (hhigh : T + w < 2 ^ 64) (otp : List Byte) (m : Nat) :
    let c := after true h
    validate F c now otp = .ok m ↔ T - w ≤ m ∧ m ≤ T + w ∧ Spec.IsText otp c.digits (Spec.hotp (F c.hash) key m c.digits)
      ∧ ∀ C, T - w ≤ C → C < m → ¬ Spec.IsText otp c.digits (Spec.hotp (F c.hash) key C c.digits) := by
  intro c
  have hi : Inv c := after_inv true h
  have hk' : c.key = some key := hk
  have ht' : c.totp = true := after_totp _ _
  unfold validate
  by_cases h0 : otp.length = 0
  · rw [if_pos (Or.inr h0)]
    refine ⟨fun h => by simp at h, ?_⟩
    rintro ⟨_, _, ⟨h1, _⟩, _⟩
    have := hi.lo; omega
  rw [if_neg (by simp [hk', h0])]
  by_cases hl : otp.length = c.digits
  · rw [if_neg (by simp [hl]), if_pos ht', loop_exact hF c hi key hk' now hs otp hl]
    have hc1 : (now - c.start) / c.step = T := hT.symm
    have hc2 : c.window = w := hw.symm
    rw [hc1, hc2]
    have sl : ∀ i : Nat, i < 2 * w + 1 → slot T (-(w : Int) + i) = T - w + i := by
      intro i hi'; unfold slot; omega
    constructor
    · rintro ⟨i, h1, h2, h3, h4⟩
      rw [sl i h1] at h2
      refine ⟨by omega, by omega, h3, ?_⟩
      intro C a b
      have := h4 (C - (T - w)) (by omega)
      rwa [sl _ (by omega), show T - w + (C - (T - w)) = C by omega] at this
    · rintro ⟨h1, h2, h3, h4⟩
      refine ⟨m - (T - w), by omega, by rw [sl _ (by omega)]; omega, h3, ?_⟩
      intro j hj
      rw [sl _ (by omega)]
      exact h4 _ (by omega) (by omega)
  · rw [if_pos hl]
    refine ⟨fun h => by simp at h, ?_⟩
    rintro ⟨_, _, ⟨h1, _⟩, _⟩
    exact absurd h1 hl

/-- A code generated on one clock is accepted on another that is at most `window` steps away. -/
theorem totp_drift (hF : ∀ h k m, (F h k m).length = h.size) (h : List Cmd) (key : List Byte)
    (hk : (after true h).key = some key) (now sent : Nat) (hs : (after true h).start ≤ now)
    (hs' : (after true h).start ≤ sent) (hv : sent < 2 ^ 64) (T w S : Nat) (hT : T = (now - (after true h).start) / (after true h).step)
    (hS : S = (sent - (after true h).start) / (after true h).step) (hw : w = (after true h).window) (hlow : w ≤ T) (hhigh : T + w < 2 ^ 64)
    (hd : T - w ≤ S ∧ S ≤ T + w) :
    ∃ s m, gen F (after true h) sent 8 = .ok s ∧ validate F (after true h) now s = .ok m ∧ m ≤ S := by
  classical
  obtain ⟨s, e1, e2⟩ := (gen_exact hF true h key hk sent 8 hv).2.2 (after_inv true h).hi rfl hs'
  rw [← hS] at e2
  have ex : ∃ C, T - w ≤ C ∧ Spec.IsText s (after true h).digits (Spec.hotp (F (after true h).hash) key C (after true h).digits) :=
    ⟨S, hd.1, e2⟩
  refine ⟨s, Nat.find ex, e1, ?_, Nat.find_min' ex ⟨hd.1, e2⟩⟩
  refine (totp_validate hF h key hk now hs T w hT hw hlow hhigh s _).mpr ⟨(Nat.find_spec ex).1, ?_, (Nat.find_spec ex).2, ?_⟩
  · have := Nat.find_min' ex ⟨hd.1, e2⟩; omega
  · intro C a b hc
    exact Nat.find_min ex b ⟨a, hc⟩

/-- Finding: in the first `window` steps after the start the window reaches below step 0, and the 64-bit sum wraps: at step 0 with the
default window, the code of counter `2^64 - 1` is accepted, before that of step 0 and 1. RFC 6238 has no such step. -/
theorem totp_wraps (hF : ∀ h k m, (F h k m).length = h.size) (key : List Byte) (hk : 16 ≤ key.length) (otp : List Byte)
    (ho : Spec.IsText otp 6 (Spec.hotp (F .sha1) key (2 ^ 64 - 1) 6)) :
    validate F (after true [.init key]) 0 otp = .ok (2 ^ 64 - 1) := by
  have hcx : after true [.init key] = ⟨true, some key, 6, .sha1, 30, 0, 1⟩ := by
    show (newCtx true).set (.init key) = _
    simp only [Ctx.set]; rw [if_neg (by omega)]; rfl
  rw [hcx]
  have hi : Inv (⟨true, some key, 6, .sha1, 30, 0, 1⟩ : Ctx) := by rw [← hcx]; exact after_inv _ _
  unfold validate
  rw [if_neg (by simp [ho.1]), if_neg (by simp [ho.1]), if_pos rfl]
  rw [loop_exact hF _ hi key rfl 0 (Nat.le_refl _) otp ho.1]
  exact ⟨0, by simp, by simp [slot], ho, fun j hj => by omega⟩

end

/-- The first codes of RFC 4226, appendix D, from its table of truncated values: counter 0 gives 1284755224 and "755224". -/
example : digitsLoop 1284755224 6 10 1 [] = [0x37, 0x35, 0x35, 0x32, 0x32, 0x34] := by decide

/-- RFC 4226 section 5.4: the MAC of the example truncates to 0x50ef7f19. -/
example : truncate [0x1f, 0x86, 0x98, 0x69, 0x0e, 0x02, 0xca, 0x16, 0x61, 0x85, 0x50, 0xef, 0x7f, 0x19, 0xda, 0x8e, 0x94, 0x5b, 0x55, 0x5a]
    = some 0x50ef7f19 := by decide

/-- A MAC of the right length, a history and a time that meet the hypotheses of the validation theorems. -/
example : ∃ F : Hash → List Byte → List Byte → List Byte, (∀ h k m, (F h k m).length = h.size)
    ∧ (after true [.init (List.replicate 16 1), .digits 8, .window 2, .step 60, .step 0, .digits 9]).key = some (List.replicate 16 1)
    ∧ (after true [.init (List.replicate 16 1), .digits 8, .window 2, .step 60, .step 0, .digits 9]).digits = 8
    ∧ (after true [.init (List.replicate 16 1), .digits 8, .window 2, .step 60, .step 0, .digits 9]).step = 60
    ∧ 2 ≤ (1000000 - 0) / 60 :=
  ⟨fun h _ m => (m ++ List.replicate h.size 0).take h.size, fun h k m => by simp, by decide, by decide, by decide, by decide⟩

end Verif.Auth.Otp
