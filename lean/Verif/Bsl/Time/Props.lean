import Verif.Bsl.Time.Model
import Verif.Common.Bits
/-! C18: calendar arithmetic. -/
namespace Verif.Bsl.Time

/-! ### Specification: the Gregorian calendar, one day after the other -/

/-- A leap year: divisible by 4 and not by 100, or divisible by 400. -/
def Spec.Leap (y : Nat) : Prop := (4 ∣ y ∧ ¬ 100 ∣ y) ∨ 400 ∣ y

instance (y : Nat) : Decidable (Spec.Leap y) := by unfold Spec.Leap; infer_instance

/-- Length of month `m` (1 to 12) of year `y`: thirty days hath September, ... -/
def Spec.monthLen (y m : Nat) : Nat :=
  if m = 2 then (if Spec.Leap y then 29 else 28)
  else if m = 4 ∨ m = 6 ∨ m = 9 ∨ m = 11 then 30 else 31

/-- The day after a day, as (year, month, day). -/
def Spec.nextDay : Nat × Nat × Nat → Nat × Nat × Nat
  | (y, m, d) =>
    if d < Spec.monthLen y m then (y, m, d + 1)
    else if m < 12 then (y, m + 1, 1)
    else (y + 1, 1, 1)

/-- The `n`-th day after 1 January 1970. -/
def Spec.civil : Nat → Nat × Nat × Nat
  | 0 => (1970, 1, 1)
  | n + 1 => Spec.nextDay (Spec.civil n)

/-- A date of the calendar from 1970 on, with a time of day in range. -/
def Spec.Valid (t : Date) : Prop :=
  1970 ≤ t.year ∧ 1 ≤ t.month ∧ t.month ≤ 12 ∧ 1 ≤ t.day ∧ t.day ≤ Spec.monthLen t.year t.month ∧
    t.hour < 24 ∧ t.minute < 60 ∧ t.second < 60 ∧ t.milli < 1000 ∧ t.micro < 1000

/-- Order of the seconds of two dates: year, month, day, hour, minute, second, the first difference decides. -/
def Spec.earlier (a b : Date) : Prop :=
  a.year < b.year ∨ (a.year = b.year ∧ (a.month < b.month ∨ (a.month = b.month ∧ (a.day < b.day ∨ (a.day = b.day ∧
    (a.hour < b.hour ∨ (a.hour = b.hour ∧ (a.minute < b.minute ∨ (a.minute = b.minute ∧
      a.second < b.second)))))))))

/-- What `gmtime` must do on the representable range: the day of the second count and the time of that day. -/
def Spec.IsGmtime (gmtime : Int → Option Tm) : Prop :=
  ∀ n : Nat, n ≤ 2005949145599 → ∃ tm, gmtime n = some tm ∧
    (tm.year + 1900, tm.mon + 1, tm.mday) =
      (((Spec.civil (n / 86400)).1 : Int), (Spec.civil (n / 86400)).2.1, (Spec.civil (n / 86400)).2.2) ∧
    tm.hour = n % 86400 / 3600 ∧ tm.min = n % 3600 / 60 ∧ tm.sec = n % 60

/-! ### Proofs -/

theorem isLeapYear_iff (y : Nat) : isLeapYear y = true ↔ Spec.Leap y := by
  unfold isLeapYear Spec.Leap
  simp only [Bool.or_eq_true, Bool.and_eq_true, beq_iff_eq, bne_iff_ne, ne_eq, Nat.dvd_iff_mod_eq_zero]

theorem dayValid_iff (y m d : Nat) (h1 : 1 ≤ m) (h2 : m ≤ 12) :
    dayValid y m d = true ↔ d ≤ Spec.monthLen y m := by
  have hm : m = 1 ∨ m = 2 ∨ m = 3 ∨ m = 4 ∨ m = 5 ∨ m = 6 ∨ m = 7 ∨ m = 8 ∨ m = 9 ∨ m = 10 ∨ m = 11 ∨ m = 12 := by omega
  by_cases hl : Spec.Leap y
  · have hl' := (isLeapYear_iff y).2 hl
    rcases hm with rfl | rfl | rfl | rfl | rfl | rfl | rfl | rfl | rfl | rfl | rfl | rfl <;>
      simp [dayValid, febDayValid, Spec.monthLen, hl, hl']
  · have hl' : isLeapYear y = false := by
      cases h : isLeapYear y with
      | true => exact absurd ((isLeapYear_iff y).1 h) hl
      | false => rfl
    rcases hm with rfl | rfl | rfl | rfl | rfl | rfl | rfl | rfl | rfl | rfl | rfl | rfl <;>
      simp [dayValid, febDayValid, Spec.monthLen, hl, hl']

/-- The validity check accepts exactly the dates of the calendar from 1970 on. -/
theorem dateTimeCheck_iff (t : Date) : dateTimeCheck t = true ↔ Spec.Valid t := by
  unfold dateTimeCheck Spec.Valid
  rw [Bool.and_eq_true]
  have hh : hourMinSecCheck t = true ↔
      t.hour < 24 ∧ t.minute < 60 ∧ t.second < 60 ∧ t.milli < 1000 ∧ t.micro < 1000 := by
    unfold hourMinSecCheck
    by_cases a1 : t.hour > 23
    · rw [if_pos a1]; simp; omega
    · rw [if_neg a1]
      by_cases a2 : t.minute > 59
      · rw [if_pos a2]; simp; omega
      · rw [if_neg a2]
        by_cases a3 : t.second > 59
        · rw [if_pos a3]; simp; omega
        · rw [if_neg a3]
          by_cases a4 : t.milli > 999
          · rw [if_pos a4]; simp; omega
          · rw [if_neg a4]
            by_cases a5 : t.micro > 999
            · rw [if_pos a5]; simp; omega
            · rw [if_neg a5]; simp; omega
  rw [hh]
  have hy : yearMonthDayCheck t = true ↔
      1970 ≤ t.year ∧ 1 ≤ t.month ∧ t.month ≤ 12 ∧ 1 ≤ t.day ∧ t.day ≤ Spec.monthLen t.year t.month := by
    unfold yearMonthDayCheck
    by_cases a1 : t.year < 1970
    · rw [if_pos a1]; simp; omega
    · rw [if_neg a1]
      by_cases a2 : t.month < 1 ∨ t.month > 12
      · rw [if_pos (by simpa using a2)]; simp; omega
      · rw [if_neg (by simpa using a2)]
        by_cases a3 : t.day < 1
        · rw [if_pos a3]; simp; omega
        · rw [if_neg a3, dayValid_iff _ _ _ (by omega) (by omega)]; omega
  rw [hy]
  constructor
  · rintro ⟨⟨a, b, c, d, e⟩, r⟩; exact ⟨a, b, c, d, e, r⟩
  · rintro ⟨a, b, c, d, e, r⟩; exact ⟨⟨a, b, c, d, e⟩, r⟩

theorem extraDays_succ (i n : Nat) :
    extraDays i (n + 1) = extraDays i n + (if isLeapYear (i + n) then 1 else 0) := by
  induction n generalizing i with
  | zero => simp [extraDays]
  | succ n ih =>
    rw [extraDays, ih (i + 1), extraDays, show i + 1 + n = i + (n + 1) by omega, Nat.add_assoc]

/-- Days before year `y` (from 1970), as the code counts them. -/
def yearStart (y : Nat) : Nat := (y - 1970) * 365 + extraDays 1970 (y - 1970)

theorem yearStart_succ (y : Nat) (h : 1970 ≤ y) :
    yearStart (y + 1) = yearStart y + 365 + (if Spec.Leap y then 1 else 0) := by
  unfold yearStart
  rw [show y + 1 - 1970 = (y - 1970) + 1 by omega, extraDays_succ, show 1970 + (y - 1970) = y by omega]
  have : (if isLeapYear y = true then 1 else 0) = (if Spec.Leap y then 1 else 0) := by
    by_cases hl : Spec.Leap y
    · rw [if_pos hl, if_pos ((isLeapYear_iff y).2 hl)]
    · rw [if_neg hl, if_neg (mt (isLeapYear_iff y).1 hl)]
  rw [this]; omega

/-- Days before month `m` in year `y`, as the code computes them. -/
def monthOff (y m : Nat) : Nat := ((monthStart (isLeapYear y) (m - 1)).getD 0)

theorem monthStart_some (y m : Nat) (h1 : 1 ≤ m) (h2 : m ≤ 12) :
    monthStart (isLeapYear y) (m - 1) = some (monthOff y m) := by
  unfold monthOff
  have hm : m = 1 ∨ m = 2 ∨ m = 3 ∨ m = 4 ∨ m = 5 ∨ m = 6 ∨ m = 7 ∨ m = 8 ∨ m = 9 ∨ m = 10 ∨ m = 11 ∨ m = 12 := by omega
  rcases hm with rfl | rfl | rfl | rfl | rfl | rfl | rfl | rfl | rfl | rfl | rfl | rfl <;> rfl

theorem monthOff_succ (y m : Nat) (h1 : 1 ≤ m) (h2 : m < 12) :
    monthOff y (m + 1) = monthOff y m + Spec.monthLen y m := by
  have hm : m = 1 ∨ m = 2 ∨ m = 3 ∨ m = 4 ∨ m = 5 ∨ m = 6 ∨ m = 7 ∨ m = 8 ∨ m = 9 ∨ m = 10 ∨ m = 11 := by omega
  by_cases hl : Spec.Leap y
  · have hl' := (isLeapYear_iff y).2 hl
    rcases hm with rfl | rfl | rfl | rfl | rfl | rfl | rfl | rfl | rfl | rfl | rfl <;>
      simp [monthOff, monthStart, monthTable, Spec.monthLen, hl, hl']
  · have hl' : isLeapYear y = false := by
      cases h : isLeapYear y with
      | true => exact absurd ((isLeapYear_iff y).1 h) hl
      | false => rfl
    rcases hm with rfl | rfl | rfl | rfl | rfl | rfl | rfl | rfl | rfl | rfl | rfl <;>
      simp [monthOff, monthStart, monthTable, Spec.monthLen, hl, hl']

theorem monthOff_one (y : Nat) : monthOff y 1 = 0 := by
  unfold monthOff monthStart monthTable; cases isLeapYear y <;> rfl

theorem monthOff_dec (y : Nat) : monthOff y 12 + 31 = 365 + (if Spec.Leap y then 1 else 0) := by
  by_cases hl : Spec.Leap y
  · have hl' := (isLeapYear_iff y).2 hl
    simp [monthOff, monthStart, monthTable, hl, hl']
  · have hl' : isLeapYear y = false := by
      cases h : isLeapYear y with
      | true => exact absurd ((isLeapYear_iff y).1 h) hl
      | false => rfl
    simp [monthOff, monthStart, monthTable, hl, hl']

/-- Day number of a calendar day, as the code computes it. -/
def dayNo (y m d : Nat) : Nat := yearStart y + monthOff y m + (d - 1)

def ValidDay (y m d : Nat) : Prop := 1970 ≤ y ∧ 1 ≤ m ∧ m ≤ 12 ∧ 1 ≤ d ∧ d ≤ Spec.monthLen y m

theorem monthLen_pos (y m : Nat) : 1 ≤ Spec.monthLen y m := by
  unfold Spec.monthLen; split <;> (try split) <;> (try split) <;> omega

theorem dayNo_next (y m d : Nat) (h : ValidDay y m d) :
    ∃ y' m' d', Spec.nextDay (y, m, d) = (y', m', d') ∧ ValidDay y' m' d' ∧ dayNo y' m' d' = dayNo y m d + 1 := by
  obtain ⟨h1, h2, h3, h4, h5⟩ := h
  unfold Spec.nextDay
  by_cases hd : d < Spec.monthLen y m
  · refine ⟨y, m, d + 1, if_pos hd, ⟨h1, h2, h3, by omega, by omega⟩, ?_⟩
    unfold dayNo; omega
  · by_cases hm : m < 12
    · refine ⟨y, m + 1, 1, by simp [hd, hm], ⟨h1, by omega, by omega, by omega, monthLen_pos _ _⟩, ?_⟩
      unfold dayNo; rw [monthOff_succ y m h2 hm]; omega
    · have hm12 : m = 12 := by omega
      subst hm12
      refine ⟨y + 1, 1, 1, by simp [hd], ⟨by omega, by omega, by omega, by omega, monthLen_pos _ _⟩, ?_⟩
      have hl : Spec.monthLen y 12 = 31 := by simp [Spec.monthLen]
      have := monthOff_dec y
      unfold dayNo; rw [yearStart_succ y h1, monthOff_one]; omega

theorem civil_valid (n : Nat) : ∃ y m d, Spec.civil n = (y, m, d) ∧ ValidDay y m d ∧ dayNo y m d = n := by
  induction n with
  | zero => exact ⟨1970, 1, 1, rfl, ⟨by omega, by omega, by omega, by omega, monthLen_pos _ _⟩, by decide +kernel⟩
  | succ n ih =>
    obtain ⟨y, m, d, hc, hv, hn⟩ := ih
    obtain ⟨y', m', d', h1, h2, h3⟩ := dayNo_next y m d hv
    exact ⟨y', m', d', by rw [Spec.civil, hc, h1], h2, by omega⟩

theorem monthOff_mono (y m k : Nat) (h1 : 1 ≤ m) (h2 : m + 1 + k ≤ 12) :
    monthOff y m + Spec.monthLen y m ≤ monthOff y (m + 1 + k) := by
  induction k with
  | zero => rw [Nat.add_zero, monthOff_succ y m h1 (by omega)]; omega
  | succ k ih =>
    have := ih (by omega)
    rw [show m + 1 + (k + 1) = (m + 1 + k) + 1 by omega, monthOff_succ y _ (by omega) (by omega)]; omega

theorem dayInYear_lt (y m d : Nat) (h : ValidDay y m d) :
    monthOff y m + (d - 1) < 365 + (if Spec.Leap y then 1 else 0) := by
  obtain ⟨h1, h2, h3, h4, h5⟩ := h
  rw [← monthOff_dec y]
  by_cases hm : m = 12
  · subst hm
    have hl : Spec.monthLen y 12 = 31 := by simp [Spec.monthLen]
    omega
  · have := monthOff_mono y m (11 - m) h2 (by omega)
    rw [show m + 1 + (11 - m) = 12 by omega] at this
    omega

theorem yearStart_mono (y k : Nat) (h : 1970 ≤ y) :
    yearStart y + 365 + (if Spec.Leap y then 1 else 0) ≤ yearStart (y + 1 + k) := by
  induction k with
  | zero => rw [Nat.add_zero, yearStart_succ y h]; omega
  | succ k ih =>
    rw [show y + 1 + (k + 1) = (y + 1 + k) + 1 by omega, yearStart_succ _ (by omega)]; omega

theorem dayNo_lt (y m d y' m' d' : Nat) (h : ValidDay y m d) (h' : ValidDay y' m' d')
    (hlt : y < y' ∨ (y = y' ∧ (m < m' ∨ (m = m' ∧ d < d')))) : dayNo y m d < dayNo y' m' d' := by
  have hin := dayInYear_lt y m d h
  obtain ⟨h1, h2, h3, h4, h5⟩ := h
  obtain ⟨k1, k2, k3, k4, k5⟩ := h'
  unfold dayNo
  rcases hlt with hy | ⟨rfl, hm | ⟨rfl, hd⟩⟩
  · have := yearStart_mono y (y' - y - 1) h1
    rw [show y + 1 + (y' - y - 1) = y' by omega] at this
    omega
  · have := monthOff_mono y m (m' - m - 1) h2 (by omega)
    rw [show m + 1 + (m' - m - 1) = m' by omega] at this
    omega
  · omega

theorem dayNo_inj (y m d y' m' d' : Nat) (h : ValidDay y m d) (h' : ValidDay y' m' d')
    (e : dayNo y m d = dayNo y' m' d') : (y, m, d) = (y', m', d') := by
  have a := dayNo_lt y m d y' m' d' h h'
  have b := dayNo_lt y' m' d' y m d h' h
  have hy : y = y' := by
    rcases Nat.lt_trichotomy y y' with h1 | h1 | h1
    · exact absurd (a (.inl h1)) (by omega)
    · exact h1
    · exact absurd (b (.inl h1)) (by omega)
  subst hy
  have hm : m = m' := by
    rcases Nat.lt_trichotomy m m' with h1 | h1 | h1
    · exact absurd (a (.inr ⟨rfl, .inl h1⟩)) (by omega)
    · exact h1
    · exact absurd (b (.inr ⟨rfl, .inl h1⟩)) (by omega)
  subst hm
  have hd : d = d' := by
    rcases Nat.lt_trichotomy d d' with h1 | h1 | h1
    · exact absurd (a (.inr ⟨rfl, .inr ⟨rfl, h1⟩⟩)) (by omega)
    · exact h1
    · exact absurd (b (.inr ⟨rfl, .inr ⟨rfl, h1⟩⟩)) (by omega)
  rw [hd]

/-- Seconds of a valid date, as the code computes them. -/
def secs (t : Date) : Nat := dayNo t.year t.month t.day * 86400 + t.hour * 3600 + t.minute * 60 + t.second

theorem validDay_of (t : Date) (h : Spec.Valid t) : ValidDay t.year t.month t.day :=
  ⟨h.1, h.2.1, h.2.2.1, h.2.2.2.1, h.2.2.2.2.1⟩

theorem dateToUtc_valid (t : Date) (h : Spec.Valid t) : dateToUtc t = .ok (secs t) := by
  have hc := (dateTimeCheck_iff t).2 h
  obtain ⟨h1, h2, h3, h4, h5, _⟩ := h
  unfold dateToUtc
  rw [if_neg (by rw [hc]; simp)]
  have hm : ((t.month : Int) - 1).toNat = t.month - 1 := by omega
  have hmk : mkTime t = some (secs t : Int) := by
    unfold mkTime
    simp only [hm, monthStart_some t.year t.month h2 h3]
    rw [if_neg (by omega)]
    congr 1
    unfold secs dayNo yearStart
    omega
  rw [hmk]
  have : ¬ ((secs t : Nat) : Int) < 0 := by omega
  simp only [if_neg this]

theorem dateToUtc_invalid (t : Date) (h : ¬ Spec.Valid t) : dateToUtc t = .error .internalException := by
  have hc : dateTimeCheck t = false := by
    cases hh : dateTimeCheck t with
    | true => exact absurd ((dateTimeCheck_iff t).1 hh) h
    | false => rfl
  unfold dateToUtc
  rw [hc]; rfl

/-- Exactness: the conversion succeeds exactly for valid dates, and the number of seconds it returns is
`86400 n + 3600 h + 60 m + s`, where the date is the `n`-th calendar day after 1 January 1970. -/
theorem dateToUtc_exact (t : Date) (r : Int) :
    dateToUtc t = .ok r ↔ Spec.Valid t ∧
      ∃ n : Nat, Spec.civil n = (t.year, t.month, t.day) ∧
        r = (n * 86400 + t.hour * 3600 + t.minute * 60 + t.second : Nat) := by
  constructor
  · intro h
    have hv : Spec.Valid t := by
      apply Classical.byContradiction; intro hn
      rw [dateToUtc_invalid t hn] at h; exact absurd h (by simp)
    rw [dateToUtc_valid t hv] at h
    simp only [Except.ok.injEq] at h
    refine ⟨hv, dayNo t.year t.month t.day, ?_, h.symm⟩
    obtain ⟨y, m, d, hc, hvd, hn⟩ := civil_valid (dayNo t.year t.month t.day)
    rw [hc]
    exact dayNo_inj _ _ _ _ _ _ hvd (validDay_of t hv) hn
  · rintro ⟨hv, n, hc, rfl⟩
    rw [dateToUtc_valid t hv]
    obtain ⟨y, m, d, hc', hvd, hn⟩ := civil_valid n
    rw [hc] at hc'
    simp only [Prod.mk.injEq] at hc'
    obtain ⟨rfl, rfl, rfl⟩ := hc'
    unfold secs
    rw [hn]

theorem secs_lt (a b : Date) (ha : Spec.Valid a) (hb : Spec.Valid b) (h : Spec.earlier a b) : secs a < secs b := by
  have hl := dayNo_lt a.year a.month a.day b.year b.month b.day (validDay_of a ha) (validDay_of b hb)
  obtain ⟨_, _, _, _, _, a1, a2, a3, _⟩ := ha
  obtain ⟨_, _, _, _, _, b1, b2, b3, _⟩ := hb
  unfold secs
  unfold Spec.earlier at h
  by_cases hd : a.year < b.year ∨ (a.year = b.year ∧ (a.month < b.month ∨ (a.month = b.month ∧ a.day < b.day)))
  · have := hl hd; omega
  · have e : a.year = b.year ∧ a.month = b.month ∧ a.day = b.day := by omega
    rw [e.1, e.2.1, e.2.2]; omega

theorem earlier_total (a b : Date) : Spec.earlier a b ∨ Spec.earlier b a ∨
    (a.year = b.year ∧ a.month = b.month ∧ a.day = b.day ∧ a.hour = b.hour ∧ a.minute = b.minute ∧
      a.second = b.second) := by
  unfold Spec.earlier; omega

/-- Comparison of two valid dates agrees with calendar order to the second, and `diffSec` is the difference
of their second counts. -/
theorem dateTimeCompare_order (a b : Date) (ha : Spec.Valid a) (hb : Spec.Valid b) :
    ((dateTimeCompare a b).1 = .before ↔ Spec.earlier a b) ∧
    ((dateTimeCompare a b).1 = .after ↔ Spec.earlier b a) ∧
    ((dateTimeCompare a b).1 = .equal ↔ ¬ Spec.earlier a b ∧ ¬ Spec.earlier b a) ∧
    (∀ ua ub, dateToUtc a = .ok ua → dateToUtc b = .ok ub → (dateTimeCompare a b).2 = ua - ub) := by
  have e1 := dateToUtc_valid a ha
  have e2 := dateToUtc_valid b hb
  have l1 := secs_lt a b ha hb
  have l2 := secs_lt b a hb ha
  have tot : Spec.earlier a b ∨ Spec.earlier b a ∨ secs a = secs b := by
    rcases earlier_total a b with h | h | ⟨h1, h2, h3, h4, h5, h6⟩
    · exact .inl h
    · exact .inr (.inl h)
    · refine .inr (.inr ?_); unfold secs; rw [h1, h2, h3, h4, h5, h6]
  have hcmp : dateTimeCompare a b = (if (secs a : Int) - secs b < 0 then .before
      else if (secs a : Int) - secs b > 0 then .after else .equal, (secs a : Int) - secs b) := by
    unfold dateTimeCompare; rw [e1, e2]
  rw [hcmp]
  refine ⟨?_, ?_, ?_, ?_⟩
  · constructor
    · intro h
      rcases tot with h' | h' | h'
      · exact h'
      · have := l2 h'; simp only at h; rw [if_neg (by omega), if_pos (by omega)] at h; exact absurd h (by simp)
      · simp only at h; rw [if_neg (by omega), if_neg (by omega)] at h; exact absurd h (by simp)
    · intro h; have := l1 h; simp only; rw [if_pos (by omega)]
  · constructor
    · intro h
      rcases tot with h' | h' | h'
      · have := l1 h'; simp only at h; rw [if_pos (by omega)] at h; exact absurd h (by simp)
      · exact h'
      · simp only at h; rw [if_neg (by omega), if_neg (by omega)] at h; exact absurd h (by simp)
    · intro h; have := l2 h; simp only; rw [if_neg (by omega), if_pos (by omega)]
  · constructor
    · intro h
      constructor
      · intro h'; have := l1 h'; simp only at h; rw [if_pos (by omega)] at h; exact absurd h (by simp)
      · intro h'; have := l2 h'; simp only at h; rw [if_neg (by omega), if_pos (by omega)] at h; exact absurd h (by simp)
    · rintro ⟨h1, h2⟩
      rcases tot with h' | h' | h'
      · exact absurd h' h1
      · exact absurd h' h2
      · simp only; rw [if_neg (by omega), if_neg (by omega)]
  · intro ua ub h1 h2
    rw [e1] at h1; rw [e2] at h2
    simp only [Except.ok.injEq] at h1 h2
    rw [← h1, ← h2]

/-- Comparison with microseconds: seconds decide first, then milliseconds, then microseconds. -/
theorem compareByUs_order (a b : Date) (ha : Spec.Valid a) (hb : Spec.Valid b) :
    (dateTimeCompareByUs a b = .before ↔
      Spec.earlier a b ∨ (¬ Spec.earlier b a ∧ a.milli * 1000 + a.micro < b.milli * 1000 + b.micro)) ∧
    (dateTimeCompareByUs a b = .equal ↔
      ¬ Spec.earlier a b ∧ ¬ Spec.earlier b a ∧ a.milli = b.milli ∧ a.micro = b.micro) := by
  obtain ⟨h1, h2, h3, _⟩ := dateTimeCompare_order a b ha hb
  obtain ⟨_, _, _, _, _, _, _, _, am, au⟩ := ha
  obtain ⟨_, _, _, _, _, _, _, _, bm, bu⟩ := hb
  have hne : (dateTimeCompare a b).1 ≠ .error := by
    intro he
    rcases earlier_total a b with h | h | h
    · have := h1.2 h; rw [he] at this; exact absurd this (by simp)
    · have := h2.2 h; rw [he] at this; exact absurd this (by simp)
    · have := h3.2 (by unfold Spec.earlier; omega); rw [he] at this; exact absurd this (by simp)
  have hab : Spec.earlier a b → ¬ Spec.earlier b a := by unfold Spec.earlier; omega
  have hlt : a.milli * 1000 + a.micro < b.milli * 1000 + b.micro ↔
      a.milli < b.milli ∨ (a.milli = b.milli ∧ a.micro < b.micro) := by omega
  unfold dateTimeCompareByUs
  generalize (dateTimeCompare a b).1 = c at *
  cases c with
  | before =>
    have hb := h1.1 rfl
    simp [hb]
  | after =>
    have hb := h2.1 rfl
    have : ¬ Spec.earlier a b := fun h => hab h hb
    simp [hb, this]
  | equal =>
    obtain ⟨n1, n2⟩ := h3.1 rfl
    simp only [ne_eq, not_true_eq_false, if_false, n1, n2, not_false_eq_true, true_and, false_or]
    unfold timeCmp
    by_cases c1 : a.milli > b.milli
    · simp [c1]; omega
    · by_cases c2 : a.milli < b.milli
      · simp [c1, c2]; omega
      · by_cases c3 : a.micro > b.micro
        · simp [c1, c2, c3]; omega
        · by_cases c4 : a.micro < b.micro
          · simp [c1, c2, c3, c4]; omega
          · simp [c1, c2, c3, c4]; omega
  | error => exact absurd rfl hne

theorem leap_closed (n : Nat) :
    extraDays 1970 n = (1969 + n) / 4 + (1969 + n) / 400 - (1969 + n) / 100 - 477 := by
  induction n with
  | zero => rfl
  | succ n ih =>
    rw [extraDays_succ, ih]
    have hl : (if isLeapYear (1970 + n) = true then 1 else 0) =
        if ((1970 + n) % 4 = 0 ∧ (1970 + n) % 100 ≠ 0) ∨ (1970 + n) % 400 = 0 then 1 else 0 := by
      unfold isLeapYear; simp
    rw [hl]
    split <;> omega

/-- `BSL_UTCTIME_MAX` is the last second of the last year of the 16-bit type. -/
theorem utcMax_exact (t : Date) (hv : Spec.Valid t) (hy : t.year < 65536) :
    dateToUtc t = .ok (secs t) ∧ secs t ≤ 2005949145599 ∧
      dateToUtc ⟨65535, 12, 31, 23, 59, 59, 999, 999⟩ = .ok 2005949145599 := by
  have hlast : Spec.Valid ⟨65535, 12, 31, 23, 59, 59, 999, 999⟩ := by unfold Spec.Valid; decide
  have hsec : secs ⟨65535, 12, 31, 23, 59, 59, 999, 999⟩ = 2005949145599 := by
    unfold secs dayNo yearStart
    rw [leap_closed]
    decide +kernel
  refine ⟨dateToUtc_valid t hv, ?_, by rw [dateToUtc_valid _ hlast, hsec]; rfl⟩
  rw [← hsec]
  apply Nat.le_of_not_lt; intro hc
  have hv' := hv
  obtain ⟨a1, a2, a3, a4, a5, a6, a7, a8, a9, a10⟩ := hv
  have hml : Spec.monthLen t.year t.month ≤ 31 := by
    unfold Spec.monthLen; split <;> (try split) <;> (try split) <;> omega
  rcases earlier_total t ⟨65535, 12, 31, 23, 59, 59, 999, 999⟩ with h | h | ⟨h1, h2, h3, h4, h5, h6⟩
  · have := secs_lt _ _ hv' hlast h; omega
  · unfold Spec.earlier at h; simp only at h; omega
  · unfold secs at hc; rw [h1, h2, h3, h4, h5, h6] at hc; omega

/-- Converting a second count back: given a correct `gmtime`, every second from the epoch to the end of year 65535
becomes the valid date it came from. -/
theorem utcToDate_exact (gm : Int → Option Tm) (hg : Spec.IsGmtime gm) (n : Nat) (hn : n ≤ 2005949145599) :
    ∃ t, utcToDate gm n = .ok t ∧ Spec.Valid t ∧ dateToUtc t = .ok n ∧ t.milli = 0 ∧ t.micro = 0 := by
  obtain ⟨tm, htm, hd, h1, h2, h3⟩ := hg n hn
  obtain ⟨y, m, d, hc, hv, hday⟩ := civil_valid (n / 86400)
  rw [hc] at hd
  simp only [Prod.mk.injEq] at hd
  obtain ⟨e1, e2, e3⟩ := hd
  have hvalid : Spec.Valid ⟨y, m, d, tm.hour, tm.min, tm.sec, 0, 0⟩ := by
    obtain ⟨a, b, c, dd, e⟩ := hv
    exact ⟨a, b, c, dd, e, by simp only; omega, by simp only; omega, by simp only; omega, by simp, by simp⟩
  have hs : secs ⟨y, m, d, tm.hour, tm.min, tm.sec, 0, 0⟩ = n := by
    unfold secs; simp only [hday, h1, h2, h3]; omega
  have hy : y ≤ 65535 := by
    apply Nat.le_of_not_lt; intro hlt
    have hlast : Spec.Valid ⟨65535, 12, 31, 23, 59, 59, 999, 999⟩ := by unfold Spec.Valid; decide
    have hlt' := secs_lt ⟨65535, 12, 31, 23, 59, 59, 999, 999⟩ _ hlast hvalid (.inl hlt)
    have := (utcMax_exact _ hlast (by decide)).2.2
    rw [dateToUtc_valid _ hlast] at this
    simp only [Except.ok.injEq] at this
    omega
  refine ⟨⟨y, m, d, tm.hour, tm.min, tm.sec, 0, 0⟩, ?_, hvalid, ?_, rfl, rfl⟩
  · unfold utcToDate
    rw [if_neg (by omega), htm]
    simp only
    rw [if_neg (by omega)]
    congr 2
    omega
  · rw [dateToUtc_valid _ hvalid, hs]

/-- Adding days and seconds is exact: whenever the sum is a second between the epoch and the end of year 65535,
the result is the valid date with that second count and the old fraction of a second. (`int32_t` days and `int64_t`
seconds.) -/
theorem addDaySecond_exact (gm : Int → Option Tm) (hg : Spec.IsGmtime gm) (a : Date) (ha : Spec.Valid a)
    (days secs' : Int) (hd : -2 ^ 31 ≤ days ∧ days < 2 ^ 31) (hs : -2 ^ 63 ≤ secs' ∧ secs' < 2 ^ 63)
    (u : Int) (hu : dateToUtc a = .ok u)
    (h0 : 0 ≤ u + days * 86400 + secs') (h1 : u + days * 86400 + secs' ≤ 2005949145599) (hy : a.year < 65536)  :
    ∃ t, addDaySecond gm a days secs' = .ok t ∧ Spec.Valid t ∧ dateToUtc t = .ok (u + days * 86400 + secs') ∧
      t.milli = a.milli ∧ t.micro = a.micro := by
  have hmax := (utcMax_exact a ha hy).2.1
  have hua := hu
  rw [dateToUtc_valid a ha] at hua
  simp only [Except.ok.injEq] at hua
  obtain ⟨n, hn⟩ : ∃ n : Nat, (n : Int) = u + days * 86400 + secs' := ⟨(u + days * 86400 + secs').toNat, by omega⟩
  obtain ⟨t, ht, hv, hconv, _, _⟩ := utcToDate_exact gm hg n (by omega)
  unfold addDaySecond
  rw [hu]
  simp only
  rw [if_neg (by omega), if_neg (by omega), if_neg (by omega)]
  rw [show u + (days * 86400 + secs') = (n : Int) by omega, ht]
  have hvr : Spec.Valid { t with milli := a.milli, micro := a.micro } := by
    obtain ⟨b1, b2, b3, b4, b5, b6, b7, b8, b9, b10⟩ := hv
    obtain ⟨_, _, _, _, _, _, _, _, c9, c10⟩ := ha
    exact ⟨b1, b2, b3, b4, b5, b6, b7, b8, c9, c10⟩
  refine ⟨_, rfl, hvr, ?_, rfl, rfl⟩
  rw [dateToUtc_valid _ hvr]
  rw [dateToUtc_valid _ hv] at hconv
  simp only [Except.ok.injEq] at hconv
  rw [← hn, ← hconv]; rfl

/-- Adding microseconds is exact as long as `us` plus the microsecond field does not wrap around 32 bits. The
full property (every `us`) is false, see `addUs_wraps`. -/
theorem addUs_exact_partial (gm : Int → Option Tm) (hg : Spec.IsGmtime gm) (a : Date) (ha : Spec.Valid a)
    (us : Nat) (hus : us + a.micro < 2 ^ 32) (u : Nat) (hu : dateToUtc a = .ok u)
    (hmax : ((u * 1000 + a.milli) * 1000 + a.micro + us) / 1000000 ≤ 2005949145599) :
    ∃ t u', addUs gm a us = .ok t ∧ Spec.Valid t ∧ dateToUtc t = .ok ((u' : Nat) : Int) ∧
      (u' * 1000 + t.milli) * 1000 + t.micro = (u * 1000 + a.milli) * 1000 + a.micro + us := by
  have hm : a.milli < 1000 ∧ a.micro < 1000 := ⟨ha.2.2.2.2.2.2.2.2.1, ha.2.2.2.2.2.2.2.2.2⟩
  have hm1 : ((us + a.micro) / 1000 + a.milli) < 2 ^ 32 := by omega
  obtain ⟨t, ht, hv, hconv, _, _⟩ := utcToDate_exact gm hg (u + ((us + a.micro) / 1000 + a.milli) / 1000) (by omega)
  unfold addUs
  rw [hu]
  simp only [Nat.mod_eq_of_lt hus, Nat.mod_eq_of_lt hm1]
  rw [show (u : Int) + ((((us + a.micro) / 1000 + a.milli) / 1000 : Nat) : Int) =
    ((u + ((us + a.micro) / 1000 + a.milli) / 1000 : Nat) : Int) by omega, ht]
  have hvr : Spec.Valid { t with milli := ((us + a.micro) / 1000 + a.milli) % 1000, micro := (us + a.micro) % 1000 } := by
    obtain ⟨b1, b2, b3, b4, b5, b6, b7, b8, b9, b10⟩ := hv
    exact ⟨b1, b2, b3, b4, b5, b6, b7, b8, by simp only; omega, by simp only; omega⟩
  refine ⟨_, u + ((us + a.micro) / 1000 + a.milli) / 1000, rfl, hvr, ?_, ?_⟩
  · rw [dateToUtc_valid _ hvr]
    rw [dateToUtc_valid _ hv] at hconv
    simp only [Except.ok.injEq] at hconv
    rw [← hconv]; rfl
  · simp only; omega

/-- Finding F-TIME-1 in DESIGN.md: adding 4294967295 microseconds to a date with one microsecond gives an earlier
date (one microsecond less), because the `uint32_t` sum wraps. -/
theorem addUs_wraps (gm : Int → Option Tm) (hg : Spec.IsGmtime gm) (a : Date) (ha : Spec.Valid a) (hy : a.year < 65536)
    (hmicro : a.micro = 1) :
    ∃ t, addUs gm a 4294967295 = .ok t ∧ dateTimeCompareByUs t a = .before := by
  have hmax := (utcMax_exact a ha hy)
  obtain ⟨t, ht, hv, hconv, _, _⟩ := utcToDate_exact gm hg (secs a) hmax.2.1
  have hm : a.milli < 1000 := ha.2.2.2.2.2.2.2.2.1
  have hvr : Spec.Valid { t with milli := a.milli, micro := 0 } := by
    obtain ⟨b1, b2, b3, b4, b5, b6, b7, b8, b9, b10⟩ := hv
    exact ⟨b1, b2, b3, b4, b5, b6, b7, b8, hm, by simp⟩
  refine ⟨{ t with milli := a.milli, micro := 0 }, ?_, ?_⟩
  · unfold addUs
    rw [hmax.1]
    simp only [hmicro]
    have e1 : ((4294967295 + 1) % 2 ^ 32 / 1000 + a.milli) % 2 ^ 32 / 1000 = 0 := by omega
    rw [e1, show ((secs a : Nat) : Int) + ((0 : Nat) : Int) = secs a by omega, ht]
    have e2 : ((4294967295 + 1) % 2 ^ 32 / 1000 + a.milli) % 2 ^ 32 % 1000 = a.milli := by omega
    have e3 : (4294967295 + 1) % 2 ^ 32 % 1000 = 0 := by omega
    simp only [e2, e3]
  · have hs : secs { t with milli := a.milli, micro := 0 } = secs a := by
      rw [dateToUtc_valid _ hv] at hconv
      simp only [Except.ok.injEq] at hconv
      have : secs t = secs a := by exact_mod_cast hconv
      rw [← this]; rfl
    refine (compareByUs_order _ a hvr ha).1.2 (.inr ⟨?_, by simp only [hmicro]; omega⟩)
    intro he
    have := secs_lt a _ ha hvr he
    omega

-- Non-vacuity: a leap day and its second count; a day that does not exist.
example : Spec.Valid ⟨2024, 2, 29, 12, 30, 15, 7, 9⟩ := by unfold Spec.Valid; decide
example : dateToUtc ⟨2024, 2, 29, 12, 30, 15, 7, 9⟩ = .ok 1709209815 := by decide +kernel
example : dateTimeCheck ⟨2023, 2, 29, 0, 0, 0, 0, 0⟩ = false := by decide +kernel
example : Spec.civil 59 = (1970, 3, 1) := by decide +kernel
/-- a correct `gmtime` exists -/
theorem exists_gmtime : ∃ gm, Spec.IsGmtime gm :=
  ⟨fun t => some ⟨((Spec.civil (t.toNat / 86400)).1 : Int) - 1900, (Spec.civil (t.toNat / 86400)).2.1 - 1,
      (Spec.civil (t.toNat / 86400)).2.2, t.toNat % 86400 / 3600, t.toNat % 3600 / 60, t.toNat % 60⟩, by
    intro n _
    refine ⟨_, rfl, ?_, rfl, rfl, rfl⟩
    simp only [Int.toNat_natCast]
    obtain ⟨y, m, d, hc, hv, _⟩ := civil_valid (n / 86400)
    rw [hc]
    obtain ⟨_, h1, _⟩ := hv
    simp only [Prod.mk.injEq, and_true]
    omega⟩

end Verif.Bsl.Time
