/-! Model of the date arithmetic of /repo/bsl/sal/src/sal_time.c and
/repo/bsl/sal/src/posix/posix_time.c:67-92. Fields are natural numbers; the value ranges of the C types
(`uint16_t` year, ...) are hypotheses of the theorems where they matter. With a 16-bit year no intermediate value of
`BslMkTime64Get` leaves the range of its `int32_t`/`int64_t` variables (day numbers stay below 2^25, seconds below
2^41), so mathematical integers are used there; the `uint32_t` sums of `BSL_DateTimeAddUs` wrap as in C. -/
namespace Verif.Bsl.Time

/-- `BSL_TIME`, /repo/include/bsl/bsl_sal.h:583-592. -/
structure Date where
  year : Nat
  month : Nat
  day : Nat
  hour : Nat
  minute : Nat
  second : Nat
  milli : Nat
  micro : Nat
deriving DecidableEq, Repr

/-- Error codes, /repo/include/bsl/bsl_errno.h. -/
inductive Err | internalException | badParam
deriving DecidableEq, Repr

/-- `BSL_IsLeapYear`, /repo/bsl/sal/src/sal_time.c:49-52. -/
def isLeapYear (year : Nat) : Bool :=
  ((year % 4 == 0) && (year % 100 != 0)) || (year % 400 == 0)

/-- The loop :69-73 of `BslMkTime64Get`, /repo/bsl/sal/src/sal_time.c: `n` rounds starting at year `i`. -/
def extraDays : Nat → Nat → Nat
  | _, 0 => 0
  | i, n + 1 => (if isLeapYear i then 1 else 0) + extraDays (i + 1) n

/-- `monthTable`, /repo/bsl/sal/src/sal_time.c:67. -/
def monthTable : List Nat := [0, 31, 59, 90, 120, 151, 181, 212, 243, 273, 304, 334, 365]

/-- `monthTable[month]` after the leap-year correction :76-80 (entries 2 to 11 get one more). `none` is an index
outside the table. -/
def monthStart (leap : Bool) (month : Nat) : Option Nat :=
  (monthTable[month]?).map fun t => if leap && 2 ≤ month && month < 12 then t + 1 else t

/-- `BslMkTime64Get`, /repo/bsl/sal/src/sal_time.c:54-88. -/
def mkTime (t : Date) : Option Int :=
  let month : Int := (t.month : Int) - 1
  let extraDay : Int := extraDays 1970 (t.year - 1970)
  let unixYear : Int := (t.year : Int) - 1970
  if month < 0 then none
  else
    match monthStart (isLeapYear t.year) month.toNat with
    | none => none
    | some ms =>
      let unixDay : Int := unixYear * 365 + ms + ((t.day : Int) - 1) + extraDay
      some ((t.minute : Int) * 60 + t.second + ((t.hour : Int) * 3600 + unixDay * 86400))

/-- `BslFebDayValidCheck`, /repo/bsl/sal/src/sal_time.c:288-300. -/
def febDayValid (year day : Nat) : Bool :=
  if isLeapYear year == true && day ≤ 29 then true
  else if isLeapYear year == false && day ≤ 28 then true
  else false

/-- `BslDayValidCheck`, /repo/bsl/sal/src/sal_time.c:302-337. -/
def dayValid (year month day : Nat) : Bool :=
  match month with
  | 1 | 3 | 5 | 7 | 8 | 10 | 12 => if day > 31 then false else true
  | 4 | 6 | 9 | 11 => if day > 30 then false else true
  | 2 => febDayValid year day
  | _ => false

/-- `BslYearMonthDayCheck`, /repo/bsl/sal/src/sal_time.c:339-350. -/
def yearMonthDayCheck (t : Date) : Bool :=
  if t.year < 1970 then false
  else if t.month < 1 || t.month > 12 then false
  else if t.day < 1 then false
  else dayValid t.year t.month t.day

/-- `BslHourMinSecCheck`, /repo/bsl/sal/src/sal_time.c:352-371. -/
def hourMinSecCheck (t : Date) : Bool :=
  if t.hour > 23 then false
  else if t.minute > 59 then false
  else if t.second > 59 then false
  else if t.milli > 999 then false
  else if t.micro > 999 then false
  else true

/-- `BSL_DateTimeCheck`, /repo/bsl/sal/src/sal_time.c:373-376. -/
def dateTimeCheck (t : Date) : Bool := yearMonthDayCheck t && hourMinSecCheck t

/-- `BSL_SAL_DateToUtcTimeConvert` with `BslUtcTimeGet`, /repo/bsl/sal/src/sal_time.c:97-110, 275-286. An index
outside `monthTable` is treated as an error outcome `badParam` (proved unreachable). -/
def dateToUtc (t : Date) : Except Err Int :=
  if dateTimeCheck t == false then .error .internalException
  else
    match mkTime t with
    | none => .error .badParam
    | some r => if r < 0 then .error .internalException else .ok r

/-- Results of the comparison functions, /repo/include/bsl/bsl_sal.h (`BSL_TIME_CMP_...`). -/
inductive Cmp | before | after | equal | error
deriving DecidableEq, Repr

/-- `BSL_SAL_DateTimeCompare`, /repo/bsl/sal/src/sal_time.c:142-167: the result and `*diffSec`. -/
def dateTimeCompare (a b : Date) : Cmp × Int :=
  match dateToUtc a, dateToUtc b with
  | .ok ua, .ok ub =>
    let diff := ua - ub
    (if diff < 0 then .before else if diff > 0 then .after else .equal, diff)
  | _, _ => (.error, 0)

/-- `TimeCmp`, /repo/bsl/sal/src/sal_time.c:169-178. -/
def timeCmp (a b : Nat) : Cmp := if a > b then .after else if a < b then .before else .equal

/-- `BSL_SAL_DateTimeCompareByUs`, /repo/bsl/sal/src/sal_time.c:180-195. -/
def dateTimeCompareByUs (a b : Date) : Cmp :=
  if (dateTimeCompare a b).1 ≠ .equal then (dateTimeCompare a b).1
  else if timeCmp a.milli b.milli ≠ .equal then timeCmp a.milli b.milli
  else timeCmp a.micro b.micro

/-- The fields of `struct tm` that are used. -/
structure Tm where
  year : Int
  mon : Nat
  mday : Nat
  hour : Nat
  min : Nat
  sec : Nat
deriving DecidableEq, Repr

/-- `BSL_SAL_UtcTimeToDateConvert` without registered callback, /repo/bsl/sal/src/sal_time.c:378-392, and
`SAL_TIME_UtcTimeToDateConvert`, /repo/bsl/sal/src/posix/posix_time.c:67-92, on a platform with 64-bit `time_t`.
`gmtime` is the C library's `gmtime_r`. -/
def utcToDate (gmtime : Int → Option Tm) (utc : Int) : Except Err Date :=
  if utc > 2005949145599 then .error .badParam
  else
    match gmtime utc with
    | none => .error .badParam
    | some tm =>
      let year := tm.year + 1900
      if year < 0 ∨ year > 65535 then .error .badParam
      else .ok ⟨year.toNat, tm.mon + 1, tm.mday, tm.hour, tm.min, tm.sec, 0, 0⟩

/-- `BSL_DateTimeAddUs`, /repo/bsl/sal/src/sal_time.c:197-225; `uint32_t` sums wrap. -/
def addUs (gmtime : Int → Option Tm) (a : Date) (us : Nat) : Except Err Date :=
  match dateToUtc a with
  | .error e => .error e
  | .ok utc =>
    let micro := (us + a.micro) % 2 ^ 32
    let milli := (micro / 1000 + a.milli) % 2 ^ 32
    let micro := micro % 1000
    let second : Nat := milli / 1000
    let milli := milli % 1000
    match utcToDate gmtime (utc + (second : Int)) with
    | .error e => .error e
    | .ok r => .ok { r with milli := milli, micro := micro }

/-- `BSL_DateTimeAddDaySecond`, /repo/bsl/sal/src/sal_time.c:227-273. `offsetDay` is an `int32_t`, `offsetSecond`
an `int64_t`; sums that would overflow `int64_t` are refused. -/
def addDaySecond (gmtime : Int → Option Tm) (a : Date) (offsetDay offsetSecond : Int) : Except Err Date :=
  match dateToUtc a with
  | .error e => .error e
  | .ok utc =>
    let daySec := offsetDay * 86400
    if (daySec > 0 ∧ offsetSecond > 2 ^ 63 - 1 - daySec) ∨ (daySec < 0 ∧ offsetSecond < -2 ^ 63 - daySec) then
      .error .internalException
    else
      let add := daySec + offsetSecond
      if add > 0 ∧ utc > 2 ^ 63 - 1 - add then .error .internalException
      else if add < 0 ∧ utc < -2 ^ 63 - add then .error .internalException
      else
        match utcToDate gmtime (utc + add) with
        | .error e => .error e
        | .ok r => .ok { r with milli := a.milli, micro := a.micro }

end Verif.Bsl.Time
