/-!
# Model of `abc::timestamp` (`/repo/src/timestamp.h`)

Integers are `Int`; C++ integer division and remainder are `Int.tdiv`/`Int.tmod` (truncation towards
zero).  The fields year/month/day are `int16_t` in the code (`src/i/timestamp.i.h` 38-40); the
narrowing conversion is modelled by `wrap16` (two's complement wrap, as on every supported
compiler).  Overflow of `int32_t` intermediate values cannot occur, because every intermediate value
in `reset_date` is bounded by the number of days it starts from.
-/

namespace Abc.Timestamp

/-- `src/timestamp.h` 33-66. -/
def nanosecondCount : Int := 1000000000
def secondCount : Int := 60
def minuteCount : Int := 60
def hourCount : Int := 24
def nanosecondsPerDay : Int := nanosecondCount * secondCount * minuteCount * hourCount

/-- `src/timestamp.h` 63. -/
def minYear : Int := 1970

/-- `src/timestamp.h` 68-73. -/
def daysPer1Year : Int := 365
def daysPer1YearLeap : Int := daysPer1Year + 1
def daysPer4Years : Int := 3 * daysPer1Year + daysPer1YearLeap
def daysPer100YearsLeap : Int := 25 * daysPer4Years
def daysPer100Years : Int := daysPer100YearsLeap - 1
def daysPer400Years : Int := daysPer100YearsLeap + 3 * daysPer100Years

/-- Conversion of an `int32_t`/`int64_t` to `int16_t`. -/
def wrap16 (x : Int) : Int := (x + 32768) % 65536 - 32768

/-- The date fields (`src/i/timestamp.i.h` 219-221). -/
structure Date where
  year : Int
  month : Int
  day : Int
deriving DecidableEq, Repr

/-- The time fields (`src/i/timestamp.i.h` 223-228). -/
structure Time where
  hours : Int
  minutes : Int
  seconds : Int
  nanoseconds : Int
deriving DecidableEq, Repr

/-- `timestamp` (`src/i/timestamp.i.h` 215-228), without the derived milliseconds and microseconds. -/
structure Timestamp where
  daysSinceEpoch : Int
  nanosecondsSinceMidnight : Int
  date : Date
  time : Time
deriving DecidableEq, Repr

/-- The local variables of `reset_date` that `reset_date_if_done` updates. -/
structure Cursor where
  year : Int
  month : Int
  remaining : Int
deriving DecidableEq, Repr

/-- `reset_date_if_done`, `src/timestamp.h` 309-325: `.inl` is "done" with the final date. -/
def resetDateIfDone (c : Cursor) (daysIn1Month : Int) : Date ⊕ Cursor :=
  if c.remaining < daysIn1Month then
    .inl ⟨wrap16 c.year, wrap16 c.month, wrap16 (1 + c.remaining)⟩
  else if c.month + 1 > 12 then
    .inr ⟨c.year + 1, 1, c.remaining - daysIn1Month⟩
  else
    .inr ⟨c.year, c.month + 1, c.remaining - daysIn1Month⟩

/-- The chain of `if (reset_date_if_done(...)) return;` calls; `none` is the point marked
"unreachable" in `src/timestamp.h` 285, where no field is assigned. -/
def resetMonths (c : Cursor) : List Int → Date ⊕ Cursor
  | [] => .inr c
  | n :: ns =>
    match resetDateIfDone c n with
    | .inl d => .inl d
    | .inr c' => resetMonths c' ns

/-- `src/timestamp.h` 181-185. -/
def skip400 (c : Cursor) : Cursor :=
  if c.remaining ≥ daysPer400Years then
    { c with year := c.year + 400 * c.remaining.tdiv daysPer400Years,
             remaining := c.remaining.tmod daysPer400Years }
  else c

/-- `src/timestamp.h` 187-191. -/
def skipFirstCentury (c : Cursor) : Cursor :=
  if c.remaining ≥ daysPer100YearsLeap then
    { c with year := c.year + 100, remaining := c.remaining - daysPer100YearsLeap }
  else c

/-- `src/timestamp.h` 193-197. -/
def padCenturies (c : Cursor) : Cursor :=
  if c.remaining ≥ daysPer100Years then
    { c with remaining := c.remaining + c.remaining.tdiv daysPer100Years }
  else c

/-- `src/timestamp.h` 199-203. -/
def skip4 (c : Cursor) : Cursor :=
  if c.remaining ≥ daysPer4Years then
    { c with year := c.year + 4 * c.remaining.tdiv daysPer4Years,
             remaining := c.remaining.tmod daysPer4Years }
  else c

/-- `src/timestamp.h` 205-209. -/
def skipYear1 (c : Cursor) : Cursor :=
  if c.remaining ≥ daysPer1Year then
    { c with year := c.year + 1, remaining := c.remaining - daysPer1Year }
  else c

/-- `src/timestamp.h` 211-215. -/
def skipYear2 (c : Cursor) : Cursor :=
  if c.remaining ≥ daysPer1YearLeap then
    { c with year := c.year + 1, remaining := c.remaining - daysPer1YearLeap }
  else c

/-- `src/timestamp.h` 217-221. -/
def skipYears (c : Cursor) : Cursor :=
  if c.remaining ≥ daysPer1Year then
    { c with year := c.year + c.remaining.tdiv daysPer1Year,
             remaining := c.remaining.tmod daysPer1Year }
  else c

/-- `reset_date(days)`, `src/timestamp.h` 159-286.  `none`: the "unreachable" end (line 285). -/
def resetDate (days : Int) : Option Date :=
  match resetMonths ⟨minYear, 1, days⟩ [31, 28] with
  | .inl d => some d
  | .inr c =>
    let c := skipYears (skipYear2 (skipYear1 (skip4 (padCenturies (skipFirstCentury (skip400 c))))))
    match resetMonths c [31, 30, 31, 30, 31, 31, 30, 31, 30, 31, 31, 29] with
    | .inl d => some d
    | .inr _ => none

/-- `reset_time`, `src/timestamp.h` 290-305. -/
def resetTime (ns : Int) : Time :=
  let remaining := ns.tmod nanosecondsPerDay
  let nanoseconds := remaining.tmod nanosecondCount
  let remaining := remaining.tdiv nanosecondCount
  let seconds := remaining.tmod secondCount
  let remaining := remaining.tdiv secondCount
  let minutes := remaining.tmod minuteCount
  let remaining := remaining.tdiv minuteCount
  let hours := remaining.tmod hourCount
  ⟨hours, minutes, seconds, nanoseconds⟩

/-- `reset(nanoseconds_since_epoch)`, `src/timestamp.h` 108-114 (and the constructors 80-104 that
call it); `none` if `reset_date` does not assign the date. -/
def reset (ns : Int) : Option Timestamp :=
  let days := ns.tdiv nanosecondsPerDay
  let nsm := ns.tmod nanosecondsPerDay
  match resetDate days with
  | some d => some ⟨days, nsm, d, resetTime nsm⟩
  | none => none

/-- `operator==`, `src/timestamp.h` 118-121. -/
def opEq (a b : Timestamp) : Bool :=
  a.daysSinceEpoch == b.daysSinceEpoch && a.nanosecondsSinceMidnight == b.nanosecondsSinceMidnight

/-- `operator!=`, 125-127. -/
def opNe (a b : Timestamp) : Bool := !opEq a b

/-- `operator>`, 131-135. -/
def opGt (a b : Timestamp) : Bool :=
  decide (a.daysSinceEpoch > b.daysSinceEpoch) ||
    (a.daysSinceEpoch == b.daysSinceEpoch &&
      decide (a.nanosecondsSinceMidnight > b.nanosecondsSinceMidnight))

/-- `operator>=`, 139-143. -/
def opGe (a b : Timestamp) : Bool :=
  decide (a.daysSinceEpoch > b.daysSinceEpoch) ||
    (a.daysSinceEpoch == b.daysSinceEpoch &&
      decide (a.nanosecondsSinceMidnight ≥ b.nanosecondsSinceMidnight))

/-- `operator<`, 147-149. -/
def opLt (a b : Timestamp) : Bool := !opGe a b

/-- `operator<=`, 153-155. -/
def opLe (a b : Timestamp) : Bool := !opGt a b

end Abc.Timestamp
