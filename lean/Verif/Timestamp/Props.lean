import Verif.Timestamp.Lemmas3

/-!
# Properties of `abc::timestamp`: C01, C02, C03
-/

namespace Abc.Timestamp

open Spec

/-! ## C01: calendar date -/

/-- Days on which the date computed by the code advances in step with the calendar, counted from
1970-03-01 in the 400-year cycle: until 2100-03-01 (except 2070-02-28), 2170-03-01 … 2200-03-01 and
2270-03-01 … 2300-03-01. -/
def inStepDay (n : Nat) : Prop :=
  n < 59 ∨ InStep (((n : Int) - 59) % 146097)

/-- C01, exact extent.  For every day from 1970-01-01 on (until the year no longer fits `int16_t`),
the date produced by `timestamp` is the Gregorian date exactly when: the day is in an "in step"
range and is not a February 29th; or it is outside these ranges and is March 1st of a leap year. -/
theorem date_correct_iff (n : Nat) (hn : n ≤ 11000000) :
    resetDate n = some (civil n) ↔
      (inStepDay n ∧ ¬ ((civil n).month = 2 ∧ (civil n).day = 29)) ∨
      (¬ inStepDay n ∧ ((n : Int) - 59) % 146097 ≠ 36524 ∧
        (civil n).month = 3 ∧ (civil n).day = 1 ∧ isLeap (civil n).year = true) := by
  obtain ⟨cv, cn⟩ := civil_valid n
  by_cases h59 : n < 59
  · obtain ⟨d, hd, hv, hdn, h29⟩ := resetDate_janFeb n (by omega) (by omega)
    have := civil_unique hv hdn
    rw [hd, ← this]
    simp [inStepDay, h59]
    simpa using h29
  · obtain ⟨d, hd, hv, h29, hin, hout⟩ := resetDate_closed (n - 59) (by omega) (by omega)
    rw [show (n : Int) - 59 + 59 = n by omega] at hd
    rw [hd, Option.some_inj]
    have huniq : dayNumber d = n → d = civil n := fun h => civil_unique hv h
    have hback : d = civil n → dayNumber d = n := fun h => by rw [h, cn]
    by_cases hs : InStep (((n : Int) - 59) % 146097)
    · simp only [inStepDay, h59, hs, or_true, true_and, not_true_eq_false, false_and, or_false]
      constructor
      · intro h; rw [← h]; exact h29
      · intro h
        rcases hin hs with h1 | ⟨h1, h2, h3, h4⟩
        · exact huniq (by omega)
        · exfalso
          -- then the real date is February 29th
          apply h
          have hvf : Valid ⟨d.year, 2, 29⟩ := by simp [Valid, monthLength, h4]
          have : dayNumber ⟨d.year, 2, 29⟩ = n := by
            obtain ⟨y, m, dd⟩ := d
            simp only at h2 h3 h4
            subst h2 h3
            have hl : leapDay y = 1 := by simp [leapDay, h4]
            simp [dayNumber, monthDays, hl] at h1 ⊢
            omega
          rw [← civil_unique hvf this]
          exact ⟨rfl, rfl⟩
    · simp only [inStepDay, h59, hs, false_or, false_and, not_false_eq_true, true_and]
      constructor
      · intro h
        have hq : ((n : Int) - 59) % 146097 ≠ 36524 := by
          intro hq
          -- 2070-02-28 is reported as 2070-03-01
          have hdn := hback h
          have := key_2070 (n - 59) (by omega) (by omega) hq d (by rw [← hd]; congr 1; omega)
          omega
        rcases hout hq hs with h1 | ⟨h1, h2, h3, h4⟩
        · have := hback h; omega
        · rw [← h]; exact ⟨hq, h2, h3, h4⟩
      · rintro ⟨hq, h2, h3, h4⟩
        rcases hout hq hs with h1 | ⟨h1, _⟩
        · exfalso
          -- the code would show February 29th
          apply h29
          have hvf : Valid ⟨(civil n).year, 2, 29⟩ := by simp [Valid, monthLength, h4]
          have : dayNumber ⟨(civil n).year, 2, 29⟩ = dayNumber d := by
            rw [h1]
            have hl : leapDay (civil n).year = 1 := by simp [leapDay, h4]
            unfold dayNumber at cn
            rw [h2, h3] at cn
            simp [dayNumber, monthDays, hl] at cn ⊢
            omega
          have e := dayNumber_inj hvf hv this
          rw [← e]; exact ⟨rfl, rfl⟩
        · exact huniq (by omega)

/-- The hypotheses of `date_correct_iff` are met and both sides are non-trivial: 2024-02-28 is
reported correctly. -/
example : resetDate 19781 = some ⟨2024, 2, 28⟩ ∧ civil 19781 = ⟨2024, 2, 28⟩ :=
  ⟨by decide, (civil_unique (by unfold Valid; decide) (by decide)).symm⟩

/-- C01, the part that holds, on instants: for every instant from 1970-01-01 up to and including
2100-03-01, except February 29ths and 2070-02-28, constructing a timestamp gives the Gregorian
date.  Missing with respect to the full claim: the excepted days and the days after 2100-03-01
(see `date_correct_iff` for the exact extent and `date_violated_*` for the failures). -/
theorem date_partial (ns : Nat) (n : Nat) (hn : n = ns / 86400000000000) (h : n ≤ 47541)
    (h29 : ¬ ((civil n).month = 2 ∧ (civil n).day = 29)) (h2070 : n ≠ 36583) :
    ∃ t, reset ns = some t ∧ t.date = civil n := by
  have hd : (ns : Int).tdiv nanosecondsPerDay = (n : Int) := by
    have : nanosecondsPerDay = 86400000000000 := by decide
    rw [this, Int.tdiv_eq_ediv_of_nonneg (by omega)]; omega
  have := (date_correct_iff n (by omega)).2 (Or.inl ⟨by unfold inStepDay InStep; omega, h29⟩)
  unfold reset
  dsimp only
  rw [hd, this]
  exact ⟨_, rfl, rfl⟩

/-- Instance of `date_partial`: 2000-03-01T00:00:01. -/
example : (11017 : Nat) = 951868801000000000 / 86400000000000 ∧ (11017 : Nat) ≤ 47541 ∧
    civil 11017 = ⟨2000, 3, 1⟩ :=
  ⟨by decide, by decide, (civil_unique (by unfold Valid; decide) (by decide)).symm⟩

/-- C01 is violated: no timestamp ever shows February 29th; on every leap day up to 2096 the date
shown is March 1st. -/
theorem date_violated_every_leap_day (n : Nat) (hn : n ≤ 11000000)
    (h29 : (civil n).month = 2 ∧ (civil n).day = 29) : resetDate n ≠ some (civil n) := by
  intro h
  rcases (date_correct_iff n hn).1 h with h | h
  · exact h.2 h29
  · omega

/-- 2024-02-29 is shown as 2024-03-01. -/
theorem date_violated_2024 :
    civil 19782 = ⟨2024, 2, 29⟩ ∧ resetDate 19782 = some ⟨2024, 3, 1⟩ :=
  ⟨(civil_unique (by unfold Valid; decide) (by decide)).symm, by decide⟩

/-- 2070-02-28 is shown as 2070-03-01. -/
theorem date_violated_2070 :
    civil 36583 = ⟨2070, 2, 28⟩ ∧ resetDate 36583 = some ⟨2070, 3, 1⟩ :=
  ⟨(civil_unique (by unfold Valid; decide) (by decide)).symm, by decide⟩

/-- 2100-03-02 is shown as 2100-03-01, and the code stays one day behind until 2170-02-28. -/
theorem date_violated_2100 (n : Nat) (h1 : 47541 < n) (h2 : n < 73108)
    (hm : ¬ ((civil n).month = 3 ∧ (civil n).day = 1 ∧ isLeap (civil n).year = true)) :
    resetDate n ≠ some (civil n) := by
  intro h
  rcases (date_correct_iff n (by omega)).1 h with ⟨h, _⟩ | h
  · unfold inStepDay InStep at h; omega
  · exact hm h.2.2

example : civil 47542 = ⟨2100, 3, 2⟩ ∧ resetDate 47542 = some ⟨2100, 3, 1⟩ ∧
    civil 73107 = ⟨2170, 2, 28⟩ ∧ resetDate 73107 = some ⟨2170, 2, 27⟩ :=
  ⟨(civil_unique (by unfold Valid; decide) (by decide)).symm, by decide,
   (civil_unique (by unfold Valid; decide) (by decide)).symm, by decide⟩

/-! ## C02: time of day -/

/-- C02.  For every instant at or after the epoch, the reported hours, minutes, seconds and
nanoseconds are in range and, together with the number of whole days, recombine to the instant. -/
theorem time_of_day (ns : Nat) (t : Timestamp) (h : reset ns = some t) :
    (0 ≤ t.time.hours ∧ t.time.hours < 24) ∧ (0 ≤ t.time.minutes ∧ t.time.minutes < 60) ∧
    (0 ≤ t.time.seconds ∧ t.time.seconds < 60) ∧
    (0 ≤ t.time.nanoseconds ∧ t.time.nanoseconds < 1000000000) ∧
    ((t.daysSinceEpoch * 24 + t.time.hours) * 60 + t.time.minutes) * 60 * 1000000000 +
      t.time.seconds * 1000000000 + t.time.nanoseconds = ns := by
  have hd : nanosecondsPerDay = 86400000000000 := by decide
  unfold reset at h
  dsimp only at h
  cases hr : resetDate ((ns : Int).tdiv nanosecondsPerDay) with
  | none => rw [hr] at h; simp at h
  | some d =>
    rw [hr] at h
    simp only [Option.some.injEq] at h
    subst h
    simp only [resetTime, hd, nanosecondCount, secondCount, minuteCount, hourCount]
    have h0 : (0 : Int) ≤ ns := by omega
    rw [Int.tdiv_eq_ediv_of_nonneg h0, Int.tmod_eq_emod_of_nonneg h0]
    have h1 : (0 : Int) ≤ (ns : Int) % 86400000000000 := by omega
    rw [Int.tmod_eq_emod_of_nonneg h1, Int.emod_emod]
    rw [Int.tdiv_eq_ediv_of_nonneg h1, Int.tmod_eq_emod_of_nonneg h1]
    have h2 : (0 : Int) ≤ (ns : Int) % 86400000000000 / 1000000000 := by omega
    rw [Int.tdiv_eq_ediv_of_nonneg h2, Int.tmod_eq_emod_of_nonneg h2]
    have h3 : (0 : Int) ≤ (ns : Int) % 86400000000000 / 1000000000 / 60 := by omega
    rw [Int.tdiv_eq_ediv_of_nonneg h3, Int.tmod_eq_emod_of_nonneg h3]
    have h4 : (0 : Int) ≤ (ns : Int) % 86400000000000 / 1000000000 / 60 / 60 := by omega
    rw [Int.tmod_eq_emod_of_nonneg h4]
    omega

/-- Every `system_clock` instant at or after the epoch does produce a timestamp. -/
theorem reset_defined (ns : Nat) (h : ns < 2 ^ 63) : ∃ t, reset ns = some t := by
  have hd : (ns : Int).tdiv nanosecondsPerDay = ((ns / 86400000000000 : Nat) : Int) := by
    have : nanosecondsPerDay = 86400000000000 := by decide
    rw [this, Int.tdiv_eq_ediv_of_nonneg (by omega)]; omega
  unfold reset
  dsimp only
  rw [hd]
  by_cases h59 : ns / 86400000000000 < 59
  · obtain ⟨d, hd, _⟩ := resetDate_janFeb ((ns / 86400000000000 : Nat) : Int) (by omega) (by omega)
    rw [hd]; exact ⟨_, rfl⟩
  · obtain ⟨d, hd, _⟩ := resetDate_closed (((ns / 86400000000000 : Nat) : Int) - 59) (by omega) (by omega)
    rw [show ((ns / 86400000000000 : Nat) : Int) - 59 + 59 = ((ns / 86400000000000 : Nat) : Int) by omega] at hd
    rw [hd]; exact ⟨_, rfl⟩

example : reset 1709210096123456789 =
    some ⟨19782, 45296123456789, ⟨2024, 3, 1⟩, ⟨12, 34, 56, 123456789⟩⟩ := by decide

/-! ## C03: ordering -/

theorem opEq_iff (a b : Timestamp) : opEq a b = true ↔
    (a.daysSinceEpoch = b.daysSinceEpoch ∧ a.nanosecondsSinceMidnight = b.nanosecondsSinceMidnight) := by
  simp [opEq]

theorem opGt_iff (a b : Timestamp) : opGt a b = true ↔ (a.daysSinceEpoch > b.daysSinceEpoch ∨
    (a.daysSinceEpoch = b.daysSinceEpoch ∧ a.nanosecondsSinceMidnight > b.nanosecondsSinceMidnight)) := by
  simp [opGt]

theorem opGe_iff (a b : Timestamp) : opGe a b = true ↔ (a.daysSinceEpoch > b.daysSinceEpoch ∨
    (a.daysSinceEpoch = b.daysSinceEpoch ∧ a.nanosecondsSinceMidnight ≥ b.nanosecondsSinceMidnight)) := by
  simp [opGe]

theorem opLt_iff (a b : Timestamp) : opLt a b = true ↔ ¬ (a.daysSinceEpoch > b.daysSinceEpoch ∨
    (a.daysSinceEpoch = b.daysSinceEpoch ∧ a.nanosecondsSinceMidnight ≥ b.nanosecondsSinceMidnight)) := by
  rw [← opGe_iff]; simp [opLt]

theorem opLe_iff (a b : Timestamp) : opLe a b = true ↔ ¬ (a.daysSinceEpoch > b.daysSinceEpoch ∨
    (a.daysSinceEpoch = b.daysSinceEpoch ∧ a.nanosecondsSinceMidnight > b.nanosecondsSinceMidnight)) := by
  rw [← opGt_iff]; simp [opLe]

theorem tmod_nonpos {a b : Int} (h : a ≤ 0) : a.tmod b ≤ 0 := by
  have := Int.tmod_nonneg b (a := -a) (by omega)
  rw [Int.neg_tmod] at this
  omega

/-- C03: the six operators come from one strict total order. -/
theorem order_total (a b c : Timestamp) :
    -- exactly one of <, ==, >
    ((opLt a b = true ∧ opEq a b = false ∧ opGt a b = false) ∨
     (opLt a b = false ∧ opEq a b = true ∧ opGt a b = false) ∨
     (opLt a b = false ∧ opEq a b = false ∧ opGt a b = true)) ∧
    -- derived operators
    opNe a b = !opEq a b ∧ opLe a b = (opLt a b || opEq a b) ∧ opGe a b = (opGt a b || opEq a b) ∧
    -- converse, equivalence and transitivity
    opGt a b = opLt b a ∧ opEq a b = opEq b a ∧ opLt a a = false ∧ opEq a a = true ∧
    (opLt a b = true → opLt b c = true → opLt a c = true) ∧
    (opEq a b = true → opEq b c = true → opEq a c = true) ∧
    (opEq a b = true → opLt b c = opLt a c ∧ opLt c b = opLt c a) := by
  have lt := opLt_iff
  have gt := opGt_iff
  have eq := opEq_iff
  have ge := opGe_iff
  have le := opLe_iff
  have hf : ∀ x : Bool, x = false ↔ ¬ x = true := by intro x; cases x <;> simp
  have hb : ∀ x y : Bool, x = y ↔ (x = true ↔ y = true) := fun x y => Bool.eq_iff_iff
  refine ⟨?_, rfl, ?_, ?_, ?_, ?_, ?_, ?_, ?_, ?_, ?_⟩
  · simp only [hf, lt, gt, eq]; omega
  · rw [hb, Bool.or_eq_true, lt, le, eq]; omega
  · rw [hb, Bool.or_eq_true, gt, ge, eq]; omega
  · rw [hb, lt, gt]; omega
  · rw [hb, eq, eq]; omega
  · rw [hf, lt]; omega
  · rw [eq]; omega
  · rw [lt, lt, lt]; omega
  · rw [eq, eq, eq]; omega
  · intro h; rw [eq] at h; rw [hb (opLt b c), hb (opLt c b), lt, lt, lt, lt]; omega

/-- Both orders are met by concrete timestamps (see also the example after the next theorem). -/
example : ∃ x y, reset 5 = some x ∧ reset 7 = some y ∧ opLt x y = true ∧ opGe x y = false :=
  ⟨_, _, rfl, rfl, by decide, by decide⟩

/-- C03: the order of timestamps is the order of the instants they are made from (also before the
epoch). -/
theorem order_chronological (a b : Int) (x y : Timestamp) (hx : reset a = some x)
    (hy : reset b = some y) :
    (opLt x y = true ↔ a < b) ∧ (opEq x y = true ↔ a = b) ∧ (opGt x y = true ↔ a > b) := by
  have hd : nanosecondsPerDay = 86400000000000 := by decide
  have key : ∀ (a : Int) (x : Timestamp), reset a = some x →
      x.daysSinceEpoch = a.tdiv 86400000000000 ∧ x.nanosecondsSinceMidnight = a.tmod 86400000000000 := by
    intro a x h
    unfold reset at h
    dsimp only at h
    cases hr : resetDate (a.tdiv nanosecondsPerDay) with
    | none => rw [hr] at h; simp at h
    | some d =>
      rw [hr] at h
      simp only [Option.some.injEq] at h
      subst h
      rw [hd]; exact ⟨rfl, rfl⟩
  obtain ⟨x1, x2⟩ := key a x hx
  obtain ⟨y1, y2⟩ := key b y hy
  have ha := Int.mul_tdiv_add_tmod a 86400000000000
  have hb := Int.mul_tdiv_add_tmod b 86400000000000
  have ha1 := Int.tmod_lt_of_pos a (b := 86400000000000) (by omega)
  have hb1 := Int.tmod_lt_of_pos b (b := 86400000000000) (by omega)
  have ha2 := Int.lt_tmod_of_pos a (b := 86400000000000) (by omega)
  have hb2 := Int.lt_tmod_of_pos b (b := 86400000000000) (by omega)
  have ha3 : 0 ≤ a → 0 ≤ a.tmod 86400000000000 := fun h => Int.tmod_nonneg _ h
  have hb3 : 0 ≤ b → 0 ≤ b.tmod 86400000000000 := fun h => Int.tmod_nonneg _ h
  have ha4 : a ≤ 0 → a.tmod 86400000000000 ≤ 0 := fun h => tmod_nonpos h
  have hb4 : b ≤ 0 → b.tmod 86400000000000 ≤ 0 := fun h => tmod_nonpos h
  simp only [opLt, opEq, opGt, opGe, Bool.not_eq_true', Bool.or_eq_true, Bool.and_eq_true, decide_eq_true_eq,
    beq_iff_eq, Bool.or_eq_false_iff, Bool.and_eq_false_iff, decide_eq_false_iff_not, beq_eq_false_iff_ne]
  rw [x1, x2, y1, y2]
  generalize a.tdiv 86400000000000 = p at *
  generalize b.tdiv 86400000000000 = q at *
  generalize a.tmod 86400000000000 = u at *
  generalize b.tmod 86400000000000 = v at *
  omega

example : ∃ x y, reset (-1) = some x ∧ reset 86400000000000 = some y ∧ opLt x y = true :=
  ⟨_, _, rfl, rfl, by decide⟩

end Abc.Timestamp
