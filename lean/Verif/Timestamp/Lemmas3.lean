import Verif.Timestamp.Lemmas2

/-! The month part of `reset_date`, and the whole function in closed form. -/

namespace Abc.Timestamp

open Spec

theorem wrap16_id {x : Int} (h1 : -32768 ≤ x) (h2 : x ≤ 32767) : wrap16 x = x := by
  unfold wrap16; omega

/-- The month table with its running offset. -/
theorem months_closed (Y R : Int) (h0 : 0 ≤ R) (h1 : R < 365) (hY : 1970 ≤ Y) (hY' : Y + 1 ≤ 32767) :
    ∃ d, resetMonths ⟨Y, 3, R⟩ [31, 30, 31, 30, 31, 31, 30, 31, 30, 31, 31, 29] = .inl d ∧ Valid d ∧
      dayNumber d = yearDays Y + 59 + leapDay Y + R - 719528 ∧ ¬ (d.month = 2 ∧ d.day = 29) ∧
      (R = 0 → d = ⟨Y, 3, 1⟩) ∧ Y ≤ d.year := by
  have hw : ∀ x : Int, -32768 ≤ x → x ≤ 32767 → wrap16 x = x := fun x a b => wrap16_id a b
  have hs := yearDays_succ Y
  have fin : ∀ (m d : Int), 3 ≤ m → m ≤ 12 → 1 ≤ d → d ≤ monthLength Y m →
      monthDays Y m + d - 1 = 59 + leapDay Y + R → (R = 0 → m = 3) →
      ∃ e, (Sum.inl ⟨wrap16 Y, wrap16 m, wrap16 d⟩ : Date ⊕ Cursor) = .inl e ∧ Valid e ∧
      dayNumber e = yearDays Y + 59 + leapDay Y + R - 719528 ∧ ¬ (e.month = 2 ∧ e.day = 29) ∧
      (R = 0 → e = ⟨Y, 3, 1⟩) ∧ Y ≤ e.year := by
    intro m d hm hm' hd hd' hn hR
    have hml : monthLength Y m ≤ 31 := by unfold monthLength; split; split; all_goals (try split) <;> omega
    refine ⟨⟨Y, m, d⟩, ?_, ⟨by simp only; omega, by simp only; omega, hd, hd'⟩, ?_, ?_, ?_, ?_⟩
    · rw [hw Y (by omega) (by omega), hw m (by omega) (by omega), hw d (by omega) (by omega)]
    · unfold dayNumber; simp only; omega
    · simp only; omega
    · intro h
      have h3 := hR h
      subst h3
      have : monthDays Y 3 = 59 + leapDay Y := by simp [monthDays]
      simp only [Date.mk.injEq, true_and]; omega
    · simp only; omega
  have fin2 : ∀ (m d : Int), 1 ≤ m → m ≤ 2 → 1 ≤ d → d ≤ monthLength (Y+1) m → d ≤ 31 → 
      monthDays (Y+1) m + d - 1 + 306 = R → ¬ (m = 2 ∧ d = 29) →
      ∃ e, (Sum.inl ⟨wrap16 (Y+1), wrap16 m, wrap16 d⟩ : Date ⊕ Cursor) = .inl e ∧ Valid e ∧
      dayNumber e = yearDays Y + 59 + leapDay Y + R - 719528 ∧ ¬ (e.month = 2 ∧ e.day = 29) ∧
      (R = 0 → e = ⟨Y, 3, 1⟩) ∧ Y ≤ e.year := by
    intro m d hm hm' hd hd' h31 hn hR
    refine ⟨⟨Y+1, m, d⟩, ?_, ⟨by simp only; omega, by simp only; omega, hd, hd'⟩, ?_, ?_, ?_, ?_⟩
    · rw [hw (Y+1) (by omega) (by omega), hw m (by omega) (by omega), hw d (by omega) (by omega)]
    · unfold dayNumber; simp only; omega
    · simpa using hR
    · intro h
      have : m = 1 ∨ m = 2 := by omega
      rcases this with h | h <;> subst h <;> simp [monthDays] at hn <;> omega
    · simp only; omega
  have mono : ∀ r n : Int, ¬ r < n → 0 ≤ r - n := by intros; omega
  unfold resetMonths resetDateIfDone
  simp only
  by_cases c1 : R < 31
  · rw [if_pos c1]; simp only; exact fin 3 (1 + R) (by omega) (by omega) (by omega) (by simp [monthLength]; omega) (by simp [monthDays]; omega) (by omega)
  rw [if_neg c1, if_neg (by omega)]
  unfold resetMonths resetDateIfDone
  simp only
  by_cases c2 : R - 31 < 30
  · rw [if_pos c2]; simp only; exact fin 4 _ (by omega) (by omega) (by omega) (by simp [monthLength]; omega) (by simp [monthDays]; omega) (by omega)
  rw [if_neg c2, if_neg (by omega)]
  unfold resetMonths resetDateIfDone
  simp only
  by_cases c3 : R - 31 - 30 < 31
  · rw [if_pos c3]; simp only; exact fin 5 _ (by omega) (by omega) (by omega) (by simp [monthLength]; omega) (by simp [monthDays]; omega) (by omega)
  rw [if_neg c3, if_neg (by omega)]
  unfold resetMonths resetDateIfDone
  simp only
  by_cases c4 : R - 31 - 30 - 31 < 30
  · rw [if_pos c4]; simp only; exact fin 6 _ (by omega) (by omega) (by omega) (by simp [monthLength]; omega) (by simp [monthDays]; omega) (by omega)
  rw [if_neg c4, if_neg (by omega)]
  unfold resetMonths resetDateIfDone
  simp only
  by_cases c5 : R - 31 - 30 - 31 - 30 < 31
  · rw [if_pos c5]; simp only; exact fin 7 _ (by omega) (by omega) (by omega) (by simp [monthLength]; omega) (by simp [monthDays]; omega) (by omega)
  rw [if_neg c5, if_neg (by omega)]
  unfold resetMonths resetDateIfDone
  simp only
  by_cases c6 : R - 31 - 30 - 31 - 30 - 31 < 31
  · rw [if_pos c6]; simp only; exact fin 8 _ (by omega) (by omega) (by omega) (by simp [monthLength]; omega) (by simp [monthDays]; omega) (by omega)
  rw [if_neg c6, if_neg (by omega)]
  unfold resetMonths resetDateIfDone
  simp only
  by_cases c7 : R - 31 - 30 - 31 - 30 - 31 - 31 < 30
  · rw [if_pos c7]; simp only; exact fin 9 _ (by omega) (by omega) (by omega) (by simp [monthLength]; omega) (by simp [monthDays]; omega) (by omega)
  rw [if_neg c7, if_neg (by omega)]
  unfold resetMonths resetDateIfDone
  simp only
  by_cases c8 : R - 31 - 30 - 31 - 30 - 31 - 31 - 30 < 31
  · rw [if_pos c8]; simp only; exact fin 10 _ (by omega) (by omega) (by omega) (by simp [monthLength]; omega) (by simp [monthDays]; omega) (by omega)
  rw [if_neg c8, if_neg (by omega)]
  unfold resetMonths resetDateIfDone
  simp only
  by_cases c9 : R - 31 - 30 - 31 - 30 - 31 - 31 - 30 - 31 < 30
  · rw [if_pos c9]; simp only; exact fin 11 _ (by omega) (by omega) (by omega) (by simp [monthLength]; omega) (by simp [monthDays]; omega) (by omega)
  rw [if_neg c9, if_neg (by omega)]
  unfold resetMonths resetDateIfDone
  simp only
  by_cases c10 : R - 31 - 30 - 31 - 30 - 31 - 31 - 30 - 31 - 30 < 31
  · rw [if_pos c10]; simp only; exact fin 12 _ (by omega) (by omega) (by omega) (by simp [monthLength]; omega) (by simp [monthDays]; omega) (by omega)
  rw [if_neg c10, if_pos (by omega)]
  unfold resetMonths resetDateIfDone
  simp only
  by_cases c11 : R - 31 - 30 - 31 - 30 - 31 - 31 - 30 - 31 - 30 - 31 < 31
  · rw [if_pos c11]; simp only; exact fin2 1 _ (by omega) (by omega) (by omega) (by simp [monthLength]; omega) (by omega) (by simp [monthDays]; omega) (by omega)
  rw [if_neg c11, if_neg (by omega)]
  unfold resetMonths resetDateIfDone
  simp only
  rw [if_pos (by omega)]
  simp only
  exact fin2 2 _ (by omega) (by omega) (by omega) (by simp [monthLength]; split <;> omega) (by omega) (by simp [monthDays]; omega) (by omega)

/-- Days since 1970-03-01. -/
theorem resetDate_janFeb (n : Int) (h0 : 0 ≤ n) (h1 : n < 59) :
    ∃ d, resetDate n = some d ∧ Valid d ∧ dayNumber d = n ∧ ¬ (d.month = 2 ∧ d.day = 29) := by
  have hw : ∀ x : Int, -32768 ≤ x → x ≤ 32767 → wrap16 x = x := fun x a b => wrap16_id a b
  unfold resetDate resetMonths resetDateIfDone
  simp only
  by_cases c1 : n < 31
  · rw [if_pos c1]
    refine ⟨⟨1970, 1, 1 + n⟩, ?_, ?_, ?_, ?_⟩
    · simp only; rw [hw (1 + n) (by omega) (by omega)]; rfl
    · simp [Valid, monthLength]; omega
    · simp [dayNumber, monthDays, yearDays]; omega
    · simp
  · rw [if_neg c1, if_neg (by omega)]
    simp only
    unfold resetMonths resetDateIfDone
    simp only
    rw [if_pos (by omega)]
    refine ⟨⟨1970, 2, 1 + (n - 31)⟩, ?_, ?_, ?_, ?_⟩
    · simp only; rw [hw (1 + (n - 31)) (by omega) (by omega)]; rfl
    · have : isLeap 1970 = false := by decide
      simp [Valid, monthLength, this]; omega
    · simp [dayNumber, monthDays, yearDays]; omega
    · simp; omega

theorem resetDate_later (n : Int) (h : 59 ≤ n) :
    resetDate n =
      match resetMonths (yearCursor (n - 59)) [31, 30, 31, 30, 31, 31, 30, 31, 30, 31, 31, 29] with
      | .inl d => some d
      | .inr _ => none := by
  have h1 : resetMonths ⟨minYear, 1, n⟩ [31, 28] = .inr ⟨1970, 3, n - 59⟩ := by
    unfold resetMonths resetDateIfDone
    simp only
    rw [if_neg (by omega), if_neg (by omega)]
    unfold resetMonths resetDateIfDone
    simp only
    rw [if_neg (by omega), if_neg (by omega)]
    unfold resetMonths
    simp only [minYear, Sum.inr.injEq, Cursor.mk.injEq, true_and]; omega
  unfold resetDate
  rw [h1]
  rfl

/-- `reset_date` in closed form. -/
theorem resetDate_closed (r : Int) (hr : 0 ≤ r) (hY : 2371 + 400 * (r / 146097) ≤ 32767) :
    ∃ d, resetDate (r + 59) = some d ∧ Valid d ∧ ¬ (d.month = 2 ∧ d.day = 29) ∧
      (InStep (r % 146097) → dayNumber d = r + 59 ∨
        (dayNumber d = r + 60 ∧ d.month = 3 ∧ d.day = 1 ∧ isLeap d.year = true)) ∧
      (r % 146097 ≠ 36524 → ¬ InStep (r % 146097) → dayNumber d = r + 58 ∨
        (dayNumber d = r + 59 ∧ d.month = 3 ∧ d.day = 1 ∧ isLeap d.year = true)) := by
  rw [resetDate_later _ (by omega), show r + 59 - 59 = r by omega]
  unfold yearCursor
  rw [skip400_eq _ _ _ hr]
  obtain ⟨Y, R, hc, hR0, hR1, hY0, hY1, hin, hout⟩ :=
    cycle_closed (400 * (r / 146097)) (r % 146097) (by omega) (by omega)
  rw [hc]
  obtain ⟨d, hd, hv, hn, h29, h3, _⟩ := months_closed (Y + 400 * (r / 146097)) R hR0 hR1 (by omega) (by omega)
  rw [hd]
  rw [yearDays_add400, leapDay_add400] at hn
  refine ⟨d, rfl, hv, h29, ?_, ?_⟩
  · intro h
    rcases hin h with h | ⟨h, hR, hl⟩
    · left; omega
    · right; have := h3 hR; subst this; exact ⟨by omega, rfl, rfl, by simp only; rw [isLeap_add400]; exact hl⟩
  · intro h' h
    rcases hout h' h with h | ⟨h, hR, hl⟩
    · left; omega
    · right; have := h3 hR; subst this; exact ⟨by omega, rfl, rfl, by simp only; rw [isLeap_add400]; exact hl⟩

/-- 2070-02-28 (and every 400 years) is reported as March 1st. -/
theorem key_2070 (r : Int) (hr : 0 ≤ r) (hY : 2371 + 400 * (r / 146097) ≤ 32767) (hq : r % 146097 = 36524)
    (d : Date) (hd : resetDate (r + 59) = some d) : dayNumber d = r + 60 := by
  rw [resetDate_later _ (by omega), show r + 59 - 59 = r by omega] at hd
  unfold yearCursor at hd
  rw [skip400_eq _ _ _ hr, hq, cycle_2070] at hd
  obtain ⟨e, he, hv, hn, h29, h3, _⟩ := months_closed (2070 + 400 * (r / 146097)) 0 (by omega) (by omega) (by omega) (by omega)
  rw [he] at hd
  simp only [Option.some.injEq] at hd
  subst hd
  rw [yearDays_add400, leapDay_add400] at hn
  have : yearDays 2070 = 756053 := by decide
  have : leapDay 2070 = 0 := by decide
  omega

end Abc.Timestamp
