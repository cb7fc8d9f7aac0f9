import Verif.Timestamp.Lemmas

/-! The year part of `reset_date` in closed form. -/

namespace Abc.Timestamp

open Spec

/-- The cursor after all year skipping. -/
def yearCursor (r : Int) : Cursor :=
  skipYears (skipYear2 (skipYear1 (skip4 (padCenturies (skipFirstCentury (skip400 ⟨1970, 3, r⟩))))))

theorem skip400_eq (y m r : Int) (hr : 0 ≤ r) :
    skip400 ⟨y, m, r⟩ = ⟨y + 400 * (r / 146097), m, r % 146097⟩ := by
  show (if (146097 : Int) ≤ r then Cursor.mk (y + 400 * r.tdiv 146097) m (r.tmod 146097) else ⟨y, m, r⟩) = _
  rw [Int.tdiv_eq_ediv_of_nonneg hr, Int.tmod_eq_emod_of_nonneg hr]
  split
  · rfl
  · simp only [Cursor.mk.injEq, true_and]; omega

theorem skipFirstCentury_eq (y m r : Int) :
    skipFirstCentury ⟨y, m, r⟩ = if 36525 ≤ r then ⟨y + 100, m, r - 36525⟩ else ⟨y, m, r⟩ := by
  rfl

theorem padCenturies_eq (y m r : Int) (hr : 0 ≤ r) :
    padCenturies ⟨y, m, r⟩ = ⟨y, m, r + r / 36524⟩ := by
  show (if (36524 : Int) ≤ r then Cursor.mk y m (r + r.tdiv 36524) else ⟨y, m, r⟩) = _
  rw [Int.tdiv_eq_ediv_of_nonneg hr]
  split
  · rfl
  · simp only [Cursor.mk.injEq, true_and]; omega

theorem skip4_eq (y m r : Int) (hr : 0 ≤ r) :
    skip4 ⟨y, m, r⟩ = ⟨y + 4 * (r / 1461), m, r % 1461⟩ := by
  show (if (1461 : Int) ≤ r then Cursor.mk (y + 4 * r.tdiv 1461) m (r.tmod 1461) else ⟨y, m, r⟩) = _
  rw [Int.tdiv_eq_ediv_of_nonneg hr, Int.tmod_eq_emod_of_nonneg hr]
  split
  · rfl
  · simp only [Cursor.mk.injEq, true_and]; omega

theorem skipYear1_eq (y m r : Int) :
    skipYear1 ⟨y, m, r⟩ = if 365 ≤ r then ⟨y + 1, m, r - 365⟩ else ⟨y, m, r⟩ := rfl

theorem skipYear2_eq (y m r : Int) :
    skipYear2 ⟨y, m, r⟩ = if 366 ≤ r then ⟨y + 1, m, r - 366⟩ else ⟨y, m, r⟩ := rfl

theorem skipYears_eq (y m r : Int) (hr : 0 ≤ r) :
    skipYears ⟨y, m, r⟩ = ⟨y + r / 365, m, r % 365⟩ := by
  show (if (365 : Int) ≤ r then Cursor.mk (y + r.tdiv 365) m (r.tmod 365) else ⟨y, m, r⟩) = _
  rw [Int.tdiv_eq_ediv_of_nonneg hr, Int.tmod_eq_emod_of_nonneg hr]
  split
  · rfl
  · simp only [Cursor.mk.injEq, true_and]; omega

theorem lastYears_eq (y m s : Int) (h0 : 0 ≤ s) (h1 : s < 1461) :
    skipYears (skipYear2 (skipYear1 ⟨y, m, s⟩)) =
      if s < 365 then ⟨y, m, s⟩
      else if s < 730 then ⟨y + 1, m, s - 365⟩
      else if s = 730 then ⟨y + 2, m, 0⟩
      else if s < 1096 then ⟨y + 2, m, s - 731⟩
      else ⟨y + 3, m, s - 1096⟩ := by
  rw [skipYear1_eq]
  by_cases a1 : s < 365
  · rw [if_neg (by omega), skipYear2_eq, if_neg (by omega), skipYears_eq _ _ _ h0, if_pos a1]
    simp; omega
  rw [if_neg a1, if_pos (by omega), skipYear2_eq]
  by_cases a2 : s < 730
  · rw [if_neg (by omega), skipYears_eq _ _ _ (by omega), if_pos a2]; simp; omega
  rw [if_neg a2]
  by_cases a3 : s = 730
  · subst a3; rw [if_neg (by omega), skipYears_eq _ _ _ (by omega)]; simp; omega
  rw [if_neg a3, if_pos (by omega), skipYears_eq _ _ _ (by omega)]
  by_cases a4 : s < 1096
  · rw [if_pos a4]; simp; omega
  rw [if_neg a4]
  simp; omega

/-- Days since 1970-03-01 (within the 400-year cycle) on which the code is in step with the
calendar. -/
def InStep (q : Int) : Prop :=
  (q ≤ 47482 ∧ q ≠ 36524) ∨ (73049 ≤ q ∧ q ≤ 84006) ∨ (109573 ≤ q ∧ q ≤ 120530)

theorem isLeap_iff (y : Int) : isLeap y = true ↔ (y % 4 = 0 ∧ (y % 100 ≠ 0 ∨ y % 400 = 0)) := by
  simp [isLeap]

theorem yearDays_add400 (y a : Int) : yearDays (y + 400 * a) = yearDays y + 146097 * a := by
  unfold yearDays; omega

theorem isLeap_add400 (y a : Int) : isLeap (y + 400 * a) = isLeap y := by
  rw [Bool.eq_iff_iff, isLeap_iff, isLeap_iff]; omega

theorem leapDay_add400 (y a : Int) : leapDay (y + 400 * a) = leapDay y := by
  unfold leapDay; rw [isLeap_add400]

theorem leap_range (Y : Int) (h1 : 1970 ≤ Y) (h2 : Y ≤ 2370) :
    (Y % 4 = 0 ∧ (Y % 100 ≠ 0 ∨ Y % 400 = 0)) ↔ (Y % 4 = 0 ∧ Y ≠ 2100 ∧ Y ≠ 2200 ∧ Y ≠ 2300) := by
  omega

theorem e_mod {Y b c e : Int} (hY : Y = 1970 + b + 4 * c + e) (hb : b = 0 ∨ b = 100)
    (he : e = 0 ∨ e = 1 ∨ e = 2 ∨ e = 3) : Y % 4 = 0 ↔ e = 2 := by omega

theorem quarter {Y b c e : Int} (hY : Y = 1970 + b + 4 * c + e) (hb : b = 0 ∨ b = 100)
    (he : e = 0 ∨ e = 1 ∨ e = 2 ∨ e = 3) :
    4 * ((Y + 3) / 4) = Y + 3 - (if e = 0 then 1 else if e = 1 then 2 else if e = 2 then 3 else 0) := by
  rcases he with rfl | rfl | rfl | rfl <;> simp <;> omega

theorem century_range (Y : Int) (h1 : 1970 ≤ Y) (h2 : Y ≤ 2370) :
    (Y ≤ 2000 ∧ (Y + 99) / 100 = 20 ∧ (Y + 399) / 400 = 5) ∨
    (2001 ≤ Y ∧ Y ≤ 2100 ∧ (Y + 99) / 100 = 21 ∧ (Y + 399) / 400 = 6) ∨
    (2101 ≤ Y ∧ Y ≤ 2200 ∧ (Y + 99) / 100 = 22 ∧ (Y + 399) / 400 = 6) ∨
    (2201 ≤ Y ∧ Y ≤ 2300 ∧ (Y + 99) / 100 = 23 ∧ (Y + 399) / 400 = 6) ∨
    (2301 ≤ Y ∧ (Y + 99) / 100 = 24 ∧ (Y + 399) / 400 = 6) := by
  omega

set_option maxHeartbeats 4000000 in
theorem key_lin (q t b c s e R k Y l A B : Int) (ht : 0 ≤ t) (hq' : q < 146097) (hb : b = 0 ∨ b = 100)
    (hb0 : b = 0 → t < 36525 ∧ q = t) (hb1 : b = 100 → q = t + 36525)
    (hu : t + k = 1461 * c + s) (hs0 : 0 ≤ s ∧ s < 1461) (hk36 : 36524 * k ≤ t ∧ t < 36524 * k + 36524)
    (hk : k = 0 ∨ k = 1 ∨ k = 2) (hY : Y = 1970 + b + 4 * c + e)
    (h : (s < 365 ∧ e = 0 ∧ R = s) ∨ (365 ≤ s ∧ s < 730 ∧ e = 1 ∧ R = s - 365) ∨
        (s = 730 ∧ e = 2 ∧ R = 0) ∨ (730 < s ∧ s < 1096 ∧ e = 2 ∧ R = s - 731) ∨
        (1096 ≤ s ∧ e = 3 ∧ R = s - 1096))
    (hAB : (Y ≤ 2000 ∧ A = 20 ∧ B = 5) ∨ (2001 ≤ Y ∧ Y ≤ 2100 ∧ A = 21 ∧ B = 6) ∨
      (2101 ≤ Y ∧ Y ≤ 2200 ∧ A = 22 ∧ B = 6) ∨ (2201 ≤ Y ∧ Y ≤ 2300 ∧ A = 23 ∧ B = 6) ∨
      (2301 ≤ Y ∧ A = 24 ∧ B = 6)) (Q : Int) (hQ : 4 * Q = Y + 3 - (if e = 0 then 1 else if e = 1 then 2 else if e = 2 then 3 else 0))
    (hl : (l = 1 ∧ (e = 2 ∧ Y ≠ 2100 ∧ Y ≠ 2200 ∧ Y ≠ 2300)) ∨
      (l = 0 ∧ ¬ (e = 2 ∧ Y ≠ 2100 ∧ Y ≠ 2200 ∧ Y ≠ 2300))) :
    ((q ≤ 47482 ∧ q ≠ 36524) ∨ (73049 ≤ q ∧ q ≤ 84006) ∨ (109573 ≤ q ∧ q ≤ 120530) →
      365 * Y + Q - A + B + l + R = q + 719528 ∨
      (365 * Y + Q - A + B + l + R = q + 719528 + 1 ∧ R = 0 ∧ l = 1)) ∧
    (q ≠ 36524 → ¬ ((q ≤ 47482 ∧ q ≠ 36524) ∨ (73049 ≤ q ∧ q ≤ 84006) ∨ (109573 ≤ q ∧ q ≤ 120530)) →
      365 * Y + Q - A + B + l + R = q + 719528 - 1 ∨
      (365 * Y + Q - A + B + l + R = q + 719528 ∧ R = 0 ∧ l = 1)) := by
  rcases hb with rfl | rfl <;> rcases hk with rfl | rfl | rfl <;>
    rcases h with ⟨h1, rfl, rfl⟩ | ⟨h1, h2, rfl, rfl⟩ | ⟨h1, rfl, rfl⟩ | ⟨h1, h2, rfl, rfl⟩ | ⟨h1, rfl, rfl⟩ <;>
    rcases hAB with ⟨g1, rfl, rfl⟩ | ⟨g1, g2, rfl, rfl⟩ | ⟨g1, g2, rfl, rfl⟩ | ⟨g1, g2, rfl, rfl⟩ | ⟨g1, rfl, rfl⟩ <;>
    simp at hQ <;> (try (exfalso; omega)) <;>
    rcases hl with ⟨rfl, hl⟩ | ⟨rfl, hl⟩ <;> simp at hl <;>
    (constructor <;> intros <;> omega)

theorem key_num (q t b c s e R k Y : Int) (ht : 0 ≤ t) (hq' : q < 146097) (hb : b = 0 ∨ b = 100)
    (hb0 : b = 0 → t < 36525 ∧ q = t) (hb1 : b = 100 → q = t + 36525)
    (hu : t + k = 1461 * c + s) (hs0 : 0 ≤ s ∧ s < 1461) (hk36 : 36524 * k ≤ t ∧ t < 36524 * k + 36524)
    (hk : k = 0 ∨ k = 1 ∨ k = 2) (hY : Y = 1970 + b + 4 * c + e)
    (h : (s < 365 ∧ e = 0 ∧ R = s) ∨ (365 ≤ s ∧ s < 730 ∧ e = 1 ∧ R = s - 365) ∨
        (s = 730 ∧ e = 2 ∧ R = 0) ∨ (730 < s ∧ s < 1096 ∧ e = 2 ∧ R = s - 731) ∨
        (1096 ≤ s ∧ e = 3 ∧ R = s - 1096))
    (l : Int) (hl : (l = 1 ∧ (Y % 4 = 0 ∧ (Y % 100 ≠ 0 ∨ Y % 400 = 0))) ∨
      (l = 0 ∧ ¬ (Y % 4 = 0 ∧ (Y % 100 ≠ 0 ∨ Y % 400 = 0)))) :
    ((q ≤ 47482 ∧ q ≠ 36524) ∨ (73049 ≤ q ∧ q ≤ 84006) ∨ (109573 ≤ q ∧ q ≤ 120530) →
      365 * Y + (Y + 3) / 4 - (Y + 99) / 100 + (Y + 399) / 400 + l + R = q + 719528 ∨
      (365 * Y + (Y + 3) / 4 - (Y + 99) / 100 + (Y + 399) / 400 + l + R = q + 719528 + 1 ∧ R = 0 ∧
        (Y % 4 = 0 ∧ (Y % 100 ≠ 0 ∨ Y % 400 = 0)))) ∧
    (q ≠ 36524 → ¬ ((q ≤ 47482 ∧ q ≠ 36524) ∨ (73049 ≤ q ∧ q ≤ 84006) ∨ (109573 ≤ q ∧ q ≤ 120530)) →
      365 * Y + (Y + 3) / 4 - (Y + 99) / 100 + (Y + 399) / 400 + l + R = q + 719528 - 1 ∨
      (365 * Y + (Y + 3) / 4 - (Y + 99) / 100 + (Y + 399) / 400 + l + R = q + 719528 ∧ R = 0 ∧
        (Y % 4 = 0 ∧ (Y % 100 ≠ 0 ∨ Y % 400 = 0)))) := by
  have hYr : 1970 ≤ Y ∧ Y ≤ 2370 := by omega
  have he : e = 0 ∨ e = 1 ∨ e = 2 ∨ e = 3 := by omega
  have hleap : (Y % 4 = 0 ∧ (Y % 100 ≠ 0 ∨ Y % 400 = 0)) ↔ (e = 2 ∧ Y ≠ 2100 ∧ Y ≠ 2200 ∧ Y ≠ 2300) := by
    rw [leap_range Y hYr.1 hYr.2]
    have : Y % 4 = 0 ↔ e = 2 := by exact e_mod hY hb he
    rw [this]
  simp only [hleap] at hl ⊢
  have := key_lin q t b c s e R k Y l ((Y + 99) / 100) ((Y + 399) / 400) ht hq' hb hb0 hb1 hu hs0 hk36 hk hY h
    (by rcases hYr with ⟨y1, y2⟩; exact century_range Y y1 y2) ((Y + 3) / 4) (quarter hY hb he) hl
  have hl1 : l = 1 ↔ (e = 2 ∧ Y ≠ 2100 ∧ Y ≠ 2200 ∧ Y ≠ 2300) := by
    rcases hl with ⟨a, b⟩ | ⟨a, b⟩
    · simp [a, b]
    · constructor
      · intro h; omega
      · intro h; exact absurd h b
  simp only [hl1] at this
  exact this

/-- One 400-year cycle. -/
theorem cycle_closed (B q : Int) (hq : 0 ≤ q) (hq' : q < 146097) :
    ∃ Y R, skipYears (skipYear2 (skipYear1 (skip4 (padCenturies (skipFirstCentury ⟨1970 + B, 3, q⟩))))) = ⟨Y + B, 3, R⟩
      ∧ 0 ≤ R ∧ R < 365 ∧ 1970 ≤ Y ∧ Y ≤ 2370 ∧
      (InStep q → yearDays Y + leapDay Y + R = q + 719528 ∨
        (yearDays Y + leapDay Y + R = q + 719528 + 1 ∧ R = 0 ∧ isLeap Y = true)) ∧
      (q ≠ 36524 → ¬ InStep q → yearDays Y + leapDay Y + R = q + 719528 - 1 ∨
        (yearDays Y + leapDay Y + R = q + 719528 ∧ R = 0 ∧ isLeap Y = true)) := by
  have step : ∀ b t : Int, 0 ≤ t → t < 109573 → (b = 0 ∨ b = 100) → (b = 0 → t < 36525 ∧ q = t) → (b = 100 → q = t + 36525) →
    ∃ Y R, skipYears (skipYear2 (skipYear1 (skip4 (padCenturies ⟨1970 + B + b, 3, t⟩)))) = ⟨Y + B, 3, R⟩
      ∧ 0 ≤ R ∧ R < 365 ∧ 1970 ≤ Y ∧ Y ≤ 2370 ∧
      (InStep q → yearDays Y + leapDay Y + R = q + 719528 ∨
        (yearDays Y + leapDay Y + R = q + 719528 + 1 ∧ R = 0 ∧ isLeap Y = true)) ∧
      (q ≠ 36524 → ¬ InStep q → yearDays Y + leapDay Y + R = q + 719528 - 1 ∨
        (yearDays Y + leapDay Y + R = q + 719528 ∧ R = 0 ∧ isLeap Y = true)) := by
    intro b t ht ht' hb hb0 hb1
    rw [padCenturies_eq _ _ _ ht, skip4_eq _ _ _ (by omega), lastYears_eq _ _ _ (by omega) (by omega)]
    generalize hu : t + t / 36524 = u
    generalize hc : u / 1461 = c
    generalize hs : u % 1461 = s
    have hs0 : 0 ≤ s ∧ s < 1461 ∧ u = 1461 * c + s := by omega
    have key : ∀ e R : Int, (s < 365 ∧ e = 0 ∧ R = s) ∨ (365 ≤ s ∧ s < 730 ∧ e = 1 ∧ R = s - 365) ∨
        (s = 730 ∧ e = 2 ∧ R = 0) ∨ (730 < s ∧ s < 1096 ∧ e = 2 ∧ R = s - 731) ∨
        (1096 ≤ s ∧ e = 3 ∧ R = s - 1096) → 0 ≤ R ∧ R < 365 ∧ 1970 ≤ 1970 + b + 4 * c + e ∧ 1970 + b + 4 * c + e ≤ 2370 ∧
      (InStep q → yearDays (1970 + b + 4 * c + e) + leapDay (1970 + b + 4 * c + e) + R = q + 719528 ∨
        (yearDays (1970 + b + 4 * c + e) + leapDay (1970 + b + 4 * c + e) + R = q + 719528 + 1 ∧ R = 0 ∧ isLeap (1970 + b + 4 * c + e) = true)) ∧
      (q ≠ 36524 → ¬ InStep q → yearDays (1970 + b + 4 * c + e) + leapDay (1970 + b + 4 * c + e) + R = q + 719528 - 1 ∨
        (yearDays (1970 + b + 4 * c + e) + leapDay (1970 + b + 4 * c + e) + R = q + 719528 ∧ R = 0 ∧ isLeap (1970 + b + 4 * c + e) = true)) := by
      intro e R h
      refine ⟨by omega, by omega, by omega, by omega, ?_⟩
      have hk : t / 36524 = 0 ∨ t / 36524 = 1 ∨ t / 36524 = 2 := by omega
      have := key_num q t b c s e R (t / 36524) (1970 + b + 4 * c + e) ht hq' hb hb0 hb1 (by omega)
        (by omega) (by omega) hk rfl h
      rcases leapDay_cases (1970 + b + 4 * c + e) with ⟨hl, hlb⟩ | ⟨hl, hlb⟩
      · rw [← Bool.not_eq_true, isLeap_iff] at hlb
        rw [hl, isLeap_iff]
        unfold InStep yearDays
        exact this 0 (Or.inr ⟨rfl, hlb⟩)
      · rw [isLeap_iff] at hlb
        rw [hl, isLeap_iff]
        unfold InStep yearDays
        exact this 1 (Or.inl ⟨rfl, hlb⟩)
    split
    · exact ⟨1970 + b + 4 * c + 0, s, by simp; omega, key _ _ (by omega)⟩
    split
    · exact ⟨1970 + b + 4 * c + 1, s - 365, by simp; omega, key _ _ (by omega)⟩
    split
    · exact ⟨1970 + b + 4 * c + 2, 0, by simp; omega, key _ _ (by omega)⟩
    split
    · exact ⟨1970 + b + 4 * c + 2, s - 731, by simp; omega, key _ _ (by omega)⟩
    · exact ⟨1970 + b + 4 * c + 3, s - 1096, by simp; omega, key _ _ (by omega)⟩
  rw [skipFirstCentury_eq]
  by_cases h : 36525 ≤ q
  · rw [if_pos h]
    exact step 100 (q - 36525) (by omega) (by omega) (by omega) (by omega) (by omega)
  · rw [if_neg h]
    have := step 0 q (by omega) (by omega) (by omega) (by omega) (by omega)
    simpa using this

theorem cycle_2070 (B : Int) :
    skipYears (skipYear2 (skipYear1 (skip4 (padCenturies (skipFirstCentury ⟨1970 + B, 3, 36524⟩))))) =
      ⟨2070 + B, 3, 0⟩ := by
  rw [skipFirstCentury_eq, if_neg (by omega), padCenturies_eq _ _ _ (by omega), skip4_eq _ _ _ (by omega),
    lastYears_eq _ _ _ (by omega) (by omega), if_pos (by omega)]
  simp; omega

end Abc.Timestamp
