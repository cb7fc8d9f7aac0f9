import Verif.Timestamp.Spec

/-! Auxiliary lemmas: closed form of the day count and its injectivity. -/

namespace Abc.Timestamp

open Spec

/-- Days from 0000-03-01-style closed form: days before January 1st of year `y`. -/
def yearDays (y : Int) : Int := 365 * y + (y + 3) / 4 - (y + 99) / 100 + (y + 399) / 400

def leapDay (y : Int) : Int := if isLeap y then 1 else 0

def monthDays (y m : Int) : Int :=
  if m = 1 then 0 else if m = 2 then 31
  else (if m = 3 then 59 else if m = 4 then 90 else if m = 5 then 120 else if m = 6 then 151
    else if m = 7 then 181 else if m = 8 then 212 else if m = 9 then 243 else if m = 10 then 273
    else if m = 11 then 304 else 334) + leapDay y

def dayNumber (d : Date) : Int := yearDays d.year + monthDays d.year d.month + d.day - 1 - 719528

def Valid (d : Date) : Prop :=
  1 ≤ d.month ∧ d.month ≤ 12 ∧ 1 ≤ d.day ∧ d.day ≤ monthLength d.year d.month

theorem leapDay_cases (y : Int) : (leapDay y = 0 ∧ isLeap y = false) ∨ (leapDay y = 1 ∧ isLeap y = true) := by
  unfold leapDay; cases isLeap y <;> simp

theorem yearDays_succ (y : Int) : yearDays (y + 1) = yearDays y + 365 + leapDay y := by
  unfold yearDays leapDay isLeap
  by_cases h4 : y % 4 = 0 <;> by_cases h100 : y % 100 = 0 <;> by_cases h400 : y % 400 = 0 <;>
    simp [h4, h100, h400] <;> omega

theorem nextDay_valid {d : Date} (h : Valid d) : Valid (nextDay d) ∧ dayNumber (nextDay d) = dayNumber d + 1 := by
  obtain ⟨y, m, dd⟩ := d
  obtain ⟨h1, h2, h3, h4⟩ := h
  simp only at h1 h2 h3 h4
  have hm : m = 1 ∨ m = 2 ∨ m = 3 ∨ m = 4 ∨ m = 5 ∨ m = 6 ∨ m = 7 ∨ m = 8 ∨ m = 9 ∨ m = 10 ∨ m = 11 ∨ m = 12 := by omega
  have hs := yearDays_succ y
  by_cases hlt : dd < monthLength y m <;>
  rcases leapDay_cases y with ⟨hl, hb⟩ | ⟨hl, hb⟩ <;>
  rcases hm with h | h | h | h | h | h | h | h | h | h | h | h <;> subst h <;>
  (simp only [nextDay, hlt, Valid, dayNumber] <;>
   simp [monthLength, monthDays, hb, hl] at * <;> omega)

theorem monthDays_bounds {d : Date} (h : Valid d) :
    0 ≤ monthDays d.year d.month ∧
      monthDays d.year d.month + d.day ≤ 365 + leapDay d.year := by
  obtain ⟨y, m, dd⟩ := d
  obtain ⟨h1, h2, h3, h4⟩ := h
  simp only at h1 h2 h3 h4 ⊢
  have hm : m = 1 ∨ m = 2 ∨ m = 3 ∨ m = 4 ∨ m = 5 ∨ m = 6 ∨ m = 7 ∨ m = 8 ∨ m = 9 ∨ m = 10 ∨ m = 11 ∨ m = 12 := by omega
  rcases leapDay_cases y with ⟨hl, hb⟩ | ⟨hl, hb⟩ <;>
  rcases hm with h | h | h | h | h | h | h | h | h | h | h | h <;> subst h <;>
  (simp [monthLength, monthDays, hb, hl] at * <;> omega)

theorem yearDays_lt {a b : Int} (h : a < b) : yearDays (a + 1) ≤ yearDays b := by
  unfold yearDays; omega

theorem monthDays_inj {y m n d e : Int} (h1 : 1 ≤ m) (h2 : m ≤ 12) (h3 : 1 ≤ d) (h4 : d ≤ monthLength y m)
    (g1 : 1 ≤ n) (g2 : n ≤ 12) (g3 : 1 ≤ e) (g4 : e ≤ monthLength y n)
    (h : monthDays y m + d = monthDays y n + e) : m = n ∧ d = e := by
  have hm : m = 1 ∨ m = 2 ∨ m = 3 ∨ m = 4 ∨ m = 5 ∨ m = 6 ∨ m = 7 ∨ m = 8 ∨ m = 9 ∨ m = 10 ∨ m = 11 ∨ m = 12 := by omega
  have hn : n = 1 ∨ n = 2 ∨ n = 3 ∨ n = 4 ∨ n = 5 ∨ n = 6 ∨ n = 7 ∨ n = 8 ∨ n = 9 ∨ n = 10 ∨ n = 11 ∨ n = 12 := by omega
  rcases leapDay_cases y with ⟨hl, hb⟩ | ⟨hl, hb⟩ <;>
  rcases hm with hm | hm | hm | hm | hm | hm | hm | hm | hm | hm | hm | hm <;> subst hm <;>
  rcases hn with hn | hn | hn | hn | hn | hn | hn | hn | hn | hn | hn | hn <;> subst hn <;>
  (simp only [monthLength, monthDays, hb, hl] at h4 g4 h <;> simp at h4 g4 h <;> omega)

/-- Day numbers identify valid dates. -/
theorem dayNumber_inj {a b : Date} (ha : Valid a) (hb : Valid b) (h : dayNumber a = dayNumber b) : a = b := by
  have h1 := monthDays_bounds ha
  have h2 := monthDays_bounds hb
  have s1 := yearDays_succ a.year
  have s2 := yearDays_succ b.year
  have hd1 := ha.2.2.1
  have hd2 := hb.2.2.1
  have hy : a.year = b.year := by
    unfold dayNumber at h
    rcases Int.lt_trichotomy a.year b.year with hlt | heq | hlt
    · have := yearDays_lt hlt; omega
    · exact heq
    · have := yearDays_lt hlt; omega
  obtain ⟨y, m, d⟩ := a
  obtain ⟨z, n, e⟩ := b
  simp only at hy
  subst hy
  have := monthDays_inj ha.1 ha.2.1 ha.2.2.1 ha.2.2.2 hb.1 hb.2.1 hb.2.2.1 hb.2.2.2
    (by unfold dayNumber at h; simp only at h; simp only; omega)
  simp only at this
  simp [this]

theorem civil_valid (n : Nat) : Valid (civil n) ∧ dayNumber (civil n) = n := by
  induction n with
  | zero => simp [civil, Valid, dayNumber, monthLength, yearDays, monthDays]
  | succ n ih =>
    obtain ⟨hv, hd⟩ := ih
    obtain ⟨a, b⟩ := nextDay_valid hv
    exact ⟨a, by simp only [civil]; rw [b, hd]; push_cast; rfl⟩

theorem civil_unique {n : Nat} {d : Date} (hv : Valid d) (hd : dayNumber d = n) : d = civil n :=
  dayNumber_inj hv (civil_valid n).1 (by rw [hd, (civil_valid n).2])

end Abc.Timestamp
