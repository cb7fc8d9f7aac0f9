import Mathlib.Tactic.Ring
import Mathlib.Tactic.FieldSimp
import Mathlib.Tactic.LinearCombination
import Mathlib.Data.Rat.Defs
import Mathlib.Data.Set.Finite.Basic
import Mathlib.Algebra.Field.Rat

/-!
# C42: the 2x2 equation solver of `samples/basic/equations.h`

`double` is idealised as a field: rounding is not modelled.  (With `K := ℚ` or `ℝ` this is the
mathematical intention of the code.)
-/

namespace Abc.Equations

variable {K : Type*} [Field K] [DecidableEq K]

/-- The answer sent back: `status`, `x`, `y` (`samples/basic/equations.h` 219-236). -/
structure Answer (K : Type*) where
  status : Int
  x : K
  y : K

/-- `samples/basic/equations.h` 215-236; `a00 a01; a10 a11` is the matrix, `b0; b1` the right-hand
side. -/
def solve (a00 a01 a10 a11 b0 b1 : K) : Answer K :=
  let det := a00 * a11 - a01 * a10
  let detX := b0 * a11 - a01 * b1
  let detY := a00 * b1 - b0 * a10
  if det ≠ 0 then ⟨1, detX / det, detY / det⟩
  else if detX ≠ 0 ∨ detY ≠ 0 then ⟨0, 0, 0⟩
  else ⟨2, 0, 0⟩

/-- Specification: `(x, y)` solves the system. -/
def Solves (a00 a01 a10 a11 b0 b1 : K) (p : K × K) : Prop :=
  a00 * p.1 + a01 * p.2 = b0 ∧ a10 * p.1 + a11 * p.2 = b1

/-- C42, status 1: reported exactly when there is one and only one solution, and the reported `x`,
`y` are that solution. -/
theorem status_one_iff [Infinite K] (a00 a01 a10 a11 b0 b1 : K) :
    ((solve a00 a01 a10 a11 b0 b1).status = 1 ↔ ∃! p, Solves a00 a01 a10 a11 b0 b1 p) ∧
    ((solve a00 a01 a10 a11 b0 b1).status = 1 →
      ∀ p, Solves a00 a01 a10 a11 b0 b1 p ↔
        p = ((solve a00 a01 a10 a11 b0 b1).x, (solve a00 a01 a10 a11 b0 b1).y)) := by
  by_cases hd : a00 * a11 - a01 * a10 ≠ 0
  · have hs : solve a00 a01 a10 a11 b0 b1 = ⟨1, (b0 * a11 - a01 * b1) / (a00 * a11 - a01 * a10),
        (a00 * b1 - b0 * a10) / (a00 * a11 - a01 * a10)⟩ := by simp [solve, hd]
    rw [hs]
    have key : ∀ p : K × K, Solves a00 a01 a10 a11 b0 b1 p ↔
        p = ((b0 * a11 - a01 * b1) / (a00 * a11 - a01 * a10), (a00 * b1 - b0 * a10) / (a00 * a11 - a01 * a10)) := by
      rintro ⟨x, y⟩
      unfold Solves
      simp only [Prod.mk.injEq]
      constructor
      · rintro ⟨h1, h2⟩
        constructor
        · rw [eq_div_iff hd]; linear_combination a11 * h1 - a01 * h2
        · rw [eq_div_iff hd]; linear_combination a00 * h2 - a10 * h1
      · rintro ⟨rfl, rfl⟩
        constructor
        · rw [mul_div_assoc', mul_div_assoc', ← add_div, div_eq_iff hd]; ring
        · rw [mul_div_assoc', mul_div_assoc', ← add_div, div_eq_iff hd]; ring
    refine ⟨⟨fun _ => ⟨_, (key _).2 rfl, fun p hp => (key p).1 hp⟩, fun _ => rfl⟩, fun _ => key⟩
  · have hd0 : a00 * a11 - a01 * a10 = 0 := by simpa using hd
    have hs : (solve a00 a01 a10 a11 b0 b1).status ≠ 1 := by
      simp only [solve, hd, if_false]; split <;> simp
    refine ⟨⟨fun h => absurd h hs, ?_⟩, fun h => absurd h hs⟩
    rintro ⟨⟨x, y⟩, ⟨h1, h2⟩, hu⟩
    exfalso
    -- a non-zero vector of the kernel gives a second solution
    have second : ∀ u v : K, a00 * u + a01 * v = 0 → a10 * u + a11 * v = 0 → u = 0 ∧ v = 0 := by
      intro u v e1 e2
      have := hu (x + u, y + v) ⟨by simp only at h1 ⊢; linear_combination h1 + e1, by simp only at h2 ⊢; linear_combination h2 + e2⟩
      simpa using this
    have z1 := second a11 (-a10) (by linear_combination hd0) (by ring)
    have z2 := second (-a01) a00 (by ring) (by linear_combination hd0)
    have e11 : a11 = 0 := z1.1
    have e10 : a10 = 0 := by simpa using z1.2
    have e01 : a01 = 0 := by simpa using z2.1
    have e00 : a00 = 0 := z2.2
    have := second 1 0 (by rw [e00]; ring) (by rw [e10]; ring)
    exact one_ne_zero this.1

/-- C42, status 0: whenever it is reported there is no solution. -/
theorem status_zero_sound (a00 a01 a10 a11 b0 b1 : K)
    (h : (solve a00 a01 a10 a11 b0 b1).status = 0) (p : K × K) : ¬ Solves a00 a01 a10 a11 b0 b1 p := by
  rintro ⟨h1, h2⟩
  by_cases hd : a00 * a11 - a01 * a10 = 0
  · have hx : b0 * a11 - a01 * b1 = 0 := by linear_combination (p.1) * hd - a11 * h1 + a01 * h2
    have hy : a00 * b1 - b0 * a10 = 0 := by linear_combination (p.2) * hd - a00 * h2 + a10 * h1
    simp [solve, hd, hx, hy] at h
  · simp [solve, hd] at h

/-- C42, the part of status 2 that holds: if at least one coefficient of the matrix is non-zero,
status 2 is reported exactly when there are infinitely many solutions.
Missing: the zero matrix (`classification_violated`). -/
theorem status_two_partial [Infinite K] (a00 a01 a10 a11 b0 b1 : K)
    (hne : a00 ≠ 0 ∨ a01 ≠ 0 ∨ a10 ≠ 0 ∨ a11 ≠ 0) :
    (solve a00 a01 a10 a11 b0 b1).status = 2 ↔ {p | Solves a00 a01 a10 a11 b0 b1 p}.Infinite := by
  constructor
  · intro h
    have hd : a00 * a11 - a01 * a10 = 0 := by
      by_contra hd; simp [solve, hd] at h
    have hxy : b0 * a11 - a01 * b1 = 0 ∧ a00 * b1 - b0 * a10 = 0 := by
      by_contra hc
      have : b0 * a11 - a01 * b1 ≠ 0 ∨ a00 * b1 - b0 * a10 ≠ 0 := by
        by_contra hn; push Not at hn; exact hc hn
      simp [solve, hd, this] at h
    obtain ⟨hx, hy⟩ := hxy
    -- a parametrised line of solutions
    have line : ∀ f : K → K × K, Function.Injective f → (∀ t, Solves a00 a01 a10 a11 b0 b1 (f t)) →
        {p | Solves a00 a01 a10 a11 b0 b1 p}.Infinite := by
      intro f hf hs
      exact (Set.infinite_range_of_injective hf).mono (by rintro _ ⟨t, rfl⟩; exact hs t)
    rcases hne with h0 | h0 | h0 | h0
    · refine line (fun t => ((b0 - a01 * t) / a00, t)) (fun s t e => by simpa using (Prod.mk.inj e).2) ?_
      intro t
      constructor
      · field_simp; ring
      · field_simp; linear_combination t * hd - hy
    · refine line (fun t => (t, (b0 - a00 * t) / a01)) (fun s t e => by simpa using (Prod.mk.inj e).1) ?_
      intro t
      constructor
      · field_simp; ring
      · field_simp; linear_combination -t * hd + hx
    · refine line (fun t => ((b1 - a11 * t) / a10, t)) (fun s t e => by simpa using (Prod.mk.inj e).2) ?_
      intro t
      constructor
      · field_simp; linear_combination -t * hd + hy
      · field_simp; ring
    · refine line (fun t => (t, (b1 - a10 * t) / a11)) (fun s t e => by simpa using (Prod.mk.inj e).1) ?_
      intro t
      constructor
      · field_simp; linear_combination t * hd - hx
      · field_simp; ring
  · intro hinf
    by_contra h2
    have hst : (solve a00 a01 a10 a11 b0 b1).status = 1 ∨ (solve a00 a01 a10 a11 b0 b1).status = 0 := by
      unfold solve at h2 ⊢
      simp only at h2 ⊢
      split at h2
      · left; simp_all
      · split at h2
        · right; simp_all
        · simp at h2
    rcases hst with h1 | h0
    · have := (status_one_iff a00 a01 a10 a11 b0 b1).2 h1
      apply hinf
      have : {p | Solves a00 a01 a10 a11 b0 b1 p} ⊆ {((solve a00 a01 a10 a11 b0 b1).x, (solve a00 a01 a10 a11 b0 b1).y)} := by
        intro p hp; exact (this p).1 hp
      exact (Set.finite_singleton _).subset this
    · obtain ⟨p, hp⟩ := hinf.nonempty
      exact status_zero_sound _ _ _ _ _ _ h0 p hp

/-- Instances over the rationals: one, none and infinitely many solutions. -/
example : (solve (1 : ℚ) 2 3 4 5 6).status = 1 ∧ (solve (1 : ℚ) 2 3 4 5 6).x = -4 ∧
    (solve (1 : ℚ) 2 3 4 5 6).y = 9 / 2 ∧ (solve (1 : ℚ) 2 2 4 5 6).status = 0 ∧
    (solve (1 : ℚ) 2 2 4 5 10).status = 2 := by
  refine ⟨?_, ?_, ?_, ?_, ?_⟩ <;> norm_num [solve]

/-- C42 is violated for the zero matrix: `0x + 0y = 1` has no solution, yet "infinitely many" is
reported. -/
theorem classification_violated :
    (solve (0 : ℚ) 0 0 0 1 0).status = 2 ∧ ∀ p, ¬ Solves (0 : ℚ) 0 0 0 1 0 p := by
  refine ⟨by norm_num [solve], ?_⟩
  rintro p ⟨h, _⟩
  simp at h

end Abc.Equations
