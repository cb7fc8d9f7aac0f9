import Verif.Samples.EquationsWireProps
import Verif.Samples.Equations
import Verif.Samples.CarWireTotal
import Mathlib.Tactic.Linarith
import Mathlib.Tactic.NormNum
import Mathlib.Tactic.Positivity
import Mathlib.Data.Int.Interval
import Mathlib.Algebra.CharZero.Infinite
import Mathlib.Data.Finset.Max
import Mathlib.Data.Finset.Prod
import Mathlib.Order.Interval.Finset.Basic
import Mathlib.Algebra.Order.Group.Unbundled.Abs

/-!
# C97: the answers of the solver, in the arithmetic of `double`

The arithmetic of IEEE 754: a result is computed exactly and then rounded to a nearest `double`, or overflows.  Which of
two equally near numbers is taken is left open.  The sign of zero is not modelled (nothing depends on it here).
-/

namespace Abc.EquationsWire

open Abc.Ascii Abc.Stream Abc.Http Abc.Wire Abc.Json Abc.GameWire
open Abc.Endpoint (Config str mem)
open Abc.CarWire (okJson okText badText bad_any whenResource_eq serveWith_any)
open Abc.Equations (Solves)

/-! ## Numbers -/

/-- A `double`. -/
inductive Ext where
  | fin (q : Rat)
  | inf (neg : Bool)
  | nan
  deriving DecidableEq

/-- The finite `double`s: 53 bits and an exponent. -/
def IsDouble (q : Rat) : Prop := ∃ m e : Int, -2 ^ 53 < m ∧ m < 2 ^ 53 ∧ -1074 ≤ e ∧ e ≤ 971 ∧ q = m * (2 : Rat) ^ e

/-- Rounding to nearest, as IEEE 754 asks for. -/
structure Ieee (rnd : Rat → Ext) : Prop where
  exact : ∀ q, IsDouble q → rnd q = .fin q
  near : ∀ q x, rnd q = .fin x → IsDouble x ∧ ∀ y, IsDouble y → |q - x| ≤ |q - y|
  large : ∀ q, 2 ^ 1024 ≤ |q| → rnd q = .inf (decide (q < 0))
  small : ∀ q, |q| < 2 ^ 1024 - 2 ^ 970 → ∃ x, rnd q = .fin x

/-- `-` -/
def Ext.sub (rnd : Rat → Ext) : Ext → Ext → Ext
  | .fin a, .fin b => rnd (a - b)
  | .inf s, .fin _ => .inf s
  | .fin _, .inf s => .inf !s
  | .inf s, .inf t => if s = t then .nan else .inf s
  | _, _ => .nan

/-- `*` -/
def Ext.mul (rnd : Rat → Ext) : Ext → Ext → Ext
  | .fin a, .fin b => rnd (a * b)
  | .inf s, .fin b => if b = 0 then .nan else .inf (s ^^ decide (b < 0))
  | .fin a, .inf s => if a = 0 then .nan else .inf (s ^^ decide (a < 0))
  | .inf s, .inf t => .inf (s ^^ t)
  | _, _ => .nan

/-- `/`; not used with a divisor of zero. -/
def Ext.div (rnd : Rat → Ext) : Ext → Ext → Ext
  | .fin a, .fin b => if b = 0 then .nan else rnd (a / b)
  | .inf s, .fin b => .inf (s ^^ decide (b < 0))
  | .fin _, .inf _ => .fin 0
  | _, _ => .nan

/-- How numbers are read, rounded and printed. -/
structure Ideal where
  load : List Byte → Ext
  rnd : Rat → Ext
  /-- of a finite number -/
  text : Rat → List Byte
  /-- of a NaN: glibc prints `nan` or `-nan` -/
  nan : List Byte

/-- What is printed. -/
def Ideal.show (I : Ideal) : Ext → List Byte
  | .fin q => I.text q
  | .inf s => if s then str "-inf" else str "inf"
  | .nan => I.nan

/-- The arithmetic. -/
def Ideal.arith (I : Ideal) : Arith Ext where
  load := I.load
  zero := .fin 0
  sub := Ext.sub I.rnd
  mul := Ext.mul I.rnd
  div := Ext.div I.rnd
  isZero := fun x => decide (x = .fin 0)
  text := I.show

/-- It is that of `double`, and what is printed is short. -/
structure Ideal.Ok (I : Ideal) : Prop where
  ieee : Ieee I.rnd
  text : ∀ q, Printed (I.text q)
  nan : I.nan = str "nan" ∨ I.nan = str "-nan"

theorem Ideal.Ok.printed {I : Ideal} (h : I.Ok) (x : Ext) : Printed (I.arith.text x) := by
  cases x with
  | fin q => exact h.text q
  | inf s =>
    cases s
    · show Printed (str "inf"); exact ⟨by decide, by decide⟩
    · show Printed (str "-inf"); exact ⟨by decide, by decide⟩
  | nan =>
    show Printed I.nan
    rcases h.nan with h | h <;> rw [h] <;> exact ⟨by decide, by decide⟩

/-- A value a variable of type `double` can have. -/
def Ext.IsValue : Ext → Prop
  | .fin q => IsDouble q
  | _ => True

theorem isDouble_zero : IsDouble 0 := ⟨0, 0, by norm_num, by norm_num, by norm_num, by norm_num, by norm_num⟩

theorem Ieee.value {rnd : Rat → Ext} (h : Ieee rnd) (q : Rat) : (rnd q).IsValue := by
  cases hr : rnd q with
  | fin x => exact (h.near q x hr).1
  | inf s => trivial
  | nan => trivial

/-- All results are `double`s: differences, products and quotients are rounded, each of them. -/
theorem arith_value {I : Ideal} (h : I.Ok) (x y : Ext) : (I.arith.sub x y).IsValue ∧ (I.arith.mul x y).IsValue ∧ (I.arith.div x y).IsValue := by
  refine ⟨?_, ?_, ?_⟩
  · show (Ext.sub I.rnd x y).IsValue
    unfold Ext.sub
    split
    · exact h.ieee.value _
    · trivial
    · trivial
    · split <;> trivial
    · trivial
  · show (Ext.mul I.rnd x y).IsValue
    unfold Ext.mul
    split
    · exact h.ieee.value _
    · split <;> trivial
    · split <;> trivial
    · trivial
    · trivial
  · show (Ext.div I.rnd x y).IsValue
    unfold Ext.div
    split
    · split
      · trivial
      · exact h.ieee.value _
    · trivial
    · exact isDouble_zero
    · trivial

/-- Two, three, ... exact results. -/
def Exact (rnd : Rat → Ext) (q : Rat) : Prop := rnd q = .fin q

/-- Every intermediate result of Cramer's rule is a `double`. -/
structure ExactRule (rnd : Rat → Ext) (a00 a01 a10 a11 b0 b1 : Rat) : Prop where
  m1 : Exact rnd (a00 * a11)
  m2 : Exact rnd (a01 * a10)
  m3 : Exact rnd (b0 * a11)
  m4 : Exact rnd (a01 * b1)
  m5 : Exact rnd (a00 * b1)
  m6 : Exact rnd (b0 * a10)
  d : Exact rnd (a00 * a11 - a01 * a10)
  dx : Exact rnd (b0 * a11 - a01 * b1)
  dy : Exact rnd (a00 * b1 - b0 * a10)
  x : a00 * a11 - a01 * a10 ≠ 0 → Exact rnd ((b0 * a11 - a01 * b1) / (a00 * a11 - a01 * a10))
  y : a00 * a11 - a01 * a10 ≠ 0 → Exact rnd ((a00 * b1 - b0 * a10) / (a00 * a11 - a01 * a10))

/-- Then the code computes what `Abc.Equations.solve` does. -/
theorem solve_exact (I : Ideal) {a00 a01 a10 a11 b0 b1 : Rat} (h : ExactRule I.rnd a00 a01 a10 a11 b0 b1) :
    solve I.arith (.fin a00) (.fin a01) (.fin a10) (.fin a11) (.fin b0) (.fin b1) =
      ((Equations.solve a00 a01 a10 a11 b0 b1).status, .fin (Equations.solve a00 a01 a10 a11 b0 b1).x, .fin (Equations.solve a00 a01 a10 a11 b0 b1).y) := by
  obtain ⟨m1, m2, m3, m4, m5, m6, d, dx, dy, x, y⟩ := h
  unfold Exact at *
  unfold solve Equations.solve
  simp only [Ideal.arith, Ext.mul, Ext.sub, m1, m2, m3, m4, m5, m6, d, dx, dy, Ext.fin.injEq, decide_eq_false_iff_not]
  by_cases hd : a00 * a11 - a01 * a10 = 0
  · simp only [hd, not_true_eq_false, if_false, ne_eq]
    split <;> rfl
  · simp only [hd, not_false_eq_true, if_true, ne_eq, Ext.div, if_false, x hd, y hd]

/-! ## C97 -/

/-- The right answer to a system: status 1 and its only solution, status 0 if there is none, status 2 if there are infinitely many. -/
def Right (I : Ideal) (a00 a01 a10 a11 b0 b1 : Rat) (status : Nat) (x y : List Byte) : Prop :=
  (status = 1 ∧ ∃ p, (∀ p', Solves a00 a01 a10 a11 b0 b1 p' ↔ p' = p) ∧ x = I.show (I.rnd p.1) ∧ y = I.show (I.rnd p.2)) ∨
  (status = 0 ∧ ∀ p, ¬ Solves a00 a01 a10 a11 b0 b1 p) ∨
  (status = 2 ∧ {p | Solves a00 a01 a10 a11 b0 b1 p}.Infinite)

/-- The six numbers as they are read. -/
structure Reads (I : Ideal) (c : Ctx) (a : (Spec.Num × Spec.Num) × (Spec.Num × Spec.Num)) (b : Spec.Num × Spec.Num) (a00 a01 a10 a11 b0 b1 : Rat) : Prop where
  a00 : I.load (c.atof a.1.1.text) = .fin a00
  a01 : I.load (c.atof a.1.2.text) = .fin a01
  a10 : I.load (c.atof a.2.1.text) = .fin a10
  a11 : I.load (c.atof a.2.2.text) = .fin a11
  b0 : I.load (c.atof b.1.text) = .fin b0
  b1 : I.load (c.atof b.2.text) = .fin b1

theorem Reads.solved {I : Ideal} {c : Ctx} {a : (Spec.Num × Spec.Num) × (Spec.Num × Spec.Num)} {b : Spec.Num × Spec.Num} {a00 a01 a10 a11 b0 b1 : Rat}
    (h : Reads I c a b a00 a01 a10 a11 b0 b1) :
    solved c I.arith a b = solve I.arith (.fin a00) (.fin a01) (.fin a10) (.fin a11) (.fin b0) (.fin b1) := by
  obtain ⟨h1, h2, h3, h4, h5, h6⟩ := h
  unfold EquationsWire.solved
  rw [show I.arith.load = I.load from rfl, h1, h2, h3, h4, h5, h6]

/-- C97, in full: a request that poses a problem, in numbers that are `double`s and with a solution (if there is only one) in
`double`s, gets a complete response with the right answer to it. -/
def C97Full : Prop :=
  ∀ (I : Ideal) (cfg : Config) (stat : List Byte → Option Nat) (content : List Byte → List Byte) (c : Ctx) (q : Request) (after mm mp mc : List Byte)
    (a : (Spec.Num × Spec.Num) × (Spec.Num × Spec.Num)) (b : Spec.Num × Spec.Num) (a00 a01 a10 a11 b0 b1 : Rat),
    I.Ok → ConfigOk cfg → CtxOk c → Asks cfg c q after mm mp mc a b → Reads I c a b a00 a01 a10 a11 b0 b1 →
    (∀ p, (∀ p', Solves a00 a01 a10 a11 b0 b1 p' ↔ p' = p) → IsDouble p.1 ∧ IsDouble p.2) →
    ∃ status x y, serve cfg stat content c I.arith mm mp mc false (q.text ++ after) = .ok ((), .sent (okJson (answerText status x y)).text false) ∧
      Complete (okJson (answerText status x y)).text ∧ Right I a00 a01 a10 a11 b0 b1 status x y

/-- C97, the part that holds: if every intermediate result of Cramer's rule is a `double` and some coefficient of the matrix is not zero,
the answer is right.
Missing: the zero matrix (`C97_violated_zero`), rounding (`C97_violated_rounding`), underflow (`C97_violated_underflow`) and overflow
(`C97_violated_overflow`, `C97_violated_nan`). -/
theorem C97_right_partial {I : Ideal} (hI : I.Ok) {cfg : Config} (hcfg : ConfigOk cfg) (stat : List Byte → Option Nat) (content : List Byte → List Byte)
    {c : Ctx} (hc : CtxOk c) {q : Request} {after mm mp mc : List Byte} {a : (Spec.Num × Spec.Num) × (Spec.Num × Spec.Num)} {b : Spec.Num × Spec.Num}
    (hq : Asks cfg c q after mm mp mc a b) {a00 a01 a10 a11 b0 b1 : Rat} (hr : Reads I c a b a00 a01 a10 a11 b0 b1)
    (he : ExactRule I.rnd a00 a01 a10 a11 b0 b1) (hne : a00 ≠ 0 ∨ a01 ≠ 0 ∨ a10 ≠ 0 ∨ a11 ≠ 0) :
    ∃ status x y, serve cfg stat content c I.arith mm mp mc false (q.text ++ after) = .ok ((), .sent (okJson (answerText status x y)).text false) ∧
      Complete (okJson (answerText status x y)).text ∧ Right I a00 a01 a10 a11 b0 b1 status x y := by
  obtain ⟨n, h1, h2, h3, h4⟩ := C97_answer hcfg stat content hc I.arith hI.printed hq
  have hs := hr.solved.trans (solve_exact I he)
  refine ⟨n, _, _, h3, h4, ?_⟩
  rw [hs] at h2 ⊢
  dsimp only at h2
  have k1 := Equations.status_one_iff a00 a01 a10 a11 b0 b1
  have k0 := Equations.status_zero_sound a00 a01 a10 a11 b0 b1
  have k2 := Equations.status_two_partial a00 a01 a10 a11 b0 b1 hne
  have : n = 0 ∨ n = 1 ∨ n = 2 := by omega
  rcases this with rfl | rfl | rfl
  · exact .inr (.inl ⟨rfl, k0 h2⟩)
  · refine .inl ⟨rfl, _, k1.2 h2, ?_, ?_⟩
    · have hd : a00 * a11 - a01 * a10 ≠ 0 := by
        intro hd
        revert h2
        simp only [Equations.solve, hd, ne_eq, not_true_eq_false, if_false]
        split <;> simp
      have e : (Equations.solve a00 a01 a10 a11 b0 b1).x = (b0 * a11 - a01 * b1) / (a00 * a11 - a01 * a10) := by simp [Equations.solve, hd]
      rw [e, he.x hd]; rfl
    · have hd : a00 * a11 - a01 * a10 ≠ 0 := by
        intro hd
        revert h2
        simp only [Equations.solve, hd, ne_eq, not_true_eq_false, if_false]
        split <;> simp
      have e : (Equations.solve a00 a01 a10 a11 b0 b1).y = (a00 * b1 - b0 * a10) / (a00 * a11 - a01 * a10) := by simp [Equations.solve, hd]
      rw [e, he.y hd]; rfl
  · exact .inr (.inr ⟨rfl, k2.1 h2⟩)

/-! ## Where it fails -/

theorem answered {I : Ideal} (hI : I.Ok) {cfg : Config} (hcfg : ConfigOk cfg) (stat : List Byte → Option Nat) (content : List Byte → List Byte)
    {c : Ctx} (hc : CtxOk c) {q : Request} {after mm mp mc : List Byte} {a : (Spec.Num × Spec.Num) × (Spec.Num × Spec.Num)} {b : Spec.Num × Spec.Num}
    (hq : Asks cfg c q after mm mp mc a b) {n : Nat} {u v : Ext} (h : solved c I.arith a b = ((n : Int), u, v)) :
    serve cfg stat content c I.arith mm mp mc false (q.text ++ after) = .ok ((), .sent (okJson (answerText n (I.show u) (I.show v))).text false) := by
  obtain ⟨m, h1, h2, h3, -⟩ := C97_answer hcfg stat content hc I.arith hI.printed hq
  rw [h] at h2 h3
  have : m = n := by
    dsimp only at h2
    omega
  subst this
  exact h3

theorem double_int {m : Int} (h1 : -2 ^ 53 < m) (h2 : m < 2 ^ 53) : IsDouble m := ⟨m, 0, h1, h2, by norm_num, by norm_num, by simp⟩

theorem double_pow {e : Int} (h1 : -1074 ≤ e) (h2 : e ≤ 971) : IsDouble ((2 : Rat) ^ e) := ⟨1, e, by norm_num, by norm_num, h1, h2, by simp⟩

theorem Ieee.zero {rnd : Rat → Ext} (h : Ieee rnd) : rnd 0 = .fin 0 := by
  have := double_int (m := 0) (by norm_num) (by norm_num)
  simpa using h.exact _ this

theorem two_zpow_pos (e : Int) : (0 : Rat) < 2 ^ e := zpow_pos (by norm_num) e

theorem most_large : (2 : Rat) ^ 64 ≤ 2 ^ 1024 - 2 ^ 970 := by
  have h1 : (2 : Rat) ^ 1024 = 2 ^ 54 * 2 ^ 970 := by rw [← pow_add]
  have h2 : (2 : Rat) ^ 64 ≤ 2 ^ 970 := pow_le_pow_right₀ (by norm_num) (by norm_num)
  have h3 : (2 : Rat) * 2 ^ 970 ≤ 2 ^ 54 * 2 ^ 970 := mul_le_mul_of_nonneg_right (by norm_num) (pow_pos (by norm_num) _).le
  rw [h1]
  clear h1
  generalize (2 : Rat) ^ 970 = t at *
  norm_num at *
  linarith

/-- C97 fails: a system with the zero matrix and another right-hand side than zero has no solution; the answer is that it has
infinitely many. -/
theorem C97_violated_zero {I : Ideal} (hI : I.Ok) {cfg : Config} (hcfg : ConfigOk cfg) (stat : List Byte → Option Nat) (content : List Byte → List Byte)
    {c : Ctx} (hc : CtxOk c) {q : Request} {after mm mp mc : List Byte} {a : (Spec.Num × Spec.Num) × (Spec.Num × Spec.Num)} {b : Spec.Num × Spec.Num}
    (hq : Asks cfg c q after mm mp mc a b) {b0 b1 : Rat} (hr : Reads I c a b 0 0 0 0 b0 b1) (hb : b0 ≠ 0 ∨ b1 ≠ 0) :
    serve cfg stat content c I.arith mm mp mc false (q.text ++ after) = .ok ((), .sent (okJson (answerText 2 (I.text 0) (I.text 0))).text false) ∧
      ∀ p, ¬ Solves 0 0 0 0 b0 b1 p := by
  have h0 := hI.ieee.zero
  have hs : solved c I.arith a b = (((2 : Nat) : Int), .fin 0, .fin 0) := by
    rw [hr.solved]
    simp [solve, Ideal.arith, Ext.mul, Ext.sub, h0]
  have ha := answered hI hcfg stat content hc hq hs
  refine ⟨ha, ?_⟩
  rintro p ⟨h1, h2⟩
  simp at h1 h2
  rcases hb with h | h
  · exact h h1.symm
  · exact h h2.symm

/-- The nearest `double` to `(2^27 + 1)^2` is the number before it. -/
theorem Ieee.square {rnd : Rat → Ext} (h : Ieee rnd) : rnd (134217729 * 134217729) = .fin 18014398777917440 := by
  obtain ⟨x, hx⟩ := h.small (134217729 * 134217729) (by
    rw [abs_of_pos (by norm_num)]
    exact lt_of_lt_of_le (by norm_num) most_large)
  obtain ⟨⟨m, e, h1, h2, h3, h4, h5⟩, hn⟩ := h.near _ _ hx
  have hd : IsDouble 18014398777917440 := ⟨4503599694479360, 2, by norm_num, by norm_num, by norm_num, by norm_num, by norm_num⟩
  have hle := hn _ hd
  rw [show |(134217729 * 134217729 : Rat) - 18014398777917440| = 1 by norm_num] at hle
  rw [abs_le] at hle
  have l1 : (18014398777917440 : Rat) ≤ x := by linarith [hle.2]
  have l2 : x ≤ 18014398777917442 := by linarith [hle.1]
  have he : 2 ≤ e := by
    by_contra hlt
    have h6 : (2 : Rat) ^ e ≤ 2 ^ (1 : Int) := zpow_le_zpow_right₀ (by norm_num) (by omega)
    have h7 : (0 : Rat) < 2 ^ e := two_zpow_pos e
    have h8 : (m : Rat) < 2 ^ 53 := by exact_mod_cast h2
    have h9 : (m : Rat) * 2 ^ e ≤ 2 ^ 53 * 2 ^ (1 : Int) := by
      refine le_trans (mul_le_mul_of_nonneg_right h8.le h7.le) (mul_le_mul_of_nonneg_left h6 (by norm_num))
    rw [← h5] at h9
    norm_num at h9
    linarith
  obtain ⟨k, rfl⟩ : ∃ k : Nat, e = 2 + k := ⟨(e - 2).toNat, by omega⟩
  have hx4 : x = ((4 * (m * 2 ^ k) : Int) : Rat) := by
    rw [h5, zpow_add₀ (by norm_num), zpow_natCast]
    push_cast
    ring
  have l1' : (18014398777917440 : Int) ≤ 4 * (m * 2 ^ k) := by rw [hx4] at l1; exact_mod_cast l1
  have l2' : (4 * (m * 2 ^ k) : Int) ≤ 18014398777917442 := by rw [hx4] at l2; exact_mod_cast l2
  have : (4 * (m * 2 ^ k) : Int) = 18014398777917440 := by omega
  rw [hx, hx4, this]
  norm_num

/-- C97 fails: the determinant of this matrix of whole numbers is 1, so the system has no other solution than (0, 0); the answer is
that it has infinitely many. -/
theorem C97_violated_rounding {I : Ideal} (hI : I.Ok) {cfg : Config} (hcfg : ConfigOk cfg) (stat : List Byte → Option Nat) (content : List Byte → List Byte)
    {c : Ctx} (hc : CtxOk c) {q : Request} {after mm mp mc : List Byte} {a : (Spec.Num × Spec.Num) × (Spec.Num × Spec.Num)} {b : Spec.Num × Spec.Num}
    (hq : Asks cfg c q after mm mp mc a b) (hr : Reads I c a b 134217729 134217728 134217730 134217729 0 0) :
    serve cfg stat content c I.arith mm mp mc false (q.text ++ after) = .ok ((), .sent (okJson (answerText 2 (I.text 0) (I.text 0))).text false) ∧
      ∀ p, Solves (134217729 : Rat) 134217728 134217730 134217729 0 0 p ↔ p = (0, 0) := by
  have h0 := hI.ieee.zero
  have h1 := hI.ieee.square
  have h2 : I.rnd (134217728 * 134217730) = .fin 18014398777917440 := by
    rw [show (134217728 * 134217730 : Rat) = 18014398777917440 by norm_num]
    exact hI.ieee.exact _ ⟨4503599694479360, 2, by norm_num, by norm_num, by norm_num, by norm_num, by norm_num⟩
  have hs : solved c I.arith a b = (((2 : Nat) : Int), .fin 0, .fin 0) := by
    rw [hr.solved]
    simp [solve, Ideal.arith, Ext.mul, Ext.sub, h0, h1, h2]
  have ha := answered hI hcfg stat content hc hq hs
  refine ⟨ha, ?_⟩
  rintro ⟨x, y⟩
  unfold Solves
  simp only [Prod.mk.injEq]
  constructor
  · rintro ⟨e1, e2⟩
    constructor <;> linarith
  · rintro ⟨rfl, rfl⟩
    norm_num

/-- The nearest `double` to a number that is very small is zero. -/
theorem Ieee.tiny {rnd : Rat → Ext} (h : Ieee rnd) {q : Rat} (hq : |q| < 2 ^ (-1075 : Int)) : rnd q = .fin 0 := by
  obtain ⟨x, hx⟩ := h.small q (lt_trans hq (by
    have : (2 : Rat) ^ (-1075 : Int) ≤ 1 := zpow_le_one_of_nonpos₀ (by norm_num) (by norm_num)
    exact lt_of_le_of_lt this (lt_of_lt_of_le (by norm_num) most_large)))
  obtain ⟨⟨m, e, h1, h2, h3, h4, h5⟩, hn⟩ := h.near _ _ hx
  have hle := hn 0 (by simpa using double_int (m := 0) (by norm_num) (by norm_num))
  rw [sub_zero] at hle
  have hx2 : |x| ≤ 2 * |q| := by
    have := abs_sub_abs_le_abs_sub x q
    rw [abs_sub_comm] at this
    linarith
  by_cases hm : m = 0
  · rw [hx, h5, hm]; simp
  exfalso
  have h6 : (1 : Rat) ≤ |(m : Rat)| := by
    have : 1 ≤ |m| := Int.one_le_abs hm
    exact_mod_cast this
  have h7 : (2 : Rat) ^ (-1074 : Int) ≤ 2 ^ e := zpow_le_zpow_right₀ (by norm_num) h3
  have h8 : (2 : Rat) ^ (-1074 : Int) = 2 * 2 ^ (-1075 : Int) := by
    rw [show (-1074 : Int) = 1 + -1075 by norm_num, zpow_add₀ (by norm_num)]; norm_num
  have h9 : (2 : Rat) ^ e ≤ |x| := by
    rw [h5, abs_mul, abs_of_pos (two_zpow_pos e)]
    exact le_mul_of_one_le_left (two_zpow_pos e).le h6
  linarith

/-- C97 fails: `k x = k`, `k y = k` with a small `k` has no other solution than (1, 1); the answer is that it has infinitely many. -/
theorem C97_violated_underflow {I : Ideal} (hI : I.Ok) {cfg : Config} (hcfg : ConfigOk cfg) (stat : List Byte → Option Nat) (content : List Byte → List Byte)
    {c : Ctx} (hc : CtxOk c) {q : Request} {after mm mp mc : List Byte} {a : (Spec.Num × Spec.Num) × (Spec.Num × Spec.Num)} {b : Spec.Num × Spec.Num}
    (hq : Asks cfg c q after mm mp mc a b) {k : Rat} (hk : k ≠ 0) (hs : |k * k| < 2 ^ (-1075 : Int)) (hr : Reads I c a b k 0 0 k k k) :
    serve cfg stat content c I.arith mm mp mc false (q.text ++ after) = .ok ((), .sent (okJson (answerText 2 (I.text 0) (I.text 0))).text false) ∧
      ∀ p, Solves k 0 0 k k k p ↔ p = (1, 1) := by
  have h0 := hI.ieee.zero
  have h1 := hI.ieee.tiny hs
  have hs : solved c I.arith a b = (((2 : Nat) : Int), .fin 0, .fin 0) := by
    rw [hr.solved]
    simp [solve, Ideal.arith, Ext.mul, Ext.sub, h0, h1]
  have ha := answered hI hcfg stat content hc hq hs
  refine ⟨ha, ?_⟩
  rintro ⟨x, y⟩
  unfold Solves
  simp [hk]

/-- C97 fails: `k x = 1`, `k y = 1` with a large `k` has the solution (1/k, 1/k); the answer is (0, 0). -/
theorem C97_violated_overflow {I : Ideal} (hI : I.Ok) {cfg : Config} (hcfg : ConfigOk cfg) (stat : List Byte → Option Nat) (content : List Byte → List Byte)
    {c : Ctx} (hc : CtxOk c) {q : Request} {after mm mp mc : List Byte} {a : (Spec.Num × Spec.Num) × (Spec.Num × Spec.Num)} {b : Spec.Num × Spec.Num}
    (hq : Asks cfg c q after mm mp mc a b) {k : Rat} (hk : IsDouble k) (hl : 2 ^ 1024 ≤ |k * k|) (hr : Reads I c a b k 0 0 k 1 1) :
    serve cfg stat content c I.arith mm mp mc false (q.text ++ after) = .ok ((), .sent (okJson (answerText 1 (I.text 0) (I.text 0))).text false) ∧
      ∀ p, Solves k 0 0 k 1 1 p ↔ p = (1 / k, 1 / k) := by
  have h0 := hI.ieee.zero
  have h1 := hI.ieee.large _ hl
  have h2 := hI.ieee.exact _ hk
  have hs : solved c I.arith a b = (((1 : Nat) : Int), .fin 0, .fin 0) := by
    rw [hr.solved]
    simp [solve, Ideal.arith, Ext.mul, Ext.sub, Ext.div, h0, h1, h2]
  have ha := answered hI hcfg stat content hc hq hs
  refine ⟨ha, ?_⟩
  have hk0 : k ≠ 0 := by
    rintro rfl
    rw [zero_mul, abs_zero] at hl
    exact absurd hl (not_le.2 (pow_pos (by norm_num) _))
  rintro ⟨x, y⟩
  unfold Solves
  simp only [Prod.mk.injEq, zero_mul, add_zero, zero_add]
  constructor
  · rintro ⟨e1, e2⟩
    exact ⟨by rw [eq_div_iff hk0, mul_comm]; exact e1, by rw [eq_div_iff hk0, mul_comm]; exact e2⟩
  · rintro ⟨rfl, rfl⟩
    exact ⟨mul_one_div_cancel hk0, mul_one_div_cancel hk0⟩

/-- C97 fails: `k x = k`, `k y = k` with a large `k` has the solution (1, 1); the answer has `nan` for it, which is not even JSON. -/
theorem C97_violated_nan {I : Ideal} (hI : I.Ok) {cfg : Config} (hcfg : ConfigOk cfg) (stat : List Byte → Option Nat) (content : List Byte → List Byte)
    {c : Ctx} (hc : CtxOk c) {q : Request} {after mm mp mc : List Byte} {a : (Spec.Num × Spec.Num) × (Spec.Num × Spec.Num)} {b : Spec.Num × Spec.Num}
    (hq : Asks cfg c q after mm mp mc a b) {k : Rat} (hl : 2 ^ 1024 ≤ |k * k|) (hr : Reads I c a b k 0 0 k k k) :
    serve cfg stat content c I.arith mm mp mc false (q.text ++ after) = .ok ((), .sent (okJson (answerText 1 I.nan I.nan)).text false) ∧
      (∀ p, Solves k 0 0 k k k p ↔ p = (1, 1)) ∧ ∀ n : Spec.Num, n.Ok → n.text ≠ I.nan := by
  have h0 := hI.ieee.zero
  have h1 := hI.ieee.large _ hl
  have hs : solved c I.arith a b = (((1 : Nat) : Int), .nan, .nan) := by
    rw [hr.solved]
    simp [solve, Ideal.arith, Ext.mul, Ext.sub, Ext.div, h0, h1]
  have hk0 : k ≠ 0 := by
    rintro rfl
    rw [zero_mul, abs_zero] at hl
    exact absurd hl (not_le.2 (pow_pos (by norm_num) _))
  have ha := answered hI hcfg stat content hc hq hs
  refine ⟨ha, ?_, ?_⟩
  · rintro ⟨x, y⟩
    unfold Solves
    simp [hk0]
  · intro n hn he
    have h110 : (110 : Byte) ∈ n.text := by
      rw [he]
      rcases hI.nan with h | h <;> rw [h] <;> decide
    obtain ⟨g1, -, g3, g4, g5, -⟩ := hn
    have hd : ∀ d : List Byte, (∀ c ∈ d, Spec.Digit c) → (110 : Byte) ∉ d := fun d h h' => by
      have := h _ h'
      revert this
      unfold Spec.Digit
      decide
    obtain ⟨sign, int, frac, exp⟩ := n
    simp only [Spec.Num.text, List.mem_append, Option.mem_toList] at h110
    rcases h110 with ((h | h) | h) | h
    · rcases g1 _ h with h | h <;> cases h
    · exact hd _ g3 h
    · cases frac with
      | none => cases h
      | some d =>
        simp only [Spec.fracText, List.mem_cons] at h
        rcases h with h | h
        · cases h
        · exact hd _ (g4 d rfl).2 h
    · cases exp with
      | none => cases h
      | some x =>
        obtain ⟨k1, k2, k3⟩ := x
        simp only [Spec.expText, List.mem_cons, List.mem_append, Option.mem_toList] at h
        obtain ⟨l1, l2, l3, l4⟩ := g5 _ rfl
        rcases h with h | h | h
        · subst h; rcases l1 with l1 | l1 <;> cases l1
        · rcases l2 _ h with h | h <;> cases h
        · exact hd _ l4 h

/-! ## Instances -/

theorem double_bound {q : Rat} (h : IsDouble q) : |q| < 2 ^ 1024 - 2 ^ 970 := by
  obtain ⟨m, e, h1, h2, h3, h4, rfl⟩ := h
  have h5 : (2 : Rat) ^ e ≤ 2 ^ (971 : Int) := zpow_le_zpow_right₀ (by norm_num) h4
  have h6 : |(m : Rat)| ≤ 2 ^ 53 - 1 := by
    rw [abs_le]
    have g1 : -(2 ^ 53 - 1) ≤ m := by omega
    have g2 : m ≤ 2 ^ 53 - 1 := by omega
    exact ⟨by exact_mod_cast g1, by exact_mod_cast g2⟩
  have h7 : (2 : Rat) ^ (971 : Int) = 2 * 2 ^ 970 := by
    rw [show (971 : Int) = ((971 : Nat) : Int) from rfl, zpow_natCast, show 971 = 1 + 970 from rfl, pow_add, pow_one]
  have h8 : (2 : Rat) ^ 1024 = 2 ^ 54 * 2 ^ 970 := by rw [← pow_add]
  have h9 : (0 : Rat) < 2 ^ 970 := pow_pos (by norm_num) _
  rw [abs_mul, abs_of_pos (two_zpow_pos e)]
  have g : |(m : Rat)| * 2 ^ e ≤ (2 ^ 53 - 1) * (2 * 2 ^ 970) := by
    rw [← h7]
    exact mul_le_mul h6 h5 (two_zpow_pos e).le (by norm_num)
  rw [h8]
  clear h8 h7 h5
  generalize (2 : Rat) ^ 970 = t at *
  norm_num at g ⊢
  linarith

theorem doubles_finite : ∃ S : Finset Rat, ∀ q, q ∈ S ↔ IsDouble q := by
  refine ⟨((Finset.Icc (-2 ^ 53 + 1 : Int) (2 ^ 53 - 1)) ×ˢ (Finset.Icc (-1074 : Int) 971)).image (fun x => (x.1 : Rat) * 2 ^ x.2), fun q => ?_⟩
  simp only [Finset.mem_image, Finset.mem_product, Finset.mem_Icc, Prod.exists]
  constructor
  · rintro ⟨m, e, ⟨⟨h1, h2⟩, h3, h4⟩, rfl⟩
    exact ⟨m, e, by omega, by omega, h3, h4, rfl⟩
  · rintro ⟨m, e, h1, h2, h3, h4, rfl⟩
    exact ⟨m, e, ⟨⟨by omega, by omega⟩, h3, h4⟩, rfl⟩

/-- There is such a rounding. -/
theorem ieee_exists : ∃ rnd, Ieee rnd := by
  obtain ⟨S, hS⟩ := doubles_finite
  have h0 : (0 : Rat) ∈ S := (hS 0).2 (by simpa using double_int (m := 0) (by norm_num) (by norm_num))
  have hmin := fun q : Rat => Finset.exists_min_image S (fun x => |q - x|) ⟨0, h0⟩
  choose f h1 h2 using hmin
  refine ⟨fun q => if |q| < 2 ^ 1024 - 2 ^ 970 then .fin (f q) else .inf (decide (q < 0)), ⟨?_, ?_, ?_, ?_⟩⟩
  · intro q hq
    have := h2 q q ((hS q).2 hq)
    simp only [sub_self, abs_zero] at this
    have hz : q - f q = 0 := abs_eq_zero.1 (le_antisymm this (abs_nonneg _))
    rw [if_pos (double_bound hq), show f q = q by linarith]
  · intro q x hx
    by_cases hq : |q| < 2 ^ 1024 - 2 ^ 970
    · rw [if_pos hq] at hx
      cases hx
      exact ⟨(hS _).1 (h1 q), fun y hy => h2 q y ((hS y).2 hy)⟩
    · rw [if_neg hq] at hx
      cases hx
  · intro q hq
    rw [if_neg]
    have h9 : (0 : Rat) < 2 ^ 970 := pow_pos (by norm_num) _
    generalize (2 : Rat) ^ 970 = t at *
    generalize (2 : Rat) ^ 1024 = u at *
    linarith
  · intro q hq
    exact ⟨f q, if_pos hq⟩

section Demo
open Spec
open Abc.CarWire (demoPost demoPost_fits Nice demo_json)

/-- A problem as JSON. -/
def problemMems (a : (Num × Num) × (Num × Num)) (b : Num × Num) : Mems :=
  .cons (key "a") [] [] (.arr [] (.cons (.arr [] (.cons (.atom (.num a.1.1)) [] [] (.cons (.atom (.num a.1.2)) [] [] .nil))) [] []
      (.cons (.arr [] (.cons (.atom (.num a.2.1)) [] [] (.cons (.atom (.num a.2.2)) [] [] .nil))) [] [] .nil))) [] []
    (.cons (key "b") [] [] (.arr [] (.cons (.atom (.num b.1)) [] [] (.cons (.atom (.num b.2)) [] [] .nil))) [] [] .nil)

/-- Like `demoCtx`; `atof` keeps the last eight characters. -/
def demoLast : Ctx := { demoCtx with fuel := 800, atof := fun x => (x.reverse ++ List.replicate 8 0).take 8 }

theorem demoLast_ok : CtxOk demoLast := by
  refine ⟨demoCtx_ok.room, fun x => ?_, demoCtx_ok.cell, demoCtx_ok.header, demoCtx_ok.token⟩
  show ((x.reverse ++ List.replicate 8 0).take 8).length = 8
  simp

theorem nice_problem : Nice (str "/Problem") := ⟨by decide, by decide, by decide, by decide +kernel⟩

/-- Any six numbers can be asked about. -/
theorem demo_asks {a : (Num × Num) × (Num × Num)} {b : Num × Num} (h1 : a.1.1.Ok) (h2 : a.1.2.Ok) (h3 : a.2.1.Ok) (h4 : a.2.2.Ok) (h5 : b.1.Ok) (h6 : b.2.Ok) :
    Asks demoCfg demoLast (demoPost "/Problem" (Value.obj [] (problemMems a b)).text) [] (List.replicate 33 7) (List.replicate 2049 7) (List.replicate 17 7) a b := by
  have ka : (key "a").text = [97] := by decide
  have kb : (key "b").text = [98] := by decide
  have va : (key "a").val = str "a" := key_val "a"
  have vb : (key "b").val = str "b" := key_val "b"
  have hne : str "b" ≠ str "a" := a_ne_b
  refine ⟨demoPost_fits nice_problem ?_, by show (str "POST").map lower = _; decide, by show (str "/Problem").map lower = _; decide, .inr (demo_json _ _), [], [], problemMems a b, [], ?_⟩
  · have l1 := h1.2.2.2.2.2
    have l2 := h2.2.2.2.2.2
    have l3 := h3.2.2.2.2.2
    have l4 := h4.2.2.2.2.2
    have l5 := h5.2.2.2.2.2
    have l6 := h6.2.2.2.2.2
    have : demoLast.fuel = 800 := rfl
    rw [this]
    simp [problemMems, Value.text, Mems.text, Mems.sep, Elems.text, Elems.sep, Atom.text, ka, kb]
    omega
  · refine ⟨by show (Value.obj [] (problemMems a b)).text = _; simp, by simp [Ws], ?_, ?_, ?_⟩
    · simp only [problemMems, Value.Ok, Mems.Ok, Elems.Ok, Atom.Ok, key, Str.Ok, Ws, Plain]
      simp only [h1, h2, h3, h4, h5, h6]
      simp
      decide
    · simp [problemMems, FineM, ShortV, ShortE, va, vb, Value.depth, Elems.depth, str]
    · obtain ⟨⟨a00, a01⟩, a10, a11⟩ := a
      obtain ⟨b0, b1⟩ := b
      refine ⟨?_, ?_, ?_, ?_⟩ <;> simp [problemMems, members, asA, asB, va, vb, matrixOf, matrixElems, pairOf, pairElems, hne, hne.symm]

/-- A number of one or more digits. -/
def whole (s : String) : Num := { int := str s }

theorem whole_ok {s : String} (h1 : str s ≠ []) (h2 : ∀ c ∈ str s, Digit c) (h3 : (str s).length ≤ 25) : (whole s).Ok := by
  refine ⟨by simp [whole], h1, h2, by simp [whole], by simp [whole], ?_⟩
  simpa [whole, Num.text, fracText, expText] using h3

/-- Numbers are known by their last two characters. -/
def demoLoad (k : Rat) (m : List Byte) : Ext :=
  if m.take 2 = [48, 0] then .fin 0
  else if m.take 2 = [49, 0] then .fin 1
  else if m.take 2 = [50, 0] then .fin 2
  else if m.take 2 = [57, 50] then .fin 134217729
  else if m.take 2 = [56, 50] then .fin 134217728
  else if m.take 2 = [48, 51] then .fin 134217730
  else .fin k

/-- Numbers are not printed. -/
def demoIdeal (rnd : Rat → Ext) (k : Rat) : Ideal := { load := demoLoad k, rnd := rnd, text := fun _ => str "0", nan := str "-nan" }

theorem demoIdeal_ok {rnd : Rat → Ext} (h : Ieee rnd) (k : Rat) : (demoIdeal rnd k).Ok := ⟨h, fun _ => ⟨by show (str "0").length ≤ 40; decide, by show (0 : Byte) ∉ str "0"; decide⟩, .inr rfl⟩

theorem whole_small (c : Byte) (hc : Digit c) : ({ int := [c] } : Num).Ok := by
  refine ⟨by simp, by simp, by simpa using hc, by simp, by simp, ?_⟩
  simp [Num.text, fracText, expText]

theorem read0 (rnd : Rat → Ext) (k : Rat) : (demoIdeal rnd k).load (demoLast.atof (whole "0").text) = .fin 0 := by
  have e : (demoLast.atof (whole "0").text).take 2 = [48, 0] := by decide +kernel
  simp only [demoIdeal, demoLoad, e]
  simp
theorem read1 (rnd : Rat → Ext) (k : Rat) : (demoIdeal rnd k).load (demoLast.atof (whole "1").text) = .fin 1 := by
  have e : (demoLast.atof (whole "1").text).take 2 = [49, 0] := by decide +kernel
  simp only [demoIdeal, demoLoad, e]
  simp
theorem read2 (rnd : Rat → Ext) (k : Rat) : (demoIdeal rnd k).load (demoLast.atof (whole "2").text) = .fin 2 := by
  have e : (demoLast.atof (whole "2").text).take 2 = [50, 0] := by decide +kernel
  simp only [demoIdeal, demoLoad, e]
  simp
theorem read729 (rnd : Rat → Ext) (k : Rat) : (demoIdeal rnd k).load (demoLast.atof (whole "134217729").text) = .fin 134217729 := by
  have e : (demoLast.atof (whole "134217729").text).take 2 = [57, 50] := by decide +kernel
  simp only [demoIdeal, demoLoad, e]
  simp
theorem read728 (rnd : Rat → Ext) (k : Rat) : (demoIdeal rnd k).load (demoLast.atof (whole "134217728").text) = .fin 134217728 := by
  have e : (demoLast.atof (whole "134217728").text).take 2 = [56, 50] := by decide +kernel
  simp only [demoIdeal, demoLoad, e]
  simp
theorem read730 (rnd : Rat → Ext) (k : Rat) : (demoIdeal rnd k).load (demoLast.atof (whole "134217730").text) = .fin 134217730 := by
  have e : (demoLast.atof (whole "134217730").text).take 2 = [48, 51] := by decide +kernel
  simp only [demoIdeal, demoLoad, e]
  simp

/-- 2^700 and 2^-600. -/
def huge : Num := ⟨none, str "5", some (str "260135901548374"), some (101, none, str "210")⟩
def tiny : Num := ⟨none, str "2", some (str "409919865102884"), some (101, some 45, str "181")⟩

theorem huge_ok : huge.Ok := by
  unfold Num.Ok Digit
  refine ⟨by simp [huge], by decide, by decide, ?_, ?_, by decide +kernel⟩
  · intro d hd
    cases hd
    exact ⟨by decide, by decide⟩
  · intro d hd
    cases hd
    exact ⟨by decide, by simp, by decide, by decide⟩

theorem tiny_ok : tiny.Ok := by
  unfold Num.Ok Digit
  refine ⟨by simp [tiny], by decide, by decide, ?_, ?_, by decide +kernel⟩
  · intro d hd
    cases hd
    exact ⟨by decide, by decide⟩
  · intro d hd
    cases hd
    exact ⟨by decide, by simp, by decide, by decide⟩

theorem readH (rnd : Rat → Ext) (k : Rat) : (demoIdeal rnd k).load (demoLast.atof huge.text) = .fin k := by
  have e : (demoLast.atof huge.text).take 2 = [48, 49] := by decide +kernel
  simp only [demoIdeal, demoLoad, e]
  simp
theorem readT (rnd : Rat → Ext) (k : Rat) : (demoIdeal rnd k).load (demoLast.atof tiny.text) = .fin k := by
  have e : (demoLast.atof tiny.text).take 2 = [49, 56] := by decide +kernel
  simp only [demoIdeal, demoLoad, e]
  simp

theorem ok0 : (whole "0").Ok := whole_small 48 (by unfold Digit; decide)
theorem ok1 : (whole "1").Ok := whole_small 49 (by unfold Digit; decide)
theorem ok2 : (whole "2").Ok := whole_small 50 (by unfold Digit; decide)
theorem ok728 : (whole "134217728").Ok := whole_ok (by decide) (by unfold Digit; decide) (by decide)
theorem ok729 : (whole "134217729").Ok := whole_ok (by decide) (by unfold Digit; decide) (by decide)
theorem ok730 : (whole "134217730").Ok := whole_ok (by decide) (by unfold Digit; decide) (by decide)

/-- A problem, sent. -/
def demoProblem (a : (Num × Num) × (Num × Num)) (b : Num × Num) : Request := demoPost "/Problem" (Value.obj [] (problemMems a b)).text

/-- What happens to it. -/
def demoServe (I : Ideal) (a : (Num × Num) × (Num × Num)) (b : Num × Num) : Done :=
  serve demoCfg (fun _ => none) (fun _ => []) demoLast I.arith (List.replicate 33 7) (List.replicate 2049 7) (List.replicate 17 7) false
    ((demoProblem a b).text ++ [])

/-- C97, with any arithmetic. -/
example {D : Type} (F : Arith D) (hF : ∀ d, Printed (F.text d)) :
    ∃ status : Nat, status ≤ 2 ∧ serve demoCfg (fun _ => none) (fun _ => []) demoLast F (List.replicate 33 7) (List.replicate 2049 7) (List.replicate 17 7) false
      ((demoProblem ((huge, tiny), (tiny, huge)) (huge, huge)).text ++ []) =
        .ok ((), .sent (okJson (answerText status (F.text (solved demoLast F ((huge, tiny), (tiny, huge)) (huge, huge)).2.1)
          (F.text (solved demoLast F ((huge, tiny), (tiny, huge)) (huge, huge)).2.2))).text false) := by
  obtain ⟨n, h1, -, h3, -⟩ := C97_answer demoCfg_ok (fun _ => none) (fun _ => []) demoLast_ok F hF 
    (demo_asks (a := ((huge, tiny), (tiny, huge))) (b := (huge, huge)) huge_ok tiny_ok tiny_ok huge_ok huge_ok huge_ok)
  exact ⟨n, h1, h3⟩

/-- C97: a body that poses no problem. -/
example {D : Type} (F : Arith D) : serve demoCfg (fun _ => none) (fun _ => []) demoLast F (List.replicate 33 7) (List.replicate 2049 7) (List.replicate 17 7) false
      ((demoPost "/Problem" (str "{\"a\":[1],\"c\":0}")).text ++ []) = .ok ((), .sent (badText invalidJson).text false) := by
  refine (C97_refused demoCfg_ok _ _ demoLast_ok F (demoPost_fits nice_problem (by decide +kernel)) (by decide) (by decide) (.inr (demo_json _ _))
    (lead := []) (r := []) (v := .obj [] (.cons (key "a") [] [] (.arr [] (.cons (.atom (.num (whole "1"))) [] [] .nil)) [] []
      (.cons (key "c") [] [] (.atom (.num (whole "0"))) [] [] .nil))) (by decide +kernel) (by simp [Ws]) ?_ ?_).1
  · simp only [Value.Ok, Mems.Ok, Elems.Ok, Atom.Ok, key, Str.Ok, Ws, Plain, ok0, ok1]
    simp
    decide
  · refine ⟨?_, fun a b h => ?_⟩
    · simp only [FineM, key_val]
      refine ⟨by decide, by decide, by decide, fun _ => by simp [ShortV, ShortE], by decide, by decide, by decide, fun h => absurd h (by decide), trivial⟩
    · obtain ⟨m, hm⟩ := h.shapeA (.arr [] (.cons (.atom (.num (whole "1"))) [] [] .nil)) (by simp [members, key_val])
      simp [matrixOf, matrixElems] at hm

/-- C97: the right answer. -/
example {rnd : Rat → Ext} (h : Ieee rnd) (k : Rat) :
    ∃ status x y, demoServe (demoIdeal rnd k) ((whole "2", whole "1"), (whole "1", whole "1")) (whole "1", whole "0") =
        .ok ((), .sent (okJson (answerText status x y)).text false) ∧
      Complete (okJson (answerText status x y)).text ∧ Right (demoIdeal rnd k) 2 1 1 1 1 0 status x y := by
  have hd : ∀ m : Int, -10 < m → m < 10 → rnd m = .fin m := fun m h1 h2 => h.exact _ (double_int (by omega) (by omega))
  have d0 : rnd 0 = .fin 0 := by simpa using hd 0 (by omega) (by omega)
  have d1 : rnd 1 = .fin 1 := by simpa using hd 1 (by omega) (by omega)
  have d2 : rnd 2 = .fin 2 := by simpa using hd 2 (by omega) (by omega)
  have d3 : rnd (-1) = .fin (-1) := by simpa using hd (-1) (by omega) (by omega)
  refine C97_right_partial (demoIdeal_ok h k) demoCfg_ok _ _ demoLast_ok (demo_asks ok2 ok1 ok1 ok1 ok1 ok0)
    ⟨read2 _ _, read1 _ _, read1 _ _, read1 _ _, read1 _ _, read0 _ _⟩ ?_ (by norm_num)
  constructor <;> simp only [Exact, demoIdeal] <;> norm_num [d0, d1, d2, d3]

theorem demo_zero {rnd : Rat → Ext} (h : Ieee rnd) : demoServe (demoIdeal rnd 0) ((whole "0", whole "0"), (whole "0", whole "0")) (whole "1", whole "2") =
      .ok ((), .sent (okJson (answerText 2 (str "0") (str "0"))).text false) := by
  have ha := demo_asks (a := ((whole "0", whole "0"), (whole "0", whole "0"))) (b := (whole "1", whole "2")) ok0 ok0 ok0 ok0 ok1 ok2
  have h := (C97_violated_zero (demoIdeal_ok h 0) demoCfg_ok (fun _ => none) (fun _ => []) demoLast_ok ha ⟨read0 _ _, read0 _ _, read0 _ _, read0 _ _, read1 _ _, read2 _ _⟩ (.inl (by norm_num))).1
  exact h

example {rnd : Rat → Ext} (h : Ieee rnd) :
    demoServe (demoIdeal rnd 0) ((whole "134217729", whole "134217728"), (whole "134217730", whole "134217729")) (whole "0", whole "0") =
      .ok ((), .sent (okJson (answerText 2 (str "0") (str "0"))).text false) := by
  have ha := demo_asks (a := ((whole "134217729", whole "134217728"), (whole "134217730", whole "134217729"))) (b := (whole "0", whole "0")) ok729 ok728 ok730 ok729 ok0 ok0
  have h := (C97_violated_rounding (demoIdeal_ok h 0) demoCfg_ok (fun _ => none) (fun _ => []) demoLast_ok ha ⟨read729 _ _, read728 _ _, read730 _ _, read729 _ _, read0 _ _, read0 _ _⟩).1
  exact h

theorem small_square : |(2 : Rat) ^ (-600 : Int) * 2 ^ (-600 : Int)| < 2 ^ (-1075 : Int) := by
  rw [← zpow_add₀ (by norm_num), abs_of_pos (two_zpow_pos _)]
  exact zpow_lt_zpow_right₀ (by norm_num) (by norm_num)

theorem large_square : (2 : Rat) ^ 1024 ≤ |(2 : Rat) ^ (700 : Int) * 2 ^ (700 : Int)| := by
  rw [← zpow_add₀ (by norm_num), abs_of_pos (two_zpow_pos _), ← zpow_natCast]
  exact zpow_le_zpow_right₀ (by norm_num) (by norm_num)

example {rnd : Rat → Ext} (h : Ieee rnd) :
    demoServe (demoIdeal rnd (2 ^ (-600 : Int))) ((tiny, whole "0"), (whole "0", tiny)) (tiny, tiny) =
      .ok ((), .sent (okJson (answerText 2 (str "0") (str "0"))).text false) := by
  have ha := demo_asks (a := ((tiny, whole "0"), (whole "0", tiny))) (b := (tiny, tiny)) tiny_ok ok0 ok0 tiny_ok tiny_ok tiny_ok
  have h := (C97_violated_underflow (demoIdeal_ok h _) demoCfg_ok (fun _ => none) (fun _ => []) demoLast_ok ha (two_zpow_pos _).ne' small_square ⟨readT _ _, read0 _ _, read0 _ _, readT _ _, readT _ _, readT _ _⟩).1
  exact h

example {rnd : Rat → Ext} (h : Ieee rnd) :
    demoServe (demoIdeal rnd (2 ^ (700 : Int))) ((huge, whole "0"), (whole "0", huge)) (whole "1", whole "1") =
      .ok ((), .sent (okJson (answerText 1 (str "0") (str "0"))).text false) := by
  have ha := demo_asks (a := ((huge, whole "0"), (whole "0", huge))) (b := (whole "1", whole "1")) huge_ok ok0 ok0 huge_ok ok1 ok1
  have h := (C97_violated_overflow (demoIdeal_ok h _) demoCfg_ok (fun _ => none) (fun _ => []) demoLast_ok ha (double_pow (by norm_num) (by norm_num)) large_square ⟨readH _ _, read0 _ _, read0 _ _, readH _ _, read1 _ _, read1 _ _⟩).1
  exact h

example {rnd : Rat → Ext} (h : Ieee rnd) :
    demoServe (demoIdeal rnd (2 ^ (700 : Int))) ((huge, whole "0"), (whole "0", huge)) (huge, huge) =
      .ok ((), .sent (okJson (answerText 1 (str "-nan") (str "-nan"))).text false) := by
  have ha := demo_asks (a := ((huge, whole "0"), (whole "0", huge))) (b := (huge, huge)) huge_ok ok0 ok0 huge_ok huge_ok huge_ok
  have h := (C97_violated_nan (demoIdeal_ok h _) demoCfg_ok (fun _ => none) (fun _ => []) demoLast_ok ha large_square ⟨readH _ _, read0 _ _, read0 _ _, readH _ _, readH _ _, readH _ _⟩).1
  exact h

theorem split_at {x : Byte} : ∀ {d e r t : List Byte}, x ∉ d → x ∉ e → d ++ x :: r = e ++ x :: t → r = t
  | [], [], _, _, _, _, h => by simpa using h
  | [], c :: e, _, _, _, he, h => by simp at h; exact absurd (by simp [h.1]) he
  | c :: d, [], _, _, hd, _, h => by simp at h; exact absurd (by simp [h.1]) hd
  | c :: d, c' :: e, _, _, hd, he, h => by
    simp only [List.cons_append, List.cons.injEq] at h
    exact split_at (fun h => hd (by simp [h])) (fun h => he (by simp [h])) h.2

/-- The text of a response determines its body. -/
theorem okJson_body {b d : List Byte} (h : (okJson b).text = (okJson d).text) : b = d := by
  have hn : ∀ n, Http.norm false false (dec n) = dec n := by
    intro n
    obtain ⟨h1, h2, -⟩ := dec_spec n
    cases hd : dec n with
    | nil => exact absurd hd h1
    | cons a w =>
      rw [hd] at h2
      have := norm_cons_word false false a w [] (printable_of_digit _ (h2 a (by simp))) (fun c hc => printable_of_digit _ (h2 c (by simp [hc])))
      simpa [Http.norm] using this
  have hx : ∀ n, (13 : Byte) ∉ dec n := fun n hc => by
    have := (dec_spec n).2.1 13 hc
    revert this; decide
  have e : ∀ b, (okJson b).text = (protocolText [49] [49] ++ 32 :: (str "200" ++ 32 :: (str "OK" ++ (crlf ++
      (headersText [(str "Connection", str "close"), (str "Content-Type", str "application/json")] ++ (str "Content-Length" ++ [58, 32])))))) ++
      (dec b.length ++ 13 :: (10 :: (crlf ++ b))) := by
    intro b
    simp [okJson, mkResponse, Http.Response.text, headersText, hn, crlf]
  rw [e, e] at h
  have h1 := List.append_cancel_left h
  have h2 := split_at (hx _) (hx _) h1
  simpa [crlf] using h2

/-- So the full statement is false. -/
theorem C97_violated : ¬ C97Full := by
  intro h
  obtain ⟨rnd, hr⟩ := ieee_exists
  have ha := demo_asks (a := ((whole "0", whole "0"), (whole "0", whole "0"))) (b := (whole "1", whole "2")) ok0 ok0 ok0 ok0 ok1 ok2
  have hd : Reads (demoIdeal rnd 0) demoLast ((whole "0", whole "0"), (whole "0", whole "0")) (whole "1", whole "2") 0 0 0 0 1 2 :=
    ⟨read0 _ _, read0 _ _, read0 _ _, read0 _ _, read1 _ _, read2 _ _⟩
  have hn : ∀ p, ¬ Solves (0 : Rat) 0 0 0 1 2 p := fun p ⟨e1, _⟩ => by norm_num at e1
  obtain ⟨status, x, y, h1, -, h2⟩ := h (demoIdeal rnd 0) demoCfg (fun _ => none) (fun _ => []) demoLast _ [] _ _ _ _ _ 0 0 0 0 1 2 (demoIdeal_ok hr 0)
    demoCfg_ok demoLast_ok ha hd (fun p hp => absurd ((hp p).2 rfl) (hn p))
  have h3 := (demo_zero hr).symm.trans h1
  simp only [Res.ok.injEq, Prod.mk.injEq, Outcome.sent.injEq] at h3
  have h4 := okJson_body h3.2.1
  have h0 : status = 0 := by
    rcases h2 with ⟨-, p, hp, -⟩ | ⟨h2, -⟩ | ⟨-, h2⟩
    · exact absurd ((hp p).2 rfl) (hn p)
    · exact h2
    · obtain ⟨p, hp⟩ := h2.nonempty
      exact absurd hp (hn p)
  subst h0
  have e0 : dec 0 = [48] := by decide
  have e2 : dec 2 = [50] := by decide
  simp [answerText, e0, e2] at h4

end Demo

end Abc.EquationsWire
