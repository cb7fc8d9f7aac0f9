import Mathlib.Tactic.Linarith
import Mathlib.Algebra.Order.Ring.Int
import Mathlib.Data.Nat.Bitwise

/-!
# GPIO lines: `get_level`, `expect_level`, `put_level` (C72)

Time is in nanoseconds of `std::chrono::steady_clock`, as an integer.  A line as seen by the driver is a
function of time: `none` where `ioctl` fails, otherwise the word it delivers.
-/

namespace Abc.Gpio

/-- `i/gpio_base.i.h` 50-56 -/
def mask : Nat := 1
def low : Nat := 0
def high : Nat := 1
def invalid : Nat := mask + 1

/-- What `ioctl(get_line_values)` delivers at each moment. -/
abbrev Signal := Int → Option Nat

/-- `gpio_line.x.h` 100-116 at time `t`. -/
def getLevel (s : Signal) (t : Int) : Nat :=
  match s t with
  | none => invalid
  | some bits => bits &&& mask

/-- What a user means by the level of a line: the driver delivers a word whose lowest bit it is. -/
def Has (s : Signal) (t : Int) (level : Nat) : Prop := ∃ bits, s t = some bits ∧ bits % 2 = level

theorem getLevel_iff {s : Signal} {t : Int} {level : Nat} (hl : level ≤ 1) :
    getLevel s t = level ↔ Has s t level := by
  unfold getLevel Has
  cases h : s t with
  | none =>
    constructor
    · intro hc
      have : 2 = level := hc
      omega
    · rintro ⟨b, hb, -⟩; cases hb
  | some bits =>
    dsimp only
    have hm : bits &&& mask = bits % 2 := Nat.and_one_is_mod bits
    rw [hm]
    constructor
    · intro hc; exact ⟨bits, rfl, hc⟩
    · rintro ⟨b, hb, hc⟩; cases hb; exact hc

/-- The moments at which a call of `expect_level` reads the clock and the line: `start` is line 122,
`clock 0` and `read 0` are lines 123 and 124, `clock (i+1)` and `read (i+1)` are lines 131 and 132 in
the `i`-th repetition. -/
structure Poll where
  start : Int
  clock : Nat → Int
  read : Nat → Int

/-- `steady_clock` does not go backwards. -/
structure Poll.Ok (p : Poll) : Prop where
  first : p.start ≤ p.clock 0
  before : ∀ i, p.clock i ≤ p.read i
  after : ∀ i, p.read i ≤ p.clock (i + 1)

/-- `gpio_line.x.h` 126-135 from the `i`-th test on, with `fuel` tests to go.  `unit` is the length of
one tick of `Duration` in nanoseconds; `duration_cast` rounds towards zero.  The result is the value
returned and the number of the test that returned it. -/
def expectFrom (s : Signal) (p : Poll) (level : Nat) (unit timeout : Int) :
    Nat → Nat → Option (Nat × Nat)
  | 0, _ => none
  | fuel + 1, i =>
    if getLevel s (p.read i) = level then some (level, i)
    else if (p.clock i - p.start).tdiv unit > timeout then some (invalid, i)
    else expectFrom s p level unit timeout fuel (i + 1)

/-- `gpio_line.x.h` 121-136: the call returns `r`, in test number `n`. -/
def Expects (s : Signal) (p : Poll) (level : Nat) (unit timeout : Int) (r n : Nat) : Prop :=
  ∃ fuel, expectFrom s p level unit timeout fuel 0 = some (r, n)

/-- `gpio_line.x.h` 140-159: the value returned and the word passed to `ioctl`, if any.  `~mask` is
taken in 32 bits. -/
def putLevel (level : Nat) (ok : Bool) : Nat × Option Nat :=
  if level &&& (2 ^ 32 - 1 - mask) ≠ 0 then (invalid, none)
  else if ok then (level, some (level &&& mask)) else (invalid, some (level &&& mask))

theorem Poll.Ok.clock_mono {p : Poll} (h : p.Ok) : ∀ {i j}, i ≤ j → p.clock i ≤ p.clock j := by
  intro i j hij
  induction hij with
  | refl => exact le_refl _
  | step _ ih => exact le_trans ih (le_trans (h.before _) (h.after _))

theorem Poll.Ok.start_le {p : Poll} (h : p.Ok) (i : Nat) : p.start ≤ p.clock i :=
  le_trans h.first (h.clock_mono (Nat.zero_le i))

theorem tdiv_gt {a u t : Int} (ha : 0 ≤ a) (hu : 0 < u) : a.tdiv u > t ↔ (t + 1) * u ≤ a := by
  rw [Int.tdiv_eq_ediv_of_nonneg ha]
  constructor
  · intro h
    exact (Int.le_ediv_iff_mul_le hu).mp (by omega)
  · intro h
    have := (Int.le_ediv_iff_mul_le hu).mpr h
    omega

theorem expectFrom_spec {s : Signal} {p : Poll} {level : Nat} {unit timeout : Int} :
    ∀ {fuel i r n}, expectFrom s p level unit timeout fuel i = some (r, n) →
      i ≤ n ∧
      (∀ j, i ≤ j → j < n → getLevel s (p.read j) ≠ level ∧
        ¬ (p.clock j - p.start).tdiv unit > timeout) ∧
      ((r = level ∧ getLevel s (p.read n) = level) ∨
        (r = invalid ∧ getLevel s (p.read n) ≠ level ∧
          (p.clock n - p.start).tdiv unit > timeout)) := by
  intro fuel
  induction fuel with
  | zero => intro i r n h; cases h
  | succ fuel ih =>
    intro i r n h
    unfold expectFrom at h
    by_cases h1 : getLevel s (p.read i) = level
    · rw [if_pos h1] at h
      cases h
      exact ⟨le_refl _, fun j hj hj' => by omega, Or.inl ⟨rfl, h1⟩⟩
    · rw [if_neg h1] at h
      by_cases h2 : (p.clock i - p.start).tdiv unit > timeout
      · rw [if_pos h2] at h
        cases h
        exact ⟨le_refl _, fun j hj hj' => by omega, Or.inr ⟨rfl, h1, h2⟩⟩
      · rw [if_neg h2] at h
        obtain ⟨h3, h4, h5⟩ := ih h
        refine ⟨by omega, ?_, h5⟩
        intro j hj hj'
        rcases Nat.eq_or_lt_of_le hj with rfl | hj
        · exact ⟨h1, h2⟩
        · exact h4 j hj hj'

theorem expectFrom_total {s : Signal} {p : Poll} {level : Nat} {unit timeout : Int} {n : Nat}
    (hn : (p.clock n - p.start).tdiv unit > timeout) :
    ∀ {m i}, i + m = n → ∃ r k, expectFrom s p level unit timeout (m + 1) i = some (r, k) := by
  intro m
  induction m with
  | zero =>
    intro i hi
    have hi : i = n := by omega
    subst hi
    unfold expectFrom
    split
    · exact ⟨_, _, rfl⟩
    · exact ⟨_, _, rfl⟩
  | succ m ih =>
    intro i hi
    unfold expectFrom
    split
    · exact ⟨_, _, rfl⟩
    · split
      · exact ⟨_, _, rfl⟩
      · exact ih (by omega)

theorem expectFrom_det {s : Signal} {p : Poll} {level : Nat} {unit timeout : Int} :
    ∀ {f g i x y}, expectFrom s p level unit timeout f i = some x →
      expectFrom s p level unit timeout g i = some y → x = y := by
  intro f
  induction f with
  | zero => intro g i x y h; cases h
  | succ f ih =>
    intro g i x y h h'
    cases g with
    | zero => cases h'
    | succ g =>
      unfold expectFrom at h h'
      split at h
      · rename_i hc
        rw [if_pos hc] at h'
        rw [← Option.some.injEq, ← h, h']
      · rename_i hc
        rw [if_neg hc] at h'
        split at h
        · rename_i hc2
          rw [if_pos hc2] at h'
          rw [← Option.some.injEq, ← h, h']
        · rename_i hc2
          rw [if_neg hc2] at h'
          exact ih h h'

/-- **C72.**  For every signal, every moments of polling and every timeout, if the clock gets that far,
`expect_level` returns, and:

1. it returns the level only if the line had it when it was read, and `invalid` only if more than the
   timeout had passed and the line did not have the level when it was read after that;
2. if the line takes the level before the timeout is over and keeps it, the level is returned, however
   rarely the line is polled;
3. every test but the last one comes before `timeout + 1` ticks have passed and does not find the
   level, so the call ends with the first test after that;
4. if the line never has the level, `invalid` is returned. -/
theorem C72_expect (s : Signal) (p : Poll) (level : Nat) (unit timeout : Int) (hp : p.Ok)
    (hl : level ≤ 1) (hu : 0 < unit) (hadv : ∃ n, p.start + (timeout + 1) * unit ≤ p.clock n) :
    ∃ r n, (∀ r' n', Expects s p level unit timeout r' n' ↔ r' = r ∧ n' = n) ∧
      ((r = level ∧ Has s (p.read n) level) ∨
       (r = 2 ∧ timeout * unit < p.clock n - p.start ∧ ¬ Has s (p.read n) level)) ∧
      (∀ t, t ≤ p.start + timeout * unit → (∀ t', t ≤ t' → Has s t' level) → r = level) ∧
      (∀ j, j < n → p.clock j - p.start < (timeout + 1) * unit ∧ ¬ Has s (p.read j) level) ∧
      ((∀ t, p.start ≤ t → ¬ Has s t level) → r = 2) := by
  obtain ⟨m, hm⟩ := hadv
  have hgt : ∀ j, (p.clock j - p.start).tdiv unit > timeout ↔
      (timeout + 1) * unit ≤ p.clock j - p.start := by
    intro j
    exact tdiv_gt (by have := hp.start_le j; omega) hu
  obtain ⟨r, n, h⟩ := expectFrom_total (s := s) (level := level) ((hgt m).mpr (by omega))
    (m := m) (i := 0) (by omega)
  obtain ⟨-, h2, h3⟩ := expectFrom_spec h
  simp only [ne_eq, getLevel_iff hl] at h2 h3
  have hlt : timeout * unit < (timeout + 1) * unit := by nlinarith
  refine ⟨r, n, ?_, ?_, ?_, ?_, ?_⟩
  · intro r' n'
    constructor
    · rintro ⟨f, hf⟩
      have := expectFrom_det hf h
      cases this
      exact ⟨rfl, rfl⟩
    · rintro ⟨rfl, rfl⟩
      exact ⟨_, h⟩
  · rcases h3 with h3 | ⟨h3, h4, h5⟩
    · exact Or.inl h3
    · right
      have := (hgt n).mp h5
      exact ⟨h3, by omega, h4⟩
  · intro t ht hall
    rcases h3 with h3 | ⟨h3, h4, h5⟩
    · exact h3.1
    · exfalso
      have := (hgt n).mp h5
      have hb := hp.before n
      exact h4 (hall _ (by omega))
  · intro j hj
    obtain ⟨h4, h5⟩ := h2 j (Nat.zero_le _) hj
    rw [hgt] at h5
    exact ⟨by omega, h4⟩
  · intro hall
    rcases h3 with ⟨h3, h4⟩ | h3
    · exfalso
      have hb := hp.before n
      have := hp.start_le n
      exact hall _ (by omega) h4
    · exact h3.1

/-- A line that goes high after 25 microseconds, polled every 10 with a timeout of 40. -/
def demoPoll : Poll := ⟨0, fun i => 10000 * i, fun i => 10000 * i + 500⟩
def demoSignal : Signal := fun t => if t < 25000 then some 0 else some 1

example : demoPoll.Ok ∧ (∃ n, demoPoll.start + (40 + 1) * 1000 ≤ demoPoll.clock n) ∧
    Expects demoSignal demoPoll high 1000 40 high 3 ∧
    Expects demoSignal demoPoll low 1000 40 low 0 ∧
    Expects demoSignal demoPoll high 1000 5 invalid 1 := by
  refine ⟨⟨by decide, ?_, ?_⟩, ⟨5, by decide⟩, ⟨10, by decide +kernel⟩, ⟨10, by decide +kernel⟩,
    ⟨10, by decide +kernel⟩⟩
  · intro i; show (10000 : Int) * i ≤ 10000 * i + 500; omega
  · intro i; show (10000 : Int) * i + 500 ≤ 10000 * ((i + 1 : Nat) : Int); push_cast; omega

/-- **C72, second part.**  `put_level` passes on nothing but low and high; it returns its argument
exactly if that is low or high and the driver took it, and otherwise `invalid`. -/
theorem C72_put (level : Nat) (ok : Bool) (h : level < 2 ^ 32) :
    (level ≤ 1 → putLevel level ok = (if ok then level else invalid, some level)) ∧
    (2 ≤ level → putLevel level ok = (invalid, none)) := by
  have hm : level &&& (2 ^ 32 - 1 - mask) = 2 * (level / 2) := by
    have h1 : (2 ^ 32 - 1 - mask : Nat) = 2 * (2 ^ 31 - 1) := by decide
    rw [h1]
    have h2 : (level &&& 2 * (2 ^ 31 - 1)) / 2 = level / 2 := by
      rw [Nat.and_div_two]
      have : (2 * (2 ^ 31 - 1) : Nat) / 2 = 2 ^ 31 - 1 := by decide
      rw [this, Nat.and_two_pow_sub_one_eq_mod]
      omega
    have h3 : (level &&& 2 * (2 ^ 31 - 1)) % 2 = 0 := by
      have := Nat.and_mod_two_pow (a := level) (b := 2 * (2 ^ 31 - 1)) (n := 1)
      simpa using this
    omega
  unfold putLevel
  rw [hm]
  refine ⟨?_, ?_⟩
  · intro hl
    have h0 : level / 2 = 0 := by omega
    have h1 : level &&& mask = level := by
      show level &&& 1 = level
      rw [Nat.and_one_is_mod]; omega
    rw [h0, h1]
    cases ok <;> rfl
  · intro hl
    rw [if_pos (by omega)]

end Abc.Gpio
