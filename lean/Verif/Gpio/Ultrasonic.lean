import Verif.Gpio.Line
import Mathlib.Tactic.Ring
import Mathlib.Tactic.ByContra

/-!
# The ultrasonic sensor: `gpio_ultrasonic::measure_distance` (C73)
-/

namespace Abc.Gpio

/-- `DistanceScale`, a `std::ratio`. -/
structure Scale where
  num : Nat
  den : Nat

/-- `std::size_t` arithmetic. -/
def w64 (n : Nat) : Nat := n % 2 ^ 64

/-- `gpio_ultrasonic.x.h` 39 -/
def sonicSpeed : Nat := 343

/-- `gpio_ultrasonic.x.h` 97-99 with `Duration = std::chrono::microseconds`. -/
def sonicDistance (sc : Scale) (count : Nat) : Nat :=
  w64 (w64 (sonicSpeed * count) * (1 * sc.den)) / (1000000 * sc.num)

/-- `gpio_ultrasonic.x.h` 104-106, likewise. -/
def sonicDuration (sc : Scale) (distance : Nat) : Nat :=
  w64 (distance * (sc.num * 1000000)) / (sonicSpeed * sc.den * 1)

/-- The call of `expect_level` whose first reading of the clock is moment number `i` of the sequence
`τ`: it reads clock and line in turns. -/
def pollAt (τ : Nat → Int) (i : Nat) : Poll :=
  ⟨τ i, fun j => τ (i + 1 + 2 * j), fun j => τ (i + 2 + 2 * j)⟩

/-- `gpio_ultrasonic.x.h` 54-92.  `τ` are the moments at which the call reads the clock or the echo
line, in order.  `st` is the variable `timeout` of line 55: it is `static`, so it is computed in the first
call (of any object of the class) and kept.  The results of `put_level` on the trigger line are not
looked at by the code; that line is left out.  The result is the value of `timeout` after the call and
the distance; `none`: not finished after `fuel` tests in one of the waits. -/
def measure (sc : Scale) (s : Signal) (τ : Nat → Int) (maxDistance : Nat) (st : Option Int)
    (fuel : Nat) : Option (Int × Nat) :=
  let timeout : Int := st.getD (sonicDuration sc (w64 (2 * maxDistance)))      -- 55
  let t0 := τ 0                                                                 -- 64
  match expectFrom s (pollAt τ 1) low 1000 timeout fuel 0 with                  -- 67
  | none => none
  | some (r1, n1) =>
    let i1 := 1 + 3 + 2 * n1
    let t1 := τ i1                                                              -- 68
    if r1 = invalid then some (timeout, maxDistance)                            -- 71, 78, 84-86
    else
      let left := timeout - (t1 - t0).tdiv 1000                                 -- 72
      match expectFrom s (pollAt τ (i1 + 1)) high 1000 left fuel 0 with         -- 73
      | none => none
      | some (r2, n2) =>
        let i2 := i1 + 1 + 3 + 2 * n2
        let t2 := τ i2                                                          -- 75
        if r2 = invalid then some (timeout, maxDistance)
        else
          let left := left - (t2 - t1).tdiv 1000                                -- 79
          match expectFrom s (pollAt τ (i2 + 1)) low 1000 left fuel 0 with      -- 80
          | none => none
          | some (r3, n3) =>
            let t3 := τ (i2 + 1 + 3 + 2 * n3)                                   -- 82
            if r3 = invalid then some (timeout, maxDistance)
            else
              let x2 := sonicDistance sc ((t3 - t2).tdiv 1000).toNat            -- 88
              some (timeout, x2 / 2)                                            -- 89-91

/-- The call returns `d` and leaves `st'` behind. -/
def Measures (sc : Scale) (s : Signal) (τ : Nat → Int) (maxDistance : Nat) (st : Option Int)
    (st' : Int) (d : Nat) : Prop :=
  ∃ fuel, measure sc s τ maxDistance st fuel = some (st', d)

/-- The value of `timeout` after a number of calls: each entry is the signal, the moments and the
argument of one call.  A call that never returns leaves no later calls. -/
inductive After (sc : Scale) : List Nat → Option Int → Prop
  | none : After sc [] none
  | call {ms : List Nat} {st : Option Int} {s : Signal} {τ : Nat → Int} {m : Nat} {st' : Int} {d : Nat} :
      After sc ms st → Measures sc s τ m st st' d → After sc (ms ++ [m]) (some st')

/-- The sensor reports an obstacle: after `t0` the echo line is low, then high from `up` to `down`, then
low.  It is polled with at most `δ` nanoseconds between any two readings of line or clock, and the echo
is longer than five of them. -/
structure Echo (s : Signal) (τ : Nat → Int) (up down δ : Int) : Prop where
  mono : ∀ i, τ i ≤ τ (i + 1)
  gap : ∀ i, τ (i + 1) - τ i ≤ δ
  advance : ∀ t, ∃ i, t ≤ τ i
  lowBefore : ∀ t, τ 0 ≤ t → t < up → Has s t 0
  highBetween : ∀ t, up ≤ t → t < down → Has s t 1
  lowAfter : ∀ t, down ≤ t → Has s t 0
  ready : τ 3 < up
  long : 5 * δ < down - up

/-- `d` is the distance for an echo of `len` nanoseconds, up to an error of `slack` nanoseconds of
echo and rounding down: the distance is `len · 343 / 2 · 10⁻⁹` metres, in units of `num / den` metres. -/
def Near (sc : Scale) (d : Nat) (len slack : Int) : Prop :=
  2 * (d : Int) * (1000000000 * sc.num) ≤ 343 * sc.den * (len + slack) ∧
  343 * sc.den * (len - slack - 1000) < (2 * (d : Int) + 2) * (1000000000 * sc.num)

/-- **C73, as stated.**  If the echo comes within the time that sound takes to the distance given and
back, then the distance of the obstacle is returned; whatever calls were made before. -/
def C73Full : Prop := ∀ (sc : Scale) (ms : List Nat) (st : Option Int) (s : Signal) (τ : Nat → Int)
  (m : Nat) (up down δ : Int),
  0 < sc.num → 0 < sc.den → After sc ms st → Echo s τ up down δ →
  2 * m * (sc.num * 1000000) < 2 ^ 64 → 343 * (down - up + 5 * δ) * sc.den < 2 ^ 64 →
  down - τ 0 ≤ 1000 * (sonicDuration sc (2 * m)) →
  ∃ st' d, Measures sc s τ m st st' d ∧ Near sc d (down - up) (5 * δ)

theorem expectFrom_first {s : Signal} {p : Poll} {level : Nat} {unit timeout : Int} {n : Nat}
    (hn : getLevel s (p.read n) = level)
    (hb : ∀ j, j < n → getLevel s (p.read j) ≠ level ∧ ¬ (p.clock j - p.start).tdiv unit > timeout) :
    ∀ {m i}, i + m = n → ∀ f, m < f →
      expectFrom s p level unit timeout f i = some (level, n) := by
  intro m
  induction m with
  | zero =>
    intro i hi f hf
    have hi : i = n := by omega
    subst hi
    obtain ⟨f, rfl⟩ : ∃ g, f = g + 1 := ⟨f - 1, by omega⟩
    unfold expectFrom
    rw [if_pos hn]
  | succ m ih =>
    intro i hi f hf
    obtain ⟨f, rfl⟩ : ∃ g, f = g + 1 := ⟨f - 1, by omega⟩
    obtain ⟨h1, h2⟩ := hb i (by omega)
    unfold expectFrom
    rw [if_neg h1, if_neg h2]
    exact ih (by omega) f (by omega)

theorem expectFrom_more {s : Signal} {p : Poll} {level : Nat} {unit timeout : Int} :
    ∀ {f i x}, expectFrom s p level unit timeout f i = some x →
      ∀ k, expectFrom s p level unit timeout (f + k) i = some x := by
  intro f
  induction f with
  | zero => intro i x h; cases h
  | succ f ih =>
    intro i x h k
    rw [Nat.succ_add]
    unfold expectFrom at h ⊢
    split at h
    · rename_i hc; rw [if_pos hc]; exact h
    · rename_i hc
      rw [if_neg hc]
      split at h
      · rename_i hc2; rw [if_pos hc2]; exact h
      · rename_i hc2
        rw [if_neg hc2]
        exact ih h k

theorem tau_mono {τ : Nat → Int} (h : ∀ i, τ i ≤ τ (i + 1)) : ∀ {i j}, i ≤ j → τ i ≤ τ j := by
  intro i j hij
  induction hij with
  | refl => exact le_refl _
  | step _ ih => exact le_trans ih (h _)

/-- The first moment of the form `i + 2 j` that is not before `t`. -/
theorem first_read {τ : Nat → Int} (hm : ∀ i, τ i ≤ τ (i + 1)) (hadv : ∀ t, ∃ i, t ≤ τ i) (i : Nat)
    (t : Int) : ∃ n, t ≤ τ (i + 2 * n) ∧ ∀ j, j < n → τ (i + 2 * j) < t := by
  have hex : ∃ n, t ≤ τ (i + 2 * n) := by
    obtain ⟨k, hk⟩ := hadv t
    exact ⟨k, le_trans hk (tau_mono hm (by omega))⟩
  classical
  refine ⟨Nat.find hex, Nat.find_spec hex, ?_⟩
  intro j hj
  have := Nat.find_min hex hj
  omega

theorem tdiv_add_le {a b c : Int} (ha : 0 ≤ a) (hb : 0 ≤ b) (h : a + b ≤ 1000 * c) :
    a.tdiv 1000 ≤ c - b.tdiv 1000 := by
  rw [Int.tdiv_eq_ediv_of_nonneg ha, Int.tdiv_eq_ediv_of_nonneg hb]
  omega

theorem tdiv_add3_le {a b d c : Int} (ha : 0 ≤ a) (hb : 0 ≤ b) (hd : 0 ≤ d)
    (h : a + b + d ≤ 1000 * c) : a.tdiv 1000 ≤ c - b.tdiv 1000 - d.tdiv 1000 := by
  rw [Int.tdiv_eq_ediv_of_nonneg ha, Int.tdiv_eq_ediv_of_nonneg hb, Int.tdiv_eq_ediv_of_nonneg hd]
  omega

theorem near_of {sc : Scale} (hn : 0 < sc.num) {x len slack : Int} (hx : 0 ≤ x)
    (h1 : x ≤ len + slack) (h2 : len - slack ≤ x) (hlim : 343 * (len + slack) * sc.den < 2 ^ 64) :
    Near sc (sonicDistance sc (x.tdiv 1000).toNat / 2) len slack := by
  rw [Int.tdiv_eq_ediv_of_nonneg hx]
  obtain ⟨us, hus⟩ := Int.eq_ofNat_of_zero_le (show 0 ≤ x / 1000 by omega)
  rw [hus]
  have hus1 : (us : Int) * 1000 ≤ x := by omega
  have hus2 : x < (us : Int) * 1000 + 1000 := by omega
  have hden : (0 : Int) ≤ sc.den := by positivity
  have hfit : (343 * us * sc.den : Int) < 2 ^ 64 := by
    have : (343 * us * sc.den : Int) ≤ 343 * (len + slack) * sc.den := by
      apply mul_le_mul_of_nonneg_right _ hden
      omega
    omega
  have hfit' : 343 * us * sc.den < 2 ^ 64 := by exact_mod_cast hfit
  have hs : sonicDistance sc ((us : Int)).toNat = 343 * us * sc.den / (1000000 * sc.num) := by
    unfold sonicDistance w64 sonicSpeed
    rw [Int.toNat_natCast]
    rcases Nat.eq_zero_or_pos sc.den with h0 | h0
    · rw [h0]; simp
    · have : 343 * us ≤ 343 * us * sc.den := Nat.le_mul_of_pos_right _ h0
      rw [Nat.mod_eq_of_lt (a := 343 * us) (by omega), Nat.one_mul, Nat.mod_eq_of_lt hfit']
  show Near sc (sonicDistance sc ((us : Int)).toNat / 2) len slack
  rw [hs]
  generalize hq : 343 * us * sc.den / (1000000 * sc.num) = q
  have hpos : 0 < 1000000 * sc.num := by omega
  have hq1 : q * (1000000 * sc.num) ≤ 343 * us * sc.den := by
    rw [← hq]; exact Nat.div_mul_le_self _ _
  have hq2 : 343 * us * sc.den < (q + 1) * (1000000 * sc.num) := by
    have h := Nat.lt_mul_div_succ (343 * us * sc.den) hpos
    rw [hq] at h
    rw [Nat.mul_comm (q + 1)]
    exact h
  have hq1' : (q : Int) * (1000000 * sc.num) ≤ 343 * us * sc.den := by exact_mod_cast hq1
  have hq2' : (343 * us * sc.den : Int) < ((q : Int) + 1) * (1000000 * sc.num) := by
    exact_mod_cast hq2
  have hd1 : (2 * (q / 2) : Nat) ≤ q := by omega
  have hd2 : q < 2 * (q / 2) + 2 := by omega
  have hd1' : (2 * ((q / 2 : Nat) : Int)) ≤ q := by exact_mod_cast hd1
  have hd2' : (q : Int) + 1 ≤ 2 * ((q / 2 : Nat) : Int) + 2 := by exact_mod_cast hd2
  have hnum : (0 : Int) ≤ sc.num := by positivity
  unfold Near
  generalize ((q / 2 : Nat) : Int) = d at hd1' hd2' ⊢
  constructor
  · have e1 : 2 * d * (1000000 * sc.num) ≤ q * (1000000 * sc.num) :=
      mul_le_mul_of_nonneg_right hd1' (by positivity)
    have e2 : 343 * (us : Int) * sc.den * 1000 ≤ 343 * (len + slack) * sc.den := by
      have : 343 * (us : Int) * sc.den * 1000 = 343 * ((us : Int) * 1000) * sc.den := by ring
      rw [this]
      apply mul_le_mul_of_nonneg_right _ hden
      omega
    nlinarith
  · have e1 : ((q : Int) + 1) * (1000000 * sc.num) ≤ (2 * d + 2) * (1000000 * sc.num) :=
      mul_le_mul_of_nonneg_right hd2' (by positivity)
    have e2 : 343 * (len - slack - 1000) * sc.den ≤ 343 * (us : Int) * sc.den * 1000 := by
      have : 343 * (us : Int) * sc.den * 1000 = 343 * ((us : Int) * 1000) * sc.den := by ring
      rw [this]
      apply mul_le_mul_of_nonneg_right _ hden
      omega
    nlinarith

/-- One call with enough time, whatever `timeout` is. -/
theorem measure_echo {sc : Scale} {s : Signal} {τ : Nat → Int} {m : Nat} {st : Option Int}
    {up down δ : Int} (hn : 0 < sc.num) (E : Echo s τ up down δ)
    (hlim : 343 * (down - up + 5 * δ) * sc.den < 2 ^ 64)
    (htime : down - τ 0 ≤ 1000 * st.getD (sonicDuration sc (w64 (2 * m)))) :
    ∃ d, Measures sc s τ m st (st.getD (sonicDuration sc (w64 (2 * m)))) d ∧
      Near sc d (down - up) (5 * δ) := by
  have mono : ∀ {i j}, i ≤ j → τ i ≤ τ j := tau_mono E.mono
  have lowBefore : ∀ t, τ 0 ≤ t → t < up → getLevel s t = low := fun t h1 h2 =>
    (getLevel_iff (by decide)).mpr (E.lowBefore t h1 h2)
  have highBetween : ∀ t, up ≤ t → t < down → getLevel s t = high := fun t h1 h2 =>
    (getLevel_iff (by decide)).mpr (E.highBetween t h1 h2)
  have lowAfter : ∀ t, down ≤ t → getLevel s t = low := fun t h1 =>
    (getLevel_iff (by decide)).mpr (E.lowAfter t h1)
  have hlen := E.long
  have hδ : 0 ≤ δ := by
    have h1 := E.mono 0
    have h2 := E.gap 0
    omega
  unfold Measures
  generalize hto : st.getD (sonicDuration sc (w64 (2 * m)) : Int) = timeout at htime ⊢
  -- first wait: the line is low
  have hl1 : getLevel s (τ 3) = low := lowBefore _ (mono (by omega)) E.ready
  have hw1 : ∀ f, 0 < f → expectFrom s (pollAt τ 1) low 1000 timeout f 0 = some (low, 0) := by
    intro f hf
    refine expectFrom_first (n := 0) ?_ ?_ rfl f hf
    · exact hl1
    · intro j hj; omega
  -- second wait: the first reading not before `up`
  obtain ⟨n2, hr2, hb2⟩ := first_read E.mono E.advance (4 + 1 + 2) up
  have hup2 : τ (4 + 1 + 2 + 2 * n2) < up + 4 * δ := by
    cases n2 with
    | zero =>
      have g3 := E.gap 3; have g4 := E.gap 4; have g5 := E.gap 5; have g6 := E.gap 6
      have := E.ready
      show τ 7 < _
      simp only [Nat.reduceAdd] at g3 g4 g5 g6
      omega
    | succ k =>
      have := hb2 k (by omega)
      have g1 := E.gap (4 + 1 + 2 + 2 * k); have g2 := E.gap (4 + 1 + 2 + 2 * k + 1)
      have e : 4 + 1 + 2 + 2 * (k + 1) = 4 + 1 + 2 + 2 * k + 1 + 1 := by omega
      rw [e]
      omega
  have hw2 : ∀ f, n2 < f → expectFrom s (pollAt τ (4 + 1)) high 1000
      (timeout - (τ 4 - τ 0).tdiv 1000) f 0 = some (high, n2) := by
    intro f hf
    refine expectFrom_first (n := n2) (m := n2) ?_ ?_ (by omega) f hf
    · exact highBetween _ hr2 (by
        show τ (4 + 1 + 2 + 2 * n2) < down
        omega)
    · intro j hj
      have hj2 := hb2 j hj
      refine ⟨?_, ?_⟩
      · have : getLevel s (τ (4 + 1 + 2 + 2 * j)) = low :=
          lowBefore _ (mono (by omega)) hj2
        show getLevel s (τ (4 + 1 + 2 + 2 * j)) ≠ high
        rw [this]; decide
      · show ¬ (τ (4 + 1 + 1 + 2 * j) - τ (4 + 1)).tdiv 1000 > _
        have m1 : τ (4 + 1) ≤ τ (4 + 1 + 1 + 2 * j) := mono (by omega)
        have m2 : τ (4 + 1 + 1 + 2 * j) ≤ τ (4 + 1 + 2 + 2 * j) := mono (by omega)
        have m3 : τ 0 ≤ τ 4 := mono (by omega)
        have m4 : τ 4 ≤ τ (4 + 1) := mono (by omega)
        have := tdiv_add_le (a := τ (4 + 1 + 1 + 2 * j) - τ (4 + 1)) (b := τ 4 - τ 0) (c := timeout)
          (by omega) (by omega) (by omega)
        omega
  -- third wait
  generalize hi2 : 4 + 1 + 3 + 2 * n2 = i2
  have e2 : 4 + 1 + 2 + 2 * n2 = i2 - 1 := by omega
  rw [e2] at hr2 hup2
  have hge : 8 ≤ i2 := by omega
  have t2lo : up ≤ τ i2 := le_trans hr2 (mono (by omega))
  have t2hi : τ i2 < up + 5 * δ := by
    have g := E.gap (i2 - 1)
    rw [show i2 - 1 + 1 = i2 by omega] at g
    omega
  obtain ⟨n3, hr3, hb3⟩ := first_read E.mono E.advance (i2 + 1 + 2) down
  have hup3 : τ (i2 + 1 + 2 + 2 * n3) < down + 3 * δ := by
    cases n3 with
    | zero =>
      have g0 := E.gap i2; have g1 := E.gap (i2 + 1); have g2 := E.gap (i2 + 1 + 1)
      show τ (i2 + 1 + 1 + 1) < _
      omega
    | succ k =>
      have := hb3 k (by omega)
      have g1 := E.gap (i2 + 1 + 2 + 2 * k); have g2 := E.gap (i2 + 1 + 2 + 2 * k + 1)
      have e : i2 + 1 + 2 + 2 * (k + 1) = i2 + 1 + 2 + 2 * k + 1 + 1 := by omega
      rw [e]
      omega
  have hw3 : ∀ f, n3 < f → expectFrom s (pollAt τ (i2 + 1)) low 1000
      (timeout - (τ 4 - τ 0).tdiv 1000 - (τ i2 - τ 4).tdiv 1000) f 0 = some (low, n3) := by
    intro f hf
    refine expectFrom_first (n := n3) (m := n3) ?_ ?_ (by omega) f hf
    · exact lowAfter _ hr3
    · intro j hj
      have hj3 := hb3 j hj
      have m0 : τ i2 ≤ τ (i2 + 1 + 2 + 2 * j) := mono (by omega)
      refine ⟨?_, ?_⟩
      · have : getLevel s (τ (i2 + 1 + 2 + 2 * j)) = high := highBetween _ (by omega) hj3
        show getLevel s (τ (i2 + 1 + 2 + 2 * j)) ≠ low
        rw [this]; decide
      · show ¬ (τ (i2 + 1 + 1 + 2 * j) - τ (i2 + 1)).tdiv 1000 > _
        have m1 : τ (i2 + 1) ≤ τ (i2 + 1 + 1 + 2 * j) := mono (by omega)
        have m2 : τ (i2 + 1 + 1 + 2 * j) ≤ τ (i2 + 1 + 2 + 2 * j) := mono (by omega)
        have m3 : τ 0 ≤ τ 4 := mono (by omega)
        have m4 : τ 4 ≤ τ i2 := mono (by omega)
        have m5 : τ i2 ≤ τ (i2 + 1) := mono (by omega)
        have := tdiv_add3_le (a := τ (i2 + 1 + 1 + 2 * j) - τ (i2 + 1)) (b := τ 4 - τ 0)
          (d := τ i2 - τ 4) (c := timeout) (by omega) (by omega) (by omega) (by omega)
        omega
  have t3lo : down ≤ τ (i2 + 1 + 3 + 2 * n3) := le_trans hr3 (mono (by omega))
  have t3hi : τ (i2 + 1 + 3 + 2 * n3) < down + 4 * δ + 1 := by
    have g := E.gap (i2 + 1 + 2 + 2 * n3)
    rw [show i2 + 1 + 2 + 2 * n3 + 1 = i2 + 1 + 3 + 2 * n3 by omega] at g
    omega
  refine ⟨sonicDistance sc ((τ (i2 + 1 + 3 + 2 * n3) - τ i2).tdiv 1000).toNat / 2,
    ⟨n2 + n3 + 1, ?_⟩, ?_⟩
  · unfold measure
    dsimp only
    rw [hto, hw1 _ (by omega)]
    dsimp only
    rw [if_neg (by decide)]
    show (match expectFrom s (pollAt τ (4 + 1)) high 1000 (timeout - (τ 4 - τ 0).tdiv 1000)
      (n2 + n3 + 1) 0 with | none => none | some (r2, n2) => _) = _
    rw [hw2 _ (by omega)]
    dsimp only
    rw [if_neg (by decide)]
    have e4 : 1 + 3 + 2 * 0 + 1 + 3 + 2 * n2 = i2 := by omega
    rw [e4]
    show (match expectFrom s (pollAt τ (i2 + 1)) low 1000
      (timeout - (τ 4 - τ 0).tdiv 1000 - (τ i2 - τ 4).tdiv 1000)
      (n2 + n3 + 1) 0 with | none => none | some (r3, n3) => _) = _
    rw [hw3 _ (by omega)]
    dsimp only
    rw [if_neg (by decide)]
  · refine near_of hn ?_ ?_ ?_ hlim
    · have := mono (show i2 ≤ i2 + 1 + 3 + 2 * n3 by omega)
      omega
    · omega
    · omega

/-- `timeout` is the one of the first call. -/
theorem after_first {sc : Scale} {ms : List Nat} {st : Option Int} (h : After sc ms st) :
    (ms = [] ∧ st = none) ∨
    ∃ m0, ms.head? = some m0 ∧ st = some (sonicDuration sc (w64 (2 * m0)) : Int) := by
  induction h with
  | none => exact Or.inl ⟨rfl, rfl⟩
  | @call ms st s τ m st' d hprev hm ih =>
    right
    obtain ⟨f, hf⟩ := hm
    have hst : st' = st.getD (sonicDuration sc (w64 (2 * m)) : Int) := by
      unfold measure at hf
      dsimp only at hf
      generalize st.getD (sonicDuration sc (w64 (2 * m)) : Int) = timeout at hf
      split at hf
      · cases hf
      · split at hf
        · cases hf; rfl
        · split at hf
          · cases hf
          · split at hf
            · cases hf; rfl
            · split at hf
              · cases hf
              · split at hf <;> cases hf <;> rfl
    rcases ih with ⟨rfl, rfl⟩ | ⟨m0, h0, rfl⟩
    · exact ⟨m, rfl, by rw [hst]; rfl⟩
    · refine ⟨m0, ?_, by rw [hst]; rfl⟩
      cases ms with
      | nil => cases h0
      | cons a t => simpa using h0

/-- **C73, proved part.**  The distance of the obstacle is returned, up to the granularity of the
polling and rounding, if the echo comes within the time for the distance given in the *first* call
(`ms.headD m`: the argument of the first call, or of this one if it is the first).
Missing: time that this call allows but the first did not (`C73_violated`). -/
theorem C73_distance_partial (sc : Scale) (ms : List Nat) (st : Option Int) (s : Signal)
    (τ : Nat → Int) (m : Nat) (up down δ : Int)
    (hn : 0 < sc.num) (ha : After sc ms st) (E : Echo s τ up down δ)
    (hlim1 : 2 * ms.headD m * (sc.num * 1000000) < 2 ^ 64)
    (hlim : 343 * (down - up + 5 * δ) * sc.den < 2 ^ 64)
    (htime : down - τ 0 ≤ 1000 * (sonicDuration sc (2 * ms.headD m))) :
    ∃ st' d, Measures sc s τ m st st' d ∧ Near sc d (down - up) (5 * δ) := by
  have hw : w64 (2 * ms.headD m) = 2 * ms.headD m := by
    unfold w64
    refine Nat.mod_eq_of_lt (lt_of_le_of_lt ?_ hlim1)
    exact Nat.le_mul_of_pos_right _ (by omega)
  have htime' : down - τ 0 ≤ 1000 * st.getD (sonicDuration sc (w64 (2 * m)) : Int) := by
    rw [← hw] at htime
    rcases after_first ha with ⟨rfl, rfl⟩ | ⟨m0, h0, rfl⟩
    · exact htime
    · have : ms.headD m = m0 := by
        cases ms with
        | nil => cases h0
        | cons a t => simpa using h0
      rw [this] at htime
      exact htime
  obtain ⟨d, h1, h2⟩ := measure_echo (m := m) hn E hlim htime'
  exact ⟨_, d, h1, h2⟩

theorem wait_returns {s : Signal} {τ : Nat → Int} (hm : ∀ i, τ i ≤ τ (i + 1))
    (hadv : ∀ t, ∃ i, t ≤ τ i) (i : Nat) (level : Nat) (timeout : Int) : ∃ F r n, ∀ f, F ≤ f →
      expectFrom s (pollAt τ i) level 1000 timeout f 0 = some (r, n) := by
  have mono : ∀ {i j}, i ≤ j → τ i ≤ τ j := tau_mono hm
  obtain ⟨k, hk⟩ := hadv (τ i + (timeout + 1) * 1000)
  have hgt : ((pollAt τ i).clock k - (pollAt τ i).start).tdiv 1000 > timeout := by
    have h1 : τ k ≤ (pollAt τ i).clock k := mono (by omega)
    have h2 : (pollAt τ i).start ≤ (pollAt τ i).clock k := mono (by omega)
    have h3 : (pollAt τ i).start = τ i := rfl
    exact (tdiv_gt (by omega) (by omega)).mpr (by omega)
  obtain ⟨r, n, h⟩ := expectFrom_total (s := s) (level := level) hgt (m := k) (i := 0) (by omega)
  refine ⟨k + 1, r, n, ?_⟩
  intro f hf
  obtain ⟨j, rfl⟩ : ∃ j, f = (k + 1) + j := ⟨f - (k + 1), by omega⟩
  exact expectFrom_more h j

theorem wait_level {s : Signal} {p : Poll} {level : Nat} {unit timeout : Int} {f r n : Nat}
    (hl : level ≤ 1) (h : expectFrom s p level unit timeout f 0 = some (r, n)) (hr : r ≠ invalid) :
    Has s (p.read n) level := by
  obtain ⟨-, -, h3⟩ := expectFrom_spec h
  rcases h3 with ⟨-, h3⟩ | ⟨h3, -⟩
  · exact (getLevel_iff hl).mp h3
  · exact absurd h3 hr

/-- Whatever the echo line does and whatever calls were made before, the call returns if the clock goes
on.  It returns its argument, or it has found the line high in one reading and low in a later one, and
the result is the distance for the time between the readings of the clock that follow them. -/
theorem C73_honest (sc : Scale) (st : Option Int) (s : Signal) (τ : Nat → Int) (m : Nat)
    (hn : 0 < sc.num) (hm : ∀ i, τ i ≤ τ (i + 1)) (hadv : ∀ t, ∃ i, t ≤ τ i) :
    ∃ st' d, Measures sc s τ m st st' d ∧
      (d = m ∨ ∃ i j, i < j ∧ Has s (τ i) 1 ∧ Has s (τ j) 0 ∧
        (343 * (τ (j + 1) - τ (i + 1)) * sc.den < 2 ^ 64 → Near sc d (τ (j + 1) - τ (i + 1)) 0)) := by
  have mono : ∀ {i j}, i ≤ j → τ i ≤ τ j := tau_mono hm
  unfold Measures measure
  dsimp only
  generalize st.getD (sonicDuration sc (w64 (2 * m)) : Int) = timeout
  obtain ⟨F1, r1, n1, h1⟩ := wait_returns (s := s) hm hadv 1 low timeout
  generalize hi1 : 1 + 3 + 2 * n1 = i1
  by_cases hr1 : r1 = invalid
  · refine ⟨timeout, m, ⟨F1, ?_⟩, Or.inl rfl⟩
    rw [h1 _ (le_refl _)]
    dsimp only
    rw [if_pos hr1]
  obtain ⟨F2, r2, n2, h2⟩ := wait_returns (s := s) hm hadv (i1 + 1) high
    (timeout - (τ i1 - τ 0).tdiv 1000)
  generalize hi2 : i1 + 1 + 3 + 2 * n2 = i2
  by_cases hr2 : r2 = invalid
  · refine ⟨timeout, m, ⟨F1 + F2, ?_⟩, Or.inl rfl⟩
    rw [h1 _ (by omega)]
    dsimp only
    rw [if_neg hr1, hi1, h2 _ (by omega)]
    dsimp only
    rw [if_pos hr2]
  obtain ⟨F3, r3, n3, h3⟩ := wait_returns (s := s) hm hadv (i2 + 1) low
    (timeout - (τ i1 - τ 0).tdiv 1000 - (τ i2 - τ i1).tdiv 1000)
  by_cases hr3 : r3 = invalid
  · refine ⟨timeout, m, ⟨F1 + F2 + F3, ?_⟩, Or.inl rfl⟩
    rw [h1 _ (by omega)]
    dsimp only
    rw [if_neg hr1, hi1, h2 _ (by omega)]
    dsimp only
    rw [if_neg hr2, hi2, h3 _ (by omega)]
    dsimp only
    rw [if_pos hr3]
  refine ⟨timeout, sonicDistance sc ((τ (i2 + 1 + 3 + 2 * n3) - τ i2).tdiv 1000).toNat / 2,
    ⟨F1 + F2 + F3, ?_⟩, Or.inr ⟨i2 - 1, i2 + 3 + 2 * n3, by omega, ?_, ?_, ?_⟩⟩
  · rw [h1 _ (by omega)]
    dsimp only
    rw [if_neg hr1, hi1, h2 _ (by omega)]
    dsimp only
    rw [if_neg hr2, hi2, h3 _ (by omega)]
    dsimp only
    rw [if_neg hr3]
  · have := wait_level (by decide) (h2 _ (le_refl _)) hr2
    have e : (pollAt τ (i1 + 1)).read n2 = τ (i2 - 1) := by
      show τ (i1 + 1 + 2 + 2 * n2) = _
      rw [← hi2]; congr 1; omega
    rw [e] at this
    exact this
  · have := wait_level (by decide) (h3 _ (le_refl _)) hr3
    have e : (pollAt τ (i2 + 1)).read n3 = τ (i2 + 3 + 2 * n3) := by
      show τ (i2 + 1 + 2 + 2 * n3) = _
      congr 1
    rw [e] at this
    exact this
  · have e1 : i2 - 1 + 1 = i2 := by omega
    have e2 : i2 + 3 + 2 * n3 + 1 = i2 + 1 + 3 + 2 * n3 := by omega
    rw [e1, e2]
    intro hlim
    have := mono (show i2 ≤ i2 + 1 + 3 + 2 * n3 by omega)
    exact near_of hn (by omega) (by omega) (by omega) (by rw [Int.add_zero]; exact hlim)

/-- If there is no echo at all, or one that does not end, the argument is returned, whatever calls were
made before. -/
theorem C73_silent (sc : Scale) (st : Option Int) (s : Signal) (τ : Nat → Int) (m : Nat) (up : Int)
    (hn : 0 < sc.num) (hm : ∀ i, τ i ≤ τ (i + 1)) (hadv : ∀ t, ∃ i, t ≤ τ i)
    (hs : (∀ t, ¬ Has s t 1) ∨ (∀ t, t < up → ¬ Has s t 1) ∧ ∀ t, up ≤ t → ¬ Has s t 0) :
    ∃ st', Measures sc s τ m st st' m := by
  obtain ⟨st', d, h1, h2⟩ := C73_honest sc st s τ m hn hm hadv
  rcases h2 with rfl | ⟨i, j, hij, h3, h4, -⟩
  · exact ⟨st', h1⟩
  · exfalso
    rcases hs with hs | ⟨hs1, hs2⟩
    · exact hs _ h3
    · have hi : up ≤ τ i := by
        by_contra hc
        exact hs1 _ (by omega) h3
      exact hs2 _ (le_trans hi (tau_mono hm (by omega))) h4

theorem measure_more {sc : Scale} {s : Signal} {τ : Nat → Int} {m : Nat} {st : Option Int} {f : Nat}
    {x : Int × Nat} (h : measure sc s τ m st f = some x) (k : Nat) :
    measure sc s τ m st (f + k) = some x := by
  unfold measure at h ⊢
  dsimp only at h ⊢
  split at h
  · cases h
  · rename_i r1 n1 h1
    rw [expectFrom_more h1]
    dsimp only at h ⊢
    split at h
    · rename_i hc; rw [if_pos hc]; exact h
    · rename_i hc
      rw [if_neg hc]
      split at h
      · cases h
      · rename_i r2 n2 h2
        rw [expectFrom_more h2]
        dsimp only at h ⊢
        split at h
        · rename_i hc2; rw [if_pos hc2]; exact h
        · rename_i hc2
          rw [if_neg hc2]
          split at h
          · cases h
          · rename_i r3 n3 h3
            rw [expectFrom_more h3]
            exact h

theorem measures_det {sc : Scale} {s : Signal} {τ : Nat → Int} {m : Nat} {st : Option Int}
    {a b : Int} {d e : Nat} (h : Measures sc s τ m st a d) (h' : Measures sc s τ m st b e) :
    d = e := by
  obtain ⟨f, hf⟩ := h
  obtain ⟨g, hg⟩ := h'
  have h1 := measure_more hf g
  have h2 := measure_more hg f
  rw [Nat.add_comm g f, h1] at h2
  cases h2
  rfl

/-- Centimetres; one reading per microsecond. -/
def centi : Scale := ⟨1, 100⟩
def demoTimes : Nat → Int := fun i => 1000 * i
/-- The echo of an obstacle at two metres, starting after 300 microseconds. -/
def demoEcho : Signal := fun t => if t < 300000 then some 0 else if t < 11961000 then some 1 else some 0

theorem demo_echo : Echo demoEcho demoTimes 300000 11961000 1000 := by
  refine ⟨?_, ?_, ?_, ?_, ?_, ?_, by decide, by decide⟩
  · intro i; show (1000 : Int) * i ≤ 1000 * ((i + 1 : Nat) : Int); push_cast; omega
  · intro i; show (1000 : Int) * ((i + 1 : Nat) : Int) - 1000 * i ≤ 1000; push_cast; omega
  · intro t
    refine ⟨t.toNat, ?_⟩
    show t ≤ 1000 * (t.toNat : Int)
    omega
  · intro t _ ht
    unfold Has demoEcho
    rw [if_pos ht]; exact ⟨0, rfl, rfl⟩
  · intro t h1 h2
    unfold Has demoEcho
    rw [if_neg (by omega), if_pos h2]; exact ⟨1, rfl, rfl⟩
  · intro t h
    unfold Has demoEcho
    rw [if_neg (by omega), if_neg (by omega)]; exact ⟨0, rfl, rfl⟩

/-- A line that is stuck high after 300 microseconds. -/
example : ∃ st', Measures centi (fun t => if t < 300000 then some 0 else some 1) demoTimes 400 none
    st' 400 := by
  refine C73_silent centi none _ demoTimes 400 300000 (by decide) demo_echo.mono demo_echo.advance
    (Or.inr ⟨?_, ?_⟩)
  · rintro t ht ⟨b, hb, hb'⟩
    dsimp only at hb
    rw [if_pos ht] at hb; cases hb; cases hb'
  · rintro t ht ⟨b, hb, hb'⟩
    dsimp only at hb
    rw [if_neg (by omega)] at hb; cases hb; cases hb'

/-- A call for 400 cm returns the distance of two metres. -/
example : ∃ st' d, Measures centi demoEcho demoTimes 400 none st' d ∧
    Near centi d 11661000 (5 * 1000) :=
  C73_distance_partial centi [] none demoEcho demoTimes 400 300000 11961000 1000 (by decide) .none
    demo_echo (by decide) (by decide) (by decide)

/-- After a call for 10 cm (nothing there), a call for 400 cm gives up after the time for 10 cm, and
returns 400 although an obstacle is at 200 cm. -/
theorem C73_violated : ¬ C73Full ∧
    ∃ st, After centi [10] st ∧ ∃ st', Measures centi demoEcho demoTimes 400 st st' 400 := by
  have ha : After centi [10] (some 583) := by
    refine After.call (ms := []) After.none (s := fun _ => some 0) (τ := demoTimes) (d := 10) ?_
    exact ⟨300, by decide +kernel⟩
  have hm : Measures centi demoEcho demoTimes 400 (some 583) 583 400 := ⟨300, by decide +kernel⟩
  refine ⟨?_, some 583, ha, 583, hm⟩
  intro h
  obtain ⟨st', d, h1, h2⟩ := h centi [10] (some 583) demoEcho demoTimes 400 300000 11961000 1000
    (by decide) (by decide) ha demo_echo (by decide) (by decide) (by decide)
  have : d = 400 := measures_det h1 hm
  subst this
  revert h2
  unfold Near
  decide

end Abc.Gpio
