import Verif.Samples.Car
import Verif.Pwm.Props
import Mathlib.Tactic.IntervalCases

/-!
# The car

What the wheels do after any history of requests and rounds of the loop that watches for obstacles.
-/

namespace Abc.Car

/-! ## Numbers -/

/-- The powers the car accepts. -/
def Powers : List Int := [-100, -75, -50, -25, 0, 25, 50, 75, 100]
/-- The turns and angles the car accepts. -/
def Turns : List Int := [-90, -60, -30, 0, 30, 60, 90]

theorem power_range (p : Int) : inRange p (-100) 100 25 = true ↔ p ∈ Powers := by
  unfold inRange Powers
  simp only [Bool.not_eq_true', Bool.or_eq_false_iff, decide_eq_false_iff_not, not_lt, ne_eq, not_not, List.mem_cons,
    List.not_mem_nil, or_false]
  constructor
  · rintro ⟨⟨h1, h2⟩, h3⟩
    have := Int.dvd_of_tmod_eq_zero h3
    omega
  · rintro (h | h | h | h | h | h | h | h | h) <;> subst h <;> decide

theorem turn_range (t : Int) : inRange t (-90) 90 30 = true ↔ t ∈ Turns := by
  unfold inRange Turns
  simp only [Bool.not_eq_true', Bool.or_eq_false_iff, decide_eq_false_iff_not, not_lt, ne_eq, not_not, List.mem_cons,
    List.not_mem_nil, or_false]
  constructor
  · rintro ⟨⟨h1, h2⟩, h3⟩
    have := Int.dvd_of_tmod_eq_zero h3
    omega
  · rintro (h | h | h | h | h | h | h) <;> subst h <;> decide

/-- What the members of the endpoint always satisfy. -/
structure Fine (c : Car) : Prop where
  power : c.power ∈ [0, 25, 50, 75, 100]
  turn : c.turn ∈ Turns

/-- How far the left side is ahead of the right side, in percent, for a turn. -/
def steer (turn : Int) : Int :=
  if turn = 30 then 22 else if turn = 60 then 50 else if turn = 90 then 100
  else if turn = -30 then -22 else if turn = -60 then -50 else if turn = -90 then -100 else 0

/-- The middle between the sides: the power, as far as the difference leaves room for it. -/
def middle (power turn : Int) : Int :=
  let half := (steer turn).natAbs / 2
  max half (min power (100 - half))

theorem sides {c : Car} (h : Fine c) :
    0 ≤ (sidePowers c).1 ∧ (sidePowers c).1 ≤ 100 ∧ 0 ≤ (sidePowers c).2 ∧ (sidePowers c).2 ≤ 100 ∧
    (sidePowers c).1 - (sidePowers c).2 = steer c.turn ∧ (sidePowers c).1 + (sidePowers c).2 = 2 * middle c.power c.turn := by
  obtain ⟨f, p, t, k⟩ := c
  have h1 := h.power
  have h2 := h.turn
  simp only [Turns, List.mem_cons, List.not_mem_nil, or_false] at h1 h2
  rcases h1 with h1 | h1 | h1 | h1 | h1 <;> rcases h2 with h2 | h2 | h2 | h2 | h2 | h2 | h2 <;> subst h1 <;> subst h2 <;> (clear h; revert f k) <;> decide

theorem toDuty_of {n : Int} (h : 0 ≤ n) (h' : n ≤ 100) : toDuty n = n.toNat := by unfold toDuty; omega

/-! ## What the motors do -/

/-- The wheels on the left. -/
def Wheel.left : Wheel → Bool
  | .frontLeft | .rearLeft => true
  | _ => false

/-- What `drive_verified` makes the motors do. -/
def driven (c : Car) (v : Wheel) : Motor := ⟨c.forward, if v.left = true then toDuty (sidePowers c).1 else toDuty (sidePowers c).2⟩

theorem obey_drive (c : Car) (m : Wheel → Motor) : (drive c).foldl obey m = driven c := by
  funext v
  cases v <;> simp [drive, obey, driven, Wheel.left]

/-- The duty cycles are those of the members, and so are the directions once the car was driven. -/
structure Agrees (w : World) (told : Bool) : Prop where
  fine : Fine w.car
  duty : ∀ v, (w.motors v).duty = (driven w.car v).duty
  dir : told = true → ∀ v, (w.motors v).forward = w.car.forward

/-- Requests that are accepted and drive the motors. -/
def Event.drives : Event → Bool
  | .power p => decide (p ∈ Powers)
  | .turn t => decide (t ∈ Turns)
  | _ => false

theorem foldl_track (l : List Cmd) (m : Wheel → Motor) (c : Cmd) (hc : c = .trackerStart ∨ c = .trackerStop ∨ ∃ d, c = .servo d) :
    (l ++ [c]).foldl obey m = l.foldl obey m := by
  rw [List.foldl_append]
  rcases hc with h | h | ⟨d, h⟩ <;> subst h <;> rfl

/-- After an accepted power request the motors do what the members say. -/
theorem onPower_drives (c : Car) (p : Int) (hp : p ∈ Powers) (m : Wheel → Motor) :
    (onPower c p).2.foldl obey m = driven (onPower c p).1 := by
  unfold onPower
  rw [if_neg (by rw [(power_range p).2 hp]; decide)]
  simp only
  split
  · rw [foldl_track _ _ _ (.inr (.inl rfl)), List.foldl_append, obey_drive]
    rfl
  · rw [List.foldl_append, obey_drive]

theorem powerStop_turn (c : Car) (p : Int) : (powerStop c p).1.turn = c.turn := by unfold powerStop; split <;> rfl

theorem powerTrack_turn (x : Car × List Cmd) (p : Int) : (powerTrack x p).1.turn = x.1.turn := by unfold powerTrack; split <;> rfl

theorem onPower_car (c : Car) (p : Int) (hp : p ∈ Powers) :
    (onPower c p).1.forward = decide (0 ≤ p) ∧ (onPower c p).1.power = p.natAbs ∧
    (onPower c p).1.turn = if p = 0 then 0 else c.turn := by
  unfold onPower
  rw [if_neg (by rw [(power_range p).2 hp]; decide)]
  have h1 : (if p < 0 then false else true) = decide (0 ≤ p) := by
    by_cases h : p < 0
    · simp [h]
    · simp [h]; omega
  have h2 : (if p < 0 then -p else p) = (p.natAbs : Int) := by split <;> omega
  have h3 : (powerTrack (powerStop c p) p).1.turn = c.turn := by rw [powerTrack_turn, powerStop_turn]
  simp only
  split <;> refine ⟨h1, h2, ?_⟩ <;> simp only [powerSet, h3]

theorem onTurn_drives (c : Car) (t : Int) (ht : t ∈ Turns) (m : Wheel → Motor) :
    (onTurn c t).1 = { c with turn := t } ∧ (onTurn c t).2.foldl obey m = driven (onTurn c t).1 := by
  unfold onTurn
  rw [if_neg (by rw [(turn_range t).2 ht]; decide)]
  exact ⟨rfl, obey_drive _ m⟩

theorem onServo_same (c : Car) (a : Int) (m : Wheel → Motor) : (onServo c a).1 = c ∧ (onServo c a).2.foldl obey m = m := by
  unfold onServo; split <;> exact ⟨rfl, rfl⟩

theorem onPower_refused (c : Car) (p : Int) (hp : p ∉ Powers) : onPower c p = (c, []) := by
  unfold onPower; rw [if_pos]; rw [← Bool.not_eq_true]; exact fun h => hp ((power_range p).1 h)

theorem onTurn_refused (c : Car) (t : Int) (ht : t ∉ Turns) : onTurn c t = (c, []) := by
  unfold onTurn; rw [if_pos]; rw [← Bool.not_eq_true]; exact fun h => ht ((turn_range t).1 h)

theorem fine_step {c : Car} (h : Fine c) (e : Event) : Fine (step c e).1 := by
  obtain ⟨h1, h2⟩ := h
  cases e with
  | power p =>
    by_cases hp : p ∈ Powers
    · obtain ⟨-, e2, e3⟩ := onPower_car c p hp
      simp only [step]
      refine ⟨?_, ?_⟩
      · rw [e2]
        simp only [Powers, List.mem_cons, List.not_mem_nil, or_false] at hp ⊢
        omega
      · rw [e3]; split
        · decide
        · exact h2
    · simp only [step, onPower_refused c p hp]; exact ⟨h1, h2⟩
  | turn t =>
    simp only [step, onTurn]
    by_cases hr : inRange t (-90) 90 30 = false
    · rw [if_pos hr]; exact ⟨h1, h2⟩
    · rw [if_neg hr]; exact ⟨h1, (turn_range t).1 (by simpa using hr)⟩
  | servo a =>
    simp only [step, onServo]; split <;> exact ⟨h1, h2⟩
  | sense d =>
    simp only [step, onSense]
    split
    · refine ⟨?_, h2⟩
      simp only [limited]
      simp only [List.mem_cons, List.not_mem_nil, or_false] at h1 ⊢
      (repeat' split) <;> omega
    · exact ⟨h1, h2⟩

theorem agrees_step {w : World} {told : Bool} (h : Agrees w told) (e : Event) : Agrees (w.step e) (told || e.drives) := by
  have hf := fine_step h.fine e
  cases e with
  | power p =>
    by_cases hp : p ∈ Powers
    · have e := onPower_drives w.car p hp w.motors
      refine ⟨hf, fun v => ?_, fun _ v => ?_⟩
      · simp only [World.step, step, e]
      · simp only [World.step, step, e]; rfl
    · have e := onPower_refused w.car p hp
      refine ⟨hf, fun v => ?_, fun ht v => ?_⟩ <;> simp only [World.step, step, e]
      · exact h.duty v
      · exact h.dir (by simpa [Event.drives, hp] using ht) v
  | turn t =>
    by_cases hp : t ∈ Turns
    · have e := (onTurn_drives w.car t hp w.motors).2
      refine ⟨hf, fun v => ?_, fun _ v => ?_⟩
      · simp only [World.step, step, e]
      · simp only [World.step, step, e]; rfl
    · have e := onTurn_refused w.car t hp
      refine ⟨hf, fun v => ?_, fun ht v => ?_⟩ <;> simp only [World.step, step, e]
      · exact h.duty v
      · exact h.dir (by simpa [Event.drives, hp] using ht) v
  | servo a =>
    obtain ⟨e1, e2⟩ := onServo_same w.car a w.motors
    refine ⟨hf, fun v => ?_, fun ht v => ?_⟩ <;> simp only [World.step, step, e1, e2]
    · exact h.duty v
    · exact h.dir (by simpa [Event.drives] using ht) v
  | sense d =>
    simp only [World.step, step, onSense] at hf ⊢
    by_cases hl : limited w.car d < w.car.power
    · simp only [if_pos hl] at hf ⊢
      refine ⟨hf, fun v => ?_, fun _ v => ?_⟩
      · simp only [obey_drive]
      · simp only [obey_drive]; rfl
    · simp only [if_neg hl] at hf ⊢
      exact ⟨hf, h.duty, fun ht => h.dir (by simpa [Event.drives] using ht)⟩

theorem agrees_run {w : World} {told : Bool} (h : Agrees w told) (es : List Event) : Agrees (w.run es) (told || es.any Event.drives) := by
  induction es generalizing w told with
  | nil => simpa [World.run] using h
  | cons e es ih =>
    have := ih (agrees_step h e)
    simpa [World.run, Bool.or_assoc] using this

theorem agrees_start (dirs : Wheel → Bool) : Agrees (start dirs) false := by
  refine ⟨⟨by simp [start], by simp [start, Turns]⟩, fun v => ?_, fun h => by cases h⟩
  cases v <;> rfl

/-! ## C78: steering -/

/-- C78.  After every history of requests and rounds of the loop the duty cycles of all wheels are between 0
and 100, equal on each side; the left side is ahead of the right side by what the turn asks for, exactly; the
middle between the sides is the power, as far as the difference leaves room for it; and once some request was
accepted all wheels have the direction of the car. -/
theorem C78_wheels (dirs : Wheel → Bool) (es : List Event) :
    let w := (start dirs).run es
    ∃ left right : Nat, left ≤ 100 ∧ right ≤ 100 ∧
      (∀ v, (w.motors v).duty = if v.left = true then left else right) ∧
      (left : Int) - right = steer w.car.turn ∧ (left : Int) + right = 2 * middle w.car.power w.car.turn ∧
      (es.any Event.drives = true → ∀ v, (w.motors v).forward = w.car.forward) := by
  intro w
  have h : Agrees w _ := agrees_run (agrees_start dirs) es
  obtain ⟨a1, a2, a3, a4, a5, a6⟩ := sides h.fine
  refine ⟨(sidePowers w.car).1.toNat, (sidePowers w.car).2.toNat, by omega, by omega, fun v => ?_, by omega, by omega, ?_⟩
  · rw [h.duty v, driven]
    simp only [toDuty_of a1 a2, toDuty_of a3 a4]
  · simpa using h.dir

/-- What the car was told: the last accepted power, the last accepted turn since power 0, and whether the loop
saw something nearer than 30 cm since the last accepted power. -/
structure Told where
  power : Int := 0
  turn : Int := 0
  near : Bool := false

/-- One event. -/
def Told.hear (t : Told) : Event → Told
  | .power p => if p ∈ Powers then ⟨p, if p = 0 then 0 else t.turn, false⟩ else t
  | .turn a => if a ∈ Turns then { t with turn := a } else t
  | .servo _ => t
  | .sense d => { t with near := t.near || decide (d < 30) }

theorem limited_le (c : Car) (d : Nat) : limited c d ≤ c.power := by
  unfold limited; (repeat' split) <;> omega

theorem limited_far {c : Car} {d : Nat} (h : 30 ≤ d ∨ c.forward = false) : limited c d = c.power := by
  unfold limited
  rcases h with h | h
  · (repeat' split) <;> omega
  · simp [h]

/-- C78.  The members follow the requests: the direction is that of the last accepted power, the turn that of
the last accepted turn request since power 0, the power at most the one asked for, and exactly that going
backwards or when nothing was near. -/
theorem C78_obeys (dirs : Wheel → Bool) (es : List Event) :
    let c := ((start dirs).run es).car
    let t := es.foldl Told.hear {}
    c.forward = decide (0 ≤ t.power) ∧ c.turn = t.turn ∧ 0 ≤ c.power ∧ c.power ≤ t.power.natAbs ∧
    (t.power < 0 ∨ t.near = false → c.power = t.power.natAbs) := by
  intro c t
  have key : ∀ (es : List Event) (w : World) (t : Told),
      (w.car.forward = decide (0 ≤ t.power) ∧ w.car.turn = t.turn ∧ 0 ≤ w.car.power ∧ w.car.power ≤ t.power.natAbs ∧
        (t.power < 0 ∨ t.near = false → w.car.power = t.power.natAbs)) →
      let c := (w.run es).car
      let t := es.foldl Told.hear t
      c.forward = decide (0 ≤ t.power) ∧ c.turn = t.turn ∧ 0 ≤ c.power ∧ c.power ≤ t.power.natAbs ∧
      (t.power < 0 ∨ t.near = false → c.power = t.power.natAbs) := by
    intro es
    induction es with
    | nil => intro w t h; exact h
    | cons e es ih =>
      intro w t h
      refine ih (w.step e) (t.hear e) ?_
      obtain ⟨h1, h2, h3, h4, h5⟩ := h
      cases e with
      | power p =>
        by_cases hp : p ∈ Powers
        · obtain ⟨e1, e2, e3⟩ := onPower_car w.car p hp
          simp only [World.step, step, Told.hear, if_pos hp, e1, e2, e3, h2]
          exact ⟨trivial, trivial, by omega, by omega, fun _ => trivial⟩
        · simp only [World.step, step, Told.hear, if_neg hp, onPower_refused _ _ hp]
          exact ⟨h1, h2, h3, h4, h5⟩
      | turn a =>
        by_cases hp : a ∈ Turns
        · simp only [World.step, step, Told.hear, if_pos hp, (onTurn_drives w.car a hp w.motors).1]
          exact ⟨h1, trivial, h3, h4, h5⟩
        · simp only [World.step, step, Told.hear, if_neg hp, onTurn_refused _ _ hp]
          exact ⟨h1, h2, h3, h4, h5⟩
      | servo a =>
        simp only [World.step, step, Told.hear, (onServo_same w.car a w.motors).1]
        exact ⟨h1, h2, h3, h4, h5⟩
      | sense d =>
        simp only [World.step, step, Told.hear, onSense]
        have hl := limited_le w.car d
        have h0 : 0 ≤ limited w.car d := by unfold limited; (repeat' split) <;> omega
        have hfar : t.power < 0 ∨ (t.near || decide (d < 30)) = false → limited w.car d = w.car.power ∧ (t.power < 0 ∨ t.near = false) := by
          rintro (hb | hb)
          · exact ⟨limited_far (.inr (by rw [h1]; simpa using hb)), .inl hb⟩
          · simp only [Bool.or_eq_false_iff, decide_eq_false_iff_not, not_lt] at hb
            exact ⟨limited_far (.inl hb.2), .inr hb.1⟩
        split
        · refine ⟨h1, h2, h0, by simp only; omega, fun hn => ?_⟩
          have := hfar hn; omega
        · exact ⟨h1, h2, h3, h4, fun hn => h5 (hfar hn).2⟩
  exact key es (start dirs) {} ⟨rfl, rfl, Int.le_refl 0, Int.le_refl 0, fun _ => rfl⟩

/-- Instance: backwards at half power in a curve to the right, then an obstacle and a refused request. -/
example : let w := (start fun _ => true).run [.power (-50), .turn 30, .sense 3, .power 60]
    w.car = ⟨false, 50, 30, true⟩ ∧ w.motors .frontLeft = ⟨false, 61⟩ ∧ w.motors .rearRight = ⟨false, 39⟩ := by
  decide

/-- The words written to the pulse registers for the motors (72 MHz, 50 Hz: `car.h` 64, 84): twenty times the
duty cycle of at most 100, of a pulse of 2000. -/
theorem motor_words : ∃ s, Pwm.construct 72000000 50 0 0 = some s ∧ s.autoreload = 2000 ∧
    ∀ d, d ≤ 100 → Pwm.regPwm s d = 20 * d := by
  have ha : Pwm.autoreloadFromPeriod 1440000 = 2000 := by
    simp [Pwm.autoreloadFromPeriod, Pwm.autoreloadBitCount]
  refine ⟨_, by simp only [Pwm.construct, Nat.reduceDiv, ha]; rfl, rfl, ?_⟩
  intro d hd
  interval_cases d <;> rfl

/-! ## C79: standing still -/

/-- All wheels stand still. -/
def Still (w : World) : Prop := ∀ v, (w.motors v).duty = 0

/-- C79 in full: whenever the power is 0, the car stands still. -/
def C79Full : Prop := ∀ (dirs : Wheel → Bool) (es : List Event), ((start dirs).run es).car.power = 0 → Still ((start dirs).run es)

theorem steer_zero {t : Int} (h : t ∈ Turns) : steer t = 0 ↔ t = 0 := by
  simp only [Turns, List.mem_cons, List.not_mem_nil, or_false] at h
  rcases h with h | h | h | h | h | h | h <;> subst h <;> decide

/-- The car stands still exactly if power and turn are both 0. -/
theorem C79_still_iff (dirs : Wheel → Bool) (es : List Event) :
    Still ((start dirs).run es) ↔ ((start dirs).run es).car.power = 0 ∧ ((start dirs).run es).car.turn = 0 := by
  have hf := (agrees_run (agrees_start dirs) es).fine
  obtain ⟨l, r, h1, h2, h3, h4, h5, -⟩ := C78_wheels dirs es
  generalize (start dirs).run es = w at *
  have hp := hf.power
  simp only [List.mem_cons, List.not_mem_nil, or_false] at hp
  constructor
  · intro hs
    have e1 := (h3 .frontLeft).symm.trans (hs _)
    have e2 := (h3 .frontRight).symm.trans (hs _)
    simp only [Wheel.left, if_true, Bool.false_eq_true, if_false] at e1 e2
    subst e1; subst e2
    have ht := (steer_zero hf.turn).1 (by omega)
    have : middle w.car.power w.car.turn = w.car.power := by rw [ht]; simp only [middle, steer]; simp; omega
    exact ⟨by omega, ht⟩
  · rintro ⟨e1, e2⟩ v
    rw [e1, e2] at h5; rw [e2] at h4
    have a1 : steer 0 = 0 := by decide
    have a2 : middle 0 0 = 0 := by decide
    rw [a1] at h4; rw [a2] at h5
    rw [h3 v]; split <;> omega

/-- C79 is violated: a turn request alone sets the car in motion, and its power is still 0. -/
theorem C79_violated : ¬ C79Full := fun h => by
  have := h (fun _ => true) [.turn 60] (by decide) .frontLeft
  revert this; decide

/-- C79, the part that holds: with power 0 the car stands still if the last accepted turn request since power
0 was for 0.  Missing: other turns (`C79_violated`; by `C79_still_iff` they always move the car). -/
theorem C79_straight_partial (dirs : Wheel → Bool) (es : List Event) (hp : ((start dirs).run es).car.power = 0)
    (ht : (es.foldl Told.hear {}).turn = 0) : Still ((start dirs).run es) :=
  (C79_still_iff dirs es).2 ⟨hp, (C78_obeys dirs es).2.1.trans ht⟩

/-- Requests that may set a standing car in motion. -/
def Event.moves : Event → Bool
  | .power p => decide (p ≠ 0)
  | .turn t => decide (t ≠ 0)
  | _ => false

/-- C79.  The request for power 0 stops the car whatever came before, also in a turn, and it stands still until
some power or turn other than 0 is asked for. -/
theorem C79_stop (dirs : Wheel → Bool) (es fs : List Event) (hf : ∀ e ∈ fs, e.moves = false) :
    Still ((start dirs).run (es ++ .power 0 :: fs)) := by
  have hold : ∀ (fs : List Event) (w : World), (∀ e ∈ fs, e.moves = false) → w.car.power = 0 → w.car.turn = 0 →
      (w.run fs).car.power = 0 ∧ (w.run fs).car.turn = 0 := by
    intro fs
    induction fs with
    | nil => intro w _ h1 h2; exact ⟨h1, h2⟩
    | cons e fs ih =>
      intro w hf h1 h2
      have he := hf e (by simp)
      have : (w.step e).car.power = 0 ∧ (w.step e).car.turn = 0 := by
        cases e with
        | power p =>
          have : p = 0 := by simpa [Event.moves] using he
          subst this
          obtain ⟨-, e2, e3⟩ := onPower_car w.car 0 (by decide)
          simp only [World.step, step, e2, e3]; simp
        | turn t =>
          have : t = 0 := by simpa [Event.moves] using he
          subst this
          simp only [World.step, step, (onTurn_drives w.car 0 (by decide) w.motors).1, h1]; simp
        | servo a => simp only [World.step, step, (onServo_same w.car a w.motors).1]; exact ⟨h1, h2⟩
        | sense d =>
          simp only [World.step, step, onSense]
          rw [if_neg]
          · exact ⟨h1, h2⟩
          · have h0 : 0 ≤ limited w.car d := by unfold limited; (repeat' split) <;> omega
            omega
      exact ih (w.step e) (fun x hx => hf x (by simp [hx])) this.1 this.2
  rw [C79_still_iff]
  have e1 : (start dirs).run (es ++ .power 0 :: fs) = (((start dirs).run es).step (.power 0)).run fs := by
    simp [World.run]
  rw [e1]
  obtain ⟨-, e2, e3⟩ := onPower_car ((start dirs).run es).car 0 (by decide)
  exact hold fs _ hf (by simp only [World.step, step, e2]; rfl) (by simp only [World.step, step, e3]; rfl)

/-- Instance: a car that turns on the spot is stopped. -/
example : ¬ Still ((start fun _ => true).run [.power 75, .turn (-90)]) ∧
    Still ((start fun _ => true).run ([.power 75, .turn (-90)] ++ .power 0 :: [.sense 2, .turn 0, .servo 30])) :=
  ⟨fun h => absurd (h .frontRight) (by decide), C79_stop _ _ _ (by decide)⟩

/-! ## C80: obstacles -/

/-- The power allowed with an obstacle at a distance. -/
def allowed (distance : Nat) : Int :=
  if distance < 5 then 0 else if distance < 10 then 25 else if distance < 20 then 50 else if distance < 30 then 75 else 100

/-- C80 in full: after a round of the loop that saw an obstacle nearer than 5 cm, a car that was going forward
stands still. -/
def C80Full : Prop := ∀ (dirs : Wheel → Bool) (es : List Event) (d : Nat), d < 5 → ((start dirs).run es).car.forward = true →
  Still ((start dirs).run (es ++ [.sense d]))

/-- C80 is violated: at full power one round takes only a quarter off. -/
theorem C80_violated_late : ¬ C80Full := fun h => by
  have := h (fun _ => true) [.power 100] 0 (by decide) (by decide) .frontLeft
  revert this; decide

/-- One round: a quarter less if the power is above the allowed one, nothing otherwise; backwards nothing. -/
theorem sense_step {c : Car} (h : Fine c) (d : Nat) :
    (onSense c d).1 = { c with power := if c.forward = true ∧ allowed d < c.power then c.power - 25 else c.power } := by
  obtain ⟨f, p, t, k⟩ := c
  have hp := h.power
  simp only [List.mem_cons, List.not_mem_nil, or_false] at hp
  have key : limited ⟨f, p, t, k⟩ d = if f = true ∧ allowed d < p then p - 25 else p := by
    simp only [limited, allowed]
    cases f
    · simp
    · simp only [true_and, if_true]
      by_cases h1 : d < 5
      · (repeat' split) <;> omega
      · by_cases h2 : d < 10
        · (repeat' split) <;> omega
        · by_cases h3 : d < 20
          · (repeat' split) <;> omega
          · (repeat' split) <;> omega
  unfold onSense
  by_cases hc : f = true ∧ allowed d < p
  · rw [if_pos hc] at key
    rw [key, if_pos (by simp only; omega), if_pos hc]
  · rw [if_neg hc] at key
    rw [key, if_neg (by simp), if_neg hc]

/-- C80, the part that holds: while the loop runs undisturbed in front of an obstacle, the power of a car going
forward is after `n` rounds that saw it nearer than `D` at most what is allowed at that distance, or a quarter
per round less than full.  Missing: the first rounds (`C80_violated_late`) and what the wheels do while the
car turns (`C80_violated_turning`). -/
theorem C80_slows_partial (dirs : Wheel → Bool) (es : List Event) (ds : List Nat) (D : Nat) (hD : ∀ d ∈ ds, d ≤ D)
    (hfw : ((start dirs).run es).car.forward = true) :
    ((start dirs).run (es ++ ds.map .sense)).car.power ≤ max (allowed D) (100 - 25 * ds.length) := by
  have mono : ∀ a b : Nat, a ≤ b → allowed a ≤ allowed b := by
    intro a b hab; unfold allowed; (repeat' split) <;> omega
  have key : ∀ (ds : List Nat) (w : World) (k : Int), Fine w.car → w.car.forward = true → (∀ d ∈ ds, d ≤ D) →
      w.car.power ≤ max (allowed D) k → (w.run (ds.map .sense)).car.power ≤ max (allowed D) (k - 25 * ds.length) := by
    intro ds
    induction ds with
    | nil => intro w k _ _ _ h; simpa [World.run] using h
    | cons d ds ih =>
      intro w k hf hw hD h
      have e := sense_step hf d
      have hm := mono d D (hD d (by simp))
      have hfs := fine_step hf (.sense d)
      have := ih (w.step (.sense d)) (k - 25) hfs (by simp only [World.step, step, e, hw]) (fun x hx => hD x (by simp [hx]))
        (by
          simp only [World.step, step, e, hw, true_and]
          split <;> omega)
      simp only [List.map_cons, World.run, List.foldl_cons, List.length_cons] at this ⊢
      push_cast
      omega
  have hf := (agrees_run (agrees_start dirs) es).fine
  have hp := hf.power
  simp only [List.mem_cons, List.not_mem_nil, or_false] at hp
  have e1 : (start dirs).run (es ++ ds.map .sense) = ((start dirs).run es).run (ds.map .sense) := by simp [World.run]
  rw [e1]
  exact key ds _ 100 hf hfw hD (by omega)

/-- C80, the part that holds for the wheels: a car going straight forward stands still after four rounds that
saw the obstacle nearer than 5 cm. -/
theorem C80_stops_partial (dirs : Wheel → Bool) (es : List Event) (ds : List Nat) (hD : ∀ d ∈ ds, d < 5) (hn : 4 ≤ ds.length)
    (hfw : ((start dirs).run es).car.forward = true) (ht : (es.foldl Told.hear {}).turn = 0) :
    Still ((start dirs).run (es ++ ds.map .sense)) := by
  have h := C80_slows_partial dirs es ds 4 (fun d hd => by have := hD d hd; omega) hfw
  have hf := (agrees_run (agrees_start dirs) (es ++ ds.map .sense)).fine.power
  simp only [List.mem_cons, List.not_mem_nil, or_false] at hf
  have ha : allowed 4 = 0 := by decide
  refine C79_straight_partial dirs _ (by omega) ?_
  rw [List.foldl_append]
  generalize es.foldl Told.hear {} = t at ht
  clear h hf hn hfw ha
  induction ds generalizing t with
  | nil => exact ht
  | cons d ds ih => exact ih (fun x hx => hD x (by simp [hx])) _ ht

/-- Instance: full power straight ahead. -/
example : Still ((start fun _ => true).run ([.power 100] ++ [4, 3, 2, 1].map .sense)) :=
  C80_stops_partial _ _ _ (by decide) (by decide) (by decide) (by decide)

/-- C80.  The loop never makes the car faster. -/
theorem C80_never_faster (dirs : Wheel → Bool) (es : List Event) (d : Nat) :
    ((start dirs).run (es ++ [.sense d])).car.power ≤ ((start dirs).run es).car.power := by
  have e1 : (start dirs).run (es ++ [.sense d]) = ((start dirs).run es).step (.sense d) := by simp [World.run]
  rw [e1]
  have := limited_le ((start dirs).run es).car d
  simp only [World.step, step, onSense]
  split
  · omega
  · exact Int.le_refl _

/-- C80 is violated for a car that turns: however many rounds see the obstacle, it does not stand still. -/
theorem C80_violated_turning (dirs : Wheel → Bool) (es : List Event) (ds : List Nat) (ht : (es.foldl Told.hear {}).turn ≠ 0) :
    ¬ Still ((start dirs).run (es ++ ds.map .sense)) := by
  rw [C79_still_iff]
  rintro ⟨-, h⟩
  rw [(C78_obeys dirs (es ++ ds.map Event.sense)).2.1, List.foldl_append] at h
  generalize es.foldl Told.hear {} = t at ht h
  induction ds generalizing t with
  | nil => exact ht h
  | cons d ds ih => exact ih (t.hear (.sense d)) ht h

/-- With the sharpest turn the loop has no effect on the wheels at all: one side runs at full power. -/
theorem C80_violated_sharp (dirs : Wheel → Bool) (es : List Event) (ds : List Nat) (ht : (es.foldl Told.hear {}).turn = 90) (v : Wheel) :
    (((start dirs).run (es ++ ds.map .sense)).motors v).duty = if v.left = true then 100 else 0 := by
  have e : ((start dirs).run (es ++ ds.map .sense)).car.turn = 90 := by
    rw [(C78_obeys dirs (es ++ ds.map Event.sense)).2.1, List.foldl_append]
    generalize es.foldl Told.hear {} = t at ht
    induction ds generalizing t with
    | nil => exact ht
    | cons d ds ih => exact ih (t.hear (.sense d)) ht
  obtain ⟨l, r, h1, h2, h3, h4, -⟩ := C78_wheels dirs (es ++ ds.map .sense)
  rw [e, show steer 90 = 100 from by decide] at h4
  rw [h3 v]; split <;> omega

/-- Instance: full power and a sharp turn into the wall. -/
example : ([Event.power 100, .turn 90].foldl Told.hear {}).turn = 90 ∧ ((start fun _ => true).run [.power 100, .turn 90]).car.forward = true := by
  decide

/-! ## C81: stopping while the loop works -/

/-- C81 in full: when the request for power 0 has been carried out, the car stands still until some power or
turn other than 0 is asked for, wherever the loop is. -/
def C81Full : Prop := ∀ (dirs : Wheel → Bool) (es fs : List RaceEvent),
  (∀ e, .request e ∈ fs → e.moves = false) → Still ((Racing.run ⟨start dirs, none⟩ (es ++ .request (.power 0) :: fs)).world)

/-- C81 is violated: if the loop has just decided to go from 100 to 75, it sets the stopped car in motion
again. -/
theorem C81_violated : ¬ C81Full := fun h => by
  have := h (fun _ => true) [.request (.power 100), .decide 25] [.apply] (by simp) .frontLeft
  revert this; decide

/-- And the car keeps going as long as the way is free, with the tracker off. -/
theorem C81_violated_lasting (dirs : Wheel → Bool) (ds : List Nat) (hd : ∀ d ∈ ds, 30 ≤ d) :
    let r := Racing.run ⟨start dirs, none⟩ ([.request (.power 100), .decide 25, .request (.power 0), .apply] ++ ds.map .decide)
    r.world.car = ⟨true, 75, 0, false⟩ ∧ ∀ v, r.world.motors v = ⟨true, 75⟩ := by
  intro r
  have e0 : Racing.run ⟨start dirs, none⟩ [.request (.power 100), .decide 25, .request (.power 0), .apply] =
      ⟨⟨⟨true, 75, 0, false⟩, driven ⟨true, 75, 0, false⟩⟩, none⟩ := by
    simp only [Racing.run, List.foldl_cons, List.foldl_nil, Racing.step, World.step]
    have e : (step (start dirs).car (.power 100)).1 = ⟨true, 100, 0, true⟩ := rfl
    have e1 : (step ⟨true, 100, 0, true⟩ (.power 0)).1 = ⟨true, 0, 0, false⟩ := rfl
    have e2 : limited ⟨true, 100, 0, true⟩ 25 = 75 := rfl
    simp [e, e1, e2, obey_drive]
  have e1 : r = Racing.run ⟨⟨⟨true, 75, 0, false⟩, driven ⟨true, 75, 0, false⟩⟩, none⟩ (ds.map .decide) := by
    rw [← e0]; simp [r, Racing.run]
  have e2 : ∀ ds : List Nat, (∀ d ∈ ds, 30 ≤ d) → Racing.run ⟨⟨⟨true, 75, 0, false⟩, driven ⟨true, 75, 0, false⟩⟩, none⟩ (ds.map .decide) =
      ⟨⟨⟨true, 75, 0, false⟩, driven ⟨true, 75, 0, false⟩⟩, none⟩ := by
    intro ds
    induction ds with
    | nil => intro _; rfl
    | cons d ds ih =>
      intro hd
      have : limited ⟨true, 75, 0, false⟩ d = 75 := limited_far (.inl (hd d (by simp)))
      simp only [List.map_cons, Racing.run, List.foldl_cons, Racing.step, this] at ih ⊢
      exact ih fun x hx => hd x (by simp [hx])
  rw [e1, e2 ds hd]
  exact ⟨rfl, fun v => by cases v <;> rfl⟩

/-- What holds of the members and the motors wherever the loop is. -/
structure RaceOk (r : Racing) : Prop where
  agrees : Agrees r.world false
  pending : ∀ p ∈ r.pending, p ∈ [(0 : Int), 25, 50, 75]

theorem raceOk_step {r : Racing} (h : RaceOk r) (e : RaceEvent) : RaceOk (r.step e) := by
  obtain ⟨h1, h2⟩ := h
  cases e with
  | request e => exact ⟨⟨(agrees_step h1 e).fine, (agrees_step h1 e).duty, fun h => by cases h⟩, h2⟩
  | decide d =>
    simp only [Racing.step]
    split
    · exact ⟨h1, h2⟩
    · split
      · rename_i hl
        refine ⟨h1, fun p hp => ?_⟩
        simp only [Option.mem_def, Option.some.injEq] at hp
        subst hp
        revert hl
        simp only [limited]
        (repeat' split) <;> simp
      · exact ⟨h1, h2⟩
  | apply =>
    simp only [Racing.step]
    split
    · exact ⟨h1, h2⟩
    · rename_i p hp
      have := h2 p (by simp [hp])
      refine ⟨⟨⟨?_, h1.fine.turn⟩, fun v => by simp only [obey_drive], fun h => by cases h⟩, by simp⟩
      simp only [List.mem_cons, List.not_mem_nil, or_false] at this ⊢
      omega

theorem raceOk_run {r : Racing} (h : RaceOk r) (es : List RaceEvent) : RaceOk (r.run es) := by
  induction es generalizing r with
  | nil => exact h
  | cons e es ih => exact ih (raceOk_step h e)

theorem raceOk_start (dirs : Wheel → Bool) : RaceOk ⟨start dirs, none⟩ := ⟨agrees_start dirs, by simp⟩

/-- C81, the part that holds: a stop is final if the loop is not between its test and its assignment when the
request is carried out.  Missing: the other moments (`C81_violated`). -/
theorem C81_stop_partial (dirs : Wheel → Bool) (es fs : List RaceEvent)
    (hidle : (Racing.run ⟨start dirs, none⟩ es).pending = none) (hf : ∀ e, .request e ∈ fs → e.moves = false) :
    Still ((Racing.run ⟨start dirs, none⟩ (es ++ .request (.power 0) :: fs)).world) := by
  have hok := raceOk_run (raceOk_start dirs) es
  generalize hr : Racing.run ⟨start dirs, none⟩ es = r at *
  have e1 : Racing.run ⟨start dirs, none⟩ (es ++ .request (.power 0) :: fs) = (r.step (.request (.power 0))).run fs := by
    rw [← hr]; simp [Racing.run]
  have still : ∀ x : Racing, RaceOk x → x.world.car.power = 0 → x.world.car.turn = 0 → Still x.world := by
    intro x hx hp ht v
    rw [hx.agrees.duty v, driven]
    have : sidePowers x.world.car = (0, 0) := by simp [sidePowers, hp, ht, deltaPower]
    rw [this]; simp [toDuty]
  have hold : ∀ (fs : List RaceEvent) (x : Racing), RaceOk x → (∀ e, .request e ∈ fs → e.moves = false) →
      x.pending = none → x.world.car.power = 0 → x.world.car.turn = 0 → Still (x.run fs).world := by
    intro fs
    induction fs with
    | nil => intro x hx _ _ h1 h2; exact still x hx h1 h2
    | cons e fs ih =>
      intro x hx hf hn h1 h2
      have h0 : ∀ d, limited x.world.car d = 0 := by
        intro d; unfold limited; (repeat' split) <;> omega
      have : (x.step e).pending = none ∧ (x.step e).world.car.power = 0 ∧ (x.step e).world.car.turn = 0 := by
        cases e with
        | request e =>
          refine ⟨hn, ?_⟩
          have he := hf e (by simp)
          cases e with
          | power p =>
            have : p = 0 := by simpa [Event.moves] using he
            subst this
            obtain ⟨-, e2, e3⟩ := onPower_car x.world.car 0 (by decide)
            simp only [Racing.step, World.step, step, e2, e3]; simp
          | turn t =>
            have : t = 0 := by simpa [Event.moves] using he
            subst this
            simp only [Racing.step, World.step, step, (onTurn_drives x.world.car 0 (by decide) x.world.motors).1, h1]; simp
          | servo a => simp only [Racing.step, World.step, step, (onServo_same x.world.car a x.world.motors).1]; exact ⟨h1, h2⟩
          | sense d =>
            simp only [Racing.step, World.step, step, onSense, h0 d]
            rw [if_neg (by omega)]
            exact ⟨h1, h2⟩
        | decide d =>
          simp only [Racing.step, hn, h0 d]
          rw [if_neg (by omega)]
          exact ⟨hn, h1, h2⟩
        | apply => simp only [Racing.step, hn]; exact ⟨trivial, h1, h2⟩
      exact ih _ (raceOk_step hx e) (fun y hy => hf y (by simp [hy])) this.1 this.2.1 this.2.2
  rw [e1]
  obtain ⟨-, e2, e3⟩ := onPower_car r.world.car 0 (by decide)
  exact hold fs _ (raceOk_step hok _) hf hidle (by simp only [Racing.step, World.step, step, e2]; rfl)
    (by simp only [Racing.step, World.step, step, e3]; rfl)

/-- Instance: stopped after a complete round. -/
example : Still (Racing.run ⟨start fun _ => true, none⟩
    ([.request (.power 100), .decide 25, .apply] ++ .request (.power 0) :: [.decide 3, .apply, .request (.servo 30)])).world :=
  C81_stop_partial _ _ _ (by decide) (by simp [Event.moves])

/-- Wherever the loop is, the duty cycles stay between 0 and 100. -/
theorem C81_range (dirs : Wheel → Bool) (es : List RaceEvent) (v : Wheel) :
    ((Racing.run ⟨start dirs, none⟩ es).world.motors v).duty ≤ 100 := by
  have h := raceOk_run (raceOk_start dirs) es
  obtain ⟨a1, a2, a3, a4, -, -⟩ := sides h.agrees.fine
  rw [h.agrees.duty v, driven]
  simp only [toDuty_of a1 a2, toDuty_of a3 a4]
  split <;> omega

/-! ## C82: changing direction -/

/-- No motor of the list of calls is switched to the other direction while it runs. -/
def Gentle (m : Wheel → Motor) : List Cmd → Prop
  | [] => True
  | .direction w b :: l => ((m w).duty = 0 ∨ (m w).forward = b) ∧ Gentle (obey m (.direction w b)) l
  | c :: l => Gentle (obey m c) l

/-- C82 in full: no request and no round of the loop switches the direction of a motor that runs, once the
directions are those of the car. -/
def C82Full : Prop := ∀ (dirs : Wheel → Bool) (es : List Event) (e : Event), es.any Event.drives = true →
  Gentle ((start dirs).run es).motors (step ((start dirs).run es).car e).2

/-- C82 is violated: from backwards to forward without a stop. -/
theorem C82_violated : ¬ C82Full := fun h => by
  have := (h (fun _ => true) [.power (-50)] (.power 50) (by decide))
  have e : (step ((start fun _ => true).run [.power (-50)]).car (.power 50)).2 =
      .direction .frontLeft true :: (drive ⟨true, 50, 0, true⟩).tail := rfl
  rw [e] at this
  have := this.1
  revert this; decide

theorem gentle_append (m : Wheel → Motor) (l k : List Cmd) : Gentle m (l ++ k) ↔ Gentle m l ∧ Gentle (l.foldl obey m) k := by
  induction l generalizing m with
  | nil => simp [Gentle]
  | cons c l ih =>
    cases c with
    | direction w b =>
      show (_ ∧ Gentle (obey m (.direction w b)) (l ++ k)) ↔ (_ ∧ Gentle (obey m (.direction w b)) l) ∧ _
      rw [ih]; simp only [List.foldl_cons]; constructor
      · rintro ⟨a, b, c⟩; exact ⟨⟨a, b⟩, c⟩
      · rintro ⟨⟨a, b⟩, c⟩; exact ⟨a, b, c⟩
    | duty w d => exact ih (obey m (.duty w d))
    | trackerStart => exact ih m
    | trackerStop => exact ih m
    | servo d => exact ih m
    | reset => exact ih (obey m .reset)

theorem gentle_drive {c : Car} {m : Wheel → Motor} : Gentle m (drive c) ↔ ∀ v, (m v).duty = 0 ∨ (m v).forward = c.forward := by
  simp only [drive, Gentle, obey]
  simp only [reduceCtorEq, if_false]
  constructor
  · rintro ⟨h1, h2, h3, h4, -⟩ v
    cases v
    · exact h1
    · exact h2
    · exact h3
    · exact h4
  · intro h; exact ⟨h _, h _, h _, h _, trivial⟩

/-- The calls of an accepted power request: what `powerStop` does, the drive, and calls on the tracker. -/
theorem gentle_power (c : Car) (m : Wheel → Motor) (p : Int) (hp : p ∈ Powers) :
    Gentle m (onPower c p).2 ↔ Gentle m (powerStop c p).2 ∧
      ∀ v, (((powerStop c p).2.foldl obey m) v).duty = 0 ∨ (((powerStop c p).2.foldl obey m) v).forward = decide (0 ≤ p) := by
  have hset : (powerSet (powerTrack (powerStop c p) p).1 p).forward = decide (0 ≤ p) := by
    simp only [powerSet]; by_cases h : p < 0
    · simp [h]
    · simp [h]; omega
  have h1 : Gentle m (powerTrack (powerStop c p) p).2 ↔ Gentle m (powerStop c p).2 := by
    unfold powerTrack; split
    · rw [gentle_append]; exact ⟨fun h => h.1, fun h => ⟨h, trivial⟩⟩
    · rfl
  have h2 : (powerTrack (powerStop c p) p).2.foldl obey m = (powerStop c p).2.foldl obey m := by
    unfold powerTrack; split
    · exact foldl_track _ _ _ (.inl rfl)
    · rfl
  have h3 : Gentle m ((powerTrack (powerStop c p) p).2 ++ drive (powerSet (powerTrack (powerStop c p) p).1 p)) ↔
      Gentle m (powerStop c p).2 ∧
      ∀ v, (((powerStop c p).2.foldl obey m) v).duty = 0 ∨ (((powerStop c p).2.foldl obey m) v).forward = decide (0 ≤ p) := by
    rw [gentle_append, h1, h2, gentle_drive, hset]
  unfold onPower
  rw [if_neg (by rw [(power_range p).2 hp]; decide)]
  simp only
  split
  · rw [gentle_append, h3]; exact ⟨fun h => h.1, fun h => ⟨h, trivial⟩⟩
  · exact h3

/-- C82.  Exactly when an accepted power request switches no running motor: the direction stays, or the car
stands still, or it goes from forward with some power to backwards. -/
theorem C82_exact (dirs : Wheel → Bool) (es : List Event) (p : Int) (hd : es.any Event.drives = true) (hp : p ∈ Powers) :
    Gentle ((start dirs).run es).motors (step ((start dirs).run es).car (.power p)).2 ↔
      (((start dirs).run es).car.forward = decide (0 ≤ p) ∨ Still ((start dirs).run es) ∨
        (p < 0 ∧ 0 < ((start dirs).run es).car.power)) := by
  have h := agrees_run (agrees_start dirs) es
  have hpow := h.fine.power
  generalize (start dirs).run es = w at *
  have hdir := h.dir (by simpa using hd)
  simp only [List.mem_cons, List.not_mem_nil, or_false] at hpow
  simp only [step]
  rw [gentle_power _ _ _ hp]
  by_cases hneg : p * w.car.power < 0
  · have h1 : p < 0 ∧ 0 < w.car.power := by
      rcases hpow with e | e | e | e | e <;> rw [e] at hneg ⊢ <;> omega
    simp only [powerStop, if_pos hneg]
    refine ⟨fun _ => .inr (.inr h1), fun _ => ⟨?_, fun v => .inl ?_⟩⟩
    · rw [gentle_append]
      exact ⟨gentle_drive.2 fun v => .inr (hdir v), trivial⟩
    · simp only [foldl_track _ _ _ (.inr (.inl rfl)), obey_drive]
      cases v <;> rfl
  · have h1 : ¬ (p < 0 ∧ 0 < w.car.power) := fun h => hneg (Int.mul_neg_of_neg_of_pos h.1 h.2)
    simp only [powerStop, if_neg hneg, h1, or_false, List.foldl_nil]
    constructor
    · rintro ⟨-, h2⟩
      by_cases hs : w.car.forward = decide (0 ≤ p)
      · exact .inl hs
      · right
        intro v
        rcases h2 v with h | h
        · exact h
        · exact absurd ((hdir v).symm.trans h) hs
    · rintro (h2 | h2)
      · exact ⟨trivial, fun v => .inr ((hdir v).trans h2)⟩
      · exact ⟨trivial, fun v => .inl (h2 v)⟩

/-- C82, the part that holds: nothing but a power request switches the direction of a running motor, and a power
request does not if it keeps the direction, or the car stands still, or goes forward with some power.
Missing: the other power requests, which by `C82_exact` always do (`C82_violated`, `C82_violated_turning`). -/
theorem C82_gentle_partial (dirs : Wheel → Bool) (es : List Event) (e : Event) (hd : es.any Event.drives = true)
    (he : ∀ p, e = .power p → ((start dirs).run es).car.forward = decide (0 ≤ p) ∨ Still ((start dirs).run es) ∨
        (((start dirs).run es).car.forward = true ∧ 0 < ((start dirs).run es).car.power)) :
    Gentle ((start dirs).run es).motors (step ((start dirs).run es).car e).2 := by
  have hdir := (agrees_run (agrees_start dirs) es).dir (by simpa using hd)
  cases e with
  | power p =>
    by_cases hp : p ∈ Powers
    · rw [C82_exact dirs es p hd hp]
      rcases he p rfl with h | h | ⟨h, h'⟩
      · exact .inl h
      · exact .inr (.inl h)
      · by_cases h0 : 0 ≤ p
        · left; rw [h]; simp [h0]
        · exact .inr (.inr ⟨by omega, h'⟩)
    · simp only [step, onPower_refused _ _ hp]; trivial
  | turn t =>
    by_cases ht : t ∈ Turns
    · simp only [step, onTurn]
      rw [if_neg (by rw [(turn_range t).2 ht]; decide)]
      exact gentle_drive.2 fun v => .inr (hdir v)
    · simp only [step, onTurn_refused _ _ ht]; trivial
  | servo a => simp only [step, onServo]; split <;> trivial
  | sense d =>
    simp only [step, onSense]; split
    · exact gentle_drive.2 fun v => .inr (hdir v)
    · trivial

/-- Instance: from forward to backwards. -/
example : Gentle ((start fun _ => false).run [.power 100, .turn 30]).motors (step ((start fun _ => false).run [.power 100, .turn 30]).car (.power (-100))).2 :=
  C82_gentle_partial _ _ _ (by decide) (fun _ _ => .inr (.inr (by decide)))

/-- C82 is violated for a car that turns with power 0 and is sent backwards. -/
theorem C82_violated_turning (dirs : Wheel → Bool) :
    ¬ Gentle ((start dirs).run [.turn 60]).motors (step ((start dirs).run [.turn 60]).car (.power (-50))).2 := by
  rw [C82_exact dirs _ _ (by decide) (by decide), C79_still_iff]
  have e : ((start dirs).run [.turn 60]).car = ⟨true, 0, 60, false⟩ := rfl
  rw [e]; decide

/-- The tracker is reset by a power request exactly if the request is for 0, or for going backwards while the
car has power: slowing down backwards resets it, turning from backwards to forward does not. -/
theorem C82_tracker (dirs : Wheel → Bool) (es : List Event) (p : Int) (hp : p ∈ Powers) :
    .trackerStop ∈ (step ((start dirs).run es).car (.power p)).2 ↔ p = 0 ∨ (p < 0 ∧ 0 < ((start dirs).run es).car.power) := by
  have hpow := (agrees_run (agrees_start dirs) es).fine.power
  generalize ((start dirs).run es).car = c at *
  simp only [List.mem_cons, List.not_mem_nil, or_false] at hpow
  have hneg : p * c.power < 0 ↔ p < 0 ∧ 0 < c.power := by
    constructor
    · intro h; rcases hpow with e | e | e | e | e <;> rw [e] at h ⊢ <;> omega
    · intro h; exact Int.mul_neg_of_neg_of_pos h.1 h.2
  have hdr : ∀ c, Cmd.trackerStop ∉ drive c := by intro c; simp [drive]
  have hst : Cmd.trackerStop ∈ (powerStop c p).2 ↔ p < 0 ∧ 0 < c.power := by
    rw [← hneg]
    unfold powerStop; split
    · rename_i h; exact ⟨fun _ => h, fun _ => by simp⟩
    · rename_i h; exact ⟨fun h => by simp at h, fun h' => absurd h' h⟩
  have htr : Cmd.trackerStop ∈ (powerTrack (powerStop c p) p).2 ↔ p < 0 ∧ 0 < c.power := by
    unfold powerTrack; split
    · simpa using hst
    · exact hst
  simp only [step, onPower]
  rw [if_neg (by rw [(power_range p).2 hp]; decide)]
  by_cases h0 : p = 0
  · subst h0
    rw [if_pos (by simp [powerSet])]; simp
  · rw [if_neg (by simp only [powerSet]; split <;> omega)]
    simp [hdr, htr, h0]

/-- Instance: both. -/
example : .trackerStop ∈ (step ((start fun _ => true).run [.power (-50)]).car (.power (-25))).2 ∧
    .trackerStop ∉ (step ((start fun _ => true).run [.power (-50)]).car (.power 50)).2 := by decide

/-! ## C83: the servo -/

/-- C83.  For every accepted angle the servo gets a duty cycle between 1 and 99 that is within one percent of the
straight line through the middle. -/
theorem C83_servo (c : Car) (a : Int) (ha : a ∈ Turns) :
    ∃ d : Nat, onServo c a = (c, [.servo d]) ∧ 1 ≤ d ∧ d ≤ 99 ∧
      -184 < 184 * ((d : Int) - 50) + 100 * a ∧ 184 * ((d : Int) - 50) + 100 * a < 184 := by
  unfold onServo
  rw [if_neg (by rw [(turn_range a).2 ha]; decide)]
  refine ⟨_, rfl, ?_⟩
  simp only [Turns, List.mem_cons, List.not_mem_nil, or_false] at ha
  rcases ha with h | h | h | h | h | h | h <;> subst h <;> decide

/-- C83.  A larger angle gets a smaller duty cycle. -/
theorem C83_decreasing (c : Car) (a b : Int) (ha : a ∈ Turns) (hb : b ∈ Turns) (hab : a < b) (d e : Nat)
    (hd : onServo c a = (c, [.servo d])) (he : onServo c b = (c, [.servo e])) : e < d := by
  obtain ⟨d', e1, -, -, h1, h2⟩ := C83_servo c a ha
  obtain ⟨e', e2, -, -, h3, h4⟩ := C83_servo c b hb
  rw [hd] at e1; rw [he] at e2
  simp only [Prod.mk.injEq, List.cons.injEq, Cmd.servo.injEq, and_true, true_and] at e1 e2
  subst e1; subst e2
  have : a + 30 ≤ b := by
    simp only [Turns, List.mem_cons, List.not_mem_nil, or_false] at ha hb
    omega
  omega

/-- C83.  The pulses of the servo (72 MHz, 50 Hz, between 500 and 2500 microseconds: `car.h` 64, 84, 98-99): one
step of the pulse register is 10 microseconds, so the pulse for duty cycle `d` lasts `500 + 20 d`. -/
theorem C83_pulse : ∃ s, Pwm.construct 72000000 50 500 2500 = some s ∧ s.prescaler = 72 * 10 ∧
    ∀ d, 1 ≤ d → d ≤ 99 → 10 * Pwm.regPwm s d = 500 + 20 * d := by
  have ha : Pwm.autoreloadFromPeriod 1440000 = 2000 := by
    simp [Pwm.autoreloadFromPeriod, Pwm.autoreloadBitCount]
  refine ⟨_, by simp only [Pwm.construct, Nat.reduceDiv, ha]; rfl, rfl, ?_⟩
  intro d h1 h2
  interval_cases d <;> rfl

/-- Instance: straight ahead is the middle of the range, 1500 microseconds. -/
example : onServo {} 0 = ({}, [.servo 50]) ∧ onServo {} (-90) = ({}, [.servo 99]) ∧ onServo {} 90 = ({}, [.servo 2]) ∧
    onServo {} 45 = ({}, []) := by decide

end Abc.Car
