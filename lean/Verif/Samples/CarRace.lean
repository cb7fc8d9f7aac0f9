import Verif.Samples.CarProps
import Mathlib.Data.List.Permutation

/-!
# The car: requests carried out at the same time

`car_endpoint` (`samples/picar_4wd/car.h`) serves every connection on a thread of its own and watches for obstacles on
another one.  `_forward`, `_power` and `_turn` (`car.i.h` 119-121) are plain members that all these threads read and
write without a lock.  `Verif/Samples/Car.lean` takes a request as one step; here a request is taken apart into its
single accesses of the members and its single calls on the motors.

* The accesses are taken to be sequentially consistent.  (The members are not atomic, so C++ promises less.)
* Any number of threads may run `auto_limit_power`; in the code it is one.
* The reads of the members for the log (`car.h` 608, 775) and for the text of the response (284, 356) are left out.
* `start` and `stop` of the tracker are single steps (`Verif/Motion/Setters.lean` takes the tracker apart), and so is
  each of the two calls on a motor (`Verif/Smbus`, `Verif/Gpio/Line.lean`).
-/

namespace Abc.CarRace

open Abc.Car

/-! ## The requests in single steps -/

/-- The local variables of a thread. -/
structure Loc where
  /-- `delta` of `get_delta_power` before its sign is set, `car.h` 579-601 -/
  mag : Int := 0
  /-- what `get_delta_power` returns, `car.h` 603-611 -/
  delta : Int := 0
  /-- `left_power` as first set, `car.h` 548 -/
  raw : Int := 0
  /-- `left_power` in the end, `car.h` 568 -/
  left : Int := 0
  /-- `right_power` in the end, `car.h` 569 -/
  right : Int := 0
  /-- `turn` of `process_power`, `car.h` 249 -/
  turn : Int := 0
  /-- `power` of `auto_limit_power`, `car.h` 756 -/
  lim : Int := 0
  deriving DecidableEq, Repr

/-- What a thread has yet to do. -/
inductive Op where
  /-- `drive_verified` from its `k`-th access on, `car.h` 522-612 -/
  | drv (k : Nat)
  /-- the test of line 248 with the number of the request -/
  | change (p : Int)
  /-- line 249 -/
  | saveTurn
  /-- line 257 -/
  | restoreTurn
  /-- an assignment to `_power`: lines 251, 274 -/
  | setPower (n : Int)
  /-- an assignment to `_turn`: lines 252, 266, 351 -/
  | setTurn (n : Int)
  /-- an assignment to `_forward`: lines 264, 270 -/
  | setForward (b : Bool)
  /-- lines 260-262 with the number of the request -/
  | track (p : Int)
  /-- line 255 -/
  | trackStop
  /-- lines 278-280 -/
  | stopIf
  /-- line 756 -/
  | look
  /-- the test of line 758 with the distance of line 755 -/
  | ahead (d : Nat)
  /-- the tests of lines 759-770 with the distance; `k` is the power of the test, `b` its distance -/
  | tier (d : Nat) (k : Int) (b : Nat)
  /-- the test of line 773 -/
  | apply
  /-- line 778 -/
  | setLim
  deriving DecidableEq, Repr

/-- The magnitude of `get_delta_power`, `car.h` 581-601. -/
def magOf (turn : Int) : Int :=
  if turn = -30 ∨ turn = 30 then 11
  else if turn = -45 ∨ turn = 45 then 18
  else if turn = -60 ∨ turn = 60 then 25
  else if turn = -90 ∨ turn = 90 then 50
  else 0

/-- `adjust` of `get_side_powers`, `car.h` 554-566. -/
def adjust (left right : Int) : Int :=
  if left > 100 then 100 - left
  else if right > 100 then 100 - right
  else if left < 0 then 0 - left
  else if right < 0 then 0 - right
  else 0

/-- The four motors in the order of `drive_verified`, `car.h` 530-540. -/
def wheelOf (k : Nat) : Wheel :=
  match k with
  | 0 => .frontLeft
  | 1 => .frontRight
  | 2 => .rearLeft
  | _ => .rearRight

/-- One access of `drive_verified`, `car.h` 522-612: two reads of `_turn` (581, 603), two of `_power` (548, 549), and
for each motor a read of `_forward` with `set_forward` and a `set_duty_cycle`. -/
def drvStep (k : Nat) (w : World) (l : Loc) : World × Loc :=
  match k with
  | 0 => (w, { l with mag := magOf w.car.turn })
  | 1 => (w, { l with delta := if w.car.turn < 0 then -l.mag else l.mag })
  | 2 => (w, { l with raw := w.car.power + l.delta })
  | 3 =>
    let right := w.car.power - l.delta
    (w, { l with left := l.raw + adjust l.raw right, right := right + adjust l.raw right })
  | k + 4 =>
    let v := wheelOf (k / 2)
    if k % 2 = 0 then (⟨w.car, obey w.motors (.direction v w.car.forward)⟩, l)
    else (⟨w.car, obey w.motors (.duty v (toDuty (if v.left = true then l.left else l.right)))⟩, l)

/-- The power of the next test of `auto_limit_power` and its distance, `car.h` 762-770. -/
def nextTier (d : Nat) (k : Int) : List Op :=
  if k = 75 then [.tier d 50 20] else if k = 50 then [.tier d 25 10] else if k = 25 then [.tier d 0 5] else []

/-- One step of a thread: its effect on the members and the motors, on its locals, and what it puts before the rest of
what it has to do. -/
def exec (o : Op) (w : World) (l : Loc) : World × Loc × List Op :=
  match o with
  | .drv k => ((drvStep k w l).1, (drvStep k w l).2, if k < 11 then [.drv (k + 1)] else [])
  | .change p =>
    (w, l, if p * w.car.power < 0 then [.saveTurn, .setPower 0, .setTurn 0, .drv 0, .trackStop, .restoreTurn] else [])
  | .saveTurn => (w, { l with turn := w.car.turn }, [])
  | .restoreTurn => ({ w with car := { w.car with turn := l.turn } }, l, [])
  | .setPower n => ({ w with car := { w.car with power := n } }, l, [])
  | .setTurn n => ({ w with car := { w.car with turn := n } }, l, [])
  | .setForward b => ({ w with car := { w.car with forward := b } }, l, [])
  | .track p => (if p ≠ 0 ∧ w.car.tracking = false then { w with car := { w.car with tracking := true } } else w, l, [])
  | .trackStop => ({ w with car := { w.car with tracking := false } }, l, [])
  | .stopIf => (if w.car.power = 0 then { w with car := { w.car with tracking := false } } else w, l, [])
  | .look => (w, { l with lim := w.car.power }, [])
  | .ahead d => (w, l, if w.car.forward = true then [.tier d 75 30] else [])
  | .tier d k b => if w.car.power > k ∧ d < b then (w, { l with lim := k }, []) else (w, l, nextTier d k)
  | .apply => (w, l, if l.lim < w.car.power then [.setLim, .drv 0] else [])
  | .setLim => ({ w with car := { w.car with power := l.lim } }, l, [])

/-- What the thread of a request or of a round of the loop has to do: `process_power` 243-280, `process_turn` 347-352,
`auto_limit_power` 754-781.  `process_servo` touches neither the members nor the motors. -/
def program : Event → List Op
  | .power p =>
    if inRange p (-100) 100 25 = false then []
    else [.change p, .track p, .setForward true] ++ (if p = 0 then [.setTurn 0] else []) ++
      (if p < 0 then [.setForward false] else []) ++ [.setPower (if p < 0 then -p else p), .drv 0, .stopIf]
  | .turn t => if inRange t (-90) 90 30 = false then [] else [.setTurn t, .drv 0]
  | .servo _ => []
  | .sense d => [.look, .ahead d, .apply]

/-! ## The threads -/

/-- A thread: its locals and what it has yet to do. -/
structure Thread where
  loc : Loc := {}
  ops : List Op := []
  deriving DecidableEq, Repr

/-- The endpoint, the motors and the threads. -/
structure St where
  world : World
  thr : Nat → Thread

/-- What can happen. -/
inductive Ev where
  /-- a request reaches an idle thread, or a round of the loop begins on it -/
  | begin (i : Nat) (e : Event)
  /-- a thread makes one step -/
  | step (i : Nat)
  deriving DecidableEq, Repr

/-- One step of one thread. -/
def solo (x : World × Loc × List Op) : World × Loc × List Op :=
  match x.2.2 with
  | [] => x
  | o :: rest => ((exec o x.1 x.2.1).1, (exec o x.1 x.2.1).2.1, (exec o x.1 x.2.1).2.2 ++ rest)

/-- One event. -/
def St.step (s : St) : Ev → St
  | .begin i e =>
    if (s.thr i).ops = [] then ⟨s.world, fun j => if j = i then ⟨(s.thr i).loc, program e⟩ else s.thr j⟩ else s
  | .step i =>
    let x := solo (s.world, (s.thr i).loc, (s.thr i).ops)
    ⟨x.1, fun j => if j = i then ⟨x.2.1, x.2.2⟩ else s.thr j⟩

/-- A history. -/
def St.run (s : St) (h : List Ev) : St := h.foldl St.step s

/-- After the constructor. -/
def begin (dirs : Wheel → Bool) : St := ⟨Car.start dirs, fun _ => {}⟩

/-- No request is under way. -/
def St.Rest (s : St) : Prop := ∀ i, (s.thr i).ops = []

/-- Every request reaches an idle thread. -/
def Sent (s : St) : List Ev → Prop
  | [] => True
  | e :: h => (∀ i q, e = .begin i q → (s.thr i).ops = []) ∧ Sent (s.step e) h

/-- Every request begins when no other is under way. -/
def Alone (s : St) : List Ev → Prop
  | [] => True
  | e :: h => (∀ i q, e = .begin i q → s.Rest) ∧ Alone (s.step e) h

/-- The requests and rounds in the order in which they began. -/
def asked (h : List Ev) : List Event := h.filterMap fun | .begin _ e => some e | .step _ => none

/-- `_power` changes only while no thread is between its two reads of it in `get_side_powers` (`car.h` 548-549). -/
def Steady (s : St) : List Ev → Prop
  | [] => True
  | e :: h => ((s.step e).world.car.power = s.world.car.power ∨ ∀ i, (s.thr i).ops.head? ≠ some (.drv 3)) ∧ Steady (s.step e) h

/-! ## C131 -/

/-- Requests carried out at the same time leave the car as some order of them would. -/
def C131Order : Prop := ∀ (dirs : Wheel → Bool) (h : List Ev), Sent (begin dirs) h → ((begin dirs).run h).Rest →
  ∃ es, es.Perm (asked h) ∧ ((begin dirs).run h).world.car = ((Car.start dirs).run es).car ∧
    ∀ v, (((begin dirs).run h).world.motors v).duty = (((Car.start dirs).run es).motors v).duty

/-- No motor is ever given a duty cycle above 100. -/
def C131Range : Prop := ∀ (dirs : Wheel → Bool) (h : List Ev), Sent (begin dirs) h →
  ∀ v, (((begin dirs).run h).world.motors v).duty ≤ 100

/-- Once the car was told to go backward, and as long as every power it is told is backward, no wheel runs forward. -/
def C131Back : Prop := ∀ (dirs : Wheel → Bool) (p : Int) (g h : List Ev), Sent (begin dirs) (.begin 0 (.power p) :: g ++ h) →
  p ∈ Powers → p < 0 → asked g = [] → ((begin dirs).run (.begin 0 (.power p) :: g)).Rest →
  (∀ q, .power q ∈ asked h → q < 0) →
  ∀ v, (((begin dirs).run (.begin 0 (.power p) :: g ++ h)).world.motors v).duty ≠ 0 →
    (((begin dirs).run (.begin 0 (.power p) :: g ++ h)).world.motors v).forward = false

/-- C131 in full. -/
def C131Full : Prop := C131Order ∧ C131Range ∧ C131Back

/-! ## One thread alone -/

/-- `n` steps of one thread. -/
def iter : Nat → World × Loc × List Op → World × Loc × List Op
  | 0, x => x
  | n + 1, x => iter n (solo x)

theorem iter_add (a b : Nat) (x) : iter (a + b) x = iter b (iter a x) := by
  induction a generalizing x with
  | zero => simp [iter]
  | succ a ih => rw [Nat.succ_add]; exact ih _

theorem iter_idle (n : Nat) (w : World) (l : Loc) : iter n (w, l, []) = (w, l, []) := by
  induction n with
  | zero => rfl
  | succ n ih => exact ih

/-- The thread gets from one state to another. -/
def Gets (x y : World × Loc × List Op) : Prop := ∃ n, iter n x = y

theorem Gets.refl (x) : Gets x x := ⟨0, rfl⟩
theorem Gets.trans {x y z} (h : Gets x y) (g : Gets y z) : Gets x z := by
  obtain ⟨a, ha⟩ := h; obtain ⟨b, hb⟩ := g
  exact ⟨a + b, by rw [iter_add, ha, hb]⟩

/-- Steps before reaching a state, whatever the locals are then. -/
theorem Gets.then {x y : World × Loc × List Op} {w : World} {r : List Op} (h : Gets x y) (g : ∃ l', Gets y (w, l', r)) :
    ∃ l', Gets x (w, l', r) := by
  obtain ⟨l', g⟩ := g
  exact ⟨l', h.trans g⟩

theorem gets_op (o : Op) (w : World) (l : Loc) (rest : List Op) :
    Gets (w, l, o :: rest) ((exec o w l).1, (exec o w l).2.1, (exec o w l).2.2 ++ rest) := ⟨1, rfl⟩

/-- The locals after `get_side_powers` without interference. -/
def sideLoc (c : Car) (l : Loc) : Loc :=
  { l with mag := magOf c.turn, delta := deltaPower c.turn, raw := c.power + deltaPower c.turn,
           left := (sidePowers c).1, right := (sidePowers c).2 }

theorem gets_drive (w : World) (l : Loc) (rest : List Op) :
    Gets (w, l, .drv 0 :: rest) (⟨w.car, driven w.car⟩, sideLoc w.car l, rest) := by
  refine ⟨12, ?_⟩
  rw [← obey_drive w.car w.motors]
  rfl

/-- A round of the loop up to its last test. -/
theorem gets_limit (w : World) (l : Loc) (d : Nat) (rest : List Op) (hl : l.lim = w.car.power) :
    Gets (w, l, .ahead d :: rest) (w, { l with lim := limited w.car d }, rest) := by
  have same : ({ l with lim := w.car.power } : Loc) = l := by rw [← hl]
  refine (gets_op _ _ _ _).trans ?_
  by_cases hf : w.car.forward = true
  · simp only [exec, limited, if_pos hf, List.cons_append, List.nil_append]
    by_cases h1 : w.car.power > 75 ∧ d < 30
    · rw [if_pos h1]; refine (gets_op _ _ _ _).trans ?_; simp only [exec, if_pos h1]; exact Gets.refl _
    rw [if_neg h1]; refine (gets_op _ _ _ _).trans ?_; simp only [exec, if_neg h1]
    by_cases h2 : w.car.power > 50 ∧ d < 20
    · rw [if_pos h2]; refine (gets_op _ _ _ _).trans ?_; simp only [exec, if_pos h2]; exact Gets.refl _
    rw [if_neg h2]; refine (gets_op _ _ _ _).trans ?_; simp only [exec, if_neg h2]
    by_cases h3 : w.car.power > 25 ∧ d < 10
    · rw [if_pos h3]; refine (gets_op _ _ _ _).trans ?_; simp only [exec, if_pos h3]; exact Gets.refl _
    rw [if_neg h3]; refine (gets_op _ _ _ _).trans ?_; simp only [exec, if_neg h3]
    by_cases h4 : w.car.power > 0 ∧ d < 5
    · rw [if_pos h4]; refine (gets_op _ _ _ _).trans ?_; simp only [exec, if_pos h4]; exact Gets.refl _
    rw [if_neg h4]; refine (gets_op _ _ _ _).trans ?_; simp only [exec, if_neg h4]
    rw [same]; exact Gets.refl _
  · simp only [exec, limited, if_neg hf]
    rw [same]; exact Gets.refl _

theorem gets_sense (w : World) (l : Loc) (d : Nat) : ∃ l', Gets (w, l, program (.sense d)) (w.step (.sense d), l', []) := by
  have h1 : Gets (w, l, program (.sense d)) (w, { l with lim := limited w.car d }, [.apply]) :=
    (gets_op _ _ _ _).trans (gets_limit w { l with lim := w.car.power } d [.apply] rfl)
  simp only [World.step, Car.step, onSense]
  by_cases h : limited w.car d < w.car.power
  · simp only [if_pos h, obey_drive]
    refine h1.then ((gets_op _ _ _ _).then ?_)
    simp only [exec, if_pos h, List.cons_append, List.nil_append]
    exact ⟨_, (gets_op _ _ _ _).trans (gets_drive _ _ _)⟩
  · simp only [if_neg h]
    refine h1.then ((gets_op _ _ _ _).then ?_)
    simp only [exec, if_neg h]
    exact ⟨_, Gets.refl _⟩

/-- A power request from the assignments on. -/
theorem gets_powerSet (w : World) (l : Loc) (p : Int) (c : Car) (hc : c = powerSet w.car p) :
    ∃ l', Gets (w, l, .setForward true :: ((if p = 0 then [Op.setTurn 0] else []) ++
        (if p < 0 then [Op.setForward false] else []) ++ [.setPower (if p < 0 then -p else p), .drv 0, .stopIf]))
      (⟨if c.power = 0 then { c with tracking := false } else c, driven c⟩, l', []) := by
  subst hc
  have last : ∀ (c : Car) (m : Wheel → Motor) (l : Loc), ∃ l', Gets (⟨c, m⟩, l, [.drv 0, .stopIf])
      (⟨if c.power = 0 then { c with tracking := false } else c, driven c⟩, l', []) := by
    intro c m l
    refine (gets_drive _ _ _).then ((gets_op _ _ _ _).then ?_)
    simp only [exec]
    by_cases h : c.power = 0
    · simp only [if_pos h]; exact ⟨_, Gets.refl _⟩
    · simp only [if_neg h]; exact ⟨_, Gets.refl _⟩
  by_cases h0 : p = 0
  · subst h0
    obtain ⟨l', h⟩ := last (powerSet w.car 0) w.motors l
    exact ⟨l', (gets_op _ _ _ _).trans ((gets_op _ _ _ _).trans ((gets_op _ _ _ _).trans h))⟩
  · by_cases h1 : p < 0
    · obtain ⟨l', h⟩ := last (powerSet w.car p) w.motors l
      refine ⟨l', ?_⟩
      have e : powerSet w.car p = { w.car with forward := false, power := -p } := by simp [powerSet, h0, h1]
      rw [e] at h ⊢
      simp only [if_neg h0, if_pos h1]
      exact (gets_op _ _ _ _).trans ((gets_op _ _ _ _).trans ((gets_op _ _ _ _).trans h))
    · obtain ⟨l', h⟩ := last (powerSet w.car p) w.motors l
      refine ⟨l', ?_⟩
      have e : powerSet w.car p = { w.car with forward := true, power := p } := by simp [powerSet, h0, h1]
      rw [e] at h ⊢
      rw [if_neg h0, if_neg h1, if_neg h1]
      exact (gets_op _ _ _ _).trans ((gets_op _ _ _ _).trans h)

theorem gets_power (w : World) (l : Loc) (p : Int) (hp : p ∈ Powers) :
    ∃ l', Gets (w, l, program (.power p)) (⟨(onPower w.car p).1, driven (onPower w.car p).1⟩, l', []) := by
  have hr : ¬ (inRange p (-100) 100 25 = false) := by rw [(power_range p).2 hp]; decide
  have hprog : program (.power p) = .change p :: .track p :: (.setForward true :: ((if p = 0 then [Op.setTurn 0] else []) ++
        (if p < 0 then [Op.setForward false] else []) ++ [.setPower (if p < 0 then -p else p), .drv 0, .stopIf])) := by
    simp only [program, if_neg hr, List.cons_append, List.nil_append, List.append_assoc]
  rw [hprog]
  generalize hrest : (Op.setForward true :: ((if p = 0 then [Op.setTurn 0] else []) ++
        (if p < 0 then [Op.setForward false] else []) ++ [.setPower (if p < 0 then -p else p), .drv 0, .stopIf])) = rest
  -- up to the assignments
  have h1 : ∃ m l', Gets (w, l, .change p :: .track p :: rest) (⟨(powerStop w.car p).1, m⟩, l', .track p :: rest) := by
    by_cases hc : p * w.car.power < 0
    · refine ⟨driven { w.car with power := 0, turn := 0 }, (gets_op _ _ _ _).then ?_⟩
      simp only [exec, if_pos hc, powerStop, List.cons_append, List.nil_append]
      exact (gets_op _ _ _ _).then ((gets_op _ _ _ _).then ((gets_op _ _ _ _).then ((gets_drive _ _ _).then
        ((gets_op _ _ _ _).then ((gets_op _ _ _ _).then ⟨_, Gets.refl _⟩)))))
    · refine ⟨w.motors, (gets_op _ _ _ _).then ?_⟩
      simp only [exec, if_neg hc, powerStop]
      exact ⟨_, Gets.refl _⟩
  obtain ⟨m, l1, h1⟩ := h1
  have h2 : Gets (⟨(powerStop w.car p).1, m⟩, l1, .track p :: rest) (⟨(powerTrack (powerStop w.car p) p).1, m⟩, l1, rest) := by
    refine (gets_op _ _ _ _).trans ?_
    by_cases hc : p ≠ 0 ∧ (powerStop w.car p).1.tracking = false
    · simp only [exec, powerTrack, if_pos hc]; exact Gets.refl _
    · simp only [exec, powerTrack, if_neg hc]; exact Gets.refl _
  obtain ⟨l', h3⟩ := gets_powerSet ⟨(powerTrack (powerStop w.car p) p).1, m⟩ l1 p _ rfl
  rw [hrest] at h3
  refine ⟨l', h1.trans (h2.trans ?_)⟩
  have e : onPower w.car p = (let x := powerTrack (powerStop w.car p) p
      let d := powerSet x.1 p
      if d.power = 0 then ({ d with tracking := false }, x.2 ++ drive d ++ [.trackerStop]) else (d, x.2 ++ drive d)) := by
    unfold onPower; rw [if_neg hr]
  rw [e]
  simp only
  by_cases h : (powerSet (powerTrack (powerStop w.car p) p).1 p).power = 0
  · simp only [if_pos h] at h3 ⊢; exact h3
  · simp only [if_neg h] at h3 ⊢; exact h3

/-- Everything about one request or round: alone it does what `Car.step` says. -/
theorem gets_program (w : World) (l : Loc) (e : Event) : ∃ l', Gets (w, l, program e) (w.step e, l', []) := by
  cases e with
  | servo a =>
    refine ⟨l, ?_⟩
    obtain ⟨e1, e2⟩ := onServo_same w.car a w.motors
    simp only [program, World.step, Car.step, e1, e2]
    exact Gets.refl _
  | turn t =>
    by_cases ht : t ∈ Turns
    · obtain ⟨e1, e2⟩ := onTurn_drives w.car t ht w.motors
      simp only [World.step, Car.step, e2, e1]
      have hp : program (.turn t) = [.setTurn t, .drv 0] := by
        simp only [program]; rw [if_neg (by rw [(turn_range t).2 ht]; decide)]
      rw [hp]
      exact ⟨_, (gets_op _ _ _ _).trans (gets_drive _ _ _)⟩
    · refine ⟨l, ?_⟩
      have hp : program (.turn t) = [] := by
        simp only [program]; rw [if_pos]; rw [← Bool.not_eq_true]; exact fun h => ht ((turn_range t).1 h)
      rw [hp]
      simp only [World.step, Car.step, onTurn_refused w.car t ht]
      exact Gets.refl _
  | sense d => exact gets_sense w l d
  | power p =>
    by_cases hp : p ∈ Powers
    · obtain ⟨l', hl⟩ := gets_power w l p hp
      refine ⟨l', ?_⟩
      simp only [World.step, Car.step, onPower_drives w.car p hp w.motors]
      exact hl
    · refine ⟨l, ?_⟩
      have e : program (.power p) = [] := by
        simp only [program]; rw [if_pos]; rw [← Bool.not_eq_true]; exact fun h => hp ((power_range p).1 h)
      rw [e]
      simp only [World.step, Car.step, onPower_refused w.car p hp]
      exact Gets.refl _

/-! ## One request at a time -/

/-- What is left to do is on one thread, and when it is done the car and the motors are as given. -/
def Heads (s : St) (w : World) : Prop :=
  ∃ i, (∀ j, j ≠ i → (s.thr j).ops = []) ∧ ∃ l', Gets (s.world, (s.thr i).loc, (s.thr i).ops) (w, l', [])

theorem heads_rest {s : St} {w : World} (h : Heads s w) (hr : s.Rest) : s.world = w := by
  obtain ⟨i, -, l', n, hn⟩ := h
  rw [hr i, iter_idle] at hn
  exact congrArg Prod.fst hn

theorem heads_step {s : St} {w : World} (h : Heads s w) (j : Nat) : Heads (s.step (.step j)) w := by
  obtain ⟨i, ho, l', n, hn⟩ := h
  by_cases hj : j = i
  · subst hj
    refine ⟨j, fun k hk => by simp only [St.step, if_neg hk]; exact ho k hk, l', ?_⟩
    simp only [St.step, if_true]
    cases n with
    | zero =>
      refine ⟨0, ?_⟩
      simp only [iter] at hn ⊢
      rw [hn]; rfl
    | succ n => exact ⟨n, hn⟩
  · have hs : s.step (.step j) = s := by
      have h0 := ho j hj
      simp only [St.step, h0, solo]
      cases s with
      | mk w t =>
        simp only [St.mk.injEq, true_and]
        funext k
        by_cases hk : k = j
        · subst hk; rw [if_pos rfl]
          simp only at h0
          generalize t k = x at h0 ⊢
          cases x; simp_all
        · rw [if_neg hk]
    rw [hs]
    exact ⟨i, ho, l', n, hn⟩

theorem heads_begin {s : St} (hr : s.Rest) (i : Nat) (e : Event) : Heads (s.step (.begin i e)) (s.world.step e) := by
  refine ⟨i, fun j hj => ?_, ?_⟩
  · simp only [St.step, if_pos (hr i), if_neg hj]; exact hr j
  · simp only [St.step, if_pos (hr i), if_true]
    exact gets_program s.world (s.thr i).loc e

theorem alone_run {s : St} {w : World} (hw : Heads s w) (h : List Ev) (ha : Alone s h) : Heads (s.run h) (w.run (asked h)) := by
  induction h generalizing s w with
  | nil => exact hw
  | cons e h ih =>
    cases e with
    | begin i q =>
      have hr := ha.1 i q rfl
      have := ih (heads_begin hr i q) ha.2
      rw [heads_rest hw hr] at this
      exact this
    | step j => exact ih (heads_step hw j) ha.2

theorem rest_heads {s : St} (hr : s.Rest) : Heads s s.world :=
  ⟨0, fun j _ => hr j, (s.thr 0).loc, by rw [hr 0]; exact Gets.refl _⟩

/-- C131, the part that holds, first half: requests and rounds that begin when no other is under way have the effect that
`Verif/Samples/Car.lean` gives them, in the order in which they began, whatever happened at the same time before.  So all
about C78 to C82 holds for them.  Missing: requests at the same time (`C131_violated_order`). -/
theorem C131_alone_partial (dirs : Wheel → Bool) (g h : List Ev) (hg : ((begin dirs).run g).Rest)
    (ha : Alone ((begin dirs).run g) h) (hr : ((begin dirs).run (g ++ h)).Rest) :
    ((begin dirs).run (g ++ h)).world = ((begin dirs).run g).world.run (asked h) := by
  have e : (begin dirs).run (g ++ h) = ((begin dirs).run g).run h := by simp [St.run]
  rw [e] at hr ⊢
  exact heads_rest (alone_run (rest_heads hg) h ha) hr

/-! ## What holds at every moment -/

/-- What the locals of a thread and what it has to do always satisfy. -/
structure ThreadFine (t : Thread) : Prop where
  mag : 0 ≤ t.loc.mag ∧ t.loc.mag ≤ 50
  delta : -50 ≤ t.loc.delta ∧ t.loc.delta ≤ 50
  turn : t.loc.turn ∈ Turns
  lim : t.loc.lim ∈ [(0 : Int), 25, 50, 75, 100]
  power : ∀ n, .setPower n ∈ t.ops → n ∈ [(0 : Int), 25, 50, 75, 100]
  turns : ∀ n, .setTurn n ∈ t.ops → n ∈ Turns
  tier : ∀ d k b, .tier d k b ∈ t.ops → k ∈ [(0 : Int), 25, 50, 75, 100]
  drv : ∀ k, .drv k ∈ t.ops.tail → k = 0

theorem program_fine (l : Loc) (e : Event) (h1 : 0 ≤ l.mag ∧ l.mag ≤ 50) (h2 : -50 ≤ l.delta ∧ l.delta ≤ 50)
    (h3 : l.turn ∈ Turns) (h4 : l.lim ∈ [(0 : Int), 25, 50, 75, 100]) : ThreadFine ⟨l, program e⟩ := by
  have hpow : ∀ p, inRange p (-100) 100 25 ≠ false → (if p < 0 then -p else p) ∈ [(0 : Int), 25, 50, 75, 100] := by
    intro p hp
    have := (power_range p).1 (by simpa using hp)
    simp only [Powers, List.mem_cons, List.not_mem_nil, or_false] at this ⊢
    split <;> omega
  refine ⟨h1, h2, h3, h4, ?_, ?_, ?_, ?_⟩
  · intro n hn
    cases e with
    | power p =>
      simp only [program] at hn
      split at hn
      · cases hn
      · rename_i hr
        have := hpow p hr
        (repeat' split at hn) <;> simp at hn <;> simp_all
    | turn t => simp only [program] at hn; split at hn <;> simp at hn
    | servo a => cases hn
    | sense d => simp [program] at hn
  · intro n hn
    cases e with
    | power p =>
      simp only [program] at hn
      split at hn
      · cases hn
      · (repeat' split at hn) <;> simp at hn
        all_goals (rw [hn]; decide)
    | turn t =>
      simp only [program] at hn
      split at hn
      · cases hn
      · rename_i hr
        simp at hn
        subst hn
        exact (turn_range _).1 (by simpa using hr)
    | servo a => cases hn
    | sense d => simp [program] at hn
  · intro d k b hn
    cases e with
    | power p => simp only [program] at hn; (repeat' split at hn) <;> simp at hn
    | turn t => simp only [program] at hn; split at hn <;> simp at hn
    | servo a => cases hn
    | sense d => simp [program] at hn
  · intro k hn
    cases e with
    | power p =>
      simp only [program] at hn
      (repeat' split at hn) <;> simp at hn <;> exact hn
    | turn t => simp only [program] at hn; split at hn <;> simp at hn; exact hn
    | servo a => cases hn
    | sense d => simp [program] at hn

theorem magOf_range (t : Int) : 0 ≤ magOf t ∧ magOf t ≤ 50 := by unfold magOf; (repeat' split) <;> omega

/-- The ways a list of things to do grows. -/
theorem grow_fine {l l' : Loc} {o : Op} {pre rest : List Op} (h : ThreadFine ⟨l, o :: rest⟩)
    (h1 : 0 ≤ l'.mag ∧ l'.mag ≤ 50) (h2 : -50 ≤ l'.delta ∧ l'.delta ≤ 50)
    (h3 : l'.turn ∈ Turns) (h4 : l'.lim ∈ [(0 : Int), 25, 50, 75, 100])
    (h5 : ∀ n, .setPower n ∈ pre → n = 0) (h6 : ∀ n, .setTurn n ∈ pre → n = 0)
    (h7 : ∀ d k b, .tier d k b ∈ pre → k ∈ [(0 : Int), 25, 50, 75, 100])
    (h8 : ∀ k, .drv k ∈ pre.tail → k = 0) : ThreadFine ⟨l', pre ++ rest⟩ := by
  refine ⟨h1, h2, h3, h4, ?_, ?_, ?_, ?_⟩
  · intro n hn
    rcases List.mem_append.1 hn with hn | hn
    · rw [h5 n hn]; decide
    · exact h.power n (List.mem_cons_of_mem _ hn)
  · intro n hn
    rcases List.mem_append.1 hn with hn | hn
    · rw [h6 n hn]; decide
    · exact h.turns n (List.mem_cons_of_mem _ hn)
  · intro d k b hn
    rcases List.mem_append.1 hn with hn | hn
    · exact h7 d k b hn
    · exact h.tier d k b (List.mem_cons_of_mem _ hn)
  · intro k hn
    cases pre with
    | nil => exact h.drv k (List.mem_of_mem_tail hn)
    | cons x xs =>
      rcases List.mem_append.1 hn with hn | hn
      · exact h8 k hn
      · exact h.drv k hn

theorem drvStep_fine (k : Nat) (w : World) (l : Loc) :
    (drvStep k w l).1.car = w.car ∧ (drvStep k w l).2.turn = l.turn ∧ (drvStep k w l).2.lim = l.lim ∧
    ((drvStep k w l).2.mag = l.mag ∨ (drvStep k w l).2.mag = magOf w.car.turn) ∧
    ((drvStep k w l).2.delta = l.delta ∨ (drvStep k w l).2.delta = l.mag ∨ (drvStep k w l).2.delta = -l.mag) := by
  match k with
  | 0 => exact ⟨rfl, rfl, rfl, .inr rfl, .inl rfl⟩
  | 1 =>
    refine ⟨rfl, rfl, rfl, .inl rfl, ?_⟩
    simp only [drvStep]; split <;> simp
  | 2 => exact ⟨rfl, rfl, rfl, .inl rfl, .inl rfl⟩
  | 3 => exact ⟨rfl, rfl, rfl, .inl rfl, .inl rfl⟩
  | k + 4 => simp only [drvStep]; split <;> exact ⟨rfl, rfl, rfl, .inl rfl, .inl rfl⟩

theorem exec_fine {o : Op} {rest : List Op} {w : World} {l : Loc} (hw : Fine w.car) (h : ThreadFine ⟨l, o :: rest⟩) :
    Fine (exec o w l).1.car ∧ ThreadFine ⟨(exec o w l).2.1, (exec o w l).2.2 ++ rest⟩ := by
  have keep : ∀ pre : List Op, (∀ n, .setPower n ∈ pre → n = 0) → (∀ n, .setTurn n ∈ pre → n = 0) →
      (∀ d k b, .tier d k b ∈ pre → k ∈ [(0 : Int), 25, 50, 75, 100]) → (∀ k, .drv k ∈ pre.tail → k = 0) →
      ThreadFine ⟨l, pre ++ rest⟩ := fun pre a b c d => grow_fine h h.mag h.delta h.turn h.lim a b c d
  have keep0 : ThreadFine ⟨l, [] ++ rest⟩ := keep [] (by simp) (by simp) (by simp) (by simp)
  cases o with
  | drv k =>
    obtain ⟨e1, e2, e3, e4, e5⟩ := drvStep_fine k w l
    simp only [exec]
    refine ⟨by rw [e1]; exact hw, grow_fine h ?_ ?_ (by rw [e2]; exact h.turn) (by rw [e3]; exact h.lim) ?_ ?_ ?_ ?_⟩
    · rcases e4 with e | e <;> rw [e]
      · exact h.mag
      · exact magOf_range _
    · have := h.mag; have := h.delta; simp only at *
      rcases e5 with e | e | e <;> rw [e] <;> omega
    all_goals split <;> simp
  | change p =>
    refine ⟨hw, ?_⟩
    simp only [exec]
    apply keep <;> split <;> simp
  | saveTurn => exact ⟨hw, grow_fine h h.mag h.delta hw.turn h.lim (by simp [exec]) (by simp [exec]) (by simp [exec]) (by simp [exec])⟩
  | restoreTurn => exact ⟨⟨hw.power, h.turn⟩, keep0⟩
  | setPower n => exact ⟨⟨h.power n (by simp), hw.turn⟩, keep0⟩
  | setTurn n => exact ⟨⟨hw.power, h.turns n (by simp)⟩, keep0⟩
  | setForward b => exact ⟨⟨hw.power, hw.turn⟩, keep0⟩
  | track p =>
    refine ⟨?_, keep0⟩
    simp only [exec]; split <;> exact ⟨hw.power, hw.turn⟩
  | trackStop => exact ⟨⟨hw.power, hw.turn⟩, keep0⟩
  | stopIf =>
    refine ⟨?_, keep0⟩
    simp only [exec]; split <;> exact ⟨hw.power, hw.turn⟩
  | look => exact ⟨hw, grow_fine h h.mag h.delta h.turn hw.power (by simp [exec]) (by simp [exec]) (by simp [exec]) (by simp [exec])⟩
  | ahead d =>
    refine ⟨hw, ?_⟩
    simp only [exec]
    apply keep <;> split <;> simp
    intros; omega
  | tier d k b =>
    simp only [exec]
    split
    · exact ⟨hw, grow_fine h h.mag h.delta h.turn (h.tier d k b (by simp)) (by simp) (by simp) (by simp) (by simp)⟩
    · refine ⟨hw, ?_⟩
      simp only [nextTier]
      apply keep <;> (repeat' split) <;> simp <;> intros <;> omega
  | apply =>
    refine ⟨hw, ?_⟩
    simp only [exec]
    apply keep <;> split <;> simp
  | setLim => exact ⟨⟨h.lim, hw.turn⟩, keep0⟩

/-- What holds at every moment. -/
structure Good (s : St) : Prop where
  fine : Fine s.world.car
  thr : ∀ i, ThreadFine (s.thr i)

theorem good_step {s : St} (h : Good s) (e : Ev) : Good (s.step e) := by
  cases e with
  | begin i q =>
    simp only [St.step]
    split
    · refine ⟨h.fine, fun j => ?_⟩
      simp only
      split
      · have := h.thr i
        exact program_fine _ _ this.mag this.delta this.turn this.lim
      · exact h.thr j
    · exact h
  | step i =>
    have hi := h.thr i
    generalize ht : s.thr i = t at hi
    obtain ⟨l, ops⟩ := t
    cases ops with
    | nil =>
      refine ⟨by simp only [St.step, ht, solo]; exact h.fine, fun j => ?_⟩
      simp only [St.step, ht, solo]
      split
      · exact hi
      · exact h.thr j
    | cons o rest =>
      obtain ⟨a, b⟩ := exec_fine h.fine hi
      refine ⟨by simp only [St.step, ht, solo]; exact a, fun j => ?_⟩
      simp only [St.step, ht, solo]
      split
      · exact b
      · exact h.thr j

theorem good_begin (dirs : Wheel → Bool) : Good (begin dirs) :=
  ⟨(agrees_start dirs).fine, fun _ => by
    refine ⟨?_, ?_, ?_, ?_, ?_, ?_, ?_, ?_⟩ <;> simp [begin, Turns]⟩

theorem good_run {s : St} (h : Good s) (es : List Ev) : Good (s.run es) := by
  induction es generalizing s with
  | nil => exact h
  | cons e es ih => exact ih (good_step h e)

/-- C131, what holds without any condition: however the requests and rounds overlap, the power of the car is one of the
five steps and its turn one that can be asked for. -/
theorem C131_members (dirs : Wheel → Bool) (h : List Ev) :
    ((begin dirs).run h).world.car.power ∈ [0, 25, 50, 75, 100] ∧ ((begin dirs).run h).world.car.turn ∈ Turns :=
  let g := good_run (good_begin dirs) h
  ⟨g.fine.power, g.fine.turn⟩

/-- C131, the part that holds, second half: whatever the requests made at the same time have done to the wheels, one
accepted power or turn request that is carried out alone sets them right.  All wheels go in the direction of the car,
the sides differ by what the turn asks for, and the middle is the power as far as that leaves room.  Missing: before
such a request (`C131_violated_order`). -/
theorem C131_recovers_partial (dirs : Wheel → Bool) (g h : List Ev) (i : Nat) (e : Event) (hg : ((begin dirs).run g).Rest)
    (he : e.drives = true) (hq : asked h = []) (hr : ((begin dirs).run (g ++ .begin i e :: h)).Rest) :
    let w := ((begin dirs).run (g ++ .begin i e :: h)).world
    w.car = (Car.step ((begin dirs).run g).world.car e).1 ∧
    ∃ left right : Nat, left ≤ 100 ∧ right ≤ 100 ∧ (left : Int) - right = steer w.car.turn ∧
      (left : Int) + right = 2 * middle w.car.power w.car.turn ∧
      ∀ v, w.motors v = ⟨w.car.forward, if v.left = true then left else right⟩ := by
  intro w
  have hal : ∀ (h : List Ev) (s : St), asked h = [] → Alone s h := by
    intro h
    induction h with
    | nil => intro s _; trivial
    | cons x h ih =>
      intro s hx
      cases x with
      | begin i q => simp [asked] at hx
      | step j => exact ⟨fun i q hc => (by cases hc), ih _ (by simpa [asked] using hx)⟩
  have ha : Alone ((begin dirs).run g) (.begin i e :: h) := ⟨fun _ _ _ => hg, hal h _ hq⟩
  have hw : w = ((begin dirs).run g).world.step e := by
    have := C131_alone_partial dirs g (.begin i e :: h) hg ha hr
    have ea : asked (.begin i e :: h) = [e] := by simpa [asked] using hq
    rw [ea] at this
    exact this
  have hm : w.motors = driven w.car := by
    rw [hw]
    cases e with
    | power p =>
      exact onPower_drives _ p (by simpa [Event.drives] using he) _
    | turn t => exact (onTurn_drives _ t (by simpa [Event.drives] using he) _).2
    | servo a => simp [Event.drives] at he
    | sense d => simp [Event.drives] at he
  have hf : Fine w.car := by
    rw [hw]; exact fine_step (good_run (good_begin dirs) g).fine e
  obtain ⟨a1, a2, a3, a4, a5, a6⟩ := sides hf
  refine ⟨by rw [hw]; rfl, (sidePowers w.car).1.toNat, (sidePowers w.car).2.toNat, by omega, by omega, by omega, by omega, ?_⟩
  intro v
  rw [hm, driven, toDuty_of a1 a2, toDuty_of a3 a4]

/-- Requests for a power backward, turns and rounds of the loop leave the car going backward. -/
theorem back_run (es : List Event) (w : World) (hw : Agrees w true) (hb : w.car.forward = false)
    (hq : ∀ q, .power q ∈ es → q < 0) : ∀ v, ((w.run es).motors v).forward = false := by
  have hc : (w.run es).car.forward = false := by
    clear hw
    induction es generalizing w with
    | nil => exact hb
    | cons e es ih =>
      refine ih (w.step e) ?_ (fun q h => hq q (List.mem_cons_of_mem _ h))
      cases e with
      | power p =>
        have h0 := hq p (by simp)
        by_cases hp : p ∈ Powers
        · simp only [World.step, Car.step, (onPower_car w.car p hp).1]
          simp; omega
        · simp only [World.step, Car.step, onPower_refused w.car p hp]; exact hb
      | turn t => simp only [World.step, Car.step, onTurn]; split <;> exact hb
      | servo a => simp only [World.step, Car.step, onServo]; split <;> exact hb
      | sense d => simp only [World.step, Car.step, onSense]; split <;> exact hb
  intro v
  have := (agrees_run hw es).dir (by simp) v
  rw [this, hc]

/-- C131, the part that holds about going backward: whatever happened at the same time before, after a power backward
carried out alone, requests and rounds one at a time with no power forward and no stop leave all wheels in the backward
direction whenever none is under way.  Missing: requests at the same time (`C131_violated_back`). -/
theorem C131_back_partial (dirs : Wheel → Bool) (g h : List Ev) (i : Nat) (p : Int) (hg : ((begin dirs).run g).Rest)
    (hp : p ∈ Powers) (hneg : p < 0) (ha : Alone ((begin dirs).run g) (.begin i (.power p) :: h))
    (hq : ∀ q, .power q ∈ asked h → q < 0) (hr : ((begin dirs).run (g ++ .begin i (.power p) :: h)).Rest) (v : Wheel) :
    (((begin dirs).run (g ++ .begin i (.power p) :: h)).world.motors v).forward = false := by
  rw [C131_alone_partial dirs g _ hg ha hr]
  have ea : asked (.begin i (.power p) :: h) = .power p :: asked h := rfl
  rw [ea]
  refine back_run (asked h) (((begin dirs).run g).world.step (.power p)) ?_ ?_ hq v
  · have hm := onPower_drives ((begin dirs).run g).world.car p hp ((begin dirs).run g).world.motors
    refine ⟨fine_step (good_run (good_begin dirs) g).fine _, fun v => ?_, fun _ v => ?_⟩
    · simp only [World.step, Car.step, hm]
    · simp only [World.step, Car.step, hm]; rfl
  · simp only [World.step, Car.step, (onPower_car _ p hp).1]
    simp; omega

/-! ## Duty cycles -/

/-- What holds at every moment while `_power` keeps still between its two reads. -/
structure Kept (s : St) : Prop where
  duty : ∀ v, (s.world.motors v).duty ≤ 100
  sides : ∀ i, 0 ≤ (s.thr i).loc.left ∧ (s.thr i).loc.left ≤ 100 ∧ 0 ≤ (s.thr i).loc.right ∧ (s.thr i).loc.right ≤ 100
  raw : ∀ i, (s.thr i).ops.head? = some (.drv 3) → (s.thr i).loc.raw = s.world.car.power + (s.thr i).loc.delta

theorem adjust_range {p d : Int} (hp : p ∈ [(0 : Int), 25, 50, 75, 100]) (hd : -50 ≤ d ∧ d ≤ 50) :
    0 ≤ p + d + adjust (p + d) (p - d) ∧ p + d + adjust (p + d) (p - d) ≤ 100 ∧
    0 ≤ p - d + adjust (p + d) (p - d) ∧ p - d + adjust (p + d) (p - d) ≤ 100 := by
  simp only [List.mem_cons, List.not_mem_nil, or_false] at hp
  unfold adjust
  (repeat' split) <;> omega

/-- A step of one thread. -/
theorem exec_kept {o : Op} {rest : List Op} {w : World} {l : Loc} (hw : Fine w.car) (h : ThreadFine ⟨l, o :: rest⟩)
    (hd : ∀ v, (w.motors v).duty ≤ 100) (hs : 0 ≤ l.left ∧ l.left ≤ 100 ∧ 0 ≤ l.right ∧ l.right ≤ 100)
    (hr : o = .drv 3 → l.raw = w.car.power + l.delta) :
    (∀ v, ((exec o w l).1.motors v).duty ≤ 100) ∧
    (0 ≤ (exec o w l).2.1.left ∧ (exec o w l).2.1.left ≤ 100 ∧ 0 ≤ (exec o w l).2.1.right ∧ (exec o w l).2.1.right ≤ 100) ∧
    (((exec o w l).2.2 ++ rest).head? = some (.drv 3) →
      (exec o w l).2.1.raw = (exec o w l).1.car.power + (exec o w l).2.1.delta) := by
  have hrest : rest.head? ≠ some (.drv 3) := by
    intro hc
    have := h.drv 3 (by cases rest with
      | nil => cases hc
      | cons a b => simp at hc; simp [hc])
    cases this
  cases o with
  | drv k =>
    match k with
    | 0 => exact ⟨hd, hs, by simp [exec]⟩
    | 1 => exact ⟨hd, hs, by simp [exec]⟩
    | 2 => exact ⟨hd, hs, fun _ => rfl⟩
    | 3 =>
      refine ⟨hd, ?_, by simp [exec]⟩
      simp only [exec, drvStep]
      rw [hr rfl]
      exact adjust_range hw.power h.delta
    | k + 4 =>
      refine ⟨fun v => ?_, ?_, ?_⟩
      · simp only [exec, drvStep]
        split
        · simp only [obey]; split <;> exact hd v
        · simp only [obey]; split
          · simp only
            split
            · rw [toDuty_of hs.1 hs.2.1]; omega
            · rw [toDuty_of hs.2.2.1 hs.2.2.2]; omega
          · exact hd v
      · simp only [exec, drvStep]; split <;> exact hs
      · intro hc
        simp only [exec] at hc
        split at hc
        · simp at hc
        · exact absurd hc hrest
  | change p =>
    refine ⟨hd, hs, fun hc => ?_⟩
    simp only [exec] at hc
    split at hc
    · simp at hc
    · exact absurd hc hrest
  | tier d k b =>
    simp only [exec]
    split
    · exact ⟨hd, hs, fun hc => absurd hc hrest⟩
    · refine ⟨hd, hs, fun hc => ?_⟩
      simp only [nextTier] at hc
      split at hc
      · simp at hc
      split at hc
      · simp at hc
      split at hc
      · simp at hc
      · exact absurd hc hrest
  | ahead d =>
    refine ⟨hd, hs, fun hc => ?_⟩
    simp only [exec] at hc
    split at hc
    · simp at hc
    · exact absurd hc hrest
  | apply =>
    refine ⟨hd, hs, fun hc => ?_⟩
    simp only [exec] at hc
    split at hc
    · simp at hc
    · exact absurd hc hrest
  | track p => exact ⟨fun v => by simp only [exec]; split <;> exact hd v, hs, fun hc => absurd hc hrest⟩
  | stopIf => exact ⟨fun v => by simp only [exec]; split <;> exact hd v, hs, fun hc => absurd hc hrest⟩
  | _ => exact ⟨hd, hs, fun hc => absurd hc hrest⟩

theorem program_head (e : Event) : (program e).head? ≠ some (.drv 3) := by
  cases e with
  | power p => simp only [program]; split <;> simp
  | turn t => simp only [program]; split <;> simp
  | servo a => simp [program]
  | sense d => simp [program]

theorem kept_step {s : St} (hg : Good s) (h : Kept s) (e : Ev)
    (hk : (s.step e).world.car.power = s.world.car.power ∨ ∀ i, (s.thr i).ops.head? ≠ some (.drv 3)) : Kept (s.step e) := by
  cases e with
  | begin i q =>
    simp only [St.step]
    split
    · refine ⟨h.duty, fun j => ?_, fun j => ?_⟩
      · simp only
        split
        · exact h.sides i
        · exact h.sides j
      · simp only
        split
        · exact fun hc => absurd hc (program_head q)
        · exact h.raw j
    · exact h
  | step i =>
    have hi := hg.thr i
    have hsd := h.sides i
    have hrw := h.raw i
    generalize ht : s.thr i = t at hi hsd hrw
    obtain ⟨l, ops⟩ := t
    cases ops with
    | nil =>
      refine ⟨by simp only [St.step, ht, solo]; exact h.duty, fun j => ?_, fun j => ?_⟩
      · simp only [St.step, ht, solo]
        split
        · exact hsd
        · exact h.sides j
      · simp only [St.step, ht, solo]
        split
        · exact fun hc => by cases hc
        · exact h.raw j
    | cons o rest =>
      obtain ⟨a, b, c⟩ := exec_kept hg.fine hi h.duty hsd (fun hc => hrw (by simp [hc]))
      simp only [St.step, ht, solo] at hk
      refine ⟨by simp only [St.step, ht, solo]; exact a, fun j => ?_, fun j => ?_⟩
      · simp only [St.step, ht, solo]
        split
        · exact b
        · exact h.sides j
      · simp only [St.step, ht, solo]
        split
        · exact c
        · intro hc
          rcases hk with hk | hk
          · rw [hk]; exact h.raw j hc
          · exact absurd hc (hk j)

theorem kept_run {s : St} (hg : Good s) (h : Kept s) (es : List Ev) (hs : Steady s es) : Kept (s.run es) := by
  induction es generalizing s with
  | nil => exact h
  | cons e es ih => exact ih (good_step hg e) (kept_step hg h e hs.1) hs.2

/-- C131, the part that holds about duty cycles: as long as the power changes only while no thread is between its two
reads of it, every duty cycle is at most 100 at every moment, however the requests overlap otherwise.  Missing: a change
between the two reads (`C131_violated_range`). -/
theorem C131_range_partial (dirs : Wheel → Bool) (h : List Ev) (hs : Steady (begin dirs) h) (v : Wheel) :
    (((begin dirs).run h).world.motors v).duty ≤ 100 := by
  refine (kept_run (good_begin dirs) ⟨fun v => ?_, fun i => ?_, fun i => ?_⟩ h hs).duty v
  · exact Nat.zero_le _
  · simp [begin]
  · intro hc; cases hc

/-! ## Checking conditions on given histories -/

/-- The threads of an event are among the first `n`. -/
def small (n : Nat) : Ev → Bool
  | .begin i _ => i < n
  | .step i => i < n

/-- The threads from the `n`-th on are idle. -/
def Far (n : Nat) (s : St) : Prop := ∀ i, n ≤ i → (s.thr i).ops = []

theorem far_step {n : Nat} {s : St} (h : Far n s) {e : Ev} (he : small n e = true) : Far n (s.step e) := by
  intro i hi
  cases e with
  | begin j q =>
    have hj : i ≠ j := by simp [small] at he; omega
    simp only [St.step]
    split
    · simp only [if_neg hj]; exact h i hi
    · exact h i hi
  | step j =>
    have hj : i ≠ j := by simp [small] at he; omega
    simp only [St.step, if_neg hj]; exact h i hi

theorem far_run {n : Nat} {s : St} (h : Far n s) {es : List Ev} (he : es.all (small n) = true) : Far n (s.run es) := by
  induction es generalizing s with
  | nil => exact h
  | cons e es ih =>
    simp only [List.all_cons, Bool.and_eq_true] at he
    exact ih (far_step h he.1) he.2

theorem far_begin (n : Nat) (dirs : Wheel → Bool) : Far n (begin dirs) := fun _ _ => rfl

/-- All of the first `n` threads are idle. -/
def restB (n : Nat) (s : St) : Bool := (List.range n).all fun i => decide ((s.thr i).ops = [])

theorem rest_of {n : Nat} {s : St} (hf : Far n s) (h : restB n s = true) : s.Rest := by
  intro i
  by_cases hi : n ≤ i
  · exact hf i hi
  · simp only [restB, List.all_eq_true, List.mem_range, decide_eq_true_eq] at h
    exact h i (by omega)

/-- `Sent` as a check. -/
def sentB (s : St) : List Ev → Bool
  | [] => true
  | e :: h => (match e with | .begin i _ => decide ((s.thr i).ops = []) | .step _ => true) && sentB (s.step e) h

theorem sent_of {s : St} {h : List Ev} (hb : sentB s h = true) : Sent s h := by
  induction h generalizing s with
  | nil => trivial
  | cons e h ih =>
    simp only [sentB, Bool.and_eq_true] at hb
    refine ⟨fun i q he => ?_, ih hb.2⟩
    subst he
    simpa using hb.1

/-- `Alone` as a check. -/
def aloneB (n : Nat) (s : St) : List Ev → Bool
  | [] => true
  | e :: h => (match e with | .begin _ _ => restB n s | .step _ => true) && aloneB n (s.step e) h

theorem alone_of {n : Nat} {s : St} {h : List Ev} (hf : Far n s) (hs : h.all (small n) = true) (hb : aloneB n s h = true) :
    Alone s h := by
  induction h generalizing s with
  | nil => trivial
  | cons e h ih =>
    simp only [aloneB, Bool.and_eq_true] at hb
    simp only [List.all_cons, Bool.and_eq_true] at hs
    refine ⟨fun i q he => ?_, ih (far_step hf hs.1) hs.2 hb.2⟩
    subst he
    exact rest_of hf hb.1

/-- `Steady` as a check. -/
def steadyB (n : Nat) (s : St) : List Ev → Bool
  | [] => true
  | e :: h => (decide ((s.step e).world.car.power = s.world.car.power) ||
      (List.range n).all fun i => decide ((s.thr i).ops.head? ≠ some (.drv 3))) && steadyB n (s.step e) h

theorem steady_of {n : Nat} {s : St} {h : List Ev} (hf : Far n s) (hs : h.all (small n) = true) (hb : steadyB n s h = true) :
    Steady s h := by
  induction h generalizing s with
  | nil => trivial
  | cons e h ih =>
    simp only [steadyB, Bool.and_eq_true, Bool.or_eq_true, decide_eq_true_eq, List.all_eq_true, List.mem_range] at hb
    simp only [List.all_cons, Bool.and_eq_true] at hs
    refine ⟨?_, ih (far_step hf hs.1) hs.2 hb.2⟩
    rcases hb.1 with h1 | h1
    · exact .inl h1
    · refine .inr fun i => ?_
      by_cases hi : n ≤ i
      · rw [hf i hi]; simp
      · exact h1 i (by omega)

/-- `k` steps of thread `i`. -/
def go (i k : Nat) : List Ev := List.replicate k (.step i)

/-! ## What goes wrong -/

/-- All wheels forward before the first request. -/
def fwd : Wheel → Bool := fun _ => true

/-- The car goes at full power.  A turn request has read the members; then a request for power 0 is carried out and
answered; then the turn request goes on with the motors. -/
def lateTurn : List Ev :=
  .begin 0 (.power 100) :: go 0 30 ++ .begin 1 (.turn 90) :: go 1 5 ++ .begin 2 (.power 0) :: go 2 30 ++ go 1 8

/-- The request for power 0 is answered, `_power` and `_turn` are 0, all threads are at rest, and the wheels on the left run at full
speed.  The turn request had begun before the request to stop. -/
theorem C131_violated_stop :
    ((begin fwd).run lateTurn).Rest ∧ ((begin fwd).run lateTurn).world.car = ⟨true, 0, 0, false⟩ ∧
    ((begin fwd).run lateTurn).world.motors .frontLeft = ⟨true, 100⟩ ∧
    ((begin fwd).run lateTurn).world.motors .rearLeft = ⟨true, 100⟩ :=
  ⟨rest_of (n := 3) (far_run (far_begin 3 _) (by decide +kernel)) (by decide +kernel), by decide +kernel, by decide +kernel,
    by decide +kernel⟩

/-- That is the outcome of no order of the three requests. -/
theorem C131_violated_order : ¬ C131Order := fun h => by
  obtain ⟨es, hp, h1, h2⟩ := h fwd lateTurn (sent_of (by decide +kernel)) C131_violated_stop.1
  rw [C131_violated_stop.2.1] at h1
  have h3 := h2 .frontLeft
  rw [C131_violated_stop.2.2.1] at h3
  have ha : asked lateTurn = [.power 100, .turn 90, .power 0] := by decide +kernel
  rw [ha] at hp
  have hl : es ∈ [Event.power 100, .turn 90, .power 0].permutations' := List.mem_permutations'.2 hp
  have hall : ∀ es ∈ [Event.power 100, .turn 90, .power 0].permutations',
      ¬ ((⟨true, 0, 0, false⟩ : Car) = ((Car.start fwd).run es).car ∧
        (⟨true, 100⟩ : Motor).duty = (((Car.start fwd).run es).motors .frontLeft).duty) := by decide +kernel
  exact hall es hl ⟨h1, h3⟩

/-- Two turn requests at the same time. -/
def crossed : List Ev := .begin 0 (.turn 60) :: go 0 9 ++ .begin 1 (.turn (-60)) :: go 1 13 ++ go 0 4

/-- The front wheels turn to the left and the rear wheels to the right, and that stays so until the next request. -/
theorem C131_violated_crossed :
    ((begin fwd).run crossed).Rest ∧
    (((begin fwd).run crossed).world.motors .frontLeft).duty = 0 ∧ (((begin fwd).run crossed).world.motors .frontRight).duty = 50 ∧
    (((begin fwd).run crossed).world.motors .rearLeft).duty = 50 ∧ (((begin fwd).run crossed).world.motors .rearRight).duty = 0 :=
  ⟨rest_of (n := 2) (far_run (far_begin 2 _) (by decide +kernel)) (by decide +kernel), by decide +kernel, by decide +kernel,
    by decide +kernel, by decide +kernel⟩

/-- A request for power 0 between the two reads of `_power` of a turn request. -/
def torn : List Ev :=
  .begin 0 (.power 100) :: go 0 30 ++ .begin 1 (.turn 60) :: go 1 4 ++ .begin 2 (.power 0) :: go 2 5 ++ go 1 5

/-- The slower side gets -50 percent, which as a duty cycle is 65486.  (`gpio_smbus_pwm::set_duty_cycle`,
`src/x/gpio_smbus_pwm.x.h` 129-136, takes that as 100: full speed.) -/
theorem C131_violated_range : ¬ C131Range := fun h => by
  have := h fwd torn (sent_of (by decide +kernel)) .frontRight
  have e : (((begin fwd).run torn).world.motors .frontRight).duty = 65486 := by decide +kernel
  omega

/-- The car goes backward.  A turn request has read the members; then another power backward is asked for, which stops
the car and sets `_forward` for a moment; in that moment the turn request goes on with the motors. -/
def forward : List Ev := .begin 1 (.turn 60) :: go 1 5 ++ .begin 2 (.power (-50)) :: go 2 20 ++ go 1 2

/-- A wheel runs forward at full speed. -/
theorem C131_violated_back : ¬ C131Back := fun h => by
  have := h fwd (-100) (go 0 40) forward (sent_of (by decide +kernel)) (by decide) (by decide) (by decide +kernel)
    (rest_of (n := 3) (far_run (far_begin 3 _) (by decide +kernel)) (by decide +kernel))
    (by
      have ha : asked forward = [.turn 60, .power (-50)] := by decide +kernel
      rw [ha]; intro q hq; simp at hq; omega) .frontLeft (by decide +kernel)
  revert this
  decide +kernel

/-- So the full statement is false, in each of its parts. -/
theorem C131_violated : ¬ C131Full := fun h => C131_violated_order h.1

/-! ## Cases -/

/-- `C131_alone_partial`: after the crossed turns, a power, a turn and a round of the loop one after the other. -/
example : ((begin fwd).run (crossed ++ (.begin 0 (.power 100) :: go 0 30 ++ .begin 1 (.turn 30) :: go 1 20 ++
      .begin 2 (.sense 25) :: go 2 30))).world =
    ((begin fwd).run crossed).world.run [.power 100, .turn 30, .sense 25] :=
  C131_alone_partial fwd crossed _ C131_violated_crossed.1
    (alone_of (n := 3) (far_run (far_begin 3 _) (by decide +kernel)) (by decide +kernel) (by decide +kernel))
    (rest_of (n := 3) (far_run (far_begin 3 _) (by decide +kernel)) (by decide +kernel))

/-- `C131_recovers_partial`: a turn request sets the crossed wheels right. -/
example : ((begin fwd).run (crossed ++ .begin 1 (.turn 0) :: go 1 13)).world.car.turn = 0 ∧
    ∀ v, (((begin fwd).run (crossed ++ .begin 1 (.turn 0) :: go 1 13)).world.motors v).duty = 0 := by
  obtain ⟨-, l, r, -, -, h1, h2, h3⟩ := C131_recovers_partial fwd crossed (go 1 13) 1 (.turn 0) C131_violated_crossed.1 (by decide)
    (by decide +kernel) (rest_of (n := 2) (far_run (far_begin 2 _) (by decide +kernel)) (by decide +kernel))
  have e : ((begin fwd).run (crossed ++ .begin 1 (.turn 0) :: go 1 13)).world.car = ⟨true, 0, 0, false⟩ := by decide +kernel
  rw [e] at h1 h2 ⊢
  have s0 : steer 0 = 0 := by decide
  have m0 : middle 0 0 = 0 := by decide
  simp only [s0, m0] at h1 h2
  refine ⟨rfl, fun v => ?_⟩
  rw [h3 v]
  simp only
  split <;> omega

/-- `C131_back_partial`: backward, a turn, slower backward. -/
example (v : Wheel) : (((begin fwd).run (crossed ++ .begin 0 (.power (-100)) :: (go 0 40 ++ .begin 1 (.turn 30) :: go 1 20 ++
      .begin 2 (.power (-50)) :: go 2 40))).world.motors v).forward = false :=
  C131_back_partial fwd crossed _ 0 (-100) C131_violated_crossed.1 (by decide) (by decide)
    (alone_of (n := 3) (far_run (far_begin 3 _) (by decide +kernel)) (by decide +kernel) (by decide +kernel))
    (by
      have ha : asked (go 0 40 ++ .begin 1 (.turn 30) :: go 1 20 ++ .begin 2 (.power (-50)) :: go 2 40) = [.turn 30, .power (-50)] := by
        decide +kernel
      rw [ha]; intro q hq; simp at hq; omega)
    (rest_of (n := 3) (far_run (far_begin 3 _) (by decide +kernel)) (by decide +kernel)) v

/-- `C131_range_partial`: the crossed turns, and the late turn. -/
example (v : Wheel) : (((begin fwd).run (crossed ++ lateTurn)).world.motors v).duty ≤ 100 :=
  C131_range_partial fwd _ (steady_of (n := 3) (far_begin 3 _) (by decide +kernel) (by decide +kernel)) v

/-- `C131_members`: in the middle of the torn reads. -/
example : ((begin fwd).run torn).world.car = ⟨true, 0, 0, true⟩ := by decide +kernel

end Abc.CarRace
