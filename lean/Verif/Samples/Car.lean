import Verif.Pwm.Model

/-!
# The car: model

`car_endpoint` (`samples/picar_4wd/car.h`) behind the requests: what a request with a number does, what the
loop that watches for obstacles does, and which commands the motors, the servo and the motion tracker get.

* A request is represented by its number after the conversion to `std::int32_t` (lines 240, 344, 489); how it
  is read from the connection is `Verif/Samples/CarWire.lean`.
* `_forward`, `_power` and `_turn` are plain members shared by the threads of the requests and the thread of
  `auto_loop`.  Here every request is one step.  `sense` is one round of `auto_loop` as one step; `Racing`
  below splits it between the test of `_power` and the assignment to it.
* The products and sums of `std::int32_t` that occur are at most 18200 in magnitude, so integers are used.
* Failures of the bus and of the direction lines are not modelled here (`Verif/Smbus`, `Verif/Gpio/Line.lean`).
* Logging is not modelled.
-/

namespace Abc.Car

/-- The motors, `car.i.h` 107-110. -/
inductive Wheel where
  | frontLeft | frontRight | rearLeft | rearRight
  deriving DecidableEq, Repr

/-- Calls made by the endpoint on its devices. -/
inductive Cmd where
  /-- `gpio_smbus_motor::set_forward`, `src/x/gpio_smbus_motor.x.h` 52-56 -/
  | direction (w : Wheel) (forward : Bool)
  /-- `gpio_smbus_motor::set_duty_cycle`, `src/x/gpio_smbus_motor.x.h` 65-68 -/
  | duty (w : Wheel) (d : Nat)
  /-- `gpio_smbus_motion_tracker::start` -/
  | trackerStart
  /-- `gpio_smbus_motion_tracker::stop` -/
  | trackerStop
  /-- `gpio_smbus_servo::set_duty_cycle`, `src/x/gpio_smbus_servo.x.h` 53-56 -/
  | servo (d : Nat)
  /-- `picar_4wd_hat::reset`, `car.h` 53-59 -/
  | reset
  deriving DecidableEq, Repr

/-- `_forward`, `_power`, `_turn`, `car.i.h` 119-121, and `_motion_tracker.is_running()`; the initial values
are those of `car.h` 136-138. -/
structure Car where
  forward : Bool := true
  power : Int := 0
  turn : Int := 0
  tracking : Bool := false
  deriving DecidableEq, Repr

/-- `get_delta_power`, `car.h` 578-612. -/
def deltaPower (turn : Int) : Int :=
  let delta : Int :=
    if turn = -30 ∨ turn = 30 then 11
    else if turn = -45 ∨ turn = 45 then 18
    else if turn = -60 ∨ turn = 60 then 25
    else if turn = -90 ∨ turn = 90 then 50
    else 0
  if turn < 0 then -delta else delta

/-- `get_side_powers`, `car.h` 545-574: left and right. -/
def sidePowers (c : Car) : Int × Int :=
  let delta := deltaPower c.turn
  let left := c.power + delta
  let right := c.power - delta
  let adjust : Int :=
    if left > 100 then 100 - left
    else if right > 100 then 100 - right
    else if left < 0 then 0 - left
    else if right < 0 then 0 - right
    else 0
  (left + adjust, right + adjust)

/-- `static_cast<gpio_pwm_duty_cycle_t>` of an `std::int32_t`, `car.h` 527-528: `std::uint16_t`,
`src/i/gpio_pwm_base.i.h` 41. -/
def toDuty (n : Int) : Nat := (n % 2 ^ 16).toNat

/-- `drive_verified`, `car.h` 522-541. -/
def drive (c : Car) : List Cmd :=
  let left := toDuty (sidePowers c).1
  let right := toDuty (sidePowers c).2
  [.direction .frontLeft c.forward, .duty .frontLeft left,
   .direction .frontRight c.forward, .duty .frontRight right,
   .direction .rearLeft c.forward, .duty .rearLeft left,
   .direction .rearRight c.forward, .duty .rearRight right]

/-- `verify_range`, `car.h` 701-713: whether it returns true. -/
def inRange (value lo hi step : Int) : Bool := !(decide (value < lo) || decide (hi < value) || decide (value.tmod step ≠ 0))

/-- Stopping and resetting the tracker if the direction seems to change, `car.h` 248-258. -/
def powerStop (c : Car) (power : Int) : Car × List Cmd :=
  if power * c.power < 0 then
    ({ c with power := 0, tracking := false }, drive { c with power := 0, turn := 0 } ++ [.trackerStop])
  else (c, [])

/-- Starting the tracker, `car.h` 260-262. -/
def powerTrack (x : Car × List Cmd) (power : Int) : Car × List Cmd :=
  if power ≠ 0 ∧ x.1.tracking = false then ({ x.1 with tracking := true }, x.2 ++ [.trackerStart]) else x

/-- The assignments to the members, `car.h` 264-274. -/
def powerSet (c : Car) (power : Int) : Car :=
  { c with
    forward := if power < 0 then false else true
    turn := if power = 0 then 0 else c.turn
    power := if power < 0 then -power else power }

/-- `process_power` after the number was read, `car.h` 243-280.  Response 400 if it is out of range. -/
def onPower (c : Car) (power : Int) : Car × List Cmd :=
  if inRange power (-100) 100 25 = false then (c, []) else
  let x := powerTrack (powerStop c power) power
  let d := powerSet x.1 power
  if d.power = 0 then ({ d with tracking := false }, x.2 ++ drive d ++ [.trackerStop]) else (d, x.2 ++ drive d)

/-- `process_turn` after the number was read, `car.h` 347-352. -/
def onTurn (c : Car) (turn : Int) : Car × List Cmd :=
  if inRange turn (-90) 90 30 = false then (c, []) else
  let c := { c with turn := turn }
  (c, drive c)

/-- `process_servo` after the number was read, `car.h` 492-497. -/
def onServo (c : Car) (angle : Int) : Car × List Cmd :=
  if inRange angle (-90) 90 30 = false then (c, []) else
  (c, [.servo (toDuty (100 - toDuty ((100 * (angle + 92)).tdiv 184)))])

/-- The power `auto_limit_power` decides on, `car.h` 755-771. -/
def limited (c : Car) (distance : Nat) : Int :=
  if c.forward = true then
    if c.power > 75 ∧ distance < 30 then 75
    else if c.power > 50 ∧ distance < 20 then 50
    else if c.power > 25 ∧ distance < 10 then 25
    else if c.power > 0 ∧ distance < 5 then 0
    else c.power
  else c.power

/-- `auto_limit_power`, `car.h` 754-781. -/
def onSense (c : Car) (distance : Nat) : Car × List Cmd :=
  if limited c distance < c.power then
    let c := { c with power := limited c distance }
    (c, drive c)
  else (c, [])

/-- What can happen to the car: the three requests with a number, and a round of `auto_loop` (`car.h`
723-750) with the distance it measured. -/
inductive Event where
  | power (p : Int)
  | turn (t : Int)
  | servo (a : Int)
  | sense (distance : Nat)
  deriving DecidableEq, Repr

/-- One event: `process_power`, `process_turn`, `process_servo`, `auto_limit_power`, `car.h` 186-286,
290-358, 435-503, 754-781. -/
def step (c : Car) : Event → Car × List Cmd
  | .power p => onPower c p
  | .turn t => onTurn c t
  | .servo a => onServo c a
  | .sense d => onSense c d

/-! ## Motors -/

/-- What a motor does: the direction and the duty cycle it was told last. -/
structure Motor where
  forward : Bool
  duty : Nat
  deriving DecidableEq, Repr

/-- A call on the devices as the motors see it.  The reset of the board is taken to switch all its outputs off. -/
def obey (m : Wheel → Motor) : Cmd → Wheel → Motor
  | .direction w b => fun v => if v = w then { m v with forward := b } else m v
  | .duty w d => fun v => if v = w then { m v with duty := d } else m v
  | .reset => fun v => { m v with duty := 0 }
  | _ => m

/-- The endpoint and the motors. -/
structure World where
  car : Car
  motors : Wheel → Motor

/-- One event and its effect on the motors. -/
def World.step (w : World) (e : Event) : World :=
  ⟨(Car.step w.car e).1, (Car.step w.car e).2.foldl obey w.motors⟩

/-- A history of events. -/
def World.run (w : World) (es : List Event) : World := es.foldl World.step w

/-- After the constructor, `car.h` 107-144: the board was reset (54-59), the motors stand still, the levels of
the direction lines are whatever they were. -/
def start (dirs : Wheel → Bool) : World := ⟨{}, fun v => ⟨dirs v, 0⟩⟩

/-! ## The loop between its test and its assignment -/

/-- The car while `auto_limit_power` may be between the test of line 773 and the assignment of line 778:
`pending` is its local `power`. -/
structure Racing where
  world : World
  pending : Option Int

/-- What can happen then. -/
inductive RaceEvent where
  /-- a request -/
  | request (e : Event)
  /-- `auto_limit_power` up to and including the test, `car.h` 755-773 -/
  | decide (distance : Nat)
  /-- `_power = power; drive_verified();`, `car.h` 778-779 -/
  | apply
  deriving DecidableEq, Repr

/-- One event, `car.h` 754-781 for the loop. -/
def Racing.step (r : Racing) : RaceEvent → Racing
  | .request e => { r with world := r.world.step e }
  | .decide d =>
    match r.pending with
    | some _ => r
    | none => if limited r.world.car d < r.world.car.power then { r with pending := some (limited r.world.car d) } else r
  | .apply =>
    match r.pending with
    | none => r
    | some p =>
      let c := { r.world.car with power := p }
      ⟨⟨c, (drive c).foldl obey r.world.motors⟩, none⟩

/-- The devices in `process_shutdown`, `car.h` 512-514, where `_auto_thread.join()` waits for the end of the round that
`auto_loop` is in: the reset of the board, and then what is left of the round.  `round` is the distance if the round
has yet to decide; if it has decided, it has yet to apply. -/
def Racing.shutdown (r : Racing) (round : Option Nat) : Racing :=
  let r : Racing := ⟨⟨r.world.car, obey r.world.motors .reset⟩, r.pending⟩
  match round with
  | none => r.step .apply
  | some d => (r.step (.decide d)).step .apply

/-- A history. -/
def Racing.run (r : Racing) (es : List RaceEvent) : Racing := es.foldl Racing.step r

end Abc.Car
