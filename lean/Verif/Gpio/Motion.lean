import Verif.Smbus.Model
import Mathlib.Tactic.Ring
import Mathlib.Tactic.Linarith
import Mathlib.Tactic.FieldSimp
import Mathlib.Tactic.NormNum
import Mathlib.Algebra.Order.Field.Rat
import Mathlib.Algebra.Order.Ring.Abs

/-!
# Model of `gpio_smbus_motion` (`src/x/gpio_smbus_motion.x.h`)

The class is modelled on top of `gpio_smbus` (`Verif/Smbus/Model.lean`).  `double` is modelled by exact
rational numbers: rounding is not modelled.  Log output is not modelled, only whether there is a log.
`none` is undefined behaviour.  The sensor itself (an MPU-6050) is modelled by `World` and `answer`.
-/

namespace Abc.Gpio.Motion

open Abc.Ascii Abc.Smbus

/-- `gpio_smbus_motion_channel`, `gpio_smbus_motion.i.h` 42-54. -/
inductive Channel where
  | accelX | accelY | accelZ | gyroX | gyroY | gyroZ | temperature
deriving DecidableEq, Repr

/-- The bits of the mask, `gpio_smbus_motion.i.h` 43-51. -/
def Channel.bit : Channel → Nat
  | .accelX => 0x0001
  | .accelY => 0x0002
  | .accelZ => 0x0004
  | .gyroX => 0x0008
  | .gyroY => 0x0010
  | .gyroZ => 0x0020
  | .temperature => 0x0040

/-- The registers, `gpio_smbus_motion.i.h` 135-143. -/
def Channel.reg : Channel → Byte
  | .accelX => 0x3b
  | .accelY => 0x3d
  | .accelZ => 0x3f
  | .gyroX => 0x43
  | .gyroY => 0x45
  | .gyroZ => 0x47
  | .temperature => 0x41

/-- `reg_pwr_mgmt_1`, `reg_config`, `reg_config_gyro`, `reg_config_accel`, `gpio_smbus_motion.i.h`
129-133. -/
def regPwrMgmt1 : Byte := 0x6b
@[inherit_doc regPwrMgmt1] def regConfig : Byte := 0x1a
@[inherit_doc regPwrMgmt1] def regConfigGyro : Byte := 0x1b
@[inherit_doc regPwrMgmt1] def regConfigAccel : Byte := 0x1c

/-- The channels in the order of `get_measurements`. -/
def channels : List Channel := [.accelX, .accelY, .accelZ, .gyroX, .gyroY, .gyroZ, .temperature]

/-- Conversion to `std::int16_t`. -/
def i16 (n : Int) : Int := (n + 32768) % 65536 - 32768

/-- `gpio_smbus_motion_measurements`, `gpio_smbus_motion.i.h` 92-102. -/
abbrev Meas := Channel → Int

/-- The members of the object besides the bus: target, calibration, presence of a log. -/
structure Obj where
  target : Target
  calib : Meas
  log : Bool

section
variable {σ : Type} (io : σ → Req → σ × Outcome)

/-- The seven steps of `get_measurements`, 128-163.  `temp` is the variable `temp_ui16`, `none` while it
has no value; `get_word` leaves it alone if it fails. -/
def readFrom (t : Target) (mask : Nat) : List Channel → Bus σ → Option UInt16 → Meas →
    Bus σ × Option Meas
  | [], b, _, m => (b, some m)
  | c :: cs, b, temp, m =>
    if mask &&& c.bit = 0 then readFrom t mask cs b temp m
    else
      let r := getWord io b t c.reg
      match r.2 <|> temp with
      | none => (r.1, none)
      | some w => readFrom t mask cs r.1 (some w) (fun c' => if c' = c then i16 w.toNat else m c')

/-- `get_measurements`, 126-169. -/
def getMeasurements (t : Target) (mask : Nat) (b : Bus σ) : Bus σ × Option Meas :=
  readFrom io t mask channels b none (fun _ => 0)

/-- The loop of `calibrate`, 76-95: `left` repetitions remain out of 25, the first five are skipped.
The call of `_log->put_any` in line 86 has no test for a null pointer. -/
def calLoop (t : Target) (mask : Nat) (log : Bool) : Nat → Bus σ → Meas → Bus σ × Option Meas
  | 0, b, acc => (b, some acc)
  | left + 1, b, acc =>
    let r := getMeasurements io t (mask &&& 0xffbf) b
    match r.2 with
    | none => (r.1, none)
    | some temp =>
      if left + 1 > 20 then calLoop t mask log left r.1 acc
      else if log = false then (r.1, none)
      else calLoop t mask log left r.1
        (fun c => if c = .temperature then acc c else i16 (acc c + temp c))

/-- `calibrate`, 70-109. -/
def calibrate (m : Obj) (mask : Nat) (b : Bus σ) : Bus σ × Option Obj :=
  let r := calLoop io m.target mask m.log 25 b (fun _ => 0)
  match r.2 with
  | none => (r.1, none)
  | some acc =>
    (r.1, some { m with calib := fun c => if c = .temperature then m.calib c else (acc c).tdiv 20 })

/-- `get_value_from_measurement`, 212-217.  The conversion of `max_value` from `int16_t` is exact. -/
def valueOf (meas calib max : Int) : ℚ := (max : ℚ) * ((meas - calib : Int) : ℚ) / 32767

/-- `max_accel` and `max_gyro`, `gpio_smbus_motion.i.h` 150-151, as used in 178-199. -/
def Channel.max : Channel → Int
  | .accelX | .accelY | .accelZ => 16
  | _ => 2000

/-- `get_values_from_measurements`, 173-208. -/
def valuesOf (mask : Nat) (meas calib : Meas) : Channel → ℚ := fun c =>
  if mask &&& c.bit = 0 then 0
  else if c = .temperature then (meas c : ℚ) / 340 + 3653 / 100
  else valueOf (meas c) (calib c) c.max

/-- `get_values`, 113-122. -/
def getValues (m : Obj) (mask : Nat) (b : Bus σ) : Bus σ × Option (Channel → ℚ) :=
  let r := getMeasurements io m.target mask b
  match r.2 with
  | none => (r.1, none)
  | some meas => (r.1, some (valuesOf mask meas m.calib))

/-- The constructor with the default target, 38-66.  The results of `put_byte` are not looked at.  A
null bus makes it throw and is not modelled. -/
def construct (log : Bool) (b : Bus σ) : Bus σ × Obj :=
  let t : Target := ⟨0x68, true⟩
  let b := (putByte io b t regPwrMgmt1 0x00).1
  let b := (putByte io b t regConfig 0x03).1
  let b := (putByte io b t regConfigAccel ((0x03 : Byte) <<< (3 : Byte))).1
  let b := (putByte io b t regConfigGyro ((0x03 : Byte) <<< (3 : Byte))).1
  (b, ⟨t, fun _ => 0, log⟩)

end

/-! ## The sensor -/

/-- The physical world: whether the `n`-th request to the bus succeeds, the quantity on each channel
when the `n`-th request is made (g, degrees per second, degrees Celsius), and how the sensor turns a
number into an integer, to within one step. -/
structure World where
  ok : Nat → Bool
  phys : Nat → Channel → ℚ
  adc : Nat → ℚ → Int
  near : ∀ n q, |(adc n q : ℚ) - q| ≤ 1

/-- The sensor: how many requests it has seen, and its registers. -/
structure Dev where
  n : Nat
  regs : Byte → Byte

/-- The range of a channel: ±2 g and ±250 degrees per second, doubled by each step of bits 3 and 4 of
the configuration register. -/
def fullScale (regs : Byte → Byte) : Channel → ℚ
  | .accelX | .accelY | .accelZ => 2 * 2 ^ ((regs regConfigAccel).toNat / 8 % 4)
  | _ => 250 * 2 ^ ((regs regConfigGyro).toNat / 8 % 4)

/-- What a channel should deliver, in steps. -/
def steps (regs : Byte → Byte) (c : Channel) (x : ℚ) : ℚ :=
  if c = .temperature then (x - 3653 / 100) * 340 else x * 32768 / fullScale regs c

/-- The range of the 16-bit output registers. -/
def clamp (n : Int) : Int := max (-32768) (min 32767 n)

/-- The output of a channel: nothing while the sensor is asleep (bit 6 of the power register). -/
def raw (w : World) (d : Dev) (c : Channel) : Int :=
  if (d.regs regPwrMgmt1).toNat / 64 % 2 = 1 then 0
  else clamp (w.adc d.n (steps d.regs c (w.phys d.n c)))

/-- The sensor sends the high byte first; the driver puts the first byte into the low half of
`data.word`. -/
def wireBytes (n : Int) : List Byte :=
  [UInt8.ofNat ((n % 65536).toNat / 256), UInt8.ofNat ((n % 65536).toNat % 256)]

/-- The bus with the sensor on it. -/
def answer (w : World) (d : Dev) : Req → Dev × Outcome
  | .setAddress _ => ({ d with n := d.n + 1 }, if w.ok d.n then .ok [] else .failed)
  | .transfer m =>
    if w.ok d.n = false then ({ d with n := d.n + 1 }, .failed)
    else if m.read then
      ({ d with n := d.n + 1 }, .ok (block (match channels.find? (fun c => c.reg == m.reg) with
        | some c => wireBytes (raw w d c)
        | none => [])))
    else ({ n := d.n + 1, regs := fun r => if r = m.reg then m.data.getD 0 0 else d.regs r }, .ok m.data)

/-- The sensor after power-up: asleep, smallest ranges. -/
def powerUp : Dev := ⟨0, fun r => if r = regPwrMgmt1 then 0x40 else 0⟩

end Abc.Gpio.Motion
