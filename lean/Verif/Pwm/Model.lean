/-!
# Model of the PWM drivers

`/repo/src/x/gpio_smbus_pwm.x.h` (register arithmetic of the SMBus PWM) and
`/repo/src/x/gpio_pwm_emulator.x.h` (pulse durations of the software PWM).

Registers are 16 bits wide (`put_word(..., std::uint16_t)`); the computation is done in
`std::uint64_t` (`gpio_smbus_clock_frequency_t`).  Every operation that can wrap is wrapped
explicitly.  Division by zero is `none`.
-/

namespace Abc.Pwm

def u64 (n : Nat) : Nat := n % 2 ^ 64
def u16 (n : Nat) : Nat := n % 2 ^ 16

/-- `std::uint64_t` subtraction. -/
def sub64 (a b : Nat) : Nat := (a + 2 ^ 64 - b) % 2 ^ 64

/-- The loop of `get_autoreload_from_period`, `gpio_smbus_pwm.x.h` 170-174. -/
def autoreloadBitCount (period : Nat) : Nat :=
  if h : period = 0 then 0 else autoreloadBitCount (period / 4) + 1
decreasing_by omega

/-- `get_autoreload_from_period`, `gpio_smbus_pwm.x.h` 167-177. -/
def autoreloadFromPeriod (period : Nat) : Nat :=
  2 ^ autoreloadBitCount period / 1000 * 1000

/-- The fields of `gpio_smbus_pwm` the constructor computes. -/
structure State where
  minPulseWidth : Nat
  maxPulseWidth : Nat
  period : Nat
  autoreload : Nat
  prescaler : Nat
  /-- words written to the autoreload and prescaler registers (lines 101-102) -/
  regAutoreload : Nat
  regPrescaler : Nat
deriving DecidableEq, Repr

/-- End of the constructor: the computed fields and the two register words (lines 101-102). -/
def finish (min max period autoreload prescaler : Nat) : State :=
  { minPulseWidth := min, maxPulseWidth := max, period := period, autoreload := autoreload,
    prescaler := prescaler, regAutoreload := u16 (sub64 autoreload 1),
    regPrescaler := u16 (sub64 prescaler 1) }

/-- The constructor, `gpio_smbus_pwm.x.h` 41-107; pulse widths in microseconds (after the
`duration_cast` of lines 48-49; `gpio_pwm_duration::period::den` = 1000000).  The delegating
constructor of lines 111-116 is `minUs = maxUs = 0`.  `none`: division by zero. -/
def construct (clock frequency minUs maxUs : Nat) : Option State :=
  -- 67-80
  let min := if maxUs ≠ 0 then u64 (minUs * clock) / 1000000 else minUs
  let max := if maxUs ≠ 0 then u64 (maxUs * clock) / 1000000 else maxUs
  -- 83: `_period = clock / frequency`
  if frequency = 0 then none else
  let period := clock / frequency
  let autoreload := autoreloadFromPeriod period
  -- 85: `_prescaler = _period / _autoreload`
  if autoreload = 0 then none else
  let prescaler := period / autoreload
  -- 88-94
  if max = 0 then some (finish min autoreload period autoreload prescaler)
  else if prescaler = 0 then none
  else some (finish (min / prescaler) (max / prescaler) period autoreload prescaler)

/-- `capture_compare` as computed by `set_duty_cycle`, `gpio_smbus_pwm.x.h` 120-148 (in 64 bits,
before it is narrowed to the 16-bit register word). -/
def captureCompare (s : State) (dutyCycle : Nat) : Nat :=
  let duty := if dutyCycle > 100 then 100 else dutyCycle
  if duty = 0 then 0
  else if duty = 100 then s.autoreload
  else u64 (s.minPulseWidth + u64 (duty * sub64 s.maxPulseWidth s.minPulseWidth) / 100)

/-- The word written to the pulse register, line 154. -/
def regPwm (s : State) (dutyCycle : Nat) : Nat := u16 (captureCompare s dutyCycle)

/-! ## Software PWM -/

/-- Fields of `gpio_pwm_emulator`, in microseconds. -/
structure Emulator where
  minPulseWidth : Nat
  maxPulseWidth : Nat
  period : Nat
  dutyCycle : Nat
deriving DecidableEq, Repr

/-- The constructor's checks, `gpio_pwm_emulator.x.h` 41-66: `none` is division by zero in
`gpio_pwm_period`, `some none` is an exception.  Durations are taken non-negative. -/
def Emulator.construct (minUs maxUs frequency : Nat) : Option (Option Emulator) :=
  if frequency = 0 then none
  else if minUs > maxUs then some none
  else if maxUs > 1000000 / frequency then some none
  else some (some ⟨minUs, maxUs, 1000000 / frequency, 0⟩)

/-- `set_duty_cycle`, `gpio_pwm_emulator.x.h` 95-126. -/
def Emulator.setDutyCycle (e : Emulator) (duty : Nat) : Emulator :=
  if duty = e.dutyCycle then e
  else { e with dutyCycle := if duty > 100 then 100 else duty }

/-- One pulse of `thread_func`, `gpio_pwm_emulator.x.h` 158-196: (high duration, low duration) in
microseconds within one period; the constant levels (158-170) are a full-period high or low. -/
def Emulator.pulse (e : Emulator) : Int × Int :=
  if e.dutyCycle = 0 then (0, e.period)
  else if e.dutyCycle = 100 then (e.period, 0)
  else
    let high : Int := e.minPulseWidth +
      ((e.dutyCycle : Int) * ((e.maxPulseWidth : Int) - e.minPulseWidth)).tdiv 100
    (high, e.period - high)

end Abc.Pwm
