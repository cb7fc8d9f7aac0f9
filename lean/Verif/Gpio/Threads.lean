/-
Model of the background threads of the motion tracker and of the PWM emulator
(/repo/src/x/gpio_smbus_motion_tracker.x.h lines 36-101 and 153-276,
/repo/src/x/gpio_pwm_emulator.x.h lines 40-207): C45.

A state holds the shared atomic variables, the point the worker has reached and the atomic actions
the owner still has to perform.  One step is one access to a shared variable, one notification, or
one wait.  Simplifications: measuring and sleeping are single steps that touch nothing shared; the
mutex is held by the worker only, so locking it never blocks; time-outs may strike at any moment;
constructors are left out (their exceptions leave a running `std::thread` behind, which calls
`std::terminate`).
-/
import Mathlib.Tactic.Basic
import Mathlib.Tactic.ByContra

namespace Abc.Threads

/-- What the scheduler does next. -/
inductive Choice where
  | worker
  | owner
  | spurious   -- `condition_variable::wait` returns without a notification
deriving DecidableEq, Repr

/-! ## The motion tracker -/

namespace Tracker

/-- The atomic actions of the owner. -/
inductive Act where
  | setRun (b : Bool)
  | setQuit
  | notify
  | join
deriving DecidableEq, Repr

/-- The calls: `start` (motion_tracker.x.h 89-94), `stop` (98-102), the destructor (63-79). -/
inductive Call where
  | start | stop | destroy
deriving DecidableEq, Repr

def Call.acts : Call → List Act
  | .start => [.setRun true, .notify]
  | .stop => [.setRun false]
  | .destroy => [.setQuit, .notify, .join]

/-- Where the worker is in `thread_func` (motion_tracker.x.h 154-278). -/
inductive Pc where
  | top                    -- before 167
  | readRun (quit : Bool)  -- 168: `quit` is read, `run` is not
  | settling               -- 178-189: from the test of `run` up to the call of `wait`
  | waiting                -- 189, blocked in `wait`
  | woken                  -- 191-192
  | measuring              -- 206-269
  | done
deriving DecidableEq, Repr

structure St where
  quit : Bool
  run : Bool
  pc : Pc
  todo : List Act
deriving DecidableEq, Repr

/-- One step of the worker; `none`: it cannot move. -/
def worker (s : St) : Option St :=
  match s.pc with
  | .top => some { s with pc := .readRun s.quit }
  | .readRun q => some { s with pc := if q then .done else if !s.run then .settling else .measuring }
  | .settling => some { s with pc := .waiting }
  | .waiting => none
  | .woken => some { s with pc := if s.quit then .done else .measuring }
  | .measuring => some { s with pc := .top }
  | .done => none

/-- One action of the owner; `join` returns only when the worker has finished. -/
def owner (s : St) : Option St :=
  match s.todo with
  | [] => none
  | .setRun b :: l => some { s with run := b, todo := l }
  | .setQuit :: l => some { s with quit := true, todo := l }
  | .notify :: l => some { s with pc := if s.pc = .waiting then .woken else s.pc, todo := l }
  | .join :: l => if s.pc = .done then some { s with todo := l } else none

def step (s : St) : Choice → Option St
  | .worker => worker s
  | .owner => owner s
  | .spurious => if s.pc = .waiting then some { s with pc := .woken } else none

/-- A run: every choice must be possible. -/
def run (s : St) : List Choice → Option St
  | [] => some s
  | c :: cs => (step s c).bind fun s' => run s' cs

/-- After the constructor (38-59), with the calls the owner is going to make. -/
def init (calls : List Call) : St :=
  ⟨false, false, .top, calls.flatMap Call.acts⟩

/-- Neither thread can move and no wake-up out of nowhere comes to help. -/
def Stuck (s : St) : Prop := worker s = none ∧ owner s = none

end Tracker

/-! ## The PWM emulator -/

namespace Emulator

inductive Act where
  | setDuty (d : Nat)
  | setQuit
  | notify
  | join
deriving DecidableEq, Repr

/-- Where the worker is in `thread_func` (pwm_emulator.x.h 138-202), with its local variables
`quit` and `duty_cycle`. -/
inductive Pc where
  | start                                    -- 145
  | startDuty (quit : Bool)                  -- 146
  | top (quit : Bool) (duty : Nat)           -- 149
  | waiting                                  -- 165: `wait_for`
  | woken                                    -- 167
  | wokenDuty (quit : Bool)                  -- 168
  | high (duty : Nat)                        -- 181: before the level goes high
  | highQuit (duty : Nat)                    -- 183: reading `quit` while high
  | highDuty (quit : Bool)                   -- 184
  | low (long : Bool) (quit : Bool) (duty : Nat)  -- 189; `long`: the variables are read here
  | lowQuit                                  -- 191
  | lowDuty (quit : Bool)                    -- 192
  | done
deriving DecidableEq, Repr

/-- The shared variables, the level of the line, the worker and the owner's remaining actions. -/
structure St where
  quit : Bool
  duty : Nat
  level : Bool
  pc : Pc
  todo : List Act
deriving DecidableEq, Repr

/-- The times of the emulator: the high part of a period is at least as long as the low part
(`high_duration >= low_duration`, 181) for these duty cycles, and the duty cycles of constant
level are 0 and `max` (`gpio_pwm_duty_cycle`, 100). -/
structure Params where
  longHigh : Nat → Bool
  max : Nat

/-- One step of the worker.  `wait_for` returns after `const_level_period` at the latest, so the
worker can always move on from `waiting`. -/
def worker (p : Params) (s : St) : Option St :=
  match s.pc with
  | .start => some { s with pc := .startDuty s.quit }
  | .startDuty q => some { s with pc := .top q s.duty }
  | .top q d =>
    if q then some { s with level := false, pc := .done }
    else if d = 0 ∨ d = p.max then some { s with level := d != 0, pc := .waiting }
    else some { s with pc := .high d }
  | .waiting => some { s with pc := .woken }
  | .woken => some { s with pc := .wokenDuty s.quit }
  | .wokenDuty q => some { s with pc := .top q s.duty }
  | .high d => some { s with level := true, pc := if p.longHigh d then .highQuit d else .low true false d }
  | .highQuit _ => some { s with pc := .highDuty s.quit }
  | .highDuty q => some { s with pc := .low false q s.duty }
  | .low long q d => some { s with level := false, pc := if long then .lowQuit else .top q d }
  | .lowQuit => some { s with pc := .lowDuty s.quit }
  | .lowDuty q => some { s with pc := .top q s.duty }
  | .done => none

/-- One action of the owner (destructor 76-92, `set_duty_cycle` 95-126). -/
def owner (s : St) : Option St :=
  match s.todo with
  | [] => none
  | .setDuty d :: l => some { s with duty := d, todo := l }
  | .setQuit :: l => some { s with quit := true, todo := l }
  | .notify :: l => some { s with pc := if s.pc = .waiting then .woken else s.pc, todo := l }
  | .join :: l => if s.pc = .done then some { s with todo := l } else none

def step (p : Params) (s : St) : Choice → Option St
  | .worker => worker p s
  | .owner => owner s
  | .spurious => if s.pc = .waiting then some { s with pc := .woken } else none

def run (p : Params) (s : St) : List Choice → Option St
  | [] => some s
  | c :: cs => (step p s c).bind fun s' => run p s' cs

/-- After the constructor: any duty cycles are set, then the object is destroyed. -/
def init (duties : List Nat) : St :=
  ⟨false, 0, false, .start, duties.flatMap (fun d => [.setDuty d, .notify]) ++ [.setQuit, .notify, .join]⟩

end Emulator

end Abc.Threads
