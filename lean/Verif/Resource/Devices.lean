import Verif.Resource.Kernel

/-!
# Devices: GPIO chips and lines, the SMBus, the ultrasonic sensor, the pool file

Model of how `gpio_chip`, `gpio_line` (with `gpio_input_line`, `gpio_output_line`), `gpio_smbus`,
`gpio_ultrasonic` and `vmem_pool` obtain, pass on and give back descriptors.  `gpio_smbus_motor` and
`gpio_pwm_emulator` hold one line and nothing else that is a descriptor; for this purpose they are
lines (the emulator cannot be moved in fact, because it has a mutex and a thread).
-/

namespace Abc.Resource.Devices

open Abc.Resource

inductive Kind where
  | chip | line | bus | ultrasonic | pool
deriving DecidableEq, Repr

/-- An object and the descriptors in its members, in the order of the members.  A member that is `-1`
is left out. -/
structure Dev where
  kind : Kind
  fds : List Desc
deriving DecidableEq, Repr

/-- Answers of the system to the constructor of a line: `open`, the number of the line from
`ioctl(get_line)`, and whether `close` reports success. -/
structure LineAnswers where
  «open» : Option Nat
  line : Option Nat
  close : Bool
deriving DecidableEq, Repr

/-- `gpio_line.x.h` 46-88, from `open` on.  Line 76 and line 80 throw without giving anything back:
the destructor of an object whose constructor throws is not run.  `close` gives the number back
whatever it reports (Linux). -/
def makeLine (k : Kernel) (a : LineAnswers) : Kernel × Option Desc :=
  match k.fresh a.open with
  | (k, none) => (k, none)                              -- 57-59
  | (k, some fd) =>
    let k := k.use fd                                   -- 74
    match k.fresh a.line with
    | (k, none) => (k, none)                            -- 75-77
    | (k, some line) =>
      let k := k.close fd                               -- 79
      if a.close then (k, some line) else (k, none)     -- 79-81, 83

/-- Closing members in the reverse order of their construction. -/
def closeAll (k : Kernel) : List Desc → Kernel
  | [] => k
  | d :: ds => (closeAll k ds).close d

def useAll (k : Kernel) : List Desc → Kernel
  | [] => k
  | d :: ds => useAll (k.use d) ds

structure World where
  k : Kernel
  objs : List (Option Dev)
deriving DecidableEq, Repr

namespace World

def init : World := ⟨Kernel.init, []⟩

def get (w : World) (i : Nat) : Option Dev := (w.objs[i]?).getD none

def add (w : World) (x : Dev) : World := { w with objs := w.objs ++ [some x] }

def put (w : World) (i : Nat) (x : Option Dev) : World := { w with objs := w.objs.set i x }

end World

inductive Op where
  /-- `gpio_chip(path, consumer)` -/
  | newChip (o : Option Nat)
  /-- `chip_info()`, `line_info()` -/
  | info (i : Nat) (o : Option Nat)
  /-- `gpio_line(chip, …)` and its derived classes -/
  | newLine (chip : Nat) (a : LineAnswers)
  /-- `gpio_ultrasonic(chip, …)` -/
  | newUltrasonic (chip : Nat) (a b : LineAnswers)
  /-- `gpio_smbus(path)`; `funcs`: whether `ioctl(I2C_FUNCS)` succeeds -/
  | newBus (o : Option Nat) (funcs : Bool)
  /-- `vmem_pool(path)`; `rest`: whether everything after `open` succeeds (`PoolOpen.lean` says when) -/
  | newPool (o : Option Nat) (rest : Bool)
  | move (i : Nat)
  /-- any other call: `get_level`, `put_level`, transfers on the bus, `mmap`, `lseek`, `write` -/
  | use (i : Nat)
  | destroy (i : Nat)
deriving DecidableEq, Repr

/-- `none`: there is no such call (the object is gone, or of another class, or the class cannot be
moved). -/
inductive Out where
  | done | thrown | none
deriving DecidableEq, Repr

def step (w : World) : Op → World × Out
  | .newChip o =>
    -- `gpio_chip.x.h` 95-99; the path is kept, not the descriptor
    match w.k.fresh o with
    | (k, none) => ({ w with k := k }, .thrown)
    | (k, some fd) => ({ w with k := k.close fd }.add ⟨.chip, []⟩, .done)
  | .info i o =>
    -- `gpio_chip.x.h` 123-159, 163-204: `ioctl` may fail, `close` comes before the test
    match w.get i with
    | some ⟨.chip, _⟩ =>
      match w.k.fresh o with
      | (k, none) => ({ w with k := k }, .done)
      | (k, some fd) => ({ w with k := (k.use fd).close fd }, .done)
    | _ => (w, .none)
  | .newLine chip a =>
    match w.get chip with
    | some ⟨.chip, _⟩ =>
      match makeLine w.k a with
      | (k, none) => ({ w with k := k }, .thrown)
      | (k, some d) => ({ w with k := k }.add ⟨.line, [d]⟩, .done)
    | _ => (w, .none)
  | .newUltrasonic chip a b =>
    -- `gpio_ultrasonic.x.h` 43-50: if the second line throws the first is destroyed
    match w.get chip with
    | some ⟨.chip, _⟩ =>
      match makeLine w.k a with
      | (k, none) => ({ w with k := k }, .thrown)
      | (k, some d) =>
        match makeLine k b with
        | (k, none) => ({ w with k := k.close d }, .thrown)
        | (k, some e) => ({ w with k := k }.add ⟨.ultrasonic, [d, e]⟩, .done)
    | _ => (w, .none)
  | .newBus o funcs =>
    -- `gpio_smbus.x.h` 95-102: line 101 throws with `_fd` open
    match w.k.fresh o with
    | (k, none) => ({ w with k := k }, .thrown)
    | (k, some fd) =>
      let k := k.use fd
      if funcs then ({ w with k := k }.add ⟨.bus, [fd]⟩, .done) else ({ w with k := k }, .thrown)
  | .newPool o rest =>
    -- `vmem_pool.x.h` 51-77: `open_pool_or_throw` (157), then anything may throw with `_fd` open
    match w.k.fresh o with
    | (k, none) => ({ w with k := k }, .thrown)
    | (k, some fd) =>
      let k := k.use fd
      if rest then ({ w with k := k }.add ⟨.pool, [fd]⟩, .done) else ({ w with k := k }, .thrown)
  | .move i =>
    match w.get i with
    | none => (w, .none)
    | some x =>
      match x.kind with
      -- `i/gpio_smbus.i.h` 77 is defaulted and therefore deleted, because of the mutex (237)
      | .bus => (w, .none)
      -- `vmem_pool.x.h` 81-96: `_fd` becomes -1
      | .pool => ((w.put i (some ⟨.pool, []⟩)).add x, .done)
      -- `i/gpio_line.i.h` 56, `i/gpio_ultrasonic.i.h` 60, `i/gpio_chip.i.h` 97: defaulted, copies
      | _ => (w.add x, .done)
  | .use i =>
    match w.get i with
    | none => (w, .none)
    | some x => ({ w with k := useAll w.k x.fds }, .done)
  | .destroy i =>
    -- `gpio_line.x.h` 92-96, `gpio_smbus.x.h` 66-78, `vmem_pool.x.h` 100-137.  An object of class
    -- pool that was moved from has `_ready == false` and closes nothing.
    match w.get i with
    | none => (w, .none)
    | some x => ({ w with k := closeAll w.k x.fds }.put i none, .done)

def run (w : World) : List Op → World
  | [] => w
  | op :: ops => run (step w op).1 ops

end Abc.Resource.Devices
