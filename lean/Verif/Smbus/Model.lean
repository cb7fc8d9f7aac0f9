import Verif.Ascii.Model

/-!
# Model of `gpio_smbus` (`src/x/gpio_smbus.x.h`)

The kernel and the devices are an arbitrary function `io` over an arbitrary state: it answers every
`ioctl` request.  The model keeps, besides the members of the object, the address the kernel currently
uses and the list of transfers the kernel carried out.  Logging itself is not modelled, only whether
there is a log.  `none` is undefined behaviour.
-/

namespace Abc.Smbus

open Abc.Ascii

/-- `i2c_smbus_ioctl_data`: direction, register (`command`), kind (`size`) and the data block. -/
structure Msg where
  read : Bool
  reg : Byte
  kind : Nat
  data : List Byte
deriving DecidableEq, Repr

/-- `I2C_SMBUS_BYTE`. -/
def kindByte : Nat := 1
/-- `I2C_SMBUS_BYTE_DATA`. -/
def kindByteData : Nat := 2
/-- `I2C_SMBUS_WORD_DATA`. -/
def kindWordData : Nat := 3
/-- `I2C_SMBUS_BLOCK_DATA`. -/
def kindBlockData : Nat := 5
/-- `I2C_SMBUS_BLOCK_MAX`; `i2c_smbus_data::block` has two bytes more. -/
def blockMax : Nat := 32

/-- The requests made: `I2C_SLAVE_FORCE` and `I2C_SMBUS`. -/
inductive Req where
  | setAddress (addr : Nat)
  | transfer (m : Msg)
deriving DecidableEq, Repr

/-- Outcomes of `safe_ioctl`, 487-495: success (with the data block afterwards), failure, or the mutex
could not be locked (an exception is caught). -/
inductive Outcome where
  | ok (data : List Byte)
  | failed
  | threw

/-- What `safe_ioctl` returns: `ioctl` gives 0 or -1, and the handler returns `ENOLCK` = 37. -/
def Outcome.code : Outcome → Int
  | .ok _ => 0
  | .failed => -1
  | .threw => 37

/-- The object (`_addr`, presence of `_log`), the environment, the address set in the kernel and the
transfers carried out, each with the address it went to. -/
structure Bus (σ : Type) where
  addr : Nat
  log : Bool
  env : σ
  kernelAddr : Nat
  done : List (Nat × Msg)

/-- A target device: address and whether it needs its bytes swapped, 511-537. -/
structure Target where
  address : Nat
  swap : Bool

section
variable {σ : Type} (io : σ → Req → σ × Outcome)

/-- `safe_ioctl(I2C_SLAVE_FORCE, addr)`. -/
def ioctlAddress (b : Bus σ) (addr : Nat) : Bus σ × Int :=
  let r := io b.env (.setAddress addr)
  ({ b with env := r.1, kernelAddr := if r.2.code = 0 then addr else b.kernelAddr }, r.2.code)

/-- `safe_ioctl(I2C_SMBUS, &msg)`: the result code and the data block after the call. -/
def ioctlTransfer (b : Bus σ) (m : Msg) : Bus σ × Int × List Byte :=
  let r := io b.env (.transfer m)
  match r.2 with
  | .ok data => ({ b with env := r.1, done := b.done ++ [(b.kernelAddr, m)] }, 0, data)
  | o => ({ b with env := r.1 }, o.code, m.data)

/-- `ensure_address`, 457-482.  Both early returns sit inside `if (_log != nullptr)`. -/
def ensureAddress (b : Bus σ) (addr : Nat) : Bus σ × Bool :=
  if b.addr = addr ∧ b.log = true then (b, true)
  else
    let r := ioctlAddress io b addr
    if r.2 < 0 ∧ b.log = true then (r.1, false)
    else ({ r.1 with addr := addr }, true)

/-- Common part of the transfer functions: `ensure_address`, then `I2C_SMBUS`; the early returns sit
inside `if (_log != nullptr)`.  `none` in the data: returned `false`. -/
def transfer (b : Bus σ) (t : Target) (m : Msg) : Bus σ × Option (List Byte) :=
  let r := ensureAddress io b t.address
  if r.2 = false ∧ b.log = true then (r.1, none)
  else
    let s := ioctlTransfer io r.1 m
    if s.2.1 < 0 ∧ b.log = true then (s.1, none)
    else (s.1, some s.2.2)

/-- A zero-initialised `i2c_smbus_data` beginning with the given bytes. -/
def block (l : List Byte) : List Byte := l ++ List.replicate (blockMax + 2 - l.length) 0

/-- `swap_bytes`, 499-504. -/
def swapBytes (w : UInt16) : UInt16 := ((w &&& 0x00ff) <<< 8) ||| ((w >>> 8) &&& 0x00ff)

/-- A word as stored in `data.word` (little endian). -/
def wordBytes (w : UInt16) : List Byte := [w.toUInt8, (w >>> 8).toUInt8]

/-- `data.word` of a data block. -/
def wordOf (d : List Byte) : UInt16 := (d.getD 0 0).toUInt16 ||| ((d.getD 1 0).toUInt16 <<< 8)

/-- `put_nodata`, 129-156. -/
def putNodata (b : Bus σ) (t : Target) (reg : Byte) : Bus σ × Bool :=
  let r := transfer io b t ⟨false, reg, kindByte, []⟩
  (r.1, r.2.isSome)

/-- `put_byte`, 160-191. -/
def putByte (b : Bus σ) (t : Target) (reg byte : Byte) : Bus σ × Bool :=
  let r := transfer io b t ⟨false, reg, kindByteData, block [byte]⟩
  (r.1, r.2.isSome)

/-- `put_word`, 195-226. -/
def putWord (b : Bus σ) (t : Target) (reg : Byte) (word : UInt16) : Bus σ × Bool :=
  let r := transfer io b t ⟨false, reg, kindWordData, block (wordBytes (if t.swap then swapBytes word else word))⟩
  (r.1, r.2.isSome)

/-- `put_block`, 230-270: `bytes` is the block passed, `size` its size.  The check of the size returns
only when there is a log; `memmove` then writes past `data.block` if the size is above 33. -/
def putBlock (b : Bus σ) (t : Target) (reg : Byte) (bytes : List Byte) : Option (Bus σ × Bool) :=
  if bytes.length > blockMax ∧ b.log = true then some (b, false)
  else
    let e := ensureAddress io b t.address
    if e.2 = false ∧ b.log = true then some (e.1, false)
    else if bytes.length > blockMax + 1 then none
    else
      let s := ioctlTransfer io e.1 ⟨false, reg, kindBlockData, block (UInt8.ofNat bytes.length :: bytes)⟩
      if s.2.1 < 0 ∧ b.log = true then some (s.1, false)
      else some (s.1, true)

/-- `get_noreg`, 274-305; `none`: returned `false`. -/
def getNoreg (b : Bus σ) (t : Target) : Bus σ × Option Byte :=
  let r := transfer io b t ⟨true, 0, kindByte, block []⟩
  (r.1, r.2.map (·.getD 0 0))

/-- `get_noreg_2`, 309-335.  The value read is the word; the early returns again need a log, but
`get_noreg` cannot return `false` without one. -/
def getNoreg2 (b : Bus σ) (t : Target) : Bus σ × Option UInt16 :=
  let r0 := getNoreg io b t
  match r0.2 with
  | none => (r0.1, none)
  | some byte0 =>
    let r1 := getNoreg io r0.1 t
    match r1.2 with
    | none => (r1.1, none)
    | some byte1 =>
      (r1.1, some (if t.swap then (byte0.toUInt16 <<< 8) ||| byte1.toUInt16 else (byte1.toUInt16 <<< 8) ||| byte0.toUInt16))

/-- `get_byte`, 339-371. -/
def getByte (b : Bus σ) (t : Target) (reg : Byte) : Bus σ × Option Byte :=
  let r := transfer io b t ⟨true, reg, kindByteData, block []⟩
  (r.1, r.2.map (·.getD 0 0))

/-- `get_word`, 375-407. -/
def getWord (b : Bus σ) (t : Target) (reg : Byte) : Bus σ × Option UInt16 :=
  let r := transfer io b t ⟨true, reg, kindWordData, block []⟩
  (r.1, r.2.map (fun d => if t.swap then swapBytes (wordOf d) else wordOf d))

/-- `get_block`, 411-453: `size` is the room in the caller's block.  The outer `none` is undefined
behaviour (more bytes copied than the caller's block or `data.block` has), the inner one `false`. -/
def getBlock (b : Bus σ) (t : Target) (reg : Byte) (size : Nat) : Option (Bus σ × Option (List Byte)) :=
  let r := transfer io b t ⟨true, reg, kindBlockData, block [UInt8.ofNat size]⟩
  match r.2 with
  | none => some (r.1, none)
  | some d =>
    let n := (d.getD 0 0).toNat
    if n > size ∧ b.log = true then some (r.1, none)
    else if n > size ∨ n + 1 > d.length then none
    else some (r.1, some ((d.drop 1).take n))

end

end Abc.Smbus
