import Verif.Ascii.Model

/-!
# Streams: the part of `std::istream` / `std::ostream` used by `src/stream.h`, `src/http.h`, `src/json.h`

An input stream is the bytes its stream buffer will still deliver plus the three state bits.  An
output stream is the bytes accepted so far, the number of bytes the stream buffer will still accept
(`room`), and the state bits.  The behaviour of `peek`, `get`, `put`, `clear`, `setstate` is that of
the C++ standard (trusted); the exception mask is never set by the code, so no stream call throws.

Memory blocks are lists of bytes; a write outside a block is undefined behaviour (`Res.ub`).
-/

namespace Abc.Stream

open Abc.Ascii

/-- Outcome of a piece of C++ code: a value, undefined behaviour, or "still running" after the number
of loop iterations given as fuel. -/
inductive Res (α : Type) where
  | ok (a : α)
  | ub
  | running
  deriving DecidableEq, Repr

/-- Sequencing. -/
def Res.bind {α β : Type} (r : Res α) (f : α → Res β) : Res β :=
  match r with
  | .ok a => f a
  | .ub => .ub
  | .running => .running

@[simp] theorem Res.ok_bind {α β : Type} (a : α) (f : α → Res β) : (Res.ok a).bind f = f a := rfl
@[simp] theorem Res.ub_bind {α β : Type} (f : α → Res β) : (Res.ub : Res α).bind f = .ub := rfl
@[simp] theorem Res.running_bind {α β : Type} (f : α → Res β) :
    (Res.running : Res α).bind f = .running := rfl

/-- Subtraction of `std::size_t` values. -/
def sub64 (a b : Nat) : Nat := (a + (2 ^ 64 - b)) % 2 ^ 64

/-- Write one byte into a block. -/
def wr (mem : List Byte) (i : Nat) (c : Byte) : Res (List Byte) :=
  if i < mem.length then .ok (mem.set i c) else .ub

/-- An input stream: the bytes to come and `eofbit`, `failbit`, `badbit`. -/
structure In where
  rest : List Byte
  eof : Bool := false
  fail : Bool := false
  bad : Bool := false
  deriving DecidableEq, Repr

namespace In

/-- `stream::is_good`, `src/stream.h` 96-98. -/
def good (s : In) : Bool := !s.eof && !s.fail && !s.bad
/-- `stream::set_bad`, 102-104 (`clear` replaces all the bits). -/
def setBad (s : In) : In := { s with eof := false, fail := true, bad := true }
/-- `stream::set_bad_if`, 108-112. -/
def setBadIf (s : In) (c : Bool) : In := if c then s.setBad else s
/-- `stream::set_fail`, 116-118. -/
def setFail (s : In) : In := { s with fail := true }
/-- Value of `std::istream::peek()` converted to `char` (end of file is -1). -/
def peekV (s : In) : Byte :=
  if s.good then (match s.rest with | [] => 0xFF | c :: _ => c) else 0xFF
/-- State after `std::istream::peek()`. -/
def peekS (s : In) : In :=
  if s.good then (match s.rest with | [] => { s with eof := true } | _ :: _ => s) else s.setFail
/-- Value of `std::istream::get()` converted to `char`. -/
def getV (s : In) : Byte := s.peekV
/-- State after `std::istream::get()`. -/
def getS (s : In) : In :=
  if s.good then
    (match s.rest with | [] => { s with eof := true, fail := true } | _ :: r => { s with rest := r })
  else s.setFail

/-- Value of `http_istream::peek_char` (`src/http.h` 377-386, `valid` = `is_ascii`) and of
`json_istream::peek_char` (`src/json.h` 634-643, `valid` = `is_valid`, constantly true). -/
def peekCharV (valid : Byte → Bool) (s : In) : Byte := if valid s.peekV then s.peekV else 0
/-- State after `peek_char`. -/
def peekCharS (valid : Byte → Bool) (s : In) : In :=
  if valid s.peekV then s.peekS else s.peekS.setBad
/-- State after `get_char` (`src/http.h` 365-373, `src/json.h` 622-630); its value is `peekCharV`. -/
def getCharS (valid : Byte → Bool) (s : In) : In :=
  if (s.peekCharS valid).good then (s.peekCharS valid).getS else s.peekCharS valid

end In

/-- What a `get_chars` call leaves behind. -/
structure Got where
  s : In
  mem : List Byte
  n : Nat
  deriving DecidableEq, Repr

/-- The end of `get_chars`: the terminating NUL. -/
def getCharsEnd (off : Nat) (s : In) (mem : List Byte) (n : Nat) : Res Got :=
  (wr mem (off + n) 0).bind fun mem => .ok ⟨s, mem, n⟩

/-- The loop of `get_chars`, `src/http.h` 334-348 and `src/json.h` 591-605; `buffer` is the block `mem`
from offset `off`. -/
def getCharsLoop (valid pred : Byte → Bool) (off size : Nat) :
    Nat → In → List Byte → Nat → Res Got
  | 0, _, _, _ => .running
  | fuel + 1, s, mem, n =>
    if s.good then
      if pred (s.peekCharV valid) then
        if n = sub64 size 1 then getCharsEnd off (s.peekCharS valid).setFail mem n
        else (wr mem (off + n) (s.peekCharS valid).getV).bind fun mem =>
          getCharsLoop valid pred off size fuel (s.peekCharS valid).getS mem (n + 1)
      else getCharsEnd off (s.peekCharS valid) mem n
    else getCharsEnd off s mem n

/-- `get_chars`, `src/http.h` 334-348 and `src/json.h` 591-605. -/
def getChars (fuel : Nat) (valid pred : Byte → Bool) (s : In) (mem : List Byte) (off size : Nat) :
    Res Got := getCharsLoop valid pred off size fuel s mem 0

/-- State and count after `skip_chars`. -/
structure Skipped where
  s : In
  n : Nat
  deriving DecidableEq, Repr

/-- The loop of `skip_chars`, `src/http.h` 352-361 and `src/json.h` 609-618. -/
def skipCharsLoop (valid pred : Byte → Bool) : Nat → In → Nat → Res Skipped
  | 0, _, _ => .running
  | fuel + 1, s, n =>
    if s.good then
      if pred (s.peekCharV valid) then
        skipCharsLoop valid pred fuel (s.peekCharS valid).getS (n + 1)
      else .ok ⟨s.peekCharS valid, n⟩
    else .ok ⟨s, n⟩

/-- `skip_chars`. -/
def skipChars (fuel : Nat) (valid pred : Byte → Bool) (s : In) : Res Skipped :=
  skipCharsLoop valid pred fuel s 0

/-- An output stream. -/
structure Out where
  out : List Byte
  room : Nat
  fail : Bool := false
  bad : Bool := false
  deriving DecidableEq, Repr

namespace Out

/-- `is_good` (an output stream never gets `eofbit`). -/
def good (o : Out) : Bool := !o.fail && !o.bad
/-- `set_bad`. -/
def setBad (o : Out) : Out := { o with fail := true, bad := true }
/-- `set_bad_if`. -/
def setBadIf (o : Out) (c : Bool) : Out := if c then o.setBad else o
/-- `set_fail`. -/
def setFail (o : Out) : Out := { o with fail := true }
/-- `std::ostream::put`: nothing when the stream is not good; `badbit` when the stream buffer refuses
the byte. -/
def put (o : Out) (c : Byte) : Out :=
  if o.good then
    (match o.room with
     | 0 => { o with bad := true }
     | r + 1 => { o with out := o.out ++ [c], room := r })
  else o

end Out

end Abc.Stream
