import Verif.Ascii.Model

/-!
# Model of the three stream buffers

`src/buffer_streambuf.h` (over a caller's array), `src/x/vmem_string.x.h` (over a `vmem_string`) and
`socket_streambuf` in `src/socket.h` (over a connection).

The functions of `std::streambuf` that the streams call are modelled as in the C++ standard
(`sputc`, `sgetc`, `sbumpc` with the default `uflow`; `sputn` is a sequence of `sputc`).
`int_type` is `Int`, `eof()` is `-1`; `to_int_type` maps a `char` to `0 … 255`.
-/

namespace Abc.Streambuf
open Abc.Ascii

/-- `std::char_traits<char>::eof()`. -/
def eof : Int := -1

/-- `std::char_traits<char>::to_int_type`. -/
def toInt (c : Byte) : Int := c.toNat

/-- What a caller sees: end of stream, or the low 8 bits as a `char`. -/
def toByte? (i : Int) : Option Byte := if i = eof then none else some (UInt8.ofInt i)

/-! ## Output of `vmem_basic_string_streambuf` and `socket_streambuf`

Both have a one-character put area `_put_ch`; `pending` is its content when `pptr() != &_put_ch`.
`sink` are the bytes pushed to the string / delivered by successful `send`s. -/

/-- State of the output side. -/
structure Out where
  pending : Option Byte
  sink : List Byte
  sends : Nat
deriving DecidableEq, Repr

/-- Just constructed: `setp(&_put_ch, &_put_ch + 1)` (`vmem_string.x.h` 49, `socket.h` 533). -/
def Out.init : Out := ⟨none, [], 0⟩

/-- `_socket->send(&c, 1)` (`socket.h` 350-391) or `_string->push_back(c)`.  `ok n` tells whether the
`n`-th call transfers its byte; the result of `send` is ignored by the callers.  A `push_back` that
throws is not modelled (for a string take `ok := fun _ => true`). -/
def Out.emit (ok : Nat → Bool) (c : Byte) (s : Out) : Out :=
  { s with sink := if ok s.sends then s.sink ++ [c] else s.sink, sends := s.sends + 1 }

/-- `sputc(c)`, with `overflow` (`vmem_string.x.h` 90-97, `socket.h` 564-571): returns the result of
`sputc`. -/
def Out.sputc (ok : Nat → Bool) (c : Byte) (s : Out) : Out × Int :=
  match s.pending with
  | none => ({ s with pending := some c }, toInt c)
  | some p => ({ (s.emit ok p).emit ok c with pending := none }, toInt c)

/-- `sync()`, `vmem_string.x.h` 100-108, `socket.h` 575-583; always returns 0 (success). -/
def Out.sync (ok : Nat → Bool) (s : Out) : Out × Int :=
  match s.pending with
  | none => (s, 0)
  | some p => ({ s.emit ok p with pending := none }, 0)

/-- What a program does with the output side. -/
inductive OutOp where
  | put (c : Byte)
  | flush

/-- One step; the second component is `true` if the stream is told that all went well. -/
def Out.step (ok : Nat → Bool) (s : Out) : OutOp → Out × Bool
  | .put c => let r := s.sputc ok c; (r.1, decide (r.2 ≠ eof))
  | .flush => let r := s.sync ok; (r.1, decide (r.2 ≠ -1))

/-- A history; the Boolean accumulates success reports. -/
def Out.run (ok : Nat → Bool) : List OutOp → Out × Bool → Out × Bool
  | [], s => s
  | op :: ops, s => Out.run ok ops ((s.1.step ok op).1, s.2 && (s.1.step ok op).2)

/-! ## Input -/

/-- State of the input side: `_get_ch` (`none`: never initialised), whether `gptr() < egptr()`, and
the bytes that are still to come from the string or the peer. -/
structure In where
  getCh : Option Byte
  avail : Bool
  rest : List Byte
deriving DecidableEq, Repr

/-- Value of a `char` converted to `int_type` by `return _get_ch;`. -/
def charToInt (c : Byte) : Int := sc c

/-- `vmem_basic_string_streambuf::underflow`, `vmem_string.x.h` 72-87; the iterator is the list of the
items it has not visited. -/
def stringUnderflow (s : In) : Option (In × Int) :=
  match s.rest with
  | [] => some (s, eof)
  | b :: r => some (⟨some b, true, r⟩, charToInt b)

/-- `socket_streambuf::underflow`, `socket.h` 554-560.  When the peer has closed, `receive` stores
nothing (`recv` returns 0) and the result is not looked at.  Reading the never initialised `_get_ch` is
undefined. -/
def socketUnderflow (s : In) : Option (In × Int) :=
  match s.rest with
  | [] =>
    match s.getCh with
    | none => none
    | some c => some (⟨some c, true, []⟩, charToInt c)
  | b :: r => some (⟨some b, true, r⟩, charToInt b)

/-- `sgetc()` of `std::streambuf`. -/
def sgetc (underflow : In → Option (In × Int)) (s : In) : Option (In × Int) :=
  if s.avail then
    match s.getCh with
    | none => none
    | some c => some (s, toInt c)
  else underflow s

/-- `sbumpc()` of `std::streambuf`, with the default `uflow()`. -/
def sbumpc (underflow : In → Option (In × Int)) (s : In) : Option (In × Int) :=
  if s.avail then
    match s.getCh with
    | none => none
    | some c => some ({ s with avail := false }, toInt c)
  else
    match underflow s with
    | none => none
    | some (s', i) =>
      if i = eof then some (s', eof)
      else
        match s'.getCh with
        | none => none
        | some c => some ({ s' with avail := false }, toInt c)

/-- `vmem_basic_string_streambuf` just constructed (36-49: `_get_ch(0)`, empty get area). -/
def stringIn (content : List Byte) : In := ⟨some 0, false, content⟩

/-- `socket_streambuf` just constructed (524-534: `_get_ch` not initialised, empty get area). -/
def socketIn (content : List Byte) : In := ⟨none, false, content⟩

/-- Reading calls. -/
inductive InOp where
  | peek
  | get

/-- A history of reading calls with the results seen by the caller (`none` inside: end of stream). -/
def readAll (underflow : In → Option (In × Int)) : List InOp → In → Option (In × List (Option Byte))
  | [], s => some (s, [])
  | op :: ops, s =>
    match (match op with | .peek => sgetc underflow s | .get => sbumpc underflow s) with
    | none => none
    | some (s', i) =>
      match readAll underflow ops s' with
      | none => none
      | some (s'', rs) => some (s'', toByte? i :: rs)

/-! ## `buffer_streambuf` -/

/-- `basic_buffer_streambuf` (`buffer_streambuf.h` 99-126): the put array, its area `[pbegin, pend)` and
`pptr`; the get array, its area `[gbegin, gend)` and `gptr`.  Positions are indexes in the arrays. -/
structure Buf where
  put : List Byte
  pbegin : Nat
  pend : Nat
  pptr : Nat
  get : List Byte
  gbegin : Nat
  gend : Nat
  gptr : Nat
deriving DecidableEq, Repr

/-- `reset` (118-126) as called by the constructors (99-108). -/
def Buf.new (get : List Byte) (gbegin gend : Nat) (put : List Byte) (pbegin pend : Nat) : Buf :=
  ⟨put, pbegin, pend, pbegin, get, gbegin, gend, gbegin⟩

/-- The move constructor (111-114): same areas, `reset` puts the current positions back to their
beginnings. -/
def Buf.moved (b : Buf) : Buf := Buf.new b.get b.gbegin b.gend b.put b.pbegin b.pend

/-- `sputc`; the inherited `overflow` reports `eof`.  `none`: outside the array. -/
def Buf.sputc (c : Byte) (b : Buf) : Option (Buf × Int) :=
  if b.pptr < b.pend then
    if b.pptr < b.put.length then some ({ b with put := b.put.set b.pptr c, pptr := b.pptr + 1 }, toInt c) else none
  else some (b, eof)

/-- `sgetc`; the inherited `underflow` reports `eof`. -/
def Buf.sgetc (b : Buf) : Option (Buf × Int) :=
  if b.gptr < b.gend then
    match b.get[b.gptr]? with
    | none => none
    | some c => some (b, toInt c)
  else some (b, eof)

/-- `sbumpc`; the inherited `uflow` reports `eof`. -/
def Buf.sbumpc (b : Buf) : Option (Buf × Int) :=
  if b.gptr < b.gend then
    match b.get[b.gptr]? with
    | none => none
    | some c => some ({ b with gptr := b.gptr + 1 }, toInt c)
  else some (b, eof)

/-- Calls. -/
inductive BufOp where
  | put (c : Byte)
  | peek
  | get

/-- A history of calls, with the results as seen by the caller. -/
def Buf.run : List BufOp → Buf → Option (Buf × List (Option Byte))
  | [], b => some (b, [])
  | op :: ops, b =>
    match (match op with | .put c => b.sputc c | .peek => b.sgetc | .get => b.sbumpc) with
    | none => none
    | some (b', i) =>
      match Buf.run ops b' with
      | none => none
      | some (b'', rs) => some (b'', toByte? i :: rs)

end Abc.Streambuf
