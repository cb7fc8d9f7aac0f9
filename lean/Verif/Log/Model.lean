import Verif.Ascii.Model

/-!
# Model of `src/table.h` (`table_ostream`, `line_ostream`) and of the filtering and hex-dump parts of
`src/log.h`

* The text produced by a `printf` format is opaque: a piece is the complete byte list `vsnprintf`
  would produce (a negative return value of `vsnprintf`, i.e. an encoding error, is not modelled).
* `_pcount` is a natural number: wrap-around of the sum of the lengths at `2^64` is not modelled, the
  wrap-around of `Size - _pcount` is.
* The table is the list of the byte strings handed to `put_line`.
* `none` is undefined behaviour (access outside `_buffer`, read outside the source buffer).
-/

namespace Abc.Log
open Abc.Ascii

/-- `line_ostream` (`src/i/table.i.h` 189-204): `_buffer` (`char[Size + 2]`), `_pcount`, and what the
`table_ostream` (if there is one) received. -/
structure Line where
  buf : List Byte
  pcount : Nat
  out : List (List Byte)
deriving DecidableEq, Repr

/-- Storing the bytes `w` in an array from index `i` on. -/
def writeAt (buf : List Byte) (i : Nat) (w : List Byte) : Option (List Byte) :=
  if w = [] then some buf
  else if i + w.length ≤ buf.length then some (buf.take i ++ w ++ buf.drop (i + w.length))
  else none

/-- `Size - _pcount` in `std::size_t`. -/
def room (size pcount : Nat) : Nat := if pcount ≤ size then size - pcount else 2 ^ 64 + size - pcount

/-- The constructor, `src/table.h` 80-86; the contents of the array are arbitrary. -/
def newLine (buf : List Byte) : Line := ⟨buf, 0, []⟩

/-- `put_anyv`, 142-145: `vsnprintf(_buffer + _pcount, Size - _pcount, …)` stores at most
`Size - _pcount - 1` characters and a NUL, and returns the length of the whole piece. -/
def putAny (size : Nat) (piece : List Byte) (l : Line) : Option Line :=
  let n := room size l.pcount
  let w := if n = 0 then [] else piece.take (n - 1) ++ [0]
  match writeAt l.buf l.pcount w with
  | none => none
  | some b => some { l with buf := b, pcount := l.pcount + piece.length }

/-- `get`, 106-112.  The caller gets the whole array. -/
def get (size : Nat) (l : Line) : Option Line :=
  if l.pcount ≤ size then
    match writeAt l.buf l.pcount [0] with
    | none => none
    | some b => some { l with buf := b }
  else some l

/-- `put_line(_buffer, _pcount)`, 47-58: reads `_pcount` bytes from `_buffer`. -/
def putLine (hasTable : Bool) (l : Line) : Option Line :=
  if hasTable then
    if l.pcount ≤ l.buf.length then some { l with out := l.out ++ [l.buf.take l.pcount] } else none
  else some l

/-- `flush`, 116-127 (also run by the destructor, 99-102). -/
def flush (hasTable : Bool) (size : Nat) (l : Line) : Option Line :=
  if l.pcount ≤ size then
    match writeAt l.buf l.pcount [10, 0] with
    | none => none
    | some b =>
      match putLine hasTable { l with buf := b, pcount := l.pcount + 1 } with
      | none => none
      | some l' => some { l' with pcount := 0 }
  else
    match putLine hasTable l with
    | none => none
    | some l' => some { l' with pcount := 0 }

/-- `constexpr char hex[]`, 178. -/
def hexTable : List Byte := [48, 49, 50, 51, 52, 53, 54, 55, 56, 57, 97, 98, 99, 100, 101, 102]

/-- `hex[n & 0xf]`. -/
def hexDigit (n : Nat) : Byte := hexTable.getD (n % 16) 0

/-- The three characters of one byte of the dump, 211-225. -/
def hexCell (data : List Byte) (offset source : Nat) : List Byte :=
  if h : offset + source < data.length then
    [hexDigit (data[offset + source].toNat / 16), hexDigit data[offset + source].toNat, 32]
  else [32, 32, 32]

/-- One half, 208-226: a blank and eight cells. -/
def hexHalf (data : List Byte) (offset half : Nat) : List Byte :=
  32 :: (List.range 8).flatMap (fun i => hexCell data offset (half * 8 + i))

/-- One character of the text column, 231-242; `std::isprint` in the "C" locale. -/
def textCell (data : List Byte) (offset i : Nat) : Byte :=
  if h : offset + i < data.length then
    if 0x20 ≤ data[offset + i].toNat ∧ data[offset + i].toNat ≤ 0x7e then data[offset + i] else 46
  else 32

/-- The 72 characters of a dump line, 197-243 (the NUL stored after them is added by `putBinary`). -/
def hexLine (data : List Byte) (offset : Nat) : List Byte :=
  [hexDigit (offset / 2 ^ 12), hexDigit (offset / 2 ^ 8), hexDigit (offset / 2 ^ 4), hexDigit offset, 58]
    ++ hexHalf data offset 0 ++ hexHalf data offset 1 ++ [32]
    ++ (List.range 16).map (textCell data offset)

/-- `put_binary`, 173-250: returns the line, the new offset and `hasMore`. -/
def putBinary (size : Nat) (data : List Byte) (offset : Nat) (l : Line) : Option (Line × Nat × Bool) :=
  if room size l.pcount ≤ 72 then some (l, offset, false)
  else if data.length ≤ offset then some (l, offset, false)
  else if offset % 16 ≠ 0 then some (l, offset, false)
  else
    match writeAt l.buf l.pcount (hexLine data offset ++ [0]) with
    | none => none
    | some b =>
      some ({ l with buf := b, pcount := l.pcount + 72 }, offset + 16, decide (offset + 16 ≤ data.length))

/-- A sequence of `put_any` calls (e.g. `put_props`, `src/log.h` 92-98, 158-164, 224-232). -/
def putAll (size : Nat) (pieces : List (List Byte)) (l : Line) : Option Line :=
  match pieces with
  | [] => some l
  | p :: ps =>
    match putAny size p l with
    | none => none
    | some l' => putAll size ps l'

/-- The loop of `debug_line_ostream::put_binary`, `src/log.h` 76-89 (the diag and test lines have the
same loop, 142-155, 208-221).  `props k` are the pieces `put_props` writes on its `k`-th call.
`fuel` bounds the number of iterations; running out of fuel is `none`. -/
def dumpLoop (size : Nat) (props : Nat → List (List Byte)) (data : List Byte) :
    Nat → Nat → Nat → Line → Option Line
  | 0, _, _, _ => none
  | fuel + 1, k, offset, l =>
    match (if offset ≠ 0 then flush true size l else some l) with
    | none => none
    | some l1 =>
      match putAll size (props k) l1 with
      | none => none
      | some l2 =>
        match putBinary size data offset l2 with
        | none => none
        | some (l3, offset', hasMore) =>
          if hasMore then dumpLoop size props data fuel (k + 1) offset' l3 else some l3

/-- `log_ostream::put_binary`, `src/log.h` 279-284, once the filter let it through: a line object is
made, filled and destroyed (flushed). -/
def dump (size : Nat) (props : Nat → List (List Byte)) (data buf : List Byte) (fuel : Nat) : Option (List (List Byte)) :=
  match dumpLoop size props data fuel 0 0 (newLine buf) with
  | none => none
  | some l =>
    match flush true size l with
    | none => none
    | some l' => some l'.out

/-- Calls a program can make on a line. -/
inductive Op where
  | put (piece : List Byte)
  | get
  | flush
  | binary (data : List Byte) (offset : Nat)

/-- One call. -/
def step (hasTable : Bool) (size : Nat) (op : Op) (l : Line) : Option Line :=
  match op with
  | .put p => putAny size p l
  | .get => get size l
  | .flush => flush hasTable size l
  | .binary d o =>
    match putBinary size d o l with
    | none => none
    | some (l', _, _) => some l'

/-- A history of calls. -/
def run (hasTable : Bool) (size : Nat) : List Op → Line → Option Line
  | [], l => some l
  | op :: ops, l =>
    match step hasTable size op l with
    | none => none
    | some l' => run hasTable size ops l'

/-- Moving a line (`line_ostream(line_ostream&&)`, 90-96) and destroying first the new object and then
the moved-from one: the array, `_pcount` and the table pointer are copied, the moved-from object is
left as it is, so both destructors flush into the same table. -/
def moveAndDestroy (size : Nat) (l : Line) : Option (List (List Byte)) :=
  match flush true size { l with out := [] } with
  | none => none
  | some target =>
    match flush true size { l with out := [] } with
    | none => none
    | some source => some (l.out ++ target.out ++ source.out)

/-- The same for a line that is moved `n` times, each object from the one before, after which all of
them are destroyed, the youngest first. -/
def moveManyAndDestroy (size : Nat) (l : Line) : Nat → Option (List (List Byte))
  | 0 => (flush true size l).map (·.out)
  | n + 1 =>
    match flush true size { l with out := [] }, moveManyAndDestroy size l n with
    | some source, some sent => some (sent ++ source.out)
    | _, _ => none

/-- Severity indentation of the test line, `src/log.h` 227-231: `char buf[17]`, `memset(buf, ' ', 2s)`,
`buf[2(s-1)] = NUL`, where `s` is the severity capped at 8.  Result: the string printed. -/
def severityIndent (severity : Byte) : Option (List Byte) :=
  let s := if severity.toNat ≤ 8 then severity.toNat else 8
  if 2 * s ≤ 17 then
    if 1 ≤ s ∧ 2 * (s - 1) < 17 then some (List.replicate (2 * (s - 1)) 32) else none
  else none

/-- `is_higher_or_equal`, `src/log.h` 328-330. -/
def isHigherOrEqual (severity other : Byte) : Bool := decide (severity ≤ other)

/-- `log_filter::is_enabled`, 315-317. -/
def isEnabled (minSeverity : Byte) (_category : Nat) (severity : Byte) : Bool :=
  isHigherOrEqual severity minSeverity

/-- `log_ostream::put_anyv` 270-275, `put_binary` 279-284 and `put_blank_line` 288-292 have the same
shape: `lines` is what the entry would write. -/
def logPut (filter : Option Byte) (category : Nat) (severity : Byte) (lines : List (List Byte))
    (out : List (List Byte)) : List (List Byte) :=
  match filter with
  | none => out ++ lines
  | some f => if isEnabled f category severity then out ++ lines else out

end Abc.Log
