import Verif.Timestamp.Model
import Verif.Ascii.Model

/-!
# Model of `src/multifile.h`

* `_path` is an array of `MaxPath + 1` bytes with arbitrary initial content.
* The file system is a function from path names to contents; opening for output truncates
  (`std::ios_base::out`, the default mode).  Opening never fails.
* `std::filebuf` is modelled by its put area: how many of the written bytes are still in it.  Whether
  a write goes through the put area is up to the library implementation, so it is an input
  (`buffered`).
-/

namespace Abc.Multifile
open Abc.Ascii

/-- Storing the bytes `w` in an array from index `i` on; `none` is outside the array. -/
def store (buf : List Byte) (i : Nat) (w : List Byte) : Option (List Byte) :=
  if i + w.length ≤ buf.length then some (buf.take i ++ w ++ buf.drop (i + w.length)) else none

/-- The C string that starts at the beginning of an array (no NUL in the array: `none`). -/
def cstr : List Byte → Option (List Byte)
  | [] => none
  | b :: bs => if b = 0 then some [] else (cstr bs).map (b :: ·)

/-- Decimal digit. -/
def digit (n : Nat) : Byte := UInt8.ofNat (48 + n % 10)

/-- `%4.4u` for numbers below 10000. -/
def dec4 (n : Nat) : List Byte := [digit (n / 1000), digit (n / 100), digit (n / 10), digit n]
/-- `%2.2u` for numbers below 100. -/
def dec2 (n : Nat) : List Byte := [digit (n / 10), digit n]

/-- `filename_format`, `src/multifile.h` 38, for a year of four digits. -/
def filename (y mo d h mi s : Nat) : List Byte :=
  dec4 y ++ dec2 mo ++ dec2 d ++ [95] ++ dec2 h ++ dec2 mi ++ dec2 s

/-- `filename_length`, 39. -/
def filenameLength : Nat := 15
/-- `path_separator`, 40. -/
def pathSeparator : Byte := 47

/-- `_path` and `_path_length`. -/
structure PathBuf where
  buf : List Byte
  len : Nat
deriving DecidableEq, Repr

/-- The formatting step of `reopen`, 95: `snprintf(_path + _path_length, MaxPath - _path_length, …)`;
`name` is the complete text. -/
def setName (maxPath : Nat) (name : List Byte) (p : PathBuf) : Option PathBuf :=
  let room := if p.len ≤ maxPath then maxPath - p.len else 2 ^ 64 + maxPath - p.len
  if room = 0 then some p
  else
    match store p.buf p.len (name.take (room - 1) ++ [0]) with
    | none => none
    | some b => some { p with buf := b }

/-- Outcome of the constructor. -/
inductive Ctor where
  | throws
  | ub
  | ok (p : PathBuf)
deriving DecidableEq, Repr

/-- The constructor up to the call of `reopen`, 48-64.  `path` is the content of the C string. -/
def construct (maxPath : Nat) (buf path : List Byte) : Ctor :=
  if path.length + 1 + filenameLength > maxPath then .throws
  else
    match store buf 0 path with
    | none => .ub
    | some b =>
      if path.length = 0 then .ub   -- `_path[_path_length - 1]` is `_path[SIZE_MAX]`
      else
        match b[path.length - 1]? with
        | none => .ub
        | some last =>
          if last ≠ pathSeparator then
            match store b path.length [pathSeparator] with
            | none => .ub
            | some b' => .ok ⟨b', path.length + 1⟩
          else .ok ⟨b, path.length⟩

/-! ## Rotation by size -/

/-- `size_multifile_streambuf`: `_current_size`, the number of bytes in the put area, the file
currently open and the file system. -/
structure SizeFile where
  current : Nat
  inArea : Nat
  name : List Byte
  fs : List Byte → List Byte

/-- Opening `name` for output: created or truncated. -/
def openFile (name : List Byte) (fs : List Byte → List Byte) : List Byte → List Byte :=
  fun n => if n = name then [] else fs n

/-- Appending to the open file. -/
def appendFile (name data : List Byte) (fs : List Byte → List Byte) : List Byte → List Byte :=
  fun n => if n = name then fs n ++ data else fs n

/-- Constructor, 146-150 (the base constructor opens the file). -/
def SizeFile.new (name : List Byte) (fs : List Byte → List Byte) : SizeFile := ⟨0, 0, name, openFile name fs⟩

/-- What a program (or the `ostream` on top) does.  `buffered` says whether the bytes stay in the put
area (libstdc++ does that for short writes) or go to the file at once together with what was in the
area. -/
inductive Op where
  /-- `xsputn`, 163-167 -/
  | write (data : List Byte) (buffered : Bool)
  /-- `sputc`, inherited: stored in the put area; if that is full, `overflow` empties it first -/
  | putc (c : Byte) (full : Bool)
  /-- `sync`, 171-181; `name` is the path `reopen` would form now -/
  | sync (name : List Byte)

/-- One call.  Bytes in the put area are counted as part of the file: they reach it at the latest when
it is closed. -/
def SizeFile.step (limit : Nat) (f : SizeFile) : Op → SizeFile
  | .write data buffered =>
    { f with
      current := f.current + data.length
      inArea := if buffered then f.inArea + data.length else 0
      fs := appendFile f.name data f.fs }
  | .putc c full =>
    { f with
      inArea := if full then 1 else f.inArea + 1
      fs := appendFile f.name [c] f.fs }
  | .sync name =>
    let current := f.current + f.inArea
    if current ≥ limit then ⟨0, 0, name, openFile name f.fs⟩
    else { f with current := current, inArea := 0 }

/-! ## Rotation by duration -/

/-- `duration_multifile_streambuf`: the times files were opened at (latest first; the head is `_ts`). -/
structure DurFile where
  ts : Int
  earlier : List Int

/-- `sync`, 131-140, with the two readings of the clock (the second is made by `reopen`, 123-127).
`timestamp` subtraction is that of `std::chrono::time_point`. -/
def DurFile.sync (duration : Int) (now after : Int) (f : DurFile) : DurFile :=
  if now - f.ts ≥ duration then ⟨after, f.ts :: f.earlier⟩ else f

end Abc.Multifile
