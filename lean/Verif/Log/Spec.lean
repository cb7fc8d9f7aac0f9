import Verif.Log.Model

/-!
# Specification of a line and of a hex dump
-/

namespace Abc.Log
open Abc.Ascii

/-- What an observer expects of a line: the text pending since the last flush, and the lines sent. -/
structure Abs where
  pending : List Byte
  lines : List (List Byte)

/-- The text a dump call contributes; nothing when there is no room for 72 characters and the NUL, or
when the offset is not a multiple of 16 inside the data. -/
def dumpText (size : Nat) (data : List Byte) (offset : Nat) (pending : List Byte) : List Byte :=
  if pending.length + 72 < size ∧ offset < data.length ∧ offset % 16 = 0 then hexLine data offset else []

/-- Effect of one call. -/
def specStep (size : Nat) (a : Abs) : Op → Abs
  | .put p => { a with pending := a.pending ++ p }
  | .get => a
  | .flush => { pending := [], lines := a.lines ++ [a.pending ++ [10]] }
  | .binary d o => { a with pending := a.pending ++ dumpText size d o a.pending }

/-- Effect of a history. -/
def specRun (size : Nat) (ops : List Op) : Abs := ops.foldl (specStep size) ⟨[], []⟩

/-- Value of a lower-case hexadecimal digit. -/
def hexValue (c : Byte) : Option Nat :=
  if 48 ≤ c.toNat ∧ c.toNat ≤ 57 then some (c.toNat - 48)
  else if 97 ≤ c.toNat ∧ c.toNat ≤ 102 then some (c.toNat - 87)
  else none

/-- Column of byte `i` of a dump line: `0000: 00 01 … 07  08 … 0f  text`. -/
def column (i : Nat) : Nat := if i < 8 then 6 + 3 * i else 7 + 3 * i

/-- A reader of dump lines: byte `i`, if its two columns are hexadecimal digits. -/
def readByte (line : List Byte) (i : Nat) : Option Byte :=
  match line[column i]?, line[column i + 1]? with
  | some a, some b =>
    match hexValue a, hexValue b with
    | some x, some y => some (UInt8.ofNat (16 * x + y))
    | _, _ => none
  | _, _ => none

/-- All bytes of a dump line, in order. -/
def readLine (line : List Byte) : List Byte := (List.range 16).filterMap (readByte line)

/-- The offset printed at the beginning of a dump line. -/
def readOffset (line : List Byte) : Option Nat :=
  match line with
  | a :: b :: c :: d :: _ =>
    match hexValue a, hexValue b, hexValue c, hexValue d with
    | some a, some b, some c, some d => some (a * 4096 + b * 256 + c * 16 + d)
    | _, _, _, _ => none
  | _ => none

end Abc.Log
