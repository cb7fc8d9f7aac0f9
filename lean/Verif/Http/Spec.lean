import Verif.Http.Model
import Verif.Ascii.Lemmas

/-!
# What an HTTP message is, stated without the model's helpers
-/

namespace Abc.Http

open Abc.Ascii Abc.Stream

/-- Visible ASCII characters. -/
def printable (c : Byte) : Bool := decide (0x21 ≤ c ∧ c ≤ 0x7e)
/-- Space or tab. -/
def blank (c : Byte) : Bool := decide (c = 32 ∨ c = 9)
/-- Decimal digits. -/
def digit (c : Byte) : Bool := decide (48 ≤ c ∧ c ≤ 57)
/-- Characters of an RFC 2616 token: visible, and none of `()<>@,;:\"/[]?={}`. -/
def tokenChar (c : Byte) : Bool :=
  printable c && !(([40, 41, 60, 62, 64, 44, 59, 58, 92, 34, 47, 91, 93, 63, 61, 123, 125] : List Byte).contains c)

set_option maxRecDepth 10000 in
theorem isAbcprint_eq (c : Byte) : isAbcprint c = printable c := by
  revert c; apply forall_byte; decide
set_option maxRecDepth 10000 in
theorem isSpace_eq (c : Byte) : isSpace c = blank c := by
  revert c; apply forall_byte; decide
set_option maxRecDepth 10000 in
theorem isDigit_eq (c : Byte) : isDigit c = digit c := by
  revert c; apply forall_byte; decide
set_option maxRecDepth 10000 in
theorem httpIsToken_eq (c : Byte) : httpIsToken c = tokenChar c := by
  revert c; apply forall_byte; decide
set_option maxRecDepth 10000 in
theorem isAbcprintOrSpace_eq (c : Byte) : isAbcprintOrSpace c = (printable c || blank c) := by
  revert c; apply forall_byte; decide
set_option maxRecDepth 10000 in
theorem isAscii_eq (c : Byte) : isAscii c = decide (c < 128) := by
  revert c; apply forall_byte; decide

/-- A header value with the blanks at both ends removed and every inner run of blanks replaced by
one space.  `started`: some visible character was seen; `gap`: blanks were seen since. -/
def norm (started gap : Bool) : List Byte → List Byte
  | [] => []
  | c :: v =>
    if blank c then norm started true v
    else (if started && gap then [32] else []) ++ c :: norm true false v

/-- `"\r\n"`. -/
def crlf : List Byte := [13, 10]

end Abc.Http
