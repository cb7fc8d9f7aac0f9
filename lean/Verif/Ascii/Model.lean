/-!
# Model of `/repo/src/ascii.h`

A `char` is a `UInt8` (its bit pattern); the code compares `char`s, which are signed on the
supported platforms, so comparisons go through `sc`.
-/

namespace Abc.Ascii

/-- A byte of memory. -/
abbrev Byte := UInt8

/-- Value of a (signed) `char`. -/
def sc (c : Byte) : Int := if c.toNat < 128 then c.toNat else (c.toNat : Int) - 256

/-- `is_between`, `src/ascii.h` 34-36. -/
def isBetween (c low high : Byte) : Bool := decide (sc low ≤ sc c) && decide (sc c ≤ sc high)

/-- `is_ascii`, 39-41. -/
def isAscii (c : Byte) : Bool := isBetween c 0x00 0x7f
/-- `is_digit`, 44-46. -/
def isDigit (c : Byte) : Bool := isBetween c 48 57
/-- `is_hex`, 49-51. -/
def isHex (c : Byte) : Bool := isDigit c || isBetween c 65 70 || isBetween c 97 102
/-- `is_upperalpha`, 54-56. -/
def isUpperalpha (c : Byte) : Bool := isBetween c 65 90
/-- `is_loweralpha`, 59-61. -/
def isLoweralpha (c : Byte) : Bool := isBetween c 97 122
/-- `is_alpha`, 64-66. -/
def isAlpha (c : Byte) : Bool := isUpperalpha c || isLoweralpha c
/-- `to_upper`, 69-71. -/
def toUpper (c : Byte) : Byte := if isLoweralpha c then 65 + (c - 97) else c
/-- `to_lower`, 74-76. -/
def toLower (c : Byte) : Byte := if isUpperalpha c then 97 + (c - 65) else c
/-- `is_space`, 79-81. -/
def isSpace (c : Byte) : Bool := c == 32 || c == 9
/-- `is_control`, 84-86. -/
def isControl (c : Byte) : Bool := isBetween c 0x00 0x1f || c == 0x7f
/-- `is_stdprint`, 89-91. -/
def isStdprint (c : Byte) : Bool := isBetween c 0x20 0x7e
/-- `is_abcprint`, 94-96. -/
def isAbcprint (c : Byte) : Bool := isBetween c 0x21 0x7e
/-- `is_abcprint_or_space`, 99-101. -/
def isAbcprintOrSpace (c : Byte) : Bool := isAbcprint c || isSpace c

/-- `hex`, 104-116. -/
def hex (c : Byte) : Byte :=
  if isDigit c then c - 48
  else if isBetween c 65 70 then 10 + (c - 65)
  else if isBetween c 97 102 then 10 + (c - 97)
  else 0

/-- `http::is_separator`, 168-173. -/
def httpIsSeparator (c : Byte) : Bool :=
  isSpace c ||
  c == 40 || c == 41 || c == 60 || c == 62 || c == 91 || c == 93 || c == 123 || c == 125 ||
  c == 64 || c == 44 || c == 59 || c == 58 || c == 92 || c == 47 || c == 34 || c == 63 || c == 61

/-- `http::is_token`, 176-178. -/
def httpIsToken (c : Byte) : Bool := isAbcprint c && !httpIsSeparator c

/-- `json::is_space`, 188-190. -/
def jsonIsSpace (c : Byte) : Bool := isSpace c || c == 13 || c == 10

/-- `json::is_string_content`, 193-195 (`json::is_valid` is constantly true, 183-185). -/
def jsonIsStringContent (c : Byte) : Bool := c != 34 && c != 92

/-- The loop of `are_equal`, 128-143.  The lists are the memory from the current position to the end
of each string's block; reading beyond a block is `none` (undefined behaviour). -/
def areEqualLoop (caseSensitive : Bool) : List Byte → List Byte → Nat → Option Bool
  | _, _, 0 => some true
  | ch1 :: s1, ch2 :: s2, n + 1 =>
    let eq := if caseSensitive then ch1 == ch2 else toLower ch1 == toLower ch2
    if !eq then some false
    else if ch1 == 0 && ch2 == 0 then some true
    else areEqualLoop caseSensitive s1 s2 n
  | _, _, _ => none

/-- `are_equal`, 119-144.  A pointer is `none` for `nullptr`, otherwise the memory block from the
pointed-to byte to the end of the allocation. -/
def areEqual (s1 s2 : Option (List Byte)) (caseSensitive : Bool) (maxChars : Nat) : Option Bool :=
  match s1, s2 with
  | none, none => some true
  | none, some _ => some false
  | some _, none => some false
  | some a, some b => areEqualLoop caseSensitive a b maxChars

/-- `size::strlen` = `SIZE_MAX` (`src/size.h`). -/
def sizeMax : Nat := 2 ^ 64 - 1

/-- `are_equal(s1, s2)`, 147-149. -/
def areEqualC (s1 s2 : Option (List Byte)) := areEqual s1 s2 true sizeMax
/-- `are_equal_i`, 152-154. -/
def areEqualI (s1 s2 : Option (List Byte)) := areEqual s1 s2 false sizeMax
/-- `are_equal_n`, 157-159. -/
def areEqualN (s1 s2 : Option (List Byte)) (n : Nat) := areEqual s1 s2 true n
/-- `are_equal_i_n`, 162-164. -/
def areEqualIN (s1 s2 : Option (List Byte)) (n : Nat) := areEqual s1 s2 false n

end Abc.Ascii
