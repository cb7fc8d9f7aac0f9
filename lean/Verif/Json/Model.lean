import Verif.Stream.Model

/-!
# Model of `/repo/src/json.h`

The token buffer is a block of bytes laid out as `json::token_t` on a 64-bit machine: `item` in bytes 0
and 1, `value` from byte 8 on, `sizeof(json::token_t)` = 16.  A write outside the block is `Res.ub`.
The level stack is a list of booleans, innermost level first (`true` = object); `MaxLevels` is the
parameter `max`.  `std::atof` is the parameter `atof` (from the characters to the eight bytes of a
`double`), `std::snprintf("%.16lg")` is not modelled: `putNumber` gets the literal.  Logging and
`flush` are not modelled.
-/

namespace Abc.Json

open Abc.Ascii Abc.Stream

/-- `json::item`, `src/i/json.i.h` 40-54. -/
inductive Item where
  | none | null | boolean | number | string | beginArray | endArray | beginObject | endObject | property
  deriving DecidableEq, Repr

/-- The two bytes of a `json::item_t`. -/
def Item.bytes : Item → List Byte
  | .none => [0, 0]
  | .null => [1, 0]
  | .boolean => [2, 0]
  | .number => [4, 0]
  | .string => [8, 0]
  | .beginArray => [16, 0]
  | .endArray => [32, 0]
  | .beginObject => [64, 0]
  | .endObject => [128, 0]
  | .property => [0, 1]

/-- `ascii::json::is_valid`, `src/ascii.h` 183-185. -/
def valid : Byte → Bool := fun _ => true

/-! ## State (`json_state`, 41-133) -/

/-- The innermost level is an object. -/
def topObject (levels : List Bool) : Bool := levels.head? == some true

/-- State of a `json_istream`. -/
structure Jr where
  s : In
  expect : Bool := false
  levels : List Bool := []
  gcount : Nat := 0
  deriving DecidableEq, Repr

/-- `expect_property`, 75-80. -/
def expectProperty (expect : Bool) (levels : List Bool) : Bool := expect && topObject levels
/-- `set_expect_property`, 84-89: the new value of `_expect_property`. -/
def setExpect (levels : List Bool) (expect : Bool) : Bool := expect && topObject levels
/-- `push_level`, 93-104; `none` when it returns false. -/
def pushLevel (max : Nat) (level : Bool) (levels : List Bool) : Option (List Bool) :=
  if levels.length < max then some (level :: levels) else none
/-- `pop_level`, 108-127. -/
def popLevel (level : Bool) : List Bool → Option (List Bool)
  | [] => none
  | x :: levels => if x = level then some levels else none

/-! ## Reader -/

/-- Write bytes one after the other. -/
def wrs (mem : List Byte) (i : Nat) : List Byte → Res (List Byte)
  | [] => .ok mem
  | c :: w => (wr mem i c).bind fun mem => wrs mem (i + 1) w

/-- A character and the stream after it. -/
structure Esc where
  s : In
  ch : Byte
  deriving DecidableEq, Repr

/-- `get_escaped_char`, 484-554.  (The local buffer starts with arbitrary bytes; only bytes written
before are read.) -/
def escaped (fuel : Nat) (s : In) : Res Esc :=
  if s.peekV = 92 then
    let s1 := s.peekS.getS
    let ch := s1.peekV
    let s2 := s1.peekS
    if ch = 34 ∨ ch = 92 ∨ ch = 47 then .ok ⟨s2.getS, ch⟩
    else if ch = 98 then .ok ⟨s2.getS, 8⟩
    else if ch = 102 then .ok ⟨s2.getS, 12⟩
    else if ch = 110 then .ok ⟨s2.getS, 10⟩
    else if ch = 114 then .ok ⟨s2.getS, 13⟩
    else if ch = 116 then .ok ⟨s2.getS, 9⟩
    else if ch = 117 then
      (getChars fuel valid isHex s2.getS [0, 0, 0, 0, 0] 0 5).bind fun g =>
      if g.n ≠ 4 then .ok ⟨g.s.setBad, 0⟩
      else if g.mem[0]? = some 48 ∧ g.mem[1]? = some 48 then
        .ok ⟨g.s, (hex (g.mem.getD 2 0) <<< 4) ||| hex (g.mem.getD 3 0)⟩
      else .ok ⟨g.s.setBad, 0⟩
    else .ok ⟨s2, ch⟩
  else .ok ⟨s.peekS.setBad, 0⟩

/-- The loop of `get_or_skip_string`, 379-392, with a buffer: the characters go to `mem` from byte 8 on. -/
def strLoop (fuel size : Nat) : Nat → In → List Byte → Nat → Res Got
  | 0, _, _, _ => .running
  | f + 1, s, mem, n =>
    (getChars fuel valid jsonIsStringContent s mem (8 + n) (sub64 size n)).bind fun g =>
    if g.s.peekV = 34 then .ok ⟨g.s.peekS.getS, g.mem, n + g.n⟩
    else if g.s.peekV = 92 then
      (escaped fuel g.s.peekS).bind fun e =>
      (wr g.mem (8 + (n + g.n)) e.ch).bind fun mem => strLoop fuel size f e.s mem (n + g.n + 1)
    else strLoop fuel size f g.s.peekS g.mem (n + g.n)

/-- `get_or_skip_string`, 366-405, with a buffer. -/
def getString (fuel size : Nat) (s : In) (mem : List Byte) : Res Got :=
  (if s.peekV = 34 then strLoop fuel size fuel s.peekS.getS mem 0 else .ok ⟨s.peekS, mem, 0⟩).bind fun g =>
  (wr g.mem (8 + g.n) 0).bind fun mem => .ok ⟨g.s, mem, g.n⟩

/-- The loop of `get_or_skip_string` without a buffer. -/
def skipStrLoop (fuel : Nat) : Nat → In → Nat → Res Skipped
  | 0, _, _ => .running
  | f + 1, s, n =>
    (skipChars fuel valid jsonIsStringContent s).bind fun k =>
    if k.s.peekV = 34 then .ok ⟨k.s.peekS.getS, n + k.n⟩
    else if k.s.peekV = 92 then
      (escaped fuel k.s.peekS).bind fun e => skipStrLoop fuel f e.s (n + k.n)
    else skipStrLoop fuel f k.s.peekS (n + k.n)

/-- `get_or_skip_string` without a buffer. -/
def skipString (fuel : Nat) (s : In) : Res Skipped :=
  if s.peekV = 34 then skipStrLoop fuel fuel s.peekS.getS 0 else .ok ⟨s.peekS, 0⟩

/-- `get_digits` into `digits`, 579-581 as used in `get_or_skip_number`. -/
def numDigits (fuel : Nat) (g : Got) : Res Got :=
  (getChars fuel valid isDigit g.s g.mem g.n (sub64 26 g.n)).bind fun h => .ok ⟨h.s, h.mem, g.n + h.n⟩

/-- An optional sign, 418-421 and 436-439. -/
def numSign (g : Got) : Res Got :=
  if g.s.peekV = 43 ∨ g.s.peekV = 45 then
    (wr g.mem g.n g.s.peekV).bind fun mem => .ok ⟨g.s.peekS.getS, mem, g.n + 1⟩
  else .ok ⟨g.s.peekS, g.mem, g.n⟩

/-- The fraction, 425-430. -/
def numFrac (fuel : Nat) (g : Got) : Res Got :=
  if g.s.peekV = 46 then
    (wr g.mem g.n 46).bind fun mem => numDigits fuel ⟨g.s.peekS.getS, mem, g.n + 1⟩
  else .ok ⟨g.s.peekS, g.mem, g.n⟩

/-- The exponent, 432-442. -/
def numExp (fuel : Nat) (g : Got) : Res Got :=
  if g.s.peekV = 101 ∨ g.s.peekV = 69 then
    (wr g.mem g.n g.s.peekV).bind fun mem =>
    (numSign ⟨g.s.peekS.getS, mem, g.n + 1⟩).bind fun g => numDigits fuel g
  else .ok ⟨g.s.peekS, g.mem, g.n⟩

/-- `get_or_skip_number`, 409-455, up to `digits[gcount] = '\0'`; `digits` has 26 bytes (they start
with arbitrary values, which are never read). -/
def getNumber (fuel : Nat) (s : In) : Res Got :=
  (numSign ⟨s, List.replicate 26 0, 0⟩).bind fun g =>
  (numDigits fuel g).bind fun g =>
  (numFrac fuel g).bind fun g =>
  (numExp fuel g).bind fun g =>
  (wr g.mem g.n 0).bind fun mem => .ok ⟨g.s, mem, g.n⟩

/-- `get_literal`, 458-480. -/
def getLiteral : List Byte → In → In
  | [], s => s
  | c :: lit, s => if s.peekV ≠ c then (s.getCharS valid).setBad else getLiteral lit (s.getCharS valid)

/-- What the two branches of `get_or_skip_token` leave. -/
structure Part where
  s : In
  expect : Bool
  levels : List Bool
  item : Item
  n : Nat
  buf : Option (List Byte)
  trail : Bool
  deriving DecidableEq, Repr

/-- The string after `gcount` = 2, into the buffer or not. -/
def tokString (fuel size : Nat) (s : In) : Option (List Byte) → Res (Got × Bool)
  | some mem => (getString fuel (sub64 size 2) s mem).bind fun g => .ok (g, true)
  | none => (skipString fuel s).bind fun k => .ok (⟨k.s, [], k.n⟩, false)

/-- The buffer after `tokString`. -/
def tokBuf (x : Got × Bool) : Option (List Byte) := if x.2 then some x.1.mem else none

/-- A property or the end of an object is expected, 216-250; `s` is the stream after `peek_char`. -/
def propPart (fuel size : Nat) (ch : Byte) (s : In) (st : Jr) (buf : Option (List Byte)) : Res Part :=
  if ch = 34 then
    (tokString fuel size s buf).bind fun x =>
    if x.1.s.good then
      (skipChars fuel valid jsonIsSpace x.1.s).bind fun k =>
      .ok ⟨if k.s.peekV = 58 then k.s.peekS.getS else k.s.peekS.setBad, setExpect st.levels false, st.levels,
        .property, 2 + x.1.n, tokBuf x, false⟩
    else .ok ⟨x.1.s, setExpect st.levels false, st.levels, .none, 2 + x.1.n, tokBuf x, false⟩
  else if ch = 125 then
    match popLevel true st.levels with
    | some levels => .ok ⟨s.getS, setExpect levels true, levels, .endObject, 2, buf, true⟩
    | none => .ok ⟨s.getS.setBad, setExpect st.levels true, st.levels, .endObject, 2, buf, true⟩
  else .ok ⟨s.setBad, st.expect, st.levels, .none, 2, buf, true⟩

/-- Store a boolean. -/
def bufBool (b : Byte) : Option (List Byte) → Res (Option (List Byte))
  | some mem => (wr mem 8 b).bind fun mem => .ok (some mem)
  | none => .ok none

/-- Store a number. -/
def bufNumber (atof : List Byte → List Byte) (digits : List Byte) : Option (List Byte) → Res (Option (List Byte))
  | some mem => (wrs mem 8 (atof (digits.takeWhile (· ≠ 0)))).bind fun mem => .ok (some mem)
  | none => .ok none

/-- After `push_level` or `pop_level`. -/
def levelPart (s : In) (st : Jr) (levels : Option (List Bool)) (item : Item) (buf : Option (List Byte)) (trail : Bool) :
    Part :=
  match levels with
  | some levels => ⟨s, setExpect levels true, levels, item, 2, buf, trail⟩
  | none => ⟨s.setBad, setExpect st.levels true, st.levels, item, 2, buf, trail⟩

/-- A value or the end of an array is expected, 252-316. -/
def valuePart (max : Nat) (atof : List Byte → List Byte) (fuel size : Nat) (ch : Byte) (s : In) (st : Jr)
    (buf : Option (List Byte)) : Res Part :=
  let e := setExpect st.levels true
  if ch = 110 then
    let s := getLiteral [110, 117, 108, 108] s
    .ok ⟨s, e, st.levels, if s.good then .null else .none, 2, buf, true⟩
  else if ch = 102 then
    let s := getLiteral [102, 97, 108, 115, 101] s
    if s.good then (bufBool 0 buf).bind fun buf => .ok ⟨s, e, st.levels, .boolean, 3, buf, true⟩
    else .ok ⟨s, e, st.levels, .none, 2, buf, true⟩
  else if ch = 116 then
    let s := getLiteral [116, 114, 117, 101] s
    if s.good then (bufBool 1 buf).bind fun buf => .ok ⟨s, e, st.levels, .boolean, 3, buf, true⟩
    else .ok ⟨s, e, st.levels, .none, 2, buf, true⟩
  else if isDigit ch ∨ ch = 43 ∨ ch = 45 then
    (getNumber fuel s).bind fun g =>
    (bufNumber atof g.mem buf).bind fun buf => .ok ⟨g.s, e, st.levels, .number, 10, buf, true⟩
  else if ch = 34 then
    (tokString fuel size s buf).bind fun x =>
    .ok ⟨x.1.s, e, st.levels, if x.1.s.good then .string else .none, 2 + x.1.n, tokBuf x, true⟩
  else if ch = 91 then .ok (levelPart s.getS st (pushLevel max false st.levels) .beginArray buf false)
  else if ch = 93 then .ok (levelPart s.getS st (popLevel false st.levels) .endArray buf true)
  else if ch = 123 then .ok (levelPart s.getS st (pushLevel max true st.levels) .beginObject buf false)
  else .ok ⟨s.setBad, e, st.levels, .none, 2, buf, true⟩

/-- The trailing comma, 319-347. -/
def trailPart (fuel : Nat) (p : Part) : Res In :=
  if p.trail ∧ p.levels ≠ [] then
    (skipChars fuel valid jsonIsSpace p.s).bind fun k =>
    if k.s.peekV = 44 then .ok k.s.peekS.getS
    else if expectProperty p.expect p.levels then
      .ok (if k.s.peekV ≠ 125 then k.s.peekS.setBad else k.s.peekS)
    else .ok (if k.s.peekV ≠ 93 then k.s.peekS.setBad else k.s.peekS)
  else .ok p.s

/-- Result of `get_or_skip_token`. -/
structure Tok where
  st : Jr
  item : Item
  buf : Option (List Byte)
  deriving DecidableEq, Repr

/-- `buffer->item = item`, 355-357. -/
def bufItem (item : Item) : Option (List Byte) → Res (Option (List Byte))
  | some mem => (wrs mem 0 item.bytes).bind fun mem => .ok (some mem)
  | none => .ok none

/-- `get_or_skip_token`, 199-363. -/
def readToken (max : Nat) (atof : List Byte → List Byte) (fuel : Nat) (st : Jr) (buf : Option (List Byte)) (size : Nat) :
    Res Tok :=
  (skipChars fuel valid jsonIsSpace st.s).bind fun k =>
  (if expectProperty st.expect st.levels then propPart fuel size k.s.peekV k.s.peekS st buf
    else valuePart max atof fuel size k.s.peekV k.s.peekS st buf).bind fun p =>
  (trailPart fuel p).bind fun s =>
  (bufItem p.item p.buf).bind fun buf =>
  .ok ⟨⟨s, p.expect, p.levels, p.n⟩, p.item, buf⟩

/-- `get_token`, 157-173; `none` is the exception for a buffer smaller than a token. -/
def getToken (max : Nat) (atof : List Byte → List Byte) (fuel : Nat) (st : Jr) (mem : List Byte) (size : Nat) :
    Option (Res Tok) :=
  if size < 16 then none else some (readToken max atof fuel st (some mem) size)

/-- The loop of `skip_value`, 184-187 (there is no buffer, so no number is stored). -/
def skipLoop (max : Nat) (fuel base : Nat) : Nat → Jr → Res Tok
  | 0, _ => .running
  | f + 1, st =>
    (readToken max (fun _ => List.replicate 8 0) fuel st none 0).bind fun t =>
    if t.st.levels.length > base then skipLoop max fuel base f t.st else .ok t

/-- `skip_value`, 176-195. -/
def skipValue (max : Nat) (fuel : Nat) (st : Jr) : Res Tok := skipLoop max fuel st.levels.length fuel st

/-! ## Writer -/

/-- State of a `json_ostream`. -/
structure Jw where
  o : Out
  expect : Bool := false
  levels : List Bool := []
  skipComma : Bool := false
  deriving DecidableEq, Repr

/-- `put_chars`, 980-1004: the loop 988-990; `set_fail` when the loop stops early. -/
def putChars : List Byte → Out → Out
  | [], o => o
  | c :: b, o => if o.good then putChars b (o.put c) else o.setFail

/-- A comma before a value, for example 764-766. -/
def valueComma (st : Jw) : Out :=
  if st.levels ≠ [] ∧ !topObject st.levels ∧ !st.skipComma then putChars [44] st.o else st.o

/-- `put_null`, `put_boolean`, `put_number`, `put_string`, 753-856: `text` is what they put. -/
def putValue (st : Jw) (text : Out → Out) : Jw :=
  if expectProperty st.expect st.levels then { st with o := st.o.setBad }
  else { o := text (valueComma st), expect := setExpect st.levels true, levels := st.levels, skipComma := false }

/-- `put_null`, 753-773. -/
def putNull (st : Jw) : Jw := putValue st (putChars [110, 117, 108, 108])
/-- `put_boolean`, 776-801. -/
def putBoolean (st : Jw) (b : Bool) : Jw :=
  putValue st (putChars (if b then [116, 114, 117, 101] else [102, 97, 108, 115, 101]))
/-- `put_number`, 804-827; `lit` is what `snprintf` produced. -/
def putNumber (st : Jw) (lit : List Byte) : Jw := putValue st (putChars lit)
/-- `put_string`, 830-856. -/
def putString (st : Jw) (b : List Byte) : Jw :=
  putValue st fun o => putChars [34] (putChars b (putChars [34] o))

/-- `put_property`, 859-885. -/
def putProperty (st : Jw) (b : List Byte) : Jw :=
  if !expectProperty st.expect st.levels then { st with o := st.o.setBad }
  else
    let o := if st.levels ≠ [] ∧ topObject st.levels ∧ !st.skipComma then putChars [44] st.o else st.o
    { o := putChars [34, 58] (putChars b (putChars [34] o)), expect := setExpect st.levels false,
      levels := st.levels, skipComma := true }

/-- `put_begin_array`, 888-910, and `put_begin_object`, 934-956: the level, the bracket, and the argument
of `set_expect_property`. -/
def putBegin (max : Nat) (st : Jw) (level : Bool) : Jw :=
  if expectProperty st.expect st.levels then { st with o := st.o.setBad }
  else
    let o := putChars [if level then 123 else 91] (valueComma st)
    match pushLevel max level st.levels with
    | some levels => { o := o, expect := setExpect levels level, levels := levels, skipComma := true }
    | none => { o := o.setBad, expect := setExpect st.levels level, levels := st.levels, skipComma := true }

/-- `put_end_array`, 913-931. -/
def putEndArray (st : Jw) : Jw :=
  if expectProperty st.expect st.levels then { st with o := st.o.setBad }
  else
    let o := putChars [93] st.o
    match popLevel false st.levels with
    | some levels => { o := o, expect := setExpect levels true, levels := levels, skipComma := false }
    | none => { o := o.setBad, expect := setExpect st.levels true, levels := st.levels, skipComma := false }

/-- `put_end_object`, 959-977. -/
def putEndObject (st : Jw) : Jw :=
  if !expectProperty st.expect st.levels then { st with o := st.o.setBad }
  else
    let o := putChars [125] st.o
    match popLevel true st.levels with
    | some levels => { o := o, expect := setExpect levels true, levels := levels, skipComma := false }
    | none => { o := o.setBad, expect := setExpect st.levels true, levels := st.levels, skipComma := false }

/-- `put_space`, `put_tab`, `put_cr`, `put_lf`, 729-750. -/
def putBlank (st : Jw) (c : Byte) : Jw := { st with o := putChars [c] st.o }

end Abc.Json
