import Verif.Stream.Model

/-!
# Model of `/repo/src/http.h`

Readers work on a user buffer, a memory block `mem` whose `size` is passed along; a write outside the
block is `Res.ub`.  Logging is not modelled.  `thrown` tells that the call threw `std::logic_error`
(`assert_next`).  The bytes passed to a writer are the list `b` of the `size` bytes (for
`size::strlen`: the bytes before the NUL); writer loops walk along the list, so a position is the
list of the bytes still to be written.
-/

namespace Abc.Http

open Abc.Ascii Abc.Stream

/-- `http::item`, `src/i/http.i.h` 38-51. -/
inductive Item where
  | method | resource | protocol | statusCode | reasonPhrase | headerName | headerValue | body
  deriving DecidableEq, Repr

/-! ## Readers -/

/-- State of an `http_istream`: the `std::istream`, `_next`, `_gcount`. -/
structure Rd where
  s : In
  next : Item
  gcount : Nat := 0
  deriving DecidableEq, Repr

/-- Result of a reader call. -/
structure RdRes where
  st : Rd
  mem : List Byte
  thrown : Bool := false
  deriving DecidableEq, Repr

/-- `skip_spaces`, `src/http.h` 298-300. -/
def skipSpaces (fuel : Nat) (s : In) : Res Skipped := skipChars fuel isAscii isSpace s

/-- `skip_crlf`, 304-318 (its count is never used). -/
def skipCrlf (s : In) : In :=
  if s.peekCharV isAscii ≠ 13 then (s.getCharS isAscii).setFail
  else if (s.getCharS isAscii).peekCharV isAscii ≠ 10 then
    ((s.getCharS isAscii).getCharS isAscii).setFail
  else (s.getCharS isAscii).getCharS isAscii

/-- `get_protocol`, 123-139 and (the same code again) 141-157: a separator, then digits. -/
def protoPart (fuel : Nat) (ch : Byte) (size : Nat) (s0 : In) (mem : List Byte) (n : Nat) : Res Got :=
  let s := if n = sub64 size 1 then s0.setFail else s0
  if s.good then
    if s.peekCharV isAscii = ch then
      (wr mem n ch).bind fun mem =>
        if (s.getCharS isAscii).good then
          (getChars fuel isAscii isDigit (s.getCharS isAscii) mem (n + 1) (sub64 size (n + 1))).bind
            fun g => .ok ⟨g.s, g.mem, n + 1 + g.n⟩
        else .ok ⟨s.getCharS isAscii, mem, n + 1⟩
    else .ok ⟨(s.getCharS isAscii).setBad, mem, n⟩
  else .ok ⟨s, mem, n⟩

/-- `get_protocol`, 119-121: the word just read must be `HTTP` in any case. -/
def protoHead (g : Got) : Res In :=
  if g.n ≠ 4 then .ok g.s.setBad
  else match areEqualIN (some [72, 84, 84, 80, 0]) (some g.mem) 4 with
    | none => .ub
    | some e => .ok (g.s.setBadIf (!e))

/-- `http_istream::get_protocol` after `assert_next`, 110-166. -/
def getProtocolBase (fuel : Nat) (s : In) (mem : List Byte) (size : Nat) : Res Got :=
  (getChars fuel isAscii isAlpha s mem 0 size).bind fun g =>
  (protoHead g).bind fun s1 =>
  (protoPart fuel 47 size s1 g.mem g.n).bind fun g1 =>
  (protoPart fuel 46 size g1.s g1.mem g1.n).bind fun g2 =>
  (skipSpaces fuel g2.s).bind fun k => .ok ⟨k.s, g2.mem, g2.n⟩

/-- `http_istream::get_header_name`, 170-202. -/
def getHeaderName (fuel : Nat) (st : Rd) (mem : List Byte) (size : Nat) : Res RdRes :=
  if st.next ≠ .headerName then .ok ⟨st, mem, true⟩
  else
    (getChars fuel isAscii httpIsToken st.s mem 0 size).bind fun g =>
    (skipSpaces fuel g.s).bind fun k =>
    if g.n = 0 then .ok ⟨⟨skipCrlf k.s, .body, g.n⟩, g.mem, false⟩
    else
      let s :=
        if k.s.good then
          (if k.s.peekCharV isAscii ≠ 58 then (k.s.getCharS isAscii).setBad else k.s.getCharS isAscii)
        else k.s
      (skipSpaces fuel s).bind fun k2 => .ok ⟨⟨k2.s, .headerValue, g.n⟩, g.mem, false⟩

/-- State inside `get_header_value`; `ret` marks the early return. -/
structure Hv where
  s : In
  mem : List Byte
  n : Nat
  ret : Bool
  deriving DecidableEq, Repr

/-- 219-228: the single space before a further word. -/
def hvSpace (size : Nat) (k : Skipped) (mem : List Byte) (n : Nat) : Res Hv :=
  if n > 0 ∧ k.n > 0 then
    if isAbcprint (k.s.peekCharV isAscii) then
      if n = sub64 size 1 then .ok ⟨(k.s.peekCharS isAscii).setFail, mem, n, true⟩
      else (wr mem n 32).bind fun mem => .ok ⟨k.s.peekCharS isAscii, mem, n + 1, false⟩
    else .ok ⟨k.s.peekCharS isAscii, mem, n, false⟩
  else .ok ⟨k.s, mem, n, false⟩

/-- The inner loop of `get_header_value`, 218-233. -/
def hvInner (fuel size : Nat) : Nat → In → List Byte → Nat → Res Hv
  | 0, _, _, _ => .running
  | f + 1, s, mem, n =>
    (skipSpaces fuel s).bind fun k =>
    (hvSpace size k mem n).bind fun h =>
    if h.ret then .ok h
    else
      (getChars fuel isAscii isAbcprint h.s h.mem h.n (sub64 size h.n)).bind fun g =>
      if g.s.good ∧ g.n > 0 then hvInner fuel size f g.s g.mem (h.n + g.n)
      else .ok ⟨g.s, g.mem, h.n + g.n, false⟩

/-- The outer loop of `get_header_value`, 217-236. -/
def hvOuter (fuel size : Nat) : Nat → In → List Byte → Nat → Res Hv
  | 0, _, _, _ => .running
  | f + 1, s, mem, n =>
    (hvInner fuel size fuel s mem n).bind fun h =>
    if h.ret then .ok h
    else if (skipCrlf h.s).good then
      if isSpace ((skipCrlf h.s).peekCharV isAscii) then
        hvOuter fuel size f ((skipCrlf h.s).peekCharS isAscii) h.mem h.n
      else .ok ⟨(skipCrlf h.s).peekCharS isAscii, h.mem, h.n, false⟩
    else .ok ⟨skipCrlf h.s, h.mem, h.n, false⟩

/-- `http_istream::get_header_value`, 206-245. -/
def getHeaderValue (fuel : Nat) (st : Rd) (mem : List Byte) (size : Nat) : Res RdRes :=
  if st.next ≠ .headerValue then .ok ⟨st, mem, true⟩
  else
    (hvOuter fuel size fuel st.s mem 0).bind fun h =>
    if h.ret then .ok ⟨⟨h.s, .headerValue, h.n⟩, h.mem, false⟩
    else (skipSpaces fuel h.s).bind fun k => .ok ⟨⟨k.s, .headerName, h.n⟩, h.mem, false⟩

/-- The loop of `get_bytes`, 322-330. -/
def getBytesLoop (size : Nat) : Nat → In → List Byte → Nat → Res Got
  | 0, _, _, _ => .running
  | f + 1, s, mem, n =>
    if s.good ∧ n < size then (wr mem n s.getV).bind fun mem => getBytesLoop size f s.getS mem (n + 1)
    else .ok ⟨s, mem, n⟩

/-- `http_istream::get_body`, 249-264. -/
def getBody (fuel : Nat) (st : Rd) (mem : List Byte) (size : Nat) : Res RdRes :=
  if st.next ≠ .body then .ok ⟨st, mem, true⟩
  else (getBytesLoop size fuel st.s mem 0).bind fun g => .ok ⟨⟨g.s, .body, g.n⟩, g.mem, false⟩

/-- `http_request_istream::get_method`, 735-752. -/
def getMethod (fuel : Nat) (st : Rd) (mem : List Byte) (size : Nat) : Res RdRes :=
  if st.next ≠ .method then .ok ⟨st, mem, true⟩
  else
    (getChars fuel isAscii httpIsToken st.s mem 0 size).bind fun g =>
    (skipSpaces fuel g.s).bind fun k => .ok ⟨⟨k.s, .resource, g.n⟩, g.mem, false⟩

/-- `http_request_istream::get_resource`, 756-775. -/
def getResource (fuel : Nat) (st : Rd) (mem : List Byte) (size : Nat) : Res RdRes :=
  if st.next ≠ .resource then .ok ⟨st, mem, true⟩
  else
    (getChars fuel isAscii isAbcprint st.s mem 0 (sub64 size 1)).bind fun g =>
    (wr g.mem (g.n + 1) 0).bind fun mem =>
    (skipSpaces fuel g.s).bind fun k => .ok ⟨⟨k.s, .protocol, g.n⟩, mem, false⟩

/-- `http_request_istream::get_protocol`, 779-785. -/
def getRequestProtocol (fuel : Nat) (st : Rd) (mem : List Byte) (size : Nat) : Res RdRes :=
  if st.next ≠ .protocol then .ok ⟨st, mem, true⟩
  else (getProtocolBase fuel st.s mem size).bind fun g =>
    .ok ⟨⟨skipCrlf g.s, .headerName, g.n⟩, g.mem, false⟩

/-- `http_response_istream::get_protocol`, 938-942. -/
def getResponseProtocol (fuel : Nat) (st : Rd) (mem : List Byte) (size : Nat) : Res RdRes :=
  if st.next ≠ .protocol then .ok ⟨st, mem, true⟩
  else (getProtocolBase fuel st.s mem size).bind fun g =>
    .ok ⟨⟨g.s, .statusCode, g.n⟩, g.mem, false⟩

/-- `http_response_istream::get_status_code`, 945-962. -/
def getStatusCode (fuel : Nat) (st : Rd) (mem : List Byte) (size : Nat) : Res RdRes :=
  if st.next ≠ .statusCode then .ok ⟨st, mem, true⟩
  else
    (getChars fuel isAscii isDigit st.s mem 0 size).bind fun g =>
    (skipSpaces fuel g.s).bind fun k => .ok ⟨⟨k.s, .reasonPhrase, g.n⟩, g.mem, false⟩

/-- `http_response_istream::get_reason_phrase`, 966-984. -/
def getReasonPhrase (fuel : Nat) (st : Rd) (mem : List Byte) (size : Nat) : Res RdRes :=
  if st.next ≠ .reasonPhrase then .ok ⟨st, mem, true⟩
  else
    (getChars fuel isAscii isAbcprintOrSpace st.s mem 0 size).bind fun g =>
    (skipSpaces fuel g.s).bind fun k =>
    .ok ⟨⟨skipCrlf k.s, .headerName, g.n⟩, g.mem, false⟩

/-! ## Query parameters -/

/-- `std::strchr(buffer + i, c)`: a position, or null; reading outside the block is undefined. -/
def strchr (mem : List Byte) (c : Byte) (i : Nat) : Res (Option Nat) :=
  match (mem.drop i).findIdx? (fun x => x == c || x == 0) with
  | none => .ub
  | some k => if mem[i + k]? = some c then .ok (some (i + k)) else .ok none

/-- `std::strlen(buffer + i)`. -/
def strlen (mem : List Byte) (i : Nat) : Res Nat :=
  match (mem.drop i).findIdx? (fun x => x == 0) with
  | none => .ub
  | some k => .ok k

/-- The loop of `split_resource`, 795-801; `param` is a position or null. -/
def splitLoop (size : Nat) : Nat → List Byte → Option Nat → Res (List Byte)
  | 0, _, _ => .running
  | _ + 1, mem, none => .ok mem
  | f + 1, mem, some p =>
    if p < size then
      (wr mem p 0).bind fun mem =>
      if p + 1 < size then
        match mem[p + 1]? with
        | none => .ub
        | some x =>
          if x ≠ 0 then (strchr mem 38 (p + 1)).bind fun q => splitLoop size f mem q
          else splitLoop size f mem (some (p + 1))
      else splitLoop size f mem (some (p + 1))
    else .ok mem

/-- `http_request_istream::split_resource`, 789-802. -/
def splitResource (fuel : Nat) (mem : List Byte) (size : Nat) : Res (List Byte) :=
  (strchr mem 63 0).bind fun p => splitLoop size fuel mem p

/-- `std::strncmp(buffer + p, name, len) == 0 && buffer[p + len] == '='` where `len` is the length of
`name` (which has no NUL inside). -/
def paramAt (mem : List Byte) (p : Nat) : List Byte → Res Bool
  | [] => match mem[p]? with
    | none => .ub
    | some x => .ok (x == 61)
  | a :: name => match mem[p]? with
    | none => .ub
    | some x => if x = a then paramAt mem (p + 1) name else .ok false

/-- The loop of `get_resource_parameter`, 813-821. -/
def paramLoop (mem : List Byte) (size : Nat) (name : List Byte) : Nat → Nat → Res (Option Nat)
  | 0, _ => .running
  | f + 1, p =>
    if p < size then
      match mem[p]? with
      | none => .ub
      | some x =>
        if x ≠ 0 then
          (paramAt mem p name).bind fun b =>
          if b then .ok (some (p + name.length + 1))
          else (strlen mem p).bind fun l => paramLoop mem size name f (p + l + 1)
        else .ok none
    else .ok none

/-- `http_request_istream::get_resource_parameter`, 806-824; `name` is the C string
`parameter_name`, the result is the position of the value or null. -/
def getResourceParameter (fuel : Nat) (mem : List Byte) (size : Nat) (name : List Byte) :
    Res (Option Nat) :=
  (strlen mem 0).bind fun l => paramLoop mem size name fuel (l + 1)

/-! ## Writers -/

/-- State of an `http_ostream`: the `std::ostream` and `_next`.  `flush` has no effect in the model. -/
structure Wr where
  o : Out
  next : Item
  deriving DecidableEq, Repr

/-- Result of a writer call. -/
structure WrRes where
  st : Wr
  thrown : Bool := false
  deriving DecidableEq, Repr

/-- A stream and the bytes not written yet. -/
structure Put where
  o : Out
  left : List Byte
  deriving DecidableEq, Repr

/-- `put_char`, 668-674 (its count is never used). -/
def putChar (o : Out) (c : Byte) : Out := if o.good then o.put c else o
/-- `put_crlf`, 602-604. -/
def putCrlf (o : Out) : Out := putChar (putChar o 13) 10
/-- `put_space`, 608-610. -/
def putSpace (o : Out) : Out := putChar o 32

/-- `put_bytes`, 644-652. -/
def putBytes : List Byte → Out → Put
  | [], o => ⟨o, []⟩
  | c :: b, o => if o.good then putBytes b (o.put c) else ⟨o, c :: b⟩

/-- `put_chars`, 656-664. -/
def putChars (pred : Byte → Bool) : List Byte → Out → Put
  | [], o => ⟨o, []⟩
  | c :: b, o => if o.good && pred c then putChars pred b (o.put c) else ⟨o, c :: b⟩

/-- `put_protocol`, 439-447 and 459-467: digits. -/
def putProtoDigits (p : Put) : Put :=
  if p.o.good ∧ p.left ≠ [] then
    if (putChars isDigit p.left p.o).left.length = p.left.length then
      ⟨(putChars isDigit p.left p.o).o.setBad, p.left⟩
    else putChars isDigit p.left p.o
  else p

/-- `put_protocol`, 449-457: the dot. -/
def putProtoDot (p : Put) : Put :=
  if p.o.good then
    match p.left with
    | [] => p
    | c :: b => if c ≠ 46 then ⟨p.o.setBad, p.left⟩ else ⟨p.o.put 46, b⟩
  else p

/-- `http_ostream::put_protocol` after `assert_next`, 418-478.  (`are_equal_i_n` is defined when
`size ≥ 5`.) -/
def putProtocolBase (b : List Byte) (o : Out) : Out :=
  let p : Put :=
    if b.length < 5 ∨ areEqualIN (some b) (some [72, 84, 84, 80, 47, 0]) 5 ≠ some true then ⟨o.setBad, b⟩
    else ⟨(putBytes [72, 84, 84, 80, 47] o).o, b.drop 5⟩
  let q := putProtoDigits (putProtoDot (putProtoDigits p))
  if q.o.good ∧ q.left ≠ [] then q.o.setBad else q.o

/-- `http_ostream::put_header_name`, 482-512. -/
def putHeaderName (st : Wr) (b : List Byte) : WrRes :=
  if st.next ≠ .headerName then ⟨st, true⟩
  else
    let p := putChars httpIsToken b st.o
    let o := if p.o.good ∧ p.left ≠ [] then p.o.setBad else p.o
    let o := if o.good then putSpace (o.put 58) else o
    ⟨⟨o, .headerValue⟩, false⟩

/-- `skip_spaces_in_header_value`, 678-694: the bytes after the blanks and foldings. -/
def skipHv : List Byte → List Byte
  | [] => []
  | c :: b =>
    if isSpace c then skipHv b
    else if c = 13 then
      match b with
      | d :: x :: y :: b' => if d = 10 ∧ isSpace x then skipHv (y :: b') else c :: b
      | _ => c :: b
    else c :: b

/-- The loop of `put_header_value`, 529-547; `start` is `pcount == 0`. -/
def putHvLoop : Nat → Bool → List Byte → Out → Out
  | 0, _, _, o => o
  | f + 1, start, b, o =>
    let left := skipHv b
    let o := if !start ∧ left.length < b.length ∧ left ≠ [] then putSpace o else o
    match left with
    | [] => o
    | c :: b' =>
      if isAbcprint c then
        let p := putChars isAbcprint (c :: b') o
        if p.o.good ∧ p.left ≠ [] then putHvLoop f false p.left p.o else p.o
      else o.setBad

/-- `http_ostream::put_header_value`, 516-556.  (Every iteration but the last writes a byte, so
`size + 1` iterations are enough.) -/
def putHeaderValue (st : Wr) (b : List Byte) : WrRes :=
  if st.next ≠ .headerValue then ⟨st, true⟩
  else ⟨⟨putCrlf (putHvLoop (b.length + 1) true b st.o), .headerName⟩, false⟩

/-- `http_ostream::end_headers`, 560-575. -/
def endHeaders (st : Wr) : WrRes :=
  if st.next ≠ .headerName then ⟨st, true⟩ else ⟨⟨putCrlf st.o, .body⟩, false⟩

/-- `http_ostream::put_body`, 579-598. -/
def putBody (st : Wr) (b : List Byte) : WrRes :=
  if st.next ≠ .body then ⟨st, true⟩ else ⟨⟨(putBytes b st.o).o, .body⟩, false⟩

/-- `http_request_ostream::put_method`, 853-874. -/
def putMethod (st : Wr) (b : List Byte) : WrRes :=
  if st.next ≠ .method then ⟨st, true⟩
  else ⟨⟨putSpace (putChars httpIsToken b st.o).o, .resource⟩, false⟩

/-- `http_request_ostream::put_resource`, 878-899. -/
def putResource (st : Wr) (b : List Byte) : WrRes :=
  if st.next ≠ .resource then ⟨st, true⟩
  else ⟨⟨putSpace (putChars isAbcprint b st.o).o, .protocol⟩, false⟩

/-- `http_request_ostream::put_protocol`, 903-909. -/
def putRequestProtocol (st : Wr) (b : List Byte) : WrRes :=
  if st.next ≠ .protocol then ⟨st, true⟩
  else ⟨⟨putCrlf (putProtocolBase b st.o), .headerName⟩, false⟩

/-- `http_response_ostream::put_protocol`, 1013-1019. -/
def putResponseProtocol (st : Wr) (b : List Byte) : WrRes :=
  if st.next ≠ .protocol then ⟨st, true⟩
  else ⟨⟨putSpace (putProtocolBase b st.o), .statusCode⟩, false⟩

/-- `http_response_ostream::put_status_code`, 1023-1044. -/
def putStatusCode (st : Wr) (b : List Byte) : WrRes :=
  if st.next ≠ .statusCode then ⟨st, true⟩
  else ⟨⟨putSpace (putChars isDigit b st.o).o, .reasonPhrase⟩, false⟩

/-- `http_response_ostream::put_reason_phrase`, 1048-1072 (`none` = `nullptr`). -/
def putReasonPhrase (st : Wr) (b : Option (List Byte)) : WrRes :=
  if st.next ≠ .reasonPhrase then ⟨st, true⟩
  else ⟨⟨putCrlf (match b with
    | none => st.o
    | some b => (putChars isAbcprintOrSpace b st.o).o), .headerName⟩, false⟩

end Abc.Http
