import Verif.Samples.GameWire

/-!
# The solver of `samples/basic` at the level of bytes: model

`equations_endpoint` (`samples/basic/equations.h`) from the bytes of a connection to the bytes of the answer.  The
request line and the sending of responses are those of `Verif/Samples/GameWire.lean` (the class `endpoint` is the same),
the JSON reader and writer those of `Verif/Json`.

* What is done with numbers is a parameter (`Arith`): how the eight bytes of a `double` are read, subtracted,
  multiplied, divided, compared with zero and printed.
* The endpoint has no state; `process_request` is called with nothing else going on that matters to it.
* Logging is not modelled.
-/

namespace Abc.EquationsWire

open Abc.Ascii Abc.Stream Abc.Http Abc.Wire Abc.Json Abc.GameWire
open Abc.Endpoint (Config str mem)

/-- The arithmetic of `double`, as far as it is used. -/
structure Arith (D : Type) where
  /-- the eight bytes in the token buffer, line 297 -/
  load : List Byte → D
  zero : D
  sub : D → D → D
  mul : D → D → D
  div : D → D → D
  /-- `== 0` -/
  isZero : D → Bool
  /-- `%.16lg` (`src/json.h` 821) -/
  text : D → List Byte

abbrev Done := DoneOf Unit

/-- How the loop over the headers ends. -/
inductive Headers where
  /-- all have been read -/
  | done (st : Rd)
  /-- sent 400 with this text -/
  | refused (st : Rd) (body : String)
  /-- an exception left `get_header_name` or `get_header_value` -/
  | thrown

/-- The loop over the headers, 92-123.  (`header` is the same array in every iteration.) -/
def headerLoop (fuel : Nat) : Nat → Bool → Rd → List Byte → Res Headers
  | 0, _, _, _ => .running
  | f + 1, has, st, hm =>
    (getHeaderName fuel st hm 1025).bind fun a =>
    if a.thrown then .ok .thrown else
    if a.st.gcount = 0 then .ok (.done a.st) else
    match areEqualI (some a.mem) (mem (str "Content-Type")) with
    | none => .ub
    | some true =>
      if has then .ok (.refused a.st "The Content-Type header was supplied more than once.") else
      (getHeaderValue fuel a.st a.mem 1025).bind fun b =>
      if b.thrown then .ok .thrown else
      match areEqualIN (some b.mem) (mem jsonType) jsonType.length with
      | none => .ub
      | some false => .ok (.refused b.st "'application/json' is the only supported Content-Type.")
      | some true => headerLoop fuel f true b.st b.mem
    | some false =>
      (getHeaderValue fuel a.st a.mem 1025).bind fun b =>
      if b.thrown then .ok .thrown else headerLoop fuel f has b.st b.mem

/-- `parse_array_2`, 281-310: the numbers as eight bytes each; `none` is 400. -/
def parseArray2 (c : Ctx) (j : Jr) (buf : List Byte) : Res (Option (Tok × List Byte × List Byte)) :=
  (getTok c j buf).bind fun t =>
  if t.item ≠ .beginArray then .ok none else
  (getTok c t.st (Tok.block t)).bind fun x =>
  if x.item ≠ .number then .ok none else
  (getTok c x.st (Tok.block x)).bind fun y =>
  if y.item ≠ .number then .ok none else
  (getTok c y.st (Tok.block y)).bind fun e =>
  if e.item ≠ .endArray then .ok none else
  .ok (some (e, (Tok.value x).take 8, (Tok.value y).take 8))

/-- What has been read: `a` and `b`, if `has_a` and `has_b` (125-129). -/
structure Got where
  a : Option ((List Byte × List Byte) × (List Byte × List Byte)) := none
  b : Option (List Byte × List Byte) := none

/-- The member `a`, 164-188: `none` is 400. -/
def parseA (c : Ctx) (j : Jr) (buf : List Byte) : Res (Option (Tok × (List Byte × List Byte) × (List Byte × List Byte))) :=
  (getTok c j buf).bind fun t =>
  if t.item ≠ .beginArray then .ok none else
  (parseArray2 c t.st (Tok.block t)).bind fun
  | none => .ok none
  | some (t, a0) =>
    (parseArray2 c t.st (Tok.block t)).bind fun
    | none => .ok none
    | some (t, a1) =>
      (getTok c t.st (Tok.block t)).bind fun t =>
      if t.item ≠ .endArray then .ok none else .ok (some (t, a0, a1))

/-- The loop over the properties, 147-206: `none` is 400. -/
def problemLoop (c : Ctx) : Nat → Jr → List Byte → Got → Res (Option Got)
  | 0, _, _, _ => .running
  | f + 1, j, buf, got =>
    (getTok c j buf).bind fun t =>
    if t.item = .endObject then .ok (some got) else
    if t.item ≠ .property then .ok none else
    match areEqualC (some (Tok.value t)) (mem (str "a")) with
    | none => .ub
    | some true =>
      (parseA c t.st (Tok.block t)).bind fun
      | none => .ok none
      | some (t, a) => problemLoop c f t.st (Tok.block t) { got with a := some a }
    | some false =>
      match areEqualC (some (Tok.value t)) (mem (str "b")) with
      | none => .ub
      | some true =>
        (parseArray2 c t.st (Tok.block t)).bind fun
        | none => .ok none
        | some (t, b) => problemLoop c f t.st (Tok.block t) { got with b := some b }
      | some false => (skipValue 64 c.fuel t.st).bind fun k => problemLoop c f k.st (Tok.block t) got

/-- The body of a request, 131-212: `none` is 400. -/
def problemBody (c : Ctx) (body : List Byte) :
    Res (Option (((List Byte × List Byte) × (List Byte × List Byte)) × (List Byte × List Byte))) :=
  (getTok c { s := { rest := body } } c.token).bind fun t =>
  if t.item ≠ .beginObject then .ok none else
  (problemLoop c c.fuel t.st (Tok.block t) {}).bind fun
  | some ⟨some a, some b⟩ => .ok (some (a, b))
  | _ => .ok none

/-- The answer, 214-236: `status`, `x`, `y`. -/
def solve {D : Type} (F : Arith D) (a00 a01 a10 a11 b0 b1 : D) : Int × D × D :=
  let det := F.sub (F.mul a00 a11) (F.mul a01 a10)
  let detX := F.sub (F.mul b0 a11) (F.mul a01 b1)
  let detY := F.sub (F.mul a00 b1) (F.mul b0 a10)
  if F.isZero det = false then (1, F.div detX det, F.div detY det)
  else if F.isZero detX = false ∨ F.isZero detY = false then (0, F.zero, F.zero)
  else (2, F.zero, F.zero)

/-- What is put into the body, 242-249. -/
def answerToks (status : Int) (x y : List Byte) : List Spec.Token :=
  [.beginObject, .prop (str "status"), .num (decInt status), .prop (str "x"), .num x, .prop (str "y"), .num y, .endObject]

/-- The text of a 400, line 137. -/
def invalidJson : String := "An invalid JSON payload was supplied. Must be {\"a\": [ [1, 2], [3, 4] ], \"b\": [5, 6] }."

/-- `POST /problem`, 91-277; the calls 261-273 are those of `send_simple_response`. -/
def processProblem {D : Type} (c : Ctx) (F : Arith D) (st : Rd) : Done :=
  (headerLoop c.fuel c.fuel false st c.header).bind fun
  | .thrown => .ok ((), .terminated)
  | .refused st body => .ok ((), bad c st.s body)
  | .done st =>
    (problemBody c st.s.rest).bind fun
    | none => .ok ((), bad c st.s invalidJson)
    | some (((a00, a01), (a10, a11)), (b0, b1)) =>
      let r := solve F (F.load a00) (F.load a01) (F.load a10) (F.load a11) (F.load b0) (F.load b1)
      (jsonText 1025 (answerToks r.1 (F.text r.2.1) (F.text r.2.2))).bind fun body =>
      .ok ((), answer st.s c.room false (simpleCalls (str "200") (str "OK") jsonType body))

/-- `equations_endpoint::process_rest_request`, 65-278. -/
def handler {D : Type} (c : Ctx) (F : Arith D) (st : Rd) (method resource : List Byte) : Done :=
  match areEqualI (mem method) (mem (str "POST")) with
  | none => .ub
  | some post =>
    match areEqualI (mem resource) (mem (str "/shutdown")) with
    | none => .ub
    | some down =>
      if post && down then
        .ok ((), answer st.s c.room true (simpleCalls (str "200") (str "OK") plain (str "Server is shuting down...")))
      else
        match areEqualI (mem resource) (mem (str "/problem")) with
        | none => .ub
        | some false => .ok ((), refuse c st.s "404" "Not Found" "The requested resource was not found.")
        | some true =>
          if post then processProblem c F st
          else .ok ((), refuse c st.s "405" "Method Not Allowed" "POST is the only supported method for resource '/problem'.")

/-- `endpoint::process_request` (`src/endpoint.h` 104-170) of an `equations_endpoint`. -/
def serve {D : Type} (cfg : Config) (stat : List Byte → Option Nat) (content : List Byte → List Byte) (c : Ctx) (F : Arith D)
    (mm mp mc : List Byte) (down : Bool) (bytes : List Byte) : Done :=
  serveWith cfg stat content c mm mp mc down () (handler c F) bytes

end Abc.EquationsWire
