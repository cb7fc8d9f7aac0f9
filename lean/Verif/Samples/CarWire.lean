import Verif.Samples.Car
import Verif.Samples.GameWire

/-!
# The car at the level of bytes: model

`car_endpoint` (`samples/picar_4wd/car.h`) from the bytes of a connection to the bytes of the answer and the calls
on the devices.  The request line, the headers and the sending of responses are those of
`Verif/Samples/GameWire.lean` (the two endpoints share `endpoint`, and `verify_method_get`, `verify_method_post` and
`verify_header_json` are the same text in both), the JSON reader and writer those of `Verif/Json`, and what a
number does to the car is `Verif/Samples/Car.lean`.

* The eight bytes of a `double` are converted to a rational number by a parameter (`num`); `none` stands for a NaN
  and the infinities, which all fail the tests of lines 229, 333 and 478.
* Every request is one step with respect to the members of the endpoint.
* Logging is not modelled.
-/

namespace Abc.CarWire

open Abc.Ascii Abc.Stream Abc.Http Abc.Wire Abc.Json Abc.GameWire Abc.Car
open Abc.Endpoint (Config str mem)

/-- The car and the calls made on the devices. -/
abbrev Done := DoneOf (Car × List Cmd)

/-- `static_cast<std::int32_t>` of a `double` in range (lines 240, 344, 489): towards zero. -/
def trunc (q : Rat) : Int := q.num.tdiv q.den

/-- `get_token` expecting a number between two bounds, 228-240, 332-344, 477-489: `none` is 400. -/
def expectNumber (c : Ctx) (num : List Byte → Option Rat) (lo hi : Int) (t : Tok) : Res (Option Int) :=
  (getTok c t.st (Tok.block t)).bind fun t =>
  if t.item ≠ .number then .ok none else
  match num ((Tok.value t).take 8) with
  | none => .ok none
  | some q => .ok (if (lo : Rat) ≤ q ∧ q ≤ (hi : Rat) then some (trunc q) else none)

/-- The body of a request with a number, 197-241, 301-345, 446-490: `none` is 400. -/
def numberBody (c : Ctx) (num : List Byte → Option Rat) (name : String) (lo hi : Int) (body : List Byte) : Res (Option Int) :=
  (getTok c { s := { rest := body } } c.token).bind fun t =>
  if t.item ≠ .beginObject then .ok none else
  (expectName c (str name) t).bind fun
  | none => .ok none
  | some t => expectNumber c num lo hi t

/-- Response 200 with plain text. -/
def succeed (c : Ctx) (s : In) (body : List Byte) : Outcome := answer s c.room false (simpleCalls (str "200") (str "OK") plain body)

/-- What the three requests with a number have in common: the method, the headers, the body, the range, the effect, the
response. -/
def processNumber (c : Ctx) (num : List Byte → Option Rat) (car : Car) (st : Rd) (method : List Byte) (name shown : String)
    (lo hi step : Int) (act : Car → Int → Car × List Cmd) (text : Car → Int → List Byte) : Done :=
  whenPost c (car, []) st method <|
  whenJson c (car, []) st fun st =>
  (numberBody c num name lo hi st.s.rest).bind fun
  | none => .ok ((car, []), bad c st.s shown)
  | some n =>
    if inRange n lo hi step = false then .ok ((car, []), bad c st.s "Value not in range.")
    else .ok (act car n, succeed c st.s (text (act car n).1 n))

/-- The text of a 400, line 202. -/
def powerShown : String := "An invalid JSON payload was supplied. Must be: {\"power\": 50}."
/-- The text of a 400, line 306. -/
def turnShown : String := "An invalid JSON payload was supplied. Must be: {\"turn\": 50}."
/-- The text of a 400, line 451. -/
def servoShown : String := "An invalid JSON payload was supplied. Must be: {\"servo\": 50}."

/-- `snprintf`, line 284. -/
def powerText (car : Car) : List Byte :=
  str "power: forward=" ++ (dec (if car.forward then 1 else 0) ++ (str ", power=" ++ (decInt car.power ++ (str ", turn=" ++ decInt car.turn))))
/-- `snprintf`, line 356. -/
def turnText (car : Car) : List Byte := str "turn: power=" ++ (decInt car.power ++ (str ", turn=" ++ decInt car.turn))
/-- `snprintf`, line 501. -/
def servoText (angle : Int) : List Byte := str "servo: angle=" ++ decInt angle

/-- `process_power`, 186-286. -/
def processPower (c : Ctx) (num : List Byte → Option Rat) (car : Car) (st : Rd) (method : List Byte) : Done :=
  processNumber c num car st method "power" powerShown (-100) 100 25 onPower fun car _ => powerText car

/-- `process_turn`, 290-358. -/
def processTurn (c : Ctx) (num : List Byte → Option Rat) (car : Car) (st : Rd) (method : List Byte) : Done :=
  processNumber c num car st method "turn" turnShown (-90) 90 30 onTurn fun car _ => turnText car

/-- `process_servo`, 435-503. -/
def processServo (c : Ctx) (num : List Byte → Option Rat) (car : Car) (st : Rd) (method : List Byte) : Done :=
  processNumber c num car st method "angle" servoShown (-90) 90 30 onServo fun _ n => servoText n

/-- What `/autos` reports: the grayscale values, and the texts `%.16lg` of `_obstacle_cm`, of the depth and of the
width. -/
structure Sensors where
  obstacle : List Byte
  left : Nat
  center : Nat
  right : Nat
  depth : List Byte
  width : List Byte

/-- `{"distance":…,"units":"cm"}`, 372-378, 388-394, 395-401. -/
def distanceToks (name : String) (text : List Byte) : List Spec.Token :=
  [.prop (str name), .beginObject, .prop (str "distance"), .num text, .prop (str "units"), .str (str "cm"), .endObject]

/-- What is put into the body, 371-402. -/
def autosToks (s : Sensors) : List Spec.Token :=
  .beginObject :: (distanceToks "obstacle" s.obstacle ++
    ([.prop (str "grayscale"), .beginObject, .prop (str "left"), .num (dec s.left), .prop (str "center"), .num (dec s.center),
      .prop (str "right"), .num (dec s.right), .endObject] ++
    (distanceToks "depth" s.depth ++ (distanceToks "width" s.width ++ [.endObject]))))

/-- `process_autos`, 362-431. -/
def processAutos (c : Ctx) (car : Car) (s : Sensors) (st : Rd) (method : List Byte) : Done :=
  whenGet c (car, []) st method <|
  (jsonText 513 (autosToks s)).bind fun body =>
  .ok ((car, []), answer st.s c.room false (simpleCalls (str "200") (str "OK") jsonType body))

/-- `process_shutdown`, 507-518.  `join` waits for the end of the current round of `auto_loop`. -/
def processShutdown (c : Ctx) (car : Car) (st : Rd) (method : List Byte) : Done :=
  whenPost c (car, []) st method <|
  .ok ((car, [.reset]), answer st.s c.room true (simpleCalls (str "200") (str "OK") plain (str "Server is shuting down...")))

/-- Whether the resource is `name`, in any case; `k` if not. -/
def whenResource (resource : List Byte) (name : String) (yes no : Done) : Done :=
  match areEqualI (mem resource) (mem (str name)) with
  | none => .ub
  | some true => yes
  | some false => no

/-- `car_endpoint::process_rest_request`, 154-182. -/
def carHandler (c : Ctx) (num : List Byte → Option Rat) (s : Sensors) (car : Car) (st : Rd) (method resource : List Byte) : Done :=
  whenResource resource "/power" (processPower c num car st method) <|
  whenResource resource "/turn" (processTurn c num car st method) <|
  whenResource resource "/autos" (processAutos c car s st method) <|
  whenResource resource "/servo" (processServo c num car st method) <|
  whenResource resource "/shutdown" (processShutdown c car st method) <|
  .ok ((car, []), refuse c st.s "404" "Not Found" "The requested resource was not found.")

/-- `endpoint::process_request` (`src/endpoint.h` 104-170) of a `car_endpoint`. -/
def serve (cfg : Config) (stat : List Byte → Option Nat) (content : List Byte → List Byte) (c : Ctx) (num : List Byte → Option Rat)
    (mm mp mc : List Byte) (down : Bool) (s : Sensors) (car : Car) (bytes : List Byte) : Done :=
  serveWith cfg stat content c mm mp mc down (car, []) (carHandler c num s car) bytes

/-! ## Sessions -/

/-- What happens: a connection with some bytes, or a round of `auto_loop`. -/
inductive Happening where
  | request (c : Ctx) (mm mp mc : List Byte) (s : Sensors) (bytes : List Byte)
  | sense (distance : Nat)

/-- The car and its motors after some happenings (newest first), and what was sent on each connection. -/
def play (cfg : Config) (stat : List Byte → Option Nat) (content : List Byte → List Byte) (num : List Byte → Option Rat) (w : World) :
    List Happening → Res (World × List (Option Outcome))
  | [] => .ok (w, [])
  | .request c mm mp mc s bytes :: es =>
    (play cfg stat content num w es).bind fun x =>
    (serve cfg stat content c num mm mp mc false s x.1.car bytes).bind fun y =>
    .ok (⟨y.1.1, y.1.2.foldl obey x.1.motors⟩, some y.2 :: x.2)
  | .sense d :: es => (play cfg stat content num w es).bind fun x => .ok (x.1.step (.sense d), none :: x.2)

end Abc.CarWire
