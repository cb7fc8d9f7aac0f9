import Verif.Endpoint.Wire
import Verif.Json.Props
import Verif.Samples.GameServer

/-!
# The tic-tac-toe server at the level of bytes: model

`game_endpoint` (`samples/tictactoe/game.h` 687-1453) from the bytes of a connection to the bytes of the
answer: the request line and the sending of responses are those of `Verif/Endpoint/Wire.lean`, the JSON
reader and writer those of `Verif/Json`, and what a request does to the game is `Verif/Samples/GameServer.lean`.

* The functions of the C library used here (`sscanf`, `strcpy`, `strlen`) are modelled below.  `sscanf` is
  glibc's: a number out of range is reduced instead of being undefined behaviour.
* `json_istream` is constructed on the buffer of the HTTP stream: it has state bits of its own, so what goes
  wrong in the body does not keep the response from being sent (lines 850-851, 1109-1110).
* The conversion of the eight bytes of a `double` is a parameter (`Ctx.cell`), as is `atof`.
* The results of `std::rand` are parameters (`Draw`).  Logging is not modelled.
-/

namespace Abc.GameWire

open Abc.Ascii Abc.Stream Abc.Http Abc.Wire Abc.Json
open Abc.Endpoint (Config str mem)
open Abc.GameServer (Id PType Server Req Resp)
open Abc.TicTacToe (Pid Move)

/-! ## `sscanf` -/

/-- `isspace` in the C locale. -/
def isBlankC (c : Byte) : Bool := c == 32 || (decide (9 ≤ c) && decide (c ≤ 13))

/-- Literal characters of a format. -/
def scanLit : List Byte → List Byte → Option (List Byte)
  | [], s => some s
  | c :: l, d :: s => if c = d then scanLit l s else none
  | _ :: _, [] => none

/-- An optional sign. -/
def scanSign : List Byte → Bool × List Byte
  | [] => (false, [])
  | c :: s => if c = 43 then (false, s) else if c = 45 then (true, s) else (false, c :: s)

/-- `%u`: white space, a sign, digits; the value is computed in 64 bits (`strtoul`) and cut to 32. -/
def scanU (s : List Byte) : Option (Nat × List Byte) :=
  let t := scanSign (s.dropWhile isBlankC)
  let ds := t.2.takeWhile isDigit
  if ds = [] then none
  else some ((if 2 ^ 64 ≤ ofDec ds then 2 ^ 64 - 1 else if t.1 then 2 ^ 64 - ofDec ds else ofDec ds) % 2 ^ 32,
    t.2.drop ds.length)

/-- `%6s`. -/
def scanS6 (s : List Byte) : Option (List Byte) :=
  let w := ((s.dropWhile isBlankC).takeWhile (fun c => !isBlankC c)).take 6
  if w = [] then none else some w

/-- What `process_games` finds in the resource behind `/games`, game.h 725-733. -/
inductive Route where
  | move (game player : Nat) (word : List Byte)
  | claim (game i : Nat)
  | moves (game since : Nat)
  | unknown
  deriving DecidableEq, Repr

/-- `"/%u/players/%u"`, line 728, and what is left. -/
def scanPlayers (s : List Byte) : Option (Nat × Nat × List Byte) := do
  let s ← scanLit (str "/") s
  let (g, s) ← scanU s
  let s ← scanLit (str "/players/") s
  let (p, s) ← scanU s
  some (g, p, s)

/-- `"/%u/players/%u/%6s"`, line 725. -/
def scanMove (s : List Byte) : Option (Nat × Nat × List Byte) := do
  let (g, p, s) ← scanPlayers s
  let s ← scanLit (str "/") s
  let w ← scanS6 s
  some (g, p, w)

/-- `"/%u/moves?since=%u"`, line 731. -/
def scanMoves (s : List Byte) : Option (Nat × Nat) := do
  let s ← scanLit (str "/") s
  let (g, s) ← scanU s
  let s ← scanLit (str "/moves?since=") s
  let (n, _) ← scanU s
  some (g, n)

/-- Lines 725-733: the first format that converts everything. -/
def route (s : List Byte) : Route :=
  match scanMove s with
  | some (g, p, w) => .move g p w
  | none =>
    match scanPlayers s with
    | some (g, i, _) => .claim g i
    | none =>
      match scanMoves s with
      | some (g, n) => .moves g n
      | none => .unknown

/-! ## Context -/

/-- What one request runs with: bytes the peer still accepts, a bound on loop iterations, the two
conversions of numbers, and the arrays `header` (1025 bytes, 1410) and `buffer` (16 + 1025 bytes, 852 and
1111) with whatever they contain. -/
structure Ctx where
  room : Nat
  fuel : Nat
  /-- `atof`: characters to the bytes of a `double` -/
  atof : List Byte → List Byte
  /-- the bytes of a `double`: converted to an integer if it is between 0 and 2 (1140, 1151, 1166, 1177) -/
  cell : List Byte → Option Nat
  header : List Byte
  token : List Byte

/-- The numbers drawn by `create_game`, 789-800. -/
structure Draw where
  game : Id
  x : Id
  o : Id

/-- The state of a server after a request and what happened to the connection. -/
abbrev DoneOf (S : Type) := Res (S × Outcome)

/-- … for the game. -/
abbrev Done := DoneOf Server

/-- `send_simple_response` with plain text. -/
def refuse (c : Ctx) (s : In) (status reason body : String) : Outcome :=
  answer s c.room false (simpleCalls (str status) (str reason) plain (str body))

/-- Response 400. -/
def bad (c : Ctx) (s : In) (body : String) : Outcome := refuse c s "400" "Bad Request" body

/-- `verify_method_post`, 1388-1401, before `k`; the same in `samples/picar_4wd/car.h` 631-644. -/
def whenPost {S : Type} (c : Ctx) (srv : S) (st : Rd) (method : List Byte) (k : DoneOf S) : DoneOf S :=
  match areEqualI (mem method) (mem (str "POST")) with
  | none => .ub
  | some true => k
  | some false => .ok (srv, refuse c st.s "405" "Method Not Allowed" "Expected method POST for this request.")

/-- `verify_method_get`, 1372-1385, before `k`; the same in `samples/picar_4wd/car.h` 615-628. -/
def whenGet {S : Type} (c : Ctx) (srv : S) (st : Rd) (method : List Byte) (k : DoneOf S) : DoneOf S :=
  match areEqualI (mem method) (mem (str "GET")) with
  | none => .ub
  | some true => k
  | some false => .ok (srv, refuse c st.s "405" "Method Not Allowed" "Expected method GET for this request.")

/-- How `verify_header_json` ends. -/
inductive Headers where
  /-- returned true -/
  | json (st : Rd)
  /-- returned false after the loop: nothing was sent -/
  | missing
  /-- sent 400 with this text -/
  | refused (st : Rd) (body : String)
  /-- an exception left `get_header_name` or `get_header_value` -/
  | thrown

/-- `application/json`, `src/i/endpoint.i.h` 216. -/
def jsonType : List Byte := str "application/json"

/-- The loop of `verify_header_json`, 1406-1452.  (`header` is the same array in every iteration.) -/
def headerLoop (fuel : Nat) : Nat → Bool → Rd → List Byte → Res Headers
  | 0, _, _, _ => .running
  | f + 1, has, st, hm =>
    (getHeaderName fuel st hm 1025).bind fun a =>
    if a.thrown then .ok .thrown else
    if a.st.gcount = 0 then .ok (if has then .json a.st else .missing) else
    match areEqualI (some a.mem) (mem (str "Content-Type")) with
    | none => .ub
    | some true =>
      if has then .ok (.refused a.st "The Content-Type header was supplied more than once.") else
      (getHeaderValue fuel a.st a.mem 1025).bind fun b =>
      if b.thrown then .ok .thrown else
      match areEqualIN (some b.mem) (mem jsonType) jsonType.length with
      | none => .ub
      | some false => .ok (.refused b.st "'application/json' is the only supported Content-Type.")
      | some true => headerLoop fuel f true b.st b.mem
    | some false =>
      (getHeaderValue fuel a.st a.mem 1025).bind fun b =>
      if b.thrown then .ok .thrown else headerLoop fuel f has b.st b.mem

/-- `verify_header_json`, 1404-1453, before `k`; the same in `samples/picar_4wd/car.h` 647-696. -/
def whenJson {S : Type} (c : Ctx) (srv : S) (st : Rd) (k : Rd → DoneOf S) : DoneOf S :=
  (headerLoop c.fuel c.fuel false st c.header).bind fun
    | .json st => k st
    | .missing => .ok (srv, .sent [] false)
    | .refused st body => .ok (srv, bad c st.s body)
    | .thrown => .ok (srv, .terminated)

/-! ## Bodies of requests -/

/-- `json.get_token(token, sizeof(buffer))`; 1041 bytes are not fewer than a token has, so there is no
exception. -/
def getTok (c : Ctx) (j : Jr) (buf : List Byte) : Res Tok := readToken 64 c.atof c.fuel j (some buf) 1041

/-- The bytes of the token buffer after a call. -/
def Tok.block (t : Tok) : List Byte := t.buf.getD []
/-- The bytes from `token->value` on. -/
def Tok.value (t : Tok) : List Byte := (Tok.block t).drop 8

/-- `strcpy(players[i], token->value.string)` into 65 bytes, lines 847 and 922: the text. -/
def copy65 (m : List Byte) : Res (List Byte) :=
  if (0 : Byte) ∈ m ∧ (cstr m).length ≤ 64 then .ok (cstr m) else .ub

/-- The loop of `get_player_types`, 869-946: `none` is 400 for malformed content, otherwise the last
`players` (if any). -/
def playersLoop (c : Ctx) : Nat → Jr → List Byte → Option (List Byte × List Byte) →
    Res (Option (Option (List Byte × List Byte)))
  | 0, _, _, _ => .running
  | f + 1, j, buf, got =>
    (getTok c j buf).bind fun t =>
    if t.item = .endObject then .ok (some got) else
    if t.item ≠ .property then .ok none else
    match areEqualC (some (Tok.value t)) (mem (str "players")) with
    | none => .ub
    | some false => (skipValue 64 c.fuel t.st).bind fun k => playersLoop c f k.st (Tok.block t) got
    | some true =>
      (getTok c t.st (Tok.block t)).bind fun a =>
      if a.item ≠ .beginArray then .ok none else
      (getTok c a.st (Tok.block a)).bind fun x =>
      if x.item ≠ .string then .ok none else
      (copy65 (Tok.value x)).bind fun px =>
      (getTok c x.st (Tok.block x)).bind fun y =>
      if y.item ≠ .string then .ok none else
      (copy65 (Tok.value y)).bind fun py =>
      (getTok c y.st (Tok.block y)).bind fun e =>
      if e.item ≠ .endArray then .ok none else
      playersLoop c f e.st (Tok.block e) (some (px, py))

/-- `player_type::from_text`, 55-68; the inner `none` is `player_type::none`. -/
def fromText (s : List Byte) : Option (Option PType) :=
  match areEqualC (mem s) (mem (str "external")) with
  | none => none
  | some true => some (some .external)
  | some false =>
    match areEqualC (mem s) (mem (str "slow_engine")) with
    | none => none
    | some true => some (some .slow)
    | some false =>
      match areEqualC (mem s) (mem (str "fast_engine")) with
      | none => none
      | some true => some (some .fast)
      | some false => some none

/-- `get_player_types`, 845-984: what it makes of the body: two types, or the text of a 400. -/
def playersBody (c : Ctx) (body : List Byte) : Res (Except String (PType × PType)) :=
  let wrong := "An invalid JSON payload was supplied. Must be: {\"players\": [ \"external\", \"slow_engine\" ]}."
  let kind := "An invalid player type was received."
  (getTok c { s := { rest := body } } c.token).bind fun t =>
  if t.item ≠ .beginObject then .ok (.error wrong) else
  (playersLoop c c.fuel t.st (Tok.block t) none).bind fun
    | none => .ok (.error wrong)
    | some none => .ok (.error wrong)
    | some (some (px, py)) =>
      match fromText px with
      | none => .ub
      | some none => .ok (.error kind)
      | some (some tx) =>
        match fromText py with
        | none => .ub
        | some none => .ok (.error kind)
        | some (some to_) => .ok (.ok (tx, to_))

/-- `get_token` expecting the property `name`, 1127-1137, 1153-1163: `none` is 400. -/
def expectName (c : Ctx) (name : List Byte) (t : Tok) : Res (Option Tok) :=
  (getTok c t.st (Tok.block t)).bind fun t =>
  if t.item ≠ .property then .ok none else
  match areEqualC (some (Tok.value t)) (mem name) with
  | none => .ub
  | some false => .ok none
  | some true => .ok (some t)

/-- `get_token` expecting a number between 0 and 2, 1139-1151, 1165-1177: `none` is 400. -/
def expectCell (c : Ctx) (t : Tok) : Res (Option (Tok × Nat)) :=
  (getTok c t.st (Tok.block t)).bind fun t =>
  if t.item ≠ .number then .ok none else
  match c.cell ((Tok.value t).take 8) with
  | none => .ok none
  | some n => .ok (some (t, n))

/-- The body of a move, 1106-1178: `none` is 400. -/
def moveBody (c : Ctx) (body : List Byte) : Res (Option Move) :=
  (getTok c { s := { rest := body } } c.token).bind fun t =>
  if t.item ≠ .beginObject then .ok none else
  (expectName c (str "row") t).bind fun
  | none => .ok none
  | some t =>
    (expectCell c t).bind fun
    | none => .ok none
    | some (t, row) =>
      (expectName c (str "col") t).bind fun
      | none => .ok none
      | some t =>
        (expectCell c t).bind fun
        | none => .ok none
        | some (_, col) => .ok (some ⟨row, col⟩)

/-! ## Bodies of responses -/

/-- `%.16lg` of an integer of less than 16 digits. -/
def decInt (n : Int) : List Byte := if n < 0 then 45 :: dec n.natAbs else dec n.natAbs

/-- The winner, if the game is over: game.h 1214-1217, 1310-1313. -/
def winnerToks : Option Pid → List Spec.Token
  | none => []
  | some w => [.prop (str "winner"), .num (dec w.toNat)]

/-- One move of the list: game.h 1295-1305. -/
def moveToks (i : Nat) (m : Move) : List Spec.Token :=
  [.beginObject, .prop (str "i"), .num (dec i), .prop (str "move"),
   .beginObject, .prop (str "row"), .num (decInt m.row), .prop (str "col"), .num (decInt m.col), .endObject, .endObject]

/-- The loop 1294-1306; `none`: an element of `_moves` that was never assigned. -/
def movesToks : List (Nat × Option Move) → Option (List Spec.Token)
  | [] => some []
  | (_, none) :: _ => none
  | (i, some m) :: l => (movesToks l).map (moveToks i m ++ ·)

/-- What is put into the body for a response 200: game.h 808-811, 1024-1027, 1210-1219, 1290-1315. -/
def respToks : Resp → Option (List Spec.Token)
  | .created gid => some [.beginObject, .prop (str "gameId"), .num (dec gid.toNat), .endObject]
  | .claimed pid => some [.beginObject, .prop (str "playerId"), .num (dec pid.toNat), .endObject]
  | .accepted i w => some ([.beginObject, .prop (str "i"), .num (decInt i)] ++ winnerToks w ++ [.endObject])
  | .moveList l w => (movesToks l).map fun ts =>
      [.beginObject, .prop (str "moves"), .beginArray] ++ ts ++ [.endArray] ++ winnerToks w ++ [.endObject]
  | _ => none

/-- The text in an array `body` of some size: the tokens, and the terminator; without it `strlen` reads bytes that
were never written.  (The game below; the car `samples/picar_4wd/car.h` 367-404.) -/
def jsonText (size : Nat) (ts : List Spec.Token) : Res (List Byte) :=
  let o := Http.putChar (putToks 16 { o := { out := [], room := size } } ts).o 0
  if o.good then .ok (cstr o.out) else .ub

/-- The text in `body` (1025 bytes, game.h 805-816, the same in 1021-1032, 1206-1224 and 1286-1320). -/
def jsonBody (ts : List Spec.Token) : Res (List Byte) := jsonText 1025 ts

/-- Response 200, game.h 823-835, 1039-1051, 1231-1243, 1327-1339; the calls are those of `send_simple_response`. -/
def succeed (c : Ctx) (srv : Server) (s : In) (a : Resp) : Done :=
  match respToks a with
  | none => .ub
  | some ts => (jsonBody ts).bind fun body =>
    .ok (srv, answer s c.room false (simpleCalls (str "200") (str "OK") jsonType body))

/-! ## Requests -/

/-- The text of a 404, game.h 1066, 1258, 1354. -/
def noGame : String := "A game with the supplied ID was not found."
/-- The text of a 400, game.h 1003, 1083, 1102, 1279. -/
def badResource : String := "An invalid resource was supplied."

/-- `create_game`, 738-842. -/
def createGame (c : Ctx) (srv : Server) (d : Draw) (st : Rd) (method : List Byte) : Done :=
  whenPost c srv st method <|
  whenJson c srv st fun st =>
  (playersBody c st.s.rest).bind fun
  | .error msg => .ok (srv, bad c st.s msg)
  | .ok (tx, to_) =>
    match GameServer.create srv tx to_ d.game d.x d.o with
    | (srv, .refused _) => .ok (srv, refuse c st.s "503" "Service Unavailable" "The service has a temporary game capacity shortage.")
    | (srv, a) => succeed c srv st.s a

/-- `claim_player`, 987-1068. -/
def claimPlayer (c : Ctx) (srv : Server) (st : Rd) (method : List Byte) (gid i : Nat) : Done :=
  whenPost c srv st method <|
  match GameServer.claim srv (BitVec.ofNat 32 gid) i with
  | (srv, .refused 400) => .ok (srv, bad c st.s badResource)
  | (srv, .refused 403) => .ok (srv, refuse c st.s "403" "Forbidden" "This play has already been claimed.")
  | (srv, .refused _) => .ok (srv, refuse c st.s "404" "Not Found" noGame)
  | (srv, a) => succeed c srv st.s a

/-- `accept_move`, 1071-1260. -/
def acceptMove (c : Ctx) (srv : Server) (st : Rd) (method : List Byte) (gid pid : Nat) (word : List Byte) : Done :=
  match areEqualI (mem word) (mem (str "moves")) with
  | none => .ub
  | some false => .ok (srv, bad c st.s badResource)
  | some true =>
    whenPost c srv st method <|
    whenJson c srv st fun st =>
    if BitVec.ofNat 32 gid = 0 ∨ BitVec.ofNat 32 pid = 0 then .ok (srv, bad c st.s badResource) else
    (moveBody c st.s.rest).bind fun
    | none => .ok (srv, bad c st.s "An invalid JSON payload was supplied. Must be: {\"row\": 0, \"col\": 1}.")
    | some m =>
      match GameServer.move srv (BitVec.ofNat 32 gid) (BitVec.ofNat 32 pid) m with
      | none => .ub
      | some (srv', .refused 404) => .ok (srv', refuse c st.s "404" "Not Found"
          (if 0 < srv.count ∧ srv.game.gid = BitVec.ofNat 32 gid then "A player with the supplied ID was not found." else noGame))
      | some (srv', .refused _) => .ok (srv', refuse c st.s "403" "Forbidden" "The move was not accepted.")
      | some (srv', a) => succeed c srv' st.s a

/-- `get_moves`, 1263-1356. -/
def getMoves (c : Ctx) (srv : Server) (st : Rd) (method : List Byte) (gid since : Nat) : Done :=
  whenGet c srv st method <|
  match GameServer.moves srv (BitVec.ofNat 32 gid) since with
  | (srv, .refused 400) => .ok (srv, bad c st.s badResource)
  | (srv, .refused _) => .ok (srv, refuse c st.s "404" "Not Found" noGame)
  | (srv, a) => succeed c srv st.s a

/-- `process_games`, 710-735. -/
def processGames (c : Ctx) (srv : Server) (d : Draw) (st : Rd) (method rest : List Byte) : Done :=
  match areEqualI (mem rest) (mem []) with
  | none => .ub
  | some true => createGame c srv d st method
  | some false =>
    match route rest with
    | .move g p w => acceptMove c srv st method g p w
    | .claim g i => claimPlayer c srv st method g i
    | .moves g n => getMoves c srv st method g n
    | .unknown => .ok (srv, .sent [] false)

/-- `process_shutdown`, 1359-1369. -/
def processShutdown (c : Ctx) (srv : Server) (st : Rd) (method : List Byte) : Done :=
  whenPost c srv st method <|
  .ok (srv, answer st.s c.room true (simpleCalls (str "200") (str "OK") plain (str "Server is shuting down...")))

/-- `game_endpoint::process_rest_request`, 687-707. -/
def gameHandler (c : Ctx) (srv : Server) (d : Draw) (st : Rd) (method resource : List Byte) : Done :=
  match areEqualIN (mem resource) (mem (str "/games")) 6 with
  | none => .ub
  | some true => processGames c srv d st method (resource.drop 6)
  | some false =>
    match areEqualI (mem resource) (mem (str "/shutdown")) with
    | none => .ub
    | some true => processShutdown c srv st method
    | some false => .ok (srv, refuse c st.s "404" "Not Found" "The requested resource was not found.")

/-- `endpoint::process_request` (`src/endpoint.h` 104-170) of an endpoint whose `process_rest_request` is `k`. -/
def serveWith {S : Type} (cfg : Config) (stat : List Byte → Option Nat) (content : List Byte → List Byte) (c : Ctx) (mm mp mc : List Byte)
    (down : Bool) (srv : S) (k : Rd → List Byte → List Byte → DoneOf S) (bytes : List Byte) : DoneOf S :=
  (requestLine cfg c.fuel mm mp mc bytes).bind fun
    | none => .ok (srv, .terminated)
    | some l =>
      if down then .ok (srv, .sent [] false) else
      match Endpoint.isFileRequest cfg l.method l.resource with
      | none => .ub
      | some true => (fileHandler stat content c.room l.st l.method l.path).bind fun o => .ok (srv, o)
      | some false => k l.st l.method l.resource

/-- … of a `game_endpoint`. -/
def serve (cfg : Config) (stat : List Byte → Option Nat) (content : List Byte → List Byte) (c : Ctx) (mm mp mc : List Byte)
    (down : Bool) (srv : Server) (d : Draw) (bytes : List Byte) : Done :=
  serveWith cfg stat content c mm mp mc down srv (gameHandler c srv d) bytes

end Abc.GameWire
