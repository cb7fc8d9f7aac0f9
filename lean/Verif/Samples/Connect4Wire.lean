import Verif.Samples.GameWire
import Verif.Samples.Connect4Server

/-!
# The connect-four server at the level of bytes: model

`game_endpoint` (`samples/connect4/game.h` 894-1675; "game.h" below is that file) from the bytes of a connection to
the bytes of the answer.  The code is a copy of that of tic-tac-toe, so what is the same, line by line, is that of
`Verif/Samples/GameWire.lean`: finding the service in the resource (929-954), `get_player_types` (1064-1203),
`verify_method_get`, `verify_method_post` and `verify_header_json` (1591-1675).  Different are the limits of a row
and a column (1359, 1385), the size of the array for the list of moves (1505), and the game.

The simplifications are those of `GameWire.lean`.
-/

namespace Abc.Connect4Wire

open Abc.Ascii Abc.Stream Abc.Http Abc.Wire Abc.Json
open Abc.Endpoint (Config str mem)
open Abc.GameServer (Id PType)
open Abc.GameWire (Ctx DoneOf Draw Headers Route Tok.block Tok.value refuse bad whenPost whenGet whenJson getTok playersBody expectName
  decInt winnerToks jsonText noGame badResource jsonType route serveWith)
open Abc.Connect4Server (Server Req Resp)
open Abc.Connect4 (Pid Move)

/-! ## Context -/

/-- What one request runs with: that of the tic-tac-toe server (whose `cell` is of no importance here), and the
two conversions of the bytes of a `double`. -/
structure Ctx4 extends Ctx where
  /-- converted to an integer if it is at least 0 and less than 6 (1359, 1370) -/
  row : List Byte → Option Nat
  /-- converted to an integer if it is at least 0 and less than 7 (1385, 1396) -/
  col : List Byte → Option Nat

/-- The server after a request and what happened to the connection. -/
abbrev Done := DoneOf Server

/-! ## Bodies of requests -/

/-- `get_token` expecting a number the given conversion takes, 1358-1370, 1384-1396: `none` is 400. -/
def expectNum (c : Ctx) (cell : List Byte → Option Nat) (t : Tok) : Res (Option (Tok × Nat)) :=
  (getTok c t.st (Tok.block t)).bind fun t =>
  if t.item ≠ .number then .ok none else
  match cell ((Tok.value t).take 8) with
  | none => .ok none
  | some n => .ok (some (t, n))

/-- The body of a move, 1325-1397: `none` is 400. -/
def moveBody (c : Ctx4) (body : List Byte) : Res (Option Move) :=
  (getTok c.toCtx { s := { rest := body } } c.token).bind fun t =>
  if t.item ≠ .beginObject then .ok none else
  (expectName c.toCtx (str "row") t).bind fun
  | none => .ok none
  | some t =>
    (expectNum c.toCtx c.row t).bind fun
    | none => .ok none
    | some (t, row) =>
      (expectName c.toCtx (str "col") t).bind fun
      | none => .ok none
      | some t =>
        (expectNum c.toCtx c.col t).bind fun
        | none => .ok none
        | some (_, col) => .ok (some ⟨row, col⟩)

/-! ## Bodies of responses -/

/-- One move of the list: game.h 1514-1524. -/
def moveToks (i : Nat) (m : Move) : List Spec.Token :=
  [.beginObject, .prop (str "i"), .num (dec i), .prop (str "move"),
   .beginObject, .prop (str "row"), .num (decInt m.row), .prop (str "col"), .num (decInt m.col), .endObject, .endObject]

/-- The loop 1513-1525; `none`: an element of `_moves` that was never assigned. -/
def movesToks : List (Nat × Option Move) → Option (List Spec.Token)
  | [] => some []
  | (_, none) :: _ => none
  | (i, some m) :: l => (movesToks l).map (moveToks i m ++ ·)

/-- What is put into the body for a response 200: game.h 1027-1030, 1243-1246, 1429-1438, 1509-1534. -/
def respToks : Resp → Option (List Spec.Token)
  | .created gid => some [.beginObject, .prop (str "gameId"), .num (dec gid.toNat), .endObject]
  | .claimed pid => some [.beginObject, .prop (str "playerId"), .num (dec pid.toNat), .endObject]
  | .accepted i w => some ([.beginObject, .prop (str "i"), .num (decInt i)] ++ winnerToks w ++ [.endObject])
  | .moveList l w => (movesToks l).map fun ts =>
      [.beginObject, .prop (str "moves"), .beginArray] ++ ts ++ [.endArray] ++ winnerToks w ++ [.endObject]
  | _ => none

/-- The text in `body`: 2049 bytes for the list of moves (1505-1539), 1025 bytes for the others (1024-1035, 1240-1251,
1425-1443). -/
def jsonBody (a : Resp) (ts : List Spec.Token) : Res (List Byte) :=
  match a with
  | .moveList _ _ => jsonText 2049 ts
  | _ => jsonText 1025 ts

/-- Response 200, game.h 1042-1054, 1258-1270, 1450-1462, 1546-1558; the calls are those of `send_simple_response`. -/
def succeed (c : Ctx4) (srv : Server) (s : In) (a : Resp) : Done :=
  match respToks a with
  | none => .ub
  | some ts => (jsonBody a ts).bind fun body =>
    .ok (srv, answer s c.room false (simpleCalls (str "200") (str "OK") jsonType body))

/-! ## Requests -/

/-- `create_game`, 957-1061. -/
def createGame (c : Ctx4) (srv : Server) (d : Draw) (st : Rd) (method : List Byte) : Done :=
  whenPost c.toCtx srv st method <|
  whenJson c.toCtx srv st fun st =>
  (playersBody c.toCtx st.s.rest).bind fun
  | .error msg => .ok (srv, bad c.toCtx st.s msg)
  | .ok (tx, to_) =>
    match Connect4Server.create srv tx to_ d.game d.x d.o with
    | (srv, .refused _) => .ok (srv, refuse c.toCtx st.s "503" "Service Unavailable" "The service has a temporary game capacity shortage.")
    | (srv, a) => succeed c srv st.s a

/-- `claim_player`, 1206-1287. -/
def claimPlayer (c : Ctx4) (srv : Server) (st : Rd) (method : List Byte) (gid i : Nat) : Done :=
  whenPost c.toCtx srv st method <|
  match Connect4Server.claim srv (BitVec.ofNat 32 gid) i with
  | (srv, .refused 400) => .ok (srv, bad c.toCtx st.s badResource)
  | (srv, .refused 403) => .ok (srv, refuse c.toCtx st.s "403" "Forbidden" "This play has already been claimed.")
  | (srv, .refused _) => .ok (srv, refuse c.toCtx st.s "404" "Not Found" noGame)
  | (srv, a) => succeed c srv st.s a

/-- `accept_move`, 1290-1479. -/
def acceptMove (c : Ctx4) (srv : Server) (st : Rd) (method : List Byte) (gid pid : Nat) (word : List Byte) : Done :=
  match areEqualI (mem word) (mem (str "moves")) with
  | none => .ub
  | some false => .ok (srv, bad c.toCtx st.s badResource)
  | some true =>
    whenPost c.toCtx srv st method <|
    whenJson c.toCtx srv st fun st =>
    if BitVec.ofNat 32 gid = 0 ∨ BitVec.ofNat 32 pid = 0 then .ok (srv, bad c.toCtx st.s badResource) else
    (moveBody c st.s.rest).bind fun
    | none => .ok (srv, bad c.toCtx st.s "An invalid JSON payload was supplied. Must be: {\"row\": 0, \"col\": 1}.")
    | some m =>
      match Connect4Server.move srv (BitVec.ofNat 32 gid) (BitVec.ofNat 32 pid) m with
      | none => .ub
      | some (srv', .refused 404) => .ok (srv', refuse c.toCtx st.s "404" "Not Found"
          (if 0 < srv.count ∧ srv.game.gid = BitVec.ofNat 32 gid then "A player with the supplied ID was not found." else noGame))
      | some (srv', .refused _) => .ok (srv', refuse c.toCtx st.s "403" "Forbidden" "The move was not accepted.")
      | some (srv', a) => succeed c srv' st.s a

/-- `get_moves`, 1482-1575. -/
def getMoves (c : Ctx4) (srv : Server) (st : Rd) (method : List Byte) (gid since : Nat) : Done :=
  whenGet c.toCtx srv st method <|
  match Connect4Server.moves srv (BitVec.ofNat 32 gid) since with
  | (srv, .refused 400) => .ok (srv, bad c.toCtx st.s badResource)
  | (srv, .refused _) => .ok (srv, refuse c.toCtx st.s "404" "Not Found" noGame)
  | (srv, a) => succeed c srv st.s a

/-- `process_games`, 929-954. -/
def processGames (c : Ctx4) (srv : Server) (d : Draw) (st : Rd) (method rest : List Byte) : Done :=
  match areEqualI (mem rest) (mem []) with
  | none => .ub
  | some true => createGame c srv d st method
  | some false =>
    match route rest with
    | .move g p w => acceptMove c srv st method g p w
    | .claim g i => claimPlayer c srv st method g i
    | .moves g n => getMoves c srv st method g n
    | .unknown => .ok (srv, .sent [] false)

/-- `process_shutdown`, 1578-1588. -/
def processShutdown (c : Ctx4) (srv : Server) (st : Rd) (method : List Byte) : Done :=
  whenPost c.toCtx srv st method <|
  .ok (srv, answer st.s c.room true (simpleCalls (str "200") (str "OK") plain (str "Server is shuting down...")))

/-- `game_endpoint::process_rest_request`, 906-926. -/
def gameHandler (c : Ctx4) (srv : Server) (d : Draw) (st : Rd) (method resource : List Byte) : Done :=
  match areEqualIN (mem resource) (mem (str "/games")) 6 with
  | none => .ub
  | some true => processGames c srv d st method (resource.drop 6)
  | some false =>
    match areEqualI (mem resource) (mem (str "/shutdown")) with
    | none => .ub
    | some true => processShutdown c srv st method
    | some false => .ok (srv, refuse c.toCtx st.s "404" "Not Found" "The requested resource was not found.")

/-- `endpoint::process_request` (`src/endpoint.h` 104-170) of a `game_endpoint`. -/
def serve (cfg : Config) (stat : List Byte → Option Nat) (content : List Byte → List Byte) (c : Ctx4) (mm mp mc : List Byte)
    (down : Bool) (srv : Server) (d : Draw) (bytes : List Byte) : Done :=
  serveWith cfg stat content c.toCtx mm mp mc down srv (gameHandler c srv d) bytes

end Abc.Connect4Wire
