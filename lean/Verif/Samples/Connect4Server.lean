/-
Model of the request side of the connect-four sample: `game`, `endpoint_game` and the four requests
of `game_endpoint` (/repo/samples/connect4/game.h lines 745-888, 957-1061, 1206-1575).  "game.h" and
"game.i.h" below are those of `samples/connect4`.

The code is a copy of the tic-tac-toe server (`Verif/Samples/GameServer.lean`) with another board: the
cells, the rules, the array of 42 moves and the numbers that stand for the players differ.  So this
file has the same simplifications:
* One request is one atomic step, and so is one move of an engine thread.  What can happen inside
  `claim_player` without a lock is `GameServer.Race`: that function is the same, line by line.
* The HTTP and JSON layers are left out (they are in `Verif/Samples/Connect4Wire.lean`).
* The results of `std::rand` are arguments of the request that draws them.
* An engine move is any move at all at any time (`Req.engine`).  Learning does not touch the game.
* Log calls are dropped.
-/
import Verif.Samples.Connect4Rules
import Verif.Samples.GameServer

namespace Abc.Connect4Server

open Abc.Connect4
open Abc.GameServer (Id PType Seat)

/-- `game` and `endpoint_game`, the data members (game.i.h).  `moves` is the array `_moves` of
42 elements; `none` is an element that was never assigned. -/
structure Game where
  gid : Id := 0
  tx : PType := .external
  to_ : PType := .external
  x : Seat := {}
  o : Seat := {}
  board : Board := Board.init
  moves : Nat → Option Move := fun _ => none

/-- `_game_count` and `_games` (game.i.h), `max_game_count` is 1. -/
structure Server where
  count : Nat := 0
  game : Game := {}

/-- `game::accept_move` (game.h 767-814): the game afterwards and the returned value; `none` is a
write outside `_moves`. -/
def Game.accept (g : Game) (p : Pid) (m : Move) : Option (Game × Bool) :=
  if p != g.board.cur then some (g, false)
  else
    let (b, accepted) := g.board.accept m
    let g := { g with board := b }
    if accepted then
      if 0 ≤ b.count - 1 ∧ b.count - 1 < 42 then
        some ({ g with moves := fun i => if i = (b.count - 1).toNat then some m else g.moves i },
          true)
      else none
    else some (g, false)

/-- `endpoint_game::reset` (game.h 830-845) with `game::reset` (745-750), which leaves `_moves`
as it is.  `start` only starts a thread. -/
def Game.reset (g : Game) (gid : Id) (tx : PType) (xid : Id) (to_ : PType) (oid : Id) : Game :=
  { g with
    tx := tx, to_ := to_, board := Board.init
    gid := gid
    x := { id := xid, claimed := xid == 0 }
    o := { id := oid, claimed := oid == 0 } }

/-- `endpoint_game::claim_player` (game.h 848-871): the id handed out, or a refusal. -/
def Game.claim (g : Game) (i : Nat) : Game × Option Id :=
  if i = 0 then
    if g.x.claimed then (g, none)
    else ({ g with x := { g.x with claimed := true } }, some g.x.id)
  else
    if g.o.claimed then (g, none)
    else ({ g with o := { g.o with claimed := true } }, some g.o.id)

/-- `endpoint_game::player_id` (game.h 879-888). -/
def Game.playerId (g : Game) (p : Id) : Pid :=
  if p = g.x.id then pX else if p = g.o.id then pO else pNone

/-- `_player_type` of the agent of a side (game.h 385, 746-747). -/
def Game.type (g : Game) : Side → PType
  | .x => g.tx
  | .o => g.to_

/-- The requests: `create` carries the numbers drawn for the game and for the two players, `move`
the cell read from the body, `engine` is a call of `game::accept_move` by the agent of a side. -/
inductive Req where
  | create (tx to_ : PType) (gid xid oid : Id)
  | claim (gid : Id) (i : Nat)
  | move (gid pid : Id) (m : Move)
  | moves (gid : Id) (since : Nat)
  | engine (s : Side) (m : Move)

/-- The responses: `refused` is any status other than 200. -/
inductive Resp where
  | created (gid : Id)
  | claimed (pid : Id)
  | accepted (i : Int) (winner : Option Pid)
  | moveList (l : List (Nat × Option Move)) (winner : Option Pid)
  | refused (status : Nat)
  | engine (ok : Bool)
deriving DecidableEq

/-- `create_game` (game.h 978-1021), from the slot search on. -/
def create (s : Server) (tx to_ : PType) (gid xid oid : Id) : Server × Resp :=
  if s.count < 1 ∨ s.game.board.over then
    let x := if tx = .external then xid else 0
    let o := if to_ = .external then oid else 0
    ({ count := if s.count < 1 then s.count + 1 else s.count, game := s.game.reset gid tx x to_ o },
      .created gid)
  else (s, .refused 503)

/-- HTTP `claim_player` (game.h 1206-1287). -/
def claim (s : Server) (gid : Id) (i : Nat) : Server × Resp :=
  if gid = 0 ∨ 1 < i then (s, .refused 400)
  else if 0 < s.count ∧ s.game.gid = gid then
    match s.game.claim i with
    | (g, some pid) => ({ s with game := g }, .claimed pid)
    | (_, none) => (s, .refused 403)
  else (s, .refused 404)

/-- The `winner` property of the two bodies (game.h 1433-1436, 1529-1532). -/
def winnerOf (b : Board) : Option Pid := if b.over then some b.winner else none

/-- HTTP `accept_move` (game.h 1290-1479). -/
def move (s : Server) (gid pid : Id) (m : Move) : Option (Server × Resp) :=
  if gid = 0 ∨ pid = 0 then some (s, .refused 400)
  else if ¬ (0 ≤ m.row ∧ m.row < 6 ∧ 0 ≤ m.col ∧ m.col < 7) then some (s, .refused 400)
  else if 0 < s.count ∧ s.game.gid = gid then
    let p := s.game.playerId pid
    if p = pNone then some (s, .refused 404)
    else do
      let (g, ok) ← s.game.accept p m
      if ok then
        some ({ s with game := g }, .accepted (g.board.count - 1) (winnerOf g.board))
      else some ({ s with game := g }, .refused 403)
  else some (s, .refused 404)

/-- HTTP `get_moves` (game.h 1482-1575): the loop from `since_move_i` to `move_count()`. -/
def moves (s : Server) (gid : Id) (since : Nat) : Server × Resp :=
  if gid = 0 then (s, .refused 400)
  else if 0 < s.count ∧ s.game.gid = gid then
    (s, .moveList ((List.range' since (s.game.board.count.toNat - since)).map
      fun i => (i, s.game.moves i)) (winnerOf s.game.board))
  else (s, .refused 404)

/-- `player_agent::make_move` (game.h 408-422): an external player's agent makes no move. -/
def engine (s : Server) (side : Side) (m : Move) : Option (Server × Resp) :=
  if s.game.type side = .external then some (s, .engine false)
  else do
    let (g, ok) ← s.game.accept (code (some side)) m
    some ({ s with game := g }, .engine ok)

def step (s : Server) : Req → Option (Server × Resp)
  | .create tx to_ gid xid oid => some (create s tx to_ gid xid oid)
  | .claim gid i => some (claim s gid i)
  | .move gid pid m => move s gid pid m
  | .moves gid since => some (moves s gid since)
  | .engine side m => engine s side m

/-- What the outside world sees: requests and responses, newest first. -/
abbrev Trace := List (Req × Resp)

/-- The server after a list of requests (newest first) with what it answered. -/
def exec : List Req → Option (Server × Trace)
  | [] => some ({}, [])
  | r :: rs => do
    let (s, t) ← exec rs
    let (s', a) ← step s r
    some (s', (r, a) :: t)

/-! ## The claims, in terms of the trace only -/

/-- The request that created the game being played. -/
structure Created where
  tx : PType
  to_ : PType
  gid : Id
  xid : Id
  oid : Id
deriving DecidableEq

def current : Trace → Option Created
  | [] => none
  | (.create tx to_ gid xid oid, .created _) :: _ => some ⟨tx, to_, gid, xid, oid⟩
  | _ :: t => current t

/-- The moves made in the game being played, newest first. -/
def standing : Trace → List Move
  | [] => []
  | (.create _ _ _ _ _, .created _) :: _ => []
  | (.move _ _ m, .accepted _ _) :: t => m :: standing t
  | (.engine _ m, .engine true) :: t => m :: standing t
  | _ :: t => standing t

/-- Somebody got seat `i` of the game being played. -/
def taken (i : Nat) : Trace → Prop
  | [] => False
  | (.create _ _ _ _ _, .created _) :: _ => False
  | (.claim _ j, .claimed _) :: t => j = i ∨ taken i t
  | _ :: t => taken i t

def sideOf (i : Nat) : Side := if i = 0 then .x else .o

def Created.type (c : Created) : Side → PType
  | .x => c.tx
  | .o => c.to_

/-- The number drawn for a side; engines have none. -/
def Created.id (c : Created) : Side → Id
  | .x => if c.tx = .external then c.xid else 0
  | .o => if c.to_ = .external then c.oid else 0

/-- The winner as the server writes it: absent while the game goes on, 0 for a draw. -/
inductive Winner (h : List Move) : Option Pid → Prop
  | going : ¬ Over h → Winner h none
  | draw : Over h → (∀ s, ¬ HasFour h s) → Winner h (some (code none))
  | won (s : Side) : HasFour h s → Winner h (some (code (some s)))

/-- What the server must answer to a request, given everything asked and answered before. -/
inductive Answer (t : Trace) : Req → Resp → Prop
  -- A new game starts when there is none or the last one is over.
  | created {tx to_ gid xid oid} : (current t = none ∨ Over (standing t)) →
      Answer t (.create tx to_ gid xid oid) (.created gid)
  | busy {tx to_ gid xid oid} : ¬ (current t = none ∨ Over (standing t)) →
      Answer t (.create tx to_ gid xid oid) (.refused 503)
  -- A seat is handed out to the first who asks for it.
  | claimed {gid i c} : gid ≠ 0 → i ≤ 1 → current t = some c → c.gid = gid →
      c.id (sideOf i) ≠ 0 → ¬ taken i t → Answer t (.claim gid i) (.claimed (c.id (sideOf i)))
  | claimBad {gid i} : gid = 0 ∨ 1 < i → Answer t (.claim gid i) (.refused 400)
  | claimUnknown {gid i} : gid ≠ 0 → i ≤ 1 → (∀ c, current t = some c → c.gid ≠ gid) →
      Answer t (.claim gid i) (.refused 404)
  | claimLate {gid i c} : gid ≠ 0 → i ≤ 1 → current t = some c → c.gid = gid →
      (c.id (sideOf i) = 0 ∨ taken i t) → Answer t (.claim gid i) (.refused 403)
  -- A move is accepted from the player whose turn it is, if it is legal.
  | accepted {gid pid m c w} : gid ≠ 0 → pid ≠ 0 → current t = some c → c.gid = gid →
      pid = c.id (toMove (standing t)) → (toMove (standing t) = .o → pid ≠ c.id .x) →
      Legal (standing t) m → Winner (m :: standing t) w →
      Answer t (.move gid pid m) (.accepted (standing t).length w)
  | moveBad {gid pid m} : gid = 0 ∨ pid = 0 ∨ ¬ OnBoard m → Answer t (.move gid pid m) (.refused 400)
  | moveUnknown {gid pid m} : gid ≠ 0 → pid ≠ 0 → OnBoard m →
      (∀ c, current t = some c → c.gid = gid → pid ≠ c.id .x ∧ pid ≠ c.id .o) →
      Answer t (.move gid pid m) (.refused 404)
  | moveRefused {gid pid m c} : gid ≠ 0 → pid ≠ 0 → OnBoard m → current t = some c → c.gid = gid →
      (pid = c.id .x ∨ pid = c.id .o) →
      ¬ (pid = c.id (toMove (standing t)) ∧ (toMove (standing t) = .o → pid ≠ c.id .x) ∧
        Legal (standing t) m) → Answer t (.move gid pid m) (.refused 403)
  -- The list of moves is the moves made, from the given one on.
  | moves {gid since c w} : gid ≠ 0 → current t = some c → c.gid = gid → Winner (standing t) w →
      Answer t (.moves gid since)
        (.moveList (((standing t).reverse.zipIdx.map fun x => (x.2, some x.1)).drop since) w)
  | movesBad {gid since} : gid = 0 → Answer t (.moves gid since) (.refused 400)
  | movesUnknown {gid since} : gid ≠ 0 → (∀ c, current t = some c → c.gid ≠ gid) →
      Answer t (.moves gid since) (.refused 404)
  -- An engine moves for its own side only.
  | engine {s m c} : current t = some c → c.type s ≠ .external → s = toMove (standing t) →
      Legal (standing t) m → Answer t (.engine s m) (.engine true)
  | engineRefused {s m} :
      (∀ c, current t = some c → c.type s ≠ .external → s = toMove (standing t) →
        ¬ Legal (standing t) m) → Answer t (.engine s m) (.engine false)

/-- Every answer of a trace is the right one. -/
def Follows : Trace → Prop
  | [] => True
  | (r, a) :: t => Answer t r a ∧ Follows t

/-! ## The invariant -/

structure Inv (s : Server) (t : Trace) : Prop where
  count : s.count = 0 ∧ current t = none ∨ s.count = 1 ∧ (current t).isSome
  reach : Reach (standing t)
  board : s.game.board = boardOf (standing t)
  array : ∀ i, i < (standing t).length → s.game.moves i = (standing t).reverse[i]?
  idle : current t = none → standing t = []
  ids : ∀ c, current t = some c → s.game.gid = c.gid ∧ s.game.tx = c.tx ∧ s.game.to_ = c.to_ ∧
    s.game.x.id = c.id .x ∧ s.game.o.id = c.id .o
  cx : ∀ c, current t = some c → (s.game.x.claimed = true ↔ c.id .x = 0 ∨ taken 0 t)
  co : ∀ c, current t = some c → (s.game.o.claimed = true ↔ c.id .o = 0 ∨ taken 1 t)
  ext : current t = none → s.game.tx = .external ∧ s.game.to_ = .external

/-- The effect of `game::accept_move` on a game that shows the moves `h`. -/
theorem accept_spec {g : Game} {h : List Move} (hr : Reach h) (hb : g.board = boardOf h)
    (side : Side) (m : Move) :
    (side = toMove h ∧ Legal h m ∧
      g.accept (code (some side)) m = some ({ g with
        board := boardOf (m :: h),
        moves := fun i => if i = h.length then some m else g.moves i }, true)) ∨
    (¬ (side = toMove h ∧ Legal h m) ∧ g.accept (code (some side)) m = some (g, false)) := by
  have rep := rep_boardOf hr
  have hs := rep.shows
  by_cases hl : Legal h m
  · by_cases hside : side = toMove h
    · refine .inl ⟨hside, hl, ?_⟩
      have hcur : g.board.cur = code (some side) := by rw [hb, hside]; exact hs.turn hl.2.2
      have hacc := accept_true rep hl
      have hcnt := (hacc.2.1.shows).count
      have hle := (Reach.step hr hl).length_le
      unfold Game.accept
      have e1 : (code (some side) != g.board.cur) = false := by simp [hcur]
      rw [e1, hb]
      have e2 : (boardOf h).accept m = (boardOf (m :: h), true) := by
        rw [← hacc.1]; rfl
      rw [e2]
      have e3 : (boardOf (m :: h)).count = (h.length : Int) + 1 := by
        have := hcnt
        rw [show ((boardOf h).accept m).1 = boardOf (m :: h) from rfl] at this
        rw [this]; simp
      have e4 : 0 ≤ (boardOf (m :: h)).count - 1 ∧ (boardOf (m :: h)).count - 1 < 42 := by
        simp only [List.length_cons] at hle
        rw [e3]; omega
      have e5 : ((boardOf (m :: h)).count - 1).toNat = h.length := by rw [e3]; omega
      simp only [e4, e5]
      rfl
    · refine .inr ⟨fun c => hside c.1, ?_⟩
      have hcur : g.board.cur = code (some (toMove h)) := by rw [hb]; exact hs.turn hl.2.2
      unfold Game.accept
      have e1 : (code (some side) != g.board.cur) = true := by
        rw [hcur]
        simp only [bne_iff_ne, ne_eq]
        intro c
        have := code_inj c
        exact hside (by simpa using this)
      rw [e1]; rfl
  · refine .inr ⟨fun c => hl c.2, ?_⟩
    unfold Game.accept
    rw [hb, accept_false rep hl]
    by_cases e1 : (code (some side) != (boardOf h).cur) = true
    · rw [e1]; rfl
    · simp only [e1]
      have : g = { g with board := boardOf h } := by rw [← hb]
      rw [← this]
      rfl

theorem winnerOf_boardOf {h : List Move} (hr : Reach h) : Winner h (winnerOf (boardOf h)) := by
  have hs := (rep_boardOf hr).shows
  unfold winnerOf
  by_cases ho : (boardOf h).over = true
  · rw [if_pos ho]
    by_cases hx : HasFour h .x
    · rw [(hs.winner .x).2 hx]; exact .won _ hx
    · by_cases hy : HasFour h .o
      · rw [(hs.winner .o).2 hy]; exact .won _ hy
      · have hn : ∀ s, ¬ HasFour h s := by intro s; cases s <;> assumption
        rw [hs.noWinner.2 hn]
        exact .draw (hs.over.1 ho) hn
  · rw [if_neg ho]
    exact .going fun c => ho (hs.over.2 c)

theorem standing_create (t : Trace) (tx to_ : PType) (gid xid oid g : Id) :
    standing ((.create tx to_ gid xid oid, .created g) :: t) = [] := rfl

theorem answer_create {s : Server} {t : Trace} (hi : Inv s t) (tx to_ : PType) (gid xid oid : Id) :
    Inv (create s tx to_ gid xid oid).1
      ((.create tx to_ gid xid oid, (create s tx to_ gid xid oid).2) :: t) ∧
    Answer t (.create tx to_ gid xid oid) (create s tx to_ gid xid oid).2 := by
  have hs := (rep_boardOf hi.reach).shows
  have hc : (s.count < 1 ∨ s.game.board.over = true) ↔ (current t = none ∨ Over (standing t)) := by
    rw [hi.board, hs.over]
    rcases hi.count with ⟨h1, h2⟩ | ⟨h1, h2⟩
    · simp [h1, h2]
    · have : current t ≠ none := by intro c; rw [c] at h2; cases h2
      simp [h1, this]
  unfold create
  by_cases h : s.count < 1 ∨ s.game.board.over = true
  · rw [if_pos h]
    refine ⟨?_, .created (hc.1 h)⟩
    refine ⟨.inr ⟨?_, rfl⟩, .start, rfl, ?_, ?_, ?_, ?_, ?_, ?_⟩
    · rcases hi.count with ⟨h1, _⟩ | ⟨h1, _⟩ <;> simp [h1]
    · intro i hlt; simp [standing] at hlt
    · intro hn; simp [current] at hn
    · intro c hc'
      simp only [current, Option.some.injEq] at hc'
      subst hc'
      exact ⟨rfl, rfl, rfl, rfl, rfl⟩
    · intro c hc'
      simp only [current, Option.some.injEq] at hc'
      subst hc'
      simp [Game.reset, Created.id, taken]
    · intro c hc'
      simp only [current, Option.some.injEq] at hc'
      subst hc'
      simp [Game.reset, Created.id, taken]
    · intro hn; simp [current] at hn
  · rw [if_neg h]
    refine ⟨?_, .busy fun c => h (hc.2 c)⟩
    exact ⟨hi.count, hi.reach, hi.board, hi.array, hi.idle, hi.ids, hi.cx, hi.co, hi.ext⟩

theorem answer_claim {s : Server} {t : Trace} (hi : Inv s t) (gid : Id) (i : Nat) :
    Inv (claim s gid i).1 ((.claim gid i, (claim s gid i).2) :: t) ∧
    Answer t (.claim gid i) (claim s gid i).2 := by
  have keep : ∀ n, Inv s ((.claim gid i, .refused n) :: t) := fun n =>
    ⟨hi.count, hi.reach, hi.board, hi.array, hi.idle, hi.ids, hi.cx, hi.co, hi.ext⟩
  unfold claim
  by_cases h1 : gid = 0 ∨ 1 < i
  · rw [if_pos h1]
    exact ⟨keep _, .claimBad h1⟩
  rw [if_neg h1]
  have hg : gid ≠ 0 := fun c => h1 (.inl c)
  have hi1 : i ≤ 1 := by omega
  by_cases h2 : 0 < s.count ∧ s.game.gid = gid
  · rw [if_pos h2]
    obtain ⟨c, hc⟩ : ∃ c, current t = some c := by
      rcases hi.count with ⟨h3, _⟩ | ⟨_, h3⟩
      · omega
      · exact Option.isSome_iff_exists.1 h3
    obtain ⟨e1, e2, e3, e4, e5⟩ := hi.ids c hc
    have hcg : c.gid = gid := by rw [← e1]; exact h2.2
    unfold Game.claim
    rcases Nat.lt_or_ge i 1 with h | h
    · obtain rfl : i = 0 := by omega
      rw [if_pos rfl]
      by_cases h4 : s.game.x.claimed = true
      · rw [if_pos h4]
        exact ⟨keep _, .claimLate hg hi1 hc hcg ((hi.cx c hc).1 h4)⟩
      · rw [if_neg h4]
        have h5 := fun c' => h4 ((hi.cx c hc).2 c')
        have hid : c.id (sideOf 0) = s.game.x.id := e4.symm
        refine ⟨?_, ?_⟩
        · refine ⟨hi.count, hi.reach, hi.board, hi.array, hi.idle, hi.ids, ?_, ?_, hi.ext⟩
          · intro c' _
            simp [taken]
          · intro c' hc'
            have := hi.co c' hc'
            simp [taken]
            exact this
        · have := Answer.claimed (t := t) hg hi1 hc hcg (fun e => h5 (.inl e)) (fun e => h5 (.inr e))
          rw [hid] at this
          exact this
    · obtain rfl : i = 1 := by omega
      rw [if_neg (by decide)]
      by_cases h4 : s.game.o.claimed = true
      · rw [if_pos h4]
        exact ⟨keep _, .claimLate hg hi1 hc hcg ((hi.co c hc).1 h4)⟩
      · rw [if_neg h4]
        have h5 := fun c' => h4 ((hi.co c hc).2 c')
        have hid : c.id (sideOf 1) = s.game.o.id := e5.symm
        refine ⟨?_, ?_⟩
        · refine ⟨hi.count, hi.reach, hi.board, hi.array, hi.idle, hi.ids, ?_, ?_, hi.ext⟩
          · intro c' hc'
            have := hi.cx c' hc'
            simp [taken]
            exact this
          · intro c' _
            simp [taken]
        · have := Answer.claimed (t := t) hg hi1 hc hcg (fun e => h5 (.inl e)) (fun e => h5 (.inr e))
          rw [hid] at this
          exact this
  · rw [if_neg h2]
    refine ⟨keep _, .claimUnknown hg hi1 ?_⟩
    intro c hc e
    apply h2
    rcases hi.count with ⟨_, h3⟩ | ⟨h3, _⟩
    · rw [h3] at hc; cases hc
    · exact ⟨by omega, by rw [(hi.ids c hc).1]; exact e⟩

theorem answer_moves {s : Server} {t : Trace} (hi : Inv s t) (gid : Id) (since : Nat) :
    Inv (moves s gid since).1 ((.moves gid since, (moves s gid since).2) :: t) ∧
    Answer t (.moves gid since) (moves s gid since).2 := by
  have keep : ∀ a, Inv s ((.moves gid since, a) :: t) := fun a => by
    cases a <;>
      exact ⟨hi.count, hi.reach, hi.board, hi.array, hi.idle, hi.ids, hi.cx, hi.co, hi.ext⟩
  unfold moves
  by_cases h1 : gid = 0
  · rw [if_pos h1]
    exact ⟨keep _, .movesBad h1⟩
  rw [if_neg h1]
  by_cases h2 : 0 < s.count ∧ s.game.gid = gid
  · rw [if_pos h2]
    obtain ⟨c, hc⟩ : ∃ c, current t = some c := by
      rcases hi.count with ⟨h3, _⟩ | ⟨_, h3⟩
      · omega
      · exact Option.isSome_iff_exists.1 h3
    have hcg : c.gid = gid := by rw [← (hi.ids c hc).1]; exact h2.2
    refine ⟨keep _, ?_⟩
    have hw := winnerOf_boardOf hi.reach
    rw [← hi.board] at hw
    have := Answer.moves (since := since) h1 hc hcg hw
    have hcount : s.game.board.count.toNat = (standing t).length := by
      rw [hi.board, (rep_boardOf hi.reach).shows.count]; rfl
    have e : ((standing t).reverse.zipIdx.map fun x => (x.2, some x.1)).drop since =
        (List.range' since (s.game.board.count.toNat - since)).map fun i => (i, s.game.moves i) := by
      apply List.ext_getElem?
      intro k
      rw [hcount]
      simp only [List.getElem?_drop, List.getElem?_map, List.getElem?_zipIdx]
      by_cases hk : since + k < (standing t).length
      · rw [List.getElem?_range' (by omega)]
        have ha := hi.array (since + k) hk
        have hk' : since + k < (standing t).reverse.length := by simpa using hk
        rw [List.getElem?_eq_getElem hk'] at ha ⊢
        simp [ha]
      · rw [List.getElem?_eq_none (by simp; omega), List.getElem?_eq_none (by simp; omega)]
        rfl
    rw [e] at this
    exact this
  · rw [if_neg h2]
    refine ⟨keep _, .movesUnknown h1 ?_⟩
    intro c hc e
    apply h2
    rcases hi.count with ⟨_, h3⟩ | ⟨h3, _⟩
    · rw [h3] at hc; cases hc
    · exact ⟨by omega, by rw [(hi.ids c hc).1]; exact e⟩

/-- The invariant after a move was accepted. -/
theorem inv_accepted {s : Server} {t : Trace} (hi : Inv s t) {r : Req} {a : Resp} {m : Move}
    (h1 : standing ((r, a) :: t) = m :: standing t) (h2 : current ((r, a) :: t) = current t)
    (h3 : ∀ i, taken i ((r, a) :: t) ↔ taken i t) (hl : Legal (standing t) m)
    (hn : current t ≠ none) :
    Inv { s with game := { s.game with
        board := boardOf (m :: standing t),
        moves := fun i => if i = (standing t).length then some m else s.game.moves i } }
      ((r, a) :: t) := by
  constructor
  · rw [h2]; exact hi.count
  · rw [h1]; exact .step hi.reach hl
  · rw [h1]
  · intro i hlt
    rw [h1] at hlt ⊢
    simp only [List.reverse_cons]
    by_cases e : i = (standing t).length
    · subst e
      simp
    · have hlt' : i < (standing t).length := by simp at hlt; omega
      rw [List.getElem?_append_left (by simpa using hlt')]
      simp only [e, if_false]
      exact hi.array i hlt'
  · rw [h2]; exact fun c => absurd c hn
  · rw [h2]; exact hi.ids
  · intro c hc; rw [h2] at hc; rw [h3]; exact hi.cx c hc
  · intro c hc; rw [h2] at hc; rw [h3]; exact hi.co c hc
  · rw [h2]; exact hi.ext

theorem answer_move {s : Server} {t : Trace} (hi : Inv s t) (gid pid : Id) (m : Move) :
    ∃ s' a, move s gid pid m = some (s', a) ∧ Inv s' ((.move gid pid m, a) :: t) ∧
      Answer t (.move gid pid m) a := by
  have keep : ∀ n, Inv s ((.move gid pid m, .refused n) :: t) := fun n =>
    ⟨hi.count, hi.reach, hi.board, hi.array, hi.idle, hi.ids, hi.cx, hi.co, hi.ext⟩
  unfold move
  by_cases h1 : gid = 0 ∨ pid = 0
  · rw [if_pos h1]
    exact ⟨_, _, rfl, keep _, .moveBad (by tauto)⟩
  rw [if_neg h1]
  have hg : gid ≠ 0 := fun c => h1 (.inl c)
  have hp : pid ≠ 0 := fun c => h1 (.inr c)
  by_cases h2 : ¬ (0 ≤ m.row ∧ m.row < 6 ∧ 0 ≤ m.col ∧ m.col < 7)
  · rw [if_pos h2]
    refine ⟨_, _, rfl, keep _, .moveBad (.inr (.inr ?_))⟩
    unfold OnBoard; omega
  rw [if_neg h2]
  have hob : OnBoard m := by unfold OnBoard; omega
  by_cases h3 : 0 < s.count ∧ s.game.gid = gid
  · rw [if_pos h3]
    obtain ⟨c, hc⟩ : ∃ c, current t = some c := by
      rcases hi.count with ⟨h4, _⟩ | ⟨_, h4⟩
      · omega
      · exact Option.isSome_iff_exists.1 h4
    obtain ⟨e1, e2, e3, e4, e5⟩ := hi.ids c hc
    have hcg : c.gid = gid := by rw [← e1]; exact h3.2
    by_cases hx : pid = c.id .x ∨ pid = c.id .o
    · -- the side the server takes the player for
      obtain ⟨side, hside, hs1, hs2⟩ : ∃ side, s.game.playerId pid = code (some side) ∧
          pid = c.id side ∧ (side = .o → pid ≠ c.id .x) := by
        unfold Game.playerId
        rw [e4, e5]
        by_cases h5 : pid = c.id .x
        · exact ⟨.x, by rw [if_pos h5]; rfl, h5, fun h => by cases h⟩
        · have h6 : pid = c.id .o := by tauto
          exact ⟨.o, by rw [if_neg h5, if_pos h6]; rfl, h6, fun _ => h5⟩
      have hne : ¬ s.game.playerId pid = pNone := by rw [hside]; cases side <;> decide
      simp only [hne, if_false]
      rw [hside]
      have huniq : ∀ s', pid = c.id s' → (s' = .o → pid ≠ c.id .x) → s' = side := by
        intro s' h5 h6
        cases s' <;> cases side <;> simp_all
      rcases accept_spec (g := s.game) hi.reach hi.board side m with ⟨h5, h6, h7⟩ | ⟨h5, h6⟩
      · rw [h7]
        refine ⟨_, _, rfl, ?_, ?_⟩
        · exact inv_accepted hi rfl rfl (fun _ => Iff.rfl) h6 (by rw [hc]; simp)
        · have hcount : (boardOf (m :: standing t)).count - 1 = (standing t).length := by
            rw [(rep_boardOf (.step hi.reach h6)).shows.count]; simp
          have := Answer.accepted hg hp hc hcg (h5 ▸ hs1) (h5 ▸ hs2) h6
            (winnerOf_boardOf (.step hi.reach h6))
          simp only [hcount]
          exact this
      · rw [h6]
        refine ⟨_, _, rfl, keep _, .moveRefused hg hp hob hc hcg hx ?_⟩
        rintro ⟨h7, h8, h9⟩
        exact h5 ⟨(huniq _ h7 h8).symm, h9⟩
    · have h5 : s.game.playerId pid = pNone := by
        unfold Game.playerId
        rw [e4, e5, if_neg (by tauto), if_neg (by tauto)]
      simp only [h5, if_true]
      refine ⟨_, _, rfl, keep _, .moveUnknown hg hp hob ?_⟩
      intro c' hc' _
      rw [hc] at hc'
      cases hc'
      tauto
  · rw [if_neg h3]
    refine ⟨_, _, rfl, keep _, .moveUnknown hg hp hob ?_⟩
    intro c hc e
    exfalso
    apply h3
    rcases hi.count with ⟨_, h4⟩ | ⟨h4, _⟩
    · rw [h4] at hc; cases hc
    · exact ⟨by omega, by rw [(hi.ids c hc).1]; exact e⟩

theorem answer_engine {s : Server} {t : Trace} (hi : Inv s t) (side : Side) (m : Move) :
    ∃ s' a, engine s side m = some (s', a) ∧ Inv s' ((.engine side m, a) :: t) ∧
      Answer t (.engine side m) a := by
  have keep : Inv s ((.engine side m, .engine false) :: t) :=
    ⟨hi.count, hi.reach, hi.board, hi.array, hi.idle, hi.ids, hi.cx, hi.co, hi.ext⟩
  unfold engine
  have hty : ∀ c, current t = some c →
      s.game.type side = c.type side := by
    intro c hc
    obtain ⟨_, e2, e3, _⟩ := hi.ids c hc
    cases side
    · exact e2
    · exact e3
  by_cases h1 : s.game.type side = .external
  · simp only [h1, if_true]
    refine ⟨_, _, rfl, keep, .engineRefused ?_⟩
    intro c hc h
    rw [← hty c hc] at h
    exact absurd h1 h
  · simp only [h1, if_false]
    obtain ⟨c, hc⟩ : ∃ c, current t = some c := by
      rcases h : current t with _ | c
      · exfalso
        apply h1
        obtain ⟨e1, e2⟩ := hi.ext h
        cases side
        · exact e1
        · exact e2
      · exact ⟨c, rfl⟩
    rcases accept_spec (g := s.game) hi.reach hi.board side m with ⟨h5, h6, h7⟩ | ⟨h5, h6⟩
    · rw [h7]
      refine ⟨_, _, rfl, inv_accepted hi rfl rfl (fun _ => Iff.rfl) h6 (by rw [hc]; simp), ?_⟩
      exact .engine hc (by rw [← hty c hc]; exact h1) h5 h6
    · rw [h6]
      refine ⟨_, _, rfl, keep, .engineRefused ?_⟩
      intro _ _ _ h8 h9
      exact h5 ⟨h8, h9⟩

theorem inv_init : Inv {} [] where
  count := .inl ⟨rfl, rfl⟩
  reach := .start
  board := rfl
  array := by intro i h; simp [standing] at h
  idle := fun _ => rfl
  ids := by intro c h; cases h
  cx := by intro c h; cases h
  co := by intro c h; cases h
  ext := fun _ => ⟨rfl, rfl⟩

theorem exec_follows (rs : List Req) :
    ∃ s t, exec rs = some (s, t) ∧ t.map Prod.fst = rs ∧ Inv s t ∧ Follows t := by
  induction rs with
  | nil => exact ⟨_, _, rfl, rfl, inv_init, trivial⟩
  | cons r rs ih =>
    obtain ⟨s, t, he, hm, hi, hf⟩ := ih
    have key : ∃ s' a, step s r = some (s', a) ∧ Inv s' ((r, a) :: t) ∧ Answer t r a := by
      cases r with
      | create tx to_ gid xid oid => exact ⟨_, _, rfl, answer_create hi tx to_ gid xid oid⟩
      | claim gid i => exact ⟨_, _, rfl, answer_claim hi gid i⟩
      | move gid pid m => exact answer_move hi gid pid m
      | moves gid since => exact ⟨_, _, rfl, answer_moves hi gid since⟩
      | engine side m => exact answer_engine hi side m
    obtain ⟨s', a, h1, h2, h3⟩ := key
    refine ⟨s', (r, a) :: t, ?_, by simp [hm], h2, h3, hf⟩
    simp [exec, he, h1]

/-! ## C105 -/

/-- C105: whatever requests arrive in whatever order, whatever numbers are drawn and whatever the
engines do, the server never writes outside its array of moves and gives every request the answer
described by `Answer`: seats go to the first claimant, moves are accepted exactly from the player
whose turn it is and exactly when the rules allow them, and the list of moves is the list of the
moves accepted.  Partial: requests are atomic. -/
theorem C105_server_partial (rs : List Req) :
    ∃ s t, exec rs = some (s, t) ∧ t.map Prod.fst = rs ∧ Follows t := by
  obtain ⟨s, t, h1, h2, _, h3⟩ := exec_follows rs
  exact ⟨s, t, h1, h2, h3⟩

theorem follows_of_exec {rs : List Req} {s : Server} {t : Trace} (h : exec rs = some (s, t)) :
    Follows t := by
  obtain ⟨s', t', h1, _, _, h3⟩ := exec_follows rs
  rw [h] at h1
  cases h1
  exact h3

theorem Follows.tail : ∀ {t₁ t₂ : Trace}, Follows (t₁ ++ t₂) → Follows t₂
  | [], _, h => h
  | (_, _) :: _, _, h => Follows.tail h.2

/-- No game was created in `t`. -/
def NoCreate (t : Trace) : Prop :=
  ∀ tx to_ gid xid oid g, ((.create tx to_ gid xid oid, .created g) : Req × Resp) ∉ t

theorem NoCreate.cons {e : Req × Resp} {t : Trace} (h : NoCreate (e :: t)) : NoCreate t :=
  fun tx to_ gid xid oid g c => h tx to_ gid xid oid g (.tail _ c)

theorem taken_append {t₁ t₂ : Trace} {i : Nat} (h : NoCreate t₁) (ht : taken i t₂) :
    taken i (t₁ ++ t₂) := by
  induction t₁ with
  | nil => exact ht
  | cons e t₁ ih =>
    obtain ⟨r, a⟩ := e
    have ih := ih h.cons
    cases r <;> cases a <;> simp only [List.cons_append, taken] <;>
      first
        | exact ih
        | exact .inr ih
        | exact absurd (List.Mem.head _) (h _ _ _ _ _ _)

theorem current_append {t₁ t₂ : Trace} (h : NoCreate t₁) : current (t₁ ++ t₂) = current t₂ := by
  induction t₁ with
  | nil => rfl
  | cons e t₁ ih =>
    obtain ⟨r, a⟩ := e
    have ih := ih h.cons
    cases r <;> cases a <;> simp only [List.cons_append, current] <;>
      first
        | exact ih
        | exact absurd (List.Mem.head _) (h _ _ _ _ _ _)

/-- C105, claims: if two clients were given seat `i`, a new game was created in between. -/
theorem C105_claim_once_partial {rs : List Req} {s : Server} {t₁ t₂ t₃ : Trace} {g g' p p' : Id}
    {i : Nat}
    (h : exec rs = some (s, t₁ ++ (.claim g' i, .claimed p') :: t₂ ++ (.claim g i, .claimed p) :: t₃)) :
    ¬ NoCreate t₂ := by
  intro hn
  have hf := follows_of_exec h
  rw [List.append_assoc] at hf
  have hf := (hf.tail).1
  have ht : taken i (t₂ ++ (.claim g i, .claimed p) :: t₃) := taken_append hn (.inl rfl)
  cases hf with
  | claimed _ _ _ _ _ hnot => exact hnot ht

/-- C105, moves: in a game whose two players have different numbers, the client who was given
seat `i` moves for that side only. -/
theorem C105_owner_partial {rs : List Req} {s : Server} {t₁ t₂ t₃ : Trace} {g g' p : Id} {i k : Nat}
    {m : Move} {w : Option Pid} {c : Created} {h : List Move}
    (he : exec rs =
      some (s, t₁ ++ (.move g' p m, .accepted k w) :: t₂ ++ (.claim g i, .claimed p) :: t₃))
    (hn : NoCreate t₂) (hc : current (t₂ ++ (.claim g i, .claimed p) :: t₃) = some c)
    (hne : c.xid ≠ c.oid) (hh : standing (t₂ ++ (.claim g i, .claimed p) :: t₃) = h) :
    toMove h = sideOf i := by
  have hf := follows_of_exec he
  rw [List.append_assoc] at hf
  have hf' := hf.tail
  have h1 : Answer (t₂ ++ (.claim g i, .claimed p) :: t₃) (.move g' p m) (.accepted k w) := hf'.1
  have h2 := (Follows.tail hf'.2).1
  have hc2 : current t₃ = some c := by
    rw [current_append hn] at hc
    exact hc
  have hp : p = c.id (sideOf i) ∧ p ≠ 0 := by
    cases h2 with
    | @claimed _ _ c' _ _ h3 _ h5 _ =>
      rw [hc2] at h3
      cases h3
      exact ⟨rfl, h5⟩
  clear he hf hf' h2
  generalize htr : t₂ ++ (.claim g i, .claimed p) :: t₃ = tr at *
  generalize hk : (k : Int) = k' at *
  cases h1 with
  | @accepted _ _ _ c' _ _ hp0 h3 _ h5 h6 _ _ =>
    rw [hc] at h3
    cases h3
    rw [hh] at h5 h6
    rw [hp.1] at h5 hp0
    revert h5 hp0
    unfold Created.id
    cases toMove h <;> cases sideOf i <;> simp <;> split <;> split <;> grind

/-- C105, engines: no client ever moves for a side played by an engine. -/
theorem C105_engine_side {rs : List Req} {s : Server} {t : Trace} {g p : Id} {k : Int} {m : Move}
    {w : Option Pid} (he : exec rs = some (s, (.move g p m, .accepted k w) :: t)) :
    ∃ c, current t = some c ∧ c.type (toMove (standing t)) = .external := by
  have hf := (follows_of_exec he).1
  cases hf with
  | @accepted _ _ _ c _ _ hp0 h3 _ h5 _ _ _ =>
    refine ⟨c, h3, ?_⟩
    revert h5 hp0
    unfold Created.id Created.type
    cases toMove (standing t) <;> simp <;> split <;> simp_all

/-- The full claim about moves, for all numbers drawn. -/
def C105Full : Prop :=
  ∀ (rs : List Req) (s : Server) (t₂ t₃ : Trace) (g p : Id) (i : Nat) (k : Int) (m : Move)
    (w : Option Pid),
    exec rs = some (s, (.move g p m, .accepted k w) :: t₂ ++ (.claim g i, .claimed p) :: t₃) →
    NoCreate t₂ → toMove (standing (t₂ ++ (.claim g i, .claimed p) :: t₃)) = sideOf i

/-- With equal numbers for both players, the client who was given `o` moves for `x`. -/
theorem C105_violated_equal : ¬ C105Full := by
  intro h
  have := h [.move 1 5 ⟨0, 0⟩, .claim 1 1, .create .external .external 1 5 5] _ [] 
    [(.create .external .external 1 5 5, .created 1)] 1 5 1 0 ⟨0, 0⟩ none rfl
    (by intro _ _ _ _ _ _ c; cases c)
  revert this
  decide

/-- A game whose first player drew the number 0 (one draw in 2^32) can never be played nor
replaced: all its moves and all new games are refused for ever. -/
theorem C105_violated_stuck {rs : List Req} {s : Server} {t₁ t₂ : Trace} {to_ : PType}
    {gid oid : Id}
    (he : exec rs = some (s, t₁ ++ (.create .external to_ gid 0 oid, .created gid) :: t₂)) :
    standing (t₁ ++ (.create .external to_ gid 0 oid, .created gid) :: t₂) = [] ∧
    ∀ r a, (r, a) ∈ t₁ → ∀ tx' to' g' x' o', r = .create tx' to' g' x' o' → a = .refused 503 := by
  have hf := follows_of_exec he
  clear he
  have main : standing (t₁ ++ (.create .external to_ gid 0 oid, .created gid) :: t₂) = [] ∧
      current (t₁ ++ (.create .external to_ gid 0 oid, .created gid) :: t₂) =
        some ⟨.external, to_, gid, 0, oid⟩ ∧
      ∀ r a, (r, a) ∈ t₁ → ∀ tx' to' g' x' o', r = .create tx' to' g' x' o' → a = .refused 503 := by
    induction t₁ with
    | nil => exact ⟨rfl, rfl, by intro _ _ h; cases h⟩
    | cons e t₁ ih =>
      obtain ⟨r, a⟩ := e
      obtain ⟨h1, h2, h3⟩ := ih hf.2
      have ha : Answer (t₁ ++ (.create .external to_ gid 0 oid, .created gid) :: t₂) r a := hf.1
      clear hf ih
      simp only [List.cons_append]
      generalize t₁ ++ (.create .external to_ gid 0 oid, .created gid) :: t₂ = tr at *
      have hov : ¬ (current tr = none ∨ Over (standing tr)) := by
        rw [h1, h2]
        rintro (c | c)
        · cases c
        · exact not_over_nil c
      have hto : toMove (standing tr) = .x := by rw [h1]; rfl
      have rest : ∀ r a, (r, a) ∈ t₁ → ∀ tx' to' g' x' o', r = Req.create tx' to' g' x' o' →
          a = .refused 503 := h3
      cases ha with
      | created h => exact absurd h hov
      | busy _ =>
        refine ⟨h1, h2, ?_⟩
        intro r a hm tx' to' g' x' o' hr
        rcases List.mem_cons.1 hm with h | h
        · cases h; rfl
        · exact h3 r a h tx' to' g' x' o' hr
      | accepted _ hp hc _ h5 _ _ _ =>
        rw [h2] at hc
        cases hc
        rw [hto] at h5
        exact absurd h5 (by simpa [Created.id] using hp)
      | engine hc h4 h5 _ =>
        rw [h2] at hc
        cases hc
        rw [hto] at h5
        subst h5
        exact absurd rfl h4
      | _ =>
        refine ⟨h1, h2, ?_⟩
        intro r a hm tx' to' g' x' o' hr
        rcases List.mem_cons.1 hm with h | h
        · cases h; cases hr
        · exact h3 r a h tx' to' g' x' o' hr
  exact ⟨main.1, main.2.2⟩

/-- Such a history: the game is created, its first seat is refused, and so is another game. -/
example : (exec [.create .external .slow 9 8 7, .claim 3 0, .create .external .slow 3 0 4]).map
    (fun x => x.2.map Prod.snd) = some [.refused 503, .refused 403, .created 3] := by
  decide +kernel

/-- A game against an engine: the client claims `x`, moves, tries the cell above the topmost but one
and a taken cell, reads the moves, and wins with four in the bottom row. -/
example : (exec [.moves 3 5, .move 3 8 ⟨0, 3⟩, .engine .o ⟨1, 2⟩, .move 3 8 ⟨0, 2⟩, .engine .o ⟨1, 1⟩,
    .moves 3 1, .move 3 8 ⟨0, 1⟩, .engine .o ⟨1, 0⟩, .move 3 8 ⟨1, 0⟩, .engine .o ⟨2, 0⟩, .move 3 8 ⟨0, 0⟩,
    .claim 3 0, .claim 3 0, .create .external .slow 3 8 7]).map
    (fun x => x.2.map Prod.snd) = some [.moveList [(5, some ⟨1, 2⟩), (6, some ⟨0, 3⟩)] (some 0),
      .accepted 6 (some 0), .engine true, .accepted 4 none, .engine true,
      .moveList [(1, some ⟨1, 0⟩), (2, some ⟨0, 1⟩)] none, .accepted 2 none, .engine true, .refused 403, .engine false,
      .accepted 0 none, .refused 403, .claimed 8, .created 3] := by
  decide +kernel

end Abc.Connect4Server
