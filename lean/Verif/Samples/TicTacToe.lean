/-
Model of the tic-tac-toe sample: `board` and the slow engine
(/repo/samples/tictactoe/game.i.h lines 45-174, /repo/samples/tictactoe/game.h lines 74-334).

Simplifications, all of them about the parts around the code below:
* `move_t` (`std::int32_t`) is `Int`: the code compares rows and columns with 0 and 3 before it
  computes with them, and `_move_count` stays between 0 and 9 (theorem `Reach.count_eq`).
* `get_move`/`has_move` called with an out-of-range move shift by a negative or too large number,
  which is undefined in C++.  `accept_move` and `undo_move` test `is_valid` first, so the model
  only ever reaches them with valid moves; for other moves the model's value means nothing.
* Log calls are dropped.
-/
import Mathlib.Tactic.Basic

namespace Abc.TicTacToe

/-- `player_id_t` (game.i.h 101-108): `none = 0`, `x = 2`, `o = 3`, `mask = 3`. -/
abbrev Pid := BitVec 8
def pNone : Pid := 0#8
def pX : Pid := 2#8
def pO : Pid := 3#8
def pMask : Pid := 3#8

/-- `struct move` (game.i.h 129-134). -/
structure Move where
  row : Int
  col : Int
deriving DecidableEq, Repr

/-- `move::is_valid` (game.h 74-76). -/
def Move.isValid (m : Move) : Bool :=
  decide (0 ≤ m.row) && decide (m.row < 3) && decide (0 ≤ m.col) && decide (m.col < 3)

/-- `class board`, the data members (game.i.h 168-173). -/
structure Board where
  over : Bool
  winner : Pid
  cur : Pid
  state : BitVec 32
  count : Int
deriving DecidableEq, Repr

/-- The member initialisers (game.i.h 169-173) and `board::reset` (game.h 82-88). -/
def Board.init : Board := ⟨false, pNone, pX, 0#32, 0⟩

/-- `int cell = move.row * col_count + move.col` (game.h 225, 231), times two: the shift. -/
def shiftOf (m : Move) : Nat := ((m.row * 3 + m.col) * 2).toNat

/-- `board::shift_up` (game.h 224-227). -/
def shiftUp (p : Pid) (m : Move) : BitVec 32 := p.setWidth 32 <<< shiftOf m

/-- `board::shift_down` (game.h 230-233). -/
def Board.shiftDown (b : Board) (m : Move) : Pid :=
  ((b.state >>> shiftOf m) &&& pMask.setWidth 32).setWidth 8

/-- `board::get_move` (game.h 142-144). -/
def Board.getMove (b : Board) (m : Move) : Pid := b.shiftDown m

/-- `board::set_move` (game.h 147-150). -/
def Board.setMove (b : Board) (m : Move) : Board :=
  { b with state := b.state ||| shiftUp b.cur m, count := b.count + 1 }

/-- `board::clear_move` (game.h 153-156). -/
def Board.clearMove (b : Board) (m : Move) : Board :=
  { b with state := b.state &&& ~~~ shiftUp pMask m, count := b.count - 1 }

/-- `board::has_move` (game.h 164-168). -/
def Board.hasMove (b : Board) (p : Pid) (m : Move) : Bool :=
  (b.state &&& shiftUp pMask m) == shiftUp p m

/-- The test of one line in `check_winner` (game.h 172-184). -/
def Board.has3 (b : Board) (m₁ m₂ m₃ : Move) : Bool :=
  b.hasMove b.cur m₁ && b.hasMove b.cur m₂ && b.hasMove b.cur m₃

/-- `board::check_winner` (game.h 171-201).  The return value is not used by any caller. -/
def Board.checkWinner (b : Board) : Board :=
  let horizontal :=
    b.has3 ⟨0, 0⟩ ⟨0, 1⟩ ⟨0, 2⟩ || b.has3 ⟨1, 0⟩ ⟨1, 1⟩ ⟨1, 2⟩ || b.has3 ⟨2, 0⟩ ⟨2, 1⟩ ⟨2, 2⟩
  let vertical :=
    b.has3 ⟨0, 0⟩ ⟨1, 0⟩ ⟨2, 0⟩ || b.has3 ⟨0, 1⟩ ⟨1, 1⟩ ⟨2, 1⟩ || b.has3 ⟨0, 2⟩ ⟨1, 2⟩ ⟨2, 2⟩
  let diagonal :=
    b.has3 ⟨0, 0⟩ ⟨1, 1⟩ ⟨2, 2⟩ || b.has3 ⟨0, 2⟩ ⟨1, 1⟩ ⟨2, 0⟩
  let win := horizontal || vertical || diagonal
  let draw := b.count == 3 * 3
  if win then { b with over := true, winner := b.cur }
  else if draw then { b with over := true, winner := pNone }
  else b

/-- `board::opponent` (game.h 219-221). -/
def opponent (p : Pid) : Pid := p ^^^ 0x1#8

/-- `board::switch_current_player_id` (game.h 209-211). -/
def Board.switch (b : Board) : Board := { b with cur := opponent b.cur }

/-- `board::accept_move` (game.h 91-112): the board afterwards and the returned value. -/
def Board.accept (b : Board) (m : Move) : Board × Bool :=
  if !m.isValid then (b, false)
  else if b.over then (b, false)
  else if b.getMove m != pNone then (b, false)
  else
    let b := (b.setMove m).checkWinner
    let b := if !b.over then b.switch else b
    (b, true)

/-- `board::undo_move` (game.h 115-129). -/
def Board.undo (b : Board) (m : Move) : Board × Bool :=
  if !m.isValid then (b, false)
  else
    let b := if !b.over then b.switch else b
    let b := b.clearMove m
    ({ b with winner := pNone, over := false }, true)

/-- The order in which `slow_find_best_move_for` tries the cells (game.h 301-302). -/
def cells : List Move :=
  [⟨0, 0⟩, ⟨0, 1⟩, ⟨0, 2⟩, ⟨1, 0⟩, ⟨1, 1⟩, ⟨1, 2⟩, ⟨2, 0⟩, ⟨2, 1⟩, ⟨2, 2⟩]

/-- The local variables of `slow_find_best_move_for`: the best score so far, the referenced
`best_move` (`none`: never assigned, so indeterminate) and the member `_temp_board`. -/
structure Search where
  score : Int
  best : Option Move
  temp : Board
deriving DecidableEq, Repr

/-- The body of the loops of `slow_find_best_move_for` (game.h 303-330); `rec` is the recursive
call.  The branch "IMPOSSIBLE" only logs. -/
def searchStep (rec : Board → Pid → Search) (p : Pid) (s : Search) (mv : Move) : Search :=
  if decide (s.score < 1) && s.temp.getMove mv == pNone then
    let (b, ok) := s.temp.accept mv
    if ok then
      let (score, b) :=
        if b.over then ((if b.winner == p then 1 else 0 : Int), b)
        else
          let r := rec b (opponent p)
          (-r.score, r.temp)
      let s := if score > s.score then { s with best := some mv, score := score } else s
      { s with temp := (b.undo mv).1 }
    else { s with temp := b }
  else s

/-- `player_agent::slow_find_best_move_for` (game.h 297-334) on `_temp_board = b`.  The first
argument bounds the depth of the recursion so that the function is total; each level fills one
more cell, so ten levels are never used up from a reachable board (`slowFind_spec` needs only
`fuel` larger than the number of empty cells). -/
def slowFind : Nat → Board → Pid → Search
  | 0, b, _ => ⟨-1, none, b⟩
  | fuel + 1, b, p => cells.foldl (searchStep (slowFind fuel) p) ⟨-1, none, b⟩

/-- `player_agent::slow_make_move` (game.h 282-294) with `game::accept_move` (game.h 548-595)
reduced to the board: the board after the engine's move, `none` when the move handed to
`accept_move` is the indeterminate `best_move`. -/
def slowMakeMove (b : Board) (p : Pid) : Option Board :=
  match (slowFind 10 b p).best with
  | none => none
  | some m => if p != b.cur then some b else some (b.accept m).1

end Abc.TicTacToe
