/-
Model of the connect-four sample: `board` and the slow engine
(/repo/samples/connect4/game.i.h lines 41-210, /repo/samples/connect4/game.h lines 74-535).

Simplifications:
* `count_t` (`int`) is `Int`, and `_move_count` (`unsigned`) is `Int`: rows and columns are compared
  with the board's limits before they are used, and the count stays between 0 and 42
  (theorem `Reach.length_le`).
* A shift by a position outside the word is undefined in C++.  The positions used by `accept_move`
  and `undo_move` are those of valid moves; for other moves the model's value means nothing.
* Log calls are dropped.
-/
import Mathlib.Tactic.Basic

namespace Abc.Connect4

/-- `player_id_t` (game.i.h 119-126): `x = 0`, `o = 1`, `mask = 1`, `none = 2`. -/
abbrev Pid := BitVec 8
def pX : Pid := 0#8
def pO : Pid := 1#8
def pMask : Pid := 1#8
def pNone : Pid := 2#8

/-- `struct move` (game.i.h). -/
structure Move where
  row : Int
  col : Int
deriving DecidableEq, Repr

/-- `move::is_valid` (game.h 74-76) with `row_count = 6`, `col_count = 7`. -/
def Move.isValid (m : Move) : Bool :=
  decide (0 ≤ m.row) && decide (m.row < 6) && decide (0 ≤ m.col) && decide (m.col < 7)

/-- `class board`, the data members. -/
structure Board where
  over : Bool
  winner : Pid
  cur : Pid
  state : BitVec 64
  count : Int
deriving DecidableEq, Repr

/-- The member initialisers and `board::reset` (game.h 82-89). -/
def Board.init : Board := ⟨false, pNone, pX, 0#64, 0⟩

/-- `board::col_pos` (game.h 325-327): three bits for each column from bit 0. -/
def colPos (col : Int) : Nat := (0 + col * 3).toNat

/-- `board::move_pos` (game.h 374-376): one bit for each cell from bit 21, column by column. -/
def movePos (m : Move) : Nat := (21 + m.col * 6 + m.row * 1).toNat

/-- `board::col_size` (game.h 291-299). -/
def Board.colSize (b : Board) (col : Int) : Int :=
  ((b.state >>> colPos col) &&& 0x7#64).toNat

/-- `board::inc_col_size` (game.h 301-311). -/
def Board.incColSize (b : Board) (col : Int) : Board :=
  { b with state := b.state + (1#64 <<< colPos col) }

/-- `board::dec_col_size` (game.h 313-323). -/
def Board.decColSize (b : Board) (col : Int) : Board :=
  { b with state := b.state - (1#64 <<< colPos col) }

/-- `board::get_move_bits` (game.h 329-338). -/
def Board.getMoveBits (b : Board) (m : Move) : Pid :=
  ((b.state >>> movePos m) &&& 0x1#64).setWidth 8

/-- `board::clear_move_bits` (game.h 360-372). -/
def Board.clearMoveBits (b : Board) (m : Move) : Board :=
  { b with state := b.state &&& ~~~ (0x1#64 <<< movePos m) }

/-- `board::set_move_bits` (game.h 340-358). -/
def Board.setMoveBits (b : Board) (m : Move) (bits : Pid) : Board :=
  let b := b.clearMoveBits m
  { b with state := b.state ||| (bits.setWidth 64 <<< movePos m) }

/-- `board::get_move` (game.h 171-186). -/
def Board.getMove (b : Board) (m : Move) : Pid :=
  let colSz := b.colSize m.col
  if colSz == 0 || decide (colSz ≤ m.row) then pNone else b.getMoveBits m

/-- `board::set_move` (game.h 189-193). -/
def Board.setMove (b : Board) (m : Move) : Board :=
  let b := b.incColSize m.col
  let b := b.setMoveBits m b.cur
  { b with count := b.count + 1 }

/-- `board::clear_move` (game.h 196-200). -/
def Board.clearMove (b : Board) (m : Move) : Board :=
  let b := b.decColSize m.col
  let b := b.clearMoveBits m
  { b with count := b.count - 1 }

/-- `board::has_move` (game.h 208-210). -/
def Board.hasMove (b : Board) (p : Pid) (m : Move) : Bool := b.getMove m == p

/-- The counting loops of `check_winner` (game.h 214-247): the number of steps `i = 1, 2, …` for
which the loop condition holds.  The first argument bounds the number of steps so that the function
is total; no loop makes more than 6 steps because its condition contains the limit of the board. -/
def runLen (cond : Int → Bool) : Nat → Int → Int
  | 0, _ => 0
  | fuel + 1, i => if cond i then 1 + runLen cond fuel (i + 1) else 0

/-- `board::check_winner` (game.h 213-268).  The return value is not used by any caller.  The loops
over `c = move.col - 1, …` are written with `c = move.col - i`. -/
def Board.checkWinner (b : Board) (m : Move) : Board :=
  let west := runLen (fun i => decide (0 ≤ m.col - i) && b.hasMove b.cur ⟨m.row, m.col - i⟩) 7 1
  let east := runLen (fun i => decide (m.col + i < 7) && b.hasMove b.cur ⟨m.row, m.col + i⟩) 7 1
  let south := runLen (fun i => decide (0 ≤ m.row - i) && b.hasMove b.cur ⟨m.row - i, m.col⟩) 7 1
  let southwest := runLen (fun i => decide (0 ≤ m.row - i) && decide (0 ≤ m.col - i) &&
    b.hasMove b.cur ⟨m.row - i, m.col - i⟩) 7 1
  let northeast := runLen (fun i => decide (m.row + i < 6) && decide (m.col + i < 7) &&
    b.hasMove b.cur ⟨m.row + i, m.col + i⟩) 7 1
  let southeast := runLen (fun i => decide (0 ≤ m.row - i) && decide (m.col + i < 7) &&
    b.hasMove b.cur ⟨m.row - i, m.col + i⟩) 7 1
  let northwest := runLen (fun i => decide (m.row + i < 6) && decide (0 ≤ m.col - i) &&
    b.hasMove b.cur ⟨m.row + i, m.col - i⟩) 7 1
  let horizontal := decide (west + east ≥ 3)
  let vertical := decide (south ≥ 3)
  let diagonal1 := decide (southwest + northeast ≥ 3)
  let diagonal2 := decide (southeast + northwest ≥ 3)
  let win := horizontal || vertical || diagonal1 || diagonal2
  let draw := b.count == 6 * 7
  if win then { b with over := true, winner := b.cur }
  else if draw then { b with over := true, winner := pNone }
  else b

/-- `board::opponent` (game.h 286-288). -/
def opponent (p : Pid) : Pid := p ^^^ pMask

/-- `board::switch_current_player_id` (game.h 276-278). -/
def Board.switch (b : Board) : Board := { b with cur := opponent b.cur }

/-- `board::accept_move` (game.h 92-137): the board afterwards and the returned value. -/
def Board.accept (b : Board) (m : Move) : Board × Bool :=
  if !m.isValid then (b, false)
  else if b.over then (b, false)
  else if b.getMove m != pNone then (b, false)
  else if decide (0 < m.row) && b.getMove ⟨m.row - 1, m.col⟩ == pNone then (b, false)
  else
    let b := (b.setMove m).checkWinner m
    let b := if !b.over then b.switch else b
    (b, true)

/-- `board::undo_move` (game.h 140-158). -/
def Board.undo (b : Board) (m : Move) : Board × Bool :=
  if !m.isValid then (b, false)
  else if decide (m.row < 6 - 1) && b.getMove ⟨m.row + 1, m.col⟩ != pNone then (b, false)
  else
    let b := if !b.over then b.switch else b
    let b := b.clearMove m
    ({ b with winner := pNone, over := false }, true)

/-- The order in which `slow_find_best_move` tries the columns (game.h 497-501):
`mid + sign * (i + 1) / 2` with the sign alternating and C++ division. -/
def searchCols : List Int := [3, 4, 2, 5, 1, 6, 0]

/-- The order above is the one computed by the code. -/
example : searchCols =
    (List.range 7).map (fun (i : Nat) =>
      3 + Int.tdiv ((if i % 2 = 0 then -1 else 1) * ((i : Int) + 1)) 2) := by decide

/-- The local variables of `slow_find_best_move`: best score, the referenced `best_move` (`none`:
never assigned) and the member `_temp_board`. -/
structure Search where
  score : Int
  best : Option Move
  temp : Board
deriving DecidableEq, Repr

/-- The body of the loop of `slow_find_best_move` (game.h 503-531); `rec` is the recursive call with
`depth - 1`. -/
def searchStep (rec : Board → Search) (depth : Int) (s : Search) (c : Int) : Search :=
  let mv : Move := ⟨s.temp.colSize c, c⟩
  if mv.isValid then
    let (b, ok) := s.temp.accept mv
    if ok then
      let (score, b) :=
        if b.over then ((if b.winner != pNone then depth + 2 else 0 : Int), b)
        else if decide (depth > 0) && decide (b.count < 6 * 7) then
          let r := rec b
          (-r.score, r.temp)
        else ((-1 : Int), b)
      let s := if score > s.score then { s with best := some mv, score := score } else s
      { s with temp := (b.undo mv).1 }
    else { s with temp := b }
  else s

/-- `player_agent::slow_find_best_move` (game.h 494-535) on `_temp_board = b` with `depth ≥ 0`; the
recursive call is only made with `depth > 0`. -/
def slowFind (maxDepth : Int) : Nat → Board → Search
  | 0, b => searchCols.foldl (searchStep (fun b => ⟨0, none, b⟩) 0) ⟨-(2 * maxDepth), none, b⟩
  | depth + 1, b =>
    searchCols.foldl (searchStep (slowFind maxDepth depth) ((depth : Int) + 1))
      ⟨-(2 * maxDepth), none, b⟩

/-- `player_agent::slow_choose_max_depth` (game.h 471-492). -/
def chooseMaxDepth (moveCount : Int) : Nat :=
  if moveCount < 12 then 6
  else if moveCount < 18 then 8
  else if moveCount < 24 then 10
  else if moveCount < 30 then 16
  else 20

/-- `player_agent::slow_make_first_move` (game.h 442-469): the opening move, `none` when the function
returns false. -/
def firstMove (b : Board) (p : Pid) : Option Move :=
  if b.count ≥ 4 then none
  else
    let midNext : Move := ⟨b.colSize 3, 3⟩
    let right : Move := ⟨0, 4⟩
    let left : Move := ⟨0, 2⟩
    if b.count < 2 then some midNext
    else if b.getMove ⟨0, 3⟩ == p then some midNext
    else if b.getMove right == opponent p then some left
    else some right

/-- The move handed to `game::accept_move` by `player_agent::slow_make_move` (game.h 425-440);
`none`: an indeterminate move. -/
def slowMove (b : Board) (p : Pid) : Option Move :=
  match firstMove b p with
  | some m => some m
  | none => (slowFind (chooseMaxDepth b.count) (chooseMaxDepth b.count) b).best

end Abc.Connect4
