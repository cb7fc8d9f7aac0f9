import Verif.Samples.TicTacToe

/-!
# The learning engine of tic-tac-toe: model

`player_agent` as `fast_engine` (`samples/tictactoe/game.h` 337-523): picking a move by the scores it has learnt, and
learning from a finished game.

* The map from board states to scores (`vmem_map`, game.i.h 84) is a partial function.  Whether an insertion
  finds room is a parameter (`room`).  When the map on disk is such a function is `C29`.
* `score_t` (8 bits) and `score_calc_t` (16 bits) are integers: stored scores stay between -1 and 20 (`C92_range`), counts are
  at most 9 and sums at most 180.
* `std::rand()` is a parameter: any natural number.
* The mutex is not modelled: a call is one step.
* Log calls are dropped.
-/

namespace Abc.TicTacToe

/-- `scores` (game.i.h 69) by cell. -/
abbrev Scores := Move → Int

/-- The map of the engine (game.i.h 84). -/
abbrev Book := BitVec 32 → Option Scores

/-- Putting an item into the map. -/
def Book.set (b : Book) (k : BitVec 32) (s : Scores) : Book := fun k' => if k' = k then some s else b k'

/-- Writing one cell of an item. -/
def Scores.put (s : Scores) (m : Move) (v : Int) : Scores := fun m' => if m' = m then v else s m'

/-- `ensure_board_state_in_map` (game.h 499-520): the map, and the scores of the item; `none` is an iterator that cannot
be dereferenced.  `score::none` is -1 (game.i.h 54). -/
def ensure (room : BitVec 32 → Bool) (b : Book) (k : BitVec 32) : Book × Option Scores :=
  match b k with
  | some s => (b, some s)
  | none => if room k then (b.set k (fun _ => -1), some (fun _ => -1)) else (b, none)

/-- The counters of `fast_find_best_move` (game.h 353-356). -/
structure Tally where
  max : Int := 0
  min : Int := 0
  none : Int := 0
  sum : Int := 0
deriving DecidableEq

/-- The body of the first loop (game.h 358-377).  `score::max`, `score::min` and `score::none` are 20, 1 and -1
(game.i.h 54-58). -/
def tallyStep (b : Board) (s : Scores) (t : Tally) (m : Move) : Tally :=
  if b.getMove m == pNone then
    if s m = 20 then { t with max := t.max + 1 }
    else if s m = 1 then { t with min := t.min + 1 }
    else if s m = -1 then { t with none := t.none + 1 }
    else { t with sum := t.sum + s m }
  else t

/-- What `fast_find_best_move` returns.  `wild` is the variable `some_move` never assigned (game.h 348, 441), `crash` is
`std::rand() % 0` (line 407). -/
inductive Pick where
  | move (m : Move)
  | wild
  | crash
deriving DecidableEq

/-- Lines 383-391; `none` if the loop ends. -/
def pickMax (b : Board) (s : Scores) : List Move → Int → Option Move
  | [], _ => none
  | m :: ms, r =>
    if b.getMove m == pNone && decide (s m = 20) then
      if r - 1 = 0 then some m else pickMax b s ms (r - 1)
    else pickMax b s ms r

/-- Lines 409-432; the second argument is `some_move`.  `score::mid` is 10 (game.i.h 57). -/
def pickWeighted (b : Board) (s : Scores) : List Move → Option Move → Int → Option Move
  | [], some_, _ => some_
  | m :: ms, some_, r =>
    if b.getMove m == pNone then
      let x : Option Move × Int :=
        if 1 ≤ s m ∧ s m ≤ 20 then (some m, r - s m)
        else if s m = -1 then (some m, r - 10)
        else (some_, r)
      if x.2 ≤ 0 then some m else pickWeighted b s ms x.1 x.2
    else pickWeighted b s ms some_ r

/-- A move that may not have been assigned. -/
def Pick.ofOption : Option Move → Pick
  | some m => .move m
  | none => .wild

/-- `fast_find_best_move` (game.h 343-442) on the scores of the board. -/
def fastFind (b : Board) (scores : Option Scores) (rand : Nat) : Pick :=
  match scores with
  | none => .wild
  | some s =>
    let t := cells.foldl (tallyStep b s) {}
    if t.max > 0 then .ofOption (pickMax b s cells (1 + (rand : Int).tmod t.max))
    else if t.min = 9 then
      let i := 1 + (rand : Int).tmod t.min
      .move ⟨i.tdiv 3, i.tmod 3⟩
    else
      let sum := t.sum + t.none * 10
      if sum = 0 then .crash
      else .ofOption (pickWeighted b s cells none (1 + (rand : Int).tmod sum))

/-- What comes of `fast_make_move`: `done` is the board afterwards and what `accept_move` returned. -/
inductive Turn where
  | done (accepted : Bool) (b : Board)
  | wild
  | crash
deriving DecidableEq

/-- `fast_make_move` (game.h 337-340), with `game::accept_move` (548-595) reduced to the board. -/
def fastMakeMove (room : BitVec 32 → Bool) (rand : Nat) (book : Book) (b : Board) (me : Pid) : Book × Turn :=
  let x := ensure room book b.state
  (x.1, match fastFind b x.2 rand with
    | .wild => .wild
    | .crash => .crash
    | .move m => if me != b.cur then .done false b else .done (b.accept m).2 (b.accept m).1)

/-- The score after a game (game.h 455-486): `score::win`, `score::draw` and `score::loss` are 3, 1 and -1 (game.i.h
60-62). -/
def newScore (winner me : Pid) (s : Int) : Int :=
  let old := if s = -1 then 10 else s
  if winner == me then min 20 (old + 3)
  else if winner == pNone then min 20 (old + 1)
  else max 1 (old + -1)

/-- The loop of `learn` (game.h 448-490) over the moves, first move first, on `temp_board`.  `none` is the use of an iterator
that cannot be dereferenced. -/
def learnFrom (room : BitVec 32 → Bool) (winner me : Pid) : List Move → Board → Book → Option Book
  | [], _, b => some b
  | m :: ms, temp, b =>
    if temp.cur == me then
      match ensure room b temp.state with
      | (_, none) => none
      | (b, some s) => learnFrom room winner me ms (temp.accept m).1 (b.set temp.state (s.put m (newScore winner me (s m))))
    else learnFrom room winner me ms (temp.accept m).1 b

/-- `learn` (game.h 445-491). -/
def learn (room : BitVec 32 → Bool) (final : Board) (me : Pid) (moves : List Move) (b : Book) : Option Book :=
  learnFrom room final.winner me moves Board.init b

end Abc.TicTacToe
