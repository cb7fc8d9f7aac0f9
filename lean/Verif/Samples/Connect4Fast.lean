import Verif.Samples.Connect4

/-!
# The learning engine of connect four: model

`player_agent` as `fast_engine` (`samples/connect4/game.h` 538-739).

* The map from board states to scores (`vmem_map`, game.i.h 102) is a partial function.  Whether an insertion finds room is a
  parameter (`room`).  When the map on disk is such a function is `C29`.
* `score_t` (8 bits) and `score_calc_t` (16 bits) are integers: stored scores stay between -1 and 100 (`C95_range`), the
  sums before they are limited at most 110, and the sums of scores at most 700.
* `std::rand()` is a parameter: any natural number.
* The mutex is not modelled: a call is one step.
* Log calls are dropped.
-/

namespace Abc.Connect4

/-- `scores` (game.i.h 87) by column. -/
abbrev Scores := Int → Int

/-- The map of the engine (game.i.h 102). -/
abbrev Book := BitVec 64 → Option Scores

/-- Putting an item into the map. -/
def Book.set (b : Book) (k : BitVec 64) (s : Scores) : Book := fun k' => if k' = k then some s else b k'

/-- Writing one column of an item. -/
def Scores.put (s : Scores) (c : Int) (v : Int) : Scores := fun c' => if c' = c then v else s c'

/-- `ensure_board_state_in_map` (game.h 720-739): the map, and the scores of the item; `none` is an iterator that cannot
be dereferenced.  `score::none` is -1 (game.i.h 72). -/
def ensure (room : BitVec 64 → Bool) (b : Book) (k : BitVec 64) : Book × Option Scores :=
  match b k with
  | some s => (b, some s)
  | none => if room k then (b.set k (fun _ => -1), some (fun _ => -1)) else (b, none)

/-- The counters of `fast_find_best_move` (game.h 554-558). -/
structure Tally where
  max : Int := 0
  min : Int := 0
  none : Int := 0
  valid : Int := 0
  sum : Int := 0
deriving DecidableEq

/-- The columns in the order of the loops. -/
def cols : List Int := [0, 1, 2, 3, 4, 5, 6]

/-- The move that a column stands for (game.h 561, 587, 617-618). -/
def top (b : Board) (c : Int) : Move := ⟨b.colSize c, c⟩

/-- The body of the first loop (game.h 560-580).  `score::max`, `score::min` and `score::none` are 100, 1 and -1
(game.i.h 72-76). -/
def tallyStep (b : Board) (s : Scores) (t : Tally) (c : Int) : Tally :=
  if (top b c).isValid then
    let t := { t with valid := t.valid + 1 }
    if s c = 100 then { t with max := t.max + 1 }
    else if s c = 1 then { t with min := t.min + 1 }
    else if s c = -1 then { t with none := t.none + 1 }
    else { t with sum := t.sum + s c }
  else t

/-- What `fast_find_best_move` returns.  `wild` is the variable `some_move` never assigned (game.h 549, 649), `crash` is
`std::rand() % 0` (lines 599, 614). -/
inductive Pick where
  | move (m : Move)
  | wild
  | crash
deriving DecidableEq

/-- Lines 586-594; `none` if the loop ends. -/
def pickMax (b : Board) (s : Scores) : List Int → Int → Option Int
  | [], _ => none
  | c :: cs, r =>
    if (top b c).isValid && decide (s c = 100) then
      if r - 1 = 0 then some c else pickMax b s cs (r - 1)
    else pickMax b s cs r

/-- Lines 616-640; the second argument is the column of `some_move`.  `score::mid` is 50 (game.i.h 75). -/
def pickWeighted (b : Board) (s : Scores) : List Int → Option Int → Int → Option Int
  | [], some_, _ => some_
  | c :: cs, some_, r =>
    if (top b c).isValid then
      let x : Option Int × Int :=
        if 1 ≤ s c ∧ s c ≤ 100 then (some c, r - s c)
        else if s c = -1 then (some c, r - 50)
        else (some_, r)
      if x.2 ≤ 0 then some c else pickWeighted b s cs x.1 x.2
    else pickWeighted b s cs some_ r

/-- A move that may not have been assigned. -/
def Pick.ofOption (b : Board) : Option Int → Pick
  | some c => .move (top b c)
  | none => .wild

/-- `fast_find_best_move` (game.h 544-650) on the scores of the board. -/
def fastFind (b : Board) (scores : Option Scores) (rand : Nat) : Pick :=
  match scores with
  | none => .wild
  | some s =>
    let t := cols.foldl (tallyStep b s) {}
    if t.max > 0 then .ofOption b (pickMax b s cols (1 + (rand : Int).tmod t.max))
    else if t.min = t.valid then
      if t.min = 0 then .crash
      else .move (top b ((1 + (rand : Int).tmod t.min).tmod 7))
    else
      let sum := t.sum + t.none * 50
      if sum = 0 then .crash
      else .ofOption b (pickWeighted b s cols none (1 + (rand : Int).tmod sum))

/-- What comes of `fast_make_move`: `done` is the board afterwards and what `accept_move` returned. -/
inductive Turn where
  | done (accepted : Bool) (b : Board)
  | wild
  | crash
deriving DecidableEq

/-- `fast_make_move` (game.h 538-541), with `game::accept_move` (767-814) reduced to the board. -/
def fastMakeMove (room : BitVec 64 → Bool) (rand : Nat) (book : Book) (b : Board) (me : Pid) : Book × Turn :=
  let x := ensure room book b.state
  (x.1, match fastFind b x.2 rand with
    | .wild => .wild
    | .crash => .crash
    | .move m => if me != b.cur then .done false b else .done (b.accept m).2 (b.accept m).1)

/-- `gain` in `learn` (game.h 657-683): `score::win`, `score::draw` and `score::loss` are 10, 1 and -1 (game.i.h 78-80). -/
def gain (winner me : Pid) (count : Int) : Int :=
  let g : Int := if winner == me then 10 else if winner == pNone then 1 else -1
  if winner != me then
    if count > 32 then g + 3 else if count > 24 then g + 2 else if count > 18 then g + 1 else g
  else g

/-- The score after a game (game.h 694-702). -/
def newScore (gain s : Int) : Int :=
  let old := if s = -1 then 50 else s
  if old + gain > 0 then min 100 (old + gain) else max 1 (old + gain)

/-- The loop of `learn` (game.h 687-711) over the moves, first move first, on `temp_board`.  `none` is the use of an iterator
that cannot be dereferenced. -/
def learnFrom (room : BitVec 64 → Bool) (gain : Int) (me : Pid) : List Move → Board → Book → Option Book
  | [], _, b => some b
  | m :: ms, temp, b =>
    if temp.cur == me then
      match ensure room b temp.state with
      | (_, none) => none
      | (b, some s) => learnFrom room gain me ms (temp.accept m).1 (b.set temp.state (s.put m.col (newScore gain (s m.col))))
    else learnFrom room gain me ms (temp.accept m).1 b

/-- `learn` (game.h 653-712). -/
def learn (room : BitVec 64 → Bool) (final : Board) (me : Pid) (moves : List Move) (b : Book) : Option Book :=
  learnFrom room (gain final.winner me final.count) me moves Board.init b

end Abc.Connect4
