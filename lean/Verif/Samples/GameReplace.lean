/-!
# Moves sent while a game is replaced, and what they are answered

Every request runs in a thread of its own (`src/endpoint.h` 69-97), and nothing is locked in the two games. A game that is over is replaced by the next one that is
asked for, in the same memory: `endpoint_game::reset` first clears the board and then writes the new numbers (`samples/tictactoe/game.h` 615-621,
`samples/connect4/game.h` 834-840). A move looks for its game by the number, then for its player by the number, then is put on the board, and then the answer is made up from
what is on the board (`tictactoe` 1180-1217, `connect4` 1399-1436). Here these accesses are taken apart.

Simplifications: one place (`max_game_count` is 1 in both samples); one request for a game at a time (for more see `Samples/GameSlots.lean`); a place that was never used counts as
one whose game is over; putting a move on the board is one step (for its parts see `Samples/GameRace.lean`, `Samples/Connect4Race.lean`), of which there is only whether the rules
accept it and whether it ends the game, both arbitrary; of the board there is the number of moves and whether the game is over. `max` is the number of cells: 9 and 42.
-/

namespace Abc.GameReplace

inductive Seat where
  | x | o
deriving DecidableEq, Repr

/-- The numbers of a game and its players, drawn by `create_game` (`tictactoe` 789-800). -/
structure Game where
  id : Nat
  x : Nat
  o : Nat
deriving DecidableEq, Repr

/-- The number of the player of a seat. -/
def Game.num (g : Game) : Seat → Nat
  | .x => g.x
  | .o => g.o

/-- Where `endpoint_game::reset` is: before `_board.reset()` (615, 530), before writing the number of the game (617), of X (618), of O (620). -/
inductive MkPc where
  | board | ident | plx | plo
deriving DecidableEq, Repr

/-- Where a move is: before comparing the number of the game (1181), of X and of O (1182, 660-665), before `accept_move` (1194), before reading `move_count` for the answer (1212). `was`, for the
statements only: the index the move has in the game. -/
inductive Pc where
  | look | whoX | whoO | put (s : Seat) | reply (was : Nat)
deriving DecidableEq, Repr

/-- A move that was sent: the number of the game and of the player. -/
structure Thr where
  gid : Nat
  pid : Nat
  pc : Pc
deriving DecidableEq, Repr

/-- A move that was put on the board: what was sent, the seat it was put for, and the game the board was cleared for. -/
structure Put where
  gid : Nat
  pid : Nat
  seat : Seat
  owner : Game
deriving DecidableEq, Repr

/-- The members `_endpoint_game_id` and the numbers of the players; `_move_count`, `_is_game_over`; the request for a game; the moves under way. For the statements only: the game the board was last
cleared for, the moves put on it by requests, and the answers: the index told and the index the move has. -/
structure St where
  game : Game
  count : Nat
  over : Bool
  making : Option (Game × MkPc)
  thr : Nat → Option Thr
  owner : Game
  puts : List Put
  answers : List (Nat × Nat)

/-- A game is asked for; its making goes on by a step; thread `k` is sent a move; it makes a step, where `ok` and `ends` are what the rules say if it is the one that puts the move on the board; an engine moves. -/
inductive Ev where
  | make (g : Game)
  | mstep
  | ask (k gid pid : Nat)
  | step (k : Nat) (ok ends : Bool)
  | engine (ends : Bool)
deriving DecidableEq

def setThr (f : Nat → Option Thr) (k : Nat) (t : Option Thr) : Nat → Option Thr := fun j => if j = k then t else f j

def St.goto (st : St) (k : Nat) (t : Thr) (pc : Pc) : St := { st with thr := setThr st.thr k (some { t with pc := pc }) }

def St.leave (st : St) (k : Nat) : St := { st with thr := setThr st.thr k none }

/-- `unsigned` minus one: `move_count() - 1` (`tictactoe` 1212, `connect4` 1431). -/
def minusOne (n : Nat) : Nat := (n + (2 ^ 32 - 1)) % 2 ^ 32

/-- A step of a move: `tictactoe` 1180-1212. -/
def stepThr (max : Nat) (st : St) (k : Nat) (t : Thr) (ok ends : Bool) : St :=
  match t.pc with
  | .look => if st.game.id = t.gid then st.goto k t .whoX else st.leave k
  | .whoX => if t.pid = st.game.x then st.goto k t (.put .x) else st.goto k t .whoO
  | .whoO => if t.pid = st.game.o then st.goto k t (.put .o) else st.leave k
  | .put s =>
    if st.over || !ok then st.leave k
    else
      { st.goto k t (.reply st.count) with
        count := st.count + 1, over := ends || decide (max ≤ st.count + 1), puts := ⟨t.gid, t.pid, s, st.owner⟩ :: st.puts }
  | .reply was => { st.leave k with answers := (minusOne st.count, was) :: st.answers }

/-- A step of the request for a game: `endpoint_game::reset`, `tictactoe` 611-621. -/
def stepMk (st : St) (g : Game) : MkPc → St
  | .board => { st with making := some (g, .ident), count := 0, over := false, owner := g }
  | .ident => { st with making := some (g, .plx), game := { st.game with id := g.id } }
  | .plx => { st with making := some (g, .plo), game := { st.game with x := g.x } }
  | .plo => { st with making := none, game := { st.game with o := g.o } }

/-- An event. A game is asked for in vain while the last one is not over (765-777). -/
def step (max : Nat) (st : St) : Ev → St
  | .make g => if st.making = none ∧ st.over = true then { st with making := some (g, .board) } else st
  | .mstep => match st.making with
    | none => st
    | some (g, pc) => stepMk st g pc
  | .ask k gid pid => match st.thr k with
    | some _ => st
    | none => { st with thr := setThr st.thr k (some ⟨gid, pid, .look⟩) }
  | .step k ok ends => match st.thr k with
    | none => st
    | some t => stepThr max st k t ok ends
  | .engine ends => if st.over then st else { st with count := st.count + 1, over := ends || decide (max ≤ st.count + 1) }

/-- A new server. -/
def init : St := ⟨⟨0, 0, 0⟩, 0, true, none, fun _ => none, ⟨0, 0, 0⟩, [], []⟩

/-- After the events of a list, the latest event first. -/
def hist (max : Nat) : List Ev → St
  | [] => init
  | e :: es => step max (hist max es) e

/-! ## What the statements speak of -/

/-- A move is on the board of the game it was sent to, for the seat of the player who sent it. -/
def Put.Right (m : Put) : Prop := m.gid = m.owner.id ∧ m.pid = m.owner.num m.seat

/-- The whole claim: a move that is accepted is put on the board of the game it was sent to, for the player who sent it, and the index in the answer is the one the move has. -/
def C137Full : Prop :=
  ∀ (max : Nat) (es : List Ev), 0 < max → max < 2 ^ 32 →
    (∀ m ∈ (hist max es).puts, m.Right) ∧ (∀ a ∈ (hist max es).answers, a.1 = a.2)

/-- A property of all events of a history, in the states in which they happen. -/
def All (max : Nat) (P : St → Ev → Prop) : List Ev → Prop
  | [] => True
  | e :: es => P (hist max es) e ∧ All max P es

/-- The board is cleared for a new game only when no move is under way, and no move comes until the numbers of the new game are written. -/
def Calm (st : St) : Ev → Prop
  | .mstep => ∀ g, st.making = some (g, .board) → ∀ k, st.thr k = none
  | .ask _ _ _ => ∀ g pc, st.making = some (g, pc) → pc = .board
  | _ => True

/-- Nothing is put on the board, by a move or by an engine, while an accepted move has not been answered. -/
def Quiet (st : St) : Ev → Prop
  | .step k _ _ => (∃ t s, st.thr k = some t ∧ t.pc = .put s) → ∀ j t was, st.thr j = some t → t.pc ≠ .reply was
  | .engine _ => ∀ j t was, st.thr j = some t → t.pc ≠ .reply was
  | _ => True

/-! ## The board and the numbers -/

structure Inv (st : St) : Prop where
  /-- While the numbers are being written, no move is under way. -/
  mid : ∀ g pc, st.making = some (g, pc) → pc ≠ .board →
    (∀ k, st.thr k = none) ∧ st.owner = g ∧ (pc ≠ .ident → st.game.id = g.id) ∧ (pc = .plo → st.game.x = g.x)
  /-- Otherwise they are those of the game the board was cleared for. -/
  here : (∀ g pc, st.making = some (g, pc) → pc = .board) → st.game = st.owner
  found : ∀ k t, st.thr k = some t → t.pc ≠ .look → t.gid = st.owner.id
  seat : ∀ k t s, st.thr k = some t → t.pc = .put s → t.pid = st.owner.num s
  puts : ∀ m ∈ st.puts, m.Right

theorem setThr_same (f : Nat → Option Thr) (k : Nat) (t : Option Thr) : setThr f k t k = t := if_pos rfl

theorem setThr_ne (f : Nat → Option Thr) {j k : Nat} (t : Option Thr) (h : j ≠ k) : setThr f k t j = f j := if_neg h

theorem setThr_some {f : Nat → Option Thr} {k j : Nat} {t u : Thr} (h : setThr f k (some t) j = some u) : (j = k ∧ u = t) ∨ (j ≠ k ∧ f j = some u) := by
  by_cases e : j = k
  · subst e
    rw [setThr_same] at h
    simp only [Option.some.injEq] at h
    exact Or.inl ⟨rfl, h.symm⟩
  · rw [setThr_ne _ _ e] at h
    exact Or.inr ⟨e, h⟩

theorem setThr_none {f : Nat → Option Thr} {k j : Nat} {u : Thr} (h : setThr f k none j = some u) : j ≠ k ∧ f j = some u := by
  by_cases e : j = k
  · subst e; rw [setThr_same] at h; cases h
  · rw [setThr_ne _ _ e] at h
    exact ⟨e, h⟩

theorem inv_init : Inv init := by
  constructor
  · intro g pc h; cases h
  · intro _; rfl
  · intro k t h; cases h
  · intro k t s h; cases h
  · intro m h; cases h

/-- With a move under way, the numbers are those of the game on the board. -/
theorem Inv.still {st : St} (v : Inv st) {k : Nat} {t : Thr} (hk : st.thr k = some t) : st.game = st.owner := by
  refine v.here ?_
  intro g pc h
  by_cases e : pc = .board
  · exact e
  · have := (v.mid g pc h e).1 k
    rw [hk] at this; cases this

/-- A thread that goes on or leaves; whatever happens to the count, the end of the game and the answers. -/
theorem inv_thr {st : St} (v : Inv st) {k : Nat} {t : Thr} (hk : st.thr k = some t) (t' : Option Thr)
    (hf : ∀ u, t' = some u → u.pc ≠ .look → u.gid = st.owner.id) (hs : ∀ u s, t' = some u → u.pc = .put s → u.pid = st.owner.num s)
    (n : Nat) (b : Bool) (a : List (Nat × Nat)) (ps : List Put) (hps : ∀ m ∈ ps, m.Right) :
    Inv { st with thr := setThr st.thr k t', count := n, over := b, answers := a, puts := ps } := by
  have old : ∀ {j u}, setThr st.thr k t' j = some u → (t' = some u) ∨ st.thr j = some u := by
    intro j u h
    by_cases e : j = k
    · subst e; rw [setThr_same] at h; exact Or.inl h
    · rw [setThr_ne _ _ e] at h; exact Or.inr h
  constructor
  · intro g pc h hne
    have := (v.mid g pc h hne).1 k
    rw [hk] at this; cases this
  · exact v.here
  · intro j u hj hu
    rcases old hj with h | h
    · exact hf u h hu
    · exact v.found j u h hu
  · intro j u s hj hu
    rcases old hj with h | h
    · exact hs u s h hu
    · exact v.seat j u s h hu
  · exact hps

theorem inv_stepThr {st : St} (v : Inv st) (max : Nat) {k : Nat} {t : Thr} (hk : st.thr k = some t) (ok ends : Bool) : Inv (stepThr max st k t ok ends) := by
  have hg := v.still hk
  have go : ∀ (n : Nat) (b : Bool) (a : List (Nat × Nat)) (ps : List Put), (∀ m ∈ ps, m.Right) →
      Inv { st with thr := setThr st.thr k none, count := n, over := b, answers := a, puts := ps } :=
    fun n b a ps h => inv_thr v hk none (fun _ h => by cases h) (fun _ _ h => by cases h) n b a ps h
  unfold stepThr
  split
  · next hp =>
    split
    · next h =>
      refine inv_thr v hk _ ?_ ?_ _ _ _ _ v.puts
      · intro u e _
        cases e
        show t.gid = _
        rw [← h, hg]
      · intro u s e hu; cases e; cases hu
    · exact go _ _ _ _ v.puts
  · next hp =>
    have hf : t.gid = st.owner.id := v.found k t hk (by rw [hp]; intro h; cases h)
    split
    · next h =>
      refine inv_thr v hk _ ?_ ?_ _ _ _ _ v.puts
      · intro u e _; cases e; exact hf
      · intro u s e hu
        cases e; cases hu
        show t.pid = _
        rw [h, hg]; rfl
    · refine inv_thr v hk _ ?_ ?_ _ _ _ _ v.puts
      · intro u e _; cases e; exact hf
      · intro u s e hu; cases e; cases hu
  · next hp =>
    have hf : t.gid = st.owner.id := v.found k t hk (by rw [hp]; intro h; cases h)
    split
    · next h =>
      refine inv_thr v hk _ ?_ ?_ _ _ _ _ v.puts
      · intro u e _; cases e; exact hf
      · intro u s e hu
        cases e; cases hu
        show t.pid = _
        rw [h, hg]; rfl
    · exact go _ _ _ _ v.puts
  · next s hp =>
    have hf : t.gid = st.owner.id := v.found k t hk (by rw [hp]; intro h; cases h)
    split
    · exact go _ _ _ _ v.puts
    · refine inv_thr v hk _ ?_ ?_ _ _ _ _ ?_
      · intro u e _; cases e; exact hf
      · intro u s e hu; cases e; cases hu
      · intro m hm
        rcases List.mem_cons.mp hm with rfl | hm
        · exact ⟨hf, v.seat k t s hk hp⟩
        · exact v.puts m hm
  · exact go _ _ _ _ v.puts

theorem inv_stepMk {st : St} (v : Inv st) {g : Game} {pc : MkPc} (hm : st.making = some (g, pc)) (hc : pc = .board → ∀ k, st.thr k = none) :
    Inv (stepMk st g pc) := by
  have hn : ∀ k, st.thr k = none := by
    by_cases e : pc = .board
    · exact hc e
    · exact (v.mid g pc hm e).1
  have no : ∀ {j u}, st.thr j = some u → False := by
    intro j u h; rw [hn j] at h; cases h
  cases pc with
  | board =>
    constructor
    · intro g' pc' h _
      have h : some (g, MkPc.ident) = some (g', pc') := h
      cases h
      exact ⟨hn, rfl, fun h => absurd rfl h, fun h => by cases h⟩
    · intro h
      have := h g .ident rfl
      cases this
    · intro j u h; exact absurd h (fun h => no h)
    · intro j u s h; exact absurd h (fun h => no h)
    · exact v.puts
  | ident =>
    have m := v.mid g .ident hm (by decide)
    constructor
    · intro g' pc' h _
      have h : some (g, MkPc.plx) = some (g', pc') := h
      cases h
      exact ⟨hn, m.2.1, fun _ => rfl, fun h => by cases h⟩
    · intro h
      have := h g .plx rfl
      cases this
    · intro j u h; exact absurd h (fun h => no h)
    · intro j u s h; exact absurd h (fun h => no h)
    · exact v.puts
  | plx =>
    have m := v.mid g .plx hm (by decide)
    constructor
    · intro g' pc' h _
      have h : some (g, MkPc.plo) = some (g', pc') := h
      cases h
      exact ⟨hn, m.2.1, fun _ => m.2.2.1 (by decide), fun _ => rfl⟩
    · intro h
      have := h g .plo rfl
      cases this
    · intro j u h; exact absurd h (fun h => no h)
    · intro j u s h; exact absurd h (fun h => no h)
    · exact v.puts
  | plo =>
    have m := v.mid g .plo hm (by decide)
    constructor
    · intro g' pc' h _
      have h : (none : Option (Game × MkPc)) = some (g', pc') := h
      cases h
    · intro _
      show (⟨st.game.id, st.game.x, g.o⟩ : Game) = st.owner
      rw [m.2.1, m.2.2.1 (by decide), m.2.2.2 rfl]
    · intro j u h; exact absurd h (fun h => no h)
    · intro j u s h; exact absurd h (fun h => no h)
    · exact v.puts

theorem inv_step {st : St} (v : Inv st) (max : Nat) (e : Ev) (c : Calm st e) : Inv (step max st e) := by
  cases e with
  | make g =>
    simp only [step]
    split
    · next h =>
      constructor
      · intro g' pc' h' hne
        have h' : some (g, MkPc.board) = some (g', pc') := h'
        cases h'
        exact absurd rfl hne
      · intro _
        refine v.here ?_
        intro g' pc' h'
        rw [h.1] at h'; cases h'
      · exact v.found
      · exact v.seat
      · exact v.puts
    · exact v
  | mstep =>
    simp only [step]
    split
    · exact v
    · next g pc hm => exact inv_stepMk v hm (fun e => c g (e ▸ hm))
  | ask k gid pid =>
    simp only [step]
    split
    · exact v
    · next hk =>
      constructor
      · intro g pc h hne
        exact absurd (c g pc h) hne
      · exact v.here
      · intro j u hj hu
        rcases setThr_some hj with ⟨-, rfl⟩ | ⟨-, h⟩
        · exact absurd rfl hu
        · exact v.found j u h hu
      · intro j u s hj hu
        rcases setThr_some hj with ⟨-, rfl⟩ | ⟨-, h⟩
        · cases hu
        · exact v.seat j u s h hu
      · exact v.puts
  | step k ok ends =>
    simp only [step]
    split
    · exact v
    · next t hk => exact inv_stepThr v max hk ok ends
  | engine ends =>
    simp only [step]
    split
    · exact v
    · exact ⟨v.mid, v.here, v.found, v.seat, v.puts⟩

theorem inv_hist (max : Nat) : ∀ es, All max Calm es → Inv (hist max es)
  | [], _ => inv_init
  | e :: es, g => inv_step (inv_hist max es g.2) max e g.1

/-! ## The answers -/

structure Inv2 (max : Nat) (st : St) : Prop where
  room : st.count ≤ max ∧ (st.over = false → st.count < max)
  last : ∀ k t was, st.thr k = some t → t.pc = .reply was → st.count = was + 1
  right : ∀ a ∈ st.answers, a.1 = a.2

theorem minusOne_succ {n : Nat} (h : n < 2 ^ 32) : minusOne (n + 1) = n := by
  unfold minusOne
  omega

theorem inv2_step {max : Nat} {st : St} (v : Inv2 max st) (h0 : 0 < max) (h1 : max < 2 ^ 32) (e : Ev) (c : Calm st e) (q : Quiet st e) :
    Inv2 max (step max st e) := by
  cases e with
  | make g =>
    simp only [step]
    split
    · exact ⟨v.room, v.last, v.right⟩
    · exact v
  | mstep =>
    simp only [step]
    split
    · exact v
    · next g pc hm =>
      cases pc with
      | board =>
        refine ⟨⟨Nat.zero_le _, fun _ => h0⟩, ?_, v.right⟩
        intro k t was hk
        have := c g hm k
        have hk : st.thr k = some t := hk
        rw [this] at hk; cases hk
      | ident => exact ⟨v.room, v.last, v.right⟩
      | plx => exact ⟨v.room, v.last, v.right⟩
      | plo => exact ⟨v.room, v.last, v.right⟩
  | ask k gid pid =>
    simp only [step]
    split
    · exact v
    · refine ⟨v.room, ?_, v.right⟩
      intro j u was hj hu
      rcases setThr_some hj with ⟨-, rfl⟩ | ⟨-, h⟩
      · cases hu
      · exact v.last j u was h hu
  | engine ends =>
    simp only [step]
    split
    · exact v
    · next ho =>
      have hlt := v.room.2 (by simpa using ho)
      refine ⟨⟨hlt, ?_⟩, ?_, v.right⟩
      · intro h
        have h : (ends || decide (max ≤ st.count + 1)) = false := h
        simp only [Bool.or_eq_false_iff, decide_eq_false_iff_not] at h
        show st.count + 1 < max
        omega
      · intro j u was hj hu
        exact absurd hu (q j u was hj)
  | step k ok ends =>
    simp only [step]
    split
    · exact v
    · next t hk =>
      have leave : Inv2 max (st.leave k) := by
        refine ⟨v.room, ?_, v.right⟩
        intro j u was hj hu
        exact v.last j u was (setThr_none hj).2 hu
      have goto : ∀ pc, (∀ was, pc ≠ .reply was) → Inv2 max (st.goto k t pc) := by
        intro pc hpc
        refine ⟨v.room, ?_, v.right⟩
        intro j u was hj hu
        rcases setThr_some hj with ⟨-, rfl⟩ | ⟨-, h⟩
        · exact absurd hu (hpc was)
        · exact v.last j u was h hu
      unfold stepThr
      split
      · split
        · exact goto _ (fun _ h => by cases h)
        · exact leave
      · split
        · exact goto _ (fun _ h => by cases h)
        · exact goto _ (fun _ h => by cases h)
      · split
        · exact goto _ (fun _ h => by cases h)
        · exact leave
      · next s hp =>
        split
        · exact leave
        · next ho =>
          have ho : st.over = false := by
            cases h : st.over
            · rfl
            · simp [h] at ho
          have hlt := v.room.2 ho
          refine ⟨⟨hlt, ?_⟩, ?_, v.right⟩
          · intro h
            have h : (ends || decide (max ≤ st.count + 1)) = false := h
            simp only [Bool.or_eq_false_iff, decide_eq_false_iff_not] at h
            show st.count + 1 < max
            omega
          · intro j u was hj hu
            rcases setThr_some hj with ⟨-, rfl⟩ | ⟨-, h⟩
            · cases hu; rfl
            · exact absurd hu (q ⟨t, s, hk, hp⟩ j u was h)
      · next was hp =>
        refine ⟨v.room, leave.last, ?_⟩
        intro a ha
        rcases List.mem_cons.mp ha with rfl | ha
        · have hc := v.last k t was hk hp
          have := v.room.1
          show minusOne st.count = was
          rw [hc]
          exact minusOne_succ (by omega)
        · exact v.right a ha

theorem inv2_hist {max : Nat} (h0 : 0 < max) (h1 : max < 2 ^ 32) : ∀ es, All max Calm es → All max Quiet es → Inv2 max (hist max es)
  | [], _, _ => by
    refine ⟨⟨Nat.zero_le _, ?_⟩, ?_, ?_⟩
    · intro h; cases h
    · intro _ _ _ h; cases h
    · intro _ h; cases h
  | e :: es, c, q => inv2_step (inv2_hist h0 h1 es c.2 q.2) h0 h1 e c.1 q.1

/-! ## The theorems -/

/-- C137, part: if the board is cleared only while no move is under way, and no move comes before the numbers are written, every accepted move is on the board of the game it was sent to, for the seat of the
player who sent it; any number of moves and engines at the same time. -/
theorem C137_partial (max : Nat) (es : List Ev) (c : All max Calm es) : ∀ m ∈ (hist max es).puts, m.Right :=
  (inv_hist max es c).puts

/-- C137, part: if besides nothing is put on the board between a move and its answer, every answer tells the index the move has. -/
theorem C137_index_partial (max : Nat) (es : List Ev) (h0 : 0 < max) (h1 : max < 2 ^ 32) (c : All max Calm es) (q : All max Quiet es) :
    ∀ a ∈ (hist max es).answers, a.1 = a.2 :=
  (inv2_hist h0 h1 es c q).right

/-! ## Cases -/

def g1 : Game := ⟨100, 11, 12⟩
def g2 : Game := ⟨200, 21, 22⟩

/-- A game is made: five steps. -/
def newGame (g : Game) : List Ev := [.make g, .mstep, .mstep, .mstep, .mstep]

/-- A move, accepted and answered. -/
def moving (k : Nat) (gid pid : Nat) (ends : Bool) : List Ev := [.ask k gid pid, .step k true ends, .step k true ends, .step k true ends, .step k true ends, .step k true ends]

/-- Events in the order in which they happen. -/
def play (l : List Ev) : List Ev := l.reverse

example : (hist 9 (play (newGame g1 ++ [.engine false] ++ moving 0 100 12 true ++ newGame g2 ++ [.engine false] ++ moving 0 200 22 false))).puts =
    [⟨200, 22, .o, g2⟩, ⟨100, 12, .o, g1⟩] := by decide +kernel

example : (hist 9 (play (newGame g1 ++ [.engine false] ++ moving 0 100 12 true ++ newGame g2 ++ [.engine false] ++ moving 0 200 22 false))).answers =
    [(1, 1), (1, 1)] := by decide +kernel

theorem calm_case : All 9 Calm (play (newGame g1 ++ [.engine false, .ask 0 100 12, .step 0 true true, .step 0 true true, .step 0 true true, .step 0 true true])) := by
  simp only [play, newGame, List.cons_append, List.nil_append, List.reverse_cons, List.reverse_nil, All, Calm, and_true, true_and]
  refine ⟨?_, ?_, ?_, ?_, ?_⟩
  · intro g pc h; cases h
  all_goals (intro g _ k; rfl)

example : (hist 9 (play (newGame g1 ++ [.engine false, .ask 0 100 12, .step 0 true true, .step 0 true true, .step 0 true true, .step 0 true true]))).puts = [⟨100, 12, .o, g1⟩] := by
  decide +kernel

/-- Only thread 0, and no engine. -/
def Ev.one : Ev → Bool
  | .ask k _ _ => k == 0
  | .engine _ => false
  | _ => true

theorem far (max : Nat) : ∀ es : List Ev, es.all Ev.one = true → ∀ j, j ≠ 0 → (hist max es).thr j = none
  | [], _, _, _ => rfl
  | e :: es, h, j, hj => by
    simp only [List.all_cons, Bool.and_eq_true] at h
    have old := far max es h.2 j hj
    simp only [hist]
    cases e with
    | make g => simp only [step]; split <;> exact old
    | mstep =>
      simp only [step]
      split
      · exact old
      · next g pc _ => cases pc <;> exact old
    | ask k gid pid =>
      have hk : k = 0 := by simpa [Ev.one] using h.1
      simp only [step]
      split
      · exact old
      · exact (setThr_ne _ _ (by omega)).trans old
    | step k ok ends =>
      simp only [step]
      split
      · exact old
      · next t ht =>
        have hk : j ≠ k := by intro e; subst e; rw [old] at ht; cases ht
        have : ∀ t', setThr (hist max es).thr k t' j = none := fun t' => (setThr_ne _ _ hk).trans old
        unfold stepThr
        repeat' split
        all_goals exact this _
    | engine ends => exact absurd h.1 (by simp [Ev.one])

/-- One client alone, without engines, is quiet. -/
theorem quiet_one (max : Nat) : ∀ es : List Ev, es.all Ev.one = true → All max Quiet es
  | [], _ => trivial
  | e :: es, h => by
    simp only [List.all_cons, Bool.and_eq_true] at h
    refine ⟨?_, quiet_one max es h.2⟩
    cases e with
    | step k ok ends =>
      rintro ⟨t, s, ht, hp⟩ j u was hj hu
      have f := far max es h.2
      have hk : k = 0 := by
        by_cases e : k = 0
        · exact e
        · rw [f k e] at ht; cases ht
      have hj0 : j = 0 := by
        by_cases e : j = 0
        · exact e
        · rw [f j e] at hj; cases hj
      subst hk; subst hj0
      rw [ht] at hj
      cases hj
      rw [hp] at hu; cases hu
    | engine ends => exact absurd h.1 (by simp [Ev.one])
    | make g => trivial
    | mstep => trivial
    | ask k gid pid => trivial

/-- Two moves of one client, who plays both sides. -/
def alone : List Ev := play (newGame g1 ++ moving 0 100 11 false ++ [.step 0 true true] ++ moving 0 100 12 false)

example : All 9 Quiet alone := quiet_one 9 alone (by decide +kernel)

example : All 9 Calm alone := by
  simp only [alone, play, newGame, moving, List.cons_append, List.nil_append, List.reverse_cons, List.reverse_nil, All, Calm, and_true, true_and]
  refine ⟨?_, ?_, ?_, ?_, ?_, ?_⟩
  · intro g pc h; cases h
  · intro g pc h; cases h
  all_goals (intro g _ k; rfl)

example : (hist 9 alone).answers = [(1, 1), (0, 0)] := by decide +kernel

/-- A move sent to a game that is over, while the next one is made, is put on the board of the next one. -/
def lands : List Ev :=
  play (newGame g1 ++ [.engine true, .ask 0 100 11, .step 0 true false, .step 0 true false, .make g2, .mstep, .step 0 true false])

theorem C137_violated_lands : ∃ es, ∃ m ∈ (hist 9 es).puts, m.gid = g1.id ∧ m.owner = g2 ∧ m.pid ≠ g2.x ∧ m.pid ≠ g2.o :=
  ⟨lands, ⟨100, 11, .x, g2⟩, by decide +kernel, by decide +kernel⟩

/-- C137 fails. -/
theorem C137_violated : ¬ C137Full := by
  intro h
  have := ((h 9 lands (by decide) (by decide)).1 ⟨100, 11, .x, g2⟩ (by decide +kernel)).1
  revert this
  decide +kernel

/-- One client against an engine that answers quickly: the client is told the index of the engine's move. -/
theorem C137_violated_engine : ∃ es, All 9 Calm es ∧ (1, 0) ∈ (hist 9 es).answers := by
  refine ⟨play (newGame g1 ++ [.ask 0 100 11, .step 0 true false, .step 0 true false, .step 0 true false, .engine false, .step 0 true false]), ?_, by decide +kernel⟩
  simp only [play, newGame, List.cons_append, List.nil_append, List.reverse_cons, List.reverse_nil, All, Calm, and_true, true_and]
  refine ⟨?_, ?_, ?_, ?_, ?_⟩
  · intro g pc h; cases h
  all_goals (intro g _ k; rfl)

/-- A move that ends the game, answered when the next game is being made: the index told is 4294967295. -/
theorem C137_violated_wrapped : ∃ es, (4294967295, 0) ∈ (hist 9 es).answers :=
  ⟨play (newGame g1 ++ [.ask 0 100 11, .step 0 true true, .step 0 true true, .step 0 true true, .make g2, .mstep, .step 0 true true]), by decide +kernel⟩

end Abc.GameReplace
