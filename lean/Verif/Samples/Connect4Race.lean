import Verif.Samples.Connect4Server

/-!
# Moves of a connect-four game that arrive at the same time

Every request runs in a thread of its own (`src/endpoint.h` 69-97), and nothing is locked in `samples/connect4/game.h`.  Here
`game::accept_move` is taken apart as in `Samples/GameRace.lean` for tic-tac-toe: any number of threads are inside of it, and their steps
come in any order.  The board is another one: a word with the sizes of the columns in its low bits (three bits each) and the discs above.

Simplifications: both players are clients, so no engine moves and nobody learns (for these `Samples/Connect4Threads.lean`); single reads and writes
of the members are atomic and are seen at once; `_board_state += …` (306), `set_move_bits` with the read of `_current_player_id` (191),
`_move_count++`, `check_winner`, `switch_current_player_id` and `_moves[…] = move` are one step each.  Log calls are dropped.
-/

namespace Abc.Connect4Race

open Abc.Connect4

/-- Where a thread is in `game::accept_move` (`samples/connect4/game.h` 767-814) and in the `board::accept_move` (92-137) it calls:
before reading `_current_player_id` (768), `_is_game_over` (101), the cell (109), the cell below (117), before the three parts of `set_move`
(190, 191, 192), before `check_winner` (126), before 128-130, and before the move is recorded (780). -/
inductive Pc where
  | check | over | free | air | size | set | count | win | switch | record
deriving DecidableEq, Repr

/-- A thread: who moves, where, and how far it is. -/
structure Thr where
  side : Side
  move : Move
  pc : Pc
deriving DecidableEq

/-- The game, the threads, the answers so far, and whether `_moves` was written outside its 42 elements (`game.i.h` 266). -/
structure St where
  board : Board := Board.init
  moves : Nat → Option Move := fun _ => none
  thr : Nat → Option Thr := fun _ => none
  answers : List (Side × Move × Bool) := []
  bad : Bool := false

/-- A request arrives and gets thread `k`; or thread `k` makes a step. -/
inductive Ev where
  | ask (k : Nat) (s : Side) (m : Move)
  | step (k : Nat)

def setThr (f : Nat → Option Thr) (k : Nat) (t : Option Thr) : Nat → Option Thr := fun j => if j = k then t else f j

/-- The thread goes on. -/
def St.goto (st : St) (k : Nat) (t : Thr) (pc : Pc) : St := { st with thr := setThr st.thr k (some { t with pc := pc }) }

/-- The thread returns. -/
def St.ret (st : St) (k : Nat) (t : Thr) (r : Bool) : St :=
  { st with thr := setThr st.thr k none, answers := st.answers ++ [(t.side, t.move, r)] }

/-- A step of a thread, `samples/connect4/game.h` 767-814 with 92-137 and 189-193. -/
def stepThr (st : St) (k : Nat) (t : Thr) : St :=
  match t.pc with
  | .check => if code (some t.side) ≠ st.board.cur then st.ret k t false else st.goto k t .over
  | .over => if !t.move.isValid || st.board.over then st.ret k t false else st.goto k t .free
  | .free => if st.board.getMove t.move ≠ pNone then st.ret k t false else st.goto k t .air
  | .air => if 0 < t.move.row ∧ st.board.getMove ⟨t.move.row - 1, t.move.col⟩ = pNone then st.ret k t false else st.goto k t .size
  | .size => { st.goto k t .set with board := st.board.incColSize t.move.col }
  | .set => { st.goto k t .count with board := st.board.setMoveBits t.move st.board.cur }
  | .count => { st.goto k t .win with board := { st.board with count := st.board.count + 1 } }
  | .win => { st.goto k t .switch with board := st.board.checkWinner t.move }
  | .switch => { st.goto k t .record with board := if !st.board.over then st.board.switch else st.board }
  | .record =>
    { st.ret k t true with
      moves := fun i => if i = (st.board.count - 1).toNat then some t.move else st.moves i
      bad := st.bad || !decide (0 ≤ st.board.count - 1 ∧ st.board.count - 1 < 42) }

def step (st : St) : Ev → St
  | .ask k s m => match st.thr k with
    | some _ => st
    | none => { st with thr := setThr st.thr k (some ⟨s, m, .check⟩) }
  | .step k => match st.thr k with
    | none => st
    | some t => stepThr st k t

/-- A history, newest event first. -/
def hist : List Ev → St
  | [] => {}
  | e :: es => step (hist es) e

/-- Every event of a history meets a condition. -/
def All (P : St → Ev → Prop) : List Ev → Prop
  | [] => True
  | e :: es => P (hist es) e ∧ All P es

/-! ## What is expected -/

/-- The rules, for requests that are served one after another: the requests with their answers, and the moves that stand (newest first). -/
inductive Seq : List (Side × Move × Bool) → List Move → Prop
  | nil : Seq [] []
  | yes {l h s m} : Seq l h → toMove h = s → Legal h m → Seq (l ++ [(s, m, true)]) (m :: h)
  | no {l h s m} : Seq l h → ¬ (toMove h = s ∧ Legal h m) → Seq (l ++ [(s, m, false)]) h

/-- The answers one player got, in their order. -/
def of (s : Side) (l : List (Side × Move × Bool)) : List (Side × Move × Bool) := l.filter (fun a => a.1 = s)

/-- Nothing is under way. -/
def Idle (st : St) : Prop := ∀ k, st.thr k = none

/-- The requests have been served as if one after another: there is an order in which the rules give every player the answers they got,
and the board shows the moves that stand then. -/
def Served (st : St) (h : List Move) : Prop := ∃ l, Seq l h ∧ (∀ s, of s l = of s st.answers) ∧ Shows st.board h

/-- The list of moves is that of the game. -/
def Recorded (st : St) (h : List Move) : Prop := ∀ i, i < h.length → st.moves i = h.reverse[i]?

/-- No player sends a move before the one sent before is answered. -/
def Single (st : St) : Ev → Prop
  | .ask _ s _ => ∀ k t, st.thr k = some t → t.side ≠ s
  | .step _ => True

/-- No thread begins while an accepted move is not recorded. -/
def Calm (st : St) : Ev → Prop
  | .ask _ _ _ => True
  | .step k => ∀ t, st.thr k = some t → t.pc = .check → ∀ j u, st.thr j = some u → u.pc ≠ .record

/-- The whole claim. -/
def C132Full : Prop := ∀ es, Idle (hist es) → (hist es).bad = false ∧ ∃ h, Served (hist es) h ∧ Recorded (hist es) h

/-! ## Proofs -/

/-- What holds at the places of `accept_move`. -/
def Where (b : Board) (h : List Move) (t : Thr) : Prop :=
  match t.pc with
  | .check => True
  | .over => Rep b h ∧ b.cur = code (some t.side)
  | .free => Rep b h ∧ b.cur = code (some t.side) ∧ OnBoard t.move ∧ b.over = false
  | .air => Rep b h ∧ b.cur = code (some t.side) ∧ OnBoard t.move ∧ b.over = false ∧ b.getMove t.move = pNone
  | .size => Rep b h ∧ b.cur = code (some t.side) ∧ Legal h t.move
  | .set => ∃ b0, Rep b0 h ∧ b0.cur = code (some t.side) ∧ Legal h t.move ∧ b = b0.incColSize t.move.col
  | .count => ∃ b0, Rep b0 h ∧ b0.cur = code (some t.side) ∧ Legal h t.move ∧ b = (b0.incColSize t.move.col).setMoveBits t.move b0.cur
  | .win => ∃ b0, Rep b0 h ∧ b0.cur = code (some t.side) ∧ Legal h t.move ∧ b = b0.setMove t.move
  | .switch => ∃ b0, Rep b0 h ∧ b0.cur = code (some t.side) ∧ Legal h t.move ∧ b = (b0.setMove t.move).checkWinner t.move
  | .record => h ≠ []

def Inside (p : Pc) : Prop := p ≠ .check ∧ p ≠ .record

def Mid (p : Pc) : Prop := p = .set ∨ p = .count ∨ p = .win ∨ p = .switch

structure Inv (st : St) (l : List (Side × Move × Bool)) (h : List Move) : Prop where
  seq : Seq l h
  uniq : ∀ j k t u, st.thr j = some t → st.thr k = some u → t.side = u.side → j = k
  at_ : ∀ k t, st.thr k = some t → Where st.board h t
  rest : (∀ k t, st.thr k = some t → ¬ Mid t.pc) → Rep st.board h
  ans : ∀ s, (∃ k t, st.thr k = some t ∧ t.side = s ∧ t.pc = .record ∧ of s l = of s st.answers ++ [(s, t.move, true)]) ∨
    ((∀ k t, st.thr k = some t → t.side = s → t.pc ≠ .record) ∧ of s l = of s st.answers)
  bad : st.bad = false

theorem checkWinner_cur (b : Board) (m : Move) : (b.checkWinner m).cur = b.cur := by
  unfold Board.checkWinner
  simp only
  split
  · rfl
  · split <;> rfl

theorem checkWinner_count (b : Board) (m : Move) : (b.checkWinner m).count = b.count := by
  unfold Board.checkWinner
  simp only
  split
  · rfl
  · split <;> rfl

/-- Inside, it is the turn of the thread. -/
theorem where_cur {b : Board} {h : List Move} {t : Thr} (w : Where b h t) (hi : Inside t.pc) : b.cur = code (some t.side) := by
  unfold Where at w
  split at w
  · rename_i e; exact absurd e hi.1
  · exact w.2
  · exact w.2.1
  · exact w.2.1
  · exact w.2.1
  · obtain ⟨b0, _, e, _, rfl⟩ := w; exact e
  · obtain ⟨b0, _, e, _, rfl⟩ := w; exact e
  · obtain ⟨b0, _, e, _, rfl⟩ := w; exact e
  · obtain ⟨b0, _, e, _, rfl⟩ := w; rw [checkWinner_cur]; exact e
  · rename_i e; exact absurd e hi.2

theorem mid_inside {p : Pc} (h : Mid p) : Inside p := by
  rcases h with rfl | rfl | rfl | rfl <;> exact ⟨by decide, by decide⟩

/-- In the middle of a move it is the turn of the thread by the rules, too. -/
theorem where_mid {b : Board} {h : List Move} {t : Thr} (w : Where b h t) (hi : Mid t.pc) :
    toMove h = t.side ∧ ∃ b0, Rep b0 h ∧ b0.over = false ∧ Legal h t.move ∧ (b.count = b0.count ∨ b.count = b0.count + 1) := by
  have key : ∀ b0, Rep b0 h → b0.cur = code (some t.side) → Legal h t.move → toMove h = t.side ∧ b0.over = false := by
    intro b0 r hc hl
    have ho : b0.over = false := by
      rcases e : b0.over with _ | _
      · rfl
      · exact absurd (r.over.1 e) hl.2.2
    have := r.turn ho
    rw [hc] at this
    have := code_inj this
    injection this with this
    exact ⟨this.symm, ho⟩
  unfold Where at w
  rcases hi with e | e | e | e <;> rw [e] at w <;> simp only at w <;> obtain ⟨b0, r, hc, hl, rfl⟩ := w <;> obtain ⟨k1, k2⟩ := key b0 r hc hl
  · exact ⟨k1, b0, r, k2, hl, .inl rfl⟩
  · exact ⟨k1, b0, r, k2, hl, .inl rfl⟩
  · exact ⟨k1, b0, r, k2, hl, .inr rfl⟩
  · exact ⟨k1, b0, r, k2, hl, .inr (by rw [checkWinner_count]; rfl)⟩

/-- Only one thread is inside. -/
theorem Inv.alone {st : St} {l : List (Side × Move × Bool)} {h : List Move} (v : Inv st l h) {j k : Nat} {t u : Thr} (hj : st.thr j = some t) (hk : st.thr k = some u)
    (it : Inside t.pc) (iu : Inside u.pc) : j = k := by
  have h1 := where_cur (v.at_ j t hj) it
  have h2 := where_cur (v.at_ k u hk) iu
  rw [h1] at h2
  have := code_inj h2
  injection this with this
  exact v.uniq j k t u hj hk this

theorem setThr_same (f : Nat → Option Thr) (k : Nat) (t : Option Thr) : setThr f k t k = t := if_pos rfl

theorem setThr_ne (f : Nat → Option Thr) {j k : Nat} (t : Option Thr) (h : j ≠ k) : setThr f k t j = f j := if_neg h

/-- `Where` does not depend on the board outside. -/
theorem where_out {b b' : Board} {h h' : List Move} {t : Thr} (w : Where b h t) (hi : ¬ Inside t.pc) (hh : h ≠ [] → h' ≠ []) : Where b' h' t := by
  unfold Where at w ⊢
  cases e : t.pc <;> rw [e] at w hi <;> simp only at w ⊢
  all_goals first
    | trivial
    | exact hh w
    | exact absurd ⟨by decide, by decide⟩ hi

theorem of_append (s : Side) (l : List (Side × Move × Bool)) (a : Side × Move × Bool) : of s (l ++ [a]) = if a.1 = s then of s l ++ [a] else of s l := by
  unfold of
  rw [List.filter_append]
  by_cases h : a.1 = s
  · rw [if_pos h]; simp [h]
  · rw [if_neg h]; simp [h]

/-- A thread goes on without an answer; the game may change. -/
theorem inv_goto {st st' : St} {l : List (Side × Move × Bool)} {h : List Move} {k : Nat} {t : Thr} (v : Inv st l h) (hk : st.thr k = some t) (pc : Pc) (hp : t.pc ≠ .record)
    (hpc : pc ≠ .record) (ht : st'.thr = setThr st.thr k (some { t with pc := pc })) (ha : st'.answers = st.answers) (hb : st'.bad = st.bad)
    (hw : Where st'.board h { t with pc := pc }) (hr : ¬ Mid pc → Rep st'.board h)
    (ho : st'.board = st.board ∨ Inside t.pc) : Inv st' l h := by
  have inv : ∀ j u, st'.thr j = some u → j = k ∧ u = { t with pc := pc } ∨ j ≠ k ∧ st.thr j = some u := by
    intro j u hj
    rw [ht] at hj
    by_cases e : j = k
    · rw [e, setThr_same] at hj; injection hj with hj; exact .inl ⟨e, hj.symm⟩
    · rw [setThr_ne _ _ e] at hj; exact .inr ⟨e, hj⟩
  have hself : st'.thr k = some { t with pc := pc } := by rw [ht, setThr_same]
  refine ⟨v.seq, ?_, ?_, ?_, ?_, by rw [hb]; exact v.bad⟩
  · intro i j a b hi hj hs
    rcases inv i a hi with ⟨e1, rfl⟩ | ⟨e1, h1⟩ <;> rcases inv j b hj with ⟨e2, rfl⟩ | ⟨e2, h2⟩
    · rw [e1, e2]
    · rw [e1]; exact v.uniq k j t b hk h2 hs
    · rw [e2]; exact v.uniq i k a t h1 hk hs
    · exact v.uniq i j a b h1 h2 hs
  · intro j u hj
    rcases inv j u hj with ⟨_, rfl⟩ | ⟨e, h1⟩
    · exact hw
    · rcases ho with ho | ho
      · rw [ho]; exact v.at_ j u h1
      · exact where_out (v.at_ j u h1) (fun hi => e (v.alone h1 hk hi ho)) id
  · intro hm
    exact hr (hm k _ hself)
  · intro s
    rw [ha]
    rcases v.ans s with ⟨j, u, hj, hs, hu, e⟩ | ⟨hn, e⟩
    · refine .inl ⟨j, u, ?_, hs, hu, e⟩
      have : j ≠ k := by
        rintro rfl
        rw [hk] at hj; injection hj with hj; rw [← hj] at hu; exact hp hu
      rw [ht, setThr_ne _ _ this]; exact hj
    · refine .inr ⟨?_, e⟩
      intro j u hj hs
      rcases inv j u hj with ⟨_, rfl⟩ | ⟨_, h1⟩
      · exact hpc
      · exact hn j u h1 hs

/-- A thread is refused. -/
theorem inv_no {st : St} {l : List (Side × Move × Bool)} {h : List Move} {k : Nat} {t : Thr} (v : Inv st l h) (hk : st.thr k = some t) (hp : t.pc ≠ .record)
    (hm : ¬ Mid t.pc) (hno : ¬ (toMove h = t.side ∧ Legal h t.move)) : Inv (st.ret k t false) (l ++ [(t.side, t.move, false)]) h := by
  have inv : ∀ j u, (st.ret k t false).thr j = some u → j ≠ k ∧ st.thr j = some u := by
    intro j u hj
    have hj : setThr st.thr k none j = some u := hj
    by_cases e : j = k
    · rw [e, setThr_same] at hj; cases hj
    · rw [setThr_ne _ _ e] at hj; exact ⟨e, hj⟩
  refine ⟨.no v.seq hno, ?_, ?_, ?_, ?_, v.bad⟩
  · intro i j a b hi hj hs
    exact v.uniq i j a b (inv i a hi).2 (inv j b hj).2 hs
  · intro j u hj
    exact v.at_ j u (inv j u hj).2
  · intro hx
    apply v.rest
    intro j u hj
    by_cases e : j = k
    · rw [e, hk] at hj; injection hj with hj; rw [← hj]; exact hm
    · exact hx j u (by show setThr st.thr k none j = some u; rw [setThr_ne _ _ e]; exact hj)
  · intro s
    show _ ∨ _ ∧ of s _ = of s (st.answers ++ [(t.side, t.move, false)])
    rw [of_append, of_append]
    simp only
    by_cases hs : t.side = s
    · rw [if_pos hs, if_pos hs]
      rcases v.ans s with ⟨j, u, hj, hs', hu, e⟩ | ⟨hn, e⟩
      · exfalso
        have := v.uniq j k u t hj hk (hs'.trans hs.symm)
        rw [this, hk] at hj; injection hj with hj; rw [← hj] at hu; exact hp hu
      · exact .inr ⟨fun j u hj hs' => hn j u (inv j u hj).2 hs', by rw [e]⟩
    · rw [if_neg hs, if_neg hs]
      rcases v.ans s with ⟨j, u, hj, hs', hu, e⟩ | ⟨hn, e⟩
      · refine .inl ⟨j, u, ?_, hs', hu, ?_⟩
        · have : j ≠ k := by
            rintro rfl
            rw [hk] at hj; injection hj with hj; rw [← hj] at hu; exact hp hu
          show setThr st.thr k none j = some u
          rw [setThr_ne _ _ this]; exact hj
        · show _ = of s (st.answers ++ [(t.side, t.move, false)]) ++ _
          rw [of_append, if_neg hs]; exact e
      · exact .inr ⟨fun j u hj hs' => hn j u (inv j u hj).2 hs', e⟩

/-- What `accept_move` does with a legal move. -/
theorem accept_legal {b : Board} {h : List Move} (r : Rep b h) {m : Move} (hl : Legal h m) :
    (b.accept m).1 = if !((b.setMove m).checkWinner m).over then ((b.setMove m).checkWinner m).switch else (b.setMove m).checkWinner m := by
  have ha := (accept_true r hl).1
  unfold Board.accept at ha ⊢
  by_cases h1 : (!m.isValid) = true
  · rw [if_pos h1] at ha; cases ha
  rw [if_neg h1] at ha ⊢
  by_cases h2 : b.over = true
  · rw [if_pos h2] at ha; cases ha
  rw [if_neg h2] at ha ⊢
  by_cases h3 : (b.getMove m != pNone) = true
  · rw [if_pos h3] at ha; cases ha
  rw [if_neg h3] at ha ⊢
  by_cases h4 : (decide (0 < m.row) && b.getMove ⟨m.row - 1, m.col⟩ == pNone) = true
  · rw [if_pos h4] at ha; cases ha
  rw [if_neg h4]

/-- The tests of `accept_move` are passed by the legal moves and no others. -/
theorem legal_iff {b : Board} {h : List Move} (r : Rep b h) {m : Move} :
    Legal h m ↔ OnBoard m ∧ b.over = false ∧ b.getMove m = pNone ∧ ¬ (0 < m.row ∧ b.getMove ⟨m.row - 1, m.col⟩ = pNone) := by
  have key : (b.accept m).2 = true ↔ OnBoard m ∧ b.over = false ∧ b.getMove m = pNone ∧ ¬ (0 < m.row ∧ b.getMove ⟨m.row - 1, m.col⟩ = pNone) := by
    unfold Board.accept
    rw [← isValid_iff]
    by_cases h1 : m.isValid = true
    · by_cases h2 : b.over = true
      · simp [h1, h2]
      · by_cases h3 : b.getMove m = pNone
        · by_cases h4 : 0 < m.row ∧ b.getMove ⟨m.row - 1, m.col⟩ = pNone
          · simp [h1, h2, h3, h4.1, h4.2]
          · have h5 : (decide (0 < m.row) && b.getMove ⟨m.row - 1, m.col⟩ == pNone) = false := by
              rw [Bool.eq_false_iff]
              intro hx
              rw [Bool.and_eq_true, decide_eq_true_eq, beq_iff_eq] at hx
              exact h4 hx
            simp only [h1, h2, h3, h4, h5]
            simp
        · simp [h1, h2, h3]
    · simp [h1]
  rw [← key]
  constructor
  · exact fun hl => (accept_true r hl).1
  · intro ha
    by_contra hl
    rw [accept_false r hl] at ha
    cases ha

/-- The move is made when the turn changes. -/
theorem inv_switch {st : St} {l : List (Side × Move × Bool)} {h : List Move} {k : Nat} {t : Thr} (v : Inv st l h) (hk : st.thr k = some t) (hp : t.pc = .switch) :
    Inv (stepThr st k t) (l ++ [(t.side, t.move, true)]) (t.move :: h) ∧ Rep (stepThr st k t).board (t.move :: h) := by
  have w := v.at_ k t hk
  have hmid : Mid t.pc := .inr (.inr (.inr hp))
  obtain ⟨ht, _⟩ := where_mid w hmid
  unfold Where at w
  rw [hp] at w
  obtain ⟨b0, r, hc, hl, hb⟩ := w
  have hstep : stepThr st k t = { st.goto k t .record with board := if !st.board.over then st.board.switch else st.board } := by
    unfold stepThr; rw [hp]
  have hrep : Rep (stepThr st k t).board (t.move :: h) := by
    have a := accept_true r hl
    have ho : b0.over = false := by
      rcases e : b0.over with _ | _
      · rfl
      · exact absurd (r.over.1 e) hl.2.2
    have e : (b0.accept t.move).1 = (if !st.board.over then st.board.switch else st.board) := by
      rw [accept_legal r hl, hb]
    rw [hstep]
    show Rep (if !st.board.over then st.board.switch else st.board) _
    rw [← e]
    exact a.2.1
  refine ⟨?_, hrep⟩
  have hthr : (stepThr st k t).thr = setThr st.thr k (some { t with pc := .record }) := by rw [hstep]; rfl
  have hans : (stepThr st k t).answers = st.answers := by rw [hstep]; rfl
  have hbad : (stepThr st k t).bad = st.bad := by rw [hstep]; rfl
  have inv : ∀ j u, (stepThr st k t).thr j = some u → j = k ∧ u = { t with pc := .record } ∨ j ≠ k ∧ st.thr j = some u := by
    intro j u hj
    rw [hthr] at hj
    by_cases e : j = k
    · rw [e, setThr_same] at hj; injection hj with hj; exact .inl ⟨e, hj.symm⟩
    · rw [setThr_ne _ _ e] at hj; exact .inr ⟨e, hj⟩
  refine ⟨.yes v.seq ht hl, ?_, ?_, fun _ => hrep, ?_, by rw [hbad]; exact v.bad⟩
  · intro i j a b hi hj hs
    rcases inv i a hi with ⟨e1, rfl⟩ | ⟨e1, h1⟩ <;> rcases inv j b hj with ⟨e2, rfl⟩ | ⟨e2, h2⟩
    · rw [e1, e2]
    · rw [e1]; exact v.uniq k j t b hk h2 hs
    · rw [e2]; exact v.uniq i k a t h1 hk hs
    · exact v.uniq i j a b h1 h2 hs
  · intro j u hj
    rcases inv j u hj with ⟨_, rfl⟩ | ⟨e, h1⟩
    · show t.move :: h ≠ []
      simp
    · exact where_out (v.at_ j u h1) (fun hi => e (v.alone h1 hk hi (mid_inside hmid))) (fun _ => by simp)
  · intro s
    rw [hans, of_append]
    simp only
    by_cases hs : t.side = s
    · rw [if_pos hs]
      refine .inl ⟨k, { t with pc := .record }, by rw [hthr, setThr_same], hs, rfl, ?_⟩
      rcases v.ans s with ⟨j, u, hj, hs', hu, e⟩ | ⟨hn, e⟩
      · exfalso
        have := v.uniq j k u t hj hk (hs'.trans hs.symm)
        rw [this, hk] at hj; injection hj with hj; rw [← hj, hp] at hu; cases hu
      · rw [e, hs]
    · rw [if_neg hs]
      rcases v.ans s with ⟨j, u, hj, hs', hu, e⟩ | ⟨hn, e⟩
      · refine .inl ⟨j, u, ?_, hs', hu, e⟩
        have : j ≠ k := by
          rintro rfl
          rw [hk] at hj; injection hj with hj; rw [← hj, hp] at hu; cases hu
        rw [hthr, setThr_ne _ _ this]; exact hj
      · refine .inr ⟨?_, e⟩
        intro j u hj hs'
        rcases inv j u hj with ⟨_, rfl⟩ | ⟨_, h1⟩
        · exact absurd hs' hs
        · exact hn j u h1 hs'

/-- The number of moves while a thread records its own. -/
theorem count_record {st : St} {l : List (Side × Move × Bool)} {h : List Move} {k : Nat} {t : Thr} (v : Inv st l h) (hk : st.thr k = some t) (hp : t.pc = .record) :
    0 ≤ st.board.count - 1 ∧ st.board.count - 1 < 42 := by
  have w := v.at_ k t hk
  unfold Where at w
  rw [hp] at w
  have h1 : 1 ≤ h.length := by
    cases h with
    | nil => exact absurd rfl w
    | cons a b => simp
  by_cases hx : ∃ j u, st.thr j = some u ∧ Mid u.pc
  · obtain ⟨j, u, hj, hm⟩ := hx
    obtain ⟨_, b0, r, ho, hl, hc⟩ := where_mid (v.at_ j u hj) hm
    have h2 := (Reach.step r.reach hl).length_le
    rw [List.length_cons] at h2
    have h3 := r.count
    rcases hc with hc | hc <;> omega
  · have r := v.rest (fun j u hj hm => hx ⟨j, u, hj, hm⟩)
    have h2 := r.reach.length_le
    have h3 := r.count
    omega

/-- The move is recorded and the thread returns. -/
theorem inv_record {st : St} {l : List (Side × Move × Bool)} {h : List Move} {k : Nat} {t : Thr} (v : Inv st l h) (hk : st.thr k = some t) (hp : t.pc = .record) :
    Inv (stepThr st k t) l h := by
  have hc := count_record v hk hp
  have hstep : stepThr st k t = { st.ret k t true with
      moves := fun i => if i = (st.board.count - 1).toNat then some t.move else st.moves i
      bad := st.bad || !decide (0 ≤ st.board.count - 1 ∧ st.board.count - 1 < 42) } := by
    unfold stepThr; rw [hp]
  have hthr : (stepThr st k t).thr = setThr st.thr k none := by rw [hstep]; rfl
  have hans : (stepThr st k t).answers = st.answers ++ [(t.side, t.move, true)] := by rw [hstep]; rfl
  have hbad : (stepThr st k t).bad = (st.bad || !decide (0 ≤ st.board.count - 1 ∧ st.board.count - 1 < 42)) := by rw [hstep]
  have hb : (stepThr st k t).board = st.board := by rw [hstep]; rfl
  have inv : ∀ j u, (stepThr st k t).thr j = some u → j ≠ k ∧ st.thr j = some u := by
    intro j u hj
    rw [hthr] at hj
    by_cases e : j = k
    · rw [e, setThr_same] at hj; cases hj
    · rw [setThr_ne _ _ e] at hj; exact ⟨e, hj⟩
  refine ⟨v.seq, ?_, ?_, ?_, ?_, ?_⟩
  · intro i j a b hi hj hs
    exact v.uniq i j a b (inv i a hi).2 (inv j b hj).2 hs
  · intro j u hj
    rw [hb]
    exact v.at_ j u (inv j u hj).2
  · intro hx
    rw [hb]
    apply v.rest
    intro j u hj
    by_cases e : j = k
    · rw [e, hk] at hj; injection hj with hj; rw [← hj, hp]
      rintro (h | h | h | h) <;> cases h
    · exact hx j u (by rw [hthr, setThr_ne _ _ e]; exact hj)
  · intro s
    rw [hans, of_append]
    simp only
    by_cases hs : t.side = s
    · rw [if_pos hs]
      refine .inr ⟨?_, ?_⟩
      · intro j u hj hs' _
        exact (inv j u hj).1 (v.uniq j k u t (inv j u hj).2 hk (hs'.trans hs.symm))
      · rcases v.ans s with ⟨j, u, hj, hs', hu, e⟩ | ⟨hn, e⟩
        · have := v.uniq j k u t hj hk (hs'.trans hs.symm)
          rw [this, hk] at hj; injection hj with hj; rw [e, hj, hs']
        · exact absurd hp (hn k t hk hs)
    · rw [if_neg hs]
      rcases v.ans s with ⟨j, u, hj, hs', hu, e⟩ | ⟨hn, e⟩
      · refine .inl ⟨j, u, ?_, hs', hu, e⟩
        have : j ≠ k := by
          rintro rfl
          rw [hk] at hj; injection hj with hj; rw [← hj] at hs'; exact hs hs'
        rw [hthr, setThr_ne _ _ this]; exact hj
      · exact .inr ⟨fun j u hj hs' => hn j u (inv j u hj).2 hs', e⟩
  · rw [hbad, v.bad, decide_eq_true hc]; rfl

theorem inv_stepThr {st : St} {l : List (Side × Move × Bool)} {h : List Move} {k : Nat} {t : Thr} (v : Inv st l h) (hk : st.thr k = some t) :
    ∃ l' h', Inv (stepThr st k t) l' h' ∧ (h' = h ∨ t.pc = .switch ∧ h' = t.move :: h) := by
  have w := v.at_ k t hk
  cases hp : t.pc with
  | check =>
    unfold stepThr
    rw [hp]
    simp only
    split
    · rename_i hc
      refine ⟨_, h, inv_no v hk (by rw [hp]; decide) (by rw [hp]; rintro (h | h | h | h) <;> cases h) ?_, .inl rfl⟩
      rintro ⟨h1, h2⟩
      by_cases hx : ∃ j u, st.thr j = some u ∧ Mid u.pc
      · obtain ⟨j, u, hj, hm⟩ := hx
        have e := where_cur (v.at_ j u hj) (mid_inside hm)
        rw [e, ← (where_mid (v.at_ j u hj) hm).1, h1] at hc
        exact hc rfl
      · have r := v.rest (fun j u hj hm => hx ⟨j, u, hj, hm⟩)
        have ho : st.board.over = false := by
          rcases e : st.board.over with _ | _
          · rfl
          · exact absurd (r.over.1 e) h2.2.2
        rw [r.turn ho, h1] at hc
        exact hc rfl
    · rename_i hc
      have hc : st.board.cur = code (some t.side) := by
        by_contra e; exact hc (fun x => e x.symm)
      have hr : Rep st.board h := by
        apply v.rest
        intro j u hj hm
        have e := where_cur (v.at_ j u hj) (mid_inside hm)
        rw [e] at hc
        have := code_inj hc
        injection this with this
        have := v.uniq j k u t hj hk this
        rw [this, hk] at hj; injection hj with hj; rw [← hj, hp] at hm
        rcases hm with h | h | h | h <;> cases h
      exact ⟨l, h, inv_goto v hk .over (by rw [hp]; decide) (by decide) rfl rfl rfl ⟨hr, hc⟩ (fun _ => hr) (.inl rfl), .inl rfl⟩
  | over =>
    unfold Where at w
    rw [hp] at w
    obtain ⟨r, hc⟩ := w
    unfold stepThr
    rw [hp]
    simp only
    split
    · rename_i hx
      refine ⟨_, h, inv_no v hk (by rw [hp]; decide) (by rw [hp]; rintro (h | h | h | h) <;> cases h) ?_, .inl rfl⟩
      rintro ⟨_, h2⟩
      rw [(isValid_iff _).2 h2.1] at hx
      exact h2.2.2 (r.over.1 (by simpa using hx))
    · rename_i hx
      rw [Bool.or_eq_true, not_or] at hx
      have h1 : OnBoard t.move := (isValid_iff _).1 (by simpa using hx.1)
      have h2 : st.board.over = false := by simpa using hx.2
      exact ⟨l, h, inv_goto v hk .free (by rw [hp]; decide) (by decide) rfl rfl rfl ⟨r, hc, h1, h2⟩ (fun _ => r) (.inl rfl), .inl rfl⟩
  | free =>
    unfold Where at w
    rw [hp] at w
    obtain ⟨r, hc, h1, h2⟩ := w
    unfold stepThr
    rw [hp]
    simp only
    split
    · rename_i hx
      refine ⟨_, h, inv_no v hk (by rw [hp]; decide) (by rw [hp]; rintro (h | h | h | h) <;> cases h) ?_, .inl rfl⟩
      rintro ⟨_, h3⟩
      exact hx ((legal_iff r).1 h3).2.2.1
    · rename_i hx
      have hx : st.board.getMove t.move = pNone := by
        by_contra e; exact hx e
      exact ⟨l, h, inv_goto v hk .air (by rw [hp]; decide) (by decide) rfl rfl rfl ⟨r, hc, h1, h2, hx⟩ (fun _ => r) (.inl rfl), .inl rfl⟩
  | air =>
    unfold Where at w
    rw [hp] at w
    obtain ⟨r, hc, h1, h2, h3⟩ := w
    unfold stepThr
    rw [hp]
    simp only
    split
    · rename_i hx
      refine ⟨_, h, inv_no v hk (by rw [hp]; decide) (by rw [hp]; rintro (h | h | h | h) <;> cases h) ?_, .inl rfl⟩
      rintro ⟨_, h4⟩
      exact ((legal_iff r).1 h4).2.2.2 hx
    · rename_i hx
      exact ⟨l, h, inv_goto v hk .size (by rw [hp]; decide) (by decide) rfl rfl rfl ⟨r, hc, (legal_iff r).2 ⟨h1, h2, h3, hx⟩⟩ (fun _ => r) (.inl rfl), .inl rfl⟩
  | size =>
    unfold Where at w
    rw [hp] at w
    obtain ⟨r, hc, hl⟩ := w
    have hs : stepThr st k t = { st.goto k t .set with board := st.board.incColSize t.move.col } := by
      unfold stepThr; rw [hp]
    refine ⟨l, h, inv_goto v hk .set (by rw [hp]; decide) (by decide) (by rw [hs]; rfl) (by rw [hs]; rfl) (by rw [hs]; rfl) ?_ (fun hm => absurd (.inl rfl) hm)
      (.inr (by rw [hp]; exact ⟨by decide, by decide⟩)), .inl rfl⟩
    rw [hs]
    exact ⟨st.board, r, hc, hl, rfl⟩
  | set =>
    unfold Where at w
    rw [hp] at w
    obtain ⟨b0, r, hc, hl, hb⟩ := w
    have hs : stepThr st k t = { st.goto k t .count with board := st.board.setMoveBits t.move st.board.cur } := by
      unfold stepThr; rw [hp]
    refine ⟨l, h, inv_goto v hk .count (by rw [hp]; decide) (by decide) (by rw [hs]; rfl) (by rw [hs]; rfl) (by rw [hs]; rfl) ?_ (fun hm => absurd (.inr (.inl rfl)) hm)
      (.inr (by rw [hp]; exact ⟨by decide, by decide⟩)), .inl rfl⟩
    rw [hs]
    exact ⟨b0, r, hc, hl, by show st.board.setMoveBits t.move st.board.cur = _; rw [hb]; rfl⟩
  | count =>
    unfold Where at w
    rw [hp] at w
    obtain ⟨b0, r, hc, hl, hb⟩ := w
    have hs : stepThr st k t = { st.goto k t .win with board := { st.board with count := st.board.count + 1 } } := by
      unfold stepThr; rw [hp]
    refine ⟨l, h, inv_goto v hk .win (by rw [hp]; decide) (by decide) (by rw [hs]; rfl) (by rw [hs]; rfl) (by rw [hs]; rfl) ?_ (fun hm => absurd (.inr (.inr (.inl rfl))) hm)
      (.inr (by rw [hp]; exact ⟨by decide, by decide⟩)), .inl rfl⟩
    rw [hs]
    exact ⟨b0, r, hc, hl, by show ({ st.board with count := st.board.count + 1 } : Board) = _; rw [hb]; rfl⟩
  | win =>
    unfold Where at w
    rw [hp] at w
    obtain ⟨b0, r, hc, hl, hb⟩ := w
    have hs : stepThr st k t = { st.goto k t .switch with board := st.board.checkWinner t.move } := by
      unfold stepThr; rw [hp]
    refine ⟨l, h, inv_goto v hk .switch (by rw [hp]; decide) (by decide) (by rw [hs]; rfl) (by rw [hs]; rfl) (by rw [hs]; rfl) ?_ (fun hm => absurd (.inr (.inr (.inr rfl))) hm)
      (.inr (by rw [hp]; exact ⟨by decide, by decide⟩)), .inl rfl⟩
    rw [hs]
    exact ⟨b0, r, hc, hl, by show st.board.checkWinner t.move = _; rw [hb]⟩
  | switch => exact ⟨_, _, (inv_switch v hk hp).1, .inr ⟨rfl, rfl⟩⟩
  | record => exact ⟨l, h, inv_record v hk hp, .inl rfl⟩

theorem ask_some {st : St} {k : Nat} {t : Thr} (e : st.thr k = some t) (s : Side) (m : Move) : step st (.ask k s m) = st := by
  unfold step; simp only; rw [e]

theorem ask_none {st : St} {k : Nat} (e : st.thr k = none) (s : Side) (m : Move) :
    step st (.ask k s m) = { st with thr := setThr st.thr k (some ⟨s, m, .check⟩) } := by
  unfold step; simp only; rw [e]

theorem step_some {st : St} {k : Nat} {t : Thr} (e : st.thr k = some t) : step st (.step k) = stepThr st k t := by
  unfold step; simp only; rw [e]

theorem step_none {st : St} {k : Nat} (e : st.thr k = none) : step st (.step k) = st := by
  unfold step; simp only; rw [e]

/-- A request of a player who has none under way. -/
theorem inv_ask {st : St} {l : List (Side × Move × Bool)} {h : List Move} {k : Nat} {s : Side} {m : Move} (v : Inv st l h)
    (hs : Single st (.ask k s m)) : Inv (step st (.ask k s m)) l h := by
  cases e : st.thr k with
  | some t => rw [ask_some e]; exact v
  | none =>
    rw [ask_none e]
    have inv : ∀ j u, setThr st.thr k (some ⟨s, m, .check⟩) j = some u → j = k ∧ u = ⟨s, m, .check⟩ ∨ j ≠ k ∧ st.thr j = some u := by
      intro j u hj
      by_cases e : j = k
      · rw [e, setThr_same] at hj; injection hj with hj; exact .inl ⟨e, hj.symm⟩
      · rw [setThr_ne _ _ e] at hj; exact .inr ⟨e, hj⟩
    refine ⟨v.seq, ?_, ?_, ?_, ?_, v.bad⟩
    · intro i j a b hi hj hss
      rcases inv i a hi with ⟨e1, rfl⟩ | ⟨e1, h1⟩ <;> rcases inv j b hj with ⟨e2, rfl⟩ | ⟨e2, h2⟩
      · rw [e1, e2]
      · exact absurd hss.symm (hs j b h2)
      · exact absurd hss (hs i a h1)
      · exact v.uniq i j a b h1 h2 hss
    · intro j u hj
      rcases inv j u hj with ⟨_, rfl⟩ | ⟨_, h1⟩
      · trivial
      · exact v.at_ j u h1
    · intro hx
      apply v.rest
      intro j u hj
      have : j ≠ k := by rintro rfl; rw [e] at hj; cases hj
      exact hx j u (by show setThr _ _ _ _ = _; rw [setThr_ne _ _ this]; exact hj)
    · intro s'
      rcases v.ans s' with ⟨j, u, hj, hs', hu, he⟩ | ⟨hn, he⟩
      · have : j ≠ k := by rintro rfl; rw [e] at hj; cases hj
        exact .inl ⟨j, u, by show setThr _ _ _ _ = _; rw [setThr_ne _ _ this]; exact hj, hs', hu, he⟩
      · refine .inr ⟨?_, he⟩
        intro j u hj hs'
        rcases inv j u hj with ⟨_, rfl⟩ | ⟨_, h1⟩
        · exact fun h => by cases h
        · exact hn j u h1 hs'

theorem inv_init : Inv {} [] [] :=
  ⟨.nil, fun _ _ _ _ h => (by cases h), fun _ _ h => (by cases h), fun _ => rep_init, fun _ => .inr ⟨fun _ _ h => (by cases h), rfl⟩, rfl⟩

theorem inv_hist {es : List Ev} (g : All Single es) : ∃ l h, Inv (hist es) l h := by
  induction es with
  | nil => exact ⟨[], [], inv_init⟩
  | cons e es ih =>
    obtain ⟨l, h, v⟩ := ih g.2
    cases e with
    | ask k s m => exact ⟨l, h, inv_ask v g.1⟩
    | step k =>
      show ∃ l h, Inv (step (hist es) (.step k)) l h
      cases e : (hist es).thr k with
      | none => rw [step_none e]; exact ⟨l, h, v⟩
      | some t =>
        rw [step_some e]
        obtain ⟨l', h', v', _⟩ := inv_stepThr v e
        exact ⟨l', h', v'⟩

/-- If no player sends a move before their last one is answered, the turn acts as a lock: however the threads interleave, the requests are
served as if one after another, by the rules, and nothing is written outside the list of moves. -/
theorem C132_board_partial {es : List Ev} (g : All Single es) (hi : Idle (hist es)) : (hist es).bad = false ∧ ∃ h, Served (hist es) h := by
  obtain ⟨l, h, v⟩ := inv_hist g
  refine ⟨v.bad, h, l, v.seq, ?_, (v.rest fun k t hk => by rw [hi k] at hk; cases hk).shows⟩
  intro s
  rcases v.ans s with ⟨k, t, hk, _⟩ | ⟨_, e⟩
  · rw [hi k] at hk; cases hk
  · exact e

/-- What holds of the list of moves when no thread begins before the move before is recorded. -/
def MovesOk (st : St) (h : List Move) : Prop :=
  (Recorded st h ∧ ∀ k t, st.thr k = some t → t.pc ≠ .record) ∨
  ∃ k t h0, st.thr k = some t ∧ t.pc = .record ∧ h = t.move :: h0 ∧ Recorded st h0 ∧ ∀ j u, j ≠ k → st.thr j = some u → u.pc = .check

theorem recorded_cons {st st' : St} {h : List Move} {m : Move} (r : Recorded st h) (hm : st'.moves = fun i => if i = h.length then some m else st.moves i) :
    Recorded st' (m :: h) := by
  intro i hi
  rw [hm, List.reverse_cons]
  simp only [List.length_cons] at hi
  show (if i = h.length then some m else st.moves i) = _
  by_cases e : i = h.length
  · rw [if_pos e, e]
    simp
  · rw [if_neg e, r i (by omega), List.getElem?_append_left (by simp; omega)]

/-- The game stays, or a thread makes its move. -/
def Grows (st : St) (e : Ev) (h h' : List Move) : Prop :=
  h' = h ∨ ∃ k t, e = .step k ∧ st.thr k = some t ∧ t.pc = .switch ∧ h' = t.move :: h

theorem movesOk_step {st : St} {e : Ev} {l : List (Side × Move × Bool)} {h : List Move} (v : Inv st l h) (mo : MovesOk st h) (g : Single st e) (c : Calm st e) :
    ∃ l' h', Inv (step st e) l' h' ∧ MovesOk (step st e) h' ∧ Grows st e h h' := by
  cases e with
  | ask k s m =>
    refine ⟨l, h, inv_ask v g, ?_, .inl rfl⟩
    show MovesOk (step st (.ask k s m)) h
    cases e : st.thr k with
    | some t => rw [ask_some e]; exact mo
    | none =>
      rw [ask_none e]
      have inv : ∀ j u, setThr st.thr k (some ⟨s, m, .check⟩) j = some u → j = k ∧ u = ⟨s, m, .check⟩ ∨ j ≠ k ∧ st.thr j = some u := by
        intro j u hj
        by_cases e : j = k
        · rw [e, setThr_same] at hj; injection hj with hj; exact .inl ⟨e, hj.symm⟩
        · rw [setThr_ne _ _ e] at hj; exact .inr ⟨e, hj⟩
      rcases mo with ⟨r, n⟩ | ⟨j, t, h0, hj, ht, hh, r, n⟩
      · refine .inl ⟨r, ?_⟩
        intro j u hj
        rcases inv j u hj with ⟨_, rfl⟩ | ⟨_, h1⟩
        · exact fun h => by cases h
        · exact n j u h1
      · have hjk : j ≠ k := by rintro rfl; rw [e] at hj; cases hj
        refine .inr ⟨j, t, h0, by show setThr _ _ _ _ = _; rw [setThr_ne _ _ hjk]; exact hj, ht, hh, r, ?_⟩
        intro i u hi hu
        rcases inv i u hu with ⟨_, rfl⟩ | ⟨_, h1⟩
        · rfl
        · exact n i u hi h1
  | step k =>
    show ∃ l' h', Inv (step st (.step k)) l' h' ∧ MovesOk (step st (.step k)) h' ∧ Grows st (.step k) h h'
    have hc := c
    cases e : st.thr k with
    | none => rw [step_none e]; exact ⟨l, h, v, mo, .inl rfl⟩
    | some t =>
      rw [step_some e]
      rcases mo with ⟨r, n⟩ | ⟨j, u, h0, hj, hu, hh, r, n⟩
      · -- nobody is recording
        by_cases hp : t.pc = .switch
        · refine ⟨_, _, (inv_switch v e hp).1, .inr ⟨k, { t with pc := .record }, h, ?_, rfl, rfl, ?_, ?_⟩, .inr ⟨k, t, rfl, e, hp, rfl⟩⟩
          · unfold stepThr; rw [hp]; exact setThr_same _ _ _
          · unfold stepThr; rw [hp]; exact r
          · intro i u hi hu
            have hu : st.thr i = some u := by
              have : (stepThr st k t).thr = setThr st.thr k (some { t with pc := .record }) := by unfold stepThr; rw [hp]; rfl
              rw [this, setThr_ne _ _ hi] at hu; exact hu
            by_contra hx
            exact hi (v.alone hu e ⟨hx, n i u hu⟩ (by rw [hp]; exact ⟨by decide, by decide⟩))
        · obtain ⟨l', h', v', hh⟩ := inv_stepThr v e
          rcases hh with rfl | ⟨hx, _⟩
          · refine ⟨l', h', v', .inl ?_, .inl rfl⟩
            have hne := n k t e
            have h1 : (stepThr st k t).moves = st.moves ∧
                ((stepThr st k t).thr = setThr st.thr k none ∨ ∃ pc, pc ≠ .record ∧ (stepThr st k t).thr = setThr st.thr k (some { t with pc := pc })) := by
              unfold stepThr
              cases hpc : t.pc <;> simp only
              · split
                · exact ⟨rfl, .inl rfl⟩
                · exact ⟨rfl, .inr ⟨_, by decide, rfl⟩⟩
              · split
                · exact ⟨rfl, .inl rfl⟩
                · exact ⟨rfl, .inr ⟨_, by decide, rfl⟩⟩
              · split
                · exact ⟨rfl, .inl rfl⟩
                · exact ⟨rfl, .inr ⟨_, by decide, rfl⟩⟩
              · split
                · exact ⟨rfl, .inl rfl⟩
                · exact ⟨rfl, .inr ⟨_, by decide, rfl⟩⟩
              · exact ⟨rfl, .inr ⟨.set, by decide, rfl⟩⟩
              · exact ⟨rfl, .inr ⟨.count, by decide, rfl⟩⟩
              · exact ⟨rfl, .inr ⟨.win, by decide, rfl⟩⟩
              · exact ⟨rfl, .inr ⟨.switch, by decide, rfl⟩⟩
              · exact absurd hpc hp
              · exact absurd hpc hne
            refine ⟨fun i hi => by rw [h1.1]; exact r i hi, ?_⟩
            intro i u hu
            rcases h1.2 with h2 | ⟨pc, hpc, h2⟩ <;> rw [h2] at hu
            · by_cases ei : i = k
              · rw [ei, setThr_same] at hu; cases hu
              · rw [setThr_ne _ _ ei] at hu; exact n i u hu
            · by_cases ei : i = k
              · rw [ei, setThr_same] at hu; injection hu with hu; rw [← hu]; exact hpc
              · rw [setThr_ne _ _ ei] at hu; exact n i u hu
          · exact absurd hx hp
      · -- thread j is recording: the others wait
        have hjk : j = k := by
          by_contra hx
          have h1 := n k t (fun x => hx x.symm) e
          exact hc t e h1 j u hj hu
        subst hjk
        rw [e] at hj
        injection hj with hj
        subst hj
        refine ⟨l, h, inv_record v e hu, .inl ?_, .inl rfl⟩
        have hr : Rep st.board h := v.rest (by
          intro i w hi hm
          by_cases ei : i = j
          · rw [ei, e] at hi; injection hi with hi; rw [← hi, hu] at hm
            rcases hm with h | h | h | h <;> cases h
          · rw [n i w ei hi] at hm
            rcases hm with h | h | h | h <;> cases h)
        have hcnt := hr.count
        have hix : (st.board.count - 1).toNat = h0.length := by
          rw [hcnt, hh, List.length_cons]
          omega
        constructor
        · rw [hh]
          apply recorded_cons r
          unfold stepThr
          rw [hu]
          simp only
          rw [hix]
        · intro i w hw
          have : (stepThr st j t).thr = setThr st.thr j none := by unfold stepThr; rw [hu]; rfl
          rw [this] at hw
          by_cases ei : i = j
          · rw [ei, setThr_same] at hw; cases hw
          · rw [setThr_ne _ _ ei] at hw; rw [n i w ei hw]; decide

theorem movesOk_hist {es : List Ev} (g : All Single es) (c : All Calm es) : ∃ l h, Inv (hist es) l h ∧ MovesOk (hist es) h := by
  induction es with
  | nil => exact ⟨[], [], inv_init, .inl ⟨fun i hi => absurd hi (Nat.not_lt_zero i), fun _ _ h => (by cases h)⟩⟩
  | cons e es ih =>
    obtain ⟨l, h, v, mo⟩ := ih g.2 c.2
    obtain ⟨l', h', v', mo', _⟩ := movesOk_step v mo g.1 c.1
    exact ⟨l', h', v', mo'⟩

/-- If besides no thread begins while an accepted move is not recorded, the list of moves is that of the game. -/
theorem C132_moves_partial {es : List Ev} (g : All Single es) (c : All Calm es) (hi : Idle (hist es)) :
    (hist es).bad = false ∧ ∃ h, Served (hist es) h ∧ Recorded (hist es) h := by
  obtain ⟨l, h, v, mo⟩ := movesOk_hist g c
  refine ⟨v.bad, h, ⟨l, v.seq, ?_, (v.rest fun k t hk => by rw [hi k] at hk; cases hk).shows⟩, ?_⟩
  · intro s
    rcases v.ans s with ⟨k, t, hk, _⟩ | ⟨_, e⟩
    · rw [hi k] at hk; cases hk
    · exact e
  · rcases mo with ⟨r, _⟩ | ⟨k, t, _, hk, _⟩
    · exact r
    · rw [hi k] at hk; cases hk

/-! ## Cases -/

def Ev.near (n : Nat) : Ev → Bool
  | .ask k _ _ => decide (k < n)
  | .step _ => true

theorem hist_far {n : Nat} : ∀ (es : List Ev), (∀ e ∈ es, e.near n = true) → ∀ k, n ≤ k → (hist es).thr k = none
  | [], _, _, _ => rfl
  | e :: es, h, k, hk => by
    have ih := hist_far es (fun e he => h e (by simp [he])) k hk
    have hset : ∀ j t, (hist es).thr j = some t → ∀ r, setThr (hist es).thr j r k = none := by
      intro j t hj r
      have : k ≠ j := by rintro rfl; rw [ih] at hj; cases hj
      rw [setThr_ne _ _ this]; exact ih
    cases e with
    | ask j s m =>
      have hj := h (.ask j s m) (by simp)
      have hj : j < n := by simpa [Ev.near] using hj
      show (step (hist es) (.ask j s m)).thr k = none
      cases e : (hist es).thr j with
      | some t => rw [ask_some e]; exact ih
      | none =>
        rw [ask_none e]
        show setThr _ _ _ _ = _
        rw [setThr_ne _ _ (by omega)]; exact ih
    | step j =>
      show (step (hist es) (.step j)).thr k = none
      cases e : (hist es).thr j with
      | none => rw [step_none e]; exact ih
      | some t =>
        rw [step_some e]
        unfold stepThr
        cases t.pc <;> simp only
        · split <;> exact hset j t e _
        · split <;> exact hset j t e _
        · split <;> exact hset j t e _
        · split <;> exact hset j t e _
        all_goals exact hset j t e _

/-- `Single` and `Calm` of a history with `n` threads, and that nothing is under way at its end, computed. -/
def check (n : Nat) : List Ev → Bool
  | [] => true
  | .ask _ s _ :: es => (List.range n).all (fun k => match (hist es).thr k with | some t => decide (t.side ≠ s) | none => true) && check n es
  | .step _ :: es => check n es

def checkCalm (n : Nat) : List Ev → Bool
  | [] => true
  | .ask _ _ _ :: es => checkCalm n es
  | .step k :: es => (match (hist es).thr k with
      | some t => decide (t.pc ≠ .check) || (List.range n).all (fun j => match (hist es).thr j with | some u => decide (u.pc ≠ .record) | none => true)
      | none => true) && checkCalm n es

theorem all_single {n : Nat} : ∀ {es : List Ev}, (∀ e ∈ es, e.near n = true) → check n es = true → All Single es
  | [], _, _ => trivial
  | .ask k s m :: es, hn, hc => by
    simp only [check, Bool.and_eq_true, List.all_eq_true, List.mem_range] at hc
    refine ⟨?_, all_single (fun e he => hn e (by simp [he])) hc.2⟩
    intro j t hj
    rcases Nat.lt_or_ge j n with h | h
    · have := hc.1 j h
      rw [hj] at this
      simpa using this
    · rw [hist_far es (fun e he => hn e (by simp [he])) j h] at hj; cases hj
  | .step k :: es, hn, hc => ⟨trivial, all_single (fun e he => hn e (by simp [he])) hc⟩

theorem all_calm {n : Nat} : ∀ {es : List Ev}, (∀ e ∈ es, e.near n = true) → checkCalm n es = true → All Calm es
  | [], _, _ => trivial
  | .ask k s m :: es, hn, hc => ⟨trivial, all_calm (fun e he => hn e (by simp [he])) hc⟩
  | .step k :: es, hn, hc => by
    simp only [checkCalm, Bool.and_eq_true] at hc
    refine ⟨?_, all_calm (fun e he => hn e (by simp [he])) hc.2⟩
    intro t ht hp j u hj hu
    have h1 := hc.1
    rw [ht] at h1
    simp only [hp, ne_eq, not_true_eq_false, decide_false, Bool.false_or, List.all_eq_true, List.mem_range] at h1
    rcases Nat.lt_or_ge j n with h | h
    · have := h1 j h
      rw [hj] at this
      simp only [hu, not_true_eq_false, decide_false] at this
      cases this
    · rw [hist_far es (fun e he => hn e (by simp [he])) j h] at hj; cases hj

theorem idle_of {n : Nat} {es : List Ev} (hn : ∀ e ∈ es, e.near n = true) (h : (List.range n).all (fun k => (hist es).thr k = none) = true) : Idle (hist es) := by
  intro k
  rcases Nat.lt_or_ge k n with hk | hk
  · simp only [List.all_eq_true, List.mem_range] at h
    simpa using h k hk
  · exact hist_far es hn k hk

def steps (k n : Nat) : List Ev := List.replicate n (.step k)

/-- `x` drops into the first column; `o` is refused while that goes on, and asks again at once for the cell above; `x` sends the same cell again
and is refused, asks for a cell in the air and is refused, and drops into the second column. -/
def overlap : List Ev :=
  ([Ev.ask 0 .x ⟨0, 0⟩] ++ steps 0 3 ++ [Ev.ask 1 .o ⟨1, 0⟩, Ev.step 1, Ev.ask 2 .o ⟨1, 0⟩] ++ steps 0 7 ++ steps 2 5 ++ [Ev.ask 0 .x ⟨0, 0⟩, Ev.step 0] ++ steps 2 5 ++
    [Ev.ask 1 .x ⟨1, 0⟩] ++ steps 1 3 ++ [Ev.ask 1 .x ⟨1, 1⟩] ++ steps 1 4 ++ [Ev.ask 1 .x ⟨0, 1⟩] ++ steps 1 10).reverse

/-- A case of both theorems. -/
example : (hist overlap).bad = false ∧ ∃ h, Served (hist overlap) h ∧ Recorded (hist overlap) h :=
  C132_moves_partial (all_single (n := 3) (by decide) (by decide +kernel)) (all_calm (n := 3) (by decide) (by decide +kernel))
    (idle_of (n := 3) (by decide) (by decide +kernel))

example : (hist overlap).answers.filter (fun a => a.2.2) = [(.x, ⟨0, 0⟩, true), (.o, ⟨1, 0⟩, true), (.x, ⟨0, 1⟩, true)] ∧ (hist overlap).answers.length = 7 ∧
    (List.range 4).map (hist overlap).moves = [some ⟨0, 0⟩, some ⟨1, 0⟩, some ⟨0, 1⟩, none] := by decide +kernel

/-- A player sends the same move twice at the same time. -/
def twice : List Ev :=
  ([Ev.ask 0 .x ⟨0, 0⟩, Ev.ask 1 .x ⟨0, 0⟩] ++ steps 0 4 ++ steps 1 4 ++ (List.replicate 6 [Ev.step 0, Ev.step 1]).flatten).reverse

/-- Both are accepted; the column has two discs, the upper one, of the same player, in a cell that nobody asked for; and it is the turn of that player again. -/
theorem C132_violated_ghost : (hist twice).answers = [(.x, ⟨0, 0⟩, true), (.x, ⟨0, 0⟩, true)] ∧ (hist twice).board.cur = pX ∧
    (hist twice).board.getMove ⟨1, 0⟩ = pX ∧ Idle (hist twice) ∧ ¬ ∃ h, Served (hist twice) h := by
  refine ⟨by decide +kernel, by decide +kernel, by decide +kernel, idle_of (n := 2) (by decide) (by decide +kernel), ?_⟩
  rintro ⟨h, l, _, _, sh⟩
  have hc := sh.count
  rw [show (hist twice).board.count = 2 by decide +kernel] at hc
  have h1 := sh.cell ⟨0, 0⟩ (by unfold OnBoard; decide)
  have h2 := sh.cell ⟨1, 0⟩ (by unfold OnBoard; decide)
  rw [show (hist twice).board.getMove ⟨0, 0⟩ = code (some .x) by decide +kernel] at h1
  rw [show (hist twice).board.getMove ⟨1, 0⟩ = code (some .x) by decide +kernel] at h2
  have h1 := code_inj h1
  have h2 := code_inj h2
  match h, hc with
  | [p, q], _ =>
    simp only [owner, toMove, List.length_cons, List.length_nil] at h1 h2
    by_cases e1 : p = ⟨0, 0⟩
    · rw [if_pos e1] at h1; simp at h1
    · rw [if_neg e1] at h1
      by_cases e2 : p = ⟨1, 0⟩
      · rw [if_pos e2] at h2; simp at h2
      · rw [if_neg e2] at h2
        by_cases e3 : q = ⟨0, 0⟩
        · rw [if_neg (by rw [e3]; decide)] at h2; cases h2
        · rw [if_neg e3] at h1; cases h1

theorem C132_violated : ¬ C132Full := fun h => C132_violated_ghost.2.2.2.2 (by
  obtain ⟨_, h, hs, _⟩ := h twice C132_violated_ghost.2.2.2.1
  exact ⟨h, hs⟩)

/-- The first column has five discs; then the last cell of it is sent three times at the same time. -/
def carry : List Ev :=
  ([Ev.ask 0 .x ⟨0, 0⟩] ++ steps 0 10 ++ [Ev.ask 0 .o ⟨1, 0⟩] ++ steps 0 10 ++ [Ev.ask 0 .x ⟨2, 0⟩] ++ steps 0 10 ++ [Ev.ask 0 .o ⟨3, 0⟩] ++ steps 0 10 ++
   [Ev.ask 0 .x ⟨4, 0⟩] ++ steps 0 10 ++ [Ev.ask 0 .o ⟨5, 0⟩, Ev.ask 1 .o ⟨5, 0⟩, Ev.ask 2 .o ⟨5, 0⟩] ++ steps 0 4 ++ steps 1 4 ++ steps 2 4 ++
   (List.replicate 6 [Ev.step 0, Ev.step 1, Ev.step 2]).flatten).reverse

/-- The size of the column overflows its three bits into the next one: the six discs of the first column are gone, and the second column has a disc that
nobody dropped. -/
theorem C132_violated_carry : Idle (hist carry) ∧
    (hist carry).answers.filter (fun a => a.2.2) = [(.x, ⟨0, 0⟩, true), (.o, ⟨1, 0⟩, true), (.x, ⟨2, 0⟩, true), (.o, ⟨3, 0⟩, true), (.x, ⟨4, 0⟩, true),
      (.o, ⟨5, 0⟩, true), (.o, ⟨5, 0⟩, true), (.o, ⟨5, 0⟩, true)] ∧
    (∀ r ∈ [0, 1, 2, 3, 4, 5], (hist carry).board.getMove ⟨r, 0⟩ = pNone) ∧ (hist carry).board.getMove ⟨0, 1⟩ = pX :=
  ⟨idle_of (n := 3) (by decide) (by decide +kernel), by decide +kernel, by decide +kernel, by decide +kernel⟩

/-- Each player has one request under way.  The second player replies before the move of the first is recorded. -/
def quick : List Ev := ([Ev.ask 0 .x ⟨0, 0⟩] ++ steps 0 9 ++ [Ev.ask 1 .o ⟨1, 0⟩] ++ steps 1 10 ++ steps 0 1).reverse

/-- In the list of moves the first move stands in the place of the second, and the first place is empty (or shows a move of an earlier game). -/
theorem C132_violated_quick : All Single quick ∧ Idle (hist quick) ∧ (hist quick).answers = [(.o, ⟨1, 0⟩, true), (.x, ⟨0, 0⟩, true)] ∧
    (hist quick).moves 0 = none ∧ (hist quick).moves 1 = some ⟨0, 0⟩ ∧ ¬ ∃ h, Served (hist quick) h ∧ Recorded (hist quick) h := by
  refine ⟨all_single (n := 2) (by decide) (by decide +kernel), idle_of (n := 2) (by decide) (by decide +kernel), by decide +kernel, by decide +kernel, by decide +kernel, ?_⟩
  rintro ⟨h, ⟨l, _, _, sh⟩, r⟩
  have hc := sh.count
  rw [show (hist quick).board.count = 2 by decide +kernel] at hc
  have hl : h.length = 2 := by omega
  have h0 := r 0 (by omega)
  rw [show (hist quick).moves 0 = none by decide +kernel] at h0
  have := List.getElem?_eq_none_iff.1 h0.symm
  rw [List.length_reverse] at this
  omega

end Abc.Connect4Race
