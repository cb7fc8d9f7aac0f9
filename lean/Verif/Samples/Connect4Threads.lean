import Verif.Samples.Connect4Server
import Verif.Samples.Connect4Engine

/-!
# The engine threads of the connect-four server (C120)

The threads of `samples/connect4` are started and run like those of tic-tac-toe (`Verif/Samples/GameThreads.lean`):
`player_agent::make_move_async` starts a detached thread, which looks at the board, chooses a move, and later calls
`game::accept_move`, which starts the thread of the next player (/repo/samples/connect4/game.h 390-440, 538-560,
753-814, 830-871).  "game.h" below is that of `samples/connect4`.

Simplifications: a request is one step, and so are the choice of a move (`slow_make_move` reads the board of the game
more than once) and the call of `accept_move`.  A thread that has called `accept_move` is gone (it may still be
learning).  The choice of a fast engine is part of the event.  The agents' `_temp_board` is not shared: two threads of
one agent that choose at the same time would disturb each other.
-/

namespace Abc.Connect4Threads

open Abc.Connect4Server
open Abc.GameServer (Id PType)
open Abc.Connect4 hiding step

/-- A thread of the agent of a side: not yet in `make_move`, or in `slow_make_move`/`fast_make_move` before the
call of `accept_move` with the chosen move. -/
inductive Thread where
  | spawned (s : Side)
  | chosen (s : Side) (m : Move)
deriving DecidableEq

def Thread.side : Thread → Side
  | .spawned s => s
  | .chosen s _ => s

/-- The server, its threads, and what was asked and answered (newest first; the calls of `accept_move` by
threads are recorded as `Req.engine`). -/
structure St where
  srv : Server := {}
  thr : List Thread := []
  trace : Trace := []

/-- What happens: a request; the thread at a place in the list of threads chooses a move (`m` is the choice if it
is a fast engine); it calls `accept_move`. -/
inductive Ev where
  | req (r : Req)
  | think (i : Nat) (m : Move)
  | act (i : Nat)

/-- `game::start`, game.h 753-764, and the end of `game::accept_move`, 803-810: the thread of the agent of the
current player. -/
def nextThread (b : Board) : List Thread :=
  if b.cur = pX then [.spawned .x] else if b.cur = pO then [.spawned .o] else []

/-- The threads that a request starts: `endpoint_game::reset` 842-844, `claim_player` 866-868, `accept_move`
783-810. -/
def spawns (g : Game) : Resp → List Thread
  | .created _ => if g.x.claimed && g.o.claimed then nextThread g.board else []
  | .claimed _ => if g.x.claimed && g.o.claimed then nextThread g.board else []
  | .accepted _ _ => if g.board.over then [] else nextThread g.board
  | _ => []

/-- One step; `none` is a write outside `_moves` or an indeterminate move (see C60). -/
def step (st : St) : Ev → Option St
  | .req (.engine _ _) => some st
  | .req r => do
    let (s, a) ← Connect4Server.step st.srv r
    some ⟨s, st.thr ++ spawns s.game a, (r, a) :: st.trace⟩
  | .think i m =>
    match st.thr[i]? with
    | some (.spawned s) =>
      match st.srv.game.type s with
      | .external => some { st with thr := st.thr.eraseIdx i }
      | .fast => some { st with thr := st.thr.set i (.chosen s m) }
      | .slow =>
        match slowMove st.srv.game.board (code (some s)) with
        | some m' => some { st with thr := st.thr.set i (.chosen s m') }
        | none => none
    | _ => some st
  | .act i =>
    match st.thr[i]? with
    | some (.chosen s m) => do
      let (g, ok) ← st.srv.game.accept (code (some s)) m
      some ⟨{ st.srv with game := g }, st.thr.eraseIdx i ++ (if ok && !g.board.over then nextThread g.board else []),
        (.engine s m, .engine ok) :: st.trace⟩
    | _ => some st

/-- The state after a history (newest first). -/
def hist : List Ev → Option St
  | [] => some {}
  | e :: es => do let st ← hist es; step st e

/-! ## The claims -/

/-- All seats are taken: by a client, or by an engine. -/
def AllTaken (c : Created) (t : Trace) : Prop := ∀ i, i ≤ 1 → c.id (sideOf i) = 0 ∨ taken i t

/-- What is asked of an event: a game is created only when the threads of the game before are gone; no client guesses
the number of a seat that nobody has claimed; a fast engine chooses a legal move. -/
def Ev.Ok (st : St) : Ev → Prop
  | .req (.create _ _ _ _ _) => current st.trace = none ∨ Over (standing st.trace) → st.thr = []
  | .req (.move _ p _) => ∀ c i, current st.trace = some c → i ≤ 1 → p ≠ 0 → p = c.id (sideOf i) → taken i st.trace
  | .think i m => ∀ c s, current st.trace = some c → st.thr[i]? = some (.spawned s) → c.type s = .fast →
      toMove (standing st.trace) = s → ¬ Over (standing st.trace) → Legal (standing st.trace) m
  | _ => True

def Good : List Ev → Prop
  | [] => True
  | e :: es => Good es ∧ ∀ st, hist es = some st → e.Ok st

/-- The thread at this place does something. -/
def Ev.Moves (st : St) : Ev → Prop
  | .req _ => False
  | .think i _ => ∃ s, st.thr[i]? = some (.spawned s)
  | .act i => ∃ s m, st.thr[i]? = some (.chosen s m)

/-- The events `es'` (newest first) after `es` are steps of threads. -/
def OnlyThreads (es : List Ev) : List Ev → Prop
  | [] => True
  | e :: es' => OnlyThreads es es' ∧ ∀ st, hist (es' ++ es) = some st → e.Moves st

/-- The response names a winner. -/
def Names (p : Pid) : Resp → Prop
  | .accepted _ w => w = some p
  | .moveList _ w => w = some p
  | _ => False

/-! ## The invariant -/

/-- The threads of engines. -/
def eng (c : Created) (l : List Thread) : List Thread := l.filter fun t => c.type t.side ≠ .external

/-- What holds of the one thread of an engine. -/
def Live (c : Created) (t : Trace) (x : Thread) : Prop :=
  x.side = toMove (standing t) ∧ ¬ Over (standing t) ∧ AllTaken c t ∧
  ∀ s m, x = .chosen s m → Legal (standing t) m ∧ (c.type s = .slow → slowMove (boardOf (standing t)) (code (some s)) = some m)

structure J (st : St) : Prop where
  inv : Inv st.srv st.trace
  ans : Follows st.trace
  none_ : current st.trace = none → st.thr = []
  one : ∀ c, current st.trace = some c → eng c st.thr = [] ∨ ∃ x, eng c st.thr = [x] ∧ Live c st.trace x
  ext : ∀ c, current st.trace = some c → ∀ x ∈ st.thr, c.type x.side = .external → ∃ s, x = .spawned s
  need : ∀ c, current st.trace = some c → AllTaken c st.trace → ¬ Over (standing st.trace) →
    c.type (toMove (standing st.trace)) ≠ .external → eng c st.thr ≠ []
  early : ∀ c, current st.trace = some c → ¬ AllTaken c st.trace → standing st.trace = [] ∨ ∀ s, c.type s = .external
  game : ∀ c s, current st.trace = some c → c.type s = .slow → EngineGame s (standing st.trace)

theorem eng_append (c : Created) (a b : List Thread) : eng c (a ++ b) = eng c a ++ eng c b := List.filter_append ..

theorem split_at {l : List Thread} {i : Nat} {x : Thread} (h : l[i]? = some x) :
    ∃ a b, l = a ++ x :: b ∧ l.eraseIdx i = a ++ b ∧ ∀ y, l.set i y = a ++ y :: b := by
  induction l generalizing i with
  | nil => simp at h
  | cons z l ih =>
    cases i with
    | zero => simp at h; subst h; exact ⟨[], l, rfl, rfl, fun _ => rfl⟩
    | succ i =>
      obtain ⟨a, b, h1, h2, h3⟩ := ih (by simpa using h)
      exact ⟨z :: a, b, by rw [h1]; rfl, by rw [List.eraseIdx_cons_succ, h2]; rfl, fun y => by rw [List.set_cons_succ, h3]; rfl⟩

theorem next_of {h : List Move} (hr : Reach h) (ho : ¬ Over h) : nextThread (boardOf h) = [.spawned (toMove h)] := by
  have := (rep_boardOf hr).shows.turn ho
  unfold nextThread
  rw [this]
  cases toMove h <;> rfl

theorem next_mem {b : Board} {x : Thread} (h : x ∈ nextThread b) : ∃ s, x = .spawned s := by
  unfold nextThread at h
  split at h
  · exact ⟨.x, by simpa using h⟩
  · split at h
    · exact ⟨.o, by simpa using h⟩
    · cases h

theorem type_of {s : Server} {t : Trace} (hi : Inv s t) {c : Created} (hc : current t = some c) (side : Side) : s.game.type side = c.type side := by
  obtain ⟨_, e2, e3, _⟩ := hi.ids c hc
  cases side
  · exact e2
  · exact e3

theorem allTaken_iff {s : Server} {t : Trace} (hi : Inv s t) {c : Created} (hc : current t = some c) :
    (s.game.x.claimed && s.game.o.claimed) = true ↔ AllTaken c t := by
  rw [Bool.and_eq_true, hi.cx c hc, hi.co c hc]
  constructor
  · rintro ⟨h1, h2⟩ i hi
    obtain rfl | rfl : i = 0 ∨ i = 1 := by omega
    · exact h1
    · exact h2
  · intro h
    exact ⟨h 0 (by omega), h 1 (by omega)⟩

theorem engine_id {c : Created} {s : Side} (h : c.type s ≠ .external) : c.id s = 0 := by
  cases s <;> simp only [Created.type, Created.id] at * <;> rw [if_neg h]

theorem other_ne (s : Side) : s.other ≠ s := by cases s <;> decide

theorem toMove_cons (m : Move) (h : List Move) : toMove (m :: h) = (toMove h).other := by
  unfold toMove
  rw [List.length_cons]
  by_cases e : h.length % 2 = 0
  · rw [if_pos e, if_neg (by omega)]; rfl
  · rw [if_neg e, if_pos (by omega)]; rfl

/-- Nothing that matters changed. -/
theorem J.same {st : St} (j : J st) {s : Server} {r : Req} {a : Resp} (hi : Inv s ((r, a) :: st.trace)) (ha : Answer st.trace r a)
    (h1 : standing ((r, a) :: st.trace) = standing st.trace) (h2 : current ((r, a) :: st.trace) = current st.trace)
    (h3 : ∀ i, taken i ((r, a) :: st.trace) ↔ taken i st.trace) : J ⟨s, st.thr, (r, a) :: st.trace⟩ := by
  have ht : ∀ c, AllTaken c ((r, a) :: st.trace) ↔ AllTaken c st.trace := by intro c; unfold AllTaken; simp only [h3]
  constructor
  · exact hi
  · exact ⟨ha, j.ans⟩
  · simp only [h2]; exact j.none_
  · simp only [h2]; intro c hc
    rcases j.one c hc with h | ⟨x, h, hl⟩
    · exact .inl h
    · refine .inr ⟨x, h, ?_⟩
      unfold Live at hl ⊢
      rw [h1, ht]
      exact hl
  · simp only [h2]; exact j.ext
  · simp only [h1, h2, ht]; exact j.need
  · simp only [h1, h2, ht]; exact j.early
  · simp only [h1, h2]; exact j.game

theorem j_create {st : St} (j : J st) (tx to_ : PType) (gid xid oid : Id) (ok : Ev.Ok st (.req (.create tx to_ gid xid oid))) :
    J ⟨(create st.srv tx to_ gid xid oid).1, st.thr ++ spawns (create st.srv tx to_ gid xid oid).1.game (create st.srv tx to_ gid xid oid).2,
      (.create tx to_ gid xid oid, (create st.srv tx to_ gid xid oid).2) :: st.trace⟩ := by
  obtain ⟨hi, ha⟩ := answer_create j.inv tx to_ gid xid oid
  generalize hq : create st.srv tx to_ gid xid oid = q at *
  obtain ⟨s, a⟩ := q
  simp only at hi ha ⊢
  cases ha with
  | busy h =>
    simp only [spawns, List.append_nil]
    exact j.same hi (.busy h) rfl rfl (fun _ => Iff.rfl)
  | created h =>
    have hthr : st.thr = [] := ok h
    rw [hthr, List.nil_append]
    have hst : standing ((.create tx to_ gid xid oid, .created gid) :: st.trace) = [] := rfl
    have hcur : current ((.create tx to_ gid xid oid, .created gid) :: st.trace) = some ⟨tx, to_, gid, xid, oid⟩ := rfl
    have ht := allTaken_iff hi hcur
    have hb : s.game.board = boardOf [] := by rw [hi.board, hst]
    generalize ht0 : (Req.create tx to_ gid xid oid, Resp.created gid) :: st.trace = t0 at *
    simp only [spawns]
    have hf : Follows t0 := by rw [← ht0]; exact ⟨.created h, j.ans⟩
    by_cases hall : AllTaken ⟨tx, to_, gid, xid, oid⟩ t0
    · rw [if_pos (ht.2 hall), hb, next_of .start not_over_nil]
      refine ⟨hi, hf, ?_, ?_, ?_, ?_, ?_, ?_⟩
      · intro c; rw [hcur] at c; cases c
      · intro c hc
        rw [hcur] at hc; cases hc
        by_cases he : (Created.mk tx to_ gid xid oid).type .x = .external
        · left; simp [eng, Thread.side, toMove, he]
        · right
          refine ⟨.spawned .x, by simp [eng, Thread.side, toMove, he], ?_, ?_, hall, ?_⟩
          · rw [hst]; rfl
          · rw [hst]; exact not_over_nil
          · intro s m e; cases e
      · intro c hc x hx _
        rw [List.mem_singleton] at hx
        exact ⟨_, hx⟩
      · intro c hc _ _ he
        rw [hcur] at hc; cases hc
        rw [hst] at he
        have he' : (Created.mk tx to_ gid xid oid).type .x ≠ .external := he
        simp [eng, Thread.side, toMove, he']
      · intro c hc hn
        rw [hcur] at hc; cases hc
        exact absurd hall hn
      · intro c s' _ _
        rw [hst]; exact .start
    · rw [if_neg (fun c => hall (ht.1 c))]
      refine ⟨hi, hf, fun _ => rfl, fun _ _ => .inl rfl, ?_, ?_, ?_, ?_⟩
      · intro c hc x hx; cases hx
      · intro c hc h1
        rw [hcur] at hc; cases hc
        exact absurd h1 hall
      · intro c hc hn
        exact .inl hst
      · intro c s' _ _
        rw [hst]; exact .start

theorem j_claim {st : St} (j : J st) (gid : Id) (i : Nat) :
    J ⟨(claim st.srv gid i).1, st.thr ++ spawns (claim st.srv gid i).1.game (claim st.srv gid i).2,
      (.claim gid i, (claim st.srv gid i).2) :: st.trace⟩ := by
  obtain ⟨hi, ha⟩ := answer_claim j.inv gid i
  generalize hq : claim st.srv gid i = q at *
  obtain ⟨s, a⟩ := q
  simp only at hi ha ⊢
  cases ha with
  | claimBad h =>
    simp only [spawns, List.append_nil]
    exact j.same hi (.claimBad h) rfl rfl (fun _ => Iff.rfl)
  | claimUnknown h1 h2 h3 =>
    simp only [spawns, List.append_nil]
    exact j.same hi (.claimUnknown h1 h2 h3) rfl rfl (fun _ => Iff.rfl)
  | claimLate h1 h2 h3 h4 h5 =>
    simp only [spawns, List.append_nil]
    exact j.same hi (.claimLate h1 h2 h3 h4 h5) rfl rfl (fun _ => Iff.rfl)
  | @claimed _ _ c h1 h2 h3 h4 h5 h6 =>
    have hst : standing ((.claim gid i, .claimed (c.id (sideOf i))) :: st.trace) = standing st.trace := rfl
    have hcur : current ((.claim gid i, .claimed (c.id (sideOf i))) :: st.trace) = some c := h3
    have htk : ∀ k, taken k ((.claim gid i, .claimed (c.id (sideOf i))) :: st.trace) ↔ i = k ∨ taken k st.trace := fun k => Iff.rfl
    have hf : Follows ((.claim gid i, .claimed (c.id (sideOf i))) :: st.trace) := ⟨.claimed h1 h2 h3 h4 h5 h6, j.ans⟩
    have ht := allTaken_iff hi hcur
    have hb : s.game.board = boardOf (standing st.trace) := hi.board
    generalize ht0 : (Req.claim gid i, Resp.claimed (c.id (sideOf i))) :: st.trace = t0 at *
    have hbefore : ¬ AllTaken c st.trace := by
      intro h
      rcases h i h2 with h | h
      · exact h5 h
      · exact h6 h
    have hnil : eng c st.thr = [] := by
      rcases j.one c h3 with h | ⟨x, _, hl⟩
      · exact h
      · exact absurd hl.2.2.1 hbefore
    have hearly := j.early c h3 hbefore
    simp only [spawns]
    refine ⟨hi, hf, ?_, ?_, ?_, ?_, ?_, ?_⟩
    · intro e; rw [hcur] at e; cases e
    · intro c' hc'
      rw [hcur] at hc'; cases hc'
      simp only [eng_append, hnil, List.nil_append]
      by_cases hall : AllTaken c t0
      · rw [if_pos (ht.2 hall), hb]
        rcases hearly with e | e
        · rw [e, next_of .start not_over_nil]
          by_cases he : c.type .x = .external
          · left; simp [eng, Thread.side, toMove, he]
          · right
            refine ⟨.spawned .x, by simp [eng, Thread.side, toMove, he], ?_, ?_, hall, ?_⟩
            · rw [hst, e]; rfl
            · rw [hst, e]; exact not_over_nil
            · intro s m e; cases e
        · left
          unfold eng
          rw [List.filter_eq_nil_iff]
          intro x _
          simp [e]
      · rw [if_neg (fun e => hall (ht.1 e))]; exact .inl rfl
    · intro c' hc' x hx he
      rw [hcur] at hc'; cases hc'
      rcases List.mem_append.1 hx with hx | hx
      · exact j.ext c h3 x hx he
      · split at hx
        · exact next_mem hx
        · cases hx
    · intro c' hc' hall ho he
      rw [hcur] at hc'; cases hc'
      rw [hst] at ho he
      simp only [eng_append, hnil, List.nil_append]
      rw [if_pos (ht.2 hall), hb, next_of j.inv.reach ho]
      simp [eng, Thread.side, he]
    · intro c' hc' _
      rw [hcur] at hc'; cases hc'
      rw [hst]; exact hearly
    · intro c' s' hc' hs
      rw [hcur] at hc'; cases hc'
      rw [hst]; exact j.game c s' h3 hs

/-- After a move of the side to move the thread of the other side is started. -/
theorem j_moved {st : St} (j : J st) {s : Server} {r : Req} {a : Resp} {m : Move} {c : Created} {rest : List Thread}
    (hi : Inv s ((r, a) :: st.trace)) (ha : Answer st.trace r a) (hc : current st.trace = some c)
    (h1 : standing ((r, a) :: st.trace) = m :: standing st.trace) (h2 : current ((r, a) :: st.trace) = current st.trace)
    (h3 : ∀ i, taken i ((r, a) :: st.trace) ↔ taken i st.trace) (hl : Legal (standing st.trace) m)
    (hrest : ∀ x ∈ rest, x ∈ st.thr) (hnil : eng c rest = []) (hall : (∀ s, c.type s = .external) ∨ AllTaken c st.trace)
    (hslow : c.type (toMove (standing st.trace)) = .slow → slowMove (boardOf (standing st.trace)) (code (some (toMove (standing st.trace)))) = some m) :
    J ⟨s, rest ++ (if s.game.board.over then [] else nextThread s.game.board), (r, a) :: st.trace⟩ := by
  have hr : Reach (m :: standing st.trace) := .step j.inv.reach hl
  have hb : s.game.board = boardOf (m :: standing st.trace) := by rw [hi.board, h1]
  have hov : s.game.board.over = true ↔ Over (m :: standing st.trace) := by rw [hb]; exact (rep_boardOf hr).shows.over
  have ht : ∀ c, AllTaken c ((r, a) :: st.trace) ↔ AllTaken c st.trace := by intro c; unfold AllTaken; simp only [h3]
  have hnext : ¬ Over (m :: standing st.trace) →
      (if s.game.board.over then [] else nextThread s.game.board) = [.spawned (toMove (m :: standing st.trace))] := by
    intro ho
    rw [if_neg (fun e => ho (hov.1 e)), hb, next_of hr ho]
  have hc' : current ((r, a) :: st.trace) = some c := by rw [h2, hc]
  refine ⟨hi, ⟨ha, j.ans⟩, ?_, ?_, ?_, ?_, ?_, ?_⟩
  · intro e; rw [hc'] at e; cases e
  · intro c' e
    rw [hc'] at e; cases e
    simp only [eng_append, hnil, List.nil_append]
    by_cases ho : Over (m :: standing st.trace)
    · left; rw [if_pos (hov.2 ho)]; rfl
    · rw [hnext ho]
      by_cases he : c.type (toMove (m :: standing st.trace)) = .external
      · left; simp [eng, Thread.side, he]
      · right
        refine ⟨.spawned (toMove (m :: standing st.trace)), by simp [eng, Thread.side, he], ?_, ?_, ?_, ?_⟩
        · rw [h1]; rfl
        · rw [h1]; exact ho
        · rw [ht]
          rcases hall with h | h
          · exact absurd (h _) he
          · exact h
        · intro s m e; cases e
  · intro c' e x hx he
    rw [hc'] at e; cases e
    rcases List.mem_append.1 hx with hx | hx
    · exact j.ext c hc x (hrest x hx) he
    · split at hx
      · cases hx
      · exact next_mem hx
  · intro c' e _ ho he
    rw [hc'] at e; cases e
    rw [h1] at ho he
    simp only [eng_append, hnil, List.nil_append]
    rw [hnext ho]
    simp [eng, Thread.side, he]
  · intro c' e hn
    rw [hc'] at e; cases e
    rw [ht] at hn
    rcases hall with h | h
    · exact .inr h
    · exact absurd h hn
  · intro c' s' e hs
    rw [hc'] at e; cases e
    rw [h1]
    have hg := j.game c s' hc hs
    by_cases hside : toMove (standing st.trace) = s'
    · subst hside
      exact .engine hg rfl hl.2.2 (hslow hs)
    · exact .opponent hg hside hl

theorem j_move {st : St} (j : J st) (gid p : Id) (m : Move) (ok : Ev.Ok st (.req (.move gid p m))) :
    ∃ s a, move st.srv gid p m = some (s, a) ∧ J ⟨s, st.thr ++ spawns s.game a, (.move gid p m, a) :: st.trace⟩ := by
  obtain ⟨s, a, he, hi, ha⟩ := answer_move j.inv gid p m
  refine ⟨s, a, he, ?_⟩
  cases ha with
  | moveBad h =>
    simp only [spawns, List.append_nil]
    exact j.same hi (.moveBad h) rfl rfl (fun _ => Iff.rfl)
  | moveUnknown h1 h2 h3 h4 =>
    simp only [spawns, List.append_nil]
    exact j.same hi (.moveUnknown h1 h2 h3 h4) rfl rfl (fun _ => Iff.rfl)
  | moveRefused h1 h2 h3 h4 h5 h6 h7 =>
    simp only [spawns, List.append_nil]
    exact j.same hi (.moveRefused h1 h2 h3 h4 h5 h6 h7) rfl rfl (fun _ => Iff.rfl)
  | @accepted _ _ _ c w h1 h2 h3 h4 h5 h6 h7 h8 =>
    have hext : c.type (toMove (standing st.trace)) = .external := by
      by_contra hn
      rw [engine_id hn] at h5
      exact h2 h5
    have hnil : eng c st.thr = [] := by
      rcases j.one c h3 with h | ⟨x, hx, hl⟩
      · exact h
      · have : x ∈ eng c st.thr := by rw [hx]; simp
        have := (List.mem_filter.1 this).2
        rw [hl.1] at this
        simp [hext] at this
    have key := j_moved (rest := st.thr) j hi (.accepted h1 h2 h3 h4 h5 h6 h7 h8) h3 rfl rfl (fun _ => Iff.rfl) h7 (fun _ h => h) hnil ?_ ?_
    · exact key
    · by_cases ho : c.type (toMove (standing st.trace)).other = .external
      · left
        intro s'
        cases hs : toMove (standing st.trace) <;> rw [hs] at hext ho <;> cases s' <;> assumption
      · right
        intro i hle
        by_cases hside : sideOf i = toMove (standing st.trace)
        · right
          exact ok c i h3 hle h2 (by rw [hside]; exact h5)
        · left
          have : sideOf i = (toMove (standing st.trace)).other := by
            cases h : sideOf i <;> cases h' : toMove (standing st.trace) <;> rw [h, h'] at hside <;> first | rfl | exact absurd rfl hside
          rw [this]
          exact engine_id ho
    · intro hs; rw [hext] at hs; cases hs

theorem j_moves {st : St} (j : J st) (gid : Id) (n : Nat) :
    J ⟨(moves st.srv gid n).1, st.thr ++ spawns (moves st.srv gid n).1.game (moves st.srv gid n).2, (.moves gid n, (moves st.srv gid n).2) :: st.trace⟩ := by
  obtain ⟨hi, ha⟩ := answer_moves j.inv gid n
  generalize hq : moves st.srv gid n = q at *
  obtain ⟨s, a⟩ := q
  simp only at hi ha ⊢
  have hsp : spawns s.game a = [] := by cases ha <;> rfl
  rw [hsp, List.append_nil]
  refine j.same hi ha ?_ ?_ ?_
  · cases ha <;> rfl
  · cases ha <;> rfl
  · intro i; cases ha <;> exact Iff.rfl

/-- The place of the thread of an engine. -/
theorem eng_at {st : St} (j : J st) {c : Created} (hc : current st.trace = some c) {a b : List Thread} {x : Thread} (h : st.thr = a ++ x :: b)
    (he : c.type x.side ≠ .external) : eng c a = [] ∧ eng c b = [] ∧ Live c st.trace x := by
  have hx : eng c (x :: b) = x :: eng c b := by simp [eng, he]
  rcases j.one c hc with h1 | ⟨y, h1, hl⟩
  · rw [h, eng_append, hx] at h1
    simp at h1
  · rw [h, eng_append, hx] at h1
    rcases hA : eng c a with _ | ⟨z, l⟩
    · rw [hA] at h1
      simp at h1
      exact ⟨rfl, h1.2, h1.1 ▸ hl⟩
    · rw [hA] at h1
      have := congrArg List.length h1
      simp at this

theorem j_set {st : St} (j : J st) {c : Created} (hc : current st.trace = some c) {a b : List Thread} {s : Side} {m : Move} (h : st.thr = a ++ .spawned s :: b)
    (he : c.type s ≠ .external) (hl : Legal (standing st.trace) m) (hs : c.type s = .slow → slowMove (boardOf (standing st.trace)) (code (some s)) = some m) :
    J { st with thr := a ++ .chosen s m :: b } := by
  obtain ⟨ha, hb, h1, h2, h3, _⟩ := eng_at j hc h he
  have e : eng c (a ++ .chosen s m :: b) = [.chosen s m] := by
    have he' : c.type (Thread.chosen s m).side ≠ .external := he
    rw [eng_append, ha]
    have : eng c (.chosen s m :: b) = .chosen s m :: eng c b := by simp [eng, he']
    rw [this, hb]; rfl
  refine ⟨j.inv, j.ans, ?_, ?_, ?_, ?_, j.early, j.game⟩
  · intro hn
    rw [hc] at hn; cases hn
  · intro c' hc'
    rw [hc] at hc'; cases hc'
    refine .inr ⟨_, e, h1, h2, h3, ?_⟩
    intro s' m' e'
    cases e'
    exact ⟨hl, hs⟩
  · intro c' hc' x hx hx'
    rw [hc] at hc'; cases hc'
    rcases List.mem_append.1 hx with hx | hx
    · exact j.ext c hc x (by rw [h]; simp [hx]) hx'
    · rcases List.mem_cons.1 hx with rfl | hx
      · exact absurd hx' he
      · exact j.ext c hc x (by rw [h]; simp [hx]) hx'
  · intro c' hc' _ _ _
    rw [hc] at hc'; cases hc'
    simp only [e]
    exact List.cons_ne_nil _ _

/-- Every step of a good history is defined, and keeps the invariant. -/
theorem j_step {st : St} (j : J st) {e : Ev} (ok : e.Ok st) : ∃ st', step st e = some st' ∧ J st' := by
  cases e with
  | req r =>
    cases r with
    | create tx to_ gid xid oid => exact ⟨_, rfl, j_create j tx to_ gid xid oid ok⟩
    | claim gid i => exact ⟨_, rfl, j_claim j gid i⟩
    | move gid p m =>
      obtain ⟨s, a, h1, h2⟩ := j_move j gid p m ok
      refine ⟨_, ?_, h2⟩
      simp only [step, Connect4Server.step, h1]
      rfl
    | moves gid n => exact ⟨_, rfl, j_moves j gid n⟩
    | engine s m => exact ⟨st, rfl, j⟩
  | think i m =>
    rcases hx : st.thr[i]? with _ | x
    · exact ⟨st, by simp only [step, hx], j⟩
    cases x with
    | chosen s m' => exact ⟨st, by simp only [step, hx], j⟩
    | spawned s =>
      obtain ⟨a, b, h1, h2, h3⟩ := split_at hx
      obtain ⟨c, hc⟩ : ∃ c, current st.trace = some c := by
        rcases h : current st.trace with _ | c
        · rw [j.none_ h] at hx; simp at hx
        · exact ⟨c, rfl⟩
      have hty := type_of j.inv hc s
      simp only [step, hx, hty]
      rcases hk : c.type s with _ | _ | _
      · refine ⟨_, rfl, ?_⟩
        rw [h2]
        have e : eng c (a ++ b) = eng c st.thr := by
          rw [h1, eng_append, eng_append]
          congr 1
          simp [eng, Thread.side, hk]
        refine ⟨j.inv, j.ans, ?_, ?_, ?_, ?_, j.early, j.game⟩
        · intro hn; rw [hc] at hn; cases hn
        · intro c' hc'
          rw [hc] at hc'; cases hc'
          simp only [e]; exact j.one c hc
        · intro c' hc' x hxm hx'
          rw [hc] at hc'; cases hc'
          refine j.ext c hc x ?_ hx'
          rw [h1]
          rcases List.mem_append.1 hxm with h | h <;> simp [h]
        · intro c' hc'
          rw [hc] at hc'; cases hc'
          simp only [e]; exact j.need c hc
      · have hext : c.type s ≠ .external := by rw [hk]; decide
        obtain ⟨_, _, l1, l2, _, _⟩ := eng_at j hc h1 hext
        obtain ⟨m', hb, hl⟩ := (C60_whole_game (j.game c s hc hk)).2 l2 l1.symm
        rw [j.inv.board, hb]
        refine ⟨_, rfl, ?_⟩
        rw [h3]
        exact j_set j hc h1 hext hl (fun _ => hb)
      · have hext : c.type s ≠ .external := by rw [hk]; decide
        obtain ⟨_, _, l1, l2, _, _⟩ := eng_at j hc h1 hext
        refine ⟨_, rfl, ?_⟩
        rw [h3]
        exact j_set j hc h1 hext (ok c s hc hx hk l1.symm l2) (fun e => by rw [hk] at e; cases e)
  | act i =>
    rcases hx : st.thr[i]? with _ | x
    · exact ⟨st, by simp only [step, hx], j⟩
    cases x with
    | spawned s => exact ⟨st, by simp only [step, hx], j⟩
    | chosen s m =>
      obtain ⟨a, b, h1, h2, h3⟩ := split_at hx
      obtain ⟨c, hc⟩ : ∃ c, current st.trace = some c := by
        rcases h : current st.trace with _ | c
        · rw [j.none_ h] at hx; simp at hx
        · exact ⟨c, rfl⟩
      have hext : c.type s ≠ .external := by
        intro h
        obtain ⟨s', e⟩ := j.ext c hc (.chosen s m) (by rw [h1]; simp) h
        cases e
      obtain ⟨hA, hB, l1, l2, l3, l4⟩ := eng_at j hc h1 hext
      obtain ⟨hl, hslow⟩ := l4 s m rfl
      have l1' : s = toMove (standing st.trace) := l1
      rcases accept_spec (g := st.srv.game) j.inv.reach j.inv.board s m with ⟨h5, h6, h7⟩ | ⟨h5, _⟩
      · simp only [step, hx, h7]
        refine ⟨_, rfl, ?_⟩
        simp only [Bool.true_and]
        rw [h2]
        have key := j_moved (rest := a ++ b) j (inv_accepted (r := .engine s m) (a := .engine true) j.inv rfl rfl (fun _ => Iff.rfl) hl (by rw [hc]; simp))
          (.engine hc hext l1' hl) hc rfl rfl (fun _ => Iff.rfl) hl
          (by intro x hx; rw [h1]; rcases List.mem_append.1 hx with h | h <;> simp [h])
          (by rw [eng_append, hA, hB]; rfl) (.inr l3) (by rw [← l1']; exact hslow)
        have e : ∀ (p : Bool) (l : List Thread), (if (!p) = true then l else []) = if p = true then [] else l := by intro p l; cases p <;> rfl
        simp only [e]
        exact key
      · exact absurd ⟨l1', hl⟩ h5

theorem j_init : J {} := by
  refine ⟨inv_init, trivial, fun _ => rfl, ?_, ?_, ?_, ?_, ?_⟩ <;> intro c <;> intros <;> simp_all [current]

theorem j_hist {es : List Ev} (g : Good es) : ∃ st, hist es = some st ∧ J st := by
  induction es with
  | nil => exact ⟨_, rfl, j_init⟩
  | cons e es ih =>
    obtain ⟨st, h, j⟩ := ih g.1
    obtain ⟨st', h', j'⟩ := j_step j (g.2 st h)
    exact ⟨st', by simp only [hist, h]; exact h', j'⟩

/-! ## C120: the engines answer -/

/-- C120: nothing the threads do in a good history is undefined. -/
theorem C120_defined_partial {es : List Ev} (g : Good es) : ∃ st, hist es = some st := by
  obtain ⟨st, h, _⟩ := j_hist g
  exact ⟨st, h⟩

/-- C120: when no thread is left, the game is over, or a client has yet to claim a seat, or it is a client's
turn. -/
theorem C120_rest_partial {es : List Ev} (g : Good es) {st : St} (h : hist es = some st) (hq : st.thr = []) {c : Created}
    (hc : current st.trace = some c) (ht : AllTaken c st.trace) (ho : ¬ Over (standing st.trace)) :
    c.type (toMove (standing st.trace)) = .external := by
  obtain ⟨st', h', j⟩ := j_hist g
  rw [h] at h'
  cases h'
  by_contra hn
  exact j.need c hc ht ho hn (by rw [hq]; rfl)

def weight : List Thread → Nat
  | [] => 0
  | .spawned _ :: l => 2 + weight l
  | .chosen _ _ :: l => 1 + weight l

theorem weight_append (a b : List Thread) : weight (a ++ b) = weight a + weight b := by
  induction a with
  | nil => simp [weight]
  | cons x a ih => cases x <;> simp only [List.cons_append, weight, ih] <;> omega

theorem weight_le (l : List Thread) : weight l ≤ 2 * l.length := by
  induction l with
  | nil => simp [weight]
  | cons x l ih => cases x <;> simp only [weight, List.length_cons] <;> omega

theorem weight_next (b : Board) : weight (nextThread b) ≤ 2 := by
  unfold nextThread
  split
  · simp [weight]
  · split <;> simp [weight]

/-- What is left to do. -/
def left (st : St) : Nat := weight st.thr + 2 * (42 - (standing st.trace).length)

theorem step_left {st st' : St} (j : J st) {e : Ev} (hm : e.Moves st) (h : step st e = some st') (j' : J st') : left st' < left st := by
  cases e with
  | req r => exact hm.elim
  | think i m =>
    obtain ⟨s, hx⟩ := hm
    obtain ⟨a, b, h1, h2, h3⟩ := split_at hx
    simp only [step, hx] at h
    have w : ∀ y, weight (a ++ .chosen s y :: b) < weight st.thr := by
      intro y; rw [h1, weight_append, weight_append]; simp only [weight]; omega
    split at h
    · cases h
      simp only [left, h2]
      have : weight (a ++ b) < weight st.thr := by rw [h1, weight_append, weight_append]; simp only [weight]; omega
      omega
    · cases h
      simp only [left, h3]
      have := w m
      omega
    · split at h
      · rename_i m' _
        cases h
        simp only [left, h3]
        have := w m'
        omega
      · cases h
  | act i =>
    obtain ⟨s, m, hx⟩ := hm
    obtain ⟨a, b, h1, h2, h3⟩ := split_at hx
    simp only [step, hx] at h
    obtain ⟨c, hc⟩ : ∃ c, current st.trace = some c := by
      rcases h : current st.trace with _ | c
      · rw [j.none_ h] at hx; simp at hx
      · exact ⟨c, rfl⟩
    have hext : c.type s ≠ .external := by
      intro h
      obtain ⟨s', e⟩ := j.ext c hc (.chosen s m) (by rw [h1]; simp) h
      cases e
    obtain ⟨_, _, l1, _, _, l4⟩ := eng_at j hc h1 hext
    have hl := (l4 s m rfl).1
    rcases accept_spec (g := st.srv.game) j.inv.reach j.inv.board s m with ⟨h5, h6, h7⟩ | ⟨h5, _⟩
    · rw [h7] at h
      cases h
      have hlen := (Reach.step j.inv.reach hl).length_le
      rw [List.length_cons] at hlen
      simp only [left, standing, List.length_cons]
      have w1 : weight (st.thr.eraseIdx i) + 1 = weight st.thr := by
        rw [h2, h1, weight_append, weight_append]; simp only [weight]; omega
      rw [weight_append]
      have w2 : ∀ p : Bool, weight (if p = true then nextThread (boardOf (m :: standing st.trace)) else []) ≤ 2 := by
        intro p; cases p
        · simp [weight]
        · exact weight_next _
      have := w2 (true && !(boardOf (m :: standing st.trace)).over)
      omega
    · exact absurd ⟨l1, hl⟩ h5

/-- C120: without new requests the threads stop after at most so many steps. -/
theorem C120_ends_partial {es es' : List Ev} (g : Good (es' ++ es)) (ho : OnlyThreads es es') {st : St} (h : hist es = some st) :
    es'.length ≤ 2 * st.thr.length + 84 := by
  have key : ∀ st', hist (es' ++ es) = some st' → es'.length + left st' ≤ left st := by
    induction es' with
    | nil => intro st' h'; rw [List.nil_append, h] at h'; cases h'; simp
    | cons e es' ih =>
      intro st' h'
      rw [List.cons_append] at g
      obtain ⟨st1, h1, j1⟩ := j_hist g.1
      have h2 : step st1 e = some st' := by simpa [hist, h1] using h'
      obtain ⟨st2, h3, j2⟩ := j_step j1 (g.2 st1 h1)
      rw [h2] at h3
      cases h3
      have := step_left j1 (ho.2 st1 h1) h2 j2
      have := ih g.1 ho.1 st1 h1
      rw [List.length_cons]
      omega
  obtain ⟨st', h', _⟩ := j_hist g
  have k := key st' h'
  have := weight_le st.thr
  unfold left at k
  omega
/-- C120: a game between two engines comes to its end. -/
theorem C120_engines_partial {es : List Ev} (g : Good es) {st : St} (h : hist es = some st) (hq : st.thr = []) {c : Created}
    (hc : current st.trace = some c) (he : ∀ s, c.type s ≠ .external) : Over (standing st.trace) := by
  by_contra hn
  exact he _ (C120_rest_partial g h hq hc (fun i _ => .inl (engine_id (he _))) hn)

/-- C120: the move that a thread has chosen is a legal move of the side whose turn it is, it is accepted whenever the
thread gets to make it, and if the engine is the slow one then from the fifth move on it keeps a win that it can force
within its horizon and does not let the opponent force one if another move prevents it. -/
theorem C120_plays_partial {es : List Ev} (g : Good es) {st : St} (h : hist es = some st) {i : Nat} {s : Side} {m : Move}
    (hx : st.thr[i]? = some (.chosen s m)) :
    ∃ st' c, hist (.act i :: es) = some st' ∧ current st.trace = some c ∧ toMove (standing st.trace) = s ∧
      Legal (standing st.trace) m ∧ st'.trace = (.engine s m, .engine true) :: st.trace ∧ standing st'.trace = m :: standing st.trace ∧
      (c.type s = .slow → 4 ≤ (standing st.trace).length →
        (∀ n, n ≤ chooseMaxDepth (standing st.trace).length → ForceWin s (n + 1) (standing st.trace) → ForceWin s n (standing st'.trace)) ∧
        (∀ n, n ≤ chooseMaxDepth (standing st.trace).length → ForceWin s.other n (standing st'.trace) →
          ∀ m', Legal (standing st.trace) m' → ForceWin s.other n (m' :: standing st.trace))) := by
  obtain ⟨st0, h0, j⟩ := j_hist g
  rw [h] at h0
  cases h0
  obtain ⟨c, hc⟩ : ∃ c, current st.trace = some c := by
    rcases h : current st.trace with _ | c
    · rw [j.none_ h] at hx; simp at hx
    · exact ⟨c, rfl⟩
  obtain ⟨a, b, h1, h2, h3⟩ := split_at hx
  have hext : c.type s ≠ .external := by
    intro h
    obtain ⟨s', e⟩ := j.ext c hc (.chosen s m) (by rw [h1]; simp) h
    cases e
  obtain ⟨_, _, l1, l2, _, l4⟩ := eng_at j hc h1 hext
  obtain ⟨hl, hslow⟩ := l4 s m rfl
  have l1' : s = toMove (standing st.trace) := l1
  rcases accept_spec (g := st.srv.game) j.inv.reach j.inv.board s m with ⟨h5, h6, h7⟩ | ⟨h5, _⟩
  · refine ⟨_, c, by simp only [hist, h]; show step st (.act i) = _; simp only [step, hx, h7]; rfl, hc, l1'.symm, hl, rfl, rfl, ?_⟩
    intro hs h4
    obtain ⟨_, m', hm', _, hw, hb⟩ := C60_slow_engine_partial j.inv.reach l2 h4
    rw [← l1', hslow hs] at hm'
    cases hm'
    rw [← l1'] at hw hb
    exact ⟨hw, hb⟩
  · exact absurd ⟨l1', hl⟩ h5

/-- The claim for all histories: when no thread is left and all seats are taken, the game is over or a client is to
move. -/
def C120Full : Prop :=
  ∀ es st c, hist es = some st → st.thr = [] → current st.trace = some c → AllTaken c st.trace → ¬ Over (standing st.trace) →
    c.type (toMove (standing st.trace)) = .external

deriving instance DecidableEq for Connect4Server.Req

/-- A game between two clients: every move starts a thread, and none of them runs. -/
def game0 : List Ev := [.req (.move 1 5 ⟨3, 0⟩), .req (.move 1 6 ⟨2, 1⟩), .req (.move 1 5 ⟨2, 0⟩), .req (.move 1 6 ⟨1, 1⟩),
  .req (.move 1 5 ⟨1, 0⟩), .req (.move 1 6 ⟨0, 1⟩), .req (.move 1 5 ⟨0, 0⟩), .req (.claim 1 1), .req (.claim 1 0),
  .req (.create .external .external 1 5 6)]

/-- A game between a fast engine and a client: one of the old threads chooses a move and is then slow to make it; the
other old threads find the game over, or nothing to do. -/
def game1 : List Ev := [
  .think 1 ⟨0, 0⟩, .think 1 ⟨0, 0⟩, .think 1 ⟨0, 0⟩, .act 1, .think 1 ⟨0, 0⟩, .think 1 ⟨0, 0⟩, .act 1,
  .think 1 ⟨0, 0⟩, .think 1 ⟨0, 0⟩, .act 1, .think 1 ⟨0, 0⟩, .think 1 ⟨0, 0⟩, .act 10, .think 10 ⟨3, 0⟩,
  .req (.move 2 7 ⟨2, 1⟩), .act 9, .think 9 ⟨2, 0⟩, .req (.move 2 7 ⟨1, 1⟩), .act 8, .think 8 ⟨1, 0⟩,
  .req (.move 2 7 ⟨0, 1⟩), .act 7, .think 7 ⟨0, 0⟩, .think 0 ⟨0, 4⟩, .req (.claim 2 1),
  .req (.create .fast .external 2 0 7)]

/-- A game between the slow engine and a client, in which the old thread makes the first move.  The opening of the slow
engine does not expect it: both of its threads choose that cell again. -/
def game2 : List Ev := [
  .act 0, .think 0 ⟨0, 0⟩, .act 0, .think 0 ⟨0, 0⟩, .req (.move 3 9 ⟨0, 3⟩), .think 1 ⟨0, 0⟩, .act 0,
  .req (.claim 3 1), .req (.create .slow .external 3 0 9)]

/-- A thread of an earlier game that was slow moves in a later one: the slow engine is to move, and never will. -/
theorem C120_violated : ¬ C120Full := by
  intro f
  have key : ((hist (game2 ++ game1 ++ game0)).map fun st => (current st.trace, standing st.trace, st.thr)) =
      some (some ⟨.slow, .external, 3, 0, 9⟩, [⟨0, 3⟩, ⟨0, 4⟩], []) := by
    decide +kernel
  have k4 : ((hist (game2 ++ game1 ++ game0)).map fun st => st.trace.take 5) =
      some [(.engine .x ⟨0, 4⟩, .engine false), (.engine .x ⟨0, 4⟩, .engine false), (.move 3 9 ⟨0, 3⟩, .accepted 1 none),
        (.engine .x ⟨0, 4⟩, .engine true), (.claim 3 1, .claimed 9)] := by
    decide +kernel
  rcases h : hist (game2 ++ game1 ++ game0) with _ | st
  · rw [h] at key; cases key
  · rw [h] at key k4
    simp only [Option.map_some, Option.some.injEq, Prod.mk.injEq] at key k4
    obtain ⟨k1, k2, k3⟩ := key
    have ht : AllTaken ⟨.slow, .external, 3, 0, 9⟩ st.trace := by
      intro i hi
      obtain rfl | rfl : i = 0 ∨ i = 1 := by omega
      · exact .inl rfl
      · right
        rw [← List.take_append_drop 5 st.trace, k4]
        exact .inl rfl
    have ho : ¬ Over (standing st.trace) := by
      rw [k2]
      have hr : Reach [⟨0, 3⟩, ⟨0, 4⟩] := reach_of_reachB (by decide +kernel)
      exact not_over_of hr (by decide +kernel)
    have := f _ st _ h k3 k1 ht ho
    rw [k2] at this
    revert this
    decide

/-! ## Concrete cases -/

/-- A history with the hypotheses of the claims: the slow engine begins against a client, who has claimed the seat. -/
def opening : List Ev := [.req (.claim 3 1), .req (.create .slow .external 3 0 9)]

theorem good_opening : Good opening := by
  refine ⟨⟨trivial, ?_⟩, ?_⟩
  · intro st h; cases h; exact fun _ => rfl
  · intro st h; trivial

theorem good_slow {es : List Ev} {i : Nat} {m : Move} (g : Good es)
    (h : (hist es).map (fun st => (st.srv.game.tx, st.thr[i]?)) = some (.slow, some (.spawned .x))) : Good (.think i m :: es) := by
  refine ⟨g, ?_⟩
  intro st hst c s hc hx hf
  obtain ⟨st', h', j⟩ := j_hist g
  rw [hst] at h'; cases h'
  rw [hst] at h
  simp only [Option.map_some, Option.some.injEq, Prod.mk.injEq] at h
  rw [h.2] at hx
  simp only [Option.some.injEq, Thread.spawned.injEq] at hx
  subst hx
  rw [← type_of j.inv hc] at hf
  have : st.srv.game.tx = .fast := hf
  rw [h.1] at this
  cases this

/-- The thread of the engine chooses the cell in the middle, and makes the move. -/
example : Good (.act 0 :: .think 0 ⟨0, 0⟩ :: opening) ∧ OnlyThreads opening [.act 0, .think 0 ⟨0, 0⟩] ∧
    (hist (.think 0 ⟨0, 0⟩ :: opening)).map St.thr = some [.chosen .x ⟨0, 3⟩] ∧
    (hist (.act 0 :: .think 0 ⟨0, 0⟩ :: opening)).map (fun st => (standing st.trace, st.thr)) = some ([⟨0, 3⟩], [.spawned .o]) := by
  have h1 : (hist opening).map St.thr = some [.spawned .x] := by decide +kernel
  have h2 : (hist (.think 0 ⟨0, 0⟩ :: opening)).map St.thr = some [.chosen .x ⟨0, 3⟩] := by decide +kernel
  refine ⟨⟨good_slow good_opening (by decide +kernel), fun _ _ => trivial⟩, ⟨⟨trivial, ?_⟩, ?_⟩, h2, by decide +kernel⟩
  · intro st h
    rw [List.nil_append] at h
    rw [h] at h1
    simp only [Option.map_some, Option.some.injEq] at h1
    exact ⟨.x, by rw [h1]; rfl⟩
  · intro st h
    have h : hist (.think 0 ⟨0, 0⟩ :: opening) = some st := h
    rw [h] at h2
    simp only [Option.map_some, Option.some.injEq] at h2
    exact ⟨.x, ⟨0, 3⟩, by rw [h2]; rfl⟩

theorem good_think {es : List Ev} {i : Nat} {m : Move} {l : List Move} (g : Good es) (h : (hist es).map (fun st => standing st.trace) = some l)
    (hr : reachB (m :: l) = true) : Good (.think i m :: es) := by
  refine ⟨g, ?_⟩
  intro st hst c s _ _ _ _ _
  rw [hst] at h
  simp only [Option.map_some, Option.some.injEq] at h
  rw [h]
  cases reach_of_reachB hr with
  | step _ hl => exact hl

theorem good_act {es : List Ev} {i : Nat} (g : Good es) : Good (.act i :: es) := ⟨g, fun _ _ => trivial⟩

/-- A game between two fast engines that play columns 0 and 1: one request, and the threads do the rest. -/
def selfPlay : List Ev := [.act 0, .think 0 ⟨3, 0⟩, .act 0, .think 0 ⟨2, 1⟩, .act 0, .think 0 ⟨2, 0⟩, .act 0, .think 0 ⟨1, 1⟩,
  .act 0, .think 0 ⟨1, 0⟩, .act 0, .think 0 ⟨0, 1⟩, .act 0, .think 0 ⟨0, 0⟩, .req (.create .fast .fast 4 0 0)]

example : Good selfPlay ∧ (hist selfPlay).map (fun st => (st.thr, standing st.trace)) =
    some ([], [⟨3, 0⟩, ⟨2, 1⟩, ⟨2, 0⟩, ⟨1, 1⟩, ⟨1, 0⟩, ⟨0, 1⟩, ⟨0, 0⟩]) := by
  constructor
  · have g0 : Good [.req (.create .fast .fast 4 0 0)] := ⟨trivial, by intro st h; cases h; exact fun _ => rfl⟩
    have g1 := good_act (i := 0) (good_think (i := 0) (m := ⟨0, 0⟩) (l := []) g0 (by decide +kernel) (by decide +kernel))
    have g2 := good_act (i := 0) (good_think (i := 0) (m := ⟨0, 1⟩) (l := [⟨0, 0⟩]) g1 (by decide +kernel) (by decide +kernel))
    have g3 := good_act (i := 0) (good_think (i := 0) (m := ⟨1, 0⟩) (l := [⟨0, 1⟩, ⟨0, 0⟩]) g2 (by decide +kernel) (by decide +kernel))
    have g4 := good_act (i := 0) (good_think (i := 0) (m := ⟨1, 1⟩) (l := [⟨1, 0⟩, ⟨0, 1⟩, ⟨0, 0⟩]) g3 (by decide +kernel) (by decide +kernel))
    have g5 := good_act (i := 0) (good_think (i := 0) (m := ⟨2, 0⟩) (l := [⟨1, 1⟩, ⟨1, 0⟩, ⟨0, 1⟩, ⟨0, 0⟩]) g4 (by decide +kernel) (by decide +kernel))
    have g6 := good_act (i := 0) (good_think (i := 0) (m := ⟨2, 1⟩) (l := [⟨2, 0⟩, ⟨1, 1⟩, ⟨1, 0⟩, ⟨0, 1⟩, ⟨0, 0⟩]) g5 (by decide +kernel) (by decide +kernel))
    exact good_act (i := 0) (good_think (i := 0) (m := ⟨3, 0⟩) (l := [⟨2, 1⟩, ⟨2, 0⟩, ⟨1, 1⟩, ⟨1, 0⟩, ⟨0, 1⟩, ⟨0, 0⟩]) g6 (by decide +kernel) (by decide +kernel))
  · decide +kernel

end Abc.Connect4Threads
