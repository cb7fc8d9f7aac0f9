/-!
# Seats claimed while a game is replaced

A game that is over is replaced by the next one that is asked for, in the same memory, while other requests run in threads of their own and nothing is locked
(`src/endpoint.h` 69-97). `endpoint_game::reset` writes the number of the game, then for X and for O the number of the player and whether the seat is claimed
(`samples/tictactoe/game.h` 617-621, `samples/connect4/game.h` 836-840). A claim compares the number of the game (`tictactoe` 1008, `connect4` 1227), then tests `is_claimed` of the seat, reads its number and
writes `is_claimed` (`tictactoe` 630-645, `connect4` 849-864). Here these accesses are taken apart.

Simplifications: one place (`max_game_count` is 1 in both samples); one request for a game at a time (for more see `Samples/GameSlots.lean`), which may come at any time, since whether
a game is over is not modelled; what follows the claim, the start of the game, is in `Samples/ClaimRace.lean`, the board in `Samples/GameReplace.lean`.
-/

namespace Abc.ClaimReplace

inductive Seat where
  | x | o
deriving DecidableEq, Repr

/-- The numbers of a game and its players, drawn by `create_game` (`tictactoe` 789-800); 0 for engines (a client whose number is drawn as 0 is taken for an engine, as in 619 and 621). -/
structure Game where
  id : Nat
  num : Seat → Nat

/-- Where `endpoint_game::reset` is (lines of tic-tac-toe): before writing the number of the game (617), the number (618) and `is_claimed` (619) of X, those of O (620, 621). -/
inductive MkPc where
  | ident | num (s : Seat) | flag (s : Seat)
deriving DecidableEq, Repr

/-- Where a claim is: before comparing the number of the game (1008), before the test of `is_claimed` (631, 639), before reading the number (635, 643), before writing `is_claimed` (636, 644). -/
inductive Pc where
  | look | test | read | set (n : Nat)
deriving DecidableEq, Repr

/-- A claim: the number of the game, the seat. -/
structure Thr where
  gid : Nat
  seat : Seat
  pc : Pc
deriving DecidableEq, Repr

/-- A claim that was granted: what was asked for, and the number told. -/
structure Grant where
  gid : Nat
  seat : Seat
  told : Nat
deriving DecidableEq, Repr

/-- The members, the request for a game, the claims under way; for the statements only: the games made or being made, the claims granted, those refused because the seat is claimed. -/
structure St where
  id : Nat
  num : Seat → Nat
  claimed : Seat → Bool
  making : Option (Game × MkPc)
  thr : Nat → Option Thr
  games : List Game
  grants : List Grant
  refused : List (Nat × Seat)

/-- A game is asked for; its making goes on by a step; thread `k` is sent a claim; it makes a step. -/
inductive Ev where
  | make (g : Game)
  | mstep
  | ask (k gid : Nat) (s : Seat)
  | step (k : Nat)

def setThr (f : Nat → Option Thr) (k : Nat) (t : Option Thr) : Nat → Option Thr := fun j => if j = k then t else f j

def setSeat {α : Type} (f : Seat → α) (s : Seat) (a : α) : Seat → α := fun s' => if s' = s then a else f s'

def St.goto (st : St) (k : Nat) (t : Thr) (pc : Pc) : St := { st with thr := setThr st.thr k (some { t with pc := pc }) }

def St.leave (st : St) (k : Nat) : St := { st with thr := setThr st.thr k none }

/-- A step of a claim: `tictactoe` 1007-1010, 629-645. -/
def stepThr (st : St) (k : Nat) (t : Thr) : St :=
  match t.pc with
  | .look => if st.id = t.gid then st.goto k t .test else st.leave k
  | .test => if st.claimed t.seat then { st.leave k with refused := (t.gid, t.seat) :: st.refused } else st.goto k t .read
  | .read => st.goto k t (.set (st.num t.seat))
  | .set n => { st.leave k with claimed := setSeat st.claimed t.seat true, grants := ⟨t.gid, t.seat, n⟩ :: st.grants }

/-- A step of `endpoint_game::reset`: `tictactoe` 617-621. -/
def stepMk (st : St) (g : Game) : MkPc → St
  | .ident => { st with making := some (g, .num .x), id := g.id }
  | .num s => { st with making := some (g, .flag s), num := setSeat st.num s (g.num s) }
  | .flag .x => { st with making := some (g, .num .o), claimed := setSeat st.claimed .x (g.num .x == 0) }
  | .flag .o => { st with making := none, claimed := setSeat st.claimed .o (g.num .o == 0) }

def step (st : St) : Ev → St
  | .make g => match st.making with
    | some _ => st
    | none => { st with making := some (g, .ident), games := g :: st.games }
  | .mstep => match st.making with
    | none => st
    | some (g, pc) => stepMk st g pc
  | .ask k gid s => match st.thr k with
    | some _ => st
    | none => { st with thr := setThr st.thr k (some ⟨gid, s, .look⟩) }
  | .step k => match st.thr k with
    | none => st
    | some t => stepThr st k t

/-- A new server, whose place has the game given (the number 0 of a place never used is not looked for: claims with it are refused before, `tictactoe` 997). -/
def init (g : Game) : St := ⟨g.id, g.num, fun s => g.num s == 0, none, fun _ => none, [g], [], []⟩

/-- After the events of a list, the latest event first. -/
def hist (g : Game) : List Ev → St
  | [] => init g
  | e :: es => step (hist g es) e

/-! ## What the statements speak of -/

/-- A client who is given a seat is told the number of that seat in a game of the number they asked for, and the seat is not an engine's. -/
def Grant.Right (games : List Game) (a : Grant) : Prop := a.told ≠ 0 ∧ ∃ g ∈ games, g.id = a.gid ∧ g.num a.seat = a.told

/-- The seat is an engine's in a game of this number, or was given to a client who asked for it in that game. -/
def Taken (games : List Game) (grants : List Grant) (p : Nat × Seat) : Prop :=
  (∃ g ∈ games, g.id = p.1 ∧ g.num p.2 = 0) ∨ ∃ a ∈ grants, a.gid = p.1 ∧ a.seat = p.2

/-- The whole claim: granted claims are right, and only seats that are taken are refused. -/
def C138Full : Prop :=
  ∀ (g : Game) (es : List Ev), (∀ a ∈ (hist g es).grants, a.Right (hist g es).games) ∧ ∀ p ∈ (hist g es).refused, Taken (hist g es).games (hist g es).grants p

/-- A property of all events of a history, in the states in which they happen. -/
def All (g : Game) (P : St → Ev → Prop) : List Ev → Prop
  | [] => True
  | e :: es => P (hist g es) e ∧ All g P es

/-- The number of the game is changed only when no claim is under way, and no claim comes until the seats of the new game are written. -/
def Calm (st : St) : Ev → Prop
  | .mstep => ∀ g, st.making = some (g, .ident) → ∀ k, st.thr k = none
  | .ask _ _ _ => ∀ g pc, st.making = some (g, pc) → pc = .ident
  | _ => True

/-! ## The invariant -/

/-- What is written already. -/
def Written (st : St) (g : Game) : MkPc → Prop
  | .ident => True
  | .num .x => st.id = g.id
  | .flag .x => st.id = g.id ∧ st.num .x = g.num .x
  | .num .o => st.id = g.id ∧ st.num .x = g.num .x ∧ st.claimed .x = (g.num .x == 0)
  | .flag .o => st.id = g.id ∧ st.num .x = g.num .x ∧ st.claimed .x = (g.num .x == 0) ∧ st.num .o = g.num .o

structure Inv (st : St) : Prop where
  mid : ∀ g pc, st.making = some (g, pc) → g ∈ st.games ∧ (pc ≠ .ident → (∀ k, st.thr k = none) ∧ Written st g pc)
  here : (∀ g pc, st.making = some (g, pc) → pc = .ident) →
    (∃ g ∈ st.games, g.id = st.id ∧ g.num = st.num) ∧ (∀ s, st.num s = 0 → st.claimed s = true) ∧
    ∀ s, st.claimed s = true → st.num s = 0 ∨ ∃ a ∈ st.grants, a.gid = st.id ∧ a.seat = s
  found : ∀ k t, st.thr k = some t → t.pc ≠ .look → t.gid = st.id
  free : ∀ k t, st.thr k = some t → t.pc = .read → st.num t.seat ≠ 0
  got : ∀ k t n, st.thr k = some t → t.pc = .set n → n = st.num t.seat ∧ n ≠ 0
  right : ∀ a ∈ st.grants, a.Right st.games
  no : ∀ p ∈ st.refused, Taken st.games st.grants p

theorem setThr_same (f : Nat → Option Thr) (k : Nat) (t : Option Thr) : setThr f k t k = t := if_pos rfl

theorem setThr_ne (f : Nat → Option Thr) {j k : Nat} (t : Option Thr) (h : j ≠ k) : setThr f k t j = f j := if_neg h

theorem Inv.still {st : St} (v : Inv st) {k : Nat} {t : Thr} (hk : st.thr k = some t) : ∀ g pc, st.making = some (g, pc) → pc = .ident := by
  intro g pc h
  by_cases e : pc = .ident
  · exact e
  · have := ((v.mid g pc h).2 e).1 k
    rw [hk] at this; cases this

theorem inv_init (g : Game) : Inv (init g) := by
  constructor
  · intro g' pc h; cases h
  · intro _
    refine ⟨⟨g, by simp [init], rfl, rfl⟩, fun s h => ?_, fun s h => ?_⟩
    · have h : g.num s = 0 := h
      simp [init, h]
    · have h : (g.num s == 0) = true := h
      exact Or.inl (show g.num s = 0 by simpa using h)
  · intro k t h; cases h
  · intro k t h; cases h
  · intro k t n h; cases h
  · intro a h; cases h
  · intro a h; cases h

/-- A thread goes on or leaves; flags are only set. -/
theorem inv_thr {st : St} (v : Inv st) {k : Nat} {t : Thr} (hk : st.thr k = some t) (t' : Option Thr) (c : Seat → Bool) (hc : ∀ s, st.claimed s = true → c s = true)
    (gs : List Grant) (hgs : ∀ a ∈ gs, a.Right st.games)
    (hsub : ∀ a ∈ st.grants, a ∈ gs) (hc' : ∀ s, c s = true → st.claimed s = true ∨ ∃ a ∈ gs, a.gid = st.id ∧ a.seat = s)
    (rs : List (Nat × Seat)) (hrs : ∀ p ∈ rs, p ∈ st.refused ∨ Taken st.games st.grants p)
    (hf : ∀ u, t' = some u → u.pc ≠ .look → u.gid = st.id) (hr : ∀ u, t' = some u → u.pc = .read → st.num u.seat ≠ 0)
    (hg : ∀ u n, t' = some u → u.pc = .set n → n = st.num u.seat ∧ n ≠ 0) :
    Inv { st with thr := setThr st.thr k t', claimed := c, grants := gs, refused := rs } := by
  have old : ∀ {j u}, setThr st.thr k t' j = some u → t' = some u ∨ st.thr j = some u := by
    intro j u h
    by_cases e : j = k
    · subst e; rw [setThr_same] at h; exact Or.inl h
    · rw [setThr_ne _ _ e] at h; exact Or.inr h
  constructor
  · intro g pc h
    refine ⟨(v.mid g pc h).1, fun hne => ?_⟩
    exact absurd (v.still hk g pc h) hne
  · intro h
    refine ⟨(v.here h).1, fun s hs => hc s ((v.here h).2.1 s hs), fun s hs => ?_⟩
    rcases hc' s hs with h' | h'
    · rcases (v.here h).2.2 s h' with h0 | ⟨a, ha, h0⟩
      · exact Or.inl h0
      · exact Or.inr ⟨a, hsub a ha, h0⟩
    · exact Or.inr h'
  · intro j u hj hu
    rcases old hj with h | h
    · exact hf u h hu
    · exact v.found j u h hu
  · intro j u hj hu
    rcases old hj with h | h
    · exact hr u h hu
    · exact v.free j u h hu
  · intro j u n hj hu
    rcases old hj with h | h
    · exact hg u n h hu
    · exact v.got j u n h hu
  · exact hgs
  · intro p hp
    have : Taken st.games st.grants p := (hrs p hp).elim (v.no p) id
    rcases this with h | ⟨a, ha, h⟩
    · exact Or.inl h
    · exact Or.inr ⟨a, hsub a ha, h⟩

theorem inv_stepThr {st : St} (v : Inv st) {k : Nat} {t : Thr} (hk : st.thr k = some t) : Inv (stepThr st k t) := by
  have hh := v.here (v.still hk)
  have leave : Inv (st.leave k) :=
    inv_thr v hk none st.claimed (fun _ h => h) st.grants v.right (fun _ h => h) (fun _ h => Or.inl h) st.refused (fun _ h => Or.inl h) (fun _ h => by cases h) (fun _ h => by cases h) (fun _ _ h => by cases h)
  unfold stepThr
  split
  · split
    · next h =>
      refine inv_thr v hk _ st.claimed (fun _ h => h) st.grants v.right (fun _ h => h) (fun _ h => Or.inl h) st.refused (fun _ h => Or.inl h) ?_ ?_ ?_
      · intro u e _; cases e; exact h.symm
      · intro u e hu; cases e; cases hu
      · intro u n e hu; cases e; cases hu
    · exact leave
  · next hp =>
    have hf := v.found k t hk (by rw [hp]; intro h; cases h)
    split
    · next hc =>
      refine inv_thr v hk none st.claimed (fun _ h => h) st.grants v.right (fun _ h => h) (fun _ h => Or.inl h) _ ?_
        (fun _ h => by cases h) (fun _ h => by cases h) (fun _ _ h => by cases h)
      intro p hp
      rcases List.mem_cons.mp hp with rfl | hp
      · refine Or.inr ?_
        rcases hh.2.2 t.seat hc with h0 | ⟨a, ha, h0, h1⟩
        · obtain ⟨g, hg1, hg2, hg3⟩ := hh.1
          exact Or.inl ⟨g, hg1, hg2.trans hf.symm, by rw [hg3]; exact h0⟩
        · exact Or.inr ⟨a, ha, h0.trans hf.symm, h1⟩
      · exact Or.inl hp
    · next hc =>
      refine inv_thr v hk _ st.claimed (fun _ h => h) st.grants v.right (fun _ h => h) (fun _ h => Or.inl h) st.refused (fun _ h => Or.inl h) ?_ ?_ ?_
      · intro u e _; cases e; exact hf
      · intro u e _
        cases e
        intro h0
        exact hc (hh.2.1 t.seat h0)
      · intro u n e hu; cases e; cases hu
  · next hp =>
    have hf := v.found k t hk (by rw [hp]; intro h; cases h)
    refine inv_thr v hk _ st.claimed (fun _ h => h) st.grants v.right (fun _ h => h) (fun _ h => Or.inl h) st.refused (fun _ h => Or.inl h) ?_ ?_ ?_
    · intro u e _; cases e; exact hf
    · intro u e hu; cases e; cases hu
    · intro u n e hu
      cases e; cases hu
      exact ⟨rfl, v.free k t hk hp⟩
  · next n hp =>
    have hf := v.found k t hk (by rw [hp]; intro h; cases h)
    have hg := v.got k t n hk hp
    refine inv_thr v hk none _ ?_ _ ?_ (fun _ h => List.mem_cons_of_mem _ h) ?_ st.refused (fun _ h => Or.inl h) (fun _ h => by cases h) (fun _ h => by cases h) (fun _ _ h => by cases h)
    · intro s h
      show (if s = t.seat then true else st.claimed s) = true
      split
      · rfl
      · exact h
    · intro a ha
      rcases List.mem_cons.mp ha with rfl | ha
      · obtain ⟨g, hg1, hg2, hg3⟩ := hh.1
        exact ⟨hg.2, g, hg1, hg2.trans hf.symm, by rw [hg3]; exact hg.1.symm⟩
      · exact v.right a ha
    · intro s h
      have h : (if s = t.seat then true else st.claimed s) = true := h
      split at h
      · next e => exact Or.inr ⟨_, List.mem_cons_self .., hf, e.symm⟩
      · exact Or.inl h

theorem inv_stepMk {st : St} (v : Inv st) {g : Game} {pc : MkPc} (hm : st.making = some (g, pc)) (hc : pc = .ident → ∀ k, st.thr k = none) :
    Inv (stepMk st g pc) := by
  have hn : ∀ k, st.thr k = none := by
    by_cases e : pc = .ident
    · exact hc e
    · exact ((v.mid g pc hm).2 e).1
  have hin := (v.mid g pc hm).1
  have hw := (v.mid g pc hm).2
  -- no claim is under way: only the request for the game matters
  have fin : ∀ (st' : St), st'.thr = st.thr → st'.games = st.games → st'.grants = st.grants → st'.refused = st.refused →
      (∀ g' pc', st'.making = some (g', pc') → g' = g ∧ pc' ≠ .ident ∧ Written st' g pc') →
      (st'.making = none → (∃ g ∈ st'.games, g.id = st'.id ∧ g.num = st'.num) ∧ ∀ s, st'.claimed s = (st'.num s == 0)) → Inv st' := by
    intro st' h1 h2 h3 h6 h4 h5
    have no : ∀ {j u}, st'.thr j = some u → False := by
      intro j u h; rw [h1, hn j] at h; cases h
    constructor
    · intro g' pc' h
      obtain ⟨rfl, hne, hw'⟩ := h4 g' pc' h
      exact ⟨h2 ▸ hin, fun _ => ⟨fun k => by rw [h1]; exact hn k, hw'⟩⟩
    · intro h
      cases hmk : st'.making with
      | none =>
        refine ⟨(h5 hmk).1, fun s hs => ?_, fun s hs => Or.inl ?_⟩
        · rw [(h5 hmk).2 s, hs]; rfl
        · rw [(h5 hmk).2 s] at hs
          simpa using hs
      | some p =>
        obtain ⟨g', pc'⟩ := p
        exact absurd (h g' pc' hmk) (h4 g' pc' hmk).2.1
    · intro j u h; exact absurd h (fun h => no h)
    · intro j u h; exact absurd h (fun h => no h)
    · intro j u n h; exact absurd h (fun h => no h)
    · rw [h3, h2]; exact v.right
    · rw [h6, h3, h2]; exact v.no
  cases pc with
  | ident =>
    refine fin _ rfl rfl rfl rfl ?_ (fun h => by cases h)
    intro g' pc' h
    cases h
    exact ⟨rfl, by decide, rfl⟩
  | num s =>
    have w := (hw (by intro h; cases h)).2
    refine fin _ rfl rfl rfl rfl ?_ (fun h => by cases h)
    intro g' pc' h
    cases h
    refine ⟨rfl, (by intro h; cases h), ?_⟩
    cases s with
    | x => exact ⟨w, rfl⟩
    | o => exact ⟨w.1, w.2.1, w.2.2, rfl⟩
  | flag s =>
    have w := (hw (by intro h; cases h)).2
    cases s with
    | x =>
      refine fin _ rfl rfl rfl rfl ?_ (fun h => by cases h)
      intro g' pc' h
      cases h
      exact ⟨rfl, by decide, w.1, w.2, rfl⟩
    | o =>
      refine fin _ rfl rfl rfl rfl (fun g' pc' h => by cases h) (fun _ => ⟨⟨g, hin, w.1.symm, ?_⟩, ?_⟩)
      · funext s
        cases s
        · exact w.2.1.symm
        · exact w.2.2.2.symm
      · intro s
        cases s
        · show st.claimed .x = (st.num .x == 0)
          rw [w.2.1]; exact w.2.2.1
        · show (g.num .o == 0) = (st.num .o == 0)
          rw [w.2.2.2]

theorem inv_step {st : St} (v : Inv st) (e : Ev) (c : Calm st e) : Inv (step st e) := by
  cases e with
  | make g =>
    simp only [step]
    split
    · exact v
    · next hm =>
      have hh := v.here (fun g' pc' h => by rw [hm] at h; cases h)
      constructor
      · intro g' pc' h
        have h : some (g, MkPc.ident) = some (g', pc') := h
        cases h
        exact ⟨List.mem_cons_self .., fun h => absurd rfl h⟩
      · intro _
        obtain ⟨⟨g', h1, h2⟩, h3⟩ := hh
        exact ⟨⟨g', List.mem_cons_of_mem _ h1, h2⟩, h3⟩
      · exact v.found
      · exact v.free
      · exact v.got
      · intro a ha
        obtain ⟨h0, g', h1, h2⟩ := v.right a ha
        exact ⟨h0, g', List.mem_cons_of_mem _ h1, h2⟩
      · intro p hp
        rcases v.no p hp with ⟨g', h1, h2⟩ | h
        · exact Or.inl ⟨g', List.mem_cons_of_mem _ h1, h2⟩
        · exact Or.inr h
  | mstep =>
    simp only [step]
    split
    · exact v
    · next g pc hm => exact inv_stepMk v hm (fun e => c g (e ▸ hm))
  | ask k gid s =>
    simp only [step]
    split
    · exact v
    · next hk =>
      have old : ∀ {j u}, setThr st.thr k (some ⟨gid, s, .look⟩) j = some u → u = ⟨gid, s, .look⟩ ∨ st.thr j = some u := by
        intro j u h
        by_cases e : j = k
        · subst e
          rw [setThr_same] at h
          simp only [Option.some.injEq] at h
          exact Or.inl h.symm
        · rw [setThr_ne _ _ e] at h; exact Or.inr h
      constructor
      · intro g pc h
        exact ⟨(v.mid g pc h).1, fun hne => absurd (c g pc h) hne⟩
      · exact v.here
      · intro j u hj hu
        rcases old hj with rfl | h
        · exact absurd rfl hu
        · exact v.found j u h hu
      · intro j u hj hu
        rcases old hj with rfl | h
        · cases hu
        · exact v.free j u h hu
      · intro j u n hj hu
        rcases old hj with rfl | h
        · cases hu
        · exact v.got j u n h hu
      · exact v.right
      · exact v.no
  | step k =>
    simp only [step]
    split
    · exact v
    · next t hk => exact inv_stepThr v hk

theorem inv_hist (g : Game) : ∀ es, All g Calm es → Inv (hist g es)
  | [], _ => inv_init g
  | e :: es, c => inv_step (inv_hist g es c.2) e c.1

/-! ## The theorems -/

/-- C138, part: if the number of the game is changed only while no claim is under way, and no claim comes before the seats are written, every client who is given a seat is told the number of that seat in a
game of the number they asked for, and no seat of an engine is given away; any number of claims at the same time. -/
theorem C138_partial (g : Game) (es : List Ev) (c : All g Calm es) : ∀ a ∈ (hist g es).grants, a.Right (hist g es).games :=
  (inv_hist g es c).right

/-- C138, part: under the same condition a seat is refused only if it is an engine's or was given to a client who asked for it in the same game. -/
theorem C138_refused_partial (g : Game) (es : List Ev) (c : All g Calm es) : ∀ p ∈ (hist g es).refused, Taken (hist g es).games (hist g es).grants p :=
  (inv_hist g es c).no

/-! ## Each seat is given once -/

/-- No seat is claimed while another claim of the same seat is under way, and new games have numbers not used before. -/
def Single (st : St) : Ev → Prop
  | .ask _ _ s => ∀ j t, st.thr j = some t → t.seat ≠ s
  | .make g => ∀ g' ∈ st.games, g'.id ≠ g.id
  | _ => True

structure Inv2 (st : St) : Prop where
  once : st.grants.Pairwise (fun a b => a.gid = b.gid → a.seat ≠ b.seat)
  one : ∀ j k t u, st.thr j = some t → st.thr k = some u → t.seat = u.seat → j = k
  free : (∀ g pc, st.making = some (g, pc) → pc = .ident) → ∀ s, st.claimed s = false → ∀ a ∈ st.grants, a.gid = st.id → a.seat ≠ s
  busy : ∀ k t, st.thr k = some t → t.pc ≠ .look → t.pc ≠ .test → ∀ a ∈ st.grants, a.gid = st.id → a.seat ≠ t.seat
  fresh : ∀ g pc, st.making = some (g, pc) → ∀ a ∈ st.grants, a.gid ≠ g.id
  other : ∀ g, st.making = some (g, .ident) → st.id ≠ g.id

theorem inv2_init (g : Game) : Inv2 (init g) := by
  constructor
  · exact List.Pairwise.nil
  · intro j k t u h; cases h
  · intro _ s _ a h; cases h
  · intro k t h; cases h
  · intro g' pc h; cases h
  · intro g' h; cases h

/-- A thread goes on or leaves without a grant. -/
theorem inv2_thr {st : St} (w : Inv2 st) {k : Nat} {t : Thr} (hk : st.thr k = some t) (t' : Option Thr) (rs : List (Nat × Seat))
    (hs : ∀ u, t' = some u → u.seat = t.seat)
    (hb : ∀ u, t' = some u → u.pc ≠ .look → u.pc ≠ .test → ∀ a ∈ st.grants, a.gid = st.id → a.seat ≠ u.seat) :
    Inv2 { st with thr := setThr st.thr k t', refused := rs } := by
  have old : ∀ {j u}, setThr st.thr k t' j = some u → ∃ u', st.thr j = some u' ∧ u'.seat = u.seat := by
    intro j u h
    by_cases e : j = k
    · subst e; rw [setThr_same] at h; exact ⟨t, hk, (hs u h).symm⟩
    · rw [setThr_ne _ _ e] at h; exact ⟨u, h, rfl⟩
  constructor
  · exact w.once
  · intro i j a b hi hj hab
    obtain ⟨a', ha, ha'⟩ := old hi
    obtain ⟨b', hb, hb'⟩ := old hj
    exact w.one i j a' b' ha hb (by rw [ha', hb', hab])
  · exact w.free
  · intro j u hj h1 h2
    by_cases e : j = k
    · subst e
      have hj : setThr st.thr j t' j = some u := hj
      rw [setThr_same] at hj
      exact hb u hj h1 h2
    · have hj : setThr st.thr k t' j = some u := hj
      rw [setThr_ne _ _ e] at hj
      exact w.busy j u hj h1 h2
  · exact w.fresh
  · exact w.other

theorem inv2_stepThr {st : St} (v : Inv st) (w : Inv2 st) {k : Nat} {t : Thr} (hk : st.thr k = some t) : Inv2 (stepThr st k t) := by
  unfold stepThr
  split
  · split
    · refine inv2_thr w hk _ st.refused ?_ ?_
      · intro u e; cases e; rfl
      · intro u e _ h; cases e; exact absurd rfl h
    · exact inv2_thr w hk none st.refused (fun _ h => by cases h) (fun _ h => by cases h)
  · split
    · exact inv2_thr w hk none _ (fun _ h => by cases h) (fun _ h => by cases h)
    · next hc =>
      refine inv2_thr w hk _ st.refused ?_ ?_
      · intro u e; cases e; rfl
      · intro u e _ _
        cases e
        exact w.free (v.still hk) t.seat (by simpa using hc)
  · next hp =>
    refine inv2_thr w hk _ st.refused ?_ ?_
    · intro u e; cases e; rfl
    · intro u e _ _
      cases e
      exact w.busy k t hk (by rw [hp]; intro h; cases h) (by rw [hp]; intro h; cases h)
  · next n hp =>
    have hf := v.found k t hk (by rw [hp]; intro h; cases h)
    have hb := w.busy k t hk (by rw [hp]; intro h; cases h) (by rw [hp]; intro h; cases h)
    have old : ∀ {j u}, setThr st.thr k none j = some u → j ≠ k ∧ st.thr j = some u := by
      intro j u h
      by_cases e : j = k
      · subst e; rw [setThr_same] at h; cases h
      · rw [setThr_ne _ _ e] at h; exact ⟨e, h⟩
    constructor
    · refine List.Pairwise.cons ?_ w.once
      intro a ha hg
      exact fun e => hb a ha (hg.symm.trans hf) e.symm
    · intro i j a b hi hj hab
      exact w.one i j a b (old hi).2 (old hj).2 hab
    · intro hm s hs a ha hid
      have hs : (if s = t.seat then true else st.claimed s) = false := hs
      split at hs
      · cases hs
      · next hne =>
        rcases List.mem_cons.mp ha with rfl | ha
        · exact fun e => hne e.symm
        · exact w.free hm s hs a ha hid
    · intro j u hj h1 h2 a ha hid
      obtain ⟨hne, hj⟩ := old hj
      rcases List.mem_cons.mp ha with rfl | ha
      · exact fun e => hne (w.one j k u t hj hk e.symm)
      · exact w.busy j u hj h1 h2 a ha hid
    · intro g pc hm a ha
      rcases List.mem_cons.mp ha with rfl | ha
      · have e := v.still hk g pc hm
        subst e
        show t.gid ≠ g.id
        rw [hf]
        exact w.other g hm
      · exact w.fresh g pc hm a ha
    · exact w.other

theorem inv2_stepMk {st : St} (v : Inv st) (w : Inv2 st) {g : Game} {pc : MkPc} (hm : st.making = some (g, pc)) (hc : pc = .ident → ∀ k, st.thr k = none) :
    Inv2 (stepMk st g pc) := by
  have hn : ∀ k, st.thr k = none := by
    by_cases e : pc = .ident
    · exact hc e
    · exact ((v.mid g pc hm).2 e).1
  have fr := w.fresh g pc hm
  have fin : ∀ (st' : St), st'.thr = st.thr → st'.grants = st.grants →
      (∀ g' pc', st'.making = some (g', pc') → g' = g ∧ pc' ≠ .ident) → (st'.making = none → st'.id = g.id) → Inv2 st' := by
    intro st' h1 h2 h3 h4
    have no : ∀ {j u}, st'.thr j = some u → False := by
      intro j u h; rw [h1, hn j] at h; cases h
    constructor
    · rw [h2]; exact w.once
    · intro i j a b hi; exact (no hi).elim
    · intro hh s _ a ha hid
      cases hmk : st'.making with
      | none =>
        rw [h2] at ha
        exact absurd (hid.trans (h4 hmk)) (fr a ha)
      | some p => exact absurd (hh p.1 p.2 hmk) (h3 p.1 p.2 hmk).2
    · intro j u hj; exact (no hj).elim
    · intro g' pc' hmk a ha
      rw [(h3 g' pc' hmk).1]
      rw [h2] at ha
      exact fr a ha
    · intro g' hmk
      exact absurd rfl (h3 g' _ hmk).2
  cases pc with
  | ident =>
    refine fin _ rfl rfl ?_ (fun h => by cases h)
    intro g' pc' h; cases h; exact ⟨rfl, by decide⟩
  | num s =>
    refine fin _ rfl rfl ?_ (fun h => by cases h)
    intro g' pc' h; cases h; exact ⟨rfl, (by intro h; cases h)⟩
  | flag s =>
    cases s with
    | x =>
      refine fin _ rfl rfl ?_ (fun h => by cases h)
      intro g' pc' h; cases h; exact ⟨rfl, by decide⟩
    | o => exact fin _ rfl rfl (fun g' pc' h => by cases h) (fun _ => ((v.mid g _ hm).2 (by decide)).2.1)

theorem inv2_step {st : St} (v : Inv st) (w : Inv2 st) (e : Ev) (c : Calm st e) (o : Single st e) : Inv2 (step st e) := by
  cases e with
  | make g =>
    simp only [step]
    split
    · exact w
    · next hm =>
      have none' : ∀ g' pc', st.making = some (g', pc') → pc' = .ident := fun g' pc' h => by rw [hm] at h; cases h
      constructor
      · exact w.once
      · exact w.one
      · intro _; exact w.free none'
      · exact w.busy
      · intro g' pc' h a ha
        have h : some (g, MkPc.ident) = some (g', pc') := h
        cases h
        obtain ⟨_, g', h1, h2, _⟩ := v.right a ha
        exact h2 ▸ o g' h1
      · intro g' h
        have h : some (g, MkPc.ident) = some (g', MkPc.ident) := h
        cases h
        obtain ⟨g', h1, h2, _⟩ := (v.here none').1
        exact h2 ▸ o g' h1
  | mstep =>
    simp only [step]
    split
    · exact w
    · next g pc hm => exact inv2_stepMk v w hm (fun e => c g (e ▸ hm))
  | ask k gid s =>
    simp only [step]
    split
    · exact w
    · next hk =>
      have old : ∀ {j u}, setThr st.thr k (some ⟨gid, s, .look⟩) j = some u → (j = k ∧ u = ⟨gid, s, .look⟩) ∨ st.thr j = some u := by
        intro j u h
        by_cases e : j = k
        · subst e
          rw [setThr_same] at h
          simp only [Option.some.injEq] at h
          exact Or.inl ⟨rfl, h.symm⟩
        · rw [setThr_ne _ _ e] at h; exact Or.inr h
      constructor
      · exact w.once
      · intro i j a b hi hj hab
        rcases old hi with ⟨rfl, rfl⟩ | hi'
        · rcases old hj with ⟨rfl, rfl⟩ | hj'
          · rfl
          · exact absurd hab.symm (o j b hj')
        · rcases old hj with ⟨rfl, rfl⟩ | hj'
          · exact absurd hab (o i a hi')
          · exact w.one i j a b hi' hj' hab
      · exact w.free
      · intro j u hj h1 h2
        rcases old hj with ⟨rfl, rfl⟩ | hj'
        · exact absurd rfl h1
        · exact w.busy j u hj' h1 h2
      · exact w.fresh
      · exact w.other
  | step k =>
    simp only [step]
    split
    · exact w
    · next t hk => exact inv2_stepThr v w hk

theorem inv2_hist (g : Game) : ∀ es, All g Calm es → All g Single es → Inv2 (hist g es)
  | [], _, _ => inv2_init g
  | e :: es, c, o => inv2_step (inv_hist g es c.2) (inv2_hist g es c.2 o.2) e c.1 o.1

/-- C138, part: if besides no seat is claimed while another claim of the same seat is under way, and games have different numbers, no seat of any of the games, however many follow each other, is given
to two clients. -/
theorem C138_once_partial (g : Game) (es : List Ev) (c : All g Calm es) (o : All g Single es) :
    (hist g es).grants.Pairwise (fun a b => a.gid = b.gid → a.seat ≠ b.seat) :=
  (inv2_hist g es c o).once

/-! ## Cases -/

/-- Two clients; an engine as X against a client. -/
def g1 : Game := ⟨100, fun | .x => 11 | .o => 12⟩
def g2 : Game := ⟨200, fun | .x => 0 | .o => 22⟩

def newGame (g : Game) : List Ev := [.make g, .mstep, .mstep, .mstep, .mstep, .mstep]

def claiming (k gid : Nat) (s : Seat) : List Ev := [.ask k gid s, .step k, .step k, .step k, .step k]

/-- Events in the order in which they happen. -/
def play (l : List Ev) : List Ev := l.reverse

/-- Claims in two games, one after the other; X of the second is an engine. -/
def fine : List Ev := play (claiming 0 100 .x ++ claiming 1 100 .o ++ newGame g2 ++ claiming 0 200 .x ++ claiming 1 200 .o)

example : (hist g1 fine).grants = [⟨200, .o, 22⟩, ⟨100, .o, 12⟩, ⟨100, .x, 11⟩] := by decide +kernel

example : (hist g1 (play (claiming 0 200 .x) ++ fine)).refused = [(200, .x), (200, .x)] := by decide +kernel

example : All g1 Calm (play (claiming 0 100 .x ++ newGame g2)) := by
  simp only [play, newGame, claiming, List.cons_append, List.nil_append, List.reverse_cons, List.reverse_nil, All, Calm, and_true, true_and]
  refine ⟨?_, ?_, ?_, ?_, ?_, ?_⟩
  rotate_right
  · intro g pc h; cases h
  · intro g h; cases h
  · intro g h; cases h
  · intro g h; cases h
  · intro g h; cases h
  · intro g _ k
    show (if k = 0 then none else if k = 0 then _ else if k = 0 then _ else if k = 0 then _ else if k = 0 then _ else none) = none
    split
    · rfl
    · rfl

example : All g1 Single (play (claiming 0 100 .x ++ newGame g2)) := by
  simp only [play, newGame, claiming, List.cons_append, List.nil_append, List.reverse_cons, List.reverse_nil, All, Single, and_true, true_and]
  refine ⟨?_, ?_⟩
  · intro g' h
    have h : g' ∈ [g1] := h
    rw [List.mem_singleton] at h
    subst h
    decide
  · intro j t h; cases h

/-- Without `Single` a seat is given twice (see `Samples/ClaimRace.lean`). -/
example : (hist g1 (play [.ask 0 100 .x, .ask 1 100 .x, .step 0, .step 0, .step 1, .step 1, .step 0, .step 0, .step 1, .step 1])).grants = [⟨100, .x, 11⟩, ⟨100, .x, 11⟩] := by
  decide +kernel

/-! ## Where the whole claim fails -/

/-- The next game is again one of two clients. -/
def g3 : Game := ⟨300, fun | .x => 31 | .o => 32⟩

/-- Both seats of the first game are taken; a late claim of X, which would be refused, has just found the game when it is replaced. -/
def late : List Ev :=
  play (claiming 0 100 .x ++ claiming 1 100 .o ++ [.ask 2 100 .x, .step 2] ++ newGame g3 ++ [.step 2, .step 2, .step 2] ++ claiming 3 300 .x)

/-- The late claim of a seat of game 100 is given X of game 300, with its number, and the client who claims X of game 300 is refused. -/
theorem C138_violated_late : (hist g1 late).grants = [⟨100, .x, 31⟩, ⟨100, .o, 12⟩, ⟨100, .x, 11⟩] := by decide +kernel

/-- Two claims of X at the same time, of which one is held up until the game is replaced by one with an engine as X: it is told the number of the engine, 0. -/
def held : List Ev :=
  play ([.ask 2 100 .x, .step 2, .step 2] ++ claiming 0 100 .x ++ claiming 1 100 .o ++ newGame g2 ++ [.step 2, .step 2])

theorem C138_violated_engine : (hist g1 held).grants = [⟨100, .x, 0⟩, ⟨100, .o, 12⟩, ⟨100, .x, 11⟩] := by decide +kernel

/-- The client who comes while the seats of the new game are being written, here after the number of X and before its flag, is refused a seat that is free: the flag is still that of the game before. -/
def early : List Ev :=
  play (claiming 0 100 .x ++ claiming 1 100 .o ++ [.make g3, .mstep, .mstep, .ask 2 300 .x, .step 2, .step 2, .mstep, .mstep, .mstep])

theorem C138_violated_refused :
    (hist g1 early).refused = [(300, .x)] ∧ (hist g1 early).grants = [⟨100, .o, 12⟩, ⟨100, .x, 11⟩] ∧ (hist g1 early).claimed .x = false ∧ (hist g1 early).num .x = 31 := by
  decide +kernel

/-- The whole claim fails. -/
theorem C138_violated : ¬C138Full := by
  intro h
  obtain ⟨h0, _⟩ := (h g1 held).1 ⟨100, .x, 0⟩ (by rw [C138_violated_engine]; exact List.mem_cons_self ..)
  exact h0 rfl

end Abc.ClaimReplace
