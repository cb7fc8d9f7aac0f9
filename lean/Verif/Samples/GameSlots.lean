import Mathlib.Tactic.ByContra
import Mathlib.Data.List.Perm.Subperm
import Mathlib.Data.List.Nodup

/-!
# Games asked for at the same time

Every request runs in a thread of its own (`src/endpoint.h` 69-97), and nothing is locked in the two games (`samples/tictactoe/game.h`,
`samples/connect4/game.h`).  Here the place of a new game among the games of the server is taken apart: `create_game` (`tictactoe` 759-802, `connect4`
978-1021) reads and writes `_game_count` and the games one access at a time, while `claim_player`, `accept_move` and `get_moves` look for
a game by its number (`tictactoe` 1007-1008, 1180-1181, 1283-1284; `connect4` 1226-1227, 1399-1400, 1502-1503).

Simplifications: of a game there is its number and whether it is over; the writes of the number and of the players (`endpoint_game::reset`,
`tictactoe` 617-621; `connect4` 836-840) are one step; a game ends by an event of its own, for the moves see `Samples/GameRace.lean`.  `max` is `max_game_count`, 1 in
both samples (`tictactoe/game.i.h` 288, `connect4/game.i.h` 315); everything holds for any number.  An access outside `_games` sets a flag and
finds nothing there.
-/

namespace Abc.GameSlots

/-- Of an `endpoint_game`: `_endpoint_game_id` and `_board._is_game_over`, with their initial values (`tictactoe/game.i.h` 275). -/
structure Slot where
  id : Nat := 0
  over : Bool := false
deriving DecidableEq

/-- Where a thread is.  In `create_game` (lines of tic-tac-toe): before the test of `_game_count` (761), before reading it (762), before writing it, before reading
`is_game_over` of a game (765-766), before `_board.reset()` (802, 615, 530), before the writes of the number (617).  In the search for a
game: before the test of the loop (1007), before reading the number (1008). -/
inductive Pc where
  | test | take | store (n : Nat) | scan (i : Nat) | board (i : Nat) | ident (i : Nat)
  | look (i : Nat) | read (i : Nat)
deriving DecidableEq

/-- A request: the number drawn for the new game, or the number looked for.  For the statements only, `note`: for a new game, whether there was a time since the
request came at which as many games as the server has room for were running; for a search, whether the game was running when the request came. -/
structure Thr where
  id : Nat
  pc : Pc
  note : Bool
deriving DecidableEq

/-- The answers: a new game; no room (503), with the note; a game found, with whether there ever was one of that number; a game not found, with
whether it was running when the request came and still is. -/
inductive Ans where
  | game (g : Nat) | full (tight : Bool) | found (g : Nat) (known : Bool) | none (g : Nat) (lost : Bool)
deriving DecidableEq

/-- `_game_count`, the games, the threads; and for the statements only: the numbers drawn, those of the games made, those of the games
running; the answers; whether something outside `_games` was read. -/
structure St where
  count : Nat := 0
  slot : Nat → Slot := fun _ => {}
  thr : Nat → Option Thr := fun _ => Option.none
  drawn : List Nat := []
  made : List Nat := []
  run : List Nat := []
  answers : List Ans := []
  oob : Bool := false

/-- Thread `k` is asked for a game, for which the number `g` will be drawn; it is asked for the game `g`; it makes a step; the game in a
place ends. -/
inductive Ev where
  | create (k g : Nat)
  | find (k g : Nat)
  | step (k : Nat)
  | ends (i : Nat)

def setThr (f : Nat → Option Thr) (k : Nat) (t : Option Thr) : Nat → Option Thr := fun j => if j = k then t else f j

def setSlot (f : Nat → Slot) (i : Nat) (s : Slot) : Nat → Slot := fun j => if j = i then s else f j

def St.goto (st : St) (k : Nat) (t : Thr) (pc : Pc) : St := { st with thr := setThr st.thr k (some { t with pc := pc }) }

def St.ret (st : St) (k : Nat) (a : Ans) : St := { st with thr := setThr st.thr k none, answers := st.answers ++ [a] }

/-- A step of a thread: `create_game` (`tictactoe` 759-802) with `endpoint_game::reset` (615-621), and the loop of a search (1007-1008). -/
def stepThr (max : Nat) (st : St) (k : Nat) (t : Thr) : St :=
  match t.pc with
  | .test => st.goto k t (if st.count < max then .take else .scan 0)
  | .take => st.goto k t (.store st.count)
  | .store n => { (if n < max then st.goto k t (.board n) else st.ret k (.full t.note)) with count := n + 1 }
  | .scan i => if i < max then st.goto k t (if (st.slot i).over then .board i else .scan (i + 1)) else st.ret k (.full t.note)
  | .board i => { st.goto k t (.ident i) with slot := setSlot st.slot i { st.slot i with over := false } }
  | .ident i => { st.ret k (.game t.id) with slot := setSlot st.slot i { st.slot i with id := t.id }, made := t.id :: st.made, run := t.id :: st.run }
  | .look i => if i < st.count then st.goto k t (.read i) else st.ret k (.none t.id (t.note && decide (t.id ∈ st.run)))
  | .read i =>
    if i < max then
      (if (st.slot i).id = t.id then st.ret k (.found t.id (decide (t.id ∈ st.made))) else st.goto k t (.look (i + 1)))
    else { st.goto k t (.look (i + 1)) with oob := true }

/-- The thread is in `create_game`. -/
def Pc.creates : Pc → Bool
  | .look _ => false
  | .read _ => false
  | _ => true

/-- The requests for a game note that there is no room. -/
def note (max : Nat) (st : St) : St :=
  { st with thr := fun k => (st.thr k).map fun t => if t.pc.creates then { t with note := t.note || decide (max ≤ st.run.length) } else t }

def step0 (max : Nat) (st : St) : Ev → St
  | .create k g => match st.thr k with
    | some _ => st
    | none => { st with thr := setThr st.thr k (some ⟨g, .test, false⟩), drawn := g :: st.drawn }
  | .find k g => match st.thr k with
    | some _ => st
    | none => { st with thr := setThr st.thr k (some ⟨g, .look 0, decide (g ∈ st.run)⟩) }
  | .step k => match st.thr k with
    | none => st
    | some t => stepThr max st k t
  | .ends i => if (st.slot i).id ∈ st.run then { st with slot := setSlot st.slot i { st.slot i with over := true }, run := st.run.erase (st.slot i).id } else st

def step (max : Nat) (st : St) (e : Ev) : St := note max (step0 max st e)

/-- A history, newest event first. -/
def hist (max : Nat) : List Ev → St
  | [] => {}
  | e :: es => step max (hist max es) e

/-- Every event of a history meets a condition. -/
def All (max : Nat) (P : St → Ev → Prop) : List Ev → Prop
  | [] => True
  | e :: es => P (hist max es) e ∧ All max P es

/-! ## What is expected -/

/-- The answer is right: a game is refused only if the server was full, what is found was made, and what is running is found. -/
def Ans.Right : Ans → Prop
  | .game _ => True
  | .full tight => tight = true
  | .found _ known => known = true
  | .none _ lost => lost = false

/-- Nothing outside the games is read, the answers are right, the games running have their places, and there are not more of them. -/
structure Good (max : Nat) (st : St) : Prop where
  inside : st.oob = false
  right : ∀ a ∈ st.answers, a.Right
  kept : ∀ g ∈ st.run, ∃ i, i < max ∧ (st.slot i).id = g ∧ (st.slot i).over = false
  room : st.run.length ≤ max

/-- The numbers drawn are new, and not 0; a search for 0 is refused earlier (`tictactoe` 997, 1095, 1273). -/
def Fresh (st : St) : Ev → Prop
  | .create _ g => g ≠ 0 ∧ g ∉ st.drawn
  | .find _ g => g ≠ 0
  | _ => True

/-- No thread begins to make a game while another has begun and is not done. -/
def OneMaker (st : St) : Ev → Prop
  | .step k => ∀ t, st.thr k = some t → t.pc = .test → ∀ j u, st.thr j = some u → u.pc.creates = true → u.pc = .test
  | _ => True

/-- The whole claim. -/
def C134Full : Prop := ∀ max es, All max Fresh es → Good max (hist max es)

/-! ## Proofs -/

/-- Past the first test. -/
def Pc.busy : Pc → Bool
  | .test => false
  | .look _ => false
  | .read _ => false
  | _ => true

/-- The games, with `x` the place that is being prepared. -/
structure Core (max : Nat) (st : St) (x : Option Nat) : Prop where
  cnt : st.count ≤ max
  beyond : ∀ i, st.count ≤ i → st.slot i = {}
  ids : ∀ i, (st.slot i).id = 0 ∨ (st.slot i).id ∈ st.made
  uniq : ∀ i j, (st.slot i).id = (st.slot j).id → (st.slot i).id ≠ 0 → i = j
  nz : ∀ i, i < st.count → x ≠ some i → (st.slot i).id ≠ 0
  live : ∀ g, g ∈ st.run ↔ ∃ i, i < st.count ∧ x ≠ some i ∧ (st.slot i).id = g ∧ (st.slot i).over = false
  nodup : st.run.Nodup
  mz : ∀ g ∈ st.made, g ≠ 0
  md : ∀ g ∈ st.made, g ∈ st.drawn

/-- What is looked for is still ahead. -/
def Ahead (st : St) (t : Thr) (i : Nat) : Prop :=
  t.note = true → t.id ∈ st.run → ∃ j, i ≤ j ∧ j < st.count ∧ (st.slot j).id = t.id

def Place (max : Nat) (st : St) (x : Option Nat) (t : Thr) : Prop :=
  match t.pc with
  | .test => True
  | .take => st.count < max ∧ x = none
  | .store n => n = st.count ∧ n < max ∧ x = none
  | .scan i => st.count = max ∧ x = none ∧ (t.note = true ∨ max ≤ st.run.length ∨ ∃ j, i ≤ j ∧ j < max ∧ (st.slot j).over = true)
  | .board i => i < st.count ∧ (st.slot i).id ∉ st.run ∧ (x = some i ∨ x = none ∧ (st.slot i).over = true)
  | .ident i => i < st.count ∧ (st.slot i).id ∉ st.run ∧ (st.slot i).over = false ∧ x = some i
  | .look i => Ahead st t i
  | .read i => i < st.count ∧ Ahead st t i

structure TOk (max : Nat) (st : St) (x : Option Nat) (t : Thr) : Prop where
  nz : t.id ≠ 0
  new : t.pc.creates = true → t.id ∈ st.drawn ∧ t.id ∉ st.made
  old : t.pc.creates = false → t.note = true → t.id ∈ st.made
  place : Place max st x t

structure Inv (max : Nat) (st : St) (x : Option Nat) : Prop where
  core : Core max st x
  tok : ∀ k t, st.thr k = some t → TOk max st x t
  one : ∀ j k t u, st.thr j = some t → st.thr k = some u → t.pc.busy = true → u.pc.busy = true → j = k
  dist : ∀ j k t u, st.thr j = some t → st.thr k = some u → t.pc.creates = true → u.pc.creates = true → t.id = u.id → j = k
  hx : ∀ i, x = some i → ∃ k t, st.thr k = some t ∧ t.pc.busy = true
  right : ∀ a ∈ st.answers, a.Right
  inside : st.oob = false

theorem setThr_same (f : Nat → Option Thr) (k : Nat) (t : Option Thr) : setThr f k t k = t := by simp [setThr]

theorem setThr_ne (f : Nat → Option Thr) {k j : Nat} (t : Option Thr) (h : j ≠ k) : setThr f k t j = f j := by simp [setThr, h]

theorem setSlot_same (f : Nat → Slot) (i : Nat) (s : Slot) : setSlot f i s i = s := by simp [setSlot]

theorem setSlot_ne (f : Nat → Slot) {i j : Nat} (s : Slot) (h : j ≠ i) : setSlot f i s j = f j := by simp [setSlot, h]

theorem busy_creates {p : Pc} (h : p.busy = true) : p.creates = true := by cases p <;> first | rfl | cases h

/-- A thread goes on. -/
theorem Inv.go {max : Nat} {st st' : St} {x x' : Option Nat} {k : Nat} {t : Thr} {pc : Pc} (v : Inv max st x) (hk : st.thr k = some t)
    (hthr : st'.thr = setThr st.thr k (some { t with pc := pc })) (hc : Core max st' x') (ht : TOk max st' x' { t with pc := pc })
    (ho : ∀ j u, j ≠ k → st.thr j = some u → TOk max st' x' u) (hcr : pc.creates = t.pc.creates)
    (hb : pc.busy = true → t.pc.busy = true ∨ ∀ j u, st.thr j = some u → u.pc.busy = false)
    (hx : ∀ i, x' = some i → pc.busy = true ∨ ∃ j u, j ≠ k ∧ st.thr j = some u ∧ u.pc.busy = true) (ha : st'.answers = st.answers) (hi : st'.oob = false) : Inv max st' x' := by
  have cases_ : ∀ j u, st'.thr j = some u → (j = k ∧ u = { t with pc := pc }) ∨ (j ≠ k ∧ st.thr j = some u) := by
    intro j u hj
    rw [hthr] at hj
    by_cases e : j = k
    · rw [e, setThr_same] at hj; injection hj with hj; exact .inl ⟨e, hj.symm⟩
    · rw [setThr_ne _ _ e] at hj; exact .inr ⟨e, hj⟩
  refine ⟨hc, ?_, ?_, ?_, ?_, by rw [ha]; exact v.right, hi⟩
  · intro j u hj
    rcases cases_ j u hj with ⟨_, rfl⟩ | ⟨e, hj⟩
    · exact ht
    · exact ho j u e hj
  · intro i j u w hi hj hbu hbw
    rcases cases_ i u hi with ⟨rfl, rfl⟩ | ⟨e, hi⟩ <;> rcases cases_ j w hj with ⟨rfl, rfl⟩ | ⟨e', hj⟩
    · rfl
    · rcases hb hbu with h | h
      · exact v.one _ _ _ _ hk hj h hbw
      · rw [h _ _ hj] at hbw; cases hbw
    · rcases hb hbw with h | h
      · exact v.one _ _ _ _ hi hk hbu h
      · rw [h _ _ hi] at hbu; cases hbu
    · exact v.one _ _ _ _ hi hj hbu hbw
  · intro i j u w hi hj hbu hbw he
    rcases cases_ i u hi with ⟨rfl, rfl⟩ | ⟨e, hi⟩ <;> rcases cases_ j w hj with ⟨rfl, rfl⟩ | ⟨e', hj⟩
    · rfl
    · exact v.dist _ _ _ _ hk hj (by rw [← hcr]; exact hbu) hbw he
    · exact v.dist _ _ _ _ hi hk hbu (by rw [← hcr]; exact hbw) he
    · exact v.dist _ _ _ _ hi hj hbu hbw he
  · intro i e
    rcases hx i e with h | ⟨j, u, h1, h2, h3⟩
    · exact ⟨k, _, by rw [hthr, setThr_same], h⟩
    · exact ⟨j, u, by rw [hthr, setThr_ne _ _ h1]; exact h2, h3⟩

/-- A thread returns. -/
theorem Inv.leave {max : Nat} {st st' : St} {x x' : Option Nat} {k : Nat} {a : Ans} (v : Inv max st x)
    (hthr : st'.thr = setThr st.thr k none) (hc : Core max st' x') (ho : ∀ j u, j ≠ k → st.thr j = some u → TOk max st' x' u)
    (hx : ∀ i, x' = some i → ∃ j u, j ≠ k ∧ st.thr j = some u ∧ u.pc.busy = true)
    (ha : st'.answers = st.answers ++ [a]) (hr : a.Right) (hi : st'.oob = false) : Inv max st' x' := by
  have cases_ : ∀ j u, st'.thr j = some u → j ≠ k ∧ st.thr j = some u := by
    intro j u hj
    rw [hthr] at hj
    by_cases e : j = k
    · rw [e, setThr_same] at hj; cases hj
    · rw [setThr_ne _ _ e] at hj; exact ⟨e, hj⟩
  refine ⟨hc, fun j u hj => ho j u (cases_ j u hj).1 (cases_ j u hj).2, fun i j u w hi hj => v.one i j u w (cases_ i u hi).2 (cases_ j w hj).2,
    fun i j u w hi hj => v.dist i j u w (cases_ i u hi).2 (cases_ j w hj).2, (fun i e => by
      obtain ⟨j, u, h1, h2, h3⟩ := hx i e
      exact ⟨j, u, by rw [hthr, setThr_ne _ _ h1]; exact h2, h3⟩), ?_, hi⟩
  rw [ha]
  intro b hb
  rcases List.mem_append.1 hb with hb | hb
  · exact v.right b hb
  · rw [List.mem_singleton.1 hb]; exact hr

/-- The searches of others, when one thread makes a game. -/
theorem TOk.other {max : Nat} {st st' : St} {x x' : Option Nat} {u : Thr} (h : TOk max st x u) (hb : u.pc.busy = false)
    (hd : ∀ g ∈ st.drawn, g ∈ st'.drawn) (hm : ∀ g ∈ st.made, g ∈ st'.made) (hn : u.pc.creates = true → u.id ∉ st'.made) (hc : st.count ≤ st'.count)
    (hs : ∀ j, u.id ∈ st'.run → u.id ∈ st.made → u.id ∈ st.run ∧ ((st.slot j).id = u.id → (st'.slot j).id = u.id)) : TOk max st' x' u := by
  refine ⟨h.nz, fun hcr => ⟨hd _ (h.new hcr).1, hn hcr⟩, fun hcr hno => hm _ (h.old hcr hno), ?_⟩
  have p := h.place
  unfold Place at p ⊢
  have ahead : ∀ i, u.pc.creates = false → Ahead st u i → Ahead st' u i := by
    intro i hcr ha hno hr
    have hmd := h.old hcr hno
    obtain ⟨j, h1, h2, h3⟩ := ha hno (hs 0 hr hmd).1
    exact ⟨j, h1, Nat.lt_of_lt_of_le h2 hc, (hs j hr hmd).2 h3⟩
  cases e : u.pc <;> rw [e] at p hb <;> simp only at p ⊢ <;> first | trivial | cases hb
  · exact ahead _ (by rw [e]; rfl) p
  · exact ⟨Nat.lt_of_lt_of_le p.1 hc, ahead _ (by rw [e]; rfl) p.2⟩

/-- Others are not busy while one is. -/
theorem Inv.others {max : Nat} {st : St} {x : Option Nat} (v : Inv max st x) {k : Nat} {t : Thr} (hk : st.thr k = some t) (hb : t.pc.busy = true)
    {j : Nat} {u : Thr} (hj : j ≠ k) (hu : st.thr j = some u) : u.pc.busy = false := by
  by_contra h
  exact hj (v.one _ _ _ _ hu hk (by simpa using h) hb)

theorem Inv.quiet {max : Nat} {st : St} {x : Option Nat} (v : Inv max st x) (h : ∀ j u, st.thr j = some u → u.pc.busy = false) : x = none := by
  cases e : x with
  | none => rfl
  | some i =>
    obtain ⟨k, t, hk, hb⟩ := v.hx i e
    rw [h k t hk] at hb; cases hb

/-- With every place taken by a running game there is no room. -/
theorem Core.full {max : Nat} {st : St} (c : Core max st none) (hc : st.count = max) : max ≤ st.run.length ∨ ∃ j, 0 ≤ j ∧ j < max ∧ (st.slot j).over = true := by
  by_cases h : ∃ j, j < max ∧ (st.slot j).over = true
  · obtain ⟨j, h1, h2⟩ := h; exact .inr ⟨j, Nat.zero_le _, h1, h2⟩
  · refine .inl ?_
    have hn : ((List.range max).map fun i => (st.slot i).id).Nodup := by
      refine List.Nodup.map_on ?_ List.nodup_range
      intro i hi j hj e
      exact c.uniq i j e (c.nz i (by rw [hc]; exact List.mem_range.1 hi) (by simp))
    have hsub : ((List.range max).map fun i => (st.slot i).id) ⊆ st.run := by
      intro g hg
      obtain ⟨i, hi, rfl⟩ := List.mem_map.1 hg
      have hi := List.mem_range.1 hi
      refine (c.live _).2 ⟨i, by rw [hc]; exact hi, by simp, rfl, ?_⟩
      by_contra ho
      exact h ⟨i, hi, by simpa using ho⟩
    have := (List.subperm_of_subset hn hsub).length_le
    simpa using this

/-- The games running are not more than there are places. -/
theorem Core.room {max : Nat} {st : St} {x : Option Nat} (c : Core max st x) : st.run.length ≤ max := by
  have hsub : st.run ⊆ (List.range st.count).map fun i => (st.slot i).id := by
    intro g hg
    obtain ⟨i, hi, _, e, _⟩ := (c.live g).1 hg
    exact List.mem_map.2 ⟨i, List.mem_range.2 hi, e⟩
  have := (List.subperm_of_subset c.nodup hsub).length_le
  simp only [List.length_map, List.length_range] at this
  exact Nat.le_trans this c.cnt

theorem Core.run_made {max : Nat} {st : St} {x : Option Nat} (c : Core max st x) {g : Nat} (h : g ∈ st.run) : g ∈ st.made := by
  obtain ⟨i, hi, hx, e, _⟩ := (c.live g).1 h
  rcases c.ids i with h0 | h0
  · exact absurd h0 (c.nz i hi hx)
  · rw [← e]; exact h0

/-- A step that changes nothing but the thread itself. -/
theorem TOk.stay {max : Nat} {st : St} {x : Option Nat} {u : Thr} {th : Nat → Option Thr} {an : List Ans} {b : Bool} (h : TOk max st x u) :
    TOk max { st with thr := th, answers := an, oob := b } x u := ⟨h.nz, h.new, h.old, h.place⟩

theorem Core.stay {max : Nat} {st : St} {x : Option Nat} {th : Nat → Option Thr} {an : List Ans} {b : Bool} (h : Core max st x) :
    Core max { st with thr := th, answers := an, oob := b } x := ⟨h.cnt, h.beyond, h.ids, h.uniq, h.nz, h.live, h.nodup, h.mz, h.md⟩

/-- The requests for a game have noted if there is no room. -/
def Noted (max : Nat) (st : St) : Prop := ∀ k t, st.thr k = some t → t.pc.creates = true → max ≤ st.run.length → t.note = true

theorem inv_stepThr {max : Nat} {st : St} {x : Option Nat} (v : Inv max st x) (no : Noted max st) {k : Nat} {t : Thr} (hk : st.thr k = some t)
    (om : t.pc = .test → ∀ j u, st.thr j = some u → u.pc.creates = true → u.pc = .test) : ∃ x', Inv max (stepThr max st k t) x' := by
  have w := v.tok k t hk
  have p := w.place
  have c := v.core
  unfold Place at p
  unfold stepThr
  cases e : t.pc with
  | test =>
    have hq : ∀ j u, st.thr j = some u → u.pc.busy = false := by
      intro j u hu
      by_contra h
      have h : u.pc.busy = true := by simpa using h
      rw [om e j u hu (busy_creates h)] at h
      cases h
    have hx := v.quiet hq
    subst hx
    have hn := w.new (by rw [e]; rfl)
    simp only
    split
    · rename_i hlt
      exact ⟨none, v.go hk rfl c.stay ⟨w.nz, fun _ => hn, (fun h => by cases h), ⟨hlt, rfl⟩⟩ (fun j u _ hu => (v.tok j u hu).stay) (by rw [e]; rfl)
        (fun _ => .inr hq) (fun i h => by cases h) rfl v.inside⟩
    · rename_i hlt
      have hc : st.count = max := Nat.le_antisymm c.cnt (Nat.le_of_not_lt hlt)
      exact ⟨none, v.go hk rfl c.stay ⟨w.nz, fun _ => hn, (fun h => by cases h), ⟨hc, rfl, .inr (c.full hc)⟩⟩ (fun j u _ hu => (v.tok j u hu).stay) (by rw [e]; rfl)
        (fun _ => .inr hq) (fun i h => by cases h) rfl v.inside⟩
  | take =>
    rw [e] at p
    obtain ⟨p1, rfl⟩ := p
    have hn := w.new (by rw [e]; rfl)
    exact ⟨none, v.go hk rfl c.stay ⟨w.nz, fun _ => hn, (fun h => by cases h), ⟨rfl, p1, rfl⟩⟩ (fun j u _ hu => (v.tok j u hu).stay) (by rw [e]; rfl)
      (fun _ => .inl (by rw [e]; rfl)) (fun i h => by cases h) rfl v.inside⟩
  | store n =>
    rw [e] at p
    obtain ⟨rfl, p1, rfl⟩ := p
    have hn := w.new (by rw [e]; rfl)
    have h0 : (st.slot st.count).id = 0 := by rw [c.beyond _ (Nat.le_refl _)]
    simp only [if_pos p1]
    refine ⟨some st.count, v.go hk rfl ?_ ⟨w.nz, fun _ => hn, (fun h => by cases h), ?_⟩ ?_ (by rw [e]; rfl) (fun _ => .inl (by rw [e]; rfl)) (fun _ _ => .inl rfl) rfl v.inside⟩
    · refine ⟨p1, fun i hi => c.beyond i (Nat.le_of_succ_le hi), c.ids, c.uniq, ?_, ?_, c.nodup, c.mz, c.md⟩
      · intro i hi hx
        refine c.nz i ?_ (by simp)
        have : i ≠ st.count := fun h => hx (by rw [h])
        have hi : i < st.count + 1 := hi
        omega
      · intro g
        refine (c.live g).trans ?_
        constructor
        · rintro ⟨i, h1, _, h2, h3⟩
          exact ⟨i, Nat.lt_succ_of_lt h1, (fun h => by injection h with h; omega), h2, h3⟩
        · rintro ⟨i, h1, hx, h2, h3⟩
          have : i ≠ st.count := fun h => hx (by rw [h])
          have h1 : i < st.count + 1 := h1
          exact ⟨i, by omega, by simp, h2, h3⟩
    · refine ⟨Nat.lt_succ_self _, ?_, .inl rfl⟩
      intro h
      have h : (st.slot st.count).id ∈ st.run := h
      rw [h0] at h
      exact c.mz 0 (c.run_made h) rfl
    · intro j u hj hu
      exact (v.tok j u hu).other (v.others hk (by rw [e]; rfl) hj hu) (fun _ h => h) (fun _ h => h) (fun h => ((v.tok j u hu).new h).2) (Nat.le_succ _)
        (fun _ h _ => ⟨h, fun h => h⟩)
  | scan i =>
    rw [e] at p
    obtain ⟨hc, rfl, p1⟩ := p
    have hn := w.new (by rw [e]; rfl)
    have p2 : t.note = true ∨ ∃ j, i ≤ j ∧ j < max ∧ (st.slot j).over = true := by
      rcases p1 with h | h | h
      · exact .inl h
      · exact .inl (no k t hk (by rw [e]; rfl) h)
      · exact .inr h
    simp only
    by_cases hi : i < max
    · rw [if_pos hi]
      by_cases ho : (st.slot i).over = true
      · rw [if_pos ho]
        refine ⟨none, v.go hk rfl c.stay ⟨w.nz, fun _ => hn, (fun h => by cases h), ⟨by show i < st.count; rw [hc]; exact hi, ?_, .inr ⟨rfl, ho⟩⟩⟩
          (fun j u _ hu => (v.tok j u hu).stay) (by rw [e]; rfl) (fun _ => .inl (by rw [e]; rfl)) (fun i h => by cases h) rfl v.inside⟩
        intro h
        obtain ⟨j, hj, _, h1, h2⟩ := (c.live _).1 h
        have := c.uniq j i h1 (c.nz j hj (by simp))
        rw [this, ho] at h2; cases h2
      · rw [if_neg ho]
        refine ⟨none, v.go hk rfl c.stay ⟨w.nz, fun _ => hn, (fun h => by cases h), ⟨hc, rfl, ?_⟩⟩
          (fun j u _ hu => (v.tok j u hu).stay) (by rw [e]; rfl) (fun _ => .inl (by rw [e]; rfl)) (fun i h => by cases h) rfl v.inside⟩
        rcases p2 with h | ⟨j, h1, h2, h3⟩
        · exact .inl h
        · refine .inr (.inr ⟨j, ?_, h2, h3⟩)
          have : i ≠ j := fun h => ho (by rw [h]; exact h3)
          omega
    · rw [if_neg hi]
      refine ⟨none, v.leave rfl c.stay (fun j u _ hu => (v.tok j u hu).stay) (fun i h => by cases h) rfl ?_ v.inside⟩
      rcases p2 with h | ⟨j, h1, h2, _⟩
      · exact h
      · omega
  | board i =>
    rw [e] at p
    obtain ⟨hi, hr, px⟩ := p
    have hn := w.new (by rw [e]; rfl)
    have hid : ∀ j, (setSlot st.slot i { st.slot i with over := false } j).id = (st.slot j).id := by
      intro j
      by_cases h : j = i
      · rw [h, setSlot_same]
      · rw [setSlot_ne _ _ h]
    have hxj : ∀ j, x ≠ some j → (st.slot j).over = false → some i ≠ some j := by
      intro j h1 h2 h
      injection h with h
      subst h
      rcases px with h | ⟨_, h⟩
      · exact h1 h
      · rw [h] at h2; cases h2
    refine ⟨some i, v.go hk rfl ?_ ⟨w.nz, fun _ => hn, (fun h => by cases h), ⟨hi, by show (setSlot _ _ _ i).id ∉ st.run; rw [hid]; exact hr, by show (setSlot _ _ _ i).over = false; rw [setSlot_same], rfl⟩⟩ ?_
      (by rw [e]; rfl) (fun _ => .inl (by rw [e]; rfl)) (fun _ _ => .inl rfl) rfl v.inside⟩
    · refine ⟨c.cnt, ?_, ?_, ?_, ?_, ?_, c.nodup, c.mz, c.md⟩
      · intro j hj
        show setSlot st.slot i _ j = _
        have hj : st.count ≤ j := hj
        rw [setSlot_ne _ _ (by omega)]; exact c.beyond j hj
      · intro j; show (setSlot st.slot i _ j).id = 0 ∨ (setSlot st.slot i _ j).id ∈ st.made; rw [hid]; exact c.ids j
      · intro j l
        show (setSlot st.slot i _ j).id = (setSlot st.slot i _ l).id → (setSlot st.slot i _ j).id ≠ 0 → j = l
        rw [hid, hid]; exact c.uniq j l
      · intro j hj hx
        show (setSlot st.slot i _ j).id ≠ 0
        rw [hid]
        refine c.nz j hj ?_
        rcases px with h | ⟨h, _⟩
        · rw [h]; exact hx
        · rw [h]; simp
      · intro g
        refine (c.live g).trans ?_
        constructor
        · rintro ⟨j, h1, h2, h3, h4⟩
          have hne := hxj j h2 h4
          refine ⟨j, h1, hne, ?_, ?_⟩
          · show (setSlot st.slot i _ j).id = g; rw [hid]; exact h3
          · show (setSlot st.slot i _ j).over = false; rw [setSlot_ne _ _ (fun h => hne (by rw [h]))]; exact h4
        · rintro ⟨j, h1, h2, h3, h4⟩
          have hne : j ≠ i := fun h => h2 (by rw [h])
          have h3 : (setSlot st.slot i _ j).id = g := h3
          have h4 : (setSlot st.slot i _ j).over = false := h4
          rw [setSlot_ne _ _ hne] at h3 h4
          refine ⟨j, h1, ?_, h3, h4⟩
          rcases px with h | ⟨h, _⟩
          · rw [h]; exact h2
          · rw [h]; simp
    · intro j u hj hu
      exact (v.tok j u hu).other (v.others hk (by rw [e]; rfl) hj hu) (fun _ h => h) (fun _ h => h) (fun h => ((v.tok j u hu).new h).2) (Nat.le_refl _)
        (fun l h _ => ⟨h, fun h => by show (setSlot st.slot i _ l).id = _; rw [hid]; exact h⟩)
  | ident i =>
    rw [e] at p
    obtain ⟨hi, hr, ho, rfl⟩ := p
    have hn := w.new (by rw [e]; rfl)
    have hrun : t.id ∉ st.run := fun h => hn.2 (c.run_made h)
    have hfree : ∀ j, (st.slot j).id ≠ t.id := by
      intro j h
      rcases c.ids j with h0 | h0
      · rw [h0] at h; exact w.nz h.symm
      · rw [h] at h0; exact hn.2 h0
    refine ⟨none, v.leave rfl ?_ ?_ (fun i h => by cases h) rfl trivial v.inside⟩
    · refine ⟨c.cnt, ?_, ?_, ?_, ?_, ?_, List.nodup_cons.2 ⟨hrun, c.nodup⟩, ?_, ?_⟩
      · intro j hj
        show setSlot st.slot i _ j = _
        have hj : st.count ≤ j := hj
        rw [setSlot_ne _ _ (by omega)]; exact c.beyond j hj
      · intro j
        show (setSlot st.slot i _ j).id = 0 ∨ (setSlot st.slot i _ j).id ∈ t.id :: st.made
        by_cases h : j = i
        · rw [h, setSlot_same]; exact .inr List.mem_cons_self
        · rw [setSlot_ne _ _ h]
          rcases c.ids j with h0 | h0
          · exact .inl h0
          · exact .inr (List.mem_cons_of_mem _ h0)
      · intro j l
        show (setSlot st.slot i _ j).id = (setSlot st.slot i _ l).id → (setSlot st.slot i _ j).id ≠ 0 → j = l
        by_cases h : j = i <;> by_cases h' : l = i
        · intros; rw [h, h']
        · rw [h, setSlot_same, setSlot_ne _ _ h']; intro h1; exact absurd h1.symm (hfree l)
        · rw [h', setSlot_same, setSlot_ne _ _ h]; intro h1; exact absurd h1 (hfree j)
        · rw [setSlot_ne _ _ h, setSlot_ne _ _ h']; exact c.uniq j l
      · intro j hj _
        show (setSlot st.slot i _ j).id ≠ 0
        by_cases h : j = i
        · rw [h, setSlot_same]; exact w.nz
        · rw [setSlot_ne _ _ h]; exact c.nz j hj (fun h' => by injection h' with h'; exact h h'.symm)
      · intro g
        constructor
        · intro hg
          have hg : g ∈ t.id :: st.run := hg
          rcases List.mem_cons.1 hg with rfl | hg
          · refine ⟨i, hi, by simp, ?_, ?_⟩
            · show (setSlot st.slot i _ i).id = _; rw [setSlot_same]
            · show (setSlot st.slot i _ i).over = _; rw [setSlot_same]; exact ho
          · obtain ⟨j, h1, h2, h3, h4⟩ := (c.live g).1 hg
            have hne : j ≠ i := fun h => h2 (by rw [h])
            refine ⟨j, h1, by simp, ?_, ?_⟩
            · show (setSlot st.slot i _ j).id = _; rw [setSlot_ne _ _ hne]; exact h3
            · show (setSlot st.slot i _ j).over = _; rw [setSlot_ne _ _ hne]; exact h4
        · rintro ⟨j, h1, _, h3, h4⟩
          show g ∈ t.id :: st.run
          have h3 : (setSlot st.slot i _ j).id = g := h3
          have h4 : (setSlot st.slot i _ j).over = false := h4
          by_cases h : j = i
          · rw [h, setSlot_same] at h3; rw [← h3]; exact List.mem_cons_self
          · rw [setSlot_ne _ _ h] at h3 h4
            exact List.mem_cons_of_mem _ ((c.live g).2 ⟨j, h1, (fun h' => by injection h' with h'; exact h h'.symm), h3, h4⟩)
      · intro g hg
        have hg : g ∈ t.id :: st.made := hg
        rcases List.mem_cons.1 hg with rfl | hg
        · exact w.nz
        · exact c.mz g hg
      · intro g hg
        have hg : g ∈ t.id :: st.made := hg
        rcases List.mem_cons.1 hg with rfl | hg
        · exact hn.1
        · exact c.md g hg
    · intro j u hj hu
      refine (v.tok j u hu).other (v.others hk (by rw [e]; rfl) hj hu) (fun _ h => h) (fun _ h => List.mem_cons_of_mem _ h) ?_ (Nat.le_refl _) ?_
      · intro h hm
        have hm : u.id ∈ t.id :: st.made := hm
        rcases List.mem_cons.1 hm with h1 | h1
        · exact hj (v.dist _ _ _ _ hu hk h (by rw [e]; rfl) h1)
        · exact ((v.tok j u hu).new h).2 h1
      · intro l hru hm
        have hru : u.id ∈ t.id :: st.run := hru
        have hru : u.id ∈ st.run := by
          rcases List.mem_cons.1 hru with h1 | h1
          · rw [h1] at hm; exact absurd hm hn.2
          · exact h1
        refine ⟨hru, fun h => ?_⟩
        show (setSlot st.slot i _ l).id = _
        rw [setSlot_ne _ _ (fun h' => hr (by rw [← h', h]; exact hru))]
        exact h
  | look i =>
    rw [e] at p
    have p : Ahead st t i := p
    have hx : ∀ j, x = some j → ∃ l u, l ≠ k ∧ st.thr l = some u ∧ u.pc.busy = true := by
      intro j h
      obtain ⟨l, u, h1, h2⟩ := v.hx j h
      refine ⟨l, u, ?_, h1, h2⟩
      rintro rfl
      rw [hk] at h1; injection h1 with h1
      rw [← h1, e] at h2; cases h2
    simp only
    by_cases hi : i < st.count
    · rw [if_pos hi]
      exact ⟨x, v.go hk rfl c.stay ⟨w.nz, (fun h => by cases h), fun _ => w.old (by rw [e]; rfl), ⟨hi, p⟩⟩ (fun j u _ hu => (v.tok j u hu).stay) (by rw [e]; rfl)
        (fun h => by cases h) (fun j h => .inr (hx j h)) rfl v.inside⟩
    · rw [if_neg hi]
      refine ⟨x, v.leave rfl c.stay (fun j u _ hu => (v.tok j u hu).stay) hx rfl ?_ v.inside⟩
      show (t.note && decide (t.id ∈ st.run)) = false
      by_contra h
      have h : (t.note && decide (t.id ∈ st.run)) = true := by simpa using h
      rw [Bool.and_eq_true, decide_eq_true_eq] at h
      obtain ⟨j, h1, h2, _⟩ := p h.1 h.2
      omega
  | read i =>
    rw [e] at p
    obtain ⟨hi, p⟩ := p
    have hx : ∀ j, x = some j → ∃ l u, l ≠ k ∧ st.thr l = some u ∧ u.pc.busy = true := by
      intro j h
      obtain ⟨l, u, h1, h2⟩ := v.hx j h
      refine ⟨l, u, ?_, h1, h2⟩
      rintro rfl
      rw [hk] at h1; injection h1 with h1
      rw [← h1, e] at h2; cases h2
    simp only
    rw [if_pos (Nat.lt_of_lt_of_le hi c.cnt)]
    by_cases hid : (st.slot i).id = t.id
    · rw [if_pos hid]
      refine ⟨x, v.leave rfl c.stay (fun j u _ hu => (v.tok j u hu).stay) hx rfl ?_ v.inside⟩
      show decide (t.id ∈ st.made) = true
      rw [decide_eq_true_eq]
      rcases c.ids i with h | h
      · rw [hid] at h; exact absurd h w.nz
      · rw [← hid]; exact h
    · rw [if_neg hid]
      refine ⟨x, v.go hk rfl c.stay ⟨w.nz, (fun h => by cases h), fun _ => w.old (by rw [e]; rfl), ?_⟩ (fun j u _ hu => (v.tok j u hu).stay) (by rw [e]; rfl)
        (fun h => by cases h) (fun j h => .inr (hx j h)) rfl v.inside⟩
      intro h1 h2
      obtain ⟨j, h3, h4, h5⟩ := p h1 h2
      refine ⟨j, ?_, h4, h5⟩
      have : i ≠ j := fun h => hid (by rw [h]; exact h5)
      omega

/-- Taking notes changes nothing that matters. -/
theorem inv_note {max : Nat} {st : St} {x : Option Nat} (v : Inv max st x) : Inv max (note max st) x ∧ Noted max (note max st) := by
  have back : ∀ k t, (note max st).thr k = some t → ∃ u, st.thr k = some u ∧ t.pc = u.pc ∧ t.id = u.id ∧
      t.note = if u.pc.creates then u.note || decide (max ≤ st.run.length) else u.note := by
    intro k t h
    have h : (st.thr k).map (fun t => if t.pc.creates then { t with note := t.note || decide (max ≤ st.run.length) } else t) = some t := h
    cases e : st.thr k with
    | none => rw [e] at h; cases h
    | some u =>
      rw [e] at h
      injection h with h
      refine ⟨u, rfl, ?_⟩
      rw [← h]
      by_cases hc : u.pc.creates = true
      · simp [hc]
      · simp [hc]
  refine ⟨⟨⟨v.core.cnt, v.core.beyond, v.core.ids, v.core.uniq, v.core.nz, v.core.live, v.core.nodup, v.core.mz, v.core.md⟩, ?_, ?_, ?_, ?_, v.right, v.inside⟩, ?_⟩
  · intro k t h
    obtain ⟨u, hu, h1, h2, h3⟩ := back k t h
    have w := v.tok k u hu
    refine ⟨by rw [h2]; exact w.nz, by rw [h1, h2]; exact w.new, ?_, ?_⟩
    · intro hc hn
      rw [h1] at hc
      rw [hc] at h3
      rw [h2]
      exact w.old hc (by rw [← hn, h3]; simp)
    · have p := w.place
      unfold Place at p ⊢
      rw [h1]
      cases e : u.pc <;> rw [e] at p h3 <;> simp only at p ⊢ <;> try exact p
      · refine ⟨p.1, p.2.1, ?_⟩
        rcases p.2.2 with h | h
        · left; rw [h3, h]; rfl
        · exact .inr h
      · have h3 : t.note = u.note := h3
        unfold Ahead at p ⊢; rw [h2, h3]; exact p
      · have h3 : t.note = u.note := h3
        unfold Ahead at p ⊢; rw [h2, h3]; exact p
  · intro j k t u hj hk h1 h2
    obtain ⟨t', ht, e1, _⟩ := back j t hj
    obtain ⟨u', hu, e2, _⟩ := back k u hk
    exact v.one _ _ _ _ ht hu (by rw [← e1]; exact h1) (by rw [← e2]; exact h2)
  · intro j k t u hj hk h1 h2 h3
    obtain ⟨t', ht, e1, e1', _⟩ := back j t hj
    obtain ⟨u', hu, e2, e2', _⟩ := back k u hk
    exact v.dist _ _ _ _ ht hu (by rw [← e1]; exact h1) (by rw [← e2]; exact h2) (by rw [← e1', ← e2']; exact h3)
  · intro i h
    obtain ⟨k, t, hk, hb⟩ := v.hx i h
    have hk' : (note max st).thr k = some (if t.pc.creates then { t with note := t.note || decide (max ≤ st.run.length) } else t) := by
      show (st.thr k).map _ = _
      rw [hk]; rfl
    refine ⟨k, _, hk', ?_⟩
    split <;> exact hb
  · intro k t h hc hm
    obtain ⟨u, hu, h1, _, h3⟩ := back k t h
    have hm : max ≤ st.run.length := hm
    rw [h1] at hc
    rw [h3, if_pos hc, decide_eq_true hm, Bool.or_true]

theorem inv_step0 {max : Nat} {st : St} {x : Option Nat} (v : Inv max st x) (no : Noted max st) {e : Ev} (f : Fresh st e) (o : OneMaker st e) :
    ∃ x', Inv max (step0 max st e) x' := by
  cases e with
  | step k =>
    unfold step0
    simp only
    cases hk : st.thr k with
    | none => exact ⟨x, v⟩
    | some t => exact inv_stepThr v no hk (o t hk)
  | create k g =>
    unfold step0
    simp only
    cases hk : st.thr k with
    | some t => exact ⟨x, v⟩
    | none =>
      have hne : ∀ j u, st.thr j = some u → j ≠ k := by
        rintro j u hj rfl
        rw [hk] at hj; cases hj
      have hc := v.core
      have cases_ : ∀ j u, setThr st.thr k (some ⟨g, .test, false⟩) j = some u → (j = k ∧ u = ⟨g, .test, false⟩) ∨ st.thr j = some u := by
        intro j u hj
        by_cases e : j = k
        · rw [e, setThr_same] at hj; injection hj with hj; exact .inl ⟨e, hj.symm⟩
        · rw [setThr_ne _ _ e] at hj; exact .inr hj
      refine ⟨x, ⟨hc.cnt, hc.beyond, hc.ids, hc.uniq, hc.nz, hc.live, hc.nodup, hc.mz, fun a h => List.mem_cons_of_mem _ (hc.md a h)⟩, ?_, ?_, ?_, ?_, v.right, v.inside⟩
      · intro j u hj
        rcases cases_ j u hj with ⟨_, rfl⟩ | hj
        · exact ⟨f.1, fun _ => ⟨List.mem_cons_self, fun h => f.2 (hc.md g h)⟩, (fun h => by cases h), trivial⟩
        · have w := v.tok j u hj
          exact ⟨w.nz, fun h => ⟨List.mem_cons_of_mem _ (w.new h).1, (w.new h).2⟩, w.old, w.place⟩
      · intro i j u w hi hj h1 h2
        rcases cases_ i u hi with ⟨_, rfl⟩ | hi
        · cases h1
        · rcases cases_ j w hj with ⟨_, rfl⟩ | hj
          · cases h2
          · exact v.one _ _ _ _ hi hj h1 h2
      · intro i j u w hi hj h1 h2 h3
        rcases cases_ i u hi with ⟨e1, rfl⟩ | hi' <;> rcases cases_ j w hj with ⟨e2, rfl⟩ | hj'
        · rw [e1, e2]
        · exact absurd ((v.tok _ _ hj').new h2).1 (by rw [← h3]; exact f.2)
        · exact absurd ((v.tok _ _ hi').new h1).1 (by rw [h3]; exact f.2)
        · exact v.dist _ _ _ _ hi' hj' h1 h2 h3
      · intro i h
        obtain ⟨l, u, h1, h2⟩ := v.hx i h
        exact ⟨l, u, (setThr_ne _ _ (hne l u h1)).trans h1, h2⟩
  | find k g =>
    unfold step0
    simp only
    cases hk : st.thr k with
    | some t => exact ⟨x, v⟩
    | none =>
      have hne : ∀ j u, st.thr j = some u → j ≠ k := by
        rintro j u hj rfl
        rw [hk] at hj; cases hj
      have hc := v.core
      have cases_ : ∀ j u, setThr st.thr k (some ⟨g, .look 0, decide (g ∈ st.run)⟩) j = some u → (j = k ∧ u = ⟨g, .look 0, decide (g ∈ st.run)⟩) ∨ st.thr j = some u := by
        intro j u hj
        by_cases e : j = k
        · rw [e, setThr_same] at hj; injection hj with hj; exact .inl ⟨e, hj.symm⟩
        · rw [setThr_ne _ _ e] at hj; exact .inr hj
      refine ⟨x, hc.stay, ?_, ?_, ?_, ?_, v.right, v.inside⟩
      · intro j u hj
        rcases cases_ j u hj with ⟨_, rfl⟩ | hj
        · refine ⟨f, (fun h => by cases h), fun _ h => hc.run_made (of_decide_eq_true h), ?_⟩
          intro _ h
          obtain ⟨i, h1, _, h2, _⟩ := (hc.live g).1 h
          exact ⟨i, Nat.zero_le _, h1, h2⟩
        · exact (v.tok j u hj).stay
      · intro i j u w hi hj h1 h2
        rcases cases_ i u hi with ⟨_, rfl⟩ | hi
        · cases h1
        · rcases cases_ j w hj with ⟨_, rfl⟩ | hj
          · cases h2
          · exact v.one _ _ _ _ hi hj h1 h2
      · intro i j u w hi hj h1 h2 h3
        rcases cases_ i u hi with ⟨rfl, rfl⟩ | hi
        · cases h1
        · rcases cases_ j w hj with ⟨rfl, rfl⟩ | hj
          · cases h2
          · exact v.dist _ _ _ _ hi hj h1 h2 h3
      · intro i h
        obtain ⟨l, u, h1, h2⟩ := v.hx i h
        exact ⟨l, u, (setThr_ne _ _ (hne l u h1)).trans h1, h2⟩
  | ends i =>
    unfold step0
    simp only
    by_cases hr : (st.slot i).id ∈ st.run
    · rw [if_pos hr]
      have c := v.core
      have hid : ∀ j, (setSlot st.slot i { st.slot i with over := true } j).id = (st.slot j).id := by
        intro j
        by_cases h : j = i
        · rw [h, setSlot_same]
        · rw [setSlot_ne _ _ h]
      have h0 : (st.slot i).id ≠ 0 := c.mz _ (c.run_made hr)
      have hi : i < st.count := by
        by_contra h
        rw [c.beyond i (Nat.le_of_not_lt h)] at h0
        exact h0 rfl
      have hmem : ∀ g, g ∈ st.run.erase (st.slot i).id ↔ g ≠ (st.slot i).id ∧ g ∈ st.run := fun g => c.nodup.mem_erase_iff
      refine ⟨x, ⟨c.cnt, ?_, ?_, ?_, ?_, ?_, c.nodup.erase _, c.mz, c.md⟩, ?_, v.one, v.dist, v.hx, v.right, v.inside⟩
      · intro j hj
        show setSlot st.slot i _ j = _
        have hj : st.count ≤ j := hj
        rw [setSlot_ne _ _ (by omega)]; exact c.beyond j hj
      · intro j; show (setSlot st.slot i _ j).id = 0 ∨ (setSlot st.slot i _ j).id ∈ st.made; rw [hid]; exact c.ids j
      · intro j l
        show (setSlot st.slot i _ j).id = (setSlot st.slot i _ l).id → (setSlot st.slot i _ j).id ≠ 0 → j = l
        rw [hid, hid]; exact c.uniq j l
      · intro j hj hx
        show (setSlot st.slot i _ j).id ≠ 0
        rw [hid]; exact c.nz j hj hx
      · intro g
        refine (hmem g).trans ?_
        constructor
        · rintro ⟨h1, h2⟩
          obtain ⟨j, h3, h4, h5, h6⟩ := (c.live g).1 h2
          have hne : j ≠ i := fun h => h1 (by rw [← h5, h])
          refine ⟨j, h3, h4, ?_, ?_⟩
          · show (setSlot st.slot i _ j).id = _; rw [hid]; exact h5
          · show (setSlot st.slot i _ j).over = _; rw [setSlot_ne _ _ hne]; exact h6
        · rintro ⟨j, h3, h4, h5, h6⟩
          have h5 : (setSlot st.slot i _ j).id = g := h5
          have h6 : (setSlot st.slot i _ j).over = false := h6
          have hne : j ≠ i := by
            rintro rfl
            rw [setSlot_same] at h6; cases h6
          rw [setSlot_ne _ _ hne] at h5 h6
          refine ⟨fun h => hne ?_, (c.live g).2 ⟨j, h3, h4, h5, h6⟩⟩
          exact (c.uniq i j (by rw [h5, h]) h0).symm
      · intro k t hk
        have w := v.tok k t hk
        refine ⟨w.nz, w.new, w.old, ?_⟩
        have p := w.place
        have ahead : ∀ l, Ahead st t l →
            Ahead { st with slot := setSlot st.slot i { st.slot i with over := true }, run := st.run.erase (st.slot i).id } t l := by
          intro l ha h1 h2
          obtain ⟨j, h3, h4, h5⟩ := ha h1 ((hmem _).1 h2).2
          exact ⟨j, h3, h4, (hid j).trans h5⟩
        have nin : ∀ l, (st.slot l).id ∉ st.run → (setSlot st.slot i { st.slot i with over := true } l).id ∉ st.run.erase (st.slot i).id := by
          intro l h1 h2
          rw [hid] at h2
          exact h1 ((hmem _).1 h2).2
        have still : ∀ l, (st.slot l).over = true → (setSlot st.slot i { st.slot i with over := true } l).over = true := by
          intro l h
          by_cases e : l = i
          · rw [e, setSlot_same]
          · rw [setSlot_ne _ _ e]; exact h
        unfold Place at p ⊢
        cases e : t.pc <;> rw [e] at p <;> simp only at p ⊢
        · exact p
        · exact p
        · refine ⟨p.1, p.2.1, ?_⟩
          rcases p.2.2 with h | h | ⟨j, h1, h2, h3⟩
          · exact .inl h
          · exact .inl (no k t hk (by rw [e]; rfl) h)
          · exact .inr (.inr ⟨j, h1, h2, still j h3⟩)
        · refine ⟨p.1, nin _ p.2.1, ?_⟩
          rcases p.2.2 with h | ⟨h1, h2⟩
          · exact .inl h
          · exact .inr ⟨h1, still _ h2⟩
        · refine ⟨p.1, nin _ p.2.1, ?_, p.2.2.2⟩
          rename_i l
          rw [setSlot_ne _ _ (fun h => p.2.1 (by rw [h]; exact hr))]
          exact p.2.2.1
        · exact ahead _ p
        · exact ⟨p.1, ahead _ p.2⟩
    · rw [if_neg hr]; exact ⟨x, v⟩

theorem inv_init (max : Nat) : Inv max {} none where
  core := ⟨Nat.zero_le _, fun _ _ => rfl, fun _ => .inl rfl, fun _ _ _ h => absurd rfl h, fun i hi => absurd hi (Nat.not_lt_zero i),
    fun g => ⟨(fun h => by cases h), fun ⟨i, hi, _⟩ => absurd hi (Nat.not_lt_zero i)⟩, List.nodup_nil, (fun _ h => by cases h), (fun _ h => by cases h)⟩
  tok := fun _ _ h => by cases h
  one := fun _ _ _ _ h => by cases h
  dist := fun _ _ _ _ h => by cases h
  hx := fun _ h => by cases h
  right := fun _ h => by cases h
  inside := rfl

theorem inv_hist {max : Nat} {es : List Ev} (f : All max Fresh es) (o : All max OneMaker es) : (∃ x, Inv max (hist max es) x) ∧ Noted max (hist max es) := by
  induction es with
  | nil => exact ⟨⟨none, inv_init max⟩, fun _ _ h => by cases h⟩
  | cons e es ih =>
    obtain ⟨⟨x, v⟩, no⟩ := ih f.2 o.2
    obtain ⟨x', v'⟩ := inv_step0 v no f.1 o.1
    exact ⟨⟨x', (inv_note v').1⟩, (inv_note v').2⟩

/-- If no thread begins to make a game while another is at it, nothing outside the games is read, a game is refused only if the server was full at some
time since it was asked for, and every game is found as long as it runs, whatever else is going on. -/
theorem C134_partial {max : Nat} {es : List Ev} (f : All max Fresh es) (o : All max OneMaker es) : Good max (hist max es) := by
  obtain ⟨⟨x, v⟩, _⟩ := inv_hist f o
  refine ⟨v.inside, v.right, ?_, v.core.room⟩
  intro g hg
  obtain ⟨i, h1, _, h2, h3⟩ := (v.core.live g).1 hg
  exact ⟨i, Nat.lt_of_lt_of_le h1 v.core.cnt, h2, h3⟩

/-! ## Cases -/

/-- A number within which the threads of an event are. -/
def Ev.near (n : Nat) : Ev → Bool
  | .create k _ => decide (k < n)
  | .find k _ => decide (k < n)
  | .step k => decide (k < n)
  | .ends _ => true

theorem hist_far {max n : Nat} : ∀ es : List Ev, (∀ e ∈ es, e.near n = true) → ∀ k, n ≤ k → (hist max es).thr k = none
  | [], _, _, _ => rfl
  | e :: es, h, k, hk => by
    have ih := hist_far (max := max) es (fun e he => h e (List.mem_cons_of_mem _ he)) k hk
    have hn := h e List.mem_cons_self
    have key : (step0 max (hist max es) e).thr k = none := by
      have hset : ∀ j r, j < n → setThr (hist max es).thr j r k = none := fun j r hj => by rw [setThr_ne _ _ (by omega)]; exact ih
      cases e with
      | create j g =>
        have hn := of_decide_eq_true hn
        unfold step0; simp only
        split
        · exact ih
        · exact hset j _ hn
      | find j g =>
        have hn := of_decide_eq_true hn
        unfold step0; simp only
        split
        · exact ih
        · exact hset j _ hn
      | step j =>
        have hn := of_decide_eq_true hn
        unfold step0; simp only
        split
        · exact ih
        · unfold stepThr
          split
          · exact hset j _ hn
          · exact hset j _ hn
          · split <;> exact hset j _ hn
          · split <;> exact hset j _ hn
          · exact hset j _ hn
          · exact hset j _ hn
          · split <;> exact hset j _ hn
          · split
            · split <;> exact hset j _ hn
            · exact hset j _ hn
      | ends i =>
        unfold step0; simp only
        split <;> exact ih
    show (((step0 max (hist max es) e).thr k).map _) = none
    rw [key]; rfl

/-- The conditions, computed for `n` threads. -/
def freshB (st : St) : Ev → Bool
  | .create _ g => decide (g ≠ 0 ∧ g ∉ st.drawn)
  | .find _ g => decide (g ≠ 0)
  | _ => true

def oneB (n : Nat) (st : St) : Ev → Bool
  | .step k => match st.thr k with
    | some t => decide (t.pc ≠ .test) || (List.range n).all fun j => match st.thr j with | some u => !u.pc.creates || decide (u.pc = .test) | none => true
    | none => true
  | _ => true

def allB (max : Nat) (B : St → Ev → Bool) : List Ev → Bool
  | [] => true
  | e :: es => B (hist max es) e && allB max B es

theorem all_fresh {max : Nat} : ∀ {es : List Ev}, allB max freshB es = true → All max Fresh es
  | [], _ => trivial
  | e :: es, h => by
    simp only [allB, Bool.and_eq_true] at h
    refine ⟨?_, all_fresh h.2⟩
    cases e with
    | create k g =>
      have h : decide (g ≠ 0 ∧ g ∉ (hist max es).drawn) = true := h.1
      have h := of_decide_eq_true h
      exact h
    | find k g =>
      have h : decide (g ≠ 0) = true := h.1
      have h := of_decide_eq_true h
      exact h
    | step k => trivial
    | ends i => trivial

theorem all_one {max n : Nat} : ∀ {es : List Ev}, (∀ e ∈ es, e.near n = true) → allB max (oneB n) es = true → All max OneMaker es
  | [], _, _ => trivial
  | e :: es, hn, h => by
    simp only [allB, Bool.and_eq_true] at h
    have hn' : ∀ e ∈ es, e.near n = true := fun e he => hn e (List.mem_cons_of_mem _ he)
    refine ⟨?_, all_one hn' h.2⟩
    cases e with
    | create k g => trivial
    | find k g => trivial
    | ends i => trivial
    | step k =>
      intro t ht hp j u hj hc
      have h := h.1
      simp only [oneB] at h
      rw [ht] at h
      simp only [hp, ne_eq, not_true_eq_false, decide_false, Bool.false_or, List.all_eq_true, List.mem_range] at h
      rcases Nat.lt_or_ge j n with hl | hl
      · have := h j hl
        rw [hj] at this
        simpa [hc] using this
      · rw [hist_far es hn' j hl] at hj; cases hj

def steps (k n : Nat) : List Ev := List.replicate n (Ev.step k)

/-- The only place: a game is made while another client waits, who is then refused; it is found; it ends while a third client looks for a place, and is replaced. -/
def turns : List Ev :=
  ([Ev.create 0 7, Ev.create 1 8] ++ steps 0 5 ++ [Ev.find 2 7] ++ steps 1 3 ++ steps 2 2 ++ [Ev.create 0 9, Ev.step 0, Ev.ends 0] ++ steps 0 1 ++ [Ev.find 2 7] ++ steps 0 1 ++
    steps 2 2 ++ steps 0 1 ++ [Ev.find 1 9] ++ steps 1 2 ++ [Ev.find 1 5] ++ steps 1 3).reverse

/-- A case of the theorem. -/
example : Good 1 (hist 1 turns) ∧ (hist 1 turns).answers = [.game 7, .full true, .found 7 true, .found 7 true, .game 9, .found 9 true, .none 5 false] :=
  ⟨C134_partial (all_fresh (by decide +kernel)) (all_one (n := 3) (by decide) (by decide +kernel)), by decide +kernel⟩

/-- Two games asked for at the same time from a new server: both requests pass the test, then one counts after the other. -/
def counted : List Ev := ([Ev.create 0 7, Ev.create 1 8, Ev.step 0, Ev.step 1] ++ steps 0 2 ++ steps 1 2 ++ steps 0 2).reverse

/-- One is refused, but the server then counts two games, for ever: from then on whoever asks for a game that is not there makes it read outside its
games. -/
theorem C134_violated_outside : All 1 Fresh counted ∧ (hist 1 counted).answers = [.full false, .game 7] ∧ (∀ k, (hist 1 counted).thr k = none) ∧
    (∀ es, (hist 1 (es ++ counted)).count = 2) ∧
    (hist 1 ((steps 0 5 ++ [Ev.find 0 8]) ++ counted)).oob = true := by
  have hidle : ∀ k, (hist 1 counted).thr k = none := by
    intro k
    rcases Nat.lt_or_ge k 2 with h | h
    · rcases k with _ | _ | k
      · decide +kernel
      · decide +kernel
      · omega
    · exact hist_far (n := 2) counted (by decide) k h
  refine ⟨all_fresh (by decide +kernel), by decide +kernel, hidle, ?_, by decide +kernel⟩
  intro es
  have key : (hist 1 (es ++ counted)).count = 2 ∧ ∀ k t, (hist 1 (es ++ counted)).thr k = some t → t.pc ≠ .take ∧ ∀ n, t.pc ≠ .store n := by
    induction es with
    | nil =>
      refine ⟨by decide +kernel, fun k t h => ?_⟩
      rw [List.nil_append, hidle k] at h; cases h
    | cons e es ih =>
      have both : ∀ st : St, st.count = 2 → (∀ k t, st.thr k = some t → t.pc ≠ .take ∧ ∀ n, t.pc ≠ .store n) →
          (note 1 st).count = 2 ∧ ∀ k t, (note 1 st).thr k = some t → t.pc ≠ .take ∧ ∀ n, t.pc ≠ .store n := by
        intro st h1 h2
        refine ⟨h1, fun k t h => ?_⟩
        have h : (st.thr k).map _ = some t := h
        cases e : st.thr k with
        | none => rw [e] at h; cases h
        | some u =>
          rw [e] at h
          injection h with h
          rw [← h]
          simp only
          split <;> exact h2 k u e
      have upd : ∀ (st : St) k (r : Option Thr), (∀ k t, st.thr k = some t → t.pc ≠ .take ∧ ∀ n, t.pc ≠ .store n) →
          (∀ t, r = some t → t.pc ≠ .take ∧ ∀ n, t.pc ≠ .store n) → ∀ j t, setThr st.thr k r j = some t → t.pc ≠ .take ∧ ∀ n, t.pc ≠ .store n := by
        intro st k r h1 h2 j t hj
        by_cases e : j = k
        · rw [e, setThr_same] at hj; exact h2 t hj
        · rw [setThr_ne _ _ e] at hj; exact h1 j t hj
      obtain ⟨h1, h2⟩ := ih
      refine both _ ?_ ?_
      · cases e with
        | create k g => show (step0 1 _ _).count = 2; unfold step0; simp only; split <;> exact h1
        | find k g => show (step0 1 _ _).count = 2; unfold step0; simp only; split <;> exact h1
        | ends i => show (step0 1 _ _).count = 2; unfold step0; simp only; split <;> exact h1
        | step k =>
          show (step0 1 _ _).count = 2
          unfold step0; simp only
          split
          · exact h1
          · rename_i t ht
            unfold stepThr
            cases hp : t.pc <;> simp only
            · exact h1
            · exact absurd hp (h2 k t ht).1
            · exact absurd hp ((h2 k t ht).2 _)
            · split <;> exact h1
            · exact h1
            · exact h1
            · split <;> exact h1
            · split
              · split <;> exact h1
              · exact h1
      · cases e with
        | create k g =>
          show ∀ j t, (step0 1 _ _).thr j = some t → _
          unfold step0; simp only; split
          · exact h2
          · exact upd _ k _ h2 (fun t h => by injection h with h; rw [← h]; exact ⟨nofun, nofun⟩)
        | find k g =>
          show ∀ j t, (step0 1 _ _).thr j = some t → _
          unfold step0; simp only; split
          · exact h2
          · exact upd _ k _ h2 (fun t h => by injection h with h; rw [← h]; exact ⟨nofun, nofun⟩)
        | ends i =>
          show ∀ j t, (step0 1 _ _).thr j = some t → _
          unfold step0; simp only; split <;> exact h2
        | step k =>
          show ∀ j t, (step0 1 _ _).thr j = some t → _
          unfold step0; simp only
          split
          · exact h2
          · rename_i t ht
            unfold stepThr
            have ret : ∀ j t, setThr (hist 1 (es ++ counted)).thr k none j = some t → t.pc ≠ .take ∧ ∀ n, t.pc ≠ .store n :=
              upd _ k _ h2 (fun t h => by cases h)
            have goto : ∀ pc, (pc ≠ Pc.take ∧ ∀ n, pc ≠ Pc.store n) → ∀ j u, setThr (hist 1 (es ++ counted)).thr k (some { t with pc := pc }) j = some u →
                u.pc ≠ .take ∧ ∀ n, u.pc ≠ .store n := fun pc hpc => upd _ k _ h2 (fun u h => by injection h with h; rw [← h]; exact hpc)
            cases hp : t.pc <;> simp only
            · refine goto _ ?_
              rw [if_neg (show ¬ (hist 1 (es.append counted)).count < 1 from fun hlt => by
                have hlt : (hist 1 (es ++ counted)).count < 1 := hlt
                omega)]
              exact ⟨nofun, nofun⟩
            · exact absurd hp (h2 k t ht).1
            · exact absurd hp ((h2 k t ht).2 _)
            · split
              · refine goto _ ?_
                split <;> exact ⟨nofun, nofun⟩
              · exact ret
            · exact goto _ ⟨nofun, nofun⟩
            · exact ret
            · split
              · exact goto _ ⟨nofun, nofun⟩
              · exact ret
            · split
              · split
                · exact ret
                · exact goto _ ⟨nofun, nofun⟩
              · exact goto _ ⟨nofun, nofun⟩
  exact key.1

/-- Two games asked for at the same time from a server whose game is over: both get its place. -/
def shared : List Ev :=
  ([Ev.create 0 7] ++ steps 0 5 ++ [Ev.ends 0, Ev.create 0 8, Ev.create 1 9] ++ steps 0 2 ++ steps 1 2 ++ steps 0 2 ++ steps 1 2 ++ [Ev.find 2 8] ++ steps 2 3).reverse

/-- Both are told the number of their game; one of the games is not there. -/
theorem C134_violated_shared : All 1 Fresh shared ∧ (hist 1 shared).answers = [.game 7, .game 8, .game 9, .none 8 true] ∧ (hist 1 shared).run = [9, 8] ∧
    ¬ Good 1 (hist 1 shared) := by
  refine ⟨all_fresh (by decide +kernel), by decide +kernel, by decide +kernel, fun h => ?_⟩
  have := h.room
  rw [show (hist 1 shared).run = [9, 8] by decide +kernel] at this
  simp at this

/-- Two games asked for at the same time from a new server, and both read the same count. -/
def torn : List Ev := ([Ev.create 0 7, Ev.create 1 8, Ev.step 0, Ev.step 1, Ev.step 0, Ev.step 1] ++ steps 0 3 ++ steps 1 3 ++ [Ev.find 2 7] ++ steps 2 3).reverse

theorem C134_violated_torn : All 1 Fresh torn ∧ (hist 1 torn).answers = [.game 7, .game 8, .none 7 true] ∧ (hist 1 torn).count = 1 :=
  ⟨all_fresh (by decide +kernel), by decide +kernel, by decide +kernel⟩

theorem C134_violated : ¬ C134Full := fun h => C134_violated_shared.2.2.2 (h 1 shared C134_violated_shared.1)

end Abc.GameSlots
