import Verif.Samples.GameRace

/-!
# A list of the moves that is asked for while moves are made

`game_endpoint::get_moves` (`samples/tictactoe/game.h` 1264-1345) reads the number of moves, the moves, and whether the game is over, one by
one and without a lock, while the threads of `Samples/GameRace.lean` are inside `game::accept_move`.  The games' clients poll it to learn
the moves of the other player.

Simplifications: those of `Samples/GameRace.lean`; the method, the id of the game and the JSON text are left out (`Samples/GameServer.lean`,
`Samples/GameHttp.lean`); one list is read, as a list changes nothing for others.
-/

namespace Abc.GameList

open Abc.TicTacToe Abc.GameRace

/-- Where the thread is in `get_moves`: before the test of the loop (1294), before reading the row (1301) or the column (1303, with the row
read), before reading `is_game_over` (1310) or the winner (1312); or the answer is complete, with or without a winner. -/
inductive Rpc where
  | test | row | col (r : Option Int) | over | win | done (w : Option Pid)
deriving DecidableEq

/-- A list being read: the `since_move_i` of the request, `move_i`, the moves written so far, and, for the statements only, the number of
moves that had been answered as accepted when the request came.  A row or column is `none` if nothing was written there in this game. -/
structure Reader where
  since : Nat
  pos : Nat
  pc : Rpc := .test
  got : List (Option Int × Option Int) := []
  before : Nat
deriving DecidableEq

structure LSt where
  game : GameRace.St := {}
  rd : Option Reader := none

/-- A thread of a move does something; the list is asked for; the thread of the list makes a step. -/
inductive LEv where
  | game (e : GameRace.Ev)
  | ask (since : Nat)
  | look

/-- The moves answered as accepted. -/
def accepted (l : List (Side × Move × Bool)) : Nat := (l.filter (fun a => a.2.2)).length

/-- A step of `get_moves`, `samples/tictactoe/game.h` 1294-1313. -/
def read (g : GameRace.St) (r : Reader) : Reader :=
  match r.pc with
  | .test => { r with pc := if (r.pos : Int) < g.board.count then .row else .over }
  | .row => { r with pc := .col ((g.moves r.pos).map (·.row)) }
  | .col x => { r with pc := .test, pos := r.pos + 1, got := r.got ++ [(x, (g.moves r.pos).map (·.col))] }
  | .over => { r with pc := if g.board.over then .win else .done none }
  | .win => { r with pc := .done (some g.board.winner) }
  | .done _ => r

def lstep (st : LSt) : LEv → LSt
  | .game e => { st with game := GameRace.step st.game e }
  | .ask since => match st.rd with
    | some _ => st
    | none => { st with rd := some { since := since, pos := since, before := accepted st.game.answers } }
  | .look => { st with rd := st.rd.map (read st.game) }

/-- A history, newest event first. -/
def lhist : List LEv → LSt
  | [] => {}
  | e :: es => lstep (lhist es) e

/-- Every event of a history meets a condition. -/
def LAll (P : LSt → LEv → Prop) : List LEv → Prop
  | [] => True
  | e :: es => P (lhist es) e ∧ LAll P es

/-! ## What is expected -/

/-- The moves of a game as they are listed. -/
def shown (ms : List Move) : List (Option Int × Option Int) := ms.map fun m => (some m.row, some m.col)

/-- The winner told is that of the game. -/
def Says (w : Option Pid) (h : List Move) : Prop :=
  (w = none ∧ ¬ Over h) ∨ (∃ s, w = some (code (some s)) ∧ HasLine h s) ∨ (w = some (code none) ∧ Over h ∧ ∀ s, ¬ HasLine h s)

/-- The list is that of the game as it stood at some time, with all the moves accepted before the request. -/
def Lists (r : Reader) (h : List Move) : Prop := ∃ h', h' <:+ h ∧ r.before ≤ h'.length ∧ r.got = shown (h'.reverse.drop r.since)

/-- And the winner is that of the same time. -/
def Tells (r : Reader) (w : Option Pid) (h : List Move) : Prop :=
  ∃ h', h' <:+ h ∧ r.before ≤ h'.length ∧ r.got = shown (h'.reverse.drop r.since) ∧ Says w h'

/-- Each player waits for the answer to their move (`Single`), nobody begins a move while one is not recorded (`Calm`), and the list is
asked for from a move on that is known. -/
def Fair (st : LSt) : LEv → Prop
  | .game e => Single st.game e ∧ Calm st.game e
  | .ask since => since ≤ accepted st.game.answers
  | .look => True

/-- No row or column is read while a move is counted, but not recorded. -/
def Quiet (st : LSt) : LEv → Prop
  | .look => ∀ r, st.rd = some r → (r.pc = .row ∨ ∃ x, r.pc = .col x) → ∀ k t, st.game.thr k = some t → t.pc ≠ .win ∧ t.pc ≠ .switch ∧ t.pc ≠ .record
  | _ => True

/-- No move is counted between the end of the loop and the end of the answer. -/
def Still (st : LSt) : LEv → Prop
  | .game (.step k) => ∀ r, st.rd = some r → (r.pc = .over ∨ r.pc = .win) → ∀ t, st.game.thr k = some t → t.pc ≠ .count
  | _ => True

/-- The whole claim, for players and clients that behave. -/
def C130Full : Prop := ∀ es r w, LAll Fair es → Idle (lhist es).game → (lhist es).rd = some r → r.pc = .done w →
  ∃ h, Served (lhist es).game h ∧ Tells r w h

/-! ## Proofs -/

/-- The number of moves, by where the threads are. -/
theorem cnt {st : St} {l : List (Side × Move × Bool)} {h : List Move} (v : Inv st l h) :
    ((∃ k t, st.thr k = some t ∧ (t.pc = .win ∨ t.pc = .switch)) ∧ st.board.count = h.length + 1) ∨
    ((∀ k t, st.thr k = some t → t.pc ≠ .win ∧ t.pc ≠ .switch) ∧ st.board.count = h.length ∧
      ∃ b, Rep b h ∧ st.board.over = b.over ∧ st.board.winner = b.winner) := by
  by_cases hx : ∃ k t, st.thr k = some t ∧ (t.pc = .win ∨ t.pc = .switch)
  · refine .inl ⟨hx, ?_⟩
    obtain ⟨k, t, hk, hp⟩ := hx
    have w := v.at_ k t hk
    unfold Where at w
    rcases hp with e | e <;> rw [e] at w <;> simp only at w <;> obtain ⟨b0, r, _, _, hb⟩ := w
    · rw [hb]; show b0.count + 1 = _; rw [r.count]
    · rw [hb, checkWinner_count]; show b0.count + 1 = _; rw [r.count]
  · refine .inr ⟨fun k t hk => ⟨fun e => hx ⟨k, t, hk, .inl e⟩, fun e => hx ⟨k, t, hk, .inr e⟩⟩, ?_⟩
    by_cases hy : ∃ k t, st.thr k = some t ∧ t.pc = .count
    · obtain ⟨k, t, hk, e⟩ := hy
      have w := v.at_ k t hk
      unfold Where at w
      rw [e] at w
      obtain ⟨b0, r, _, _, hb⟩ := w
      exact ⟨by rw [hb]; exact r.count, b0, r, by rw [hb], by rw [hb]⟩
    · have r : Rep st.board h := v.rest (by
        rintro k t hk (e | e | e)
        · exact hy ⟨k, t, hk, e⟩
        · exact hx ⟨k, t, hk, .inl e⟩
        · exact hx ⟨k, t, hk, .inr e⟩)
      exact ⟨r.count, st.board, r, rfl, rfl⟩

/-- The number of moves grows in one place. -/
theorem step_count (st : St) (e : Ev) : (GameRace.step st e).board.count = st.board.count ∨
    ((∃ k t, e = .step k ∧ st.thr k = some t ∧ t.pc = .count) ∧ (GameRace.step st e).board.count = st.board.count + 1) := by
  cases e with
  | ask k s m =>
    refine .inl ?_
    cases e : st.thr k with
    | some t => rw [ask_some e]
    | none => rw [ask_none e]
  | step k =>
    cases e : st.thr k with
    | none => rw [step_none e]; exact .inl rfl
    | some t =>
      rw [step_some e]
      unfold stepThr
      cases hp : t.pc <;> simp only
      · split <;> exact .inl rfl
      · split <;> exact .inl rfl
      · split <;> exact .inl rfl
      · exact .inl trivial
      · exact .inr ⟨⟨k, t, rfl, e, hp⟩, trivial⟩
      · exact .inl (checkWinner_count _)
      · split <;> exact .inl rfl
      · exact .inl rfl

theorem accepted_append (l k : List (Side × Move × Bool)) : accepted (l ++ k) = accepted l + accepted k := by
  unfold accepted; rw [List.filter_append, List.length_append]

theorem accepted_split : ∀ l : List (Side × Move × Bool), accepted l = accepted (of .x l) + accepted (of .o l)
  | [] => rfl
  | (s, m, b) :: l => by
    have ih := accepted_split l
    cases s <;> cases b <;> simp [accepted, of] at ih ⊢ <;> omega

theorem accepted_seq {l : List (Side × Move × Bool)} {h : List Move} (q : Seq l h) : accepted l = h.length := by
  induction q with
  | nil => rfl
  | yes _ _ _ ih => rw [accepted_append, ih]; rfl
  | no _ _ ih => rw [accepted_append, ih]; rfl

/-- No more moves are answered as accepted than have been made. -/
theorem accepted_le {st : St} {l : List (Side × Move × Bool)} {h : List Move} (v : Inv st l h) : accepted st.answers ≤ h.length := by
  rw [← accepted_seq v.seq, accepted_split, accepted_split l]
  have key : ∀ s, accepted (of s st.answers) ≤ accepted (of s l) := by
    intro s
    rcases v.ans s with ⟨_, _, _, _, _, e⟩ | ⟨_, e⟩ <;> rw [e]
    rw [accepted_append]; exact Nat.le_add_right _ _
  exact Nat.add_le_add (key .x) (key .o)

theorem reverse_get {h h' : List Move} (s : h <:+ h') {i : Nat} (hi : i < h.length) : h'.reverse[i]? = h.reverse[i]? := by
  obtain ⟨t, rfl⟩ := s
  rw [List.reverse_append, List.getElem?_append_left (by simpa using hi)]

/-- What holds while a list is read. -/
structure RInv (b : Prop) (g : St) (h : List Move) (r : Reader) : Prop where
  le : r.since ≤ r.pos
  known : r.before ≤ h.length
  fair : r.since ≤ r.before
  place : r.pos ≤ h.length ∨ ∃ w, r.pc = .done w
  list : ∃ h', h' <:+ h ∧ h'.length = r.pos ∧ r.got = shown (h'.reverse.drop r.since)
  at_ : match r.pc with
    | .test => True
    | .row => (r.pos : Int) < g.board.count
    | .col x => r.pos < h.length ∧ x = (h.reverse[r.pos]?).map (·.row)
    | .over => r.before ≤ r.pos ∧ (b → r.pos = h.length ∧ g.board.count = h.length)
    | .win => r.before ≤ r.pos ∧ (b → r.pos = h.length ∧ g.board.count = h.length ∧ Over h)
    | .done w => r.before ≤ r.pos ∧ (b → ∀ h', h' <:+ h → h'.length = r.pos → Says w h')

theorem suffix_eq {a c h : List Move} (ha : a <:+ h) (hc : c <:+ h) (e : a.length = c.length) : a = c := by
  obtain ⟨x, rfl⟩ := ha
  obtain ⟨y, hy⟩ := hc
  exact (List.append_inj' hy e.symm).2.symm

theorem rinv_game {b : Prop} {st : LSt} {e : Ev} {l : List (Side × Move × Bool)} {h h' : List Move} {r : Reader} (v : Inv st.game l h) (q : RInv b st.game h r)
    (hr : st.rd = some r) (g : Grows st.game e h h') (hs : b → Still st (.game e)) : RInv b (GameRace.step st.game e) h' r := by
  have hsuf : h <:+ h' := by
    rcases g with rfl | ⟨_, t, _, _, _, rfl⟩
    · exact List.suffix_refl _
    · exact List.suffix_cons _ _
  have hlen := hsuf.length_le
  have hc := step_count st.game e
  -- at the end of the loop nothing changes
  have keep : b → (r.pc = .over ∨ r.pc = .win) → st.game.board.count = h.length → h' = h ∧ (GameRace.step st.game e).board.count = st.game.board.count := by
    intro hb hp hcount
    constructor
    · rcases g with rfl | ⟨k, t, _, hk, hpc, _⟩
      · rfl
      · exfalso
        rcases cnt v with ⟨_, h2⟩ | ⟨h1, _⟩
        · omega
        · exact (h1 k t hk).2 hpc
    · rcases hc with h1 | ⟨⟨k, t, rfl, hk, hpc⟩, _⟩
      · exact h1
      · exact absurd hpc (hs hb r hr hp t hk)
  obtain ⟨p, hp1, hp2, hp3⟩ := q.list
  refine ⟨q.le, Nat.le_trans q.known hlen, q.fair, ?_, ⟨p, hp1.trans hsuf, hp2, hp3⟩, ?_⟩
  · rcases q.place with h1 | h1
    · exact .inl (Nat.le_trans h1 hlen)
    · exact .inr h1
  · have a := q.at_
    cases hpc : r.pc <;> rw [hpc] at a <;> simp only at a ⊢
    · rcases hc with h1 | ⟨_, h1⟩ <;> omega
    · refine ⟨Nat.lt_of_lt_of_le a.1 hlen, ?_⟩
      rw [reverse_get hsuf a.1]; exact a.2
    · refine ⟨a.1, fun hb => ?_⟩
      obtain ⟨h1, h2⟩ := a.2 hb
      obtain ⟨h3, h4⟩ := keep hb (.inl hpc) h2
      rw [h3, h4]; exact ⟨h1, h2⟩
    · refine ⟨a.1, fun hb => ?_⟩
      obtain ⟨h1, h2, h5⟩ := a.2 hb
      obtain ⟨h3, h4⟩ := keep hb (.inr hpc) h2
      rw [h3, h4]; exact ⟨h1, h2, h5⟩
    · refine ⟨a.1, fun hb c hc1 hc2 => ?_⟩
      rw [suffix_eq hc1 (hp1.trans hsuf) (hc2.trans hp2.symm)]
      exact a.2 hb p hp1 hp2

theorem says_of {g : St} {l : List (Side × Move × Bool)} {h : List Move} (v : Inv g l h) (hc : g.board.count = h.length) :
    (g.board.over = true ↔ Over h) ∧ (Over h → Says (some g.board.winner) h) := by
  rcases cnt v with ⟨_, h2⟩ | ⟨_, _, b, r, ho, hw⟩
  · omega
  · refine ⟨by rw [ho]; exact r.over, fun hov => ?_⟩
    rw [hw]
    by_cases hx : ∃ s, HasLine h s
    · obtain ⟨s, hs⟩ := hx
      exact .inr (.inl ⟨s, by rw [(r.winner s).2 hs], hs⟩)
    · have hn : ∀ s, ¬ HasLine h s := fun s hs => hx ⟨s, hs⟩
      exact .inr (.inr ⟨by rw [r.noWinner.2 hn]; rfl, hov, hn⟩)

theorem rinv_look {b : Prop} {g : St} {l : List (Side × Move × Bool)} {h : List Move} {r : Reader} (v : Inv g l h) (mo : MovesOk g h) (q : RInv b g h r)
    (hq : (r.pc = .row ∨ ∃ x, r.pc = .col x) → ∀ k t, g.thr k = some t → t.pc ≠ .win ∧ t.pc ≠ .switch ∧ t.pc ≠ .record) : RInv b g h (read g r) := by
  obtain ⟨p, hp1, hp2, hp3⟩ := q.list
  have a := q.at_
  have done : (∀ k t, g.thr k = some t → t.pc ≠ .win ∧ t.pc ≠ .switch ∧ t.pc ≠ .record) → Recorded g h ∧ g.board.count = h.length := by
    intro hn
    constructor
    · rcases mo with ⟨hr, _⟩ | ⟨k, t, _, hk, ht, _⟩
      · exact hr
      · exact absurd ht (hn k t hk).2.2
    · rcases cnt v with ⟨⟨k, t, hk, hp⟩, _⟩ | ⟨_, h1, _⟩
      · rcases hp with hp | hp
        · exact absurd hp (hn k t hk).1
        · exact absurd hp (hn k t hk).2.1
      · exact h1
  unfold read
  cases hpc : r.pc with
  | test =>
    simp only
    have hle : r.pos ≤ h.length := by
      rcases q.place with h1 | ⟨w, h1⟩
      · exact h1
      · rw [hpc] at h1; cases h1
    refine ⟨q.le, q.known, q.fair, .inl hle, ⟨p, hp1, hp2, hp3⟩, ?_⟩
    by_cases hlt : (r.pos : Int) < g.board.count
    · simp only [if_pos hlt]; exact hlt
    · simp only [if_neg hlt]
      have hk := q.known
      rcases cnt v with ⟨_, h1⟩ | ⟨_, h1, _⟩
      · omega
      · exact ⟨by omega, fun _ => ⟨by omega, by omega⟩⟩
  | row =>
    rw [hpc] at a
    obtain ⟨hr, hc⟩ := done (hq (.inl hpc))
    have hlt : r.pos < h.length := by simp only at a; omega
    exact ⟨q.le, q.known, q.fair, .inl (Nat.le_of_lt hlt), ⟨p, hp1, hp2, hp3⟩, ⟨hlt, by rw [hr _ hlt]⟩⟩
  | col x =>
    rw [hpc] at a
    obtain ⟨hlt, hx⟩ := a
    obtain ⟨hr, hc⟩ := done (hq (.inr ⟨x, hpc⟩))
    refine ⟨Nat.le_succ_of_le q.le, q.known, q.fair, .inl hlt, ⟨h.drop (h.length - (r.pos + 1)), List.drop_suffix _ _, ?_, ?_⟩, trivial⟩
    · rw [List.length_drop]; show _ = r.pos + 1; omega
    · -- one more move
      simp only
      have hpd : p = h.drop (h.length - r.pos) := suffix_eq hp1 (List.drop_suffix _ _) (by rw [List.length_drop, hp2]; omega)
      have e1 : p.reverse = h.reverse.take r.pos := by
        rw [hpd, List.reverse_drop]; congr 1; omega
      have e2 : (h.drop (h.length - (r.pos + 1))).reverse = h.reverse.take (r.pos + 1) := by
        rw [List.reverse_drop]; congr 1; omega
      have hlt' : r.pos < h.reverse.length := by simpa using hlt
      have e3 : h.reverse.take (r.pos + 1) = h.reverse.take r.pos ++ [h.reverse[r.pos]] := by
        rw [List.take_succ_eq_append_getElem hlt']
      have e4 : h.reverse[r.pos]? = some h.reverse[r.pos] := List.getElem?_eq_getElem hlt'
      rw [e2, e3, hp3, e1, List.drop_append_of_le_length (by rw [List.length_take]; have := q.le; simp only [List.length_reverse]; omega), hx, hr _ hlt, e4]
      unfold shown
      rw [List.map_append]
      rfl
  | over =>
    rw [hpc] at a
    obtain ⟨h1, h2⟩ := a
    have hle : r.pos ≤ h.length := by
      rcases q.place with h1 | ⟨w, h1⟩
      · exact h1
      · rw [hpc] at h1; cases h1
    by_cases ho : g.board.over = true
    · simp only [if_pos ho]
      refine ⟨q.le, q.known, q.fair, .inl hle, ⟨p, hp1, hp2, hp3⟩, h1, fun hb => ?_⟩
      obtain ⟨h3, h4⟩ := h2 hb
      exact ⟨h3, h4, (says_of v h4).1.1 ho⟩
    · simp only [if_neg ho]
      refine ⟨q.le, q.known, q.fair, .inl hle, ⟨p, hp1, hp2, hp3⟩, h1, fun hb c hc1 hc2 => ?_⟩
      obtain ⟨h3, h4⟩ := h2 hb
      have : c = h := suffix_eq hc1 (List.suffix_refl _) (by rw [hc2]; exact h3)
      rw [this]
      exact .inl ⟨rfl, fun x => ho ((says_of v h4).1.2 x)⟩
  | win =>
    rw [hpc] at a
    obtain ⟨h1, h2⟩ := a
    refine ⟨q.le, q.known, q.fair, .inr ⟨_, rfl⟩, ⟨p, hp1, hp2, hp3⟩, h1, fun hb c hc1 hc2 => ?_⟩
    obtain ⟨h3, h4, h5⟩ := h2 hb
    have : c = h := suffix_eq hc1 (List.suffix_refl _) (by rw [hc2]; exact h3)
    rw [this]
    exact (says_of v h4).2 h5
  | done w => exact q

theorem lhist_inv {b : Prop} {es : List LEv} (f : LAll Fair es) (q : LAll Quiet es) (s : b → LAll Still es) :
    ∃ l h, Inv (lhist es).game l h ∧ MovesOk (lhist es).game h ∧ ∀ r, (lhist es).rd = some r → RInv b (lhist es).game h r := by
  induction es with
  | nil => exact ⟨[], [], inv_init, .inl ⟨fun i hi => absurd hi (Nat.not_lt_zero i), fun _ _ h => (by cases h)⟩, fun _ h => (by cases h)⟩
  | cons e es ih =>
    obtain ⟨l, h, v, mo, hr⟩ := ih f.2 q.2 (fun hb => (s hb).2)
    cases e with
    | game e =>
      obtain ⟨l', h', v', mo', g⟩ := movesOk_step v mo f.1.1 f.1.2
      exact ⟨l', h', v', mo', fun r hrd => rinv_game v (hr r hrd) hrd g (fun hb => (s hb).1)⟩
    | ask since =>
      show ∃ l h, Inv (lstep (lhist es) (.ask since)).game l h ∧ MovesOk (lstep (lhist es) (.ask since)).game h ∧
        ∀ r, (lstep (lhist es) (.ask since)).rd = some r → RInv b (lstep (lhist es) (.ask since)).game h r
      cases e : (lhist es).rd with
      | some r =>
        have : lstep (lhist es) (.ask since) = lhist es := by unfold lstep; simp only; rw [e]
        rw [this]; exact ⟨l, h, v, mo, hr⟩
      | none =>
        have : lstep (lhist es) (.ask since) =
            { lhist es with rd := some { since := since, pos := since, before := accepted (lhist es).game.answers } } := by unfold lstep; simp only; rw [e]
        rw [this]
        refine ⟨l, h, v, mo, ?_⟩
        intro r hrd
        injection hrd with hrd
        subst hrd
        have hf : since ≤ accepted (lhist es).game.answers := f.1
        have ha := accepted_le v
        refine ⟨Nat.le_refl _, ha, hf, .inl (Nat.le_trans hf ha), ⟨h.drop (h.length - since), List.drop_suffix _ _, ?_, ?_⟩, trivial⟩
        · rw [List.length_drop]; show _ = since; omega
        · rw [List.drop_eq_nil_of_le]
          · rfl
          · rw [List.length_reverse, List.length_drop]; show _ ≤ since; omega
    | look =>
      refine ⟨l, h, v, mo, ?_⟩
      intro r hrd
      have hrd : (lhist es).rd.map (read (lhist es).game) = some r := hrd
      cases e : (lhist es).rd with
      | none => rw [e] at hrd; cases hrd
      | some r0 =>
        rw [e] at hrd
        injection hrd with hrd
        rw [← hrd]
        exact rinv_look v mo (hr r0 e) (q.1 r0 e)

theorem lhist_served {b : Prop} {es : List LEv} (f : LAll Fair es) (q : LAll Quiet es) (s : b → LAll Still es) (hi : Idle (lhist es).game) :
    ∃ h, Served (lhist es).game h ∧ Recorded (lhist es).game h ∧ ∀ r, (lhist es).rd = some r → RInv b (lhist es).game h r := by
  obtain ⟨l, h, v, mo, hr⟩ := lhist_inv f q s
  refine ⟨h, ⟨l, v.seq, ?_, (v.rest fun k t hk => by rw [hi k] at hk; cases hk).shows⟩, ?_, hr⟩
  · intro s
    rcases v.ans s with ⟨k, t, hk, _⟩ | ⟨_, e⟩
    · rw [hi k] at hk; cases hk
    · exact e
  · rcases mo with ⟨r, _⟩ | ⟨k, t, _, hk, _⟩
    · exact r
    · rw [hi k] at hk; cases hk

/-- If no row or column is read while a move is counted but not recorded, a list is that of the game as it stood at some time, and has the
moves accepted before it was asked for. -/
theorem C130_list_partial {es : List LEv} {r : Reader} {w : Option Pid} (f : LAll Fair es) (q : LAll Quiet es) (hi : Idle (lhist es).game)
    (hr : (lhist es).rd = some r) (hd : r.pc = .done w) : ∃ h, Served (lhist es).game h ∧ Recorded (lhist es).game h ∧ Lists r h := by
  obtain ⟨h, s, rc, i⟩ := lhist_served (b := False) f q (fun x => x.elim) hi
  have i := i r hr
  have a := i.at_
  rw [hd] at a
  obtain ⟨p, h1, h2, h3⟩ := i.list
  exact ⟨h, s, rc, p, h1, by rw [h2]; exact a.1, h3⟩

/-- If besides no move is counted between the end of the loop and the end of the answer, the winner is that of the game listed. -/
theorem C130_winner_partial {es : List LEv} {r : Reader} {w : Option Pid} (f : LAll Fair es) (q : LAll Quiet es) (s : LAll Still es)
    (hi : Idle (lhist es).game) (hr : (lhist es).rd = some r) (hd : r.pc = .done w) : ∃ h, Served (lhist es).game h ∧ Tells r w h := by
  obtain ⟨h, sv, _, i⟩ := lhist_served (b := True) f q (fun _ => s) hi
  have i := i r hr
  have a := i.at_
  rw [hd] at a
  obtain ⟨p, h1, h2, h3⟩ := i.list
  exact ⟨h, sv, p, h1, by rw [h2]; exact a.1, h3, a.2 trivial p h1 h2⟩

/-- Four moves make no line. -/
theorem short_no_line {h : List Move} {s : Side} (hl : h.length = 4) : ¬ HasLine h s := by
  rintro ⟨a, b, c, hi, ha, hb, hc⟩
  have hab : a ≠ b ∧ a ≠ c ∧ b ≠ c := by
    rcases hi with ⟨i, _, _, rfl, rfl, rfl⟩ | ⟨i, _, _, rfl, rfl, rfl⟩ | ⟨rfl, rfl, rfl⟩ | ⟨rfl, rfl, rfl⟩ <;>
      refine ⟨fun h => ?_, fun h => ?_, fun h => ?_⟩ <;> injection h <;> omega
  obtain ⟨h1, h2, h3⟩ := hab
  match h, hl with
  | [p, q, r, t], _ =>
    simp only [owner, toMove, List.length_cons, List.length_nil] at ha hb hc
    cases s <;> grind

/-! ## Cases -/

/-- The events of the game. -/
def games : List LEv → List Ev
  | [] => []
  | .game e :: es => e :: games es
  | .ask _ :: es => games es
  | .look :: es => games es

theorem lhist_game : ∀ es : List LEv, (lhist es).game = hist (games es)
  | [] => rfl
  | .game e :: es => by
    show GameRace.step (lhist es).game e = GameRace.step (hist (games es)) e
    rw [lhist_game es]
  | .ask n :: es => by
    show (lstep (lhist es) (.ask n)).game = hist (games es)
    rw [← lhist_game es]
    unfold lstep
    simp only
    split <;> rfl
  | .look :: es => by
    show (lhist es).game = hist (games es)
    exact lhist_game es

/-- The conditions, computed for `n` threads. -/
def fairB (n : Nat) (st : LSt) : LEv → Bool
  | .game (.ask _ s _) => (List.range n).all fun k => match st.game.thr k with | some t => decide (t.side ≠ s) | none => true
  | .game (.step k) => match st.game.thr k with
    | some t => decide (t.pc ≠ .check) || (List.range n).all fun j => match st.game.thr j with | some u => decide (u.pc ≠ .record) | none => true
    | none => true
  | .ask since => decide (since ≤ accepted st.game.answers)
  | .look => true

def quietB (n : Nat) (st : LSt) : LEv → Bool
  | .look => match st.rd with
    | some r => (match r.pc with | .row => false | .col _ => false | _ => true) ||
      (List.range n).all fun k => match st.game.thr k with | some t => decide (t.pc ≠ .win ∧ t.pc ≠ .switch ∧ t.pc ≠ .record) | none => true
    | none => true
  | _ => true

def stillB (st : LSt) : LEv → Bool
  | .game (.step k) => match st.rd, st.game.thr k with
    | some r, some t => decide (r.pc ≠ .over ∧ r.pc ≠ .win) || decide (t.pc ≠ .count)
    | _, _ => true
  | _ => true

def allB (B : LSt → LEv → Bool) : List LEv → Bool
  | [] => true
  | e :: es => B (lhist es) e && allB B es

theorem lall_of {n : Nat} {P : LSt → LEv → Prop} {B : LSt → LEv → Bool}
    (hB : ∀ st e, (∀ k, n ≤ k → st.game.thr k = none) → B st e = true → P st e) :
    ∀ {es : List LEv}, (∀ e ∈ games es, e.near n = true) → allB B es = true → LAll P es
  | [], _, _ => trivial
  | e :: es, hn, hb => by
    simp only [allB, Bool.and_eq_true] at hb
    have hn' : ∀ e ∈ games es, e.near n = true := by
      intro x hx
      apply hn
      cases e
      · exact List.mem_cons_of_mem _ hx
      · exact hx
      · exact hx
    refine ⟨hB _ e ?_ hb.1, lall_of hB hn' hb.2⟩
    intro k hk
    rw [lhist_game]
    exact hist_far _ hn' k hk

theorem fair_of {n : Nat} (st : LSt) (e : LEv) (hf : ∀ k, n ≤ k → st.game.thr k = none) (h : fairB n st e = true) : Fair st e := by
  cases e with
  | look => trivial
  | ask since =>
    have h : decide (since ≤ accepted st.game.answers) = true := h
    show since ≤ accepted st.game.answers
    exact of_decide_eq_true h
  | game e =>
    cases e with
    | ask k s m =>
      refine ⟨?_, trivial⟩
      intro j t hj
      simp only [fairB, List.all_eq_true, List.mem_range] at h
      rcases Nat.lt_or_ge j n with hl | hl
      · have := h j hl
        rw [hj] at this
        simpa using this
      · rw [hf j hl] at hj; cases hj
    | step k =>
      refine ⟨trivial, ?_⟩
      intro t ht hp j u hj hu
      simp only [fairB] at h
      rw [ht] at h
      simp only [hp, ne_eq, not_true_eq_false, decide_false, Bool.false_or, List.all_eq_true, List.mem_range] at h
      rcases Nat.lt_or_ge j n with hl | hl
      · have := h j hl
        rw [hj] at this
        simp only [hu, not_true_eq_false, decide_false] at this
        cases this
      · rw [hf j hl] at hj; cases hj

theorem quiet_of {n : Nat} (st : LSt) (e : LEv) (hf : ∀ k, n ≤ k → st.game.thr k = none) (h : quietB n st e = true) : Quiet st e := by
  cases e with
  | game e => trivial
  | ask since => trivial
  | look =>
    intro r hr hp k t hk
    simp only [quietB] at h
    rw [hr] at h
    simp only [Bool.or_eq_true, List.all_eq_true, List.mem_range] at h
    rcases h with h | h
    · rcases hp with hp | ⟨x, hp⟩ <;> rw [hp] at h <;> cases h
    · rcases Nat.lt_or_ge k n with hl | hl
      · have := h k hl
        rw [hk] at this
        simpa using this
      · rw [hf k hl] at hk; cases hk

theorem still_of {n : Nat} (st : LSt) (e : LEv) (_ : ∀ k, n ≤ k → st.game.thr k = none) (h : stillB st e = true) : Still st e := by
  cases e with
  | look => trivial
  | ask since => trivial
  | game e =>
    cases e with
    | ask k s m => trivial
    | step k =>
      intro r hr hp t ht
      simp only [stillB] at h
      rw [hr, ht] at h
      simp only [Bool.or_eq_true, decide_eq_true_eq] at h
      rcases h with h | h
      · rcases hp with hp | hp
        · exact absurd hp h.1
        · exact absurd hp h.2
      · exact h

theorem lidle_of {n : Nat} {es : List LEv} (hn : ∀ e ∈ games es, e.near n = true) (h : (List.range n).all (fun k => (lhist es).game.thr k = none) = true) :
    Idle (lhist es).game := by
  rw [lhist_game] at h ⊢
  exact idle_of hn h

/-- A thread makes steps; the list makes steps. -/
def go (k n : Nat) : List LEv := List.replicate n (LEv.game (.step k))

def looks (n : Nat) : List LEv := List.replicate n LEv.look

/-- A request with nothing in between. -/
def play (s : Side) (m : Move) : List LEv := LEv.game (.ask 0 s m) :: go 0 8

/-- `x` has played; the list is asked for after the first move, while `o` plays, and is read after `o`'s move is recorded; `x` begins the
next move meanwhile. -/
def fine : List LEv :=
  (play .x ⟨0, 0⟩ ++ [LEv.game (.ask 1 .o ⟨1, 1⟩)] ++ go 1 5 ++ [LEv.ask 1, LEv.look] ++ go 1 3 ++ [LEv.game (.ask 0 .x ⟨2, 2⟩)] ++ go 0 4 ++ looks 4 ++ go 0 4).reverse

/-- A case of both theorems. -/
example : ∃ r w h, (lhist fine).rd = some r ∧ Served (lhist fine).game h ∧ Tells r w h := by
  obtain ⟨h, sv, t⟩ := C130_winner_partial (es := fine) (r := ⟨1, 2, .done none, [(some 1, some 1)], 1⟩) (w := none)
    (lall_of (n := 2) fair_of (by decide) (by decide +kernel)) (lall_of (n := 2) quiet_of (by decide) (by decide +kernel))
    (lall_of (n := 2) still_of (by decide) (by decide +kernel)) (lidle_of (n := 2) (by decide) (by decide +kernel)) (by decide +kernel) rfl
  exact ⟨_, _, h, by decide +kernel, sv, t⟩

/-- The first move is counted, but not yet recorded, when the list is read: it shows a move that was never made (what an earlier game
left, or nothing). -/
def stale : List LEv := ([LEv.game (.ask 0 .x ⟨0, 0⟩)] ++ go 0 7 ++ [LEv.ask 0] ++ looks 5 ++ go 0 1).reverse

theorem C130_violated_stale : LAll Fair stale ∧ LAll Still stale ∧ Idle (lhist stale).game ∧
    (lhist stale).rd = some ⟨0, 1, .done none, [(none, none)], 0⟩ ∧ (lhist stale).game.moves 0 = some ⟨0, 0⟩ ∧
    ∀ h, ¬ Lists ⟨0, 1, .done none, [(none, none)], 0⟩ h := by
  refine ⟨lall_of (n := 1) fair_of (by decide) (by decide +kernel), lall_of (n := 1) still_of (by decide) (by decide +kernel),
    lidle_of (n := 1) (by decide) (by decide +kernel), by decide +kernel, by decide +kernel, ?_⟩
  rintro h ⟨h', _, _, e⟩
  simp only [List.drop_zero] at e
  cases e2 : h'.reverse with
  | nil => rw [e2] at e; cases e
  | cons a b => rw [e2] at e; simp [shown] at e

/-- `x` wins between the end of the loop and the look at `is_game_over`: the list tells the winner, but not the move that won. -/
def late : List LEv :=
  (play .x ⟨0, 0⟩ ++ play .o ⟨1, 0⟩ ++ play .x ⟨0, 1⟩ ++ play .o ⟨1, 1⟩ ++ [LEv.ask 3] ++ looks 4 ++ play .x ⟨0, 2⟩ ++ looks 2).reverse

theorem C130_violated_late : LAll Fair late ∧ LAll Quiet late ∧ Idle (lhist late).game ∧
    (lhist late).rd = some ⟨3, 4, .done (some (code (some .x))), [(some 1, some 1)], 4⟩ ∧
    ∀ h, Served (lhist late).game h → ¬ Tells ⟨3, 4, .done (some (code (some .x))), [(some 1, some 1)], 4⟩ (some (code (some .x))) h := by
  refine ⟨lall_of (n := 1) fair_of (by decide) (by decide +kernel), lall_of (n := 1) quiet_of (by decide) (by decide +kernel),
    lidle_of (n := 1) (by decide) (by decide +kernel), by decide +kernel, ?_⟩
  rintro h ⟨l, q, _, _⟩ ⟨h', hs, _, e, hw⟩
  have hlen : h'.length = 4 := by
    have := congrArg List.length e
    simp only [shown, List.length_map, List.length_drop, List.length_reverse, List.length_cons, List.length_nil] at this
    omega
  -- with four moves a player has two
  obtain ⟨s, _, hl⟩ : ∃ s, some (code (some Side.x)) = some (code (some s)) ∧ HasLine h' s := by
    rcases hw with ⟨hw, _⟩ | hw | ⟨hw, _⟩
    · cases hw
    · exact hw
    · exact absurd hw (by decide)
  exact short_no_line hlen hl

theorem C130_violated : ¬ C130Full := fun h => by
  obtain ⟨h, _, h', a, b, c, _⟩ := h stale _ none C130_violated_stale.1 C130_violated_stale.2.2.1 C130_violated_stale.2.2.2.1 rfl
  exact C130_violated_stale.2.2.2.2.2 h ⟨h', a, b, c⟩

end Abc.GameList
