/-
Optimality of the slow tic-tac-toe engine: C40.

The value of a position is stated by what a side can force, without scores and without minimax.
-/
import Verif.Samples.TicTacToeRules

namespace Abc.TicTacToe

/-- Side `s` can play from `h` so that the game ends with `ok`, whatever the other side does. -/
inductive Forces (s : Side) (ok : List Move → Prop) : List Move → Prop
  | done {h} : Over h → ok h → Forces s ok h
  | mine {h m} : toMove h = s → Legal h m → Forces s ok (m :: h) → Forces s ok h
  | theirs {h} : ¬ Over h → toMove h ≠ s → (∀ m, Legal h m → Forces s ok (m :: h)) → Forces s ok h

def Wins (s : Side) (h : List Move) : Prop := HasLine h s
def NotLost (s : Side) (h : List Move) : Prop := ¬ HasLine h s.other

theorem Reach.one_line {h : List Move} (hr : Reach h) {s : Side} (h1 : HasLine h s)
    (h2 : HasLine h s.other) : False := by
  have r := rep_boardOf hr
  have e := ((r.winner s).2 h1).symm.trans ((r.winner s.other).2 h2)
  exact Side.other_ne s (Option.some.inj (code_inj e)).symm

theorem Forces.mono {s : Side} {p q : List Move → Prop} (hpq : ∀ h, Reach h → p h → q h)
    {h : List Move} (hf : Forces s p h) (hr : Reach h) : Forces s q h := by
  induction hf with
  | done ho hp => exact .done ho (hpq _ hr hp)
  | mine ht hl _ ih => exact .mine ht hl (ih (.step hr hl))
  | theirs ho ht _ ih => exact .theirs ho ht (fun m hl => ih m hl (.step hr hl))

theorem Forces.excl {s : Side} {h : List Move} (h1 : Forces s (Wins s) h)
    (h2 : Forces s.other (NotLost s.other) h) : False := by
  induction h1 with
  | done ho hp =>
    cases h2 with
    | done _ hn => exact hn (by rw [Side.other_other]; exact hp)
    | mine _ hl _ => exact hl.2.2 ho
    | theirs hn _ _ => exact hn ho
  | mine ht hl _ ih =>
    cases h2 with
    | done ho _ => exact hl.2.2 ho
    | mine ht' _ _ => exact Side.other_ne s (ht'.symm.trans ht)
    | theirs _ _ hall => exact ih (hall _ hl)
  | theirs ho ht _ ih =>
    cases h2 with
    | done ho' _ => exact ho ho'
    | mine _ hl hf => exact ih _ hl hf
    | theirs _ ht' _ => exact ht' (Side.eq_other ht)

/-- The three outcomes, with the score the engine gives them. -/
def Value (s : Side) (h : List Move) (v : Int) : Prop :=
  (v = 1 ∧ Forces s (Wins s) h) ∨
  (v = 0 ∧ Forces s (NotLost s) h ∧ Forces s.other (NotLost s.other) h) ∨
  (v = -1 ∧ Forces s.other (Wins s.other) h)

theorem Value.flip {s : Side} {h : List Move} {v : Int} (hv : Value s.other h v) :
    Value s h (-v) := by
  rcases hv with ⟨rfl, h1⟩ | ⟨rfl, h1, h2⟩ | ⟨rfl, h1⟩
  · exact .inr (.inr ⟨rfl, h1⟩)
  · rw [Side.other_other] at h2
    exact .inr (.inl ⟨rfl, h2, h1⟩)
  · rw [Side.other_other] at h1
    exact .inl ⟨rfl, h1⟩

/-- What the loop has established after the cells `seen`. -/
structure Loop (h : List Move) (seen : List Move) (r : Search) : Prop where
  temp : r.temp = boardOf h
  best : (r.score = -1 ∧ r.best = none) ∨
    ((r.score = 0 ∨ r.score = 1) ∧
      ∃ m, r.best = some m ∧ Legal h m ∧ Value (toMove h) (m :: h) r.score)
  seen : r.score < 1 → ∀ m ∈ seen, Legal h m → ∃ v, v ≤ r.score ∧ Value (toMove h) (m :: h) v

theorem Value.cases {s : Side} {h : List Move} {v : Int} (hv : Value s h v) :
    v = 1 ∨ v = 0 ∨ v = -1 := by
  rcases hv with ⟨e, _⟩ | ⟨e, _⟩ | ⟨e, _⟩ <;> simp [e]

/-- One candidate move: the score computed is its value, the temporary board comes back. -/
theorem searchStep_legal {h : List Move} (hr : Reach h) {rec : Board → Pid → Search}
    (hrec : ∀ m, Legal h m → ¬ Over (m :: h) →
      (rec (boardOf (m :: h)) (code (some (toMove h).other))).temp = boardOf (m :: h) ∧
      Value (toMove h).other (m :: h)
        (rec (boardOf (m :: h)) (code (some (toMove h).other))).score)
    {seen : List Move} {r : Search} (hl : Loop h seen r) {m : Move} (hm : Legal h m)
    (h1 : r.score < 1) :
    ∃ v, Value (toMove h) (m :: h) v ∧
      searchStep rec (code (some (toMove h))) r m =
        if v > r.score then ⟨v, some m, boardOf h⟩ else ⟨r.score, r.best, boardOf h⟩ := by
  have rep := rep_boardOf hr
  obtain ⟨hok, hrep, hundo⟩ := accept_true rep hm
  have hb : ((boardOf h).accept m).1 = boardOf (m :: h) := rfl
  have hpair : (boardOf h).accept m = (boardOf (m :: h), true) := by
    rw [← hb, ← hok]
  have hcond : (decide (r.score < 1) && r.temp.getMove m == pNone) = true := by
    rw [hl.temp, getMove_of rep.cells hm.1, owner_none.2 hm.2.1]
    simp [h1]; decide
  rw [hb] at hrep hundo
  unfold searchStep
  rw [if_pos hcond, hl.temp, hpair]
  simp only [if_true]
  have hrest : ∀ v : Int,
      Search.mk (if v > r.score then Search.mk v (some m) (boardOf h) else r).score
        (if v > r.score then Search.mk v (some m) (boardOf h) else r).best
        ((boardOf (m :: h)).undo m).1 =
      if v > r.score then ⟨v, some m, boardOf h⟩ else ⟨r.score, r.best, boardOf h⟩ := by
    intro v
    rw [hundo]
    split <;> rfl
  by_cases ho : (boardOf (m :: h)).over = true
  · have hover := hrep.over.1 ho
    rw [if_pos ho]
    refine ⟨if (boardOf (m :: h)).winner == code (some (toMove h)) then 1 else 0, ?_, hrest _⟩
    by_cases hw : HasLine (m :: h) (toMove h)
    · rw [if_pos (by rw [beq_iff_eq]; exact (hrep.winner _).2 hw)]
      exact .inl ⟨rfl, .done hover hw⟩
    · rw [if_neg (by rw [beq_iff_eq]; exact fun e => hw ((hrep.winner _).1 e))]
      have hn : ¬ HasLine (m :: h) (toMove h).other := fun e =>
        hm.2.2 (.inl ⟨_, hasLine_other (Side.other_ne _) e⟩)
      refine .inr (.inl ⟨rfl, .done hover hn, .done hover ?_⟩)
      unfold NotLost
      rw [Side.other_other]; exact hw
  · have hnov : ¬ Over (m :: h) := fun e => ho (hrep.over.2 e)
    obtain ⟨ht, hv⟩ := hrec m hm hnov
    rw [if_neg ho, opponent_code]
    refine ⟨_, hv.flip, ?_⟩
    simp only [ht]
    exact hrest _

theorem searchStep_skip {h : List Move} (hr : Reach h) (hno : ¬ Over h)
    {rec : Board → Pid → Search} {r : Search} (ht : r.temp = boardOf h) {m : Move}
    (hb : OnBoard m) (hm : ¬ (r.score < 1 ∧ Legal h m)) (p : Pid) :
    searchStep rec p r m = r := by
  unfold searchStep
  rw [if_neg]
  intro e
  rw [Bool.and_eq_true, decide_eq_true_eq, beq_iff_eq, ht,
    getMove_of (rep_boardOf hr).cells hb] at e
  exact hm ⟨e.1, hb, owner_none.1 (code_inj (b := none) e.2), hno⟩

theorem loop_step {h : List Move} (hr : Reach h) (hno : ¬ Over h) {rec : Board → Pid → Search}
    (hrec : ∀ m, Legal h m → ¬ Over (m :: h) →
      (rec (boardOf (m :: h)) (code (some (toMove h).other))).temp = boardOf (m :: h) ∧
      Value (toMove h).other (m :: h)
        (rec (boardOf (m :: h)) (code (some (toMove h).other))).score)
    {seen : List Move} {r : Search} (hl : Loop h seen r) {m : Move} (hm : OnBoard m) :
    Loop h (seen ++ [m]) (searchStep rec (code (some (toMove h))) r m) := by
  by_cases hc : r.score < 1 ∧ Legal h m
  · obtain ⟨v, hv, he⟩ := searchStep_legal hr hrec hl hc.2 hc.1
    rw [he]
    by_cases hgt : v > r.score
    · rw [if_pos hgt]
      refine ⟨rfl, .inr ⟨?_, m, rfl, hc.2, hv⟩, ?_⟩
      · have := hv.cases
        rcases hl.best with ⟨e, _⟩ | ⟨e, _⟩ <;> simp only <;> omega
      · intro h1 m' hm' hl'
        rcases List.mem_append.1 hm' with hm' | hm'
        · obtain ⟨w, hw, hw'⟩ := hl.seen hc.1 m' hm' hl'
          refine ⟨w, ?_, hw'⟩
          simp only
          omega
        · rw [List.mem_singleton] at hm'
          subst hm'
          exact ⟨v, Int.le_refl v, hv⟩
    · rw [if_neg hgt]
      refine ⟨rfl, hl.best, ?_⟩
      intro h1 m' hm' hl'
      rcases List.mem_append.1 hm' with hm' | hm'
      · exact hl.seen hc.1 m' hm' hl'
      · rw [List.mem_singleton] at hm'
        subst hm'
        refine ⟨v, ?_, hv⟩
        simp only
        omega
  · rw [searchStep_skip hr hno hl.temp hm hc]
    refine ⟨hl.temp, hl.best, ?_⟩
    intro h1 m' hm' hl'
    rcases List.mem_append.1 hm' with hm' | hm'
    · exact hl.seen h1 m' hm' hl'
    · rw [List.mem_singleton] at hm'
      subst hm'
      exact absurd ⟨h1, hl'⟩ hc

theorem loop_all {h : List Move} (hr : Reach h) (hno : ¬ Over h) {rec : Board → Pid → Search}
    (hrec : ∀ m, Legal h m → ¬ Over (m :: h) →
      (rec (boardOf (m :: h)) (code (some (toMove h).other))).temp = boardOf (m :: h) ∧
      Value (toMove h).other (m :: h)
        (rec (boardOf (m :: h)) (code (some (toMove h).other))).score)
    (l : List Move) (hon : ∀ m ∈ l, OnBoard m) :
    ∀ (seen : List Move) (r : Search), Loop h seen r →
      Loop h (seen ++ l) (l.foldl (searchStep rec (code (some (toMove h)))) r) := by
  induction l with
  | nil => intro seen r hl; simpa using hl
  | cons m l ih =>
    intro seen r hl
    have := ih (fun m' hm' => hon m' (List.mem_cons_of_mem _ hm')) _ _
      (loop_step hr hno hrec hl (hon m (List.mem_cons_self ..)))
    rw [List.append_assoc] at this
    simpa using this

/-- The search: the board comes back unchanged, the score is the value of the position, and the
move found (there is one unless the position is lost) keeps that value. -/
theorem slowFind_spec (fuel : Nat) : ∀ h : List Move, Reach h → ¬ Over h →
    9 < fuel + h.length →
    (slowFind fuel (boardOf h) (code (some (toMove h)))).temp = boardOf h ∧
    Value (toMove h) h (slowFind fuel (boardOf h) (code (some (toMove h)))).score ∧
    (((slowFind fuel (boardOf h) (code (some (toMove h)))).score = -1 ∧
      (slowFind fuel (boardOf h) (code (some (toMove h)))).best = none) ∨
     ((slowFind fuel (boardOf h) (code (some (toMove h)))).score ≠ -1 ∧
      ∃ m, (slowFind fuel (boardOf h) (code (some (toMove h)))).best = some m ∧ Legal h m ∧
        Value (toMove h) (m :: h) (slowFind fuel (boardOf h) (code (some (toMove h)))).score)) := by
  induction fuel with
  | zero => intro h hr hno hf; have := hr.length_le; omega
  | succ fuel ih =>
    intro h hr hno hf
    have hrec : ∀ m, Legal h m → ¬ Over (m :: h) →
        (slowFind fuel (boardOf (m :: h)) (code (some (toMove h).other))).temp = boardOf (m :: h) ∧
        Value (toMove h).other (m :: h)
          (slowFind fuel (boardOf (m :: h)) (code (some (toMove h).other))).score := by
      intro m hm ho
      have := ih (m :: h) (.step hr hm) ho (by rw [List.length_cons]; omega)
      rw [toMove_cons] at this
      exact ⟨this.1, this.2.1⟩
    have hl := loop_all hr hno hrec cells (fun m hm => onBoard_cells hm) []
      ⟨-1, none, boardOf h⟩ ⟨rfl, .inl ⟨rfl, rfl⟩, by intro _ m hm; simp at hm⟩
    rw [List.nil_append] at hl
    change _ ∧ _ ∧ _
    simp only [slowFind]
    generalize List.foldl (searchStep (slowFind fuel) (code (some (toMove h))))
      ⟨-1, none, boardOf h⟩ cells = r at hl
    have hall : r.score < 1 → ∀ m, Legal h m → ∃ v, v ≤ r.score ∧ Value (toMove h) (m :: h) v :=
      fun h1 m hm => hl.seen h1 m (mem_cells hm.1) hm
    have hne : toMove h ≠ (toMove h).other := (Side.other_ne _).symm
    refine ⟨hl.temp, ?_, ?_⟩
    · rcases hl.best with ⟨e, _⟩ | ⟨e | e, m, _, hm, hv⟩
      · refine .inr (.inr ⟨e, .theirs hno hne ?_⟩)
        intro m hm
        obtain ⟨v, hv, hv'⟩ := hall (by omega) m hm
        rcases hv' with ⟨h1, _⟩ | ⟨h1, _⟩ | ⟨_, h1⟩
        · omega
        · omega
        · exact h1
      · refine .inr (.inl ⟨e, ?_, .theirs hno hne ?_⟩)
        · rcases hv with ⟨h1, _⟩ | ⟨_, h1, _⟩ | ⟨h1, _⟩
          · omega
          · exact .mine rfl hm h1
          · omega
        · intro m hm
          obtain ⟨v, hv, hv'⟩ := hall (by omega) m hm
          rcases hv' with ⟨h1, _⟩ | ⟨_, _, h1⟩ | ⟨_, h1⟩
          · omega
          · exact h1
          · refine h1.mono (fun h' hr' hw => ?_) (.step hr hm)
            intro hw'
            rw [Side.other_other] at hw'
            exact hr'.one_line hw' hw
      · refine .inl ⟨e, ?_⟩
        rcases hv with ⟨_, h1⟩ | ⟨h1, _⟩ | ⟨h1, _⟩
        · exact .mine rfl hm h1
        · omega
        · omega
    · rcases hl.best with h1 | ⟨e, m, hm⟩
      · exact .inl h1
      · exact .inr ⟨by omega, m, hm⟩

/-! ## C40 -/

/-- C40 on every position that is not lost: the slow engine leaves its board as it found it, its
score tells what the side to move can force, and the move it returns is legal and still forces
the same.  On a lost position the move is left unassigned (see `C40_violated`). -/
theorem C40_slow_engine_partial {h : List Move} (hr : Reach h) (hno : ¬ Over h) :
    let s := toMove h
    let r := slowFind 10 (boardOf h) (code (some s))
    r.temp = boardOf h ∧
    (r.score = 1 ↔ Forces s (Wins s) h) ∧
    (0 ≤ r.score ↔ Forces s (NotLost s) h) ∧
    (r.score = -1 ↔ Forces s.other (Wins s.other) h) ∧
    (Forces s (NotLost s) h → ∃ m, r.best = some m ∧ Legal h m ∧ Forces s (NotLost s) (m :: h) ∧
      (Forces s (Wins s) h → Forces s (Wins s) (m :: h))) := by
  intro s r
  obtain ⟨h1, h2, h3⟩ := slowFind_spec 10 h hr hno (by omega)
  change r.temp = _ at h1
  change Value s h r.score at h2
  change (r.score = -1 ∧ r.best = none) ∨ (r.score ≠ -1 ∧ ∃ m, r.best = some m ∧ Legal h m ∧
    Value s (m :: h) r.score) at h3
  have hmono : ∀ {s : Side} {h : List Move}, Reach h → Forces s (Wins s) h →
      Forces s (NotLost s) h := by
    intro s h hr hf
    exact hf.mono (fun h' hr' hw hw' => hr'.one_line hw hw') hr
  have hx : ∀ {s : Side} {h : List Move}, Forces s.other (Wins s.other) h →
      Forces s (NotLost s) h → False := by
    intro s h h1 h2
    refine h1.excl ?_
    rw [Side.other_other]; exact h2
  refine ⟨h1, ?_, ?_, ?_, ?_⟩
  · constructor
    · intro e
      rcases h2 with ⟨_, h2⟩ | ⟨h2, _⟩ | ⟨h2, _⟩
      · exact h2
      · omega
      · omega
    · intro hf
      rcases h2 with ⟨e, _⟩ | ⟨_, _, h2⟩ | ⟨_, h2⟩
      · exact e
      · exact (hf.excl h2).elim
      · exact (hx h2 (hmono hr hf)).elim
  · constructor
    · intro e
      rcases h2 with ⟨_, h2⟩ | ⟨_, h2, _⟩ | ⟨h2, _⟩
      · exact hmono hr h2
      · exact h2
      · omega
    · intro hf
      rcases h2 with ⟨e, _⟩ | ⟨e, _, _⟩ | ⟨_, h2⟩
      · omega
      · omega
      · exact (hx h2 hf).elim
  · constructor
    · intro e
      rcases h2 with ⟨h2, _⟩ | ⟨h2, _, _⟩ | ⟨_, h2⟩
      · omega
      · omega
      · exact h2
    · intro hf
      rcases h2 with ⟨_, h2⟩ | ⟨_, h2, _⟩ | ⟨e, _⟩
      · exact (hx hf (hmono hr h2)).elim
      · exact (hx hf h2).elim
      · exact e
  · intro hf
    rcases h3 with ⟨e, _⟩ | ⟨_, m, hb, hl, hv⟩
    · rcases h2 with ⟨h2, _⟩ | ⟨h2, _, _⟩ | ⟨_, h2⟩
      · omega
      · omega
      · exact (hx h2 hf).elim
    · refine ⟨m, hb, hl, ?_, ?_⟩
      · rcases hv with ⟨_, hv⟩ | ⟨_, hv, _⟩ | ⟨e, hv⟩
        · exact hmono (.step hr hl) hv
        · exact hv
        · rcases h2 with ⟨h2, _⟩ | ⟨h2, _, _⟩ | ⟨_, h2⟩
          · omega
          · omega
          · exact (hx h2 hf).elim
      · intro hw
        rcases hv with ⟨_, hv⟩ | ⟨e, _⟩ | ⟨e, _⟩
        · exact hv
        · rcases h2 with ⟨h2, _⟩ | ⟨_, _, h2⟩ | ⟨h2, _⟩
          · omega
          · exact (hw.excl h2).elim
          · omega
        · rcases h2 with ⟨h2, _⟩ | ⟨h2, _⟩ | ⟨_, h2⟩
          · omega
          · omega
          · exact (hx h2 hf).elim

/-- C40 in full: on every unfinished position the engine finds a legal move. -/
def C40Full : Prop :=
  ∀ h : List Move, Reach h → ¬ Over h →
    ∃ m, (slowFind 10 (boardOf h) (code (some (toMove h)))).best = some m ∧ Legal h m

/-- Deciding `Reach` with the program's own board (only used for concrete cases). -/
def reachB : List Move → Bool
  | [] => true
  | m :: h => reachB h && m.isValid && !h.contains m && !(boardOf h).over

theorem reach_of_reachB {h : List Move} (hb : reachB h = true) : Reach h := by
  induction h with
  | nil => exact .start
  | cons m h ih =>
    simp only [reachB, Bool.and_eq_true, Bool.not_eq_true'] at hb
    obtain ⟨⟨⟨h1, h2⟩, h3⟩, h4⟩ := hb
    have hr := ih h1
    refine .step hr ⟨(isValid_iff m).1 h2, by simpa using h3, fun ho => ?_⟩
    rw [(rep_boardOf hr).over.2 ho] at h4
    cases h4

theorem not_over_of {h : List Move} (hr : Reach h) (ho : (boardOf h).over = false) : ¬ Over h := by
  intro h1
  rw [(rep_boardOf hr).over.2 h1] at ho
  cases ho

/-- `x` has two open lines and `o` is to move. -/
def lost : List Move := [⟨2, 0⟩, ⟨0, 2⟩, ⟨2, 2⟩, ⟨1, 1⟩, ⟨0, 0⟩]

/-- On a lost position every move scores -1, which is not larger than the initial -1: `best_move`
is never assigned, and `slow_make_move` hands an indeterminate move to `accept_move`. -/
theorem C40_violated : ¬ C40Full := by
  intro hf
  obtain ⟨m, hm, _⟩ := hf lost (reach_of_reachB (by decide +kernel))
    (not_over_of (reach_of_reachB (by decide +kernel)) (by decide +kernel))
  have : (slowFind 10 (boardOf lost) (code (some (toMove lost)))).best = none := by
    decide +kernel
  rw [this] at hm
  cases hm

/-- What the engine does to the board of a game that goes on: nothing when it is not its turn, a legal move when it
is, and that move keeps what can be forced. -/
theorem C40_make_move {h : List Move} (hr : Reach h) (hno : ¬ Over h) {p : Pid} {b : Board} (hb : slowMakeMove (boardOf h) p = some b) :
    (p ≠ code (some (toMove h)) ∧ b = boardOf h) ∨
    (p = code (some (toMove h)) ∧ ∃ m, Legal h m ∧ b = boardOf (m :: h) ∧ (Forces (toMove h) (NotLost (toMove h)) h → Forces (toMove h) (NotLost (toMove h)) (m :: h))) := by
  have rep := rep_boardOf hr
  have hov : (boardOf h).over = false := by
    cases ho : (boardOf h).over with
    | false => rfl
    | true => exact absurd (rep.over.1 ho) hno
  have hcur := rep.turn hov
  unfold slowMakeMove at hb
  by_cases hp : p = code (some (toMove h))
  · right
    subst hp
    obtain ⟨_, _, h3⟩ := slowFind_spec 10 h hr hno (by omega)
    have h4 := (C40_slow_engine_partial hr hno).2.2.2.2
    rcases h3 with ⟨_, h3⟩ | ⟨_, m, h3, hl, _⟩
    · rw [h3] at hb; cases hb
    · rw [h3] at hb
      simp only [hcur, bne_self_eq_false, Bool.false_eq_true, if_false] at hb
      refine ⟨rfl, m, hl, (Option.some.inj hb).symm, fun hf => ?_⟩
      obtain ⟨m', e, _, h5, _⟩ := h4 hf
      rw [h3] at e
      rw [Option.some.inj e]; exact h5
  · left
    refine ⟨hp, ?_⟩
    cases hbest : (slowFind 10 (boardOf h) p).best with
    | none => rw [hbest] at hb; cases hb
    | some m =>
      rw [hbest] at hb
      simp only at hb
      rw [if_pos (by rw [hcur]; exact bne_iff_ne.2 hp)] at hb
      exact (Option.some.inj hb).symm

theorem C40_violated_make_move : slowMakeMove (boardOf lost) pO = none := by decide +kernel

/-- The hypotheses of `C40_slow_engine_partial` on an open position: `x` can win at once. -/
example :
    Reach [⟨1, 0⟩, ⟨0, 1⟩, ⟨1, 1⟩, ⟨0, 0⟩] ∧
    (slowFind 10 (boardOf [⟨1, 0⟩, ⟨0, 1⟩, ⟨1, 1⟩, ⟨0, 0⟩]) pX).best = some ⟨0, 2⟩ := by
  exact ⟨reach_of_reachB (by decide +kernel), by decide +kernel⟩

example : let h : List Move := [⟨1, 0⟩, ⟨0, 1⟩, ⟨1, 1⟩, ⟨0, 0⟩]
    slowMakeMove (boardOf h) pX = some (boardOf (⟨0, 2⟩ :: h)) ∧ slowMakeMove (boardOf h) pO = some (boardOf h) := by decide +kernel

/-! ## An engine that plays the whole game never meets a lost position -/

/-- Cells by number, for a search that the kernel can run. -/
def cellAt (k : Nat) : Move := ⟨((k / 3 : Nat) : Int), ((k % 3 : Nat) : Int)⟩

def ownsN (x : Bool) : List Nat → Nat → Bool
  | [], _ => false
  | a :: ks, k => if Nat.beq a k then Nat.beq (ks.length % 2) (if x then 0 else 1) else ownsN x ks k

def lineN (x : Bool) (ks : List Nat) : Bool :=
  (ownsN x ks 0 && ownsN x ks 1 && ownsN x ks 2) || (ownsN x ks 3 && ownsN x ks 4 && ownsN x ks 5) ||
  (ownsN x ks 6 && ownsN x ks 7 && ownsN x ks 8) || (ownsN x ks 0 && ownsN x ks 3 && ownsN x ks 6) ||
  (ownsN x ks 1 && ownsN x ks 4 && ownsN x ks 7) || (ownsN x ks 2 && ownsN x ks 5 && ownsN x ks 8) ||
  (ownsN x ks 0 && ownsN x ks 4 && ownsN x ks 8) || (ownsN x ks 2 && ownsN x ks 4 && ownsN x ks 6)

def takenN : List Nat → Nat → Bool
  | [], _ => false
  | a :: ks, k => Nat.beq a k || takenN ks k

def anyN (f : Nat → Bool) : List Nat → Bool
  | [] => false
  | a :: ks => f a || anyN f ks

def allN (f : Nat → Bool) : List Nat → Bool
  | [] => true
  | a :: ks => f a && allN f ks

def orderN : List Nat := [4, 0, 2, 6, 8, 1, 3, 5, 7]

/-- The side `x`/`o` (first argument) can avoid a loss. -/
def safeN (x : Bool) : Nat → List Nat → Bool
  | 0, _ => false
  | f + 1, ks =>
    !lineN (!x) ks && (lineN x ks || Nat.beq ks.length 9 ||
      (if Nat.beq (ks.length % 2) (if x then 0 else 1) then
        anyN (fun k => !takenN ks k && safeN x f (k :: ks)) orderN
      else allN (fun k => takenN ks k || safeN x f (k :: ks)) orderN))

def sideOf (x : Bool) : Side := if x then .x else .o

theorem sideOf_not (x : Bool) : sideOf (!x) = (sideOf x).other := by cases x <;> rfl

theorem onBoard_cellAt {k : Nat} (hk : k < 9) : OnBoard (cellAt k) := by
  unfold OnBoard cellAt
  simp only
  omega

theorem cellAt_inj {a b : Nat} (h : cellAt a = cellAt b) : a = b := by
  unfold cellAt at h
  rw [Move.mk.injEq] at h
  omega

theorem cellAt_surj {m : Move} (hm : OnBoard m) : ∃ k, k < 9 ∧ m = cellAt k := by
  obtain ⟨h1, h2, h3, h4⟩ := hm
  obtain ⟨r, c⟩ := m
  refine ⟨(r * 3 + c).toNat, ?_, ?_⟩
  · simp only at *; omega
  · unfold cellAt
    rw [Move.mk.injEq]
    simp only at *
    omega

theorem toMove_side (x : Bool) (ks : List Nat) :
    Nat.beq (ks.length % 2) (if x then 0 else 1) = true ↔ toMove (ks.map cellAt) = sideOf x := by
  rw [Nat.beq_eq, toMove, List.length_map]
  rcases Nat.mod_two_eq_zero_or_one ks.length with e | e <;> rw [e] <;> cases x <;> decide

theorem ownsN_iff (x : Bool) (ks : List Nat) (k : Nat) :
    ownsN x ks k = true ↔ owner (ks.map cellAt) (cellAt k) = some (sideOf x) := by
  induction ks with
  | nil => simp [ownsN, owner]
  | cons a ks ih =>
    simp only [ownsN, List.map_cons, owner]
    by_cases e : a = k
    · subst e
      rw [if_pos (Nat.beq_refl a), if_pos rfl, toMove_side, Option.some.injEq]
    · rw [if_neg (fun h => e (Nat.eq_of_beq_eq_true h)), if_neg (fun h => e (cellAt_inj h)), ih]

theorem lineN_iff (x : Bool) (ks : List Nat) :
    lineN x ks = true ↔ HasLine (ks.map cellAt) (sideOf x) := by
  rw [hasLine_iff]
  unfold lineN
  simp only [Bool.or_eq_true, Bool.and_eq_true, ownsN_iff, and_assoc, or_assoc]
  rfl

theorem takenN_iff (ks : List Nat) (k : Nat) : takenN ks k = true ↔ cellAt k ∈ ks.map cellAt := by
  induction ks with
  | nil => simp [takenN]
  | cons a ks ih =>
    simp only [takenN, Bool.or_eq_true, ih, List.map_cons, List.mem_cons, Nat.beq_eq]
    constructor
    · rintro (e | e)
      · left; rw [e]
      · right; exact e
    · rintro (e | e)
      · left; exact (cellAt_inj e).symm
      · right; exact e

theorem anyN_iff (f : Nat → Bool) (l : List Nat) : anyN f l = true ↔ ∃ k ∈ l, f k = true := by
  induction l with
  | nil => simp [anyN]
  | cons a l ih => simp [anyN, ih]

theorem allN_iff (f : Nat → Bool) (l : List Nat) : allN f l = true ↔ ∀ k ∈ l, f k = true := by
  induction l with
  | nil => simp [allN]
  | cons a l ih => simp [allN, ih]

theorem safeN_sound (x : Bool) (f : Nat) : ∀ ks : List Nat, Reach (ks.map cellAt) →
    safeN x f ks = true → Forces (sideOf x) (NotLost (sideOf x)) (ks.map cellAt) := by
  induction f with
  | zero => intro ks _ h; cases h
  | succ f ih =>
    intro ks hr h
    rw [safeN, Bool.and_eq_true, Bool.or_eq_true, Bool.or_eq_true] at h
    obtain ⟨hn, h⟩ := h
    have hn' : NotLost (sideOf x) (ks.map cellAt) := by
      intro hl
      rw [← sideOf_not, ← lineN_iff] at hl
      rw [hl] at hn
      cases hn
    rcases h with (h | h) | h
    · exact .done (.inl ⟨_, (lineN_iff _ _).1 h⟩) hn'
    · exact .done (.inr (hr.full_iff.2 (by rw [List.length_map]; exact Nat.eq_of_beq_eq_true h))) hn'
    · by_cases ho : Over (ks.map cellAt)
      · exact .done ho hn'
      · by_cases ht : toMove (ks.map cellAt) = sideOf x
        · rw [if_pos ((toMove_side _ _).2 ht), anyN_iff] at h
          obtain ⟨k, hk, h⟩ := h
          rw [Bool.and_eq_true] at h
          have hk9 : k < 9 := by clear h; revert hk; revert k; decide
          have hl : Legal (ks.map cellAt) (cellAt k) := by
            refine ⟨onBoard_cellAt hk9, fun hm => ?_, ho⟩
            rw [(takenN_iff _ _).2 hm] at h
            exact absurd h.1 (by decide)
          exact .mine ht hl (ih (k :: ks) (.step hr hl) h.2)
        · rw [if_neg (fun e => ht ((toMove_side _ _).1 e)), allN_iff] at h
          refine .theirs ho ht (fun m hm => ?_)
          obtain ⟨k, hk, rfl⟩ := cellAt_surj hm.1
          have hk' : k ∈ orderN := by clear hm; revert hk; revert k; decide
          have := h k hk'
          rw [Bool.or_eq_true, takenN_iff] at this
          exact ih (k :: ks) (.step hr hm) (this.resolve_left hm.2.1)

theorem start_safe (s : Side) : Forces s (NotLost s) [] := by
  cases s
  · exact safeN_sound true 10 [] .start (by decide +kernel)
  · exact safeN_sound false 10 [] .start (by decide +kernel)

/-- Games in which one side is played by the slow engine and the other side plays any legal move. -/
inductive EngineGame (s : Side) : List Move → Prop
  | start : EngineGame s []
  | opponent {h m} : EngineGame s h → toMove h ≠ s → Legal h m → EngineGame s (m :: h)
  | engine {h m} : EngineGame s h → toMove h = s → ¬ Over h →
      (slowFind 10 (boardOf h) (code (some s))).best = some m → EngineGame s (m :: h)

theorem engineGame_safe {s : Side} {h : List Move} (hg : EngineGame s h) :
    Reach h ∧ Forces s (NotLost s) h := by
  induction hg with
  | start => exact ⟨.start, start_safe s⟩
  | opponent _ ht hl ih =>
    refine ⟨.step ih.1 hl, ?_⟩
    cases ih.2 with
    | done ho _ => exact absurd ho hl.2.2
    | mine ht' _ _ => exact absurd ht' ht
    | theirs _ _ hall => exact hall _ hl
  | engine _ ht ho hb ih =>
    subst ht
    obtain ⟨m', hb', hl, hf, _⟩ := (C40_slow_engine_partial ih.1 ho).2.2.2.2 ih.2
    rw [hb] at hb'
    cases hb'
    exact ⟨.step ih.1 hl, hf⟩

/-- C40 for a whole game: an engine that has played its side from the first move always finds a
legal move, and never loses, against any opponent.  (The indeterminate move of `C40_violated` is
only met when the engine is handed a position it did not play into.) -/
theorem C40_whole_game {s : Side} {h : List Move} (hg : EngineGame s h) :
    (¬ Over h → toMove h = s →
      ∃ m, (slowFind 10 (boardOf h) (code (some s))).best = some m ∧ Legal h m) ∧
    ¬ HasLine h s.other := by
  obtain ⟨hr, hf⟩ := engineGame_safe hg
  constructor
  · intro ho ht
    subst ht
    obtain ⟨m, hb, hl, _⟩ := (C40_slow_engine_partial hr ho).2.2.2.2 hf
    exact ⟨m, hb, hl⟩
  · intro hl
    cases hf with
    | done _ hn => exact hn hl
    | mine _ hm _ => exact hm.2.2 (.inl ⟨_, hl⟩)
    | theirs hn _ _ => exact hn (.inl ⟨_, hl⟩)

/-- A case: `x` opens in a corner, and the engine playing `o` has an answer. -/
example : ∃ m, EngineGame .o [m, ⟨0, 0⟩] := by
  have h0 : Legal [] ⟨0, 0⟩ := ⟨by unfold OnBoard; decide, by simp, not_over_nil⟩
  have hg : EngineGame .o [⟨0, 0⟩] := .opponent .start (by decide) h0
  have ho : ¬ Over [⟨0, 0⟩] := not_over_of (.step .start h0) (by decide +kernel)
  obtain ⟨m, hb, _⟩ := (C40_whole_game hg).1 ho (by decide)
  exact ⟨m, .engine hg (by decide) ho hb⟩

end Abc.TicTacToe
