/-
The slow connect-four engine: C60.  What it can see is stated by forced wins within a number of
moves, without scores.
-/
import Verif.Samples.Connect4Rules

namespace Abc.Connect4

/-- Side `s` can reach four in a row within `n` more moves (of both sides), whatever the other side
does. -/
inductive ForceWin (s : Side) : Nat → List Move → Prop
  | now {n h} : HasFour h s → ForceWin s n h
  | mine {n h m} : toMove h = s → Legal h m → ForceWin s n (m :: h) → ForceWin s (n + 1) h
  | theirs {n h} : ¬ Over h → toMove h ≠ s → (∀ m, Legal h m → ForceWin s n (m :: h)) →
      ForceWin s (n + 1) h

theorem forceWin_over {s : Side} {n : Nat} {h : List Move} (ho : Over h) (hf : ForceWin s n h) :
    HasFour h s := by
  cases hf with
  | now h => exact h
  | mine _ hl _ => exact absurd ho hl.2.2
  | theirs hn _ _ => exact absurd ho hn

/-- The number the engine gives to the move `m` at `h`, `d` levels above the horizon; `child` are the
scores of the positions below. -/
def MoveScore (h : List Move) (d : Nat) (child : List Move → Int) (m : Move) (v : Int) : Prop :=
  (HasFour (m :: h) (toMove h) ∧ v = (d : Int) + 2) ∨
  (¬ HasFour (m :: h) (toMove h) ∧ Full (m :: h) ∧ v = 0) ∨
  (¬ Over (m :: h) ∧ ((d = 0 ∧ v = -1) ∨ (0 < d ∧ v = -(child (m :: h)))))

/-- What the loop has established after the columns `seen`. -/
structure Loop (h : List Move) (d : Nat) (child : List Move → Int) (low : Int) (seen : List Int)
    (r : Search) : Prop where
  temp : r.temp = boardOf h
  best : (r.score = low ∧ r.best = none) ∨
    (∃ m, r.best = some m ∧ Legal h m ∧ MoveScore h d child m r.score)
  all : ∀ m, Legal h m → m.col ∈ seen → ∃ v, v ≤ r.score ∧ MoveScore h d child m v
  some : (∃ m, Legal h m ∧ m.col ∈ seen) → r.best ≠ none

theorem one_four {h : List Move} {m : Move} {s : Side} (hl : Legal h m)
    (hs : HasFour (m :: h) s) : s = toMove h := by
  by_contra e
  exact hl.2.2 (.inl ⟨s, hasFour_other e hs⟩)

theorem searchStep_legal {h : List Move} (hr : Reach h) {rec : Board → Search} {d : Nat}
    {child : List Move → Int}
    (hrec : ∀ m, 0 < d → Legal h m → ¬ Over (m :: h) →
      (rec (boardOf (m :: h))).temp = boardOf (m :: h) ∧
      (rec (boardOf (m :: h))).score = child (m :: h))
    {r : Search} (ht : r.temp = boardOf h) {m : Move} (hm : Legal h m) :
    ∃ v, MoveScore h d child m v ∧
      searchStep rec d r m.col =
        if v > r.score then ⟨v, some m, boardOf h⟩ else ⟨r.score, r.best, boardOf h⟩ := by
  have rep := rep_boardOf hr
  obtain ⟨hok, hrep, hundo⟩ := accept_true rep hm
  have hb : ((boardOf h).accept m).1 = boardOf (m :: h) := rfl
  have hpair : (boardOf h).accept m = (boardOf (m :: h), true) := by
    rw [← hb, ← hok]
  have hcol : (⟨(boardOf h).colSize m.col, m.col⟩ : Move) = m := by
    rw [colSize_of rep.cells hm.1.2.2.1 hm.1.2.2.2, ← hm.2.1]
  rw [hb] at hrep hundo
  unfold searchStep
  simp only [ht, hcol]
  rw [if_pos ((isValid_iff m).2 hm.1), hpair]
  simp only [if_true]
  have hrest : ∀ v : Int,
      Search.mk (if v > r.score then Search.mk v (some m) (boardOf h) else r).score
        (if v > r.score then Search.mk v (some m) (boardOf h) else r).best
        ((boardOf (m :: h)).undo m).1 =
      if v > r.score then ⟨v, some m, boardOf h⟩ else ⟨r.score, r.best, boardOf h⟩ := by
    intro v
    rw [hundo]
    split <;> rfl
  by_cases ho : (boardOf (m :: h)).over = true
  · have hover := hrep.over.1 ho
    rw [if_pos ho]
    refine ⟨if (boardOf (m :: h)).winner != pNone then (d : Int) + 2 else 0, ?_, hrest _⟩
    by_cases hw : HasFour (m :: h) (toMove h)
    · rw [if_pos]
      · exact .inl ⟨hw, rfl⟩
      · rw [bne_iff_ne]
        intro e
        exact hrep.noWinner.1 e _ hw
    · have hnone : ∀ s, ¬ HasFour (m :: h) s := fun s hs => hw (one_four hm hs ▸ hs)
      rw [if_neg]
      · refine .inr (.inl ⟨hw, ?_, rfl⟩)
        rcases hover with ⟨s, hs⟩ | hf
        · exact absurd hs (hnone s)
        · exact hf
      · rw [bne_iff_ne]
        exact fun e => e (hrep.noWinner.2 hnone)
  · have hnov : ¬ Over (m :: h) := fun e => ho (hrep.over.2 e)
    rw [if_neg ho]
    have hcnt : (boardOf (m :: h)).count < 6 * 7 := by
      have h1 := hrep.reach.length_le
      have h2 : ¬ (m :: h).length = 42 := fun e => hnov (.inr (hrep.reach.full_iff.2 e))
      have h3 := hrep.count
      omega
    by_cases hd : 0 < d
    · obtain ⟨h1, h2⟩ := hrec m hd hm hnov
      have hcond : (decide ((d : Int) > 0) && decide ((boardOf (m :: h)).count < 6 * 7)) = true := by
        rw [Bool.and_eq_true, decide_eq_true_eq, decide_eq_true_eq]; exact ⟨by omega, hcnt⟩
      simp only [hcond, if_true]
      refine ⟨_, .inr (.inr ⟨hnov, .inr ⟨hd, rfl⟩⟩), ?_⟩
      simp only [h1, h2]
      exact hrest _
    · have hcond : (decide ((d : Int) > 0) && decide ((boardOf (m :: h)).count < 6 * 7)) = false := by
        rw [Bool.and_eq_false_iff, decide_eq_false_iff_not]; exact .inl (by omega)
      simp only [hcond, Bool.false_eq_true, if_false]
      exact ⟨-1, .inr (.inr ⟨hnov, .inl ⟨by omega, rfl⟩⟩), hrest _⟩

theorem searchStep_skip {h : List Move} (hr : Reach h) (hno : ¬ Over h) {rec : Board → Search}
    {r : Search} (ht : r.temp = boardOf h) {c : Int} (h0 : 0 ≤ c) (h7 : c < 7)
    (hm : ¬ ∃ m, Legal h m ∧ m.col = c) (d : Int) : searchStep rec d r c = r := by
  unfold searchStep
  simp only [ht]
  rw [colSize_of (rep_boardOf hr).cells h0 h7, if_neg]
  intro hv
  exact hm ⟨⟨height h c, c⟩, ⟨(isValid_iff _).1 hv, rfl, hno⟩, rfl⟩

theorem loop_step {h : List Move} (hr : Reach h) (hno : ¬ Over h) {rec : Board → Search} {d : Nat}
    {child : List Move → Int} {low : Int}
    (hrec : ∀ m, 0 < d → Legal h m → ¬ Over (m :: h) →
      (rec (boardOf (m :: h))).temp = boardOf (m :: h) ∧
      (rec (boardOf (m :: h))).score = child (m :: h))
    (hlow : ∀ m v, Legal h m → MoveScore h d child m v → low < v)
    {seen : List Int} {r : Search} (hl : Loop h d child low seen r) {c : Int} (h0 : 0 ≤ c)
    (h7 : c < 7) : Loop h d child low (seen ++ [c]) (searchStep rec d r c) := by
  by_cases hc : ∃ m, Legal h m ∧ m.col = c
  · obtain ⟨m, hm, rfl⟩ := hc
    have uniq : ∀ m', Legal h m' → m'.col = m.col → m' = m := by
      intro m' hm' e
      have h1 := hm'.2.1
      have h2 := hm.2.1
      rw [e] at h1
      cases m; cases m'
      simp only at *
      rw [Move.mk.injEq]
      omega
    obtain ⟨v, hv, he⟩ := searchStep_legal hr hrec hl.temp hm
    rw [he]
    by_cases hgt : v > r.score
    · rw [if_pos hgt]
      refine ⟨rfl, .inr ⟨m, rfl, hm, hv⟩, ?_, fun _ => by simp⟩
      intro m' hm' hin
      rcases List.mem_append.1 hin with hin | hin
      · obtain ⟨w, hw, hw'⟩ := hl.all m' hm' hin
        refine ⟨w, ?_, hw'⟩
        simp only
        omega
      · rw [uniq m' hm' (List.mem_singleton.1 hin)]
        exact ⟨v, Int.le_refl v, hv⟩
    · rw [if_neg hgt]
      have hne : r.best ≠ none := by
        intro e
        rcases hl.best with ⟨e', _⟩ | ⟨m', e', _⟩
        · have := hlow m v hm hv
          omega
        · rw [e] at e'; cases e'
      refine ⟨rfl, hl.best, ?_, fun _ => hne⟩
      intro m' hm' hin
      rcases List.mem_append.1 hin with hin | hin
      · exact hl.all m' hm' hin
      · rw [uniq m' hm' (List.mem_singleton.1 hin)]
        refine ⟨v, ?_, hv⟩
        simp only
        omega
  · rw [searchStep_skip hr hno hl.temp h0 h7 hc]
    refine ⟨hl.temp, hl.best, ?_, ?_⟩
    · intro m' hm' hin
      rcases List.mem_append.1 hin with hin | hin
      · exact hl.all m' hm' hin
      · exact absurd ⟨m', hm', List.mem_singleton.1 hin⟩ hc
    · rintro ⟨m', hm', hin⟩
      rcases List.mem_append.1 hin with hin | hin
      · exact hl.some ⟨m', hm', hin⟩
      · exact absurd ⟨m', hm', List.mem_singleton.1 hin⟩ hc

theorem loop_all {h : List Move} (hr : Reach h) (hno : ¬ Over h) {rec : Board → Search} {d : Nat}
    {child : List Move → Int} {low : Int}
    (hrec : ∀ m, 0 < d → Legal h m → ¬ Over (m :: h) →
      (rec (boardOf (m :: h))).temp = boardOf (m :: h) ∧
      (rec (boardOf (m :: h))).score = child (m :: h))
    (hlow : ∀ m v, Legal h m → MoveScore h d child m v → low < v)
    (l : List Int) (hon : ∀ c ∈ l, 0 ≤ c ∧ c < 7) :
    ∀ (seen : List Int) (r : Search), Loop h d child low seen r →
      Loop h d child low (seen ++ l) (l.foldl (searchStep rec d) r) := by
  induction l with
  | nil => intro seen r hl; simpa using hl
  | cons c l ih =>
    intro seen r hl
    have hc := hon c (List.mem_cons_self ..)
    have := ih (fun m' hm' => hon m' (List.mem_cons_of_mem _ hm')) _ _
      (loop_step hr hno hrec hlow hl hc.1 hc.2)
    rw [List.append_assoc] at this
    simpa using this

theorem exists_legal {h : List Move} (hr : Reach h) (hno : ¬ Over h) : ∃ m, Legal h m := by
  have : ∃ m, OnBoard m ∧ m ∉ h := by
    by_contra hc
    refine hno (.inr (fun m hm => ?_))
    by_contra hn
    exact hc ⟨m, hm, hn⟩
  obtain ⟨m, hm, hn⟩ := this
  have hge : height h m.col ≤ m.row := by
    by_contra hlt
    exact hn ((hr.mem_iff m).2 ⟨hm, by omega⟩)
  have h0 := height_nonneg h m.col
  refine ⟨⟨height h m.col, m.col⟩, ?_, rfl, hno⟩
  obtain ⟨h1, h2, h3, h4⟩ := hm
  unfold OnBoard
  simp only
  omega

theorem col_mem {h : List Move} {m : Move} (hm : Legal h m) : m.col ∈ searchCols := by
  obtain ⟨_, _, h3, h4⟩ := hm.1
  unfold searchCols
  generalize m.col = c at *
  interval_cases c <;> decide

/-- The scores of the search, as a function of the moves standing. -/
def scoreOf (M : Int) (d : Nat) (h : List Move) : Int := (slowFind M d (boardOf h)).score

/-- One level of the search: the board comes back, the move found is legal, its score is the
position's score and no legal move scores more. -/
theorem slowFind_level {M : Int} (hM : 2 ≤ M) (d : Nat) (hd : (d : Int) ≤ M) :
    ∀ h : List Move, Reach h → ¬ Over h →
    (slowFind M d (boardOf h)).temp = boardOf h ∧
    (∃ m, (slowFind M d (boardOf h)).best = some m ∧ Legal h m ∧
      MoveScore h d (scoreOf M (d - 1)) m (scoreOf M d h)) ∧
    (∀ m, Legal h m → ∃ v, v ≤ scoreOf M d h ∧ MoveScore h d (scoreOf M (d - 1)) m v) ∧
    (-((d : Int) + 1) ≤ scoreOf M d h ∧ scoreOf M d h ≤ (d : Int) + 2) := by
  induction d with
  | zero =>
    intro h hr hno
    have hlow : ∀ m v, Legal h m → MoveScore h 0 (scoreOf M (0 - 1)) m v →
        -(2 * M) < v ∧ -1 ≤ v ∧ v ≤ 2 := by
      intro m v _ hv
      rcases hv with ⟨_, hv⟩ | ⟨_, _, hv⟩ | ⟨_, ⟨_, hv⟩ | ⟨h0, _⟩⟩ <;> omega
    have hl := loop_all (rec := fun b => (⟨0, none, b⟩ : Search)) hr hno
      (fun m h0 _ _ => absurd h0 (by omega)) (fun m v h1 h2 => (hlow m v h1 h2).1) searchCols
      (by decide) [] ⟨-(2 * M), none, boardOf h⟩
      ⟨rfl, .inl ⟨rfl, rfl⟩, by intro m _ hm; simp at hm, by rintro ⟨m, _, hm⟩; simp at hm⟩
    rw [List.nil_append] at hl
    have he : slowFind M 0 (boardOf h) = List.foldl
      (searchStep (fun b => ⟨0, none, b⟩) ((0 : Nat) : Int)) ⟨-(2 * M), none, boardOf h⟩ searchCols := rfl
    rw [← he] at hl
    obtain ⟨m₀, hm₀⟩ := exists_legal hr hno
    have hne := hl.some ⟨m₀, hm₀, col_mem hm₀⟩
    rcases hl.best with ⟨_, hb⟩ | ⟨m, hb, hm, hv⟩
    · exact absurd hb hne
    · refine ⟨hl.temp, ⟨m, hb, hm, hv⟩, fun m hm => hl.all m hm (col_mem hm), ?_⟩
      have := hlow m _ hm hv
      unfold scoreOf
      omega
  | succ d ih =>
    intro h hr hno
    have ih' := ih (by omega)
    have hrec : ∀ m, 0 < d + 1 → Legal h m → ¬ Over (m :: h) →
        (slowFind M d (boardOf (m :: h))).temp = boardOf (m :: h) ∧
        (slowFind M d (boardOf (m :: h))).score = scoreOf M (d + 1 - 1) (m :: h) := by
      intro m _ hm ho
      exact ⟨(ih' (m :: h) (.step hr hm) ho).1, rfl⟩
    have hlow : ∀ m v, Legal h m → MoveScore h (d + 1) (scoreOf M (d + 1 - 1)) m v →
        -(2 * M) < v ∧ -((d : Int) + 2) ≤ v ∧ v ≤ (d : Int) + 3 := by
      intro m v hm hv
      rcases hv with ⟨_, hv⟩ | ⟨_, _, hv⟩ | ⟨ho, ⟨h0, hv⟩ | ⟨h0, hv⟩⟩
      · omega
      · omega
      · omega
      · have := (ih' (m :: h) (.step hr hm) ho).2.2.2
        rw [show d + 1 - 1 = d by omega] at hv
        omega
    have hl := loop_all hr hno hrec (fun m v h1 h2 => (hlow m v h1 h2).1) searchCols
      (by decide) [] ⟨-(2 * M), none, boardOf h⟩
      ⟨rfl, .inl ⟨rfl, rfl⟩, by intro m _ hm; simp at hm, by rintro ⟨m, _, hm⟩; simp at hm⟩
    rw [List.nil_append] at hl
    have he : slowFind M (d + 1) (boardOf h) = List.foldl
      (searchStep (slowFind M d) ((d + 1 : Nat) : Int)) ⟨-(2 * M), none, boardOf h⟩ searchCols := rfl
    rw [← he] at hl
    obtain ⟨m₀, hm₀⟩ := exists_legal hr hno
    have hne := hl.some ⟨m₀, hm₀, col_mem hm₀⟩
    rcases hl.best with ⟨_, hb⟩ | ⟨m, hb, hm, hv⟩
    · exact absurd hb hne
    · refine ⟨hl.temp, ⟨m, hb, hm, hv⟩, fun m hm => hl.all m hm (col_mem hm), ?_⟩
      have := hlow m _ hm hv
      unfold scoreOf
      omega

/-- What the score of a move says about forced wins after it. -/
theorem moveScore_forces {M : Int} (hM : 2 ≤ M) (d : Nat) (hd : (d : Int) ≤ M) {h : List Move}
    (hr : Reach h) {m : Move} (hm : Legal h m) {v : Int}
    (hv : MoveScore h d (scoreOf M (d - 1)) m v)
    (ih : ∀ d', d' < d → ∀ h, Reach h → ¬ Over h → ∀ e, e ≤ d' →
      ((scoreOf M d' h ≥ (e : Int) + 2 ↔ ForceWin (toMove h) (d' - e + 1) h) ∧
       (scoreOf M d' h ≤ -((e : Int) + 2) ↔ ForceWin (toMove h).other (d' - e + 1) h)))
    {e : Nat} (he : e ≤ d) :
    (v ≥ (e : Int) + 2 ↔ ForceWin (toMove h) (d - e) (m :: h)) ∧
    (v ≤ -((e : Int) + 2) ↔ ForceWin (toMove h).other (d - e) (m :: h)) := by
  have hother : ¬ HasFour (m :: h) (toMove h).other := fun hs =>
    Side.other_ne _ (one_four hm hs)
  have hr' : Reach (m :: h) := .step hr hm
  rcases hv with ⟨hf, hv⟩ | ⟨hf, hfull, hv⟩ | ⟨ho, ⟨h0, hv⟩ | ⟨h0, hv⟩⟩
  · refine ⟨⟨fun _ => .now hf, fun _ => by omega⟩, ⟨fun h1 => by omega, fun h1 => ?_⟩⟩
    exact absurd (forceWin_over (.inl ⟨_, hf⟩) h1) hother
  · refine ⟨⟨fun h1 => by omega, fun h1 => ?_⟩, ⟨fun h1 => by omega, fun h1 => ?_⟩⟩
    · exact absurd (forceWin_over (.inr hfull) h1) hf
    · exact absurd (forceWin_over (.inr hfull) h1) hother
  · have hz : ∀ s, ¬ ForceWin s 0 (m :: h) := by
      intro s h1
      cases h1 with
      | now h1 => exact ho (.inl ⟨_, h1⟩)
    have : d - e = 0 := by omega
    rw [this]
    exact ⟨⟨fun h1 => by omega, fun h1 => absurd h1 (hz _)⟩,
      ⟨fun h1 => by omega, fun h1 => absurd h1 (hz _)⟩⟩
  · obtain ⟨d', rfl⟩ : ∃ d', d = d' + 1 := ⟨d - 1, by omega⟩
    rw [show d' + 1 - 1 = d' by omega] at hv
    have hbound := (slowFind_level hM d' (by omega) (m :: h) hr' ho).2.2.2
    by_cases hed : e ≤ d'
    · have := ih d' (by omega) (m :: h) hr' ho e hed
      rw [toMove_cons, Side.other_other] at this
      rw [show d' + 1 - e = d' - e + 1 by omega, ← this.1, ← this.2]
      constructor <;> constructor <;> intro h1 <;> omega
    · have hz : ∀ s, ¬ ForceWin s 0 (m :: h) := by
        intro s h1
        cases h1 with
        | now h1 => exact ho (.inl ⟨_, h1⟩)
      rw [show d' + 1 - e = 0 by omega]
      exact ⟨⟨fun h1 => by omega, fun h1 => absurd h1 (hz _)⟩,
        ⟨fun h1 => by omega, fun h1 => absurd h1 (hz _)⟩⟩

theorem score_forces {M : Int} (hM : 2 ≤ M) (d : Nat) : (d : Int) ≤ M →
    ∀ h, Reach h → ¬ Over h → ∀ e, e ≤ d →
      ((scoreOf M d h ≥ (e : Int) + 2 ↔ ForceWin (toMove h) (d - e + 1) h) ∧
       (scoreOf M d h ≤ -((e : Int) + 2) ↔ ForceWin (toMove h).other (d - e + 1) h)) := by
  induction d using Nat.strongRecOn with
  | _ d ih =>
    intro hd h hr hno e he
    have ih' : ∀ d', d' < d → ∀ h, Reach h → ¬ Over h → ∀ e, e ≤ d' →
        ((scoreOf M d' h ≥ (e : Int) + 2 ↔ ForceWin (toMove h) (d' - e + 1) h) ∧
         (scoreOf M d' h ≤ -((e : Int) + 2) ↔ ForceWin (toMove h).other (d' - e + 1) h)) :=
      fun d' h1 => ih d' h1 (by omega)
    obtain ⟨_, ⟨m, _, hm, hv⟩, hall, _⟩ := slowFind_level hM d hd h hr hno
    have hnow : ∀ s, ¬ HasFour h s := fun s hs => hno (.inl ⟨s, hs⟩)
    constructor
    · constructor
      · intro h1
        exact .mine rfl hm ((moveScore_forces hM d hd hr hm hv ih' he).1.1 h1)
      · intro h1
        cases h1 with
        | now h1 => exact absurd h1 (hnow _)
        | @mine _ _ m' _ hm' h1 =>
          obtain ⟨w, hw, hw'⟩ := hall m' hm'
          have := (moveScore_forces hM d hd hr hm' hw' ih' he).1.2 h1
          omega
        | theirs _ h1 _ => exact absurd rfl h1
    · constructor
      · intro h1
        refine .theirs hno (Side.other_ne _).symm (fun m' hm' => ?_)
        obtain ⟨w, hw, hw'⟩ := hall m' hm'
        exact (moveScore_forces hM d hd hr hm' hw' ih' he).2.1 (by omega)
      · intro h1
        cases h1 with
        | now h1 => exact absurd h1 (hnow _)
        | mine h1 _ _ => exact absurd h1 (Side.other_ne _).symm
        | theirs _ _ h1 => exact (moveScore_forces hM d hd hr hm hv ih' he).2.2 (h1 m hm)

/-! ## C60 -/

theorem maxDepth_ge (n : Int) : 6 ≤ chooseMaxDepth n := by
  unfold chooseMaxDepth
  split
  · omega
  · split
    · omega
    · split
      · omega
      · split <;> omega

/-- C60: from the fifth move on, on every unfinished position, the slow engine leaves its board as it
found it and plays a legal move; a win that it can force within its depth it forces, as fast as
possible; and if after its move the opponent can force a win within that depth, then so they could
after every other move. -/
theorem C60_slow_engine_partial {h : List Move} (hr : Reach h) (hno : ¬ Over h)
    (h4 : 4 ≤ h.length) :
    let s := toMove h
    let depth := chooseMaxDepth h.length
    (slowFind depth depth (boardOf h)).temp = boardOf h ∧
    ∃ m, slowMove (boardOf h) (code (some s)) = some m ∧ Legal h m ∧
      (∀ n, n ≤ depth → ForceWin s (n + 1) h → ForceWin s n (m :: h)) ∧
      (∀ n, n ≤ depth → ForceWin s.other n (m :: h) → ∀ m', Legal h m' → ForceWin s.other n (m' :: h)) := by
  intro s depth
  have hM : (2 : Int) ≤ (depth : Nat) := by have := maxDepth_ge h.length; omega
  obtain ⟨ht, ⟨m, hb, hm, hv⟩, hall, _⟩ := slowFind_level hM depth (Int.le_refl _) h hr hno
  have hcnt := (rep_boardOf hr).count
  have ih' := fun d' (_ : d' < depth) => score_forces (M := (depth : Nat)) hM d' (by omega)
  refine ⟨ht, m, ?_, hm, ?_, ?_⟩
  · unfold slowMove firstMove
    rw [hcnt, if_pos (by omega)]
    exact hb
  · intro n hn hf
    have h1 := (score_forces hM depth (Int.le_refl _) h hr hno (depth - n) (by omega)).1
    rw [show depth - (depth - n) = n by omega] at h1
    have h2 := (moveScore_forces hM depth (Int.le_refl _) hr hm hv ih'
      (show depth - n ≤ depth by omega)).1
    rw [show depth - (depth - n) = n by omega] at h2
    exact h2.1 (h1.2 hf)
  · intro n hn hf m' hm'
    have h2 := (moveScore_forces hM depth (Int.le_refl _) hr hm hv ih'
      (show depth - n ≤ depth by omega)).2
    rw [show depth - (depth - n) = n by omega] at h2
    obtain ⟨w, hw, hw'⟩ := hall m' hm'
    have h3 := (moveScore_forces hM depth (Int.le_refl _) hr hm' hw' ih'
      (show depth - n ≤ depth by omega)).2
    rw [show depth - (depth - n) = n by omega] at h3
    have := h2.2 hf
    exact h3.1 (by omega)

/-- C60 in full: the slow engine plays a legal move on every unfinished position. -/
def C60Full : Prop :=
  ∀ h : List Move, Reach h → ¬ Over h →
    ∃ m, slowMove (boardOf h) (code (some (toMove h))) = some m ∧ Legal h m

/-- Deciding `Reach` with the program's own board (only used for concrete cases). -/
def reachB : List Move → Bool
  | [] => true
  | m :: h => reachB h && ((boardOf h).accept m).2

theorem reach_of_reachB {h : List Move} (hb : reachB h = true) : Reach h := by
  induction h with
  | nil => exact .start
  | cons m h ih =>
    simp only [reachB, Bool.and_eq_true] at hb
    have hr := ih hb.1
    refine .step hr ?_
    by_contra hl
    rw [accept_false (rep_boardOf hr) hl] at hb
    cases hb.2

theorem not_over_of {h : List Move} (hr : Reach h) (ho : (boardOf h).over = false) : ¬ Over h := by
  intro h1
  rw [(rep_boardOf hr).over.2 h1] at ho
  cases ho

/-- The opening rules of `slow_make_first_move` do not look at what they play on.  `x` opened to the
right of the middle, `o` took the middle: the engine, playing `x`, submits its own first cell again.
The move is refused and the game waits forever. -/
theorem C60_violated_opening : ¬ C60Full := by
  intro hf
  have hr : Reach [⟨0, 3⟩, ⟨0, 4⟩] := reach_of_reachB (by decide +kernel)
  obtain ⟨m, hm, hl⟩ := hf [⟨0, 3⟩, ⟨0, 4⟩] hr (not_over_of hr (by decide +kernel))
  have : slowMove (boardOf [⟨0, 3⟩, ⟨0, 4⟩]) (code (some (toMove [⟨0, 3⟩, ⟨0, 4⟩]))) = some ⟨0, 4⟩ := by
    decide +kernel
  rw [this] at hm
  cases hm
  have := hl.2.1
  revert this
  decide

/-- Games in which one side is played by the slow engine and the other side plays any legal move. -/
inductive EngineGame (s : Side) : List Move → Prop
  | start : EngineGame s []
  | opponent {h m} : EngineGame s h → toMove h ≠ s → Legal h m → EngineGame s (m :: h)
  | engine {h m} : EngineGame s h → toMove h = s → ¬ Over h →
      slowMove (boardOf h) (code (some s)) = some m → EngineGame s (m :: h)

/-- All games of `n` moves in which side `s` is played by the engine (only used for the opening). -/
def openings (s : Side) : Nat → List (List Move)
  | 0 => [[]]
  | n + 1 => (openings s n).flatMap fun h =>
      if toMove h = s then (slowMove (boardOf h) (code (some s))).toList.map (· :: h)
      else [0, 1, 2, 3, 4, 5, 6].map fun c => ⟨height h c, c⟩ :: h

theorem mem_openings {s : Side} {h : List Move} (hg : EngineGame s h) : h ∈ openings s h.length := by
  induction hg with
  | start => exact List.mem_singleton.2 rfl
  | @opponent h m _ ht hm ih =>
    rw [List.length_cons, openings, List.mem_flatMap]
    refine ⟨h, ih, ?_⟩
    rw [if_neg ht, List.mem_map]
    refine ⟨m.col, ?_, ?_⟩
    · obtain ⟨_, _, h3, h4⟩ := hm.1
      generalize m.col = c at *
      interval_cases c <;> decide
    · rw [← hm.2.1]
  | @engine h m _ ht _ hm ih =>
    rw [List.length_cons, openings, List.mem_flatMap]
    refine ⟨h, ih, ?_⟩
    rw [if_pos ht, hm]
    exact List.mem_singleton.2 rfl

/-- The engine's move is accepted (only used for the opening). -/
def openingOk (s : Side) (h : List Move) : Bool :=
  if toMove h = s then
    match slowMove (boardOf h) (code (some s)) with
    | some m => ((boardOf h).accept m).2
    | none => false
  else true

theorem openings_ok : ∀ s : Side, ∀ n < 4, ∀ h ∈ openings s n, openingOk s h = true := by
  intro s
  cases s <;> decide +kernel

/-- C60 for a whole game: an engine that plays a side from the start of a game always submits a legal
move, whatever the opponent plays. -/
theorem C60_whole_game {s : Side} {h : List Move} (hg : EngineGame s h) :
    Reach h ∧ (¬ Over h → toMove h = s →
      ∃ m, slowMove (boardOf h) (code (some s)) = some m ∧ Legal h m) := by
  have key : ∀ h, EngineGame s h → Reach h → ¬ Over h → toMove h = s →
      ∃ m, slowMove (boardOf h) (code (some s)) = some m ∧ Legal h m := by
    intro h hg hr hno ht
    by_cases h4 : 4 ≤ h.length
    · obtain ⟨_, m, hm, hl, _⟩ := C60_slow_engine_partial hr hno h4
      rw [ht] at hm
      exact ⟨m, hm, hl⟩
    · have := openings_ok s h.length (by omega) h (mem_openings hg)
      unfold openingOk at this
      rw [if_pos ht] at this
      cases hm : slowMove (boardOf h) (code (some s)) with
      | none => rw [hm] at this; cases this
      | some m =>
        rw [hm] at this
        refine ⟨m, rfl, ?_⟩
        by_contra hl
        simp only at this
        rw [accept_false (rep_boardOf hr) hl] at this
        cases this
  have hr : Reach h := by
    induction hg with
    | start => exact .start
    | opponent _ _ hm ih => exact .step ih hm
    | @engine h m hg ht hno hm ih =>
      obtain ⟨m', hm', hl⟩ := key h hg ih hno ht
      rw [hm] at hm'
      cases hm'
      exact .step ih hl
  exact ⟨hr, key h hg hr⟩

/-- A position that meets the hypotheses of `C60_slow_engine_partial`: `x` has three in the bottom
row and can win at once, so the engine's move wins at once. -/
example : ∃ m, slowMove (boardOf [⟨1, 2⟩, ⟨0, 2⟩, ⟨1, 1⟩, ⟨0, 1⟩, ⟨1, 0⟩, ⟨0, 0⟩]) pX = some m ∧
    HasFour (m :: [⟨1, 2⟩, ⟨0, 2⟩, ⟨1, 1⟩, ⟨0, 1⟩, ⟨1, 0⟩, ⟨0, 0⟩]) .x := by
  have hr : Reach [⟨1, 2⟩, ⟨0, 2⟩, ⟨1, 1⟩, ⟨0, 1⟩, ⟨1, 0⟩, ⟨0, 0⟩] :=
    reach_of_reachB (by decide +kernel)
  have hno := not_over_of hr (by decide +kernel)
  obtain ⟨_, m, hm, _, hwin, _⟩ := C60_slow_engine_partial hr hno (by decide)
  have hr3 : Reach [⟨0, 3⟩, ⟨1, 2⟩, ⟨0, 2⟩, ⟨1, 1⟩, ⟨0, 1⟩, ⟨1, 0⟩, ⟨0, 0⟩] :=
    reach_of_reachB (by decide +kernel)
  refine ⟨m, hm, ?_⟩
  have hleg : Legal [⟨1, 2⟩, ⟨0, 2⟩, ⟨1, 1⟩, ⟨0, 1⟩, ⟨1, 0⟩, ⟨0, 0⟩] ⟨0, 3⟩ := by
    cases hr3 with
    | step _ h => exact h
  have hfour : HasFour [⟨0, 3⟩, ⟨1, 2⟩, ⟨0, 2⟩, ⟨1, 1⟩, ⟨0, 1⟩, ⟨1, 0⟩, ⟨0, 0⟩] .x :=
    ((rep_boardOf hr3).winner .x).1 (by decide +kernel)
  have := hwin 0 (Nat.zero_le _) (.mine rfl hleg (.now hfour))
  cases this with
  | now h => exact h

end Abc.Connect4
