import Verif.Samples.TicTacToeFast
import Verif.Samples.TicTacToeEngine

/-!
# The learning engine of tic-tac-toe: what it plays and what it learns

C91: it plays a legal move on every unfinished board.  C92: scores stay within their limits, and a game changes exactly the
scores of the moves made.  C93: it picks moves in proportion to their scores.
-/

namespace Abc.TicTacToe

/-- The score the engine has for a move in the position after the moves `h`; -1 if it has none. -/
def Book.score (b : Book) (h : List Move) (m : Move) : Int :=
  match b (boardOf h).state with
  | some s => s m
  | none => -1

/-- What the map can contain: it starts empty, and there were any legal games in which the engine looked up positions
(`ask`) or from which it learnt as either side (`game`). -/
inductive Learnt : Book → Prop
  | new : Learnt fun _ => none
  | ask {b h} (room) : Learnt b → Reach h → Learnt (ensure room b (boardOf h).state).1
  | game {b b' h} (room) (s : Side) : Learnt b → Reach h → Over h → learn room (boardOf h) (code (some s)) h.reverse b = some b' → Learnt b'

/-- Scores that can be there. -/
def Sound (s : Scores) : Prop := ∀ m, s m = -1 ∨ 1 ≤ s m ∧ s m ≤ 20

/-! ## C92: the limits -/

theorem newScore_sound (w me : Pid) {v : Int} (hv : v = -1 ∨ 1 ≤ v ∧ v ≤ 20) : 1 ≤ newScore w me v ∧ newScore w me v ≤ 20 := by
  unfold newScore
  dsimp only
  split <;> split <;> omega

theorem ensure_sound {room : BitVec 32 → Bool} {b : Book} (hb : ∀ k s, b k = some s → Sound s) (k : BitVec 32) :
    (∀ k' s, (ensure room b k).1 k' = some s → Sound s) ∧ ∀ s, (ensure room b k).2 = some s → Sound s := by
  unfold ensure
  cases e : b k with
  | some s =>
    exact ⟨hb, fun s' h => by cases h; exact hb k s e⟩
  | none =>
    dsimp only
    split
    · refine ⟨fun k' s h => ?_, fun s h => by cases h; exact fun _ => .inl rfl⟩
      simp only [Book.set] at h
      split at h
      · cases h; exact fun _ => .inl rfl
      · exact hb _ _ h
    · exact ⟨hb, fun s h => by cases h⟩

theorem learnFrom_sound {room : BitVec 32 → Bool} {w me : Pid} (ms : List Move) {temp : Board} {b b' : Book} (hb : ∀ k s, b k = some s → Sound s)
    (h : learnFrom room w me ms temp b = some b') : ∀ k s, b' k = some s → Sound s := by
  induction ms generalizing temp b with
  | nil => cases h; exact hb
  | cons m ms ih =>
    unfold learnFrom at h
    split at h
    · obtain ⟨h1, h2⟩ := ensure_sound (room := room) hb temp.state
      split at h
      · cases h
      · rename_i b2 s e
        rw [e] at h1 h2
        refine ih (fun k s' hk => ?_) h
        unfold Book.set at hk
        split at hk
        · cases hk
          intro m'
          unfold Scores.put
          split
          · exact .inr (newScore_sound _ _ (h2 s rfl m))
          · exact h2 s rfl m'
        · exact h1 _ _ hk
    · exact ih hb h

/-- C92.  Whatever games there were, every score is -1 (none) or between 1 and 20. -/
theorem C92_range {b : Book} (hb : Learnt b) {k : BitVec 32} {s : Scores} (h : b k = some s) (m : Move) : s m = -1 ∨ 1 ≤ s m ∧ s m ≤ 20 := by
  suffices ∀ k s, b k = some s → Sound s from this k s h m
  clear h
  induction hb with
  | new => intro k s h; cases h
  | ask room _ _ ih => exact (ensure_sound ih _).1
  | game room s _ _ _ hl ih => exact learnFrom_sound _ ih hl

/-! ## C91: legal moves -/

/-- Whether a cell is free, as the code sees it. -/
def isFree (b : Board) (m : Move) : Bool := b.getMove m == pNone

theorem isFree_iff {h : List Move} (hr : Reach h) {m : Move} (hm : OnBoard m) : isFree (boardOf h) m = true ↔ m ∉ h := by
  unfold isFree
  rw [(rep_boardOf hr).shows.cell m hm, beq_iff_eq]
  constructor
  · intro e
    exact owner_none.1 (code_inj (e.trans (show pNone = code none from rfl)))
  · intro e
    rw [owner_none.2 e]; rfl

theorem legal_iff {h : List Move} (hr : Reach h) (ho : ¬ Over h) (m : Move) : Legal h m ↔ m ∈ cells.filter (isFree (boardOf h)) := by
  rw [List.mem_filter]
  constructor
  · intro hl
    exact ⟨mem_cells hl.1, (isFree_iff hr hl.1).2 hl.2.1⟩
  · intro hm
    exact ⟨onBoard_cells hm.1, (isFree_iff hr (onBoard_cells hm.1)).1 hm.2, ho⟩

/-- How much a move counts in the weighted pick. -/
def weight (v : Int) : Int := if v = -1 then 10 else v

/-- How much it adds to the sum drawn from. -/
def share (v : Int) : Int := if v = 20 ∨ v = 1 then 0 else weight v

theorem tally_eq (b : Board) (s : Scores) (l : List Move) (t : Tally) :
    (l.foldl (tallyStep b s) t).max = t.max + ((l.filter (isFree b)).filter fun m => decide (s m = 20)).length ∧
    (l.foldl (tallyStep b s) t).min = t.min + ((l.filter (isFree b)).filter fun m => decide (s m = 1)).length ∧
    (l.foldl (tallyStep b s) t).sum + (l.foldl (tallyStep b s) t).none * 10 =
      t.sum + t.none * 10 + ((l.filter (isFree b)).map fun m => share (s m)).sum := by
  induction l generalizing t with
  | nil => simp
  | cons m l ih =>
    obtain ⟨h1, h2, h3⟩ := ih (tallyStep b s t m)
    rw [List.foldl_cons, h1, h2, h3]
    unfold tallyStep
    by_cases hf : isFree b m = true
    · have hf' : (b.getMove m == pNone) = true := hf
      rw [if_pos hf', List.filter_cons_of_pos hf, List.map_cons, List.sum_cons]
      unfold share weight
      split
      · rename_i e
        rw [List.filter_cons_of_pos (by simp [e]), List.filter_cons_of_neg (by simp [e])]
        simp [e]; omega
      · rename_i e
        split
        · rename_i e1
          rw [List.filter_cons_of_neg (by simp [e]), List.filter_cons_of_pos (by simp [e1])]
          simp [e1]; omega
        · rename_i e1
          rw [List.filter_cons_of_neg (p := fun m => decide (s m = 20)) (by simp [e]),
            List.filter_cons_of_neg (p := fun m => decide (s m = 1)) (by simp [e1]), if_neg (show ¬ (s m = 20 ∨ s m = 1) by omega)]
          by_cases e2 : s m = -1
          · rw [if_pos e2, if_pos e2]; dsimp only; exact ⟨rfl, rfl, by omega⟩
          · rw [if_neg e2, if_neg e2]; dsimp only; exact ⟨rfl, rfl, by omega⟩
    · have hf' : ¬ (b.getMove m == pNone) = true := hf
      rw [if_neg hf', List.filter_cons_of_neg hf]
      exact ⟨rfl, rfl, rfl⟩

theorem pickMax_eq (b : Board) (s : Scores) (l : List Move) (n : Nat) :
    pickMax b s l (1 + (n : Int)) = ((l.filter (isFree b)).filter fun m => decide (s m = 20))[n]? := by
  induction l generalizing n with
  | nil => simp [pickMax]
  | cons m l ih =>
    unfold pickMax
    by_cases hf : isFree b m = true
    · have hf' : (b.getMove m == pNone) = true := hf
      rw [List.filter_cons_of_pos hf]
      by_cases e : s m = 20
      · rw [if_pos (by simp [hf', e]), List.filter_cons_of_pos (by simp [e])]
        cases n with
        | zero => simp
        | succ n =>
          rw [if_neg (by push_cast; omega), List.getElem?_cons_succ, ← ih]
          congr 1; push_cast; omega
      · rw [if_neg (by simp [e]), List.filter_cons_of_neg (by simp [e]), ih]
    · have hf' : ¬ (b.getMove m == pNone) = true := hf
      rw [if_neg (by simp [hf']), List.filter_cons_of_neg hf, ih]

theorem weight_pos {s : Scores} (hs : Sound s) (m : Move) : 1 ≤ weight (s m) := by
  have := hs m
  unfold weight
  split <;> omega

/-- The weighted pick: the move in whose stretch the number falls, with the stretches one after the other in the order
of the cells. -/
theorem pickWeighted_eq (b : Board) {s : Scores} (hs : Sound s) (l : List Move) (x : Option Move) {r : Int} (h1 : 1 ≤ r)
    (h2 : r ≤ ((l.filter (isFree b)).map fun m => weight (s m)).sum) :
    ∃ pre m post, l.filter (isFree b) = pre ++ m :: post ∧ pickWeighted b s l x r = some m ∧
      (pre.map fun m => weight (s m)).sum < r ∧ r ≤ (pre.map fun m => weight (s m)).sum + weight (s m) := by
  induction l generalizing x r with
  | nil => simp at h2; omega
  | cons m l ih =>
    unfold pickWeighted
    by_cases hf : isFree b m = true
    · have hf' : (b.getMove m == pNone) = true := hf
      rw [List.filter_cons_of_pos hf] at h2 ⊢
      rw [List.map_cons, List.sum_cons] at h2
      rw [if_pos hf']
      have key : (if 1 ≤ s m ∧ s m ≤ 20 then ((some m, r - s m) : Option Move × Int) else if s m = -1 then (some m, r - 10) else (x, r)) =
          (some m, r - weight (s m)) := by
        unfold weight
        rcases hs m with e | e
        · rw [if_neg (by omega), if_pos e, if_pos e]
        · rw [if_pos e, if_neg (by omega)]
      rw [key]
      dsimp only
      split
      · exact ⟨[], m, _, rfl, rfl, by simp; omega, by simp; omega⟩
      · obtain ⟨pre, m', post, e1, e2, e3, e4⟩ := ih (some m) (r := r - weight (s m)) (by omega) (by omega)
        exact ⟨m :: pre, m', post, by rw [e1]; rfl, e2, by simp; omega, by simp; omega⟩
    · have hf' : ¬ (b.getMove m == pNone) = true := hf
      rw [List.filter_cons_of_neg hf] at h2 ⊢
      rw [if_neg hf']
      exact ih x h1 h2

theorem share_nonneg {s : Scores} (hs : Sound s) (m : Move) : 0 ≤ share (s m) := by
  have := weight_pos hs m
  unfold share
  split <;> omega

theorem share_le {s : Scores} (hs : Sound s) (l : List Move) : (l.map fun m => share (s m)).sum ≤ (l.map fun m => weight (s m)).sum := by
  induction l with
  | nil => simp
  | cons m l ih =>
    have := weight_pos hs m
    simp only [List.map_cons, List.sum_cons]
    have : share (s m) ≤ weight (s m) := by unfold share; split <;> omega
    omega

theorem share_sum_nonneg {s : Scores} (hs : Sound s) (l : List Move) : 0 ≤ (l.map fun m => share (s m)).sum := by
  induction l with
  | nil => simp
  | cons m l ih =>
    have := share_nonneg hs m
    simp only [List.map_cons, List.sum_cons]
    omega

theorem share_sum_zero {s : Scores} (hs : Sound s) {l : List Move} (h20 : ∀ m ∈ l, s m ≠ 20) :
    (l.map fun m => share (s m)).sum = 0 ↔ ∀ m ∈ l, s m = 1 := by
  induction l with
  | nil => simp
  | cons m l ih =>
    have h1 := share_nonneg hs m
    have h2 := share_sum_nonneg hs l
    have ih := ih fun m hm => h20 m (by simp [hm])
    have hm := h20 m (by simp)
    have hw := weight_pos hs m
    have e : share (s m) = 0 ↔ s m = 1 := by
      unfold share
      split
      · rename_i e; simp; omega
      · constructor <;> intro <;> omega
    simp only [List.map_cons, List.sum_cons, List.mem_cons, forall_eq_or_imp]
    rw [← e, ← ih]
    omega

/-- The three ways `fast_find_best_move` decides, on sound scores; `free` are the free cells in order. -/
theorem fastFind_eq (b : Board) (s : Scores) (rand : Nat) :
    fastFind b (some s) rand =
      let free := cells.filter (isFree b)
      let best := free.filter fun m => decide (s m = 20)
      if 0 < best.length then .ofOption best[rand % best.length]?
      else if (free.filter fun m => decide (s m = 1)).length = 9 then
        .move ⟨((1 + rand % 9 : Nat) : Int) / 3, ((1 + rand % 9 : Nat) : Int) % 3⟩
      else
        let sum := (free.map fun m => share (s m)).sum
        if sum = 0 then .crash else .ofOption (pickWeighted b s cells none (1 + (rand : Int).tmod sum)) := by
  obtain ⟨h1, h2, h3⟩ := tally_eq b s cells {}
  unfold fastFind
  dsimp only
  rw [h1, h2, h3]
  simp only [Int.zero_add, Int.zero_mul]
  by_cases c1 : 0 < ((cells.filter (isFree b)).filter fun m => decide (s m = 20)).length
  · rw [if_pos (by omega), if_pos c1, show (rand : Int).tmod ((((cells.filter (isFree b)).filter fun m => decide (s m = 20)).length : Nat) : Int) =
      ((rand % ((cells.filter (isFree b)).filter fun m => decide (s m = 20)).length : Nat) : Int) from rfl, pickMax_eq]
  · rw [if_neg (by omega), if_neg c1]
    by_cases c2 : ((cells.filter (isFree b)).filter fun m => decide (s m = 1)).length = 9
    · rw [if_pos (by omega), if_pos c2, c2]
      rfl
    · rw [if_neg (by omega), if_neg c2]

theorem filter_nine {p q : Move → Bool} (h : ((cells.filter p).filter q).length = 9) : ∀ m ∈ cells, p m = true ∧ q m = true := by
  rw [List.filter_filter] at h
  have := List.length_filter_eq_length_iff.1 (h.trans (show 9 = cells.length from rfl))
  intro m hm
  have := this m hm
  simp only [Bool.and_eq_true] at this
  exact ⟨this.2, this.1⟩

/-- What `fast_find_best_move` does on an unfinished board with sound scores. -/
theorem fastFind_exact {h : List Move} (hr : Reach h) (ho : ¬ Over h) {s : Scores} (hs : Sound s) (rand : Nat) :
    ((∃ m, Legal h m ∧ s m ≠ 1) → ∃ m, Legal h m ∧ fastFind (boardOf h) (some s) rand = .move m) ∧
    ((∀ m, Legal h m → s m = 1) → h ≠ [] → fastFind (boardOf h) (some s) rand = .crash) ∧
    ((∀ m, Legal h m → s m = 1) → h = [] →
      fastFind (boardOf h) (some s) rand = .move ⟨((1 + rand % 9 : Nat) : Int) / 3, ((1 + rand % 9 : Nat) : Int) % 3⟩) := by
  have hle := legal_iff hr ho
  rw [fastFind_eq]
  dsimp only
  generalize hfree : cells.filter (isFree (boardOf h)) = free at hle ⊢
  have nobest (h1 : ∀ m, Legal h m → s m = 1) : ¬ 0 < (free.filter fun m => decide (s m = 20)).length := by
    rw [List.length_pos_iff_exists_mem]
    rintro ⟨m, hm⟩
    obtain ⟨k1, k2⟩ := List.mem_filter.1 hm
    have := h1 m ((hle m).2 k1)
    simp at k2; omega
  have allmin (h1 : ∀ m, Legal h m → s m = 1) : free.filter (fun m => decide (s m = 1)) = free := by
    rw [List.filter_eq_self]
    intro m hm
    simpa using h1 m ((hle m).2 hm)
  refine ⟨fun ⟨m, hl, hm⟩ => ?_, fun h1 hne => ?_, fun h1 hne => ?_⟩
  · by_cases c1 : 0 < (free.filter fun m => decide (s m = 20)).length
    · rw [if_pos c1, List.getElem?_eq_getElem (Nat.mod_lt _ c1)]
      refine ⟨_, (hle _).2 ?_, rfl⟩
      exact List.mem_of_mem_filter (List.getElem_mem (Nat.mod_lt rand c1))
    · rw [if_neg c1]
      have h20 : ∀ m ∈ free, s m ≠ 20 := fun m hm e =>
        c1 (List.length_pos_iff_exists_mem.2 ⟨m, List.mem_filter.2 ⟨hm, by simpa using e⟩⟩)
      rw [if_neg, if_neg]
      · have hz : (free.map fun m => share (s m)).sum ≠ 0 := fun e => hm ((share_sum_zero hs h20).1 e m ((hle m).1 hl))
        have h0 := share_sum_nonneg hs free
        have h2 := share_le hs free
        have h3 : (0 : Int) ≤ (rand : Int).tmod (free.map fun m => share (s m)).sum := Int.tmod_nonneg _ (by omega)
        have h4 : (rand : Int).tmod (free.map fun m => share (s m)).sum < (free.map fun m => share (s m)).sum := Int.tmod_lt_of_pos _ (by omega)
        obtain ⟨pre, m', post, e1, e2, _, _⟩ := pickWeighted_eq (boardOf h) hs cells none
          (r := 1 + (rand : Int).tmod (free.map fun m => share (s m)).sum) (by omega) (by rw [hfree]; omega)
        rw [e2]
        exact ⟨m', (hle m').2 (by rw [← hfree, e1]; simp), rfl⟩
      · exact fun e => hm ((share_sum_zero hs h20).1 e m ((hle m).1 hl))
      · intro e
        rw [← hfree] at e
        have := (filter_nine e m (mem_cells hl.1)).2
        simp at this
        exact hm this
  · rw [if_neg (nobest h1), allmin h1, if_neg, if_pos]
    · exact (share_sum_zero hs fun m hm e => by have := h1 m ((hle m).2 hm); omega).2 fun m hm => h1 m ((hle m).2 hm)
    · intro e
      rw [← hfree] at e
      have := List.length_filter_eq_length_iff.1 (e.trans (show 9 = cells.length from rfl))
      cases h with
      | nil => exact hne rfl
      | cons m h =>
        have hm := hr.onBoard m (by simp)
        exact (isFree_iff hr hm).1 (this m (mem_cells hm)) (by simp)
  · subst hne
    rw [if_neg (nobest h1), allmin h1, if_pos]
    rw [← hfree]; decide +kernel

/-- The scores of the item that is there after `ensure_board_state_in_map`. -/
theorem ensure_score {b : Book} {h : List Move} {room : BitVec 32 → Bool} (hroom : b (boardOf h).state ≠ none ∨ room (boardOf h).state = true) :
    ∃ s, (ensure room b (boardOf h).state).2 = some s ∧ ∀ m, s m = b.score h m := by
  unfold ensure Book.score
  cases e : b (boardOf h).state with
  | some s => exact ⟨s, rfl, fun _ => rfl⟩
  | none =>
    rcases hroom with hr | hr
    · exact absurd e hr
    · dsimp only
      rw [if_pos hr]
      exact ⟨_, rfl, fun _ => rfl⟩

/-- A move on the board of an unfinished game. -/
theorem accept_legal {h : List Move} (hr : Reach h) {m : Move} (hl : Legal h m) : (boardOf h).accept m = (boardOf (m :: h), true) :=
  Prod.ext rfl (accept_true (rep_boardOf hr) hl).1

theorem cur_eq {h : List Move} (hr : Reach h) (ho : ¬ Over h) : (boardOf h).cur = code (some (toMove h)) :=
  (rep_boardOf hr).shows.turn ho

/-- C91, exactly: after any games, on every unfinished board, with room in the map.  If some legal move has a score other
than 1, then the engine makes a legal move.  If not, then the process is stopped by a division by zero; except on the empty board, where
one of nine random numbers yields a move outside the board, which is refused. -/
theorem C91_exact {b : Book} (hb : Learnt b) {h : List Move} (hr : Reach h) (ho : ¬ Over h) {room : BitVec 32 → Bool}
    (hroom : b (boardOf h).state ≠ none ∨ room (boardOf h).state = true) (rand : Nat) :
    let t := (fastMakeMove room rand b (boardOf h) (code (some (toMove h)))).2
    ((∃ m, Legal h m ∧ b.score h m ≠ 1) → ∃ m, Legal h m ∧ t = .done true (boardOf (m :: h))) ∧
    ((∀ m, Legal h m → b.score h m = 1) → h ≠ [] → t = .crash) ∧
    ((∀ m, Legal h m → b.score h m = 1) → h = [] →
      (rand % 9 = 8 → t = .done false (boardOf h)) ∧ (rand % 9 ≠ 8 → ∃ m, Legal h m ∧ t = .done true (boardOf (m :: h)))) := by
  obtain ⟨s, hs, hsc⟩ := ensure_score hroom
  have hsound : Sound s := by
    intro m
    rw [hsc]
    unfold Book.score
    split
    · exact C92_range hb (by assumption) m
    · exact .inl rfl
  have hcur := cur_eq hr ho
  obtain ⟨h1, h2, h3⟩ := fastFind_exact hr ho hsound rand
  simp only [hsc] at h1 h2 h3
  have hmove {m : Move} (e : fastFind (boardOf h) (some s) rand = .move m) :
      (fastMakeMove room rand b (boardOf h) (code (some (toMove h)))).2 = .done ((boardOf h).accept m).2 ((boardOf h).accept m).1 := by
    unfold fastMakeMove
    dsimp only
    rw [hs, e, hcur]
    simp
  refine ⟨fun hx => ?_, fun hx hne => ?_, fun hx hne => ⟨fun h8 => ?_, fun h8 => ?_⟩⟩
  · obtain ⟨m, hl, e⟩ := h1 hx
    refine ⟨m, hl, ?_⟩
    rw [hmove e, accept_legal hr hl]
  · unfold fastMakeMove
    dsimp only
    rw [hs, h2 hx hne]
  · rw [hmove (h3 hx hne), h8, accept_false (rep_boardOf hr)]
    rintro ⟨hb', _⟩
    unfold OnBoard at hb'
    revert hb'; decide
  · have hl : Legal h ⟨((1 + rand % 9 : Nat) : Int) / 3, ((1 + rand % 9 : Nat) : Int) % 3⟩ := by
      refine ⟨?_, by simp [hne], ho⟩
      have := Nat.mod_lt rand (show 9 > 0 by decide)
      unfold OnBoard
      dsimp only
      push_cast
      omega
    refine ⟨_, hl, ?_⟩
    rw [hmove (h3 hx hne), accept_legal hr hl]

/-- C91, out of turn: the engine asked for a move when the other side is to move leaves the board as it is and is told so, unless
picking the move already fails. -/
theorem C91_turn (room : BitVec 32 → Bool) (b : Book) (h : List Move) (rand : Nat) {s : Side} (hs : (boardOf h).cur = code (some s.other)) :
    (fastMakeMove room rand b (boardOf h) (code (some s))).2 = .done false (boardOf h) ∨
      (fastMakeMove room rand b (boardOf h) (code (some s))).2 = .wild ∨ (fastMakeMove room rand b (boardOf h) (code (some s))).2 = .crash := by
  unfold fastMakeMove
  simp only [hs]
  split
  · exact .inr (.inl rfl)
  · exact .inr (.inr rfl)
  · rw [if_pos (by cases s <;> decide)]
    exact .inl rfl

/-- Its case: noughts asked for the first move. -/
example : (boardOf []).cur = code (some Side.o.other) ∧
    (fastMakeMove (fun _ => true) 5 (fun _ => none) (boardOf []) (code (some .o))).2 = .done false (boardOf []) := by decide +kernel

/-- C91 without room in the map: the move is a variable that was never assigned. -/
theorem C91_violated_no_room {b : Book} {h : List Move} {room : BitVec 32 → Bool} (h1 : b (boardOf h).state = none) (h2 : room (boardOf h).state = false)
    (rand : Nat) (me : Pid) : fastMakeMove room rand b (boardOf h) me = (b, .wild) := by
  unfold fastMakeMove ensure
  rw [h1]
  simp [h2, fastFind]

/-! ## C92: what a game changes -/

/-- The same position: the same cells belong to the same sides. -/
def SamePosition (h h' : List Move) : Prop := ∀ m, OnBoard m → owner h m = owner h' m

/-- The score of a move after a game that was won, drawn or lost. -/
inductive Lesson (h : List Move) (s : Side) (old : Int) : Int → Prop
  | won : HasLine h s → Lesson h s old (min 20 ((if old = -1 then 10 else old) + 3))
  | drawn : (∀ t, ¬ HasLine h t) → Lesson h s old (min 20 ((if old = -1 then 10 else old) + 1))
  | lost : HasLine h s.other → Lesson h s old (max 1 ((if old = -1 then 10 else old) - 1))

theorem samePosition_length {h h' : List Move} (hr : Reach h) (hr' : Reach h') (hs : SamePosition h h') : h.length = h'.length := by
  have key : ∀ {h h' : List Move}, Reach h → SamePosition h h' → ∀ m ∈ h, m ∈ h' := by
    intro h h' hr hs m hm
    by_contra hn
    have := hs m (hr.onBoard m hm)
    rw [owner_none.2 hn] at this
    exact owner_none.1 this hm
  apply Nat.le_antisymm
  · exact (List.subperm_of_subset hr.nodup (key hr hs)).length_le
  · exact (List.subperm_of_subset hr'.nodup (key hr' fun m hm => (hs m hm).symm)).length_le

theorem accept_state {b : Board} {h : List Move} (r : Rep b h) {m : Move} (hl : Legal h m) : (b.accept m).1.state = b.state ||| shiftUp b.cur m := by
  have hv := (isValid_iff m).2 hl.1
  have ho : b.over = false := by
    rcases e : b.over with _ | _
    · rfl
    · exact absurd (r.over.1 e) hl.2.2
  have hg : b.getMove m = pNone := by
    rw [getMove_of r.cells hl.1, owner_none.2 hl.2.1]; rfl
  unfold Board.accept
  rw [hv, ho, hg]
  simp only [Bool.not_true, Bool.false_eq_true, if_false, bne_self_eq_false]
  have h1 : (b.setMove m).checkWinner.state = b.state ||| shiftUp b.cur m := by
    unfold Board.checkWinner
    dsimp only
    split
    · rfl
    · split <;> rfl
  split
  · exact h1
  · exact h1

theorem high_zero {h : List Move} (hr : Reach h) : ∀ i, 18 ≤ i → (boardOf h).state.getLsbD i = false := by
  induction hr with
  | start => intro i _; exact BitVec.getLsbD_zero
  | @step h m hr hl ih =>
    intro i hi
    rw [show boardOf (m :: h) = ((boardOf h).accept m).1 from rfl, accept_state (rep_boardOf hr) hl, BitVec.getLsbD_or, ih i hi,
      cur_eq hr hl.2.2, shiftUp, shiftOf_eq hl.1, BitVec.getLsbD_shiftLeft]
    have hc : cellIx m ≤ 8 := by
      obtain ⟨h1, h2, h3, h4⟩ := hl.1
      unfold cellIx; omega
    rw [bit_hi _ (code_mask _) (i - 2 * cellIx m) (by omega)]
    simp

/-- Two reachable boards have the same state exactly if the positions are the same. -/
theorem state_eq_iff {h h' : List Move} (hr : Reach h) (hr' : Reach h') : (boardOf h).state = (boardOf h').state ↔ SamePosition h h' := by
  have h1 := (rep_boardOf hr).cells
  have h2 := (rep_boardOf hr').cells
  constructor
  · intro e m hm
    have a := h1 m hm
    rw [e, h2 m hm] at a
    exact (code_wide_inj a).symm
  · intro hs
    apply BitVec.eq_of_getLsbD_eq
    intro i _
    rcases Nat.lt_or_ge i 18 with hi | hi
    · have hm : OnBoard ⟨((i / 2 / 3 : Nat) : Int), ((i / 2 % 3 : Nat) : Int)⟩ := by
        unfold OnBoard; dsimp only; omega
      have hx : cellIx ⟨((i / 2 / 3 : Nat) : Int), ((i / 2 % 3 : Nat) : Int)⟩ = i / 2 := by
        unfold cellIx; dsimp only; omega
      have e1 := h1 _ hm
      rw [hs _ hm, ← h2 _ hm, hx] at e1
      have e2 := congrArg (fun x => x.getLsbD (i % 2)) e1
      simp only [cellBits, BitVec.getLsbD_and, BitVec.getLsbD_ushiftRight, three_bit] at e2
      rw [show 2 * (i / 2) + i % 2 = i by omega] at e2
      simpa [show i % 2 < 2 by omega] using e2
    · rw [high_zero hr i hi, high_zero hr' i hi]

theorem score_same {b : Book} {h h' : List Move} (hr : Reach h) (hr' : Reach h') (hs : SamePosition h h') (m : Move) : b.score h m = b.score h' m := by
  unfold Book.score
  rw [(state_eq_iff hr hr').2 hs]

/-- C92.  Looking up a position changes no score. -/
theorem C92_ask (room : BitVec 32 → Bool) (b : Book) (k : BitVec 32) (h : List Move) (m : Move) : (ensure room b k).1.score h m = b.score h m := by
  unfold ensure
  cases e : b k with
  | some s => rfl
  | none =>
    by_cases hr : room k = true
    · simp only [hr, if_true]
      unfold Book.score Book.set
      by_cases hk : (boardOf h).state = k
      · simp [hk, e]
      · simp [hk]
    · simp only [hr]
      rfl

theorem newScore_lesson {h : List Move} (hr : Reach h) (s : Side) (old : Int) : Lesson h s old (newScore (boardOf h).winner (code (some s)) old) := by
  have r := rep_boardOf hr
  unfold newScore
  dsimp only
  by_cases hw : HasLine h s
  · rw [if_pos (by rw [(r.winner s).2 hw]; simp)]
    exact .won hw
  · rw [if_neg (by simpa using fun e => hw ((r.winner s).1 e))]
    by_cases hd : ∀ t, ¬ HasLine h t
    · rw [if_pos (by rw [r.noWinner.2 hd]; simp)]
      exact .drawn hd
    · rw [if_neg (by simpa using fun e => hd (r.noWinner.1 e))]
      refine .lost ?_
      by_contra hn
      apply hd
      intro t ht
      by_cases e : t = s
      · exact hw (e ▸ ht)
      · exact hn ((Side.eq_other e) ▸ ht)

theorem score_set {b : Book} {h e : List Move} {t : Scores} {m c : Move} {v : Int} (he : ∀ c, t c = b.score e c) :
    (b.set (boardOf e).state (t.put c v)).score h m =
      if (boardOf h).state = (boardOf e).state then (if m = c then v else b.score e m) else b.score h m := by
  unfold Book.score Book.set
  by_cases hk : (boardOf h).state = (boardOf e).state
  · rw [if_pos hk]
    simp only [hk, if_true, Scores.put]
    split
    · rfl
    · exact he m
  · simp [hk]

theorem Reach.suffix {e h : List Move} (hr : Reach h) (hs : e <:+ h) : Reach e := by
  obtain ⟨l, rfl⟩ := hs
  induction l with
  | nil => exact hr
  | cons m l ih =>
    cases hr with
    | step hr _ => exact ih hr

/-- Learning from the moves `ms` (first first) that follow `e`. -/
theorem learnFrom_eq {room : BitVec 32 → Bool} {w : Pid} {s : Side} (ms : List Move) {e : List Move} (hr : Reach (ms.reverse ++ e)) {b b' : Book}
    (hl : learnFrom room w (code (some s)) ms (boardOf e) b = some b') {h : List Move} (hh : Reach h) (m : Move) :
    (∀ p, (m :: p) <:+ (ms.reverse ++ e) → e <:+ p → toMove p = s → SamePosition h p → b'.score h m = newScore w (code (some s)) (b.score h m)) ∧
    ((∀ p, (m :: p) <:+ (ms.reverse ++ e) → e <:+ p → toMove p = s → ¬ SamePosition h p) → b'.score h m = b.score h m) := by
  induction ms generalizing e b with
  | nil =>
    cases hl
    refine ⟨fun p h1 h2 _ _ => ?_, fun _ => rfl⟩
    have h1 := h1.length_le
    have h2 := h2.length_le
    simp at h1
    omega
  | cons c ms ih =>
    have efull : (c :: ms).reverse ++ e = ms.reverse ++ (c :: e) := by simp
    rw [efull] at hr ⊢
    have hce : (c :: e) <:+ ms.reverse ++ (c :: e) := List.suffix_append _ _
    have hrc := hr.suffix hce
    obtain ⟨hre, hle⟩ : Reach e ∧ Legal e c := by cases hrc with | step a b => exact ⟨a, b⟩
    have hcur := cur_eq hre hle.2.2
    -- a position of the game is `e` or comes later
    have later : ∀ p, (m :: p) <:+ ms.reverse ++ (c :: e) → e <:+ p → p = e ∧ m = c ∨ (c :: e) <:+ p := by
      intro p h1 h2
      rcases Nat.lt_or_ge e.length p.length with hlt | hge
      · exact .inr (List.suffix_of_suffix_length_le hce ((List.suffix_cons m p).trans h1) (by simp; omega))
      · have e1 : e = p := h2.eq_of_length_le hge
        subst e1
        have := (List.suffix_of_suffix_length_le h1 hce (by simp)).eq_of_length_le (by simp)
        cases this
        exact .inl ⟨rfl, rfl⟩
    have notboth : ∀ p, Reach p → (c :: e) <:+ p → SamePosition h p → ¬ SamePosition h e := by
      intro p hp h1 h2 h3
      have a := samePosition_length hh hp h2
      have b := samePosition_length hh hre h3
      have := h1.length_le
      simp at this
      omega
    unfold learnFrom at hl
    by_cases ht : toMove e = s
    · rw [hcur, ht, if_pos (by simp)] at hl
      split at hl
      · cases hl
      · rename_i b1 t he
        have hb1 : ∀ h m, b1.score h m = b.score h m := fun h m => by
          have := C92_ask room b (boardOf e).state h m
          rw [he] at this; exact this
        have ht1 : ∀ c, t c = b1.score e c := fun c => by
          rw [hb1]
          have hh : b (boardOf e).state ≠ none ∨ room (boardOf e).state = true := by
            unfold ensure at he
            cases e2 : b (boardOf e).state with
            | some _ => exact .inl (by simp)
            | none =>
              rw [e2] at he
              dsimp only at he
              split at he
              · right; assumption
              · cases he
          obtain ⟨t', h1, h2⟩ := ensure_score hh
          rw [he] at h1
          cases h1
          exact h2 c
        have hset := fun h m => score_set (b := b1) (h := h) (e := e) (t := t) (m := m) (c := c) (v := newScore w (code (some s)) (t c)) ht1
        obtain ⟨i1, i2⟩ := ih hr hl
        constructor
        · intro p h1 h2 h3 h4
          rcases later p h1 h2 with ⟨rfl, rfl⟩ | hlater
          · rw [i2 fun p' k1 k2 k3 k4 => notboth p' (hr.suffix ((List.suffix_cons _ _).trans k1)) k2 k4 h4, hset,
              if_pos ((state_eq_iff hh hre).2 h4), if_pos rfl, ht1, hb1, score_same hh hre h4]
          · have hp := hr.suffix ((List.suffix_cons m p).trans h1)
            rw [i1 p h1 hlater h3 h4, hset, if_neg, hb1]
            exact fun hst => notboth p hp hlater h4 ((state_eq_iff hh hre).1 hst)
        · intro hno
          rw [i2 fun p' k1 k2 k3 => hno p' k1 ((List.suffix_cons _ _).trans k2) k3, hset]
          split
          · rename_i hst
            have hsame := (state_eq_iff hh hre).1 hst
            split
            · rename_i hmc
              subst hmc
              exact absurd hsame (hno e hce (List.suffix_refl _) ht)
            · rw [hb1, score_same hh hre hsame]
          · exact hb1 h m
    · rw [hcur, if_neg (by simpa using fun e => ht (Option.some.inj (code_inj e)))] at hl
      obtain ⟨i1, i2⟩ := ih hr hl
      constructor
      · intro p h1 h2 h3 h4
        rcases later p h1 h2 with ⟨rfl, rfl⟩ | hlater
        · exact absurd h3 ht
        · exact i1 p h1 hlater h3 h4
      · intro hno
        exact i2 fun p' k1 k2 k3 => hno p' k1 ((List.suffix_cons _ _).trans k2) k3

/-- C92.  Learning from a finished game `h` as the side `s` changes exactly the scores of the moves that side made, in the positions
in which it made them: 3 more for a game that was won, 1 more for a draw, 1 less for a loss, starting from 10, and
within 1 to 20.  All other scores are as before. -/
theorem C92_learn {room : BitVec 32 → Bool} {h : List Move} (hr : Reach h) {s : Side} {b b' : Book}
    (hl : learn room (boardOf h) (code (some s)) h.reverse b = some b') {h' : List Move} (hr' : Reach h') (m : Move) :
    (∀ p, (m :: p) <:+ h → toMove p = s → SamePosition h' p → Lesson h s (b.score h' m) (b'.score h' m)) ∧
    ((∀ p, (m :: p) <:+ h → toMove p = s → ¬ SamePosition h' p) → b'.score h' m = b.score h' m) := by
  have := learnFrom_eq (e := []) h.reverse (by simpa using hr) hl hr' m
  simp only [List.reverse_reverse, List.append_nil, List.nil_suffix, forall_const] at this
  refine ⟨fun p h1 h2 h3 => ?_, this.2⟩
  rw [this.1 p h1 h2 h3]
  exact newScore_lesson hr s _

/-- With room in the map, learning is defined. -/
theorem C92_total (w me : Pid) (ms : List Move) (temp : Board) (b : Book) : ∃ b', learnFrom (fun _ => true) w me ms temp b = some b' := by
  induction ms generalizing temp b with
  | nil => exact ⟨b, rfl⟩
  | cons m ms ih =>
    unfold learnFrom
    split
    · split
      · rename_i _ e
        exfalso
        revert e
        unfold ensure
        split <;> simp
      · exact ih _ _
    · exact ih _ _

/-- C92 without room in the map: learning from any game of at least one move of that side into an empty map uses an
iterator that cannot be dereferenced. -/
theorem C92_violated_no_room (final : Board) (m : Move) (ms : List Move) : learn (fun _ => false) final pX (m :: ms) (fun _ => none) = none := by
  unfold learn learnFrom
  rfl

/-! ## C93: how moves are picked -/

theorem stretch_unique {w : Move → Int} (hw : ∀ m, 1 ≤ w m) {pre pre' post post' : List Move} {m m' : Move} (he : pre ++ m :: post = pre' ++ m' :: post') {r : Int}
    (h1 : (pre.map w).sum < r) (h2 : r ≤ (pre.map w).sum + w m) (h1' : (pre'.map w).sum < r) (h2' : r ≤ (pre'.map w).sum + w m') : m = m' := by
  induction pre generalizing pre' r with
  | nil =>
    cases pre' with
    | nil => exact (List.cons.inj he).1
    | cons a pre' =>
      obtain ⟨rfl, _⟩ := List.cons.inj he
      have h0 : 0 ≤ (pre'.map w).sum := by
        clear * - hw
        induction pre' with
        | nil => simp
        | cons a l ih => have := hw a; simp only [List.map_cons, List.sum_cons]; omega
      simp only [List.map_nil, List.sum_nil, List.map_cons, List.sum_cons] at *
      omega
  | cons a pre ih =>
    cases pre' with
    | nil =>
      obtain ⟨rfl, _⟩ := List.cons.inj he
      have h0 : 0 ≤ (pre.map w).sum := by
        clear * - hw
        induction pre with
        | nil => simp
        | cons a l ih => have := hw a; simp only [List.map_cons, List.sum_cons]; omega
      simp only [List.map_nil, List.sum_nil, List.map_cons, List.sum_cons] at *
      omega
    | cons a' pre' =>
      obtain ⟨rfl, he'⟩ := List.cons.inj he
      simp only [List.map_cons, List.sum_cons] at *
      exact ih he' (r := r - w a) (by omega) (by omega) (by omega) (by omega)

theorem split_unique {l pre pre' post post' : List Move} {m : Move} (hn : l.Nodup) (h1 : l = pre ++ m :: post) (h2 : l = pre' ++ m :: post') : pre = pre' := by
  subst h1
  induction pre generalizing pre' with
  | nil =>
    cases pre' with
    | nil => rfl
    | cons a pre' =>
      obtain ⟨rfl, h3⟩ := List.cons.inj h2
      exact absurd (show m ∈ post from h3 ▸ by simp) (List.nodup_cons.1 hn).1
  | cons a pre ih =>
    cases pre' with
    | nil =>
      obtain ⟨rfl, _⟩ := List.cons.inj h2
      exact absurd (List.nodup_cons.1 hn).1 (by simp)
    | cons a' pre' =>
      obtain ⟨rfl, h3⟩ := List.cons.inj h2
      rw [ih (List.nodup_cons.1 hn).2 h3]

/-- The legal moves, row by row. -/
def legalMoves (h : List Move) : List Move := cells.filter fun m => decide (m ∉ h)

theorem legalMoves_eq {h : List Move} (hr : Reach h) : legalMoves h = cells.filter (isFree (boardOf h)) := by
  apply List.filter_congr
  intro m hm
  have := isFree_iff hr (onBoard_cells hm)
  rw [Bool.eq_iff_iff, this]
  simp

/-- What a score counts when moves are weighed: itself, and 10 for a move without score. -/
def counts (v : Int) : Int := if v = -1 then 10 else v

/-- The move that `fast_find_best_move` returns for a position, with room in the map. -/
def pick (b : Book) (h : List Move) (rand : Nat) : Pick := fastFind (boardOf h) (ensure (fun _ => true) b (boardOf h).state).2 rand

theorem learnt_sound {b : Book} (hb : Learnt b) {h : List Move} : ∃ s, (ensure (fun _ => true) b (boardOf h).state).2 = some s ∧ (∀ m, s m = b.score h m) ∧ Sound s := by
  obtain ⟨s, h1, h2⟩ := ensure_score (b := b) (h := h) (room := fun _ => true) (.inr rfl)
  refine ⟨s, h1, h2, fun m => ?_⟩
  rw [h2]
  unfold Book.score
  split
  · exact C92_range hb (by assumption) m
  · exact .inl rfl

/-- C93, moves of the highest score: if there are some, then one of them is picked, each by the same share of the random numbers. -/
theorem C93_best {b : Book} (hb : Learnt b) {h : List Move} (hr : Reach h) (rand : Nat) (hne : (legalMoves h).filter (fun m => decide (b.score h m = 20)) ≠ []) :
    ∃ m, ((legalMoves h).filter fun m => decide (b.score h m = 20))[rand % ((legalMoves h).filter fun m => decide (b.score h m = 20)).length]? = some m ∧
      pick b h rand = .move m := by
  obtain ⟨s, h1, h2, _⟩ := learnt_sound hb (h := h)
  unfold pick
  rw [h1, fastFind_eq]
  dsimp only
  rw [← legalMoves_eq hr]
  simp only [h2]
  have hl := List.length_pos_of_ne_nil hne
  rw [if_pos hl, List.getElem?_eq_getElem (Nat.mod_lt _ hl)]
  exact ⟨_, rfl, rfl⟩

/-- C93, exactly, if no move has the highest score and some move has another one than 1: the moves have stretches of the numbers from 0 on, in the order of the cells, and of the
length of what they count; the number drawn is less than the sum of what the moves count that have another score than 1. -/
theorem C93_exact {b : Book} (hb : Learnt b) {h : List Move} (hr : Reach h) (h20 : ∀ m ∈ legalMoves h, b.score h m ≠ 20) {sum : Int}
    (hsum : sum = (((legalMoves h).filter fun m => decide (b.score h m ≠ 1)).map fun m => counts (b.score h m)).sum) (hpos : 0 < sum) (rand : Nat)
    {pre post : List Move} {m : Move} (hsp : legalMoves h = pre ++ m :: post) :
    pick b h rand = .move m ↔
      (pre.map fun m => counts (b.score h m)).sum ≤ (rand : Int) % sum ∧
      (rand : Int) % sum < (pre.map fun m => counts (b.score h m)).sum + counts (b.score h m) := by
  obtain ⟨s, h1, h2, h3⟩ := learnt_sound hb (h := h)
  have hw : ∀ m, 1 ≤ weight (s m) := weight_pos h3
  have e20 : ¬ 0 < ((legalMoves h).filter fun m => decide (s m = 20)).length := by
    rw [List.length_pos_iff_exists_mem]
    rintro ⟨m, hm⟩
    obtain ⟨k1, k2⟩ := List.mem_filter.1 hm
    rw [h2] at k2
    exact h20 m k1 (by simpa using k2)
  have esum : ((legalMoves h).map fun m => share (s m)).sum = sum := by
    rw [hsum]
    simp only [← h2] at h20 ⊢
    clear * - h20
    generalize legalMoves h = l at *
    induction l with
    | nil => rfl
    | cons m l ih =>
      have hm := h20 m (by simp)
      have ih := ih fun m hm => h20 m (by simp [hm])
      rw [List.map_cons, List.sum_cons, ih]
      by_cases e : s m = 1
      · rw [List.filter_cons_of_neg (by simp [e])]
        simp [share, e]
      · rw [List.filter_cons_of_pos (by simp [e]), List.map_cons, List.sum_cons]
        simp [share, e, hm, counts, weight]
  have e9 : ¬ ((legalMoves h).filter fun m => decide (s m = 1)).length = 9 := by
    intro e
    have hall : ∀ m ∈ legalMoves h, s m = 1 := by
      have hle : (legalMoves h).length ≤ 9 := (List.length_filter_le _ _)
      have := (List.length_filter_eq_length_iff (l := legalMoves h) (p := fun m => decide (s m = 1))).1 (Nat.le_antisymm (List.length_filter_le _ _) (by rw [e]; exact hle))
      intro m hm
      simpa using this m hm
    have := (share_sum_zero h3 (l := legalMoves h) (fun m hm => by rw [h2]; exact h20 m hm)).2 hall
    omega
  unfold pick
  rw [h1, fastFind_eq]
  dsimp only
  rw [← legalMoves_eq hr, if_neg e20, if_neg e9, esum, if_neg (by omega), Int.tmod_eq_emod_of_nonneg (by omega)]
  have m1 := Int.emod_nonneg (rand : Int) (show sum ≠ 0 by omega)
  have m2 := Int.emod_lt_of_pos (rand : Int) hpos
  have hle := share_le h3 (legalMoves h)
  obtain ⟨pre', m', post', e1, e2, e3, e4⟩ := pickWeighted_eq (boardOf h) h3 cells none (r := 1 + (rand : Int) % sum) (by omega)
    (by rw [← legalMoves_eq hr]; omega)
  rw [e2, ← legalMoves_eq hr] at *
  have hc : ∀ m, counts (b.score h m) = weight (s m) := fun m => by rw [h2]; rfl
  simp only [hc]
  constructor
  · intro e
    have e : m' = m := by simpa [Pick.ofOption] using e
    subst e
    have hn : (legalMoves h).Nodup := List.Pairwise.filter _ (show cells.Nodup by decide)
    have := split_unique hn hsp e1
    subst this
    omega
  · rintro ⟨k1, k2⟩
    have := stretch_unique hw (hsp.symm.trans e1) (r := 1 + (rand : Int) % sum) (by omega) (by omega) e3 e4
    subst this
    rfl

theorem count_stretch (n a w : Nat) : ((List.range n).filter fun r => decide (a ≤ r ∧ r < a + w)).length = min n (a + w) - min n a := by
  induction n with
  | zero => simp
  | succ n ih =>
    rw [List.range_succ, List.filter_append, List.length_append, ih]
    by_cases h : a ≤ n ∧ n < a + w
    · rw [List.filter_cons_of_pos (by simpa using h)]
      simp; omega
    · rw [List.filter_cons_of_neg (by simpa using h)]
      simp; omega

/-- C93 in full: of as many successive random numbers as the legal moves count together, each move is picked by as many as it
counts. -/
def C93Full (Possible : Book → Prop) : Prop :=
  ∀ (b : Book) (h : List Move), Possible b → Reach h → ¬ Over h → (∀ m ∈ legalMoves h, b.score h m ≠ 20) → ∀ (m : Move), Legal h m → ∀ total : Nat,
    (total : Int) = ((legalMoves h).map fun m => counts (b.score h m)).sum →
    (((List.range total).filter fun r => decide (pick b h r = .move m)).length : Int) = counts (b.score h m)

/-- C93, the part that holds: positions in which no move has the score 1.  Missing: a move with the score 1 counts when the moves are
gone through, but not when the number is drawn. -/
theorem C93_fair_partial {b : Book} (hb : Learnt b) {h : List Move} (hr : Reach h) (h20 : ∀ m ∈ legalMoves h, b.score h m ≠ 20)
    (h1 : ∀ m ∈ legalMoves h, b.score h m ≠ 1) {m : Move} (hl : Legal h m) {total : Nat}
    (ht : (total : Int) = ((legalMoves h).map fun m => counts (b.score h m)).sum) :
    (∀ r, pick b h r = pick b h (r % total)) ∧
    (((List.range total).filter fun r => decide (pick b h r = .move m)).length : Int) = counts (b.score h m) := by
  obtain ⟨s, _, h2, h3⟩ := learnt_sound hb (h := h)
  have hw : ∀ m, 1 ≤ counts (b.score h m) := fun m => by
    have := weight_pos h3 m
    rwa [h2] at this
  have hmem : ∀ {m}, Legal h m ↔ m ∈ legalMoves h := fun {m} => by rw [legalMoves_eq hr]; exact legal_iff hr hl.2.2 m
  obtain ⟨pre, post, hsp⟩ := List.append_of_mem (hmem.1 hl)
  have nonneg : ∀ l : List Move, 0 ≤ (l.map fun m => counts (b.score h m)).sum := by
    intro l
    induction l with
    | nil => simp
    | cons a l ih => have := hw a; simp only [List.map_cons, List.sum_cons]; omega
  have hm := hw m
  have hpre := nonneg pre
  have hpost := nonneg post
  have htot : (total : Int) = (pre.map fun m => counts (b.score h m)).sum + (counts (b.score h m) + (post.map fun m => counts (b.score h m)).sum) := by
    rw [ht, hsp, List.map_append, List.sum_append, List.map_cons, List.sum_cons]
  have hf : (legalMoves h).filter (fun m => decide (b.score h m ≠ 1)) = legalMoves h := List.filter_eq_self.2 fun m hm => by simpa using h1 m hm
  have key := fun r {pre post : List Move} {m : Move} => C93_exact hb hr h20 (sum := total) (by rw [hf, ht]) (by omega) r (pre := pre) (post := post) (m := m)
  have some_move : ∀ r, ∃ m, Legal h m ∧ pick b h r = .move m := fun r => by
    obtain ⟨s, k1, k2, k3⟩ := learnt_sound hb (h := h)
    obtain ⟨m', l1, l2⟩ := (fastFind_exact hr hl.2.2 k3 r).1 ⟨m, hl, by rw [k2]; exact h1 m (hmem.1 hl)⟩
    exact ⟨m', l1, by unfold pick; rw [k1, l2]⟩
  constructor
  · intro r
    obtain ⟨m', l1, l2⟩ := some_move r
    obtain ⟨pre', post', hsp'⟩ := List.append_of_mem (hmem.1 l1)
    rw [l2, eq_comm, key _ hsp']
    rw [key _ hsp'] at l2
    push_cast
    rwa [Int.emod_emod_of_dvd _ (Int.dvd_refl _)]
  · have e : (List.range total).filter (fun r => decide (pick b h r = .move m)) =
        (List.range total).filter fun r => decide ((pre.map fun m => counts (b.score h m)).sum.toNat ≤ r ∧
          r < (pre.map fun m => counts (b.score h m)).sum.toNat + (counts (b.score h m)).toNat) := by
      apply List.filter_congr
      intro r hr
      have hr := List.mem_range.1 hr
      rw [decide_eq_decide, key r hsp, Int.emod_eq_of_lt (by omega) (by omega)]
      omega
    rw [e, count_stretch]
    omega

end Abc.TicTacToe
