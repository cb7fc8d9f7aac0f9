import Verif.Samples.Connect4Fast
import Verif.Samples.Connect4Engine

/-!
# The learning engine of connect four: legal moves, learning and picks
-/

namespace Abc.Connect4

/-- The score of a column in the position after the moves `h`; -1 is none. -/
def Book.score (b : Book) (h : List Move) (c : Int) : Int :=
  match b (boardOf h).state with
  | some s => s c
  | none => -1

/-- What the map can contain: it starts empty, and there were any legal games in which the engine looked up positions
(`ask`) or from which it learnt as either side (`game`). -/
inductive Learnt : Book → Prop
  | new : Learnt fun _ => none
  | ask {b h} (room) : Learnt b → Reach h → Learnt (ensure room b (boardOf h).state).1
  | game {b b' h} (room) (s : Side) : Learnt b → Reach h → Over h → learn room (boardOf h) (code (some s)) h.reverse b = some b' → Learnt b'

/-- Scores that can be there. -/
def Sound (s : Scores) : Prop := ∀ c, s c = -1 ∨ 1 ≤ s c ∧ s c ≤ 100

/-! ## C95: the limits -/

theorem newScore_sound (g v : Int) : 1 ≤ newScore g v ∧ newScore g v ≤ 100 := by
  unfold newScore
  dsimp only
  split <;> split <;> omega

theorem ensure_sound {room : BitVec 64 → Bool} {b : Book} (hb : ∀ k s, b k = some s → Sound s) (k : BitVec 64) :
    (∀ k' s, (ensure room b k).1 k' = some s → Sound s) ∧ ∀ s, (ensure room b k).2 = some s → Sound s := by
  unfold ensure
  cases e : b k with
  | some s =>
    exact ⟨hb, fun s' h => by cases h; exact hb k s e⟩
  | none =>
    dsimp only
    split
    · refine ⟨fun k' s h => ?_, fun s h => by cases h; exact fun _ => .inl rfl⟩
      simp only [Book.set] at h
      split at h
      · cases h; exact fun _ => .inl rfl
      · exact hb _ _ h
    · exact ⟨hb, fun s h => by cases h⟩

theorem learnFrom_sound {room : BitVec 64 → Bool} {g : Int} {me : Pid} (ms : List Move) {temp : Board} {b b' : Book} (hb : ∀ k s, b k = some s → Sound s)
    (h : learnFrom room g me ms temp b = some b') : ∀ k s, b' k = some s → Sound s := by
  induction ms generalizing temp b with
  | nil => cases h; exact hb
  | cons m ms ih =>
    unfold learnFrom at h
    split at h
    · obtain ⟨h1, h2⟩ := ensure_sound (room := room) hb temp.state
      split at h
      · cases h
      · rename_i b2 s e
        rw [e] at h1 h2
        refine ih (fun k s' hk => ?_) h
        unfold Book.set at hk
        split at hk
        · cases hk
          intro m'
          unfold Scores.put
          split
          · exact .inr (newScore_sound _ _)
          · exact h2 s rfl m'
        · exact h1 _ _ hk
    · exact ih hb h

/-- C95.  Whatever games there were, every score is -1 (none) or between 1 and 100. -/
theorem C95_range {b : Book} (hb : Learnt b) {k : BitVec 64} {s : Scores} (h : b k = some s) (c : Int) : s c = -1 ∨ 1 ≤ s c ∧ s c ≤ 100 := by
  suffices ∀ k s, b k = some s → Sound s from this k s h c
  clear h
  induction hb with
  | new => intro k s h; cases h
  | ask room _ _ ih => exact (ensure_sound ih _).1
  | game room s _ _ _ hl ih => exact learnFrom_sound _ ih hl

/-! ## C94: legal moves -/

/-- Whether a column is free, as the code sees it. -/
def isFree (b : Board) (c : Int) : Bool := (top b c).isValid

theorem mem_cols {c : Int} : c ∈ cols ↔ 0 ≤ c ∧ c < 7 := by
  unfold cols
  simp only [List.mem_cons, List.not_mem_nil, or_false]
  omega

theorem top_eq {h : List Move} (hr : Reach h) {c : Int} (hc : c ∈ cols) : top (boardOf h) c = ⟨height h c, c⟩ := by
  unfold top
  rw [(rep_boardOf hr).shows.colSize c (mem_cols.1 hc).1 (mem_cols.1 hc).2]

theorem isFree_iff {h : List Move} (hr : Reach h) {c : Int} (hc : c ∈ cols) : isFree (boardOf h) c = true ↔ height h c < 6 := by
  unfold isFree
  rw [isValid_iff, top_eq hr hc]
  have := mem_cols.1 hc
  have := height_nonneg h c
  unfold OnBoard
  dsimp only
  omega

/-- A column that a disc can be put into. -/
def Open (h : List Move) (c : Int) : Prop := 0 ≤ c ∧ c < 7 ∧ height h c < 6

theorem open_iff {h : List Move} (hr : Reach h) (c : Int) : Open h c ↔ c ∈ cols.filter (isFree (boardOf h)) := by
  rw [List.mem_filter]
  constructor
  · intro ho
    have hc := mem_cols.2 ⟨ho.1, ho.2.1⟩
    exact ⟨hc, (isFree_iff hr hc).2 ho.2.2⟩
  · intro ho
    exact ⟨(mem_cols.1 ho.1).1, (mem_cols.1 ho.1).2, (isFree_iff hr ho.1).1 ho.2⟩

theorem open_legal {h : List Move} (ho : ¬ Over h) {c : Int} (hc : Open h c) : Legal h ⟨height h c, c⟩ :=
  ⟨⟨height_nonneg h c, hc.2.2, hc.1, hc.2.1⟩, rfl, ho⟩

theorem legal_open {h : List Move} {m : Move} (hl : Legal h m) : Open h m.col ∧ m = ⟨height h m.col, m.col⟩ := by
  obtain ⟨⟨h1, h2, h3, h4⟩, h5, _⟩ := hl
  refine ⟨⟨h3, h4, by omega⟩, ?_⟩
  cases m
  simp only [Move.mk.injEq, and_true] at *
  exact h5

/-- How much a column counts in the weighted pick. -/
def weight (v : Int) : Int := if v = -1 then 50 else v

/-- How much it adds to the sum drawn from. -/
def share (v : Int) : Int := if v = 100 ∨ v = 1 then 0 else weight v

theorem tally_eq (b : Board) (s : Scores) (l : List Int) (t : Tally) :
    (l.foldl (tallyStep b s) t).max = t.max + ((l.filter (isFree b)).filter fun m => decide (s m = 100)).length ∧
    (l.foldl (tallyStep b s) t).min = t.min + ((l.filter (isFree b)).filter fun m => decide (s m = 1)).length ∧
    (l.foldl (tallyStep b s) t).sum + (l.foldl (tallyStep b s) t).none * 50 =
      t.sum + t.none * 50 + ((l.filter (isFree b)).map fun m => share (s m)).sum := by
  induction l generalizing t with
  | nil => simp
  | cons m l ih =>
    obtain ⟨h1, h2, h3⟩ := ih (tallyStep b s t m)
    rw [List.foldl_cons, h1, h2, h3]
    unfold tallyStep
    by_cases hf : isFree b m = true
    · have hf' : (top b m).isValid = true := hf
      rw [if_pos hf', List.filter_cons_of_pos hf, List.map_cons, List.sum_cons]
      unfold share weight
      split
      · rename_i e
        rw [List.filter_cons_of_pos (by simp [e]), List.filter_cons_of_neg (by simp [e])]
        simp [e]; omega
      · rename_i e
        split
        · rename_i e1
          rw [List.filter_cons_of_neg (by simp [e]), List.filter_cons_of_pos (by simp [e1])]
          simp [e1]; omega
        · rename_i e1
          rw [List.filter_cons_of_neg (p := fun m => decide (s m = 100)) (by simp [e]),
            List.filter_cons_of_neg (p := fun m => decide (s m = 1)) (by simp [e1]), if_neg (show ¬ (s m = 100 ∨ s m = 1) by omega)]
          by_cases e2 : s m = -1
          · rw [if_pos e2, if_pos e2]; dsimp only; exact ⟨rfl, rfl, by omega⟩
          · rw [if_neg e2, if_neg e2]; dsimp only; exact ⟨rfl, rfl, by omega⟩
    · have hf' : ¬ (top b m).isValid = true := hf
      rw [if_neg hf', List.filter_cons_of_neg hf]
      exact ⟨rfl, rfl, rfl⟩

theorem pickMax_eq (b : Board) (s : Scores) (l : List Int) (n : Nat) :
    pickMax b s l (1 + (n : Int)) = ((l.filter (isFree b)).filter fun m => decide (s m = 100))[n]? := by
  induction l generalizing n with
  | nil => simp [pickMax]
  | cons m l ih =>
    unfold pickMax
    by_cases hf : isFree b m = true
    · have hf' : (top b m).isValid = true := hf
      rw [List.filter_cons_of_pos hf]
      by_cases e : s m = 100
      · rw [if_pos (by simp [hf', e]), List.filter_cons_of_pos (by simp [e])]
        cases n with
        | zero => simp
        | succ n =>
          rw [if_neg (by push_cast; omega), List.getElem?_cons_succ, ← ih]
          congr 1; push_cast; omega
      · rw [if_neg (by simp [e]), List.filter_cons_of_neg (by simp [e]), ih]
    · have hf' : ¬ (top b m).isValid = true := hf
      rw [if_neg (by simp [hf']), List.filter_cons_of_neg hf, ih]

theorem weight_pos {s : Scores} (hs : Sound s) (m : Int) : 1 ≤ weight (s m) := by
  have := hs m
  unfold weight
  split <;> omega

/-- The weighted pick: the move in whose stretch the number falls, with the stretches one after the other in the order
of the cells. -/
theorem pickWeighted_eq (b : Board) {s : Scores} (hs : Sound s) (l : List Int) (x : Option Int) {r : Int} (h1 : 1 ≤ r)
    (h2 : r ≤ ((l.filter (isFree b)).map fun m => weight (s m)).sum) :
    ∃ pre m post, l.filter (isFree b) = pre ++ m :: post ∧ pickWeighted b s l x r = some m ∧
      (pre.map fun m => weight (s m)).sum < r ∧ r ≤ (pre.map fun m => weight (s m)).sum + weight (s m) := by
  induction l generalizing x r with
  | nil => simp at h2; omega
  | cons m l ih =>
    unfold pickWeighted
    by_cases hf : isFree b m = true
    · have hf' : (top b m).isValid = true := hf
      rw [List.filter_cons_of_pos hf] at h2 ⊢
      rw [List.map_cons, List.sum_cons] at h2
      rw [if_pos hf']
      have key : (if 1 ≤ s m ∧ s m ≤ 100 then ((some m, r - s m) : Option Int × Int) else if s m = -1 then (some m, r - 50) else (x, r)) =
          (some m, r - weight (s m)) := by
        unfold weight
        rcases hs m with e | e
        · rw [if_neg (by omega), if_pos e, if_pos e]
        · rw [if_pos e, if_neg (by omega)]
      rw [key]
      dsimp only
      split
      · exact ⟨[], m, _, rfl, rfl, by simp; omega, by simp; omega⟩
      · obtain ⟨pre, m', post, e1, e2, e3, e4⟩ := ih (some m) (r := r - weight (s m)) (by omega) (by omega)
        exact ⟨m :: pre, m', post, by rw [e1]; rfl, e2, by simp; omega, by simp; omega⟩
    · have hf' : ¬ (top b m).isValid = true := hf
      rw [List.filter_cons_of_neg hf] at h2 ⊢
      rw [if_neg hf']
      exact ih x h1 h2

theorem share_nonneg {s : Scores} (hs : Sound s) (m : Int) : 0 ≤ share (s m) := by
  have := weight_pos hs m
  unfold share
  split <;> omega

theorem share_le {s : Scores} (hs : Sound s) (l : List Int) : (l.map fun m => share (s m)).sum ≤ (l.map fun m => weight (s m)).sum := by
  induction l with
  | nil => simp
  | cons m l ih =>
    have := weight_pos hs m
    simp only [List.map_cons, List.sum_cons]
    have : share (s m) ≤ weight (s m) := by unfold share; split <;> omega
    omega

theorem share_sum_nonneg {s : Scores} (hs : Sound s) (l : List Int) : 0 ≤ (l.map fun m => share (s m)).sum := by
  induction l with
  | nil => simp
  | cons m l ih =>
    have := share_nonneg hs m
    simp only [List.map_cons, List.sum_cons]
    omega

theorem share_sum_zero {s : Scores} (hs : Sound s) {l : List Int} (h20 : ∀ m ∈ l, s m ≠ 100) :
    (l.map fun m => share (s m)).sum = 0 ↔ ∀ m ∈ l, s m = 1 := by
  induction l with
  | nil => simp
  | cons m l ih =>
    have h1 := share_nonneg hs m
    have h2 := share_sum_nonneg hs l
    have ih := ih fun m hm => h20 m (by simp [hm])
    have hm := h20 m (by simp)
    have hw := weight_pos hs m
    have e : share (s m) = 0 ↔ s m = 1 := by
      unfold share
      split
      · rename_i e; simp; omega
      · constructor <;> intro <;> omega
    simp only [List.map_cons, List.sum_cons, List.mem_cons, forall_eq_or_imp]
    rw [← e, ← ih]
    omega

theorem tally_valid (b : Board) (s : Scores) (l : List Int) (t : Tally) : (l.foldl (tallyStep b s) t).valid = t.valid + (l.filter (isFree b)).length := by
  induction l generalizing t with
  | nil => simp
  | cons c l ih =>
    rw [List.foldl_cons, ih]
    unfold tallyStep
    by_cases hf : isFree b c = true
    · have hf' : (top b c).isValid = true := hf
      rw [if_pos hf', List.filter_cons_of_pos hf, List.length_cons]
      dsimp only
      have : ∀ (c1 c2 c3 : Prop) [Decidable c1] [Decidable c2] [Decidable c3] (a b d e : Tally), a.valid = t.valid + 1 → b.valid = t.valid + 1 → d.valid = t.valid + 1 → e.valid = t.valid + 1 →
          (if c1 then a else if c2 then b else if c3 then d else e).valid = t.valid + 1 := by
        intros
        split
        · assumption
        · split
          · assumption
          · split <;> assumption
      rw [this _ _ _ _ _ _ _ rfl rfl rfl rfl]
      push_cast; omega
    · have hf' : ¬ (top b c).isValid = true := hf
      rw [if_neg hf', List.filter_cons_of_neg hf]

/-- The three ways `fast_find_best_move` decides; `free` are the free columns in order. -/
theorem fastFind_eq (b : Board) (s : Scores) (rand : Nat) :
    fastFind b (some s) rand =
      let free := cols.filter (isFree b)
      let best := free.filter fun c => decide (s c = 100)
      let worst := free.filter fun c => decide (s c = 1)
      if 0 < best.length then .ofOption b best[rand % best.length]?
      else if worst.length = free.length then
        if worst.length = 0 then .crash else .move (top b (((1 + rand % worst.length) % 7 : Nat) : Int))
      else
        let sum := (free.map fun c => share (s c)).sum
        if sum = 0 then .crash else .ofOption b (pickWeighted b s cols none (1 + (rand : Int).tmod sum)) := by
  obtain ⟨h1, h2, h3⟩ := tally_eq b s cols {}
  have h4 := tally_valid b s cols {}
  unfold fastFind
  dsimp only
  rw [h1, h2, h3, h4]
  simp only [Int.zero_add, Int.zero_mul]
  by_cases c1 : 0 < ((cols.filter (isFree b)).filter fun c => decide (s c = 100)).length
  · rw [if_pos (by omega), if_pos c1, show (rand : Int).tmod ((((cols.filter (isFree b)).filter fun c => decide (s c = 100)).length : Nat) : Int) =
      ((rand % ((cols.filter (isFree b)).filter fun c => decide (s c = 100)).length : Nat) : Int) from rfl, pickMax_eq]
  · rw [if_neg (by omega), if_neg c1]
    by_cases c2 : ((cols.filter (isFree b)).filter fun c => decide (s c = 1)).length = (cols.filter (isFree b)).length
    · rw [if_pos (by omega), if_pos c2]
      by_cases c3 : ((cols.filter (isFree b)).filter fun c => decide (s c = 1)).length = 0
      · rw [if_pos (by omega), if_pos c3]
      · rw [if_neg (by omega), if_neg c3]
        rfl
    · rw [if_neg (by omega), if_neg c2]

theorem open_exists {h : List Move} (hr : Reach h) (ho : ¬ Over h) : ∃ c, Open h c := by
  obtain ⟨m, hm⟩ := exists_legal hr ho
  exact ⟨m.col, (legal_open hm).1⟩

/-- The open columns, from left to right. -/
def openCols (h : List Move) : List Int := cols.filter fun c => decide (height h c < 6)

theorem openCols_eq {h : List Move} (hr : Reach h) : openCols h = cols.filter (isFree (boardOf h)) := by
  apply List.filter_congr
  intro c hc
  rw [Bool.eq_iff_iff, isFree_iff hr hc]
  simp

/-- What `fast_find_best_move` does on an unfinished board with sound scores. -/
theorem fastFind_exact {h : List Move} (hr : Reach h) (ho : ¬ Over h) {s : Scores} (hs : Sound s) (rand : Nat) :
    ((∃ c, Open h c ∧ s c ≠ 1) → ∃ c, Open h c ∧ fastFind (boardOf h) (some s) rand = .move ⟨height h c, c⟩) ∧
    ((∀ c, Open h c → s c = 1) →
      fastFind (boardOf h) (some s) rand = .move (top (boardOf h) (((1 + rand % (openCols h).length) % 7 : Nat) : Int))) := by
  have hle := open_iff hr
  rw [fastFind_eq, openCols_eq hr]
  dsimp only
  generalize hfree : cols.filter (isFree (boardOf h)) = free at hle ⊢
  have htop : ∀ c, Open h c → top (boardOf h) c = ⟨height h c, c⟩ := fun c hc => top_eq hr (mem_cols.2 ⟨hc.1, hc.2.1⟩)
  refine ⟨fun ⟨c, hl, hc⟩ => ?_, fun h1 => ?_⟩
  · by_cases c1 : 0 < (free.filter fun c => decide (s c = 100)).length
    · rw [if_pos c1, List.getElem?_eq_getElem (Nat.mod_lt _ c1)]
      have hopen := (hle _).2 (List.mem_of_mem_filter (List.getElem_mem (Nat.mod_lt rand c1)))
      exact ⟨_, hopen, congrArg Pick.move (htop _ hopen)⟩
    · rw [if_neg c1]
      have h20 : ∀ c ∈ free, s c ≠ 100 := fun c hc e =>
        c1 (List.length_pos_iff_exists_mem.2 ⟨c, List.mem_filter.2 ⟨hc, by simpa using e⟩⟩)
      have hz : (free.map fun c => share (s c)).sum ≠ 0 := fun e => hc ((share_sum_zero hs h20).1 e c ((hle c).1 hl))
      rw [if_neg, if_neg hz]
      · have h0 := share_sum_nonneg hs free
        have h2 := share_le hs free
        have h3 : (0 : Int) ≤ (rand : Int).tmod (free.map fun c => share (s c)).sum := Int.tmod_nonneg _ (by omega)
        have h4 : (rand : Int).tmod (free.map fun c => share (s c)).sum < (free.map fun c => share (s c)).sum := Int.tmod_lt_of_pos _ (by omega)
        obtain ⟨pre, c', post, e1, e2, _, _⟩ := pickWeighted_eq (boardOf h) hs cols none
          (r := 1 + (rand : Int).tmod (free.map fun c => share (s c)).sum) (by omega) (by rw [hfree]; omega)
        rw [e2]
        have hopen := (hle c').2 (by rw [← hfree, e1]; simp)
        exact ⟨c', hopen, congrArg Pick.move (htop _ hopen)⟩
      · intro e
        have := (List.length_filter_eq_length_iff.1 e) c ((hle c).1 hl)
        exact hc (by simpa using this)
  · have allmin : free.filter (fun c => decide (s c = 1)) = free := by
      rw [List.filter_eq_self]
      intro c hc
      simpa using h1 c ((hle c).2 hc)
    have nobest : ¬ 0 < (free.filter fun c => decide (s c = 100)).length := by
      rw [List.length_pos_iff_exists_mem]
      rintro ⟨c, hc⟩
      obtain ⟨k1, k2⟩ := List.mem_filter.1 hc
      have := h1 c ((hle c).2 k1)
      simp at k2; omega
    obtain ⟨c, hc⟩ := open_exists hr ho
    have hpos := List.length_pos_iff_exists_mem.2 ⟨c, (hle c).1 hc⟩
    rw [if_neg nobest, allmin, if_pos rfl, if_neg (by omega)]

/-- The scores of the item that is there after `ensure_board_state_in_map`. -/
theorem ensure_score {b : Book} {h : List Move} {room : BitVec 64 → Bool} (hroom : b (boardOf h).state ≠ none ∨ room (boardOf h).state = true) :
    ∃ s, (ensure room b (boardOf h).state).2 = some s ∧ ∀ c, s c = b.score h c := by
  unfold ensure Book.score
  cases e : b (boardOf h).state with
  | some s => exact ⟨s, rfl, fun _ => rfl⟩
  | none =>
    rcases hroom with hr | hr
    · exact absurd e hr
    · dsimp only
      rw [if_pos hr]
      exact ⟨_, rfl, fun _ => rfl⟩

/-- A move on the board of an unfinished game. -/
theorem accept_legal {h : List Move} (hr : Reach h) {m : Move} (hl : Legal h m) : (boardOf h).accept m = (boardOf (m :: h), true) :=
  Prod.ext rfl (accept_true (rep_boardOf hr) hl).1

theorem cur_eq {h : List Move} (hr : Reach h) (ho : ¬ Over h) : (boardOf h).cur = code (some (toMove h)) :=
  (rep_boardOf hr).shows.turn ho

/-- C94, exactly: after any games, on every unfinished board, with room in the map.  If some open column has a score other than 1,
then the engine makes a legal move.  If not, then it tries column 1 plus a random number below the number of open columns (column 0 for 7): a legal move if that column is open, and
refused by the board if it is full. -/
theorem C94_exact {b : Book} (hb : Learnt b) {h : List Move} (hr : Reach h) (ho : ¬ Over h) {room : BitVec 64 → Bool}
    (hroom : b (boardOf h).state ≠ none ∨ room (boardOf h).state = true) (rand : Nat) :
    let t := (fastMakeMove room rand b (boardOf h) (code (some (toMove h)))).2
    let c : Int := ((1 + rand % (openCols h).length) % 7 : Nat)
    ((∃ c, Open h c ∧ b.score h c ≠ 1) → ∃ m, Legal h m ∧ t = .done true (boardOf (m :: h))) ∧
    ((∀ c, Open h c → b.score h c = 1) →
      (height h c < 6 → Legal h ⟨height h c, c⟩ ∧ t = .done true (boardOf (⟨height h c, c⟩ :: h))) ∧
      (¬ height h c < 6 → t = .done false (boardOf h))) := by
  obtain ⟨s, hs, hsc⟩ := ensure_score hroom
  have hsound : Sound s := by
    intro m
    rw [hsc]
    unfold Book.score
    split
    · exact C95_range hb (by assumption) m
    · exact .inl rfl
  have hcur := cur_eq hr ho
  obtain ⟨h1, h2⟩ := fastFind_exact hr ho hsound rand
  simp only [hsc] at h1 h2
  have hmove {m : Move} (e : fastFind (boardOf h) (some s) rand = .move m) :
      (fastMakeMove room rand b (boardOf h) (code (some (toMove h)))).2 = .done ((boardOf h).accept m).2 ((boardOf h).accept m).1 := by
    unfold fastMakeMove
    dsimp only
    rw [hs, e, hcur]
    simp
  intro t c
  have hcc : c ∈ cols := mem_cols.2 (by show (0 : Int) ≤ ((1 + rand % (openCols h).length) % 7 : Nat) ∧ (((1 + rand % (openCols h).length) % 7 : Nat) : Int) < 7; omega)
  refine ⟨fun hx => ?_, fun hx => ⟨fun hlt => ?_, fun hge => ?_⟩⟩
  · obtain ⟨c, hc, e⟩ := h1 hx
    have hl := open_legal ho hc
    refine ⟨_, hl, ?_⟩
    show (fastMakeMove room rand b (boardOf h) (code (some (toMove h)))).2 = _
    rw [hmove e, accept_legal hr hl]
  · have hl := open_legal ho ⟨(mem_cols.1 hcc).1, (mem_cols.1 hcc).2, hlt⟩
    refine ⟨hl, ?_⟩
    show (fastMakeMove room rand b (boardOf h) (code (some (toMove h)))).2 = _
    rw [hmove (h2 hx), top_eq hr hcc, accept_legal hr hl]
  · show (fastMakeMove room rand b (boardOf h) (code (some (toMove h)))).2 = _
    rw [hmove (h2 hx), top_eq hr hcc, accept_false (rep_boardOf hr)]
    intro hl
    exact hge (legal_open hl).1.2.2

/-- C94, out of turn: the engine asked for a move when the other side is to move leaves the board as it is and is told so, unless
picking the move already fails. -/
theorem C94_turn (room : BitVec 64 → Bool) (b : Book) (h : List Move) (rand : Nat) {s : Side} (hs : (boardOf h).cur = code (some s.other)) :
    (fastMakeMove room rand b (boardOf h) (code (some s))).2 = .done false (boardOf h) ∨
      (fastMakeMove room rand b (boardOf h) (code (some s))).2 = .wild ∨ (fastMakeMove room rand b (boardOf h) (code (some s))).2 = .crash := by
  unfold fastMakeMove
  simp only [hs]
  split
  · exact .inr (.inl rfl)
  · exact .inr (.inr rfl)
  · rw [if_pos (by cases s <;> decide)]
    exact .inl rfl

/-- Its case: noughts asked for the first move. -/
example : (boardOf []).cur = code (some Side.o.other) ∧
    (fastMakeMove (fun _ => true) 5 (fun _ => none) (boardOf []) (code (some .o))).2 = .done false (boardOf []) := by decide +kernel

/-- C94 without room in the map: the move is a variable that was never assigned. -/
theorem C94_violated_no_room {b : Book} {h : List Move} {room : BitVec 64 → Bool} (h1 : b (boardOf h).state = none) (h2 : room (boardOf h).state = false)
    (rand : Nat) (me : Pid) : fastMakeMove room rand b (boardOf h) me = (b, .wild) := by
  unfold fastMakeMove ensure
  rw [h1]
  simp [h2, fastFind]

/-! ## C95: what a game changes -/

/-- The same position: the same cells belong to the same sides. -/
def SamePosition (h h' : List Move) : Prop := ∀ m, OnBoard m → owner h m = owner h' m

/-- What a game adds that was not won: more for a long one. -/
def bonus (n : Nat) : Int := if n ≤ 18 then 0 else if n ≤ 24 then 1 else if n ≤ 32 then 2 else 3

/-- The score of a move after a game that was won, drawn or lost. -/
inductive Lesson (h : List Move) (s : Side) (old : Int) : Int → Prop
  | won : HasFour h s → Lesson h s old (max 1 (min 100 ((if old = -1 then 50 else old) + 10)))
  | drawn : (∀ t, ¬ HasFour h t) → Lesson h s old (max 1 (min 100 ((if old = -1 then 50 else old) + 1 + bonus h.length)))
  | lost : HasFour h s.other → Lesson h s old (max 1 (min 100 ((if old = -1 then 50 else old) - 1 + bonus h.length)))

theorem samePosition_mem {h h' : List Move} (hr : Reach h) (hs : SamePosition h h') : ∀ m ∈ h, m ∈ h' := by
  intro m hm
  by_contra hn
  have := hs m ((hr.mem_iff m).1 hm).1
  rw [owner_none.2 hn] at this
  exact owner_none.1 this hm

theorem samePosition_length {h h' : List Move} (hr : Reach h) (hr' : Reach h') (hs : SamePosition h h') : h.length = h'.length := by
  apply Nat.le_antisymm
  · exact (List.subperm_of_subset hr.nodup (samePosition_mem hr hs)).length_le
  · exact (List.subperm_of_subset hr'.nodup (samePosition_mem hr' fun m hm => (hs m hm).symm)).length_le

theorem samePosition_height {h h' : List Move} (hr : Reach h) (hr' : Reach h') (hs : SamePosition h h') {c : Int} (hc : 0 ≤ c ∧ c < 7) : height h c = height h' c := by
  have key : ∀ {h h' : List Move}, Reach h → Reach h' → SamePosition h h' → height h c ≤ height h' c := by
    intro h h' hr hr' hs
    by_contra hn
    have h1 := height_nonneg h' c
    have h2 := hr.height_le c
    have hb : OnBoard ⟨height h' c, c⟩ := ⟨h1, by dsimp only; omega, hc.1, hc.2⟩
    have := samePosition_mem hr hs _ ((hr.mem_iff ⟨height h' c, c⟩).2 ⟨hb, by dsimp only; omega⟩)
    have := ((hr'.mem_iff _).1 this).2
    dsimp only at this
    omega
  have a := key hr hr' hs
  have b := key hr' hr fun m hm => (hs m hm).symm
  omega

theorem accept_state {b : Board} {m : Move} (h : (b.accept m).2 = true) : (b.accept m).1.state = (b.setMove m).state := by
  have h1 : ((b.setMove m).checkWinner m).state = (b.setMove m).state := by
    unfold Board.checkWinner
    dsimp only
    split
    · rfl
    · split <;> rfl
  unfold Board.accept at h ⊢
  split
  · rename_i c; rw [if_pos c] at h; cases h
  · rename_i c; rw [if_neg c] at h
    split
    · rename_i c; rw [if_pos c] at h; cases h
    · rename_i c; rw [if_neg c] at h
      split
      · rename_i c; rw [if_pos c] at h; cases h
      · rename_i c; rw [if_neg c] at h
        split
        · rename_i c; rw [if_pos c] at h; cases h
        · dsimp only
          split
          · exact h1
          · exact h1

theorem high_zero {h : List Move} (hr : Reach h) : ∀ i, 63 ≤ i → (boardOf h).state.getLsbD i = false := by
  induction hr with
  | start => intro i _; exact BitVec.getLsbD_zero
  | @step h m hr hl ih =>
    intro i hi
    have hv := hl.1
    have h3 := hv.2.2.1
    have h4 := hv.2.2.2
    have hcells := (rep_boardOf hr).cells
    obtain ⟨hp1, hp2⟩ := movePos_bounds hv
    rw [show boardOf (m :: h) = ((boardOf h).accept m).1 from rfl, accept_state (accept_true (rep_boardOf hr) hl).1, setMove_state, cur_eq hr hl.2.2,
      colPos_eq hv.2.2.1]
    have hp : movePos m < 63 := by
      obtain ⟨k1, k2, k3, k4⟩ := hv
      unfold movePos; omega
    show (setBit _ _ _).getLsbD i = false
    rw [setBit_bit _ hp2, if_neg (by omega), inc_bit _ (by omega) (cells_csz hr hcells hv) (by omega), ih i hi]

/-- Two reachable boards have the same state exactly if the positions are the same. -/
theorem state_eq_iff {h h' : List Move} (hr : Reach h) (hr' : Reach h') : (boardOf h).state = (boardOf h').state ↔ SamePosition h h' := by
  have h1 := rep_boardOf hr
  have h2 := rep_boardOf hr'
  constructor
  · intro e m hm
    have a := getMove_of hr h1.cells hm
    have b := getMove_of hr' h2.cells hm
    have : (boardOf h).getMove m = (boardOf h').getMove m := by
      unfold Board.getMove Board.getMoveBits Board.colSize
      rw [e]
    rw [this, b] at a
    exact (code_inj a).symm
  · intro hs
    apply BitVec.eq_of_getLsbD_eq
    intro i hi
    rcases Nat.lt_or_ge i 21 with hi | hi
    · have e1 := h1.cells.size (i / 3) (by omega)
      rw [samePosition_height hr hr' hs ⟨by omega, by omega⟩, ← h2.cells.size (i / 3) (by omega)] at e1
      have e2 : csz (boardOf h).state (i / 3) = csz (boardOf h').state (i / 3) := by omega
      unfold csz at e2
      have e3 := congrArg (fun x => x.getLsbD (i % 3)) (BitVec.eq_of_toNat_eq e2)
      simp only [BitVec.getLsbD_and, BitVec.getLsbD_ushiftRight, seven_bit] at e3
      rw [show 3 * (i / 3) + i % 3 = i by omega] at e3
      simpa [show i % 3 < 3 by omega] using e3
    · rcases Nat.lt_or_ge i 63 with hi2 | hi2
      · have hm : OnBoard ⟨(((i - 21) % 6 : Nat) : Int), (((i - 21) / 6 : Nat) : Int)⟩ := by
          unfold OnBoard; dsimp only; omega
        have hx : movePos ⟨(((i - 21) % 6 : Nat) : Int), (((i - 21) / 6 : Nat) : Int)⟩ = i := by
          unfold movePos; dsimp only; omega
        have e1 := h1.cells.disc _ hm
        rw [hs _ hm, ← h2.cells.disc _ hm, hx] at e1
        exact e1
      · rw [high_zero hr i hi2, high_zero hr' i hi2]

theorem newScore_lesson {h : List Move} (hr : Reach h) (s : Side) (old : Int) :
    Lesson h s old (newScore (gain (boardOf h).winner (code (some s)) (boardOf h).count) old) := by
  have r := rep_boardOf hr
  have hb : ∀ g : Int, (if (h.length : Int) > 32 then g + 3 else if (h.length : Int) > 24 then g + 2 else if (h.length : Int) > 18 then g + 1 else g) = g + bonus h.length := by
    intro g
    unfold bonus
    split <;> split <;> (try split) <;> (try split) <;> (try split) <;> omega
  have hc : ∀ g : Int, newScore g old = max 1 (min 100 ((if old = -1 then 50 else old) + g)) := by
    intro g
    unfold newScore
    dsimp only
    split <;> split <;> omega
  have hg : gain (boardOf h).winner (code (some s)) (boardOf h).count = if (boardOf h).winner = code (some s) then 10 else
      (if (boardOf h).winner = pNone then 1 else -1) + bonus h.length := by
    unfold gain
    rw [r.count]
    dsimp only
    rw [hb]
    by_cases e : (boardOf h).winner = code (some s)
    · simp [e]
    · by_cases e' : (boardOf h).winner = pNone
      · rw [e'] at e ⊢
        simp [e]
      · simp [e, e']
  rw [hc, hg]
  by_cases hw : HasFour h s
  · rw [if_pos ((r.winner s).2 hw)]
    exact .won hw
  · rw [if_neg fun e => hw ((r.winner s).1 e)]
    by_cases hd : ∀ t, ¬ HasFour h t
    · rw [if_pos (r.noWinner.2 hd), ← Int.add_assoc]
      exact .drawn hd
    · rw [if_neg fun e => hd (r.noWinner.1 e), ← Int.add_assoc]
      refine .lost ?_
      by_contra hn
      apply hd
      intro t ht
      by_cases e : t = s
      · exact hw (e ▸ ht)
      · exact hn ((Side.eq_other e) ▸ ht)

theorem score_same {b : Book} {h h' : List Move} (hr : Reach h) (hr' : Reach h') (hs : SamePosition h h') (c : Int) : b.score h c = b.score h' c := by
  unfold Book.score
  rw [(state_eq_iff hr hr').2 hs]

/-- C95.  Looking up a position changes no score. -/
theorem C95_ask (room : BitVec 64 → Bool) (b : Book) (k : BitVec 64) (h : List Move) (c : Int) : (ensure room b k).1.score h c = b.score h c := by
  unfold ensure
  cases e : b k with
  | some s => rfl
  | none =>
    by_cases hr : room k = true
    · simp only [hr, if_true]
      unfold Book.score Book.set
      by_cases hk : (boardOf h).state = k
      · simp [hk, e]
      · simp [hk]
    · simp only [hr]
      rfl

theorem score_set {b : Book} {h e : List Move} {t : Scores} {m c : Int} {v : Int} (he : ∀ c, t c = b.score e c) :
    (b.set (boardOf e).state (t.put c v)).score h m =
      if (boardOf h).state = (boardOf e).state then (if m = c then v else b.score e m) else b.score h m := by
  unfold Book.score Book.set
  by_cases hk : (boardOf h).state = (boardOf e).state
  · rw [if_pos hk]
    simp only [hk, if_true, Scores.put]
    split
    · rfl
    · exact he m
  · simp [hk]

theorem Reach.suffix {e h : List Move} (hr : Reach h) (hs : e <:+ h) : Reach e := by
  obtain ⟨l, rfl⟩ := hs
  induction l with
  | nil => exact hr
  | cons m l ih =>
    cases hr with
    | step hr _ => exact ih hr

/-- Learning from the moves `ms` (first first) that follow `e`. -/
theorem learnFrom_eq {room : BitVec 64 → Bool} {g : Int} {s : Side} (ms : List Move) {e : List Move} (hr : Reach (ms.reverse ++ e)) {b b' : Book}
    (hl : learnFrom room g (code (some s)) ms (boardOf e) b = some b') {h : List Move} (hh : Reach h) (k : Int) :
    (∀ m p, m.col = k → (m :: p) <:+ (ms.reverse ++ e) → e <:+ p → toMove p = s → SamePosition h p → b'.score h k = newScore g (b.score h k)) ∧
    ((∀ m p, m.col = k → (m :: p) <:+ (ms.reverse ++ e) → e <:+ p → toMove p = s → ¬ SamePosition h p) → b'.score h k = b.score h k) := by
  induction ms generalizing e b with
  | nil =>
    cases hl
    refine ⟨fun m p _ h1 h2 _ _ => ?_, fun _ => rfl⟩
    have h1 := h1.length_le
    have h2 := h2.length_le
    simp at h1
    omega
  | cons c ms ih =>
    have efull : (c :: ms).reverse ++ e = ms.reverse ++ (c :: e) := by simp
    rw [efull] at hr ⊢
    have hce : (c :: e) <:+ ms.reverse ++ (c :: e) := List.suffix_append _ _
    have hrc := hr.suffix hce
    obtain ⟨hre, hle⟩ : Reach e ∧ Legal e c := by cases hrc with | step a b => exact ⟨a, b⟩
    have hcur := cur_eq hre hle.2.2
    -- a position of the game is `e` or comes later
    have later : ∀ m p, (m :: p) <:+ ms.reverse ++ (c :: e) → e <:+ p → p = e ∧ m = c ∨ (c :: e) <:+ p := by
      intro m p h1 h2
      rcases Nat.lt_or_ge e.length p.length with hlt | hge
      · exact .inr (List.suffix_of_suffix_length_le hce ((List.suffix_cons m p).trans h1) (by simp; omega))
      · have e1 : e = p := h2.eq_of_length_le hge
        subst e1
        have := (List.suffix_of_suffix_length_le h1 hce (by simp)).eq_of_length_le (by simp)
        cases this
        exact .inl ⟨rfl, rfl⟩
    have notboth : ∀ p, Reach p → (c :: e) <:+ p → SamePosition h p → ¬ SamePosition h e := by
      intro p hp h1 h2 h3
      have a := samePosition_length hh hp h2
      have b := samePosition_length hh hre h3
      have := h1.length_le
      simp at this
      omega
    unfold learnFrom at hl
    by_cases ht : toMove e = s
    · rw [hcur, ht, if_pos (by simp)] at hl
      split at hl
      · cases hl
      · rename_i b1 t he
        have hb1 : ∀ h m, b1.score h m = b.score h m := fun h m => by
          have := C95_ask room b (boardOf e).state h m
          rw [he] at this; exact this
        have ht1 : ∀ c, t c = b1.score e c := fun c => by
          rw [hb1]
          have hh : b (boardOf e).state ≠ none ∨ room (boardOf e).state = true := by
            unfold ensure at he
            cases e2 : b (boardOf e).state with
            | some _ => exact .inl (by simp)
            | none =>
              rw [e2] at he
              dsimp only at he
              split at he
              · right; assumption
              · cases he
          obtain ⟨t', h1, h2⟩ := ensure_score hh
          rw [he] at h1
          cases h1
          exact h2 c
        have hset := fun h m => score_set (b := b1) (h := h) (e := e) (t := t) (m := m) (c := c.col) (v := newScore g (t c.col)) ht1
        obtain ⟨i1, i2⟩ := ih hr hl
        constructor
        · intro m p hk h1 h2 h3 h4
          rcases later m p h1 h2 with ⟨rfl, rfl⟩ | hlater
          · rw [i2 fun m' p' _ k1 k2 k3 k4 => notboth p' (hr.suffix ((List.suffix_cons _ _).trans k1)) k2 k4 h4, hset,
              if_pos ((state_eq_iff hh hre).2 h4), if_pos hk.symm, ht1, hb1, score_same hh hre h4, hk]
          · have hp := hr.suffix ((List.suffix_cons m p).trans h1)
            rw [i1 m p hk h1 hlater h3 h4, hset, if_neg, hb1]
            exact fun hst => notboth p hp hlater h4 ((state_eq_iff hh hre).1 hst)
        · intro hno
          rw [i2 fun m' p' k0 k1 k2 k3 => hno m' p' k0 k1 ((List.suffix_cons _ _).trans k2) k3, hset]
          split
          · rename_i hst
            have hsame := (state_eq_iff hh hre).1 hst
            split
            · rename_i hmc
              exact absurd hsame (hno c e hmc.symm hce (List.suffix_refl _) ht)
            · rw [hb1, score_same hh hre hsame]
          · exact hb1 h k
    · rw [hcur, if_neg (by simpa using fun e => ht (Option.some.inj (code_inj e)))] at hl
      obtain ⟨i1, i2⟩ := ih hr hl
      constructor
      · intro m p hk h1 h2 h3 h4
        rcases later m p h1 h2 with ⟨rfl, rfl⟩ | hlater
        · exact absurd h3 ht
        · exact i1 m p hk h1 hlater h3 h4
      · intro hno
        exact i2 fun m' p' k0 k1 k2 k3 => hno m' p' k0 k1 ((List.suffix_cons _ _).trans k2) k3

/-- C95.  Learning from a finished game `h` as the side `s` changes exactly the scores of the columns that side played, in the positions
in which it played them: 10 more for a game that was won, 1 more for a draw, 1 less for a loss; if it was not won, 1, 2 or 3 more for games of more than 18, 24 or 32 moves;
starting from 50, and within 1 to 100.  All other scores are as before. -/
theorem C95_learn {room : BitVec 64 → Bool} {h : List Move} (hr : Reach h) {s : Side} {b b' : Book}
    (hl : learn room (boardOf h) (code (some s)) h.reverse b = some b') {h' : List Move} (hr' : Reach h') (k : Int) :
    (∀ m p, m.col = k → (m :: p) <:+ h → toMove p = s → SamePosition h' p → Lesson h s (b.score h' k) (b'.score h' k)) ∧
    ((∀ m p, m.col = k → (m :: p) <:+ h → toMove p = s → ¬ SamePosition h' p) → b'.score h' k = b.score h' k) := by
  have := learnFrom_eq (e := []) h.reverse (by simpa using hr) hl hr' k
  simp only [List.reverse_reverse, List.append_nil, List.nil_suffix, forall_const] at this
  refine ⟨fun m p h0 h1 h2 h3 => ?_, this.2⟩
  rw [this.1 m p h0 h1 h2 h3]
  exact newScore_lesson hr s _

/-- With room in the map, learning is defined. -/
theorem C95_total (g : Int) (me : Pid) (ms : List Move) (temp : Board) (b : Book) : ∃ b', learnFrom (fun _ => true) g me ms temp b = some b' := by
  induction ms generalizing temp b with
  | nil => exact ⟨b, rfl⟩
  | cons m ms ih =>
    unfold learnFrom
    split
    · split
      · rename_i _ e
        exfalso
        revert e
        unfold ensure
        split <;> simp
      · exact ih _ _
    · exact ih _ _

/-- C95 without room in the map: learning from any game of at least one move of that side into an empty map uses an
iterator that cannot be dereferenced. -/
theorem C95_violated_no_room (final : Board) (m : Move) (ms : List Move) : learn (fun _ => false) final pX (m :: ms) (fun _ => none) = none := by
  unfold learn learnFrom
  rfl

/-! ## C96: how moves are picked -/

theorem stretch_unique {w : Int → Int} (hw : ∀ m, 1 ≤ w m) {pre pre' post post' : List Int} {m m' : Int} (he : pre ++ m :: post = pre' ++ m' :: post') {r : Int}
    (h1 : (pre.map w).sum < r) (h2 : r ≤ (pre.map w).sum + w m) (h1' : (pre'.map w).sum < r) (h2' : r ≤ (pre'.map w).sum + w m') : m = m' := by
  induction pre generalizing pre' r with
  | nil =>
    cases pre' with
    | nil => exact (List.cons.inj he).1
    | cons a pre' =>
      obtain ⟨rfl, _⟩ := List.cons.inj he
      have h0 : 0 ≤ (pre'.map w).sum := by
        clear * - hw
        induction pre' with
        | nil => simp
        | cons a l ih => have := hw a; simp only [List.map_cons, List.sum_cons]; omega
      simp only [List.map_nil, List.sum_nil, List.map_cons, List.sum_cons] at *
      omega
  | cons a pre ih =>
    cases pre' with
    | nil =>
      obtain ⟨rfl, _⟩ := List.cons.inj he
      have h0 : 0 ≤ (pre.map w).sum := by
        clear * - hw
        induction pre with
        | nil => simp
        | cons a l ih => have := hw a; simp only [List.map_cons, List.sum_cons]; omega
      simp only [List.map_nil, List.sum_nil, List.map_cons, List.sum_cons] at *
      omega
    | cons a' pre' =>
      obtain ⟨rfl, he'⟩ := List.cons.inj he
      simp only [List.map_cons, List.sum_cons] at *
      exact ih he' (r := r - w a) (by omega) (by omega) (by omega) (by omega)

theorem split_unique {l pre pre' post post' : List Int} {m : Int} (hn : l.Nodup) (h1 : l = pre ++ m :: post) (h2 : l = pre' ++ m :: post') : pre = pre' := by
  subst h1
  induction pre generalizing pre' with
  | nil =>
    cases pre' with
    | nil => rfl
    | cons a pre' =>
      obtain ⟨rfl, h3⟩ := List.cons.inj h2
      exact absurd (show m ∈ post from h3 ▸ by simp) (List.nodup_cons.1 hn).1
  | cons a pre ih =>
    cases pre' with
    | nil =>
      obtain ⟨rfl, _⟩ := List.cons.inj h2
      exact absurd (List.nodup_cons.1 hn).1 (by simp)
    | cons a' pre' =>
      obtain ⟨rfl, h3⟩ := List.cons.inj h2
      rw [ih (List.nodup_cons.1 hn).2 h3]

theorem count_stretch (n a w : Nat) : ((List.range n).filter fun r => decide (a ≤ r ∧ r < a + w)).length = min n (a + w) - min n a := by
  induction n with
  | zero => simp
  | succ n ih =>
    rw [List.range_succ, List.filter_append, List.length_append, ih]
    by_cases h : a ≤ n ∧ n < a + w
    · rw [List.filter_cons_of_pos (by simpa using h)]
      simp; omega
    · rw [List.filter_cons_of_neg (by simpa using h)]
      simp; omega

/-- What a score counts when columns are weighed: itself, and 50 for a column without score. -/
def counts (v : Int) : Int := if v = -1 then 50 else v

/-- The move that `fast_find_best_move` returns for a position, with room in the map. -/
def pick (b : Book) (h : List Move) (rand : Nat) : Pick := fastFind (boardOf h) (ensure (fun _ => true) b (boardOf h).state).2 rand

theorem learnt_sound {b : Book} (hb : Learnt b) {h : List Move} : ∃ s, (ensure (fun _ => true) b (boardOf h).state).2 = some s ∧ (∀ c, s c = b.score h c) ∧ Sound s := by
  obtain ⟨s, h1, h2⟩ := ensure_score (b := b) (h := h) (room := fun _ => true) (.inr rfl)
  refine ⟨s, h1, h2, fun m => ?_⟩
  rw [h2]
  unfold Book.score
  split
  · exact C95_range hb (by assumption) m
  · exact .inl rfl

theorem openCols_cols {h : List Move} {c : Int} (hc : c ∈ openCols h) : c ∈ cols := List.mem_of_mem_filter hc

theorem mem_openCols {h : List Move} {c : Int} : c ∈ openCols h ↔ Open h c := by
  unfold openCols Open
  rw [List.mem_filter, mem_cols, decide_eq_true_eq, and_assoc]

/-- C96, columns of the highest score: if there are some, then one of them is picked, each by the same share of the random numbers. -/
theorem C96_best {b : Book} (hb : Learnt b) {h : List Move} (hr : Reach h) (rand : Nat) (hne : (openCols h).filter (fun c => decide (b.score h c = 100)) ≠ []) :
    ∃ c, ((openCols h).filter fun c => decide (b.score h c = 100))[rand % ((openCols h).filter fun c => decide (b.score h c = 100)).length]? = some c ∧
      pick b h rand = .move ⟨height h c, c⟩ := by
  obtain ⟨s, h1, h2, _⟩ := learnt_sound hb (h := h)
  unfold pick
  rw [h1, fastFind_eq]
  dsimp only
  rw [← openCols_eq hr]
  simp only [h2]
  have hl := List.length_pos_of_ne_nil hne
  rw [if_pos hl, List.getElem?_eq_getElem (Nat.mod_lt _ hl)]
  refine ⟨_, rfl, congrArg Pick.move (top_eq hr (openCols_cols (h := h) ?_))⟩
  exact List.mem_of_mem_filter (List.getElem_mem (Nat.mod_lt rand hl))

/-- C96, exactly, if no column has the highest score and some column has another one than 1: the columns have stretches of the numbers from 0 on, from left to right, and of the
length of what they count; the number drawn is less than the sum of what the columns count that have another score than 1. -/
theorem C96_exact {b : Book} (hb : Learnt b) {h : List Move} (hr : Reach h) (h100 : ∀ c ∈ openCols h, b.score h c ≠ 100) {sum : Int}
    (hsum : sum = (((openCols h).filter fun c => decide (b.score h c ≠ 1)).map fun c => counts (b.score h c)).sum) (hpos : 0 < sum) (rand : Nat)
    {pre post : List Int} {c : Int} (hsp : openCols h = pre ++ c :: post) :
    pick b h rand = .move ⟨height h c, c⟩ ↔
      (pre.map fun c => counts (b.score h c)).sum ≤ (rand : Int) % sum ∧
      (rand : Int) % sum < (pre.map fun c => counts (b.score h c)).sum + counts (b.score h c) := by
  obtain ⟨s, h1, h2, h3⟩ := learnt_sound hb (h := h)
  have hw : ∀ m, 1 ≤ weight (s m) := weight_pos h3
  have e100 : ¬ 0 < ((openCols h).filter fun m => decide (s m = 100)).length := by
    rw [List.length_pos_iff_exists_mem]
    rintro ⟨m, hm⟩
    obtain ⟨k1, k2⟩ := List.mem_filter.1 hm
    rw [h2] at k2
    exact h100 m k1 (by simpa using k2)
  have esum : ((openCols h).map fun m => share (s m)).sum = sum := by
    rw [hsum]
    simp only [← h2] at h100 ⊢
    clear * - h100
    generalize openCols h = l at *
    induction l with
    | nil => rfl
    | cons m l ih =>
      have hm := h100 m (by simp)
      have ih := ih fun m hm => h100 m (by simp [hm])
      rw [List.map_cons, List.sum_cons, ih]
      by_cases e : s m = 1
      · rw [List.filter_cons_of_neg (by simp [e])]
        simp [share, e]
      · rw [List.filter_cons_of_pos (by simp [e]), List.map_cons, List.sum_cons]
        simp [share, e, hm, counts, weight]
  have e9 : ¬ ((openCols h).filter fun m => decide (s m = 1)).length = (openCols h).length := by
    intro e
    have hall : ∀ m ∈ openCols h, s m = 1 := by
      intro m hm
      simpa using List.length_filter_eq_length_iff.1 e m hm
    have := (share_sum_zero h3 (l := openCols h) (fun m hm => by rw [h2]; exact h100 m hm)).2 hall
    omega
  unfold pick
  rw [h1, fastFind_eq]
  dsimp only
  rw [← openCols_eq hr, if_neg e100, if_neg e9, esum, if_neg (by omega), Int.tmod_eq_emod_of_nonneg (by omega)]
  have m1 := Int.emod_nonneg (rand : Int) (show sum ≠ 0 by omega)
  have m2 := Int.emod_lt_of_pos (rand : Int) hpos
  have hle := share_le h3 (openCols h)
  obtain ⟨pre', m', post', e1, e2, e3, e4⟩ := pickWeighted_eq (boardOf h) h3 cols none (r := 1 + (rand : Int) % sum) (by omega)
    (by rw [← openCols_eq hr]; omega)
  rw [← openCols_eq hr] at e1
  rw [e2]
  have hc : ∀ m, counts (b.score h m) = weight (s m) := fun m => by rw [h2]; rfl
  have htop : top (boardOf h) m' = ⟨height h m', m'⟩ := top_eq hr (openCols_cols (h := h) (by rw [e1]; simp))
  simp only [hc, Pick.ofOption, htop]
  constructor
  · intro e
    have e : m' = c := by simp only [Pick.move.injEq, Move.mk.injEq] at e; exact e.2
    subst e
    have hn : (openCols h).Nodup := List.Pairwise.filter _ (show cols.Nodup by decide)
    have := split_unique hn hsp e1
    subst this
    omega
  · rintro ⟨k1, k2⟩
    have := stretch_unique hw (hsp.symm.trans e1) (r := 1 + (rand : Int) % sum) (by omega) (by omega) e3 e4
    subst this
    rfl

/-- C96 in full: of as many successive random numbers as the open columns count together, each column is picked by as many as it
counts. -/
def C96Full : Prop :=
  ∀ (b : Book) (h : List Move), Learnt b → Reach h → ¬ Over h → (∀ c ∈ openCols h, b.score h c ≠ 100) → ∀ c, Open h c → ∀ total : Nat,
    (total : Int) = ((openCols h).map fun c => counts (b.score h c)).sum →
    (((List.range total).filter fun r => decide (pick b h r = .move ⟨height h c, c⟩)).length : Int) = counts (b.score h c)

/-- C96, the part that holds: positions in which no column has the score 1.  Missing: a column with the score 1 counts when the columns are
gone through, but not when the number is drawn. -/
theorem C96_fair_partial {b : Book} (hb : Learnt b) {h : List Move} (hr : Reach h) (ho : ¬ Over h) (h100 : ∀ c ∈ openCols h, b.score h c ≠ 100)
    (h1 : ∀ c ∈ openCols h, b.score h c ≠ 1) {c : Int} (hl : Open h c) {total : Nat}
    (ht : (total : Int) = ((openCols h).map fun c => counts (b.score h c)).sum) :
    (∀ r, pick b h r = pick b h (r % total)) ∧
    (((List.range total).filter fun r => decide (pick b h r = .move ⟨height h c, c⟩)).length : Int) = counts (b.score h c) := by
  obtain ⟨s, _, h2, h3⟩ := learnt_sound hb (h := h)
  have hw : ∀ m, 1 ≤ counts (b.score h m) := fun m => by
    have := weight_pos h3 m
    rwa [h2] at this
  obtain ⟨pre, post, hsp⟩ := List.append_of_mem (mem_openCols.2 hl)
  have nonneg : ∀ l : List Int, 0 ≤ (l.map fun m => counts (b.score h m)).sum := by
    intro l
    induction l with
    | nil => simp
    | cons a l ih => have := hw a; simp only [List.map_cons, List.sum_cons]; omega
  have hm := hw c
  have hpre := nonneg pre
  have hpost := nonneg post
  have htot : (total : Int) = (pre.map fun m => counts (b.score h m)).sum + (counts (b.score h c) + (post.map fun m => counts (b.score h m)).sum) := by
    rw [ht, hsp, List.map_append, List.sum_append, List.map_cons, List.sum_cons]
  have hf : (openCols h).filter (fun m => decide (b.score h m ≠ 1)) = openCols h := List.filter_eq_self.2 fun m hm => by simpa using h1 m hm
  have key := fun r {pre post : List Int} {c : Int} => C96_exact hb hr h100 (sum := total) (by rw [hf, ht]) (by omega) r (pre := pre) (post := post) (c := c)
  have some_move : ∀ r, ∃ c, Open h c ∧ pick b h r = .move ⟨height h c, c⟩ := fun r => by
    obtain ⟨s, k1, k2, k3⟩ := learnt_sound hb (h := h)
    obtain ⟨m', l1, l2⟩ := (fastFind_exact hr ho k3 r).1 ⟨c, hl, by rw [k2]; exact h1 c (mem_openCols.2 hl)⟩
    exact ⟨m', l1, by unfold pick; rw [k1, l2]⟩
  constructor
  · intro r
    obtain ⟨m', l1, l2⟩ := some_move r
    obtain ⟨pre', post', hsp'⟩ := List.append_of_mem (mem_openCols.2 l1)
    rw [l2, eq_comm, key _ hsp']
    rw [key _ hsp'] at l2
    push_cast
    rwa [Int.emod_emod_of_dvd _ (Int.dvd_refl _)]
  · have e : (List.range total).filter (fun r => decide (pick b h r = .move ⟨height h c, c⟩)) =
        (List.range total).filter fun r => decide ((pre.map fun m => counts (b.score h m)).sum.toNat ≤ r ∧
          r < (pre.map fun m => counts (b.score h m)).sum.toNat + (counts (b.score h c)).toNat) := by
      apply List.filter_congr
      intro r hr
      have hr := List.mem_range.1 hr
      rw [decide_eq_decide, key r hsp, Int.emod_eq_of_lt (by omega) (by omega)]
      omega
    rw [e, count_stretch]
    omega

/-! ## Games that teach -/

/-- The score after `n` lost games of at most 18 moves. -/
theorem losses {b : Book} (hb : Learnt b) {g p : List Move} {m : Move} (hr : Reach g) (hlen : g.length ≤ 18) (hlost : HasFour g .o) (hs : (m :: p) <:+ g) (ht : toMove p = .x) (n : Nat) :
    ∃ b', Learnt b' ∧ b'.score p m.col = (if n = 0 then b.score p m.col else max 1 ((if b.score p m.col = -1 then 50 else b.score p m.col) - n)) ∧
      ∀ k, k ≠ m.col → b'.score p k = b.score p k := by
  have hp : Reach p := hr.suffix ((List.suffix_cons m p).trans hs)
  have hx : ¬ HasFour g .x := fun h => by
    have h1 := ((rep_boardOf hr).winner .x).2 h
    have h2 := ((rep_boardOf hr).winner .o).2 hlost
    exact absurd (h1.symm.trans h2) (by decide)
  induction n with
  | zero => exact ⟨b, hb, rfl, fun _ _ => rfl⟩
  | succ n ih =>
    obtain ⟨b1, h1, h2, h3⟩ := ih
    obtain ⟨b2, hl⟩ := C95_total (gain (boardOf g).winner pX (boardOf g).count) pX g.reverse Board.init b1
    refine ⟨b2, .game _ .x h1 hr (.inl ⟨_, hlost⟩) hl, ?_, fun k hk => ?_⟩
    · have := (C95_learn hr (s := .x) hl hp m.col).1 m p rfl hs ht (fun _ _ => rfl)
      have hsound : b.score p m.col = -1 ∨ 1 ≤ b.score p m.col ∧ b.score p m.col ≤ 100 := by
        unfold Book.score
        split
        · exact C95_range hb (by assumption) _
        · exact .inl rfl
      generalize b2.score p m.col = v at this ⊢
      generalize b1.score p m.col = u at this h2
      rw [if_neg (Nat.succ_ne_zero n)]
      cases this with
      | won h => exact absurd h hx
      | drawn h => exact absurd hlost (h _)
      | lost _ =>
        have hb0 : bonus g.length = 0 := by unfold bonus; rw [if_pos hlen]
        rw [hb0]
        push_cast
        by_cases n0 : n = 0
        · rw [if_pos n0] at h2
          subst h2 n0
          split <;> omega
        · rw [if_neg n0] at h2
          split at h2 <;> split <;> omega
    · rw [(C95_learn hr (s := .x) hl hp k).2, h3 k hk]
      intro m' p' hm' hs' ht' hsame
      have hlen := samePosition_length hp (hr.suffix ((List.suffix_cons m' p').trans hs')) hsame
      have := (List.suffix_of_suffix_length_le hs' hs (by simp; omega)).eq_of_length_le (by simp; omega)
      cases this
      exact hk hm'.symm

/-- The second column is full. -/
def full1 : List Move := [⟨5, 1⟩, ⟨4, 1⟩, ⟨3, 1⟩, ⟨2, 1⟩, ⟨1, 1⟩, ⟨0, 1⟩]

/-- A lost game in which X played the column `c` in that position: `d` is where O wins, and `f` is the last move of X. -/
def lostGame (c d f : Int) : List Move := [⟨3, d⟩, ⟨0, f⟩, ⟨2, d⟩, ⟨2, c⟩, ⟨1, d⟩, ⟨1, c⟩, ⟨0, d⟩, ⟨0, c⟩] ++ full1

theorem learns_full1 {b : Book} (hb : Learnt b) {c d f : Int} (hr : reachB (lostGame c d f) = true) (hw : (boardOf (lostGame c d f)).winner = pO)
    (hn : b.score full1 c = -1) : ∃ b', Learnt b' ∧ b'.score full1 c = 1 ∧ ∀ k, k ≠ c → b'.score full1 k = b.score full1 k := by
  have hreach := reach_of_reachB hr
  obtain ⟨b', h1, h2, h3⟩ := losses hb (g := lostGame c d f) (p := full1) (m := ⟨0, c⟩) hreach (by simp [lostGame, full1]) (((rep_boardOf hreach).winner .o).1 hw)
    ⟨[⟨3, d⟩, ⟨0, f⟩, ⟨2, d⟩, ⟨2, c⟩, ⟨1, d⟩, ⟨1, c⟩, ⟨0, d⟩], rfl⟩ (by decide) 49
  refine ⟨b', h1, ?_, h3⟩
  rw [h2, hn]
  rfl

/-- C94 in full: after any games, with room in the map, the learning engine always makes a legal move when it is its turn. -/
def C94Full : Prop :=
  ∀ (b : Book) (h : List Move) (rand : Nat), Learnt b → Reach h → ¬ Over h →
    ∃ m, Legal h m ∧ (fastMakeMove (fun _ => true) rand b (boardOf h) (code (some (toMove h)))).2 = .done true (boardOf (m :: h))

/-- There are games after which the move of the engine is refused; as a refused move starts no further move, the game stands still. -/
theorem C94_violated_refused : ∃ b, Learnt b ∧ ∀ rand, rand % 6 = 0 →
    (fastMakeMove (fun _ => true) rand b (boardOf full1) (code (some (toMove full1)))).2 = .done false (boardOf full1) := by
  have hr : Reach full1 := reach_of_reachB (by decide +kernel)
  have ho : ¬ Over full1 := not_over_of hr (by decide +kernel)
  obtain ⟨b0, l0, s0, o0⟩ := learns_full1 .new (c := 0) (d := 3) (f := 6) (by decide +kernel) (by decide +kernel) rfl
  obtain ⟨b2, l2, s2, o2⟩ := learns_full1 l0 (c := 2) (d := 3) (f := 6) (by decide +kernel) (by decide +kernel) (by rw [o0 _ (by decide)]; rfl)
  obtain ⟨b3, l3, s3, o3⟩ := learns_full1 l2 (c := 3) (d := 4) (f := 6) (by decide +kernel) (by decide +kernel) (by rw [o2 _ (by decide), o0 _ (by decide)]; rfl)
  obtain ⟨b4, l4, s4, o4⟩ := learns_full1 l3 (c := 4) (d := 3) (f := 6) (by decide +kernel) (by decide +kernel)
    (by rw [o3 _ (by decide), o2 _ (by decide), o0 _ (by decide)]; rfl)
  obtain ⟨b5, l5, s5, o5⟩ := learns_full1 l4 (c := 5) (d := 3) (f := 6) (by decide +kernel) (by decide +kernel)
    (by rw [o4 _ (by decide), o3 _ (by decide), o2 _ (by decide), o0 _ (by decide)]; rfl)
  obtain ⟨b6, l6, s6, o6⟩ := learns_full1 l5 (c := 6) (d := 3) (f := 5) (by decide +kernel) (by decide +kernel)
    (by rw [o5 _ (by decide), o4 _ (by decide), o3 _ (by decide), o2 _ (by decide), o0 _ (by decide)]; rfl)
  refine ⟨b6, l6, fun rand hrand => ?_⟩
  have := (C94_exact l6 hr ho (room := fun _ => true) (.inr rfl) rand).2
  rw [show (openCols full1).length = 6 by decide, hrand] at this
  refine (this ?_).2 (by decide)
  intro c hc
  have hc := mem_openCols.2 hc
  rw [show openCols full1 = [0, 2, 3, 4, 5, 6] by decide] at hc
  simp only [List.mem_cons, List.not_mem_nil, or_false] at hc
  rcases hc with rfl | rfl | rfl | rfl | rfl | rfl
  · rw [o6 _ (by decide), o5 _ (by decide), o4 _ (by decide), o3 _ (by decide), o2 _ (by decide), s0]
  · rw [o6 _ (by decide), o5 _ (by decide), o4 _ (by decide), o3 _ (by decide), s2]
  · rw [o6 _ (by decide), o5 _ (by decide), o4 _ (by decide), s3]
  · rw [o6 _ (by decide), o5 _ (by decide), s4]
  · rw [o6 _ (by decide), s5]
  · exact s6

theorem C94_violated : ¬ C94Full := by
  intro hf
  obtain ⟨b, hb, hx⟩ := C94_violated_refused
  have hr : Reach full1 := reach_of_reachB (by decide +kernel)
  obtain ⟨m, _, hm⟩ := hf b full1 0 hb hr (not_over_of hr (by decide +kernel))
  rw [hx 0 rfl] at hm
  cases hm

/-- C94, the part that holds: as long as some open column has another score than 1, or no column is full.  Missing: the other positions, see `C94_exact`. -/
theorem C94_legal_partial {b : Book} {h : List Move} (rand : Nat) (hb : Learnt b) (hr : Reach h) (ho : ¬ Over h)
    (h1 : (∃ c, Open h c ∧ b.score h c ≠ 1) ∨ ∀ c, 0 ≤ c → c < 7 → Open h c) :
    ∃ m, Legal h m ∧ (fastMakeMove (fun _ => true) rand b (boardOf h) (code (some (toMove h)))).2 = .done true (boardOf (m :: h)) := by
  have hx := C94_exact hb hr ho (room := fun _ => true) (.inr rfl) rand
  dsimp only at hx
  by_cases he : ∃ c, Open h c ∧ b.score h c ≠ 1
  · exact hx.1 he
  · have hall : ∀ c, Open h c → b.score h c = 1 := fun c hc => by
      by_contra hn
      exact he ⟨c, hc, hn⟩
    rcases h1 with h1 | h1
    · exact absurd h1 he
    · have := (hx.2 hall).1 (h1 _ (by omega) (by omega)).2.2
      exact ⟨_, this⟩

/-- A case: the first move. -/
example : Learnt (fun _ => none) ∧ Reach [] ∧ ¬ Over [] ∧ Open [] 3 ∧ Book.score (fun _ => none) [] 3 ≠ 1 :=
  ⟨.new, .start, not_over_nil, by unfold Open; decide, by decide⟩

/-- A lost game from the first move: X plays the middle, O wins in the next column. -/
def lostFirst : List Move := [⟨3, 4⟩, ⟨0, 6⟩, ⟨2, 4⟩, ⟨2, 3⟩, ⟨1, 4⟩, ⟨1, 3⟩, ⟨0, 4⟩, ⟨0, 3⟩]

/-- A map in which the middle column of the empty board has the score 1 and no other column has one. -/
theorem learns_first (n : Nat) : ∃ b, Learnt b ∧ b.score [] 3 = (if n = 0 then -1 else max 1 (50 - (n : Int))) ∧ ∀ k, k ≠ 3 → b.score [] k = -1 := by
  have hr : Reach lostFirst := reach_of_reachB (by decide +kernel)
  exact losses .new (g := lostFirst) (p := []) (m := ⟨0, 3⟩) hr (by decide) (((rep_boardOf hr).winner .o).1 (by decide +kernel))
    ⟨[⟨3, 4⟩, ⟨0, 6⟩, ⟨2, 4⟩, ⟨2, 3⟩, ⟨1, 4⟩, ⟨1, 3⟩, ⟨0, 4⟩], rfl⟩ (by decide) n

/-- C96 fails: the first column counts 50 of 301, but 51 of the 301 random numbers pick it. -/
theorem C96_violated : ¬ C96Full := by
  intro hf
  obtain ⟨b, hb, h3, hk⟩ := learns_first 49
  have h3 : b.score [] 3 = 1 := h3
  have hs : ∀ k ∈ cols, b.score [] k = if k = 3 then 1 else -1 := fun k _ => by
    split
    · subst k; exact h3
    · exact hk k (by assumption)
  have ho : openCols [] = [0, 1, 2, 3, 4, 5, 6] := by decide
  have h100 : ∀ c ∈ openCols [], b.score [] c ≠ 100 := fun c hc => by
    rw [hs c (openCols_cols hc)]
    split <;> decide
  have := hf b [] hb .start not_over_nil h100 0 (by unfold Open; decide) 301 (by
    rw [ho]; simp [hk, h3, counts])
  have key : ∀ r, pick b [] r = .move ⟨height [] 0, 0⟩ ↔ r % 300 < 50 := fun r => by
    rw [C96_exact hb .start h100 (sum := 300) (by rw [ho]; simp [hk, h3, counts]) (by decide) r (pre := []) (post := [1, 2, 3, 4, 5, 6]) ho]
    rw [hk 0 (by decide)]
    simp [counts]
    omega
  simp only [key, hk 0 (by decide)] at this
  revert this
  decide +kernel

/-- A case of `C96_exact` and `C96_fair_partial`: after one lost game. -/
example : ∃ b, Learnt b ∧ (∀ c ∈ openCols [], b.score [] c ≠ 100 ∧ b.score [] c ≠ 1) ∧ ((349 : Nat) : Int) = ((openCols []).map fun c => counts (b.score [] c)).sum := by
  obtain ⟨b, hb, h3, hk⟩ := learns_first 1
  have h3 : b.score [] 3 = 49 := h3
  refine ⟨b, hb, fun c _ => ?_, ?_⟩
  · by_cases e : c = 3
    · subst e; rw [h3]; decide
    · rw [hk c e]; decide
  · rw [show openCols [] = [0, 1, 2, 3, 4, 5, 6] by decide]
    simp [hk, h3, counts]

/-- A lost game of 28 moves. -/
def lateLoss : List Move := [⟨2, 2⟩, ⟨5, 1⟩, ⟨4, 1⟩, ⟨2, 6⟩, ⟨4, 3⟩, ⟨3, 3⟩, ⟨2, 5⟩, ⟨1, 5⟩, ⟨2, 3⟩, ⟨1, 6⟩, ⟨3, 1⟩, ⟨2, 1⟩, ⟨5, 4⟩, ⟨1, 2⟩, ⟨1, 3⟩, ⟨0, 6⟩, ⟨1, 0⟩, ⟨4, 4⟩, ⟨0, 0⟩,
  ⟨3, 4⟩, ⟨0, 5⟩, ⟨0, 3⟩, ⟨2, 4⟩, ⟨0, 2⟩, ⟨1, 1⟩, ⟨1, 4⟩, ⟨0, 4⟩, ⟨0, 1⟩]

/-- A case of `C95_learn`: a game lost late makes the moves of the loser more likely. -/
example : ∃ b, learn (fun _ => true) (boardOf lateLoss) pX lateLoss.reverse (fun _ => none) = some b ∧ b.score [] 1 = 51 := by
  obtain ⟨b, hl⟩ := C95_total (gain (boardOf lateLoss).winner pX (boardOf lateLoss).count) pX lateLoss.reverse Board.init (fun _ => none)
  refine ⟨b, hl, ?_⟩
  have hr : Reach lateLoss := reach_of_reachB (by decide +kernel)
  have hlost : HasFour lateLoss .o := ((rep_boardOf hr).winner .o).1 (by decide +kernel)
  have := (C95_learn hr (s := .x) hl .start 1).1 ⟨0, 1⟩ [] rfl ⟨lateLoss.dropLast, by decide⟩ (by decide) (fun _ _ => rfl)
  generalize b.score [] 1 = v at this ⊢
  cases this with
  | won h => exact absurd (((rep_boardOf hr).winner .x).2 h) (by decide +kernel)
  | drawn h => exact absurd hlost (h _)
  | lost _ => rfl

theorem one_win {b : Book} (hb : Learnt b) : ∃ b', Learnt b' ∧ b'.score [] 3 = max 1 (min 100 ((if b.score [] 3 = -1 then 50 else b.score [] 3) + 10)) := by
  have hr : Reach [⟨3, 3⟩, ⟨2, 4⟩, ⟨2, 3⟩, ⟨1, 4⟩, ⟨1, 3⟩, ⟨0, 4⟩, ⟨0, 3⟩] := reach_of_reachB (by decide +kernel)
  have hline : HasFour [⟨3, 3⟩, ⟨2, 4⟩, ⟨2, 3⟩, ⟨1, 4⟩, ⟨1, 3⟩, ⟨0, 4⟩, ⟨0, 3⟩] Side.x := ((rep_boardOf hr).winner .x).1 (by decide +kernel)
  obtain ⟨b', hl⟩ := C95_total (gain (boardOf [⟨3, 3⟩, ⟨2, 4⟩, ⟨2, 3⟩, ⟨1, 4⟩, ⟨1, 3⟩, ⟨0, 4⟩, ⟨0, 3⟩]).winner pX (boardOf [⟨3, 3⟩, ⟨2, 4⟩, ⟨2, 3⟩, ⟨1, 4⟩, ⟨1, 3⟩, ⟨0, 4⟩, ⟨0, 3⟩]).count) pX
    [⟨3, 3⟩, ⟨2, 4⟩, ⟨2, 3⟩, ⟨1, 4⟩, ⟨1, 3⟩, ⟨0, 4⟩, ⟨0, 3⟩].reverse Board.init b
  refine ⟨b', .game _ .x hb hr (.inl ⟨_, hline⟩) hl, ?_⟩
  have := (C95_learn hr (s := .x) hl .start 3).1 ⟨0, 3⟩ [] rfl ⟨[⟨3, 3⟩, ⟨2, 4⟩, ⟨2, 3⟩, ⟨1, 4⟩, ⟨1, 3⟩, ⟨0, 4⟩], rfl⟩ (by decide) (fun _ _ => rfl)
  generalize Book.score b' _ _ = v at this ⊢
  cases this with
  | won h => rfl
  | drawn h => exact absurd hline (h _)
  | lost h => exact absurd (((rep_boardOf hr).winner .o).2 h) (by decide +kernel)

/-- A case of `C96_best`: after five wins with the middle column. -/
example : ∃ b, Learnt b ∧ (openCols []).filter (fun c => decide (b.score [] c = 100)) ≠ [] := by
  obtain ⟨b1, h1, e1⟩ := one_win .new
  obtain ⟨b2, h2, e2⟩ := one_win h1
  obtain ⟨b3, h3, e3⟩ := one_win h2
  obtain ⟨b4, h4, e4⟩ := one_win h3
  obtain ⟨b5, h5, e5⟩ := one_win h4
  rw [show Book.score (fun _ => none) [] 3 = -1 from rfl] at e1
  rw [e1] at e2; rw [e2] at e3; rw [e3] at e4; rw [e4] at e5
  refine ⟨b5, h5, List.ne_nil_of_mem (List.mem_filter.2 ⟨show (3 : Int) ∈ openCols [] by decide, ?_⟩)⟩
  rw [e5]
  decide

end Abc.Connect4
