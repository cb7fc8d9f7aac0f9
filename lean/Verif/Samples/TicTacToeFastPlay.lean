import Verif.Samples.TicTacToeFastProps

/-!
# The learning engine of tic-tac-toe in real play

The learning engine only learns from games against the searching engine (`samples/tictactoe/game.h` 577-582).  Here the map is one
that such games have produced.  The random numbers are any.
-/

namespace Abc.TicTacToe

/-- A game between the learning engine as `fast` and the searching engine (game.h 548-595): the moves so far, last move first, and the map. -/
inductive Match (fast : Side) (b : Book) : List Move → Book → Prop
  | start : Match fast b [] b
  | fast {h b' m} (rand : Nat) : Match fast b h b' → toMove h = fast → ¬ Over h →
      pick b' h rand = .move m → Legal h m → Match fast b (m :: h) (ensure (fun _ => true) b' (boardOf h).state).1
  | slow {h b' m} : Match fast b h b' → toMove h ≠ fast → ¬ Over h →
      (slowFind 10 (boardOf h) (code (some fast.other))).best = some m → Match fast b (m :: h) b'

/-- The map after any number of finished games. -/
inductive Career : Book → Prop
  | new : Career fun _ => none
  | game {fast b h b' b''} : Career b → Match fast b h b' → Over h →
      learn (fun _ => true) (boardOf h) (code (some fast)) h.reverse b' = some b'' → Career b''

theorem Match.engineGame {fast : Side} {b b' : Book} {h : List Move} (hm : Match fast b h b') : EngineGame fast.other h := by
  induction hm with
  | start => exact .start
  | fast _ _ ht _ _ hl ih => exact .opponent ih (by rw [ht]; cases fast <;> decide) hl
  | slow _ ht ho hb ih => exact .engine ih (by cases fast <;> cases e : toMove _ <;> simp_all [Side.other]) ho hb

theorem Match.reach {fast : Side} {b b' : Book} {h : List Move} (hm : Match fast b h b') : Reach h := (engineGame_safe hm.engineGame).1

theorem Match.learnt {fast : Side} {b b' : Book} {h : List Move} (hb : Learnt b) (hm : Match fast b h b') : Learnt b' := by
  induction hm with
  | start => exact hb
  | fast _ hm _ _ _ _ ih => exact .ask _ ih hm.reach
  | slow _ _ _ _ ih => exact ih

/-- Real play is a case of `Learnt`, so all theorems about `Learnt` maps hold. -/
theorem Career.learnt {b : Book} (hb : Career b) : Learnt b := by
  induction hb with
  | new => exact .new
  | game _ hm ho hl ih => exact .game _ _ (hm.learnt ih) hm.reach ho hl

/-- The learning engine never wins such a game: all it learns comes from draws and losses. -/
theorem C92_never_won {fast : Side} {b b' : Book} {h : List Move} (hm : Match fast b h b') : ¬ HasLine h fast := by
  have := (C40_whole_game hm.engineGame).2
  cases fast <;> exact this

/-! ## A way to the crash -/

/-- The score of a move after `n` lost games. -/
def lostScore (n : Nat) : Int := if n = 0 then -1 else max 1 (10 - (n : Int))

theorem newScore_lost (n : Nat) : newScore pO pX (lostScore n) = lostScore (n + 1) := by
  unfold newScore lostScore
  rw [if_neg (by decide), if_neg (by decide), if_neg (Nat.succ_ne_zero n)]
  split <;> split <;> push_cast <;> omega

/-- The scores of the four positions: `n` games, of which the last move was lower right, lower left, middle right in `i`, `j`, `k`. -/
def line0 (n : Nat) : Scores := Scores.put (fun _ => -1) (cellAt 0) (lostScore n)
def line1 (n : Nat) : Scores := Scores.put (fun _ => -1) (cellAt 1) (lostScore n)
def line2 (n : Nat) : Scores := Scores.put (fun _ => -1) (cellAt 7) (lostScore n)
def line3 (i j k : Nat) : Scores := Scores.put (Scores.put (Scores.put (fun _ => -1) (cellAt 8) (lostScore i)) (cellAt 6) (lostScore j)) (cellAt 5) (lostScore k)

def p0 : List Move := []
def p1 : List Move := [cellAt 4, cellAt 0]
def p2 : List Move := [cellAt 2, cellAt 1, cellAt 4, cellAt 0]
def p3 : List Move := [cellAt 3, cellAt 7, cellAt 2, cellAt 1, cellAt 4, cellAt 0]

def k0 : BitVec 32 := 0#32
def k1 : BitVec 32 := 770#32
def k2 : BitVec 32 := 826#32
def k3 : BitVec 32 := 33786#32

theorem key0 : (boardOf p0).state = k0 := by decide +kernel
theorem key1 : (boardOf p1).state = k1 := by decide +kernel
theorem key2 : (boardOf p2).state = k2 := by decide +kernel
theorem key3 : (boardOf p3).state = k3 := by decide +kernel

/-- The map after these games. -/
def book (n i j k : Nat) : Book := fun x =>
  if x = k3 then some (line3 i j k) else if x = k2 then some (line2 n) else if x = k1 then some (line1 n) else if x = k0 then some (line0 n) else none

theorem pick_eq {b : Book} {h : List Move} {k : BitVec 32} {s : Scores} (hk : (boardOf h).state = k) (hb : b k = some s) (rand : Nat) :
    pick b h rand = fastFind (boardOf h) (some s) rand ∧ (ensure (fun _ => true) b (boardOf h).state).1 = b := by
  unfold pick ensure
  rw [hk, hb]
  exact ⟨rfl, rfl⟩

theorem pick_new {b : Book} {h : List Move} {k : BitVec 32} (hk : (boardOf h).state = k) (hb : b k = none) (rand : Nat) :
    pick b h rand = fastFind (boardOf h) (some fun _ => -1) rand ∧ (ensure (fun _ => true) b (boardOf h).state).1 = b.set k fun _ => -1 := by
  unfold pick ensure
  rw [hk, hb]
  exact ⟨rfl, rfl⟩

theorem reply0 : (slowFind 10 (boardOf [cellAt 0]) pO).best = some (cellAt 4) := by decide +kernel
theorem reply1 : (slowFind 10 (boardOf (cellAt 1 :: p1)) pO).best = some (cellAt 2) := by decide +kernel
theorem reply2 : (slowFind 10 (boardOf (cellAt 7 :: p2)) pO).best = some (cellAt 3) := by decide +kernel

/-- The game goes on from the position `p3`. -/
theorem opening {b0 b1 b2 b3 : Book}
    (h0 : ∃ r, pick b0 p0 r = .move (cellAt 0)) (e0 : (ensure (fun _ => true) b0 (boardOf p0).state).1 = b1)
    (h1 : ∃ r, pick b1 p1 r = .move (cellAt 1)) (e1 : (ensure (fun _ => true) b1 (boardOf p1).state).1 = b2)
    (h2 : ∃ r, pick b2 p2 r = .move (cellAt 7)) (e2 : (ensure (fun _ => true) b2 (boardOf p2).state).1 = b3) : Match .x b0 p3 b3 := by
  obtain ⟨r0, h0⟩ := h0
  obtain ⟨r1, h1⟩ := h1
  obtain ⟨r2, h2⟩ := h2
  have reach {h : List Move} (hb : reachB h = true) : Reach h := reach_of_reachB hb
  have open_ {h : List Move} (hb : reachB h = true) (ho : (boardOf h).over = false) : ¬ Over h := not_over_of (reach hb) ho
  have legal {h : List Move} {m : Move} (hb : reachB (m :: h) = true) : Legal h m := by
    cases reach hb with
    | step _ hl => exact hl
  subst e0 e1 e2
  exact .slow (.fast r2 (.slow (.fast r1 (.slow (.fast r0 .start (by decide) (open_ (by decide) (by decide +kernel)) h0 (legal (by decide +kernel)))
    (by decide) (open_ (by decide +kernel) (by decide +kernel)) reply0) (by decide) (open_ (by decide +kernel) (by decide +kernel)) h1 (legal (by decide +kernel)))
    (by decide) (open_ (by decide +kernel) (by decide +kernel)) reply1) (by decide) (open_ (by decide +kernel) (by decide +kernel)) h2 (legal (by decide +kernel)))
    (by decide) (open_ (by decide +kernel) (by decide +kernel)) reply2

theorem book_keys (n i j k : Nat) : book n i j k k0 = some (line0 n) ∧ book n i j k k1 = some (line1 n) ∧ book n i j k k2 = some (line2 n) ∧ book n i j k k3 = some (line3 i j k) := by
  refine ⟨?_, ?_, ?_, ?_⟩ <;> rfl

theorem draws : ∀ n < 28, fastFind (boardOf p0) (some (line0 n)) 0 = .move (cellAt 0) ∧ fastFind (boardOf p1) (some (line1 n)) 0 = .move (cellAt 1) ∧
    fastFind (boardOf p2) (some (line2 n)) 30 = .move (cellAt 7) := by decide +kernel

theorem opening_later {n : Nat} (hn : n < 28) (i j k : Nat) : Match .x (book n i j k) p3 (book n i j k) := by
  obtain ⟨d0, d1, d2⟩ := draws n hn
  obtain ⟨b0, b1, b2, _⟩ := book_keys n i j k
  exact opening ⟨0, (pick_eq key0 b0 0).1.trans d0⟩ (pick_eq key0 b0 0).2 ⟨0, (pick_eq key1 b1 0).1.trans d1⟩ (pick_eq key1 b1 0).2
    ⟨30, (pick_eq key2 b2 30).1.trans d2⟩ (pick_eq key2 b2 30).2

theorem opening_first : Match .x (fun _ => none) p3 (((Book.set (fun _ => none) k0 fun _ => -1).set k1 fun _ => -1).set k2 fun _ => -1) := by
  obtain ⟨d0, d1, d2⟩ := draws 0 (by decide)
  have e0 : line0 0 = fun _ => -1 := by funext m; simp [line0, Scores.put, lostScore]
  have e1 : line1 0 = fun _ => -1 := by funext m; simp [line1, Scores.put, lostScore]
  have e2 : line2 0 = fun _ => -1 := by funext m; simp [line2, Scores.put, lostScore]
  rw [e0] at d0; rw [e1] at d1; rw [e2] at d2
  exact opening ⟨0, (pick_new key0 rfl 0).1.trans d0⟩ (pick_new key0 rfl 0).2 ⟨0, (pick_new key1 rfl 0).1.trans d1⟩ (pick_new key1 rfl 0).2
    ⟨30, (pick_new key2 rfl 30).1.trans d2⟩ (pick_new key2 rfl 30).2

theorem book_start : (((Book.set (fun _ => none) k0 fun _ => -1).set k1 fun _ => -1).set k2 fun _ => -1).set k3 (fun _ => -1) = book 0 0 0 0 := by
  funext x
  have e0 : line0 0 = fun _ => -1 := by funext m; simp [line0, Scores.put, lostScore]
  have e1 : line1 0 = fun _ => -1 := by funext m; simp [line1, Scores.put, lostScore]
  have e2 : line2 0 = fun _ => -1 := by funext m; simp [line2, Scores.put, lostScore]
  have e3 : line3 0 0 0 = fun _ => -1 := by funext m; simp [line3, Scores.put, lostScore]
  simp only [book, Book.set, e0, e1, e2, e3]

theorem learn_mine {room : BitVec 32 → Bool} {w me : Pid} {m : Move} {ms : List Move} {temp : Board} {b : Book} {k : BitVec 32} {s : Scores} (hc : (temp.cur == me) = true)
    (hk : temp.state = k) (hb : b k = some s) :
    learnFrom room w me (m :: ms) temp b = learnFrom room w me ms (temp.accept m).1 (b.set k (s.put m (newScore w me (s m)))) := by
  rw [learnFrom, if_pos hc, hk]
  unfold ensure
  rw [hb]

theorem learn_theirs {room : BitVec 32 → Bool} {w me : Pid} {m : Move} {ms : List Move} {temp : Board} {b : Book} (hc : (temp.cur == me) = false) :
    learnFrom room w me (m :: ms) temp b = learnFrom room w me ms (temp.accept m).1 b := by
  rw [learnFrom, if_neg (by simp [hc])]

/-- What is learnt from a lost game with this opening. -/
theorem learn_game (n i j k : Nat) (last reply : Move) (ht : ((boardOf (last :: p3)).cur == pX) = false) (hw : (boardOf (reply :: last :: p3)).winner = pO) :
    learn (fun _ => true) (boardOf (reply :: last :: p3)) pX (reply :: last :: p3).reverse (book n i j k) =
      some ((book (n + 1) i j k).set k3 ((line3 i j k).put last (newScore pO pX (line3 i j k last)))) := by
  unfold learn
  rw [hw]
  show learnFrom _ pO pX [cellAt 0, cellAt 4, cellAt 1, cellAt 2, cellAt 7, cellAt 3, last, reply] _ _ = _
  obtain ⟨b0, b1, b2, b3⟩ := book_keys n i j k
  rw [learn_mine (k := k0) (s := line0 n), learn_theirs, learn_mine (k := k1) (s := line1 n), learn_theirs, learn_mine (k := k2) (s := line2 n), learn_theirs,
    learn_mine (k := k3) (s := line3 i j k), learn_theirs, learnFrom]
  · congr 1
    funext x
    have f0 : (line0 n).put (cellAt 0) (newScore pO pX (line0 n (cellAt 0))) = line0 (n + 1) := by
      have : line0 n (cellAt 0) = lostScore n := by simp [line0, Scores.put]
      rw [this, newScore_lost]
      funext m; simp only [line0, Scores.put]; split <;> rfl
    have f1 : (line1 n).put (cellAt 1) (newScore pO pX (line1 n (cellAt 1))) = line1 (n + 1) := by
      have : line1 n (cellAt 1) = lostScore n := by simp [line1, Scores.put]
      rw [this, newScore_lost]
      funext m; simp only [line1, Scores.put]; split <;> rfl
    have f2 : (line2 n).put (cellAt 7) (newScore pO pX (line2 n (cellAt 7))) = line2 (n + 1) := by
      have : line2 n (cellAt 7) = lostScore n := by simp [line2, Scores.put]
      rw [this, newScore_lost]
      funext m; simp only [line2, Scores.put]; split <;> rfl
    rw [f0, f1, f2]
    by_cases x3 : x = k3
    · simp [Book.set, x3]
    · by_cases x2 : x = k2
      · subst x2; rfl
      · by_cases x1 : x = k1
        · subst x1; rfl
        · by_cases x0 : x = k0
          · subst x0; rfl
          · simp [Book.set, book, x0, x1, x2, x3]
  all_goals first | rfl | decide +kernel | exact ht

theorem over_of {h : List Move} (hr : Reach h) (ho : (boardOf h).over = true) : Over h := by
  exact (rep_boardOf hr).over.1 ho

/-- One more game. -/
theorem one_more {b : Book} {n i j k : Nat} (hc : Career b) (hm : Match .x b p3 (book n i j k) ∨ (∃ b', Match .x b p3 b' ∧ b' k3 = none ∧ b'.set k3 (fun _ => -1) = book n i j k ∧ i = 0 ∧ j = 0 ∧ k = 0))
    (last reply : Move) (hl : ∃ r, fastFind (boardOf p3) (some (line3 i j k)) r = .move last) (hreply : (slowFind 10 (boardOf (last :: p3)) pO).best = some reply)
    (hr : reachB (reply :: last :: p3) = true) (ho : (boardOf (last :: p3)).over = false) (hx : (boardOf (reply :: last :: p3)).over = true)
    (ht : ((boardOf (last :: p3)).cur == pX) = false) (hw : (boardOf (reply :: last :: p3)).winner = pO) :
    Career ((book (n + 1) i j k).set k3 ((line3 i j k).put last (newScore pO pX (line3 i j k last)))) := by
  have hreach := reach_of_reachB hr
  have hreach' : Reach (last :: p3) := by cases hreach with | step h _ => exact h
  have hlegal : Legal p3 last := by cases hreach' with | step _ h => exact h
  obtain ⟨r, hl⟩ := hl
  have hm' : Match .x b (last :: p3) (book n i j k) := by
    rcases hm with hm | ⟨b', hm, hn, hs, rfl, rfl, rfl⟩
    · obtain ⟨_, _, _, b3⟩ := book_keys n i j k
      have := Match.fast r hm (by decide) hlegal.2.2 ((pick_eq key3 b3 r).1.trans hl) hlegal
      rwa [(pick_eq key3 b3 r).2] at this
    · have e3 : line3 0 0 0 = fun _ => -1 := by funext m; simp [line3, Scores.put, lostScore]
      rw [e3] at hl
      have := Match.fast r hm (by decide) hlegal.2.2 ((pick_new key3 hn r).1.trans hl) hlegal
      rwa [(pick_new key3 hn r).2, hs] at this
  exact .game hc (.slow hm' (by simp [toMove, p3]) (not_over_of hreach' ho) hreply) (over_of hreach hx) (learn_game n i j k last reply ht hw)

theorem last8 (n i j k : Nat) : (book (n + 1) i j k).set k3 ((line3 i j k).put (cellAt 8) (newScore pO pX (line3 i j k (cellAt 8)))) = book (n + 1) (i + 1) j k := by
  have e : line3 i j k (cellAt 8) = lostScore i := by simp [line3, Scores.put, cellAt]
  rw [e, newScore_lost]
  funext x
  by_cases x3 : x = k3
  · subst x3
    simp only [Book.set, book, if_true]
    congr 1
    funext m
    simp only [line3, Scores.put]
    by_cases m8 : m = cellAt 8
    · subst m8; simp [cellAt]
    · simp [m8]
  · simp [Book.set, book, x3]

theorem last6 (n i j k : Nat) : (book (n + 1) i j k).set k3 ((line3 i j k).put (cellAt 6) (newScore pO pX (line3 i j k (cellAt 6)))) = book (n + 1) i (j + 1) k := by
  have e : line3 i j k (cellAt 6) = lostScore j := by simp [line3, Scores.put, cellAt]
  rw [e, newScore_lost]
  funext x
  by_cases x3 : x = k3
  · subst x3
    simp only [Book.set, book, if_true]
    congr 1
    funext m
    simp only [line3, Scores.put]
    by_cases m8 : m = cellAt 6
    · subst m8; simp [cellAt]
    · simp [m8]
  · simp [Book.set, book, x3]

theorem last5 (n i j k : Nat) : (book (n + 1) i j k).set k3 ((line3 i j k).put (cellAt 5) (newScore pO pX (line3 i j k (cellAt 5)))) = book (n + 1) i j (k + 1) := by
  have e : line3 i j k (cellAt 5) = lostScore k := by simp [line3, Scores.put, cellAt]
  rw [e, newScore_lost]
  funext x
  by_cases x3 : x = k3
  · subst x3
    simp only [Book.set, book, if_true]
    congr 1
    funext m
    simp only [line3, Scores.put]
    by_cases m8 : m = cellAt 5
    · subst m8; simp [cellAt]
    · simp [m8]
  · simp [Book.set, book, x3]

theorem draws8 : ∀ i < 9, fastFind (boardOf p3) (some (line3 i 0 0)) 20 = .move (cellAt 8) := by decide +kernel
theorem draws6 : ∀ j < 9, fastFind (boardOf p3) (some (line3 9 j 0)) 10 = .move (cellAt 6) := by decide +kernel
theorem draws5 : ∀ k < 9, fastFind (boardOf p3) (some (line3 9 9 k)) 0 = .move (cellAt 5) := by decide +kernel

theorem career1 : Career (book 1 1 0 0) := by
  have := one_more (n := 0) (i := 0) (j := 0) (k := 0) .new (.inr ⟨_, opening_first, rfl, book_start, rfl, rfl, rfl⟩) (cellAt 8) (cellAt 5) ⟨20, draws8 0 (by decide)⟩
    (by decide +kernel) (by decide +kernel) (by decide +kernel) (by decide +kernel) (by decide +kernel) (by decide +kernel)
  rwa [last8] at this

theorem career8 : ∀ i, i < 9 → Career (book (i + 1) (i + 1) 0 0) := by
  intro i hi
  induction i with
  | zero => exact career1
  | succ i ih =>
    have := one_more (ih (by omega)) (.inl (opening_later (by omega) _ _ _)) (cellAt 8) (cellAt 5) ⟨20, draws8 (i + 1) hi⟩
      (by decide +kernel) (by decide +kernel) (by decide +kernel) (by decide +kernel) (by decide +kernel) (by decide +kernel)
    rwa [last8] at this

theorem career6 : ∀ j, j ≤ 9 → Career (book (9 + j) 9 j 0) := by
  intro j hj
  induction j with
  | zero => exact career8 8 (by decide)
  | succ j ih =>
    have := one_more (ih (by omega)) (.inl (opening_later (by omega) _ _ _)) (cellAt 6) (cellAt 5) ⟨10, draws6 j (by omega)⟩
      (by decide +kernel) (by decide +kernel) (by decide +kernel) (by decide +kernel) (by decide +kernel) (by decide +kernel)
    rwa [last6] at this

theorem career5 : ∀ k, k ≤ 9 → Career (book (18 + k) 9 9 k) := by
  intro k hk
  induction k with
  | zero => exact career6 9 (by decide)
  | succ k ih =>
    have := one_more (ih (by omega)) (.inl (opening_later (by omega) _ _ _)) (cellAt 5) (cellAt 6) ⟨0, draws5 k (by omega)⟩
      (by decide +kernel) (by decide +kernel) (by decide +kernel) (by decide +kernel) (by decide +kernel) (by decide +kernel)
    rwa [last5] at this

/-- C91 in full: in games against the searching engine, with room in the map, the learning engine always makes a legal move. -/
def C91Full : Prop :=
  ∀ (fast : Side) (b : Book) (h : List Move) (b' : Book) (rand : Nat), Career b → Match fast b h b' → ¬ Over h → toMove h = fast →
    ∃ m, Legal h m ∧ (fastMakeMove (fun _ => true) rand b' (boardOf h) (code (some fast))).2 = .done true (boardOf (m :: h))

/-- After 27 games, the process is stopped in the 28th, whatever the random number. -/
theorem C91_violated_division : ∃ b b', Career b ∧ Match .x b p3 b' ∧ ∀ rand, (fastMakeMove (fun _ => true) rand b' (boardOf p3) (code (some .x))).2 = .crash := by
  have hc : Career (book 27 9 9 9) := career5 9 (by decide)
  refine ⟨_, _, hc, opening_later (by decide) _ _ _, fun rand => ?_⟩
  have hr : Reach p3 := reach_of_reachB (by decide +kernel)
  have ho : ¬ Over p3 := not_over_of hr (by decide +kernel)
  refine (C91_exact hc.learnt hr ho (.inr rfl) rand).2.1 ?_ (by decide)
  intro m hl
  have hm := (legal_iff hr ho m).1 hl
  have : ∀ m ∈ cells.filter (isFree (boardOf p3)), line3 9 9 9 m = 1 := by decide +kernel
  unfold Book.score
  rw [key3, (book_keys 27 9 9 9).2.2.2]
  exact this m hm

theorem C91_violated : ¬ C91Full := by
  intro hf
  obtain ⟨b, b', h1, h2, h3⟩ := C91_violated_division
  obtain ⟨m, _, hm⟩ := hf .x b p3 b' 0 h1 h2 (not_over_of h2.reach (by decide +kernel)) (by decide)
  rw [h3] at hm
  cases hm

/-- C91, the part that holds: as long as some legal move has another score than 1.  Missing: the other positions, see `C91_exact`. -/
theorem C91_legal_partial {fast : Side} {b b' : Book} {h : List Move} (rand : Nat) (hc : Career b) (hm : Match fast b h b') (ho : ¬ Over h) (ht : toMove h = fast)
    (h1 : ∃ m, Legal h m ∧ b'.score h m ≠ 1) :
    ∃ m, Legal h m ∧ (fastMakeMove (fun _ => true) rand b' (boardOf h) (code (some fast))).2 = .done true (boardOf (m :: h)) := by
  subst ht
  exact (C91_exact (hm.learnt hc.learnt) hm.reach ho (.inr rfl) rand).1 h1

/-- A case: the first move of the first game. -/
example : Match .x (fun _ => none) [] (fun _ => none) ∧ Legal [] (cellAt 0) ∧ Book.score (fun _ => none) [] (cellAt 0) ≠ 1 :=
  ⟨.start, ⟨by unfold OnBoard; decide, by simp, not_over_nil⟩, by decide⟩

/-- C93 fails in real play: after nine games, the first cell counts 1 of 81, but 2 of the 81 random numbers pick it. -/
theorem C93_violated : ¬ C93Full Career := by
  intro hf
  have hc : Career (book 9 9 0 0) := career8 8 (by decide)
  have hl : Legal [] (cellAt 0) := ⟨by unfold OnBoard; decide, by simp, not_over_nil⟩
  have hs : ∀ m, (book 9 9 0 0).score [] m = line0 9 m := by
    intro m
    unfold Book.score
    rw [show (boardOf []).state = k0 from key0, (book_keys 9 9 0 0).1]
  have := hf _ [] hc .start not_over_nil (by simp only [hs]; decide +kernel) _ hl 81 (by simp only [hs]; decide +kernel)
  have hp : ∀ r, pick (book 9 9 0 0) [] r = fastFind (boardOf p0) (some (line0 9)) r := fun r => (pick_eq key0 (book_keys 9 9 0 0).1 r).1
  simp only [hs, hp] at this
  revert this
  decide +kernel

/-! ## Cases -/

/-- A case of `C92_range` and `C92_ask`: the map after 27 games; the last three moves have the score 1. -/
example : Learnt (book 27 9 9 9) ∧ (book 27 9 9 9).score p3 (cellAt 8) = 1 ∧ (book 27 9 9 9).score p3 (cellAt 0) = -1 :=
  ⟨(career5 9 (by decide)).learnt, by decide +kernel, by decide +kernel⟩

/-- A case of `C92_learn`: in the first game, the last move of X loses a point, and the same position reached in another order of moves
has the same score. -/
example : ∃ b', learn (fun _ => true) (boardOf (cellAt 5 :: cellAt 8 :: p3)) pX (cellAt 5 :: cellAt 8 :: p3).reverse (fun _ => none) = some b' ∧
    b'.score [cellAt 3, cellAt 0, cellAt 2, cellAt 7, cellAt 4, cellAt 1] (cellAt 8) = 9 := by
  obtain ⟨b', hb⟩ := C92_total (boardOf (cellAt 5 :: cellAt 8 :: p3)).winner pX (cellAt 5 :: cellAt 8 :: p3).reverse Board.init (fun _ => none)
  have hr : Reach (cellAt 5 :: cellAt 8 :: p3) := reach_of_reachB (by decide +kernel)
  have hr' : Reach [cellAt 3, cellAt 0, cellAt 2, cellAt 7, cellAt 4, cellAt 1] := reach_of_reachB (by decide +kernel)
  refine ⟨b', hb, ?_⟩
  have := (C92_learn hr (s := .x) hb hr' (cellAt 8)).1 p3 ⟨[cellAt 5], rfl⟩ (by decide)
    ((state_eq_iff hr' (reach_of_reachB (by decide +kernel))).1 (by decide +kernel))
  have hline : HasLine (cellAt 5 :: cellAt 8 :: p3) Side.o := ((rep_boardOf hr).shows.winner .o).1 (by decide +kernel)
  generalize Book.score b' _ _ = v at this ⊢
  cases this with
  | won h => exact absurd (((rep_boardOf hr).shows.winner .x).2 h) (by decide +kernel)
  | drawn h => exact absurd hline (h _)
  | lost _ => rfl

/-- A case of `C93_exact` and `C93_fair_partial`: eight games later, no score is 1 or 20 on the empty board. -/
example : Learnt (book 8 8 0 0) ∧ (∀ m ∈ legalMoves [], (book 8 8 0 0).score [] m ≠ 20 ∧ (book 8 8 0 0).score [] m ≠ 1) ∧
    ((82 : Nat) : Int) = ((legalMoves []).map fun m => counts ((book 8 8 0 0).score [] m)).sum :=
  ⟨(career8 7 (by decide)).learnt, by decide +kernel, by decide +kernel⟩

theorem one_win {b : Book} (hb : Learnt b) : ∃ b', Learnt b' ∧ b'.score [] (cellAt 0) = min 20 ((if b.score [] (cellAt 0) = -1 then 10 else b.score [] (cellAt 0)) + 3) := by
  have hr : Reach [cellAt 2, cellAt 4, cellAt 1, cellAt 3, cellAt 0] := reach_of_reachB (by decide +kernel)
  obtain ⟨b', hl⟩ := C92_total (boardOf [cellAt 2, cellAt 4, cellAt 1, cellAt 3, cellAt 0]).winner pX [cellAt 2, cellAt 4, cellAt 1, cellAt 3, cellAt 0].reverse Board.init b
  refine ⟨b', .game _ .x hb hr (over_of hr (by decide +kernel)) hl, ?_⟩
  have := (C92_learn hr (s := .x) hl .start (cellAt 0)).1 [] ⟨[cellAt 2, cellAt 4, cellAt 1, cellAt 3], rfl⟩ (by decide) (fun _ _ => rfl)
  have hline : HasLine [cellAt 2, cellAt 4, cellAt 1, cellAt 3, cellAt 0] Side.x := ((rep_boardOf hr).shows.winner .x).1 (by decide +kernel)
  generalize Book.score b' _ _ = v at this ⊢
  cases this with
  | won h => rfl
  | drawn h => exact absurd hline (h _)
  | lost h => exact absurd (((rep_boardOf hr).shows.winner .o).2 h) (by decide +kernel)

/-- A case of `C93_best`: after four wins with the first cell, that move has the highest score. -/
example : ∃ b, Learnt b ∧ (legalMoves []).filter (fun m => decide (b.score [] m = 20)) ≠ [] := by
  obtain ⟨b1, h1, e1⟩ := one_win .new
  obtain ⟨b2, h2, e2⟩ := one_win h1
  obtain ⟨b3, h3, e3⟩ := one_win h2
  obtain ⟨b4, h4, e4⟩ := one_win h3
  rw [show Book.score (fun _ => none) [] (cellAt 0) = -1 from rfl] at e1
  rw [e1] at e2; rw [e2] at e3; rw [e3] at e4
  refine ⟨b4, h4, List.ne_nil_of_mem (List.mem_filter.2 ⟨show cellAt 0 ∈ legalMoves [] by decide, ?_⟩)⟩
  rw [e4]
  decide

end Abc.TicTacToe
