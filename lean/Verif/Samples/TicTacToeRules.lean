/-
Properties of the tic-tac-toe board: C39.

The rules are stated on the list of the moves made so far (newest first), with no reference to the
packed board: who owns a cell, which triples of cells are lines, when a game is over, which moves
are legal.
-/
import Verif.Samples.TicTacToe
import Mathlib.Tactic.ByContra
import Mathlib.Tactic.IntervalCases
import Mathlib.Data.List.Perm.Subperm

namespace Abc.TicTacToe

/-! ## The rules of the game -/

inductive Side where
  | x | o
deriving DecidableEq, Repr

def Side.other : Side → Side
  | .x => .o
  | .o => .x

/-- `x` moves first and the sides alternate. -/
def toMove (h : List Move) : Side := if h.length % 2 = 0 then .x else .o

/-- The side that played in cell `m` (newest move first). -/
def owner : List Move → Move → Option Side
  | [], _ => none
  | a :: h, m => if a = m then some (toMove h) else owner h m

def OnBoard (m : Move) : Prop := 0 ≤ m.row ∧ m.row < 3 ∧ 0 ≤ m.col ∧ m.col < 3

/-- The rows, the columns and the two diagonals. -/
def IsLine (a b c : Move) : Prop :=
  (∃ i : Int, 0 ≤ i ∧ i < 3 ∧ a = ⟨i, 0⟩ ∧ b = ⟨i, 1⟩ ∧ c = ⟨i, 2⟩) ∨
  (∃ i : Int, 0 ≤ i ∧ i < 3 ∧ a = ⟨0, i⟩ ∧ b = ⟨1, i⟩ ∧ c = ⟨2, i⟩) ∨
  (a = ⟨0, 0⟩ ∧ b = ⟨1, 1⟩ ∧ c = ⟨2, 2⟩) ∨
  (a = ⟨0, 2⟩ ∧ b = ⟨1, 1⟩ ∧ c = ⟨2, 0⟩)

def HasLine (h : List Move) (s : Side) : Prop :=
  ∃ a b c, IsLine a b c ∧ owner h a = some s ∧ owner h b = some s ∧ owner h c = some s

def Full (h : List Move) : Prop := ∀ m, OnBoard m → m ∈ h

def Over (h : List Move) : Prop := (∃ s, HasLine h s) ∨ Full h

def Legal (h : List Move) (m : Move) : Prop := OnBoard m ∧ m ∉ h ∧ ¬ Over h

/-- The move lists of legal games. -/
inductive Reach : List Move → Prop
  | start : Reach []
  | step {h m} : Reach h → Legal h m → Reach (m :: h)

/-- How the program writes a side: `player_id` (game.i.h 103-108). -/
def code : Option Side → Pid
  | none => 0
  | some .x => 2
  | some .o => 3

/-- Calls made on a board. -/
inductive Op where
  | accept (m : Move)
  | undo (m : Move)

/-- What the rules say about a sequence of calls: the moves standing afterwards and the values
returned.  `undo` is described for the last move standing and for moves outside the board. -/
inductive Played : List Op → List Move → List Bool → Prop
  | nil : Played [] [] []
  | accept {ops h r m} : Played ops h r → Legal h m →
      Played (ops ++ [.accept m]) (m :: h) (r ++ [true])
  | reject {ops h r m} : Played ops h r → ¬ Legal h m →
      Played (ops ++ [.accept m]) h (r ++ [false])
  | undo {ops h r m} : Played ops (m :: h) r → Played (ops ++ [.undo m]) h (r ++ [true])
  | undoOut {ops h r m} : Played ops h r → ¬ OnBoard m →
      Played (ops ++ [.undo m]) h (r ++ [false])

/-- The same calls on the program's board. -/
def step (b : Board) : Op → Board × Bool
  | .accept m => b.accept m
  | .undo m => b.undo m

def run : Board → List Op → Board × List Bool
  | b, [] => (b, [])
  | b, op :: ops =>
    let (b', ok) := step b op
    let (b'', oks) := run b' ops
    (b'', ok :: oks)

/-- What a caller can read off a board, compared with the moves standing. -/
structure Shows (b : Board) (h : List Move) : Prop where
  cell : ∀ m, OnBoard m → b.getMove m = code (owner h m)
  has : ∀ m s, OnBoard m → (b.hasMove (code (some s)) m = true ↔ owner h m = some s)
  over : b.over = true ↔ Over h
  winner : ∀ s, b.winner = code (some s) ↔ HasLine h s
  noWinner : b.winner = pNone ↔ ∀ s, ¬ HasLine h s
  turn : ¬ Over h → b.cur = code (some (toMove h))
  count : b.count = h.length

/-! ## Two-bit cells in a 32-bit word -/

theorem three_bit (i : Nat) : (3#32).getLsbD i = decide (i < 2) := by
  rcases Nat.lt_or_ge i 32 with h | h
  · revert i; decide
  · rw [BitVec.getLsbD_of_ge _ _ h]; symm; simp; omega
theorem bit_hi (p : BitVec 32) (hp : p &&& 3#32 = p) (i : Nat) (hi : 2 ≤ i) : p.getLsbD i = false := by
  rw [← hp, BitVec.getLsbD_and, three_bit]; simp; omega

/-- cell k of the packed state -/
def cellBits (s : BitVec 32) (k : Nat) : BitVec 32 := (s >>> (2 * k)) &&& 3#32

theorem cell_or_same (s p : BitVec 32) (hp : p &&& 3#32 = p) (k : Nat) (hk : k < 16)
    (h0 : cellBits s k = 0#32) : cellBits (s ||| p <<< (2 * k)) k = p := by
  apply BitVec.eq_of_getLsbD_eq
  intro i hi
  have h := congrArg (fun x => x.getLsbD i) h0
  unfold cellBits at *
  simp [three_bit] at h ⊢
  have hb := bit_hi p hp i
  rcases Nat.lt_or_ge i 2 with h2 | h2
  · have h3 : ¬ (2 * k + i < 2 * k) := by omega
    have h4 : 2 * k + i < 32 := by omega
    have h5 : ¬ 2 ≤ i := by omega
    simp [h4, h5] at h
    simp [h2, h4, h]
  · simp_all
theorem cell_or_other (s p : BitVec 32) (hp : p &&& 3#32 = p) (k j : Nat) (hk : k ≠ j) : cellBits (s ||| p <<< (2 * k)) j = cellBits s j := by
  apply BitVec.eq_of_getLsbD_eq
  intro i hi
  unfold cellBits at *
  simp [three_bit]
  rcases Nat.lt_or_ge i 2 with h2 | h2
  · have hb := bit_hi p hp (2 * j + i - 2 * k)
    by_cases h : 2 * j + i < 2 * k
    · simp [h]
    · have : 2 ≤ 2 * j + i - 2 * k := by omega
      simp [hb this]
  · simp [show ¬ i < 2 by omega]
theorem cell_clear_other (s : BitVec 32) (k j : Nat) (hk : k ≠ j) : cellBits (s &&& ~~~ (3#32 <<< (2 * k))) j = cellBits s j := by
  apply BitVec.eq_of_getLsbD_eq
  intro i hi
  unfold cellBits at *
  simp [three_bit]
  rcases Nat.lt_or_ge i 2 with h2 | h2
  · by_cases h : 2 * j + i < 32
    · have : 2 * j + i < 2 * k ∨ 2 ≤ 2 * j + i - 2 * k := by omega
      simp [h]; grind
    · simp [BitVec.getLsbD_of_ge s (2 * j + i) (by omega)]
  · simp [show ¬ i < 2 by omega]
theorem clear_or (s p : BitVec 32) (hp : p &&& 3#32 = p) (k : Nat) 
    (h0 : cellBits s k = 0#32) : (s ||| p <<< (2 * k)) &&& ~~~ (3#32 <<< (2 * k)) = s := by
  apply BitVec.eq_of_getLsbD_eq
  intro i hi
  unfold cellBits at *
  simp only [BitVec.getLsbD_and, BitVec.getLsbD_or, BitVec.getLsbD_not, BitVec.getLsbD_shiftLeft,
    three_bit]
  by_cases h : i < 2 * k
  · simp [h, hi]
  · have hb := bit_hi p hp (i - 2 * k)
    have h1 := congrArg (fun x => x.getLsbD (i - 2 * k)) h0
    simp only [BitVec.getLsbD_and, BitVec.getLsbD_ushiftRight, three_bit, BitVec.getLsbD_zero] at h1
    rw [show 2 * k + (i - 2 * k) = i by omega] at h1
    by_cases h2 : 2 ≤ i - 2 * k
    · rw [hb h2]
      simp [h, hi]
      omega
    · have : s.getLsbD i = false := by
        have h3 : decide (i - 2 * k < 2) = true := by simp; omega
        rw [h3] at h1; simpa using h1
      rw [this]
      simp [h, hi]
      omega
theorem has_iff (s p : BitVec 32) (hp : p &&& 3#32 = p) (k : Nat) (hk : k < 16) :
    (s &&& (3#32 <<< (2 * k)) = p <<< (2 * k)) ↔ cellBits s k = p := by
  constructor
  · intro h0
    apply BitVec.eq_of_getLsbD_eq
    intro i hi
    unfold cellBits at *
    have h := congrArg (fun x => x.getLsbD (2 * k + i)) h0
    have hb := bit_hi p hp i
    simp [three_bit] at h ⊢
    rcases Nat.lt_or_ge i 2 with h2 | h2
    · simp_all
      grind
    · simp_all
  · intro h0
    apply BitVec.eq_of_getLsbD_eq
    intro i hi
    unfold cellBits at *
    have h := congrArg (fun x => x.getLsbD (i - 2 * k)) h0
    have hb := bit_hi p hp (i - 2 * k)
    simp [three_bit] at h ⊢
    by_cases h3 : i < 2 * k
    · simp [h3]
    · rw [show 2 * k + (i - 2 * k) = i by omega] at h
      simp only [h3, hi, decide_true, decide_false, Bool.not_false, Bool.true_and]
      simpa using h

/-! ## The board as a record of the moves -/

def cellIx (m : Move) : Nat := (m.row * 3 + m.col).toNat

theorem shiftOf_eq {m : Move} (hm : OnBoard m) : shiftOf m = 2 * cellIx m := by
  obtain ⟨h1, h2, h3, h4⟩ := hm
  unfold shiftOf cellIx; omega

theorem cellIx_lt {m : Move} (hm : OnBoard m) : cellIx m < 16 := by
  obtain ⟨h1, h2, h3, h4⟩ := hm
  unfold cellIx; omega

theorem cellIx_inj {m m' : Move} (hm : OnBoard m) (hm' : OnBoard m') (h : cellIx m = cellIx m') :
    m = m' := by
  obtain ⟨h1, h2, h3, h4⟩ := hm
  obtain ⟨h5, h6, h7, h8⟩ := hm'
  cases m; cases m'
  simp only [cellIx] at *
  rw [Move.mk.injEq]; omega

theorem isValid_iff (m : Move) : m.isValid = true ↔ OnBoard m := by
  simp [Move.isValid, OnBoard, and_assoc]

theorem mem_cells {m : Move} (hm : OnBoard m) : m ∈ cells := by
  obtain ⟨h1, h2, h3, h4⟩ := hm
  obtain ⟨r, c⟩ := m
  simp only at *
  interval_cases r <;> interval_cases c <;> decide

theorem onBoard_cells {m : Move} (hm : m ∈ cells) : OnBoard m := by
  revert m; unfold OnBoard; decide

theorem Reach.onBoard {h : List Move} (hr : Reach h) : ∀ m ∈ h, OnBoard m := by
  induction hr with
  | start => simp
  | step _ hl ih =>
    intro m hm
    rcases List.mem_cons.1 hm with rfl | hm
    · exact hl.1
    · exact ih m hm

theorem Reach.nodup {h : List Move} (hr : Reach h) : h.Nodup := by
  induction hr with
  | start => simp
  | step _ hl ih => exact List.nodup_cons.2 ⟨hl.2.1, ih⟩

theorem Reach.length_le {h : List Move} (hr : Reach h) : h.length ≤ 9 :=
  (List.subperm_of_subset hr.nodup (fun m hm => mem_cells (hr.onBoard m hm))).length_le

theorem Reach.full_iff {h : List Move} (hr : Reach h) : Full h ↔ h.length = 9 := by
  have hs := List.subperm_of_subset hr.nodup (fun m hm => mem_cells (hr.onBoard m hm))
  constructor
  · intro hf
    have := (List.subperm_of_subset (l₁ := cells) (l₂ := h) (by decide)
      (fun m hm => hf m (onBoard_cells hm))).length_le
    have h9 := hr.length_le
    change 9 ≤ h.length at this
    omega
  · intro h9 m hm
    exact (hs.perm_of_length_le (by rw [h9]; decide)).mem_iff.2 (mem_cells hm)

theorem owner_none {h : List Move} {m : Move} : owner h m = none ↔ m ∉ h := by
  induction h with
  | nil => simp [owner]
  | cons a h ih =>
    unfold owner
    by_cases e : a = m
    · simp [e]
    · rw [if_neg e, ih]; simp [Ne.symm e]

theorem toMove_cons (m : Move) (h : List Move) : toMove (m :: h) = (toMove h).other := by
  unfold toMove
  rw [List.length_cons]
  rcases Nat.mod_two_eq_zero_or_one h.length with e | e
  · have e' : ¬ (h.length + 1) % 2 = 0 := by omega
    rw [if_pos e, if_neg e']; rfl
  · have e0 : ¬ h.length % 2 = 0 := by omega
    have e' : (h.length + 1) % 2 = 0 := by omega
    rw [if_neg e0, if_pos e']; rfl

theorem Side.other_other (s : Side) : s.other.other = s := by cases s <;> rfl
theorem Side.other_ne (s : Side) : s.other ≠ s := by cases s <;> decide
theorem Side.eq_other {s t : Side} (h : s ≠ t) : s = t.other := by
  cases s <;> cases t <;> first | rfl | exact absurd rfl h

theorem opponent_code (s : Side) : opponent (code (some s)) = code (some s.other) := by
  cases s <;> decide

theorem code_inj {a b : Option Side} (h : code a = code b) : a = b := by
  revert h
  rcases a with _ | a <;> rcases b with _ | b <;> try cases a
  all_goals try cases b
  all_goals decide

theorem code_mask (a : Option Side) :
    (code a).setWidth 32 &&& 3#32 = (code a).setWidth 32 := by
  rcases a with _ | a
  · decide
  · cases a <;> decide

theorem code_width (a : Option Side) : ((code a).setWidth 32).setWidth 8 = code a := by
  rcases a with _ | a
  · decide
  · cases a <;> decide

theorem code_wide_inj {a b : Option Side} (h : (code a).setWidth 32 = (code b).setWidth 32) :
    a = b := by
  apply code_inj
  have := congrArg (BitVec.setWidth 8) h
  rwa [code_width, code_width] at this

/-- The packed cells agree with the owners. -/
def Cells (s : BitVec 32) (h : List Move) : Prop :=
  ∀ m, OnBoard m → cellBits s (cellIx m) = (code (owner h m)).setWidth 32

theorem getMove_of {b : Board} {h : List Move} (hc : Cells b.state h) {m : Move}
    (hm : OnBoard m) : b.getMove m = code (owner h m) := by
  have := hc m hm
  unfold cellBits at this
  unfold Board.getMove Board.shiftDown
  rw [shiftOf_eq hm]
  change ((b.state >>> (2 * cellIx m)) &&& 3#32).setWidth 8 = _
  rw [this, code_width]

theorem hasMove_of {b : Board} {h : List Move} (hc : Cells b.state h) {m : Move}
    (hm : OnBoard m) (s : Side) :
    b.hasMove (code (some s)) m = true ↔ owner h m = some s := by
  unfold Board.hasMove shiftUp
  rw [shiftOf_eq hm, beq_iff_eq]
  change b.state &&& (3#32 <<< (2 * cellIx m)) = _ ↔ _
  rw [has_iff _ _ (code_mask _) _ (cellIx_lt hm), hc m hm]
  exact ⟨code_wide_inj, fun e => by rw [e]⟩

theorem cells_set {b : Board} {h : List Move} (hc : Cells b.state h) {m : Move}
    (hm : OnBoard m) (hn : m ∉ h) (hcur : b.cur = code (some (toMove h))) :
    Cells (b.setMove m).state (m :: h) := by
  intro m' hm'
  have h0 : cellBits b.state (cellIx m) = 0#32 := by
    rw [hc m hm, owner_none.2 hn]; rfl
  change cellBits (b.state ||| shiftUp b.cur m) _ = _
  unfold shiftUp
  rw [shiftOf_eq hm, hcur]
  by_cases e : m = m'
  · subst e
    rw [cell_or_same _ _ (code_mask _) _ (cellIx_lt hm) h0]
    simp [owner]
  · rw [cell_or_other _ _ (code_mask _) _ _ (fun h => e (cellIx_inj hm hm' h)), hc m' hm']
    simp [owner, e]

theorem hasLine_iff (h : List Move) (s : Side) :
    HasLine h s ↔
      ((owner h ⟨0, 0⟩ = some s ∧ owner h ⟨0, 1⟩ = some s ∧ owner h ⟨0, 2⟩ = some s) ∨
       (owner h ⟨1, 0⟩ = some s ∧ owner h ⟨1, 1⟩ = some s ∧ owner h ⟨1, 2⟩ = some s) ∨
       (owner h ⟨2, 0⟩ = some s ∧ owner h ⟨2, 1⟩ = some s ∧ owner h ⟨2, 2⟩ = some s)) ∨
      ((owner h ⟨0, 0⟩ = some s ∧ owner h ⟨1, 0⟩ = some s ∧ owner h ⟨2, 0⟩ = some s) ∨
       (owner h ⟨0, 1⟩ = some s ∧ owner h ⟨1, 1⟩ = some s ∧ owner h ⟨2, 1⟩ = some s) ∨
       (owner h ⟨0, 2⟩ = some s ∧ owner h ⟨1, 2⟩ = some s ∧ owner h ⟨2, 2⟩ = some s)) ∨
      (owner h ⟨0, 0⟩ = some s ∧ owner h ⟨1, 1⟩ = some s ∧ owner h ⟨2, 2⟩ = some s) ∨
      (owner h ⟨0, 2⟩ = some s ∧ owner h ⟨1, 1⟩ = some s ∧ owner h ⟨2, 0⟩ = some s) := by
  constructor
  · rintro ⟨a, b, c, hl, ha, hb, hc⟩
    rcases hl with ⟨i, h0, h3, rfl, rfl, rfl⟩ | ⟨i, h0, h3, rfl, rfl, rfl⟩ | ⟨rfl, rfl, rfl⟩ |
      ⟨rfl, rfl, rfl⟩
    · interval_cases i <;> simp [ha, hb, hc]
    · interval_cases i <;> simp [ha, hb, hc]
    · simp [ha, hb, hc]
    · simp [ha, hb, hc]
  · rintro ((⟨ha, hb, hc⟩ | ⟨ha, hb, hc⟩ | ⟨ha, hb, hc⟩) | (⟨ha, hb, hc⟩ | ⟨ha, hb, hc⟩ | ⟨ha, hb, hc⟩) |
      ⟨ha, hb, hc⟩ | ⟨ha, hb, hc⟩)
    · exact ⟨_, _, _, .inl ⟨0, by decide, by decide, rfl, rfl, rfl⟩, ha, hb, hc⟩
    · exact ⟨_, _, _, .inl ⟨1, by decide, by decide, rfl, rfl, rfl⟩, ha, hb, hc⟩
    · exact ⟨_, _, _, .inl ⟨2, by decide, by decide, rfl, rfl, rfl⟩, ha, hb, hc⟩
    · exact ⟨_, _, _, .inr (.inl ⟨0, by decide, by decide, rfl, rfl, rfl⟩), ha, hb, hc⟩
    · exact ⟨_, _, _, .inr (.inl ⟨1, by decide, by decide, rfl, rfl, rfl⟩), ha, hb, hc⟩
    · exact ⟨_, _, _, .inr (.inl ⟨2, by decide, by decide, rfl, rfl, rfl⟩), ha, hb, hc⟩
    · exact ⟨_, _, _, .inr (.inr (.inl ⟨rfl, rfl, rfl⟩)), ha, hb, hc⟩
    · exact ⟨_, _, _, .inr (.inr (.inr ⟨rfl, rfl, rfl⟩)), ha, hb, hc⟩

theorem hasLine_other {h : List Move} {m : Move} {s : Side} (hs : s ≠ toMove h)
    (hl : HasLine (m :: h) s) : HasLine h s := by
  obtain ⟨a, b, c, hl, ha, hb, hc⟩ := hl
  have key : ∀ a, owner (m :: h) a = some s → owner h a = some s := by
    intro a ha
    unfold owner at ha
    by_cases e : m = a
    · rw [if_pos e] at ha
      exact absurd (Option.some.inj ha).symm hs
    · rwa [if_neg e] at ha
  exact ⟨a, b, c, hl, key a ha, key b hb, key c hc⟩

/-- Everything the board records about the standing moves `h`. -/
structure Rep (b : Board) (h : List Move) : Prop where
  reach : Reach h
  cells : Cells b.state h
  over : b.over = true ↔ Over h
  winner : ∀ s, b.winner = code (some s) ↔ HasLine h s
  noWinner : b.winner = pNone ↔ ∀ s, ¬ HasLine h s
  turn : b.over = false → b.cur = code (some (toMove h))
  last : b.over = true → b.cur = code (some (toMove h).other)
  count : b.count = h.length

theorem Rep.shows {b : Board} {h : List Move} (r : Rep b h) : Shows b h where
  cell _ hm := getMove_of r.cells hm
  has _ s hm := hasMove_of r.cells hm s
  over := r.over
  winner := r.winner
  noWinner := r.noWinner
  turn ho := r.turn (by
    rcases e : b.over with _ | _
    · rfl
    · exact absurd (r.over.1 e) ho)
  count := r.count

theorem hasLine_nil (s : Side) : ¬ HasLine [] s := by
  rintro ⟨a, b, c, _, ha, _⟩
  simp [owner] at ha

theorem not_over_nil : ¬ Over [] := by
  rintro (⟨s, hs⟩ | hf)
  · exact hasLine_nil s hs
  · have := hf ⟨0, 0⟩ (by unfold OnBoard; decide)
    simp at this

theorem rep_init : Rep Board.init [] where
  reach := .start
  cells m hm := by
    change ((0#32 >>> _) &&& 3#32) = _
    simp [owner, code]
  over := ⟨fun h => (by cases h), fun h => absurd h not_over_nil⟩
  winner s := ⟨fun h => by cases s <;> exact absurd h (by decide), fun h => absurd h (hasLine_nil s)⟩
  noWinner := ⟨fun _ => hasLine_nil, fun _ => rfl⟩
  turn _ := rfl
  last h := by cases h
  count := rfl

theorem has3_iff {b : Board} {h : List Move} {s : Side} (hc : Cells b.state h)
    (hcur : b.cur = code (some s)) {a₁ a₂ a₃ : Move} (h1 : OnBoard a₁) (h2 : OnBoard a₂)
    (h3 : OnBoard a₃) :
    b.has3 a₁ a₂ a₃ = true ↔ owner h a₁ = some s ∧ owner h a₂ = some s ∧ owner h a₃ = some s := by
  unfold Board.has3
  rw [hcur, Bool.and_eq_true, Bool.and_eq_true, hasMove_of hc h1, hasMove_of hc h2,
    hasMove_of hc h3, and_assoc]

open Classical in
theorem checkWinner_of {b : Board} {h : List Move} {s : Side} (hc : Cells b.state h)
    (hcur : b.cur = code (some s)) :
    b.checkWinner =
      if HasLine h s then { b with over := true, winner := b.cur }
      else if b.count = 9 then { b with over := true, winner := pNone } else b := by
  unfold Board.checkWinner
  have on : ∀ m ∈ TicTacToe.cells, OnBoard m := fun m hm => onBoard_cells hm
  have o00 := on ⟨0, 0⟩ (by decide)
  have o01 := on ⟨0, 1⟩ (by decide)
  have o02 := on ⟨0, 2⟩ (by decide)
  have o10 := on ⟨1, 0⟩ (by decide)
  have o11 := on ⟨1, 1⟩ (by decide)
  have o12 := on ⟨1, 2⟩ (by decide)
  have o20 := on ⟨2, 0⟩ (by decide)
  have o21 := on ⟨2, 1⟩ (by decide)
  have o22 := on ⟨2, 2⟩ (by decide)
  have hw := hasLine_iff h s
  simp only [← has3_iff hc hcur o00 o01 o02, ← has3_iff hc hcur o10 o11 o12,
    ← has3_iff hc hcur o20 o21 o22, ← has3_iff hc hcur o00 o10 o20, ← has3_iff hc hcur o01 o11 o21,
    ← has3_iff hc hcur o02 o12 o22, ← has3_iff hc hcur o00 o11 o22,
    ← has3_iff hc hcur o02 o11 o20] at hw
  have hw' : HasLine h s ↔
      (b.has3 ⟨0, 0⟩ ⟨0, 1⟩ ⟨0, 2⟩ || b.has3 ⟨1, 0⟩ ⟨1, 1⟩ ⟨1, 2⟩ || b.has3 ⟨2, 0⟩ ⟨2, 1⟩ ⟨2, 2⟩ ||
       (b.has3 ⟨0, 0⟩ ⟨1, 0⟩ ⟨2, 0⟩ || b.has3 ⟨0, 1⟩ ⟨1, 1⟩ ⟨2, 1⟩ || b.has3 ⟨0, 2⟩ ⟨1, 2⟩ ⟨2, 2⟩) ||
       (b.has3 ⟨0, 0⟩ ⟨1, 1⟩ ⟨2, 2⟩ || b.has3 ⟨0, 2⟩ ⟨1, 1⟩ ⟨2, 0⟩)) = true := by
    rw [hw]; simp only [Bool.or_eq_true, or_assoc]
  by_cases hl : HasLine h s
  · rw [if_pos hl, if_pos (hw'.1 hl)]
  · rw [if_neg hl, if_neg (fun e => hl (hw'.2 e))]
    by_cases h9 : b.count = 9
    · rw [if_pos h9, if_pos (by rw [h9]; rfl)]
    · rw [if_neg h9, if_neg (by intro e; exact h9 (by simpa using e))]

theorem accept_false {b : Board} {h : List Move} (r : Rep b h) {m : Move} (hl : ¬ Legal h m) :
    b.accept m = (b, false) := by
  unfold Board.accept
  by_cases hv : OnBoard m
  · rw [(isValid_iff m).2 hv, if_neg (by simp)]
    by_cases ho : b.over = true
    · rw [if_pos ho]
    · rw [if_neg ho]
      have hmem : m ∈ h := by
        by_contra hm
        exact hl ⟨hv, hm, fun h => ho (r.over.2 h)⟩
      rw [if_pos]
      rw [getMove_of r.cells hv, bne_iff_ne]
      intro e
      exact owner_none.1 (code_inj (b := none) e) hmem
  · rw [if_pos]
    simpa using fun e => hv ((isValid_iff m).1 e)

open Classical in
theorem accept_true {b : Board} {h : List Move} (r : Rep b h) {m : Move} (hl : Legal h m) :
    (b.accept m).2 = true ∧ Rep (b.accept m).1 (m :: h) ∧ ((b.accept m).1.undo m) = (b, true) := by
  obtain ⟨hv, hm, hno⟩ := hl
  have ho : b.over = false := by
    rcases e : b.over with _ | _
    · rfl
    · exact absurd (r.over.1 e) hno
  have hcur := r.turn ho
  have hcells := cells_set r.cells hv hm hcur
  have hno' : ∀ s, ¬ HasLine h s := fun s hs => hno (.inl ⟨s, hs⟩)
  have hwin : b.winner = pNone := r.noWinner.2 hno'
  have hreach : Reach (m :: h) := .step r.reach ⟨hv, hm, hno⟩
  have hcnt : (b.setMove m).count = ((m :: h).length : Nat) := by
    change b.count + 1 = _
    rw [r.count]; simp
  have hfull := hreach.full_iff
  have hacc : b.accept m =
      (if !((b.setMove m).checkWinner).over then ((b.setMove m).checkWinner).switch
        else (b.setMove m).checkWinner, true) := by
    unfold Board.accept
    rw [(isValid_iff m).2 hv, if_neg (by simp), ho, if_neg (by simp), if_neg]
    rw [getMove_of r.cells hv, owner_none.2 hm]
    decide
  have hclear : (b.setMove m).state &&& ~~~ shiftUp pMask m = b.state := by
    change (b.state ||| shiftUp b.cur m) &&& ~~~ shiftUp pMask m = _
    unfold shiftUp
    rw [shiftOf_eq hv, hcur]
    have h0 : cellBits b.state (cellIx m) = 0#32 := by
      rw [r.cells m hv, owner_none.2 hm]; rfl
    exact clear_or _ _ (code_mask _) _ h0
  have hcw := checkWinner_of hcells (b := b.setMove m) (s := toMove h) hcur
  have hvb : (!m.isValid) = false := by rw [(isValid_iff m).2 hv]; rfl
  have hback : ∀ b' : Board, b'.state = (b.setMove m).state → b'.count = b.count + 1 →
      (if !b'.over then b'.switch else b').cur = b.cur → b'.undo m = (b, true) := by
    intro b' h1 h2 h3
    unfold Board.undo
    rw [hvb, if_neg (by simp)]
    have e1 : (if !b'.over then b'.switch else b').state = b'.state := by split <;> rfl
    have e2 : (if !b'.over then b'.switch else b').count = b'.count := by split <;> rfl
    cases b
    simp only at *
    unfold Board.clearMove
    simp only [Prod.mk.injEq, Board.mk.injEq, and_true]
    refine ⟨ho.symm, hwin.symm, h3, ?_, ?_⟩
    · rw [e1, h1]; exact hclear
    · rw [e2, h2]; omega
  rw [hacc]
  by_cases hline : HasLine (m :: h) (toMove h)
  · rw [if_pos hline] at hcw
    rw [hcw]
    refine ⟨rfl, ?_, ?_⟩
    · refine ⟨hreach, hcells, ⟨fun _ => .inl ⟨_, hline⟩, fun _ => rfl⟩, ?_, ?_, ?_, ?_, hcnt⟩
      · intro s
        constructor
        · intro e
          have e' : code (some (toMove h)) = code (some s) := by rw [← hcur]; exact e
          have := Option.some.inj (code_inj e')
          exact this ▸ hline
        · intro hs
          by_cases e : s = toMove h
          · rw [e]; exact hcur
          · exact absurd (hasLine_other e hs) (hno' s)
      · constructor
        · intro e
          have e' : code (some (toMove h)) = code none := by rw [← hcur]; exact e
          cases code_inj e'
        · intro e; exact absurd hline (e _)
      · intro e; cases e
      · intro _
        rw [toMove_cons, Side.other_other]; exact hcur
    · apply hback
      · rfl
      · rfl
      · rfl
  · have hnone : ∀ s, ¬ HasLine (m :: h) s := by
      intro s hs
      by_cases e : s = toMove h
      · exact hline (e ▸ hs)
      · exact hno' s (hasLine_other e hs)
    rw [if_neg hline] at hcw
    by_cases h9 : (b.setMove m).count = 9
    · rw [if_pos h9] at hcw
      rw [hcw]
      have hf : Full (m :: h) := hfull.2 (by omega)
      refine ⟨rfl, ?_, ?_⟩
      · refine ⟨hreach, hcells, ⟨fun _ => .inr hf, fun _ => rfl⟩, ?_, ?_, ?_, ?_, hcnt⟩
        · intro s
          refine ⟨fun e => ?_, fun hs => absurd hs (hnone s)⟩
          have e' : pNone = code (some s) := e
          cases code_inj (a := none) e'
        · exact ⟨fun _ => hnone, fun _ => rfl⟩
        · intro e; cases e
        · intro _
          rw [toMove_cons, Side.other_other]; exact hcur
      · apply hback
        · rfl
        · rfl
        · rfl
    · rw [if_neg h9] at hcw
      rw [hcw]
      have ho' : (b.setMove m).over = false := ho
      rw [ho']
      have hnf : ¬ Full (m :: h) := fun e => h9 (by rw [hcnt, hfull.1 e]; rfl)
      have hnov : ¬ Over (m :: h) := by
        rintro (⟨s, hs⟩ | hf)
        · exact hnone s hs
        · exact hnf hf
      refine ⟨rfl, ?_, ?_⟩
      · refine ⟨hreach, hcells, ⟨fun e => ?_, fun e => absurd e hnov⟩, ?_, ?_, ?_, ?_, hcnt⟩
        · exact absurd (show (b.setMove m).over = true from e) (by rw [ho']; decide)
        · intro s
          constructor
          · intro e
            have e' : pNone = code (some s) := by rw [← hwin]; exact e
            cases code_inj (a := none) e'
          · intro hs; exact absurd hs (hnone s)
        · exact ⟨fun _ => hnone, fun _ => hwin⟩
        · intro _
          change opponent b.cur = _
          rw [hcur, opponent_code, toMove_cons]
        · intro e
          exact absurd (show (b.setMove m).over = true from e) (by rw [ho']; decide)
      · apply hback
        · rfl
        · rfl
        · have e : ((b.setMove m).switch).over = false := ho
          simp only [Bool.not_false, if_true]
          rw [e]
          change opponent (opponent b.cur) = b.cur
          rw [hcur, opponent_code, opponent_code, Side.other_other]

/-- The board that `h` produces is unique: it is the board after accepting the moves in order. -/
def boardOf : List Move → Board
  | [] => Board.init
  | m :: h => ((boardOf h).accept m).1

theorem rep_boardOf {h : List Move} (hr : Reach h) : Rep (boardOf h) h := by
  induction hr with
  | start => exact rep_init
  | step _ hl ih => exact (accept_true ih hl).2.1

theorem run_append (b : Board) (ops : List Op) (op : Op) :
    run b (ops ++ [op]) =
      ((step (run b ops).1 op).1, (run b ops).2 ++ [(step (run b ops).1 op).2]) := by
  induction ops generalizing b with
  | nil => simp [run]
  | cons o ops ih =>
    simp only [List.cons_append, run]
    rw [ih]

theorem played_board {ops : List Op} {h : List Move} {r : List Bool} (hp : Played ops h r) :
    Reach h ∧ run Board.init ops = (boardOf h, r) := by
  induction hp with
  | nil => exact ⟨.start, rfl⟩
  | @accept ops h r m _ hl ih =>
    refine ⟨.step ih.1 hl, ?_⟩
    rw [run_append, ih.2]
    simp only [step]
    rw [(accept_true (rep_boardOf ih.1) hl).1]
    rfl
  | @reject ops h r m _ hl ih =>
    refine ⟨ih.1, ?_⟩
    rw [run_append, ih.2]
    simp only [step]
    rw [accept_false (rep_boardOf ih.1) hl]
  | @undo ops h r m _ ih =>
    obtain ⟨hr, he⟩ := ih
    cases hr with
    | step hr hl =>
      refine ⟨hr, ?_⟩
      rw [run_append, he]
      simp only [step]
      rw [show boardOf (m :: h) = ((boardOf h).accept m).1 from rfl,
        (accept_true (rep_boardOf hr) hl).2.2]
  | @undoOut ops h r m _ hm ih =>
    refine ⟨ih.1, ?_⟩
    rw [run_append, ih.2]
    have : (!m.isValid) = true := by
      simpa using fun e => hm ((isValid_iff m).1 e)
    simp only [step, Board.undo]
    rw [if_pos this]

/-! ## C39 -/

/-- C39: whatever moves are submitted, the values returned are those of the rules (a move is
accepted exactly when it is on the board, on an empty cell and the game is not over), and the
board shows exactly the standing moves: owners, turn, end of the game and winner. -/
theorem C39_rules_partial {ops : List Op} {h : List Move} {r : List Bool} (hp : Played ops h r) :
    (run Board.init ops).2 = r ∧ Shows (run Board.init ops).1 h := by
  obtain ⟨hr, he⟩ := played_board hp
  rw [he]
  exact ⟨rfl, (rep_boardOf hr).shows⟩

/-- C39, undo: taking back the move just accepted gives the previous board, every field of it. -/
theorem C39_undo_partial {ops : List Op} {h : List Move} {r : List Bool} (hp : Played ops h r)
    (m : Move) (hm : ((run Board.init ops).1.accept m).2 = true) :
    (((run Board.init ops).1.accept m).1.undo m) = ((run Board.init ops).1, true) := by
  obtain ⟨hr, he⟩ := played_board hp
  rw [he] at hm ⊢
  by_cases hl : Legal h m
  · exact (accept_true (rep_boardOf hr) hl).2.2
  · rw [accept_false (rep_boardOf hr) hl] at hm; cases hm

/-- Every sequence of submitted moves, with undos of the move standing last, is covered by
`Played`. -/
theorem C39_total_partial {ops : List Op} {h : List Move} {r : List Bool} (hp : Played ops h r)
    (m : Move) : ∃ h' r', Played (ops ++ [.accept m]) h' r' := by
  by_cases hl : Legal h m
  · exact ⟨_, _, hp.accept hl⟩
  · exact ⟨_, _, hp.reject hl⟩

/-- C39 in full: every `undo_move` takes back the move standing last or changes nothing. -/
def C39Full : Prop :=
  ∀ (ops : List Op) (h : List Move) (r : List Bool), Played ops h r → ∀ m : Move,
    h.head? ≠ some m → (run Board.init ops).1.undo m = ((run Board.init ops).1, false)

/-- `undo_move` does not look at the cell.  Taking back a move nobody made is accepted, and the
board then still holds the disc of `x` while it says that no move has been made. -/
theorem C39_violated : ¬ C39Full := by
  intro hf
  have h0 : Legal [] ⟨0, 0⟩ := ⟨by unfold OnBoard; decide, by simp, not_over_nil⟩
  have := hf _ _ _ (Played.nil.accept h0) ⟨1, 1⟩ (by simp)
  revert this
  decide +kernel

theorem C39_violated_count :
    let b := ((Board.init.accept ⟨0, 0⟩).1.undo ⟨1, 1⟩).1
    b.count = 0 ∧ b.cur = pX ∧ b.getMove ⟨0, 0⟩ = pX := by
  decide +kernel

/-- A case: `x` completes the first column, after a refused move and an undone one. -/
example :
    run Board.init [.accept ⟨0, 0⟩, .accept ⟨0, 0⟩, .accept ⟨0, 1⟩, .undo ⟨0, 1⟩, .accept ⟨1, 1⟩,
      .accept ⟨1, 0⟩, .accept ⟨2, 2⟩, .accept ⟨2, 0⟩, .accept ⟨2, 1⟩] =
    (⟨true, pX, pX, 0x32382#32, 5⟩, [true, false, true, true, true, true, true, true, false]) := by
  decide +kernel

end Abc.TicTacToe
