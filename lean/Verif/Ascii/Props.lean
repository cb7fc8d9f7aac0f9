import Verif.Ascii.Lemmas

/-!
# C04: string comparison helpers

Specification: the C string held by a block is the bytes before its first NUL; `lower` (file
`Lemmas`) is ASCII lower-casing.
-/

namespace Abc.Ascii

/-- The C string stored in a memory block. -/
def cstr (m : List Byte) : List Byte := m.takeWhile (· ≠ 0)

/-- How a byte is compared. -/
def fold (caseSensitive : Bool) (c : Byte) : Byte := if caseSensitive then c else lower c

theorem fold_zero (cs : Bool) (c : Byte) : fold cs c = 0 ↔ c = 0 := by
  cases cs
  · simp [fold, lower_zero]
  · simp [fold]

theorem areEqualLoop_cons (cs : Bool) (a b : Byte) (x y : List Byte) (n : Nat) :
    areEqualLoop cs (a :: x) (b :: y) (n + 1) =
      if fold cs a = fold cs b then (if a = 0 then some true else areEqualLoop cs x y n)
      else some false := by
  have hz : fold cs a = fold cs b → (a = 0 ↔ b = 0) := by
    intro h; rw [← fold_zero cs a, ← fold_zero cs b, h]
  have he : (if cs then a == b else toLower a == toLower b) = decide (fold cs a = fold cs b) := by
    cases cs <;> simp [fold, toLower_eq_lower, Bool.beq_eq_decide_eq]
  simp only [areEqualLoop]
  rw [he]
  by_cases h : fold cs a = fold cs b
  · have := hz h
    by_cases h0 : a = 0
    · have hb := this.1 h0; simp [h, h0, hb]
    · simp [h, h0]
  · simp [h]

/-- C04.  For any two NUL-terminated blocks (whatever follows the terminator) and any `max_chars`,
`are_equal` reads only inside the blocks and tells whether the C strings, cut to `max_chars`
characters, are equal (up to ASCII case when case-insensitive). -/
theorem are_equal_correct (cs : Bool) (m1 m2 : List Byte) (n : Nat) (h1 : (0 : Byte) ∈ m1)
    (h2 : (0 : Byte) ∈ m2) :
    areEqual (some m1) (some m2) cs n =
      some (decide (((cstr m1).take n).map (fold cs) = ((cstr m2).take n).map (fold cs))) := by
  simp only [areEqual]
  induction n generalizing m1 m2 with
  | zero => cases m1 <;> cases m2 <;> simp [areEqualLoop]
  | succ n ih =>
    cases m1 with
    | nil => simp at h1
    | cons a x =>
      cases m2 with
      | nil => simp at h2
      | cons b y =>
        rw [areEqualLoop_cons]
        by_cases h : fold cs a = fold cs b
        · by_cases ha : a = 0
          · have hb : b = 0 := by rw [← fold_zero cs b, ← h, fold_zero]; exact ha
            subst ha hb
            simp [cstr]
          · have hb : b ≠ 0 := by
              intro hb; apply ha; rw [← fold_zero cs a, h, fold_zero]; exact hb
            rw [if_pos h, if_neg ha, ih x y (by simpa [Ne.symm ha] using h1) (by simpa [Ne.symm hb] using h2)]
            simp [cstr, ha, hb, h]
        · rw [if_neg h]
          by_cases ha : a = 0 <;> by_cases hb : b = 0
          · subst ha hb; exact absurd rfl h
          · subst ha; simp [cstr, hb]
          · subst hb; simp [cstr, ha]
          · simp [cstr, ha, hb, h]

example : areEqual (some [72, 105, 0, 7]) (some [104, 73, 0]) false sizeMax = some true ∧
    areEqual (some [72, 105, 0, 7]) (some [104, 73, 0]) true sizeMax = some false ∧
    areEqual (some [72, 105, 0]) (some [72, 105, 33, 0]) true 2 = some true ∧
    areEqual (some [0xC9, 0]) (some [0xE9, 0]) false sizeMax = some false := by decide

/-- C04, null pointers: equal only to each other. -/
theorem are_equal_null (cs : Bool) (n : Nat) (m : List Byte) :
    areEqual none none cs n = some true ∧ areEqual none (some m) cs n = some false ∧
      areEqual (some m) none cs n = some false := ⟨rfl, rfl, rfl⟩

/-- C04, no read past the block also without a terminator, as long as `max_chars` is not larger
than either block (the use in `endpoint::is_file_request`). -/
theorem are_equal_n_safe (cs : Bool) (m1 m2 : List Byte) (n : Nat) (h1 : n ≤ m1.length)
    (h2 : n ≤ m2.length) : areEqual (some m1) (some m2) cs n ≠ none := by
  simp only [areEqual]
  induction n generalizing m1 m2 with
  | zero => cases m1 <;> cases m2 <;> simp [areEqualLoop]
  | succ n ih =>
    cases m1 with
    | nil => simp at h1
    | cons a x =>
      cases m2 with
      | nil => simp at h2
      | cons b y =>
        rw [areEqualLoop_cons]
        split
        · split
          · simp
          · exact ih x y (by simpa using h1) (by simpa using h2)
        · simp

example : areEqual (some [65, 66]) (some [97, 98, 99]) false 2 = some true := by decide

/-- C04: the unlimited comparisons are equality of the C strings, and up to case: an equivalence. -/
theorem are_equal_unlimited (m1 m2 : List Byte) (h1 : (0 : Byte) ∈ m1) (h2 : (0 : Byte) ∈ m2)
    (l1 : m1.length ≤ sizeMax) (l2 : m2.length ≤ sizeMax) :
    (areEqualC (some m1) (some m2) = some true ↔ cstr m1 = cstr m2) ∧
    (areEqualI (some m1) (some m2) = some true ↔ (cstr m1).map lower = (cstr m2).map lower) := by
  have hlen : ∀ m : List Byte, m.length ≤ sizeMax → (cstr m).take sizeMax = cstr m := by
    intro m hm
    apply List.take_of_length_le
    unfold cstr
    exact Nat.le_trans (List.Sublist.length_le (List.takeWhile_sublist _)) hm
  have hft : fold true = id := by funext c; simp [fold]
  have hff : fold false = lower := by funext c; simp [fold]
  constructor
  · rw [areEqualC, are_equal_correct true m1 m2 _ h1 h2, hlen m1 l1, hlen m2 l2, hft]; simp
  · rw [areEqualI, are_equal_correct false m1 m2 _ h1 h2, hlen m1 l1, hlen m2 l2, hff]; simp

example : (0 : Byte) ∈ [71, 101, 116, (0 : Byte)] ∧ [71, 101, 116, (0 : Byte)].length ≤ sizeMax := by decide

end Abc.Ascii
