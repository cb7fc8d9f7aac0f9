import Verif.Ascii.Props

/-!
# Character classes and case
-/

namespace Abc.Ascii

/-- Every byte is of exactly one of three kinds: a control character, printable, or not ASCII. -/
theorem kinds : ∀ c : Byte, [isControl c, isStdprint c, !isAscii c].count true = 1 := forall_byte (by decide +kernel)

/-- The two conversions undo each other on letters and leave everything else alone. -/
theorem cases_inverse : ∀ c : Byte, (isUpperalpha c = true → isLoweralpha (toLower c) = true ∧ toUpper (toLower c) = c) ∧
    (isLoweralpha c = true → isUpperalpha (toUpper c) = true ∧ toLower (toUpper c) = c) ∧ (isAlpha c = false → toUpper c = c ∧ toLower c = c) :=
  forall_byte (by decide +kernel)

/-- Letters are folded together by one conversion if and only if they are by the other. -/
theorem upper_lower (a b : Byte) : toUpper a = toUpper b ↔ toLower a = toLower b := by
  have h1 : ∀ c : Byte, toLower (toUpper c) = toLower c := forall_byte (by decide +kernel)
  have h2 : ∀ c : Byte, toUpper (toLower c) = toUpper c := forall_byte (by decide +kernel)
  constructor
  · intro h; rw [← h1 a, ← h1 b, h]
  · intro h; rw [← h2 a, ← h2 b, h]

/-- C04: two strings are equal up to case exactly when they are the same in capital letters. -/
theorem are_equal_capitals (m1 m2 : List Byte) (n : Nat) :
    areEqualIN (some m1) (some m2) n = areEqualN (some (m1.map toUpper)) (some (m2.map toUpper)) n := by
  simp only [areEqualIN, areEqualN, areEqual]
  have hz : ∀ c : Byte, toUpper c = 0 ↔ c = 0 := forall_byte (by decide +kernel)
  induction n generalizing m1 m2 with
  | zero => cases m1 <;> cases m2 <;> rfl
  | succ n ih =>
    cases m1 with
    | nil => cases m2 <;> rfl
    | cons a x =>
      cases m2 with
      | nil => rfl
      | cons b y =>
        rw [List.map_cons, List.map_cons, areEqualLoop_cons, areEqualLoop_cons, ih x y]
        have h : fold false a = fold false b ↔ fold true (toUpper a) = fold true (toUpper b) := by
          simp only [fold, if_true, Bool.false_eq_true, if_false, ← toLower_eq_lower]
          exact (upper_lower a b).symm
        simp only [h, hz]

example : areEqualIN (some [72, 105, 0, 1]) (some [104, 73, 0]) 9 = areEqualN (some [72, 73, 0, 1]) (some [72, 73, 0]) 9 :=
  are_equal_capitals [72, 105, 0, 1] [104, 73, 0] 9

end Abc.Ascii
