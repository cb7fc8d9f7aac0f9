import Verif.Json.Short

/-!
# What the reader accepts

The converse of reading: when the tokens of a text were read and the stream is still good, the text was JSON, up to a few
liberties that `Lax` states: a comma before a closing bracket, unknown escapes, unescaped control characters, and numbers with
a plus sign, leading zeros or missing digits.
-/

namespace Abc.Json

open Abc.Ascii Abc.Stream Spec

namespace Lax

/-- The characters of a string: as in JSON, but any character may be escaped, control characters need not be, and only escapes of
characters below 256 are accepted. -/
inductive Chars : List Byte → Prop
  | nil : Chars []
  | plain {c : Byte} {w : List Byte} : Plain c → Chars w → Chars (c :: w)
  | escape {c : Byte} {w : List Byte} : c ≠ 117 → Chars w → Chars (92 :: c :: w)
  | unicode {a b : Byte} {w : List Byte} : Hexdig a → Hexdig b → Chars w → Chars (92 :: 117 :: 48 :: 48 :: a :: b :: w)

/-- An optional sign. -/
def Sign (w : List Byte) : Prop := w = [] ∨ w = [43] ∨ w = [45]

/-- Any digits. -/
def Digits (w : List Byte) : Prop := ∀ c ∈ w, Digit c

/-- A number: as in JSON, but with either sign, and digits may be missing or too many; at most 25 characters. -/
def Number (w : List Byte) : Prop :=
  ∃ s d f e, w = s ++ d ++ f ++ e ∧ Sign s ∧ Digits d ∧ s ++ d ≠ [] ∧ (f = [] ∨ ∃ x, f = 46 :: x ∧ Digits x) ∧
    (e = [] ∨ ∃ x t y, e = x :: (t ++ y) ∧ (x = 101 ∨ x = 69) ∧ Sign t ∧ Digits y) ∧ w.length ≤ 25

/-- The text of a scalar, and what it is. -/
inductive Scalar : List Byte → Item → Prop
  | null : Scalar [110, 117, 108, 108] .null
  | true : Scalar [116, 114, 117, 101] .boolean
  | false : Scalar [102, 97, 108, 115, 101] .boolean
  | number {w : List Byte} : Number w → Scalar w .number
  | string {w : List Byte} : Chars w → Scalar (34 :: (w ++ [34])) .string

/-- The comma after an element, or nothing after the last. -/
def comma (last : Bool) : List Byte := if last then [] else [44]

mutual
/-- A value and its tokens. -/
inductive Value : List Byte → List Item → Prop
  | scalar {w : List Byte} {i : Item} : Scalar w i → Value w [i]
  | array {last : Bool} {b w : List Byte} {is : List Item} : Elems last b is → Ws w → Value (91 :: (b ++ w ++ [93])) (.beginArray :: (is ++ [.endArray]))
  | object {last : Bool} {b w : List Byte} {is : List Item} : Members last b is → Ws w →
      Value (123 :: (b ++ w ++ [125])) (.beginObject :: (is ++ [.endObject]))
/-- Values with commas between them.  `last` says that there is no comma after the last, so that no other can follow. -/
inductive Elems : Bool → List Byte → List Item → Prop
  | nil : Elems false [] []
  | snoc {last : Bool} {b l v t : List Byte} {is iv : List Item} : Elems false b is → Ws l → Value v iv → Ws t →
      Elems last (b ++ (l ++ (v ++ (t ++ comma last)))) (is ++ iv)
/-- Names and values with commas between them. -/
inductive Members : Bool → List Byte → List Item → Prop
  | nil : Members false [] []
  | snoc {last : Bool} {b l1 n l2 l3 v t : List Byte} {is iv : List Item} : Members false b is → Ws l1 → Chars n → Ws l2 → Ws l3 → Value v iv → Ws t →
      Members last (b ++ (l1 ++ 34 :: (n ++ 34 :: (l2 ++ 58 :: (l3 ++ (v ++ (t ++ comma last))))))) (is ++ .property :: iv)
end

/-- Values one after the other. -/
inductive Values : List Byte → List Item → Prop
  | nil : Values [] []
  | snoc {b l v : List Byte} {is iv : List Item} : Values b is → Ws l → Value v iv → Values (b ++ (l ++ v)) (is ++ iv)

end Lax

/-! ## Streams that are still good -/

theorem good_peek {s : In} (h : s.peekS.good = true) : ∃ c r, s = In.ofList (c :: r) := by
  cases hg : s.good with
  | false => rw [In.peekS_notgood hg] at h; cases h
  | true =>
    rw [In.eq_ofList hg] at h ⊢
    cases hr : s.rest with
    | nil => rw [hr] at h; simp [In.good] at h
    | cons c r => exact ⟨c, r, rfl⟩

theorem good_get {s : In} (h : s.getS.good = true) : ∃ c r, s = In.ofList (c :: r) := by
  cases hg : s.good with
  | false => rw [In.getS_notgood hg] at h; cases h
  | true =>
    rw [In.eq_ofList hg] at h ⊢
    cases hr : s.rest with
    | nil => rw [hr] at h; exact absurd h (by decide)
    | cons c r => exact ⟨c, r, rfl⟩

theorem good_take {s : In} (h : s.peekS.getS.good = true) : ∃ c r, s = In.ofList (c :: r) ∧ s.peekS.getS = In.ofList r := by
  obtain ⟨c, r, h1⟩ := good_get h
  have hp : s.peekS.good = true := by rw [h1]; rfl
  obtain ⟨c', r', h2⟩ := good_peek hp
  exact ⟨c', r', h2, by rw [h2]; rfl⟩

theorem getChars_good {pred : Byte → Bool} {off size : Nat} (fuel : Nat) : ∀ (s : In) (mem : List Byte) (n : Nat) (g : Got),
    getCharsLoop valid pred off size fuel s mem n = .ok g → g.s.good = true →
    ∃ w c r, s = In.ofList (w ++ c :: r) ∧ g.s = In.ofList (c :: r) ∧ (∀ x ∈ w, pred x = true) ∧ pred c = false ∧ g.n = n + w.length ∧ w.length < fuel := by
  induction fuel with
  | zero => intro s mem n g h; simp [getCharsLoop] at h
  | succ f ih =>
    intro s mem n g h hg
    have hend : ∀ s' : In, getCharsEnd off s' mem n = .ok g → g.s = s' ∧ g.n = n := by
      intro s' h
      unfold getCharsEnd wr at h
      split at h
      · cases h; exact ⟨rfl, rfl⟩
      · cases h
    unfold getCharsLoop at h
    rw [peekCharV_valid, peekCharS_valid] at h
    split at h
    · split at h
      · rename_i hp
        split at h
        · rw [(hend _ h).1] at hg; simp at hg
        · unfold wr at h
          split at h
          · rw [Res.ok_bind] at h
            obtain ⟨w, c, r, h1, h2, h3, h4, h5, h9⟩ := ih _ _ _ _ h hg
            obtain ⟨a, r', h6, h7⟩ := good_take (s := s) (by rw [h1]; rfl)
            rw [h7] at h1
            have h8 : r' = w ++ c :: r := congrArg In.rest h1
            rw [h6, In.peekV_cons] at hp
            refine ⟨a :: w, c, r, by rw [h6, h8]; rfl, h2, ?_, h4, by rw [h5, List.length_cons]; omega, by rw [List.length_cons]; omega⟩
            intro x hx
            rcases List.mem_cons.1 hx with rfl | hx
            · exact hp
            · exact h3 x hx
          · cases h
      · rename_i hp
        obtain ⟨e1, e2⟩ := hend _ h
        rw [e1] at hg
        obtain ⟨c, r, h1⟩ := good_peek hg
        rw [h1, In.peekV_cons] at hp
        exact ⟨[], c, r, h1, by rw [e1, h1]; rfl, by simp, by simpa using hp, by rw [e2]; rfl, by simp⟩
    · rename_i hs
      rw [(hend _ h).1] at hg
      exact absurd hg hs

theorem skipChars_good {pred : Byte → Bool} (fuel : Nat) : ∀ (s : In) (n : Nat) (k : Skipped),
    skipCharsLoop valid pred fuel s n = .ok k → k.s.good = true →
    ∃ w c r, s = In.ofList (w ++ c :: r) ∧ k.s = In.ofList (c :: r) ∧ (∀ x ∈ w, pred x = true) ∧ pred c = false := by
  induction fuel with
  | zero => intro s n k h; simp [skipCharsLoop] at h
  | succ f ih =>
    intro s n k h hg
    unfold skipCharsLoop at h
    rw [peekCharV_valid, peekCharS_valid] at h
    split at h
    · split at h
      · rename_i hp
        obtain ⟨w, c, r, h1, h2, h3, h4⟩ := ih _ _ _ h hg
        obtain ⟨a, r', h6, h7⟩ := good_take (s := s) (by rw [h1]; rfl)
        rw [h7] at h1
        have h8 : r' = w ++ c :: r := congrArg In.rest h1
        rw [h6, In.peekV_cons] at hp
        refine ⟨a :: w, c, r, by rw [h6, h8]; rfl, h2, ?_, h4⟩
        intro x hx
        rcases List.mem_cons.1 hx with rfl | hx
        · exact hp
        · exact h3 x hx
      · rename_i hp
        cases h
        obtain ⟨c, r, h1⟩ := good_peek hg
        rw [h1, In.peekV_cons] at hp
        exact ⟨[], c, r, h1, by dsimp only; rw [h1]; rfl, by simp, by simpa using hp⟩
    · rename_i hs
      cases h
      exact absurd hg hs

theorem skipWs_good {fuel : Nat} {s : In} {k : Skipped} (h : skipChars fuel valid jsonIsSpace s = .ok k) (hg : k.s.good = true) :
    ∃ w c r, s = In.ofList (w ++ c :: r) ∧ k.s = In.ofList (c :: r) ∧ Ws w ∧ ¬ IsWs c := by
  obtain ⟨w, c, r, h1, h2, h3, h4⟩ := skipChars_good fuel s 0 k h hg
  exact ⟨w, c, r, h1, h2, fun x hx => (jsonIsSpace_iff x).1 (h3 x hx), fun hc => by rw [(jsonIsSpace_iff c).2 hc] at h4; cases h4⟩

/-! ## Strings -/

/-- An escape is a backslash and more; what is left is where the string goes on. -/
theorem escaped_good {fuel : Nat} {s : In} {e : Esc} (h : escaped fuel s = .ok e) (hg : e.s.good = true) :
    (∃ c r, s = In.ofList (92 :: c :: r) ∧ c ≠ 117 ∧ (e.s = In.ofList r ∨ (e.s = In.ofList (c :: r) ∧ c ≠ 34 ∧ c ≠ 92))) ∨
    ∃ a b r, s = In.ofList (92 :: 117 :: 48 :: 48 :: a :: b :: r) ∧ Hexdig a ∧ Hexdig b ∧ e.s = In.ofList r := by
  unfold escaped at h
  split at h
  swap
  · cases h; simp at hg
  rename_i hp
  dsimp only at h
  have key : ∀ c r, s.peekS.getS = In.ofList (c :: r) → s = In.ofList (92 :: c :: r) := by
    intro c r h1
    obtain ⟨a, r', h2, h3⟩ := good_take (s := s) (by rw [h1]; rfl)
    rw [h3] at h1
    have h4 : r' = c :: r := congrArg In.rest h1
    rw [h2, In.peekV_cons] at hp
    rw [h2, hp, h4]
  have take : ∀ x : Byte, (.ok ⟨s.peekS.getS.peekS.getS, x⟩ : Res Esc) = .ok e → s.peekS.getS.peekV ≠ 117 →
      ∃ c r, s = In.ofList (92 :: c :: r) ∧ c ≠ 117 ∧ (e.s = In.ofList r ∨ (e.s = In.ofList (c :: r) ∧ c ≠ 34 ∧ c ≠ 92)) := by
    intro x hx hc
    cases hx
    obtain ⟨c, r, h1, h2⟩ := good_take (s := s.peekS.getS) hg
    rw [h1, In.peekV_cons] at hc
    exact ⟨c, r, key c r h1, hc, .inl h2⟩
  split at h
  · rename_i hc
    exact .inl (take _ h (by rcases hc with hc | hc | hc <;> rw [hc] <;> decide))
  split at h
  · rename_i hc; exact .inl (take _ h (by rw [hc]; decide))
  split at h
  · rename_i hc; exact .inl (take _ h (by rw [hc]; decide))
  split at h
  · rename_i hc; exact .inl (take _ h (by rw [hc]; decide))
  split at h
  · rename_i hc; exact .inl (take _ h (by rw [hc]; decide))
  split at h
  · rename_i hc; exact .inl (take _ h (by rw [hc]; decide))
  split at h
  · rename_i hc
    right
    cases hx : getChars fuel valid isHex s.peekS.getS.peekS.getS [0, 0, 0, 0, 0] 0 5 with
    | ub => rw [hx] at h; cases h
    | running => rw [hx] at h; cases h
    | ok g =>
      rw [hx, Res.ok_bind] at h
      split at h
      · cases h; simp at hg
      · rename_i hn
        split at h
        · rename_i hz
          cases h
          obtain ⟨w, c, r, h1, h2, h3, h4, h5, h6⟩ := getChars_good fuel _ _ 0 g hx hg
          obtain ⟨u, r', h7, h8⟩ := good_take (s := s.peekS.getS) (by rw [h1]; rfl)
          rw [h8] at h1
          have h9 : r' = w ++ c :: r := congrArg In.rest h1
          rw [h7, In.peekV_cons] at hc
          have hw : w.length = 4 := by rw [Nat.zero_add] at h5; rw [← h5]; exact Decidable.of_not_not hn
          match w, hw with
          | [x, y, a, b], _ =>
            have := getChars_app (size := 5) (valid := valid) (pred := isHex) (a := []) (v := [0, 0, 0, 0, 0]) (by decide) (by decide) [x, y, a, b] (c :: r)
              (by rw [peekCharV_valid, In.peekV_cons]; exact h4) (fun c hc => ⟨rfl, h3 c hc⟩) fuel (by simp) h6 (by simp)
            rw [h8, h9] at hx
            simp only [List.nil_append, List.length_nil, List.cons_append] at this
            rw [show In.ofList ([x, y, a, b] ++ c :: r) = In.ofList (x :: y :: a :: b :: c :: r) from rfl, this] at hx
            cases hx
            simp only [List.getElem?_cons_zero, List.getElem?_cons_succ, Option.some.injEq] at hz
            refine ⟨a, b, c :: r, ?_, (isHex_iff a).1 (h3 a (by simp)), (isHex_iff b).1 (h3 b (by simp)), h2⟩
            rw [key u r' h7, hc, h9, hz.1, hz.2]
            rfl
        · cases h; simp at hg
  · rename_i h1 _ _ _ _ _ h2
    cases h
    obtain ⟨c, r, h3⟩ := good_peek hg
    rw [h3, In.peekV_cons] at h1 h2
    exact .inl ⟨c, r, key c r h3, h2, .inr ⟨by dsimp only; rw [h3]; rfl, fun hc => h1 (.inl hc), fun hc => h1 (.inr (.inl hc))⟩⟩

theorem chars_after {c : Byte} {w : List Byte} (h : Lax.Chars (c :: w)) (h1 : c ≠ 92) : Lax.Chars w := by
  cases h with
  | plain _ h => exact h
  | escape _ h => exact absurd rfl h1
  | unicode _ _ h => exact absurd rfl h1

theorem chars_run {w v : List Byte} (h : ∀ x ∈ w, jsonIsStringContent x = true) (hv : Lax.Chars v) : Lax.Chars (w ++ v) := by
  induction w with
  | nil => exact hv
  | cons c w ih => exact .plain ((content_iff c).1 (h c (by simp))) (ih fun x hx => h x (by simp [hx]))

/-- The step of both loops over the characters of a string: after a run of plain characters an escape, or the end. -/
theorem chars_escape {fuel : Nat} {s : In} {e : Esc} {x : Byte} {r : List Byte} (hs : s = In.ofList (x :: r)) (h : escaped fuel s.peekS = .ok e)
    {y : In} (ih : e.s.good = true ∧ ∃ w, e.s.rest = w ++ 34 :: y.rest ∧ Lax.Chars w) : ∃ w, s.rest = w ++ 34 :: y.rest ∧ Lax.Chars w := by
  obtain ⟨hg, w, h1, h2⟩ := ih
  have hp : s.peekS = s := by rw [hs]; rfl
  rw [hp] at h
  rcases escaped_good h hg with ⟨c, r', h3, h4, h5 | ⟨h5, h6, h7⟩⟩ | ⟨a, b, r', h3, h4, h5, h6⟩
  · rw [h5] at h1
    exact ⟨92 :: c :: w, by rw [h3]; simp only [In.ofList_rest] at h1 ⊢; rw [h1]; rfl, .escape h4 h2⟩
  · rw [h5] at h1
    simp only [In.ofList_rest] at h1
    cases w with
    | nil => cases h1; exact absurd rfl h6
    | cons d w =>
      obtain ⟨rfl, h8⟩ := List.cons.inj h1
      exact ⟨92 :: c :: w, by rw [h3]; simp only [In.ofList_rest]; rw [h8]; rfl, .escape h4 (chars_after h2 h7)⟩
  · rw [h6] at h1
    exact ⟨92 :: 117 :: 48 :: 48 :: a :: b :: w, by rw [h3]; simp only [In.ofList_rest] at h1 ⊢; rw [h1]; rfl, .unicode h4 h5 h2⟩

theorem strLoop_good {fuel size : Nat} (f : Nat) : ∀ (s : In) (mem : List Byte) (n : Nat) (g : Got), strLoop fuel size f s mem n = .ok g →
    g.s.good = true → s.good = true ∧ ∃ w, s.rest = w ++ 34 :: g.s.rest ∧ Lax.Chars w := by
  induction f with
  | zero => intro s mem n g h; simp [strLoop] at h
  | succ f ih =>
    intro s mem n g h hg
    rw [strLoop] at h
    cases hx : getChars fuel valid jsonIsStringContent s mem (8 + n) (sub64 size n) with
    | ub => rw [hx] at h; cases h
    | running => rw [hx] at h; cases h
    | ok x =>
      rw [hx, Res.ok_bind] at h
      have step : x.s.good = true → (∃ w, x.s.rest = w ++ 34 :: g.s.rest ∧ Lax.Chars w) → s.good = true ∧ ∃ w, s.rest = w ++ 34 :: g.s.rest ∧ Lax.Chars w := by
        rintro hxg ⟨w, h1, h2⟩
        obtain ⟨v, c, r, h3, h4, h5, _⟩ := getChars_good fuel _ _ 0 x hx hxg
        rw [h4] at h1
        refine ⟨by rw [h3]; rfl, v ++ w, ?_, chars_run h5 h2⟩
        rw [h3]
        simp only [In.ofList_rest] at h1 ⊢
        rw [h1, List.append_assoc]
      split at h
      · rename_i hq
        cases h
        obtain ⟨c, r, h1, h2⟩ := good_take hg
        refine step (by rw [h1]; rfl) ⟨[], ?_, .nil⟩
        rw [h1, In.peekV_cons] at hq
        dsimp only
        rw [h2, h1, hq]
        rfl
      · split at h
        · rename_i hb
          cases he : escaped fuel x.s.peekS with
          | ub => rw [he] at h; cases h
          | running => rw [he] at h; cases h
          | ok e =>
            rw [he, Res.ok_bind] at h
            unfold wr at h
            split at h
            · rw [Res.ok_bind] at h
              have h1 := ih _ _ _ _ h hg
              have hxg : x.s.good = true := by
                cases hc : x.s.good with
                | true => rfl
                | false => rw [In.peekV, hc, if_neg Bool.false_ne_true] at hb; exact absurd hb (by decide)
              rw [In.eq_ofList hxg] at hb
              cases hr : x.s.rest with
              | nil => rw [hr] at hb; exact absurd hb (by decide)
              | cons c r =>
                rw [hr, In.peekV_cons] at hb
                exact step hxg (chars_escape (by rw [In.eq_ofList hxg, hr]) he h1)
            · cases h
        · obtain ⟨h1, h2⟩ := ih _ _ _ _ h hg
          obtain ⟨c, r, h3⟩ := good_peek h1
          refine step (by rw [h3]; rfl) ?_
          rw [h3] at h2 ⊢
          exact h2

theorem skipStrLoop_good {fuel : Nat} (f : Nat) : ∀ (s : In) (n : Nat) (g : Skipped), skipStrLoop fuel f s n = .ok g →
    g.s.good = true → s.good = true ∧ ∃ w, s.rest = w ++ 34 :: g.s.rest ∧ Lax.Chars w := by
  induction f with
  | zero => intro s n g h; simp [skipStrLoop] at h
  | succ f ih =>
    intro s n g h hg
    rw [skipStrLoop] at h
    cases hx : skipChars fuel valid jsonIsStringContent s with
    | ub => rw [hx] at h; cases h
    | running => rw [hx] at h; cases h
    | ok x =>
      rw [hx, Res.ok_bind] at h
      have step : x.s.good = true → (∃ w, x.s.rest = w ++ 34 :: g.s.rest ∧ Lax.Chars w) → s.good = true ∧ ∃ w, s.rest = w ++ 34 :: g.s.rest ∧ Lax.Chars w := by
        rintro hxg ⟨w, h1, h2⟩
        obtain ⟨v, c, r, h3, h4, h5, _⟩ := skipChars_good fuel _ 0 x hx hxg
        rw [h4] at h1
        refine ⟨by rw [h3]; rfl, v ++ w, ?_, chars_run h5 h2⟩
        rw [h3]
        simp only [In.ofList_rest] at h1 ⊢
        rw [h1, List.append_assoc]
      split at h
      · rename_i hq
        cases h
        obtain ⟨c, r, h1, h2⟩ := good_take hg
        refine step (by rw [h1]; rfl) ⟨[], ?_, .nil⟩
        rw [h1, In.peekV_cons] at hq
        dsimp only
        rw [h2, h1, hq]
        rfl
      · split at h
        · rename_i hb
          cases he : escaped fuel x.s.peekS with
          | ub => rw [he] at h; cases h
          | running => rw [he] at h; cases h
          | ok e =>
            rw [he, Res.ok_bind] at h
            have h1 := ih _ _ _ h hg
            have hxg : x.s.good = true := by
              cases hc : x.s.good with
              | true => rfl
              | false => rw [In.peekV, hc, if_neg Bool.false_ne_true] at hb; exact absurd hb (by decide)
            rw [In.eq_ofList hxg] at hb
            cases hr : x.s.rest with
            | nil => rw [hr] at hb; exact absurd hb (by decide)
            | cons c r =>
              rw [hr, In.peekV_cons] at hb
              exact step hxg (chars_escape (by rw [In.eq_ofList hxg, hr]) he h1)
        · obtain ⟨h1, h2⟩ := ih _ _ _ h hg
          obtain ⟨c, r, h3⟩ := good_peek h1
          refine step (by rw [h3]; rfl) ?_
          rw [h3] at h2 ⊢
          exact h2

/-- A string that was read, with or without a buffer. -/
theorem tokString_good {fuel size : Nat} {r : List Byte} {buf : Option (List Byte)} {x : Got × Bool}
    (h : tokString fuel size (In.ofList (34 :: r)) buf = .ok x) (hg : x.1.s.good = true) :
    ∃ w, r = w ++ 34 :: x.1.s.rest ∧ Lax.Chars w := by
  cases buf with
  | none =>
    unfold tokString skipString at h
    rw [In.peekV_cons, if_pos rfl, In.peekS_cons, In.getS_cons] at h
    cases hk : skipStrLoop fuel fuel (In.ofList r) 0 with
    | ub => rw [hk] at h; cases h
    | running => rw [hk] at h; cases h
    | ok k =>
      rw [hk, Res.ok_bind] at h
      cases h
      exact (skipStrLoop_good fuel _ _ _ hk hg).2
  | some mem =>
    unfold tokString getString at h
    dsimp only at h
    rw [In.peekV_cons, if_pos rfl, In.peekS_cons, In.getS_cons] at h
    cases hk : strLoop fuel (sub64 size 2) fuel (In.ofList r) mem 0 with
    | ub => rw [hk] at h; cases h
    | running => rw [hk] at h; cases h
    | ok k =>
      rw [hk, Res.ok_bind] at h
      unfold wr at h
      split at h
      · rw [Res.ok_bind, Res.ok_bind] at h
        cases h
        exact (strLoop_good fuel _ _ _ _ hk hg).2
      · cases h

/-! ## Numbers and literals -/

theorem getLiteral_good (l : List Byte) : ∀ s : In, (getLiteral l s).good = true → s.good = true ∧ s.rest = l ++ (getLiteral l s).rest := by
  induction l with
  | nil => intro s h; exact ⟨h, rfl⟩
  | cons c l ih =>
    intro s h
    unfold getLiteral at h ⊢
    split at h
    · simp at h
    · rename_i hc
      rw [if_neg hc]
      obtain ⟨h1, h2⟩ := ih _ h
      have hs : ∃ d r, s = In.ofList (d :: r) ∧ s.getCharS valid = In.ofList r := by
        unfold In.getCharS at h1 ⊢
        rw [peekCharS_valid] at h1 ⊢
        by_cases hp : s.peekS.good = true
        · rw [if_pos hp] at h1 ⊢
          exact good_take h1
        · rw [if_neg hp] at h1
          exact absurd h1 hp
      obtain ⟨d, r, e1, e2⟩ := hs
      have hd : d = c := by rw [e1, In.peekV_cons] at hc; exact Decidable.of_not_not hc
      refine ⟨by rw [e1]; rfl, ?_⟩
      rw [e2] at h2 ⊢
      rw [e1, hd]
      simp only [In.ofList_rest] at h2 ⊢
      rw [List.cons_append, ← h2]

/-- `x` comes after `g`: the text `w` was taken and counted. -/
def Took (g x : Got) (w : List Byte) : Prop := g.s.good = true ∧ g.s.rest = w ++ x.s.rest ∧ x.n = g.n + w.length ∧ x.mem.length = g.mem.length

theorem getChars_length {pred : Byte → Bool} {off size : Nat} (fuel : Nat) : ∀ (s : In) (mem : List Byte) (n : Nat) (g : Got),
    getCharsLoop valid pred off size fuel s mem n = .ok g → g.mem.length = mem.length := by
  induction fuel with
  | zero => intro s mem n g h; simp [getCharsLoop] at h
  | succ f ih =>
    intro s mem n g h
    have hend : ∀ s' : In, getCharsEnd off s' mem n = .ok g → g.mem.length = mem.length := by
      intro s' h
      unfold getCharsEnd wr at h
      split at h
      · cases h; simp
      · cases h
    unfold getCharsLoop at h
    split at h
    · split at h
      · split at h
        · exact hend _ h
        · unfold wr at h
          split at h
          · rw [Res.ok_bind] at h
            rw [ih _ _ _ _ h, List.length_set]
          · cases h
      · exact hend _ h
    · exact hend _ h

theorem numDigits_good {fuel : Nat} {g x : Got} (h : numDigits fuel g = .ok x) (hg : x.s.good = true) :
    ∃ w, Took g x w ∧ Lax.Digits w ∧ isDigit x.s.peekV = false := by
  unfold numDigits at h
  cases hk : getChars fuel valid isDigit g.s g.mem g.n (sub64 26 g.n) with
  | ub => rw [hk] at h; cases h
  | running => rw [hk] at h; cases h
  | ok y =>
    rw [hk, Res.ok_bind] at h
    cases h
    obtain ⟨w, c, r, h1, h2, h3, h4, h5, _⟩ := getChars_good fuel _ _ 0 y hk hg
    refine ⟨w, ⟨by rw [h1]; rfl, ?_, by dsimp only; omega, getChars_length fuel _ _ 0 y hk⟩, fun c hc => (isDigit_iff c).1 (h3 c hc), by dsimp only; rw [h2]; exact h4⟩
    dsimp only
    rw [h1, h2]
    rfl

theorem take_took {g : Got} {mem : List Byte} {c : Byte} (h : g.s.peekS.getS.good = true) (hc : g.s.peekV = c) (hm : mem.length = g.mem.length) :
    Took g ⟨g.s.peekS.getS, mem, g.n + 1⟩ [c] := by
  obtain ⟨a, r, h1, h2⟩ := good_take h
  have ha : a = c := by rw [← hc, h1]; rfl
  refine ⟨by rw [h1]; rfl, ?_, rfl, hm⟩
  dsimp only
  rw [h2, h1, ha]
  rfl

theorem peek_took {g : Got} (h : g.s.peekS.good = true) : Took g ⟨g.s.peekS, g.mem, g.n⟩ [] := by
  obtain ⟨a, r, h1⟩ := good_peek h
  refine ⟨by rw [h1]; rfl, ?_, rfl, rfl⟩
  dsimp only
  rw [h1]
  rfl

theorem Took.trans {a b c : Got} {v w : List Byte} (h1 : Took a b v) (h2 : Took b c w) : Took a c (v ++ w) :=
  ⟨h1.1, by rw [h1.2.1, h2.2.1, List.append_assoc], by rw [h2.2.2.1, h1.2.2.1, List.length_append]; omega, by rw [h2.2.2.2, h1.2.2.2]⟩

theorem numSign_good {g x : Got} (h : numSign g = .ok x) (hg : x.s.good = true) :
    ∃ w, Took g x w ∧ Lax.Sign w ∧ (w = [] → ¬ (g.s.peekV = 43 ∨ g.s.peekV = 45)) := by
  unfold numSign at h
  split at h
  · rename_i hc
    unfold wr at h
    split at h
    · rw [Res.ok_bind] at h
      cases h
      refine ⟨[g.s.peekV], take_took hg rfl (by simp), ?_, by simp⟩
      rcases hc with hc | hc <;> rw [hc]
      · exact .inr (.inl rfl)
      · exact .inr (.inr rfl)
    · cases h
  · rename_i hc
    cases h
    exact ⟨[], peek_took hg, .inl rfl, fun _ => hc⟩

theorem numFrac_good {fuel : Nat} {g x : Got} (h : numFrac fuel g = .ok x) (hg : x.s.good = true) :
    ∃ w, Took g x w ∧ (w = [] ∨ ∃ d, w = 46 :: d ∧ Lax.Digits d) := by
  unfold numFrac at h
  split at h
  · rename_i hc
    unfold wr at h
    split at h
    · rw [Res.ok_bind] at h
      obtain ⟨d, h1, h2, _⟩ := numDigits_good h hg
      exact ⟨46 :: d, (take_took h1.1 hc (by simp)).trans h1, .inr ⟨d, rfl, h2⟩⟩
    · cases h
  · cases h
    exact ⟨[], peek_took hg, .inl rfl⟩

theorem numExp_good {fuel : Nat} {g x : Got} (h : numExp fuel g = .ok x) (hg : x.s.good = true) :
    ∃ w, Took g x w ∧ (w = [] ∨ ∃ c t y, w = c :: (t ++ y) ∧ (c = 101 ∨ c = 69) ∧ Lax.Sign t ∧ Lax.Digits y) := by
  unfold numExp at h
  split at h
  · rename_i hc
    unfold wr at h
    split at h
    · rw [Res.ok_bind] at h
      cases hs : numSign ⟨g.s.peekS.getS, g.mem.set g.n g.s.peekV, g.n + 1⟩ with
      | ub => rw [hs] at h; cases h
      | running => rw [hs] at h; cases h
      | ok y =>
        rw [hs, Res.ok_bind] at h
        obtain ⟨d, h1, h2, _⟩ := numDigits_good h hg
        obtain ⟨t, h3, h4, _⟩ := numSign_good hs h1.1
        exact ⟨g.s.peekV :: (t ++ d), (take_took h3.1 rfl (by simp)).trans (h3.trans h1), .inr ⟨_, t, d, rfl, hc, h4, h2⟩⟩
    · cases h
  · cases h
    exact ⟨[], peek_took hg, .inl rfl⟩

/-- A number that was read. -/
theorem getNumber_good {fuel : Nat} {s : In} {x : Got} (h : getNumber fuel s = .ok x) (hg : x.s.good = true) (hc : isDigit s.peekV = true ∨ s.peekV = 43 ∨ s.peekV = 45) :
    ∃ w, s.rest = w ++ x.s.rest ∧ Lax.Number w := by
  unfold getNumber at h
  cases ha : numSign ⟨s, List.replicate 26 0, 0⟩ with
  | ub => rw [ha] at h; cases h
  | running => rw [ha] at h; cases h
  | ok a =>
  rw [ha, Res.ok_bind] at h
  cases hb : numDigits fuel a with
  | ub => rw [hb] at h; cases h
  | running => rw [hb] at h; cases h
  | ok b =>
  rw [hb, Res.ok_bind] at h
  cases hf : numFrac fuel b with
  | ub => rw [hf] at h; cases h
  | running => rw [hf] at h; cases h
  | ok f =>
  rw [hf, Res.ok_bind] at h
  cases he : numExp fuel f with
  | ub => rw [he] at h; cases h
  | running => rw [he] at h; cases h
  | ok e =>
  rw [he, Res.ok_bind] at h
  unfold wr at h
  split at h
  swap
  · cases h
  rename_i hn
  rw [Res.ok_bind] at h
  cases h
  obtain ⟨w4, t4, k4⟩ := numExp_good he hg
  obtain ⟨w3, t3, k3⟩ := numFrac_good hf t4.1
  obtain ⟨w2, t2, k2, k5⟩ := numDigits_good hb t3.1
  obtain ⟨w1, t1, k1, k6⟩ := numSign_good ha t2.1
  have t := ((t1.trans t2).trans t3).trans t4
  have hl := t.2.2.1
  have hm := t.2.2.2
  rw [List.length_replicate] at hm
  refine ⟨_, t.2.1, w1, w2, w3, w4, rfl, k1, k2, ?_, k3, k4, by dsimp only at hl; omega⟩
  intro hnil
  obtain ⟨rfl, rfl⟩ := List.append_eq_nil_iff.1 hnil
  have h1 : s = b.s := by
    rw [In.eq_ofList (s := s) t1.1, In.eq_ofList t3.1, show s.rest = b.s.rest from (t1.trans t2).2.1]
  rw [← h1] at k5
  rcases hc with hc | hc
  · rw [k5] at hc; cases hc
  · exact k6 rfl hc

/-! ## Tokens -/

/-- A text after which a value is expected, inside of the brackets `ls` (the innermost first, an object is `true`). -/
inductive Open : List Bool → List Byte → List Item → Prop
  | top {T : List Byte} {I : List Item} : Lax.Values T I → Open [] T I
  | arr {ls : List Bool} {T l b : List Byte} {I ib : List Item} : Open ls T I → Ws l → Lax.Elems false b ib →
      Open (false :: ls) (T ++ (l ++ 91 :: b)) (I ++ .beginArray :: ib)
  | obj {ls : List Bool} {T l b l1 n l2 : List Byte} {I ib : List Item} : Open ls T I → Ws l → Lax.Members false b ib → Ws l1 → Lax.Chars n → Ws l2 →
      Open (true :: ls) (T ++ (l ++ 123 :: (b ++ (l1 ++ 34 :: (n ++ 34 :: (l2 ++ [58])))))) (I ++ .beginObject :: (ib ++ [.property]))

/-- What was read before: a value is expected, or an array ends, or a name or the end of an object is expected. -/
inductive At (rest : List Byte) : Bool → List Bool → List Byte → List Item → Prop
  | value {e : Bool} {ls : List Bool} {T : List Byte} {I : List Item} : Open ls T I → expectProperty e ls = false → At rest e ls T I
  | close {e : Bool} {ls : List Bool} {T l b : List Byte} {I ib : List Item} : Open ls T I → Ws l → Lax.Elems true b ib → rest.head? = some 93 →
      At rest e (false :: ls) (T ++ (l ++ 91 :: b)) (I ++ .beginArray :: ib)
  | name {last : Bool} {ls : List Bool} {T l b : List Byte} {I ib : List Item} : Open ls T I → Ws l → Lax.Members last b ib →
      (last = true → rest.head? = some 125) → At rest true (true :: ls) (T ++ (l ++ 123 :: b)) (I ++ .beginObject :: ib)

theorem place_top {rest T l v : List Byte} {I iv : List Item} (h : Open [] T I) (hl : Ws l) (hv : Lax.Value v iv) :
    At rest (setExpect [] true) [] (T ++ (l ++ v)) (I ++ iv) := by
  cases h with
  | top h => exact .value (.top (.snoc h hl hv)) rfl

theorem place {rest : List Byte} {ls : List Bool} {T l v t : List Byte} {I iv : List Item} {last : Bool} (h : Open ls T I) (hls : ls ≠ []) (hl : Ws l)
    (hv : Lax.Value v iv) (ht : Ws t) (hr : last = true → rest.head? = some (closer ls)) :
    At rest (setExpect ls true) ls (T ++ (l ++ (v ++ (t ++ Lax.comma last)))) (I ++ iv) := by
  cases h with
  | top h => exact absurd rfl hls
  | @arr ls T l0 b I ib h h0 hb =>
    have e := Lax.Elems.snoc (last := last) hb hl hv ht
    cases last with
    | false =>
      have := At.value (rest := rest) (e := setExpect (false :: ls) true) (.arr h h0 e) rfl
      simpa only [List.append_assoc, List.cons_append] using this
    | true =>
      have := At.close (rest := rest) (e := setExpect (false :: ls) true) h h0 e (hr rfl)
      simpa only [List.append_assoc, List.cons_append] using this
  | @obj ls T l0 b l1 n l2 I ib h h0 hb h1 hn h2 =>
    have e := Lax.Members.snoc (last := last) hb h1 hn h2 hl hv ht
    have := At.name (rest := rest) h h0 e hr
    rw [setExpect_obj]
    simpa only [List.append_assoc, List.cons_append, List.nil_append] using this

theorem trail_good {fuel : Nat} {p : Part} {s : In} (h : trailPart fuel p = .ok s) (hg : s.good = true) :
    p.s.good = true ∧ ((p.trail = false ∨ p.levels = []) ∧ s = p.s ∨
      p.levels ≠ [] ∧ ∃ t last, Ws t ∧ p.s.rest = t ++ Lax.comma last ++ s.rest ∧
        (last = true → s.rest.head? = some (if expectProperty p.expect p.levels then 125 else 93))) := by
  unfold trailPart at h
  split at h
  swap
  · rename_i hn
    cases h
    refine ⟨hg, .inl ⟨?_, rfl⟩⟩
    by_cases hl : p.levels = []
    · exact .inr hl
    · left
      cases ht : p.trail with
      | false => rfl
      | true => exact absurd ⟨ht, hl⟩ hn
  rename_i hn
  cases hk : skipChars fuel valid jsonIsSpace p.s with
  | ub => rw [hk] at h; cases h
  | running => rw [hk] at h; cases h
  | ok k =>
    rw [hk, Res.ok_bind] at h
    have key : ∀ c r, k.s = In.ofList (c :: r) → p.s.good = true ∧ ∃ t, Ws t ∧ p.s.rest = t ++ c :: r := by
      intro c r hc
      obtain ⟨w, d, r', h1, h2, h3, _⟩ := skipWs_good hk (by rw [hc]; rfl)
      rw [hc] at h2
      have h4 : c :: r = d :: r' := congrArg In.rest h2
      exact ⟨by rw [h1]; rfl, w, h3, by rw [h1, h4]; rfl⟩
    split at h
    · rename_i hc
      cases h
      obtain ⟨c, r, h1, h2⟩ := good_take hg
      rw [h1, In.peekV_cons] at hc
      obtain ⟨k1, t, k2, k3⟩ := key c r h1
      refine ⟨k1, .inr ⟨hn.2, t, false, k2, ?_, by simp⟩⟩
      rw [h2, k3, hc, Lax.comma, if_neg Bool.false_ne_true, List.append_assoc]
      rfl
    · have fin : ∀ x : Byte, (if k.s.peekV ≠ x then k.s.peekS.setBad else k.s.peekS) = s → p.s.good = true ∧ ∃ t, Ws t ∧ p.s.rest = t ++ s.rest ∧ s.rest.head? = some x := by
        intro x hx
        split at hx
        · rw [← hx] at hg; simp at hg
        · rename_i hxc
          rw [← hx] at hg
          obtain ⟨c, r, h1⟩ := good_peek hg
          obtain ⟨k1, t, k2, k3⟩ := key c r h1
          rw [← hx, h1]
          refine ⟨k1, t, k2, k3, ?_⟩
          rw [h1, In.peekV_cons] at hxc
          rw [Decidable.of_not_not hxc]
          rfl
      split at h
      · rename_i he
        cases h
        obtain ⟨k1, t, k2, k3, k4⟩ := fin 125 rfl
        exact ⟨k1, .inr ⟨hn.2, t, true, k2, by rw [k3, Lax.comma, if_pos rfl, List.append_nil], fun _ => by rw [if_pos he]; exact k4⟩⟩
      · rename_i he
        cases h
        obtain ⟨k1, t, k2, k3, k4⟩ := fin 93 rfl
        exact ⟨k1, .inr ⟨hn.2, t, true, k2, by rw [k3, Lax.comma, if_pos rfl, List.append_nil], fun _ => by rw [if_neg he]; exact k4⟩⟩

/-- After a value inside of `ls`. -/
theorem trail_place {fuel : Nat} {p : Part} {s : In} (h : trailPart fuel p = .ok s) (hg : s.good = true) (ht : p.trail = true) (he : p.expect = setExpect p.levels true)
    {T l v : List Byte} {I iv : List Item} (ho : Open p.levels T I) (hl : Ws l) (hv : Lax.Value v iv) :
    ∃ w, p.s.rest = w ++ s.rest ∧ At s.rest p.expect p.levels (T ++ (l ++ (v ++ w))) (I ++ iv) := by
  rw [he]
  obtain ⟨_, ⟨h1, h2⟩ | ⟨h1, t, last, h2, h3, h4⟩⟩ := trail_good h hg
  · rcases h1 with h1 | h1
    · rw [ht] at h1; cases h1
    · rw [h1] at ho ⊢
      exact ⟨[], by rw [h2]; rfl, by rw [List.append_nil]; exact place_top ho hl hv⟩
  · refine ⟨t ++ Lax.comma last, h3, place ho h1 hl hv h2 ?_⟩
    rw [he, expectProperty_setExpect] at h4
    exact h4

theorem peekS_bad {s : In} (h : ¬ s.peekS.good = true) : s.peekV = 255 := by
  cases hg : s.good with
  | false => rw [In.peekV, hg, if_neg Bool.false_ne_true]
  | true =>
    rw [In.eq_ofList hg] at h ⊢
    cases hr : s.rest with
    | nil => rfl
    | cons c r => rw [hr] at h; exact absurd rfl h

theorem propPart_bad {fuel size : Nat} {s : In} {st : Jr} {buf : Option (List Byte)} {p : Part} (h : propPart fuel size 255 s st buf = .ok p) : p.s.good = false := by
  unfold propPart at h
  rw [if_neg (by decide), if_neg (by decide)] at h
  cases h
  simp

theorem valuePart_bad {max : Nat} {atof : List Byte → List Byte} {fuel size : Nat} {s : In} {st : Jr} {buf : Option (List Byte)} {p : Part}
    (h : valuePart max atof fuel size 255 s st buf = .ok p) : p.s.good = false := by
  unfold valuePart at h
  rw [if_neg (by decide), if_neg (by decide), if_neg (by decide), if_neg (by decide), if_neg (by decide), if_neg (by decide), if_neg (by decide),
    if_neg (by decide)] at h
  cases h
  simp

/-- What a name, or the end of an object, adds to the text. -/
theorem prop_accept {fuel size : Nat} {st : Jr} {buf : Option (List Byte)} {p : Part} {s : In} {lead r T : List Byte} {I : List Item} {c : Byte}
    (hp : propPart fuel size c (In.ofList (c :: r)) st buf = .ok p) (ht : trailPart fuel p = .ok s) (hg : s.good = true) (hl : Ws lead)
    (he : expectProperty st.expect st.levels = true) (ha : At (lead ++ c :: r) st.expect st.levels T I) :
    ∃ w, lead ++ c :: r = w ++ s.rest ∧ w ≠ [] ∧ At s.rest p.expect p.levels (T ++ w) (I ++ [p.item]) := by
  obtain ⟨hpg, htr⟩ := trail_good ht hg
  obtain ⟨e, ls⟩ : ∃ e ls, e = st.expect ∧ ls = st.levels := ⟨_, _, rfl, rfl⟩
  generalize hE : st.expect = e at ha he
  generalize hL : st.levels = ls at ha he
  cases ha with
  | value _ h => rw [h] at he; cases he
  | close _ _ _ _ => simp [expectProperty, topObject] at he
  | @name last ls T l b I ib ho h0 hm hlast =>
    unfold propPart at hp
    rw [hL] at hp
    split at hp
    · rename_i hc
      subst hc
      cases hx : tokString fuel size (In.ofList (34 :: r)) buf with
      | ub => rw [hx] at hp; cases hp
      | running => rw [hx] at hp; cases hp
      | ok x =>
        rw [hx, Res.ok_bind] at hp
        split at hp
        swap
        · rename_i hb
          cases hp
          exact absurd hpg hb
        rename_i hb
        obtain ⟨n, h1, h2⟩ := tokString_good hx hb
        cases hk : skipChars fuel valid jsonIsSpace x.1.s with
        | ub => rw [hk] at hp; cases hp
        | running => rw [hk] at hp; cases hp
        | ok k =>
          rw [hk, Res.ok_bind] at hp
          cases hp
          dsimp only at hpg htr ⊢
          have hs : s = if k.s.peekV = 58 then k.s.peekS.getS else k.s.peekS.setBad := by
            unfold trailPart at ht
            rw [if_neg (by simp)] at ht
            cases ht
            rfl
          split at hs
          swap
          · rw [hs] at hg; simp at hg
          rename_i hcolon
          obtain ⟨d, r2, h3, h4⟩ := good_take (s := k.s) (by rw [← hs]; exact hg)
          rw [h3, In.peekV_cons] at hcolon
          obtain ⟨l2, d', r2', h5, h6, h7, _⟩ := skipWs_good hk (by rw [h3]; rfl)
          rw [h3] at h6
          have h8 : d :: r2 = d' :: r2' := congrArg In.rest h6
          have h9 : x.1.s.rest = l2 ++ 58 :: r2 := by rw [h5, ← h8, hcolon]; rfl
          have hf : last = false := by
            cases last with
            | false => rfl
            | true =>
              have := hlast rfl
              cases lead with
              | nil => simp at this
              | cons y lead =>
                simp only [List.cons_append, List.head?_cons, Option.some.injEq] at this
                have hy := hl y (by simp)
                rw [this] at hy
                exact absurd hy (by decide)
          subst hf
          refine ⟨lead ++ 34 :: (n ++ 34 :: (l2 ++ [58])), ?_, by simp, ?_⟩
          · rw [hs, h4, h1, h9]
            simp
          · have := At.value (rest := s.rest) (e := setExpect (true :: ls) false) (Open.obj ho h0 hm hl h2 h7) rfl
            simpa only [List.append_assoc, List.cons_append, List.nil_append] using this
    · split at hp
      · rename_i _ hc
        subst hc
        rw [show popLevel true (true :: ls) = some ls from rfl] at hp
        cases hp
        obtain ⟨w, h1, h2⟩ := trail_place ht hg rfl rfl (p := ⟨_, _, _, _, _, _, _⟩) ho h0 (Lax.Value.object hm hl)
        refine ⟨lead ++ 125 :: w, ?_, by simp, ?_⟩
        · rw [List.append_assoc, List.cons_append]
          congr 2
        · simpa only [List.append_assoc, List.cons_append, List.nil_append] using h2
      · cases hp
        simp at hpg

/-- What any other token adds to the text. -/
theorem value_accept {max : Nat} {atof : List Byte → List Byte} {fuel size : Nat} {st : Jr} {buf : Option (List Byte)} {p : Part} {s : In} {lead r T : List Byte}
    {I : List Item} {c : Byte}
    (hp : valuePart max atof fuel size c (In.ofList (c :: r)) st buf = .ok p) (ht : trailPart fuel p = .ok s) (hg : s.good = true) (hl : Ws lead)
    (he : expectProperty st.expect st.levels = false) (ha : At (lead ++ c :: r) st.expect st.levels T I) :
    ∃ w, lead ++ c :: r = w ++ s.rest ∧ w ≠ [] ∧ At s.rest p.expect p.levels (T ++ w) (I ++ [p.item]) := by
  obtain ⟨hpg, htr⟩ := trail_good ht hg
  have hopen : c ≠ 93 → Open st.levels T I := by
    intro hc
    generalize hE : st.expect = e at ha he
    generalize hL : st.levels = ls at ha he
    cases ha with
    | value h _ => exact h
    | name => simp [expectProperty, topObject] at he
    | close _ _ _ h =>
      cases lead with
      | nil => simp at h; exact absurd h hc
      | cons y lead =>
        simp only [List.cons_append, List.head?_cons, Option.some.injEq] at h
        have hy := hl y (by simp)
        rw [h] at hy
        exact absurd hy (by decide)
  have scalar : ∀ (v : List Byte) (i : Item), c ≠ 93 → p.trail = true → p.expect = setExpect st.levels true → p.levels = st.levels → p.item = i →
      Lax.Scalar v i → c :: r = v ++ p.s.rest → v ≠ [] →
      ∃ w, lead ++ c :: r = w ++ s.rest ∧ w ≠ [] ∧ At s.rest p.expect p.levels (T ++ w) (I ++ [p.item]) := by
    intro v i h1 h2 h3 h4 h5 h6 h7 h8
    have ho := hopen h1
    rw [← h4] at ho h3
    obtain ⟨w, k1, k2⟩ := trail_place ht hg h2 h3 ho hl (.scalar h6)
    refine ⟨lead ++ (v ++ w), by rw [h7, k1]; simp, by simp [h8], by rw [h5]; exact k2⟩
  unfold valuePart at hp
  dsimp only at hp
  split at hp
  · rename_i hc
    cases hp
    dsimp only at hpg
    have h1 := getLiteral_good _ _ hpg
    exact scalar [110, 117, 108, 108] .null (by rw [hc]; decide) rfl rfl rfl (by dsimp only; rw [if_pos hpg]) .null h1.2 (by simp)
  split at hp
  · rename_i hc
    split at hp
    · rename_i hlg
      have h1 := getLiteral_good _ _ hlg
      cases hb : bufBool 0 buf with
      | ub => rw [hb] at hp; cases hp
      | running => rw [hb] at hp; cases hp
      | ok b =>
        rw [hb, Res.ok_bind] at hp
        cases hp
        exact scalar [102, 97, 108, 115, 101] .boolean (by rw [hc]; decide) rfl rfl rfl rfl .false h1.2 (by simp)
    · rename_i hlg
      cases hp
      exact absurd hpg hlg
  split at hp
  · rename_i hc
    split at hp
    · rename_i hlg
      have h1 := getLiteral_good _ _ hlg
      cases hb : bufBool 1 buf with
      | ub => rw [hb] at hp; cases hp
      | running => rw [hb] at hp; cases hp
      | ok b =>
        rw [hb, Res.ok_bind] at hp
        cases hp
        exact scalar [116, 114, 117, 101] .boolean (by rw [hc]; decide) rfl rfl rfl rfl .true h1.2 (by simp)
    · rename_i hlg
      cases hp
      exact absurd hpg hlg
  split at hp
  · rename_i hc
    cases hn : getNumber fuel (In.ofList (c :: r)) with
    | ub => rw [hn] at hp; cases hp
    | running => rw [hn] at hp; cases hp
    | ok g =>
      rw [hn, Res.ok_bind] at hp
      cases hb : bufNumber atof g.mem buf with
      | ub => rw [hb] at hp; cases hp
      | running => rw [hb] at hp; cases hp
      | ok b =>
        rw [hb, Res.ok_bind] at hp
        cases hp
        obtain ⟨w, h1, h2⟩ := getNumber_good hn hpg hc
        refine scalar w .number ?_ rfl rfl rfl rfl (.number h2) h1 ?_
        · rintro rfl; revert hc; decide
        · rintro rfl
          obtain ⟨_, _, _, _, k1, _, _, k2, _⟩ := h2
          have := congrArg List.length k1
          simp only [List.length_append, List.length_nil] at this
          exact k2 (List.eq_nil_of_length_eq_zero (by rw [List.length_append]; omega))
  split at hp
  · rename_i hc
    subst hc
    cases hx : tokString fuel size (In.ofList (34 :: r)) buf with
    | ub => rw [hx] at hp; cases hp
    | running => rw [hx] at hp; cases hp
    | ok x =>
      rw [hx, Res.ok_bind] at hp
      cases hp
      dsimp only at hpg
      obtain ⟨n, h1, h2⟩ := tokString_good hx hpg
      exact scalar (34 :: (n ++ [34])) .string (by decide) rfl rfl rfl (by dsimp only; rw [if_pos hpg]) (.string h2) (by rw [h1]; simp) (by simp)
  have begins : ∀ (ls : List Bool) (o : Byte) (i : Item) (tr : Bool), c = o → o ≠ 93 →
      p = ⟨In.ofList r, setExpect ls true, ls, i, 2, buf, false⟩ → At r (setExpect ls true) ls (T ++ (lead ++ [o])) (I ++ [i]) →
      ∃ w, lead ++ c :: r = w ++ s.rest ∧ w ≠ [] ∧ At s.rest p.expect p.levels (T ++ w) (I ++ [p.item]) := by
    intro ls o i tr h1 h2 h3 h4
    have hs : s = In.ofList r := by
      rw [h3] at ht
      unfold trailPart at ht
      rw [if_neg (by simp)] at ht
      cases ht
      rfl
    rw [hs, h3, h1]
    exact ⟨lead ++ [o], by simp, by simp, h4⟩
  split at hp
  · rename_i hc
    have ho := hopen (by rw [hc]; decide)
    unfold levelPart at hp
    split at hp
    · rename_i ls hpush
      cases hp
      have : ls = false :: st.levels := by
        unfold pushLevel at hpush
        split at hpush
        · exact (Option.some.inj hpush).symm
        · cases hpush
      subst this
      exact begins _ 91 .beginArray false hc (by decide) rfl (.value (.arr ho hl .nil) rfl)
    · cases hp
      simp at hpg
  split at hp
  · rename_i hc
    unfold levelPart at hp
    split at hp
    · rename_i ls hpop
      cases hp
      have hls : st.levels = false :: ls := by
        generalize hL : st.levels = L at hpop
        cases L with
        | nil => cases hpop
        | cons x L =>
          cases x with
          | true => simp [popLevel] at hpop
          | false => simp only [popLevel, if_true, Option.some.injEq] at hpop; rw [hpop]
      have : ∃ T0 I0 l b ib last, Open ls T0 I0 ∧ Ws l ∧ Lax.Elems last b ib ∧ T = T0 ++ (l ++ 91 :: b) ∧ I = I0 ++ .beginArray :: ib := by
        rw [hls] at ha
        generalize hE : st.expect = e at ha
        cases ha with
        | value h _ =>
          cases h with
          | arr h h0 hb => exact ⟨_, _, _, _, _, _, h, h0, hb, rfl, rfl⟩
        | close h h0 hb _ => exact ⟨_, _, _, _, _, _, h, h0, hb, rfl, rfl⟩
      obtain ⟨T0, I0, l, b, ib, last, k1, k2, k3, k4, k5⟩ := this
      obtain ⟨w, h1, h2⟩ := trail_place ht hg rfl rfl (p := ⟨_, _, _, _, _, _, _⟩) k1 k2 (Lax.Value.array k3 hl)
      refine ⟨lead ++ 93 :: w, ?_, by simp, ?_⟩
      · rw [List.append_assoc, List.cons_append, hc]
        congr 2
      · rw [k4, k5]
        simpa only [List.append_assoc, List.cons_append, List.nil_append] using h2
    · cases hp
      simp at hpg
  split at hp
  · rename_i hc
    have ho := hopen (by rw [hc]; decide)
    unfold levelPart at hp
    split at hp
    · rename_i ls hpush
      cases hp
      have : ls = true :: st.levels := by
        unfold pushLevel at hpush
        split at hpush
        · exact (Option.some.inj hpush).symm
        · cases hpush
      subst this
      exact begins _ 123 .beginObject false hc (by decide) rfl (.name ho hl .nil (by simp))
    · cases hp
      simp at hpg
  · cases hp
    simp at hpg

/-- One token: if the stream is still good, the text was continued as it may be. -/
theorem readToken_accept {max : Nat} {atof : List Byte → List Byte} {fuel size : Nat} {st : Jr} {buf : Option (List Byte)} {t : Tok} {T : List Byte} {I : List Item}
    (h : readToken max atof fuel st buf size = .ok t) (hg : t.st.s.good = true) (ha : At st.s.rest st.expect st.levels T I) :
    ∃ w, st.s = In.ofList (w ++ t.st.s.rest) ∧ w ≠ [] ∧ At t.st.s.rest t.st.expect t.st.levels (T ++ w) (I ++ [t.item]) := by
  unfold readToken at h
  cases hk : skipChars fuel valid jsonIsSpace st.s with
  | ub => rw [hk] at h; cases h
  | running => rw [hk] at h; cases h
  | ok k =>
  rw [hk, Res.ok_bind] at h
  cases hp : (if expectProperty st.expect st.levels then propPart fuel size k.s.peekV k.s.peekS st buf
    else valuePart max atof fuel size k.s.peekV k.s.peekS st buf) with
  | ub => rw [hp] at h; cases h
  | running => rw [hp] at h; cases h
  | ok p =>
  rw [hp, Res.ok_bind] at h
  cases ht : trailPart fuel p with
  | ub => rw [ht] at h; cases h
  | running => rw [ht] at h; cases h
  | ok s =>
  rw [ht, Res.ok_bind] at h
  cases hb : bufItem p.item p.buf with
  | ub => rw [hb] at h; cases h
  | running => rw [hb] at h; cases h
  | ok b =>
  rw [hb, Res.ok_bind] at h
  cases h
  dsimp only at hg ⊢
  have hpg := (trail_good ht hg).1
  by_cases hgood : k.s.peekS.good = true
  swap
  · rw [peekS_bad hgood] at hp
    split at hp
    · rw [propPart_bad hp] at hpg; cases hpg
    · rw [valuePart_bad hp] at hpg; cases hpg
  obtain ⟨c, r, h1⟩ := good_peek hgood
  obtain ⟨lead, c', r', h2, h3, h4, _⟩ := skipWs_good hk (by rw [h1]; rfl)
  rw [h1] at h3
  have h5 : c :: r = c' :: r' := congrArg In.rest h3
  rw [← h5] at h2
  rw [h1, In.peekV_cons, In.peekS_cons] at hp
  rw [h2] at ha ⊢
  simp only [In.ofList_rest] at ha
  split at hp
  · rename_i he
    obtain ⟨w, k1, k2, k3⟩ := prop_accept hp ht hg h4 he ha
    exact ⟨w, by rw [k1], k2, k3⟩
  · rename_i he
    obtain ⟨w, k1, k2, k3⟩ := value_accept hp ht hg h4 (by simpa using he) ha
    exact ⟨w, by rw [k1], k2, k3⟩

/-! ## Whole texts -/

/-- A stream that has failed stays failed. -/
theorem readToken_sticky {max : Nat} {atof : List Byte → List Byte} {fuel size : Nat} {st : Jr} {buf : Option (List Byte)} {t : Tok}
    (h : readToken max atof fuel st buf size = .ok t) (hg : t.st.s.good = true) : st.s.good = true := by
  unfold readToken at h
  cases hk : skipChars fuel valid jsonIsSpace st.s with
  | ub => rw [hk] at h; cases h
  | running => rw [hk] at h; cases h
  | ok k =>
  rw [hk, Res.ok_bind] at h
  cases hp : (if expectProperty st.expect st.levels then propPart fuel size k.s.peekV k.s.peekS st buf
    else valuePart max atof fuel size k.s.peekV k.s.peekS st buf) with
  | ub => rw [hp] at h; cases h
  | running => rw [hp] at h; cases h
  | ok p =>
  rw [hp, Res.ok_bind] at h
  cases ht : trailPart fuel p with
  | ub => rw [ht] at h; cases h
  | running => rw [ht] at h; cases h
  | ok s =>
  rw [ht, Res.ok_bind] at h
  cases hb : bufItem p.item p.buf with
  | ub => rw [hb] at h; cases h
  | running => rw [hb] at h; cases h
  | ok b =>
  rw [hb, Res.ok_bind] at h
  cases h
  have hpg := (trail_good ht hg).1
  by_cases hgood : k.s.peekS.good = true
  swap
  · rw [peekS_bad hgood] at hp
    split at hp
    · rw [propPart_bad hp] at hpg; cases hpg
    · rw [valuePart_bad hp] at hpg; cases hpg
  obtain ⟨c, r, h1⟩ := good_peek hgood
  obtain ⟨lead, c', r', h2, _⟩ := skipWs_good hk (by rw [h1]; rfl)
  rw [h2]
  rfl

theorem skipLoop_sticky {max fuel base : Nat} (f : Nat) : ∀ (st : Jr) (t : Tok), skipLoop max fuel base f st = .ok t → t.st.s.good = true → st.s.good = true := by
  induction f with
  | zero => intro st t h; simp [skipLoop] at h
  | succ f ih =>
    intro st t h hg
    rw [skipLoop] at h
    cases hr : readToken max (fun _ => List.replicate 8 0) fuel st none 0 with
    | ub => rw [hr] at h; cases h
    | running => rw [hr] at h; cases h
    | ok x =>
      rw [hr, Res.ok_bind] at h
      split at h
      · exact readToken_sticky hr (ih _ _ h hg)
      · cases h
        exact readToken_sticky hr hg

theorem skipLoop_accept {max fuel base : Nat} (f : Nat) : ∀ (st : Jr) (t : Tok) (T : List Byte) (I : List Item), skipLoop max fuel base f st = .ok t →
    t.st.s.good = true → At st.s.rest st.expect st.levels T I →
    ∃ w is, st.s = In.ofList (w ++ t.st.s.rest) ∧ is ≠ [] ∧ At t.st.s.rest t.st.expect t.st.levels (T ++ w) (I ++ is) := by
  induction f with
  | zero => intro st t T I h; simp [skipLoop] at h
  | succ f ih =>
    intro st t T I h hg ha
    rw [skipLoop] at h
    cases hr : readToken max (fun _ => List.replicate 8 0) fuel st none 0 with
    | ub => rw [hr] at h; cases h
    | running => rw [hr] at h; cases h
    | ok x =>
      rw [hr, Res.ok_bind] at h
      split at h
      · have hx := skipLoop_sticky f _ _ h hg
        obtain ⟨w1, h1, _, h2⟩ := readToken_accept hr hx ha
        obtain ⟨w2, is, h3, _, h4⟩ := ih _ _ _ _ h hg h2
        refine ⟨w1 ++ w2, x.item :: is, ?_, by simp, by simpa using h4⟩
        rw [h1, show x.st.s.rest = w2 ++ t.st.s.rest by rw [h3]; rfl, List.append_assoc]
      · cases h
        obtain ⟨w, h1, _, h2⟩ := readToken_accept hr hg ha
        exact ⟨w, _, h1, by simp, h2⟩

/-- A reader is used: `get_token` and `skip_value` are called in any order, with any buffers, and the stream is good after each call.  The items that
`get_token` reported are listed. -/
inductive Used (max : Nat) : Jr → List Item → Jr → Prop
  | nil (st : Jr) : Used max st [] st
  | get {atof : List Byte → List Byte} {fuel size : Nat} {st st' : Jr} {mem : List Byte} {t : Tok} {is : List Item} :
      getToken max atof fuel st mem size = some (.ok t) → t.st.s.good = true → Used max t.st is st' → Used max st (t.item :: is) st'
  | skip {fuel : Nat} {st st' : Jr} {t : Tok} {is : List Item} :
      skipValue max fuel st = .ok t → t.st.s.good = true → Used max t.st is st' → Used max st is st'

theorem used_accept {max : Nat} {st st' : Jr} {is : List Item} (h : Used max st is st') : ∀ (T : List Byte) (I : List Item),
    At st.s.rest st.expect st.levels T I → st.s.good = true →
    ∃ w js, st.s = In.ofList (w ++ st'.s.rest) ∧ is.Sublist js ∧ At st'.s.rest st'.expect st'.levels (T ++ w) (I ++ js) := by
  induction h with
  | nil st => intro T I ha hg; exact ⟨[], [], In.eq_ofList hg, List.Sublist.refl _, by simpa using ha⟩
  | @get atof fuel size st st' mem t is hr hg _ ih =>
    intro T I ha _
    unfold getToken at hr
    split at hr
    · cases hr
    obtain ⟨w1, h1, _, h2⟩ := readToken_accept (Option.some.inj hr) hg ha
    obtain ⟨w2, js, h3, h4, h5⟩ := ih _ _ h2 hg
    refine ⟨w1 ++ w2, t.item :: js, ?_, h4.cons_cons _, by simpa using h5⟩
    rw [h1, show t.st.s.rest = w2 ++ st'.s.rest by rw [h3]; rfl, List.append_assoc]
  | @skip fuel st st' t is hr hg _ ih =>
    intro T I ha _
    obtain ⟨w1, ks, h1, _, h2⟩ := skipLoop_accept _ _ _ _ _ hr hg ha
    obtain ⟨w2, js, h3, h4, h5⟩ := ih _ _ h2 hg
    refine ⟨w1 ++ w2, ks ++ js, ?_, h4.trans (List.sublist_append_right _ _), by simpa using h5⟩
    rw [h1, show t.st.s.rest = w2 ++ st'.s.rest by rw [h3]; rfl, List.append_assoc]

/-- C101: however a reader is used, if the stream is good and all brackets are closed, then what was read is JSON with the liberties of `Lax`, and
the tokens reported are tokens of it. -/
theorem C101_accepts_partial {max g : Nat} {bytes : List Byte} {is : List Item} {st : Jr} (h : Used max ⟨In.ofList bytes, false, [], g⟩ is st)
    (hl : st.levels = []) : ∃ text js, bytes = text ++ st.s.rest ∧ Lax.Values text js ∧ is.Sublist js := by
  obtain ⟨w, js, h1, h2, h3⟩ := used_accept h [] [] (.value (.top .nil) rfl) rfl
  rw [hl] at h3
  have h4 : bytes = w ++ st.s.rest := congrArg In.rest h1
  refine ⟨w, js, h4, ?_, h2⟩
  generalize st.expect = e at h3
  cases h3 with
  | value h _ => cases h with | top h => simpa using h

/-- Only `get_token`. -/
inductive Read (max : Nat) : Jr → List Item → Jr → Prop
  | nil (st : Jr) : Read max st [] st
  | get {atof : List Byte → List Byte} {fuel size : Nat} {st st' : Jr} {mem : List Byte} {t : Tok} {is : List Item} :
      getToken max atof fuel st mem size = some (.ok t) → t.st.s.good = true → Read max t.st is st' → Read max st (t.item :: is) st'

/-- C101: with `get_token` alone the tokens reported are exactly the tokens of the text. -/
theorem C101_tokens_partial {max g : Nat} {bytes : List Byte} {is : List Item} {st : Jr} (h : Read max ⟨In.ofList bytes, false, [], g⟩ is st)
    (hl : st.levels = []) : ∃ text, bytes = text ++ st.s.rest ∧ Lax.Values text is := by
  have key : ∀ {a b : Jr} {is : List Item}, Read max a is b → ∀ (T : List Byte) (I : List Item), At a.s.rest a.expect a.levels T I → a.s.good = true →
      ∃ w, a.s = In.ofList (w ++ b.s.rest) ∧ At b.s.rest b.expect b.levels (T ++ w) (I ++ is) := by
    intro a b is h
    induction h with
    | nil st => intro T I ha hg; exact ⟨[], In.eq_ofList hg, by simpa using ha⟩
    | @get atof fuel size st st' mem t is hr hg _ ih =>
      intro T I ha _
      unfold getToken at hr
      split at hr
      · cases hr
      obtain ⟨w1, h1, _, h2⟩ := readToken_accept (Option.some.inj hr) hg ha
      obtain ⟨w2, h3, h5⟩ := ih _ _ h2 hg
      refine ⟨w1 ++ w2, ?_, by simpa using h5⟩
      rw [h1, show t.st.s.rest = w2 ++ st'.s.rest by rw [h3]; rfl, List.append_assoc]
  obtain ⟨w, h1, h3⟩ := key h [] [] (.value (.top .nil) rfl) rfl
  rw [hl] at h3
  refine ⟨w, congrArg In.rest h1, ?_⟩
  generalize st.expect = e at h3
  cases h3 with
  | value h _ => cases h with | top h => simpa using h

/-- JSON values one after the other. -/
inductive Texts : List Byte → Prop
  | nil : Texts []
  | snoc {b l : List Byte} {v : Spec.Value} : Texts b → Ws l → v.Ok → Texts (b ++ (l ++ v.text))

/-- C101, in full: what is accepted is JSON. -/
def C101Full : Prop :=
  ∀ (max g : Nat) (bytes : List Byte) (is : List Item) (st : Jr), Read max ⟨In.ofList bytes, false, [], g⟩ is st → st.levels = [] →
    ∃ text, bytes = text ++ st.s.rest ∧ Texts text

theorem num_chars {n : Num} (h : n.Ok) {x : Byte} (hx : x = 44 ∨ x = 93) : x ∉ n.text := by
  intro h3
  obtain ⟨a1, _, a3, a4, a5, _⟩ := h
  have hd : ¬ Digit x := by rcases hx with rfl | rfl <;> unfold Digit <;> decide
  have hs : ¬ (x = 43 ∨ x = 45) := by rcases hx with rfl | rfl <;> decide
  unfold Num.text at h3
  simp only [List.mem_append] at h3
  rcases h3 with ((h3 | h3) | h3) | h3
  · exact hs (a1 x (by simpa using h3))
  · exact hd (a3 _ h3)
  · cases hf : n.frac with
    | none => rw [hf] at h3; simp [fracText] at h3
    | some d =>
      rw [hf] at h3
      simp only [fracText, List.mem_cons] at h3
      rcases h3 with h3 | h3
      · rcases hx with rfl | rfl <;> revert h3 <;> decide
      · exact hd ((a4 d hf).2 _ h3)
  · cases hf : n.exp with
    | none => rw [hf] at h3; simp [expText] at h3
    | some y =>
      obtain ⟨e, s, d⟩ := y
      rw [hf] at h3
      obtain ⟨b1, b2, _, b4⟩ := a5 _ hf
      simp only [expText, List.mem_cons, List.mem_append] at h3
      rcases h3 with h3 | h3 | h3
      · dsimp only at b1; rw [← h3] at b1; rcases hx with rfl | rfl <;> revert b1 <;> decide
      · exact hs (b2 x (by simpa using h3))
      · exact hd (b4 _ h3)

theorem value_last (v : Spec.Value) (h : v.Ok) : v.text ≠ [] ∧ v.text.getLast? ≠ some 44 ∧ (v.text.getLast? = some 93 → ∃ w es, v = .arr w es) := by
  cases v with
  | arr w es => simp [Spec.Value.text]; simp [List.getLast?_cons]
  | obj w ms => simp [Spec.Value.text]; simp [List.getLast?_cons]
  | atom a =>
    cases a with
    | null => simp [Spec.Value.text, Atom.text]
    | bool b => cases b <;> simp [Spec.Value.text, Atom.text]
    | str s => simp [Spec.Value.text, Atom.text]; simp [List.getLast?_cons]
    | num n =>
      obtain ⟨c, t, h1, _⟩ := Num.text_cons h
      exact ⟨by simp [Spec.Value.text, Atom.text, h1], fun h2 => num_chars h (.inl rfl) (List.mem_of_getLast? h2),
        fun h2 => absurd (List.mem_of_getLast? h2) (num_chars h (.inr rfl))⟩

theorem elems_last (es : Spec.Elems) (h : es.Ok) : es.text.getLast? ≠ some 44 := by
  match es, h with
  | .nil, _ => simp [Spec.Elems.text]
  | .cons v trail lead .nil, h =>
    obtain ⟨h1, h2, _⟩ := h
    intro h3
    simp only [Spec.Elems.text, Spec.Elems.sep, List.append_nil, List.getLast?_append] at h3
    cases ht : trail.getLast? with
    | none => rw [ht] at h3; exact (value_last v h1).2.1 (by simpa using h3)
    | some x =>
      rw [ht] at h3
      have hx := h2 x (List.mem_of_getLast? ht)
      simp only [Option.some_or, Option.some.injEq] at h3
      rw [h3] at hx
      exact absurd hx (by decide)
  | .cons v trail lead (.cons v' t' l' r'), h =>
    have h2 := elems_last (.cons v' t' l' r') h.2.2.2
    have h4 := (value_last v' h.2.2.2.1).1
    intro h3
    rw [Spec.Elems.text, List.getLast?_append] at h3
    cases hx : (Spec.Elems.cons v' t' l' r').text.getLast? with
    | none =>
      rw [List.getLast?_eq_none_iff, Spec.Elems.text] at hx
      simp at hx
      exact h4 hx.1
    | some x =>
      rw [hx] at h3 h2
      simp only [Option.some_or] at h3
      exact h2 h3

/-- Read `n` tokens, to show instances. -/
def readAll : Nat → Jr → Option (List Item × Jr)
  | 0, st => some ([], st)
  | n + 1, st =>
    match getToken 64 (fun _ => List.replicate 8 0) 90 st (List.replicate 32 0) 32 with
    | some (.ok t) => if t.st.s.good then (readAll n t.st).map fun x => (t.item :: x.1, x.2) else none
    | _ => none

theorem readAll_read (n : Nat) : ∀ (st : Jr) (x : List Item × Jr), readAll n st = some x → Read 64 st x.1 x.2 := by
  induction n with
  | zero => intro st x h; cases h; exact .nil st
  | succ n ih =>
    intro st x h
    rw [readAll] at h
    split at h
    · rename_i t ht
      split at h
      · rename_i hg
        cases hr : readAll n t.st with
        | none => rw [hr] at h; cases h
        | some y => rw [hr] at h; cases h; exact .get ht hg (ih _ _ hr)
      · cases h
    · cases h

/-- The comma before the closing bracket is accepted. -/
theorem read_comma : ∃ st, Read 64 ⟨In.ofList [91, 49, 44, 93], false, [], 0⟩ [.beginArray, .number, .endArray] st ∧ st.levels = [] ∧ st.s.rest = [] :=
  ⟨_, readAll_read 3 _ ([.beginArray, .number, .endArray], ⟨In.ofList [], false, [], 2⟩) (by decide +kernel), rfl, rfl⟩

/-- It is not JSON, so the full statement is false. -/
theorem C101_violated : ¬ C101Full := by
  intro h
  obtain ⟨st, h1, h2, h3⟩ := read_comma
  obtain ⟨text, h4, h5⟩ := h _ _ _ _ _ h1 h2
  rw [h3, List.append_nil] at h4
  generalize hT : text = T at h5
  cases h5 with
  | nil => rw [hT] at h4; cases h4
  | @snoc b l v hb hl hv =>
    rw [hT] at h4
    obtain ⟨k1, _, k3⟩ := value_last v hv
    have hlast : v.text.getLast? = some 93 := by
      have := congrArg List.getLast? h4
      rw [List.getLast?_append, List.getLast?_append] at this
      cases hx : v.text.getLast? with
      | none => exact absurd (List.getLast?_eq_none_iff.1 hx) k1
      | some x => rw [hx] at this; simp at this; rw [this]
    obtain ⟨w, es, rfl⟩ := k3 hlast
    rw [← List.append_assoc] at h4
    have hnil : b ++ l = [] := by
      cases hc : b ++ l with
      | nil => rfl
      | cons x xs =>
        rw [hc, List.cons_append] at h4
        have h6 := (List.cons.inj h4).2
        have : (91 : Byte) ∈ [49, 44, 93] := by rw [h6]; simp [Spec.Value.text]
        exact absurd this (by decide)
    rw [hnil, List.nil_append, Spec.Value.text] at h4
    have h6 := (List.cons.inj h4).2
    have h7 : [49, 44] = w ++ es.text := by
      have := congrArg List.dropLast h6
      rw [List.dropLast_concat] at this
      exact this
    cases w with
    | cons x w =>
      have h8 := hv.1 x (by simp)
      rw [← (List.cons.inj h7).1] at h8
      exact absurd h8 (by decide)
    | nil =>
      rw [List.nil_append] at h7
      have := elems_last es hv.2
      rw [← h7] at this
      exact this rfl

/-- C101 applies to `[{"a\\q" : -.e},` and a line feed and `"\u0041"]x`, and says that it has this form. -/
example : ∃ text, [91, 123, 34, 97, 92, 113, 34, 32, 58, 32, 45, 46, 101, 125, 44, 10, 34, 92, 117, 48, 48, 52, 49, 34, 93, 120] = text ++ [120] ∧
    Lax.Values text [.beginArray, .beginObject, .property, .number, .endObject, .string, .endArray] :=
  C101_tokens_partial (readAll_read 7 ⟨In.ofList [91, 123, 34, 97, 92, 113, 34, 32, 58, 32, 45, 46, 101, 125, 44, 10, 34, 92, 117, 48, 48, 52, 49, 34, 93, 120],
    false, [], 0⟩ ([.beginArray, .beginObject, .property, .number, .endObject, .string, .endArray], ⟨In.ofList [120], false, [], 2⟩) (by decide +kernel)) rfl

/-- C05: the codes by which a program tells tokens apart are different. -/
theorem C05_items (i j : Item) (h : i.bytes = j.bytes) : i = j := by
  cases i <;> cases j <;> first | rfl | (revert h; decide)

/-- A name without a colon is not accepted. -/
example : readAll 2 ⟨In.ofList [123, 34, 97, 34, 49, 125], false, [], 0⟩ = none := by decide +kernel

end Abc.Json
