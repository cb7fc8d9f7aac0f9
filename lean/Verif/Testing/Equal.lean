import Verif.Log.Props
import Mathlib.Data.List.Basic

/-! # Comparisons in tests, `src/test.h` 199-276

`are_equal` for C strings (222-241) and for memory (244-276).  The lines of the dump are those of `Log/Model`.
Whether the log cuts long entries is not part of this file. -/

namespace Abc.Testing

open Abc.Log Abc.Ascii

/-- `std::strcmp(a, b) == 0` on two arrays; `none` if it reads past the end of one of them. -/
def strEq : List Byte → List Byte → Option Bool
  | x :: a, y :: b => if x ≠ y then some false else if x = 0 then some true else strEq a b
  | _, _ => none

/-- An entry of `are_equal`, 260-272: its severity, whether it says `Pass`, and the two texts. -/
structure Compared where
  severity : Byte
  pass : Bool
  actual : List Byte
  expected : List Byte
deriving DecidableEq

/-- The text `%s` shows of a line: up to the first NUL of `line.get()`; `none` if there is undefined behaviour. -/
def lineText (size : Nat) (l : Line) : Option (List Byte) :=
  match get size l with
  | none => none
  | some l' => some (l'.buf.takeWhile (· ≠ 0))

/-- The loop, 248-273.  `buf` is what the arrays of the lines hold before; `fuel` bounds the number of rounds,
running out of it is `none`. -/
def equalLoop (log : Bool) (buf a e : List Byte) (eq : Bool) : Nat → Nat → List Compared → Option (List Compared)
  | 0, _, _ => none
  | fuel + 1, offset, out =>
    match putBinary 2048 a offset (newLine buf) with
    | none => none
    | some (la, offset', more) =>
      if more = false then some out
      else
        match putBinary 2048 e offset (newLine buf) with
        | none => none
        | some (le, _, _) =>
          match lineText 2048 la, lineText 2048 le with
          | some ta, some te =>
            equalLoop log buf a e eq fuel offset' (if log then out ++ [⟨if eq then 4 else 3, eq, ta, te⟩] else out)
          | _, _ => none

/-- `are_equal` for memory, 244-276: `a` and `e` are the `size` bytes from the two pointers on. -/
def equalMem (log : Bool) (buf a e : List Byte) (fuel : Nat) : Option (Bool × List Compared) :=
  match equalLoop log buf a e (decide (a = e)) fuel 0 [] with
  | none => none
  | some out => some (decide (a = e), out)

/-! ### Proofs -/

theorem strEq_spec (s t x y : List Byte) (hs : 0 ∉ s) (ht : 0 ∉ t) : strEq (s ++ 0 :: x) (t ++ 0 :: y) = some (decide (s = t)) := by
  induction s generalizing t with
  | nil =>
    cases t with
    | nil => simp [strEq]
    | cons b t =>
      have : (0 : Byte) ≠ b := fun h => ht (by simp [h])
      simp [strEq, this]
  | cons a s ih =>
    have ha : a ≠ 0 := fun h => hs (by simp [h])
    cases t with
    | nil => simp [strEq, ha]
    | cons b t =>
      by_cases hab : a = b
      · subst hab
        simp only [List.cons_append, strEq, ne_eq, not_true, if_false, if_neg ha]
        rw [ih t (fun h => hs (by simp [h])) (fun h => ht (by simp [h]))]
        simp
      · simp [strEq, hab]

theorem hexLine_nonzero (data : List Byte) (offset : Nat) : ∀ c ∈ hexLine data offset, c ≠ 0 := by
  intro c hc h
  have := (dump_text data offset).1 c hc
  rw [h] at this
  exact absurd this.1 (by decide)

theorem putBinary_full {buf data : List Byte} {offset : Nat} (hb : buf.length = 2050) (h16 : offset % 16 = 0) (hlt : offset < data.length) :
    ∃ l, putBinary 2048 data offset (newLine buf) = some (l, offset + 16, decide (offset + 16 ≤ data.length)) ∧ lineText 2048 l = some (hexLine data offset) := by
  have hlen := (dump_line data offset).2.1
  refine ⟨⟨(hexLine data offset ++ [0]) ++ buf.drop 73, 72, []⟩, ?_, ?_⟩
  · unfold putBinary newLine room
    rw [if_neg (by simp), if_neg (by omega), if_neg (by omega)]
    unfold writeAt
    rw [if_neg (by simp), if_pos (by simp only [List.length_append, List.length_singleton]; omega)]
    simp [hlen]
  · unfold lineText Abc.Log.get writeAt
    simp only
    rw [if_pos (by omega), if_neg (by simp), if_pos (by simp only [List.length_append, List.length_singleton, List.length_drop]; omega)]
    simp only [List.length_singleton, Option.some.injEq]
    have e1 : ((hexLine data offset ++ [0]) ++ buf.drop 73).take 72 = hexLine data offset := by
      rw [List.append_assoc, List.take_append_of_le_length (by omega), List.take_of_length_le (by omega)]
    rw [e1, List.append_assoc, List.takeWhile_append_of_pos (by intro c hc; simpa using hexLine_nonzero data offset c hc)]
    simp

theorem equalLoop_spec (log : Bool) (buf a e : List Byte) (eq : Bool) (hb : buf.length = 2050) (hl : a.length = e.length) :
    ∀ (n i fuel : Nat) (out : List Compared), a.length / 16 = i + n → n < fuel →
      equalLoop log buf a e eq fuel (16 * i) out = some (out ++ if log then (List.range n).map fun j =>
        ⟨if eq then 4 else 3, eq, hexLine a (16 * (i + j)), hexLine e (16 * (i + j))⟩ else []) := by
  intro n
  induction n with
  | zero =>
    intro i fuel out hi hf
    obtain ⟨fuel, rfl⟩ := Nat.exists_eq_add_of_lt hf
    rw [Nat.zero_add]
    unfold equalLoop
    by_cases hlt : 16 * i < a.length
    · obtain ⟨l, e1, _⟩ := putBinary_full (data := a) hb (show 16 * i % 16 = 0 by omega) hlt
      rw [e1]
      have : ¬ 16 * i + 16 ≤ a.length := by omega
      simp [this]
    · have e1 : putBinary 2048 a (16 * i) (newLine buf) = some (newLine buf, 16 * i, false) := by
        unfold putBinary newLine room
        rw [if_neg (by simp), if_pos (by omega)]
      rw [e1]
      simp
  | succ n ih =>
    intro i fuel out hi hf
    obtain ⟨fuel, rfl⟩ : ∃ k, fuel = k + 1 := ⟨fuel - 1, by omega⟩
    unfold equalLoop
    have hle : 16 * i + 16 ≤ a.length := by omega
    obtain ⟨la, e1, t1⟩ := putBinary_full (data := a) hb (show 16 * i % 16 = 0 by omega) (by omega)
    obtain ⟨le, e2, t2⟩ := putBinary_full (data := e) hb (show 16 * i % 16 = 0 by omega) (by omega)
    rw [e1]
    simp only [hle, decide_true, Bool.true_eq_false, if_false, e2, t1, t2]
    rw [show 16 * i + 16 = 16 * (i + 1) by omega, ih (i + 1) fuel _ (by omega) (by omega)]
    cases log
    · simp
    · simp only [if_true, List.append_assoc, Option.some.injEq, List.append_cancel_left_eq]
      rw [List.range_succ_eq_map]
      simp only [List.map_cons, List.map_map, List.singleton_append, Nat.add_zero, List.cons.injEq, true_and]
      apply List.map_congr_left
      intro j _
      simp only [Function.comp, Nat.succ_eq_add_one]
      rw [show i + 1 + j = i + (j + 1) by omega]

/-! ### The property -/

/-- C115: comparing memory says whether all bytes are equal, in a number of rounds bounded by the size, and without
undefined behaviour; comparing C strings says whether the texts are equal.  The log gets one entry for each 16 bytes,
which shows these bytes of both.  Missing from the whole claim: the bytes behind the last full 16, which are never
shown. -/
theorem C115_equal_partial (log : Bool) (buf a e : List Byte) (hb : buf.length = 2050) (hl : a.length = e.length) (fuel : Nat) (hf : a.length / 16 < fuel) :
    (∃ out, equalMem log buf a e fuel = some (decide (a = e), out) ∧ (log = false → out = []) ∧ (log = true → out.length = a.length / 16) ∧
      ∀ i c, out[i]? = some c → readLine c.actual = (a.drop (16 * i)).take 16 ∧ readLine c.expected = (e.drop (16 * i)).take 16 ∧
        (c.pass = true ↔ a = e) ∧ c.severity = if a = e then 4 else 3) ∧
    ∀ s t x y : List Byte, 0 ∉ s → 0 ∉ t → strEq (s ++ 0 :: x) (t ++ 0 :: y) = some (decide (s = t)) := by
  refine ⟨?_, strEq_spec⟩
  have h := equalLoop_spec log buf a e (decide (a = e)) hb hl (a.length / 16) 0 fuel [] (by omega) hf
  rw [Nat.mul_zero] at h
  refine ⟨_, by unfold equalMem; rw [h], ?_, ?_, ?_⟩
  · rintro rfl; rfl
  · rintro rfl; simp
  · intro i c hc
    cases log
    · simp at hc
    · simp only [List.nil_append, if_true, List.getElem?_map, Nat.zero_add, Option.map_eq_some_iff] at hc
      obtain ⟨j, hj, rfl⟩ := hc
      have hj' : i = j := by
        rw [List.getElem?_range] at hj
        · simpa using hj
        · by_contra hn
          rw [List.getElem?_eq_none (by simpa using hn)] at hj
          simp at hj
      subst hj'
      exact ⟨(dump_line a _).1, (dump_line e _).1, by simp, by simp⟩

/-- Twenty bytes that differ in the first and in the last. -/
example : equalMem true (List.replicate 2050 7) (List.replicate 20 1) (2 :: List.replicate 18 1 ++ [2]) 3 =
    some (false, [⟨3, false, hexLine (List.replicate 20 1) 0, hexLine (2 :: List.replicate 18 1 ++ [2]) 0⟩]) := by decide +kernel

example : strEq [65, 66, 0, 9] [65, 66, 0] = some true ∧ strEq [65, 0] [66, 0] = some false ∧ strEq [65] [65] = none := by decide

/-- The whole claim: when memory differs, the log shows where. -/
def C115Full : Prop := ∀ (buf a e : List Byte) (fuel : Nat) (r : Bool × List Compared), buf.length = 2050 → a.length = e.length → a ≠ e →
  equalMem true buf a e fuel = some r → ∃ c ∈ r.2, c.actual ≠ c.expected

/-- Whenever the difference lies behind the last full 16 bytes, the log does not show it; for less than 16 bytes,
the log gets nothing at all. -/
theorem C115_violated : ¬ C115Full ∧ ∀ (log : Bool) (buf a e : List Byte) (fuel : Nat) (r : Bool × List Compared), buf.length = 2050 → a.length = e.length →
    a.take (16 * (a.length / 16)) = e.take (16 * (a.length / 16)) → a.length / 16 < fuel → equalMem log buf a e fuel = some r →
    (∀ c ∈ r.2, c.actual = c.expected) ∧ (a.length < 16 → r.2 = []) := by
  have main : ∀ (log : Bool) (buf a e : List Byte) (fuel : Nat) (r : Bool × List Compared), buf.length = 2050 → a.length = e.length →
      a.take (16 * (a.length / 16)) = e.take (16 * (a.length / 16)) → a.length / 16 < fuel → equalMem log buf a e fuel = some r →
      (∀ c ∈ r.2, c.actual = c.expected) ∧ (a.length < 16 → r.2 = []) := by
    intro log buf a e fuel r hb hl ht hf hr
    have h := equalLoop_spec log buf a e (decide (a = e)) hb hl (a.length / 16) 0 fuel [] (by omega) hf
    rw [Nat.mul_zero] at h
    unfold equalMem at hr
    rw [h] at hr
    simp only [Option.some.injEq] at hr
    subst hr
    constructor
    · intro c hc
      cases log
      · simp at hc
      · simp only [List.nil_append, if_true, List.mem_map, List.mem_range, Nat.zero_add] at hc
        obtain ⟨j, hj, rfl⟩ := hc
        have hget : ∀ k, k < 16 → a[16 * j + k]? = e[16 * j + k]? := by
          intro k hk
          have h2 := congrArg (fun l => l[16 * j + k]?) ht
          simp only [List.getElem?_take] at h2
          rwa [if_pos (by omega), if_pos (by omega)] at h2
        have hcell : ∀ k, k < 16 → hexCell a (16 * j) k = hexCell e (16 * j) k ∧ textCell a (16 * j) k = textCell e (16 * j) k := by
          intro k hk
          have h2 := hget k hk
          have hk1 : 16 * j + k < a.length := by omega
          have hk2 : 16 * j + k < e.length := by omega
          rw [List.getElem?_eq_getElem hk1, List.getElem?_eq_getElem hk2, Option.some.injEq] at h2
          unfold hexCell textCell
          rw [dif_pos hk1, dif_pos hk2, dif_pos hk1, dif_pos hk2, h2]
          exact ⟨rfl, rfl⟩
        have hhalf : ∀ q, q < 2 → hexHalf a (16 * j) q = hexHalf e (16 * j) q := by
          intro q hq
          unfold hexHalf
          congr 1
          apply List.flatMap_congr
          intro k hk
          exact (hcell _ (by have := List.mem_range.1 hk; omega)).1
        show hexLine a (16 * j) = hexLine e (16 * j)
        unfold hexLine
        rw [hhalf 0 (by omega), hhalf 1 (by omega)]
        congr 1
        apply List.map_congr_left
        intro k hk
        exact (hcell k (List.mem_range.1 hk)).2
    · intro hs
      have : a.length / 16 = 0 := by omega
      rw [this]
      cases log <;> rfl
  refine ⟨fun hfull => ?_, main⟩
  have h1 : equalMem true (List.replicate 2050 0) [1] [2] 1 = some (false, []) := by decide +kernel
  have hb : (List.replicate 2050 (0 : Byte)).length = 2050 := List.length_replicate
  generalize List.replicate 2050 (0 : Byte) = buf at h1 hb
  obtain ⟨c, hc, _⟩ := hfull buf [1] [2] 1 (false, []) hb rfl (by decide) h1
  simp at hc

end Abc.Testing
