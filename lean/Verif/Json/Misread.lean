import Verif.Json.Safety

/-!
# Inputs on which the reader writes outside its block or does not return
-/

namespace Abc.Json

open Abc.Ascii Abc.Stream Spec

/-! ## Outside the block -/

/-- A run of characters that `get_chars` takes, longer than what is left of the block. -/
theorem getCharsLoop_ub {pred : Byte → Bool} {off size : Nat} (h1 : 1 ≤ size) (h2 : size < 2 ^ 64) (c0 : Byte) (r : List Byte)
    (hc0 : pred c0 = false) (w : List Byte) : ∀ (fuel : Nat) (mem : List Byte) (n : Nat), (∀ c ∈ w, pred c = true) → w.length < fuel →
      mem.length ≤ off + n + w.length → n + w.length ≤ size - 1 →
      getCharsLoop valid pred off size fuel (In.ofList (w ++ c0 :: r)) mem n = .ub := by
  induction w with
  | nil =>
    intro fuel mem n _ hf hm hn
    obtain ⟨f, rfl⟩ : ∃ f, fuel = f + 1 := ⟨fuel - 1, by simp at hf; omega⟩
    simp only [List.length_nil, Nat.add_zero] at hm hn
    simp [getCharsLoop, hc0, getCharsEnd, wr, Nat.not_lt.2 hm]
  | cons c w ih =>
    intro fuel mem n hw hf hm hn
    obtain ⟨f, rfl⟩ : ∃ f, fuel = f + 1 := ⟨fuel - 1, by simp at hf; omega⟩
    simp only [List.length_cons] at hf hm hn
    have hc : pred c = true := hw c (by simp)
    rw [getCharsLoop, sub64_eq h1 h2]
    simp only [List.cons_append, In.ofList_good, peekCharV_valid, peekCharS_valid, In.peekV_cons, hc, if_true, In.peekS_cons, In.getV_cons,
      In.getS_cons]
    rw [if_neg (by omega)]
    unfold wr
    split
    · rw [Res.ok_bind]
      exact ih f _ (n + 1) (fun c hc => hw c (by simp [hc])) (by omega) (by simp; omega) (by omega)
    · rfl

/-- `\n`, `k` times. -/
def newlines (k : Nat) : List Byte := (List.replicate k [92, 110]).flatten

theorem strLoop_ub {fuel size : Nat} (r : List Byte) (k : Nat) : ∀ (f : Nat) (mem : List Byte) (n : Nat), k < f →
    mem.length ≤ 8 + n + k → strLoop (fuel + 1) size f (In.ofList (newlines k ++ 34 :: r)) mem n = .ub := by
  induction k with
  | zero =>
    intro f mem n hf hm
    obtain ⟨f, rfl⟩ : ∃ g, f = g + 1 := ⟨f - 1, by omega⟩
    have hlt : ¬ 8 + n < mem.length := by omega
    simp [newlines, strLoop, getChars, getCharsLoop, getCharsEnd, jsonIsStringContent, wr, hlt]
  | succ k ih =>
    intro f mem n hf hm
    obtain ⟨f, rfl⟩ : ∃ g, f = g + 1 := ⟨f - 1, by omega⟩
    by_cases hlt : 8 + n < mem.length
    · have := ih f (mem.set (8 + n) 10) (n + 1) (by omega) (by simp; omega)
      simp only [newlines, List.replicate_succ, List.flatten_cons, List.cons_append, List.nil_append] at this ⊢
      simp [strLoop, getChars, getCharsLoop, getCharsEnd, jsonIsStringContent, wr, hlt, escaped, this]
    · simp [newlines, List.replicate_succ, strLoop, getChars, getCharsLoop, getCharsEnd, jsonIsStringContent, wr, hlt]

/-- When the string is undefined behaviour, so is the token. -/
theorem readToken_ub {max : Nat} {atof : List Byte → List Byte} {fuel size g : Nat} {R : List Byte} {e : Bool} {ls : List Bool}
    {buf : Option (List Byte)} (h : tokString (fuel + 1) size (In.ofList (34 :: R)) buf = .ub) :
    readToken max atof (fuel + 1) ⟨In.ofList (34 :: R), e, ls, g⟩ buf size = .ub := by
  have h6 := skipSpaces_ok (fuel := fuel + 1) (r := R) (c := 34) ws_nil (by decide) (by simp)
  rw [List.nil_append] at h6
  rw [readToken]
  dsimp only
  rw [h6]
  simp only [Res.ok_bind, In.peekV_cons, In.peekS_cons]
  cases expectProperty e ls with
  | true => simp [propPart, h]
  | false => simp [valuePart, isDigit, isBetween, sc, h]

set_option maxRecDepth 10000 in
theorem digit_not_sign : ∀ x : Byte, Digit x → x ≠ 43 ∧ x ≠ 45 := forall_byte (by decide)

theorem getNumber_ub {fuel : Nat} {d r : List Byte} (hd : ∀ c ∈ d, Digit c) (hl : d.length = 25) (hf : 26 < fuel) :
    getNumber fuel (In.ofList (d ++ 46 :: 48 :: r)) = .ub := by
  obtain ⟨c, d', rfl⟩ : ∃ c d', d = c :: d' := by cases d with | nil => simp at hl | cons c d' => exact ⟨c, d', rfl⟩
  have hcd : Digit c := hd c (by simp)
  have h1 := digit_not_sign c hcd
  have hs : numSign ⟨In.ofList (c :: d' ++ 46 :: 48 :: r), List.replicate 26 0, 0⟩ =
      .ok ⟨In.ofList (c :: d' ++ 46 :: 48 :: r), List.replicate 26 0, 0⟩ := by
    simp [numSign, h1.1, h1.2]
  obtain ⟨v', h2, h3⟩ := numDigits_ok (fuel := fuel) (r := 46 :: 48 :: r) (a := []) (v := List.replicate 26 0) hd
    ⟨46, _, rfl, by decide⟩ (by simp) (by simp at hl ⊢; omega) (by omega)
  simp only [List.nil_append] at h2 h3
  have h4 : numFrac fuel ⟨In.ofList (46 :: 48 :: r), c :: d' ++ 0 :: v', (c :: d').length⟩ = .ub := by
    have hm : ((c :: d') ++ 0 :: v').length = 26 := h3
    generalize (c :: d') ++ 0 :: v' = mem at hm
    obtain ⟨f, rfl⟩ : ∃ f, fuel = f + 1 := ⟨fuel - 1, by omega⟩
    have e0 : sub64 26 26 = 0 := by decide
    have e1 : ¬ 0 = sub64 0 1 := by decide
    have e2 : isDigit 48 = true := by decide
    have e3 : 25 < mem.length := by omega
    have e4 : ¬ 26 < mem.length := by omega
    rw [hl, numFrac]
    dsimp only
    rw [In.peekV_cons, if_pos rfl, wr_ok e3, Res.ok_bind, numDigits]
    dsimp only
    rw [e0, In.peekS_cons, In.getS_cons, getChars, getCharsLoop]
    rw [if_pos (In.ofList_good _), peekCharV_valid, In.peekV_cons, if_pos e2, if_neg e1, wr, if_neg (by simpa using e4)]
    rfl
  unfold getNumber
  rw [hs, Res.ok_bind, show (List.length ([] : List Byte)) = 0 from rfl] at *
  rw [h2, Res.ok_bind, h4]
  rfl

set_option maxRecDepth 10000 in
theorem digit_not : ∀ c : Byte, isDigit c = true → c ≠ 110 ∧ c ≠ 102 ∧ c ≠ 116 ∧ ¬ IsWs c := forall_byte (by decide)

/-! ## No return -/

/-- What `skip_spaces` passes over is white space. -/
theorem skipSpaces_prefix (fuel : Nat) : ∀ (s : In) (n : Nat) (k : Skipped),
    skipCharsLoop valid jsonIsSpace fuel s n = .ok k → ∃ w, s.rest = w ++ k.s.rest ∧ Ws w := by
  induction fuel with
  | zero => intro s n k h; simp [skipCharsLoop] at h
  | succ f ih =>
    intro s n k h
    unfold skipCharsLoop at h
    rw [peekCharV_valid, peekCharS_valid] at h
    split at h
    · rename_i hg
      split at h
      · rename_i hp
        rw [In.eq_ofList hg] at hp h ⊢
        cases hr : s.rest with
        | nil => rw [hr] at hp; exact absurd hp (by decide)
        | cons c r =>
          rw [hr] at hp h
          simp only [In.peekS_cons, In.getS_cons] at h
          obtain ⟨w, hw, hws⟩ := ih _ _ _ h
          rw [In.ofList_rest] at hw ⊢
          refine ⟨c :: w, by rw [hw]; rfl, ?_⟩
          intro d hd
          rcases List.mem_cons.1 hd with rfl | hd
          · exact (jsonIsSpace_iff d).1 (by simpa using hp)
          · exact hws d hd
      · simp only [Res.ok.injEq] at h
        subst h
        exact ⟨[], by rw [In.peekS_rest]; rfl, ws_nil⟩
    · simp only [Res.ok.injEq] at h
      subst h
      exact ⟨[], rfl, ws_nil⟩

theorem getCharsLoop_exhaust {pred : Byte → Bool} {off size : Nat} (h255 : pred 255 = true) (fuel : Nat) :
    ∀ (s : In) (mem : List Byte) (n : Nat) (g : Got), (∀ c ∈ s.rest, pred c = true) →
      getCharsLoop valid pred off size fuel s mem n = .ok g → g.s.good = false := by
  induction fuel with
  | zero => intro s mem n g _ h; simp [getCharsLoop] at h
  | succ f ih =>
    intro s mem n g hs h
    have hend : ∀ s' : In, s'.good = false → getCharsEnd off s' mem n = .ok g → g.s.good = false := by
      intro s' hg he
      unfold getCharsEnd wr at he
      split at he
      · simp only [Res.ok_bind, Res.ok.injEq] at he
        subst he
        exact hg
      · simp at he
    have hp : pred s.peekV = true := by
      by_cases hv : s.peekV = 255
      · rw [hv]; exact h255
      · exact hs _ (peekV_mem rfl hv)
    unfold getCharsLoop at h
    rw [peekCharV_valid, peekCharS_valid, hp] at h
    split at h
    · simp only [if_true] at h
      split at h
      · exact hend _ (In.setFail_good _) h
      · unfold wr at h
        split at h
        · simp only [Res.ok_bind] at h
          refine ih _ _ _ _ ?_ h
          intro c hc
          have h2 := getS_suffix s.peekS
          rw [In.peekS_rest] at h2
          exact hs c (suffix_mem h2 hc)
        · simp at h
    · rename_i hg
      exact hend _ (by simpa using hg) h

theorem skipCharsLoop_exhaust {pred : Byte → Bool} (h255 : pred 255 = true) (fuel : Nat) :
    ∀ (s : In) (n : Nat) (k : Skipped), (∀ c ∈ s.rest, pred c = true) → skipCharsLoop valid pred fuel s n = .ok k → k.s.good = false := by
  induction fuel with
  | zero => intro s n k _ h; simp [skipCharsLoop] at h
  | succ f ih =>
    intro s n k hs h
    have hp : pred s.peekV = true := by
      by_cases hv : s.peekV = 255
      · rw [hv]; exact h255
      · exact hs _ (peekV_mem rfl hv)
    unfold skipCharsLoop at h
    rw [peekCharV_valid, peekCharS_valid, hp] at h
    split at h
    · simp only [if_true] at h
      refine ih _ _ _ ?_ h
      intro c hc
      have h2 := getS_suffix s.peekS
      rw [In.peekS_rest] at h2
      exact hs c (suffix_mem h2 hc)
    · rename_i hg
      simp only [Res.ok.injEq] at h
      subst h
      simpa using hg

/-- A string that is not terminated, skipped. -/
theorem skipStrLoop_open {fuel : Nat} {w : List Byte} (hw : ∀ c ∈ w, Plain c) (f n : Nat) :
    skipStrLoop (fuel + 1) f (In.ofList w) n = .running := by
  cases f with
  | zero => rfl
  | succ f =>
    rw [skipStrLoop]
    cases hk : skipChars (fuel + 1) valid jsonIsStringContent (In.ofList w) with
    | running => rfl
    | ub =>
      have := skipCharsLoop_noub (pred := jsonIsStringContent) (fuel + 1) (In.ofList w) 0
      rw [show skipCharsLoop valid jsonIsStringContent (fuel + 1) (In.ofList w) 0 = .ub from hk] at this
      exact this.elim
    | ok k =>
      have hd := skipCharsLoop_exhaust (pred := jsonIsStringContent) (by decide) (fuel + 1) (In.ofList w) 0 k
        (fun c hc => (content_iff c).2 (hw c hc)) hk
      have h1 : k.s.peekV = 255 := by simp [In.peekV, hd]
      simp only [Res.ok_bind, h1]
      rw [if_neg (by decide), if_neg (by decide)]
      exact skipStrLoop_dead _ _ _ (In.peekS_notgood hd)

/-- A string that is not terminated, or does not fit, read into a buffer. -/
theorem strLoop_open {fuel size : Nat} {w r : List Byte} (hw : ∀ c ∈ w, Plain c) (hs : 1 ≤ size) (hs2 : size < 2 ^ 64)
    (hr : r = [] ∨ size ≤ w.length) (f : Nat) (mem : List Byte) (hm : 8 + size ≤ mem.length) (hf : w.length < fuel) :
    strLoop (fuel + 1) size f (In.ofList (w ++ r)) mem 0 = .running := by
  cases f with
  | zero => rfl
  | succ f =>
    rw [strLoop, sub64_eq (by omega) hs2, Nat.sub_zero, Nat.add_zero]
    have hblk := getCharsLoop_block (pred := jsonIsStringContent) (off := 8) (size := size) hs hs2 (fuel + 1) (In.ofList (w ++ r)) mem 0
      hm (by omega)
    have hdead : ∀ g, getChars (fuel + 1) valid jsonIsStringContent (In.ofList (w ++ r)) mem 8 size = .ok g → g.s.good = false := by
      intro g hg
      rcases hr with rfl | hlen
      · exact getCharsLoop_exhaust (by decide) _ _ _ _ _ (fun c hc => (content_iff c).2 (hw c (by simpa using hc))) hg
      · obtain ⟨c0, t, hct⟩ : ∃ c0 t, w.drop (size - 1) = c0 :: t := by
          cases hd : w.drop (size - 1) with
          | nil => have := congrArg List.length hd; simp at this; omega
          | cons c0 t => exact ⟨c0, t, rfl⟩
        have hwe : w ++ r = w.take (size - 1) ++ c0 :: (t ++ r) := by
          have : w = w.take (size - 1) ++ (c0 :: t) := by rw [← hct, List.take_append_drop]
          rw [← List.cons_append, ← List.append_assoc, ← this]
        have hc0 : c0 ∈ w := List.mem_of_mem_drop (by rw [hct]; simp)
        have hov := getChars_over (valid := valid) (pred := jsonIsStringContent) (off := 8) (size := size) (mem := mem) hs hs2 hm
          (w.take (size - 1)) c0 (t ++ r) ⟨rfl, (content_iff c0).2 (hw c0 hc0)⟩
          (fun c hc => ⟨rfl, (content_iff c).2 (hw c (List.mem_of_mem_take hc))⟩) (fuel + 1) (by simp; omega) (by simp; omega)
        rw [← hwe, hg] at hov
        simp only [Res.ok.injEq] at hov
        rw [hov]
        simp
    cases hk : getChars (fuel + 1) valid jsonIsStringContent (In.ofList (w ++ r)) mem 8 size with
    | running => rfl
    | ub =>
      rw [show getCharsLoop valid jsonIsStringContent 8 size (fuel + 1) (In.ofList (w ++ r)) mem 0 = .ub from hk] at hblk
      exact hblk.elim
    | ok g =>
      rw [show getCharsLoop valid jsonIsStringContent 8 size (fuel + 1) (In.ofList (w ++ r)) mem 0 = .ok g from hk] at hblk
      obtain ⟨h1, h2, _⟩ := hblk
      have hd := hdead g hk
      have h3 : g.s.peekV = 255 := by simp [In.peekV, hd]
      simp only [Res.ok_bind, h3]
      rw [if_neg (by decide), if_neg (by decide)]
      exact strLoop_dead _ _ _ _ (In.peekS_notgood hd) (by rw [h1.1]; omega)

/-- An escape after which the stream is not good. -/
theorem skipStrLoop_escape {fuel : Nat} {R : List Byte} {e : Esc} (h : escaped (fuel + 1) (In.ofList (92 :: R)) = .ok e)
    (he : e.s.good = false) (f n : Nat) : skipStrLoop (fuel + 1) f (In.ofList (92 :: R)) n = .running := by
  cases f with
  | zero => rfl
  | succ f =>
    have h1 : skipChars (fuel + 1) valid jsonIsStringContent (In.ofList (92 :: R)) = .ok ⟨In.ofList (92 :: R), 0⟩ := by
      simp [skipChars, skipCharsLoop, jsonIsStringContent]
    rw [skipStrLoop, h1]
    simp only [Res.ok_bind, In.peekV_cons, In.peekS_cons, h]
    rw [if_neg (by decide), if_pos trivial]
    exact skipStrLoop_dead _ _ _ he

theorem strLoop_escape {fuel size : Nat} {R : List Byte} {e : Esc} (h : escaped (fuel + 1) (In.ofList (92 :: R)) = .ok e)
    (he : e.s.good = false) (f : Nat) (mem : List Byte) (hm : 10 ≤ mem.length) :
    strLoop (fuel + 1) size f (In.ofList (92 :: R)) mem 0 = .running := by
  cases f with
  | zero => rfl
  | succ f =>
    have h1 : ∀ k, getChars (fuel + 1) valid jsonIsStringContent (In.ofList (92 :: R)) mem 8 k =
        .ok ⟨In.ofList (92 :: R), mem.set 8 0, 0⟩ := by
      intro k
      simp [getChars, getCharsLoop, jsonIsStringContent, getCharsEnd, wr, show 8 < mem.length by omega]
    rw [strLoop, Nat.add_zero, h1]
    simp only [Res.ok_bind, In.peekV_cons, In.peekS_cons, h]
    rw [if_neg (by decide), if_pos trivial, wr_ok (by simp; omega), Res.ok_bind]
    exact strLoop_dead _ _ _ _ he (by simp; omega)

/-- `\u` with four hexadecimal digits that do not start with `00`. -/
theorem escaped_wide {fuel : Nat} {a b c d x : Byte} {r : List Byte} (ha : Hexdig a) (hb : Hexdig b) (hc : Hexdig c) (hd : Hexdig d)
    (hx : ¬ Hexdig x) (hw : ¬ (a = 48 ∧ b = 48)) (hf : 5 < fuel) :
    ∃ e, escaped fuel (In.ofList (92 :: 117 :: a :: b :: c :: d :: x :: r)) = .ok e ∧ e.s.good = false := by
  have hnx : isHex ((In.ofList (x :: r)).peekCharV valid) = false := by
    rw [peekCharV_valid, In.peekV_cons]; rw [← isHex_iff] at hx; simpa using hx
  have := getChars_app (size := 5) (valid := valid) (pred := isHex) (a := []) (v := [0, 0, 0, 0, 0])
    (by decide) (by decide) [a, b, c, d] (x :: r) hnx
    (by
      simp only [List.mem_cons, List.not_mem_nil, or_false, valid, true_and]
      rintro x (rfl | rfl | rfl | rfl) <;> rw [isHex_iff] <;> assumption) fuel (by simp) (by simp; omega) (by simp)
  simp only [List.nil_append, List.length_nil, List.cons_append] at this
  refine ⟨⟨(In.ofList (x :: r)).setBad, 0⟩, ?_, by simp⟩
  simp [escaped, this, hw]

/-- `\u` with five hexadecimal digits: `\u00XX` followed by a character that happens to be one. -/
theorem escaped_hex {fuel : Nat} {a b x : Byte} {r : List Byte} (ha : Hexdig a) (hb : Hexdig b)
    (hx : Hexdig x) (hf : 5 < fuel) :
    ∃ e, escaped fuel (In.ofList (92 :: 117 :: 48 :: 48 :: a :: b :: x :: r)) = .ok e ∧ e.s.good = false := by
  have := getChars_over (size := 5) (valid := valid) (pred := isHex) (off := 0) (mem := [0, 0, 0, 0, 0])
    (by decide) (by decide) (by simp) [48, 48, a, b] x r ⟨rfl, (isHex_iff x).2 hx⟩
    (by
      simp only [List.mem_cons, List.not_mem_nil, or_false, valid, true_and]
      rintro x (rfl | rfl | rfl | rfl)
      · decide
      · decide
      · rw [isHex_iff]; assumption
      · rw [isHex_iff]; assumption) fuel (by simp; omega) (by simp)
  simp only [List.cons_append, List.nil_append] at this
  refine ⟨⟨(In.ofList (x :: r)).setFail, (hex a <<< 4) ||| hex b⟩, ?_, by simp⟩
  simp [escaped, this, putMem]

/-- The reader on a stream that is not good. -/
theorem readToken_dead {max : Nat} {atof : List Byte → List Byte} {fuel size : Nat} {st : Jr} (h : st.s.good = false) :
    ∃ t, readToken max atof (fuel + 1) st none size = .ok t ∧ t.st.s.good = false ∧ t.st.levels = st.levels := by
  have h1 : st.s.peekV = 255 := by simp [In.peekV, h]
  have hsk : ∀ s : In, s.good = false → skipChars (fuel + 1) valid jsonIsSpace s = .ok ⟨s, 0⟩ := by
    intro s hs; simp [skipChars, skipCharsLoop, hs]
  have htr : ∀ p : Part, p.s.good = false → ∃ s, trailPart (fuel + 1) p = .ok s ∧ s.good = false := by
    intro p hp
    unfold trailPart
    split
    · rw [hsk _ hp]
      have h2 : p.s.peekV = 255 := by simp [In.peekV, hp]
      simp only [Res.ok_bind, h2]
      rw [if_neg (by decide)]
      split
      · exact ⟨_, rfl, by simp⟩
      · exact ⟨_, rfl, by simp⟩
    · exact ⟨_, rfl, hp⟩
  have fin : ∀ p : Part, p.s.good = false → p.levels = st.levels → p.buf = none →
      ∃ t, ((trailPart (fuel + 1) p).bind fun s => (bufItem p.item p.buf).bind fun buf =>
        Res.ok (⟨⟨s, p.expect, p.levels, p.n⟩, p.item, buf⟩ : Tok)) = .ok t ∧ t.st.s.good = false ∧ t.st.levels = st.levels := by
    intro p hp hl hb
    obtain ⟨s, hs, hsg⟩ := htr p hp
    rw [hs, hb]
    exact ⟨⟨⟨s, p.expect, p.levels, p.n⟩, p.item, none⟩, rfl, hsg, hl⟩
  rw [readToken, hsk _ h]
  simp only [Res.ok_bind, h1]
  cases expectProperty st.expect st.levels with
  | true =>
    simp only [if_true]
    rw [propPart, if_neg (by decide), if_neg (by decide)]
    exact fin _ (by simp) rfl rfl
  | false =>
    simp only [Bool.false_eq_true, if_false]
    rw [valuePart, if_neg (by decide), if_neg (by decide), if_neg (by decide), if_neg (by decide), if_neg (by decide), if_neg (by decide),
      if_neg (by decide), if_neg (by decide)]
    exact fin _ (by simp) rfl rfl

theorem skipLoop_dead {max fuel base : Nat} (f : Nat) : ∀ st : Jr, st.s.good = false → base < st.levels.length →
    skipLoop max (fuel + 1) base f st = .running := by
  induction f with
  | zero => intro st _ _; rfl
  | succ f ih =>
    intro st hs hl
    obtain ⟨t, ht, h1, h2⟩ := readToken_dead (max := max) (atof := fun _ => List.replicate 8 0) (fuel := fuel) (size := 0) hs
    rw [skipLoop, ht, Res.ok_bind, h2, if_pos hl]
    exact ih _ h1 (by rw [h2]; exact hl)

end Abc.Json
