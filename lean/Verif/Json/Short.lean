import Verif.Json.Safety

/-!
# Short input

Whatever the input is: if what is left of it is shorter than the token buffer, then the reader stays inside the buffer.  (With
long input it does not: `C08_violated_overflow` and its like.)
-/

namespace Abc.Json

open Abc.Ascii Abc.Stream Spec

/-- `s'` comes after `s` in the same input. -/
def Le (s' s : In) : Prop := s'.rest <:+ s.rest ∧ s'.meas ≤ s.meas

theorem Le.refl (s : In) : Le s s := ⟨List.suffix_refl _, Nat.le_refl _⟩
theorem Le.trans {a b c : In} (h1 : Le a b) (h2 : Le b c) : Le a c := ⟨h1.1.trans h2.1, Nat.le_trans h1.2 h2.2⟩
theorem le_peekS (s : In) : Le s.peekS s := ⟨In.peekS_rest s ▸ List.suffix_refl _, meas_peekS s⟩
theorem le_getS (s : In) : Le s.getS s := ⟨getS_suffix s, In.getS_meas_le s⟩
theorem le_setBad (s : In) : Le s.setBad s := ⟨List.suffix_refl _, meas_setBad s⟩
theorem le_setFail (s : In) : Le s.setFail s := ⟨List.suffix_refl _, by simp [In.meas]⟩
theorem le_take (s : In) : Le s.peekS.getS s := (le_getS _).trans (le_peekS s)
theorem le_bad (s : In) : Le s.peekS.setBad s := (le_setBad _).trans (le_peekS s)

theorem Le.length {a b : In} (h : Le a b) : a.rest.length ≤ b.rest.length := h.1.length_le

theorem meas_le (s : In) : s.meas ≤ s.rest.length + 1 := by unfold In.meas; split <;> omega

/-- A character other than 255 is there: taking it makes the input shorter. -/
theorem take_meas {s : In} {c : Byte} (h : s.peekV = c) (hc : c ≠ 255) : s.peekS.getS.meas + 1 ≤ s.meas := by
  have hg : s.good = true := by
    cases hg : s.good with
    | true => rfl
    | false => rw [In.peekV, hg] at h; simp at h; exact absurd h.symm hc
  have := In.peek_get_meas valid hg
  rw [peekCharS_valid] at this
  omega

theorem getCharsLoop_le {pred : Byte → Bool} {off size : Nat} (fuel : Nat) : ∀ (s : In) (mem : List Byte) (n : Nat) (g : Got),
    getCharsLoop valid pred off size fuel s mem n = .ok g → Le g.s s := by
  induction fuel with
  | zero => intro s mem n g h; simp [getCharsLoop] at h
  | succ f ih =>
    intro s mem n g h
    have hend : ∀ s' : In, Le s' s → getCharsEnd off s' mem n = .ok g → Le g.s s := by
      intro s' hs hg
      unfold getCharsEnd wr at hg
      split at hg
      · simp only [Res.ok_bind, Res.ok.injEq] at hg
        subst hg
        exact hs
      · simp at hg
    unfold getCharsLoop at h
    rw [peekCharV_valid, peekCharS_valid] at h
    split at h
    · split at h
      · split at h
        · exact hend _ ((le_setFail _).trans (le_peekS s)) h
        · unfold wr at h
          split at h
          · simp only [Res.ok_bind] at h
            exact (ih _ _ _ _ h).trans (le_take s)
          · simp at h
      · exact hend _ (le_peekS s) h
    · exact hend _ (Le.refl s) h

theorem skipCharsLoop_le {pred : Byte → Bool} (fuel : Nat) : ∀ (s : In) (n : Nat) (k : Skipped),
    skipCharsLoop valid pred fuel s n = .ok k → Le k.s s := by
  induction fuel with
  | zero => intro s n k h; simp [skipCharsLoop] at h
  | succ f ih =>
    intro s n k h
    unfold skipCharsLoop at h
    rw [peekCharV_valid, peekCharS_valid] at h
    split at h
    · split at h
      · exact (ih _ _ _ h).trans (le_take s)
      · simp only [Res.ok.injEq] at h
        subst h
        exact le_peekS s
    · simp only [Res.ok.injEq] at h
      subst h
      exact Le.refl s

theorem skipSpaces_le {pred : Byte → Bool} (fuel : Nat) (s : In) : Safe (fun k => Le k.s s) (skipChars fuel valid pred s) :=
  ((skipCharsLoop_noub (pred := pred) fuel s 0).and fun k hk => skipCharsLoop_le fuel s 0 k hk).mono fun _ h => h.2

/-! ## Strings -/

/-- The characters that are stored are at most as many as those that are taken. -/
theorem getCharsLoop_short {pred : Byte → Bool} {off size : Nat} (fuel : Nat) : ∀ (s : In) (mem : List Byte) (n : Nat),
    off + n + s.meas < mem.length →
    Safe (fun g => g.mem.length = mem.length ∧ g.n + g.s.meas ≤ n + s.meas ∧ Le g.s s)
      (getCharsLoop valid pred off size fuel s mem n) := by
  induction fuel with
  | zero => intro s mem n _; trivial
  | succ f ih =>
    intro s mem n hm
    have hend : ∀ s' : In, Le s' s → Safe (fun g => g.mem.length = mem.length ∧ g.n + g.s.meas ≤ n + s.meas ∧ Le g.s s)
        (getCharsEnd off s' mem n) := by
      intro s' hs
      rw [getCharsEnd, wr_ok (by omega)]
      exact ⟨by simp, by have := hs.2; dsimp only; omega, hs⟩
    unfold getCharsLoop
    rw [peekCharV_valid, peekCharS_valid]
    split
    · rename_i hg
      split
      · split
        · exact hend _ ((le_setFail _).trans (le_peekS s))
        · have h := In.peek_get_meas valid hg
          rw [peekCharS_valid] at h
          rw [wr_ok (by omega), Res.ok_bind]
          refine (ih _ _ (n + 1) (by rw [List.length_set]; omega)).mono ?_
          rintro g ⟨a, b, c⟩
          exact ⟨by rw [a, List.length_set], by omega, c.trans (le_take s)⟩
      · exact hend _ (le_peekS s)
    · exact hend _ (Le.refl s)

/-- An escape takes at least the backslash. -/
theorem escaped_short {fuel : Nat} {s : In} (h : s.peekV = 92) : Safe (fun e => Le e.s s ∧ e.s.meas + 1 ≤ s.meas) (escaped fuel s) := by
  have h1 := take_meas h (by decide)
  have hp : ∀ s' : In, Le s' s.peekS.getS → Le s' s ∧ s'.meas + 1 ≤ s.meas := fun s' h => ⟨h.trans (le_take s), by have := h.2; omega⟩
  unfold escaped
  rw [if_pos h]
  dsimp only
  have h2 := hp _ (le_take s.peekS.getS)
  repeat' (first | exact (h2 : Safe _ (Res.ok _)) | split)
  · refine ((getCharsLoop_block (pred := isHex) (off := 0) (size := 5) (by decide) (by decide) fuel _ [0, 0, 0, 0, 0] 0
      (by simp) (by omega)).and fun g hg => getCharsLoop_le fuel _ _ 0 g hg).bind ?_
    rintro g ⟨_, hg⟩
    have h3 := hp _ (hg.trans (le_take _))
    have h4 := hp _ ((le_setBad _).trans (hg.trans (le_take _)))
    repeat' (first | exact (h3 : Safe _ (Res.ok _)) | exact (h4 : Safe _ (Res.ok _)) | split)
  · exact hp _ (le_peekS _)

theorem strLoop_short {fuel size : Nat} (f : Nat) : ∀ (s : In) (mem : List Byte) (n : Nat), 8 + n + s.meas < mem.length →
    Safe (fun g => g.mem.length = mem.length ∧ g.n + g.s.meas ≤ n + s.meas ∧ Le g.s s) (strLoop fuel size f s mem n) := by
  induction f with
  | zero => intro s mem n _; trivial
  | succ f ih =>
    intro s mem n hm
    rw [strLoop]
    refine (getCharsLoop_short (pred := jsonIsStringContent) (off := 8 + n) fuel s mem 0 (by omega)).bind ?_
    rintro g ⟨a, b, c⟩
    split
    · exact ⟨a, by have := (le_take g.s).2; dsimp only; omega, (le_take g.s).trans c⟩
    · split
      · rename_i h
        have hp : g.s.peekS.peekV = 92 := by
          have h1 := take_meas h (by decide)
          cases hg : g.s.good with
          | false => rw [In.peekV, hg] at h; simp at h
          | true =>
            rcases In.peekS_cases g.s hg with ⟨x, r, _, e⟩ | ⟨e, _⟩
            · rw [e]; exact h
            · rw [e] at h; simp at h
        refine (escaped_short (fuel := fuel) hp).bind ?_
        rintro e ⟨e1, e2⟩
        have e3 := (le_peekS g.s).2
        rw [wr_ok (by omega), Res.ok_bind]
        refine (ih _ _ _ (by rw [List.length_set]; omega)).mono ?_
        rintro x ⟨x1, x2, x3⟩
        exact ⟨by rw [x1, List.length_set, a], by omega, x3.trans (e1.trans ((le_peekS _).trans c))⟩
      · have e3 := (le_peekS g.s).2
        refine (ih g.s.peekS g.mem (n + g.n) (by omega)).mono ?_
        rintro x ⟨x1, x2, x3⟩
        exact ⟨by omega, by omega, x3.trans ((le_peekS _).trans c)⟩

/-- The string ends inside of the buffer, with a NUL. -/
theorem getString_short {fuel size : Nat} {s : In} {mem : List Byte} (hm : 8 + s.meas < mem.length) :
    Safe (fun g => g.mem.length = mem.length ∧ Le g.s s ∧ g.n ≤ s.meas ∧ g.mem[8 + g.n]? = some 0) (getString fuel size s mem) := by
  unfold getString
  have h0 : Safe (fun g : Got => g.mem.length = mem.length ∧ g.n + g.s.meas ≤ s.meas ∧ Le g.s s)
      (if s.peekV = 34 then strLoop fuel size fuel s.peekS.getS mem 0 else .ok ⟨s.peekS, mem, 0⟩) := by
    split
    · have := (le_take s).2
      refine (strLoop_short fuel _ mem 0 (by omega)).mono ?_
      rintro g ⟨a, b, c⟩
      exact ⟨a, by omega, c.trans (le_take s)⟩
    · exact ⟨rfl, by have := (le_peekS s).2; dsimp only; omega, le_peekS s⟩
  refine h0.bind ?_
  rintro g ⟨a, b, c⟩
  rw [wr_ok (by omega), Res.ok_bind]
  exact ⟨by simp [a], c, by dsimp only; omega, by dsimp only; rw [List.getElem?_set_self (by omega)]⟩

theorem skipStrLoop_le {fuel : Nat} (f : Nat) : ∀ (s : In) (n : Nat), Safe (fun k => Le k.s s) (skipStrLoop fuel f s n) := by
  induction f with
  | zero => intro s n; trivial
  | succ f ih =>
    intro s n
    rw [skipStrLoop]
    refine (skipSpaces_le fuel s).bind fun k hk => ?_
    split
    · exact (le_take _).trans hk
    · split
      · rename_i h
        have hp : k.s.peekS.peekV = 92 := by
          cases hg : k.s.good with
          | false => rw [In.peekV, hg] at h; simp at h
          | true =>
            rcases In.peekS_cases k.s hg with ⟨x, r, _, e⟩ | ⟨e, _⟩
            · rw [e]; exact h
            · rw [e] at h; simp at h
        exact (escaped_short hp).bind fun e he => (ih _ _).mono fun x hx => hx.trans (he.1.trans ((le_peekS _).trans hk))
      · exact (ih _ _).mono fun x hx => hx.trans ((le_peekS _).trans hk)

/-! ## Numbers and literals -/

theorem numDigits_le {fuel : Nat} {g x : Got} (h : numDigits fuel g = .ok x) : Le x.s g.s := by
  unfold numDigits at h
  cases hg : getChars fuel valid isDigit g.s g.mem g.n (sub64 26 g.n) with
  | ub => rw [hg] at h; cases h
  | running => rw [hg] at h; cases h
  | ok y =>
    rw [hg, Res.ok_bind] at h
    cases h
    exact getCharsLoop_le fuel _ _ 0 y hg

theorem wr_le {mem : List Byte} {i : Nat} {c : Byte} {f : List Byte → Res Got} {s : In} {x : Got} (h : (wr mem i c).bind f = .ok x)
    (hf : ∀ m, f m = .ok x → Le x.s s) : Le x.s s := by
  unfold wr at h
  split at h
  · exact hf _ h
  · cases h

theorem numSign_le {g x : Got} (h : numSign g = .ok x) : Le x.s g.s := by
  unfold numSign at h
  split at h
  · refine wr_le h fun m hm => ?_
    cases hm
    exact le_take _
  · cases h
    exact le_peekS _

theorem numFrac_le {fuel : Nat} {g x : Got} (h : numFrac fuel g = .ok x) : Le x.s g.s := by
  unfold numFrac at h
  split at h
  · exact wr_le h fun m hm => (numDigits_le hm).trans (le_take _)
  · cases h
    exact le_peekS _

theorem numExp_le {fuel : Nat} {g x : Got} (h : numExp fuel g = .ok x) : Le x.s g.s := by
  unfold numExp at h
  split at h
  · refine wr_le h fun m hm => ?_
    cases hs : numSign ⟨g.s.peekS.getS, m, g.n + 1⟩ with
    | ub => rw [hs] at hm; cases hm
    | running => rw [hs] at hm; cases hm
    | ok y =>
      rw [hs, Res.ok_bind] at hm
      exact (numDigits_le hm).trans ((numSign_le hs).trans (le_take _))
  · cases h
    exact le_peekS _

theorem getNumber_short {fuel : Nat} {s : In} (h : s.good = true → run s.rest ≤ 25) :
    Safe (fun g => Le g.s s) (getNumber fuel s) := by
  unfold getNumber
  refine ((numSign_small (g := ⟨s, List.replicate 26 0, 0⟩) ⟨by simp, by simp, by simpa using h⟩).and
    fun x hx => numSign_le hx).bind ?_
  rintro a ⟨ha, ha'⟩
  refine ((numDigits_small ha).and fun x hx => numDigits_le hx).bind ?_
  rintro b ⟨hb, hb'⟩
  refine ((numFrac_small hb).and fun x hx => numFrac_le hx).bind ?_
  rintro c ⟨hc, hc'⟩
  refine ((numExp_small hc).and fun x hx => numExp_le hx).bind ?_
  rintro d ⟨hd, hd'⟩
  rw [wr_ok (by have := hd.1; have := hd.2.1; omega)]
  exact hd'.trans (hc'.trans (hb'.trans ha'))

theorem getLiteral_le (l : List Byte) : ∀ s : In, Le (getLiteral l s) s := by
  have hc : ∀ s : In, Le (s.getCharS valid) s := by
    intro s
    unfold In.getCharS
    rw [peekCharS_valid]
    split
    · exact le_take s
    · exact le_peekS s
  induction l with
  | nil => intro s; exact Le.refl s
  | cons c l ih =>
    intro s
    unfold getLiteral
    split
    · exact (le_setBad _).trans (hc s)
    · exact (ih _).trans (hc s)

/-! ## Tokens -/

/-- The buffer after the call has the size it had. -/
def BufLen : Option (List Byte) → Option (List Byte) → Prop
  | none, b => b = none
  | some mem, some mem' => mem'.length = mem.length
  | some _, none => False

theorem BufLen.refl (b : Option (List Byte)) : BufLen b b := by cases b <;> rfl

theorem BufLen.trans {a b c : Option (List Byte)} (h1 : BufLen a b) (h2 : BufLen b c) : BufLen a c := by
  cases a with
  | none => simp only [BufLen] at h1; subst h1; exact h2
  | some x =>
    cases b with
    | none => exact h1.elim
    | some y =>
      cases c with
      | none => exact h2.elim
      | some z => simp only [BufLen] at h1 h2 ⊢; omega

/-- A text in the buffer: it is terminated within `n` bytes. -/
def Text (n : Nat) (b : Option (List Byte)) : Prop := ∀ m ∈ b, ∃ k, k ≤ n ∧ m[8 + k]? = some 0

/-- Room for what is left of the input. -/
def Roomy (s : In) (buf : Option (List Byte)) : Prop := ∀ mem ∈ buf, s.rest.length + 10 ≤ mem.length ∧ 16 ≤ mem.length

theorem tokString_short {fuel size : Nat} {s : In} {buf : Option (List Byte)} (hm : Roomy s buf) :
    Safe (fun x => BufLen buf (tokBuf x) ∧ Le x.1.s s ∧ Text (s.rest.length + 1) (tokBuf x)) (tokString fuel size s buf) := by
  cases buf with
  | none =>
    unfold tokString skipString
    refine Safe.bind (P := fun k => Le k.s s) ?_ ?_
    · split
      · exact (skipStrLoop_le _ _ _).mono fun k hk => hk.trans (le_take s)
      · exact le_peekS s
    · intro k hk
      exact ⟨rfl, hk, by simp [Text, tokBuf]⟩
  | some mem =>
    have hm := hm mem rfl
    have := meas_le s
    unfold tokString
    refine (getString_short (by omega)).bind ?_
    rintro g ⟨a, b, c, d⟩
    refine ⟨a, b, ?_⟩
    intro m hm
    simp only [tokBuf, if_true, Option.mem_def, Option.some.injEq] at hm
    subst hm
    exact ⟨g.n, by omega, d⟩

theorem bufBool_short {b : Byte} {s : In} {buf : Option (List Byte)} (hm : Roomy s buf) : Safe (BufLen buf) (bufBool b buf) := by
  cases buf with
  | none => rfl
  | some mem =>
    have hm := hm mem rfl
    rw [bufBool, wr_ok (by omega)]
    simp [Safe, BufLen]

theorem bufNumber_short {atof : List Byte → List Byte} (hat : ∀ x, (atof x).length = 8) {d : List Byte} {s : In} {buf : Option (List Byte)}
    (hm : Roomy s buf) : Safe (BufLen buf) (bufNumber atof d buf) := by
  cases buf with
  | none => rfl
  | some mem =>
    have hm := hm mem rfl
    have h8 := hat (d.takeWhile (· ≠ 0))
    rw [bufNumber, wrs_ok _ _ _ (by omega)]
    exact putMem_length (by omega)

/-- What the two branches leave. -/
def PartOk (buf : Option (List Byte)) (s : In) (p : Part) : Prop :=
  BufLen buf p.buf ∧ Le p.s s ∧ (p.item = .property ∨ p.item = .string → Text (s.rest.length + 1) p.buf)

theorem propPart_short {fuel size : Nat} {ch : Byte} {s : In} {st : Jr} {buf : Option (List Byte)} (hm : Roomy s buf) :
    Safe (PartOk buf s) (propPart fuel size ch s st buf) := by
  unfold propPart
  split
  · refine (tokString_short hm).bind ?_
    rintro x ⟨a, b, c⟩
    split
    · refine (skipSpaces_le fuel x.1.s).bind fun k hk => ?_
      refine ⟨a, ?_, fun _ => c⟩
      dsimp only
      split
      · exact (le_take _).trans (hk.trans b)
      · exact (le_bad _).trans (hk.trans b)
    · exact ⟨a, b, fun _ => c⟩
  · split
    · split
      · exact ⟨BufLen.refl _, le_getS _, by simp⟩
      · exact ⟨BufLen.refl _, (le_setBad _).trans (le_getS _), by simp⟩
    · exact ⟨BufLen.refl _, le_setBad _, by simp⟩

theorem levelPart_short {s : In} {st : Jr} {l : Option (List Bool)} {i : Item} {b : Option (List Byte)} {t : Bool}
    (h1 : i ≠ .property) (h2 : i ≠ .string) : PartOk b s (levelPart s.getS st l i b t) := by
  unfold levelPart
  split
  · exact ⟨BufLen.refl _, le_getS _, by simp [h1, h2]⟩
  · exact ⟨BufLen.refl _, (le_setBad _).trans (le_getS _), by simp [h1, h2]⟩

theorem valuePart_short {max : Nat} {atof : List Byte → List Byte} (hat : ∀ x, (atof x).length = 8) {fuel size : Nat} {ch : Byte} {s : In}
    {st : Jr} {buf : Option (List Byte)} (hr : s.good = true → run s.rest ≤ 25) (hm : Roomy s buf) :
    Safe (PartOk buf s) (valuePart max atof fuel size ch s st buf) := by
  have hlit : ∀ (w : List Byte) (b : Byte) (e : Bool), Safe (PartOk buf s)
      (if (getLiteral w s).good then (bufBool b buf).bind fun buf => .ok ⟨getLiteral w s, e, st.levels, .boolean, 3, buf, true⟩
        else .ok ⟨getLiteral w s, e, st.levels, .none, 2, buf, true⟩) := by
    intro w b e
    split
    · exact (bufBool_short hm).bind fun b hb => ⟨hb, getLiteral_le _ _, by simp⟩
    · exact ⟨BufLen.refl _, getLiteral_le _ _, by simp⟩
  unfold valuePart
  dsimp only
  split
  · exact ⟨BufLen.refl _, getLiteral_le _ _, by dsimp only; split <;> simp⟩
  · split
    · exact hlit _ _ _
    · split
      · exact hlit _ _ _
      · split
        · exact (getNumber_short hr).bind fun g hg => (bufNumber_short hat hm).bind fun b hb => ⟨hb, hg, by simp⟩
        · split
          · refine (tokString_short hm).bind ?_
            rintro x ⟨a, b, c⟩
            exact ⟨a, b, fun _ => c⟩
          · split
            · exact levelPart_short (by simp) (by simp)
            · split
              · exact levelPart_short (by simp) (by simp)
              · split
                · exact levelPart_short (by simp) (by simp)
                · exact ⟨BufLen.refl _, le_setBad _, by simp⟩

theorem trailPart_short (fuel : Nat) (p : Part) : Safe (fun s => Le s p.s) (trailPart fuel p) := by
  unfold trailPart
  split
  · refine (skipSpaces_le fuel p.s).bind fun k hk => ?_
    have h1 : Le k.s.peekS.getS p.s := (le_take _).trans hk
    have h2 : Le k.s.peekS p.s := (le_peekS _).trans hk
    have h3 : Le k.s.peekS.setBad p.s := (le_bad _).trans hk
    split
    · exact h1
    · split
      · show Le _ _
        split <;> assumption
      · show Le _ _
        split <;> assumption
  · exact Le.refl _

theorem bufItem_short {i : Item} {b : Option (List Byte)} (hm : ∀ mem ∈ b, 16 ≤ mem.length) :
    Safe (fun x => BufLen b x ∧ ∀ n, Text n b → Text n x) (bufItem i b) := by
  cases b with
  | none => exact ⟨rfl, fun _ h => h⟩
  | some mem =>
    have hm := hm mem rfl
    have h2 := Item.bytes_length i
    rw [bufItem, wrs_ok _ _ _ (by omega)]
    refine ⟨putMem_length (by omega), ?_⟩
    intro n h m hm'
    simp only [Option.mem_def, Option.some.injEq] at hm'
    subst hm'
    obtain ⟨k, h3, h4⟩ := h mem rfl
    exact ⟨k, h3, by rw [putMem_getElem?_out (by omega) (by omega)]; exact h4⟩

/-- No number with more than 25 characters, anywhere. -/
def Runs (s : In) : Prop := ∀ r, r <:+ s.rest → run r ≤ 25

theorem Runs.le {s s' : In} (h : Runs s) (hl : Le s' s) : Runs s' := fun r hr => h r (hr.trans hl.1)

/-- Whatever the input is: while what is left of it is ten bytes shorter than the buffer and no 26 characters in a row could belong to a
number, `get_token` stays inside of the buffer; names and strings are terminated there. -/
theorem readToken_short {max : Nat} {atof : List Byte → List Byte} (hat : ∀ x, (atof x).length = 8) {fuel size : Nat} {st : Jr}
    {buf : Option (List Byte)} (hr : Runs st.s) (hm : Roomy st.s buf) :
    Safe (fun t => BufLen buf t.buf ∧ Le t.st.s st.s ∧ (t.item = .property ∨ t.item = .string → Text (st.s.rest.length + 1) t.buf))
      (readToken max atof fuel st buf size) := by
  unfold readToken
  refine (skipSpaces_le fuel st.s).bind fun k hk => ?_
  have hk' : Le k.s.peekS st.s := (le_peekS _).trans hk
  have hm' : Roomy k.s.peekS buf := fun mem h => ⟨by have := (hm mem h).1; have := hk'.length; omega, (hm mem h).2⟩
  have hp : Safe (PartOk buf k.s.peekS)
      (if expectProperty st.expect st.levels then propPart fuel size k.s.peekV k.s.peekS st buf
        else valuePart max atof fuel size k.s.peekV k.s.peekS st buf) := by
    split
    · exact propPart_short hm'
    · exact valuePart_short hat (fun _ => hr.le hk' _ (List.suffix_refl _)) hm'
  refine hp.bind ?_
  rintro p ⟨p1, p2, p3⟩
  refine (trailPart_short fuel p).bind fun s hs => ?_
  have h16 : ∀ mem ∈ p.buf, 16 ≤ mem.length := by
    intro mem hmem
    rw [Option.mem_def] at hmem
    rw [hmem] at p1
    cases buf with
    | none => cases p1
    | some m => simp only [BufLen] at p1; rw [p1]; exact (hm m rfl).2
  refine (bufItem_short h16).bind ?_
  rintro b ⟨b1, b2⟩
  refine ⟨p1.trans b1, hs.trans (p2.trans hk'), fun h => ?_⟩
  intro m hmem
  obtain ⟨j, j1, j2⟩ := b2 _ (p3 h) m hmem
  exact ⟨j, by have := hk'.length; omega, j2⟩

/-- … and so does `skip_value`, which has no buffer. -/
theorem skipLoop_short {max fuel base : Nat} (f : Nat) : ∀ st : Jr, Runs st.s → Safe (fun t => Le t.st.s st.s) (skipLoop max fuel base f st) := by
  induction f with
  | zero => intro st _; trivial
  | succ f ih =>
    intro st hr
    rw [skipLoop]
    refine (readToken_short (max := max) (fuel := fuel) (size := 0) (buf := none) (by simp) hr (by simp [Roomy])).bind ?_
    rintro t ⟨_, h, _⟩
    split
    · exact (ih t.st (hr.le h)).mono fun x hx => hx.trans h
    · exact h

end Abc.Json
