import Verif.Log.Props
import Verif.Timestamp.Props

/-! # Entries of a log (C103, C104)

What `debug_line_ostream`, `diag_line_ostream` and `test_line_ostream` write before the message (`put_props` in
`src/log.h`), with the formats of `printf` spelled out, and whole logs of diag lines.

Simplifications: the parts of the time are natural numbers (a clock before 1970 gives negative ones); the message is the
text `vsnprintf` makes of format and arguments. -/

namespace Abc.Log
open Abc.Ascii Abc.Timestamp Abc.Timestamp.Spec

/-! ## Numbers in text -/

/-- The last `k` digits of a number. -/
def fixed (base : Nat) : Nat → Nat → List Byte
  | 0, _ => []
  | k + 1, n => fixed base k (n / base) ++ [hexDigit (n % base)]

/-- How many digits a number has, at least one and at most 20, which is enough for 64 bits. -/
def digitCount (base : Nat) : Nat → Nat → Nat
  | 0, _ => 1
  | f + 1, n => if n < base then 1 else digitCount base f (n / base) + 1

/-- `printf` of an unsigned number with a precision: `%.4x`, `%3.3u` (a width that is not more than the precision does nothing). -/
def printNum (base prec n : Nat) : List Byte := fixed base (max prec (digitCount base 19 n)) n

/-- `printf` with a width only: blanks on the left, `%16s`, `%16llx`. -/
def padLeft (width : Nat) (t : List Byte) : List Byte := List.replicate (width - t.length) 32 ++ t

/-! ## Entries -/

/-- The parts of a timestamp that are written. -/
structure Stamp where
  year : Nat
  month : Nat
  day : Nat
  hours : Nat
  minutes : Nat
  seconds : Nat
  milliseconds : Nat
deriving DecidableEq, Repr

/-- The getters of a timestamp; the milliseconds are `nanoseconds / microsecond_count`, `src/timestamp.h` 345. -/
def stampOf (t : Timestamp) : Stamp :=
  ⟨t.date.year.toNat, t.date.month.toNat, t.date.day.toNat, t.time.hours.toNat, t.time.minutes.toNat, t.time.seconds.toNat,
    (t.time.nanoseconds.tdiv 1000000).toNat⟩

/-- `put_timestamp`, `src/table.h` 148-152, with `"%4.4u-%2.2u-%2.2u?%2.2u:%2.2u:%2.2u.%3.3u"`; `sep` is what stands for `?`, a
blank in debug and test lines (`src/log.h` 93 and 225), a `T` in diag lines (159). -/
def stampText (sep : Byte) (s : Stamp) : List Byte :=
  printNum 10 4 s.year ++ [45] ++ printNum 10 2 s.month ++ [45] ++ printNum 10 2 s.day ++ [sep] ++ printNum 10 2 s.hours ++ [58] ++
    printNum 10 2 s.minutes ++ [58] ++ printNum 10 2 s.seconds ++ [46] ++ printNum 10 3 s.milliseconds

/-- `put_thread_id`, `src/table.h` 155-170: the id is written in hexadecimal digits and a NUL to a stream over 16 of 17
characters.  With 16 digits the NUL is lost and what follows the array is printed: `none`. -/
def threadText (id : Nat) : Option (List Byte) := if digitCount 16 19 id ≤ 15 then some (printNum 16 1 id) else none

/-- What a call of `put_any` of a log says. -/
structure Entry where
  stamp : Stamp
  thread : Nat
  category : Nat
  severity : Nat
  tag : Nat
  message : List Byte
deriving DecidableEq, Repr

/-- `diag_line_ostream::put_props`, `src/log.h` 158-164. -/
def diagProps (e : Entry) : Option (List (List Byte)) :=
  match threadText e.thread with
  | none => none
  | some t => some [stampText 84 e.stamp ++ [90, 44], t ++ [44], printNum 16 4 e.category ++ [44], printNum 16 1 e.severity ++ [44], printNum 16 1 e.tag ++ [44]]

/-- `debug_line_ostream::put_props`, `src/log.h` 92-98. -/
def debugProps (e : Entry) : Option (List (List Byte)) :=
  match threadText e.thread with
  | none => none
  | some t => some [stampText 32 e.stamp ++ [32, 124], [32] ++ padLeft 16 t ++ [32, 124], [32] ++ printNum 16 4 e.category ++ [32, 124],
      [32] ++ printNum 16 1 e.severity ++ [32, 124], [32] ++ padLeft 16 (printNum 16 1 e.tag) ++ [32, 124, 32]]

/-- `test_line_ostream::put_props`, `src/log.h` 224-232. -/
def testProps (e : Entry) : Option (List (List Byte)) :=
  match severityIndent (UInt8.ofNat e.severity) with
  | none => none
  | some i => some [stampText 32 e.stamp ++ [32], i]

/-- `put_anyv` of a log (`src/log.h` 270-275) after its filter: a line is made, `put_props` and the message are put into it
(63-67, 129-133, 195-199), and its destructor sends it. -/
def putEntry (size : Nat) (props : Entry → Option (List (List Byte))) (buf : List Byte) (e : Entry) : Option (List Byte) :=
  match props e with
  | none => none
  | some ps =>
    match putAll size (ps ++ [e.message]) (newLine buf) with
    | none => none
    | some l =>
      match flush true size l with
      | none => none
      | some l' => some l'.out.flatten

/-- A log: what is written by the entries one after the other; each line object has its own array. -/
def putEntries (size : Nat) (props : Entry → Option (List (List Byte))) : List (List Byte × Entry) → Option (List Byte)
  | [] => some []
  | (buf, e) :: es =>
    match putEntry size props buf e, putEntries size props es with
    | some a, some b => some (a ++ b)
    | _, _ => none

/-! ## What is expected -/

/-- Hexadecimal or decimal digits. -/
def readNum (base : Nat) : List Byte → Option Nat
  | t => t.foldl (fun a c => match a, hexValue c with
    | some n, some d => if d < base then some (n * base + d) else none
    | _, _ => none) (some 0)

/-- A field and what follows the separator. -/
def cut (sep : Byte) : List Byte → List Byte × List Byte
  | [] => ([], [])
  | c :: t => if c = sep then ([], t) else (c :: (cut sep t).1, (cut sep t).2)

/-- A reader of the time `YYYY-MM-DDTHH:MM:SS.mmmZ`, by columns. -/
def readStamp (t : List Byte) : Option Stamp :=
  if t.length = 24 ∧ t[4]? = some 45 ∧ t[7]? = some 45 ∧ t[10]? = some 84 ∧ t[13]? = some 58 ∧ t[16]? = some 58 ∧ t[19]? = some 46 ∧ t[23]? = some 90 then
    match readNum 10 (t.take 4), readNum 10 ((t.drop 5).take 2), readNum 10 ((t.drop 8).take 2), readNum 10 ((t.drop 11).take 2),
      readNum 10 ((t.drop 14).take 2), readNum 10 ((t.drop 17).take 2), readNum 10 ((t.drop 20).take 3) with
    | some a, some b, some c, some d, some e, some f, some g => some ⟨a, b, c, d, e, f, g⟩
    | _, _, _, _, _, _, _ => none
  else none

/-- A reader of one diag line: five fields with commas, then the message. -/
def readDiag (line : List Byte) : Option Entry :=
  let a := cut 44 line
  let b := cut 44 a.2
  let c := cut 44 b.2
  let d := cut 44 c.2
  let e := cut 44 d.2
  match readStamp a.1, readNum 16 b.1, readNum 16 c.1, readNum 16 d.1, readNum 16 e.1 with
  | some s, some t, some k, some v, some g => some ⟨s, t, k, v, g, e.2⟩
  | _, _, _, _, _ => none

/-- A reader of a log: line by line, to the end. -/
def readLog : Nat → List Byte → Option (List Entry)
  | 0, _ => none
  | _ + 1, [] => some []
  | f + 1, c :: t =>
    match readDiag (cut 10 (c :: t)).1, readLog f (cut 10 (c :: t)).2 with
    | some e, some es => some (e :: es)
    | _, _ => none

/-- The ranges of the types and a year that a `system_clock` can have; the id of a thread fits. -/
structure Entry.Ok (e : Entry) : Prop where
  year : e.stamp.year < 10000
  month : e.stamp.month < 100
  day : e.stamp.day < 100
  hours : e.stamp.hours < 100
  minutes : e.stamp.minutes < 100
  seconds : e.stamp.seconds < 100
  milliseconds : e.stamp.milliseconds < 1000
  thread : e.thread < 2 ^ 60
  category : e.category < 2 ^ 16
  severity : e.severity < 2 ^ 8
  tag : e.tag < 2 ^ 64

/-! ## Lemmas about numbers -/

theorem fixed_length (base : Nat) : ∀ k n, (fixed base k n).length = k := by
  intro k
  induction k with
  | zero => intro n; rfl
  | succ k ih => intro n; unfold fixed; rw [List.length_append, ih]; rfl

theorem digitCount_pos (base f n : Nat) : 1 ≤ digitCount base f n := by
  cases f with
  | zero => exact Nat.le_refl 1
  | succ f => unfold digitCount; split <;> omega

theorem digitCount_le {base : Nat} (hb : 2 ≤ base) : ∀ w f n, n < base ^ (w + 1) → digitCount base f n ≤ w + 1 := by
  intro w
  induction w with
  | zero =>
    intro f n h
    cases f with
    | zero => exact Nat.le_refl 1
    | succ f =>
      unfold digitCount
      rw [if_pos (by simpa using h)]
      exact Nat.le_refl 1
  | succ w ih =>
    intro f n h
    cases f with
    | zero => unfold digitCount; omega
    | succ f =>
      unfold digitCount
      split
      · omega
      · have := ih f (n / base) (by rw [Nat.div_lt_iff_lt_mul (by omega), ← Nat.pow_succ]; exact h)
        omega

theorem lt_digitCount {base : Nat} (hb : 2 ≤ base) : ∀ f n, n < base ^ (f + 1) → n < base ^ digitCount base f n := by
  intro f
  induction f with
  | zero => intro n h; exact h
  | succ f ih =>
    intro n h
    unfold digitCount
    split
    · simpa using ‹n < base›
    · have := ih (n / base) (by rw [Nat.div_lt_iff_lt_mul (by omega), ← Nat.pow_succ]; exact h)
      rw [Nat.div_lt_iff_lt_mul (by omega), ← Nat.pow_succ] at this
      exact this

theorem printNum_fixed {base w n : Nat} (hb : 2 ≤ base) (h : n < base ^ (w + 1)) : printNum base (w + 1) n = fixed base (w + 1) n := by
  unfold printNum
  rw [Nat.max_eq_left (digitCount_le hb w 19 n h)]

theorem readNum_append (base : Nat) (t : List Byte) (c : Byte) : readNum base (t ++ [c]) = match readNum base t, hexValue c with
    | some n, some d => if d < base then some (n * base + d) else none
    | _, _ => none := by
  unfold readNum
  rw [List.foldl_append]
  rfl

theorem readNum_fixed {base : Nat} (hb : 2 ≤ base) (hb' : base ≤ 16) : ∀ k n, readNum base (fixed base k n) = some (n % base ^ k) := by
  intro k
  induction k with
  | zero => intro n; simp [fixed, readNum, Nat.mod_one]
  | succ k ih =>
    intro n
    unfold fixed
    have hd : n % base < 16 := Nat.lt_of_lt_of_le (Nat.mod_lt _ (by omega)) hb'
    rw [readNum_append, ih, hexDigit_value', Nat.mod_eq_of_lt hd]
    simp only
    rw [if_pos (Nat.mod_lt _ (by omega))]
    congr 1
    rw [Nat.pow_succ, Nat.mul_comm (base ^ k) base, Nat.mod_mul, Nat.mul_comm base]
    omega

theorem readNum_print {base prec n : Nat} (hb : 2 ≤ base) (hb' : base ≤ 16) (h : n < base ^ 20) : readNum base (printNum base prec n) = some n := by
  unfold printNum
  rw [readNum_fixed hb hb', Nat.mod_eq_of_lt]
  exact Nat.lt_of_lt_of_le (lt_digitCount hb 19 n h) (Nat.pow_le_pow_right (by omega) (Nat.le_max_right _ _))

/-- Digits are no separators. -/
theorem fixed_digits {base : Nat} : ∀ k n, ∀ c ∈ fixed base k n, (hexValue c).isSome = true := by
  intro k
  induction k with
  | zero => intro n c hc; cases hc
  | succ k ih =>
    intro n c hc
    unfold fixed at hc
    rcases List.mem_append.1 hc with h | h
    · exact ih _ c h
    · rw [List.mem_singleton.1 h, hexDigit_value']; rfl

theorem digit_ne {c s : Byte} (h : (hexValue c).isSome = true) (hs : hexValue s = none) : c ≠ s := by
  intro e; rw [e, hs] at h; cases h

theorem cut_field {sep : Byte} {t r : List Byte} (h : ∀ c ∈ t, c ≠ sep) : cut sep (t ++ sep :: r) = (t, r) := by
  induction t with
  | nil => simp [cut]
  | cons c t ih =>
    rw [List.cons_append]
    unfold cut
    rw [if_neg (h c (by simp)), ih (fun c hc => h c (by simp [hc]))]

theorem cut_print {sep : Byte} (hs : hexValue sep = none) (prec n : Nat) (r : List Byte) : cut sep (printNum 16 prec n ++ sep :: r) = (printNum 16 prec n, r) :=
  cut_field (fun c hc => digit_ne (fixed_digits _ _ c hc) hs)

/-- The columns of the time. -/
theorem stampText_eq (sep : Byte) (s : Stamp) (h1 : s.year < 10000) (h2 : s.month < 100) (h3 : s.day < 100) (h4 : s.hours < 100) (h5 : s.minutes < 100) (h6 : s.seconds < 100)
    (h7 : s.milliseconds < 1000) :
    stampText sep s = fixed 10 4 s.year ++ [45] ++ fixed 10 2 s.month ++ [45] ++ fixed 10 2 s.day ++ [sep] ++ fixed 10 2 s.hours ++ [58] ++
      fixed 10 2 s.minutes ++ [58] ++ fixed 10 2 s.seconds ++ [46] ++ fixed 10 3 s.milliseconds := by
  unfold stampText
  rw [printNum_fixed (w := 3) (by decide) h1, printNum_fixed (w := 1) (by decide) h2, printNum_fixed (w := 1) (by decide) h3, printNum_fixed (w := 1) (by decide) h4,
    printNum_fixed (w := 1) (by decide) h5, printNum_fixed (w := 1) (by decide) h6, printNum_fixed (w := 2) (by decide) h7]

theorem readStamp_text (s : Stamp) (h1 : s.year < 10000) (h2 : s.month < 100) (h3 : s.day < 100) (h4 : s.hours < 100) (h5 : s.minutes < 100) (h6 : s.seconds < 100)
    (h7 : s.milliseconds < 1000) : readStamp (stampText 84 s ++ [90]) = some s := by
  rw [stampText_eq 84 s h1 h2 h3 h4 h5 h6 h7]
  have rd : ∀ k n, n < 10 ^ k → readNum 10 (fixed 10 k n) = some n := fun k n h => by rw [readNum_fixed (by decide) (by decide), Nat.mod_eq_of_lt h]
  have e1 := rd 4 _ h1
  have e2 := rd 2 _ h2
  have e3 := rd 2 _ h3
  have e4 := rd 2 _ h4
  have e5 := rd 2 _ h5
  have e6 := rd 2 _ h6
  have e7 := rd 3 _ h7
  simp only [fixed, List.nil_append, List.cons_append] at e1 e2 e3 e4 e5 e6 e7 ⊢
  unfold readStamp
  rw [if_pos (by simp)]
  simp [e1, e2, e3, e4, e5, e6, e7]

theorem stampText_no (s : Stamp) (sep x : Byte) (hx : hexValue x = none) (hs : x ≠ sep) (h1 : x ≠ 45) (h2 : x ≠ 58) (h3 : x ≠ 46) : ∀ c ∈ stampText sep s, c ≠ x := by
  intro c hc
  have hd : ∀ p n, c ∈ printNum 10 p n → c ≠ x := fun p n h => digit_ne (fixed_digits _ _ c h) hx
  unfold stampText at hc
  simp only [List.mem_append, List.mem_singleton] at hc
  rcases hc with (((((((((((hc | hc) | hc) | hc) | hc) | hc) | hc) | hc) | hc) | hc) | hc) | hc) | hc
  all_goals first
    | exact hd _ _ hc
    | (rw [hc]; first | exact h1.symm | exact h2.symm | exact h3.symm | exact hs.symm)

/-! ## One entry -/

/-- An entry that fits is written as one line: what `put_props` says and the message. -/
theorem putEntry_ok {size : Nat} {props : Entry → Option (List (List Byte))} {buf : List Byte} {e : Entry} {ps : List (List Byte)} (hbuf : buf.length = size + 2)
    (hp : props e = some ps) (hfit : (ps.flatten ++ e.message).length < size) : putEntry size props buf e = some (ps.flatten ++ e.message ++ [10]) := by
  obtain ⟨l, e1, h1, o1⟩ := putAll_ok (size := size) (ps ++ [e.message]) (l := newLine buf) (acc := []) ⟨hbuf, rfl, rfl⟩ (by simpa using hfit)
  obtain ⟨l', e2, _, o2⟩ := flush_ok h1 (by simp at hfit ⊢; omega) true
  unfold putEntry
  rw [hp]
  simp only
  rw [e1]
  simp only
  rw [e2]
  simp only
  rw [o2, if_pos rfl, o1]
  simp [newLine]

theorem thread_ok {id : Nat} (h : id < 2 ^ 60) : threadText id = some (printNum 16 1 id) := by
  unfold threadText
  rw [if_pos (digitCount_le (by decide) 14 19 id (Nat.lt_of_lt_of_le h (by decide)))]

/-- The text of a diag line. -/
def diagText (e : Entry) : List Byte :=
  stampText 84 e.stamp ++ [90] ++ 44 :: (printNum 16 1 e.thread ++ 44 :: (printNum 16 4 e.category ++ 44 :: (printNum 16 1 e.severity ++ 44 :: (printNum 16 1 e.tag ++ 44 :: e.message))))

theorem diagProps_ok {e : Entry} (ok : e.Ok) : ∃ ps, diagProps e = some ps ∧ ps.flatten ++ e.message = diagText e := by
  unfold diagProps
  rw [thread_ok ok.thread]
  exact ⟨_, rfl, by simp [diagText]⟩

theorem readDiag_text {e : Entry} (ok : e.Ok) : readDiag (diagText e) = some e := by
  unfold readDiag diagText
  have hc : hexValue 44 = none := by decide
  rw [cut_field (fun c hm => by
    rcases List.mem_append.1 hm with h | h
    · exact stampText_no e.stamp 84 44 hc (by decide) (by decide) (by decide) (by decide) c h
    · rw [List.mem_singleton.1 h]; decide)]
  simp only
  rw [cut_print hc]
  simp only
  rw [cut_print hc]
  simp only
  rw [cut_print hc]
  simp only
  rw [cut_print hc]
  simp only
  have h1 := ok.thread
  have h2 := ok.category
  have h3 := ok.severity
  have h4 := ok.tag
  rw [readStamp_text e.stamp ok.year ok.month ok.day ok.hours ok.minutes ok.seconds ok.milliseconds, readNum_print (by decide) (by decide) (Nat.lt_of_lt_of_le h1 (by decide)),
    readNum_print (by decide) (by decide) (Nat.lt_of_lt_of_le h2 (by decide)), readNum_print (by decide) (by decide) (Nat.lt_of_lt_of_le h3 (by decide)),
    readNum_print (by decide) (by decide) (Nat.lt_of_lt_of_le h4 (by decide))]

theorem diagText_no_newline {e : Entry} (h : (10 : Byte) ∉ e.message) : ∀ c ∈ diagText e, c ≠ 10 := by
  intro c hc
  have hd : ∀ p n, c ∈ printNum 16 p n → c ≠ 10 := fun p n h => digit_ne (fixed_digits _ _ c h) (by decide)
  unfold diagText at hc
  simp only [List.mem_append, List.mem_cons, List.not_mem_nil, or_false] at hc
  rcases hc with (hc | hc) | hc | hc | hc | hc | hc | hc | hc | hc | hc
  · exact stampText_no e.stamp 84 10 (by decide) (by decide) (by decide) (by decide) (by decide) c hc
  · rw [hc]; decide
  · rw [hc]; decide
  · exact hd _ _ hc
  · rw [hc]; decide
  · exact hd _ _ hc
  · rw [hc]; decide
  · exact hd _ _ hc
  · rw [hc]; decide
  · exact hd _ _ hc
  · rcases hc with hc | hc
    · rw [hc]; decide
    · intro e; rw [e] at hc; exact h hc

/-! ## C104: reading a log back -/

/-- C104 in full: whatever is said in a log, its lines say the same. -/
def C104Full : Prop := ∀ (size : Nat) (es : List (List Byte × Entry)),
  (∀ p ∈ es, p.1.length = size + 2 ∧ p.2.Ok ∧ (diagText p.2).length < size) →
  ∃ out, putEntries size diagProps es = some out ∧ readLog (out.length + 1) out = some (es.map Prod.snd)

theorem readLog_line {e : Entry} (ok : e.Ok) (h : (10 : Byte) ∉ e.message) (rest : List Byte) (f : Nat) :
    readLog (f + 1) (diagText e ++ 10 :: rest) = (readLog f rest).map (e :: ·) := by
  have hne : ∃ c t, diagText e ++ 10 :: rest = c :: t := by
    cases hd : diagText e with
    | nil => exact ⟨_, _, rfl⟩
    | cons c t => exact ⟨_, _, rfl⟩
  obtain ⟨c, t, hct⟩ := hne
  rw [hct, show readLog (f + 1) (c :: t) = (match readDiag (cut 10 (c :: t)).1, readLog f (cut 10 (c :: t)).2 with
    | some e, some es => some (e :: es)
    | _, _ => none) from rfl]
  rw [← hct, cut_field (diagText_no_newline h), readDiag_text ok]
  cases readLog f rest <;> rfl

/-- C104, the part that holds: a log of diag lines, each of which fits and whose message has no newline, is read back
exactly: as many lines as entries, and time, thread, category, severity, tag and message of each.
Missing: messages with newlines (`C104_violated_newline`), lines that do not fit (`line_violated_full`), threads whose id
has 16 digits (`C104_violated_thread`). -/
theorem C104_readback_partial (size : Nat) (es : List (List Byte × Entry))
    (h : ∀ p ∈ es, p.1.length = size + 2 ∧ p.2.Ok ∧ (diagText p.2).length < size ∧ (10 : Byte) ∉ p.2.message) :
    ∃ out, putEntries size diagProps es = some out ∧ readLog (out.length + 1) out = some (es.map Prod.snd) := by
  suffices hs : ∃ out, putEntries size diagProps es = some out ∧ es.length ≤ out.length ∧ ∀ f, es.length < f → readLog f out = some (es.map Prod.snd) by
    obtain ⟨out, h1, h2, h3⟩ := hs
    exact ⟨out, h1, h3 _ (by omega)⟩
  induction es with
  | nil => exact ⟨[], rfl, Nat.le_refl _, fun f hf => by cases f with | zero => simp at hf | succ f => rfl⟩
  | cons p es ih =>
    obtain ⟨buf, e⟩ := p
    obtain ⟨out, h1, h2, h3⟩ := ih (fun p hp => h p (by simp [hp]))
    obtain ⟨hb, ok, hfit, hno⟩ := h (buf, e) (by simp)
    obtain ⟨ps, e1, e2⟩ := diagProps_ok ok
    have e3 := putEntry_ok (size := size) (props := diagProps) (buf := buf) hb e1 (by rw [e2]; exact hfit)
    refine ⟨diagText e ++ 10 :: out, ?_, by simp; omega, ?_⟩
    · unfold putEntries
      rw [e3, h1, e2]
      simp
    · intro f hf
      cases f with
      | zero => simp at hf
      | succ f =>
        rw [readLog_line ok hno, h3 f (by simpa using hf)]
        rfl

/-- C104 is violated: a newline in a message can make one entry look like two.  The forged one can say anything. -/
theorem C104_violated_newline (size : Nat) (buf : List Byte) (e f : Entry) (m : List Byte) (hb : buf.length = size + 2) (he : e.Ok) (hf : f.Ok)
    (hm : (10 : Byte) ∉ m) (hfm : (10 : Byte) ∉ f.message) (hmsg : e.message = m ++ 10 :: diagText f) (hfit : (diagText e).length < size) :
    ∃ out, putEntry size diagProps buf e = some out ∧ readLog 3 out = some [{ e with message := m }, f] := by
  obtain ⟨ps, e1, e2⟩ := diagProps_ok he
  refine ⟨_, putEntry_ok (size := size) (props := diagProps) (buf := buf) hb e1 (by rw [e2]; exact hfit), ?_⟩
  rw [e2]
  have : diagText e = diagText { e with message := m } ++ 10 :: diagText f := by
    unfold diagText
    rw [hmsg]
    unfold diagText
    simp only [List.append_assoc, List.cons_append]
  rw [this, List.append_assoc, List.cons_append, readLog_line (e := { e with message := m }) ⟨he.1, he.2, he.3, he.4, he.5, he.6, he.7, he.8, he.9, he.10, he.11⟩ hm,
    readLog_line hf hfm]
  rfl

/-- C104 is violated for threads whose id has 16 hexadecimal digits: the array is read past its end. -/
theorem C104_violated_thread (e : Entry) (h : 16 ^ 15 ≤ e.thread) (h' : e.thread < 2 ^ 64) (size : Nat) (buf : List Byte) : putEntry size diagProps buf e = none := by
  have hc : ¬ digitCount 16 19 e.thread ≤ 15 := by
    intro hle
    have := lt_digitCount (base := 16) (by decide) 19 e.thread (Nat.lt_of_lt_of_le h' (by decide))
    have := Nat.lt_of_lt_of_le this (Nat.pow_le_pow_right (by decide) hle)
    omega
  unfold putEntry diagProps threadText
  rw [if_neg hc]

/-- In a debug line the message begins in column 75, for all but meaningless severities. -/
theorem C104_debug_columns (e : Entry) (ok : e.Ok) (hs : e.severity < 16) : ∃ ps, debugProps e = some ps ∧ ps.flatten.length = 75 := by
  unfold debugProps
  rw [thread_ok ok.thread]
  refine ⟨_, rfl, ?_⟩
  have len : ∀ b p n, (printNum b p n).length = max p (digitCount b 19 n) := fun b p n => fixed_length b _ n
  have c1 : digitCount 16 19 e.thread ≤ 15 := digitCount_le (by decide) 14 19 _ (Nat.lt_of_lt_of_le ok.thread (by decide))
  have c2 : digitCount 16 19 e.category ≤ 4 := digitCount_le (by decide) 3 19 _ (Nat.lt_of_lt_of_le ok.category (by decide))
  have c3 : digitCount 16 19 e.severity ≤ 1 := digitCount_le (by decide) 0 19 _ hs
  have c4 : digitCount 16 19 e.tag ≤ 16 := digitCount_le (by decide) 15 19 _ (Nat.lt_of_lt_of_le ok.tag (by decide))
  have c5 : (stampText 32 e.stamp).length = 23 := by
    rw [stampText_eq 32 e.stamp ok.year ok.month ok.day ok.hours ok.minutes ok.seconds ok.milliseconds]
    simp [fixed_length]
  have d1 := digitCount_pos 16 19 e.thread
  have d4 := digitCount_pos 16 19 e.tag
  simp only [List.flatten_cons, List.flatten_nil, List.length_append, padLeft, List.length_replicate, len, c5, List.length_cons, List.length_nil]
  omega

/-! ## C103: the order of log lines -/

/-- C103 in full: of two entries with different milliseconds the one that was made earlier has the text that sorts first. -/
def C103Full : Prop := ∀ (a b : Nat) (x y : Timestamp) (sep : Byte), a / 1000000 < b / 1000000 → b < 2 ^ 63 → reset a = some x → reset b = some y →
  stampText sep (stampOf x) < stampText sep (stampOf y)

theorem lex_append {p q : List Byte} (h : p.length = q.length) (r t : List Byte) : p ++ r < q ++ t ↔ p < q ∨ (p = q ∧ r < t) := by
  induction p generalizing q with
  | nil =>
    cases q with
    | nil => simp
    | cons c q => simp at h
  | cons c p ih =>
    cases q with
    | nil => simp at h
    | cons d q =>
      rw [List.cons_append, List.cons_append, List.cons_lt_cons_iff, List.cons_lt_cons_iff, ih (by simpa using h)]
      constructor
      · rintro (g | ⟨rfl, g | ⟨rfl, g⟩⟩)
        · exact Or.inl (Or.inl g)
        · exact Or.inl (Or.inr ⟨rfl, g⟩)
        · exact Or.inr ⟨rfl, g⟩
      · rintro ((g | ⟨rfl, g⟩) | ⟨g, g'⟩)
        · exact Or.inl g
        · exact Or.inr ⟨rfl, Or.inl g⟩
        · rw [List.cons.injEq] at g; exact Or.inr ⟨g.1, Or.inr ⟨g.2, g'⟩⟩

theorem digit_lt : ∀ a b : Fin 10, (hexDigit a.val < hexDigit b.val ↔ a.val < b.val) ∧ (hexDigit a.val = hexDigit b.val ↔ a.val = b.val) := by decide

/-- Decimal numbers with the same number of digits sort as numbers. -/
theorem fixed_lt : ∀ k a b, a < 10 ^ k → b < 10 ^ k → ((fixed 10 k a < fixed 10 k b ↔ a < b) ∧ (fixed 10 k a = fixed 10 k b ↔ a = b)) := by
  intro k
  induction k with
  | zero => intro a b ha hb; simp at ha hb; subst ha hb; simp [fixed]
  | succ k ih =>
    intro a b ha hb
    rw [Nat.pow_succ] at ha hb
    obtain ⟨i1, i2⟩ := ih (a / 10) (b / 10) (by omega) (by omega)
    obtain ⟨d1, d2⟩ := digit_lt ⟨a % 10, by omega⟩ ⟨b % 10, by omega⟩
    simp only at d1 d2
    unfold fixed
    rw [lex_append (by rw [fixed_length, fixed_length]), i1, i2]
    constructor
    · rw [List.cons_lt_cons_iff, d1]
      simp
      omega
    · constructor
      · intro h
        obtain ⟨h1, h2⟩ := List.append_inj h (by rw [fixed_length, fixed_length])
        have := i2.1 h1
        have := d2.1 (List.cons.inj h2).1
        omega
      · intro h; rw [h]

theorem field_lt {k a b : Nat} (ha : a < 10 ^ k) (hb : b < 10 ^ k) (c : Byte) (r t : List Byte) :
    fixed 10 k a ++ c :: r < fixed 10 k b ++ c :: t ↔ a < b ∨ (a = b ∧ r < t) := by
  rw [lex_append (by rw [fixed_length, fixed_length]), (fixed_lt k a b ha hb).1, (fixed_lt k a b ha hb).2, List.cons_lt_cons_iff]
  have hc : ¬ c < c := by intro h; exact absurd h (by simp)
  constructor
  · rintro (h | ⟨h, h' | ⟨_, h'⟩⟩)
    · exact Or.inl h
    · exact absurd h' hc
    · exact Or.inr ⟨h, h'⟩
  · rintro (h | ⟨h, h'⟩)
    · exact Or.inl h
    · exact Or.inr ⟨h, Or.inr ⟨rfl, h'⟩⟩

/-- The parts of a time are in their ranges. -/
structure Stamp.Ok (s : Stamp) : Prop where
  year : s.year < 10000
  month : s.month < 100
  day : s.day < 100
  hours : s.hours < 100
  minutes : s.minutes < 100
  seconds : s.seconds < 100
  milliseconds : s.milliseconds < 1000

/-- The digits of a time as one number. -/
def Stamp.key (s : Stamp) : Nat := (((((s.year * 100 + s.month) * 100 + s.day) * 100 + s.hours) * 100 + s.minutes) * 100 + s.seconds) * 1000 + s.milliseconds

theorem stamp_lt {s t : Stamp} (hs : s.Ok) (ht : t.Ok) (sep : Byte) : stampText sep s < stampText sep t ↔ s.key < t.key := by
  obtain ⟨s1, s2, s3, s4, s5, s6, s7⟩ := hs
  obtain ⟨t1, t2, t3, t4, t5, t6, t7⟩ := ht
  rw [stampText_eq sep s s1 s2 s3 s4 s5 s6 s7, stampText_eq sep t t1 t2 t3 t4 t5 t6 t7]
  simp only [List.append_assoc, List.cons_append, List.nil_append]
  rw [field_lt s1 t1, field_lt s2 t2, field_lt s3 t3, field_lt s4 t4, field_lt s5 t5, field_lt s6 t6, (fixed_lt 3 _ _ s7 t7).1]
  unfold Stamp.key
  omega

/-! ### The dates shown never go back -/

theorem monthDays_step {y m n : Int} (h1 : 1 ≤ m) (h2 : n ≤ 12) (h : m < n) : monthDays y m + monthLength y m ≤ monthDays y n := by
  have hm : m = 1 ∨ m = 2 ∨ m = 3 ∨ m = 4 ∨ m = 5 ∨ m = 6 ∨ m = 7 ∨ m = 8 ∨ m = 9 ∨ m = 10 ∨ m = 11 := by omega
  have hn : n = 2 ∨ n = 3 ∨ n = 4 ∨ n = 5 ∨ n = 6 ∨ n = 7 ∨ n = 8 ∨ n = 9 ∨ n = 10 ∨ n = 11 ∨ n = 12 := by omega
  rcases leapDay_cases y with ⟨hl, hb⟩ | ⟨hl, hb⟩ <;>
  rcases hm with hm | hm | hm | hm | hm | hm | hm | hm | hm | hm | hm <;> subst hm <;>
  rcases hn with hn | hn | hn | hn | hn | hn | hn | hn | hn | hn | hn <;> subst hn <;>
  first
    | omega
    | (simp only [monthLength, monthDays, hb, hl]; simp)

/-- An earlier day has an earlier date. -/
theorem date_lt {a b : Date} (ha : Valid a) (hb : Valid b) (h : dayNumber a < dayNumber b) :
    a.year < b.year ∨ (a.year = b.year ∧ (a.month < b.month ∨ (a.month = b.month ∧ a.day < b.day))) := by
  have h1 := monthDays_bounds ha
  have h2 := monthDays_bounds hb
  have s1 := yearDays_succ a.year
  have s2 := yearDays_succ b.year
  have hd1 := ha.2.2.1
  have hd2 := hb.2.2.1
  unfold dayNumber at h
  rcases Int.lt_trichotomy a.year b.year with hlt | heq | hlt
  · exact Or.inl hlt
  · refine Or.inr ⟨heq, ?_⟩
    obtain ⟨y, m, d⟩ := a
    obtain ⟨z, n, e⟩ := b
    simp only at heq
    subst heq
    simp only at h hd1 hd2 ⊢
    rcases Int.lt_trichotomy m n with hlt | heq | hlt
    · exact Or.inl hlt
    · subst heq; exact Or.inr ⟨rfl, by omega⟩
    · have h3 : monthDays y n + monthLength y n ≤ monthDays y m := monthDays_step (y := y) hb.1 ha.2.1 hlt
      have h4 : e ≤ monthLength y n := hb.2.2.2
      omega
  · have := yearDays_lt hlt; omega

/-- The date shown on a day of the clock is a date at most one day off. -/
theorem shown (n : Nat) (hn : n ≤ 106752) : ∃ d, resetDate n = some d ∧ Valid d ∧ (n : Int) - 1 ≤ dayNumber d ∧ dayNumber d ≤ n + 1 ∧
    (n < 59 → dayNumber d = n) ∧ (59 ≤ n → InStep ((n : Int) - 59) ∨ n = 36583 → (n : Int) ≤ dayNumber d) ∧ (59 ≤ n → ¬ InStep ((n : Int) - 59) → n ≠ 36583 → dayNumber d ≤ n) := by
  by_cases h : n < 59
  · obtain ⟨d, h1, h2, h3, _⟩ := resetDate_janFeb n (by omega) (by omega)
    exact ⟨d, h1, h2, by omega, by omega, fun _ => h3, fun _ _ => by omega, fun _ _ _ => by omega⟩
  · obtain ⟨d, h1, h2, _, h4, h5⟩ := resetDate_closed ((n : Int) - 59) (by omega) (by omega)
    rw [show (n : Int) - 59 + 59 = n by omega] at h1
    rw [show ((n : Int) - 59) % 146097 = (n : Int) - 59 by omega] at h4 h5
    have h6 : n = 36583 → dayNumber d = n + 1 := by
      intro h
      have := key_2070 ((n : Int) - 59) (by omega) (by omega) (by omega) d (by rw [← h1]; congr 1; omega)
      omega
    refine ⟨d, h1, h2, ?_, ?_, fun h' => absurd h' h, ?_, ?_⟩
    · by_cases hs : InStep ((n : Int) - 59)
      · rcases h4 hs with h | ⟨h, _⟩ <;> omega
      · by_cases hq : n = 36583
        · have := h6 hq; omega
        · rcases h5 (by omega) hs with h | ⟨h, _⟩ <;> omega
    · by_cases hs : InStep ((n : Int) - 59)
      · rcases h4 hs with h | ⟨h, _⟩ <;> omega
      · by_cases hq : n = 36583
        · have := h6 hq; omega
        · rcases h5 (by omega) hs with h | ⟨h, _⟩ <;> omega
    · rintro _ (hs | hq)
      · rcases h4 hs with h | ⟨h, _⟩ <;> omega
      · have := h6 hq; omega
    · intro _ hs hq
      rcases h5 (by omega) hs with h | ⟨h, _⟩ <;> omega

theorem shown_next (n : Nat) (hn : n ≤ 106751) {d e : Date} (hd : resetDate n = some d) (he : resetDate (n + 1 : Nat) = some e) : dayNumber d ≤ dayNumber e := by
  obtain ⟨d', hd', _, a1, a2, a3, a4, a5⟩ := shown n (by omega)
  obtain ⟨e', he', _, b1, b2, b3, b4, b5⟩ := shown (n + 1) (by omega)
  rw [hd] at hd'
  rw [he] at he'
  cases hd'
  cases he'
  by_cases h : n < 58
  · have := a3 (by omega); have := b3 (by omega); omega
  by_cases h58 : n = 58
  · have := a3 (by omega); omega
  by_cases hn1 : InStep ((n + 1 : Nat) - 59 : Int) ∨ n + 1 = 36583
  · have := b4 (by omega) hn1; omega
  · by_cases hn0 : ¬ InStep ((n : Int) - 59) ∧ n ≠ 36583
    · have := a5 (by omega) hn0.1 hn0.2; omega
    · have hcase : n = 47541 ∨ n = 84065 := by
        unfold InStep at hn0 hn1
        omega
      rcases hcase with rfl | rfl
      · have : d = ⟨2100, 3, 1⟩ := by
          have hc : resetDate (47541 : Nat) = some ⟨2100, 3, 1⟩ := by decide
          rw [hc] at hd; exact (Option.some.inj hd).symm
        have : dayNumber d = 47541 := by rw [this]; decide
        omega
      · have : d = ⟨2200, 3, 1⟩ := by
          have hc : resetDate (84065 : Nat) = some ⟨2200, 3, 1⟩ := by decide
          rw [hc] at hd; exact (Option.some.inj hd).symm
        have : dayNumber d = 84065 := by rw [this]; decide
        omega

theorem shown_mono (m n : Nat) (h : m ≤ n) (hn : n ≤ 106752) {d e : Date} (hd : resetDate m = some d) (he : resetDate n = some e) : dayNumber d ≤ dayNumber e := by
  obtain ⟨d', hd', _, a1, a2, _⟩ := shown m (by omega)
  obtain ⟨e', he', _, b1, b2, _⟩ := shown n (by omega)
  rw [hd] at hd'
  rw [he] at he'
  cases hd'
  cases he'
  by_cases h1 : n = m
  · subst h1; rw [hd] at he; cases he; exact Int.le_refl _
  · by_cases h2 : n = m + 1
    · subst h2; exact shown_next m (by omega) hd he
    · omega

/-! ### The order of the texts -/

/-- The milliseconds since midnight. -/
def Stamp.inDay (s : Stamp) : Nat := ((s.hours * 60 + s.minutes) * 60 + s.seconds) * 1000 + s.milliseconds

/-- The parts of a timestamp of the clock. -/
theorem stampOf_spec {a : Nat} {x : Timestamp} (h : reset a = some x) (ha : a < 2 ^ 63) :
    resetDate (a / 86400000000000 : Nat) = some x.date ∧ (stampOf x).Ok ∧ (stampOf x).hours < 24 ∧ (stampOf x).minutes < 60 ∧ (stampOf x).seconds < 60 ∧
    (stampOf x).inDay = a / 1000000 % 86400000 ∧ ((stampOf x).year : Int) = x.date.year ∧ ((stampOf x).month : Int) = x.date.month ∧ ((stampOf x).day : Int) = x.date.day ∧ Valid x.date := by
  have ht := time_of_day a x h
  have hd : resetDate (a / 86400000000000 : Nat) = some x.date ∧ x.daysSinceEpoch = (a / 86400000000000 : Nat) := by
    have hdiv : (a : Int).tdiv nanosecondsPerDay = ((a / 86400000000000 : Nat) : Int) := by
      have : nanosecondsPerDay = 86400000000000 := by decide
      rw [this, Int.tdiv_eq_ediv_of_nonneg (by omega)]; omega
    unfold reset at h
    dsimp only at h
    rw [hdiv] at h
    cases hr : resetDate (a / 86400000000000 : Nat) with
    | none => rw [hr] at h; cases h
    | some d => rw [hr] at h; cases h; exact ⟨rfl, rfl⟩
  obtain ⟨hd, hde⟩ := hd
  obtain ⟨d, hd', hv, b1, b2, _⟩ := shown (a / 86400000000000) (by omega)
  rw [hd] at hd'
  cases hd'
  obtain ⟨⟨t1, t2⟩, ⟨t3, t4⟩, ⟨t5, t6⟩, ⟨t7, t8⟩, t9⟩ := ht
  rw [hde] at t9
  have hm := monthDays_bounds hv
  have hy : (1969 : Int) ≤ x.date.year ∧ x.date.year < 10000 := by
    have := leapDay_cases x.date.year
    unfold dayNumber yearDays at b1 b2
    have hd1 := hv.2.2.1
    constructor <;> omega
  have hmon := hv.1
  have hmon' := hv.2.1
  have hday := hv.2.2.1
  have hday' : x.date.day ≤ 31 := by
    have := hv.2.2.2
    unfold monthLength at this
    split at this
    · split at this <;> omega
    · split at this <;> omega
  have hms : x.time.nanoseconds.tdiv 1000000 = x.time.nanoseconds / 1000000 := Int.tdiv_eq_ediv_of_nonneg t7
  refine ⟨hd, ⟨?_, ?_, ?_, ?_, ?_, ?_, ?_⟩, ?_, ?_, ?_, ?_, ?_, ?_, ?_, hv⟩
  all_goals (simp only [stampOf, Stamp.inDay, hms]; omega)

/-- C103, the part that holds: as long as the two entries were not made on two different days that are shown with the same
date, the earlier entry sorts first.  (`C103_until_2100` says which days are shown correctly.)
Missing: the others, see `C103_violated`. -/
theorem C103_order_partial (a b : Nat) (x y : Timestamp) (sep : Byte) (hab : a / 1000000 < b / 1000000) (hb : b < 2 ^ 63) (hx : reset a = some x) (hy : reset b = some y)
    (hdate : x.date = y.date → a / 86400000000000 = b / 86400000000000) : stampText sep (stampOf x) < stampText sep (stampOf y) := by
  obtain ⟨a1, a2, a3, a4, a5, a6, a7, a8, a9, a10⟩ := stampOf_spec hx (by omega)
  obtain ⟨b1, b2, b3, b4, b5, b6, b7, b8, b9, b10⟩ := stampOf_spec hy hb
  rw [stamp_lt a2 b2]
  have hmono := shown_mono (a / 86400000000000) (b / 86400000000000) (by omega) (by omega) a1 b1
  have ha' := a2
  have hb' := b2
  obtain ⟨_, c2, c3, c4, c5, c6, c7⟩ := ha'
  obtain ⟨_, d2, d3, d4, d5, d6, d7⟩ := hb'
  by_cases he : x.date = y.date
  · have := hdate he
    rw [he] at a7 a8 a9
    unfold Stamp.inDay at a6 b6
    unfold Stamp.key
    omega
  · have hlt : dayNumber x.date < dayNumber y.date := by
      rcases Int.lt_or_eq_of_le hmono with h | h
      · exact h
      · exact absurd (dayNumber_inj a10 b10 h) he
    have := date_lt a10 b10 hlt
    unfold Stamp.key
    omega

/-- The text of a line begins with its time, and all these texts are equally long: lines sort as their times do, whatever
else they say. -/
theorem stampText_length (sep : Byte) {s : Stamp} (h : s.Ok) : (stampText sep s).length = 23 := by
  rw [stampText_eq sep s h.1 h.2 h.3 h.4 h.5 h.6 h.7]
  simp [fixed_length]

/-- C103 for whole lines of the diag, debug and test formats. -/
theorem C103_lines_partial (a b : Nat) (x y : Timestamp) (e f : Entry) (hab : a / 1000000 < b / 1000000) (hb : b < 2 ^ 63) (hx : reset a = some x) (hy : reset b = some y)
    (hdate : x.date = y.date → a / 86400000000000 = b / 86400000000000) (he : e.stamp = stampOf x) (hf : f.stamp = stampOf y) :
    ∀ props ∈ [diagProps, debugProps, testProps], ∀ p q, props e = some p → props f = some q → p.flatten ++ e.message < q.flatten ++ f.message := by
  have h1 := (stampOf_spec hx (by omega)).2.1
  have h2 := (stampOf_spec hy hb).2.1
  have key : ∀ (sep : Byte) (u v : List Byte), stampText sep e.stamp ++ u < stampText sep f.stamp ++ v := by
    intro sep u v
    have h := C103_order_partial a b x y sep hab hb hx hy hdate
    rw [he, hf, lex_append (by rw [stampText_length sep h1, stampText_length sep h2])]
    exact Or.inl h
  intro props hp p q ep eq
  simp only [List.mem_cons, List.not_mem_nil, or_false] at hp
  rcases hp with rfl | rfl | rfl
  · unfold diagProps at ep eq
    split at ep
    · cases ep
    · split at eq
      · cases eq
      · cases ep; cases eq
        simp only [List.flatten_cons, List.append_assoc]
        exact key _ _ _
  · unfold debugProps at ep eq
    split at ep
    · cases ep
    · split at eq
      · cases eq
      · cases ep; cases eq
        simp only [List.flatten_cons, List.append_assoc]
        exact key _ _ _
  · unfold testProps at ep eq
    split at ep
    · cases ep
    · split at eq
      · cases eq
      · cases ep; cases eq
        simp only [List.flatten_cons, List.append_assoc]
        exact key _ _ _

/-- C103 up to 2100-03-01, without leap days and 2070-02-28. -/
theorem C103_until_2100_partial (a b : Nat) (x y : Timestamp) (sep : Byte) (hab : a / 1000000 < b / 1000000) (hx : reset a = some x) (hy : reset b = some y)
    (hb : b / 86400000000000 ≤ 47541) (h29 : ∀ n, n = a / 86400000000000 ∨ n = b / 86400000000000 → ¬ ((civil n).month = 2 ∧ (civil n).day = 29) ∧ n ≠ 36583) :
    stampText sep (stampOf x) < stampText sep (stampOf y) := by
  refine C103_order_partial a b x y sep hab (by omega) hx hy ?_
  obtain ⟨x', hx', ex⟩ := date_partial a _ rfl (by omega) (h29 _ (Or.inl rfl)).1 (h29 _ (Or.inl rfl)).2
  obtain ⟨y', hy', ey⟩ := date_partial b _ rfl hb (h29 _ (Or.inr rfl)).1 (h29 _ (Or.inr rfl)).2
  rw [hx] at hx'
  rw [hy] at hy'
  cases hx'
  cases hy'
  intro h
  rw [ex, ey] at h
  have h1 := (civil_valid (a / 86400000000000)).2
  have h2 := (civil_valid (b / 86400000000000)).2
  rw [h] at h1
  omega

theorem digits_lt (n h m s l h' m' s' l' : Nat) (_ : h < 24) (_ : m < 60) (_ : s < 60) (_ : l < 1000) (_ : h' < 24) (_ : m' < 60) (_ : s' < 60) (_ : l' < 1000)
    (hlt : ((h' * 60 + m') * 60 + s') * 1000 + l' < ((h * 60 + m) * 60 + s) * 1000 + l) :
    (((n * 100 + h') * 100 + m') * 100 + s') * 1000 + l' < (((n * 100 + h) * 100 + m) * 100 + s) * 1000 + l := by
  have : h' < h ∨ (h' = h ∧ (m' < m ∨ (m' = m ∧ (s' < s ∨ (s' = s ∧ l' < l))))) := by omega
  clear hlt
  rcases this with _ | ⟨rfl, _ | ⟨rfl, _ | ⟨rfl, _⟩⟩⟩
  all_goals omega

/-- C103 is violated whenever two days are shown with the same date: entries of the later day that are earlier in the day
sort before those of the earlier day. -/
theorem C103_violated_same_date (a b : Nat) (x y : Timestamp) (sep : Byte) (ha : a < 2 ^ 63) (hb : b < 2 ^ 63) (hx : reset a = some x) (hy : reset b = some y)
    (hdate : x.date = y.date) (htime : b / 1000000 % 86400000 < a / 1000000 % 86400000) : stampText sep (stampOf y) < stampText sep (stampOf x) := by
  obtain ⟨a1, a2, a3, a4, a5, a6, a7, a8, a9, a10⟩ := stampOf_spec hx ha
  obtain ⟨b1, b2, b3, b4, b5, b6, b7, b8, b9, b10⟩ := stampOf_spec hy hb
  rw [stamp_lt b2 a2]
  rw [hdate] at a7 a8 a9
  rw [← a6, ← b6] at htime
  obtain ⟨_, c2, c3, c4, c5, c6, c7⟩ := a2
  obtain ⟨_, d2, d3, d4, d5, d6, d7⟩ := b2
  unfold Stamp.inDay at htime
  unfold Stamp.key
  have e1 : (stampOf y).year = (stampOf x).year := by omega
  have e2 : (stampOf y).month = (stampOf x).month := by omega
  have e3 : (stampOf y).day = (stampOf x).day := by omega
  rw [e1, e2, e3]
  clear a7 a8 a9 b7 b8 b9 ha hb a6 b6 hx hy a1 b1 e1 e2 e3
  exact digits_lt _ _ _ _ _ _ _ _ _ a3 a4 a5 c7 b3 b4 b5 d7 htime

/-- 2024-02-29 at 23:00 and 2024-03-01 at 1:00. -/
theorem C103_violated : ¬ C103Full := by
  intro h
  obtain ⟨x, hx, ex⟩ : ∃ x, reset (1709247600000000000 : Nat) = some x ∧ x.date = ⟨2024, 3, 1⟩ :=
    ⟨(reset (1709247600000000000 : Nat)).get (by decide +kernel), by simp, by decide +kernel⟩
  obtain ⟨y, hy, ey⟩ : ∃ y, reset (1709254800000000000 : Nat) = some y ∧ y.date = ⟨2024, 3, 1⟩ :=
    ⟨(reset (1709254800000000000 : Nat)).get (by decide +kernel), by simp, by decide +kernel⟩
  have h1 := h 1709247600000000000 1709254800000000000 x y 84 (by decide) (by decide) hx hy
  have h2 := C103_violated_same_date 1709247600000000000 1709254800000000000 x y 84 (by decide) (by decide) hx hy (by rw [ex, ey]) (by decide)
  exact absurd (List.lt_trans h1 h2) (List.lt_irrefl _)

/-! ## Cases -/

def entry1 : Entry := ⟨⟨2026, 11, 16, 23, 59, 1, 7⟩, 0x7f1234, 0x8004, 3, 0x10520, "a, b".toUTF8.toList⟩

example : diagText entry1 = "2026-11-16T23:59:01.007Z,7f1234,8004,3,10520,a, b".toUTF8.toList := by decide +kernel

example : (debugProps entry1).map List.flatten = some "2026-11-16 23:59:01.007 |           7f1234 | 8004 | 3 |            10520 | ".toUTF8.toList := by decide +kernel

example : (testProps entry1).map List.flatten = some "2026-11-16 23:59:01.007     ".toUTF8.toList := by decide +kernel

/-- Two times a second apart. -/
example : ∃ x y, reset (1700000000000000000 : Nat) = some x ∧ reset (1700000001000000000 : Nat) = some y ∧
    (1700000000000000000 / 1000000 : Nat) < 1700000001000000000 / 1000000 ∧ (x.date = y.date → (1700000000000000000 / 86400000000000 : Nat) = 1700000001000000000 / 86400000000000) :=
  ⟨(reset (1700000000000000000 : Nat)).get (by decide +kernel), (reset (1700000001000000000 : Nat)).get (by decide +kernel), by simp, by simp, by decide, fun _ => by decide⟩

/-- A message that forges an entry of severity 0. -/
def entry2 : Entry := { entry1 with message := "x\n2026-11-16T23:59:01.008Z,1,8004,0,1,forged".toUTF8.toList }

theorem forged : ∃ out, putEntry 256 diagProps (List.replicate 258 0) entry2 = some out ∧
    readLog 3 out = some [{ entry1 with message := "x".toUTF8.toList }, ⟨⟨2026, 11, 16, 23, 59, 1, 8⟩, 1, 0x8004, 0, 1, "forged".toUTF8.toList⟩] :=
  C104_violated_newline 256 (List.replicate 258 0) entry2 ⟨⟨2026, 11, 16, 23, 59, 1, 8⟩, 1, 0x8004, 0, 1, "forged".toUTF8.toList⟩ "x".toUTF8.toList (by decide +kernel)
    (by constructor <;> decide) (by constructor <;> decide) (by decide +kernel) (by decide +kernel) (by decide +kernel) (by decide +kernel)

theorem C104_violated : ¬ C104Full := by
  intro h
  obtain ⟨out, h1, h2⟩ := h 256 [(List.replicate 258 0, entry2)] (by
    intro p hp
    simp only [List.mem_cons, List.not_mem_nil, or_false] at hp
    subst hp
    exact ⟨by decide +kernel, by constructor <;> decide, by decide +kernel⟩)
  have hc : putEntries 256 diagProps [(List.replicate 258 0, entry2)] = some (diagText entry2 ++ [10]) := by decide +kernel
  rw [hc] at h1
  cases h1
  revert h2
  decide +kernel

/-- A thread with a 16 digit id. -/
example : putEntry 256 diagProps (List.replicate 258 0) { entry1 with thread := 0xfedcba9876543210 } = none :=
  C104_violated_thread _ (by decide) (by decide) 256 _

example : ∃ ps, debugProps entry1 = some ps ∧ ps.flatten.length = 75 := C104_debug_columns entry1 (by constructor <;> decide) (by decide)

example : ∃ out, putEntries 64 diagProps [(List.replicate 66 1, entry1), (List.replicate 66 2, { entry1 with message := [] })] = some out ∧
    readLog (out.length + 1) out = some [entry1, { entry1 with message := [] }] :=
  C104_readback_partial 64 [(List.replicate 66 1, entry1), (List.replicate 66 2, { entry1 with message := [] })] (by
    intro p hp
    simp only [List.mem_cons, List.not_mem_nil, or_false] at hp
    rcases hp with rfl | rfl
    · exact ⟨by decide, by constructor <;> decide, by decide +kernel, by decide +kernel⟩
    · exact ⟨by decide, by constructor <;> decide, by decide +kernel, by decide +kernel⟩)

example : stampText 32 (stampOf ((reset 1763337541007000000).getD ⟨0, 0, ⟨0, 0, 0⟩, ⟨0, 0, 0, 0⟩⟩)) = "2025-11-16 23:59:01.007".toUTF8.toList := by decide +kernel

/-- One second apart, around midnight. -/
example (x y : Timestamp) (hx : reset 1763337599500000000 = some x) (hy : reset 1763337600500000000 = some y) : stampText 84 (stampOf x) < stampText 84 (stampOf y) :=
  C103_until_2100_partial 1763337599500000000 1763337600500000000 x y 84 (by decide) hx hy (by decide) (by
    intro n hn
    have hc : civil 20408 = ⟨2025, 11, 16⟩ ∧ civil 20409 = ⟨2025, 11, 17⟩ :=
      ⟨(civil_unique (by unfold Valid; decide) (by decide)).symm, (civil_unique (by unfold Valid; decide) (by decide)).symm⟩
    rcases hn with hn | hn
    · rw [show n = 20408 by omega, hc.1]; decide
    · rw [show n = 20409 by omega, hc.2]; decide)

end Abc.Log
