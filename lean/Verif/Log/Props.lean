import Verif.Log.Lemmas

/-!
# C17-C19, C49, C51: line buffer, hex dump, log filter
-/

namespace Abc.Log
open Abc.Ascii

/-- C17, the part that holds.  For every history of calls in which the text pending since the last
flush stays shorter than the line size: nothing touches memory outside the buffer, the table has
received exactly the flushed texts, each with one newline, and `get` yields the pending text followed
by a NUL.
Missing: pieces that fill or exceed the line (`line_violated_full`, `line_violated_overlong`). -/
theorem line_partial (size : Nat) (buf : List Byte) (hbuf : buf.length = size + 2) (ops : List Op)
    (hfit : ∀ n, (specRun size (ops.take n)).pending.length < size) :
    ∃ l g, run true size ops (newLine buf) = some l ∧ l.out = (specRun size ops).lines ∧
      get size l = some g ∧ g.buf.take ((specRun size ops).pending.length + 1) = (specRun size ops).pending ++ [0] := by
  have gen : ∀ (ops : List Op) (l : Line) (a : Abs), Holds size l a.pending → l.out = a.lines →
      (∀ n, ((ops.take n).foldl (specStep size) a).pending.length < size) →
      ∃ l', run true size ops l = some l' ∧ Holds size l' (ops.foldl (specStep size) a).pending ∧
        l'.out = (ops.foldl (specStep size) a).lines := by
    intro ops
    induction ops with
    | nil => intro l a h ho _; exact ⟨l, rfl, h, ho⟩
    | cons op ops ih =>
      intro l a h ho hf
      obtain ⟨l1, e1, h1, o1⟩ := step_ok (op := op) h ho (by simpa using hf 0) (by simpa using hf 1)
      obtain ⟨l2, e2, h2, o2⟩ := ih l1 (specStep size a op) h1 o1 (fun n => by simpa using hf (n + 1))
      refine ⟨l2, ?_, by simpa using h2, by simpa using o2⟩
      simp only [run]; rw [e1]; exact e2
  obtain ⟨l, e, h, o⟩ := gen ops (newLine buf) ⟨[], []⟩ ⟨hbuf, rfl, rfl⟩ rfl hfit
  have hlt : (specRun size ops).pending.length < size := by simpa using hfit ops.length
  obtain ⟨g, eg, _, _, hg⟩ := get_ok h (Nat.le_of_lt hlt)
  exact ⟨l, g, e, o, eg, hg⟩

/-- An instance: two pieces, a flush, one more piece in a line of 8 characters. -/
example : ∀ n, (specRun 8 ([Op.put [65, 66], .put [67], .flush, .put [68]].take n)).pending.length < 8 := by
  intro n
  match n with
  | 0 => decide
  | 1 => decide
  | 2 => decide
  | 3 => decide
  | n + 4 => simp only [List.take, List.take_nil]; decide

/-- Without a table `flush` only forgets the pending text. -/
theorem flush_without_table (size : Nat) (l : Line) (acc : List Byte) (h : Holds size l acc) (hf : acc.length ≤ size) :
    ∃ l', flush false size l = some l' ∧ Holds size l' [] ∧ l'.out = l.out := by
  obtain ⟨l', e, h', o⟩ := flush_ok h hf false
  exact ⟨l', e, h', by simpa using o⟩

example : Holds 4 ⟨[65, 66, 0, 0, 0, 0], 2, []⟩ [65, 66] := ⟨rfl, rfl, rfl⟩

/-- C17 is violated when the text is exactly as long as the line: for every line size the last
character is replaced by a NUL. -/
theorem line_violated_full (size : Nat) (buf piece : List Byte) (c : Byte) (hbuf : buf.length = size + 2)
    (hp : (piece ++ [c]).length = size) :
    ∃ l1 l2, putAny size (piece ++ [c]) (newLine buf) = some l1 ∧ flush true size l1 = some l2 ∧
      l2.out = [piece ++ [0, 10]] := by
  have hlen : piece.length + 1 = size := by simpa using hp
  obtain ⟨b, hb1, hb2, hb3⟩ := writeAt_some (buf := buf) (i := 0) (w := piece ++ [0]) (by simp; omega)
  have e1 : putAny size (piece ++ [c]) (newLine buf) = some ⟨b, size, []⟩ := by
    unfold putAny newLine
    dsimp only
    have hr : room size 0 = size := by simp [room]
    rw [hr, if_neg (by omega), List.take_append_of_le_length (by omega), List.take_of_length_le (by omega), hb1]
    simp [hlen]
  have hh : Holds size ⟨b, size, []⟩ (piece ++ [0]) := by
    refine ⟨by simp; omega, by simp; omega, ?_⟩
    simpa using hb3
  obtain ⟨l2, e2, _, o2⟩ := flush_ok hh (by simp; omega) true
  exact ⟨_, l2, e1, e2, by simpa using o2⟩

example : ([65, 66] ++ [67] : List Byte).length = 3 := rfl

/-- C17 is violated by overlong pieces: for every line size, one piece at least three characters
longer than the line makes the next flush read past the buffer. -/
theorem line_violated_overlong (size : Nat) (buf piece : List Byte) (hbuf : buf.length = size + 2)
    (hp : size + 3 ≤ piece.length) :
    ∃ l1, putAny size piece (newLine buf) = some l1 ∧ flush true size l1 = none := by
  have hr : room size 0 = size := by simp [room]
  have : ∃ b, b.length = size + 2 ∧ putAny size piece (newLine buf) = some ⟨b, piece.length, []⟩ := by
    unfold putAny newLine
    dsimp only
    rw [hr]
    by_cases hs : size = 0
    · exact ⟨buf, hbuf, by simp [hs, writeAt]⟩
    · rw [if_neg hs]
      obtain ⟨b, hb1, hb2, _⟩ := writeAt_some (buf := buf) (i := 0) (w := piece.take (size - 1) ++ [0]) (by simp; omega)
      exact ⟨b, by omega, by rw [hb1]; simp⟩
  obtain ⟨b, hb, e⟩ := this
  refine ⟨_, e, ?_⟩
  unfold flush
  rw [if_neg (by simp only; omega)]
  unfold putLine
  rw [if_pos rfl, if_neg (by simp only; omega)]

example : 2 + 3 ≤ ([65, 66, 67, 68, 69] : List Byte).length := by decide

/-- C17 is violated by a second put after an overlong one: `Size - _pcount` wraps around and the text
is written without any limit. -/
theorem line_violated_write_past_end (size : Nat) (buf piece more : List Byte) (hbuf : buf.length = size + 2)
    (hp : size + 1 ≤ piece.length) (hp2 : piece.length < 2 ^ 63) (hm : size + 2 ≤ more.length + piece.length) (hm2 : more.length < 2 ^ 63) :
    ∃ l1, putAny size piece (newLine buf) = some l1 ∧ putAny size more l1 = none := by
  have hr : room size 0 = size := by simp [room]
  have : ∃ b, b.length = size + 2 ∧ putAny size piece (newLine buf) = some ⟨b, piece.length, []⟩ := by
    unfold putAny newLine
    dsimp only
    rw [hr]
    by_cases hs : size = 0
    · exact ⟨buf, hbuf, by simp [hs, writeAt]⟩
    · rw [if_neg hs]
      obtain ⟨b, hb1, hb2, _⟩ := writeAt_some (buf := buf) (i := 0) (w := piece.take (size - 1) ++ [0]) (by simp; omega)
      exact ⟨b, by omega, by rw [hb1]; simp⟩
  obtain ⟨b, hb, e⟩ := this
  refine ⟨_, e, ?_⟩
  unfold putAny
  dsimp only
  have hr2 : room size piece.length = 2 ^ 64 + size - piece.length := by unfold room; rw [if_neg (by omega)]
  rw [hr2, if_neg (by omega), List.take_of_length_le (by omega)]
  unfold writeAt
  rw [if_neg (by simp), if_neg (by simp; omega)]

example : 2 + 1 ≤ ([65, 66, 67] : List Byte).length ∧ 2 + 2 ≤ ([68] : List Byte).length + ([65, 66, 67] : List Byte).length := by
  decide

/-- C18: a dump line shows bytes `offset … offset+15` of the data (those that exist), each exactly once
and in order, is 72 characters wide, and starts with the offset modulo 65536 in hexadecimal. -/
theorem dump_line (data : List Byte) (offset : Nat) :
    readLine (hexLine data offset) = (data.drop offset).take 16 ∧ (hexLine data offset).length = 72 ∧
      readOffset (hexLine data offset) = some (offset % 65536) :=
  ⟨readLine_hexLine _ _, hexLine_length _ _, readOffset_hexLine _ _⟩

private theorem hexDigit_printable (n : Nat) : 0x20 ≤ (hexDigit n).toNat ∧ (hexDigit n).toNat ≤ 0x7e := by
  unfold hexDigit
  have : n % 16 < 16 := Nat.mod_lt _ (by omega)
  generalize n % 16 = k at this
  revert k
  decide

/-- C18: whatever the data are, a dump line has only printable characters, and its text column (the
last 16 characters) shows the byte itself where that is printable, a dot where it is not, and a blank
behind the end of the data. -/
theorem dump_text (data : List Byte) (offset : Nat) :
    (∀ c ∈ hexLine data offset, 0x20 ≤ c.toNat ∧ c.toNat ≤ 0x7e) ∧
    ∀ i < 16, ((hexLine data offset).drop 56)[i]? = some (match data[offset + i]? with
      | some b => if 0x20 ≤ b.toNat ∧ b.toNat < 0x7f then b else 0x2e
      | none => 0x20) := by
  have hd := hexDigit_printable
  have htext : ∀ i, textCell data offset i = (match data[offset + i]? with
      | some b => if 0x20 ≤ b.toNat ∧ b.toNat < 0x7f then b else 0x2e
      | none => 0x20) := by
    intro i
    unfold textCell
    split
    · rename_i h
      rw [List.getElem?_eq_getElem h]
      simp only
      split
      · rw [if_pos (by omega)]
      · rw [if_neg (by omega)]
    · rename_i h
      rw [List.getElem?_eq_none (by omega)]
  constructor
  · have hcell : ∀ k, ∀ c ∈ hexCell data offset k, 0x20 ≤ c.toNat ∧ c.toNat ≤ 0x7e := by
      intro k c hc
      unfold hexCell at hc
      split at hc
      · simp only [List.mem_cons, List.not_mem_nil, or_false] at hc
        rcases hc with rfl | rfl | rfl
        · exact hd _
        · exact hd _
        · decide
      · simp only [List.mem_cons, List.not_mem_nil, or_false, or_self] at hc
        subst hc; decide
    have hhalf : ∀ k, ∀ c ∈ hexHalf data offset k, 0x20 ≤ c.toNat ∧ c.toNat ≤ 0x7e := by
      intro k c hc
      unfold hexHalf at hc
      rcases List.mem_cons.1 hc with rfl | hc
      · decide
      · obtain ⟨j, _, hc⟩ := List.mem_flatMap.1 hc
        exact hcell _ c hc
    intro c hc
    unfold hexLine at hc
    simp only [List.mem_append, List.mem_cons, List.not_mem_nil, or_false, List.mem_map] at hc
    rcases hc with (((((rfl | rfl | rfl | rfl | rfl) | hc) | hc) | rfl) | ⟨i, _, rfl⟩)
    · exact hd _
    · exact hd _
    · exact hd _
    · exact hd _
    · decide
    · exact hhalf _ c hc
    · exact hhalf _ c hc
    · decide
    · rw [htext]
      split
      · split
        · omega
        · decide
      · decide
  · intro i hi
    have hlen : ∀ k, (hexCell data offset k).length = 3 := by
      intro k; unfold hexCell; split <;> rfl
    have hhalf : ∀ k, (hexHalf data offset k).length = 25 := by
      intro k
      unfold hexHalf
      simp [hlen, List.range_succ]
    unfold hexLine
    rw [List.drop_append_of_le_length (by simp [hhalf]), List.drop_of_length_le (by simp [hhalf]),
      List.nil_append, List.getElem?_map, List.getElem?_range hi, Option.map_some, htext]

example : (hexLine [0x41, 0x7f, 0x0a, 0x7e] 0).drop 56 =
    [0x41, 0x2e, 0x2e, 0x7e, 32, 32, 32, 32, 32, 32, 32, 32, 32, 32, 32, 32] := by decide

/-- Content of the `k`-th line of a dump. -/
private def content (props : Nat → List (List Byte)) (data : List Byte) (k : Nat) : List Byte :=
  (props k).flatten ++ (if 16 * k < data.length then hexLine data (16 * k) else [])

private theorem dumpLoop_ok (size : Nat) (props : Nat → List (List Byte)) (data : List Byte)
    (hp : ∀ k, (props k).flatten.length + 72 < size) : ∀ (fuel k : Nat) (l : Line),
    16 * k ≤ data.length → data.length / 16 < fuel + k →
    (k = 0 → Holds size l [] ∧ l.out = []) →
    (k ≠ 0 → Holds size l (content props data (k - 1)) ∧ l.out = (List.range (k - 1)).map (fun i => content props data i ++ [10])) →
    ∃ l', dumpLoop size props data fuel k (16 * k) l = some l' ∧ Holds size l' (content props data (data.length / 16)) ∧
      l'.out = (List.range (data.length / 16)).map (fun i => content props data i ++ [10]) := by
  have hc : ∀ k, (content props data k).length < size := by
    intro k; have := hp k; unfold content; rw [List.length_append]
    split
    · rw [hexLine_length]; omega
    · simp only [List.length_nil]; omega
  intro fuel
  induction fuel with
  | zero => intro k l h1 h2; omega
  | succ fuel ih =>
    intro k l h1 h2 h3 h4
    have st : ∃ l1, (if 16 * k ≠ 0 then flush true size l else some l) = some l1 ∧ Holds size l1 [] ∧
        l1.out = (List.range k).map (fun i => content props data i ++ [10]) := by
      by_cases hk : k = 0
      · subst hk
        exact ⟨l, by simp, (h3 rfl).1, by simpa using (h3 rfl).2⟩
      · obtain ⟨ha, hb⟩ := h4 hk
        obtain ⟨l1, e1, g1, o1⟩ := flush_ok ha (Nat.le_of_lt (hc _)) true
        refine ⟨l1, by rw [if_pos (by omega)]; exact e1, g1, ?_⟩
        rw [o1, hb, if_pos rfl]
        obtain ⟨m, rfl⟩ : ∃ m, k = m + 1 := ⟨k - 1, by omega⟩
        simp [List.range_succ]
    obtain ⟨l1, e1, g1, o1⟩ := st
    obtain ⟨l2, e2, g2, o2⟩ := putAll_ok (size := size) (props k) g1 (by have := hp k; rw [List.nil_append]; omega)
    rw [List.nil_append] at g2
    obtain ⟨l3, o', m, e3, g3, o3, m1, m2, _⟩ := putBinary_ok g2 (by have := hp k; omega) data (16 * k)
    have hcont : (props k).flatten ++ dumpText size data (16 * k) (props k).flatten = content props data k := by
      unfold content dumpText
      have := hp k
      by_cases hk : 16 * k < data.length
      · rw [if_pos ⟨by omega, hk, by omega⟩, if_pos hk]
      · rw [if_neg (by omega), if_neg hk]
    rw [hcont] at g3
    simp only [dumpLoop]
    rw [e1]; simp only
    rw [e2]; simp only
    rw [e3]; simp only
    have stop : data.length / 16 = k → ∃ l', some l3 = some l' ∧ Holds size l' (content props data (data.length / 16)) ∧
        l'.out = (List.range (data.length / 16)).map (fun i => content props data i ++ [10]) := by
      intro hk; rw [hk]; exact ⟨l3, rfl, g3, by rw [o3, o2, o1]⟩
    by_cases hk : 16 * k < data.length
    · have hd : dumpText size data (16 * k) (props k).flatten ≠ [] := by
        have := hp k
        unfold dumpText; rw [if_pos ⟨by omega, hk, by omega⟩]
        intro e; have := hexLine_length data (16 * k); rw [e] at this; simp at this
      obtain ⟨rfl, rfl⟩ := m1 hd
      by_cases hm : 16 * k + 16 ≤ data.length
      · rw [if_pos (by simpa using hm)]
        have : 16 * k + 16 = 16 * (k + 1) := by omega
        rw [this]
        refine ih (k + 1) l3 (by omega) (by omega) (by omega) (fun _ => ⟨by simpa using g3, ?_⟩)
        rw [o3, o2, o1]; rfl
      · rw [if_neg (by simpa using hm)]
        exact stop (by omega)
    · have hd : dumpText size data (16 * k) (props k).flatten = [] := by
        unfold dumpText; rw [if_neg (by omega)]
      obtain ⟨rfl, rfl⟩ := m2 hd
      rw [if_neg (by simp)]
      exact stop (by omega)

/-- C18: dumping a buffer of any length terminates, touches no memory outside the line, and yields
`length / 16 + 1` lines; the `k`-th line is the entry's properties (timestamp, tag…), a dump line of 72
characters (only the properties on the last line if the length is a multiple of 16) and a newline;
decoding the dump part of the lines gives back exactly the buffer.
`props k` are the pieces written by the `k`-th `put_props`; they must leave 73 characters in the
line. -/
theorem dump_roundtrip (size : Nat) (props : Nat → List (List Byte)) (data buf : List Byte)
    (hbuf : buf.length = size + 2) (hp : ∀ k, (props k).flatten.length + 72 < size)
    (fuel : Nat) (hfuel : data.length / 16 < fuel) :
    ∃ lines, dump size props data buf fuel = some lines ∧ lines.length = data.length / 16 + 1 ∧
      (∀ k line, lines[k]? = some line → ∃ hexpart, line = (props k).flatten ++ hexpart ++ [10] ∧
        hexpart.length = if 16 * k < data.length then 72 else 0) ∧
      ((List.range lines.length).flatMap fun k =>
        readLine ((lines.getD k []).drop (props k).flatten.length)) = data := by
  obtain ⟨l, e, h, o⟩ := dumpLoop_ok size props data hp fuel 0 (newLine buf) (by omega) (by omega)
    (fun _ => ⟨⟨hbuf, rfl, rfl⟩, rfl⟩) (by simp)
  have hlen : (content props data (data.length / 16)).length < size := by
    have := hp (data.length / 16); unfold content; rw [List.length_append]
    split
    · rw [hexLine_length]; omega
    · simp only [List.length_nil]; omega
  obtain ⟨l', e', _, o'⟩ := flush_ok h (Nat.le_of_lt hlen) true
  have hlines : l'.out = (List.range (data.length / 16 + 1)).map (fun i => content props data i ++ [10]) := by
    rw [o', if_pos rfl, o, List.range_succ]; simp
  refine ⟨l'.out, ?_, by rw [hlines]; simp, ?_, ?_⟩
  · unfold dump
    have : dumpLoop size props data fuel 0 0 (newLine buf) = some l := e
    rw [this]; simp only; rw [e']
  · intro k line hk
    rw [hlines] at hk
    simp only [List.getElem?_map, Option.map_eq_some_iff] at hk
    obtain ⟨i, hi, rfl⟩ := hk
    have hik : i = k := by
      rw [List.getElem?_range] at hi
      · exact (Option.some.inj hi).symm
      · by_contra hc; rw [List.getElem?_eq_none (by simpa using hc)] at hi; simp at hi
    subst hik
    refine ⟨if 16 * i < data.length then hexLine data (16 * i) else [], rfl, ?_⟩
    split
    · exact hexLine_length _ _
    · rfl
  · rw [hlines]
    simp only [List.length_map, List.length_range]
    have each : ∀ k ∈ List.range (data.length / 16 + 1),
        readLine ((((List.range (data.length / 16 + 1)).map (fun i => content props data i ++ [10])).getD k []).drop
          (props k).flatten.length) = (data.drop (16 * k)).take 16 := by
      intro k hk
      have hk' : k < data.length / 16 + 1 := by simpa using hk
      have : ((List.range (data.length / 16 + 1)).map (fun i => content props data i ++ [10])).getD k [] = content props data k ++ [10] := by
        rw [List.getD_eq_getElem?_getD, List.getElem?_map, List.getElem?_range hk']; rfl
      rw [this]
      unfold content
      rw [List.append_assoc, List.drop_left]
      by_cases hc : 16 * k < data.length
      · rw [if_pos hc, ← readLine_hexLine]
        unfold readLine
        apply filterMap_ext'
        intro i hi
        have hi' : i < 16 := by simpa using hi
        have hcol : column i + 1 < 72 := by unfold column; split <;> omega
        unfold readByte
        rw [List.getElem?_append_left (by rw [hexLine_length]; omega), List.getElem?_append_left (by rw [hexLine_length]; omega)]
      · rw [if_neg hc, List.drop_of_length_le (by omega)]
        rfl
    rw [show (List.range (data.length / 16 + 1)).flatMap (fun k =>
      readLine ((((List.range (data.length / 16 + 1)).map (fun i => content props data i ++ [10])).getD k []).drop
          (props k).flatten.length)) = (List.range (data.length / 16 + 1)).flatMap (fun k => (data.drop (16 * k)).take 16) from
      flatMap_ext' each]
    have chunks : ∀ n, (List.range n).flatMap (fun k => (data.drop (16 * k)).take 16) = data.take (16 * n) := by
      intro n
      induction n with
      | zero => simp
      | succ n ih =>
        rw [List.range_succ, List.flatMap_append, ih]
        simp only [List.flatMap_cons, List.flatMap_nil, List.append_nil]
        rw [show 16 * (n + 1) = 16 * n + 16 by omega, List.take_add]
    rw [chunks, List.take_of_length_le (by omega)]

/-- An instance of the hypotheses: ten characters of properties in a line of 100. -/
example : ([[1, 2, 3, 4, 5], [6, 7, 8, 9, 10]] : List (List Byte)).flatten.length + 72 < 100 := by decide

/-- When the properties leave too little room, nothing of the data is dumped (C18's hypothesis is
needed). -/
theorem dump_needs_room (size : Nat) (data : List Byte) (offset : Nat) (l : Line) (h : l.pcount ≤ size)
    (hr : size ≤ l.pcount + 72) : putBinary size data offset l = some (l, offset, false) := by
  unfold putBinary room
  rw [if_pos h, if_pos (by omega)]

example : (10 : Nat) ≤ 80 ∧ 80 ≤ 10 + 72 := by decide

/-- C19: with filter `f` (or no filter) an entry reaches the log exactly when its severity number is at
most the threshold; category does not matter. -/
theorem filter_exact (filter : Option Byte) (category : Nat) (severity : Byte) (lines out : List (List Byte)) :
    logPut filter category severity lines out =
      if (∀ f, filter = some f → severity.toNat ≤ f.toNat) then out ++ lines else out := by
  unfold logPut isEnabled isHigherOrEqual
  cases filter with
  | none => simp
  | some f =>
    simp only [Option.some.injEq, forall_eq', decide_eq_true_eq]
    rfl

/-- C19: raising the threshold number (letting less important entries through) never loses an entry of
any sequence of entries: what was logged before is a subsequence of what is logged now. -/
theorem filter_monotone (f g : Byte) (hfg : f.toNat ≤ g.toNat)
    (entries : List (Nat × Byte × List (List Byte))) :
    List.Sublist (entries.foldl (fun out e => logPut (some f) e.1 e.2.1 e.2.2 out) [])
      (entries.foldl (fun out e => logPut (some g) e.1 e.2.1 e.2.2 out) []) ∧
    List.Sublist (entries.foldl (fun out e => logPut (some g) e.1 e.2.1 e.2.2 out) [])
      (entries.foldl (fun out e => logPut none e.1 e.2.1 e.2.2 out) []) := by
  have gen : ∀ (F G : Option Byte), (∀ s : Byte, (∀ f, F = some f → s.toNat ≤ f.toNat) → (∀ g, G = some g → s.toNat ≤ g.toNat)) →
      ∀ (es : List (Nat × Byte × List (List Byte))) (o1 o2 : List (List Byte)), List.Sublist o1 o2 →
      List.Sublist (es.foldl (fun out e => logPut F e.1 e.2.1 e.2.2 out) o1) (es.foldl (fun out e => logPut G e.1 e.2.1 e.2.2 out) o2) := by
    intro F G h es
    induction es with
    | nil => intro o1 o2 hs; exact hs
    | cons e es ih =>
      intro o1 o2 hs
      simp only [List.foldl_cons]
      apply ih
      rw [filter_exact, filter_exact]
      by_cases c1 : ∀ f, F = some f → e.2.1.toNat ≤ f.toNat
      · rw [if_pos c1, if_pos (h _ c1)]; exact hs.append (List.Sublist.refl _)
      · rw [if_neg c1]
        split
        · exact hs.trans (List.sublist_append_left _ _)
        · exact hs
  constructor
  · apply gen
    · intro s h1 g' hg'
      have := h1 f rfl
      simp only [Option.some.injEq] at hg'; subst hg'; omega
    · exact List.Sublist.refl _
  · apply gen
    · intro s _ g' hg'; simp at hg'
    · exact List.Sublist.refl _

example : (2 : Byte).toNat ≤ (5 : Byte).toNat := by decide

/-- C49: the indentation of a test line is two blanks per severity level below the first, capped at
level 8, for every severity from 1 on. -/
theorem severity_indent_partial (s : Byte) (hs : 1 ≤ s.toNat) :
    severityIndent s = some (List.replicate (2 * (min s.toNat 8 - 1)) 32) := by
  unfold severityIndent
  dsimp only
  by_cases h : s.toNat ≤ 8
  · rw [if_pos h, if_pos (by omega), if_pos (by omega), Nat.min_eq_left h]
  · rw [if_neg h, Nat.min_eq_right (by omega)]; rfl

example : severityIndent 3 = some [32, 32, 32, 32] := by decide

/-- C49 is violated for severity 0 (`severity::off`): the code writes before the beginning of its
array. -/
theorem severity_indent_violated : severityIndent 0 = none := by decide

/-- C51 is violated: destroying a moved line and the object it was moved from sends the pending text
twice, whatever it is. -/
theorem move_violated (size : Nat) (l : Line) (acc : List Byte) (h : Holds size l acc) (hf : acc.length ≤ size) :
    moveAndDestroy size l = some (l.out ++ [acc ++ [10]] ++ [acc ++ [10]]) := by
  have h' : Holds size { l with out := [] } acc := h
  obtain ⟨l', e, _, o⟩ := flush_ok h' hf true
  unfold moveAndDestroy
  rw [e]; simp only
  rw [o]; simp

example : Holds 3 ⟨[65, 0, 0, 0, 0], 1, []⟩ [65] := ⟨rfl, rfl, rfl⟩

theorem moveMany_one (size : Nat) (l : Line) (acc : List Byte) (h : Holds size l acc) (hf : acc.length ≤ size) :
    moveManyAndDestroy size l 1 = moveAndDestroy size l := by
  have h' : Holds size { l with out := [] } acc := h
  obtain ⟨l1, e1, _, o1⟩ := flush_ok h' hf true
  obtain ⟨l2, e2, _, o2⟩ := flush_ok h hf true
  simp only [moveManyAndDestroy, moveAndDestroy]
  rw [e1, e2]
  simp [o1, o2]

/-- C51 in full: however often a line is moved, its text is sent once. -/
def C51Full : Prop :=
  ∀ (size : Nat) (l : Line) (acc : List Byte), Holds size l acc → acc.length ≤ size → ∀ n,
    moveManyAndDestroy size l n = some (l.out ++ [acc ++ [10]])

/-- C51: the pending text is sent once for every object there has been. -/
theorem C51_count (size : Nat) (l : Line) (acc : List Byte) (h : Holds size l acc) (hf : acc.length ≤ size) (n : Nat) :
    moveManyAndDestroy size l n = some (l.out ++ List.replicate (n + 1) (acc ++ [10])) := by
  have h' : Holds size { l with out := [] } acc := h
  obtain ⟨l1, e1, _, o1⟩ := flush_ok h' hf true
  obtain ⟨l2, e2, _, o2⟩ := flush_ok h hf true
  induction n with
  | zero => simp only [moveManyAndDestroy]; rw [e2]; simp [o2]
  | succ n ih =>
    simp only [moveManyAndDestroy]
    rw [e1, ih]
    simp [o1, List.replicate_succ']

theorem C51_violated : ¬ C51Full := by
  intro h
  have h0 : Holds 3 ⟨[65, 0, 0, 0, 0], 1, []⟩ [65] := ⟨rfl, rfl, rfl⟩
  have h1 := h 3 _ [65] h0 (by decide) 1
  rw [C51_count 3 _ [65] h0 (by decide) 1] at h1
  revert h1
  decide

/-- C51, the part that holds: the text of a line that is not moved is sent exactly once, from the
constructor over any pieces that fit to the destructor.  Missing: lines that are moved (`C51_count`). -/
theorem C51_unmoved_partial (size : Nat) (buf : List Byte) (hb : buf.length = size + 2) (pieces : List (List Byte))
    (hf : pieces.flatten.length < size) :
    ∃ l, putAll size pieces (newLine buf) = some l ∧
      moveManyAndDestroy size l 0 = some [pieces.flatten ++ [10]] := by
  have h0 : Holds size (newLine buf) [] := ⟨hb, rfl, rfl⟩
  obtain ⟨l, e, hl, ho⟩ := putAll_ok pieces h0 (by simpa using hf)
  simp only [List.nil_append] at hl
  refine ⟨l, e, ?_⟩
  rw [C51_count size l _ hl (by omega) 0, ho]
  rfl

example : ([[65, 66], [67]] : List (List Byte)).flatten.length < 8 := by decide

end Abc.Log
