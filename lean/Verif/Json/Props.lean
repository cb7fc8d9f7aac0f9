import Verif.Json.Misread
import Verif.Json.Prefix

/-!
# Properties of the JSON streams: C05 – C09
-/

namespace Abc.Json

open Abc.Ascii Abc.Stream Spec Abc.Http

/-! ## C05: what was written is read back -/

/-- Successive `get_token` calls, each with a block of its own and the size of that block; `none` when
one of them throws, does not return or has no defined behaviour.  With each block: the item, `gcount()`. -/
def readMany (max : Nat) (atof : List Byte → List Byte) (fuel : Nat) : Jr → List (List Byte) → Option (Jr × List (Item × Nat × List Byte))
  | st, [] => some (st, [])
  | st, mem :: ms =>
    match getToken max atof fuel st mem mem.length with
    | some (.ok ⟨st', item, some b⟩) => (readMany max atof fuel st' ms).map fun x => (x.1, (item, st'.gcount, b) :: x.2)
    | _ => none

/-- The token block says `t`. -/
def Says (atof : List Byte → List Byte) (t : Token) (x : Item × Nat × List Byte) : Prop :=
  x.1 = tokItem t ∧ x.2.1 = tokSize t ∧ x.2.2.take 2 = (tokItem t).bytes ∧ Payload atof t x.2.2

/-- The block is large enough for the token (`get_token` demands 16 bytes anyway). -/
def Room (t : Token) (mem : List Byte) : Prop := 16 ≤ mem.length ∧ mem.length < 2 ^ 64 ∧ tokChars t + 9 ≤ mem.length

theorem readMany_reads {max b : Nat} {atof : List Byte → List Byte} (hat : ∀ x, (atof x).length = 8) {p q : Pos} {ts : List Token}
    (h : Reads max b p ts q) : ∀ (fuel g : Nat) (mems : List (List Byte)), p.r.length + 27 ≤ fuel → List.Forall₂ Room ts mems →
      ∃ n xs, readMany max atof fuel ⟨In.ofList p.r, p.e, p.ls, g⟩ mems = some (⟨In.ofList q.r, q.e, q.ls, n⟩, xs) ∧
        List.Forall₂ (Says atof) ts xs := by
  induction h with
  | nil p =>
    intro fuel g mems _ hm
    cases hm
    exact ⟨g, [], rfl, .nil⟩
  | cons ht hb _ ih =>
    intro fuel g mems hf hm
    cases hm with
    | cons h1 h2 =>
      rename_i mem mems
      obtain ⟨hlen, ht⟩ := ht
      obtain ⟨n, buf', h3, h4, h5⟩ := ht atof hat g fuel mem.length (some mem) hf ⟨rfl, h1.1, h1.2.1, h1.2.2⟩
      cases buf' with
      | none => exact h4.elim
      | some b' =>
        obtain ⟨n2, xs, h6, h7⟩ := ih fuel n mems (by omega) h2
        refine ⟨n2, (tokItem _, n, b') :: xs, ?_, .cons ⟨rfl, h5 (by simp), h4.2.1, h4.2.2⟩ h7⟩
        rw [readMany, getToken, if_neg (by have := h1.1; omega), h3]
        simp only [h6, Option.map_some]

/-- The full statement: for every value and every way of printing numbers, the tokens written are read
back, both streams good.  (`lit` is what `snprintf` makes of a number, `atof` what the reader makes of
the characters.) -/
def C05Full : Prop :=
  ∀ (max fuel : Nat) (atof : List Byte → List Byte) (v : Value) (mems : List (List Byte)), (∀ x, (atof x).length = 8) → v.Ok → v.Compact →
    v.depth ≤ max → v.text.length + 27 ≤ fuel → List.Forall₂ Room v.toks mems →
    ∃ st xs, readMany max atof fuel { s := In.ofList (putToks max { o := { out := [], room := v.text.length } } v.toks).o.out } mems = some (st, xs) ∧
      List.Forall₂ (Says atof) v.toks xs ∧ st.s.good = true

/-- Every value that is not a bare number: all the tokens are written, in the text of the value, without
failure; and reading that text gives exactly these tokens, and leaves the stream good at its end.
Missing: a bare number at top level (`C05_violated_number`), and numbers are read as `atof` of what
`snprintf` printed, which need not be the same number (`C05_violated_digits`). -/
theorem C05_roundtrip_partial {max fuel : Nat} {atof : List Byte → List Byte} (hat : ∀ x, (atof x).length = 8) {v : Value} {room : Nat}
    {mems : List (List Byte)} (hv : v.Ok) (hc : v.Compact) (hd : v.depth ≤ max) (hn : ∀ n, v ≠ .atom (.num n))
    (hr : v.text.length ≤ room) (hf : v.text.length + 27 ≤ fuel) (hm : List.Forall₂ Room v.toks mems) :
    let w := putToks max { o := { out := [], room := room } } v.toks
    w.o.good = true ∧ w.o.out = v.text ∧ w.levels = [] ∧
    ∃ st xs, readMany max atof fuel { s := In.ofList w.o.out } mems = some (st, xs) ∧ List.Forall₂ (Says atof) v.toks xs ∧
      st.s = In.ofList [] ∧ st.levels = [] := by
  intro w
  have hw := writes_value (max := max) v hc { o := { out := [], room := room } } rfl rfl (by simpa using hd) (by simpa [commaText] using hr)
  have hout : w.o.out = v.text := by
    show (putToks max { o := { out := [], room := room } } v.toks).o.out = v.text
    rw [hw]
    simp [adv, commaText]
  refine ⟨?_, hout, ?_, ?_⟩
  · show (putToks max { o := { out := [], room := room } } v.toks).o.good = true
    rw [hw]
    rfl
  · show (putToks max { o := { out := [], room := room } } v.toks).levels = []
    rw [hw]
  · rw [hout]
    have h1 := reads_value (max := max) v hv [] [] [] false [] ws_nil rfl (.inl ⟨rfl, rfl⟩) (fun _ ⟨n, h⟩ => absurd h (hn n)) (by simpa using hd)
    simp only [List.nil_append, List.append_nil] at h1
    obtain ⟨n, xs, h2, h3⟩ := readMany_reads hat h1 fuel 0 mems hf hm
    exact ⟨_, xs, h2, h3, rfl, rfl⟩

/-- `{"a":[1,true],"b":""}` -/
def sample : Value :=
  .obj [] (.cons ⟨[97], []⟩ [] [] (.arr [] (.cons (.atom (.num { int := [49] })) [] [] (.cons (.atom (.bool true)) [] [] .nil))) [] []
    (.cons ⟨[98], []⟩ [] [] (.atom (.str ⟨[], []⟩)) [] [] .nil))

example : sample.Ok ∧ sample.Compact ∧ sample.depth = 2 ∧ (∀ n, sample ≠ .atom (.num n)) ∧
    sample.text = [123, 34, 97, 34, 58, 91, 49, 44, 116, 114, 117, 101, 93, 44, 34, 98, 34, 58, 34, 34, 125] ∧
    List.Forall₂ Room sample.toks (List.replicate 9 (List.replicate 16 7)) := by
  refine ⟨?_, ?_, by simp [sample, Value.depth, Elems.depth, Mems.depth], by intro n; simp [sample], ?_, ?_⟩
  · simp [sample, Value.Ok, Elems.Ok, Mems.Ok, Atom.Ok, Num.Ok, Num.text, Digit, Str.Ok, Plain, Ws, fracText, expText]
  · simp [sample, Value.Compact, Elems.Compact, Mems.Compact, Atom.Compact]
  · simp [sample, Value.text, Elems.text, Mems.text, Atom.text, Num.text, Str.text, tailText, Elems.sep, Mems.sep, fracText, expText]
  · simp [sample, Value.toks, Elems.toks, Mems.toks, Atom.tok, List.replicate, Str.val, tailVal, Room, tokChars]

/-- A bare number is read, but the end of the text puts the reader in a failure state. -/
theorem C05_violated_number (max fuel : Nat) (atof : List Byte → List Byte) (hat : ∀ x, (atof x).length = 8) (mem : List Byte)
    (hm : mem.length = 16) :
    (putToks max { o := { out := [], room := 1 } } [.num [49]]).o.out = [49] ∧
    ∃ t, getToken max atof (fuel + 5) { s := In.ofList [49] } mem 16 = some (.ok t) ∧ t.item = .number ∧ t.st.s.good = false := by
  refine ⟨by simp [putToks, putTok, putNumber, putValue, valueComma, putChars, Out.put, Out.good, expectProperty], ?_⟩
  have hn : getNumber (fuel + 5) (In.ofList [49]) = .ok ⟨({ rest := [], eof := true, fail := true } : In), 49 :: 0 :: List.replicate 24 0, 1⟩ := by
    rfl
  have hs : skipChars (fuel + 5) valid jsonIsSpace (In.ofList [49]) = .ok ⟨In.ofList [49], 0⟩ := by
    rfl
  have hw : wrs mem 8 (atof [49]) = .ok (putMem mem 8 (atof [49])) := wrs_ok _ _ _ (by rw [hat]; omega)
  have hw2 : wrs (putMem mem 8 (atof [49])) 0 [4, 0] = .ok (putMem (putMem mem 8 (atof [49])) 0 [4, 0]) :=
    wrs_ok _ _ _ (by rw [putMem_length (by rw [hat]; omega)]; simp; omega)
  rw [getToken, if_neg (by omega), readToken]
  dsimp only
  rw [hs]
  simp [valuePart, expectProperty, isDigit, isBetween, sc, hn, bufNumber, hw, trailPart, bufItem, Item.bytes, hw2, List.takeWhile, In.good]

theorem C05_violated : ¬ C05Full := by
  intro h
  obtain ⟨st, xs, h1, h2, h3⟩ := h 0 28 (fun _ => List.replicate 8 0) (.atom (.num { int := [49] })) [List.replicate 16 0] (by simp)
    (by simp [Value.Ok, Atom.Ok, Num.Ok, Num.text, Digit, fracText, expText]) (by simp [Value.Compact, Atom.Compact]) (by simp [Value.depth])
    (by simp [Value.text, Atom.text, Num.text, fracText, expText]) (.cons (by simp [Room, Atom.tok, tokChars]) .nil)
  obtain ⟨h4, t, h5, h6, h7⟩ := C05_violated_number 0 23 (fun _ => List.replicate 8 0) (by simp) (List.replicate 16 0) (by simp)
  have h8 : (Value.atom (.num { int := [49] })).toks = [.num [49]] := by simp [Value.toks, Atom.tok, Num.text, fracText, expText]
  have h9 : (Value.atom (.num { int := [49] })).text = [49] := by simp [Value.text, Atom.text, Num.text, fracText, expText]
  rw [h8, h9] at h1
  rw [show ([49] : List Byte).length = 1 from rfl, h4, readMany, List.length_replicate, h5] at h1
  obtain ⟨⟨s, e, l, g⟩, i, b⟩ := t
  cases b with
  | none => simp at h1
  | some b =>
    simp only [readMany, Option.map_some, Option.some.injEq, Prod.mk.injEq] at h1
    rw [← h1.1] at h3
    exact absurd h3 (by simpa using h7)

/-- `x` prints as `digits` (16 significant digits, as `"%.16lg"` asks for numbers between 0.1 and 1): the
nearest multiple of 10^-16. -/
def Prints16 (num den digits : Nat) : Prop :=
  2 * (num * 10 ^ 16) ≤ (2 * digits + 1) * den ∧ (2 * digits) * den ≤ 2 * (num * 10 ^ 16) + den

/-- Two numbers that a `double` tells apart – the ones nearest to 0.3 and to 0.1 + 0.2 – print the same
with 16 digits, so no reader can recover both. -/
theorem C05_violated_digits :
    (5404319552844595 : Nat) ≠ 5404319552844596 ∧ Prints16 5404319552844595 (2 ^ 54) 3000000000000000 ∧
    Prints16 5404319552844596 (2 ^ 54) 3000000000000000 := by
  unfold Prints16; decide

/-! ## C06: the writer emits beginnings of JSON texts -/

/-- A document: a value with white space around it. -/
def Doc (t : List Byte) : Prop := ∃ w v w', Ws w ∧ v.Ok ∧ Ws w' ∧ t = w ++ Value.text v ++ w'

/-- Documents one after the other. -/
inductive Docs : List Byte → Prop
  | nil : Docs []
  | blank {t : List Byte} {c : Byte} : Docs t → IsWs c → Docs (t ++ [c])
  | value {t : List Byte} {v : Value} : Docs t → v.Ok → Docs (t ++ v.text)

theorem Docs.ws {t : List Byte} (h : Docs t) (w : List Byte) (hw : Ws w) : Docs (t ++ w) := by
  induction w generalizing t with
  | nil => simpa using h
  | cons c w ih =>
    have := ih (h.blank (hw c (by simp))) (fun d hd => hw d (by simp [hd]))
    simpa using this

/-- A fresh writer. -/
def fresh (room : Nat) : Jw := { o := { out := [], room := room } }

/-- The full statement. -/
def C06Full : Prop :=
  ∀ (max room : Nat) (cs : List Call), (∀ c ∈ cs, c.Ok) → (calls max (fresh room) cs).o.good = true →
    ∃ x, Doc ((calls max (fresh room) cs).o.out ++ x)

theorem calls_inv {D : List Byte → Prop} (hD : ∀ out c, D out → IsWs c → D (out ++ [c]))
    (hV : ∀ out w (v : Value), D out → Ws w → v.Ok → D (out ++ w ++ v.text)) {max : Nat} (cs : List Call) :
    ∀ {st : Jw}, Inv D st → (∀ c ∈ cs, c.Ok) → (calls max st cs).o.good = true → Inv D (calls max st cs) := by
  induction cs with
  | nil => intro st hi _ _; exact hi
  | cons c cs ih =>
    intro st hi hc hg
    have hg1 : (call max st c).o.good = true := calls_good (cs := cs) hg
    refine ih (call_inv hD (hc c (by simp)) hi ?_ hg1) (fun d hd => hc d (by simp [hd])) hg
    intro hl
    refine .inr fun w v hw hv => hV _ w v ?_ hw hv
    unfold Inv at hi
    rw [hl] at hi
    exact hi.1

/-- Whatever is called: while the stream is good, what was emitted can be completed to documents one
after the other, and is that already when no bracket is open. -/
theorem C06_documents_partial {max room : Nat} {cs : List Call} (hc : ∀ c ∈ cs, c.Ok) (hg : (calls max (fresh room) cs).o.good = true) :
    (∃ x, Docs ((calls max (fresh room) cs).o.out ++ x)) ∧
    ((calls max (fresh room) cs).levels = [] → Docs (calls max (fresh room) cs).o.out) := by
  have hi : Inv Docs (fresh room) := ⟨.nil, rfl⟩
  have h := calls_inv (fun _ _ h hc => h.blank hc) (fun _ w v h hw hv => (h.ws w hw).value hv) cs hi hc hg
  refine ⟨inv_complete h, fun hl => ?_⟩
  unfold Inv at h
  rw [hl] at h
  exact h.1

/-- Only blanks before the first value and after it. -/
def OneValue (max : Nat) (st : Jw) (cs : List Call) : Prop :=
  ∀ pre c post, cs = pre ++ c :: post → (calls max st pre).levels = [] → (∃ d ∈ pre, ∀ b, d ≠ .blank b) → ∃ b, c = .blank b

/-- White space, or a document. -/
def Doc1 (t : List Byte) : Prop := Ws t ∨ Doc t

theorem doc1_blank {out : List Byte} {c : Byte} (h : Doc1 out) (hc : IsWs c) : Doc1 (out ++ [c]) := by
  have app : ∀ w, Ws w → Ws (w ++ [c]) := by
    intro w hw d hd
    rcases List.mem_append.1 hd with h | h
    · exact hw d h
    · simp only [List.mem_singleton] at h; rw [h]; exact hc
  rcases h with h | ⟨w, v, w', h1, h2, h3, rfl⟩
  · exact .inl (app _ h)
  · exact .inr ⟨w, v, w' ++ [c], h1, h2, app _ h3, by simp⟩

/-- If only one value is put at top level, what was emitted can be completed to one document. -/
theorem C06_document_partial {max room : Nat} {cs : List Call} (hc : ∀ c ∈ cs, c.Ok) (hone : OneValue max (fresh room) cs)
    (hg : (calls max (fresh room) cs).o.good = true) : ∃ x, Doc ((calls max (fresh room) cs).o.out ++ x) := by
  have key : ∀ (post pre : List Call), cs = pre ++ post →
      Inv Doc1 (calls max (fresh room) pre) → ((∀ d ∈ pre, ∃ b, d = .blank b) → Ws (calls max (fresh room) pre).o.out) →
      Inv Doc1 (calls max (fresh room) cs) := by
    intro post
    induction post with
    | nil => intro pre he hi _; simpa [he] using hi
    | cons c post ih =>
      intro pre he hi hw
      have hsplit : calls max (fresh room) (pre ++ [c]) = call max (calls max (fresh room) pre) c := by simp [calls]
      have hg1 : (call max (calls max (fresh room) pre) c).o.good = true := by
        rw [← hsplit]
        refine calls_good (cs := post) (max := max) ?_
        rw [he] at hg
        simpa [calls] using hg
      have hcok : c.Ok := hc c (by simp [he])
      refine ih (pre ++ [c]) (by simp [he]) ?_ ?_
      · rw [hsplit]
        refine call_inv (fun _ _ h hc => doc1_blank h hc) hcok hi ?_ hg1
        intro hl
        by_cases hex : ∃ d ∈ pre, ∀ b, d ≠ .blank b
        · exact .inl (hone pre c post he hl hex)
        · have hall : ∀ d ∈ pre, ∃ b, d = .blank b := by
            intro d hd
            by_contra hn
            exact hex ⟨d, hd, fun b hb => hn ⟨b, hb⟩⟩
          have hws := hw hall
          refine .inr fun w v hw hv => .inr ⟨(calls max (fresh room) pre).o.out ++ w, v, [], ?_, hv, ws_nil, by simp⟩
          intro d hd
          rcases List.mem_append.1 hd with h | h
          · exact hws d h
          · exact hw d h
      · intro hall
        rw [hsplit]
        have hws := hw fun d hd => hall d (by simp [hd])
        obtain ⟨b, rfl⟩ := hall c (by simp)
        have := (putChars_good [b] hg1).2
        simp only [call, putBlank] at this ⊢
        rw [this]
        intro d hd
        rcases List.mem_append.1 hd with h | h
        · exact hws d h
        · simp only [List.mem_singleton] at h; rw [h]; exact hcok
  have hi := key cs [] rfl ⟨.inl (by simp [Ws, calls, fresh]), rfl⟩ (fun _ => by simp [Ws, calls, fresh])
  obtain ⟨x, hx⟩ := inv_complete hi
  rcases hx with hx | hx
  · exact ⟨x ++ [110, 117, 108, 108], (calls max (fresh room) cs).o.out ++ x, .atom .null, [], hx, by simp [Value.Ok, Atom.Ok], ws_nil,
      by simp [Value.text, Atom.text]⟩
  · exact ⟨x, hx⟩

/-- `[`, space, `null`: still open. -/
example : let cs := [Call.tok .beginArray, .blank 32, .tok .null]
    (∀ c ∈ cs, c.Ok) ∧ OneValue 4 (fresh 100) cs ∧ (calls 4 (fresh 100) cs).o.good = true ∧
    (calls 4 (fresh 100) cs).o.out = [91, 32, 110, 117, 108, 108] := by
  refine ⟨?_, ?_, by decide, by decide⟩
  · intro c hc
    simp only [List.mem_cons, List.not_mem_nil, or_false] at hc
    rcases hc with rfl | rfl | rfl
    · trivial
    · exact .inl rfl
    · trivial
  · intro pre c post he hl hex
    match pre with
    | [] => simp at hex
    | [a] => simp at he; exact ⟨32, he.2.1.symm⟩
    | [a, b] =>
      simp at he
      obtain ⟨rfl, rfl, _⟩ := he
      exact absurd hl (by decide)
    | a :: b :: d :: rest =>
      simp at he

/-- Once a call was refused, no call emits anything and none makes the stream good again. -/
theorem C06_refused_stays {max : Nat} {st : Jw} (cs : List Call) (h : st.o.good = false) :
    (calls max st cs).o.good = false ∧ (calls max st cs).o.out = st.o.out := calls_dead cs h

/-- A value or an opening bracket where a name is expected, a name where none is expected, a closing
brace where a value is expected and a closing bracket where a name is expected are refused: the
stream is not good, and nothing was emitted. -/
theorem C06_misuse_refused (max : Nat) (st : Jw) (t : Token)
    (h : match t with
      | .prop _ | .endObject => expectProperty st.expect st.levels = false
      | _ => expectProperty st.expect st.levels = true) :
    (putTok max st t).o.good = false ∧ (putTok max st t).o.out = st.o.out := by
  cases t <;> simp_all [putTok, putNull, putBoolean, putNumber, putString, putValue, putProperty, putBegin, putEndArray, putEndObject]

/-- In `{"a"` … : a name after a name. -/
example : let st := calls 4 (fresh 100) [.tok .beginObject, .tok (.prop [97])]
    st.o.good = true ∧ expectProperty st.expect st.levels = false ∧ (putTok 4 st (.prop [98])).o.good = false := by decide

/-- Two values at top level are accepted. -/
theorem C06_violated : ¬ C06Full := by
  intro h
  obtain ⟨x, w, v, w', hw, hv, hw', he⟩ := h 1 8 [.tok .null, .tok .null] (by simp [Call.Ok]) (by decide)
  have ho : (calls 1 (fresh 8) [.tok .null, .tok .null]).o.out = [110, 117, 108, 108, 110, 117, 108, 108] := by decide
  rw [ho] at he
  cases w with
  | cons c w =>
    simp at he
    have := hw c (by simp)
    rw [← he.1] at this
    exact absurd this (by decide)
  | nil =>
    cases v with
    | arr w es => simp [Value.text] at he
    | obj w ms => simp [Value.text] at he
    | atom a =>
      simp only [Value.Ok] at hv
      cases a with
      | null =>
        simp [Value.text, Atom.text] at he
        have := hw' 110 (by rw [← he]; simp)
        exact absurd this (by decide)
      | bool b => cases b <;> simp [Value.text, Atom.text] at he
      | num n =>
        obtain ⟨c, t, hct, hc⟩ := Num.text_cons (n := n) hv
        simp [Value.text, Atom.text, hct] at he
        rw [← he.1] at hc
        exact absurd hc (by decide)
      | str s => simp [Value.text, Atom.text] at he

/-- A closing bracket after a name is emitted, and only then refused. -/
theorem C06_violated_bracket {max : Nat} {st : Jw} {ls : List Bool} (hl : st.levels = true :: ls) (he : st.expect = false)
    (hg : st.o.good = true) (hr : 1 ≤ st.o.room) :
    (putTok max st .endArray).o.good = false ∧ (putTok max st .endArray).o.out = st.o.out ++ [93] := by
  obtain ⟨r, hr⟩ : ∃ r, st.o.room = r + 1 := ⟨st.o.room - 1, by omega⟩
  simp [putTok, putEndArray, expectProperty, he, hl, popLevel, putChars, hg, Out.put, hr]

/-- An opening bracket beyond the last level is emitted, and only then refused. -/
theorem C06_violated_depth {max : Nat} {st : Jw} (hl : max ≤ st.levels.length) (he : expectProperty st.expect st.levels = false)
    (hs : st.skipComma = true) (hg : st.o.good = true) (hr : 1 ≤ st.o.room) :
    (putTok max st .beginArray).o.good = false ∧ (putTok max st .beginArray).o.out = st.o.out ++ [91] := by
  obtain ⟨r, hr⟩ : ∃ r, st.o.room = r + 1 := ⟨st.o.room - 1, by omega⟩
  simp [putTok, putBegin, he, pushLevel, Nat.not_lt.2 hl, putChars, hg, Out.put, hr, valueComma, hs]

/-- A quotation mark in a string is not escaped: one string with the character `"` is not the beginning
of any document. -/
theorem C06_violated_quote (max : Nat) :
    (putTok max (fresh 8) (.str [34])).o.good = true ∧ (putTok max (fresh 8) (.str [34])).o.out = [34, 34, 34] ∧
    ∀ x, ¬ Doc ([34, 34, 34] ++ x) := by
  refine ⟨by simp [putTok, putString, putValue, fresh, expectProperty, valueComma, putChars, Out.put, Out.good],
    by simp [putTok, putString, putValue, fresh, expectProperty, valueComma, putChars, Out.put, Out.good], ?_⟩
  rintro x ⟨w, v, w', hw, hv, hw', he⟩
  cases w with
  | cons c w =>
    simp at he
    have := hw c (by simp)
    rw [← he.1] at this
    exact absurd this (by decide)
  | nil =>
    cases v with
    | arr w es => simp [Value.text] at he
    | obj w ms => simp [Value.text] at he
    | atom a =>
      simp only [Value.Ok] at hv
      cases a with
      | null => simp [Value.text, Atom.text] at he
      | bool b => cases b <;> simp [Value.text, Atom.text] at he
      | num n =>
        obtain ⟨c, t, hct, hc⟩ := Num.text_cons (n := n) hv
        simp [Value.text, Atom.text, hct] at he
        rw [← he.1] at hc
        exact absurd hc (by decide)
      | str s =>
        obtain ⟨hd, tl⟩ := s
        simp only [Value.text, Atom.text, Str.text] at he
        cases hd with
        | cons c hd =>
          simp at he
          have := hv.1 c (by simp)
          exact this.1 he.1.symm
        | nil =>
          cases tl with
          | nil =>
            simp [tailText] at he
            have := hw' 34 (by rw [← he]; simp)
            exact absurd this (by decide)
          | cons y tl =>
            obtain ⟨e, run⟩ := y
            obtain ⟨t, ht⟩ := Es.text_cons e
            rw [tailText_cons, ht] at he
            simp at he

/-! ## C07: skipping a value -/

theorem skipLoop_reads {max base : Nat} {p q : Pos} {ts : List Token} (h : Reads max (base + 1) p ts q) :
    ∀ (fuel f g : Nat), p.r.length + 27 ≤ fuel → ∃ n, skipLoop max fuel base (ts.length + f) ⟨In.ofList p.r, p.e, p.ls, g⟩ =
      skipLoop max fuel base f ⟨In.ofList q.r, q.e, q.ls, n⟩ := by
  induction h with
  | nil p => intro fuel f g _; exact ⟨g, by simp⟩
  | cons ht hb _ ih =>
    intro fuel f g hf
    obtain ⟨hlen, ht⟩ := ht
    obtain ⟨n, buf', h3, h4, _⟩ := ht (fun _ => List.replicate 8 0) (by simp) g fuel 0 none hf trivial
    obtain ⟨n2, h5⟩ := ih fuel f n (by omega)
    refine ⟨n2, ?_⟩
    rw [List.length_cons, show ∀ k, k + 1 + f = (k + f) + 1 from fun k => by omega, skipLoop, h3, Res.ok_bind, if_pos (by dsimp only; omega), h5]

theorem Reads.length_le {max b : Nat} {p q : Pos} {ts : List Token} (h : Reads max b p ts q) : ts.length + q.r.length ≤ p.r.length := by
  induction h with
  | nil => simp
  | cons ht _ _ ih => have := ht.1; simp; omega

/-- One more token that comes back to the base level ends the skipping. -/
theorem skipValue_reads {max g : Nat} {p p1 p2 q : Pos} {ts : List Token} {t1 t2 : Token} (h1 : ReadsTok max p t1 p1) (hb1 : p.ls.length + 1 ≤ p1.ls.length)
    (h2 : Reads max (p.ls.length + 1) p1 ts p2) (h3 : ReadsTok max p2 t2 q) (hq : q.ls.length ≤ p.ls.length) {fuel : Nat}
    (hf : p.r.length + 27 ≤ fuel) :
    ∃ n, skipValue max fuel ⟨In.ofList p.r, p.e, p.ls, g⟩ = .ok ⟨⟨In.ofList q.r, q.e, q.ls, n⟩, tokItem t2, none⟩ := by
  have h4 := Reads.cons h1 hb1 h2
  have hl := h4.length_le
  obtain ⟨n, h5⟩ := skipLoop_reads h4 fuel (fuel - (t1 :: ts).length) g hf
  rw [show (t1 :: ts).length + (fuel - (t1 :: ts).length) = fuel by omega] at h5
  obtain ⟨hlen, h3⟩ := h3
  obtain ⟨n2, buf', h6, h7, _⟩ := h3 (fun _ => List.replicate 8 0) (by simp) n fuel 0 none (by omega) trivial
  simp only [Holds] at h7
  subst h7
  refine ⟨n2, ?_⟩
  rw [skipValue]
  dsimp only
  rw [h5]
  obtain ⟨f, hf'⟩ : ∃ f, fuel - (t1 :: ts).length = f + 1 := ⟨fuel - (t1 :: ts).length - 1, by omega⟩
  rw [hf', skipLoop, h6, Res.ok_bind, if_neg (by dsimp only; omega)]

/-- The value and what belongs to it (the white space before it; inside brackets, the white space after
it and the comma) is consumed, nothing else; the levels are as before, and the reader expects a name
exactly when it is inside an object.  Missing: the strings and numbers on which the reader itself fails
(`C08`, `C09`); a bare number at the very end. -/
theorem C07_skip_partial {max fuel g : Nat} {v : Value} (hv : v.Ok) {lead tail r : List Byte} {e : Bool} {ls : List Bool} (hl : Ws lead)
    (he : expectProperty e ls = false) (ht : Tail ls tail r) (hr : ls = [] → (∃ n, v = .atom (.num n)) → NumStop r)
    (hd : ls.length + v.depth ≤ max) (hf : (lead ++ (v.text ++ (tail ++ r))).length + 27 ≤ fuel) :
    ∃ t, skipValue max fuel ⟨In.ofList (lead ++ (v.text ++ (tail ++ r))), e, ls, g⟩ = .ok t ∧ t.st.s = In.ofList r ∧
      t.st.levels = ls ∧ expectProperty t.st.expect t.st.levels = topObject ls := by
  cases v with
  | atom a =>
    simp only [Value.text, Value.Ok] at hv hf ⊢
    obtain ⟨hlen, h⟩ := step_atom (max := max) hv hl he ht (fun h ⟨n, hn⟩ => hr h ⟨n, by rw [hn]⟩)
    obtain ⟨n, buf', h3, _, _⟩ := h (fun _ => List.replicate 8 0) (by simp) g fuel 0 none hf trivial
    refine ⟨⟨⟨In.ofList r, setExpect ls true, ls, n⟩, tokItem a.tok, buf'⟩, ?_, rfl, rfl, expectProperty_setExpect ls⟩
    · obtain ⟨f, rfl⟩ : ∃ f, fuel = f + 1 := ⟨fuel - 1, by omega⟩
      rw [skipValue, skipLoop, h3, Res.ok_bind, if_neg (by simp)]
  | arr w es =>
    simp only [Value.Ok] at hv
    simp only [Value.depth] at hd
    simp only [Value.text] at hf ⊢
    obtain ⟨lead', hl', h2⟩ := reads_elems (max := max) es hv.2 w (tail ++ r) ls hv.1 (by omega)
    have h1 := step_begin (max := max) (r := w ++ (es.text ++ 93 :: (tail ++ r))) false hl he (by omega)
    have h3 := step_endArray (max := max) hl' ht
    obtain ⟨n, hn⟩ := skipValue_reads (g := g) h1 (by simp) h2 h3 (by simp) (fuel := fuel) (by simp at hf ⊢; omega)
    refine ⟨⟨⟨In.ofList r, setExpect ls true, ls, n⟩, .endArray, none⟩, ?_, rfl, rfl, expectProperty_setExpect ls⟩
    · simpa [tokItem] using hn
  | obj w ms =>
    simp only [Value.Ok] at hv
    simp only [Value.depth] at hd
    simp only [Value.text] at hf ⊢
    obtain ⟨lead', hl', h2⟩ := reads_mems (max := max) ms hv.2 w (tail ++ r) ls hv.1 (by omega)
    have h1 := step_begin (max := max) (r := w ++ (ms.text ++ 125 :: (tail ++ r))) true hl he (by omega)
    have h3 := step_endObject (max := max) hl' ht
    obtain ⟨n, hn⟩ := skipValue_reads (g := g) h1 (by simp) h2 h3 (by simp) (fuel := fuel) (by simp at hf ⊢; omega)
    refine ⟨⟨⟨In.ofList r, setExpect ls true, ls, n⟩, .endObject, none⟩, ?_, rfl, rfl, expectProperty_setExpect ls⟩
    · simpa [tokItem] using hn

/-- In `[ … , {"a":[1,true],"b":""} , 5]`: the object, up to the 5. -/
example : sample.Ok ∧ Ws ([32] : List Byte) ∧ expectProperty false [false] = false ∧ Tail [false] ([32, 44] : List Byte) [32, 53, 93] ∧
    [false].length + sample.depth ≤ 3 := by
  refine ⟨?_, by simp [Ws, IsWs], rfl, .inr ⟨by simp, [32], by simp [Ws, IsWs], .inl rfl⟩, by simp [sample, Value.depth, Elems.depth, Mems.depth]⟩
  simp [sample, Value.Ok, Elems.Ok, Mems.Ok, Atom.Ok, Num.Ok, Num.text, Digit, Str.Ok, Plain, Ws, fracText, expText]

/-! ## C08: the reader and its blocks -/

/-- The full statement: a block of exactly the announced size. -/
def C08Full : Prop :=
  ∀ (max fuel size : Nat) (atof : List Byte → List Byte) (st : Jr) (mem : List Byte), (∀ x, (atof x).length = 8) → size < 2 ^ 64 →
    mem.length = size → getToken max atof fuel st mem size ≠ some .ub

/-- Whatever the rest of the input and the state are: if there is no backslash in it and no number of
more than 25 characters, and if the block is 6 bytes larger than announced, nothing outside of it is
written, and of the 6 bytes beyond the announced size nothing else; a block with less than 16 bytes is refused.  Missing: exactly the three things
ruled out here, each of which is a violation (below). -/
theorem C08_block_partial {max fuel size : Nat} {atof : List Byte → List Byte} {st : Jr} {mem : List Byte} (hat : ∀ x, (atof x).length = 8)
    (h2 : size < 2 ^ 64) (hm : size + 6 ≤ mem.length) (hb : (92 : Byte) ∉ st.s.rest)
    (hr : ∀ a w, a ++ w <:+ st.s.rest → (∀ c ∈ a, numChar c = true) → a.length ≤ 25) :
    (size < 16 ∧ getToken max atof fuel st mem size = none) ∨ ∃ r, getToken max atof fuel st mem size = some r ∧ r ≠ .ub ∧
      ∀ t, r = .ok t → ∃ mem', t.buf = some mem' ∧ mem'.length = mem.length ∧ ∀ i : Nat, size + 6 ≤ i → mem'[i]? = mem[i]? := by
  by_cases h1 : size < 16
  · exact .inl ⟨h1, by rw [getToken, if_pos h1]⟩
  replace h1 : 16 ≤ size := by omega
  refine .inr ⟨_, by rw [getToken, if_neg (by omega)], ?_⟩
  have hrun : ∀ r, r <:+ st.s.rest → run r ≤ 25 := by
    intro r hs
    refine hr (r.takeWhile numChar) (r.dropWhile numChar) (by rw [List.takeWhile_append_dropWhile]; exact hs) ?_
    intro c hc
    exact (List.all_takeWhile (p := numChar) (l := r) |> List.all_eq_true.1) c hc
  have h := readToken_block (max := max) hat (fuel := fuel) (st := st) (buf := some mem) h1 h2 hb hrun (by simpa using hm)
  cases hk : readToken max atof fuel st (some mem) size with
  | ub => rw [hk] at h; exact h.elim
  | running => exact ⟨by simp, by simp⟩
  | ok t =>
    rw [hk] at h
    refine ⟨by simp, ?_⟩
    rintro t' ht
    simp only [Res.ok.injEq] at ht
    subst ht
    have h : BufSame (size + 6) (some mem) t.buf := h
    cases hb : t.buf with
    | none => rw [hb] at h; exact h.elim
    | some mem' =>
      rw [hb] at h
      exact ⟨mem', rfl, h.1, fun i hi => h.2 i (.inr hi)⟩

example : let st : Jr := { s := In.ofList [34, 97, 98, 34, 44, 49, 50, 46, 53] }
    (92 : Byte) ∉ st.s.rest ∧ ∀ a w, a ++ w <:+ st.s.rest → (∀ c ∈ a, numChar c = true) → a.length ≤ 25 := by
  refine ⟨by simp, ?_⟩
  intro a w h _
  have := h.length_le
  simp at this
  omega

/-- A string of `size - 8` to `size - 3` plain characters, in a block of exactly `size` bytes. -/
theorem C08_violated_string {max fuel size g : Nat} {atof : List Byte → List Byte} {mem w r : List Byte} {e : Bool} {ls : List Bool}
    (h1 : 16 ≤ size) (h2 : size < 2 ^ 64) (hm : mem.length = size) (hw : ∀ c ∈ w, Plain c) (hl : size ≤ w.length + 8) (hu : w.length + 3 ≤ size)
    (hf : w.length < fuel) :
    getToken max atof (fuel + 1) ⟨In.ofList (34 :: (w ++ 34 :: r)), e, ls, g⟩ mem size = some .ub := by
  rw [getToken, if_neg (by omega)]
  congr 1
  apply readToken_ub
  have h3 := getCharsLoop_ub (pred := jsonIsStringContent) (off := 8) (size := size - 2) (by omega) (by omega) 34 r (by decide) w (fuel + 1) mem 0
    (fun c hc => (content_iff c).2 (hw c hc)) (by omega) (by omega) (by omega)
  rw [tokString, sub64_eq (by omega) h2, getString]
  simp only [In.peekV_cons, In.peekS_cons, In.getS_cons, if_true]
  rw [strLoop, sub64_eq (by omega) (by omega), Nat.sub_zero, Nat.add_zero, getChars, h3]
  rfl

theorem C08_violated : ¬ C08Full := by
  intro h
  refine h 0 10 16 (fun _ => List.replicate 8 0) ⟨In.ofList (34 :: (List.replicate 8 97 ++ 34 :: [])), false, [], 0⟩ (List.replicate 16 0) (by simp)
    (by decide) (by simp) (C08_violated_string (fuel := 9) (by omega) (by decide) (by simp) ?_ (by simp) (by simp) (by simp))
  intro c hc
  rw [List.mem_replicate] at hc
  rw [hc.2]
  exact ⟨by decide, by decide⟩

/-- No block is large enough when the string has escapes: the characters they stand for are stored
without looking at the size. -/
theorem C08_violated_escapes {max size g : Nat} {atof : List Byte → List Byte} {mem r : List Byte} {e : Bool} {ls : List Bool}
    (h1 : 16 ≤ size) (h2 : size < 2 ^ 64) (hm : size ≤ mem.length) (fuel : Nat) (hf : mem.length < fuel) :
    getToken max atof (fuel + 1) ⟨In.ofList (34 :: (newlines (mem.length - 8) ++ 34 :: r)), e, ls, g⟩ mem size = some .ub := by
  rw [getToken, if_neg (by omega)]
  congr 1
  apply readToken_ub
  rw [tokString, sub64_eq (by omega) h2, getString]
  simp only [In.peekV_cons, In.peekS_cons, In.getS_cons, if_true]
  rw [strLoop_ub r (mem.length - 8) (fuel + 1) mem 0 (by omega) (by omega)]
  rfl

/-- 25 digits and a fraction overrun the reader's own block, whatever the caller's block is. -/
theorem C08_violated_number {max fuel size g : Nat} {atof : List Byte → List Byte} {d r : List Byte} {ls : List Bool} {buf : Option (List Byte)}
    (hd : ∀ c ∈ d, Digit c) (hl : d.length = 25) (hf : 26 < fuel) :
    readToken max atof fuel ⟨In.ofList (d ++ 46 :: 48 :: r), false, ls, g⟩ buf size = .ub := by
  have hn := getNumber_ub (r := r) hd hl hf
  obtain ⟨c, d', rfl⟩ : ∃ c d', d = c :: d' := by cases d with | nil => simp at hl | cons c d' => exact ⟨c, d', rfl⟩
  have hc := (isDigit_iff c).2 (hd c (by simp))
  have hne := digit_not c hc
  have hsp : ¬ IsWs c := hne.2.2.2
  have h6 := skipSpaces_ok (fuel := fuel) (r := d' ++ 46 :: 48 :: r) (c := c) ws_nil hsp (by simp; omega)
  rw [List.nil_append] at h6
  rw [readToken]
  dsimp only
  rw [List.cons_append] at hn ⊢
  rw [h6]
  simp [expectProperty, valuePart, hne.1, hne.2.1, hne.2.2.1, hc, hn]

/-! ## C09: the reader returns -/

/-- The full statement, for `get_token` with a block that is large enough for `C08`, and for `skip_value`. -/
def C09Full : Prop :=
  (∀ (max size : Nat) (atof : List Byte → List Byte) (st : Jr) (mem : List Byte), (∀ x, (atof x).length = 8) → 16 ≤ size → size < 2 ^ 64 →
    size + 6 ≤ mem.length → ∃ N, ∀ fuel, N ≤ fuel → Returned (readToken max atof fuel st (some mem) size)) ∧
  ∀ (max : Nat) (st : Jr), ∃ N, ∀ fuel, N ≤ fuel → Returned (skipValue max fuel st)

/-- Whatever the input and the state are, the call returns – unless the next character that is not white
space is a quotation mark. -/
theorem C09_nostring_partial {max fuel size : Nat} {atof : List Byte → List Byte} {st : Jr} {buf : Option (List Byte)}
    (hf : st.s.rest.length + 1 < fuel) (hs : ∀ w r, Ws w → st.s.rest ≠ w ++ 34 :: r) :
    Returned (readToken max atof fuel st buf size) := by
  have hm : st.s.meas < fuel := by unfold In.meas; split <;> omega
  refine readToken_returned hm ?_
  intro k hk hp
  exfalso
  have hg : (34 : Byte) ∈ k.s.rest := peekV_mem hp (by decide)
  obtain ⟨w, hw, hws⟩ := skipSpaces_prefix fuel st.s 0 k hk
  cases hr : k.s.rest with
  | nil => rw [hr] at hg; simp at hg
  | cons c r =>
    have hc : c = 34 := by
      have : k.s.good = true := by
        cases hkg : k.s.good with
        | true => rfl
        | false => rw [In.peekV, hkg] at hp; simp at hp
      rw [In.peekV, this, hr] at hp
      simpa using hp
    rw [hr, hc] at hw
    exact hs w r hws hw

/-- `-` and then nothing; a word that is no literal; nothing at all. -/
example : (∀ w r : List Byte, Ws w → ([45] : List Byte) ≠ w ++ 34 :: r) ∧ (∀ w r : List Byte, Ws w → ([32] : List Byte) ≠ w ++ 34 :: r) := by
  refine ⟨?_, ?_⟩ <;> intro w r _ h <;> have := congrArg (fun l => (34 : Byte) ∈ l) h <;> simp at this

/-- It also returns when a terminated string comes (with escapes the reader knows) that fits the block. -/
theorem C09_string_partial {max fuel size g : Nat} {atof : List Byte → List Byte} {lead : List Byte} {s : Str} {r : List Byte} {e : Bool} {ls : List Bool}
    {buf : Option (List Byte)} (hl : Ws lead) (hs : s.Ok) (hb : Fits (.str s.val) size buf)
    (hf : (lead ++ 34 :: (s.text ++ 34 :: r)).length + 27 ≤ fuel) :
    Returned (readToken max atof fuel ⟨In.ofList (lead ++ 34 :: (s.text ++ 34 :: r)), e, ls, g⟩ buf size) := by
  have hlen := hf
  simp only [List.length_append, List.length_cons] at hlen
  refine readToken_returned (by simp [In.meas]; omega) ?_
  intro k hk _
  have h6 := skipSpaces_ok (fuel := fuel) (r := s.text ++ 34 :: r) (c := 34) hl (by decide) (by omega)
  dsimp only at hk
  rw [h6] at hk
  simp only [Res.ok.injEq] at hk
  subst hk
  obtain ⟨x, h1, h2, _⟩ := tokString_ok (atof := fun _ => []) (r := r) hs (fuel := fuel) (size := size) (buf := buf) (by omega) hb
  refine ⟨x, h1, ?_⟩
  rw [h2]
  simp [In.meas]
  omega

example : (⟨[97], [(.simple 110, [98])]⟩ : Str).Ok ∧ Fits (.str (⟨[97], [(.simple 110, [98])]⟩ : Str).val) 16 (some (List.replicate 16 0)) := by
  refine ⟨⟨by simp [Plain], ?_⟩, by simp [Fits, tokChars, Str.val, tailVal]⟩
  simp [Es.Ok, Es.table, Plain]

/-- `skip_value` returns on every well-formed value (see `C07_skip_partial`). -/
theorem C09_skip_partial {max fuel g : Nat} {v : Value} (hv : v.Ok) {lead tail r : List Byte} {e : Bool} {ls : List Bool} (hl : Ws lead)
    (he : expectProperty e ls = false) (ht : Tail ls tail r) (hr : ls = [] → (∃ n, v = .atom (.num n)) → NumStop r)
    (hd : ls.length + v.depth ≤ max) (hf : (lead ++ (v.text ++ (tail ++ r))).length + 27 ≤ fuel) :
    Returned (skipValue max fuel ⟨In.ofList (lead ++ (v.text ++ (tail ++ r))), e, ls, g⟩) := by
  obtain ⟨t, ht, _⟩ := C07_skip_partial (g := g) hv hl he ht hr hd hf
  rw [ht]
  exact returned_ok _

theorem tokString_none {fuel size : Nat} {R : List Byte} (h : skipStrLoop fuel fuel (In.ofList R) 0 = .running) :
    tokString fuel size (In.ofList (34 :: R)) none = .running := by
  rw [tokString, skipString]
  simp [h]

theorem tokString_some {fuel size : Nat} {R mem : List Byte} (hs : 16 ≤ size) (hs2 : size < 2 ^ 64)
    (h : strLoop fuel (size - 2) fuel (In.ofList R) mem 0 = .running) :
    tokString fuel size (In.ofList (34 :: R)) (some mem) = .running := by
  rw [tokString, getString, sub64_eq (by omega) hs2]
  simp [h]

/-- An unterminated string: never, with or without a block. -/
theorem C09_violated_open {max fuel size g : Nat} {atof : List Byte → List Byte} {w : List Byte} {e : Bool} {ls : List Bool} {buf : Option (List Byte)}
    (hw : ∀ c ∈ w, Plain c) (h1 : 16 ≤ size) (h2 : size < 2 ^ 64) (hm : ∀ mem ∈ buf, size + 6 ≤ mem.length) (hf : w.length < fuel) :
    readToken max atof (fuel + 1) ⟨In.ofList (34 :: w), e, ls, g⟩ buf size = .running := by
  apply readToken_hangs
  cases buf with
  | none => exact tokString_none (skipStrLoop_open hw _ _)
  | some mem =>
    have hm := hm mem rfl
    refine tokString_some h1 h2 ?_
    have := strLoop_open (fuel := fuel) (r := []) hw (by omega) (by omega) (.inl rfl) (fuel + 1) mem (size := size - 2) (by omega) hf
    simpa using this

/-- A string of `size - 2` plain characters or more: never, even when it is terminated. -/
theorem C09_violated_long {max fuel size g : Nat} {atof : List Byte → List Byte} {w r mem : List Byte} {e : Bool} {ls : List Bool}
    (hw : ∀ c ∈ w, Plain c) (h1 : 16 ≤ size) (h2 : size < 2 ^ 64) (hm : size + 6 ≤ mem.length) (hl : size ≤ w.length + 2) (hf : w.length < fuel) :
    readToken max atof (fuel + 1) ⟨In.ofList (34 :: (w ++ 34 :: r)), e, ls, g⟩ (some mem) size = .running := by
  apply readToken_hangs
  exact tokString_some h1 h2 (strLoop_open hw (by omega) (by omega) (.inr (by omega)) _ _ (by omega) hf)

theorem hangs_escape {max fuel size g : Nat} {atof : List Byte → List Byte} {R : List Byte} {e : Bool} {ls : List Bool} {buf : Option (List Byte)}
    (h1 : 16 ≤ size) (h2 : size < 2 ^ 64) (hm : ∀ mem ∈ buf, size + 6 ≤ mem.length)
    (h : ∃ e, escaped (fuel + 1) (In.ofList (92 :: R)) = .ok e ∧ e.s.good = false) :
    readToken max atof (fuel + 1) ⟨In.ofList (34 :: 92 :: R), e, ls, g⟩ buf size = .running := by
  obtain ⟨x, hx, hd⟩ := h
  apply readToken_hangs
  cases buf with
  | none => exact tokString_none (skipStrLoop_escape hx hd _ _)
  | some mem =>
    have hm := hm mem rfl
    exact tokString_some h1 h2 (strLoop_escape hx hd _ _ (by omega))

/-- `"\uXXXX…` with any code above `00FF`: never, although it is well-formed JSON. -/
theorem C09_violated_wide {max fuel size g : Nat} {atof : List Byte → List Byte} {a b c d x : Byte} {r : List Byte} {e : Bool} {ls : List Bool}
    {buf : Option (List Byte)} (ha : Hexdig a) (hb : Hexdig b) (hc : Hexdig c) (hd : Hexdig d) (hx : ¬ Hexdig x) (hw : ¬ (a = 48 ∧ b = 48))
    (h1 : 16 ≤ size) (h2 : size < 2 ^ 64) (hm : ∀ mem ∈ buf, size + 6 ≤ mem.length) (hf : 5 ≤ fuel) :
    readToken max atof (fuel + 1) ⟨In.ofList (34 :: 92 :: 117 :: a :: b :: c :: d :: x :: r), e, ls, g⟩ buf size = .running :=
  hangs_escape h1 h2 hm (escaped_wide ha hb hc hd hx hw (by omega))

/-- `"\u00XX` followed by a character that happens to be a hexadecimal digit: never. -/
theorem C09_violated_hex {max fuel size g : Nat} {atof : List Byte → List Byte} {a b x : Byte} {r : List Byte} {e : Bool} {ls : List Bool}
    {buf : Option (List Byte)} (ha : Hexdig a) (hb : Hexdig b) (hx : Hexdig x)
    (h1 : 16 ≤ size) (h2 : size < 2 ^ 64) (hm : ∀ mem ∈ buf, size + 6 ≤ mem.length) (hf : 5 ≤ fuel) :
    readToken max atof (fuel + 1) ⟨In.ofList (34 :: 92 :: 117 :: 48 :: 48 :: a :: b :: x :: r), e, ls, g⟩ buf size = .running :=
  hangs_escape h1 h2 hm (escaped_hex ha hb hx (by omega))

/-- `skip_value` on an array that is cut off after its bracket, or goes on with something that is no
value: never. -/
theorem C09_violated_skip {max fuel : Nat} (hmax : 0 < max) {r : List Byte}
    (hr : r = [] ∨ ∃ r', r = 120 :: r') :
    skipValue max (fuel + 2) { s := In.ofList (91 :: r) } = .running := by
  have hsk : ∀ (c : Byte) (r' : List Byte), ¬ IsWs c → skipChars (fuel + 2) valid jsonIsSpace (In.ofList (c :: r')) = .ok ⟨In.ofList (c :: r'), 0⟩ := by
    intro c r' hc
    have := skipSpaces_ok (fuel := fuel + 2) (r := r') ws_nil hc (by simp)
    simpa using this
  have h1 : readToken max (fun _ => List.replicate 8 0) (fuel + 2) { s := In.ofList (91 :: r) } none 0 =
      .ok ⟨⟨In.ofList r, false, [false], 2⟩, .beginArray, none⟩ := by
    rw [readToken]
    dsimp only
    rw [hsk 91 r (by decide)]
    simp [expectProperty, valuePart, isDigit, isBetween, sc, levelPart, pushLevel, hmax, trailPart, bufItem, setExpect, topObject]
  have h2 : ∃ t, readToken max (fun _ => List.replicate 8 0) (fuel + 2) ⟨In.ofList r, false, [false], 2⟩ none 0 = .ok t ∧ t.st.s.good = false ∧
      t.st.levels = [false] := by
    rcases hr with rfl | ⟨r', rfl⟩
    · exact ⟨_, rfl, rfl, rfl⟩
    · refine ⟨⟨⟨((In.ofList (120 :: r')).setBad.setFail).setBad, false, [false], 2⟩, .none, none⟩, ?_, by simp, rfl⟩
      rw [readToken]
      dsimp only
      rw [hsk 120 r' (by decide)]
      simp [expectProperty, valuePart, isDigit, isBetween, sc, trailPart, bufItem, setExpect, skipChars, skipCharsLoop, topObject, In.peekS, In.peekV]
  obtain ⟨t, h2, h3, h4⟩ := h2
  rw [skipValue, skipLoop, h1]
  simp only [Res.ok_bind, List.length_cons, List.length_nil, gt_iff_lt]
  rw [if_pos (by omega), skipLoop, h2, Res.ok_bind, h4]
  simp only [List.length_cons, List.length_nil, gt_iff_lt]
  rw [if_pos (by omega)]
  exact skipLoop_dead _ _ h3 (by rw [h4]; simp)

theorem C09_violated : ¬ C09Full := by
  rintro ⟨h, _⟩
  obtain ⟨N, hN⟩ := h 0 16 (fun _ => List.replicate 8 0) { s := In.ofList [34] } (List.replicate 22 0) (by simp) (by omega) (by decide) (by simp)
  exact hN (N + 1 + 1) (by omega) (C09_violated_open (w := []) (by simp) (by omega) (by decide) (by simp) (by simp))

end Abc.Json
