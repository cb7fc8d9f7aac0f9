import Verif.Json.Write

/-!
# What the writer has emitted is always the beginning of JSON texts
-/

namespace Abc.Json

open Abc.Ascii Abc.Stream Spec

/-- A call on a `json_ostream`: a token, or `put_space`, `put_tab`, `put_cr`, `put_lf`. -/
inductive Call where
  | tok (t : Token)
  | blank (c : Byte)

def call (max : Nat) (st : Jw) : Call → Jw
  | .tok t => putTok max st t
  | .blank c => putBlank st c

def calls (max : Nat) (st : Jw) (cs : List Call) : Jw := cs.foldl (call max) st

/-- The arguments are sensible: number literals are numbers, strings and names contain no quotation mark
or backslash (the writer does not escape them), blanks are white space. -/
def Call.Ok : Call → Prop
  | .tok (.num t) => ∃ n : Num, n.Ok ∧ n.text = t
  | .tok (.str b) => ∀ c ∈ b, Plain c
  | .tok (.prop b) => ∀ c ∈ b, Plain c
  | .blank c => IsWs c
  | _ => True

/-- After a value at these levels: whatever may legally follow inside the open brackets leads to `D`. -/
def After (D : List Byte → Prop) : List Bool → List Byte → Prop
  | [], out => D out
  | false :: ls, out =>
    (∀ w, Ws w → After D ls (out ++ w ++ [93])) ∧
    ∀ w w2 v tr ld rest, Ws w → Ws w2 → (Elems.cons v tr ld rest).Ok →
      After D ls (out ++ (w ++ 44 :: w2 ++ (Elems.cons v tr ld rest).text) ++ [93])
  | true :: ls, out =>
    (∀ w, Ws w → After D ls (out ++ w ++ [125])) ∧
    ∀ w w2 n w3 w4 v tr ld rest, Ws w → Ws w2 → (Mems.cons n w3 w4 v tr ld rest).Ok →
      After D ls (out ++ (w ++ 44 :: w2 ++ (Mems.cons n w3 w4 v tr ld rest).text) ++ [125])

/-- Before a value. -/
def Before (D : List Byte → Prop) (ls : List Bool) (out : List Byte) : Prop :=
  ∀ w (v : Value), Ws w → v.Ok → After D ls (out ++ w ++ v.text)

/-- Just inside an array. -/
def InArr (D : List Byte → Prop) (ls : List Bool) (out : List Byte) : Prop :=
  ∀ w (es : Elems), Ws w → es.Ok → After D ls (out ++ (w ++ es.text) ++ [93])
/-- Just inside an object. -/
def InObj (D : List Byte → Prop) (ls : List Bool) (out : List Byte) : Prop :=
  ∀ w (ms : Mems), Ws w → ms.Ok → After D ls (out ++ (w ++ ms.text) ++ [125])

/-- The invariant of the writer. -/
def Inv (D : List Byte → Prop) (st : Jw) : Prop :=
  match st.levels with
  | [] => D st.o.out ∧ st.expect = false
  | false :: ls => st.expect = false ∧ if st.skipComma then InArr D ls st.o.out else After D (false :: ls) st.o.out
  | true :: ls =>
    if st.expect then (if st.skipComma then InObj D ls st.o.out else After D (true :: ls) st.o.out)
    else Before D (true :: ls) st.o.out

theorem ws_cons {c : Byte} {w : List Byte} (hc : IsWs c) (hw : Ws w) : Ws (c :: w) := by
  intro d hd
  rcases List.mem_cons.1 hd with rfl | hd
  · exact hc
  · exact hw d hd

theorem ws_nil' : Ws [] := by simp [Ws]

/-- `put_chars`, when the stream is still good: everything was written. -/
theorem putChars_good (w : List Byte) : ∀ {o : Out}, (putChars w o).good = true → o.good = true ∧ (putChars w o).out = o.out ++ w := by
  induction w with
  | nil => intro o h; exact ⟨h, by simp [putChars]⟩
  | cons c w ih =>
    intro o h
    rw [putChars] at h ⊢
    split at h
    · rename_i hg
      obtain ⟨h1, h2⟩ := ih h
      refine ⟨hg, ?_⟩
      rw [if_pos hg, h2, Out.put_good_out h1]
      simp
    · simp at h

theorem after_blank {D : List Byte → Prop} (hD : ∀ out c, D out → IsWs c → D (out ++ [c])) {ls : List Bool} {out : List Byte} {c : Byte}
    (hc : IsWs c) (h : After D ls out) : After D ls (out ++ [c]) := by
  match ls with
  | [] => exact hD _ _ h hc
  | false :: ls =>
    refine ⟨fun w hw => ?_, fun w w2 v tr ld rest hw hw2 hr => ?_⟩
    · have := h.1 (c :: w) (ws_cons hc hw)
      simpa using this
    · have := h.2 (c :: w) w2 v tr ld rest (ws_cons hc hw) hw2 hr
      simpa using this
  | true :: ls =>
    refine ⟨fun w hw => ?_, fun w w2 n w3 w4 v tr ld rest hw hw2 hr => ?_⟩
    · have := h.1 (c :: w) (ws_cons hc hw)
      simpa using this
    · have := h.2 (c :: w) w2 n w3 w4 v tr ld rest (ws_cons hc hw) hw2 hr
      simpa using this

/-- Where a value is expected, it may be put, with a comma where needed. -/
theorem inv_before {D : List Byte → Prop} {st : Jw} (hi : Inv D st) (he : expectProperty st.expect st.levels = false)
    (htop : st.levels = [] → ∀ w (v : Value), Ws w → v.Ok → D (st.o.out ++ w ++ v.text)) :
    Before D st.levels (st.o.out ++ commaText st.levels st.skipComma) := by
  unfold Inv at hi
  intro w v hw hv
  match hl : st.levels with
  | [] =>
    have := htop hl w v hw hv
    simpa [commaText, After] using this
  | false :: ls =>
    rw [hl] at hi
    simp only at hi
    rw [commaText_arr]
    cases hs : st.skipComma with
    | true =>
      rw [hs] at hi
      simp only [if_true] at hi
      refine ⟨fun w' hw' => ?_, fun w' w2 v2 tr ld rest hw' hw2 hr => ?_⟩
      · have := hi.2 w (.cons v w' [] .nil) hw (by simp [Elems.Ok, hv, hw', ws_nil'])
        simpa [Elems.text, Elems.sep] using this
      · have := hi.2 w (.cons v w' w2 (.cons v2 tr ld rest)) hw (by simp only [Elems.Ok] at hr ⊢; exact ⟨hv, hw', hw2, hr⟩)
        rw [Elems.text] at this
        simpa [Elems.sep] using this
    | false =>
      rw [hs] at hi
      simp only [Bool.false_eq_true, if_false] at hi
      refine ⟨fun w' hw' => ?_, fun w' w2 v2 tr ld rest hw' hw2 hr => ?_⟩
      · have := hi.2.2 [] w v w' [] .nil ws_nil' hw (by simp [Elems.Ok, hv, hw', ws_nil'])
        simpa [Elems.text, Elems.sep] using this
      · have := hi.2.2 [] w v w' w2 (.cons v2 tr ld rest) ws_nil' hw (by simp only [Elems.Ok] at hr ⊢; exact ⟨hv, hw', hw2, hr⟩)
        rw [Elems.text] at this
        simpa [Elems.sep] using this
  | true :: ls =>
    rw [hl] at hi he
    simp only at hi
    have hx : st.expect = false := by simpa [expectProperty, topObject] using he
    rw [hx] at hi
    simp only [Bool.false_eq_true, if_false] at hi
    rw [commaText_obj, List.append_nil]
    exact hi w v hw hv

/-- The state after a value. -/
theorem inv_after {D : List Byte → Prop} {o : Out} {ls : List Bool} (h : After D ls o.out) :
    Inv D ⟨o, setExpect ls true, ls, false⟩ := by
  unfold Inv
  match ls with
  | [] => exact ⟨h, rfl⟩
  | false :: ls => exact ⟨by simp [setExpect, topObject], by simpa using h⟩
  | true :: ls => simpa [setExpect, topObject] using h

theorem valueComma_good {st : Jw} (h : (valueComma st).good = true) :
    st.o.good = true ∧ (valueComma st).out = st.o.out ++ commaText st.levels st.skipComma := by
  unfold valueComma commaText at *
  split
  · rename_i hc
    rw [if_pos hc] at h
    exact putChars_good _ h
  · rename_i hc
    rw [if_neg hc] at h
    exact ⟨h, by simp⟩

theorem putValue_inv {D : List Byte → Prop} {st : Jw} {f : Out → Out} {v : Value} (hv : v.Ok)
    (hf : ∀ o : Out, (f o).good = true → o.good = true ∧ (f o).out = o.out ++ v.text)
    (hi : Inv D st) (htop : st.levels = [] → ∀ w (v : Value), Ws w → v.Ok → D (st.o.out ++ w ++ v.text))
    (hg : (putValue st f).o.good = true) : Inv D (putValue st f) := by
  unfold putValue at hg ⊢
  split at hg
  · simp at hg
  · rename_i he
    rw [if_neg he]
    have he : expectProperty st.expect st.levels = false := by simpa using he
    obtain ⟨h1, h2⟩ := hf _ hg
    obtain ⟨h3, h4⟩ := valueComma_good h1
    refine inv_after ?_
    rw [h2, h4]
    have := inv_before hi he htop [] v ws_nil' hv
    simpa using this

theorem quoted_good (b : List Byte) (o : Out) (h : (putChars [34] (putChars b (putChars [34] o))).good = true) :
    o.good = true ∧ (putChars [34] (putChars b (putChars [34] o))).out = o.out ++ (34 :: (b ++ [34])) := by
  obtain ⟨h1, e1⟩ := putChars_good _ h
  obtain ⟨h2, e2⟩ := putChars_good _ h1
  obtain ⟨h3, e3⟩ := putChars_good _ h2
  refine ⟨h3, ?_⟩
  rw [e1, e2, e3]
  simp

theorem putBegin_inv {D : List Byte → Prop} {max : Nat} {st : Jw} {obj : Bool} (hi : Inv D st)
    (htop : st.levels = [] → ∀ w (v : Value), Ws w → v.Ok → D (st.o.out ++ w ++ v.text))
    (hg : (putBegin max st obj).o.good = true) : Inv D (putBegin max st obj) := by
  unfold putBegin at hg ⊢
  split at hg
  · simp at hg
  · rename_i he
    rw [if_neg he]
    have he : expectProperty st.expect st.levels = false := by simpa using he
    by_cases hlt : st.levels.length < max
    · have hp : pushLevel max obj st.levels = some (obj :: st.levels) := by simp [pushLevel, hlt]
      rw [hp] at hg ⊢
      simp only at hg ⊢
      obtain ⟨h1, h2⟩ := putChars_good _ hg
      obtain ⟨h3, h4⟩ := valueComma_good h1
      have hb := inv_before hi he htop
      cases obj with
      | true =>
        simp only [if_true] at h2 hg ⊢
        unfold Inv
        simp only [setExpect, topObject, List.head?_cons, BEq.rfl, Bool.and_self, if_true]
        intro w ms hw hms
        have := hb [] (.obj w ms) ws_nil' (by simp only [Value.Ok]; exact ⟨hw, hms⟩)
        rw [h2, h4]
        simpa [Value.text] using this
      | false =>
        simp only [Bool.false_eq_true, if_false] at h2 hg ⊢
        unfold Inv
        refine ⟨by simp [setExpect], ?_⟩
        simp only [if_true]
        intro w es hw hes
        have := hb [] (.arr w es) ws_nil' (by simp only [Value.Ok]; exact ⟨hw, hes⟩)
        rw [h2, h4]
        simpa [Value.text] using this
    · have hp : pushLevel max obj st.levels = none := by simp [pushLevel, hlt]
      rw [hp] at hg
      simp at hg

theorem putEndArray_inv {D : List Byte → Prop} {st : Jw} (hi : Inv D st)
    (hg : (putEndArray st).o.good = true) : Inv D (putEndArray st) := by
  unfold putEndArray at hg ⊢
  split at hg
  · simp at hg
  · rename_i he
    rw [if_neg he]
    unfold Inv at hi
    match hl : st.levels with
    | [] => rw [hl] at hg; simp [popLevel] at hg
    | true :: ls => rw [hl] at hg; simp [popLevel] at hg
    | false :: ls =>
      rw [hl] at hg hi
      simp only [popLevel, if_true] at hg ⊢
      simp only at hi
      obtain ⟨h1, h2⟩ := putChars_good _ hg
      refine inv_after ?_
      rw [h2]
      cases hs : st.skipComma with
      | true =>
        rw [hs] at hi
        have := hi.2 [] .nil ws_nil' (by simp [Elems.Ok])
        simpa [Elems.text] using this
      | false =>
        rw [hs] at hi
        have := hi.2.1 [] ws_nil'
        simpa using this

theorem putEndObject_inv {D : List Byte → Prop} {st : Jw} (hi : Inv D st)
    (hg : (putEndObject st).o.good = true) : Inv D (putEndObject st) := by
  unfold putEndObject at hg ⊢
  split at hg
  · simp at hg
  · rename_i he
    rw [if_neg he]
    unfold Inv at hi
    match hl : st.levels with
    | [] => rw [hl] at hg; simp [popLevel] at hg
    | false :: ls => rw [hl] at hg; simp [popLevel] at hg
    | true :: ls =>
      rw [hl] at hg hi he
      have hx : st.expect = true := by simpa [expectProperty, topObject] using he
      simp only [popLevel, if_true] at hg ⊢
      rw [hx] at hi
      simp only [if_true] at hi
      obtain ⟨h1, h2⟩ := putChars_good _ hg
      refine inv_after ?_
      rw [h2]
      cases hs : st.skipComma with
      | true =>
        rw [hs] at hi
        have := hi [] .nil ws_nil' (by simp [Mems.Ok])
        simpa [Mems.text] using this
      | false =>
        rw [hs] at hi
        have := hi.1 [] ws_nil'
        simpa using this

theorem str_ok {b : List Byte} (hb : ∀ c ∈ b, Plain c) : (⟨b, []⟩ : Str).Ok := ⟨hb, by simp⟩
theorem str_text (b : List Byte) : (⟨b, []⟩ : Str).text = b := by simp [Str.text, tailText]

theorem putProperty_inv {D : List Byte → Prop} {st : Jw} {b : List Byte} (hb : ∀ c ∈ b, Plain c) (hi : Inv D st)
    (hg : (putProperty st b).o.good = true) : Inv D (putProperty st b) := by
  unfold putProperty at hg ⊢
  split at hg
  · simp at hg
  · rename_i he
    rw [if_neg he]
    unfold Inv at hi
    match hl : st.levels with
    | [] => rw [hl] at he; simp [expectProperty, topObject] at he
    | false :: ls => rw [hl] at he; simp [expectProperty, topObject] at he
    | true :: ls =>
      rw [hl] at hg hi he
      have hx : st.expect = true := by simpa [expectProperty, topObject] using he
      rw [hx] at hi
      simp only [if_true] at hi
      obtain ⟨h1, e1⟩ := putChars_good _ hg
      obtain ⟨h2, e2⟩ := putChars_good _ h1
      obtain ⟨h3, e3⟩ := putChars_good _ h2
      unfold Inv
      simp only [setExpect, Bool.false_and, Bool.false_eq_true, if_false]
      intro w v hw hv
      simp only [e1, e2, e3]
      cases hs : st.skipComma with
      | true =>
        rw [hs] at hi
        simp only [if_true] at hi
        simp only [Bool.not_true, Bool.false_eq_true, and_false, if_false]
        refine ⟨fun w' hw' => ?_, fun w' w2 n w3 w4 v2 tr ld rest hw' hw2 hr => ?_⟩
        · have := hi [] (.cons ⟨b, []⟩ [] w v w' [] .nil) ws_nil' (by simp [Mems.Ok, hv, hw, hw', ws_nil', str_ok hb])
          simpa [Mems.text, Mems.sep, str_text] using this
        · have := hi [] (.cons ⟨b, []⟩ [] w v w' w2 (.cons n w3 w4 v2 tr ld rest)) ws_nil'
            (by rw [Mems.Ok]; exact ⟨str_ok hb, ws_nil', hw, hv, hw', hw2, hr⟩)
          rw [Mems.text] at this
          simpa [Mems.sep, str_text] using this
      | false =>
        rw [hs] at hi h3
        simp only [Bool.false_eq_true, if_false] at hi
        simp only [topObject, List.head?_cons, BEq.rfl, Bool.not_false, ne_eq, reduceCtorEq, not_false_eq_true, and_self, if_true] at h3 ⊢
        obtain ⟨h4, e4⟩ := putChars_good _ h3
        rw [e4]
        refine ⟨fun w' hw' => ?_, fun w' w2 n w3 w4 v2 tr ld rest hw' hw2 hr => ?_⟩
        · have := hi.2 [] [] ⟨b, []⟩ [] w v w' [] .nil ws_nil' ws_nil' (by simp [Mems.Ok, hv, hw, hw', ws_nil', str_ok hb])
          simpa [Mems.text, Mems.sep, str_text] using this
        · have := hi.2 [] [] ⟨b, []⟩ [] w v w' w2 (.cons n w3 w4 v2 tr ld rest) ws_nil' ws_nil'
            (by rw [Mems.Ok]; exact ⟨str_ok hb, ws_nil', hw, hv, hw', hw2, hr⟩)
          rw [Mems.text] at this
          simpa [Mems.sep, str_text] using this

theorem putBlank_inv {D : List Byte → Prop} (hD : ∀ out c, D out → IsWs c → D (out ++ [c])) {st : Jw} {c : Byte}
    (hc : IsWs c) (hi : Inv D st) (hg : (putBlank st c).o.good = true) : Inv D (putBlank st c) := by
  obtain ⟨h1, h2⟩ := putChars_good _ hg
  unfold Inv putBlank at *
  simp only at hg ⊢
  match hl : st.levels with
  | [] =>
    rw [hl] at hi
    simp only at hi ⊢
    rw [h2]
    exact ⟨hD _ _ hi.1 hc, hi.2⟩
  | false :: ls =>
    rw [hl] at hi
    simp only at hi ⊢
    rw [h2]
    refine ⟨hi.1, ?_⟩
    cases hs : st.skipComma with
    | true =>
      rw [hs] at hi
      intro w es hw hes
      have := hi.2 (c :: w) es (ws_cons hc hw) hes
      simpa using this
    | false =>
      rw [hs] at hi
      exact after_blank hD hc hi.2
  | true :: ls =>
    rw [hl] at hi
    simp only at hi ⊢
    rw [h2]
    cases hx : st.expect with
    | true =>
      rw [hx] at hi
      simp only [if_true] at hi ⊢
      cases hs : st.skipComma with
      | true =>
        rw [hs] at hi
        intro w ms hw hms
        have := hi (c :: w) ms (ws_cons hc hw) hms
        simpa using this
      | false =>
        rw [hs] at hi
        exact after_blank hD hc hi
    | false =>
      rw [hx] at hi
      intro w v hw hv
      have := hi (c :: w) v (ws_cons hc hw) hv
      simpa using this

/-- One call keeps the invariant, if the stream is still good after it. -/
theorem call_inv {D : List Byte → Prop} (hD : ∀ out c, D out → IsWs c → D (out ++ [c])) {max : Nat} {st : Jw} {c : Call} (hc : c.Ok)
    (hi : Inv D st)
    (htop : st.levels = [] → (∃ b, c = .blank b) ∨ ∀ w (v : Value), Ws w → v.Ok → D (st.o.out ++ w ++ v.text))
    (hg : (call max st c).o.good = true) : Inv D (call max st c) := by
  cases c with
  | blank b => exact putBlank_inv hD hc hi hg
  | tok t =>
    have ht : st.levels = [] → ∀ w (v : Value), Ws w → v.Ok → D (st.o.out ++ w ++ v.text) := by
      intro h
      rcases htop h with ⟨b, hb⟩ | h'
      · simp at hb
      · exact h'
    cases t with
    | null => exact putValue_inv (v := .atom .null) (by simp [Value.Ok, Atom.Ok]) (fun o h => putChars_good _ h) hi ht hg
    | bool b =>
      refine putValue_inv (v := .atom (.bool b)) (by simp [Value.Ok, Atom.Ok]) (fun o h => ?_) hi ht hg
      cases b <;> exact putChars_good _ h
    | num t =>
      obtain ⟨n, hn, rfl⟩ := hc
      exact putValue_inv (v := .atom (.num n)) (by simpa [Value.Ok, Atom.Ok] using hn) (fun o h => putChars_good _ h) hi ht hg
    | str b =>
      refine putValue_inv (v := .atom (.str ⟨b, []⟩)) (by simpa [Value.Ok, Atom.Ok] using str_ok hc) (fun o h => ?_) hi ht hg
      simpa [Value.text, Atom.text, str_text] using quoted_good b o h
    | prop b => exact putProperty_inv hc hi hg
    | beginArray => exact putBegin_inv hi ht hg
    | endArray => exact putEndArray_inv hi hg
    | beginObject => exact putBegin_inv hi ht hg
    | endObject => exact putEndObject_inv hi hg

/-- From an invariant state a completion exists. -/
theorem after_complete {D : List Byte → Prop} : ∀ {ls : List Bool} {out : List Byte}, After D ls out → ∃ x, D (out ++ x)
  | [], out, h => ⟨[], by simpa [After] using h⟩
  | false :: ls, out, h => by
    obtain ⟨x, hx⟩ := after_complete (h.1 [] ws_nil')
    exact ⟨93 :: x, by simpa using hx⟩
  | true :: ls, out, h => by
    obtain ⟨x, hx⟩ := after_complete (h.1 [] ws_nil')
    exact ⟨125 :: x, by simpa using hx⟩

theorem inv_complete {D : List Byte → Prop} {st : Jw} (hi : Inv D st) : ∃ x, D (st.o.out ++ x) := by
  unfold Inv at hi
  match hl : st.levels with
  | [] => rw [hl] at hi; exact ⟨[], by simpa using hi.1⟩
  | false :: ls =>
    rw [hl] at hi
    simp only at hi
    cases hs : st.skipComma with
    | true =>
      rw [hs] at hi
      obtain ⟨x, hx⟩ := after_complete (hi.2 [] .nil ws_nil' (by simp [Elems.Ok]))
      exact ⟨93 :: x, by simpa [Elems.text] using hx⟩
    | false => rw [hs] at hi; exact after_complete hi.2
  | true :: ls =>
    rw [hl] at hi
    simp only at hi
    cases hx : st.expect with
    | true =>
      rw [hx] at hi
      simp only [if_true] at hi
      cases hs : st.skipComma with
      | true =>
        rw [hs] at hi
        obtain ⟨x, hx⟩ := after_complete (hi [] .nil ws_nil' (by simp [Mems.Ok]))
        exact ⟨125 :: x, by simpa [Mems.text] using hx⟩
      | false => rw [hs] at hi; exact after_complete hi
    | false =>
      rw [hx] at hi
      obtain ⟨x, hx⟩ := after_complete (hi [] (.atom .null) ws_nil' (by simp [Value.Ok, Atom.Ok]))
      exact ⟨_, by simpa using hx⟩

/-! ## A stream that is not good emits nothing -/

theorem putChars_dead {o : Out} (h : o.good = false) (w : List Byte) : (putChars w o).good = false ∧ (putChars w o).out = o.out := by
  cases w with
  | nil => exact ⟨h, rfl⟩
  | cons c w => simp [putChars, h]

theorem valueComma_dead {st : Jw} (h : st.o.good = false) : (valueComma st).good = false ∧ (valueComma st).out = st.o.out := by
  unfold valueComma
  split
  · exact putChars_dead h _
  · exact ⟨h, rfl⟩

theorem call_dead {max : Nat} {st : Jw} (c : Call) (h : st.o.good = false) :
    (call max st c).o.good = false ∧ (call max st c).o.out = st.o.out := by
  have hv : ∀ f : Out → Out, (∀ o : Out, o.good = false → (f o).good = false ∧ (f o).out = o.out) →
      (putValue st f).o.good = false ∧ (putValue st f).o.out = st.o.out := by
    intro f hf
    unfold putValue
    split
    · simp
    · obtain ⟨h1, h2⟩ := valueComma_dead h
      obtain ⟨h3, h4⟩ := hf _ h1
      exact ⟨h3, h4.trans h2⟩
  have hb : ∀ obj, (putBegin max st obj).o.good = false ∧ (putBegin max st obj).o.out = st.o.out := by
    intro obj
    unfold putBegin
    split
    · simp
    · obtain ⟨h1, h2⟩ := valueComma_dead h
      obtain ⟨h3, h4⟩ := putChars_dead h1 [if obj then 123 else 91]
      dsimp only
      generalize putChars [if obj then 123 else 91] (valueComma st) = o at *
      split
      · exact ⟨h3, h4.trans h2⟩
      · exact ⟨by simp, h4.trans h2⟩
  cases c with
  | blank b => exact putChars_dead h _
  | tok t =>
    cases t with
    | null => exact hv _ fun o ho => putChars_dead ho _
    | bool b => exact hv _ fun o ho => putChars_dead ho _
    | num t => exact hv _ fun o ho => putChars_dead ho _
    | str b =>
      refine hv _ fun o ho => ?_
      obtain ⟨h1, e1⟩ := putChars_dead ho [34]
      obtain ⟨h2, e2⟩ := putChars_dead h1 b
      obtain ⟨h3, e3⟩ := putChars_dead h2 [34]
      exact ⟨h3, e3.trans (e2.trans e1)⟩
    | prop b =>
      show (putProperty st b).o.good = false ∧ (putProperty st b).o.out = st.o.out
      unfold putProperty
      split
      · simp
      · have h0 : (if st.levels ≠ [] ∧ topObject st.levels ∧ !st.skipComma then putChars [44] st.o else st.o).good = false ∧
            (if st.levels ≠ [] ∧ topObject st.levels ∧ !st.skipComma then putChars [44] st.o else st.o).out = st.o.out := by
          split
          · exact putChars_dead h _
          · exact ⟨h, rfl⟩
        obtain ⟨h1, e1⟩ := putChars_dead h0.1 [34]
        obtain ⟨h2, e2⟩ := putChars_dead h1 b
        obtain ⟨h3, e3⟩ := putChars_dead h2 [34, 58]
        exact ⟨h3, e3.trans (e2.trans (e1.trans h0.2))⟩
    | beginArray => exact hb false
    | beginObject => exact hb true
    | endArray =>
      show (putEndArray st).o.good = false ∧ (putEndArray st).o.out = st.o.out
      unfold putEndArray
      split
      · simp
      · obtain ⟨h3, h4⟩ := putChars_dead h [93]
        split
        · exact ⟨h3, h4⟩
        · exact ⟨by simp, h4⟩
    | endObject =>
      show (putEndObject st).o.good = false ∧ (putEndObject st).o.out = st.o.out
      unfold putEndObject
      split
      · simp
      · obtain ⟨h3, h4⟩ := putChars_dead h [125]
        split
        · exact ⟨h3, h4⟩
        · exact ⟨by simp, h4⟩

theorem calls_dead {max : Nat} (cs : List Call) : ∀ {st : Jw}, st.o.good = false →
    (calls max st cs).o.good = false ∧ (calls max st cs).o.out = st.o.out := by
  induction cs with
  | nil => intro st h; exact ⟨h, rfl⟩
  | cons c cs ih =>
    intro st h
    obtain ⟨h1, e1⟩ := call_dead (max := max) c h
    obtain ⟨h2, e2⟩ := ih h1
    exact ⟨h2, e2.trans e1⟩

theorem calls_good {max : Nat} {st : Jw} {cs : List Call} (h : (calls max st cs).o.good = true) : st.o.good = true := by
  cases hg : st.o.good with
  | true => rfl
  | false => rw [(calls_dead cs hg).1] at h; simp at h

end Abc.Json
