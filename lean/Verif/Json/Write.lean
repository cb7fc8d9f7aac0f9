import Verif.Json.Lex
import Verif.Http.WriteLemmas

/-!
# Writing the tokens of a JSON text
-/

namespace Abc.Json

open Abc.Ascii Abc.Stream Spec
open Abc.Http (adv adv_out adv_room adv_good adv_nil adv_adv put_adv)

/-- The writer call for a token. -/
def putTok (max : Nat) (st : Jw) : Token → Jw
  | .null => putNull st
  | .bool b => putBoolean st b
  | .num t => putNumber st t
  | .str b => putString st b
  | .prop b => putProperty st b
  | .beginArray => putBegin max st false
  | .endArray => putEndArray st
  | .beginObject => putBegin max st true
  | .endObject => putEndObject st

/-- One call after the other. -/
def putToks (max : Nat) (st : Jw) (ts : List Token) : Jw := ts.foldl (putTok max) st

namespace Spec

def Atom.Compact : Atom → Prop
  | .str s => s.tail = []
  | _ => True

mutual
/-- No white space, no escapes. -/
def Value.Compact : Value → Prop
  | .atom a => a.Compact
  | .arr w es => w = [] ∧ es.Compact
  | .obj w ms => w = [] ∧ ms.Compact
def Elems.Compact : Elems → Prop
  | .nil => True
  | .cons v trail lead rest => v.Compact ∧ trail = [] ∧ lead = [] ∧ rest.Compact
def Mems.Compact : Mems → Prop
  | .nil => True
  | .cons name w1 w2 v trail lead rest =>
    name.tail = [] ∧ w1 = [] ∧ w2 = [] ∧ v.Compact ∧ trail = [] ∧ lead = [] ∧ rest.Compact
end

end Spec

theorem putChars_adv (w : List Byte) : ∀ {o : Out}, o.good = true → w.length ≤ o.room → putChars w o = adv o w := by
  induction w with
  | nil => intro o _ _; simp [putChars, adv_nil]
  | cons c w ih =>
    intro o hg hr
    simp only [List.length_cons] at hr
    rw [putChars, if_pos hg, put_adv hg (by omega), ih (by simpa using hg) (by simp; omega), adv_adv]
    rfl

/-- The comma before a value. -/
def commaText (ls : List Bool) (skip : Bool) : List Byte := if ls ≠ [] ∧ !topObject ls ∧ !skip then [44] else []

theorem commaText_length (ls : List Bool) (skip : Bool) : (commaText ls skip).length ≤ 1 := by
  unfold commaText; split <;> simp

theorem valueComma_adv {st : Jw} (hg : st.o.good = true) (hr : (commaText st.levels st.skipComma).length ≤ st.o.room) :
    valueComma st = adv st.o (commaText st.levels st.skipComma) := by
  unfold valueComma commaText at *
  split
  · rename_i h
    rw [if_pos h] at hr
    exact putChars_adv [44] hg hr
  · simp [adv_nil]

theorem putValue_adv {st : Jw} {f : Out → Out} {text : List Byte} (hg : st.o.good = true)
    (he : expectProperty st.expect st.levels = false)
    (hf : ∀ o : Out, o.good = true → text.length ≤ o.room → f o = adv o text)
    (hr : (commaText st.levels st.skipComma ++ text).length ≤ st.o.room) :
    putValue st f = ⟨adv st.o (commaText st.levels st.skipComma ++ text), setExpect st.levels true, st.levels, false⟩ := by
  simp only [List.length_append] at hr
  rw [putValue, he, if_neg (by simp), valueComma_adv hg (by omega), hf _ (by simpa using hg) (by simp; omega), adv_adv]

theorem quoted_adv (b : List Byte) (o : Out) (hg : o.good = true) (hr : (34 :: (b ++ [34])).length ≤ o.room) :
    putChars [34] (putChars b (putChars [34] o)) = adv o (34 :: (b ++ [34])) := by
  simp only [List.length_cons, List.length_append, List.length_nil] at hr
  rw [putChars_adv [34] hg (by simp; omega), putChars_adv b (by simpa using hg) (by simp; omega),
    putChars_adv [34] (by simpa using hg) (by simp; omega)]
  simp [adv_adv]

theorem Str.text_compact {s : Str} (h : s.tail = []) : s.text = s.head ∧ s.val = s.head := by
  simp [Str.text, Str.val, h, tailText, tailVal]

theorem writes_atom {max : Nat} {a : Atom} {st : Jw} (hc : a.Compact) (hg : st.o.good = true)
    (he : expectProperty st.expect st.levels = false)
    (hr : (commaText st.levels st.skipComma ++ a.text).length ≤ st.o.room) :
    putTok max st a.tok = ⟨adv st.o (commaText st.levels st.skipComma ++ a.text), setExpect st.levels true, st.levels, false⟩ := by
  cases a with
  | null => exact putValue_adv hg he (fun o h1 h2 => putChars_adv _ h1 h2) hr
  | bool b => cases b <;> exact putValue_adv hg he (fun o h1 h2 => putChars_adv _ h1 h2) hr
  | num n => exact putValue_adv hg he (fun o h1 h2 => putChars_adv _ h1 h2) hr
  | str s =>
    have h := Str.text_compact hc
    simp only [Atom.tok, putTok, putString, h.2]
    simp only [Atom.text, h.1] at hr ⊢
    exact putValue_adv hg he (fun o h1 h2 => quoted_adv _ o h1 h2) hr

theorem writes_begin {max : Nat} {st : Jw} (obj : Bool) (hg : st.o.good = true)
    (he : expectProperty st.expect st.levels = false) (hd : st.levels.length < max)
    (hr : (commaText st.levels st.skipComma ++ [if obj then 123 else 91]).length ≤ st.o.room) :
    putBegin max st obj = ⟨adv st.o (commaText st.levels st.skipComma ++ [if obj then 123 else 91]), obj, obj :: st.levels, true⟩ := by
  simp only [List.length_append, List.length_singleton] at hr
  rw [putBegin, he, if_neg (by simp), valueComma_adv hg (by omega), putChars_adv _ (by simpa using hg) (by simp; omega), adv_adv]
  simp only [pushLevel, hd, if_true]
  cases obj <;> simp [setExpect, topObject]

theorem writes_endArray {st : Jw} {ls : List Bool} (hg : st.o.good = true) (he : st.levels = false :: ls)
    (hr : 1 ≤ st.o.room) : putEndArray st = ⟨adv st.o [93], setExpect ls true, ls, false⟩ := by
  rw [putEndArray, he, if_neg (by simp [expectProperty, topObject]), putChars_adv _ hg (by simpa using hr)]
  simp [popLevel]

theorem writes_endObject {st : Jw} {ls : List Bool} (hg : st.o.good = true) (he : st.levels = true :: ls) (hx : st.expect = true)
    (hr : 1 ≤ st.o.room) : putEndObject st = ⟨adv st.o [125], setExpect ls true, ls, false⟩ := by
  rw [putEndObject, he, hx, if_neg (by simp [expectProperty, topObject]), putChars_adv _ hg (by simpa using hr)]
  simp [popLevel]

/-- The comma before a name. -/
def propComma (skip : Bool) : List Byte := if skip then [] else [44]

theorem writes_prop {st : Jw} {ls : List Bool} (b : List Byte) (hg : st.o.good = true) (he : st.levels = true :: ls) (hx : st.expect = true)
    (hr : (propComma st.skipComma ++ 34 :: (b ++ [34, 58])).length ≤ st.o.room) :
    putProperty st b = ⟨adv st.o (propComma st.skipComma ++ 34 :: (b ++ [34, 58])), false, true :: ls, true⟩ := by
  rw [putProperty, he, hx, if_neg (by simp [expectProperty, topObject])]
  unfold propComma at hr ⊢
  cases hs : st.skipComma with
  | true =>
    rw [hs] at hr
    simp at hr
    simp [topObject, setExpect]
    rw [putChars_adv [34] hg (by simp; omega), putChars_adv b (by simpa using hg) (by simp; omega),
      putChars_adv [34, 58] (by simpa using hg) (by simp; omega)]
    simp [adv_adv]
  | false =>
    rw [hs] at hr
    simp at hr
    simp [topObject, setExpect]
    rw [putChars_adv [44] hg (by simp; omega), putChars_adv [34] (by simpa using hg) (by simp; omega),
      putChars_adv b (by simpa using hg) (by simp; omega),
      putChars_adv [34, 58] (by simpa using hg) (by simp; omega)]
    simp [adv_adv]

theorem putToks_cons (max : Nat) (st : Jw) (t : Token) (ts : List Token) :
    putToks max st (t :: ts) = putToks max (putTok max st t) ts := rfl
theorem putToks_append (max : Nat) (st : Jw) (ts us : List Token) :
    putToks max st (ts ++ us) = putToks max (putToks max st ts) us := by simp [putToks]
theorem putToks_nil (max : Nat) (st : Jw) : putToks max st [] = st := rfl

/-- The first comma before elements. -/
def elemsComma (skip : Bool) : Elems → List Byte
  | .nil => []
  | .cons .. => if skip then [] else [44]
/-- The first comma before members. -/
def memsComma (skip : Bool) : Mems → List Byte
  | .nil => []
  | .cons .. => if skip then [] else [44]
def elemsSkip (skip : Bool) : Elems → Bool
  | .nil => skip
  | .cons .. => false
def memsSkip (skip : Bool) : Mems → Bool
  | .nil => skip
  | .cons .. => false

theorem commaText_arr (ls : List Bool) (skip : Bool) : commaText (false :: ls) skip = if skip then [] else [44] := by
  cases skip <;> simp [commaText, topObject]
theorem commaText_obj (ls : List Bool) (skip : Bool) : commaText (true :: ls) skip = [] := by
  simp [commaText, topObject]

mutual
theorem writes_value {max : Nat} (v : Value) (hc : v.Compact) (st : Jw) (hg : st.o.good = true)
    (he : expectProperty st.expect st.levels = false) (hd : st.levels.length + v.depth ≤ max)
    (hr : (commaText st.levels st.skipComma ++ v.text).length ≤ st.o.room) :
    putToks max st v.toks = ⟨adv st.o (commaText st.levels st.skipComma ++ v.text), setExpect st.levels true, st.levels, false⟩ := by
  cases v with
  | atom a =>
    simp only [Value.text, Value.toks, putToks_cons, putToks_nil] at hr ⊢
    exact writes_atom (by simpa [Value.Compact] using hc) hg he hr
  | arr w es =>
    simp only [Value.Compact] at hc
    simp only [Value.depth] at hd
    obtain ⟨rfl, hc⟩ := hc
    simp only [Value.text, Value.toks, List.nil_append, List.length_append, List.length_cons, List.length_nil] at hr ⊢
    have h1 := writes_begin (max := max) (st := st) false hg he (by omega) (by simp; omega)
    rw [putToks_cons, putTok, h1, putToks_append]
    have h2 := writes_elems (max := max) es hc st.levels (adv st.o (commaText st.levels st.skipComma ++ [91])) true (by simpa using hg) (by omega)
      (by cases es <;> simp [elemsComma] <;> simp at hr <;> omega)
    simp only [Bool.false_eq_true, if_false] at h2 ⊢
    rw [h2, putToks_cons, putTok, putToks_nil]
    have hl : (elemsComma true es).length = 0 := by cases es <;> rfl
    rw [writes_endArray (ls := st.levels) (by simpa using hg) rfl (by simp; omega)]
    simp only [adv_adv, Jw.mk.injEq, and_true]
    congr 1
    have : elemsComma true es = [] := List.eq_nil_of_length_eq_zero hl
    simp [this]
  | obj w ms =>
    simp only [Value.Compact] at hc
    simp only [Value.depth] at hd
    obtain ⟨rfl, hc⟩ := hc
    simp only [Value.text, Value.toks, List.nil_append, List.length_append, List.length_cons, List.length_nil] at hr ⊢
    have h1 := writes_begin (max := max) (st := st) true hg he (by omega) (by simp; omega)
    rw [putToks_cons, putTok, h1, putToks_append]
    have h2 := writes_mems (max := max) ms hc st.levels (adv st.o (commaText st.levels st.skipComma ++ [123])) true (by simpa using hg) (by omega)
      (by cases ms <;> simp [memsComma] <;> simp at hr <;> omega)
    simp only [if_true] at h2 ⊢
    rw [h2, putToks_cons, putTok, putToks_nil]
    have hl : (memsComma true ms).length = 0 := by cases ms <;> rfl
    rw [writes_endObject (ls := st.levels) (by simpa using hg) rfl rfl (by simp; omega)]
    simp only [adv_adv, Jw.mk.injEq, and_true]
    congr 1
    have : memsComma true ms = [] := List.eq_nil_of_length_eq_zero hl
    simp [this]
theorem writes_elems {max : Nat} (es : Elems) (hc : es.Compact) (ls : List Bool) (o : Out) (skip : Bool) (hg : o.good = true)
    (hd : ls.length + (es.depth + 1) ≤ max) (hr : (elemsComma skip es ++ es.text).length ≤ o.room) :
    putToks max ⟨o, false, false :: ls, skip⟩ es.toks =
      ⟨adv o (elemsComma skip es ++ es.text), false, false :: ls, elemsSkip skip es⟩ := by
  cases es with
  | nil => simp [Elems.toks, Elems.text, elemsComma, elemsSkip, putToks_nil, adv_nil]
  | cons v trail lead rest =>
    simp only [Elems.Compact] at hc
    obtain ⟨hv, rfl, rfl, hrest⟩ := hc
    simp only [Elems.depth] at hd
    have hd1 : v.depth ≤ Nat.max v.depth rest.depth := Nat.le_max_left _ _
    have hd2 : rest.depth ≤ Nat.max v.depth rest.depth := Nat.le_max_right _ _
    have hd3 : ls.length + (Nat.max v.depth rest.depth + 1) ≤ max := hd
    simp only [Elems.text, elemsComma, List.nil_append, List.length_append] at hr ⊢
    have hsep : (elemsComma false rest) = rest.sep [] := by cases rest <;> rfl
    have h1 := writes_value (max := max) v hv ⟨o, false, false :: ls, skip⟩ hg rfl (by simp; omega)
      (by rw [commaText_arr]; simp only [List.length_append]; omega)
    have h2 := writes_elems (max := max) rest hrest ls (adv o ((if skip then [] else [44]) ++ v.text)) false (by simpa using hg) (by omega)
      (by rw [hsep]; simp only [List.length_append, adv_room]; omega)
    rw [Elems.toks, putToks_append, h1]
    simp only [commaText_arr]
    rw [show setExpect (false :: ls) true = false by simp [setExpect, topObject], h2, adv_adv, hsep]
    have : elemsSkip false rest = false := by cases rest <;> rfl
    rw [this, show elemsSkip skip (.cons v [] [] rest) = false from rfl]
    simp
theorem writes_mems {max : Nat} (ms : Mems) (hc : ms.Compact) (ls : List Bool) (o : Out) (skip : Bool) (hg : o.good = true)
    (hd : ls.length + (ms.depth + 1) ≤ max) (hr : (memsComma skip ms ++ ms.text).length ≤ o.room) :
    putToks max ⟨o, true, true :: ls, skip⟩ ms.toks =
      ⟨adv o (memsComma skip ms ++ ms.text), true, true :: ls, memsSkip skip ms⟩ := by
  cases ms with
  | nil => simp [Mems.toks, Mems.text, memsComma, memsSkip, putToks_nil, adv_nil]
  | cons name w1 w2 v trail lead rest =>
    simp only [Mems.Compact] at hc
    obtain ⟨hn, rfl, rfl, hv, rfl, rfl, hrest⟩ := hc
    simp only [Mems.depth] at hd
    have hd1 : v.depth ≤ Nat.max v.depth rest.depth := Nat.le_max_left _ _
    have hd2 : rest.depth ≤ Nat.max v.depth rest.depth := Nat.le_max_right _ _
    have hd3 : ls.length + (Nat.max v.depth rest.depth + 1) ≤ max := hd
    have hname := Str.text_compact hn
    simp only [Mems.text, memsComma, List.nil_append, List.append_nil, List.length_append, List.length_cons, List.length_nil] at hr ⊢
    have hsep : (memsComma false rest) = rest.sep [] := by cases rest <;> rfl
    have h0 := writes_prop (st := ⟨o, true, true :: ls, skip⟩) name.val hg rfl rfl
      (by unfold propComma; simp only [List.length_append, List.length_cons, List.length_nil]; rw [hname.2, ← hname.1]; omega)
    have h1 := writes_value (max := max) v hv ⟨adv o (propComma skip ++ 34 :: (name.val ++ [34, 58])), false, true :: ls, true⟩ (by simpa using hg)
      rfl (by simp; omega)
      (by
        rw [commaText_obj, hname.2, ← hname.1]; unfold propComma
        simp only [List.length_append, List.length_cons, List.length_nil, adv_room]; omega)
    have h2 := writes_mems (max := max) rest hrest ls (adv o (propComma skip ++ 34 :: (name.val ++ [34, 58]) ++ v.text)) false
      (by simpa using hg) (by omega)
      (by
        rw [hsep, hname.2, ← hname.1]; unfold propComma
        simp only [List.length_append, List.length_cons, List.length_nil, adv_room]; omega)
    rw [Mems.toks, putToks_cons, putTok, h0, putToks_append]
    rw [h1]
    simp only [commaText_obj, List.nil_append, adv_adv]
    rw [show setExpect (true :: ls) true = true by simp [setExpect, topObject], h2, adv_adv, hsep, hname.2, ← hname.1]
    have : memsSkip false rest = false := by cases rest <;> rfl
    rw [this, show memsSkip skip (.cons name [] [] v [] [] rest) = false from rfl]
    simp [propComma]
end

end Abc.Json
