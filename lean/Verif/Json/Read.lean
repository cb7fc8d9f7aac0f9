import Verif.Json.Lex

/-!
# Reading the tokens of a JSON text
-/

namespace Abc.Json

open Abc.Ascii Abc.Stream Spec

/-- The item code of a token. -/
def tokItem : Token → Item
  | .null => .null
  | .bool _ => .boolean
  | .num _ => .number
  | .str _ => .string
  | .prop _ => .property
  | .beginArray => .beginArray
  | .endArray => .endArray
  | .beginObject => .beginObject
  | .endObject => .endObject

/-- `gcount()` after the token was read into a buffer. -/
def tokSize : Token → Nat
  | .bool _ => 3
  | .num _ => 10
  | .str b => 2 + b.length
  | .prop b => 2 + b.length
  | _ => 2

/-- The value part of a token block. -/
def Payload (atof : List Byte → List Byte) : Token → List Byte → Prop
  | .bool b, mem => mem[8]? = some (if b then 1 else 0)
  | .num t, mem => (mem.drop 8).take 8 = atof t
  | .str b, mem => ∃ v, mem.drop 8 = b ++ 0 :: v
  | .prop b, mem => ∃ v, mem.drop 8 = b ++ 0 :: v
  | _, _ => True

/-- Characters the token needs. -/
def tokChars : Token → Nat
  | .str b => b.length
  | .prop b => b.length
  | _ => 0

/-- The buffer (if there is one) has the announced size, and the characters fit behind the header. -/
def Fits (t : Token) (size : Nat) : Option (List Byte) → Prop
  | none => True
  | some mem => mem.length = size ∧ 16 ≤ size ∧ size < 2 ^ 64 ∧ tokChars t + 9 ≤ size

/-- What the call leaves in the buffer. -/
def Holds (atof : List Byte → List Byte) (t : Token) : Option (List Byte) → Option (List Byte) → Prop
  | none, b => b = none
  | some mem, some mem' => mem'.length = mem.length ∧ mem'.take 2 = (tokItem t).bytes ∧ Payload atof t mem'
  | some _, none => False

/-- The same before the item is stored. -/
def Holds0 (atof : List Byte → List Byte) (t : Token) : Option (List Byte) → Option (List Byte) → Prop
  | none, b => b = none
  | some mem, some mem' => mem'.length = mem.length ∧ Payload atof t mem'
  | some _, none => False

/-- A reader in a good state: the bytes to come, whether a property is expected, and the levels. -/
structure Pos where
  r : List Byte
  e : Bool
  ls : List Bool

/-- At `p` the next token is `t`, and `q` is where reading it leads, with or without a buffer. -/
def ReadsTok (max : Nat) (p : Pos) (t : Token) (q : Pos) : Prop :=
  q.r.length < p.r.length ∧
  ∀ (atof : List Byte → List Byte), (∀ x, (atof x).length = 8) → ∀ (g fuel size : Nat) (buf : Option (List Byte)),
    p.r.length + 27 ≤ fuel → Fits t size buf →
    ∃ n buf', readToken max atof fuel ⟨In.ofList p.r, p.e, p.ls, g⟩ buf size =
        .ok ⟨⟨In.ofList q.r, q.e, q.ls, n⟩, tokItem t, buf'⟩ ∧ Holds atof t buf buf' ∧ (buf ≠ none → n = tokSize t)

theorem wrs_ok (w : List Byte) : ∀ (mem : List Byte) (i : Nat), i + w.length ≤ mem.length →
    wrs mem i w = .ok (putMem mem i w) := by
  induction w with
  | nil => intro mem i _; simp [wrs, putMem_nil]
  | cons c w ih =>
    intro mem i h
    simp only [List.length_cons] at h
    rw [wrs, wr_ok (by omega), Res.ok_bind, ih _ _ (by simp; omega)]
    have : mem.set i c = putMem mem i [c] := by
      have := putMem_set (mem := mem) (off := i) (w := []) (c := c) (by simp; omega)
      simpa [putMem_nil] using this
    rw [this]
    have := putMem_append (mem := mem) (off := i) (w := [c]) (v := w) (by simp; omega)
    simp only [List.length_singleton] at this
    rw [this]
    simp

theorem Item.bytes_length (i : Item) : i.bytes.length = 2 := by cases i <;> rfl

theorem payload_congr {atof : List Byte → List Byte} {t : Token} {a b : List Byte} (h : a.drop 8 = b.drop 8)
    (hp : Payload atof t a) : Payload atof t b := by
  cases t <;> simp only [Payload] at hp ⊢
  · have h1 : a[8]? = (a.drop 8)[0]? := by simp
    have h2 : b[8]? = (b.drop 8)[0]? := by simp
    rw [h2, ← h, ← h1, hp]
  · rw [← h]; exact hp
  · rw [← h]; exact hp
  · rw [← h]; exact hp

theorem bufItem_ok {atof : List Byte → List Byte} {t : Token} {buf b1 : Option (List Byte)} {size : Nat}
    (hf : Fits t size buf) (h : Holds0 atof t buf b1) :
    ∃ b2, bufItem (tokItem t) b1 = .ok b2 ∧ Holds atof t buf b2 := by
  cases buf with
  | none =>
    simp only [Holds0] at h
    subst h
    exact ⟨none, rfl, rfl⟩
  | some mem =>
    cases b1 with
    | none => exact h.elim
    | some m1 =>
      obtain ⟨hl, hp⟩ := h
      obtain ⟨f1, f2, _, _⟩ := hf
      have h2 := Item.bytes_length (tokItem t)
      refine ⟨some (putMem m1 0 (tokItem t).bytes), ?_, ?_, ?_, ?_⟩
      · rw [bufItem, wrs_ok _ _ _ (by omega)]
        rfl
      · rw [putMem_length (by omega), hl]
      · simp [putMem, ← h2]
      · refine payload_congr ?_ hp
        simp only [putMem, List.take_zero, List.nil_append, Nat.zero_add]
        rw [List.drop_append, h2, List.drop_eq_nil_of_le (as := (tokItem t).bytes) (by rw [h2]; omega)]
        simp

/-! ## White space and commas -/

theorem skipSpaces_ok {fuel : Nat} {w : List Byte} {c : Byte} {r : List Byte} (hw : Ws w) (hc : ¬ IsWs c)
    (hf : w.length < fuel) :
    skipChars fuel valid jsonIsSpace (In.ofList (w ++ c :: r)) = .ok ⟨In.ofList (c :: r), w.length⟩ := by
  have := skipChars_ok (valid := valid) (pred := jsonIsSpace) w (c :: r)
    (by
      rw [peekCharV_valid, In.peekV_cons]
      cases h : jsonIsSpace c with
      | false => rfl
      | true => exact absurd ((jsonIsSpace_iff c).1 h) hc)
    (fun d hd => ⟨rfl, (jsonIsSpace_iff d).2 (hw d hd)⟩) fuel hf
  simpa using this

/-- The bracket that closes the innermost level. -/
def closer (ls : List Bool) : Byte := if topObject ls then 125 else 93

/-- What follows a value at these levels: nothing at the top; otherwise white space and then a comma or
the closing bracket, which stays. -/
def Tail (ls : List Bool) (tail r : List Byte) : Prop :=
  (ls = [] ∧ tail = []) ∨
  (ls ≠ [] ∧ ∃ w, Ws w ∧ (tail = w ++ [44] ∨ (tail = w ∧ ∃ r', r = closer ls :: r')))

theorem expectProperty_setExpect (ls : List Bool) : expectProperty (setExpect ls true) ls = topObject ls := by
  simp [expectProperty, setExpect]

theorem trailPart_ok {fuel : Nat} {ls : List Bool} {tail r : List Byte} {i : Item} {n : Nat} {b : Option (List Byte)}
    (h : Tail ls tail r) (hf : (tail ++ r).length < fuel) :
    trailPart fuel ⟨In.ofList (tail ++ r), setExpect ls true, ls, i, n, b, true⟩ = .ok (In.ofList r) := by
  rcases h with ⟨rfl, rfl⟩ | ⟨hne, w, hw, rfl | ⟨rfl, r', rfl⟩⟩
  · simp [trailPart]
  · rw [trailPart, if_pos ⟨rfl, hne⟩]
    simp only [List.length_append] at hf
    have := skipSpaces_ok (r := r) (c := 44) hw (by decide) (fuel := fuel) (by omega)
    simp only [List.append_assoc, List.cons_append, List.nil_append]
    rw [this]
    simp
  · rw [trailPart, if_pos ⟨rfl, hne⟩]
    simp only [List.length_append] at hf
    have hc : ¬ IsWs (closer ls) := by unfold closer; split <;> decide
    have := skipSpaces_ok (r := r') (c := closer ls) hw hc (fuel := fuel) (by omega)
    dsimp only
    rw [this]
    simp only [Res.ok_bind, In.peekV_cons, In.peekS_cons, expectProperty_setExpect]
    unfold closer
    cases topObject ls <;> simp

/-! ## Scalars -/

theorem tokString_ok {atof : List Byte → List Byte} {fuel size : Nat} {s : Str} {r : List Byte} {buf : Option (List Byte)}
    (hs : s.Ok) (hf : s.text.length + 6 < fuel)
    (hb : Fits (.str s.val) size buf) :
    ∃ x, tokString fuel size (In.ofList (34 :: (s.text ++ 34 :: r))) buf = .ok x ∧ x.1.s = In.ofList r ∧
      Holds0 atof (.str s.val) buf (tokBuf x) ∧ Holds0 atof (.prop s.val) buf (tokBuf x) ∧
      (buf ≠ none → x.1.n = s.val.length) := by
  cases buf with
  | none =>
    obtain ⟨n, hn⟩ := skipString_ok (r := r) hs hf
    refine ⟨(⟨In.ofList r, [], n⟩, false), ?_, rfl, ?_, ?_, by simp⟩
    · rw [tokString, hn]; rfl
    · simp [tokBuf, Holds0]
    · simp [tokBuf, Holds0]
  | some mem =>
    obtain ⟨h1, h2, h3, h4⟩ := hb
    simp only [tokChars] at h4
    have hm : mem = mem.take 8 ++ mem.drop 8 := (List.take_append_drop 8 mem).symm
    obtain ⟨v', h5, h6⟩ := getString_ok (fuel := fuel) (size := size - 2) (r := r) (pre := mem.take 8) (v := mem.drop 8)
      hs (by simp; omega) (by omega) (by omega) (by simp; omega) hf
    rw [← hm] at h5 h6
    have hd : (mem.take 8 ++ s.val ++ 0 :: v').drop 8 = s.val ++ 0 :: v' := by
      rw [List.append_assoc, List.drop_left' (by simp; omega)]
    refine ⟨(⟨In.ofList r, mem.take 8 ++ s.val ++ 0 :: v', s.val.length⟩, true), ?_, rfl, ?_, ?_, fun _ => rfl⟩
    · rw [tokString, sub64_eq (by omega) h3, h5]; rfl
    · exact ⟨h6, v', hd⟩
    · exact ⟨h6, v', hd⟩

theorem bufBool_ok {atof : List Byte → List Byte} {size : Nat} {buf : Option (List Byte)} (b : Bool)
    (hb : Fits (.bool b) size buf) :
    ∃ b1, bufBool (if b then 1 else 0) buf = .ok b1 ∧ Holds0 atof (.bool b) buf b1 := by
  cases buf with
  | none => exact ⟨none, rfl, rfl⟩
  | some mem =>
    obtain ⟨h1, h2, _⟩ := hb
    refine ⟨some (mem.set 8 (if b then 1 else 0)), ?_, by simp, ?_⟩
    · rw [bufBool, wr_ok (by omega)]; rfl
    · simp only [Payload]
      rw [List.getElem?_set_self (by omega)]

theorem bufNumber_ok {atof : List Byte → List Byte} (ha : ∀ x, (atof x).length = 8) {size : Nat}
    {buf : Option (List Byte)} {n : Num} (hn : n.Ok) (v : List Byte) (hb : Fits (.num n.text) size buf) :
    ∃ b1, bufNumber atof (n.text ++ 0 :: v) buf = .ok b1 ∧ Holds0 atof (.num n.text) buf b1 := by
  cases buf with
  | none => exact ⟨none, rfl, rfl⟩
  | some mem =>
    obtain ⟨h1, h2, _⟩ := hb
    have h8 := ha n.text
    refine ⟨some (putMem mem 8 (atof n.text)), ?_, ?_, ?_⟩
    · rw [bufNumber, takeWhile_text hn, wrs_ok _ _ _ (by omega)]; rfl
    · exact putMem_length (by omega)
    · simp only [Payload, putMem]
      rw [List.append_assoc, List.drop_left' (by simp; omega), List.take_left' h8]

theorem Atom.text_cons {a : Atom} (ha : a.Ok) : ∃ c t, a.text = c :: t ∧ ¬ IsWs c := by
  cases a with
  | null => exact ⟨_, _, rfl, by decide⟩
  | bool b => cases b <;> exact ⟨_, _, rfl, by decide⟩
  | str s => exact ⟨_, _, rfl, by decide⟩
  | num n =>
    obtain ⟨c, t, h, hc⟩ := Num.text_cons ha
    refine ⟨c, t, h, ?_⟩
    rcases hc with hc | rfl | rfl
    · rintro (rfl | rfl | rfl | rfl) <;> revert hc <;> decide
    · decide
    · decide

/-- A scalar, read in place. -/
theorem valuePart_atom {max : Nat} {atof : List Byte → List Byte} (hat : ∀ x, (atof x).length = 8) {fuel size : Nat}
    {a : Atom} {c : Byte} {t r : List Byte} {st : Jr} {buf : Option (List Byte)} (ha : a.Ok) (hc : a.text = c :: t)
    (hr : (∃ n, a = .num n) → NumStop r) (hf : a.text.length + 27 ≤ fuel) (hb : Fits a.tok size buf) :
    ∃ n b1, valuePart max atof fuel size c (In.ofList (a.text ++ r)) st buf =
      .ok ⟨In.ofList r, setExpect st.levels true, st.levels, tokItem a.tok, n, b1, true⟩ ∧
      Holds0 atof a.tok buf b1 ∧ (buf ≠ none → n = tokSize a.tok) := by
  cases a with
  | null =>
    obtain ⟨rfl, rfl⟩ : c = 110 ∧ t = [117, 108, 108] := by simp [Atom.text] at hc; tauto
    refine ⟨2, buf, ?_, ?_, fun _ => rfl⟩
    · simp [valuePart, Atom.text, Atom.tok, tokItem]
      have := getLiteral_ok [110, 117, 108, 108] r
      simp only [List.cons_append, List.nil_append] at this
      simp [this]
    · cases buf <;> simp [Holds0, Payload, Atom.tok]
  | bool b =>
    obtain ⟨b1, h1, h2⟩ := bufBool_ok (atof := atof) b hb
    cases b with
    | true =>
      obtain ⟨rfl, rfl⟩ : c = 116 ∧ t = [114, 117, 101] := by simp [Atom.text] at hc; tauto
      refine ⟨3, b1, ?_, h2, fun _ => rfl⟩
      have := getLiteral_ok [116, 114, 117, 101] r
      simp only [List.cons_append, List.nil_append] at this
      simp only [if_true] at h1
      simp [valuePart, Atom.text, Atom.tok, tokItem, this, h1]
    | false =>
      obtain ⟨rfl, rfl⟩ : c = 102 ∧ t = [97, 108, 115, 101] := by simp [Atom.text] at hc; tauto
      refine ⟨3, b1, ?_, h2, fun _ => rfl⟩
      have := getLiteral_ok [102, 97, 108, 115, 101] r
      simp only [List.cons_append, List.nil_append] at this
      simp only [Bool.false_eq_true, if_false] at h1
      simp [valuePart, Atom.text, Atom.tok, tokItem, this, h1]
  | str s =>
    obtain ⟨rfl, rfl⟩ : c = 34 ∧ t = s.text ++ [34] := by simp [Atom.text] at hc; tauto
    simp only [Atom.text, List.length_cons, List.length_append] at hf
    obtain ⟨x, h1, h2, h3, _, h5⟩ := tokString_ok (atof := atof) (r := r) ha (fuel := fuel) (by omega) hb
    refine ⟨2 + x.1.n, tokBuf x, ?_, h3, fun h => by rw [h5 h]; rfl⟩
    have e : (34 :: (s.text ++ [34])) ++ r = 34 :: (s.text ++ 34 :: r) := by simp
    simp only [valuePart, Atom.text, e, h1, Res.ok_bind, h2]
    simp [Atom.tok, tokItem, isDigit, isBetween, sc]
  | num n =>
    simp only [Atom.text] at hc hf ⊢
    obtain ⟨c', t', h, hc'⟩ := Num.text_cons ha
    rw [hc] at h
    obtain ⟨rfl, rfl⟩ := List.cons.inj h
    obtain ⟨v, h1⟩ := getNumber_ok (fuel := fuel) ha (hr ⟨n, rfl⟩) (by omega)
    obtain ⟨b1, h2, h3⟩ := bufNumber_ok hat (size := size) (buf := buf) ha v hb
    refine ⟨10, b1, ?_, h3, fun _ => rfl⟩
    have hd : isDigit c = true ∨ c = 43 ∨ c = 45 := by rwa [isDigit_iff]
    have hx : c ≠ 110 ∧ c ≠ 102 ∧ c ≠ 116 := by
      refine ⟨?_, ?_, ?_⟩ <;> (rintro rfl; revert hd; decide)
    unfold valuePart
    rw [if_neg hx.1, if_neg hx.2.1, if_neg hx.2.2, if_pos hd, h1]
    simp only [Res.ok_bind, h2]
    rfl

theorem tail_numStop {ls : List Bool} {tail r : List Byte} (h : Tail ls tail r) (hne : ls ≠ []) : NumStop (tail ++ r) := by
  have key : ∀ (w : List Byte) (c : Byte) (r' : List Byte), Ws w → (c = 44 ∨ c = 93 ∨ c = 125) → NumStop (w ++ c :: r') := by
    intro w c r' hw hc
    cases w with
    | nil => exact ⟨c, r', rfl, by rcases hc with rfl | rfl | rfl <;> decide⟩
    | cons d w =>
      refine ⟨d, w ++ c :: r', rfl, ?_⟩
      rcases hw d (by simp) with rfl | rfl | rfl | rfl <;> decide
  rcases h with ⟨rfl, _⟩ | ⟨_, w, hw, rfl | ⟨rfl, r', rfl⟩⟩
  · exact absurd rfl hne
  · simpa using key w 44 r hw (by simp)
  · refine key tail (closer ls) r' hw ?_
    unfold closer; split <;> simp

theorem step_value {max : Nat} {t : Token} {lead text tail r : List Byte} {e : Bool} {ls ls' : List Bool} {c : Byte} {x : List Byte}
    (hl : Ws lead) (hcx : text = c :: x) (hc : ¬ IsWs c) (he : expectProperty e ls = false)
    (ht : Tail ls' tail r)
    (hv : ∀ (atof : List Byte → List Byte), (∀ x, (atof x).length = 8) → ∀ (g fuel size : Nat) (buf : Option (List Byte)),
      text.length + 27 ≤ fuel → Fits t size buf →
      ∃ n b1, valuePart max atof fuel size c (In.ofList (text ++ (tail ++ r))) ⟨In.ofList (lead ++ (text ++ (tail ++ r))), e, ls, g⟩ buf =
      .ok ⟨In.ofList (tail ++ r), setExpect ls' true, ls', tokItem t, n, b1, true⟩ ∧
      Holds0 atof t buf b1 ∧ (buf ≠ none → n = tokSize t)) :
    ReadsTok max ⟨lead ++ (text ++ (tail ++ r)), e, ls⟩ t ⟨r, setExpect ls' true, ls'⟩ := by
  refine ⟨by rw [hcx]; simp; omega, ?_⟩
  intro atof hat g fuel size buf hf hb
  simp only [List.length_append] at hf
  obtain ⟨n, b1, h1, h2, h3⟩ := hv atof hat g fuel size buf (by omega) hb
  obtain ⟨b2, h4, h5⟩ := bufItem_ok hb h2
  refine ⟨n, b2, ?_, h5, h3⟩
  subst hcx
  have h6 := skipSpaces_ok (fuel := fuel) (r := x ++ (tail ++ r)) hl hc (by omega)
  rw [readToken]
  dsimp only
  rw [List.cons_append] at h1 ⊢
  rw [h6]
  simp only [Res.ok_bind, he, In.peekV_cons, In.peekS_cons, Bool.false_eq_true, if_false]
  rw [h1]
  simp only [Res.ok_bind]
  rw [trailPart_ok ht (by simp; omega)]
  simp only [Res.ok_bind]
  rw [h4]
  rfl

theorem step_atom {max : Nat} {a : Atom} {lead tail r : List Byte} {e : Bool} {ls : List Bool} (ha : a.Ok) (hl : Ws lead)
    (he : expectProperty e ls = false) (ht : Tail ls tail r) (hr : ls = [] → (∃ n, a = .num n) → NumStop r) :
    ReadsTok max ⟨lead ++ (a.text ++ (tail ++ r)), e, ls⟩ a.tok ⟨r, setExpect ls true, ls⟩ := by
  obtain ⟨c, x, hcx, hc⟩ := Atom.text_cons ha
  refine step_value hl hcx hc he ht ?_
  intro atof hat g fuel size buf hf hb
  refine valuePart_atom hat ha hcx ?_ hf hb
  intro hn
  by_cases h0 : ls = []
  · rcases ht with ⟨_, rfl⟩ | ⟨h, _⟩
    · simpa using hr h0 hn
    · exact absurd h0 h
  · exact tail_numStop ht h0

/-! ## Brackets and names -/

theorem holds0_same {atof : List Byte → List Byte} {t : Token} {buf : Option (List Byte)} (h : ∀ mem, Payload atof t mem) :
    Holds0 atof t buf buf := by
  cases buf with
  | none => rfl
  | some mem => exact ⟨rfl, h mem⟩

theorem step_endArray {max : Nat} {lead tail r : List Byte} {ls : List Bool} (hl : Ws lead) (ht : Tail ls tail r) :
    ReadsTok max ⟨lead ++ (93 :: (tail ++ r)), false, false :: ls⟩ .endArray ⟨r, setExpect ls true, ls⟩ := by
  have := step_value (max := max) (t := .endArray) (text := [93]) (e := false) (ls := false :: ls) (ls' := ls) hl rfl (by decide) rfl ht ?_
  · simpa using this
  · intro atof hat g fuel size buf hf hb
    refine ⟨2, buf, ?_, holds0_same (by simp [Payload]), fun _ => rfl⟩
    simp [valuePart, isDigit, isBetween, sc, levelPart, popLevel, tokItem]

theorem step_begin {max : Nat} {lead r : List Byte} {e : Bool} {ls : List Bool} (obj : Bool) (hl : Ws lead)
    (he : expectProperty e ls = false) (hd : ls.length < max) :
    ReadsTok max ⟨lead ++ ((if obj then 123 else 91) :: r), e, ls⟩ (if obj then .beginObject else .beginArray)
      ⟨r, obj, obj :: ls⟩ := by
  refine ⟨by simp; omega, ?_⟩
  intro atof hat g fuel size buf hf hb
  simp only [List.length_append, List.length_cons] at hf
  have hp : ∀ mem, Payload atof (if obj then .beginObject else .beginArray) mem := by cases obj <;> simp [Payload]
  obtain ⟨b2, h4, h5⟩ := bufItem_ok hb (holds0_same hp)
  refine ⟨2, b2, ?_, h5, fun _ => by cases obj <;> rfl⟩
  have h6 := skipSpaces_ok (fuel := fuel) (r := r) (c := if obj then 123 else 91) hl (by cases obj <;> decide) (by omega)
  rw [readToken]
  dsimp only
  rw [h6]
  simp only [Res.ok_bind, he, In.peekV_cons, In.peekS_cons, Bool.false_eq_true, if_false]
  cases obj with
  | true =>
    simp only [if_true] at h4 ⊢
    simp [valuePart, isDigit, isBetween, sc, levelPart, pushLevel, hd, trailPart, tokItem, setExpect, topObject] at h4 ⊢
    rw [h4]; rfl
  | false =>
    simp only [Bool.false_eq_true, if_false] at h4 ⊢
    simp [valuePart, isDigit, isBetween, sc, levelPart, pushLevel, hd, trailPart, tokItem, setExpect, topObject] at h4 ⊢
    rw [h4]; rfl

theorem step_endObject {max : Nat} {lead tail r : List Byte} {ls : List Bool} (hl : Ws lead) (ht : Tail ls tail r) :
    ReadsTok max ⟨lead ++ (125 :: (tail ++ r)), true, true :: ls⟩ .endObject ⟨r, setExpect ls true, ls⟩ := by
  refine ⟨by simp; omega, ?_⟩
  intro atof hat g fuel size buf hf hb
  simp only [List.length_append, List.length_cons] at hf
  obtain ⟨b2, h4, h5⟩ := bufItem_ok (atof := atof) hb (holds0_same (by simp [Payload]))
  refine ⟨2, b2, ?_, h5, fun _ => rfl⟩
  have h6 := skipSpaces_ok (fuel := fuel) (r := tail ++ r) (c := 125) hl (by decide) (by omega)
  rw [readToken]
  dsimp only
  rw [h6]
  simp [expectProperty, topObject, propPart, popLevel]
  rw [trailPart_ok ht (by simp; omega)]
  simp only [tokItem] at h4
  simp only [Res.ok_bind, h4]
  rfl

theorem step_prop {max : Nat} {s : Str} {lead w r : List Byte} {ls : List Bool} (hs : s.Ok) (hl : Ws lead) (hw : Ws w) :
    ReadsTok max ⟨lead ++ (34 :: (s.text ++ 34 :: (w ++ 58 :: r))), true, true :: ls⟩ (.prop s.val)
      ⟨r, false, true :: ls⟩ := by
  refine ⟨by simp; omega, ?_⟩
  intro atof hat g fuel size buf hf hb
  simp only [List.length_append, List.length_cons] at hf
  obtain ⟨x, h1, h2, _, h3, h5⟩ := tokString_ok (atof := atof) (r := w ++ 58 :: r) hs (fuel := fuel) (size := size) (buf := buf)
    (by omega) hb
  obtain ⟨b2, h4, h7⟩ := bufItem_ok (atof := atof) hb h3
  refine ⟨2 + x.1.n, b2, ?_, h7, fun h => by rw [h5 h]; rfl⟩
  have h6 := skipSpaces_ok (fuel := fuel) (r := s.text ++ 34 :: (w ++ 58 :: r)) (c := 34) hl (by decide) (by omega)
  have h8 := skipSpaces_ok (fuel := fuel) (r := r) (c := 58) hw (by decide) (by omega)
  rw [readToken]
  dsimp only
  rw [h6]
  simp only [Res.ok_bind, In.peekV_cons, In.peekS_cons, expectProperty, topObject, List.head?_cons, BEq.rfl, Bool.and_self,
    if_true, propPart, h1, h2, In.ofList_good]
  rw [h8]
  simp only [Res.ok_bind, In.peekV_cons, In.peekS_cons, if_true, In.getS_cons]
  rw [trailPart, if_neg (by simp)]
  simp only [tokItem] at h4
  simp only [Res.ok_bind, h4, setExpect, Bool.false_and]
  rfl

/-! ## Whole values -/

/-- The tokens `ts` are read one after the other from `p` to `q`; after each of them there are at least
`b` levels. -/
inductive Reads (max b : Nat) : Pos → List Token → Pos → Prop
  | nil (p : Pos) : Reads max b p [] p
  | cons {p q r : Pos} {t : Token} {ts : List Token} : ReadsTok max p t q → b ≤ q.ls.length → Reads max b q ts r →
      Reads max b p (t :: ts) r

theorem Reads.append {max b : Nat} {p q r : Pos} {ts us : List Token} (h1 : Reads max b p ts q) (h2 : Reads max b q us r) :
    Reads max b p (ts ++ us) r := by
  induction h1 with
  | nil => exact h2
  | cons h hb _ ih => exact .cons h hb (ih h2)

theorem Reads.mono {max b b' : Nat} {p q : Pos} {ts : List Token} (hb : b' ≤ b) (h1 : Reads max b p ts q) : Reads max b' p ts q := by
  induction h1 with
  | nil => exact .nil _
  | cons h hq _ ih => exact .cons h (by omega) ih

theorem Reads.single {max b : Nat} {p q : Pos} {t : Token} (h : ReadsTok max p t q) (hb : b ≤ q.ls.length) : Reads max b p [t] q :=
  .cons h hb (.nil _)

theorem ws_nil : Ws [] := by simp [Ws]

theorem setExpect_arr (ls : List Bool) (b : Bool) : setExpect (false :: ls) b = false := by simp [setExpect, topObject]
theorem setExpect_obj (ls : List Bool) : setExpect (true :: ls) true = true := by simp [setExpect, topObject]

mutual
/-- Reading a value. -/
theorem reads_value {max : Nat} (v : Value) (hv : v.Ok) (lead tail r : List Byte) (e : Bool) (ls : List Bool) (hl : Ws lead)
    (he : expectProperty e ls = false) (ht : Tail ls tail r) (hr : ls = [] → (∃ n, v = .atom (.num n)) → NumStop r)
    (hd : ls.length + v.depth ≤ max) :
    Reads max ls.length ⟨lead ++ (v.text ++ (tail ++ r)), e, ls⟩ v.toks ⟨r, setExpect ls true, ls⟩ := by
  cases v with
  | atom a =>
    simp only [Value.text, Value.toks]
    exact .single (step_atom (by simpa [Value.Ok] using hv) hl he ht (fun h ⟨n, hn⟩ => hr h ⟨n, by rw [hn]⟩)) (Nat.le_refl _)
  | arr w es =>
    simp only [Value.Ok] at hv
    simp only [Value.depth] at hd
    obtain ⟨lead', hl', h2⟩ := reads_elems (max := max) es hv.2 w (tail ++ r) ls hv.1 (by omega)
    have h1 := step_begin (max := max) (r := w ++ (es.text ++ 93 :: (tail ++ r))) false hl he (by omega)
    have h3 := step_endArray (max := max) hl' ht
    simp only [Value.text, Value.toks]
    refine .cons (q := ⟨w ++ (es.text ++ 93 :: (tail ++ r)), false, false :: ls⟩) ?_ (by simp) ?_
    · simpa using h1
    · exact (h2.mono (by simp)).append (.single h3 (Nat.le_refl _))
  | obj w ms =>
    simp only [Value.Ok] at hv
    simp only [Value.depth] at hd
    obtain ⟨lead', hl', h2⟩ := reads_mems (max := max) ms hv.2 w (tail ++ r) ls hv.1 (by omega)
    have h1 := step_begin (max := max) (r := w ++ (ms.text ++ 125 :: (tail ++ r))) true hl he (by omega)
    have h3 := step_endObject (max := max) hl' ht
    simp only [Value.text, Value.toks]
    refine .cons (q := ⟨w ++ (ms.text ++ 125 :: (tail ++ r)), true, true :: ls⟩) ?_ (by simp) ?_
    · simpa using h1
    · exact (h2.mono (by simp)).append (.single h3 (Nat.le_refl _))
/-- Reading the elements of an array, up to its closing bracket. -/
theorem reads_elems {max : Nat} (es : Elems) (hv : es.Ok) (lead r : List Byte) (ls : List Bool) (hl : Ws lead)
    (hd : ls.length + (es.depth + 1) ≤ max) :
    ∃ lead', Ws lead' ∧ Reads max (ls.length + 1) ⟨lead ++ (es.text ++ 93 :: r), false, false :: ls⟩ es.toks
      ⟨lead' ++ 93 :: r, false, false :: ls⟩ := by
  cases es with
  | nil => exact ⟨lead, hl, by simpa [Elems.text, Elems.toks] using Reads.nil _⟩
  | cons v trail lead2 rest =>
    simp only [Elems.Ok] at hv
    simp only [Elems.depth] at hd
    have hd1 : v.depth ≤ Nat.max v.depth rest.depth := Nat.le_max_left _ _
    have hd2 : rest.depth ≤ Nat.max v.depth rest.depth := Nat.le_max_right _ _
    have hd3 : ls.length + (Nat.max v.depth rest.depth + 1) ≤ max := hd
    cases rest with
    | nil =>
      have h1 := reads_value (max := max) v hv.1 lead trail (93 :: r) false (false :: ls) hl rfl
        (.inr ⟨by simp, trail, hv.2.1, .inr ⟨rfl, r, rfl⟩⟩) (by simp) (by simp; omega)
      refine ⟨[], ws_nil, ?_⟩
      simp only [Elems.text, Elems.toks, Elems.sep, List.append_nil, List.append_assoc, List.nil_append]
      rw [setExpect_arr] at h1
      exact h1
    | cons v' t' l' rest' =>
      have h1 := reads_value (max := max) v hv.1 lead (trail ++ [44]) (lead2 ++ ((Elems.cons v' t' l' rest').text ++ 93 :: r)) false
        (false :: ls) hl rfl (.inr ⟨by simp, trail, hv.2.1, .inl rfl⟩) (by simp) (by simp; omega)
      obtain ⟨lead', hl', h2⟩ := reads_elems (max := max) (Elems.cons v' t' l' rest') hv.2.2.2 lead2 r ls hv.2.2.1 (by omega)
      refine ⟨lead', hl', ?_⟩
      rw [setExpect_arr] at h1
      have h3 := h1.append h2
      rw [Elems.text, Elems.toks, Elems.sep]
      simp only [List.append_assoc, List.cons_append, List.nil_append] at h3 ⊢
      exact h3
/-- Reading the members of an object, up to its closing bracket. -/
theorem reads_mems {max : Nat} (ms : Mems) (hv : ms.Ok) (lead r : List Byte) (ls : List Bool) (hl : Ws lead)
    (hd : ls.length + (ms.depth + 1) ≤ max) :
    ∃ lead', Ws lead' ∧ Reads max (ls.length + 1) ⟨lead ++ (ms.text ++ 125 :: r), true, true :: ls⟩ ms.toks
      ⟨lead' ++ 125 :: r, true, true :: ls⟩ := by
  cases ms with
  | nil => exact ⟨lead, hl, by simpa [Mems.text, Mems.toks] using Reads.nil _⟩
  | cons name w1 w2 v trail lead2 rest =>
    simp only [Mems.Ok] at hv
    simp only [Mems.depth] at hd
    have hd1 : v.depth ≤ Nat.max v.depth rest.depth := Nat.le_max_left _ _
    have hd2 : rest.depth ≤ Nat.max v.depth rest.depth := Nat.le_max_right _ _
    have hd3 : ls.length + (Nat.max v.depth rest.depth + 1) ≤ max := hd
    have hprop := fun r' => step_prop (max := max) (ls := ls) (r := r') hv.1 hl hv.2.1
    cases rest with
    | nil =>
      have h1 := reads_value (max := max) v hv.2.2.2.1 w2 trail (125 :: r) false (true :: ls) hv.2.2.1 rfl
        (.inr ⟨by simp, trail, hv.2.2.2.2.1, .inr ⟨rfl, r, rfl⟩⟩) (by simp) (by simp; omega)
      refine ⟨[], ws_nil, ?_⟩
      have h2 := Reads.cons (b := ls.length + 1) (hprop _) (by simp) h1
      rw [setExpect_obj] at h2
      simp only [Mems.text, Mems.toks, Mems.sep, List.append_nil, List.append_assoc, List.nil_append, List.cons_append] at h2 ⊢
      exact h2
    | cons n' w1' w2' v' t' l' rest' =>
      have h1 := reads_value (max := max) v hv.2.2.2.1 w2 (trail ++ [44]) (lead2 ++ ((Mems.cons n' w1' w2' v' t' l' rest').text ++ 125 :: r)) false
        (true :: ls) hv.2.2.1 rfl (.inr ⟨by simp, trail, hv.2.2.2.2.1, .inl rfl⟩) (by simp) (by simp; omega)
      obtain ⟨lead', hl', h2⟩ := reads_mems (max := max) (Mems.cons n' w1' w2' v' t' l' rest') hv.2.2.2.2.2.2 lead2 r ls hv.2.2.2.2.2.1 (by omega)
      refine ⟨lead', hl', ?_⟩
      rw [setExpect_obj] at h1
      have h3 := Reads.cons (b := ls.length + 1) (hprop _) (by simp) (h1.append h2)
      rw [Mems.text, Mems.toks, Mems.sep]
      simp only [List.append_assoc, List.cons_append, List.nil_append] at h3 ⊢
      exact h3
end

end Abc.Json
