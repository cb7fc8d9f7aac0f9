import Verif.Samples.EquationsWire
import Verif.Samples.CarWireProps
import Verif.Samples.GameWireTotal

/-!
# The solver of `samples/basic` at the level of bytes: what it answers
-/

namespace Abc.EquationsWire

open Abc.Ascii Abc.Stream Abc.Http Abc.Wire Abc.Json Abc.GameWire
open Abc.Endpoint (Config str mem)
open Abc.CarWire (okJson okText badText bad_any whenResource_eq serveWith_any)

section Bodies
open Spec

/-! ## What a body asks -/

/-- Two numbers. -/
def pairElems : Elems → Option (Num × Num)
  | .cons (.atom (.num x)) _ _ (.cons (.atom (.num y)) _ _ .nil) => some (x, y)
  | _ => none
/-- An array of two numbers. -/
def pairOf : Value → Option (Num × Num)
  | .arr _ es => pairElems es
  | _ => none

/-- Two arrays of two numbers. -/
def matrixElems : Elems → Option ((Num × Num) × (Num × Num))
  | .cons r _ _ (.cons s _ _ .nil) => (pairOf r).bind fun p => (pairOf s).map fun q => (p, q)
  | _ => none
/-- An array of two arrays of two numbers. -/
def matrixOf : Value → Option ((Num × Num) × (Num × Num))
  | .arr _ es => matrixElems es
  | _ => none

/-- The members of an object: names and values. -/
def members : Mems → List (List Byte × Value)
  | .nil => []
  | .cons name _ _ v _ _ rest => (name.val, v) :: members rest

/-- The matrix, if this is a member `a`. -/
def asA (x : List Byte × Value) : Option ((Num × Num) × (Num × Num)) := if x.1 = str "a" then matrixOf x.2 else none
/-- The right-hand side, if this is a member `b`. -/
def asB (x : List Byte × Value) : Option (Num × Num) := if x.1 = str "b" then pairOf x.2 else none

/-- The members pose the problem with matrix `a` and right-hand side `b`: every member `a` is a matrix and every member
`b` a pair, and the last of each are these. -/
structure Poses (ms : Mems) (a : (Num × Num) × (Num × Num)) (b : Num × Num) : Prop where
  shapeA : ∀ v, (str "a", v) ∈ members ms → ∃ m, matrixOf v = some m
  shapeB : ∀ v, (str "b", v) ∈ members ms → ∃ p, pairOf v = some p
  lastA : ((members ms).filterMap asA).getLast? = some a
  lastB : ((members ms).filterMap asB).getLast? = some b

/-- What the loop makes of the members. -/
def reads : Option ((Num × Num) × (Num × Num)) → Option (Num × Num) → Mems →
    Option (Option ((Num × Num) × (Num × Num)) × Option (Num × Num))
  | a, b, .nil => some (a, b)
  | a, b, .cons name _ _ v _ _ rest =>
    if name.val = str "a" then (matrixOf v).bind fun m => reads (some m) b rest
    else if name.val = str "b" then (pairOf v).bind fun p => reads a (some p) rest
    else reads a b rest

/-- Every member has the right shape. -/
def Shaped (ms : Mems) : Prop :=
  (∀ v, (str "a", v) ∈ members ms → ∃ m, matrixOf v = some m) ∧ ∀ v, (str "b", v) ∈ members ms → ∃ p, pairOf v = some p

theorem a_ne_b : str "b" ≠ str "a" := by decide

theorem getLast_cons_or {α : Type} (x : α) (l : List α) (o : Option α) :
    ((x :: l).getLast?).or o = (l.getLast?).or (some x) := by
  rw [List.getLast?_cons]
  cases l.getLast? <;> simp

theorem reads_shaped (ms : Mems) (h : Shaped ms) (a : Option ((Num × Num) × (Num × Num))) (b : Option (Num × Num)) :
    reads a b ms = some ((((members ms).filterMap asA).getLast?).or a, (((members ms).filterMap asB).getLast?).or b) := by
  match ms with
  | .nil => simp [reads, members]
  | .cons name w1 w2 v tr ld rest =>
    have hrest : Shaped rest := ⟨fun v hv => h.1 v (by simp [members, hv]), fun v hv => h.2 v (by simp [members, hv])⟩
    by_cases ha : name.val = str "a"
    · obtain ⟨m, hm⟩ := h.1 v (by simp [members, ha])
      have e1 : asA (name.val, v) = some m := by simp [asA, ha, hm]
      have e2 : asB (name.val, v) = none := by simp [asB, ha, Ne.symm a_ne_b]
      rw [reads, if_pos ha, hm, Option.bind_some, reads_shaped rest hrest]
      simp only [members, List.filterMap_cons, e1, e2, getLast_cons_or]
    · by_cases hb : name.val = str "b"
      · obtain ⟨m, hm⟩ := h.2 v (by simp [members, hb])
        have e1 : asA (name.val, v) = none := by simp [asA, ha]
        have e2 : asB (name.val, v) = some m := by simp [asB, hb, hm]
        rw [reads, if_neg ha, if_pos hb, hm, Option.bind_some, reads_shaped rest hrest]
        simp only [members, List.filterMap_cons, e1, e2, getLast_cons_or]
      · have e1 : asA (name.val, v) = none := by simp [asA, ha]
        have e2 : asB (name.val, v) = none := by simp [asB, hb]
        rw [reads, if_neg ha, if_neg hb, reads_shaped rest hrest]
        simp only [members, List.filterMap_cons, e1, e2]

theorem shaped_of_reads (ms : Mems) (a : Option ((Num × Num) × (Num × Num))) (b : Option (Num × Num))
    {r : Option ((Num × Num) × (Num × Num)) × Option (Num × Num)} (h : reads a b ms = some r) : Shaped ms := by
  match ms with
  | .nil => exact ⟨fun v hv => by simp [members] at hv, fun v hv => by simp [members] at hv⟩
  | .cons name w1 w2 v tr ld rest =>
    rw [reads] at h
    by_cases ha : name.val = str "a"
    · rw [if_pos ha] at h
      cases hm : matrixOf v with
      | none => rw [hm] at h; cases h
      | some m =>
        rw [hm, Option.bind_some] at h
        have hr := shaped_of_reads rest _ _ h
        refine ⟨fun v' hv => ?_, fun v' hv => ?_⟩
        · simp only [members, List.mem_cons, Prod.mk.injEq] at hv
          rcases hv with ⟨_, rfl⟩ | hv
          exacts [⟨m, hm⟩, hr.1 v' hv]
        · simp only [members, List.mem_cons, Prod.mk.injEq] at hv
          rcases hv with ⟨e, _⟩ | hv
          exacts [absurd (e.trans ha) a_ne_b, hr.2 v' hv]
    · rw [if_neg ha] at h
      by_cases hb : name.val = str "b"
      · rw [if_pos hb] at h
        cases hm : pairOf v with
        | none => rw [hm] at h; cases h
        | some m =>
          rw [hm, Option.bind_some] at h
          have hr := shaped_of_reads rest _ _ h
          refine ⟨fun v' hv => ?_, fun v' hv => ?_⟩
          · simp only [members, List.mem_cons, Prod.mk.injEq] at hv
            rcases hv with ⟨e, _⟩ | hv
            exacts [absurd e.symm ha, hr.1 v' hv]
          · simp only [members, List.mem_cons, Prod.mk.injEq] at hv
            rcases hv with ⟨_, rfl⟩ | hv
            exacts [⟨m, hm⟩, hr.2 v' hv]
      · rw [if_neg hb] at h
        have hr := shaped_of_reads rest _ _ h
        refine ⟨fun v' hv => ?_, fun v' hv => ?_⟩
        · simp only [members, List.mem_cons, Prod.mk.injEq] at hv
          rcases hv with ⟨e, _⟩ | hv
          exacts [absurd e.symm ha, hr.1 v' hv]
        · simp only [members, List.mem_cons, Prod.mk.injEq] at hv
          rcases hv with ⟨e, _⟩ | hv
          exacts [absurd e.symm hb, hr.2 v' hv]

theorem reads_iff (ms : Mems) (a : (Num × Num) × (Num × Num)) (b : Num × Num) :
    reads none none ms = some (some a, some b) ↔ Poses ms a b := by
  constructor
  · intro h
    have hs := shaped_of_reads ms _ _ h
    rw [reads_shaped ms hs] at h
    simp only [Option.or_none, Option.some.injEq, Prod.mk.injEq] at h
    exact ⟨hs.1, hs.2, h.1, h.2⟩
  · rintro ⟨h1, h2, h3, h4⟩
    rw [reads_shaped ms ⟨h1, h2⟩, h3, h4]
    rfl

/-! ## Reading arrays -/

/-- The next token inside an array, at any level. -/
theorem array_next {c : Ctx} (hc : CtxOk c) {es : Elems} (hv : es.Ok) (hs : ShortE es) {lead tail R : List Byte} (hl : Ws lead) {ls : List Bool}
    (hd : ls.length < 60) (ht : Tail ls tail R) {buf : List Byte} (hb : buf.length = 1041)
    (hf : (lead ++ (es.text ++ 93 :: (tail ++ R))).length + 27 ≤ c.fuel) (g : Nat) :
    (es = .nil ∧ ∃ n b, b.length = 1041 ∧
      getTok c ⟨In.ofList (lead ++ (es.text ++ 93 :: (tail ++ R))), false, false :: ls, g⟩ buf = .ok ⟨⟨In.ofList R, setExpect ls true, ls, n⟩, .endArray, some b⟩) ∨
    (∃ v trail lead2 rest, es = .cons v trail lead2 rest ∧ ∃ tail2 lead' n b, b.length = 1041 ∧ Ws lead' ∧ rest.Ok ∧ ShortE rest ∧ v.Ok ∧ ShortV v ∧
      Tail (false :: ls) tail2 (lead' ++ (rest.text ++ 93 :: (tail ++ R))) ∧
      es.text ++ 93 :: (tail ++ R) = v.text ++ (tail2 ++ (lead' ++ (rest.text ++ 93 :: (tail ++ R)))) ∧
      getTok c ⟨In.ofList (lead ++ (es.text ++ 93 :: (tail ++ R))), false, false :: ls, g⟩ buf =
        .ok ⟨⟨In.ofList (firstPos (lead' ++ (rest.text ++ 93 :: (tail ++ R))) (false :: ls) v tail2).r,
          (firstPos (lead' ++ (rest.text ++ 93 :: (tail ++ R))) (false :: ls) v tail2).e,
          (firstPos (lead' ++ (rest.text ++ 93 :: (tail ++ R))) (false :: ls) v tail2).ls, n⟩, tokItem (firstTok v), some b⟩ ∧
      Payload c.atof (firstTok v) b ∧
      (firstPos (lead' ++ (rest.text ++ 93 :: (tail ++ R))) (false :: ls) v tail2).r.length < (lead ++ (es.text ++ 93 :: (tail ++ R))).length) := by
  cases es with
  | nil =>
    left
    have s4 := step_endArray (max := 64) hl ht
    obtain ⟨n, b, h1, h2, _⟩ := getTok_ok hc.atof s4 hb (by simp [tokChars]) (by simpa [Elems.text] using hf) g
    exact ⟨rfl, n, b, h2, by simpa [Elems.text, tokItem] using h1⟩
  | cons v trail lead2 rest =>
    right
    obtain ⟨tail2, lead', hl', ht', htext⟩ := elem_split hv ls (tail ++ R)
    simp only [Elems.Ok] at hv
    simp only [ShortE] at hs
    refine ⟨v, trail, lead2, rest, rfl, tail2, lead', ?_⟩
    rw [htext] at hf ⊢
    obtain ⟨n, b, h1, h2, h3, h4⟩ := getTok_first hc hv.1 hs.1 hl (e := false) (ls := false :: ls) rfl ht' (by simp; omega) (by simp) hb hf g
    exact ⟨n, b, h2, hl', hv.2.2.2, hs.2, hv.1, hs.1, ht', rfl, h1, h3, h4⟩

theorem firstTok_num {v : Value} (h : tokItem (firstTok v) = .number) : ∃ n, v = .atom (.num n) := by
  cases v with
  | atom a => cases a <;> simp [firstTok, Atom.tok, tokItem] at h; exact ⟨_, rfl⟩
  | arr => simp [firstTok, tokItem] at h
  | obj => simp [firstTok, tokItem] at h

theorem firstTok_arr {v : Value} (h : tokItem (firstTok v) = .beginArray) : ∃ w es, v = .arr w es := by
  cases v with
  | atom a => cases a <;> simp [firstTok, Atom.tok, tokItem] at h
  | arr w es => exact ⟨w, es, rfl⟩
  | obj => simp [firstTok, tokItem] at h

theorem firstTok_end {v : Value} : tokItem (firstTok v) ≠ .endArray := by
  cases v with
  | atom a => cases a <;> simp [firstTok, Atom.tok, tokItem]
  | arr => simp [firstTok, tokItem]
  | obj => simp [firstTok, tokItem]

theorem pairOf_arr (w : List Byte) (es : Elems) : pairOf (.arr w es) = pairElems es := rfl

/-- `parse_array_2` on any value. -/
theorem parseArray2_value {c : Ctx} (hc : CtxOk c) {v : Value} (hv : v.Ok) (hs : ShortV v) {lead tail R : List Byte} {ls : List Bool} {e : Bool} (hl : Ws lead)
    (he : expectProperty e ls = false) (ht : Tail ls tail R) (hd : ls.length < 60) (hn : ls ≠ [])
    {buf : List Byte} (hb : buf.length = 1041) (hf : (lead ++ (v.text ++ (tail ++ R))).length + 27 ≤ c.fuel) (g : Nat) :
    ∃ n b, b.length = 1041 ∧ parseArray2 c ⟨In.ofList (lead ++ (v.text ++ (tail ++ R))), e, ls, g⟩ buf =
      .ok ((pairOf v).map fun p => (⟨⟨In.ofList R, setExpect ls true, ls, n⟩, .endArray, some b⟩, c.atof p.1.text, c.atof p.2.text)) := by
  obtain ⟨n1, b1, g1, l1, p1, q1⟩ := getTok_first hc hv hs hl he ht (by omega) (fun h => absurd h hn) hb hf g
  unfold parseArray2
  rw [g1, Res.ok_bind]
  dsimp only
  by_cases h1 : tokItem (firstTok v) = .beginArray
  case neg =>
    refine ⟨n1, b1, l1, ?_⟩
    rw [if_pos h1]
    have : pairOf v = none := by
      cases v with
      | arr => exact absurd rfl h1
      | atom => rfl
      | obj => rfl
    rw [this]; rfl
  obtain ⟨w, es, rfl⟩ := firstTok_arr h1
  rw [if_neg (by simp [h1]), pairOf_arr]
  simp only [Value.Ok] at hv
  simp only [ShortV] at hs
  simp only [firstPos] at q1
  simp only [firstPos, Tok.block, Option.getD_some]
  rcases array_next hc hv.2 hs hv.1 hd ht l1 (by omega) n1 with ⟨rfl, n2, b2, l2, g2⟩ |
    ⟨x, tr2, ld2, rest2, rfl, tail2, lead2, n2, b2, l2, hl2, ho2, hs2, hx, hxs, ht2, htx2, g2, p2, q2⟩
  · exact ⟨n2, b2, l2, by rw [g2, Res.ok_bind]; simp [pairElems]⟩
  rw [g2, Res.ok_bind]
  dsimp only
  by_cases h2 : tokItem (firstTok x) = .number
  case neg =>
    refine ⟨n2, b2, l2, ?_⟩
    rw [if_pos h2]
    have : pairElems (.cons x tr2 ld2 rest2) = none := by
      unfold pairElems
      split
      · rename_i h; cases h; exact absurd rfl h2
      · rfl
    rw [this]; rfl
  obtain ⟨x, rfl⟩ := firstTok_num h2
  rw [if_neg (by simp [h2])]
  simp only [firstPos] at q2
  simp only [firstPos, Option.getD_some, setExpect_arr]
  rcases array_next hc ho2 hs2 hl2 hd ht l2 (by omega) n2 with ⟨rfl, n3, b3, l3, g3⟩ |
    ⟨y, tr3, ld3, rest3, rfl, tail3, lead3, n3, b3, l3, hl3, ho3, hs3, hy, hys, ht3, htx3, g3, p3, q3⟩
  · exact ⟨n3, b3, l3, by rw [g3, Res.ok_bind]; simp [pairElems]⟩
  rw [g3, Res.ok_bind]
  dsimp only
  by_cases h3 : tokItem (firstTok y) = .number
  case neg =>
    refine ⟨n3, b3, l3, ?_⟩
    rw [if_pos h3]
    have : pairElems (.cons (.atom (.num x)) tr2 ld2 (.cons y tr3 ld3 rest3)) = none := by
      unfold pairElems
      split
      · rename_i h; cases h; exact absurd rfl h3
      · rfl
    rw [this]; rfl
  obtain ⟨y, rfl⟩ := firstTok_num h3
  rw [if_neg (by simp [h3])]
  simp only [firstPos] at q3
  simp only [firstPos, Option.getD_some, setExpect_arr]
  rcases array_next hc ho3 hs3 hl3 hd ht l3 (by omega) n3 with ⟨rfl, n4, b4, l4, g4⟩ |
    ⟨z, tr4, ld4, rest4, rfl, tail4, lead4, n4, b4, l4, hl4, ho4, hs4, hz, hzs, ht4, htx4, g4, p4, q4⟩
  · refine ⟨n4, b4, l4, ?_⟩
    rw [g4, Res.ok_bind]
    have p2' : (b2.drop 8).take 8 = c.atof x.text := p2
    have p3' : (b3.drop 8).take 8 = c.atof y.text := p3
    simp [pairElems, Tok.value, Tok.block, p2', p3']
  · refine ⟨n4, b4, l4, ?_⟩
    rw [g4, Res.ok_bind]
    dsimp only
    rw [if_pos firstTok_end]
    simp [pairElems]

/-- Inside an array: `parse_array_2` on what comes next. -/
theorem parseArray2_elems {c : Ctx} (hc : CtxOk c) {es : Elems} (hv : es.Ok) (hs : ShortE es) {lead tail R : List Byte} {ls : List Bool} (hl : Ws lead)
    (ht : Tail ls tail R) (hd : ls.length < 59) {buf : List Byte} (hb : buf.length = 1041)
    (hf : (lead ++ (es.text ++ 93 :: (tail ++ R))).length + 27 ≤ c.fuel) (g : Nat) :
    (es = .nil ∧ parseArray2 c ⟨In.ofList (lead ++ (es.text ++ 93 :: (tail ++ R))), false, false :: ls, g⟩ buf = .ok none) ∨
    (∃ v trail lead2 rest, es = .cons v trail lead2 rest ∧ ∃ lead' n b, b.length = 1041 ∧ Ws lead' ∧ rest.Ok ∧ ShortE rest ∧
      parseArray2 c ⟨In.ofList (lead ++ (es.text ++ 93 :: (tail ++ R))), false, false :: ls, g⟩ buf =
        .ok ((pairOf v).map fun p => (⟨⟨In.ofList (lead' ++ (rest.text ++ 93 :: (tail ++ R))), false, false :: ls, n⟩, .endArray, some b⟩,
          c.atof p.1.text, c.atof p.2.text)) ∧
      (lead' ++ (rest.text ++ 93 :: (tail ++ R))).length ≤ (lead ++ (es.text ++ 93 :: (tail ++ R))).length) := by
  rcases array_next hc hv hs hl (by omega) ht hb hf g with ⟨h0, n2, b2, l2, g2⟩ |
    ⟨v, tr, ld, rest, rfl, tail2, lead', n2, b2, l2, hl2, ho2, hs2, hx, hxs, ht2, htx2, -⟩
  · refine .inl ⟨h0, ?_⟩
    unfold parseArray2
    rw [g2, Res.ok_bind]
    simp
  · refine .inr ⟨v, tr, ld, rest, rfl, lead', ?_⟩
    rw [htx2] at hf ⊢
    obtain ⟨n, b, h1, h2⟩ := parseArray2_value hc hx hxs hl (e := false) (ls := false :: ls) rfl ht2 (by simp; omega) (by simp) hb hf g
    rw [setExpect_arr] at h2
    exact ⟨n, b, h1, hl2, ho2, hs2, h2, by simp only [List.length_append]; omega⟩

/-- The member `a`, with any value. -/
theorem parseA_value {c : Ctx} (hc : CtxOk c) {v : Value} (hv : v.Ok) (hs : ShortV v) {lead tail R : List Byte} {ls : List Bool} {e : Bool} (hl : Ws lead)
    (he : expectProperty e ls = false) (ht : Tail ls tail R) (hd : ls.length < 58) (hn : ls ≠ [])
    {buf : List Byte} (hb : buf.length = 1041) (hf : (lead ++ (v.text ++ (tail ++ R))).length + 27 ≤ c.fuel) (g : Nat) :
    ∃ n b, b.length = 1041 ∧ parseA c ⟨In.ofList (lead ++ (v.text ++ (tail ++ R))), e, ls, g⟩ buf =
      .ok ((matrixOf v).map fun m => (⟨⟨In.ofList R, setExpect ls true, ls, n⟩, .endArray, some b⟩,
        (c.atof m.1.1.text, c.atof m.1.2.text), (c.atof m.2.1.text, c.atof m.2.2.text))) := by
  obtain ⟨n1, b1, g1, l1, p1, q1⟩ := getTok_first hc hv hs hl he ht (by omega) (fun h => absurd h hn) hb hf g
  unfold parseA
  rw [g1, Res.ok_bind]
  dsimp only
  by_cases h1 : tokItem (firstTok v) = .beginArray
  case neg =>
    refine ⟨n1, b1, l1, ?_⟩
    rw [if_pos h1]
    have : matrixOf v = none := by
      cases v with
      | arr => exact absurd rfl h1
      | atom => rfl
      | obj => rfl
    rw [this]; rfl
  obtain ⟨w, es, rfl⟩ := firstTok_arr h1
  rw [if_neg (by simp [h1])]
  simp only [Value.Ok] at hv
  simp only [ShortV] at hs
  simp only [firstPos] at q1
  simp only [firstPos, Tok.block, Option.getD_some, matrixOf]
  rcases parseArray2_elems hc hv.2 hs hv.1 ht (by omega) l1 (by omega) n1 with ⟨rfl, g2⟩ | ⟨r, tr2, ld2, rest2, rfl, lead2, n2, b2, l2, hl2, ho2, hs2, g2, q2⟩
  · exact ⟨n1, b1, l1, by rw [g2, Res.ok_bind]; simp [matrixElems]⟩
  rw [g2, Res.ok_bind]
  cases hr : pairOf r with
  | none =>
    refine ⟨n1, b1, l1, ?_⟩
    have : matrixElems (.cons r tr2 ld2 rest2) = none := by
      unfold matrixElems
      split
      · rename_i h; cases h; rw [hr]; rfl
      · rfl
    rw [this]; rfl
  | some p =>
  simp only [Option.map_some, Option.getD_some]
  rcases parseArray2_elems hc ho2 hs2 hl2 ht (by omega) l2 (by omega) n2 with ⟨rfl, g3⟩ | ⟨s, tr3, ld3, rest3, rfl, lead3, n3, b3, l3, hl3, ho3, hs3, g3, q3⟩
  · exact ⟨n1, b1, l1, by rw [g3, Res.ok_bind]; simp [matrixElems]⟩
  rw [g3, Res.ok_bind]
  cases hq : pairOf s with
  | none =>
    refine ⟨n1, b1, l1, ?_⟩
    have : matrixElems (.cons r tr2 ld2 (.cons s tr3 ld3 rest3)) = none := by
      unfold matrixElems
      split
      · rename_i h; cases h; rw [hr, hq]; rfl
      · rfl
    rw [this]; rfl
  | some q =>
  simp only [Option.map_some, Option.getD_some]
  rcases array_next hc ho3 hs3 hl3 (by omega) ht l3 (by omega) n3 with ⟨rfl, n4, b4, l4, g4⟩ |
    ⟨z, tr4, ld4, rest4, rfl, tail4, lead4, n4, b4, l4, hl4, ho4, hs4, hz, hzs, ht4, htx4, g4, p4, q4⟩
  · refine ⟨n4, b4, l4, ?_⟩
    rw [g4, Res.ok_bind]
    simp [matrixElems, hr, hq]
  · refine ⟨n4, b4, l4, ?_⟩
    rw [g4, Res.ok_bind]
    dsimp only
    rw [if_pos firstTok_end]
    simp [matrixElems]

/-! ## The whole body -/

/-- Names the reader can hold; strings the reader can hold where it looks at them; not too many levels. -/
def FineM : Mems → Prop
  | .nil => True
  | .cons name _ _ v _ _ rest => (0 : Byte) ∉ name.val ∧ name.val.length ≤ 1024 ∧ v.depth ≤ 63 ∧
      (name.val = str "a" ∨ name.val = str "b" → ShortV v) ∧ FineM rest

/-- The bytes of the numbers. -/
def bytesA (c : Ctx) (m : (Num × Num) × (Num × Num)) : (List Byte × List Byte) × (List Byte × List Byte) :=
  ((c.atof m.1.1.text, c.atof m.1.2.text), (c.atof m.2.1.text, c.atof m.2.2.text))
def bytesB (c : Ctx) (p : Num × Num) : List Byte × List Byte := (c.atof p.1.text, c.atof p.2.text)

theorem problemLoop_value {c : Ctx} (hc : CtxOk c) : ∀ (ms : Mems), ms.Ok → FineM ms → ∀ (lead : List Byte), Ws lead →
    ∀ (r buf : List Byte), buf.length = 1041 → (lead ++ (ms.text ++ 125 :: r)).length + 27 ≤ c.fuel →
    ∀ (g f : Nat), (lead ++ (ms.text ++ 125 :: r)).length < f → ∀ a b,
    problemLoop c f ⟨In.ofList (lead ++ (ms.text ++ 125 :: r)), true, [true], g⟩ buf ⟨a.map (bytesA c), b.map (bytesB c)⟩ =
      .ok ((reads a b ms).map fun x => ⟨x.1.map (bytesA c), x.2.map (bytesB c)⟩)
  | .nil, _, _, lead, hl, r, buf, hb, hf, g, f, hff, a, b => by
    obtain ⟨f, rfl⟩ : ∃ k, f = k + 1 := ⟨f - 1, by omega⟩
    have s1 := step_endObject (max := 64) (tail := []) (r := r) (ls := []) hl (.inl ⟨rfl, rfl⟩)
    simp only [Mems.text, List.nil_append] at hf hff ⊢
    obtain ⟨n1, b1, g1, _, _⟩ := getTok_ok hc.atof s1 hb (by simp [tokChars]) (by simpa using hf) g
    rw [List.nil_append] at g1
    rw [problemLoop, g1, Res.ok_bind]
    simp [tokItem, reads]
  | .cons name w1 w2 v trail lead2 rest, hv, hs, lead, hl, r, buf, hb, hf, g, f, hff, a, b => by
    obtain ⟨f, rfl⟩ : ∃ k, f = k + 1 := ⟨f - 1, by omega⟩
    obtain ⟨tail, lead', hl', ht, hp⟩ := member_ok hv hl r
    simp only [Mems.Ok] at hv
    simp only [FineM] at hs
    obtain ⟨h0, hlen, hd, hsv, hsr⟩ := hs
    obtain ⟨n1, b1, g1, l1, p1⟩ := getTok_ok hc.atof hp hb (by simp [tokChars]; omega) hf g
    have hlt := hp.1
    have hlt2 := hlt
    simp only [List.length_append] at hlt2
    dsimp only at hlt hlt2 g1
    have ih := fun (buf : List Byte) (hb : buf.length = 1041) (g : Nat) => problemLoop_value hc rest hv.2.2.2.2.2.2 hsr lead' hl' r buf hb
      (by simp only [List.length_append] at hf ⊢; omega) g f (by simp only [List.length_append] at hff ⊢; omega)
    rw [problemLoop, g1, Res.ok_bind]
    dsimp only
    rw [if_neg (by simp [tokItem]), if_neg (by simp [tokItem])]
    rw [Tok.value, Tok.block, Option.getD_some, name_equal h0 (by unfold sizeMax; omega) (by decide) (by decide) p1, reads]
    by_cases ha : name.val = str "a"
    · simp only [ha, decide_true, if_true]
      obtain ⟨n2, b2, l2, g2⟩ := parseA_value hc hv.2.2.2.1 (hsv (.inl ha)) hv.2.2.1 (e := false) (ls := [true]) rfl ht (by simp) (by simp) l1 (by omega) n1
      rw [g2, Res.ok_bind]
      cases hm : matrixOf v with
      | none => rfl
      | some m =>
        simp only [Option.map_some, Option.bind_some]
        exact ih b2 l2 n2 (some m) b
    · simp only [ha, decide_false, if_false]
      rw [name_equal h0 (by unfold sizeMax; omega) (by decide) (by decide) p1]
      by_cases hb' : name.val = str "b"
      · simp only [hb', decide_true, if_true]
        obtain ⟨n2, b2, l2, g2⟩ := parseArray2_value hc hv.2.2.2.1 (hsv (.inr hb')) hv.2.2.1 (e := false) (ls := [true]) rfl ht (by simp) (by simp) l1 (by omega) n1
        rw [g2, Res.ok_bind]
        cases hm : pairOf v with
        | none => rfl
        | some m =>
          simp only [Option.map_some, Option.bind_some]
          exact ih b2 l2 n2 a (some m)
      · simp only [hb', decide_false, if_false]
        obtain ⟨k, k1, k2, k3, k4⟩ := C07_skip_partial (max := 64) (fuel := c.fuel) (g := n1) hv.2.2.2.1 (lead := w2) (tail := tail)
          (r := lead' ++ (rest.text ++ 125 :: r)) (e := false) (ls := [true]) hv.2.2.1 rfl ht (by simp) (by simp; omega) (by omega)
        rw [k1, Res.ok_bind]
        obtain ⟨⟨ks, ke, kl, kg⟩, ki, kb⟩ := k
        dsimp only at k2 k3 k4 ⊢
        subst k2 k3
        have : ke = true := by simpa [expectProperty, topObject] using k4
        subst this
        exact ih b1 l1 kg a b

/-- A body that is a JSON object, followed by anything. -/
theorem problemBody_object {c : Ctx} (hc : CtxOk c) {lead w : List Byte} {ms : Mems} (hl : Ws lead) (hv : (Value.obj w ms).Ok) (hs : FineM ms) (r : List Byte)
    (hf : (lead ++ ((Value.obj w ms).text ++ r)).length + 27 ≤ c.fuel) :
    problemBody c (lead ++ ((Value.obj w ms).text ++ r)) = .ok (match reads none none ms with
      | some (some a, some b) => some (bytesA c a, bytesB c b)
      | _ => none) := by
  obtain ⟨n, b, hb, h1⟩ := begin_ok hc hl r hf
  simp only [Value.Ok] at hv
  have e : (w ++ (ms.text ++ 125 :: r)).length + 1 ≤ (lead ++ ((Value.obj w ms).text ++ r)).length := by
    simp [Value.text]
  have h2 := problemLoop_value hc ms hv.2 hs w hv.1 r b hb (by omega) n c.fuel (by omega) none none
  unfold problemBody
  rw [h1, Res.ok_bind]
  simp only [ne_eq, not_true_eq_false, if_false, Tok.block, Option.getD_some]
  simp only [Option.map_none] at h2
  have e2 : ({} : Got) = ⟨none, none⟩ := rfl
  rw [e2, h2, Res.ok_bind]
  rcases reads none none ms with _ | ⟨_ | a, _ | b⟩ <;> rfl

/-- A body that is another JSON value, not a bare number. -/
theorem problemBody_other {c : Ctx} (hc : CtxOk c) {lead : List Byte} {v : Value} (hl : Ws lead) (hv : v.Ok) (hs : ShortV v) (hn : ∀ n, v ≠ .atom (.num n))
    (ho : ∀ w ms, v ≠ .obj w ms) (r : List Byte) (hf : (lead ++ (v.text ++ r)).length + 27 ≤ c.fuel) :
    problemBody c (lead ++ (v.text ++ r)) = .ok none := by
  have h := getTok_first hc hv hs hl (e := false) (ls := []) (tail := []) (R := r) rfl (.inl ⟨rfl, rfl⟩) (by simp) (fun _ => hn) hc.token (by simpa using hf) 0
  simp only [List.nil_append] at h
  obtain ⟨n, b, h1, -⟩ := h
  have h1' : getTok c { s := { rest := lead ++ (v.text ++ r) } } c.token = _ := h1
  unfold problemBody
  rw [h1', Res.ok_bind]
  dsimp only
  rw [if_pos]
  intro hc
  obtain ⟨w, ms, h⟩ := firstTok_object hc
  exact ho w ms h

end Bodies

/-! ## The headers -/

/-- The loop over the headers comes to this conclusion, and nothing has failed. -/
def Ends (r : List Byte) : Judged → Headers → Prop
  | .json, v => v = .done ⟨In.ofList r, .body, 0⟩
  | .missing, v => v = .done ⟨In.ofList r, .body, 0⟩
  | .wrong, v => ∃ st, v = .refused st "'application/json' is the only supported Content-Type." ∧ st.s.good = true
  | .twice, v => ∃ st, v = .refused st "The Content-Type header was supplied more than once." ∧ st.s.good = true

theorem headerLoop_judge {fuel : Nat} (hs : List Header) (hf : HeadersFit hs) (r : List Byte) (has : Bool) (hm : List Byte)
    (hl : hm.length = 1025) (g f : Nat) (hff : hs.length < f) (hfu : (headersText hs).length + 4 ≤ fuel) :
    ∃ v, headerLoop fuel f has ⟨In.ofList (headersText hs ++ (crlf ++ r)), .headerName, g⟩ hm = .ok v ∧ Ends r (judge has hs) v := by
  induction hs generalizing has hm g f with
  | nil =>
    obtain ⟨f, rfl⟩ : ∃ k, f = k + 1 := ⟨f - 1, by simp at hff; omega⟩
    obtain ⟨m1, h1, _⟩ := getHeaderName_end (fuel := fuel) r hm (by omega) (by omega) g (by omega)
    rw [hl] at h1
    rw [headerLoop, headersText, List.map_nil, List.flatten_nil, List.nil_append, h1, Res.ok_bind]
    cases has <;> exact ⟨_, rfl, rfl⟩
  | cons h hs ih =>
    obtain ⟨f, rfl⟩ : ∃ k, f = k + 1 := ⟨f - 1, by simp at hff; omega⟩
    obtain ⟨m1, m2, h1, h2, h3, h4⟩ := header_step hf r hm hl g hfu
    obtain ⟨hh, hn, hv⟩ := hf h (by simp)
    have hne : h.1.length ≠ 0 := fun h0 => hh.1 (List.length_eq_zero_iff.1 h0)
    have hlen : (headersText (h :: hs)).length =
        h.1.length + 2 + (norm false false h.2).length + 2 + (headersText hs).length := by
      rw [headersText_cons]; simp [crlf]; omega
    have e1 : areEqualI (some m1) (mem (str "Content-Type")) = some (decide (IsType h)) := by
      rw [buf_equal_i h2.2 (by rw [h2.1]; omega) (by rw [h2.1, hl]; decide) (by decide) (by decide)]
      rfl
    have e2 : areEqualIN (some m2) (mem jsonType) jsonType.length = some (decide (SaysJson h)) := by
      rw [buf_starts_i h4.2 (by rw [h4.1, h2.1]; omega) (by decide)]
      rfl
    have hl2 : m2.length = 1025 := by rw [h4.1, h2.1, hl]
    have ih' := fun has => ih (fun k hk => hf k (by simp [hk])) has m2 hl2 (norm false false h.2).length f
      (by simp at hff; omega) (by omega)
    rw [headerLoop, h1, Res.ok_bind]
    dsimp only
    rw [if_neg (by simp), if_neg hne, e1]
    by_cases ht : IsType h
    · simp only [ht, decide_true]
      cases has with
      | true => exact ⟨_, rfl, by simp only [judge, ht, if_true]; exact ⟨_, rfl, rfl⟩⟩
      | false =>
        rw [if_neg (by simp), h3, Res.ok_bind]
        dsimp only
        rw [if_neg (by simp), e2]
        by_cases hj : SaysJson h
        · simp only [hj, decide_true, judge, ht, if_true, Bool.false_eq_true, if_false]
          exact ih' true
        · simp only [hj, decide_false, judge, ht, if_true, Bool.false_eq_true, if_false]
          exact ⟨_, rfl, _, rfl, rfl⟩
    · simp only [ht, decide_false]
      rw [h3, Res.ok_bind]
      dsimp only
      rw [if_neg (by simp)]
      simp only [judge, ht, if_false]
      exact ih' has

/-- No Content-Type, or one, which is JSON. -/
def TypeFits (hs : List Header) : Prop := (∀ h ∈ hs, ¬ IsType h) ∨ SendsJson hs

theorem headerLoop_fits {fuel : Nat} {hs : List Header} (hf : HeadersFit hs) (ht : TypeFits hs) (r : List Byte) {hm : List Byte}
    (hl : hm.length = 1025) (g : Nat) (hfu : (headersText hs).length + 4 ≤ fuel) :
    headerLoop fuel fuel false ⟨In.ofList (headersText hs ++ (crlf ++ r)), .headerName, g⟩ hm = .ok (.done ⟨In.ofList r, .body, 0⟩) := by
  have hlen := headers_length hs
  obtain ⟨v, h1, h2⟩ := headerLoop_judge hs hf r false hm hl g fuel (by omega) hfu
  rcases ht with ht | ht
  · rw [judge_none ht] at h2; rw [h1, h2]
  · rw [judge_json ht] at h2; rw [h1, h2]

/-! ## The response -/

/-- The text of an answer. -/
def answerText (status : Nat) (x y : List Byte) : List Byte :=
  str "{\"status\":" ++ (dec status ++ (str ",\"x\":" ++ (x ++ (str ",\"y\":" ++ (y ++ str "}")))))

/-- What `%.16lg` may print: at most 40 characters, none of them NUL. -/
structure Printed (x : List Byte) : Prop where
  short : x.length ≤ 40
  zero : (0 : Byte) ∉ x

/-- As a JSON tree, if the two texts were numbers. -/
def answerValue (status : Nat) (x y : List Byte) : Spec.Value :=
  .obj [] (.cons (key "status") [] [] (.atom (.num { int := dec status })) [] []
    (.cons (key "x") [] [] (.atom (.num { int := x })) [] [] (.cons (key "y") [] [] (.atom (.num { int := y })) [] [] .nil)))

theorem answer_body {status : Nat} (hs : status ≤ 2) {x y : List Byte} (hx : Printed x) (hy : Printed y) :
    jsonText 1025 (answerToks status x y) = .ok (answerText status x y) ∧ (answerText status x y).length ≤ 512 := by
  have e1 : (answerValue status x y).text = answerText status x y := by
    simp [answerValue, answerText, Spec.Value.text, Spec.Mems.text, Spec.Mems.sep, Spec.Atom.text, Spec.Num.text, Spec.fracText, Spec.expText, key_text]
    have a1 : str "{\"status\":" = 123 :: 34 :: (str "status" ++ [34, 58]) := by decide
    have a2 : str ",\"x\":" = 44 :: 34 :: (str "x" ++ [34, 58]) := by decide
    have a3 : str ",\"y\":" = 44 :: 34 :: (str "y" ++ [34, 58]) := by decide
    have a4 : str "}" = [125] := by decide
    rw [a1, a2, a3, a4]
    simp
  have e2 : (answerValue status x y).toks = answerToks status x y := by
    simp [answerValue, answerToks, Spec.Value.toks, Spec.Mems.toks, Spec.Atom.tok, Spec.Num.text, Spec.fracText, Spec.expText, key_val, decInt]
  have hd : (dec status).length ≤ 1 := by
    have : status = 0 ∨ status = 1 ∨ status = 2 := by omega
    rcases this with rfl | rfl | rfl <;> decide +kernel
  have h1 := hx.short
  have h2 := hy.short
  have hlen : (answerText status x y).length ≤ 110 := by
    have a1 : (str "{\"status\":").length = 10 := by decide +kernel
    have a2 : (str ",\"x\":").length = 5 := by decide +kernel
    have a3 : (str ",\"y\":").length = 5 := by decide +kernel
    have a4 : (str "}").length = 1 := by decide +kernel
    simp only [answerText, List.length_append]
    omega
  have h0 : (0 : Byte) ∉ answerText status x y := by
    have a1 : (0 : Byte) ∉ str "{\"status\":" := by decide +kernel
    have a2 : (0 : Byte) ∉ str ",\"x\":" := by decide +kernel
    have a3 : (0 : Byte) ∉ str ",\"y\":" := by decide +kernel
    have a4 : (0 : Byte) ∉ str "}" := by decide +kernel
    simp only [answerText, List.mem_append, not_or]
    exact ⟨a1, dec_zero_free _, a2, hx.zero, a3, hy.zero, a4⟩
  refine ⟨?_, by omega⟩
  rw [← e2, ← e1]
  refine jsonText_value _ ?_ ?_ (by rw [e1]; omega) (by rw [e1]; exact h0)
  · simp [answerValue, Spec.Value.Compact, Spec.Mems.Compact, Spec.Atom.Compact, key]
  · simp [answerValue, Spec.Value.depth, Spec.Mems.depth]

theorem solve_status {D : Type} (F : Arith D) (a00 a01 a10 a11 b0 b1 : D) :
    ∃ n : Nat, n ≤ 2 ∧ (solve F a00 a01 a10 a11 b0 b1).1 = n := by
  unfold solve
  dsimp only
  split
  · exact ⟨1, by omega, rfl⟩
  split
  · exact ⟨0, by omega, rfl⟩
  · exact ⟨2, by omega, rfl⟩

theorem okJson_any {c : Ctx} (hr : 2048 ≤ c.room) {body : List Byte} (hb : body.length ≤ 512) (s : In) :
    (okJson body).Ok ∧ Complete (okJson body).text ∧
      answer s c.room false (simpleCalls (str "200") (str "OK") jsonType body) = .sent (if s.good then (okJson body).text else []) false := by
  have hok := mkResponse_ok fine_json body
  refine ⟨hok, mkResponse_complete hok, ?_⟩
  rw [simpleCalls_eq, jsonType, answer_response fine_json _ (by omega) [body] (by simp) s c.room (by omega) false]
  rfl

/-- What is sent for a problem. -/
def solved {D : Type} (c : Ctx) (F : Arith D) (a : (Spec.Num × Spec.Num) × (Spec.Num × Spec.Num)) (b : Spec.Num × Spec.Num) : Int × D × D :=
  solve F (F.load (c.atof a.1.1.text)) (F.load (c.atof a.1.2.text)) (F.load (c.atof a.2.1.text)) (F.load (c.atof a.2.2.text))
    (F.load (c.atof b.1.text)) (F.load (c.atof b.2.text))

/-! ## The handler -/

theorem handler_eq {D : Type} (F : Arith D) (c : Ctx) (st : Rd) {m r : List Byte} (hm : (0 : Byte) ∉ m) (hml : m.length ≤ 32) (hr0 : (0 : Byte) ∉ r)
    (hrl : r.length ≤ 2048) :
    handler c F st m r =
      if m.map lower = str "post" ∧ r.map lower = str "/shutdown" then
        .ok ((), answer st.s c.room true (simpleCalls (str "200") (str "OK") plain (str "Server is shuting down...")))
      else if r.map lower ≠ str "/problem" then .ok ((), refuse c st.s "404" "Not Found" "The requested resource was not found.")
      else if m.map lower ≠ str "post" then
        .ok ((), refuse c st.s "405" "Method Not Allowed" "POST is the only supported method for resource '/problem'.")
      else processProblem c F st := by
  unfold handler
  rw [post_is hm hml, Endpoint.equal_i hr0 (b := str "/shutdown") (by decide) (by unfold sizeMax; omega) (by decide),
    Endpoint.equal_i hr0 (b := str "/problem") (by decide) (by unfold sizeMax; omega) (by decide)]
  have e1 : (str "/shutdown").map lower = str "/shutdown" := by decide
  have e2 : (str "/problem").map lower = str "/problem" := by decide
  have hd : ¬ (str "/shutdown" = str "/problem") := by decide
  rw [e1, e2]
  by_cases h1 : m.map lower = str "post" <;> by_cases h2 : r.map lower = str "/shutdown" <;> by_cases h3 : r.map lower = str "/problem" <;>
    simp [h1, h2, h3, hd]

theorem handler_problem {D : Type} (F : Arith D) (c : Ctx) (st : Rd) {m r : List Byte} (hm : m.map lower = str "post") (hr : r.map lower = str "/problem")
    (hm0 : (0 : Byte) ∉ m) (hml : m.length ≤ 32) (hr0 : (0 : Byte) ∉ r) (hrl : r.length ≤ 2048) :
    handler c F st m r = processProblem c F st := by
  rw [handler_eq F c st hm0 hml hr0 hrl, if_neg (fun h => absurd (hr.symm.trans h.2) (by decide)), if_neg (by simp [hr]), if_neg (by simp [hm])]

theorem serve_problem {D : Type} {cfg : Config} (hcfg : ConfigOk cfg) (stat : List Byte → Option Nat) (content : List Byte → List Byte) {c : Ctx}
    (hc : CtxOk c) (F : Arith D) {q : Request} {after mm mp mc : List Byte} (hf : Fits cfg c q after mm mp mc)
    (hm : q.method.map lower = str "post") (hr : q.resource.map lower = str "/problem") (hj : TypeFits q.headers) :
    serve cfg stat content c F mm mp mc false (q.text ++ after) =
      (problemBody c (q.body ++ after)).bind fun
      | none => .ok ((), bad c (In.ofList (q.body ++ after)) invalidJson)
      | some (((a00, a01), (a10, a11)), (b0, b1)) =>
        let r := solve F (F.load a00) (F.load a01) (F.load a10) (F.load a11) (F.load b0) (F.load b1)
        (jsonText 1025 (answerToks r.1 (F.text r.2.1) (F.text r.2.2))).bind fun body =>
        .ok ((), answer (In.ofList (q.body ++ after)) c.room false (simpleCalls (str "200") (str "OK") jsonType body)) := by
  have hlen : (headersText q.headers).length + 4 ≤ c.fuel := by
    have := hf.fuel
    rw [List.length_append, q.text_length] at this
    omega
  have h3 := hf.resource
  have hm0 : (0 : Byte) ∉ q.method := fun h => by
    have := hf.ok.method 0 h; revert this; decide
  unfold serve
  rw [serveWith_handler hcfg stat content hf (fun h => by have := hm.symm.trans h.1; revert this; decide),
    handler_problem F c _ hm hr hm0 hf.method (resource_zero hf.ok) (by omega)]
  unfold processProblem
  rw [headerLoop_fits hf.headers hj _ hc.header _ hlen, Res.ok_bind]
  rfl

/-! ## C97: what a request for a solution is answered with -/

/-- A request that fits, is sent to `POST /problem` with no other Content-Type than JSON, and whose body begins with a JSON object
that poses the problem `a`, `b`. -/
structure Asks (cfg : Config) (c : Ctx) (q : Request) (after mm mp mc : List Byte) (a : (Spec.Num × Spec.Num) × (Spec.Num × Spec.Num))
    (b : Spec.Num × Spec.Num) : Prop where
  fits : Fits cfg c q after mm mp mc
  post : q.method.map lower = str "post"
  path : q.resource.map lower = str "/problem"
  type : TypeFits q.headers
  body : ∃ lead w ms r, q.body = lead ++ ((Spec.Value.obj w ms).text ++ r) ∧ Spec.Ws lead ∧ (Spec.Value.obj w ms).Ok ∧ FineM ms ∧ Poses ms a b

/-- C97, with any arithmetic: a request that poses a problem is answered with what `solve` makes of its six numbers, as JSON, and
whatever follows its body does not matter. -/
theorem C97_answer {D : Type} {cfg : Config} (hcfg : ConfigOk cfg) (stat : List Byte → Option Nat) (content : List Byte → List Byte) {c : Ctx}
    (hc : CtxOk c) (F : Arith D) (hF : ∀ d, Printed (F.text d)) {q : Request} {after mm mp mc : List Byte}
    {a : (Spec.Num × Spec.Num) × (Spec.Num × Spec.Num)} {b : Spec.Num × Spec.Num} (hq : Asks cfg c q after mm mp mc a b) :
    ∃ status : Nat, status ≤ 2 ∧ (solved c F a b).1 = status ∧
      serve cfg stat content c F mm mp mc false (q.text ++ after) =
        .ok ((), .sent (okJson (answerText status (F.text (solved c F a b).2.1) (F.text (solved c F a b).2.2))).text false) ∧
      Complete (okJson (answerText status (F.text (solved c F a b).2.1) (F.text (solved c F a b).2.2))).text := by
  obtain ⟨hf, hm, hr, hj, lead, w, ms, r, hb, hl, hv, hs, hp⟩ := hq
  have hlen : (q.body ++ after).length + 27 ≤ c.fuel := by
    have := hf.fuel
    rw [List.length_append, q.text_length] at this
    rw [List.length_append]
    omega
  have hb' : q.body ++ after = lead ++ ((Spec.Value.obj w ms).text ++ (r ++ after)) := by rw [hb]; simp
  have h1 := problemBody_object hc hl hv hs (r ++ after) (by rw [← hb']; exact hlen)
  rw [(reads_iff ms a b).2 hp] at h1
  obtain ⟨n, hn, he⟩ := solve_status F (F.load (c.atof a.1.1.text)) (F.load (c.atof a.1.2.text)) (F.load (c.atof a.2.1.text)) (F.load (c.atof a.2.2.text))
    (F.load (c.atof b.1.text)) (F.load (c.atof b.2.text))
  obtain ⟨k1, k2⟩ := answer_body hn (hF (solved c F a b).2.1) (hF (solved c F a b).2.2)
  obtain ⟨-, k3, k4⟩ := okJson_any hc.room k2 (In.ofList (q.body ++ after))
  refine ⟨n, hn, he, ?_, k3⟩
  rw [serve_problem hcfg stat content hc F hf hm hr hj]
  rw [hb'] at k4 ⊢
  rw [h1, Res.ok_bind]
  simp only [bytesA, bytesB, he]
  simp only [solved] at k1 k4 ⊢
  rw [k1, Res.ok_bind, k4]
  rfl

/-- A JSON value that poses no problem, and is not a bare number. -/
def NoProblem : Spec.Value → Prop
  | .obj _ ms => FineM ms ∧ ∀ a b, ¬ Poses ms a b
  | .arr w es => ShortV (.arr w es)
  | .atom x => ShortV (.atom x) ∧ ∀ n, x ≠ .num n

/-- C97.  A JSON body that poses no problem (and is not a bare number) is refused with a complete 400. -/
theorem C97_refused {D : Type} {cfg : Config} (hcfg : ConfigOk cfg) (stat : List Byte → Option Nat) (content : List Byte → List Byte) {c : Ctx}
    (hc : CtxOk c) (F : Arith D) {q : Request} {after mm mp mc : List Byte} (hf : Fits cfg c q after mm mp mc)
    (hm : q.method.map lower = str "post") (hr : q.resource.map lower = str "/problem") (hj : TypeFits q.headers)
    {lead r : List Byte} {v : Spec.Value} (hb : q.body = lead ++ (v.text ++ r)) (hl : Spec.Ws lead) (hv : v.Ok)
    (hs : NoProblem v) :
    serve cfg stat content c F mm mp mc false (q.text ++ after) = .ok ((), .sent (badText invalidJson).text false) ∧
      Complete (badText invalidJson).text := by
  have hlen : (q.body ++ after).length + 27 ≤ c.fuel := by
    have := hf.fuel
    rw [List.length_append, q.text_length] at this
    rw [List.length_append]
    omega
  have hb' : q.body ++ after = lead ++ (v.text ++ (r ++ after)) := by rw [hb]; simp
  have h1 : problemBody c (q.body ++ after) = .ok none := by
    rw [hb'] at hlen ⊢
    match v, hv, hs, hlen with
    | .obj w ms, hv, hs, hlen =>
      rw [problemBody_object hc hl hv hs.1 (r ++ after) hlen]
      match h : reads none none ms with
      | some (some a, some b) => exact absurd ((reads_iff ms a b).1 h) (hs.2 a b)
      | some (some a, none) => rfl
      | some (none, b) => rfl
      | none => rfl
    | .atom x, hv, hs, hlen => exact problemBody_other hc hl hv hs.1 (fun n h => hs.2 n (by simpa using h)) (by simp) _ hlen
    | .arr w es, hv, hs, hlen => exact problemBody_other hc hl hv hs (by simp) (by simp) _ hlen
  obtain ⟨-, k2, k3⟩ := bad_any hc.room invalidJson (by decide +kernel) (In.ofList (q.body ++ after))
  rw [serve_problem hcfg stat content hc F hf hm hr hj, h1, Res.ok_bind]
  refine ⟨?_, k2⟩
  dsimp only
  rw [k3]; rfl

end Abc.EquationsWire
