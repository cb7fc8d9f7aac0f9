import Verif.Samples.GameWireProps

/-!
# The tic-tac-toe server at the level of bytes: is every request answered?
-/

namespace Abc.GameWire

open Abc.Ascii Abc.Stream Abc.Http Abc.Wire Abc.Json
open Abc.Endpoint (Config str mem)
open Abc.GameServer (Id PType Server Req Resp Inv Answer Follows Trace)
open Abc.TicTacToe (Pid Move OnBoard Side)

/-! ## Any well-formed body -/

section Bodies
open Spec

mutual
/-- Names of at most 1024 characters, strings of at most 64. -/
def ShortV : Value → Prop
  | .atom (.str s) => s.val.length ≤ 64
  | .atom _ => True
  | .arr _ es => ShortE es
  | .obj _ ms => ShortM ms
def ShortE : Elems → Prop
  | .nil => True
  | .cons v _ _ rest => ShortV v ∧ ShortE rest
def ShortM : Mems → Prop
  | .nil => True
  | .cons name _ _ v _ _ rest => name.val.length ≤ 1024 ∧ ShortV v ∧ ShortM rest
end

/-- The first token of a value. -/
def firstTok : Value → Token
  | .atom a => a.tok
  | .arr _ _ => .beginArray
  | .obj _ _ => .beginObject

/-- Where the reader is after the first token of a value that is followed by `R`. -/
def firstPos (R : List Byte) (ls : List Bool) : Value → List Byte → Pos
  | .atom _, _ => ⟨R, setExpect ls true, ls⟩
  | .arr w es, tail => ⟨w ++ (es.text ++ 93 :: (tail ++ R)), false, false :: ls⟩
  | .obj w ms, tail => ⟨w ++ (ms.text ++ 125 :: (tail ++ R)), true, true :: ls⟩

theorem first_reads {v : Value} (hv : v.Ok) {lead tail R : List Byte} {e : Bool} {ls : List Bool} (hl : Ws lead)
    (he : expectProperty e ls = false) (ht : Tail ls tail R) (hd : ls.length < 64) (hn : ls = [] → ∀ n, v ≠ .atom (.num n)) :
    ReadsTok 64 ⟨lead ++ (v.text ++ (tail ++ R)), e, ls⟩ (firstTok v) (firstPos R ls v tail) := by
  cases v with
  | atom a => exact step_atom (by simpa [Value.Ok] using hv) hl he ht (fun h0 ⟨n, h⟩ => absurd (by rw [h]) (hn h0 n))
  | arr w es =>
    have := step_begin (max := 64) (r := w ++ (es.text ++ 93 :: (tail ++ R))) false hl he hd
    simpa [Value.text, firstTok, firstPos] using this
  | obj w ms =>
    have := step_begin (max := 64) (r := w ++ (ms.text ++ 125 :: (tail ++ R))) true hl he hd
    simpa [Value.text, firstTok, firstPos] using this

theorem firstTok_chars {v : Value} (h : ShortV v) : tokChars (firstTok v) ≤ 1032 := by
  cases v with
  | atom a => cases a <;> simp [firstTok, Atom.tok, tokChars]; simp [ShortV] at h; omega
  | arr => simp [firstTok, tokChars]
  | obj => simp [firstTok, tokChars]

/-- The first of some elements, and what follows it. -/
theorem elem_split {v : Value} {trail lead : List Byte} {rest : Elems} (hv : (Elems.cons v trail lead rest).Ok) (ls : List Bool) (R : List Byte) :
    ∃ tail lead', Ws lead' ∧ Tail (false :: ls) tail (lead' ++ (rest.text ++ 93 :: R)) ∧
      (Elems.cons v trail lead rest).text ++ 93 :: R = v.text ++ (tail ++ (lead' ++ (rest.text ++ 93 :: R))) := by
  simp only [Elems.Ok] at hv
  cases rest with
  | nil =>
    refine ⟨trail, [], ws_nil, .inr ⟨by simp, trail, hv.2.1, .inr ⟨rfl, R, rfl⟩⟩, ?_⟩
    simp [Elems.text, Elems.sep]
  | cons v' t' l' rest' =>
    refine ⟨trail ++ [44], lead, hv.2.2.1, .inr ⟨by simp, trail, hv.2.1, .inl rfl⟩, ?_⟩
    rw [Elems.text, Elems.sep]
    simp

theorem copy65_ok {atof : List Byte → List Byte} {b w : List Byte} (hw : w.length ≤ 64) (hp : Payload atof (.str w) b) :
    ∃ x, copy65 (b.drop 8) = .ok x := by
  obtain ⟨v, hv⟩ := hp
  have hm : (0 : Byte) ∈ b.drop 8 := by rw [hv]; simp
  have hl : (cstr (b.drop 8)).length ≤ 64 := by
    have : (cstr (w ++ 0 :: v)).length ≤ w.length := by
      clear hv hm hw
      induction w with
      | nil => simp [cstr]
      | cons c w ih =>
        unfold cstr at ih ⊢
        rw [List.cons_append, List.takeWhile_cons]
        split
        · simp only [List.length_cons]; omega
        · simp
    rw [hv]; omega
  exact ⟨_, by rw [copy65, if_pos ⟨hm, hl⟩]⟩

theorem name_compares {atof : List Byte → List Byte} {b w k : List Byte} (hp : Payload atof (.prop w) b) :
    ∃ x, areEqualC (some (b.drop 8)) (mem k) = some x := by
  obtain ⟨v, hv⟩ := hp
  unfold areEqualC mem
  rw [are_equal_correct true _ _ _ (by rw [hv]; simp) (by simp)]
  exact ⟨_, rfl⟩

theorem getTok_first {c : Ctx} (hc : CtxOk c) {v : Value} (hv : v.Ok) (hs : ShortV v) {lead tail R : List Byte} {e : Bool} {ls : List Bool} (hl : Ws lead)
    (he : expectProperty e ls = false) (ht : Tail ls tail R) (hd : ls.length < 64) (hn : ls = [] → ∀ n, v ≠ .atom (.num n))
    {buf : List Byte} (hb : buf.length = 1041) (hf : (lead ++ (v.text ++ (tail ++ R))).length + 27 ≤ c.fuel) (g : Nat) :
    ∃ n b, getTok c ⟨In.ofList (lead ++ (v.text ++ (tail ++ R))), e, ls, g⟩ buf =
        .ok ⟨⟨In.ofList (firstPos R ls v tail).r, (firstPos R ls v tail).e, (firstPos R ls v tail).ls, n⟩, tokItem (firstTok v), some b⟩ ∧
      b.length = 1041 ∧ Payload c.atof (firstTok v) b ∧ (firstPos R ls v tail).r.length < (lead ++ (v.text ++ (tail ++ R))).length := by
  have h := first_reads hv hl he ht hd hn
  obtain ⟨n, b, h1, h2, h3⟩ := getTok_ok hc.atof h hb (firstTok_chars hs) hf g
  exact ⟨n, b, h1, h2, h3, h.1⟩

/-- The next token inside an array: its end, or the first of the next element. -/
theorem getTok_elems {c : Ctx} (hc : CtxOk c) {es : Elems} (hv : es.Ok) (hs : ShortE es) {lead tail R : List Byte} (hl : Ws lead)
    (ht : Tail [true] tail R) {buf : List Byte} (hb : buf.length = 1041)
    (hf : (lead ++ (es.text ++ 93 :: (tail ++ R))).length + 27 ≤ c.fuel) (g : Nat) :
    ∃ st it b, getTok c ⟨In.ofList (lead ++ (es.text ++ 93 :: (tail ++ R))), false, [false, true], g⟩ buf = .ok ⟨st, it, some b⟩ ∧ b.length = 1041 ∧
      (it = .string → ∃ x, copy65 (b.drop 8) = .ok x ∧ ∃ lead' es' n, Ws lead' ∧ es'.Ok ∧ ShortE es' ∧
        st = ⟨In.ofList (lead' ++ (es'.text ++ 93 :: (tail ++ R))), false, [false, true], n⟩ ∧
        (lead' ++ (es'.text ++ 93 :: (tail ++ R))).length < (lead ++ (es.text ++ 93 :: (tail ++ R))).length) ∧
      (it = .endArray → ∃ n, st = ⟨In.ofList R, true, [true], n⟩) := by
  cases es with
  | nil =>
    have s4 := step_endArray (max := 64) hl ht
    obtain ⟨n, b, h1, h2, _⟩ := getTok_ok hc.atof s4 hb (by simp [tokChars]) (by simpa [Elems.text] using hf) g
    refine ⟨_, _, b, by simpa [Elems.text] using h1, h2, ?_, ?_⟩
    · intro h; simp [tokItem] at h
    · intro _; exact ⟨n, rfl⟩
  | cons v trail lead2 rest =>
    obtain ⟨tail2, lead', hl', ht', htext⟩ := elem_split hv [true] (tail ++ R)
    simp only [Elems.Ok] at hv
    simp only [ShortE] at hs
    rw [htext] at hf ⊢
    obtain ⟨n, b, h1, h2, h3, h4⟩ := getTok_first hc hv.1 hs.1 hl (e := false) (ls := [false, true]) rfl ht' (by simp) (by simp) hb hf g
    refine ⟨_, _, b, h1, h2, ?_, ?_⟩
    · intro h
      cases v with
      | arr => simp [firstTok, tokItem] at h
      | obj => simp [firstTok, tokItem] at h
      | atom a =>
        cases a with
        | null => simp [firstTok, Atom.tok, tokItem] at h
        | bool => simp [firstTok, Atom.tok, tokItem] at h
        | num => simp [firstTok, Atom.tok, tokItem] at h
        | str s =>
          obtain ⟨x, hx⟩ := copy65_ok (w := s.val) (by simpa [ShortV] using hs.1) h3
          exact ⟨x, hx, lead', rest, n, hl', hv.2.2.2, hs.2, by simp [firstPos, setExpect, topObject], h4⟩
    · intro h
      cases v with
      | arr => simp [firstTok, tokItem] at h
      | obj => simp [firstTok, tokItem] at h
      | atom a => cases a <;> simp [firstTok, Atom.tok, tokItem] at h

/-- The loop comes to an end on every object. -/
theorem playersLoop_any {c : Ctx} (hc : CtxOk c) : ∀ (ms : Mems), ms.Ok → ShortM ms → ms.depth ≤ 63 → ∀ (lead : List Byte), Ws lead →
    ∀ (r buf : List Byte), buf.length = 1041 → (lead ++ (ms.text ++ 125 :: r)).length + 27 ≤ c.fuel →
    ∀ (g f : Nat), (lead ++ (ms.text ++ 125 :: r)).length < f → ∀ got,
    ∃ res, playersLoop c f ⟨In.ofList (lead ++ (ms.text ++ 125 :: r)), true, [true], g⟩ buf got = .ok res
  | .nil, _, _, _, lead, hl, r, buf, hb, hf, g, f, hff, got => by
    obtain ⟨f, rfl⟩ : ∃ k, f = k + 1 := ⟨f - 1, by omega⟩
    have s1 := step_endObject (max := 64) (tail := []) (r := r) (ls := []) hl (.inl ⟨rfl, rfl⟩)
    simp only [Mems.text, List.nil_append] at hf hff ⊢
    obtain ⟨n1, b1, g1, _, _⟩ := getTok_ok hc.atof s1 hb (by simp [tokChars]) (by simpa using hf) g
    rw [List.nil_append] at g1
    rw [playersLoop, g1, Res.ok_bind]
    simp [tokItem]
  | .cons name w1 w2 v trail lead2 rest, hv, hs, hd, lead, hl, r, buf, hb, hf, g, f, hff, got => by
    obtain ⟨f, rfl⟩ : ∃ k, f = k + 1 := ⟨f - 1, by omega⟩
    obtain ⟨tail, lead', hl', ht, hp⟩ := member_ok hv hl r
    simp only [Mems.Ok] at hv
    simp only [ShortM] at hs
    simp only [Mems.depth] at hd
    have hd1 : v.depth ≤ 63 := Nat.le_trans (Nat.le_max_left _ _) hd
    have hd2 : rest.depth ≤ 63 := Nat.le_trans (Nat.le_max_right _ _) hd
    obtain ⟨n1, b1, g1, l1, p1⟩ := getTok_ok hc.atof hp hb (by simp [tokChars]; omega) hf g
    have hlt := hp.1
    have hlt2 := hlt
    simp only [List.length_append] at hlt2
    dsimp only at hlt hlt2 g1
    have ih := fun (buf : List Byte) (hb : buf.length = 1041) (g : Nat) => playersLoop_any hc rest hv.2.2.2.2.2.2 hs.2.2 hd2 lead' hl' r buf hb
      (by simp only [List.length_append] at hf ⊢; omega) g f (by simp only [List.length_append] at hff ⊢; omega)
    rw [playersLoop, g1, Res.ok_bind]
    dsimp only
    rw [if_neg (by simp [tokItem]), if_neg (by simp [tokItem])]
    rw [Tok.value, Tok.block, Option.getD_some]
    obtain ⟨x, hx⟩ := name_compares (k := str "players") p1
    rw [hx]
    cases x with
    | false =>
      obtain ⟨k, k1, k2, k3, k4⟩ := C07_skip_partial (max := 64) (fuel := c.fuel) (g := n1) hv.2.2.2.1 (lead := w2) (tail := tail)
        (r := lead' ++ (rest.text ++ 125 :: r)) (e := false) (ls := [true]) hv.2.2.1 rfl ht (by simp) (by simp; omega) (by omega)
      dsimp only
      rw [k1, Res.ok_bind]
      obtain ⟨⟨ks, ke, kl, kg⟩, ki, kb⟩ := k
      dsimp only at k2 k3 k4 ⊢
      subst k2 k3
      have : ke = true := by simpa [expectProperty, topObject] using k4
      subst this
      exact ih b1 l1 kg got
    | true =>
      dsimp only
      obtain ⟨n2, b2, g2, l2, p2, q2⟩ := getTok_first hc hv.2.2.2.1 hs.2.1 hv.2.2.1 (e := false) (ls := [true]) rfl ht (by simp) (by simp) l1 (by omega) n1
      rw [g2, Res.ok_bind]
      dsimp only
      cases v with
      | atom a => exact ⟨none, by cases a <;> simp [firstTok, Atom.tok, tokItem]⟩
      | obj w ms => exact ⟨none, by simp [firstTok, tokItem]⟩
      | arr w es =>
        rw [if_neg (by simp [firstTok, tokItem])]
        simp only [Value.Ok] at hv
        simp only [ShortV] at hs
        simp only [firstPos] at q2
        simp only [firstPos, Tok.block, Option.getD_some]
        obtain ⟨st3, it3, b3, g3, l3, s3, _⟩ := getTok_elems hc hv.2.2.2.1.2 hs.2.1 hv.2.2.2.1.1 ht l2 (by omega) n2
        rw [g3, Res.ok_bind]
        dsimp only
        by_cases h3 : it3 = .string
        · rw [if_neg (by simp [h3]), Tok.value, Tok.block, Option.getD_some]
          obtain ⟨x3, hx3, lead3, es3, n3, hl3, ho3, hs3, rfl, q3⟩ := s3 h3
          rw [hx3, Res.ok_bind]
          obtain ⟨st4, it4, b4, g4, l4, s4, _⟩ := getTok_elems hc ho3 hs3 hl3 ht l3 (by omega) n3
          rw [g4, Res.ok_bind]
          dsimp only
          by_cases h4 : it4 = .string
          · rw [if_neg (by simp [h4]), Tok.value, Tok.block, Option.getD_some]
            obtain ⟨x4, hx4, lead4, es4, n4, hl4, ho4, hs4, rfl, q4⟩ := s4 h4
            rw [hx4, Res.ok_bind]
            obtain ⟨st5, it5, b5, g5, l5, _, s5⟩ := getTok_elems hc ho4 hs4 hl4 ht l4 (by omega) n4
            rw [g5, Res.ok_bind]
            dsimp only
            by_cases h5 : it5 = .endArray
            · rw [if_neg (by simp [h5])]
              obtain ⟨n5, rfl⟩ := s5 h5
              exact ih b5 l5 n5 _
            · exact ⟨none, by rw [if_pos h5]⟩
          · exact ⟨none, by rw [if_pos h4]⟩
        · exact ⟨none, by rw [if_pos h3]⟩

theorem fromText_any (s : List Byte) : ∃ x, fromText s = some x := by
  have h : ∀ b : String, ∃ x, areEqualC (mem s) (mem (str b)) = some x := fun b => by
    unfold areEqualC mem
    rw [are_equal_correct true _ _ _ (by simp) (by simp)]
    exact ⟨_, rfl⟩
  obtain ⟨x1, h1⟩ := h "external"
  obtain ⟨x2, h2⟩ := h "slow_engine"
  obtain ⟨x3, h3⟩ := h "fast_engine"
  unfold fromText
  rw [h1, h2, h3]
  cases x1 <;> cases x2 <;> cases x3 <;> exact ⟨_, rfl⟩

theorem firstTok_object {v : Value} (h : tokItem (firstTok v) = .beginObject) : ∃ w ms, v = .obj w ms := by
  cases v with
  | atom a => cases a <;> simp [firstTok, Atom.tok, tokItem] at h
  | arr => simp [firstTok, tokItem] at h
  | obj w ms => exact ⟨w, ms, rfl⟩

/-- A body the server may get: any JSON value, but not a bare number, followed by anything. -/
structure BodyOk (body : List Byte) : Prop where
  ex : ∃ lead v r, body = lead ++ (Value.text v ++ r) ∧ Ws lead ∧ v.Ok ∧ ShortV v ∧ v.depth ≤ 64 ∧ ∀ n, v ≠ .atom (.num n)

theorem playersBody_any {c : Ctx} (hc : CtxOk c) {body : List Byte} (hb : BodyOk body) (after : List Byte) (hf : (body ++ after).length + 27 ≤ c.fuel) :
    ∃ x, playersBody c (body ++ after) = .ok x := by
  obtain ⟨lead, v, r, rfl, hl, hv, hs, hd, hn⟩ := hb.ex
  have e : lead ++ (v.text ++ r) ++ after = lead ++ (v.text ++ ([] ++ (r ++ after))) := by simp
  rw [e] at hf ⊢
  obtain ⟨n, b, h1, h2, _, h4⟩ := getTok_first hc hv hs hl (e := false) (ls := []) rfl (.inl ⟨rfl, rfl⟩) (by simp) (fun _ => hn) hc.token hf 0
  unfold playersBody
  dsimp only
  have h1' : getTok c { s := { rest := lead ++ (v.text ++ ([] ++ (r ++ after))) } } c.token = _ := h1
  rw [h1', Res.ok_bind]
  dsimp only
  by_cases ho : tokItem (firstTok v) = .beginObject
  · rw [if_neg (by simp [ho])]
    obtain ⟨w, ms, rfl⟩ := firstTok_object ho
    simp only [Value.Ok] at hv
    simp only [ShortV] at hs
    simp only [Value.depth] at hd
    simp only [firstPos] at h4
    simp only [firstPos, Tok.block, Option.getD_some]
    obtain ⟨res, hres⟩ := playersLoop_any hc ms hv.2 hs (by omega) w hv.1 ([] ++ (r ++ after)) b h2 (by omega) n c.fuel (by omega) none
    rw [hres, Res.ok_bind]
    cases res with
    | none => exact ⟨_, rfl⟩
    | some res =>
      cases res with
      | none => exact ⟨_, rfl⟩
      | some p =>
        obtain ⟨x1, e1⟩ := fromText_any p.1
        obtain ⟨x2, e2⟩ := fromText_any p.2
        dsimp only
        rw [e1, e2]
        cases x1 <;> cases x2 <;> exact ⟨_, rfl⟩
  · exact ⟨_, by rw [if_pos ho]⟩

/-- The next member of an object: 400, or the reader is before its value. -/
theorem expectName_any {c : Ctx} (hc : CtxOk c) {ms : Mems} (hv : ms.Ok) (hs : ShortM ms) {lead : List Byte} (hl : Ws lead) (r k : List Byte)
    {buf : List Byte} (hb : buf.length = 1041) (hf : (lead ++ (ms.text ++ 125 :: r)).length + 27 ≤ c.fuel) (g : Nat) (it : Json.Item) :
    ∃ x, expectName c k ⟨⟨In.ofList (lead ++ (ms.text ++ 125 :: r)), true, [true], g⟩, it, some buf⟩ = .ok x ∧
      ∀ t ∈ x, ∃ w2 v tail lead' rest n b it', Ws w2 ∧ v.Ok ∧ ShortV v ∧ Ws lead' ∧ Tail [true] tail (lead' ++ (Mems.text rest ++ 125 :: r)) ∧
        rest.Ok ∧ ShortM rest ∧ b.length = 1041 ∧
        t = ⟨⟨In.ofList (w2 ++ (v.text ++ (tail ++ (lead' ++ (Mems.text rest ++ 125 :: r))))), false, [true], n⟩, it', some b⟩ ∧
        (w2 ++ (v.text ++ (tail ++ (lead' ++ (Mems.text rest ++ 125 :: r))))).length < (lead ++ (ms.text ++ 125 :: r)).length := by
  cases ms with
  | nil =>
    have s1 := step_endObject (max := 64) (tail := []) (r := r) (ls := []) hl (.inl ⟨rfl, rfl⟩)
    simp only [Mems.text, List.nil_append] at hf ⊢
    obtain ⟨n1, b1, g1, _, _⟩ := getTok_ok hc.atof s1 hb (by simp [tokChars]) (by simpa using hf) g
    rw [List.nil_append] at g1
    refine ⟨none, ?_, by simp⟩
    unfold expectName
    simp only [Tok.block, Option.getD_some]
    rw [g1, Res.ok_bind]
    simp [tokItem]
  | cons name w1 w2 v trail lead2 rest =>
    obtain ⟨tail, lead', hl', ht, hp⟩ := member_ok hv hl r
    simp only [Mems.Ok] at hv
    simp only [ShortM] at hs
    obtain ⟨n1, b1, g1, l1, p1⟩ := getTok_ok hc.atof hp hb (by simp [tokChars]; omega) hf g
    obtain ⟨x, hx⟩ := name_compares (k := k) p1
    unfold expectName
    simp only [Tok.block, Option.getD_some]
    rw [g1, Res.ok_bind]
    dsimp only
    rw [if_neg (by simp [tokItem]), Tok.value, Tok.block, Option.getD_some, hx]
    cases x with
    | false => exact ⟨none, rfl, by simp⟩
    | true =>
      refine ⟨_, rfl, ?_⟩
      intro t ht'
      simp only [Option.mem_def, Option.some.injEq] at ht'
      subst ht'
      exact ⟨w2, v, tail, lead', rest, n1, b1, _, hv.2.2.1, hv.2.2.2.1, hs.2.1, hl', ht, hv.2.2.2.2.2.2, hs.2.2, l1, rfl, hp.1⟩

/-- Its value: 400, or the reader is after it. -/
theorem expectCell_any {c : Ctx} (hc : CtxOk c) {v : Value} (hv : v.Ok) (hs : ShortV v) {w2 tail R : List Byte} (hl : Ws w2) (ht : Tail [true] tail R)
    {buf : List Byte} (hb : buf.length = 1041) (hf : (w2 ++ (v.text ++ (tail ++ R))).length + 27 ≤ c.fuel) (g : Nat) (it : Json.Item) :
    ∃ x, expectCell c ⟨⟨In.ofList (w2 ++ (v.text ++ (tail ++ R))), false, [true], g⟩, it, some buf⟩ = .ok x ∧
      ∀ t ∈ x, ∃ n b it', b.length = 1041 ∧ t.1 = ⟨⟨In.ofList R, true, [true], n⟩, it', some b⟩ ∧
        R.length < (w2 ++ (v.text ++ (tail ++ R))).length := by
  obtain ⟨n, b, h1, h2, h3, h4⟩ := getTok_first hc hv hs hl (e := false) (ls := [true]) rfl ht (by simp) (by simp) hb hf g
  unfold expectCell
  simp only [Tok.block, Option.getD_some]
  rw [h1, Res.ok_bind]
  dsimp only
  by_cases hn : tokItem (firstTok v) = .number
  · rw [if_neg (by simp [hn])]
    cases v with
    | arr => simp [firstTok, tokItem] at hn
    | obj => simp [firstTok, tokItem] at hn
    | atom a =>
      split
      · exact ⟨none, rfl, by simp⟩
      · refine ⟨_, rfl, ?_⟩
        intro t ht'
        simp only [Option.mem_def, Option.some.injEq] at ht'
        subst ht'
        exact ⟨n, b, _, h2, rfl, h4⟩
  · exact ⟨none, by rw [if_pos hn], by simp⟩

theorem moveBody_any {c : Ctx} (hc : CtxOk c) {body : List Byte} (hb : BodyOk body) (after : List Byte) (hf : (body ++ after).length + 27 ≤ c.fuel) :
    ∃ x, moveBody c (body ++ after) = .ok x := by
  obtain ⟨lead, v, r, rfl, hl, hv, hs, hd, hn⟩ := hb.ex
  have e : lead ++ (v.text ++ r) ++ after = lead ++ (v.text ++ ([] ++ (r ++ after))) := by simp
  rw [e] at hf ⊢
  obtain ⟨n, b, h1, h2, _, h4⟩ := getTok_first hc hv hs hl (e := false) (ls := []) rfl (.inl ⟨rfl, rfl⟩) (by simp) (fun _ => hn) hc.token hf 0
  unfold moveBody
  have h1' : getTok c { s := { rest := lead ++ (v.text ++ ([] ++ (r ++ after))) } } c.token = _ := h1
  rw [h1', Res.ok_bind]
  dsimp only
  by_cases ho : tokItem (firstTok v) = .beginObject
  · rw [if_neg (by simp [ho])]
    obtain ⟨w, ms, rfl⟩ := firstTok_object ho
    simp only [Value.Ok] at hv
    simp only [ShortV] at hs
    simp only [firstPos] at h4 ⊢
    obtain ⟨x1, e1, f1⟩ := expectName_any hc hv.2 hs hv.1 ([] ++ (r ++ after)) (str "row") h2 (by omega) n (tokItem (firstTok (.obj w ms)))
    rw [e1, Res.ok_bind]
    cases x1 with
    | none => exact ⟨_, rfl⟩
    | some t1 =>
      obtain ⟨w2, v1, tail1, lead1, rest1, n1, b1, i1, a1, a2, a3, a4, a5, a6, a7, a8, rfl, a9⟩ := f1 t1 rfl
      dsimp only
      obtain ⟨x2, e2, f2⟩ := expectCell_any hc a2 a3 a1 a5 a8 (by omega) n1 i1
      rw [e2, Res.ok_bind]
      cases x2 with
      | none => exact ⟨_, rfl⟩
      | some t2 =>
        obtain ⟨n2, b2, i2, d1, d2, d3⟩ := f2 t2 rfl
        obtain ⟨t2, k2⟩ := t2
        dsimp only at d2 ⊢
        subst d2
        obtain ⟨x3, e3, f3⟩ := expectName_any hc a6 a7 a4 ([] ++ (r ++ after)) (str "col") d1 (by omega) n2 i2
        rw [e3, Res.ok_bind]
        cases x3 with
        | none => exact ⟨_, rfl⟩
        | some t3 =>
          obtain ⟨w3, v3, tail3, lead3, rest3, n3, b3, i3, c1, c2, c3, c4, c5, c6, c7, c8, rfl, c9⟩ := f3 t3 rfl
          dsimp only
          obtain ⟨x4, e4, f4⟩ := expectCell_any hc c2 c3 c1 c5 c8 (by omega) n3 i3
          rw [e4, Res.ok_bind]
          cases x4 with
          | none => exact ⟨_, rfl⟩
          | some t4 => exact ⟨_, rfl⟩
  · exact ⟨_, by rw [if_pos ho]⟩

end Bodies

/-! ## Replies -/

/-- One complete response is sent, if reading went well. -/
def Replies {S : Type} (good : Bool) (x : DoneOf S) (sd : Bool) : Prop :=
  ∃ srv' r, x = .ok (srv', .sent (if good then r.text else []) sd) ∧ Http.Response.Ok r ∧ Complete r.text

theorem replies_refuse {S : Type} {c : Ctx} (hc : CtxOk c) (srv : S) (n : Nat) {status reason : String} (body : String)
    (h : (n, reason) ∈ refusals) (hn : str status = dec n) (hb : (str body).length ≤ 512) (s : In) :
    Replies s.good (.ok (srv, refuse c s status reason body)) false := by
  obtain ⟨r, _, h2, h3, h4⟩ := refuse_any hc.room body h hn hb s
  exact ⟨srv, r, by rw [h4], h2, h3⟩

theorem replies_bad {S : Type} {c : Ctx} (hc : CtxOk c) (srv : S) (body : String) (hb : (str body).length ≤ 512) (s : In) :
    Replies s.good (.ok (srv, bad c s body)) false :=
  replies_refuse hc srv 400 body (by decide) (by decide +kernel) hb s

theorem replies_succeed {c : Ctx} (hc : CtxOk c) (srv : Server) {a : Resp} (hs : Small a) (s : In) :
    Replies s.good (succeed c srv s a) false := by
  obtain ⟨r, _, h2, h3, h4⟩ := succeed_any hc.room hs srv s
  exact ⟨srv, r, h4, h2, h3⟩

theorem post_is {m : List Byte} (h0 : (0 : Byte) ∉ m) (hl : m.length ≤ 32) :
    areEqualI (mem m) (mem (str "POST")) = some (decide (m.map lower = str "post")) := by
  rw [Endpoint.equal_i h0 (by decide) (by unfold sizeMax; omega) (by decide), show (str "POST").map lower = str "post" by decide]

theorem get_is {m : List Byte} (h0 : (0 : Byte) ∉ m) (hl : m.length ≤ 32) :
    areEqualI (mem m) (mem (str "GET")) = some (decide (m.map lower = str "get")) := by
  rw [Endpoint.equal_i h0 (by decide) (by unfold sizeMax; omega) (by decide), show (str "GET").map lower = str "get" by decide]

theorem replies_post {S : Type} {c : Ctx} (hc : CtxOk c) (srv : S) (st : Rd) {m : List Byte} (h0 : (0 : Byte) ∉ m) (hl : m.length ≤ 32) {k : DoneOf S}
    (hk : m.map lower = str "post" → Replies st.s.good k false) : Replies st.s.good (whenPost c srv st m k) false := by
  unfold whenPost
  rw [post_is h0 hl]
  by_cases h : m.map lower = str "post"
  · simp only [h, decide_true]; exact hk h
  · simp only [h, decide_false]
    exact replies_refuse hc srv 405 _ (by decide) (by decide +kernel) (by decide +kernel) _

theorem replies_get {S : Type} {c : Ctx} (hc : CtxOk c) (srv : S) (st : Rd) {m : List Byte} (h0 : (0 : Byte) ∉ m) (hl : m.length ≤ 32) {k : DoneOf S}
    (hk : Replies st.s.good k false) : Replies st.s.good (whenGet c srv st m k) false := by
  unfold whenGet
  rw [get_is h0 hl]
  by_cases h : m.map lower = str "get"
  · simp only [h, decide_true]; exact hk
  · simp only [h, decide_false]
    exact replies_refuse hc srv 405 _ (by decide) (by decide +kernel) (by decide +kernel) _

theorem replies_claim {t : Trace} {srv : Server} (hi : Inv srv t) {c : Ctx} (hc : CtxOk c) (st : Rd) {m : List Byte} (h0 : (0 : Byte) ∉ m)
    (hl : m.length ≤ 32) (g i : Nat) : Replies st.s.good (claimPlayer c srv st m g i) false := by
  unfold claimPlayer
  refine replies_post hc srv st h0 hl fun _ => ?_
  have hans := GameServer.answer_claim hi (BitVec.ofNat 32 g) i
  generalize GameServer.claim srv (BitVec.ofNat 32 g) i = res at hans
  obtain ⟨srv', a⟩ := res
  dsimp only at hans
  rcases small_of_answer hi.reach hans.2 (by simp) with hs | ⟨n, rfl⟩
  · cases a <;> first | exact hs.elim | exact replies_succeed hc srv' hs _
  · have hn : n = 400 ∨ n = 403 ∨ n = 404 := by cases hans.2 <;> simp
    rcases hn with rfl | rfl | rfl
    · exact replies_bad hc srv' badResource (by decide +kernel) _
    · exact replies_refuse hc srv' 403 _ (by decide) (by decide +kernel) (by decide +kernel) _
    · exact replies_refuse hc srv' 404 _ (by decide) (by decide +kernel) (by decide +kernel) _

theorem replies_moves {t : Trace} {srv : Server} (hi : Inv srv t) {c : Ctx} (hc : CtxOk c) (st : Rd) {m : List Byte} (h0 : (0 : Byte) ∉ m)
    (hl : m.length ≤ 32) (g n : Nat) : Replies st.s.good (getMoves c srv st m g n) false := by
  unfold getMoves
  refine replies_get hc srv st h0 hl ?_
  have hans := GameServer.answer_moves hi (BitVec.ofNat 32 g) n
  generalize GameServer.moves srv (BitVec.ofNat 32 g) n = res at hans
  obtain ⟨srv', a⟩ := res
  dsimp only at hans
  rcases small_of_answer hi.reach hans.2 (by simp) with hs | ⟨n, rfl⟩
  · cases a <;> first | exact hs.elim | exact replies_succeed hc srv' hs _
  · have hn : n = 400 ∨ n = 404 := by cases hans.2 <;> simp
    rcases hn with rfl | rfl
    · exact replies_bad hc srv' badResource (by decide +kernel) _
    · exact replies_refuse hc srv' 404 _ (by decide) (by decide +kernel) (by decide +kernel) _

/-- What follows the headers, when the request says that it is JSON. -/
structure Ready (c : Ctx) (st : Rd) (body : List Byte) : Prop where
  ex : ∃ hs g, st = ⟨In.ofList (headersText hs ++ (crlf ++ body)), .headerName, g⟩ ∧ HeadersFit hs ∧ (∃ h ∈ hs, IsType h) ∧
    (headersText hs).length + 4 ≤ c.fuel ∧ (SendsJson hs → ∃ b after, body = b ++ after ∧ BodyOk b ∧ body.length + 27 ≤ c.fuel)

theorem judge_true {hs : List Header} (h : judge true hs = .json) : hs.filter (fun h => decide (IsType h)) = [] := by
  induction hs with
  | nil => rfl
  | cons x hs ih =>
    rw [judge] at h
    by_cases hx : IsType x
    · simp [hx] at h
    · simp only [hx, if_false] at h
      simp [hx, ih h]

theorem judge_is_json {hs : List Header} (h : judge false hs = .json) : SendsJson hs := by
  induction hs with
  | nil => simp [judge] at h
  | cons x hs ih =>
    rw [judge] at h
    by_cases hx : IsType x
    · by_cases hj : SaysJson x
      · simp only [hx, hj, if_true, Bool.false_eq_true, if_false] at h
        exact ⟨x, by simp [hx, judge_true h], hj⟩
      · simp [hx, hj] at h
    · simp only [hx, if_false] at h
      obtain ⟨y, h1, h2⟩ := ih h
      exact ⟨y, by simp [hx, h1], h2⟩

theorem judge_missing {has : Bool} {hs : List Header} (h : judge has hs = .missing) : ∀ x ∈ hs, ¬ IsType x := by
  induction hs generalizing has with
  | nil => simp
  | cons x hs ih =>
    rw [judge] at h
    by_cases hx : IsType x
    · cases has
      · by_cases hj : SaysJson x
        · simp only [hx, hj, if_true, Bool.false_eq_true, if_false] at h
          clear ih
          exfalso
          revert h
          induction hs with
          | nil => simp [judge]
          | cons y hs ih => rw [judge]; split <;> simp_all
        · simp [hx, hj] at h
      · simp [hx] at h
    · simp only [hx, if_false] at h
      intro y hy
      rcases List.mem_cons.1 hy with rfl | hy
      · exact hx
      · exact ih h y hy

theorem replies_json {S : Type} {c : Ctx} (hc : CtxOk c) (srv : S) {st : Rd} {body : List Byte} (hr : Ready c st body) {k : Rd → DoneOf S}
    (hk : ∀ b after, body = b ++ after → BodyOk b → body.length + 27 ≤ c.fuel → Replies true (k ⟨In.ofList body, .body, 0⟩) false) :
    Replies true (whenJson c srv st k) false := by
  obtain ⟨hs, g, rfl, hfit, ht, hfu, hb⟩ := hr.ex
  have hl := headers_length hs
  obtain ⟨v, h1, h2⟩ := headerLoop_judge (fuel := c.fuel) hs hfit body false c.header hc.header g c.fuel (by omega) hfu
  unfold whenJson
  rw [h1, Res.ok_bind]
  cases hj : judge false hs with
  | json =>
    rw [hj] at h2
    simp only [Judged.Ends] at h2
    subst h2
    obtain ⟨b, after, e, h3, h4⟩ := hb (judge_is_json hj)
    exact hk b after e h3 h4
  | missing => obtain ⟨h, hm, ht⟩ := ht; exact absurd ht (judge_missing hj h hm)
  | wrong =>
    rw [hj] at h2
    obtain ⟨st, rfl, hg⟩ := h2
    have := replies_bad hc srv "'application/json' is the only supported Content-Type." (by decide +kernel) st.s
    rwa [hg] at this
  | twice =>
    rw [hj] at h2
    obtain ⟨st, rfl, hg⟩ := h2
    have := replies_bad hc srv "The Content-Type header was supplied more than once." (by decide +kernel) st.s
    rwa [hg] at this

theorem replies_create {t : Trace} {srv : Server} (hi : Inv srv t) {c : Ctx} (hc : CtxOk c) (d : Draw) {st : Rd} (hg : st.s.good = true)
    {m body : List Byte} (h0 : (0 : Byte) ∉ m) (hl : m.length ≤ 32) (hr : m.map lower = str "post" → Ready c st body) :
    Replies true (createGame c srv d st m) false := by
  unfold createGame
  rw [← hg]
  refine replies_post hc srv st h0 hl fun hm => ?_
  rw [hg]
  refine replies_json hc srv (hr hm) fun b after e hb hf => ?_
  obtain ⟨x, hx⟩ := playersBody_any hc hb after (by rw [← e]; exact hf)
  rw [← e] at hx
  have e2 : (In.ofList body).rest = body := rfl
  dsimp only
  rw [e2, hx, Res.ok_bind]
  cases x with
  | error msg => exact replies_bad hc srv msg (playersBody_error hx) (In.ofList body)
  | ok v =>
    obtain ⟨tx, to_⟩ := v
    dsimp only
    have hans := GameServer.answer_create hi tx to_ d.game d.x d.o
    generalize GameServer.create srv tx to_ d.game d.x d.o = res at hans
    obtain ⟨srv', a⟩ := res
    dsimp only at hans
    rcases small_of_answer hi.reach hans.2 (by simp) with hs | ⟨n, rfl⟩
    · cases a <;> first | exact hs.elim | exact replies_succeed hc srv' hs (In.ofList body)
    · exact replies_refuse hc srv' 503 _ (by decide) (by decide +kernel) (by decide +kernel) (In.ofList body)

theorem replies_move {t : Trace} {srv : Server} (hi : Inv srv t) {c : Ctx} (hc : CtxOk c) {st : Rd} (hg : st.s.good = true)
    {m body : List Byte} (h0 : (0 : Byte) ∉ m) (hl : m.length ≤ 32) (hr : m.map lower = str "post" → Ready c st body) (g p : Nat) (w : List Byte) :
    Replies true (acceptMove c srv st m g p w) false := by
  unfold acceptMove
  have hw : ∃ x, areEqualI (mem w) (mem (str "moves")) = some x := by
    unfold areEqualI mem
    rw [are_equal_correct false _ _ _ (by simp) (by simp)]
    exact ⟨_, rfl⟩
  obtain ⟨x, hx⟩ := hw
  rw [hx]
  rw [← hg]
  cases x with
  | false => exact replies_bad hc srv badResource (by decide +kernel) _
  | true =>
    refine replies_post hc srv st h0 hl fun hm => ?_
    rw [hg]
    refine replies_json hc srv (hr hm) fun b after e hb hf => ?_
    split
    · exact replies_bad hc srv badResource (by decide +kernel) (In.ofList body)
    rename_i h0
    obtain ⟨x, hx⟩ := moveBody_any hc hb after (by rw [← e]; exact hf)
    rw [← e] at hx
    have e2 : (In.ofList body).rest = body := rfl
    dsimp only
    rw [e2, hx, Res.ok_bind]
    cases x with
    | none => exact replies_bad hc srv _ (by decide +kernel) (In.ofList body)
    | some mv =>
      dsimp only
      obtain ⟨srv', a, hmv, hinv, hans⟩ := GameServer.answer_move hi (BitVec.ofNat 32 g) (BitVec.ofNat 32 p) mv
      have hob := moveBody_board hc.cell hx
      rw [hmv]
      rcases small_of_answer hi.reach hans (by simp) with hs | ⟨n, rfl⟩
      · cases a <;> first | exact hs.elim | exact replies_succeed hc srv' hs (In.ofList body)
      · have hn : n = 403 ∨ n = 404 := by
          cases hans with
          | moveBad h =>
            exfalso
            rcases h with h | h | h
            · exact h0 (.inl h)
            · exact h0 (.inr h)
            · exact h hob
          | moveUnknown => simp
          | moveRefused => simp
        rcases hn with rfl | rfl
        · exact replies_refuse hc srv' 403 _ (by decide) (by decide +kernel) (by decide +kernel) (In.ofList body)
        · exact replies_refuse hc srv' 404 _ (by decide) (by decide +kernel) (by split <;> decide +kernel) (In.ofList body)

/-- Requests outside `/games`. -/
theorem replies_other {c : Ctx} (hc : CtxOk c) (srv : Server) (d : Draw) (st : Rd) {m r : List Byte} (h0 : (0 : Byte) ∉ m) (hl : m.length ≤ 32)
    (hr0 : (0 : Byte) ∉ r) (hrl : r.length ≤ 2048) (hn : ¬ Endpoint.startsWithI (str "/games") r) :
    Replies st.s.good (gameHandler c srv d st m r) (decide (m.map lower = str "post" ∧ r.map lower = str "/shutdown")) := by
  have e1 : areEqualIN (mem r) (mem (str "/games")) 6 = some false := by
    have := buf_starts_i (m := r ++ [0]) (w := r) (b := str "/games") (cstr_str _ hr0) (by simp) (by decide)
    have e : (str "/games").length = 6 := by decide
    rw [e] at this
    unfold mem at this ⊢
    rw [this]
    simp only [Option.some.injEq, decide_eq_false_iff_not]
    intro h
    apply hn
    unfold Endpoint.startsWithI
    rw [← h]
    exact (List.take_prefix 6 r).map lower
  unfold gameHandler
  rw [e1]
  dsimp only
  rw [Endpoint.equal_i hr0 (by decide) (by unfold sizeMax; omega) (by decide), show (str "/shutdown").map lower = str "/shutdown" by decide]
  by_cases hs : r.map lower = str "/shutdown"
  · simp only [hs, decide_true, and_true]
    unfold processShutdown whenPost
    rw [post_is h0 hl]
    by_cases hm : m.map lower = str "post"
    · simp only [hm, decide_true]
      have hf := fine_plain (str "200") (str "OK") (by decide)
      have hroom := hc.room
      rw [simpleCalls_eq, answer_response hf _ (by decide +kernel) _ (by simp) st.s c.room (by
        have : (str "Server is shuting down...").length = 25 := by decide +kernel
        omega) true]
      exact ⟨srv, _, rfl, mkResponse_ok hf _, mkResponse_complete (mkResponse_ok hf _)⟩
    · simp only [hm, decide_false]
      exact replies_refuse hc srv 405 _ (by decide) (by decide +kernel) (by decide +kernel) _
  · simp only [hs, decide_false, and_false]
    exact replies_refuse hc srv 404 _ (by decide) (by decide +kernel) (by decide +kernel) _

/-! ## C66: requests that can be read are answered -/

/-- A resource behind which there is a service, or which is not below `/games`. -/
inductive Served (r : List Byte) : Prop
  | other : ¬ Endpoint.startsWithI (str "/games") r → Served r
  | create : r.map lower = str "/games" → Served r
  | claim {pre : List Byte} {g i : Nat} : pre.map lower = str "/games" → r = pre ++ (str "/" ++ (dec g ++ (str "/players/" ++ dec i))) →
      g < 2 ^ 32 → i < 2 ^ 32 → Served r
  | move {pre : List Byte} {g p : Nat} : pre.map lower = str "/games" →
      r = pre ++ (str "/" ++ (dec g ++ (str "/players/" ++ (dec p ++ str "/moves")))) → g < 2 ^ 32 → p < 2 ^ 32 → Served r
  | moves {pre : List Byte} {g n : Nat} : pre.map lower = str "/games" → r = pre ++ (str "/" ++ (dec g ++ (str "/moves?since=" ++ dec n))) →
      g < 2 ^ 32 → n < 2 ^ 32 → Served r

/-- A resource for which a body is read. -/
inductive TakesBody (r : List Byte) : Prop
  | create : r.map lower = str "/games" → TakesBody r
  | move {pre : List Byte} {g p : Nat} : pre.map lower = str "/games" →
      r = pre ++ (str "/" ++ (dec g ++ (str "/players/" ++ (dec p ++ str "/moves")))) → TakesBody r

/-- A request line the server can hold, and the rest of what the server runs with. -/
structure LineFits (cfg : Config) (c : Ctx) (q : Request) (rest mm mp mc : List Byte) : Prop where
  ok : q.LineOk
  method : q.method.length ≤ 32
  resource : cfg.rootDir.length + q.resource.length ≤ 2047
  protocol : (protocolText q.maj q.min).length ≤ 16
  mm : mm.length = 33
  mp : mp.length = 2049
  mc : mc.length = 17
  fuel : (q.line ++ rest).length + 32 ≤ c.fuel

/-- Headers with a Content-Type; and if it is JSON then the body is a JSON value (followed by anything). -/
structure RestOk (rest : List Byte) : Prop where
  ex : ∃ hs body after, rest = headersText hs ++ (crlf ++ (body ++ after)) ∧ HeadersFit hs ∧ (∃ h ∈ hs, IsType h) ∧ (SendsJson hs → BodyOk body)

theorem ready_of {c : Ctx} {rest : List Byte} (h : RestOk rest) (hf : rest.length + 30 ≤ c.fuel) (g : Nat) :
    ∃ body, Ready c ⟨In.ofList rest, .headerName, g⟩ body := by
  obtain ⟨hs, body, after, rfl, h1, h2, h3⟩ := h.ex
  simp only [List.length_append] at hf
  exact ⟨body ++ after, hs, g, rfl, h1, h2, by omega, fun hj => ⟨body, after, rfl, h3 hj, by simp only [List.length_append]; omega⟩⟩

theorem games_handler {c : Ctx} (srv : Server) (d : Draw) (st : Rd) (m : List Byte) {r pre tail : List Byte} (hpre : pre.map lower = str "/games")
    (hr : r = pre ++ tail) (h0 : (0 : Byte) ∉ r) (hl : r.length ≤ 2048) :
    gameHandler c srv d st m r = if tail = [] then createGame c srv d st m else
      match route tail with
      | .move g p w => acceptMove c srv st m g p w
      | .claim g i => claimPlayer c srv st m g i
      | .moves g n => getMoves c srv st m g n
      | .unknown => .ok (srv, .sent [] false) := by
  subst hr
  have hpz := games_prefix hpre h0
  unfold gameHandler
  rw [hpz.1]
  dsimp only
  unfold processGames
  rw [hpz.2, tail_is (fun h => h0 (by simp only [List.mem_append]; exact .inr h)) (by simp only [List.length_append] at hl; omega)]
  by_cases h : tail = []
  · simp only [h, decide_true, if_true]
  · simp only [h, decide_false, if_false]
    cases route tail <;> rfl

/-- The handler, for a resource with a service. -/
theorem handler_answers {t : Trace} {srv : Server} (hi : Inv srv t) {c : Ctx} (hc : CtxOk c) (d : Draw) {rest m r : List Byte} (g0 : Nat)
    (h0 : (0 : Byte) ∉ m) (hl : m.length ≤ 32) (hr0 : (0 : Byte) ∉ r) (hrl : r.length ≤ 2048) (hf : rest.length + 30 ≤ c.fuel)
    (hs : Served r) (hb : m.map lower = str "post" → TakesBody r → RestOk rest) :
    ∃ sd, Replies true (gameHandler c srv d ⟨In.ofList rest, .headerName, g0⟩ m r) sd ∧
      (sd = true → m.map lower = str "post" ∧ r.map lower = str "/shutdown") := by
  cases hs with
  | other hn => exact ⟨_, replies_other hc srv d ⟨In.ofList rest, .headerName, g0⟩ h0 hl hr0 hrl hn, fun h => of_decide_eq_true h⟩
  | create hp =>
    refine ⟨false, ?_, by simp⟩
    rw [games_handler srv d _ m (tail := []) hp (by simp) hr0 hrl, if_pos rfl]
    by_cases hm : m.map lower = str "post"
    · obtain ⟨body, hr⟩ := ready_of (hb hm (.create hp)) hf g0
      exact replies_create hi hc d rfl h0 hl (fun _ => hr)
    · exact replies_create (body := []) hi hc d rfl h0 hl (fun h => absurd h hm)
  | @claim pre g i hp hr hg hi' =>
    refine ⟨false, ?_, by simp⟩
    rw [games_handler srv d _ m hp hr hr0 hrl, if_neg (by simp [dec_spec]), route_claim _ _ hg hi']
    exact replies_claim hi hc ⟨In.ofList rest, .headerName, g0⟩ h0 hl g i
  | @move pre g p hp hr hg hp' =>
    refine ⟨false, ?_, by simp⟩
    rw [games_handler srv d _ m hp hr hr0 hrl, if_neg (by simp [dec_spec]), route_move _ _ hg hp']
    by_cases hm : m.map lower = str "post"
    · obtain ⟨body, hr⟩ := ready_of (hb hm (.move hp hr)) hf g0
      exact replies_move hi hc rfl h0 hl (fun _ => hr) g p _
    · exact replies_move (body := []) hi hc rfl h0 hl (fun h => absurd h hm) g p _
  | @moves pre g n hp hr hg hn =>
    refine ⟨false, ?_, by simp⟩
    rw [games_handler srv d _ m hp hr hr0 hrl, if_neg (by simp [dec_spec]), route_moves _ _ hg hn]
    exact replies_moves hi hc ⟨In.ofList rest, .headerName, g0⟩ h0 hl g n

theorem line_zero {q : Request} (hq : q.LineOk) : (0 : Byte) ∉ q.method ∧ (0 : Byte) ∉ q.resource := by
  constructor <;> intro hc
  · have := hq.method 0 hc; revert this; decide
  · have := hq.resource 0 hc; revert this; decide

/-- A request line that can be read, followed by anything: a file, or the handler. -/
theorem serve_line {S : Type} {cfg : Config} (hcfg : ConfigOk cfg) {stat : List Byte → Option Nat} {content : List Byte → List Byte} {c : Ctx}
    (he : Env stat content c.room) {q : Request} {rest mm mp mc : List Byte} (hf : LineFits cfg c q rest mm mp mc) (srv : S)
    (k : Rd → List Byte → List Byte → DoneOf S) :
    (∃ r : Http.Response, serveWith cfg stat content c mm mp mc false srv k (q.line ++ rest) = .ok (srv, .sent r.text false) ∧ r.Ok ∧ Complete r.text) ∨
    (¬ Endpoint.PrefixMatches cfg q.resource ∧ serveWith cfg stat content c mm mp mc false srv k (q.line ++ rest) =
      k ⟨In.ofList rest, .headerName, (protocolText q.maj q.min).length⟩ q.method q.resource) := by
  obtain ⟨hm0, hr0⟩ := line_zero hf.ok
  have h1 := hf.fuel
  have h2 := hf.method
  have h3 := hf.resource
  rw [List.length_append] at h1
  have hmt : Endpoint.Text q.method := ⟨hm0, by unfold sizeMax; omega⟩
  have hrt : Endpoint.Text q.resource := ⟨hr0, by unfold sizeMax; omega⟩
  obtain ⟨b, hb, hb2⟩ := Endpoint.is_file_request_correct cfg q.method q.resource hmt hrt hcfg.pfx
  have hline := read_line_rest cfg hcfg.root q hf.ok hf.method hf.resource hf.protocol rest mm mp mc hf.mm hf.mp hf.mc c.fuel (by omega)
  unfold serveWith
  rw [hline, Res.ok_bind]
  simp only [Bool.false_eq_true, if_false, hb]
  cases b with
  | false =>
    right
    refine ⟨fun h => absurd (hb2.2 (.inl h)) (by simp), rfl⟩
  | true =>
    left
    obtain ⟨r, sd, hex, hq, _, h⟩ := handled cfg stat content c.room he q.method q.resource hmt hrt
      ⟨by simp [hcfg.root, hr0], by simp only [List.length_append]; unfold sizeMax; omega⟩ hcfg.pfx
      ⟨In.ofList rest, .headerName, (protocolText q.maj q.min).length⟩
    unfold dispatch at h
    rw [hb] at h
    dsimp only at h ⊢
    have hcomp : Complete r.text := by cases hex <;> exact mkResponse_complete hq
    have hsd : sd = false := by
      cases hex with
      | rest h1 h2 => exact absurd (hb2.1 rfl) (by rintro (h | h); exacts [h1 h, h2 h])
      | _ => rfl
    subst hsd
    rw [h, Res.ok_bind]
    exact ⟨r, rfl, hq, hcomp⟩

/-- C66, in full: every request that the server can read is answered by one complete response. -/
def C66Full : Prop :=
  ∀ (cfg : Config) (stat : List Byte → Option Nat) (content : List Byte → List Byte) (c : Ctx) (q : Request) (after mm mp mc : List Byte)
    (srv : Server) (t : Trace) (d : Draw), ConfigOk cfg → CtxOk c → Env stat content c.room → Fits cfg c q after mm mp mc → Inv srv t →
    ∃ srv' out sd, serve cfg stat content c mm mp mc false srv d (q.text ++ after) = .ok (srv', .sent out sd) ∧ Complete out

/-- C66, the part that holds: for every state of the game, every request line that fits, and every resource with a service
or outside `/games`: one complete response is sent, whatever follows the line; only if the method is POST and the
resource takes a body, what follows must have a Content-Type and, if that is JSON, any JSON value as body.  The server is
told to shut down only by `POST /shutdown`.  Missing for `C66Full`: requests without Content-Type, resources without
service, and bodies that are not JSON. -/
theorem C66_answered_partial {cfg : Config} (hcfg : ConfigOk cfg) {stat : List Byte → Option Nat} {content : List Byte → List Byte} {c : Ctx}
    (hc : CtxOk c) (he : Env stat content c.room) {q : Request} {rest mm mp mc : List Byte} (hf : LineFits cfg c q rest mm mp mc)
    {srv : Server} {t : Trace} (hi : Inv srv t) (d : Draw) (hs : Served q.resource)
    (hb : q.method.map lower = str "post" → TakesBody q.resource → RestOk rest) :
    ∃ srv' out sd, serve cfg stat content c mm mp mc false srv d (q.line ++ rest) = .ok (srv', .sent out sd) ∧ Complete out ∧
      (sd = true → q.method.map lower = str "post" ∧ q.resource.map lower = str "/shutdown") := by
  rcases serve_line hcfg he hf srv (gameHandler c srv d) with ⟨r, h1, _, h3⟩ | ⟨_, h⟩
  · exact ⟨srv, r.text, false, h1, h3, by simp⟩
  · obtain ⟨hm0, hr0⟩ := line_zero hf.ok
    have h1 := hf.fuel
    have h3 := hf.resource
    rw [List.length_append] at h1
    obtain ⟨sd, ⟨srv', r, e, _, h5⟩, h6⟩ := handler_answers hi hc d (rest := rest) (protocolText q.maj q.min).length hm0 hf.method hr0 (by omega) (by omega) hs hb
    exact ⟨srv', r.text, sd, by rw [serve, h, e]; rfl, h5, h6⟩

theorem Fits.line {cfg : Config} {c : Ctx} {q : Request} {after mm mp mc : List Byte} (hf : Fits cfg c q after mm mp mc) :
    LineFits cfg c q (headersText q.headers ++ (crlf ++ (q.body ++ after))) mm mp mc ∧
      q.text ++ after = q.line ++ (headersText q.headers ++ (crlf ++ (q.body ++ after))) := by
  have e : q.text ++ after = q.line ++ (headersText q.headers ++ (crlf ++ (q.body ++ after))) := by simp [Request.text, Request.line]
  exact ⟨⟨hf.ok.line, hf.method, hf.resource, hf.protocol, hf.mm, hf.mp, hf.mc, by rw [← e]; exact hf.fuel⟩, e⟩

theorem judge_none {hs : List Header} (h : ∀ x ∈ hs, ¬ IsType x) : judge false hs = .missing := by
  have := judge_done (hs := hs) (List.filter_eq_nil_iff.2 fun x hx => by simpa using h x hx) false
  simpa using this

theorem whenJson_missing {S : Type} {c : Ctx} (hc : CtxOk c) {hs : List Header} (hfit : HeadersFit hs) (hj : ∀ x ∈ hs, ¬ IsType x) (r : List Byte)
    (hfu : (headersText hs).length + 4 ≤ c.fuel) (srv : S) (g : Nat) (k : Rd → DoneOf S) :
    whenJson c srv ⟨In.ofList (headersText hs ++ (crlf ++ r)), .headerName, g⟩ k = .ok (srv, .sent [] false) := by
  have hl := headers_length hs
  obtain ⟨v, h1, h2⟩ := headerLoop_judge (fuel := c.fuel) hs hfit r false c.header hc.header g c.fuel (by omega) hfu
  rw [judge_none hj] at h2
  simp only [Judged.Ends] at h2
  unfold whenJson
  rw [h1, Res.ok_bind, h2]

/-- C66 fails: a POST that takes a body but has no Content-Type gets no answer, and has no effect. -/
theorem C66_violated_no_type {cfg : Config} (hcfg : ConfigOk cfg) {stat : List Byte → Option Nat} {content : List Byte → List Byte} {c : Ctx}
    (hc : CtxOk c) {q : Request} {after mm mp mc : List Byte} (hf : Fits cfg c q after mm mp mc) (srv : Server) (d : Draw)
    (hm : q.method.map lower = str "post") (hr : q.resource.map lower = str "/games") (hn : ∀ h ∈ q.headers, ¬ IsType h) :
    serve cfg stat content c mm mp mc false srv d (q.text ++ after) = .ok (srv, .sent [] false) := by
  rw [serve_handler hcfg stat content hf (fun h => absurd (hr.symm.trans h.2) (by decide)) srv d]
  have h3 := hf.resource
  have h1 := hf.fuel
  rw [List.length_append, q.text_length] at h1
  rw [games_handler srv d _ _ (tail := []) hr (by simp) (resource_zero hf.ok) (by omega), if_pos rfl]
  unfold createGame whenPost
  rw [method_is hf.ok hf.method (m := "POST") hm (by decide) (by decide) (by decide)]
  dsimp only
  exact whenJson_missing hc hf.headers hn _ (by omega) srv _ _

/-- C66 fails: a resource that merely starts with `/games` gets no answer. -/
theorem C66_violated_no_service {cfg : Config} (hcfg : ConfigOk cfg) {stat : List Byte → Option Nat} {content : List Byte → List Byte} {c : Ctx}
    {q : Request} {after mm mp mc pre tail : List Byte} {x : Byte} (hf : Fits cfg c q after mm mp mc) (srv : Server) (d : Draw)
    (hp : pre.map lower = str "/games") (hr : q.resource = pre ++ x :: tail) (hx : x ≠ 47) :
    serve cfg stat content c mm mp mc false srv d (q.text ++ after) = .ok (srv, .sent [] false) := by
  rw [serve_handler hcfg stat content hf (by rw [hr]; exact fun h => not_favicon hp h.2) srv d]
  have h3 := hf.resource
  rw [games_handler srv d _ _ hp hr (resource_zero hf.ok) (by omega), if_neg (by simp)]
  have e : str "/" = [47] := by decide
  have e1 : scanLit [47] (x :: tail) = none := by simp [scanLit, Ne.symm hx]
  have : route (x :: tail) = .unknown := by
    unfold route scanMove scanMoves scanPlayers
    simp [e, e1]
  rw [this]

theorem not_complete_nil : ¬ Complete [] := by
  rintro ⟨q, _, h, _⟩
  have := congrArg List.length h
  simp [Http.Response.text, protocolText] at this

/-- The request of C64's example, without its Content-Type. -/
def demoNoType : Request := { demoCreate with headers := [(str "Host", str "x")] }

theorem demo_fits {q : Request} (hq : q.Ok) (hh : HeadersFit q.headers) (hm : q.method.length ≤ 32)
    (hr : demoCfg.rootDir.length + q.resource.length ≤ 2047) (hp : (protocolText q.maj q.min).length ≤ 16)
    (hx : ¬ Endpoint.startsWithI (str "/f/") q.resource) (hf : (q.text ++ []).length + 32 ≤ 400) :
    Fits demoCfg demoCtx q [] (List.replicate 33 7) (List.replicate 2049 7) (List.replicate 17 7) := by
  refine ⟨hq, hh, hm, hr, hp, ?_, ?_, ?_, ?_, hf⟩
  · rintro ⟨p, hp, h⟩
    simp only [demoCfg, Option.some.injEq] at hp
    subst hp
    exact hx h
  · rw [List.length_replicate]
  · rw [List.length_replicate]
  · rw [List.length_replicate]

theorem demoNoType_fits : Fits demoCfg demoCtx demoNoType [] (List.replicate 33 7) (List.replicate 2049 7) (List.replicate 17 7) := by
  refine demo_fits ⟨by decide, by decide, by decide, by decide, by decide, by decide, by decide, ?_⟩ ?_ (by decide) (by decide) (by decide)
    (by decide +kernel) (by decide +kernel)
  · unfold HeaderOk; decide +kernel
  · unfold HeadersFit HeaderOk; decide +kernel

/-- So the full statement is false. -/
theorem C66_violated : ¬ C66Full := by
  intro h
  obtain ⟨srv', out, sd, h1, h2⟩ := h demoCfg (fun _ => none) (fun _ => []) demoCtx demoNoType [] (List.replicate 33 7) (List.replicate 2049 7)
    (List.replicate 17 7) {} [] ⟨3, 8, 7⟩ demoCfg_ok demoCtx_ok ⟨by simp, by decide, by simp⟩ demoNoType_fits GameServer.inv_init
  rw [C66_violated_no_type demoCfg_ok demoCtx_ok demoNoType_fits {} ⟨3, 8, 7⟩ (by decide) (by decide) (by unfold IsType; decide +kernel)] at h1
  simp only [Res.ok.injEq, Prod.mk.injEq, Outcome.sent.injEq] at h1
  rw [← h1.2.1] at h2
  exact not_complete_nil h2

/-! ## C67: requests that end or block the server -/

/-- C67, in full: whatever bytes arrive, the connection is served without undefined behaviour and without an exception,
and no loop goes on for ever. -/
def C67Full : Prop :=
  ∀ (cfg : Config) (stat : List Byte → Option Nat) (content : List Byte → List Byte) (c : Ctx) (bytes mm mp mc : List Byte)
    (srv : Server) (t : Trace) (d : Draw), ConfigOk cfg → CtxOk c → Env stat content c.room → mm.length = 33 → mp.length = 2049 → mc.length = 17 →
    bytes.length + 32 ≤ c.fuel → Inv srv t → ∃ srv' out sd, serve cfg stat content c mm mp mc false srv d bytes = .ok (srv', .sent out sd)

/-- Returned, with nothing or one complete response sent. -/
def Returned {S : Type} (x : DoneOf S) : Prop := ∃ srv' out sd, x = .ok (srv', .sent out sd) ∧ (out = [] ∨ Complete out)

theorem Replies.returned {S : Type} {g : Bool} {x : DoneOf S} {sd : Bool} (h : Replies g x sd) : Returned x := by
  obtain ⟨srv', r, h1, _, h3⟩ := h
  refine ⟨srv', _, sd, h1, ?_⟩
  cases g
  · exact .inl rfl
  · exact .inr h3

theorem handler_returns {t : Trace} {srv : Server} (hi : Inv srv t) {c : Ctx} (hc : CtxOk c) (d : Draw) (st : Rd) {m r : List Byte}
    (h0 : (0 : Byte) ∉ m) (hl : m.length ≤ 32) (hr0 : (0 : Byte) ∉ r) (hrl : r.length ≤ 2048)
    (hn : ¬ (m.map lower = str "post" ∧ Endpoint.startsWithI (str "/games") r)) : Returned (gameHandler c srv d st m r) := by
  by_cases hg : Endpoint.startsWithI (str "/games") r
  · have hm : m.map lower ≠ str "post" := fun h => hn ⟨h, hg⟩
    have hpre : (r.take 6).map lower = str "/games" := by
      obtain ⟨x, hx⟩ := hg
      rw [List.map_take, ← hx, List.take_append_of_le_length (by decide)]
      decide
    rw [games_handler srv d st m (tail := r.drop 6) hpre (by simp) hr0 hrl]
    split
    · unfold createGame
      exact (replies_post hc srv st h0 hl (fun h => absurd h hm)).returned
    · split
      · rename_i g p w _
        unfold acceptMove
        have hw : ∃ x, areEqualI (mem w) (mem (str "moves")) = some x := by
          unfold areEqualI mem
          rw [are_equal_correct false _ _ _ (by simp) (by simp)]
          exact ⟨_, rfl⟩
        obtain ⟨x, hx⟩ := hw
        rw [hx]
        cases x with
        | false => exact (replies_bad hc srv badResource (by decide +kernel) _).returned
        | true => exact (replies_post hc srv st h0 hl (fun h => absurd h hm)).returned
      · exact (replies_claim hi hc st h0 hl _ _).returned
      · exact (replies_moves hi hc st h0 hl _ _).returned
      · exact ⟨srv, [], false, rfl, .inl rfl⟩
  · exact (replies_other hc srv d st h0 hl hr0 hrl hg).returned

/-- C67, the part that holds: any bytes, in any state of the game.  Unless what is read from them as the method is POST and
as the resource starts with `/games`, the connection is served without undefined behaviour, exception or endless loop, and
nothing or one complete response is sent. -/
theorem C67_returns_partial {cfg : Config} (hcfg : ConfigOk cfg) {stat : List Byte → Option Nat} {content : List Byte → List Byte} {c : Ctx}
    (hc : CtxOk c) (he : Env stat content c.room) {bytes mm mp mc : List Byte} (hmm : mm.length = 33) (hmp : mp.length = 2049) (hmc : mc.length = 17)
    (hf : bytes.length + 2 < c.fuel) {srv : Server} {t : Trace} (hi : Inv srv t) (d : Draw)
    (hn : ∀ l, requestLine cfg c.fuel mm mp mc bytes = .ok (some l) →
      ¬ (l.method.map lower = str "post" ∧ Endpoint.startsWithI (str "/games") l.resource)) :
    ∃ srv' out sd, serve cfg stat content c mm mp mc false srv d bytes = .ok (srv', .sent out sd) ∧ (out = [] ∨ Complete out) := by
  obtain ⟨st, m, r, ⟨hm1, hm2⟩, ⟨hr1, hr2⟩, _, _, hrun⟩ := read_line cfg hcfg.root hcfg.short bytes mm mp mc hmm hmp hmc c.fuel hf
  have hn := hn _ hrun
  unfold serve serveWith
  rw [hrun, Res.ok_bind]
  simp only [Bool.false_eq_true, if_false]
  have hmt : Endpoint.Text m := ⟨hm1, by unfold sizeMax; omega⟩
  have hrt : Endpoint.Text r := ⟨hr1, by unfold sizeMax; omega⟩
  obtain ⟨b, hb, _⟩ := Endpoint.is_file_request_correct cfg m r hmt hrt hcfg.pfx
  rw [hb]
  cases b with
  | false => exact handler_returns hi hc d st hm1 hm2 hr1 (by omega) hn
  | true =>
    obtain ⟨q, sd, hex, hq, _, h⟩ := handled cfg stat content c.room he m r hmt hrt
      ⟨by simp [hcfg.root, hr1], by simp only [List.length_append]; unfold sizeMax; omega⟩ hcfg.pfx st
    unfold dispatch at h
    rw [hb] at h
    dsimp only at h ⊢
    have hcomp : Complete q.text := by cases hex <;> exact mkResponse_complete hq
    rw [h, Res.ok_bind]
    refine ⟨srv, _, sd, rfl, ?_⟩
    cases st.s.good
    · exact .inl rfl
    · exact .inr hcomp

section Violations
open Spec

/-- The POST requests for a new game whose body is `body`. -/
theorem serve_create {cfg : Config} (hcfg : ConfigOk cfg) (stat : List Byte → Option Nat) (content : List Byte → List Byte) {c : Ctx}
    (hc : CtxOk c) {q : Request} {after mm mp mc : List Byte} (hf : Fits cfg c q after mm mp mc) (srv : Server) (d : Draw)
    (hm : q.method.map lower = str "post") (hr : q.resource.map lower = str "/games") (hj : SendsJson q.headers)
    {x : Res (Except String (PType × PType))} (hb : playersBody c (q.body ++ after) = x) (hx : x = .ub ∨ x = .running) :
    serve cfg stat content c mm mp mc false srv d (q.text ++ after) = x.bind fun _ => .ub := by
  rw [serve_handler hcfg stat content hf (fun h => absurd (hr.symm.trans h.2) (by decide)) srv d]
  have h3 := hf.resource
  have h1 := hf.fuel
  rw [List.length_append, q.text_length] at h1
  rw [games_handler srv d _ _ (tail := []) hr (by simp) (resource_zero hf.ok) (by omega), if_pos rfl]
  unfold createGame whenPost
  rw [method_is hf.ok hf.method (m := "POST") hm (by decide) (by decide) (by decide)]
  dsimp only
  rw [whenJson_ok hc hf.headers hj _ (by omega)]
  have e2 : (In.ofList (q.body ++ after)).rest = q.body ++ after := rfl
  dsimp only
  rw [e2, hb]
  rcases hx with rfl | rfl <;> rfl

/-- After `{"players":["name"` and a comma, for a name that does not fit. -/
theorem playersBody_overflow {c : Ctx} (hc : CtxOk c) {w R : List Byte} (hw : ∀ x ∈ w, Plain x ∧ x ≠ 0) (h1 : 65 ≤ w.length) (h2 : w.length ≤ 1024)
    (hf : w.length + R.length + 50 ≤ c.fuel) : playersBody c (str "{\"players\":[\"" ++ (w ++ (str "\"," ++ R))) = .ub := by
  have e : str "{\"players\":[\"" ++ (w ++ (str "\"," ++ R)) =
      [] ++ (123 :: ([] ++ (34 :: ((key "players").text ++ 34 :: ([] ++ 58 :: ([] ++ (91 :: ([] ++ ((Atom.str ⟨w, []⟩).text ++ ([44] ++ R)))))))))) := by
    have e1 : str "{\"players\":[\"" = 123 :: 34 :: (str "players" ++ [34, 58, 91, 34]) := by decide
    have e2 : str "\"," = [34, 44] := by decide
    rw [e1, e2, key_text]
    simp [Atom.text, Str.text, tailText]
  have hkey : (key "players").Ok := by
    simp only [key, Str.Ok, Plain]
    refine ⟨by decide, by simp⟩
  have s1 := step_begin (max := 64) (lead := []) (r := [] ++ (34 :: ((key "players").text ++ 34 :: ([] ++ 58 :: ([] ++ (91 :: ([] ++ ((Atom.str ⟨w, []⟩).text ++ ([44] ++ R)))))))))
    (e := false) (ls := []) true (by simp [Ws]) rfl (by simp)
  have s2 := step_prop (max := 64) (lead := []) (w := []) (r := [] ++ (91 :: ([] ++ ((Atom.str ⟨w, []⟩).text ++ ([44] ++ R))))) (ls := []) hkey (by simp [Ws]) (by simp [Ws])
  have s3 := step_begin (max := 64) (lead := []) (r := [] ++ ((Atom.str ⟨w, []⟩).text ++ ([44] ++ R))) (e := false) (ls := [true]) false (by simp [Ws]) rfl (by simp)
  have s4 := step_atom (max := 64) (a := .str ⟨w, []⟩) (lead := []) (tail := [44]) (r := R) (e := false) (ls := [false, true])
    (by simp only [Atom.Ok, Str.Ok]; exact ⟨fun x hx => (hw x hx).1, by simp⟩) (by simp [Ws]) rfl (.inr ⟨by simp, [], by simp [Ws], .inl rfl⟩) (by simp)
  rw [e]
  have hlen : ([] ++ (123 :: ([] ++ (34 :: ((key "players").text ++ 34 :: ([] ++ 58 :: ([] ++ (91 :: ([] ++ ((Atom.str ⟨w, []⟩).text ++ ([44] ++ R)))))))))) : List Byte).length + 27 ≤ c.fuel := by
    rw [key_text]
    have : (str "players").length = 7 := by decide
    simp [Atom.text, Str.text, tailText, this]
    omega
  have q1 := s1.1
  have q2 := s2.1
  have q3 := s3.1
  simp only [if_true, Bool.false_eq_true, if_false] at q1 q2 q3 s1 s3
  obtain ⟨n1, b1, g1, l1, _⟩ := getTok_ok hc.atof s1 hc.token (by simp [tokChars]) hlen 0
  obtain ⟨n2, b2, g2, l2, p2⟩ := getTok_ok hc.atof s2 l1 (by simp [tokChars, key_val]; decide) (by dsimp only; omega) n1
  obtain ⟨n3, b3, g3, l3, _⟩ := getTok_ok hc.atof s3 l2 (by simp [tokChars]) (by dsimp only; omega) n2
  obtain ⟨n4, b4, g4, l4, p4⟩ := getTok_ok hc.atof s4 l3 (by simp [tokChars, Atom.tok, Str.val, tailVal]; omega) (by dsimp only; omega) n3
  unfold playersBody
  have g1' : getTok c { s := { rest := [] ++ (123 :: ([] ++ (34 :: ((key "players").text ++ 34 :: ([] ++ 58 :: ([] ++ (91 :: ([] ++ ((Atom.str ⟨w, []⟩).text ++ ([44] ++ R)))))))))) } } c.token = _ := g1
  dsimp only
  rw [g1', Res.ok_bind]
  dsimp only
  rw [if_neg (by simp [tokItem])]
  obtain ⟨f, hfu⟩ : ∃ k, c.fuel = k + 1 := ⟨c.fuel - 1, by omega⟩
  have hloop : ∀ f, playersLoop c (f + 1) ⟨In.ofList ([] ++ (34 :: ((key "players").text ++ 34 :: ([] ++ 58 :: ([] ++ (91 :: ([] ++ ((Atom.str ⟨w, []⟩).text ++ ([44] ++ R))))))))),
      true, [true], n1⟩ b1 none = .ub := by
    intro f
    rw [playersLoop, g2, Res.ok_bind]
    dsimp only
    rw [if_neg (by simp [tokItem]), if_neg (by simp [tokItem]), Tok.value, Tok.block, Option.getD_some,
      name_equal (by rw [key_val]; decide) (by rw [key_val]; decide) (by decide) (by decide) p2]
    rw [key_val]
    simp only [decide_true]
    rw [g3, Res.ok_bind]
    dsimp only
    rw [if_neg (by simp [tokItem]), Tok.block, Option.getD_some, g4, Res.ok_bind]
    dsimp only
    rw [if_neg (by simp [tokItem, Atom.tok]), Tok.value, Tok.block, Option.getD_some]
    have hv : Payload c.atof (.prop w) b4 := by simpa [Atom.tok, Str.val, tailVal, Payload] using p4
    obtain ⟨v1, _⟩ := value_text (atof := c.atof) (fun h => (hw 0 h).2 rfl) (by exact hv)
    rw [copy65, if_neg (by rw [v1]; omega)]
    rfl
  rw [hfu]
  simp only [Tok.block, Option.getD_some]
  rw [hloop f]
  rfl

/-- After `{"x":"` and characters without a closing quote. -/
theorem playersBody_hangs {c : Ctx} (hc : CtxOk c) {s : Str} {w : List Byte} (hs : s.Ok) (hs0 : (0 : Byte) ∉ s.val) (hsp : s.val ≠ str "players")
    (hsl : s.val.length ≤ 1024) (hw : ∀ x ∈ w, Plain x) (hf : s.text.length + w.length + 40 ≤ c.fuel) :
    playersBody c (str "{\"" ++ (s.text ++ (str "\":\"" ++ w))) = .running := by
  have e : str "{\"" ++ (s.text ++ (str "\":\"" ++ w)) = [] ++ (123 :: ([] ++ (34 :: (s.text ++ 34 :: ([] ++ 58 :: (34 :: w)))))) := by
    have e1 : str "{\"" = [123, 34] := by decide
    have e2 : str "\":\"" = [34, 58, 34] := by decide
    rw [e1, e2]
    simp
  have s1 := step_begin (max := 64) (lead := []) (r := [] ++ (34 :: (s.text ++ 34 :: ([] ++ 58 :: (34 :: w)))))
    (e := false) (ls := []) true (by simp [Ws]) rfl (by simp)
  have s2 := step_prop (max := 64) (lead := []) (w := []) (r := 34 :: w) (ls := []) hs (by simp [Ws]) (by simp [Ws])
  rw [e]
  have hlen : ([] ++ (123 :: ([] ++ (34 :: (s.text ++ 34 :: ([] ++ 58 :: (34 :: w)))))) : List Byte).length + 27 ≤ c.fuel := by
    simp
    omega
  have q1 := s1.1
  simp only [if_true] at q1 s1
  obtain ⟨n1, b1, g1, l1, _⟩ := getTok_ok hc.atof s1 hc.token (by simp [tokChars]) hlen 0
  obtain ⟨n2, b2, g2, l2, p2⟩ := getTok_ok hc.atof s2 l1 (by simp [tokChars]; omega) (by dsimp only; omega) n1
  unfold playersBody
  have g1' : getTok c { s := { rest := [] ++ (123 :: ([] ++ (34 :: (s.text ++ 34 :: ([] ++ 58 :: (34 :: w)))))) } } c.token = _ := g1
  dsimp only
  rw [g1', Res.ok_bind]
  dsimp only
  rw [if_neg (by simp [tokItem])]
  obtain ⟨f, hfu⟩ : ∃ k, c.fuel = k + 1 := ⟨c.fuel - 1, by omega⟩
  have hskip : skipValue 64 c.fuel ⟨In.ofList (34 :: w), false, [true], n2⟩ = .running := by
    rw [skipValue, hfu, skipLoop, readToken_hangs (tokString_none (skipStrLoop_open hw _ _))]
    rfl
  have hloop : ∀ f, playersLoop c (f + 1) ⟨In.ofList ([] ++ (34 :: (s.text ++ 34 :: ([] ++ 58 :: (34 :: w))))), true, [true], n1⟩ b1 none = .running := by
    intro f
    rw [playersLoop, g2, Res.ok_bind]
    dsimp only
    rw [if_neg (by simp [tokItem]), if_neg (by simp [tokItem]), Tok.value, Tok.block, Option.getD_some,
      name_equal hs0 (by unfold sizeMax; omega) (by decide) (by decide) p2]
    simp only [hsp, decide_false]
    rw [hskip]
    rfl
  have hcf : playersLoop c c.fuel ⟨In.ofList ([] ++ (34 :: (s.text ++ 34 :: ([] ++ 58 :: (34 :: w))))), true, [true], n1⟩ b1 none = .running := by
    have := hloop f
    rwa [← hfu] at this
  simp only [Tok.block, Option.getD_some]
  rw [hcf]
  rfl

/-- C67 fails: the name of the first player has 65 characters or more (any that are not quotes, backslashes or NUL): it is
copied over the end of its array. -/
theorem C67_violated_overflow {cfg : Config} (hcfg : ConfigOk cfg) (stat : List Byte → Option Nat) (content : List Byte → List Byte) {c : Ctx}
    (hc : CtxOk c) {q : Request} {mm mp mc : List Byte} (hf : Fits cfg c q [] mm mp mc) (srv : Server) (d : Draw)
    (hm : q.method.map lower = str "post") (hr : q.resource.map lower = str "/games") (hj : SendsJson q.headers) {w R : List Byte}
    (hw : ∀ x ∈ w, Plain x ∧ x ≠ 0) (h1 : 65 ≤ w.length) (h2 : w.length ≤ 1024) (hb : q.body = str "{\"players\":[\"" ++ (w ++ (str "\"," ++ R))) :
    serve cfg stat content c mm mp mc false srv d q.text = .ub := by
  have h3 := hf.fuel
  rw [List.length_append, q.text_length, hb] at h3
  simp only [List.length_append] at h3
  have e1 : (str "{\"players\":[\"").length = 13 := by decide
  have e3 : q.method.length = 4 := lower_length hm
  have e2 : (str "\",").length = 2 := by decide
  have := serve_create hcfg stat content hc hf srv d hm hr hj (x := .ub) (by
    rw [hb, List.append_nil]; exact playersBody_overflow hc hw h1 h2 (by omega)) (.inl rfl)
  rwa [List.append_nil] at this

/-- C67 fails: a member other than `players` whose value is a string without closing quote: reading never ends, however
long one waits. -/
theorem C67_violated_hang {cfg : Config} (hcfg : ConfigOk cfg) (stat : List Byte → Option Nat) (content : List Byte → List Byte) {c : Ctx}
    (hc : CtxOk c) {q : Request} {mm mp mc : List Byte} (hf : Fits cfg c q [] mm mp mc) (srv : Server) (d : Draw)
    (hm : q.method.map lower = str "post") (hr : q.resource.map lower = str "/games") (hj : SendsJson q.headers) {s : Str} {w : List Byte}
    (hs : s.Ok) (hs0 : (0 : Byte) ∉ s.val) (hsp : s.val ≠ str "players") (hsl : s.val.length ≤ 1024) (hw : ∀ x ∈ w, Plain x)
    (hb : q.body = str "{\"" ++ (s.text ++ (str "\":\"" ++ w))) :
    serve cfg stat content c mm mp mc false srv d q.text = .running := by
  have h3 := hf.fuel
  rw [List.length_append, q.text_length, hb] at h3
  simp only [List.length_append] at h3
  have e1 : (str "{\"").length = 2 := by decide
  have e3 : q.method.length = 4 := lower_length hm
  have e2 : (str "\":\"").length = 3 := by decide
  have := serve_create hcfg stat content hc hf srv d hm hr hj (x := .running) (by
    rw [hb, List.append_nil]; exact playersBody_hangs hc hs hs0 hsp hsl hw (by omega)) (.inr rfl)
  rwa [List.append_nil] at this

/-- A value that fills its array, a blank, and another character: `get_header_value` gives up without having read the
line, so the next `get_header_name` throws. -/
theorem headerValue_long {fuel : Nat} {v : List Byte} (hv : ∀ x ∈ v, printable x = true) (hl : v.length = 1024) {z : Byte}
    (hz : printable z = true) (r m : List Byte) (hm : m.length = 1025) (hf : 1030 ≤ fuel) (g : Nat) :
    ∃ s m', getHeaderValue fuel ⟨In.ofList (v ++ 32 :: z :: r), .headerValue, g⟩ m 1025 = .ok ⟨⟨s, .headerValue, 1024⟩, m', false⟩ := by
  obtain ⟨f, rfl⟩ : ∃ k, fuel = k + 1 + 1 := ⟨fuel - 2, by omega⟩
  obtain ⟨a, w, rfl⟩ : ∃ a w, v = a :: w := by
    cases v with
    | nil => simp at hl
    | cons a w => exact ⟨a, w, rfl⟩
  have ha := hv a (by simp)
  have h0 := skipBlanks [] a (w ++ 32 :: z :: r) (ascii_of_printable ha) (blank_of_printable ha) (by simp) (f + 1 + 1) (by simp)
  have h1 := getWord (pred := isAbcprint) (off := 0) (size := 1025) (mem := m) (by omega) (by omega) (by omega) (a :: w) 32 (z :: r) (by decide) (by decide)
    (fun d hd => ⟨ascii_of_printable (hv d hd), by rw [isAbcprint_eq]; exact hv d hd⟩) (f + 1 + 1) (by omega) (by omega)
  have h2 := skipBlanks [32] z r (ascii_of_printable hz) (blank_of_printable hz) (by simp [blank]) (f + 1 + 1) (by simp)
  have e0 : sub64 1025 0 = 1025 := by decide
  have e1 : sub64 1025 1 = 1024 := by decide
  rw [List.nil_append] at h0
  rw [List.singleton_append] at h2
  rw [List.cons_append] at h1 ⊢
  have hp : isAbcprint ((In.ofList (z :: r)).peekCharV isAscii) = true := by
    rw [In.peekCharV_cons _ (ascii_of_printable hz), isAbcprint_eq]; exact hz
  refine ⟨((In.ofList (z :: r)).peekCharS isAscii).setFail, putMem m 0 (a :: w ++ [0]), ?_⟩
  · rw [getHeaderValue, if_neg (by simp)]
    dsimp only
    rw [hvOuter, hvInner, h0, Res.ok_bind, hvSpace, if_neg (by simp), Res.ok_bind]
    dsimp only
    rw [if_neg (by simp), e0, h1, Res.ok_bind]
    dsimp only
    rw [if_pos (by rw [hl]; simp), hvInner, h2, Res.ok_bind, hvSpace, if_pos (by rw [hl]; simp)]
    dsimp only
    simp only [hp, if_true, e1, hl, Nat.zero_add, Res.ok_bind]

/-- … so the exception leaves the loop. -/
theorem headerLoop_long {c : Ctx} (hc : CtxOk c) {n v rest : List Byte} {z : Byte} (hf : n.length + 1032 ≤ c.fuel) (g : Nat)
    (hn : ∀ x ∈ n, tokenChar x = true) (hn1 : n ≠ []) (hn2 : n.length ≤ 1024) (hn3 : n.map lower ≠ str "content-type")
    (hv : ∀ x ∈ v, printable x = true) (hl : v.length = 1024) (hz : printable z = true) :
    headerLoop c.fuel c.fuel false ⟨In.ofList (n ++ ([58, 32] ++ (v ++ 32 :: z :: rest))), .headerName, g⟩ c.header = .ok .thrown := by
  obtain ⟨a, w, rfl⟩ : ∃ a w, v = a :: w := by
    cases v with
    | nil => simp at hl
    | cons a w => exact ⟨a, w, rfl⟩
  have ha := hv a (by simp)
  obtain ⟨m1, g1, hold⟩ := getHeaderName_ok (fuel := c.fuel) n hn1 hn a (w ++ 32 :: z :: rest) (ascii_of_printable ha) (blank_of_printable ha) c.header
    (by rw [hc.header]; omega) (by rw [hc.header]; omega) g (by omega)
  have hl1 : m1.length = 1025 := by rw [hold.1, hc.header]
  obtain ⟨s, m2, g2⟩ := headerValue_long (fuel := c.fuel) hv hl hz rest m1 hl1 (by omega) n.length
  rw [hc.header] at g1
  have e1 : areEqualI (some m1) (mem (str "Content-Type")) = some false := by
    rw [buf_equal_i hold.2 (by omega) (by rw [hl1]; decide) (by decide) (by decide), show (str "Content-Type").map lower = str "content-type" by decide]
    simp [hn3]
  obtain ⟨f, hfu⟩ : ∃ k, c.fuel = k + 1 + 1 := ⟨c.fuel - 2, by omega⟩
  have hloop : headerLoop c.fuel (f + 1 + 1) false ⟨In.ofList (n ++ ([58, 32] ++ (a :: w ++ 32 :: z :: rest))), .headerName, g⟩ c.header =
      .ok .thrown := by
    rw [headerLoop, show a :: w ++ 32 :: z :: rest = a :: (w ++ 32 :: z :: rest) from rfl, g1, Res.ok_bind]
    dsimp only
    rw [if_neg (by simp), if_neg (fun h0 => hn1 (List.length_eq_zero_iff.1 h0)), e1]
    rw [List.cons_append] at g2
    dsimp only
    rw [g2, Res.ok_bind]
    dsimp only
    rw [if_neg (by simp), headerLoop, getHeaderName, if_pos (by simp), Res.ok_bind]
    rfl
  rw [← hloop, ← hfu]

/-- C67 fails: a header whose value has 1024 characters, a blank and then another character.  The exception of the next read
leaves the thread of the request: the whole server ends. -/
theorem C67_violated_crash {cfg : Config} (hcfg : ConfigOk cfg) (stat : List Byte → Option Nat) (content : List Byte → List Byte) {c : Ctx}
    (hc : CtxOk c) {q : Request} {n v rest mm mp mc : List Byte} {z : Byte}
    (hf : LineFits cfg c q (n ++ ([58, 32] ++ (v ++ 32 :: z :: rest))) mm mp mc) (srv : Server) (d : Draw)
    (hm : q.method.map lower = str "post") (hr : q.resource.map lower = str "/games") (hx : ¬ Endpoint.PrefixMatches cfg q.resource)
    (hn : ∀ x ∈ n, tokenChar x = true) (hn1 : n ≠ []) (hn2 : n.length ≤ 1024) (hn3 : n.map lower ≠ str "content-type")
    (hv : ∀ x ∈ v, printable x = true) (hl : v.length = 1024) (hz : printable z = true) :
    serve cfg stat content c mm mp mc false srv d (q.line ++ (n ++ ([58, 32] ++ (v ++ 32 :: z :: rest)))) = .ok (srv, .terminated) := by
  obtain ⟨hm0, hr0⟩ := line_zero hf.ok
  have h1 := hf.fuel
  have h2 := hf.method
  have h3 := hf.resource
  simp only [List.length_append, List.length_cons] at h1
  have hmt : Endpoint.Text q.method := ⟨hm0, by unfold sizeMax; omega⟩
  have hrt : Endpoint.Text q.resource := ⟨hr0, by unfold sizeMax; omega⟩
  obtain ⟨b, hb, hb2⟩ := Endpoint.is_file_request_correct cfg q.method q.resource hmt hrt hcfg.pfx
  have hbf : b = false := by
    cases b with
    | false => rfl
    | true =>
      rcases hb2.1 rfl with h | h
      · exact absurd h hx
      · exact absurd (hr.symm.trans h.2) (by decide)
  subst hbf
  unfold serve serveWith
  rw [read_line_rest cfg hcfg.root q hf.ok hf.method hf.resource hf.protocol _ mm mp mc hf.mm hf.mp hf.mc c.fuel (by omega), Res.ok_bind]
  simp only [Bool.false_eq_true, if_false, hb]
  rw [games_handler srv d _ _ (tail := []) hr (by simp) hr0 (by omega), if_pos rfl]
  unfold createGame whenPost
  rw [Endpoint.equal_i hm0 (by decide) hmt.2 (by decide)]
  rw [hm, show (str "POST").map lower = str "post" by decide]
  simp only [decide_true]
  unfold whenJson
  rw [headerLoop_long hc (by omega) _ hn hn1 hn2 hn3 hv hl hz]
  rfl

/-- The request of C64's example, with a name that is too long. -/
def demoLongName : Request := { demoCreate with body := str "{\"players\":[\"" ++ (List.replicate 65 120 ++ (str "\"," ++ str "\"slow_engine\"]}")) }

/-- … and with a member that does not end. -/
def demoOpen : Request := { demoCreate with body := str "{\"" ++ ((key "x").text ++ (str "\":\"" ++ str "abc")) }

theorem demoLongName_fits : Fits demoCfg demoCtx demoLongName [] (List.replicate 33 7) (List.replicate 2049 7) (List.replicate 17 7) := by
  refine demo_fits ⟨by decide, by decide, by decide, by decide, by decide, by decide, by decide, ?_⟩ ?_ (by decide) (by decide) (by decide)
    (by decide +kernel) (by decide +kernel)
  · unfold HeaderOk; decide +kernel
  · unfold HeadersFit HeaderOk; decide +kernel

theorem demoOpen_fits : Fits demoCfg demoCtx demoOpen [] (List.replicate 33 7) (List.replicate 2049 7) (List.replicate 17 7) := by
  refine demo_fits ⟨by decide, by decide, by decide, by decide, by decide, by decide, by decide, ?_⟩ ?_ (by decide) (by decide) (by decide)
    (by decide +kernel) (by decide +kernel)
  · unfold HeaderOk; decide +kernel
  · unfold HeadersFit HeaderOk; decide +kernel

theorem demo_sends : SendsJson demoCreate.headers := by
  refine ⟨(str "content-type", str "application/json"), by decide +kernel, by unfold SaysJson; decide +kernel⟩

theorem demo_overflow (srv : Server) (d : Draw) :
    serve demoCfg (fun _ => none) (fun _ => []) demoCtx (List.replicate 33 7) (List.replicate 2049 7) (List.replicate 17 7) false srv d demoLongName.text = .ub :=
  C67_violated_overflow demoCfg_ok _ _ demoCtx_ok demoLongName_fits srv d (by decide) (by decide) demo_sends
    (w := List.replicate 65 120) (R := str "\"slow_engine\"]}") (by unfold Plain; decide +kernel) (by rw [List.length_replicate]) (by rw [List.length_replicate]; omega) rfl

example (srv : Server) (d : Draw) :
    serve demoCfg (fun _ => none) (fun _ => []) demoCtx (List.replicate 33 7) (List.replicate 2049 7) (List.replicate 17 7) false srv d demoOpen.text = .running :=
  C67_violated_hang demoCfg_ok _ _ demoCtx_ok demoOpen_fits srv d (by decide) (by decide) demo_sends
    (s := key "x") (w := str "abc") (by simp only [key, Str.Ok, Plain]; exact ⟨by decide, by simp⟩) (by decide +kernel) (by decide +kernel) (by decide +kernel) (by unfold Plain; decide +kernel) rfl

/-- So the full statement is false. -/
theorem C67_violated : ¬ C67Full := by
  intro h
  have hl := demoLongName_fits.fuel
  rw [List.append_nil] at hl
  obtain ⟨srv', out, sd, h1⟩ := h demoCfg (fun _ => none) (fun _ => []) demoCtx demoLongName.text (List.replicate 33 7) (List.replicate 2049 7)
    (List.replicate 17 7) {} [] ⟨3, 8, 7⟩ demoCfg_ok demoCtx_ok ⟨by simp, by decide, by simp⟩ (by rw [List.length_replicate]) (by rw [List.length_replicate])
    (by rw [List.length_replicate]) hl GameServer.inv_init
  rw [demo_overflow] at h1
  cases h1

/-- C66 applies to a body that is JSON but not what the server wants; it goes on behind the value. -/
example (srv : Server) (t : Trace) (hi : Inv srv t) (d : Draw) :
    ∃ srv' out sd, serve demoCfg (fun _ => none) (fun _ => []) demoCtx (List.replicate 33 7) (List.replicate 2049 7) (List.replicate 17 7) false srv d
      (demoCreate.line ++ (headersText demoCreate.headers ++ (crlf ++ (str "[true]" ++ str "x")))) = .ok (srv', .sent out sd) ∧ Complete out := by
  have he : Env (fun _ => none) (fun _ => []) demoCtx.room := ⟨by simp, by decide, by simp⟩
  have hf : LineFits demoCfg demoCtx demoNoType (headersText demoCreate.headers ++ (crlf ++ (str "[true]" ++ str "x"))) (List.replicate 33 7) (List.replicate 2049 7)
      (List.replicate 17 7) :=
    ⟨Request.Ok.line demoNoType_fits.ok, by decide, by decide, by decide, by rw [List.length_replicate], by rw [List.length_replicate], by rw [List.length_replicate],
      by decide +kernel⟩
  obtain ⟨srv', out, sd, h1, h2, _⟩ := C66_answered_partial demoCfg_ok demoCtx_ok he hf hi d (.create (by decide)) (fun _ _ =>
    ⟨demoCreate.headers, str "[true]", str "x", rfl, by unfold HeadersFit HeaderOk; decide +kernel,
      ⟨(str "content-type", str "application/json"), by decide, by unfold IsType; decide +kernel⟩,
      fun _ => ⟨[], .arr [] (.cons (.atom (.bool true)) [] [] .nil), [], by decide, by simp [Ws], by simp [Value.Ok, Elems.Ok, Atom.Ok, Ws],
        by simp [ShortV, ShortE], by decide, by simp⟩⟩)
  exact ⟨srv', out, sd, h1, h2⟩

/-- C67 applies to bytes that are no request. -/
example (srv : Server) (t : Trace) (hi : Inv srv t) (d : Draw) :
    ∃ srv' out sd, serve demoCfg (fun _ => none) (fun _ => []) demoCtx (List.replicate 33 7) (List.replicate 2049 7) (List.replicate 17 7) false srv d
      (str "PUT /games/7/players/1/moves" ++ [200, 0, 13, 10]) = .ok (srv', .sent out sd) ∧ (out = [] ∨ Complete out) := by
  refine C67_returns_partial demoCfg_ok demoCtx_ok ⟨by simp, by decide, by simp⟩ (by rw [List.length_replicate]) (by rw [List.length_replicate])
    (by rw [List.length_replicate]) (by decide +kernel) hi d ?_
  intro l hl h
  have : (match requestLine demoCfg demoCtx.fuel (List.replicate 33 7) (List.replicate 2049 7) (List.replicate 17 7) (str "PUT /games/7/players/1/moves" ++ [200, 0, 13, 10]) with
    | .ok (some l) => decide (l.method.map lower ≠ str "post") | _ => true) = true := by decide +kernel
  rw [hl] at this
  exact of_decide_eq_true this h.1

/-- A request line that fits, for the example of the crash. -/
example (srv : Server) (d : Draw) (w : List Byte) (hw : ∀ x ∈ w, printable x = true) (hl : w.length = 1024) (rest : List Byte) (hrest : rest.length ≤ 100) :
    serve demoCfg (fun _ => none) (fun _ => []) { demoCtx with fuel := 1300 } (List.replicate 33 7) (List.replicate 2049 7) (List.replicate 17 7) false srv d
      (demoCreate.line ++ (str "A" ++ ([58, 32] ++ (w ++ 32 :: 121 :: rest)))) = .ok (srv, .terminated) := by
  refine C67_violated_crash (c := { demoCtx with fuel := 1300 }) demoCfg_ok _ _ ⟨demoCtx_ok.room, demoCtx_ok.atof, demoCtx_ok.cell, demoCtx_ok.header, demoCtx_ok.token⟩
    ⟨Request.Ok.line demoNoType_fits.ok, by decide, by decide, by decide, by rw [List.length_replicate], by rw [List.length_replicate], by rw [List.length_replicate], ?_⟩
    srv d (by decide) (by decide) ?_ (by decide) (by decide) (by decide) (by decide +kernel) hw hl (by decide)
  · have e1 : demoNoType.line.length ≤ 100 := by decide +kernel
    have e2 : (str "A").length = 1 := by decide
    simp only [List.length_append, List.length_cons, hl, e2, List.length_nil]
    show _ ≤ 1300
    omega
  · rintro ⟨p, hp, h⟩
    simp only [demoCfg, Option.some.injEq] at hp
    subst hp
    exact absurd h (by decide +kernel)

end Violations

end Abc.GameWire
