import Verif.Samples.CarWireProps

/-!
# The car at the level of bytes: every request

Which requests are answered, which bytes end or block the process, what shutting down does to the wheels, and whether
the advice in the refusals can be followed.
-/

namespace Abc.CarWire

open Abc.Ascii Abc.Stream Abc.Http Abc.Wire Abc.Json Abc.GameWire Abc.Car
open Abc.Endpoint (Config str mem)

/-! ## C87: requests that can be read are answered -/

section Answers
open Spec

theorem expectNumber_any {c : Ctx} (hc : CtxOk c) (num : List Byte → Option Rat) (lo hi : Int) {v : Value} (hv : v.Ok) (hs : ShortV v) {w2 tail R : List Byte}
    (hl : Ws w2) (ht : Tail [true] tail R) {buf : List Byte} (hb : buf.length = 1041) (hf : (w2 ++ (v.text ++ (tail ++ R))).length + 27 ≤ c.fuel) (g : Nat)
    (it : Json.Item) : ∃ x, expectNumber c num lo hi ⟨⟨In.ofList (w2 ++ (v.text ++ (tail ++ R))), false, [true], g⟩, it, some buf⟩ = .ok x := by
  obtain ⟨n, b, h1, h2, h3, h4⟩ := getTok_first hc hv hs hl (e := false) (ls := [true]) rfl ht (by simp) (by simp) hb hf g
  unfold expectNumber
  simp only [Tok.block, Option.getD_some]
  rw [h1, Res.ok_bind]
  dsimp only
  by_cases hn : tokItem (firstTok v) = .number
  · rw [if_neg (by simp [hn])]
    split <;> exact ⟨_, rfl⟩
  · exact ⟨none, by rw [if_pos hn]⟩

theorem numberBody_any {c : Ctx} (hc : CtxOk c) (num : List Byte → Option Rat) (name : String) (lo hi : Int) {body : List Byte} (hb : BodyOk body)
    (after : List Byte) (hf : (body ++ after).length + 27 ≤ c.fuel) : ∃ x, numberBody c num name lo hi (body ++ after) = .ok x := by
  obtain ⟨lead, v, r, rfl, hl, hv, hs, hd, hn⟩ := hb.ex
  have e : lead ++ (v.text ++ r) ++ after = lead ++ (v.text ++ ([] ++ (r ++ after))) := by simp
  rw [e] at hf ⊢
  obtain ⟨n, b, h1, h2, _, h4⟩ := getTok_first hc hv hs hl (e := false) (ls := []) rfl (.inl ⟨rfl, rfl⟩) (by simp) (fun _ => hn) hc.token hf 0
  unfold numberBody
  have h1' : getTok c { s := { rest := lead ++ (v.text ++ ([] ++ (r ++ after))) } } c.token = _ := h1
  rw [h1', Res.ok_bind]
  dsimp only
  by_cases ho : tokItem (firstTok v) = .beginObject
  · rw [if_neg (by simp [ho])]
    obtain ⟨w, ms, rfl⟩ := firstTok_object ho
    simp only [Value.Ok] at hv
    simp only [ShortV] at hs
    simp only [firstPos] at h4 ⊢
    obtain ⟨x1, e1, f1⟩ := expectName_any hc hv.2 hs hv.1 ([] ++ (r ++ after)) (str name) h2 (by omega) n (tokItem (firstTok (.obj w ms)))
    rw [e1, Res.ok_bind]
    cases x1 with
    | none => exact ⟨_, rfl⟩
    | some t1 =>
      obtain ⟨w2, v1, tail1, lead1, rest1, n1, b1, i1, a1, a2, a3, a4, a5, a6, a7, a8, rfl, a9⟩ := f1 t1 rfl
      exact expectNumber_any hc num lo hi a2 a3 a1 a5 a8 (by omega) n1 i1
  · exact ⟨_, by rw [if_pos ho]⟩

end Answers

theorem replies_number {c : Ctx} (hc : CtxOk c) (num : List Byte → Option Rat) {car : Car} (hcar : Car.Fine car) (t : Target) {st : Rd} (hg : st.s.good = true)
    {m body : List Byte} (h0 : (0 : Byte) ∉ m) (hl : m.length ≤ 32) (hr : m.map lower = str "post" → Ready c st body) :
    Replies true (t.process c num car st m) false := by
  rw [process_eq, ← hg]
  refine replies_post hc _ st h0 hl fun hm => ?_
  rw [hg]
  refine replies_json hc _ (hr hm) fun b after e hb hf => ?_
  obtain ⟨x, hx⟩ := numberBody_any hc num t.key (-t.limit) t.limit hb after (by rw [← e]; exact hf)
  rw [← e] at hx
  have e2 : (In.ofList body).rest = body := rfl
  dsimp only
  rw [e2, hx, Res.ok_bind]
  cases x with
  | none => exact replies_bad hc _ _ (by cases t <;> decide +kernel) (In.ofList body)
  | some n =>
    dsimp only
    split
    · rename_i ha
      have hrep := report_short (fine_step hcar (t.event n)) t ha
      obtain ⟨k1, k2, k3⟩ := succeed_any hc.room (body := t.report (step car (t.event n)).1 n) (by omega) (In.ofList body)
      exact ⟨_, _, by rw [k3]; rfl, k1, k2⟩
    · exact replies_bad hc _ _ (by decide +kernel) (In.ofList body)

/-- The requests without a number. -/
theorem replies_other {c : Ctx} (hc : CtxOk c) (num : List Byte → Option Rat) {s : Sensors} (hs : s.Ok) (car : Car) (st : Rd) {m r : List Byte}
    (h0 : (0 : Byte) ∉ m) (hl : m.length ≤ 32) (hr0 : (0 : Byte) ∉ r) (hrl : r.length ≤ 2048) (hn : ∀ t : Target, r.map lower ≠ t.path) :
    Replies st.s.good (carHandler c num s car st m r) (decide (m.map lower = str "post" ∧ r.map lower = str "/shutdown")) := by
  rw [carHandler_eq hr0 hrl, if_neg (show ¬ r.map lower = str "/power" from hn .power), if_neg (show ¬ r.map lower = str "/turn" from hn .turn)]
  by_cases ha : r.map lower = str "/autos"
  · rw [if_pos ha, decide_eq_false (fun h => by have := ha.symm.trans h.2; revert this; decide)]
    by_cases hg : m.map lower = str "get"
    · obtain ⟨k1, k2, k3⟩ := autos_any hc.room hs car st h0 hl hg
      exact ⟨_, _, k3, k1, k2⟩
    · rw [autos_other s car st h0 hl hg]
      exact replies_refuse hc _ 405 _ (by decide) (by decide +kernel) (by decide +kernel) _
  · rw [if_neg ha, if_neg (show ¬ r.map lower = str "/servo" from hn .servo)]
    by_cases hs : r.map lower = str "/shutdown"
    · obtain ⟨k1, k2, k3⟩ := shutdown_eq hc.room car st h0 hl
      rw [if_pos hs, k3]
      by_cases hm : m.map lower = str "post"
      · rw [if_pos hm, decide_eq_true ⟨hm, hs⟩]
        exact ⟨_, _, rfl, k1, k2⟩
      · rw [if_neg hm, decide_eq_false (fun h => hm h.1)]
        exact replies_refuse hc _ 405 _ (by decide) (by decide +kernel) (by decide +kernel) _
    · rw [if_neg hs, decide_eq_false (fun h => hs h.2)]
      exact replies_refuse hc _ 404 _ (by decide) (by decide +kernel) (by decide +kernel) _

theorem target_cases (r : List Byte) : (∃ t : Target, r.map lower = t.path) ∨ ∀ t : Target, r.map lower ≠ t.path := by
  by_cases h : ∃ t : Target, r.map lower = t.path
  · exact .inl h
  · exact .inr fun t ht => h ⟨t, ht⟩

/-- C87, in full: every request that the car can read is answered by one complete response. -/
def C87Full : Prop :=
  ∀ (cfg : Config) (stat : List Byte → Option Nat) (content : List Byte → List Byte) (c : Ctx) (num : List Byte → Option Rat) (q : Request)
    (after mm mp mc : List Byte) (s : Sensors) (car : Car), ConfigOk cfg → CtxOk c → Env stat content c.room → Fits cfg c q after mm mp mc → s.Ok → Car.Fine car →
    ∃ y out sd, serve cfg stat content c num mm mp mc false s car (q.text ++ after) = .ok (y, .sent out sd) ∧ Complete out

/-- C87, the part that holds: for every state of the car, all readings, and every request line that fits: one complete response
is sent, whatever follows the line; only if the method is POST and the resource is one of the three with a number, what follows must
have a Content-Type and, if that is JSON, any JSON value as body.  The server is told to shut down only by `POST /shutdown`.
Missing for `C87Full`: requests without Content-Type, and bodies that are not JSON. -/
theorem C87_answered_partial {cfg : Config} (hcfg : ConfigOk cfg) {stat : List Byte → Option Nat} {content : List Byte → List Byte} {c : Ctx}
    (hc : CtxOk c) (he : Env stat content c.room) (num : List Byte → Option Rat) {q : Request} {rest mm mp mc : List Byte} (hf : LineFits cfg c q rest mm mp mc)
    {s : Sensors} (hs : s.Ok) {car : Car} (hcar : Car.Fine car)
    (hb : q.method.map lower = str "post" → (∃ t : Target, q.resource.map lower = t.path) → RestOk rest) :
    ∃ y out sd, serve cfg stat content c num mm mp mc false s car (q.line ++ rest) = .ok (y, .sent out sd) ∧ Complete out ∧
      (sd = true → q.method.map lower = str "post" ∧ q.resource.map lower = str "/shutdown") := by
  unfold serve
  rcases serve_line hcfg he hf (car, []) (carHandler c num s car) with ⟨r, h1, _, h3⟩ | ⟨_, h⟩
  · exact ⟨_, r.text, false, h1, h3, by simp⟩
  · obtain ⟨hm0, hr0⟩ := line_zero hf.ok
    have h1 := hf.fuel
    have h3 := hf.resource
    rw [List.length_append] at h1
    rw [h]
    rcases target_cases q.resource with ⟨t, ht⟩ | hn
    · rw [handler_target t hr0 (by omega) ht]
      have : Replies true (t.process c num car ⟨In.ofList rest, .headerName, (protocolText q.maj q.min).length⟩ q.method) false := by
        by_cases hm : q.method.map lower = str "post"
        · obtain ⟨body, hr⟩ := ready_of (c := c) (hb hm ⟨t, ht⟩) (by omega) (protocolText q.maj q.min).length
          exact replies_number hc num hcar t rfl hm0 hf.method (fun _ => hr)
        · exact replies_number (body := []) hc num hcar t rfl hm0 hf.method (fun h => absurd h hm)
      obtain ⟨y, r, e, _, h5⟩ := this
      exact ⟨y, r.text, false, by rw [e]; rfl, h5, by simp⟩
    · obtain ⟨y, r, e, _, h5⟩ := replies_other hc num hs car ⟨In.ofList rest, .headerName, (protocolText q.maj q.min).length⟩ hm0 hf.method hr0 (by omega) hn
      exact ⟨y, r.text, _, e, h5, fun h => of_decide_eq_true h⟩

/-- C87 fails: a number without Content-Type gets no answer, and has no effect. -/
theorem C87_violated_no_type {cfg : Config} (hcfg : ConfigOk cfg) (stat : List Byte → Option Nat) (content : List Byte → List Byte) {c : Ctx}
    (hc : CtxOk c) (num : List Byte → Option Rat) {q : Request} {after mm mp mc : List Byte} (hf : Fits cfg c q after mm mp mc) (s : Sensors) (car : Car)
    (t : Target) (hm : q.method.map lower = str "post") (hr : q.resource.map lower = t.path) (hn : ∀ h ∈ q.headers, ¬ IsType h) :
    serve cfg stat content c num mm mp mc false s car (q.text ++ after) = .ok ((car, []), .sent [] false) := by
  have h3 := hf.resource
  have h1 := hf.fuel
  rw [List.length_append, q.text_length] at h1
  unfold serve
  rw [serveWith_handler hcfg stat content hf (fun h => by have := hm.symm.trans h.1; revert this; decide),
    handler_target t (resource_zero hf.ok) (by omega) hr, process_eq]
  unfold whenPost
  rw [method_is hf.ok hf.method (m := "POST") hm (by decide) (by decide) (by decide)]
  dsimp only
  exact whenJson_missing hc hf.headers hn _ (by omega) _ _ _

/-! ## C88: requests that end or block the car -/

/-- C88, in full: whatever bytes arrive, the connection is served without undefined behaviour and without an exception,
and no loop goes on for ever. -/
def C88Full : Prop :=
  ∀ (cfg : Config) (stat : List Byte → Option Nat) (content : List Byte → List Byte) (c : Ctx) (num : List Byte → Option Rat) (bytes mm mp mc : List Byte)
    (s : Sensors) (car : Car), ConfigOk cfg → CtxOk c → Env stat content c.room → mm.length = 33 → mp.length = 2049 → mc.length = 17 →
    bytes.length + 32 ≤ c.fuel → s.Ok → Car.Fine car → ∃ y out sd, serve cfg stat content c num mm mp mc false s car bytes = .ok (y, .sent out sd)

/-- C88, the part that holds: any bytes, in any state of the car.  Unless what is read from them as the method is POST and
as the resource is one of the three with a number, the connection is served without undefined behaviour, exception or endless
loop, and nothing or one complete response is sent. -/
theorem C88_returns_partial {cfg : Config} (hcfg : ConfigOk cfg) {stat : List Byte → Option Nat} {content : List Byte → List Byte} {c : Ctx}
    (hc : CtxOk c) (he : Env stat content c.room) (num : List Byte → Option Rat) {bytes mm mp mc : List Byte} (hmm : mm.length = 33) (hmp : mp.length = 2049)
    (hmc : mc.length = 17) (hf : bytes.length + 2 < c.fuel) {s : Sensors} (hs : s.Ok) (car : Car)
    (hn : ∀ l, requestLine cfg c.fuel mm mp mc bytes = .ok (some l) →
      ¬ (l.method.map lower = str "post" ∧ ∃ t : Target, l.resource.map lower = t.path)) :
    ∃ y out sd, serve cfg stat content c num mm mp mc false s car bytes = .ok (y, .sent out sd) ∧ (out = [] ∨ Complete out) := by
  unfold serve
  rcases serveWith_any hcfg he hmm hmp hmc bytes hf (car, []) (carHandler c num s car) with ⟨sent, r, e, _, k2, _⟩ | ⟨l, hl, l1, l2, l3, l4, e⟩
  · refine ⟨_, _, _, e, ?_⟩
    cases sent
    · exact .inl rfl
    · exact .inr k2
  · rw [e]
    rcases target_cases l.resource with ⟨t, ht⟩ | hnt
    · have hm : l.method.map lower ≠ str "post" := fun h => hn l hl ⟨h, t, ht⟩
      rw [handler_target t l3 l4 ht, process_eq]
      exact (replies_post hc _ l.st l1 l2 (fun h => absurd h hm)).returned
    · exact (replies_other hc num hs car l.st l1 l2 l3 l4 hnt).returned

section Violations
open Spec

/-- Characters up to the end of the input are read, the last one being the mark of the end. -/
theorem getChars_open {pred : Byte → Bool} (h255 : pred 255 = true) {off size : Nat} (hs : 1 ≤ size) (hs2 : size < 2 ^ 64) (w : List Byte) :
    ∀ (fuel : Nat) (mem : List Byte) (n : Nat), (∀ c ∈ w, pred c = true) → off + n + w.length + 1 < mem.length → n + w.length + 1 < size →
      w.length + 2 ≤ fuel → ∃ g, getCharsLoop valid pred off size fuel (In.ofList w) mem n = .ok g ∧ g.s.good = false ∧ g.n = n + w.length + 1 ∧
        g.mem.length = mem.length := by
  induction w with
  | nil =>
    intro fuel mem n _ hm hn hf
    simp only [List.length_nil, Nat.add_zero] at hm hn hf
    obtain ⟨f, rfl⟩ : ∃ k, fuel = k + 1 + 1 := ⟨fuel - 2, by omega⟩
    have e1 : sub64 size 1 = size - 1 := sub64_eq (by omega) hs2
    have hp : (In.ofList []).peekCharV valid = 255 := rfl
    have hg : (((In.ofList []).peekCharS valid).getS).good = false := rfl
    rw [getCharsLoop, if_pos (show (In.ofList []).good = true from rfl), hp, if_pos h255, e1, if_neg (by omega), wr_ok (by omega), Res.ok_bind,
      getCharsLoop, if_neg (by rw [hg]; simp), getCharsEnd, wr_ok (by rw [List.length_set]; omega), Res.ok_bind]
    exact ⟨_, rfl, rfl, by simp, by simp⟩
  | cons c w ih =>
    intro fuel mem n hw hm hn hf
    simp only [List.length_cons] at hm hn hf
    obtain ⟨f, rfl⟩ : ∃ k, fuel = k + 1 := ⟨fuel - 1, by omega⟩
    have e1 : sub64 size 1 = size - 1 := sub64_eq (by omega) hs2
    obtain ⟨g, h1, h2, h3, h4⟩ := ih f (mem.set (off + n) c) (n + 1) (fun x hx => hw x (by simp [hx])) (by rw [List.length_set]; omega) (by omega) (by omega)
    refine ⟨g, ?_, h2, by rw [h3, List.length_cons]; omega, by rw [h4, List.length_set]⟩
    rw [getCharsLoop, if_pos (show (In.ofList (c :: w)).good = true from rfl), peekCharV_valid, peekCharS_valid, In.peekV_cons, if_pos (hw c (by simp)), e1,
      if_neg (by omega), In.peekS_cons, In.getV_cons, wr_ok (by omega), Res.ok_bind, In.getS_cons, h1]

/-- A string without its closing quote, in the block of 1041 bytes. -/
theorem tokString_open {fuel : Nat} {w mem : List Byte} (hw : ∀ c ∈ w, Plain c) (hl : w.length ≤ 1031) (hm : mem.length = 1041)
    (hf : w.length + 2 ≤ fuel) : tokString fuel 1041 (In.ofList (34 :: w)) (some mem) = .running := by
  refine tokString_some (by omega) (by omega) ?_
  obtain ⟨f, rfl⟩ : ∃ k, fuel = k + 1 := ⟨fuel - 1, by omega⟩
  obtain ⟨g, h1, h2, h3, h4⟩ := getChars_open (pred := jsonIsStringContent) (by decide) (off := 8) (size := 1039) (by omega) (by omega) w (f + 1) mem 0
    (fun c hc => (content_iff c).2 (hw c hc)) (by omega) (by omega) hf
  rw [strLoop, sub64_eq (by omega) (by omega), Nat.sub_zero, Nat.add_zero, getChars, h1, Res.ok_bind]
  have h5 : g.s.peekV = 255 := by simp [In.peekV, h2]
  simp only [h5]
  rw [if_neg (by decide), if_neg (by decide)]
  exact strLoop_dead _ _ _ _ (In.peekS_notgood h2) (by omega)

/-- A string that fits the size but not the block. -/
theorem tokString_over {fuel : Nat} {w r mem : List Byte} (hw : ∀ c ∈ w, Plain c) (h1 : 1033 ≤ w.length) (h2 : w.length ≤ 1038) (hm : mem.length = 1041)
    (hf : w.length < fuel) : tokString fuel 1041 (In.ofList (34 :: (w ++ 34 :: r))) (some mem) = .ub := by
  obtain ⟨f, rfl⟩ : ∃ k, fuel = k + 1 := ⟨fuel - 1, by omega⟩
  have h3 := getCharsLoop_ub (pred := jsonIsStringContent) (off := 8) (size := 1039) (by omega) (by omega) 34 r (by decide) w (f + 1) mem 0
    (fun c hc => (content_iff c).2 (hw c hc)) (by omega) (by omega) (by omega)
  rw [tokString, sub64_eq (by omega) (by omega), getString]
  simp only [In.peekV_cons, In.peekS_cons, In.getS_cons, if_true]
  rw [strLoop, sub64_eq (by omega) (by omega), Nat.sub_zero, Nat.add_zero, getChars, h3]
  rfl

/-- The first token of a body that starts with `{`. -/
theorem begin_any {c : Ctx} (hc : CtxOk c) {R : List Byte} (hf : R.length + 30 ≤ c.fuel) :
    ∃ n b, b.length = 1041 ∧ getTok c { s := { rest := 123 :: R } } c.token = .ok ⟨⟨In.ofList R, true, [true], n⟩, .beginObject, some b⟩ := by
  have s1 := step_begin (max := 64) (lead := []) (r := R) (e := false) (ls := []) true (by simp [Ws]) rfl (by simp)
  simp only [if_true, List.nil_append] at s1
  obtain ⟨n, b, g1, l1, _⟩ := getTok_ok hc.atof s1 hc.token (by simp [tokChars]) (by simp; omega) 0
  exact ⟨n, b, l1, g1⟩

theorem numberBody_hangs {c : Ctx} (hc : CtxOk c) (num : List Byte → Option Rat) (name : String) (lo hi : Int) {w : List Byte} (hw : ∀ x ∈ w, Plain x)
    (hl : w.length ≤ 1031) (hf : w.length + 31 ≤ c.fuel) : numberBody c num name lo hi (str "{\"" ++ w) = .running := by
  have e : str "{\"" ++ w = 123 :: 34 :: w := by rw [show str "{\"" = [123, 34] by decide]; rfl
  obtain ⟨n, b, h1, h2⟩ := begin_any hc (R := 34 :: w) (by simp; omega)
  obtain ⟨f, hfu⟩ : ∃ k, c.fuel = k + 1 := ⟨c.fuel - 1, by omega⟩
  have h3 : getTok c ⟨In.ofList (34 :: w), true, [true], n⟩ b = .running := by
    unfold getTok
    have := tokString_open (fuel := c.fuel) hw hl h1 (by omega)
    rw [hfu] at this ⊢
    exact readToken_hangs this
  unfold numberBody
  rw [e, h2, Res.ok_bind]
  simp only [ne_eq, not_true_eq_false, if_false, expectName, Tok.block, Option.getD_some]
  rw [h3]
  rfl

theorem numberBody_over {c : Ctx} (hc : CtxOk c) (num : List Byte → Option Rat) (name : String) (lo hi : Int) {w r : List Byte} (hw : ∀ x ∈ w, Plain x)
    (h1 : 1033 ≤ w.length) (h2 : w.length ≤ 1038) (hf : w.length + r.length + 32 ≤ c.fuel) :
    numberBody c num name lo hi (str "{\"" ++ (w ++ (str "\"" ++ r))) = .ub := by
  have e : str "{\"" ++ (w ++ (str "\"" ++ r)) = 123 :: 34 :: (w ++ 34 :: r) := by
    rw [show str "{\"" = [123, 34] by decide, show str "\"" = [34] by decide]; simp
  obtain ⟨n, b, h3, h4⟩ := begin_any hc (R := 34 :: (w ++ 34 :: r)) (by simp; omega)
  obtain ⟨f, hfu⟩ : ∃ k, c.fuel = k + 1 := ⟨c.fuel - 1, by omega⟩
  have h5 : getTok c ⟨In.ofList (34 :: (w ++ 34 :: r)), true, [true], n⟩ b = .ub := by
    unfold getTok
    have := tokString_over (fuel := c.fuel) (r := r) hw h1 h2 h3 (by omega)
    rw [hfu] at this ⊢
    exact readToken_ub this
  unfold numberBody
  rw [e, h4, Res.ok_bind]
  simp only [ne_eq, not_true_eq_false, if_false, expectName, Tok.block, Option.getD_some]
  rw [h5]
  rfl

/-- C88 fails: the name of the first member has no closing quote (and at most 1031 characters): reading never ends, however long
one waits. -/
theorem C88_violated_hang {cfg : Config} (hcfg : ConfigOk cfg) (stat : List Byte → Option Nat) (content : List Byte → List Byte) {c : Ctx}
    (hc : CtxOk c) (num : List Byte → Option Rat) {q : Request} {mm mp mc : List Byte} (hf : Fits cfg c q [] mm mp mc) (s : Sensors) (car : Car) (t : Target)
    (hm : q.method.map lower = str "post") (hr : q.resource.map lower = t.path) (hj : SendsJson q.headers) {w : List Byte}
    (hw : ∀ x ∈ w, Plain x) (hl : w.length ≤ 1031) (hb : q.body = str "{\"" ++ w) :
    serve cfg stat content c num mm mp mc false s car q.text = .running := by
  have h3 := hf.fuel
  rw [List.length_append, q.text_length, hb] at h3
  simp only [List.length_append] at h3
  have e1 : (str "{\"").length = 2 := by decide
  have := serve_number hcfg stat content hc num hf s car t hm hr hj
  rw [List.append_nil] at this
  rw [this, List.append_nil, hb, numberBody_hangs hc num _ _ _ hw hl (by omega)]
  rfl

/-- C88 fails: the name of the first member has 1033 to 1038 characters: it is written over the end of the block. -/
theorem C88_violated_overflow {cfg : Config} (hcfg : ConfigOk cfg) (stat : List Byte → Option Nat) (content : List Byte → List Byte) {c : Ctx}
    (hc : CtxOk c) (num : List Byte → Option Rat) {q : Request} {mm mp mc : List Byte} (hf : Fits cfg c q [] mm mp mc) (s : Sensors) (car : Car) (t : Target)
    (hm : q.method.map lower = str "post") (hr : q.resource.map lower = t.path) (hj : SendsJson q.headers) {w r : List Byte}
    (hw : ∀ x ∈ w, Plain x) (h1 : 1033 ≤ w.length) (h2 : w.length ≤ 1038) (hb : q.body = str "{\"" ++ (w ++ (str "\"" ++ r))) :
    serve cfg stat content c num mm mp mc false s car q.text = .ub := by
  have h3 := hf.fuel
  rw [List.length_append, q.text_length, hb] at h3
  simp only [List.length_append] at h3
  have e1 : (str "{\"").length = 2 := by decide
  have e2 : (str "\"").length = 1 := by decide
  have := serve_number hcfg stat content hc num hf s car t hm hr hj
  rw [List.append_nil] at this
  rw [this, List.append_nil, hb, numberBody_over hc num _ _ _ hw h1 h2 (by omega)]
  rfl

/-- C88 fails: a header whose value has 1024 characters, a blank and then another character.  The exception of the next read
leaves a function that may not throw: the whole process ends, and the wheels keep turning as they did. -/
theorem C88_violated_crash {cfg : Config} (hcfg : ConfigOk cfg) (stat : List Byte → Option Nat) (content : List Byte → List Byte) {c : Ctx}
    (hc : CtxOk c) (num : List Byte → Option Rat) {q : Request} {n v rest mm mp mc : List Byte} {z : Byte}
    (hf : LineFits cfg c q (n ++ ([58, 32] ++ (v ++ 32 :: z :: rest))) mm mp mc) (s : Sensors) (car : Car) (t : Target)
    (hm : q.method.map lower = str "post") (hr : q.resource.map lower = t.path) (hx : ¬ Endpoint.PrefixMatches cfg q.resource)
    (hn : ∀ x ∈ n, tokenChar x = true) (hn1 : n ≠ []) (hn2 : n.length ≤ 1024) (hn3 : n.map lower ≠ str "content-type")
    (hv : ∀ x ∈ v, printable x = true) (hl : v.length = 1024) (hz : printable z = true) :
    serve cfg stat content c num mm mp mc false s car (q.line ++ (n ++ ([58, 32] ++ (v ++ 32 :: z :: rest)))) = .ok ((car, []), .terminated) := by
  obtain ⟨hm0, hr0⟩ := line_zero hf.ok
  have h1 := hf.fuel
  have h2 := hf.method
  have h3 := hf.resource
  simp only [List.length_append, List.length_cons] at h1
  have hmt : Endpoint.Text q.method := ⟨hm0, by unfold sizeMax; omega⟩
  have hrt : Endpoint.Text q.resource := ⟨hr0, by unfold sizeMax; omega⟩
  obtain ⟨b, hb, hb2⟩ := Endpoint.is_file_request_correct cfg q.method q.resource hmt hrt hcfg.pfx
  have hbf : b = false := by
    cases b with
    | false => rfl
    | true =>
      rcases hb2.1 rfl with h | h
      · exact absurd h hx
      · exact absurd (hm.symm.trans h.1) (by decide)
  subst hbf
  unfold serve serveWith
  rw [read_line_rest cfg hcfg.root q hf.ok hf.method hf.resource hf.protocol _ mm mp mc hf.mm hf.mp hf.mc c.fuel (by omega), Res.ok_bind]
  simp only [Bool.false_eq_true, if_false, hb]
  rw [handler_target t hr0 (by omega) hr, process_eq]
  unfold whenPost
  rw [post_is hm0 h2]
  simp only [hm, decide_true]
  unfold whenJson
  rw [headerLoop_long hc (by omega) _ hn hn1 hn2 hn3 hv hl hz]
  rfl

end Violations

/-! ## C89: shutting down -/

/-- C89, what the request does: `POST /shutdown`, in any well-formed text, resets the board, tells the server to stop, and gets
one complete response. -/
theorem C89_request {cfg : Config} (hcfg : ConfigOk cfg) (stat : List Byte → Option Nat) (content : List Byte → List Byte) {c : Ctx}
    (hc : CtxOk c) (num : List Byte → Option Rat) {q : Request} {after mm mp mc : List Byte} (hf : Fits cfg c q after mm mp mc) (s : Sensors)
    (car : Car) (hm : q.method.map lower = str "post") (hr : q.resource.map lower = str "/shutdown") :
    serve cfg stat content c num mm mp mc false s car (q.text ++ after) =
        .ok ((car, [.reset]), .sent (okText (str "Server is shuting down...")).text true) ∧
      Complete (okText (str "Server is shuting down...")).text := by
  have h3 := hf.resource
  have hm0 : (0 : Byte) ∉ q.method := fun h => by
    have := hf.ok.method 0 h; revert this; decide
  obtain ⟨-, k2, k3⟩ := shutdown_eq hc.room car ⟨In.ofList (headersText q.headers ++ (crlf ++ (q.body ++ after))), .headerName, (protocolText q.maj q.min).length⟩
    hm0 hf.method
  refine ⟨?_, k2⟩
  unfold serve
  rw [serveWith_handler hcfg stat content hf (fun h => by have := hm.symm.trans h.1; revert this; decide),
    carHandler_eq (resource_zero hf.ok) (by omega), hr, if_neg (by decide), if_neg (by decide), if_neg (by decide), if_neg (by decide), if_pos (by decide), k3,
    if_pos hm]
  rfl

/-- C89.  Once the server was told to stop, no bytes on any connection reach the car: whatever it does then, it goes on doing. -/
theorem C89_deaf {cfg : Config} (hcfg : ConfigOk cfg) (stat : List Byte → Option Nat) (content : List Byte → List Byte) (c : Ctx)
    (num : List Byte → Option Rat) {mm mp mc : List Byte} (hmm : mm.length = 33) (hmp : mp.length = 2049) (hmc : mc.length = 17) (s : Sensors) (car : Car)
    (bytes : List Byte) (hf : bytes.length + 2 < c.fuel) :
    serve cfg stat content c num mm mp mc true s car bytes = .ok ((car, []), .sent [] false) := by
  obtain ⟨st, m, r, _, _, _, _, hrun⟩ := read_line cfg hcfg.root hcfg.short bytes mm mp mc hmm hmp hmc c.fuel hf
  unfold serve serveWith
  rw [hrun, Res.ok_bind]
  rfl

/-- C89 in full: when shutting down is finished, the car stands still, wherever the loop was. -/
def C89Full : Prop := ∀ (dirs : Wheel → Bool) (es : List RaceEvent) (round : Option Nat),
  Still ((Racing.run ⟨start dirs, none⟩ es).shutdown round).world

/-- C89 fails whenever the loop finds an obstacle in its last round: the car drives on, and its speed is the one the loop
decided on.  (By `C89_deaf` no request stops it.) -/
theorem C89_violated_drives (dirs : Wheel → Bool) (es : List RaceEvent) (d : Nat)
    (hp : (Racing.run ⟨start dirs, none⟩ es).pending = none)
    (hl : limited (Racing.run ⟨start dirs, none⟩ es).world.car d < (Racing.run ⟨start dirs, none⟩ es).world.car.power) :
    let car := (Racing.run ⟨start dirs, none⟩ es).world.car
    let w := ((Racing.run ⟨start dirs, none⟩ es).shutdown (some d)).world
    ∃ left right : Nat, left ≤ 100 ∧ right ≤ 100 ∧ (∀ v, w.motors v = ⟨car.forward, if v.left = true then left else right⟩) ∧
      (left : Int) - right = steer car.turn ∧ (left : Int) + right = 2 * middle (limited car d) car.turn := by
  intro car w
  have hok := raceOk_run (raceOk_start dirs) es
  have hcar : (Racing.run ⟨start dirs, none⟩ es).world.car = car := rfl
  have hw : w = ⟨{ car with power := limited car d }, driven { car with power := limited car d }⟩ := by
    simp only [w, Racing.shutdown, Racing.step, hp, hcar]
    rw [hcar] at hl
    rw [if_pos hl]
    simp only [obey_drive]
  have hfine : Car.Fine { car with power := limited car d } := by
    refine ⟨?_, hok.agrees.fine.turn⟩
    revert hl
    rw [hcar]
    simp only [limited]
    (repeat' split) <;> simp
  obtain ⟨a1, a2, a3, a4, a5, a6⟩ := sides hfine
  refine ⟨(sidePowers { car with power := limited car d }).1.toNat, (sidePowers { car with power := limited car d }).2.toNat, by omega, by omega,
    fun v => ?_, by dsimp only at a5; omega, by dsimp only at a6; omega⟩
  rw [hw]
  simp only [driven, toDuty_of a1 a2, toDuty_of a3 a4]

/-- C89 fails as well whenever the loop has decided on a power and not yet assigned it: the car drives on with that power. -/
theorem C89_violated_pending (dirs : Wheel → Bool) (es : List RaceEvent) {p : Int} (hp : (Racing.run ⟨start dirs, none⟩ es).pending = some p) :
    let car := (Racing.run ⟨start dirs, none⟩ es).world.car
    let w := ((Racing.run ⟨start dirs, none⟩ es).shutdown none).world
    ∃ left right : Nat, left ≤ 100 ∧ right ≤ 100 ∧ (∀ v, w.motors v = ⟨car.forward, if v.left = true then left else right⟩) ∧
      (left : Int) - right = steer car.turn ∧ (left : Int) + right = 2 * middle p car.turn := by
  intro car w
  have hok := raceOk_run (raceOk_start dirs) es
  have hcar : (Racing.run ⟨start dirs, none⟩ es).world.car = car := rfl
  have hw : w = ⟨{ car with power := p }, driven { car with power := p }⟩ := by
    simp only [w, Racing.shutdown, Racing.step, hp, hcar]
    simp only [obey_drive]
  have hfine : Car.Fine { car with power := p } := by
    refine ⟨?_, hok.agrees.fine.turn⟩
    have := hok.pending p hp
    simp only [List.mem_cons, List.not_mem_nil, or_false] at this
    rcases this with rfl | rfl | rfl | rfl <;> simp
  obtain ⟨a1, a2, a3, a4, a5, a6⟩ := sides hfine
  refine ⟨(sidePowers { car with power := p }).1.toNat, (sidePowers { car with power := p }).2.toNat, by omega, by omega,
    fun v => ?_, by dsimp only at a5; omega, by dsimp only at a6; omega⟩
  rw [hw]
  simp only [driven, toDuty_of a1 a2, toDuty_of a3 a4]

/-- Its case: full speed, 25 cm ahead, and shutting down after the test of the loop. -/
example : (Racing.run ⟨start (fun _ => true), none⟩ [.request (.power 100), .decide 25]).pending = some 75 := by decide

/-- So the full statement is false: full speed, and something 25 cm ahead. -/
theorem C89_violated : ¬ C89Full := fun h => by
  have := h (fun _ => true) [.request (.power 100)] (some 25) .frontLeft
  revert this; decide

/-- C89, the part that holds: if what is left of the round of the loop does not lower the power, the car stands still.  Missing: a
round that finds an obstacle (`C89_violated_drives`), or has just found one. -/
theorem C89_stops_partial (r : Racing) (round : Option Nat) (hp : r.pending = none) (hr : ∀ d ∈ round, r.world.car.power ≤ limited r.world.car d) :
    Still (r.shutdown round).world ∧ (r.shutdown round).world.car = r.world.car := by
  cases round with
  | none =>
    simp only [Racing.shutdown, Racing.step, hp]
    exact ⟨fun v => rfl, trivial⟩
  | some d =>
    have := hr d rfl
    simp only [Racing.shutdown, Racing.step, hp]
    rw [if_neg (by omega)]
    simp only
    exact ⟨fun v => rfl, trivial⟩

/-! ## C90: the advice in the refusals -/

section Advice
open Spec

theorem numberBody_name {c : Ctx} (hc : CtxOk c) (num : List Byte → Option Rat) {name : String} (hk : (0 : Byte) ∉ str name)
    (hkl : (str name).length ≤ 1024) (lo hi : Int) {lead w a1 a2 t1 l1 : List Byte} {n1 : Str} {v : Value} {rest : Mems} (hl : Ws lead)
    (hv : (Value.obj w (.cons n1 a1 a2 v t1 l1 rest)).Ok) (h0 : (0 : Byte) ∉ n1.val) (hs : n1.val.length ≤ 1024) (hne : n1.val ≠ str name) (r : List Byte)
    (hf : (lead ++ ((Value.obj w (.cons n1 a1 a2 v t1 l1 rest)).text ++ r)).length + 27 ≤ c.fuel) :
    numberBody c num name lo hi (lead ++ ((Value.obj w (.cons n1 a1 a2 v t1 l1 rest)).text ++ r)) = .ok none := by
  obtain ⟨n, b, hb, h1⟩ := begin_ok hc hl r hf
  simp only [Value.Ok] at hv
  have e : (w ++ ((Mems.cons n1 a1 a2 v t1 l1 rest).text ++ 125 :: r)).length + 1 ≤
      (lead ++ ((Value.obj w (.cons n1 a1 a2 v t1 l1 rest)).text ++ r)).length := by
    simp [Value.text]
  obtain ⟨tail, lead', hl', ht, hs'⟩ := member_ok hv.2 hv.1 r
  obtain ⟨n', b', g1, l1', p1⟩ := getTok_ok hc.atof hs' hb (by simp only [tokChars]; omega) (by dsimp only; omega) n
  unfold numberBody
  rw [h1, Res.ok_bind]
  simp only [ne_eq, not_true_eq_false, if_false, expectName, Tok.block, Option.getD_some]
  rw [g1, Res.ok_bind]
  simp only [tokItem, not_true_eq_false, if_false, Tok.value, Tok.block, Option.getD_some]
  rw [name_equal h0 (by unfold sizeMax; omega) hk (by unfold sizeMax; omega) p1, decide_eq_false hne]
  rfl

/-- C84.  If the first member of the body has another name, then nothing happens to the car, no device is touched, and the
response is a complete 400. -/
theorem C84_other_name {cfg : Config} (hcfg : ConfigOk cfg) (stat : List Byte → Option Nat) (content : List Byte → List Byte) {c : Ctx}
    (hc : CtxOk c) (num : List Byte → Option Rat) {q : Request} {after mm mp mc : List Byte} (hf : Fits cfg c q after mm mp mc) (s : Sensors)
    (car : Car) (t : Target) (hm : q.method.map lower = str "post") (hr : q.resource.map lower = t.path) (hj : SendsJson q.headers)
    {lead w a1 a2 t1 l1 : List Byte} {n1 : Str} {v : Value} {rest : Mems} {r : List Byte} (hl : Ws lead)
    (hv : (Value.obj w (.cons n1 a1 a2 v t1 l1 rest)).Ok) (h0 : (0 : Byte) ∉ n1.val) (hs : n1.val.length ≤ 1024) (hne : n1.val ≠ str t.key)
    (hb : q.body = lead ++ ((Value.obj w (.cons n1 a1 a2 v t1 l1 rest)).text ++ r)) :
    serve cfg stat content c num mm mp mc false s car (q.text ++ after) = .ok ((car, []), .sent (badText t.shown).text false) ∧
      Complete (badText t.shown).text := by
  have hlen : (q.body ++ after).length + 27 ≤ c.fuel := by
    have := hf.fuel
    rw [List.length_append, q.text_length] at this
    rw [List.length_append]
    omega
  have hsh : (str t.shown).length ≤ 512 := by cases t <;> decide +kernel
  obtain ⟨-, k2, k3⟩ := bad_any hc.room t.shown hsh (In.ofList (q.body ++ after))
  have e : q.body ++ after = lead ++ ((Value.obj w (.cons n1 a1 a2 v t1 l1 rest)).text ++ (r ++ after)) := by rw [hb]; simp
  refine ⟨?_, k2⟩
  rw [serve_number hcfg stat content hc num hf s car t hm hr hj, k3, e, numberBody_name hc num (key_short t).1 (key_short t).2 _ _ hl hv h0 hs hne _ (by rw [← e]; exact hlen)]
  rfl

end Advice

/-- `body` is what the refusal says the body must be. -/
def Advises (t : Target) (body : List Byte) : Prop :=
  str t.shown = str "An invalid JSON payload was supplied. Must be: " ++ (body ++ str ".")

/-- C90 in full: a request whose body is exactly what the refusal says it must be is carried out. -/
def C90Full : Prop :=
  ∀ (cfg : Config) (stat : List Byte → Option Nat) (content : List Byte → List Byte) (c : Ctx) (num : List Byte → Option Rat) (q : Request)
    (mm mp mc : List Byte) (s : Sensors) (car : Car) (t : Target), ConfigOk cfg → CtxOk c → Fits cfg c q [] mm mp mc → Car.Fine car →
    num (c.atof (str "50")) = some 50 → q.method.map lower = str "post" → q.resource.map lower = t.path → SendsJson q.headers → Advises t q.body →
    ∃ n, serve cfg stat content c num mm mp mc false s car q.text =
      .ok (step car (t.event n), .sent (okText (t.report (step car (t.event n)).1 n)).text false)

section Advice
open Spec

/-- The number 50. -/
def fifty : Num := ⟨none, str "50", none, none⟩

theorem fifty_ok : fifty.Ok := by
  unfold fifty Num.Ok Digit
  refine ⟨by simp, by decide, by decide, by simp, by simp, by decide⟩

/-- The bodies of the refusals. -/
theorem advice_text (name : String) :
    str "{\"" ++ (str name ++ str "\": 50}") = [] ++ ((Value.obj [] (.cons (key name) [] [32] (.atom (.num fifty)) [] [] .nil)).text ++ []) := by
  rw [show str "{\"" = [123, 34] by decide, show str "\": 50}" = [34, 58, 32, 53, 48, 125] by decide]
  simp [Value.text, Mems.text, Mems.sep, key_text, Atom.text, fifty, Num.text, fracText, expText, show str "50" = [53, 48] by decide]

theorem advice_ok {name : String} (h : ∀ x ∈ str name, Plain x) : (Value.obj [] (.cons (key name) [] [32] (.atom (.num fifty)) [] [] .nil)).Ok := by
  simp only [Value.Ok, Mems.Ok, Atom.Ok, key, Str.Ok]
  exact ⟨by simp [Ws], ⟨h, by simp⟩, by simp [Ws], by unfold Ws IsWs; decide, fifty_ok, by simp [Ws], by simp [Ws], trivial⟩

theorem advice_is {t : Target} {body : List Byte} (h : Advises t body) :
    body = match t with | .power => str "{\"power\": 50}" | .turn => str "{\"turn\": 50}" | .servo => str "{\"servo\": 50}" := by
  unfold Advises at h
  cases t
  all_goals
    simp only [Target.shown] at h ⊢
  · rw [show str "An invalid JSON payload was supplied. Must be: {\"power\": 50}." =
      str "An invalid JSON payload was supplied. Must be: " ++ (str "{\"power\": 50}" ++ str ".") by decide +kernel] at h
    exact (List.append_cancel_right (List.append_cancel_left h)).symm
  · rw [show str "An invalid JSON payload was supplied. Must be: {\"turn\": 50}." =
      str "An invalid JSON payload was supplied. Must be: " ++ (str "{\"turn\": 50}" ++ str ".") by decide +kernel] at h
    exact (List.append_cancel_right (List.append_cancel_left h)).symm
  · rw [show str "An invalid JSON payload was supplied. Must be: {\"servo\": 50}." =
      str "An invalid JSON payload was supplied. Must be: " ++ (str "{\"servo\": 50}" ++ str ".") by decide +kernel] at h
    exact (List.append_cancel_right (List.append_cancel_left h)).symm

theorem advice_carries {c : Ctx} {num : List Byte → Option Rat} {name : String} (hp : ∀ x ∈ str name, Plain x) (hn : num (c.atof (str "50")) = some 50) :
    Carries c num name (str "{\"" ++ (str name ++ str "\": 50}")) (some 50) := by
  rw [advice_text]
  exact .mk (by simp [Ws]) (advice_ok hp) (key_val name) hn

/-- C90, the part that holds: the advice for the power can be followed.  Missing: the other two. -/
theorem C90_power_partial {cfg : Config} (hcfg : ConfigOk cfg) (stat : List Byte → Option Nat) (content : List Byte → List Byte) {c : Ctx}
    (hc : CtxOk c) {num : List Byte → Option Rat} (hn : num (c.atof (str "50")) = some 50) {q : Request} {mm mp mc : List Byte} (hf : Fits cfg c q [] mm mp mc)
    (s : Sensors) {car : Car} (hcar : Car.Fine car) (hm : q.method.map lower = str "post") (hr : q.resource.map lower = str "/power")
    (hj : SendsJson q.headers) (hb : Advises .power q.body) :
    serve cfg stat content c num mm mp mc false s car q.text =
      .ok (step car (.power 50), .sent (okText (Target.report (step car (.power 50)).1 50 .power)).text false) := by
  have e := advice_is hb
  dsimp only at e
  have hb' : Carries c num (Target.key .power) q.body (some 50) := by
    rw [e, show str "{\"power\": 50}" = str "{\"" ++ (str "power" ++ str "\": 50}") by decide +kernel]
    exact advice_carries (by unfold Plain; decide) hn
  have := (C84_carried_out hcfg stat content hc num hf s hcar .power hm hr hj hb' (n := 50)
    ⟨50, rfl, by simp only [Target.limit]; norm_num, by simp only [Target.limit]; norm_num, .inl (by norm_num), by decide⟩).1
  rwa [List.append_nil] at this

/-- C90 fails: the advice for the turn is refused, because 50 is no multiple of 30. -/
theorem C90_violated_turn {cfg : Config} (hcfg : ConfigOk cfg) (stat : List Byte → Option Nat) (content : List Byte → List Byte) {c : Ctx}
    (hc : CtxOk c) {num : List Byte → Option Rat} (hn : num (c.atof (str "50")) = some 50) {q : Request} {mm mp mc : List Byte} (hf : Fits cfg c q [] mm mp mc)
    (s : Sensors) (car : Car) (hm : q.method.map lower = str "post") (hr : q.resource.map lower = str "/turn")
    (hj : SendsJson q.headers) (hb : Advises .turn q.body) :
    ∃ body ∈ [Target.shown .turn, "Value not in range."],
      serve cfg stat content c num mm mp mc false s car q.text = .ok ((car, []), .sent (badText body).text false) := by
  have e := advice_is hb
  dsimp only at e
  have hb' : Carries c num (Target.key .turn) q.body (some 50) := by
    rw [e, show str "{\"turn\": 50}" = str "{\"" ++ (str "turn" ++ str "\": 50}") by decide +kernel]
    exact advice_carries (by unfold Plain; decide) hn
  obtain ⟨body, h1, h2, _⟩ := C84_refused hcfg stat content hc num hf s car .turn hm hr hj hb' (by
    rintro n ⟨x, hx, _, _, h3, h4⟩
    cases hx
    have := whole_unique h3 (show Whole 50 50 from .inl (by norm_num))
    subst this
    revert h4
    decide)
  rw [List.append_nil] at h2
  exact ⟨body, h1, h2⟩

/-- C90 fails: the advice for the servo is refused, with the same advice: the member must be called `angle`. -/
theorem C90_violated_servo {cfg : Config} (hcfg : ConfigOk cfg) (stat : List Byte → Option Nat) (content : List Byte → List Byte) {c : Ctx}
    (hc : CtxOk c) (num : List Byte → Option Rat) {q : Request} {mm mp mc : List Byte} (hf : Fits cfg c q [] mm mp mc)
    (s : Sensors) (car : Car) (hm : q.method.map lower = str "post") (hr : q.resource.map lower = str "/servo")
    (hj : SendsJson q.headers) (hb : Advises .servo q.body) :
    serve cfg stat content c num mm mp mc false s car q.text = .ok ((car, []), .sent (badText (Target.shown .servo)).text false) := by
  have e := advice_is hb
  dsimp only at e
  rw [show str "{\"servo\": 50}" = str "{\"" ++ (str "servo" ++ str "\": 50}") by decide +kernel, advice_text] at e
  have := (C84_other_name hcfg stat content hc num hf s car .servo hm hr hj (by simp [Ws]) (advice_ok (by unfold Plain; decide))
    (by rw [key_val]; decide) (by rw [key_val]; decide) (by rw [key_val]; decide) e).1
  rwa [List.append_nil] at this

end Advice

/-! ## Instances -/

section Instances
open Spec

/-- A decimal number of at most two digits, as `demoCtx.atof` stores it. -/
def demoNum (b : List Byte) : Option Rat :=
  match b with
  | [a, 0, 0, 0, 0, 0, 0, 0] => some (a.toNat - 48 : Nat)
  | [a, b, 0, 0, 0, 0, 0, 0] => some (10 * (a.toNat - 48) + (b.toNat - 48) : Nat)
  | _ => none

/-- A request with a number. -/
def demoPost (resource : String) (body : List Byte) : Request :=
  ⟨str "POST", str resource, str "1", str "1", [(str "Host", str "x"), (str "content-type", str "application/json")], body⟩

/-- The readings. -/
def demoSensors : Sensors := ⟨str "25", 310, 41, 65535, str "0.5", str "-12.25"⟩

theorem demoSensors_ok : demoSensors.Ok := by
  refine ⟨⟨⟨none, str "25", none, none⟩, ?_, rfl⟩, ⟨⟨none, str "0", some (str "5"), none⟩, ?_, by decide⟩,
    ⟨⟨some 45, str "12", some (str "25"), none⟩, ?_, by decide⟩, by decide, by decide, by decide⟩
  all_goals
    unfold Num.Ok Digit
    refine ⟨by simp, by decide, by decide, by simp <;> decide, by simp, by decide⟩

/-- Such requests fit. -/
structure Nice (r : List Byte) : Prop where
  ne : r ≠ []
  chars : ∀ x ∈ r, printable x = true
  len : r.length ≤ 9
  other : ¬ Endpoint.startsWithI (str "/f/") r

theorem demoPost_fits {c : Ctx} {resource : String} (hr : Nice (str resource)) {body after : List Byte} (hb : body.length + after.length + 120 ≤ c.fuel) :
    Fits demoCfg c (demoPost resource body) after (List.replicate 33 7) (List.replicate 2049 7) (List.replicate 17 7) := by
  have h := hr.len
  have e1 : (protocolText (str "1") (str "1")).length = 8 := by decide
  have e2 : (headersText [(str "Host", str "x"), (str "content-type", str "application/json")]).length = 41 := by decide +kernel
  have e3 : (str "POST").length = 4 := by decide
  have e4 : demoCfg.rootDir.length = 2 := by decide
  have hh : HeadersFit [(str "Host", str "x"), (str "content-type", str "application/json")] := by unfold HeadersFit HeaderOk; decide +kernel
  refine ⟨⟨?_, hr.ne, hr.chars, ?_, ?_, ?_, ?_, ?_⟩, hh, ?_, ?_, ?_, ?_, ?_, ?_, ?_, ?_⟩
  · show ∀ c ∈ str "POST", tokenChar c = true; decide
  · show str "1" ≠ []; decide
  · show ∀ c ∈ str "1", digit c = true; decide
  · show str "1" ≠ []; decide
  · show ∀ c ∈ str "1", digit c = true; decide
  · show ∀ h ∈ [(str "Host", str "x"), (str "content-type", str "application/json")], HeaderOk h
    unfold HeaderOk; decide +kernel
  · show (str "POST").length ≤ 32; omega
  · show demoCfg.rootDir.length + (str resource).length ≤ 2047; omega
  · show (protocolText (str "1") (str "1")).length ≤ 16; omega
  · rintro ⟨p, hp, h⟩
    simp only [demoCfg, Option.some.injEq] at hp
    subst hp
    exact hr.other h
  · rw [List.length_replicate]
  · rw [List.length_replicate]
  · rw [List.length_replicate]
  · rw [List.length_append, Request.text_length]
    simp only [demoPost, e1, e2, e3]
    omega

theorem nice_power : Nice (str "/Power") := ⟨by decide, by decide, by decide, by decide +kernel⟩
theorem nice_turn : Nice (str "/turn") := ⟨by decide, by decide, by decide, by decide +kernel⟩
theorem nice_servo : Nice (str "/servo") := ⟨by decide, by decide, by decide, by decide +kernel⟩
theorem nice_shutdown : Nice (str "/shutdown") := ⟨by decide, by decide, by decide, by decide +kernel⟩

theorem demo_json (resource : String) (body : List Byte) : SendsJson (demoPost resource body).headers := by
  show SendsJson [(str "Host", str "x"), (str "content-type", str "application/json")]
  exact ⟨(str "content-type", str "application/json"), by decide +kernel, by unfold SaysJson; decide +kernel⟩

theorem demoCtx_more (fuel : Nat) : CtxOk { demoCtx with fuel := fuel } :=
  ⟨demoCtx_ok.room, demoCtx_ok.atof, demoCtx_ok.cell, demoCtx_ok.header, demoCtx_ok.token⟩

theorem demo_fifty : demoNum (demoCtx.atof (str "50")) = some 50 := by decide +kernel

/-- C84 and C90: power 50, in the words of the refusal. -/
example (s : Sensors) {car : Car} (hcar : Car.Fine car) :
    serve demoCfg (fun _ => none) (fun _ => []) demoCtx demoNum (List.replicate 33 7) (List.replicate 2049 7) (List.replicate 17 7) false s car
      (demoPost "/Power" (str "{\"power\": 50}")).text =
      .ok (step car (.power 50), .sent (okText (Target.report (step car (.power 50)).1 50 .power)).text false) :=
  C90_power_partial demoCfg_ok _ _ demoCtx_ok demo_fifty (demoPost_fits nice_power (by decide +kernel)) s hcar (by decide) (by decide) (demo_json _ _)
    (by unfold Advises; decide +kernel)

/-- C84: a fraction is cut off, further members are ignored, and so is what follows. -/
example (s : Sensors) {car : Car} (hcar : Car.Fine car) (num : List Byte → Option Rat) (hn : num (demoCtx.atof (str "-60.9")) = some (-609 / 10)) :
    serve demoCfg (fun _ => none) (fun _ => []) demoCtx num (List.replicate 33 7) (List.replicate 2049 7) (List.replicate 17 7) false s car
      ((demoPost "/servo" (str " {\"angle\":-60.9,\"x\":null}")).text ++ str "abc") =
      .ok (step car (.servo (-60)), .sent (okText (str "servo: angle=-60")).text false) := by
  have hb : Carries demoCtx num "angle" (str " {\"angle\":-60.9,\"x\":null}") (some (-609 / 10)) := by
    have e : str " {\"angle\":-60.9,\"x\":null}" = str " " ++ ((Value.obj [] (.cons (key "angle") [] [] (.atom (.num ⟨some 45, str "60", some (str "9"), none⟩)) [] []
        (.cons (key "x") [] [] (.atom .null) [] [] .nil))).text ++ []) := by decide +kernel
    rw [e]
    refine .mk (by unfold Ws IsWs; decide) ?_ (key_val _) hn
    simp only [Value.Ok, Mems.Ok, Atom.Ok, key, Str.Ok, Num.Ok, Ws, Plain, Digit]
    refine ⟨by simp, ⟨by decide, by simp⟩, by simp, by simp, ⟨by simp, by decide, by decide, ?_, by simp, by decide⟩, by simp, by simp, ⟨by decide, by simp⟩,
      by simp, by simp, trivial, by simp, by simp, trivial⟩
    intro d hd
    cases hd
    exact ⟨by decide, by decide⟩
  exact (C84_carried_out demoCfg_ok _ _ demoCtx_ok num (demoPost_fits nice_servo (by decide +kernel)) s hcar .servo (by decide) (by decide) (demo_json _ _) hb
    ⟨_, rfl, by simp only [Target.limit]; norm_num, by simp only [Target.limit]; norm_num, .inr (by norm_num), by decide⟩).1

/-- C84 and C90: turn 50, in the words of the refusal. -/
example (s : Sensors) (car : Car) : ∃ body ∈ [Target.shown .turn, "Value not in range."],
    serve demoCfg (fun _ => none) (fun _ => []) demoCtx demoNum (List.replicate 33 7) (List.replicate 2049 7) (List.replicate 17 7) false s car
      (demoPost "/turn" (str "{\"turn\": 50}")).text = .ok ((car, []), .sent (badText body).text false) :=
  C90_violated_turn demoCfg_ok _ _ demoCtx_ok demo_fifty (demoPost_fits nice_turn (by decide +kernel)) s car (by decide) (by decide) (demo_json _ _)
    (by unfold Advises; decide +kernel)

theorem demo_servo (s : Sensors) (car : Car) :
    serve demoCfg (fun _ => none) (fun _ => []) demoCtx demoNum (List.replicate 33 7) (List.replicate 2049 7) (List.replicate 17 7) false s car
      (demoPost "/servo" (str "{\"servo\": 50}")).text = .ok ((car, []), .sent (badText (Target.shown .servo)).text false) :=
  C90_violated_servo demoCfg_ok _ _ demoCtx_ok demoNum (demoPost_fits nice_servo (by decide +kernel)) s car (by decide) (by decide) (demo_json _ _)
    (by unfold Advises; decide +kernel)

theorem fine_init : Car.Fine {} := ⟨by decide, by decide⟩

/-- So the full statement is false. -/
theorem C90_violated : ¬ C90Full := by
  intro h
  obtain ⟨n, h1⟩ := h demoCfg (fun _ => none) (fun _ => []) demoCtx demoNum (demoPost "/servo" (str "{\"servo\": 50}")) (List.replicate 33 7) (List.replicate 2049 7)
    (List.replicate 17 7) demoSensors {} .servo demoCfg_ok demoCtx_ok (demoPost_fits nice_servo (by decide +kernel)) fine_init demo_fifty (by decide) (by decide)
    (demo_json _ _) (by unfold Advises; decide +kernel)
  rw [demo_servo] at h1
  simp only [Res.ok.injEq, Prod.mk.injEq, Outcome.sent.injEq] at h1
  have h2 := congrArg (fun l => l[9]?) h1.2.1
  revert h2
  have e1 : (badText (Target.shown .servo)).text[9]? = some 52 := by decide +kernel
  have e2 : (okText (Target.report (step {} (Target.event n .servo)).1 n .servo)).text[9]? = some 50 := by
    unfold okText mkResponse Http.Response.text
    rfl
  rw [e1, e2]
  decide

/-- The request for the readings. -/
def demoGet : Request := { demoPost "/autos" [] with method := str "get" }

/-- C85: the readings of `demoSensors`. -/
example (car : Car) :
    serve demoCfg (fun _ => none) (fun _ => []) demoCtx demoNum (List.replicate 33 7) (List.replicate 2049 7) (List.replicate 17 7) false demoSensors car
      (demoGet.text ++ []) = .ok ((car, []), .sent (okJson (str ("{\"obstacle\":{\"distance\":25,\"units\":\"cm\"}," ++
        "\"grayscale\":{\"left\":310,\"center\":41,\"right\":65535},\"depth\":{\"distance\":0.5,\"units\":\"cm\"}," ++
        "\"width\":{\"distance\":-12.25,\"units\":\"cm\"}}"))).text false) := by
  have hf : Fits demoCfg demoCtx demoGet [] (List.replicate 33 7) (List.replicate 2049 7) (List.replicate 17 7) := by
    refine demo_fits ⟨by decide, by decide, by decide, by decide, by decide, by decide, by decide, ?_⟩ ?_ (by decide) (by decide) (by decide)
      (by decide +kernel) (by decide +kernel)
    · unfold HeaderOk; decide +kernel
    · unfold HeadersFit HeaderOk; decide +kernel
  have := (C85_report demoCfg_ok (fun _ => none) (fun _ => []) demoCtx_ok demoNum hf demoSensors_ok car (by decide) (by decide)).1
  rw [this, show autosText demoSensors = str ("{\"obstacle\":{\"distance\":25,\"units\":\"cm\"}," ++
        "\"grayscale\":{\"left\":310,\"center\":41,\"right\":65535},\"depth\":{\"distance\":0.5,\"units\":\"cm\"}," ++
        "\"width\":{\"distance\":-12.25,\"units\":\"cm\"}}") by decide +kernel]

theorem demo_env : Env (fun _ => none) (fun _ => []) demoCtx.room := ⟨by simp, by decide, by simp⟩

/-- C86 applies to any bytes: here a request that is carried out, something that is no request, and a round of the loop. -/
example (dirs : Wheel → Bool) {w : World} {outs : List (Option Outcome)}
    (hp : play demoCfg (fun _ => none) (fun _ => []) demoNum (start dirs)
      [.sense 12, .request demoCtx (List.replicate 33 7) (List.replicate 2049 7) (List.replicate 17 7) demoSensors (str "GET /" ++ [200, 0, 13, 10]),
       .request demoCtx (List.replicate 33 7) (List.replicate 2049 7) (List.replicate 17 7) demoSensors (demoPost "/Power" (str "{\"power\": 75}")).text] = .ok (w, outs)) :
    Car.Fine w.car := by
  refine (C86_any_bytes demoCfg_ok demoNum (agrees_start dirs).fine ?_ hp).2
  intro e he
  simp only [List.mem_cons, List.not_mem_nil, or_false] at he
  rcases he with rfl | rfl | rfl
  · trivial
  · exact ⟨demoCtx_ok, demo_env, demoSensors_ok, by rw [List.length_replicate], by rw [List.length_replicate], by rw [List.length_replicate], by decide +kernel⟩
  · exact ⟨demoCtx_ok, demo_env, demoSensors_ok, by rw [List.length_replicate], by rw [List.length_replicate], by rw [List.length_replicate], by decide +kernel⟩

/-- The process lives, and the wheels run at 50. -/
example (dirs : Wheel → Bool) : ∃ w outs, play demoCfg (fun _ => none) (fun _ => []) demoNum (start dirs)
      [.sense 40, .request demoCtx (List.replicate 33 7) (List.replicate 2049 7) (List.replicate 17 7) demoSensors (demoPost "/Power" (str "{\"power\": 50}")).text] =
        .ok (w, outs) ∧ ∀ v, w.motors v = ⟨true, 50⟩ := by
  have := C90_power_partial demoCfg_ok (fun _ => none) (fun _ => []) demoCtx_ok demo_fifty (q := demoPost "/Power" (str "{\"power\": 50}"))
    (demoPost_fits nice_power (by decide +kernel)) demoSensors fine_init (by decide) (by decide) (demo_json _ _) (by unfold Advises; decide +kernel)
  have e : play demoCfg (fun _ => none) (fun _ => []) demoNum (start dirs)
      [.sense 40, .request demoCtx (List.replicate 33 7) (List.replicate 2049 7) (List.replicate 17 7) demoSensors (demoPost "/Power" (str "{\"power\": 50}")).text] =
      .ok (((start dirs).step (.power 50)).step (.sense 40),
        [none, some (.sent (okText (Target.report (step {} (.power 50)).1 50 .power)).text false)]) := by
    simp only [play, Res.ok_bind, start, this]
    rfl
  exact ⟨_, _, e, fun v => by cases v <;> rfl⟩

/-- C87 applies to a body that is JSON but not what the car wants. -/
example (s : Sensors) (hs : s.Ok) {car : Car} (hcar : Car.Fine car) :
    ∃ y out sd, serve demoCfg (fun _ => none) (fun _ => []) demoCtx demoNum (List.replicate 33 7) (List.replicate 2049 7) (List.replicate 17 7) false s car
      ((demoPost "/turn" []).line ++ (headersText demoCreate.headers ++ (crlf ++ (str "[true]" ++ str "x")))) = .ok (y, .sent out sd) ∧ Complete out := by
  have hf : LineFits demoCfg demoCtx (demoPost "/turn" []) (headersText demoCreate.headers ++ (crlf ++ (str "[true]" ++ str "x"))) (List.replicate 33 7)
      (List.replicate 2049 7) (List.replicate 17 7) :=
    ⟨Request.Ok.line (demoPost_fits (c := demoCtx) (after := []) nice_turn (by decide +kernel)).ok, by decide, by decide, by decide, by rw [List.length_replicate],
      by rw [List.length_replicate], by rw [List.length_replicate], by decide +kernel⟩
  obtain ⟨y, out, sd, h1, h2, _⟩ := C87_answered_partial demoCfg_ok demoCtx_ok demo_env demoNum hf hs hcar (fun _ _ =>
    ⟨demoCreate.headers, str "[true]", str "x", rfl, by unfold HeadersFit HeaderOk; decide +kernel,
      ⟨(str "content-type", str "application/json"), by decide, by unfold IsType; decide +kernel⟩,
      fun _ => ⟨[], .arr [] (.cons (.atom (.bool true)) [] [] .nil), [], by decide, by simp [Ws], by simp [Value.Ok, Elems.Ok, Atom.Ok, Ws],
        by simp [ShortV, ShortE], by decide, by simp⟩⟩)
  exact ⟨y, out, sd, h1, h2⟩

/-- A request with a number and without Content-Type. -/
def demoBare : Request := { demoPost "/Power" (str "{\"power\": 50}") with headers := [(str "Host", str "x")] }

theorem demoBare_fits : Fits demoCfg demoCtx demoBare [] (List.replicate 33 7) (List.replicate 2049 7) (List.replicate 17 7) := by
  refine demo_fits ⟨by decide, by decide, by decide, by decide, by decide, by decide, by decide, ?_⟩ ?_ (by decide) (by decide) (by decide)
    (by decide +kernel) (by decide +kernel)
  · unfold HeaderOk; decide +kernel
  · unfold HeadersFit HeaderOk; decide +kernel

/-- So the full statement is false. -/
theorem C87_violated : ¬ C87Full := by
  intro h
  obtain ⟨y, out, sd, h1, h2⟩ := h demoCfg (fun _ => none) (fun _ => []) demoCtx demoNum demoBare [] (List.replicate 33 7) (List.replicate 2049 7)
    (List.replicate 17 7) demoSensors {} demoCfg_ok demoCtx_ok demo_env demoBare_fits demoSensors_ok fine_init
  rw [C87_violated_no_type demoCfg_ok _ _ demoCtx_ok demoNum demoBare_fits demoSensors {} .power (by decide) (by decide) (by unfold IsType; decide +kernel)] at h1
  simp only [Res.ok.injEq, Prod.mk.injEq, Outcome.sent.injEq] at h1
  rw [← h1.2.1] at h2
  exact not_complete_nil h2

/-- C88: six characters are enough to block a thread for ever. -/
theorem demo_hang (s : Sensors) (car : Car) :
    serve demoCfg (fun _ => none) (fun _ => []) demoCtx demoNum (List.replicate 33 7) (List.replicate 2049 7) (List.replicate 17 7) false s car
      (demoPost "/turn" (str "{\"" ++ str "turn")).text = .running :=
  C88_violated_hang demoCfg_ok _ _ demoCtx_ok demoNum (demoPost_fits nice_turn (by decide +kernel)) s car .turn (by decide) (by decide) (demo_json _ _)
    (w := str "turn") (by unfold Plain; decide) (by decide) rfl

/-- C88: and 1033 are enough to write over the end of the block. -/
example (s : Sensors) (car : Car) :
    serve demoCfg (fun _ => none) (fun _ => []) { demoCtx with fuel := 1300 } demoNum (List.replicate 33 7) (List.replicate 2049 7) (List.replicate 17 7) false s car
      (demoPost "/turn" (str "{\"" ++ (List.replicate 1033 97 ++ (str "\"" ++ str ":1}")))).text = .ub := by
  have e1 : (str "{\"").length = 2 := by decide
  have e2 : (str "\"").length = 1 := by decide
  have e3 : (str ":1}").length = 3 := by decide
  refine C88_violated_overflow demoCfg_ok _ _ (demoCtx_more 1300) demoNum (demoPost_fits nice_turn ?_) s car .turn (by decide) (by decide) (demo_json _ _)
    (w := List.replicate 1033 97) (r := str ":1}") ?_ (by rw [List.length_replicate]) (by rw [List.length_replicate]; omega) rfl
  · simp only [List.length_append, List.length_replicate, e1, e2, e3, List.length_nil]
    show _ ≤ 1300
    omega
  · intro x hx
    rw [List.mem_replicate] at hx
    rw [hx.2]
    unfold Plain
    decide

/-- C88: the exception. -/
example (s : Sensors) (car : Car) (w : List Byte) (hw : ∀ x ∈ w, printable x = true) (hl : w.length = 1024) (rest : List Byte) (hrest : rest.length ≤ 100) :
    serve demoCfg (fun _ => none) (fun _ => []) { demoCtx with fuel := 1300 } demoNum (List.replicate 33 7) (List.replicate 2049 7) (List.replicate 17 7) false s car
      ((demoPost "/turn" []).line ++ (str "A" ++ ([58, 32] ++ (w ++ 32 :: 121 :: rest)))) = .ok ((car, []), .terminated) := by
  refine C88_violated_crash (c := { demoCtx with fuel := 1300 }) demoCfg_ok _ _ (demoCtx_more 1300) demoNum
    ⟨Request.Ok.line (demoPost_fits (c := demoCtx) (after := []) nice_turn (by decide +kernel)).ok, by decide, by decide, by decide, by rw [List.length_replicate],
      by rw [List.length_replicate], by rw [List.length_replicate], ?_⟩
    s car .turn (by decide) (by decide) ?_ (by decide) (by decide) (by decide) (by decide +kernel) hw hl (by decide)
  · have e1 : (demoPost "/turn" []).line.length ≤ 100 := by decide +kernel
    have e2 : (str "A").length = 1 := by decide
    simp only [List.length_append, List.length_cons, hl, e2, List.length_nil]
    show _ ≤ 1300
    omega
  · rintro ⟨p, hp, h⟩
    simp only [demoCfg, Option.some.injEq] at hp
    subst hp
    exact absurd h (by decide +kernel)

/-- So the full statement is false. -/
theorem C88_violated : ¬ C88Full := by
  intro h
  obtain ⟨y, out, sd, h1⟩ := h demoCfg (fun _ => none) (fun _ => []) demoCtx demoNum (demoPost "/turn" (str "{\"" ++ str "turn")).text (List.replicate 33 7)
    (List.replicate 2049 7) (List.replicate 17 7) demoSensors {} demoCfg_ok demoCtx_ok demo_env (by rw [List.length_replicate]) (by rw [List.length_replicate])
    (by rw [List.length_replicate]) (by decide +kernel) demoSensors_ok fine_init
  rw [demo_hang] at h1
  cases h1

/-- C88 applies to bytes that are no request. -/
example (s : Sensors) (hs : s.Ok) (car : Car) :
    ∃ y out sd, serve demoCfg (fun _ => none) (fun _ => []) demoCtx demoNum (List.replicate 33 7) (List.replicate 2049 7) (List.replicate 17 7) false s car
      (str "PUT /power" ++ [200, 0, 13, 10]) = .ok (y, .sent out sd) ∧ (out = [] ∨ Complete out) := by
  refine C88_returns_partial demoCfg_ok demoCtx_ok demo_env demoNum (by rw [List.length_replicate]) (by rw [List.length_replicate])
    (by rw [List.length_replicate]) (by decide +kernel) hs car ?_
  intro l hl h
  have : (match requestLine demoCfg demoCtx.fuel (List.replicate 33 7) (List.replicate 2049 7) (List.replicate 17 7) (str "PUT /power" ++ [200, 0, 13, 10]) with
    | .ok (some l) => decide (l.method.map lower ≠ str "post") | _ => true) = true := by decide +kernel
  rw [hl] at this
  exact of_decide_eq_true this h.1

/-- C89: the request, when the car runs at full speed. -/
example (s : Sensors) : serve demoCfg (fun _ => none) (fun _ => []) demoCtx demoNum (List.replicate 33 7) (List.replicate 2049 7) (List.replicate 17 7) false s
      ⟨true, 100, 0, true⟩ ((demoPost "/shutdown" []).text ++ str "more") =
    .ok ((⟨true, 100, 0, true⟩, [.reset]), .sent (okText (str "Server is shuting down...")).text true) :=
  (C89_request demoCfg_ok _ _ demoCtx_ok demoNum (demoPost_fits nice_shutdown (by decide +kernel)) s _ (by decide) (by decide)).1

/-- C89: the way is free. -/
example (dirs : Wheel → Bool) : Still ((Racing.run ⟨start dirs, none⟩ [.request (.power 100), .decide 80]).shutdown (some 35)).world :=
  (C89_stops_partial _ _ rfl (by
    intro d hd
    cases hd
    rw [show (Racing.run ⟨start dirs, none⟩ [.request (.power 100), .decide 80]).world.car = ⟨true, 100, 0, true⟩ from rfl]
    decide)).1

/-- C89: something is 12 cm ahead. -/
example (dirs : Wheel → Bool) (v : Wheel) :
    ((Racing.run ⟨start dirs, none⟩ [.request (.power 75), .request (.turn 30)]).shutdown (some 12)).world.motors v = ⟨true, if v.left = true then 61 else 39⟩ := by
  have hc : (Racing.run ⟨start dirs, none⟩ [.request (.power 75), .request (.turn 30)]).world.car = ⟨true, 75, 30, true⟩ := rfl
  obtain ⟨l, r, _, _, h3, h4, h5⟩ := C89_violated_drives dirs [.request (.power 75), .request (.turn 30)] 12 rfl (by rw [hc]; decide)
  rw [h3 v]
  rw [hc] at h4 h5
  have h4' : (l : Int) - r = 22 := h4
  have h5' : (l : Int) + r = 100 := by rw [h5]; decide
  have e1 : l = 61 := by omega
  have e2 : r = 39 := by omega
  rw [e1, e2]
  rfl

end Instances

end Abc.CarWire
