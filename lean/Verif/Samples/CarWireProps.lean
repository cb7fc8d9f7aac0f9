import Verif.Samples.CarProps
import Verif.Samples.CarWire
import Verif.Samples.GameWireTotal
import Mathlib.Tactic.Linarith
import Mathlib.Algebra.Order.Ring.Rat

/-!
# The car at the level of bytes

The requests a client can make, as bytes, what they do to the wheels, and the responses, as bytes.
-/

namespace Abc.CarWire

open Abc.Ascii Abc.Stream Abc.Http Abc.Wire Abc.Json Abc.GameWire Abc.Car
open Abc.Endpoint (Config str mem)

/-! ## Numbers -/

/-- `n` is `q` without its fraction. -/
def Whole (q : Rat) (n : Int) : Prop := (0 ≤ q ∧ (n : Rat) ≤ q ∧ q < n + 1) ∨ (q < 0 ∧ (n : Rat) - 1 < q ∧ q ≤ n)

theorem trunc_pos {q : Rat} (h : 0 ≤ q) : trunc q = q.floor := by
  unfold trunc
  have hn : 0 ≤ q.num := Rat.num_nonneg.2 h
  rw [Rat.floor_def, Int.tdiv_eq_ediv_of_nonneg hn]

theorem trunc_neg (q : Rat) : trunc (-q) = -trunc q := by
  unfold trunc
  rw [Rat.neg_num, Rat.neg_den, Int.neg_tdiv]

theorem trunc_whole (q : Rat) : Whole q (trunc q) := by
  by_cases h : 0 ≤ q
  · left
    rw [trunc_pos h]
    exact ⟨h, Rat.floor_le q, by have := Rat.lt_floor_add_one q; push_cast at this; exact this⟩
  · right
    have h' : q < 0 := not_le.1 h
    have hp : 0 ≤ -q := by linarith
    have e : trunc q = -trunc (-q) := by rw [trunc_neg]; omega
    rw [e, trunc_pos hp]
    have h1 := Rat.floor_le (-q)
    have h2 := Rat.lt_floor_add_one (-q)
    push_cast at h2
    push_cast
    exact ⟨h', by linarith, by linarith⟩

theorem whole_unique {q : Rat} {n m : Int} (h : Whole q n) (k : Whole q m) : n = m := by
  rcases h with ⟨h1, h2, h3⟩ | ⟨h1, h2, h3⟩ <;> rcases k with ⟨k1, k2, k3⟩ | ⟨k1, k2, k3⟩
  · have a : (n : Rat) < (m + 1 : Int) := by push_cast; linarith
    have b : (m : Rat) < (n + 1 : Int) := by push_cast; linarith
    have a := Rat.intCast_lt_intCast.1 a
    have b := Rat.intCast_lt_intCast.1 b
    omega
  · linarith
  · linarith
  · have a : ((n - 1 : Int) : Rat) < m := by push_cast; linarith
    have b : ((m - 1 : Int) : Rat) < n := by push_cast; linarith
    have a := Rat.intCast_lt_intCast.1 a
    have b := Rat.intCast_lt_intCast.1 b
    omega

example : Whole (759 / 10) 75 ∧ Whole (-1 / 2) 0 := by unfold Whole; norm_num

/-! ## Resources -/

theorem whenResource_eq {r : List Byte} (h0 : (0 : Byte) ∉ r) (hl : r.length ≤ 2048) (name : String) (hn : (str name).map lower = str name)
    (hz : (0 : Byte) ∉ str name) (hs : (str name).length ≤ 100) (yes no : Done) :
    whenResource r name yes no = if r.map lower = str name then yes else no := by
  unfold whenResource
  rw [Endpoint.equal_i h0 hz (by unfold sizeMax; omega) (by unfold sizeMax; omega), hn]
  by_cases h : r.map lower = str name <;> simp [h]

theorem carHandler_eq {r : List Byte} (h0 : (0 : Byte) ∉ r) (hl : r.length ≤ 2048) (c : Ctx) (num : List Byte → Option Rat) (s : Sensors)
    (car : Car) (st : Rd) (m : List Byte) :
    carHandler c num s car st m r =
      if r.map lower = str "/power" then processPower c num car st m else
      if r.map lower = str "/turn" then processTurn c num car st m else
      if r.map lower = str "/autos" then processAutos c car s st m else
      if r.map lower = str "/servo" then processServo c num car st m else
      if r.map lower = str "/shutdown" then processShutdown c car st m else
      .ok ((car, []), refuse c st.s "404" "Not Found" "The requested resource was not found.") := by
  unfold carHandler
  rw [whenResource_eq h0 hl _ (by decide) (by decide) (by decide), whenResource_eq h0 hl _ (by decide) (by decide) (by decide),
    whenResource_eq h0 hl _ (by decide) (by decide) (by decide), whenResource_eq h0 hl _ (by decide) (by decide) (by decide),
    whenResource_eq h0 hl _ (by decide) (by decide) (by decide)]

/-! ## What the requests with a number say -/

/-- What can be set. -/
inductive Target where
  | power | turn | servo
  deriving DecidableEq, Repr

/-- The resource. -/
def Target.path : Target → List Byte
  | .power => str "/power"
  | .turn => str "/turn"
  | .servo => str "/servo"

/-- The name of the member of the body. -/
def Target.key : Target → String
  | .power => "power"
  | .turn => "turn"
  | .servo => "angle"

/-- The largest number. -/
def Target.limit : Target → Int
  | .power => 100
  | .turn => 90
  | .servo => 90

/-- The numbers that are carried out. -/
def Target.accepts : Target → List Int
  | .power => [-100, -75, -50, -25, 0, 25, 50, 75, 100]
  | .turn => [-90, -60, -30, 0, 30, 60, 90]
  | .servo => [-90, -60, -30, 0, 30, 60, 90]

/-- What happens to the car. -/
def Target.event (n : Int) : Target → Car.Event
  | .power => .power n
  | .turn => .turn n
  | .servo => .servo n

/-- A number in decimal. -/
def signed (n : Int) : List Byte := if n < 0 then str "-" ++ dec n.natAbs else dec n.natAbs

/-- The text that confirms it: the state of the car afterwards. -/
def Target.report (car : Car) (n : Int) : Target → List Byte
  | .power => str (if car.forward = true then "power: forward=1, power=" else "power: forward=0, power=") ++ signed car.power ++ str ", turn=" ++ signed car.turn
  | .turn => str "turn: power=" ++ signed car.power ++ str ", turn=" ++ signed car.turn
  | .servo => str "servo: angle=" ++ signed n

/-- The text of the refusal. -/
def Target.shown : Target → String
  | .power => "An invalid JSON payload was supplied. Must be: {\"power\": 50}."
  | .turn => "An invalid JSON payload was supplied. Must be: {\"turn\": 50}."
  | .servo => "An invalid JSON payload was supplied. Must be: {\"servo\": 50}."

/-- The first member of the body has this name and a number as value; `v` is what the number is worth (`none` if it is
beyond all numbers). -/
inductive Carries (c : Ctx) (num : List Byte → Option Rat) (name : String) : List Byte → Option Rat → Prop
  | mk {lead w r a1 a2 t1 l1 : List Byte} {n1 : Spec.Str} {x : Spec.Num} {rest : Spec.Mems} {v : Option Rat} :
      Spec.Ws lead → (Spec.Value.obj w (.cons n1 a1 a2 (.atom (.num x)) t1 l1 rest)).Ok → n1.val = str name → num (c.atof x.text) = v →
      Carries c num name (lead ++ ((Spec.Value.obj w (.cons n1 a1 a2 (.atom (.num x)) t1 l1 rest)).text ++ r)) v

theorem Carries.append {c : Ctx} {num : List Byte → Option Rat} {name : String} {body : List Byte} {v : Option Rat}
    (h : Carries c num name body v) (after : List Byte) : Carries c num name (body ++ after) v := by
  obtain ⟨h1, h2, h3, h4⟩ := h
  rename_i lead w r a1 a2 t1 l1 n1 x rest
  have := Carries.mk (c := c) (r := r ++ after) h1 h2 h3 h4
  simpa using this

section Bodies
open Spec

theorem expectNumber_ok {c : Ctx} (hc : CtxOk c) {num : List Byte → Option Rat} {x : Num} {lo hi : Int}
    {p q : Pos} (hs : ReadsTok 64 p (.num x.text) q) {b : List Byte} (hb : b.length = 1041)
    (hf : p.r.length + 27 ≤ c.fuel) (n : Nat) (it : Json.Item) :
    expectNumber c num lo hi ⟨⟨In.ofList p.r, p.e, p.ls, n⟩, it, some b⟩ =
      .ok ((num (c.atof x.text)).bind fun v => if (lo : Rat) ≤ v ∧ v ≤ (hi : Rat) then some (trunc v) else none) := by
  obtain ⟨n', b', g1, l1, p1⟩ := getTok_ok hc.atof hs hb (by simp [tokChars]) hf n
  unfold expectNumber
  simp only [Tok.block, Option.getD_some]
  rw [g1, Res.ok_bind]
  simp only [tokItem, ne_eq, not_true_eq_false, if_false, Tok.value, Tok.block, Option.getD_some]
  have p1' : (b'.drop 8).take 8 = c.atof x.text := p1
  rw [p1']
  cases num (c.atof x.text) <;> rfl

theorem numberBody_ok {c : Ctx} (hc : CtxOk c) {num : List Byte → Option Rat} {name : String} (hk : (0 : Byte) ∉ str name)
    (hkl : (str name).length ≤ 1024) {lo hi : Int} {body : List Byte} {v : Option Rat} (hb : Carries c num name body v)
    (hf : body.length + 27 ≤ c.fuel) :
    numberBody c num name lo hi body = .ok (v.bind fun v => if (lo : Rat) ≤ v ∧ v ≤ (hi : Rat) then some (trunc v) else none) := by
  obtain ⟨hl, hv, e1, e2⟩ := hb
  rename_i lead w r a1 a2 t1 l1 n1 x rest
  obtain ⟨n, b, hb, h1⟩ := begin_ok hc hl r hf
  simp only [Value.Ok] at hv
  have e : (w ++ ((Mems.cons n1 a1 a2 (.atom (.num x)) t1 l1 rest).text ++ 125 :: r)).length + 1 ≤
      (lead ++ ((Value.obj w (.cons n1 a1 a2 (.atom (.num x)) t1 l1 rest)).text ++ r)).length := by
    simp [Value.text]
  obtain ⟨tail, lead', hl', ht, hs⟩ := member_ok hv.2 hv.1 r
  obtain ⟨hw, hm⟩ := hv
  simp only [Mems.Ok, Value.Ok, Atom.Ok] at hm
  have s1 := step_atom (max := 64) (a := .num x) (e := false) hm.2.2.2.1 hm.2.2.1 rfl ht (by simp)
  have q1 := hs.1
  simp only [Value.text, Atom.text] at q1
  obtain ⟨m1, c1, i1, k1, g1⟩ := expectName_ok hc e1 hk hkl hs hb (by dsimp only; omega) n .beginObject
  have g2 := expectNumber_ok hc (num := num) (lo := lo) (hi := hi) s1 k1 (by simp only [Atom.text]; omega) m1 i1
  unfold numberBody
  rw [h1, Res.ok_bind]
  simp only [ne_eq, not_true_eq_false, if_false]
  rw [g1, Res.ok_bind]
  simp only [Value.text]
  rw [g2, e2]

end Bodies

/-! ## Responses -/

/-- A response 200 in plain text. -/
def okText (body : List Byte) : Http.Response := mkResponse (str "200") (str "OK") (some (str "text/plain; charset=utf-8")) body

/-- A response 400 in plain text. -/
def badText (body : String) : Http.Response := mkResponse (str "400") (str "Bad Request") (some (str "text/plain; charset=utf-8")) (str body)

theorem fine_ok : Wire.Fine (str "200") (str "OK") (some plain) := fine_plain _ _ (by decide +kernel)

theorem succeed_any {c : Ctx} (hr : 2048 ≤ c.room) {body : List Byte} (hb : body.length ≤ 512) (s : In) :
    (okText body).Ok ∧ Complete (okText body).text ∧ succeed c s body = .sent (if s.good then (okText body).text else []) false := by
  have hok := mkResponse_ok fine_ok body
  have e : okText body = mkResponse (str "200") (str "OK") (some plain) body := rfl
  rw [e]
  refine ⟨hok, mkResponse_complete hok, ?_⟩
  unfold succeed
  rw [simpleCalls_eq, answer_response fine_ok body (by omega) [body] (by simp) s c.room (by omega) false]

theorem bad_any {c : Ctx} (hr : 2048 ≤ c.room) (body : String) (hb : (str body).length ≤ 512) (s : In) :
    (badText body).Ok ∧ Complete (badText body).text ∧ bad c s body = .sent (if s.good then (badText body).text else []) false := by
  obtain ⟨r, e, h1, h2, h3⟩ := refuse_any (n := 400) (status := "400") (reason := "Bad Request") hr body (by decide) (by decide +kernel) hb s
  have e' : badText body = r := by rw [e]; rfl
  rw [e']
  exact ⟨h1, h2, h3⟩

theorem decInt_signed (n : Int) : decInt n = signed n := by
  unfold decInt signed
  have : str "-" = [45] := by decide
  rw [this]; rfl

theorem signed_short {n : Int} (h1 : -100 ≤ n) (h2 : n ≤ 100) : (signed n).length ≤ 4 := by
  have := dec_length 3 n.natAbs (by omega) (by omega)
  have e : (str "-").length = 1 := by decide
  unfold signed
  split
  · rw [List.length_append, e]; omega
  · omega

theorem report_short {car : Car} (h : Car.Fine car) {n : Int} (t : Target) (hn : n ∈ t.accepts) : (t.report car n).length ≤ 256 := by
  have hp : (signed car.power).length ≤ 4 := by
    have := h.power
    simp only [List.mem_cons, List.not_mem_nil, or_false] at this
    exact signed_short (by omega) (by omega)
  have ht : (signed car.turn).length ≤ 4 := by
    have := h.turn
    simp only [Turns, List.mem_cons, List.not_mem_nil, or_false] at this
    exact signed_short (by omega) (by omega)
  have e0 : (str "power: forward=1, power=").length = 24 := by decide +kernel
  have e1 : (str "power: forward=0, power=").length = 24 := by decide +kernel
  have e2 : (str ", turn=").length = 7 := by decide +kernel
  have e3 : (str "turn: power=").length = 12 := by decide +kernel
  have e4 : (str "servo: angle=").length = 13 := by decide +kernel
  cases t with
  | power =>
    unfold Target.report
    dsimp only
    split <;> simp only [List.length_append, e0, e1, e2] <;> omega
  | turn =>
    simp only [Target.report, List.length_append, e2, e3]; omega
  | servo =>
    have : (signed n).length ≤ 4 := by
      simp only [Target.accepts, List.mem_cons, List.not_mem_nil, or_false] at hn
      exact signed_short (by omega) (by omega)
    simp only [Target.report, List.length_append, e4]; omega

/-- The code for the resource. -/
def Target.process (c : Ctx) (num : List Byte → Option Rat) (car : Car) (st : Rd) (m : List Byte) : Target → Done
  | .power => processPower c num car st m
  | .turn => processTurn c num car st m
  | .servo => processServo c num car st m

/-- The numbers that reach `verify_range`. -/
def Target.within (t : Target) (v : Option Rat) : Option Int :=
  v.bind fun x => if ((-t.limit : Int) : Rat) ≤ x ∧ x ≤ (t.limit : Rat) then some (trunc x) else none

/-- What the three have in common, with the effect and the texts as they are above. -/
theorem process_eq (t : Target) (c : Ctx) (num : List Byte → Option Rat) (car : Car) (st : Rd) (m : List Byte) :
    t.process c num car st m = whenPost c (car, []) st m (whenJson c (car, []) st fun st =>
      (numberBody c num t.key (-t.limit) t.limit st.s.rest).bind fun
      | none => .ok ((car, []), bad c st.s t.shown)
      | some n => if n ∈ t.accepts then .ok (step car (t.event n), succeed c st.s (t.report (step car (t.event n)).1 n))
        else .ok ((car, []), bad c st.s "Value not in range.")) := by
  have hp : ∀ n, (inRange n (-100) 100 25 = false) ↔ n ∉ ([-100, -75, -50, -25, 0, 25, 50, 75, 100] : List Int) := fun n => by
    rw [← Bool.not_eq_true]; exact not_congr (power_range n)
  have ht : ∀ n, (inRange n (-90) 90 30 = false) ↔ n ∉ ([-90, -60, -30, 0, 30, 60, 90] : List Int) := fun n => by
    rw [← Bool.not_eq_true]; exact not_congr (turn_range n)
  have e1 : ∀ car : Car, powerText car = Target.report car 0 .power := fun car => by
    have e1 : str "power: forward=1, power=" = str "power: forward=" ++ (dec 1 ++ str ", power=") := by decide +kernel
    have e2 : str "power: forward=0, power=" = str "power: forward=" ++ (dec 0 ++ str ", power=") := by decide +kernel
    unfold powerText Target.report
    dsimp only
    cases car.forward
    · simp only [Bool.false_eq_true, if_false, e2, decInt_signed, List.append_assoc]
    · simp only [if_true, e1, decInt_signed, List.append_assoc]
  have e2 : ∀ car : Car, turnText car = Target.report car 0 .turn := fun car => by
    simp only [turnText, Target.report, decInt_signed, List.append_assoc]
  have e3 : ∀ (car : Car) (n : Int), servoText n = Target.report car n .servo := fun car n => by
    simp only [servoText, Target.report, decInt_signed]
  cases t with
  | power =>
    unfold Target.process processPower processNumber
    simp only [hp]
    congr 2; funext st
    unfold Target.key Target.limit Target.shown powerShown Target.accepts Target.event
    dsimp only
    congr 1; funext x
    cases x with
    | none => rfl
    | some n =>
      dsimp only
      split
      · rfl
      · rw [if_pos (not_not.1 (by assumption)), e1]; rfl
  | turn =>
    unfold Target.process processTurn processNumber
    simp only [ht]
    congr 2; funext st
    unfold Target.key Target.limit Target.shown turnShown Target.accepts Target.event
    dsimp only
    congr 1; funext x
    cases x with
    | none => rfl
    | some n =>
      dsimp only
      split
      · rfl
      · rw [if_pos (not_not.1 (by assumption)), e2]; rfl
  | servo =>
    unfold Target.process processServo processNumber
    simp only [ht]
    congr 2; funext st
    unfold Target.key Target.limit Target.shown servoShown Target.accepts Target.event
    dsimp only
    congr 1; funext x
    cases x with
    | none => rfl
    | some n =>
      dsimp only
      split
      · rfl
      · rw [if_pos (not_not.1 (by assumption)), e3 (step car (.servo n)).1]; rfl

theorem handler_target (t : Target) {r : List Byte} (h0 : (0 : Byte) ∉ r) (hl : r.length ≤ 2048) (hr : r.map lower = t.path) (c : Ctx)
    (num : List Byte → Option Rat) (s : Sensors) (car : Car) (st : Rd) (m : List Byte) :
    carHandler c num s car st m r = t.process c num car st m := by
  rw [carHandler_eq h0 hl, hr]
  cases t with
  | power => rw [if_pos (by decide)]; rfl
  | turn => rw [if_neg (by decide), if_pos (by decide)]; rfl
  | servo => rw [if_neg (by decide), if_neg (by decide), if_neg (by decide), if_pos (by decide)]; rfl

/-! ## C84: requests with a number -/

/-- The number `v` stands for the whole number `n` and is one the car carries out: it is within the limits, `n` is `v` without its
fraction, and is one of the steps of the scale. -/
def Wants (t : Target) (v : Option Rat) (n : Int) : Prop :=
  ∃ x, v = some x ∧ -(t.limit : Rat) ≤ x ∧ x ≤ t.limit ∧ Whole x n ∧ n ∈ t.accepts

theorem within_wants {t : Target} {v : Option Rat} {n : Int} : Wants t v n ↔ t.within v = some n ∧ n ∈ t.accepts := by
  unfold Wants Target.within
  constructor
  · rintro ⟨x, rfl, h1, h2, h3, h4⟩
    refine ⟨?_, h4⟩
    rw [Option.bind_some, if_pos ⟨by push_cast; exact h1, h2⟩, whole_unique h3 (trunc_whole x)]
  · rintro ⟨h, h4⟩
    cases v with
    | none => cases h
    | some x =>
      rw [Option.bind_some] at h
      by_cases hx : ((-t.limit : Int) : Rat) ≤ x ∧ x ≤ (t.limit : Rat)
      · rw [if_pos hx] at h
        cases h
        exact ⟨x, rfl, by have := hx.1; push_cast at this; exact this, hx.2, trunc_whole x, h4⟩
      · rw [if_neg hx] at h; cases h

theorem serve_number {cfg : Config} (hcfg : ConfigOk cfg) (stat : List Byte → Option Nat) (content : List Byte → List Byte) {c : Ctx}
    (hc : CtxOk c) (num : List Byte → Option Rat) {q : Request} {after mm mp mc : List Byte} (hf : Fits cfg c q after mm mp mc) (s : Sensors)
    (car : Car) (t : Target) (hm : q.method.map lower = str "post") (hr : q.resource.map lower = t.path) (hj : SendsJson q.headers) :
    serve cfg stat content c num mm mp mc false s car (q.text ++ after) =
      (numberBody c num t.key (-t.limit) t.limit (q.body ++ after)).bind fun
      | none => .ok ((car, []), bad c (In.ofList (q.body ++ after)) t.shown)
      | some n => if n ∈ t.accepts then .ok (step car (t.event n), succeed c (In.ofList (q.body ++ after)) (t.report (step car (t.event n)).1 n))
        else .ok ((car, []), bad c (In.ofList (q.body ++ after)) "Value not in range.") := by
  have hlen : (headersText q.headers).length + 4 ≤ c.fuel := by
    have := hf.fuel
    rw [List.length_append, q.text_length] at this
    omega
  have h3 := hf.resource
  unfold serve
  rw [serveWith_handler hcfg stat content hf (fun h => by have := hm.symm.trans h.1; revert this; decide),
    handler_target t (resource_zero hf.ok) (by omega) hr, process_eq]
  unfold whenPost
  rw [method_is hf.ok hf.method (m := "POST") hm (by decide) (by decide) (by decide)]
  dsimp only
  rw [whenJson_ok hc hf.headers hj _ hlen]
  rfl

theorem key_short (t : Target) : (0 : Byte) ∉ str t.key ∧ (str t.key).length ≤ 1024 := by cases t <;> decide +kernel

/-- C84.  A request to set the power, the turn or the angle of the servo, in any of its well-formed texts, with any
further headers, white space, members of the body and bytes behind it, and with any memory contents: if its number is one
the car carries out, then exactly what `Car.step` describes happens to the car, and the response is a complete 200 with the state
of the car after it. -/
theorem C84_carried_out {cfg : Config} (hcfg : ConfigOk cfg) (stat : List Byte → Option Nat) (content : List Byte → List Byte) {c : Ctx}
    (hc : CtxOk c) (num : List Byte → Option Rat) {q : Request} {after mm mp mc : List Byte} (hf : Fits cfg c q after mm mp mc) (s : Sensors)
    {car : Car} (hcar : Car.Fine car) (t : Target) (hm : q.method.map lower = str "post") (hr : q.resource.map lower = t.path)
    (hj : SendsJson q.headers) {v : Option Rat} (hb : Carries c num t.key q.body v) {n : Int} (hn : Wants t v n) :
    serve cfg stat content c num mm mp mc false s car (q.text ++ after) =
        .ok (step car (t.event n), .sent (okText (t.report (step car (t.event n)).1 n)).text false) ∧
      Complete (okText (t.report (step car (t.event n)).1 n)).text := by
  have hlen : (q.body ++ after).length + 27 ≤ c.fuel := by
    have := hf.fuel
    rw [List.length_append, q.text_length] at this
    rw [List.length_append]
    omega
  obtain ⟨hw, ha⟩ := within_wants.1 hn
  have hrep := report_short (fine_step hcar (t.event n)) t ha
  obtain ⟨-, k2, k3⟩ := succeed_any hc.room (body := t.report (step car (t.event n)).1 n) (by omega) (In.ofList (q.body ++ after))
  have hbody := numberBody_ok hc (lo := -t.limit) (hi := t.limit) (key_short t).1 (key_short t).2 (hb.append after) hlen
  unfold Target.within at hw
  rw [serve_number hcfg stat content hc num hf s car t hm hr hj, hbody, hw, Res.ok_bind]
  dsimp only
  rw [if_pos ha, k3]
  exact ⟨rfl, k2⟩

/-- C84.  If its number is not one the car carries out, then nothing happens to the car, no device is touched, and the response is a
complete 400. -/
theorem C84_refused {cfg : Config} (hcfg : ConfigOk cfg) (stat : List Byte → Option Nat) (content : List Byte → List Byte) {c : Ctx}
    (hc : CtxOk c) (num : List Byte → Option Rat) {q : Request} {after mm mp mc : List Byte} (hf : Fits cfg c q after mm mp mc) (s : Sensors)
    (car : Car) (t : Target) (hm : q.method.map lower = str "post") (hr : q.resource.map lower = t.path)
    (hj : SendsJson q.headers) {v : Option Rat} (hb : Carries c num t.key q.body v) (hn : ∀ n, ¬ Wants t v n) :
    ∃ body ∈ [t.shown, "Value not in range."],
      serve cfg stat content c num mm mp mc false s car (q.text ++ after) = .ok ((car, []), .sent (badText body).text false) ∧
      Complete (badText body).text := by
  have hlen : (q.body ++ after).length + 27 ≤ c.fuel := by
    have := hf.fuel
    rw [List.length_append, q.text_length] at this
    rw [List.length_append]
    omega
  have hbody := numberBody_ok hc (lo := -t.limit) (hi := t.limit) (key_short t).1 (key_short t).2 (hb.append after) hlen
  have hsh : (str t.shown).length ≤ 512 := by cases t <;> decide +kernel
  cases hw : t.within v with
  | none =>
    obtain ⟨-, k2, k3⟩ := bad_any hc.room t.shown hsh (In.ofList (q.body ++ after))
    refine ⟨t.shown, by simp, ?_, k2⟩
    unfold Target.within at hw
    rw [serve_number hcfg stat content hc num hf s car t hm hr hj, hbody, hw, Res.ok_bind]
    dsimp only
    rw [k3]; rfl
  | some n =>
    have ha : n ∉ t.accepts := fun ha => hn n (within_wants.2 ⟨hw, ha⟩)
    obtain ⟨-, k2, k3⟩ := bad_any hc.room "Value not in range." (by decide +kernel) (In.ofList (q.body ++ after))
    refine ⟨"Value not in range.", by simp, ?_, k2⟩
    unfold Target.within at hw
    rw [serve_number hcfg stat content hc num hf s car t hm hr hj, hbody, hw, Res.ok_bind]
    dsimp only
    rw [if_neg ha, k3]; rfl

/-! ## C85: the report of the sensors -/

/-- A distance in the report. -/
def distanceText (name : String) (text : List Byte) : List Byte :=
  str "\"" ++ str name ++ str "\":{\"distance\":" ++ text ++ str ",\"units\":\"cm\"}"

/-- The report. -/
def autosText (s : Sensors) : List Byte :=
  str "{" ++ distanceText "obstacle" s.obstacle ++ str ",\"grayscale\":{\"left\":" ++ dec s.left ++ str ",\"center\":" ++ dec s.center ++
    str ",\"right\":" ++ dec s.right ++ str "}," ++ distanceText "depth" s.depth ++ str "," ++ distanceText "width" s.width ++ str "}"

/-- The texts are those of numbers (of at most 25 characters), the grayscale values have 16 bits. -/
structure Sensors.Ok (s : Sensors) : Prop where
  obstacle : ∃ n : Spec.Num, n.Ok ∧ s.obstacle = n.text
  depth : ∃ n : Spec.Num, n.Ok ∧ s.depth = n.text
  width : ∃ n : Spec.Num, n.Ok ∧ s.width = n.text
  left : s.left < 2 ^ 16
  center : s.center < 2 ^ 16
  right : s.right < 2 ^ 16

section Report
open Spec

theorem num_zero_free {n : Num} (h : n.Ok) : (0 : Byte) ∉ n.text := by
  obtain ⟨h1, _, h3, h4, h5, _⟩ := h
  have hd : ¬ Digit 0 := by unfold Digit; decide
  intro h0
  simp only [Num.text, List.mem_append, Option.mem_toList] at h0
  rcases h0 with ((h0 | h0) | h0) | h0
  · rcases h1 0 h0 with h | h <;> revert h <;> decide
  · exact hd (h3 0 h0)
  · cases hf : n.frac with
    | none => rw [hf] at h0; cases h0
    | some d =>
      rw [hf] at h0
      rcases List.mem_cons.1 h0 with h | h
      · revert h; decide
      · exact hd ((h4 d hf).2 0 h)
  · cases he : n.exp with
    | none => rw [he] at h0; cases h0
    | some x =>
      obtain ⟨a, b, d⟩ := x
      rw [he] at h0
      obtain ⟨k1, k2, -, k4⟩ := h5 _ he
      simp only [expText, List.mem_cons, List.mem_append, Option.mem_toList] at h0
      rcases h0 with h | h | h
      · subst h; dsimp only at k1; rcases k1 with h | h <;> (clear * - h; revert h; decide)
      · rcases k2 0 h with h | h <;> revert h <;> decide
      · exact hd (k4 0 h)

def distanceValue (n : Num) : Value :=
  .obj [] (.cons (key "distance") [] [] (.atom (.num n)) [] [] (.cons (key "units") [] [] (.atom (.str (key "cm"))) [] [] .nil))

def autosValue (s : Sensors) (o d w : Num) : Value :=
  .obj [] (.cons (key "obstacle") [] [] (distanceValue o) [] [] (.cons (key "grayscale") [] []
    (.obj [] (.cons (key "left") [] [] (num s.left) [] [] (.cons (key "center") [] [] (num s.center) [] []
      (.cons (key "right") [] [] (num s.right) [] [] .nil)))) [] []
    (.cons (key "depth") [] [] (distanceValue d) [] [] (.cons (key "width") [] [] (distanceValue w) [] [] .nil))))

theorem autos_body {s : Sensors} (h : s.Ok) : jsonText 513 (autosToks s) = .ok (autosText s) ∧ (autosText s).length ≤ 512 := by
  obtain ⟨o, ho, eo⟩ := h.obstacle
  obtain ⟨d, hd, ed⟩ := h.depth
  obtain ⟨w, hw, ew⟩ := h.width
  have e1 : ∀ (name : String) (t : List Byte), distanceText name t = 34 :: (str name ++ 34 :: 58 :: 123 :: 34 :: (str "distance" ++ 34 :: 58 :: (t ++
      44 :: 34 :: (str "units" ++ 34 :: 58 :: 34 :: (str "cm" ++ [34, 125]))))) := fun name t => by
    have a1 : str "\"" = [34] := by decide
    have a2 : str "\":{\"distance\":" = 34 :: 58 :: 123 :: 34 :: (str "distance" ++ [34, 58]) := by decide
    have a3 : str ",\"units\":\"cm\"}" = 44 :: 34 :: (str "units" ++ 34 :: 58 :: 34 :: (str "cm" ++ [34, 125])) := by decide
    rw [distanceText, a1, a2, a3]
    simp
  have a1 : str "{" = [123] := by decide
  have a2 : str ",\"grayscale\":{\"left\":" = 44 :: 34 :: (str "grayscale" ++ 34 :: 58 :: 123 :: 34 :: (str "left" ++ [34, 58])) := by decide
  have a3 : str ",\"center\":" = 44 :: 34 :: (str "center" ++ [34, 58]) := by decide
  have a4 : str ",\"right\":" = 44 :: 34 :: (str "right" ++ [34, 58]) := by decide
  have a5 : str "}," = [125, 44] := by decide
  have a6 : str "," = [44] := by decide
  have a7 : str "}" = [125] := by decide
  have htext : (autosValue s o d w).text = autosText s := by
    rw [autosText, e1, e1, e1, a1, a2, a3, a4, a5, a6, a7, eo, ed, ew]
    simp [autosValue, distanceValue, Value.text, Mems.text, Mems.sep, num_text, key_text, Atom.text]
  have htoks : (autosValue s o d w).toks = autosToks s := by
    simp [autosValue, distanceValue, autosToks, distanceToks, Value.toks, Mems.toks, num_toks, key_val, Atom.tok, eo, ed, ew]
  have hlen : (autosText s).length ≤ 512 := by
    have l1 := dec_length 5 s.left (by omega) (by have := h.left; omega)
    have l2 := dec_length 5 s.center (by omega) (by have := h.center; omega)
    have l3 := dec_length 5 s.right (by omega) (by have := h.right; omega)
    have l4 : s.obstacle.length ≤ 25 := by rw [eo]; exact ho.2.2.2.2.2
    have l5 : s.depth.length ≤ 25 := by rw [ed]; exact hd.2.2.2.2.2
    have l6 : s.width.length ≤ 25 := by rw [ew]; exact hw.2.2.2.2.2
    have b1 : (str "\"").length = 1 := by decide
    have b2 : (str "\":{\"distance\":").length = 14 := by decide
    have b3 : (str ",\"units\":\"cm\"}").length = 14 := by decide
    have b4 : (str ",\"grayscale\":{\"left\":").length = 21 := by decide
    have b5 : (str ",\"center\":").length = 10 := by decide
    have b6 : (str ",\"right\":").length = 9 := by decide
    have b7 : (str "obstacle").length = 8 := by decide
    have b8 : (str "depth").length = 5 := by decide
    have b9 : (str "width").length = 5 := by decide
    unfold autosText distanceText
    rw [a1, a5, a6, a7]
    simp only [List.length_append, b1, b2, b3, b4, b5, b6, b7, b8, b9, List.length_cons, List.length_nil]
    omega
  refine ⟨?_, hlen⟩
  rw [← htoks, jsonText_value (autosValue s o d w) ?_ ?_ (by rw [htext]; omega) ?_, htext]
  · simp [autosValue, distanceValue, Value.Compact, Mems.Compact, num_compact, key, Atom.Compact]
  · simp [autosValue, distanceValue, Value.depth, Mems.depth, num_depth]
  · rw [htext]
    have z1 : (0 : Byte) ∉ s.obstacle := by rw [eo]; exact num_zero_free ho
    have z2 : (0 : Byte) ∉ s.depth := by rw [ed]; exact num_zero_free hd
    have z3 : (0 : Byte) ∉ s.width := by rw [ew]; exact num_zero_free hw
    unfold autosText distanceText
    simp only [List.mem_append, z1, z2, z3, dec_zero_free, or_false]
    decide

end Report

/-- A response 200 with JSON. -/
def okJson (body : List Byte) : Http.Response := mkResponse (str "200") (str "OK") (some (str "application/json")) body

theorem autos_any {c : Ctx} (hr : 2048 ≤ c.room) {s : Sensors} (hs : s.Ok) (car : Car) (st : Rd) {m : List Byte} (hm : (0 : Byte) ∉ m) (hl : m.length ≤ 32)
    (hg : m.map lower = str "get") :
    (okJson (autosText s)).Ok ∧ Complete (okJson (autosText s)).text ∧
      processAutos c car s st m = .ok ((car, []), .sent (if st.s.good then (okJson (autosText s)).text else []) false) := by
  obtain ⟨h1, h2⟩ := autos_body hs
  have hok := mkResponse_ok fine_json (autosText s)
  refine ⟨hok, mkResponse_complete hok, ?_⟩
  unfold processAutos whenGet
  rw [get_is hm hl]
  simp only [hg, decide_true]
  rw [h1, Res.ok_bind, simpleCalls_eq, jsonType, answer_response fine_json _ (by omega) [autosText s] (by simp) st.s c.room (by omega) false]
  rfl

/-- C85.  `GET /autos`, in any well-formed text, with any headers and anything behind it: the car is left alone, and the response is a
complete JSON document with the readings of the sensors. -/
theorem C85_report {cfg : Config} (hcfg : ConfigOk cfg) (stat : List Byte → Option Nat) (content : List Byte → List Byte) {c : Ctx}
    (hc : CtxOk c) (num : List Byte → Option Rat) {q : Request} {after mm mp mc : List Byte} (hf : Fits cfg c q after mm mp mc) {s : Sensors} (hs : s.Ok)
    (car : Car) (hm : q.method.map lower = str "get") (hr : q.resource.map lower = str "/autos") :
    serve cfg stat content c num mm mp mc false s car (q.text ++ after) = .ok ((car, []), .sent (okJson (autosText s)).text false) ∧
      Complete (okJson (autosText s)).text := by
  have h3 := hf.resource
  have hm0 : (0 : Byte) ∉ q.method := fun h => by
    have := hf.ok.method 0 h; revert this; decide
  obtain ⟨-, k2, k3⟩ := autos_any hc.room hs car ⟨In.ofList (headersText q.headers ++ (crlf ++ (q.body ++ after))), .headerName, (protocolText q.maj q.min).length⟩
    hm0 hf.method hm
  refine ⟨?_, k2⟩
  unfold serve
  rw [serveWith_handler hcfg stat content hf (fun h => by have := hr.symm.trans h.2; revert this; decide),
    carHandler_eq (resource_zero hf.ok) (by omega), hr, if_neg (by decide), if_neg (by decide), if_pos (by decide), k3]
  rfl

/-! ## C86: any bytes -/

/-- Any bytes at all: nothing is sent; or a complete response that is not JSON (or nothing); or they reach the handler. -/
theorem serveWith_any {S : Type} {cfg : Config} (hcfg : ConfigOk cfg) {stat : List Byte → Option Nat} {content : List Byte → List Byte}
    {c : Ctx} (he : Env stat content c.room) {mm mp mc : List Byte} (hmm : mm.length = 33)
    (hmp : mp.length = 2049) (hmc : mc.length = 17) (bytes : List Byte) (hf : bytes.length + 2 < c.fuel) (srv : S)
    (k : Rd → List Byte → List Byte → DoneOf S) :
    (∃ (sent : Bool) (r : Http.Response), serveWith cfg stat content c mm mp mc false srv k bytes = .ok (srv, .sent (if sent then r.text else []) false) ∧
      r.Ok ∧ Complete r.text ∧ NotJson r) ∨
    (∃ l, requestLine cfg c.fuel mm mp mc bytes = .ok (some l) ∧ (0 : Byte) ∉ l.method ∧ l.method.length ≤ 32 ∧ (0 : Byte) ∉ l.resource ∧
      l.resource.length ≤ 2048 ∧ serveWith cfg stat content c mm mp mc false srv k bytes = k l.st l.method l.resource) := by
  obtain ⟨st, m, r, ⟨hm1, hm2⟩, ⟨hr1, hr2⟩, _, _, hrun⟩ := read_line cfg hcfg.root hcfg.short bytes mm mp mc hmm hmp hmc c.fuel hf
  unfold serveWith
  rw [hrun, Res.ok_bind]
  simp only [Bool.false_eq_true, if_false]
  have hmt : Endpoint.Text m := ⟨hm1, by unfold sizeMax; omega⟩
  have hrt : Endpoint.Text r := ⟨hr1, by unfold sizeMax; omega⟩
  obtain ⟨b, hb, hb2⟩ := Endpoint.is_file_request_correct cfg m r hmt hrt hcfg.pfx
  rw [hb]
  cases b with
  | false =>
    right
    exact ⟨⟨st, m, r, cfg.rootDir ++ r⟩, rfl, hm1, hm2, hr1, by dsimp only; omega, rfl⟩
  | true =>
    left
    obtain ⟨q, sd, hex, hq, _, h⟩ := handled cfg stat content c.room he m r hmt hrt
      ⟨by simp [hcfg.root, hr1], by simp only [List.length_append]; unfold sizeMax; omega⟩ hcfg.pfx st
    unfold dispatch at h
    rw [hb] at h
    dsimp only at h ⊢
    have hcomp : Complete q.text := by cases hex <;> exact mkResponse_complete hq
    have hnj : NotJson q := by
      cases hex with
      | file _ _ _ _ t ht => exact notJson_of (type_notJson ht)
      | notAllowed => exact notJson_of (by decide)
      | notFound => exact notJson_of (by decide)
      | rest => exact notJson_of (by decide)
    have hsd : sd = false := by
      cases hex with
      | rest h1 h2 => exact absurd (hb2.1 rfl) (by rintro (h | h); exacts [h1 h, h2 h])
      | _ => rfl
    subst hsd
    rw [h, Res.ok_bind]
    exact ⟨st.s.good, q, rfl, hq, hcomp, hnj⟩

/-- What one connection may do to the car. -/
inductive Does (s : Sensors) (car : Car) : Car × List Cmd → Outcome → Prop
  /-- an exception in the thread of the connection -/
  | terminated : Does s car (car, []) .terminated
  /-- no effect, and nothing sent -/
  | silent : Does s car (car, []) (.sent [] false)
  /-- no effect, and one complete response, which is no success of the car -/
  | other {r : Http.Response} : r.Ok → Complete r.text → NotJson r → Does s car (car, []) (.sent r.text false)
  /-- a number is carried out, and that is confirmed, or nothing is sent -/
  | number (t : Target) {n : Int} (sent : Bool) : n ∈ t.accepts → Complete (okText (t.report (step car (t.event n)).1 n)).text →
      Does s car (step car (t.event n)) (.sent (if sent then (okText (t.report (step car (t.event n)).1 n)).text else []) false)
  /-- the readings are reported -/
  | report : Complete (okJson (autosText s)).text → Does s car (car, []) (.sent (okJson (autosText s)).text false)
  /-- the board is reset, and the server told to stop -/
  | shutdown (sent : Bool) : Complete (okText (str "Server is shuting down...")).text →
      Does s car (car, [.reset]) (.sent (if sent then (okText (str "Server is shuting down...")).text else []) true)

/-- Whatever it is that comes out. -/
def AllDoes (s : Sensors) (car : Car) (x : Done) : Prop := ∀ y out, x = .ok (y, out) → Does s car y out

theorem allDoes_ok {s : Sensors} {car : Car} {y : Car × List Cmd} {out : Outcome} (h : Does s car y out) : AllDoes s car (.ok (y, out)) := by
  intro y' out' e
  cases e
  exact h

theorem does_of {s : Sensors} {car : Car} {g : Bool} {r : Http.Response} (h1 : r.Ok) (h2 : Complete r.text) (h3 : NotJson r) :
    Does s car (car, []) (.sent (if g then r.text else []) false) := by
  cases g
  · exact .silent
  · exact .other h1 h2 h3

theorem allDoes_refuse {s : Sensors} {car : Car} {c : Ctx} (hr : 2048 ≤ c.room) (n : Nat) {status reason : String} (body : String)
    (h : (n, reason) ∈ refusals) (hn : str status = dec n) (hb : (str body).length ≤ 512) (i : In) :
    AllDoes s car (.ok ((car, []), refuse c i status reason body)) := by
  obtain ⟨r, rfl, h2, h3, h4⟩ := refuse_any hr body h hn hb i
  rw [h4]
  exact allDoes_ok (does_of h2 h3 (notJson_of (by decide)))

theorem allDoes_bad {s : Sensors} {car : Car} {c : Ctx} (hr : 2048 ≤ c.room) (body : String) (hb : (str body).length ≤ 512) (i : In) :
    AllDoes s car (.ok ((car, []), bad c i body)) :=
  allDoes_refuse hr 400 body (by decide) (by decide +kernel) hb i

theorem allDoes_post {s : Sensors} {car : Car} {c : Ctx} (hr : 2048 ≤ c.room) (st : Rd) (m : List Byte) {k : Done} (hk : AllDoes s car k) :
    AllDoes s car (whenPost c (car, []) st m k) := by
  unfold whenPost
  split
  · exact fun _ _ h => by cases h
  · exact hk
  · exact allDoes_refuse hr 405 _ (by decide) (by decide +kernel) (by decide +kernel) _

theorem allDoes_json {s : Sensors} {car : Car} {c : Ctx} (hr : 2048 ≤ c.room) (st : Rd) {k : Rd → Done} (hk : ∀ st, AllDoes s car (k st)) :
    AllDoes s car (whenJson c (car, []) st k) := by
  unfold whenJson
  cases h : headerLoop c.fuel c.fuel false st c.header with
  | ub => exact fun _ _ h => by cases h
  | running => exact fun _ _ h => by cases h
  | ok v =>
    rw [Res.ok_bind]
    cases v with
    | json st => exact hk st
    | missing => exact allDoes_ok .silent
    | refused st body => exact allDoes_bad hr body (headerLoop_refused h) _
    | thrown => exact allDoes_ok .terminated

theorem allDoes_number {s : Sensors} {car : Car} (hcar : Car.Fine car) {c : Ctx} (hr : 2048 ≤ c.room) (num : List Byte → Option Rat) (st : Rd)
    (m : List Byte) (t : Target) : AllDoes s car (t.process c num car st m) := by
  rw [process_eq]
  refine allDoes_post hr st m (allDoes_json hr st fun st => ?_)
  cases numberBody c num t.key (-t.limit) t.limit st.s.rest with
  | ub => exact fun _ _ h => by cases h
  | running => exact fun _ _ h => by cases h
  | ok x =>
    rw [Res.ok_bind]
    cases x with
    | none => exact allDoes_bad hr _ (by cases t <;> decide +kernel) _
    | some n =>
      dsimp only
      split
      · rename_i ha
        have hrep := report_short (fine_step hcar (t.event n)) t ha
        obtain ⟨_, k2, k3⟩ := succeed_any hr (body := t.report (step car (t.event n)).1 n) (by omega) st.s
        rw [k3]
        exact allDoes_ok (.number t st.s.good ha k2)
      · exact allDoes_bad hr _ (by decide +kernel) _

theorem autos_other {c : Ctx} (s : Sensors) (car : Car) (st : Rd) {m : List Byte} (hm : (0 : Byte) ∉ m) (hl : m.length ≤ 32)
    (hg : m.map lower ≠ str "get") :
    processAutos c car s st m = .ok ((car, []), refuse c st.s "405" "Method Not Allowed" "Expected method GET for this request.") := by
  unfold processAutos whenGet
  rw [get_is hm hl]
  simp only [hg, decide_false]

theorem shutdown_answer {c : Ctx} (hr : 2048 ≤ c.room) {body : List Byte} (hb : body.length ≤ 512) (s : In) :
    answer s c.room true (simpleCalls (str "200") (str "OK") plain body) = .sent (if s.good then (okText body).text else []) true := by
  rw [simpleCalls_eq, answer_response fine_ok body (by omega) [body] (by simp) s c.room (by omega) true]
  rfl

theorem shutdown_eq {c : Ctx} (hr : 2048 ≤ c.room) (car : Car) (st : Rd) {m : List Byte} (hm : (0 : Byte) ∉ m) (hl : m.length ≤ 32) :
    (okText (str "Server is shuting down...")).Ok ∧ Complete (okText (str "Server is shuting down...")).text ∧
    processShutdown c car st m = if m.map lower = str "post" then
        .ok ((car, [.reset]), .sent (if st.s.good then (okText (str "Server is shuting down...")).text else []) true)
      else .ok ((car, []), refuse c st.s "405" "Method Not Allowed" "Expected method POST for this request.") := by
  have hok := mkResponse_ok fine_ok (str "Server is shuting down...")
  have hlen : (str "Server is shuting down...").length ≤ 512 := by decide +kernel
  refine ⟨hok, mkResponse_complete hok, ?_⟩
  unfold processShutdown whenPost
  rw [post_is hm hl]
  by_cases h : m.map lower = str "post"
  · simp only [h, decide_true, if_true]
    rw [shutdown_answer hr hlen]
  · simp only [h, decide_false, if_false]

theorem handler_does {s : Sensors} (hs : s.Ok) {car : Car} (hcar : Car.Fine car) {c : Ctx} (hr : 2048 ≤ c.room) (num : List Byte → Option Rat) (st : Rd)
    {m r : List Byte} (hm : (0 : Byte) ∉ m) (hml : m.length ≤ 32) (hr0 : (0 : Byte) ∉ r) (hrl : r.length ≤ 2048) :
    AllDoes s car (carHandler c num s car st m r) := by
  rw [carHandler_eq hr0 hrl]
  split
  · exact allDoes_number hcar hr num st m .power
  split
  · exact allDoes_number hcar hr num st m .turn
  split
  · by_cases hg : m.map lower = str "get"
    · obtain ⟨_, k2, k3⟩ := autos_any hr hs car st hm hml hg
      rw [k3]
      apply allDoes_ok
      cases st.s.good
      · exact .silent
      · exact .report k2
    · rw [autos_other s car st hm hml hg]
      exact allDoes_refuse hr 405 _ (by decide) (by decide +kernel) (by decide +kernel) _
  split
  · exact allDoes_number hcar hr num st m .servo
  split
  · obtain ⟨_, k2, k3⟩ := shutdown_eq hr car st hm hml
    rw [k3]
    split
    · exact allDoes_ok (.shutdown st.s.good k2)
    · exact allDoes_refuse hr 405 _ (by decide) (by decide +kernel) (by decide +kernel) _
  · exact allDoes_refuse hr 404 _ (by decide) (by decide +kernel) (by decide +kernel) _

/-- What may be seen at the car: any bytes at all, with any readings; and the rounds of the loop. -/
def Happening.Any (stat : List Byte → Option Nat) (content : List Byte → List Byte) : Happening → Prop
  | .request c mm mp mc s bytes => CtxOk c ∧ Env stat content c.room ∧ s.Ok ∧ mm.length = 33 ∧ mp.length = 2049 ∧ mc.length = 17 ∧
      bytes.length + 2 < c.fuel
  | .sense _ => True

/-- The board was reset. -/
def World.off (w : World) : World := ⟨w.car, fun v => { w.motors v with duty := 0 }⟩

/-- A past: what happened (newest first), what the car and its motors are after it, what was sent.  Each connection either leaves
them alone (and gets nothing, a complete response that is no JSON, or the readings), or has the effect of one accepted number
(and gets the confirmation, or nothing), or switches the motors off (and stops the server). -/
inductive Past (w₀ : World) : List Happening → World → List (Option Outcome) → Prop
  | start : Past w₀ [] w₀ []
  | sense {es : List Happening} {w : World} {outs : List (Option Outcome)} (d : Nat) : Past w₀ es w outs →
      Past w₀ (.sense d :: es) (w.step (.sense d)) (none :: outs)
  | terminated {es : List Happening} {w : World} {outs : List (Option Outcome)} {c : Ctx} {mm mp mc bytes : List Byte} {s : Sensors} :
      Past w₀ es w outs → Past w₀ (.request c mm mp mc s bytes :: es) w (some .terminated :: outs)
  | silent {es : List Happening} {w : World} {outs : List (Option Outcome)} {c : Ctx} {mm mp mc bytes : List Byte} {s : Sensors} :
      Past w₀ es w outs → Past w₀ (.request c mm mp mc s bytes :: es) w (some (.sent [] false) :: outs)
  | other {es : List Happening} {w : World} {outs : List (Option Outcome)} {c : Ctx} {mm mp mc bytes : List Byte} {s : Sensors} {r : Http.Response} :
      Past w₀ es w outs → Complete r.text → NotJson r → Past w₀ (.request c mm mp mc s bytes :: es) w (some (.sent r.text false) :: outs)
  | report {es : List Happening} {w : World} {outs : List (Option Outcome)} {c : Ctx} {mm mp mc bytes : List Byte} {s : Sensors} :
      Past w₀ es w outs → Complete (okJson (autosText s)).text →
      Past w₀ (.request c mm mp mc s bytes :: es) w (some (.sent (okJson (autosText s)).text false) :: outs)
  | number {es : List Happening} {w : World} {outs : List (Option Outcome)} {c : Ctx} {mm mp mc bytes : List Byte} {s : Sensors} (t : Target) {n : Int}
      (sent : Bool) : Past w₀ es w outs → n ∈ t.accepts → Complete (okText (t.report (w.step (t.event n)).car n)).text →
      Past w₀ (.request c mm mp mc s bytes :: es) (w.step (t.event n))
        (some (.sent (if sent then (okText (t.report (w.step (t.event n)).car n)).text else []) false) :: outs)
  | shutdown {es : List Happening} {w : World} {outs : List (Option Outcome)} {c : Ctx} {mm mp mc bytes : List Byte} {s : Sensors} (sent : Bool) :
      Past w₀ es w outs → Complete (okText (str "Server is shuting down...")).text →
      Past w₀ (.request c mm mp mc s bytes :: es) (World.off w)
        (some (.sent (if sent then (okText (str "Server is shuting down...")).text else []) true) :: outs)

/-- C86.  Whatever bytes arrive on however many connections, with rounds of the loop in between: as long as the process lives, the
past is one of accepted numbers and resets, at most one for each connection, and what is sent on a connection is nothing or
one complete response, a success only for what was done. -/
theorem C86_any_bytes {cfg : Config} (hcfg : ConfigOk cfg) {stat : List Byte → Option Nat} {content : List Byte → List Byte}
    (num : List Byte → Option Rat) {w₀ : World} (h₀ : Car.Fine w₀.car) {es : List Happening} (h : ∀ e ∈ es, e.Any stat content)
    {w : World} {outs : List (Option Outcome)} (hp : play cfg stat content num w₀ es = .ok (w, outs)) :
    Past w₀ es w outs ∧ Car.Fine w.car := by
  induction es generalizing w outs with
  | nil =>
    cases hp
    exact ⟨.start, h₀⟩
  | cons e es ih =>
    cases hx : play cfg stat content num w₀ es with
    | ub => cases e <;> (rw [play, hx] at hp; cases hp)
    | running => cases e <;> (rw [play, hx] at hp; cases hp)
    | ok x =>
      obtain ⟨h1, h2⟩ := ih (fun e he => h e (by simp [he])) hx
      have he := h e (by simp)
      cases e with
      | sense d =>
        rw [play, hx, Res.ok_bind] at hp
        cases hp
        exact ⟨.sense d h1, fine_step h2 _⟩
      | request c mm mp mc s bytes =>
        obtain ⟨hc, henv, hs, hmm, hmp, hmc, hf⟩ := he
        rw [play, hx, Res.ok_bind] at hp
        cases hy : serve cfg stat content c num mm mp mc false s x.1.car bytes with
        | ub => rw [hy] at hp; cases hp
        | running => rw [hy] at hp; cases hp
        | ok y =>
          rw [hy, Res.ok_bind] at hp
          cases hp
          have hdoes : Does s x.1.car y.1 y.2 := by
            unfold serve at hy
            rcases serveWith_any hcfg henv hmm hmp hmc bytes hf (x.1.car, []) (carHandler c num s x.1.car) with
              ⟨sent, r, e, k1, k2, k3⟩ | ⟨l, _, l1, l2, l3, l4, e⟩
            · rw [hy] at e
              cases e
              exact does_of k1 k2 k3
            · rw [hy] at e
              exact handler_does hs h2 hc.room num l.st l1 l2 l3 l4 y.1 y.2 e.symm
          obtain ⟨y, out⟩ := y
          obtain ⟨w, outs⟩ := x
          dsimp only at hdoes h1 h2 ⊢
          cases hdoes with
          | terminated => exact ⟨.terminated h1, h2⟩
          | silent => exact ⟨.silent h1, h2⟩
          | other _ k2 k3 => exact ⟨.other h1 k2 k3, h2⟩
          | number t sent ha k2 => exact ⟨.number t sent h1 ha k2, fine_step h2 _⟩
          | report k2 => exact ⟨.report h1 k2, h2⟩
          | shutdown sent k2 => exact ⟨.shutdown sent h1 k2, h2⟩

/-- The server was not told to stop on this connection. -/
def NoStop : Option Outcome → Prop
  | some (.sent _ true) => False
  | _ => True

theorem past_run {w₀ w : World} {es : List Happening} {outs : List (Option Outcome)} (h : Past w₀ es w outs) (hn : ∀ o ∈ outs, NoStop o) :
    ∃ evs : List Car.Event, w = w₀.run evs ∧ evs.length ≤ es.length := by
  induction h with
  | start => exact ⟨[], rfl, by simp⟩
  | sense d _ ih =>
    obtain ⟨evs, e, h⟩ := ih (fun o ho => hn o (by simp [ho]))
    exact ⟨evs ++ [.sense d], by rw [e]; simp [World.run], by simp; omega⟩
  | terminated _ ih | silent _ ih | other _ _ _ ih | report _ _ ih =>
    obtain ⟨evs, e, h⟩ := ih (fun o ho => hn o (by simp [ho]))
    exact ⟨evs, e, by simp; omega⟩
  | @number es w outs c mm mp mc bytes s t n sent _ _ _ ih =>
    obtain ⟨evs, e, h⟩ := ih (fun o ho => hn o (by simp [ho]))
    exact ⟨evs ++ [t.event n], by rw [e]; simp [World.run], by simp; omega⟩
  | shutdown sent _ _ ih => exact (hn _ (List.mem_cons_self ..)).elim

/-- C86.  So, until the server is told to stop, the wheels of a car that gets any bytes whatsoever keep to the limits: duty cycles
between 0 and 100, equal on each side, with the difference that the turn asks for. -/
theorem C86_wheels {cfg : Config} (hcfg : ConfigOk cfg) {stat : List Byte → Option Nat} {content : List Byte → List Byte}
    (num : List Byte → Option Rat) (dirs : Wheel → Bool) {es : List Happening} (h : ∀ e ∈ es, e.Any stat content)
    {w : World} {outs : List (Option Outcome)} (hp : play cfg stat content num (start dirs) es = .ok (w, outs)) (hn : ∀ o ∈ outs, NoStop o) :
    ∃ left right : Nat, left ≤ 100 ∧ right ≤ 100 ∧ (∀ v, (w.motors v).duty = if v.left = true then left else right) ∧
      (left : Int) - right = steer w.car.turn ∧ (left : Int) + right = 2 * middle w.car.power w.car.turn := by
  obtain ⟨h1, _⟩ := C86_any_bytes hcfg num (agrees_start dirs).fine h hp
  obtain ⟨evs, rfl, _⟩ := past_run h1 hn
  obtain ⟨l, r, k1, k2, k3, k4, k5, _⟩ := C78_wheels dirs evs
  exact ⟨l, r, k1, k2, k3, k4, k5⟩

end Abc.CarWire
