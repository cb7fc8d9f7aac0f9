import Verif.Samples.GameWireProps
import Verif.Samples.Connect4Wire

/-!
# The connect-four server at the level of bytes

The requests a client can make, as bytes, and the responses, as bytes.  What does not depend on the board is that of
`Verif/Samples/GameWireProps.lean`.
-/

namespace Abc.Connect4Wire

open Abc.Ascii Abc.Stream Abc.Http Abc.Wire Abc.Json
open Abc.Endpoint (Config str mem)
open Abc.GameServer (Id PType)
open Abc.GameWire hiding BodyText Small Asks Describes Event.Asks Event.Any demoEvent Event play Shows Safe AllSafe Tells Done moveText moveValue moveElems Cells
open Abc.Connect4Server (Server Req Resp Inv Answer Follows Trace)
open Abc.Connect4 (Pid Move OnBoard Side)

/-! ## The bodies of responses -/

/-- `{"i":…,"move":{"row":…,"col":…}}`. -/
def moveText (i : Nat) (m : Move) : List Byte :=
  str "{\"i\":" ++ dec i ++ str ",\"move\":{\"row\":" ++ dec m.row.toNat ++ str ",\"col\":" ++ dec m.col.toNat ++ str "}}"

/-- The JSON text for the values of a response. -/
inductive BodyText : Resp → List Byte → Prop
  | created (gid : Id) : BodyText (.created gid) (str "{\"gameId\":" ++ dec gid.toNat ++ str "}")
  | claimed (pid : Id) : BodyText (.claimed pid) (str "{\"playerId\":" ++ dec pid.toNat ++ str "}")
  | accepted (i : Nat) (w : Option Pid) : BodyText (.accepted i w) (str "{\"i\":" ++ dec i ++ winnerText w ++ str "}")
  | moves (l : List (Nat × Move)) (w : Option Pid) : BodyText (.moveList (l.map fun x => (x.1, some x.2)) w)
      (str "{\"moves\":[" ++ [44].intercalate (l.map fun x => moveText x.1 x.2) ++ str "]" ++ winnerText w ++ str "}")

section Values
open Spec
def moveValue (i : Nat) (m : Move) : Value :=
  .obj [] (.cons (key "i") [] [] (num i) [] [] (.cons (key "move") [] []
    (.obj [] (.cons (key "row") [] [] (num m.row.toNat) [] [] (.cons (key "col") [] [] (num m.col.toNat) [] [] .nil))) [] [] .nil))
def moveElems : List (Nat × Move) → Elems
  | [] => .nil
  | x :: l => .cons (moveValue x.1 x.2) [] [] (moveElems l)

theorem moveValue_text (i : Nat) (m : Move) : (moveValue i m).text = moveText i m := by
  have e1 : str "{\"i\":" = 123 :: 34 :: (str "i" ++ [34, 58]) := by decide
  have e2 : str ",\"move\":{\"row\":" = 44 :: 34 :: (str "move" ++ 34 :: 58 :: 123 :: 34 :: (str "row" ++ [34, 58])) := by decide
  have e3 : str ",\"col\":" = 44 :: 34 :: (str "col" ++ [34, 58]) := by decide
  have e4 : str "}}" = [125, 125] := by decide
  simp [moveValue, moveText, Value.text, Mems.text, Mems.sep, num_text, key_text, e1, e2, e3, e4]

theorem moveElems_text (l : List (Nat × Move)) : (moveElems l).text = [44].intercalate (l.map fun x => moveText x.1 x.2) := by
  induction l with
  | nil => simp [moveElems, Elems.text, List.intercalate]
  | cons x l ih =>
    cases l with
    | nil => simp [moveElems, Elems.text, Elems.sep, moveValue_text, List.intercalate]
    | cons y l =>
      rw [moveElems, Elems.text, ih, moveValue_text]
      simp [moveElems, Elems.sep, List.intercalate]

theorem moveElems_toks (l : List (Nat × Move)) (hl : ∀ x ∈ l, OnBoard x.2) :
    movesToks (l.map fun x => (x.1, some x.2)) = some (moveElems l).toks := by
  induction l with
  | nil => rfl
  | cons x l ih =>
    obtain ⟨h1, _, h2, _⟩ := hl x (by simp)
    rw [List.map_cons, movesToks, ih (fun y hy => hl y (by simp [hy]))]
    simp [moveElems, moveValue, moveToks, Elems.toks, Value.toks, Mems.toks, num_toks, key_val, decInt_of h1, decInt_of h2]

theorem moveValue_compact (i : Nat) (m : Move) : (moveValue i m).Compact := by
  simp [moveValue, Value.Compact, Mems.Compact, num_compact, key]

theorem moveElems_compact (l : List (Nat × Move)) : (moveElems l).Compact := by
  induction l with
  | nil => simp [moveElems, Elems.Compact]
  | cons x l ih => simp [moveElems, Elems.Compact, moveValue_compact, ih]

theorem moveElems_depth (l : List (Nat × Move)) : (moveElems l).depth ≤ 2 := by
  induction l with
  | nil => simp [moveElems, Elems.depth]
  | cons x l ih =>
    have : (moveValue x.1 x.2).depth = 2 := by simp [moveValue, Value.depth, Mems.depth, num_depth]
    simp only [moveElems, Elems.depth, this]
    exact Nat.max_le.2 ⟨Nat.le_refl _, ih⟩

theorem moveText_small (i : Nat) (m : Move) (hi : i < 42) (hm : OnBoard m) : (moveText i m).length ≤ 33 ∧ (0 : Byte) ∉ moveText i m := by
  obtain ⟨h1, h2, h3, h4⟩ := hm
  have d1 := dec_length 2 i (by omega) (by omega)
  have d2 := dec_length 1 m.row.toNat (by omega) (by omega)
  have d3 := dec_length 1 m.col.toNat (by omega) (by omega)
  have l1 : (str "{\"i\":").length = 5 := by decide
  have l2 : (str ",\"move\":{\"row\":").length = 15 := by decide
  have l3 : (str ",\"col\":").length = 7 := by decide
  have l4 : (str "}}").length = 2 := by decide
  have z1 : (0 : Byte) ∉ str "{\"i\":" := by decide
  have z2 : (0 : Byte) ∉ str ",\"move\":{\"row\":" := by decide
  have z3 : (0 : Byte) ∉ str ",\"col\":" := by decide
  have z4 : (0 : Byte) ∉ str "}}" := by decide
  constructor
  · simp only [moveText, List.length_append, l1, l2, l3, l4]; omega
  · simp only [moveText, List.mem_append, z1, z2, z3, z4, dec_zero_free, or_self, not_false_eq_true]

theorem moves_small (l : List (Nat × Move)) (h : ∀ x ∈ l, x.1 < 42 ∧ OnBoard x.2) :
    ([44].intercalate (l.map fun x => moveText x.1 x.2)).length ≤ 34 * l.length ∧
    (0 : Byte) ∉ [44].intercalate (l.map fun x => moveText x.1 x.2) := by
  induction l with
  | nil => simp [List.intercalate]
  | cons x l ih =>
    have hx := moveText_small x.1 x.2 (h x (by simp)).1 (h x (by simp)).2
    have ih' := ih (fun y hy => h y (by simp [hy]))
    cases l with
    | nil => simp [List.intercalate]; exact ⟨by omega, hx.2⟩
    | cons y l =>
      rw [List.map_cons, List.map_cons]
      simp only [List.intercalate, List.intersperse, List.flatten_cons, List.map_cons, List.length_append, List.length_cons,
        List.mem_append, List.length_nil] at ih' ⊢
      refine ⟨by omega, ?_⟩
      intro hz
      rcases hz with hz | hz | hz
      · exact hx.2 hz
      · revert hz; decide
      · exact ih'.2 hz

/-- The responses with a body of JSON whose numbers are small enough. -/
def Small : Resp → Prop
  | .created _ => True
  | .claimed _ => True
  | .accepted i _ => 0 ≤ i ∧ i < 42
  | .moveList l _ => ∃ l' : List (Nat × Move), l = l'.map (fun x => (x.1, some x.2)) ∧ l.length ≤ 42 ∧ ∀ x ∈ l', x.1 < 42 ∧ OnBoard x.2
  | _ => False

theorem response_body {a : Resp} (hs : Small a) :
    ∃ ts b, respToks a = some ts ∧ BodyText a b ∧ jsonBody a ts = .ok b ∧ b.length ≤ 1500 := by
  cases a with
  | created gid =>
    obtain ⟨h1, h2, h3⟩ := single_value "gameId" gid.toNat none (by decide) (by decide) gid.isLt
    refine ⟨_, _, rfl, .created gid, ?_, ?_⟩
    · rw [h1, h2] at h3
      have e : str "{\"gameId\":" = 123 :: 34 :: (str "gameId" ++ [34, 58]) := by decide
      have e2 : str "}" = [125] := by decide
      rw [e, e2]
      simpa [winnerToks, winnerText, jsonBody, GameWire.jsonBody] using h3
    · have d := dec_length 10 gid.toNat (by omega) (by omega)
      have l1 : (str "{\"gameId\":").length = 10 := by decide
      have l2 : (str "}").length = 1 := by decide
      simp only [List.length_append, l1, l2]; omega
  | claimed gid =>
    obtain ⟨h1, h2, h3⟩ := single_value "playerId" gid.toNat none (by decide) (by decide) gid.isLt
    refine ⟨_, _, rfl, .claimed gid, ?_, ?_⟩
    · rw [h1, h2] at h3
      have e : str "{\"playerId\":" = 123 :: 34 :: (str "playerId" ++ [34, 58]) := by decide
      have e2 : str "}" = [125] := by decide
      rw [e, e2]
      simpa [winnerToks, winnerText, jsonBody, GameWire.jsonBody] using h3
    · have d := dec_length 10 gid.toNat (by omega) (by omega)
      have l1 : (str "{\"playerId\":").length = 12 := by decide
      have l2 : (str "}").length = 1 := by decide
      simp only [List.length_append, l1, l2]; omega
  | accepted i w =>
    obtain ⟨hi1, hi2⟩ := hs
    obtain ⟨n, rfl⟩ := Int.eq_ofNat_of_zero_le hi1
    obtain ⟨h1, h2, h3⟩ := single_value "i" n w (by decide) (by decide) (by omega)
    refine ⟨_, _, rfl, .accepted n w, ?_, ?_⟩
    · rw [h1, h2] at h3
      have e : str "{\"i\":" = 123 :: 34 :: (str "i" ++ [34, 58]) := by decide
      have e2 : str "}" = [125] := by decide
      rw [e, e2, decInt_of (by omega)]
      simpa [jsonBody, GameWire.jsonBody] using h3
    · have d := dec_length 2 n (by omega) (by omega)
      have l1 : (str "{\"i\":").length = 5 := by decide
      have l2 : (str "}").length = 1 := by decide
      have hw := winner_small w
      simp only [List.length_append, l1, l2]; omega
  | moveList l w =>
    obtain ⟨l', rfl, hl, hx⟩ := hs
    rw [List.length_map] at hl
    have ht := moveElems_toks l' (fun x h => (hx x h).2)
    have hsm := moves_small l' hx
    have hw := winner_small w
    let v : Value := .obj [] (.cons (key "moves") [] [] (.arr [] (moveElems l')) [] [] (winnerMems w))
    have e1 : str ",\"winner\":" = 44 :: 34 :: (str "winner" ++ [34, 58]) := by decide
    have e2 : str "}" = [125] := by decide
    have e3 : str "]" = [93] := by decide
    have e4 : str "{\"moves\":[" = 123 :: 34 :: (str "moves" ++ [34, 58, 91]) := by decide
    have l4 : (str "{\"moves\":[").length = 10 := by decide
    have z4 : (0 : Byte) ∉ str "{\"moves\":[" := by decide
    have z5 : (0 : Byte) ∉ ([93] : List Byte) := by decide
    have z6 : (0 : Byte) ∉ ([125] : List Byte) := by decide
    have hvt : v.text = str "{\"moves\":[" ++ [44].intercalate (l'.map fun x => moveText x.1 x.2) ++ str "]" ++ winnerText w ++ str "}" := by
      rw [e2, e3, e4]
      cases w with
      | none => simp [v, winnerMems, winnerText, Value.text, Mems.text, Mems.sep, moveElems_text, key_text]
      | some w => simp [v, winnerMems, winnerText, Value.text, Mems.text, Mems.sep, num_text, moveElems_text, key_text, e1]
    have hlen : v.text.length ≤ 1500 := by
      rw [hvt, e2, e3]
      simp only [List.length_append, l4, List.length_cons, List.length_nil]; omega
    have hvk : v.toks = [.beginObject, .prop (str "moves"), .beginArray] ++ (moveElems l').toks ++ [.endArray] ++ winnerToks w ++ [.endObject] := by
      cases w <;> simp [v, winnerMems, winnerToks, Value.toks, Mems.toks, num_toks, key_val]
    have hj := jsonText_value (size := 2049) v
      (by cases w <;> simp [v, winnerMems, Value.Compact, Mems.Compact, num_compact, key, moveElems_compact])
      (by
        have := moveElems_depth l'
        have h2 : v.depth = max ((moveElems l').depth + 1) 0 + 1 := by
          cases w <;> simp [v, winnerMems, Value.depth, Mems.depth, num_depth]
        rw [h2, Nat.max_eq_left (Nat.zero_le _)]; omega)
      (by omega)
      (by
        rw [hvt, e2, e3]
        simp only [List.mem_append, z4, z5, z6, hsm.2, hw.2, or_self, not_false_eq_true])
    refine ⟨_, v.text, by rw [respToks, ht]; rfl, by rw [hvt]; exact .moves l' w, ?_, hlen⟩
    dsimp only
    rw [← hvk]; exact hj
  | refused n => exact hs.elim
  | engine ok => exact hs.elim

end Values

/-! ## Requests -/

/-- What a context provides. -/
structure Ctx4Ok (c : Ctx4) : Prop where
  base : CtxOk c.toCtx
  row : ∀ m k, c.row m = some k → k < 6
  col : ∀ m k, c.col m = some k → k < 7

section Moves
open Spec

theorem expectNum_ok {c : Ctx} (hc : CtxOk c) {cell : List Byte → Option Nat} {num : Num} {k : Nat} (hk : cell (c.atof num.text) = some k)
    {p q : Pos} (hs : ReadsTok 64 p (.num num.text) q) {b : List Byte} (hb : b.length = 1041)
    (hf : p.r.length + 27 ≤ c.fuel) (n : Nat) (it : Json.Item) :
    ∃ n' b' it', b'.length = 1041 ∧ expectNum c cell ⟨⟨In.ofList p.r, p.e, p.ls, n⟩, it, some b⟩ =
      .ok (some (⟨⟨In.ofList q.r, q.e, q.ls, n'⟩, it', some b'⟩, k)) :=
by
  obtain ⟨n', b', g1, l1, p1⟩ := getTok_ok hc.atof hs hb (by simp [tokChars]) hf n
  refine ⟨n', b', .number, l1, ?_⟩
  unfold expectNum
  simp only [Tok.block, Option.getD_some]
  rw [g1, Res.ok_bind]
  simp only [tokItem, ne_eq, not_true_eq_false, if_false, Tok.value, Tok.block, Option.getD_some]
  have p1' : (b'.drop 8).take 8 = c.atof num.text := p1
  rw [p1', hk]

/-- The members of a move: the row, the column, and whatever else. -/
inductive Cells (c : Ctx4) : Mems → Nat → Nat → Prop
  | mk {n1 n2 : Str} {a1 a2 t1 l1 b1 b2 t2 l2 : List Byte} {x y : Num} {rest : Mems} {row col : Nat} :
      n1.val = str "row" → n2.val = str "col" → c.row (c.atof x.text) = some row → c.col (c.atof y.text) = some col →
      Cells c (.cons n1 a1 a2 (.atom (.num x)) t1 l1 (.cons n2 b1 b2 (.atom (.num y)) t2 l2 rest)) row col

theorem moveBody_ok {c : Ctx4} (hc : CtxOk c.toCtx) {lead w : List Byte} {ms : Mems} {row col : Nat} (hl : Ws lead)
    (hv : (Value.obj w ms).Ok) (hp : Cells c ms row col) (r : List Byte)
    (hf : (lead ++ ((Value.obj w ms).text ++ r)).length + 27 ≤ c.fuel) :
    moveBody c (lead ++ ((Value.obj w ms).text ++ r)) = .ok (some ⟨row, col⟩) := by
  obtain ⟨n, b, hb, h1⟩ := begin_ok hc hl r hf
  simp only [Value.Ok] at hv
  have e : (w ++ (ms.text ++ 125 :: r)).length + 1 ≤ (lead ++ ((Value.obj w ms).text ++ r)).length := by
    simp [Value.text]
  obtain ⟨e1, e2, e3, e4⟩ := hp
  rename_i n1 n2 a1 a2 t1 l1 b1 b2 t2 l2 x y rest
  obtain ⟨tail, lead', hl', ht, hs⟩ := member_ok hv.2 hv.1 r
  obtain ⟨hw, hm⟩ := hv
  simp only [Mems.Ok, Value.Ok, Atom.Ok] at hm
  have hm' : (Mems.cons n2 b1 b2 (.atom (.num y)) t2 l2 rest).Ok := by simp only [Mems.Ok, Value.Ok, Atom.Ok]; tauto
  obtain ⟨tail2, lead2, hl2, ht2, hs2⟩ := member_ok hm' hl' r
  have s1 := step_atom (max := 64) (a := .num x) (e := false) hm.2.2.2.1 hm.2.2.1 rfl ht (by simp)
  have s2 := step_atom (max := 64) (a := .num y) (e := false) hm.2.2.2.2.2.2.2.2.2.1 hm.2.2.2.2.2.2.2.2.1 rfl ht2 (by simp)
  have q1 := hs.1
  have q2 := s1.1
  have q3 := hs2.1
  simp only [Value.text, Atom.text] at q1 q2 q3
  obtain ⟨m1, c1, i1, k1, g1⟩ := expectName_ok hc e1 (by decide) (by decide) hs hb (by dsimp only; omega) n .beginObject
  obtain ⟨m2, c2, i2, k2, g2⟩ := expectNum_ok hc e3 s1 k1 (by simp only [Atom.text]; omega) m1 i1
  obtain ⟨m3, c3, i3, k3, g3⟩ := expectName_ok hc e2 (by decide) (by decide) hs2 k2 (by simp only [Value.text, Atom.text] at *; omega) m2 i2
  obtain ⟨m4, c4, i4, k4, g4⟩ := expectNum_ok hc e4 s2 k3 (by simp only [Value.text, Atom.text] at *; omega) m3 i3
  unfold moveBody
  rw [h1, Res.ok_bind]
  simp only [ne_eq, not_true_eq_false, if_false]
  rw [g1, Res.ok_bind]
  simp only [Value.text]
  rw [g2, Res.ok_bind]
  dsimp only
  rw [show setExpect [true] true = true from rfl, g3, Res.ok_bind]
  simp only [Value.text]
  rw [g4, Res.ok_bind]

end Moves

/-- The bytes `q` ask for `req`; a new game gets the numbers `d`.  The texts of the resources are those of the
client's script, in any case of `/games`. -/
inductive Asks (c : Ctx4) (d : Draw) (q : Request) : Req → Prop
  | create {lead w r : List Byte} {ms : Spec.Mems} {tx to_ : PType} : q.method.map lower = str "post" → q.resource.map lower = str "/games" →
      SendsJson q.headers → q.body = lead ++ ((Spec.Value.obj w ms).text ++ r) → Spec.Ws lead → (Spec.Value.obj w ms).Ok →
      Picks ms none (some (typeName tx, typeName to_)) → Asks c d q (.create tx to_ d.game d.x d.o)
  | claim {pre : List Byte} {gid : Id} {i : Nat} : q.method.map lower = str "post" → pre.map lower = str "/games" →
      q.resource = pre ++ (str "/" ++ (dec gid.toNat ++ (str "/players/" ++ dec i))) → i < 2 ^ 32 → Asks c d q (.claim gid i)
  | move {pre lead w r : List Byte} {gid pid : Id} {ms : Spec.Mems} {row col : Nat} : q.method.map lower = str "post" →
      pre.map lower = str "/games" →
      q.resource = pre ++ (str "/" ++ (dec gid.toNat ++ (str "/players/" ++ (dec pid.toNat ++ str "/moves")))) →
      SendsJson q.headers → q.body = lead ++ ((Spec.Value.obj w ms).text ++ r) → Spec.Ws lead → (Spec.Value.obj w ms).Ok →
      Cells c ms row col → Asks c d q (.move gid pid ⟨row, col⟩)
  | moves {pre : List Byte} {gid : Id} {since : Nat} : q.method.map lower = str "get" → pre.map lower = str "/games" →
      q.resource = pre ++ (str "/" ++ (dec gid.toNat ++ (str "/moves?since=" ++ dec since))) → since < 2 ^ 32 →
      Asks c d q (.moves gid since)

/-- The response for an answer of the server: JSON, or a status and some text. -/
inductive Describes : Resp → Http.Response → Prop
  | json {a b} : BodyText a b → Describes a (mkResponse (str "200") (str "OK") (some (str "application/json")) b)
  | refused {n : Nat} {reason : String} {body : List Byte} :
      (n, reason) ∈ [(400, "Bad Request"), (403, "Forbidden"), (404, "Not Found"), (503, "Service Unavailable")] →
      Describes (.refused n) (mkResponse (dec n) (str reason) (some plain) body)

theorem succeed_any {c : Ctx4} (hc : 2048 ≤ c.room) {a : Resp} (hs : Small a) (srv : Server) (s : In) :
    ∃ r, Describes a r ∧ r.Ok ∧ Complete r.text ∧ succeed c srv s a = .ok (srv, .sent (if s.good then r.text else []) false) := by
  obtain ⟨ts, b, h1, h2, h3, h4⟩ := response_body hs
  have hok := mkResponse_ok fine_json b
  refine ⟨_, .json h2, hok, mkResponse_complete hok, ?_⟩
  unfold succeed
  rw [h1]
  dsimp only
  rw [h3, Res.ok_bind, simpleCalls_eq, jsonType, answer_response fine_json b (by omega) [b] (by simp) s c.room (by omega) false]

theorem succeed_ok {c : Ctx4} (hc : Ctx4Ok c) {a : Resp} (hs : Small a) (srv : Server) (s : In) (hg : s.good = true) :
    ∃ r, Describes a r ∧ r.Ok ∧ Complete r.text ∧ succeed c srv s a = .ok (srv, .sent r.text false) := by
  obtain ⟨r, h1, h2, h3, h4⟩ := succeed_any hc.base.room hs srv s
  rw [if_pos hg] at h4
  exact ⟨r, h1, h2, h3, h4⟩

theorem refuse_ok {c : Ctx4} (hc : Ctx4Ok c) {n : Nat} {status reason : String} (body : String)
    (h : (n, reason) ∈ [(400, "Bad Request"), (403, "Forbidden"), (404, "Not Found"), (503, "Service Unavailable")])
    (hn : str status = dec n) (hb : (str body).length ≤ 512) (s : In) (hg : s.good = true) :
    ∃ r, Describes (.refused n) r ∧ r.Ok ∧ Complete r.text ∧ refuse c.toCtx s status reason body = .sent r.text false := by
  obtain ⟨r, rfl, h2, h3, h4⟩ := refuse_any hc.base.room body (List.mem_append_left [(405, "Method Not Allowed")] h) hn hb s
  rw [if_pos hg] at h4
  exact ⟨_, .refused h, h2, h3, h4⟩

/-- What the server answers, given what it answered before, fits. -/
theorem small_of_answer {t : Trace} (hr : Connect4.Reach (Connect4Server.standing t)) {req : Req} {a : Resp} (h : Answer t req a)
    (hne : ∀ s m, req ≠ .engine s m) : Small a ∨ ∃ n, a = .refused n := by
  cases h with
  | created => exact .inl trivial
  | claimed => exact .inl trivial
  | @accepted gid pid m c w _ _ _ _ _ _ hl hw =>
    have := (Connect4.Reach.step hr hl).length_le
    simp only [List.length_cons] at this
    exact .inl ⟨by omega, by omega⟩
  | @moves gid since c w _ _ _ hw =>
    left
    have hle := hr.length_le
    refine ⟨((Connect4Server.standing t).reverse.zipIdx.map fun x => (x.2, x.1)).drop since, ?_, ?_, ?_⟩
    · rw [List.map_drop, List.map_map]; rfl
    · simp; omega
    · intro x hx
      have hx := List.mem_of_mem_drop hx
      obtain ⟨y, hy, rfl⟩ := List.mem_map.1 hx
      have h1 := List.mem_zipIdx hy
      simp only [List.length_reverse] at h1
      refine ⟨by dsimp only; omega, ?_⟩
      dsimp only
      rw [h1.2.2]
      exact ((hr.mem_iff _).1 (List.mem_reverse.1 (List.getElem_mem _))).1
  | engine => exact absurd rfl (hne _ _)
  | engineRefused => exact absurd rfl (hne _ _)
  | busy => exact .inr ⟨_, rfl⟩
  | claimBad => exact .inr ⟨_, rfl⟩
  | claimUnknown => exact .inr ⟨_, rfl⟩
  | claimLate => exact .inr ⟨_, rfl⟩
  | moveBad => exact .inr ⟨_, rfl⟩
  | moveUnknown => exact .inr ⟨_, rfl⟩
  | moveRefused => exact .inr ⟨_, rfl⟩
  | movesBad => exact .inr ⟨_, rfl⟩
  | movesUnknown => exact .inr ⟨_, rfl⟩

theorem serve_handler {cfg : Config} (hcfg : ConfigOk cfg) (stat : List Byte → Option Nat) (content : List Byte → List Byte)
    {c : Ctx4} {q : Request} {after mm mp mc : List Byte} (hf : Fits cfg c.toCtx q after mm mp mc)
    (hfav : ¬ (q.method.map lower = str "get" ∧ q.resource.map lower = str "/favicon.ico")) (srv : Server) (d : Draw) :
    serve cfg stat content c mm mp mc false srv d (q.text ++ after) =
      gameHandler c srv d ⟨In.ofList (headersText q.headers ++ (crlf ++ (q.body ++ after))), .headerName, (protocolText q.maj q.min).length⟩
        q.method q.resource := serveWith_handler hcfg stat content hf hfav srv _

/-- A request for one of the four services, for every server that has answered rightly so far. -/
theorem serve_asks {cfg : Config} (hcfg : ConfigOk cfg) (stat : List Byte → Option Nat) (content : List Byte → List Byte)
    {c : Ctx4} (hc : Ctx4Ok c) {q : Request} {after mm mp mc : List Byte} (hf : Fits cfg c.toCtx q after mm mp mc) {d : Draw} {req : Req}
    (ha : Asks c d q req) {srv : Server} {t : Trace} (hi : Inv srv t) :
    ∃ srv' a r, Connect4Server.step srv req = some (srv', a) ∧ Inv srv' ((req, a) :: t) ∧ Answer t req a ∧
      Describes a r ∧ r.Ok ∧ Complete r.text ∧
      serve cfg stat content c mm mp mc false srv d (q.text ++ after) = .ok (srv', .sent r.text false) := by
  have hlen : (headersText q.headers).length + 4 ≤ c.fuel ∧ (q.body ++ after).length + 27 ≤ c.fuel := by
    have := hf.fuel
    rw [List.length_append, q.text_length] at this
    rw [List.length_append]
    constructor <;> omega
  have hz := resource_zero hf.ok
  have hrl := hf.resource
  cases ha with
  | @create lead w r ms tx to_ hm hres hj hb hw hv hp =>
    have hpre : areEqualIN (mem q.resource) (mem (str "/games")) 6 = some true ∧ q.resource.drop 6 = [] := by
      have := games_prefix (pre := q.resource) (tail := []) hres (by simpa using hz)
      simpa using this
    have hbody := playersBody_ok hc.base hw hv hp (r ++ after) (by
      have := hlen.2; rw [hb] at this; simpa using this)
    have hans := Connect4Server.answer_create hi tx to_ d.game d.x d.o
    generalize hcr : Connect4Server.create srv tx to_ d.game d.x d.o = res at hans
    obtain ⟨srv', a⟩ := res
    dsimp only at hans
    have key : ∃ r, Describes a r ∧ r.Ok ∧ Complete r.text ∧
        serve cfg stat content c mm mp mc false srv d (q.text ++ after) = .ok (srv', .sent r.text false) := by
      rw [serve_handler hcfg stat content hf (fun h => absurd (hres.symm.trans h.2) (by decide)) srv d]
      unfold gameHandler
      rw [hpre.1]
      dsimp only
      unfold processGames
      rw [hpre.2, tail_is (by simp) (by simp)]
      simp only [decide_true]
      unfold createGame whenPost
      rw [method_is hf.ok hf.method (m := "POST") hm (by decide) (by decide) (by decide)]
      dsimp only
      rw [whenJson_ok hc.base hf.headers hj _ hlen.1]
      have e : (In.ofList (q.body ++ after)).rest = lead ++ ((Spec.Value.obj w ms).text ++ (r ++ after)) := by
        rw [hb]; simp [In.ofList]
      dsimp only
      rw [e, hbody, Res.ok_bind]
      dsimp only
      rw [hcr]
      rcases small_of_answer hi.reach hans.2 (by simp) with hs | ⟨n, rfl⟩
      · cases a <;> first | exact hs.elim | exact succeed_ok hc hs srv' _ rfl
      · have hn : n = 503 := by cases hans.2; rfl
        subst hn
        obtain ⟨r, r1, r2, r3, r4⟩ := refuse_ok hc (n := 503) (status := "503") (reason := "Service Unavailable")
          "The service has a temporary game capacity shortage." (by simp) (by decide +kernel) (by decide +kernel) (In.ofList (q.body ++ after)) rfl
        exact ⟨r, r1, r2, r3, by dsimp only; rw [r4]⟩
    obtain ⟨r, hr⟩ := key
    exact ⟨srv', a, r, by rw [Connect4Server.step, hcr], hans.1, hans.2, hr⟩
  | @claim pre gid i hm hpre hres hi32 =>
    rw [hres] at hz
    have hpz := games_prefix hpre hz
    have hans := Connect4Server.answer_claim hi gid i
    have hgid : BitVec.ofNat 32 gid.toNat = gid := by simp
    generalize hcr : Connect4Server.claim srv gid i = res at hans
    obtain ⟨srv', a⟩ := res
    dsimp only at hans
    have key : ∃ r, Describes a r ∧ r.Ok ∧ Complete r.text ∧
        serve cfg stat content c mm mp mc false srv d (q.text ++ after) = .ok (srv', .sent r.text false) := by
      rw [serve_handler hcfg stat content hf (fun h => absurd (hm.symm.trans h.1) (by decide)) srv d]
      unfold gameHandler
      rw [hres, hpz.1]
      dsimp only
      unfold processGames
      rw [hpz.2, tail_is (fun h => hz (by simp only [List.mem_append] at h ⊢; tauto))
        (by rw [hres] at hrl; simp only [List.length_append] at hrl ⊢; omega)]
      rw [decide_eq_false (by simp [dec_spec]), route_claim _ _ gid.isLt hi32]
      dsimp only
      unfold claimPlayer whenPost
      rw [method_is hf.ok hf.method (m := "POST") hm (by decide) (by decide) (by decide), hgid, hcr]
      dsimp only
      rcases small_of_answer hi.reach hans.2 (by simp) with hs | ⟨n, rfl⟩
      · cases a <;> first | exact hs.elim | exact succeed_ok hc hs srv' _ rfl
      · have hn : n = 400 ∨ n = 403 ∨ n = 404 := by cases hans.2 <;> simp
        rcases hn with rfl | rfl | rfl
        · obtain ⟨r, r1, r2, r3, r4⟩ := refuse_ok hc (n := 400) (status := "400") (reason := "Bad Request") badResource
            (by simp) (by decide +kernel) (by decide +kernel) (In.ofList (headersText q.headers ++ (crlf ++ (q.body ++ after)))) rfl
          exact ⟨r, r1, r2, r3, by rw [← r4]; rfl⟩
        · obtain ⟨r, r1, r2, r3, r4⟩ := refuse_ok hc (n := 403) (status := "403") (reason := "Forbidden") "This play has already been claimed."
            (by simp) (by decide +kernel) (by decide +kernel) (In.ofList (headersText q.headers ++ (crlf ++ (q.body ++ after)))) rfl
          exact ⟨r, r1, r2, r3, by rw [← r4]; rfl⟩
        · obtain ⟨r, r1, r2, r3, r4⟩ := refuse_ok hc (n := 404) (status := "404") (reason := "Not Found") noGame
            (by simp) (by decide +kernel) (by decide +kernel) (In.ofList (headersText q.headers ++ (crlf ++ (q.body ++ after)))) rfl
          exact ⟨r, r1, r2, r3, by rw [← r4]; rfl⟩
    obtain ⟨r, hr⟩ := key
    exact ⟨srv', a, r, by rw [Connect4Server.step, hcr], hans.1, hans.2, hr⟩
  | @move pre lead w r gid pid ms row col hm hpre hres hj hb hw hv hp =>
    rw [hres] at hz
    have hpz := games_prefix hpre hz
    obtain ⟨srv', a, hmv, hinv, hans⟩ := Connect4Server.answer_move hi gid pid ⟨row, col⟩
    have hgid : BitVec.ofNat 32 gid.toNat = gid := by simp
    have hpid : BitVec.ofNat 32 pid.toNat = pid := by simp
    have hbody := moveBody_ok hc.base hw hv hp (r ++ after) (by
      have := hlen.2; rw [hb] at this; simpa using this)
    have hrc : row < 6 ∧ col < 7 := by
      cases hp with
      | mk _ _ h1 h2 => exact ⟨hc.row _ _ h1, hc.col _ _ h2⟩
    have key : ∃ r, Describes a r ∧ r.Ok ∧ Complete r.text ∧
        serve cfg stat content c mm mp mc false srv d (q.text ++ after) = .ok (srv', .sent r.text false) := by
      rw [serve_handler hcfg stat content hf (fun h => absurd (hm.symm.trans h.1) (by decide)) srv d]
      unfold gameHandler
      rw [hres, hpz.1]
      dsimp only
      unfold processGames
      rw [hpz.2, tail_is (fun h => hz (by simp only [List.mem_append] at h ⊢; tauto))
        (by rw [hres] at hrl; simp only [List.length_append] at hrl ⊢; omega)]
      rw [decide_eq_false (by simp [dec_spec]), route_move _ _ gid.isLt pid.isLt]
      dsimp only
      unfold acceptMove whenPost
      rw [Endpoint.equal_i (by decide) (by decide) (by decide) (by decide)]
      simp only [decide_true]
      rw [method_is hf.ok hf.method (m := "POST") hm (by decide) (by decide) (by decide)]
      dsimp only
      rw [whenJson_ok hc.base hf.headers hj _ hlen.1, hgid, hpid]
      have e : (In.ofList (q.body ++ after)).rest = lead ++ ((Spec.Value.obj w ms).text ++ (r ++ after)) := by
        rw [hb]; simp [In.ofList]
      have badr : ∀ (body : String), (str body).length ≤ 512 → ∃ r, Describes (.refused 400) r ∧ r.Ok ∧ Complete r.text ∧
          bad c.toCtx (In.ofList (q.body ++ after)) body = .sent r.text false := fun body hbl =>
        refuse_ok hc (n := 400) (status := "400") (reason := "Bad Request") body (by simp) (by decide +kernel) hbl _ rfl
      by_cases h0 : gid = 0 ∨ pid = 0
      · rw [if_pos h0]
        rw [Connect4Server.move, if_pos h0] at hmv
        simp only [Option.some.injEq, Prod.mk.injEq] at hmv
        obtain ⟨rfl, rfl⟩ := hmv
        obtain ⟨r, r1, r2, r3, r4⟩ := badr badResource (by decide +kernel)
        exact ⟨r, r1, r2, r3, by dsimp only; rw [r4]⟩
      rw [if_neg h0]
      dsimp only
      rw [e, hbody, Res.ok_bind]
      dsimp only
      rw [hmv]
      rcases small_of_answer hi.reach hans (by simp) with hs | ⟨n, rfl⟩
      · cases a <;> first | exact hs.elim | exact succeed_ok hc hs srv' _ rfl
      · have hn : n = 403 ∨ n = 404 := by
          cases hans with
          | moveBad h =>
            exfalso
            rcases h with h | h | h
            · exact h0 (.inl h)
            · exact h0 (.inr h)
            · exact h ⟨by simp, by simp; omega, by simp, by simp; omega⟩
          | moveUnknown => simp
          | moveRefused => simp
        rcases hn with rfl | rfl
        · obtain ⟨r, r1, r2, r3, r4⟩ := refuse_ok hc (n := 403) (status := "403") (reason := "Forbidden") "The move was not accepted."
            (by simp) (by decide +kernel) (by decide +kernel) (In.ofList (q.body ++ after)) rfl
          exact ⟨r, r1, r2, r3, by rw [← r4]; rfl⟩
        · have h404 : ∀ body : String, (str body).length ≤ 512 → ∃ r, Describes (.refused 404) r ∧ r.Ok ∧ Complete r.text ∧
              refuse c.toCtx (In.ofList (q.body ++ after)) "404" "Not Found" body = .sent r.text false := fun body hbl =>
            refuse_ok hc (n := 404) (status := "404") (reason := "Not Found") body (by simp) (by decide +kernel) hbl _ rfl
          obtain ⟨r, r1, r2, r3, r4⟩ := h404 (if 0 < srv.count ∧ srv.game.gid = gid then "A player with the supplied ID was not found." else noGame)
            (by split <;> decide +kernel)
          exact ⟨r, r1, r2, r3, by rw [← r4]; rfl⟩
    obtain ⟨r, hr⟩ := key
    exact ⟨srv', a, r, hmv, hinv, hans, hr⟩
  | @moves pre gid since hm hpre hres hs32 =>
    rw [hres] at hz
    have hpz := games_prefix hpre hz
    have hans := Connect4Server.answer_moves hi gid since
    have hgid : BitVec.ofNat 32 gid.toNat = gid := by simp
    generalize hcr : Connect4Server.moves srv gid since = res at hans
    obtain ⟨srv', a⟩ := res
    dsimp only at hans
    have key : ∃ r, Describes a r ∧ r.Ok ∧ Complete r.text ∧
        serve cfg stat content c mm mp mc false srv d (q.text ++ after) = .ok (srv', .sent r.text false) := by
      rw [serve_handler hcfg stat content hf (by rw [hres]; exact fun h => not_favicon hpre h.2) srv d]
      unfold gameHandler
      rw [hres, hpz.1]
      dsimp only
      unfold processGames
      rw [hpz.2, tail_is (fun h => hz (by simp only [List.mem_append] at h ⊢; tauto))
        (by rw [hres] at hrl; simp only [List.length_append] at hrl ⊢; omega)]
      rw [decide_eq_false (by simp [dec_spec]), route_moves _ _ gid.isLt hs32]
      dsimp only
      unfold getMoves whenGet
      rw [method_is hf.ok hf.method (m := "GET") hm (by decide) (by decide) (by decide), hgid, hcr]
      dsimp only
      rcases small_of_answer hi.reach hans.2 (by simp) with hs | ⟨n, rfl⟩
      · cases a <;> first | exact hs.elim | exact succeed_ok hc hs srv' _ rfl
      · have hn : n = 400 ∨ n = 404 := by cases hans.2 <;> simp
        rcases hn with rfl | rfl
        · obtain ⟨r, r1, r2, r3, r4⟩ := refuse_ok hc (n := 400) (status := "400") (reason := "Bad Request") badResource
            (by simp) (by decide +kernel) (by decide +kernel) (In.ofList (headersText q.headers ++ (crlf ++ (q.body ++ after)))) rfl
          exact ⟨r, r1, r2, r3, by rw [← r4]; rfl⟩
        · obtain ⟨r, r1, r2, r3, r4⟩ := refuse_ok hc (n := 404) (status := "404") (reason := "Not Found") noGame
            (by simp) (by decide +kernel) (by decide +kernel) (In.ofList (headersText q.headers ++ (crlf ++ (q.body ++ after)))) rfl
          exact ⟨r, r1, r2, r3, by rw [← r4]; rfl⟩
    obtain ⟨r, hr⟩ := key
    exact ⟨srv', a, r, by rw [Connect4Server.step, hcr], hans.1, hans.2, hr⟩

/-! ## C106: sessions -/

/-- What happens to the server: a request on a connection of its own, or an engine finishing a move. -/
inductive Event where
  | request (c : Ctx4) (mm mp mc : List Byte) (d : Draw) (bytes : List Byte)
  | engine (side : Side) (m : Move)

/-- The server after some events (newest first), and what it did on each connection. -/
def play (cfg : Config) (stat : List Byte → Option Nat) (content : List Byte → List Byte) :
    List Event → Res (Server × List (Option Outcome))
  | [] => .ok ({}, [])
  | .request c mm mp mc d bytes :: es =>
    (play cfg stat content es).bind fun x =>
    (serve cfg stat content c mm mp mc false x.1 d bytes).bind fun y => .ok (y.1, some y.2 :: x.2)
  | .engine side m :: es =>
    (play cfg stat content es).bind fun x =>
    match Connect4Server.engine x.1 side m with
    | none => .ub
    | some y => .ok (y.1, none :: x.2)

/-- The event asks for `req`, by a request the server can read. -/
inductive Event.Asks (cfg : Config) : Event → Req → Prop
  | request {c : Ctx4} {mm mp mc after : List Byte} {d : Draw} {q : Request} {req : Req} : Ctx4Ok c → Fits cfg c.toCtx q after mm mp mc →
      Connect4Wire.Asks c d q req → Event.Asks cfg (.request c mm mp mc d (q.text ++ after)) req
  | engine {side : Side} {m : Move} : Event.Asks cfg (.engine side m) (.engine side m)

/-- The bytes sent show the answer. -/
inductive Shows : Req × Resp → Option Outcome → Prop
  | request {req : Req} {a : Resp} {r : Http.Response} : Describes a r → r.Ok → Complete r.text → Shows (req, a) (some (.sent r.text false))
  | engine {side : Side} {m : Move} {a : Resp} : Shows (.engine side m, a) none

/-- C106.  For every session, that is for every number of requests to create a game, to claim a player, to make
a move and to list the moves, in any order, each in any of its well-formed texts, with any numbers drawn, any
memory contents and any moves of engines in between: the server runs without undefined behaviour, sends on each
connection one complete response with the right length, and these responses are, in turn, the texts of the answers that
the rules of the game and of the service (`Follows`) prescribe for the requests. -/
theorem C106_session {cfg : Config} (hcfg : ConfigOk cfg) (stat : List Byte → Option Nat) (content : List Byte → List Byte)
    {es : List Event} {reqs : List Req} (h : List.Forall₂ (Event.Asks cfg) es reqs) :
    ∃ srv t outs, play cfg stat content es = .ok (srv, outs) ∧ t.map Prod.fst = reqs ∧ Follows t ∧ Inv srv t ∧
      List.Forall₂ Shows t outs := by
  induction h with
  | nil => exact ⟨{}, [], [], rfl, rfl, trivial, Connect4Server.inv_init, .nil⟩
  | @cons e req es reqs ha _ ih =>
    obtain ⟨srv, t, outs, h1, h2, h3, h4, h5⟩ := ih
    cases ha with
    | @request c mm mp mc after d q _ hc hf ha =>
      obtain ⟨srv', a, r, _, k2, k3, k4, k5, k6, k7⟩ := serve_asks hcfg stat content hc hf ha h4
      refine ⟨srv', (req, a) :: t, some (.sent r.text false) :: outs, ?_, by simp [h2], ⟨k3, h3⟩, k2, .cons (.request k4 k5 k6) h5⟩
      rw [play, h1, Res.ok_bind, k7, Res.ok_bind]
    | @engine side m =>
      obtain ⟨srv', a, k1, k2, k3⟩ := Connect4Server.answer_engine h4 side m
      refine ⟨srv', (.engine side m, a) :: t, none :: outs, ?_, by simp [h2], ⟨k3, h3⟩, k2, .cons .engine h5⟩
      rw [play, h1, Res.ok_bind]
      dsimp only
      rw [k1]

/-! ## C107: any bytes -/

/-- What one connection may do to a server with the past `t`. -/
inductive Safe (t : Trace) (srv : Server) : Server → Outcome → Prop
  /-- an exception in the thread of the connection -/
  | terminated : Safe t srv srv .terminated
  /-- no effect, and nothing sent -/
  | silent (sd : Bool) : Safe t srv srv (.sent [] sd)
  /-- no effect, and one complete response, which is not JSON -/
  | other {r : Http.Response} {sd : Bool} : r.Ok → Complete r.text → NotJson r → Safe t srv srv (.sent r.text sd)
  /-- the effect of one request, and the response for its answer, or nothing -/
  | game {req : Req} {a : Resp} {srv' : Server} {r : Http.Response} (sent : Bool) : (∀ s m, req ≠ .engine s m) → Inv srv' ((req, a) :: t) →
      Answer t req a → Describes a r → r.Ok → Complete r.text → Safe t srv srv' (.sent (if sent then r.text else []) false)

/-- Whatever it is that comes out, it is safe. -/
def AllSafe (t : Trace) (srv : Server) (x : Done) : Prop := ∀ srv' out, x = .ok (srv', out) → Safe t srv srv' out

theorem allSafe_bind {α : Type} {t : Trace} {srv : Server} (x : Res α) {k : α → Done} (h : ∀ a, AllSafe t srv (k a)) : AllSafe t srv (x.bind k) := by
  intro srv' out he
  cases x with
  | ok a => exact h a srv' out he
  | ub => exact absurd he (by simp [Res.bind])
  | running => exact absurd he (by simp [Res.bind])

theorem allSafe_ub {t : Trace} {srv : Server} : AllSafe t srv .ub := fun _ _ h => by cases h

theorem allSafe_ok {t : Trace} {srv srv' : Server} {out : Outcome} (h : Safe t srv srv' out) : AllSafe t srv (.ok (srv', out)) := by
  intro s o he
  cases he
  exact h

theorem allSafe_refuse {t : Trace} {srv : Server} {c : Ctx4} (hr : 2048 ≤ c.room) (n : Nat) {status reason : String} (body : String)
    (h : (n, reason) ∈ refusals) (hn : str status = dec n) (hb : (str body).length ≤ 512) (s : In) :
    AllSafe t srv (.ok (srv, refuse c.toCtx s status reason body)) := by
  obtain ⟨r, h1, h2, h3, h4⟩ := refuse_any hr body h hn hb s
  rw [h4]
  apply allSafe_ok
  cases s.good
  · exact .silent false
  · exact .other h2 h3 (by rw [h1]; exact notJson_of (by decide))

theorem allSafe_bad {t : Trace} {srv : Server} {c : Ctx4} (hr : 2048 ≤ c.room) (body : String) (hb : (str body).length ≤ 512) (s : In) :
    AllSafe t srv (.ok (srv, bad c.toCtx s body)) :=
  allSafe_refuse hr 400 body (by decide) (by decide +kernel) hb s

/-- The refusal of a request. -/
theorem allSafe_game {t : Trace} {srv srv' : Server} {c : Ctx4} (hr : 2048 ≤ c.room) {req : Req} (n : Nat) {status reason : String} (body : String)
    (h : (n, reason) ∈ [(400, "Bad Request"), (403, "Forbidden"), (404, "Not Found"), (503, "Service Unavailable")])
    (hn : str status = dec n) (hb : (str body).length ≤ 512) (s : In)
    (hne : ∀ s m, req ≠ .engine s m) (hi : Inv srv' ((req, .refused n) :: t)) (ha : Answer t req (.refused n)) :
    AllSafe t srv (.ok (srv', refuse c.toCtx s status reason body)) := by
  obtain ⟨r, rfl, h2, h3, h4⟩ := refuse_any hr body (List.mem_append_left [(405, "Method Not Allowed")] h) hn hb s
  rw [h4]
  exact allSafe_ok (.game s.good hne hi ha (.refused h) h2 h3)

theorem allSafe_succeed {t : Trace} {srv srv' : Server} {c : Ctx4} (hr : 2048 ≤ c.room) {req : Req} {a : Resp} (hs : Small a) (s : In)
    (hne : ∀ s m, req ≠ .engine s m) (hi : Inv srv' ((req, a) :: t)) (ha : Answer t req a) : AllSafe t srv (succeed c srv' s a) := by
  obtain ⟨r, h1, h2, h3, h4⟩ := succeed_any hr hs srv' s
  rw [h4]
  exact allSafe_ok (.game s.good hne hi ha h1 h2 h3)

theorem allSafe_post {t : Trace} {srv : Server} {c : Ctx4} (hr : 2048 ≤ c.room) (st : Rd) (method : List Byte) {k : Done} (hk : AllSafe t srv k) :
    AllSafe t srv (whenPost c.toCtx srv st method k) := by
  unfold whenPost
  split
  · exact allSafe_ub
  · exact hk
  · exact allSafe_refuse hr 405 _ (by decide) (by decide +kernel) (by decide +kernel) _

theorem allSafe_get {t : Trace} {srv : Server} {c : Ctx4} (hr : 2048 ≤ c.room) (st : Rd) (method : List Byte) {k : Done} (hk : AllSafe t srv k) :
    AllSafe t srv (whenGet c.toCtx srv st method k) := by
  unfold whenGet
  split
  · exact allSafe_ub
  · exact hk
  · exact allSafe_refuse hr 405 _ (by decide) (by decide +kernel) (by decide +kernel) _

theorem allSafe_json {t : Trace} {srv : Server} {c : Ctx4} (hr : 2048 ≤ c.room) (st : Rd) {k : Rd → Done} (hk : ∀ st, AllSafe t srv (k st)) :
    AllSafe t srv (whenJson c.toCtx srv st k) := by
  unfold whenJson
  cases h : headerLoop c.fuel c.fuel false st c.header with
  | ub => exact fun _ _ h => by cases h
  | running => exact fun _ _ h => by cases h
  | ok v =>
    rw [Res.ok_bind]
    cases v with
    | json st => exact hk st
    | missing => exact allSafe_ok (.silent false)
    | refused st body => exact allSafe_bad hr body (headerLoop_refused h) _
    | thrown => exact allSafe_ok .terminated

theorem expectNum_lt {c : Ctx} {cell : List Byte → Option Nat} {n : Nat} (hc : ∀ m k, cell m = some k → k < n) {a : Tok} {x : Tok × Nat}
    (h : expectNum c cell a = .ok (some x)) : x.2 < n := by
  unfold expectNum at h
  cases ha : getTok c a.st (Tok.block a) with
  | ub => rw [ha] at h; cases h
  | running => rw [ha] at h; cases h
  | ok b =>
    rw [ha, Res.ok_bind] at h
    split at h
    · cases h
    split at h
    · cases h
    · rename_i n hn
      cases h
      exact hc _ _ hn

theorem moveBody_board {c : Ctx4} (hrow : ∀ m k, c.row m = some k → k < 6) (hcol : ∀ m k, c.col m = some k → k < 7) {body : List Byte} {m : Move}
    (h : moveBody c body = .ok (some m)) : OnBoard m := by
  unfold moveBody at h
  cases h1 : getTok c.toCtx { s := { rest := body } } c.token with
  | ub => rw [h1] at h; cases h
  | running => rw [h1] at h; cases h
  | ok a =>
    rw [h1, Res.ok_bind] at h
    split at h
    · cases h
    cases h2 : expectName c.toCtx (str "row") a with
    | ub => rw [h2] at h; cases h
    | running => rw [h2] at h; cases h
    | ok b =>
      rw [h2, Res.ok_bind] at h
      cases b with
      | none => cases h
      | some b =>
        dsimp only at h
        cases h3 : expectNum c.toCtx c.row b with
        | ub => rw [h3] at h; cases h
        | running => rw [h3] at h; cases h
        | ok x =>
          rw [h3, Res.ok_bind] at h
          cases x with
          | none => cases h
          | some x =>
            dsimp only at h
            cases h4 : expectName c.toCtx (str "col") x.1 with
            | ub => rw [h4] at h; cases h
            | running => rw [h4] at h; cases h
            | ok e =>
              rw [h4, Res.ok_bind] at h
              cases e with
              | none => cases h
              | some e =>
                dsimp only at h
                cases h5 : expectNum c.toCtx c.col e with
                | ub => rw [h5] at h; cases h
                | running => rw [h5] at h; cases h
                | ok y =>
                  rw [h5, Res.ok_bind] at h
                  cases y with
                  | none => cases h
                  | some y =>
                    cases h
                    have r1 := expectNum_lt hrow h3
                    have r2 := expectNum_lt hcol h5
                    refine ⟨?_, ?_, ?_, ?_⟩ <;> dsimp only <;> omega

theorem gameHandler_safe {t : Trace} {srv : Server} (hi : Inv srv t) {c : Ctx4} (hr : 2048 ≤ c.room)
    (hrow : ∀ m k, c.row m = some k → k < 6) (hcol : ∀ m k, c.col m = some k → k < 7) (d : Draw) (st : Rd) (method resource : List Byte) :
    AllSafe t srv (gameHandler c srv d st method resource) := by
  unfold gameHandler
  split
  · exact allSafe_ub
  · unfold processGames
    split
    · exact allSafe_ub
    · unfold createGame
      apply allSafe_post hr
      apply allSafe_json hr
      intro st
      cases hb : playersBody c.toCtx st.s.rest with
      | ub => exact fun _ _ h => by cases h
      | running => exact fun _ _ h => by cases h
      | ok v =>
        rw [Res.ok_bind]
        cases v with
        | error msg => exact allSafe_bad hr msg (playersBody_error hb) _
        | ok v =>
          obtain ⟨tx, to_⟩ := v
          dsimp only
          have hans := Connect4Server.answer_create hi tx to_ d.game d.x d.o
          generalize Connect4Server.create srv tx to_ d.game d.x d.o = res at hans
          obtain ⟨srv', a⟩ := res
          dsimp only at hans
          rcases small_of_answer hi.reach hans.2 (by simp) with hs | ⟨n, rfl⟩
          · cases a <;> first | exact hs.elim | exact allSafe_succeed hr hs _ (by simp) hans.1 hans.2
          · have hn : n = 503 := by cases hans.2; rfl
            subst hn
            exact allSafe_game hr 503 _ (by simp) (by decide +kernel) (by decide +kernel) _ (by simp) hans.1 hans.2
    · split
      · rename_i g p w _
        unfold acceptMove
        split
        · exact allSafe_ub
        · exact allSafe_bad hr _ (by decide +kernel) _
        · apply allSafe_post hr
          apply allSafe_json hr
          intro st
          split
          · exact allSafe_bad hr _ (by decide +kernel) _
          rename_i h0
          cases hb : moveBody c st.s.rest with
          | ub => exact fun _ _ h => by cases h
          | running => exact fun _ _ h => by cases h
          | ok v =>
            rw [Res.ok_bind]
            cases v with
            | none => exact allSafe_bad hr _ (by decide +kernel) _
            | some m =>
              dsimp only
              obtain ⟨srv', a, hmv, hinv, hans⟩ := Connect4Server.answer_move hi (BitVec.ofNat 32 g) (BitVec.ofNat 32 p) m
              have hob := moveBody_board hrow hcol hb
              rw [hmv]
              rcases small_of_answer hi.reach hans (by simp) with hs | ⟨n, rfl⟩
              · cases a <;> first | exact hs.elim | exact allSafe_succeed hr hs _ (by simp) hinv hans
              · have hn : n = 403 ∨ n = 404 := by
                  cases hans with
                  | moveBad h =>
                    exfalso
                    rcases h with h | h | h
                    · exact h0 (.inl h)
                    · exact h0 (.inr h)
                    · exact h hob
                  | moveUnknown => simp
                  | moveRefused => simp
                rcases hn with rfl | rfl
                · exact allSafe_game hr 403 _ (by simp) (by decide +kernel) (by decide +kernel) _ (by simp) hinv hans
                · exact allSafe_game hr 404 _ (by simp) (by decide +kernel) (by split <;> decide +kernel) _ (by simp) hinv hans
      · rename_i g i _
        unfold claimPlayer
        apply allSafe_post hr
        have hans := Connect4Server.answer_claim hi (BitVec.ofNat 32 g) i
        generalize Connect4Server.claim srv (BitVec.ofNat 32 g) i = res at hans
        obtain ⟨srv', a⟩ := res
        dsimp only at hans
        rcases small_of_answer hi.reach hans.2 (by simp) with hs | ⟨n, rfl⟩
        · cases a <;> first | exact hs.elim | exact allSafe_succeed hr hs _ (by simp) hans.1 hans.2
        · have hn : n = 400 ∨ n = 403 ∨ n = 404 := by cases hans.2 <;> simp
          rcases hn with rfl | rfl | rfl
          · exact allSafe_game hr 400 badResource (by simp) (by decide +kernel) (by decide +kernel) _ (by simp) hans.1 hans.2
          · exact allSafe_game hr 403 _ (by simp) (by decide +kernel) (by decide +kernel) _ (by simp) hans.1 hans.2
          · exact allSafe_game hr 404 _ (by simp) (by decide +kernel) (by decide +kernel) _ (by simp) hans.1 hans.2
      · rename_i g n _
        unfold getMoves
        apply allSafe_get hr
        have hans := Connect4Server.answer_moves hi (BitVec.ofNat 32 g) n
        generalize Connect4Server.moves srv (BitVec.ofNat 32 g) n = res at hans
        obtain ⟨srv', a⟩ := res
        dsimp only at hans
        rcases small_of_answer hi.reach hans.2 (by simp) with hs | ⟨n, rfl⟩
        · cases a <;> first | exact hs.elim | exact allSafe_succeed hr hs _ (by simp) hans.1 hans.2
        · have hn : n = 400 ∨ n = 404 := by cases hans.2 <;> simp
          rcases hn with rfl | rfl
          · exact allSafe_game hr 400 badResource (by simp) (by decide +kernel) (by decide +kernel) _ (by simp) hans.1 hans.2
          · exact allSafe_game hr 404 _ (by simp) (by decide +kernel) (by decide +kernel) _ (by simp) hans.1 hans.2
      · exact allSafe_ok (.silent false)
  · split
    · exact allSafe_ub
    · unfold processShutdown
      apply allSafe_post hr
      have hf := fine_plain (str "200") (str "OK") (by decide)
      rw [simpleCalls_eq, answer_response hf _ (by decide +kernel) _ (by simp) st.s c.room (by
        have : (str "Server is shuting down...").length = 25 := by decide +kernel
        omega) true]
      apply allSafe_ok
      cases st.s.good
      · exact .silent true
      · exact .other (mkResponse_ok hf _) (mkResponse_complete (mkResponse_ok hf _)) (notJson_of (by decide))
    · exact allSafe_refuse hr 404 _ (by decide) (by decide +kernel) (by decide +kernel) _

/-- C107, one connection. -/
theorem serve_safe {cfg : Config} (hcfg : ConfigOk cfg) {stat : List Byte → Option Nat} {content : List Byte → List Byte}
    {c : Ctx4} (hc : Ctx4Ok c) (he : Env stat content c.room) {mm mp mc : List Byte} (hmm : mm.length = 33)
    (hmp : mp.length = 2049) (hmc : mc.length = 17) {srv : Server} {t : Trace} (hi : Inv srv t) (d : Draw) (down : Bool) (bytes : List Byte)
    (hf : bytes.length + 2 < c.fuel) : AllSafe t srv (serve cfg stat content c mm mp mc down srv d bytes) := by
  obtain ⟨st, m, r, ⟨hm1, hm2⟩, ⟨hr1, hr2⟩, _, _, hrun⟩ := read_line cfg hcfg.root hcfg.short bytes mm mp mc hmm hmp hmc c.fuel hf
  unfold serve serveWith
  rw [hrun, Res.ok_bind]
  dsimp only
  split
  · exact allSafe_ok (.silent false)
  split
  · exact allSafe_ub
  · rename_i hfile
    obtain ⟨q, sd, hex, hq, _, h⟩ := handled cfg stat content c.room he m r ⟨hm1, by unfold sizeMax; omega⟩
      ⟨hr1, by unfold sizeMax; omega⟩ ⟨by simp [hcfg.root, hr1], by simp only [List.length_append]; unfold sizeMax; omega⟩ hcfg.pfx st
    unfold dispatch at h
    rw [hfile] at h
    dsimp only at h
    rw [h, Res.ok_bind]
    apply allSafe_ok
    have hcomp : Complete q.text := by cases hex <;> exact mkResponse_complete hq
    have hnj : NotJson q := by
      cases hex with
      | file _ _ _ _ t ht => exact notJson_of (type_notJson ht)
      | notAllowed => exact notJson_of (by decide)
      | notFound => exact notJson_of (by decide)
      | rest => exact notJson_of (by decide)
    cases st.s.good
    · exact .silent sd
    · exact .other hq hcomp hnj
  · exact gameHandler_safe hi hc.base.room hc.row hc.col d st m r

/-- An event the server may see: any bytes at all. -/
def Event.Any (stat : List Byte → Option Nat) (content : List Byte → List Byte) : Event → Prop
  | .request c mm mp mc _ bytes => Ctx4Ok c ∧ Env stat content c.room ∧ mm.length = 33 ∧ mp.length = 2049 ∧ mc.length = 17 ∧
      bytes.length + 2 < c.fuel
  | .engine _ _ => True

/-- What was done on the connections tells the past `t`: a connection without effect got nothing or one complete
response that is not JSON, or ended in an exception; one with the effect of a request got the response for its answer,
or nothing. -/
inductive Tells : Trace → List (Option Outcome) → Prop
  | start : Tells [] []
  | engine {t : Trace} {outs : List (Option Outcome)} {side : Side} {m : Move} {a : Resp} : Tells t outs →
      Tells ((.engine side m, a) :: t) (none :: outs)
  | terminated {t : Trace} {outs : List (Option Outcome)} : Tells t outs → Tells t (some .terminated :: outs)
  | silent {t : Trace} {outs : List (Option Outcome)} {sd : Bool} : Tells t outs → Tells t (some (.sent [] sd) :: outs)
  | other {t : Trace} {outs : List (Option Outcome)} {sd : Bool} {r : Http.Response} : Tells t outs → Complete r.text → NotJson r →
      Tells t (some (.sent r.text sd) :: outs)
  | game {t : Trace} {outs : List (Option Outcome)} {req : Req} {a : Resp} {r : Http.Response} (sent : Bool) : Tells t outs → Describes a r →
      Complete r.text → Tells ((req, a) :: t) (some (.sent (if sent then r.text else []) false) :: outs)

/-- C107.  Whatever bytes arrive on however many connections, with engines moving in between: as long as the
process lives, the game is one played by the rules.  The state of the server is the one after some requests, all of
them answered as `Follows` prescribes; each connection has the effect of at most one of them; and what is sent on a
connection is nothing or one complete response, in JSON only if it describes the answer to that one. -/
theorem C107_any_bytes {cfg : Config} (hcfg : ConfigOk cfg) {stat : List Byte → Option Nat} {content : List Byte → List Byte}
    {es : List Event} (h : ∀ e ∈ es, e.Any stat content) {srv : Server} {outs : List (Option Outcome)}
    (hp : play cfg stat content es = .ok (srv, outs)) :
    ∃ t, Follows t ∧ Inv srv t ∧ Tells t outs := by
  induction es generalizing srv outs with
  | nil =>
    cases hp
    exact ⟨[], trivial, Connect4Server.inv_init, .start⟩
  | cons e es ih =>
    cases hx : play cfg stat content es with
    | ub => cases e <;> (rw [play, hx] at hp; cases hp)
    | running => cases e <;> (rw [play, hx] at hp; cases hp)
    | ok x =>
      obtain ⟨t, h1, h2, h3⟩ := ih (fun e he => h e (by simp [he])) hx
      have he := h e (by simp)
      cases e with
      | engine side m =>
        rw [play, hx, Res.ok_bind] at hp
        obtain ⟨srv', a, k1, k2, k3⟩ := Connect4Server.answer_engine h2 side m
        rw [k1] at hp
        cases hp
        exact ⟨(.engine side m, a) :: t, ⟨k3, h1⟩, k2, .engine h3⟩
      | request c mm mp mc d bytes =>
        obtain ⟨hc, henv, hmm, hmp, hmc, hf⟩ := he
        rw [play, hx, Res.ok_bind] at hp
        cases hs : serve cfg stat content c mm mp mc false x.1 d bytes with
        | ub => rw [hs] at hp; cases hp
        | running => rw [hs] at hp; cases hp
        | ok y =>
          rw [hs, Res.ok_bind] at hp
          have hsafe := serve_safe hcfg hc henv hmm hmp hmc h2 d false bytes hf y.1 y.2 hs
          cases hp
          generalize y.1 = srv' at hsafe ⊢
          generalize y.2 = out at hsafe ⊢
          cases hsafe with
          | terminated => exact ⟨t, h1, h2, .terminated h3⟩
          | silent sd => exact ⟨t, h1, h2, .silent h3⟩
          | other hr hcm hnj => exact ⟨t, h1, h2, .other h3 hcm hnj⟩
          | @game req a srv' r sent hne hinv ha hd _ hcm =>
            exact ⟨(req, a) :: t, ⟨ha, h1⟩, hinv, .game sent h3 hd hcm⟩

/-! ## Concrete cases -/

/-- A context: numbers are told apart by their first character. -/
def demoCtx4 : Ctx4 :=
  { demoCtx with
    row := fun m => m.head?.bind fun b => if 48 ≤ b.toNat ∧ b.toNat < 54 then some (b.toNat - 48) else none
    col := fun m => m.head?.bind fun b => if 48 ≤ b.toNat ∧ b.toNat < 55 then some (b.toNat - 48) else none }

theorem demoCtx4_ok : Ctx4Ok demoCtx4 := by
  refine ⟨demoCtx_ok, ?_, ?_⟩ <;>
  · intro m k h
    obtain ⟨b, _, h⟩ := Option.bind_eq_some_iff.1 h
    split at h
    · cases h; omega
    · cases h

/-- A connection on which these bytes arrive. -/
def demoEvent (d : Draw) (bytes : List Byte) : Event :=
  .request demoCtx4 (List.replicate 33 7) (List.replicate 2049 7) (List.replicate 17 7) d bytes

/-- A request that C106 is about: it asks for a new game, has a member the server does not know, and mixes cases. -/
example : Event.Asks demoCfg (demoEvent ⟨3, 8, 7⟩ (demoCreate.text ++ [])) (.create .external .slow 3 8 7) := by
  refine .request demoCtx4_ok ⟨?_, ?_, by decide, by decide, by decide, ?_, ?_, ?_, ?_, by decide +kernel⟩ ?_
  · refine ⟨by decide, by decide, by decide, by decide, by decide, by decide, by decide, ?_⟩
    unfold HeaderOk; decide +kernel
  · unfold HeadersFit HeaderOk; decide +kernel
  · rintro ⟨p, hp, h⟩
    simp only [demoCfg, Option.some.injEq] at hp
    subst hp
    revert h; decide +kernel
  · rw [List.length_replicate]
  · rw [List.length_replicate]
  · rw [List.length_replicate]
  · refine .create (lead := []) (w := []) (r := []) (tx := .external) (to_ := .slow)
      (ms := .cons (key "x") [] [] (.arr [] (.cons (num 1) [] [] .nil)) [] []
        (.cons (key "players") [] [] (.arr [] (.cons (.atom (.str (key "external"))) [] [] (.cons (.atom (.str (key "slow_engine"))) [] [] .nil)))
          [] [] .nil)) (by decide) (by decide) ?_ (by decide +kernel) (by simp [Spec.Ws]) ?_ ?_
    · exact ⟨(str "content-type", str "application/json"), by decide +kernel, by unfold SaysJson; decide +kernel⟩
    · simp [Spec.Value.Ok, Spec.Mems.Ok, Spec.Elems.Ok, Spec.Atom.Ok, num, key, Spec.Num.Ok, Spec.Str.Ok, Spec.Ws, Spec.Plain, Spec.Digit]
      decide +kernel
    · refine .other (by decide) (by decide) (by decide) (by decide +kernel) (.players (by decide) (by decide) (by decide) (by decide) (by decide) .nil)

/-- A session in the model, from bytes to bytes (newest first): a game is created, `x` is claimed, `x` moves, the
moves are listed; the last 40 bytes of each response. -/
example : (play demoCfg (fun _ => none) (fun _ => [])
    [demoEvent ⟨0, 0, 0⟩ (str "GET /games/3/moves?since=0 HTTP/1.1\r\n\r\n"),
     demoEvent ⟨0, 0, 0⟩ (str "POST /games/3/players/8/moves HTTP/1.1\r\nContent-Type: application/json\r\n\r\n{\"row\":0,\"col\":6}"),
     demoEvent ⟨0, 0, 0⟩ (str "POST /games/3/players/0 HTTP/1.1\r\n\r\n"),
     demoEvent ⟨3, 8, 7⟩ demoCreate.text]).bind (fun x => .ok (x.2.map fun
       | some (.sent out _) => out.drop (out.length - 40)
       | _ => [])) =
    .ok [str "ves\":[{\"i\":0,\"move\":{\"row\":0,\"col\":6}}]}", str "ation/json\r\nContent-Length: 7\r\n\r\n{\"i\":0}",
      str "on\r\nContent-Length: 14\r\n\r\n{\"playerId\":8}", str "json\r\nContent-Length: 12\r\n\r\n{\"gameId\":3}"] := by
  decide +kernel

/-- An event of C107: bytes that are no request. -/
example : (demoEvent ⟨3, 8, 7⟩ [0, 255, 13, 10, 7]).Any (fun _ => none) (fun _ => []) := by
  refine ⟨demoCtx4_ok, ⟨by simp, by decide, by simp⟩, ?_, ?_, ?_, by decide⟩ <;> rw [List.length_replicate]

end Abc.Connect4Wire
