import Verif.Samples.GameWireLemmas

/-!
# The tic-tac-toe server at the level of bytes

The requests a client can make, as bytes, and the responses, as bytes.
-/

namespace Abc.GameWire

open Abc.Ascii Abc.Stream Abc.Http Abc.Wire Abc.Json
open Abc.Endpoint (Config str mem)
open Abc.GameServer (Id PType Server Req Resp Inv Answer Follows Trace)
open Abc.TicTacToe (Pid Move OnBoard Side)

/-! ## The bodies of responses -/

/-- `,"winner":…`, if the game is over. -/
def winnerText : Option Pid → List Byte
  | none => []
  | some w => str ",\"winner\":" ++ dec w.toNat

/-- `{"i":…,"move":{"row":…,"col":…}}`. -/
def moveText (i : Nat) (m : Move) : List Byte :=
  str "{\"i\":" ++ dec i ++ str ",\"move\":{\"row\":" ++ dec m.row.toNat ++ str ",\"col\":" ++ dec m.col.toNat ++ str "}}"

/-- The JSON text for the values of a response. -/
inductive BodyText : Resp → List Byte → Prop
  | created (gid : Id) : BodyText (.created gid) (str "{\"gameId\":" ++ dec gid.toNat ++ str "}")
  | claimed (pid : Id) : BodyText (.claimed pid) (str "{\"playerId\":" ++ dec pid.toNat ++ str "}")
  | accepted (i : Nat) (w : Option Pid) : BodyText (.accepted i w) (str "{\"i\":" ++ dec i ++ winnerText w ++ str "}")
  | moves (l : List (Nat × Move)) (w : Option Pid) : BodyText (.moveList (l.map fun x => (x.1, some x.2)) w)
      (str "{\"moves\":[" ++ [44].intercalate (l.map fun x => moveText x.1 x.2) ++ str "]" ++ winnerText w ++ str "}")

section Values
open Spec

theorem jsonText_value {size : Nat} (v : Value) (hc : v.Compact) (hd : v.depth ≤ 16) (hl : v.text.length + 1 ≤ size) (h0 : (0 : Byte) ∉ v.text) :
    jsonText size v.toks = .ok v.text := by
  have h := writes_value (max := 16) v hc { o := { out := [], room := size } } rfl rfl (by simpa using hd)
    (by simp [commaText]; omega)
  unfold jsonText
  rw [h]
  have hcs := cstr_str v.text h0
  have hg : (adv { out := [], room := size } (commaText [] false ++ v.text)).good = true := rfl
  have hr : (adv { out := [], room := size } (commaText [] false ++ v.text)).room = size - v.text.length := by
    simp [commaText]
  have ho : (adv { out := [], room := size } (commaText [] false ++ v.text)).out = v.text := by
    simp [commaText, adv]
  dsimp only
  generalize adv { out := [], room := size } (commaText [] false ++ v.text) = o at hg hr ho ⊢
  have hp : Http.putChar o 0 = Http.adv o [0] := Http.putChar_adv hg (by omega) 0
  rw [hp]
  have hg2 : (Http.adv o [0]).good = true := by simpa using hg
  have ho2 : (Http.adv o [0]).out = v.text ++ [0] := by rw [← ho]; rfl
  simp only [hg2, if_true, ho2, hcs]

theorem jsonBody_value (v : Value) (hc : v.Compact) (hd : v.depth ≤ 16) (hl : v.text.length ≤ 1024) (h0 : (0 : Byte) ∉ v.text) :
    jsonBody v.toks = .ok v.text := jsonText_value v hc hd (by omega) h0

def key (s : String) : Str := ⟨str s, []⟩
def num (n : Nat) : Value := .atom (.num { int := dec n })
def winnerMems : Option Pid → Mems
  | none => .nil
  | some w => .cons (key "winner") [] [] (num w.toNat) [] [] .nil
def moveValue (i : Nat) (m : Move) : Value :=
  .obj [] (.cons (key "i") [] [] (num i) [] [] (.cons (key "move") [] []
    (.obj [] (.cons (key "row") [] [] (num m.row.toNat) [] [] (.cons (key "col") [] [] (num m.col.toNat) [] [] .nil))) [] [] .nil))
def moveElems : List (Nat × Move) → Elems
  | [] => .nil
  | x :: l => .cons (moveValue x.1 x.2) [] [] (moveElems l)

theorem num_text (n : Nat) : (num n).text = dec n := by simp [num, Value.text, Atom.text, Num.text, fracText, expText]
theorem num_toks (n : Nat) : (num n).toks = [.num (dec n)] := by simp [num, Value.toks, Atom.tok, Num.text, fracText, expText]
theorem num_compact (n : Nat) : (num n).Compact := by simp [num, Value.Compact, Atom.Compact]
theorem num_depth (n : Nat) : (num n).depth = 0 := by simp [num, Value.depth]
theorem key_text (s : String) : (key s).text = str s := by simp [key, Str.text, tailText]
theorem key_val (s : String) : (key s).val = str s := by simp [key, Str.val, tailVal]

theorem dec_zero_free (n : Nat) : (0 : Byte) ∉ dec n := fun h => by
  have := (dec_spec n).2.1 0 h
  revert this; decide

theorem decInt_of {n : Int} (h : 0 ≤ n) : decInt n = dec n.toNat := by
  rw [decInt, if_neg (by omega)]
  congr 1
  omega

theorem moveValue_text (i : Nat) (m : Move) : (moveValue i m).text = moveText i m := by
  have e1 : str "{\"i\":" = 123 :: 34 :: (str "i" ++ [34, 58]) := by decide
  have e2 : str ",\"move\":{\"row\":" = 44 :: 34 :: (str "move" ++ 34 :: 58 :: 123 :: 34 :: (str "row" ++ [34, 58])) := by decide
  have e3 : str ",\"col\":" = 44 :: 34 :: (str "col" ++ [34, 58]) := by decide
  have e4 : str "}}" = [125, 125] := by decide
  simp [moveValue, moveText, Value.text, Mems.text, Mems.sep, num_text, key_text, e1, e2, e3, e4]

theorem moveElems_text (l : List (Nat × Move)) : (moveElems l).text = [44].intercalate (l.map fun x => moveText x.1 x.2) := by
  induction l with
  | nil => simp [moveElems, Elems.text, List.intercalate]
  | cons x l ih =>
    cases l with
    | nil => simp [moveElems, Elems.text, Elems.sep, moveValue_text, List.intercalate]
    | cons y l =>
      rw [moveElems, Elems.text, ih, moveValue_text]
      simp [moveElems, Elems.sep, List.intercalate]

theorem moveElems_toks (l : List (Nat × Move)) (hl : ∀ x ∈ l, OnBoard x.2) :
    movesToks (l.map fun x => (x.1, some x.2)) = some (moveElems l).toks := by
  induction l with
  | nil => rfl
  | cons x l ih =>
    obtain ⟨h1, _, h2, _⟩ := hl x (by simp)
    rw [List.map_cons, movesToks, ih (fun y hy => hl y (by simp [hy]))]
    simp [moveElems, moveValue, moveToks, Elems.toks, Value.toks, Mems.toks, num_toks, key_val, decInt_of h1, decInt_of h2]

theorem moveValue_compact (i : Nat) (m : Move) : (moveValue i m).Compact := by
  simp [moveValue, Value.Compact, Mems.Compact, num_compact, key]

theorem moveElems_compact (l : List (Nat × Move)) : (moveElems l).Compact := by
  induction l with
  | nil => simp [moveElems, Elems.Compact]
  | cons x l ih => simp [moveElems, Elems.Compact, moveValue_compact, ih]

theorem moveElems_depth (l : List (Nat × Move)) : (moveElems l).depth ≤ 2 := by
  induction l with
  | nil => simp [moveElems, Elems.depth]
  | cons x l ih =>
    have : (moveValue x.1 x.2).depth = 2 := by simp [moveValue, Value.depth, Mems.depth, num_depth]
    simp only [moveElems, Elems.depth, this]
    exact Nat.max_le.2 ⟨Nat.le_refl _, ih⟩

theorem moveText_small (i : Nat) (m : Move) (hi : i < 9) (hm : OnBoard m) : (moveText i m).length ≤ 40 ∧ (0 : Byte) ∉ moveText i m := by
  obtain ⟨h1, h2, h3, h4⟩ := hm
  have d1 := dec_length 1 i (by omega) (by omega)
  have d2 := dec_length 1 m.row.toNat (by omega) (by omega)
  have d3 := dec_length 1 m.col.toNat (by omega) (by omega)
  have l1 : (str "{\"i\":").length = 5 := by decide
  have l2 : (str ",\"move\":{\"row\":").length = 15 := by decide
  have l3 : (str ",\"col\":").length = 7 := by decide
  have l4 : (str "}}").length = 2 := by decide
  have z1 : (0 : Byte) ∉ str "{\"i\":" := by decide
  have z2 : (0 : Byte) ∉ str ",\"move\":{\"row\":" := by decide
  have z3 : (0 : Byte) ∉ str ",\"col\":" := by decide
  have z4 : (0 : Byte) ∉ str "}}" := by decide
  constructor
  · simp only [moveText, List.length_append, l1, l2, l3, l4]; omega
  · simp only [moveText, List.mem_append, z1, z2, z3, z4, dec_zero_free, or_self, not_false_eq_true]

theorem moves_small (l : List (Nat × Move)) (h : ∀ x ∈ l, x.1 < 9 ∧ OnBoard x.2) :
    ([44].intercalate (l.map fun x => moveText x.1 x.2)).length ≤ 41 * l.length ∧
    (0 : Byte) ∉ [44].intercalate (l.map fun x => moveText x.1 x.2) := by
  induction l with
  | nil => simp [List.intercalate]
  | cons x l ih =>
    have hx := moveText_small x.1 x.2 (h x (by simp)).1 (h x (by simp)).2
    have ih' := ih (fun y hy => h y (by simp [hy]))
    cases l with
    | nil => simp [List.intercalate]; exact ⟨by omega, hx.2⟩
    | cons y l =>
      rw [List.map_cons, List.map_cons]
      simp only [List.intercalate, List.intersperse, List.flatten_cons, List.map_cons, List.length_append, List.length_cons,
        List.mem_append, List.length_nil] at ih' ⊢
      refine ⟨by omega, ?_⟩
      intro hz
      rcases hz with hz | hz | hz
      · exact hx.2 hz
      · revert hz; decide
      · exact ih'.2 hz

/-- The responses with a body of JSON whose numbers are small enough. -/
def Small : Resp → Prop
  | .created _ => True
  | .claimed _ => True
  | .accepted i _ => 0 ≤ i ∧ i < 9
  | .moveList l _ => ∃ l' : List (Nat × Move), l = l'.map (fun x => (x.1, some x.2)) ∧ l.length ≤ 9 ∧ ∀ x ∈ l', x.1 < 9 ∧ OnBoard x.2
  | _ => False

theorem winner_small (w : Option Pid) : (winnerText w).length ≤ 14 ∧ (0 : Byte) ∉ winnerText w := by
  cases w with
  | none => simp [winnerText]
  | some w =>
    have l1 : (str ",\"winner\":").length = 10 := by decide
    have z1 : (0 : Byte) ∉ str ",\"winner\":" := by decide
    have d := dec_length 4 w.toNat (by omega) (by omega)
    simp only [winnerText, List.length_append, List.mem_append, l1, z1, dec_zero_free, or_self, not_false_eq_true, and_true]
    omega

theorem single_value (k : String) (n : Nat) (w : Option Pid) (hk : (str k).length ≤ 20) (h0 : (0 : Byte) ∉ str k) (hn : n < 2 ^ 32) :
    let v : Value := .obj [] (.cons (key k) [] [] (num n) [] [] (winnerMems w))
    v.toks = [.beginObject, .prop (str k), .num (dec n)] ++ winnerToks w ++ [.endObject] ∧
    v.text = 123 :: 34 :: (str k ++ 34 :: 58 :: (dec n ++ (winnerText w ++ [125]))) ∧ jsonBody v.toks = .ok v.text := by
  intro v
  have e1 : str ",\"winner\":" = 44 :: 34 :: (str "winner" ++ [34, 58]) := by decide
  have ht : v.text = 123 :: 34 :: (str k ++ 34 :: 58 :: (dec n ++ (winnerText w ++ [125]))) := by
    cases w with
    | none => simp [v, winnerMems, winnerText, Value.text, Mems.text, Mems.sep, num_text, key_text]
    | some w => simp [v, winnerMems, winnerText, Value.text, Mems.text, Mems.sep, num_text, key_text, e1]
  have hw := winner_small w
  have d := dec_length 10 n (by omega) (by omega)
  refine ⟨?_, ht, jsonBody_value v ?_ ?_ ?_ ?_⟩
  · cases w <;> simp [v, winnerMems, winnerToks, Value.toks, Mems.toks, num_toks, key_val]
  · cases w <;> simp [v, winnerMems, Value.Compact, Mems.Compact, num_compact, key]
  · cases w <;> simp [v, winnerMems, Value.depth, Mems.depth, num_depth]
  · rw [ht]; simp only [List.length_cons, List.length_append, List.length_nil]; omega
  · rw [ht]
    simp only [List.mem_cons, List.mem_append, h0, hw.2, dec_zero_free, List.not_mem_nil, or_false]
    decide

theorem response_body {a : Resp} (hs : Small a) :
    ∃ ts b, respToks a = some ts ∧ BodyText a b ∧ jsonBody ts = .ok b ∧ b.length ≤ 1024 := by
  cases a with
  | created gid =>
    obtain ⟨h1, h2, h3⟩ := single_value "gameId" gid.toNat none (by decide) (by decide) gid.isLt
    refine ⟨_, _, rfl, .created gid, ?_, ?_⟩
    · rw [h1, h2] at h3
      have e : str "{\"gameId\":" = 123 :: 34 :: (str "gameId" ++ [34, 58]) := by decide
      have e2 : str "}" = [125] := by decide
      rw [e, e2]
      simpa [winnerToks, winnerText] using h3
    · have d := dec_length 10 gid.toNat (by omega) (by omega)
      have l1 : (str "{\"gameId\":").length = 10 := by decide
      have l2 : (str "}").length = 1 := by decide
      simp only [List.length_append, l1, l2]; omega
  | claimed gid =>
    obtain ⟨h1, h2, h3⟩ := single_value "playerId" gid.toNat none (by decide) (by decide) gid.isLt
    refine ⟨_, _, rfl, .claimed gid, ?_, ?_⟩
    · rw [h1, h2] at h3
      have e : str "{\"playerId\":" = 123 :: 34 :: (str "playerId" ++ [34, 58]) := by decide
      have e2 : str "}" = [125] := by decide
      rw [e, e2]
      simpa [winnerToks, winnerText] using h3
    · have d := dec_length 10 gid.toNat (by omega) (by omega)
      have l1 : (str "{\"playerId\":").length = 12 := by decide
      have l2 : (str "}").length = 1 := by decide
      simp only [List.length_append, l1, l2]; omega
  | accepted i w =>
    obtain ⟨hi1, hi2⟩ := hs
    obtain ⟨n, rfl⟩ := Int.eq_ofNat_of_zero_le hi1
    obtain ⟨h1, h2, h3⟩ := single_value "i" n w (by decide) (by decide) (by omega)
    refine ⟨_, _, rfl, .accepted n w, ?_, ?_⟩
    · rw [h1, h2] at h3
      have e : str "{\"i\":" = 123 :: 34 :: (str "i" ++ [34, 58]) := by decide
      have e2 : str "}" = [125] := by decide
      rw [e, e2, decInt_of (by omega)]
      simpa using h3
    · have d := dec_length 1 n (by omega) (by omega)
      have l1 : (str "{\"i\":").length = 5 := by decide
      have l2 : (str "}").length = 1 := by decide
      have hw := winner_small w
      simp only [List.length_append, l1, l2]; omega
  | moveList l w =>
    obtain ⟨l', rfl, hl, hx⟩ := hs
    rw [List.length_map] at hl
    have ht := moveElems_toks l' (fun x h => (hx x h).2)
    have hsm := moves_small l' hx
    have hw := winner_small w
    let v : Value := .obj [] (.cons (key "moves") [] [] (.arr [] (moveElems l')) [] [] (winnerMems w))
    have e1 : str ",\"winner\":" = 44 :: 34 :: (str "winner" ++ [34, 58]) := by decide
    have e2 : str "}" = [125] := by decide
    have e3 : str "]" = [93] := by decide
    have e4 : str "{\"moves\":[" = 123 :: 34 :: (str "moves" ++ [34, 58, 91]) := by decide
    have l4 : (str "{\"moves\":[").length = 10 := by decide
    have z4 : (0 : Byte) ∉ str "{\"moves\":[" := by decide
    have z5 : (0 : Byte) ∉ ([93] : List Byte) := by decide
    have z6 : (0 : Byte) ∉ ([125] : List Byte) := by decide
    have hvt : v.text = str "{\"moves\":[" ++ [44].intercalate (l'.map fun x => moveText x.1 x.2) ++ str "]" ++ winnerText w ++ str "}" := by
      rw [e2, e3, e4]
      cases w with
      | none => simp [v, winnerMems, winnerText, Value.text, Mems.text, Mems.sep, moveElems_text, key_text]
      | some w => simp [v, winnerMems, winnerText, Value.text, Mems.text, Mems.sep, num_text, moveElems_text, key_text, e1]
    have hlen : v.text.length ≤ 1024 := by
      rw [hvt, e2, e3]
      simp only [List.length_append, l4, List.length_cons, List.length_nil]; omega
    have hvk : v.toks = [.beginObject, .prop (str "moves"), .beginArray] ++ (moveElems l').toks ++ [.endArray] ++ winnerToks w ++ [.endObject] := by
      cases w <;> simp [v, winnerMems, winnerToks, Value.toks, Mems.toks, num_toks, key_val]
    have hj := jsonBody_value v
      (by cases w <;> simp [v, winnerMems, Value.Compact, Mems.Compact, num_compact, key, moveElems_compact])
      (by
        have := moveElems_depth l'
        have h2 : v.depth = max ((moveElems l').depth + 1) 0 + 1 := by
          cases w <;> simp [v, winnerMems, Value.depth, Mems.depth, num_depth]
        rw [h2, Nat.max_eq_left (Nat.zero_le _)]; omega)
      hlen
      (by
        rw [hvt, e2, e3]
        simp only [List.mem_append, z4, z5, z6, hsm.2, hw.2, or_self, not_false_eq_true])
    refine ⟨_, v.text, by rw [respToks, ht]; rfl, by rw [hvt]; exact .moves l' w, ?_, hlen⟩
    dsimp only
    rw [← hvk]; exact hj
  | refused n => exact hs.elim
  | engine ok => exact hs.elim

end Values

/-! ## Requests -/

/-- Exactly one header tells the type of the body, and it says JSON. -/
def SendsJson (hs : List Header) : Prop := ∃ h, hs.filter (fun h => decide (IsType h)) = [h] ∧ SaysJson h

/-- The bytes `q` ask for `req`; a new game gets the numbers `d`.  The texts of the resources are those of the
client's script, in any case of `/games`. -/
inductive Asks (c : Ctx) (d : Draw) (q : Request) : Req → Prop
  | create {lead w r : List Byte} {ms : Spec.Mems} {tx to_ : PType} : q.method.map lower = str "post" → q.resource.map lower = str "/games" →
      SendsJson q.headers → q.body = lead ++ ((Spec.Value.obj w ms).text ++ r) → Spec.Ws lead → (Spec.Value.obj w ms).Ok →
      Picks ms none (some (typeName tx, typeName to_)) → Asks c d q (.create tx to_ d.game d.x d.o)
  | claim {pre : List Byte} {gid : Id} {i : Nat} : q.method.map lower = str "post" → pre.map lower = str "/games" →
      q.resource = pre ++ (str "/" ++ (dec gid.toNat ++ (str "/players/" ++ dec i))) → i < 2 ^ 32 → Asks c d q (.claim gid i)
  | move {pre lead w r : List Byte} {gid pid : Id} {ms : Spec.Mems} {row col : Nat} : q.method.map lower = str "post" →
      pre.map lower = str "/games" →
      q.resource = pre ++ (str "/" ++ (dec gid.toNat ++ (str "/players/" ++ (dec pid.toNat ++ str "/moves")))) →
      SendsJson q.headers → q.body = lead ++ ((Spec.Value.obj w ms).text ++ r) → Spec.Ws lead → (Spec.Value.obj w ms).Ok →
      Cells c ms row col → Asks c d q (.move gid pid ⟨row, col⟩)
  | moves {pre : List Byte} {gid : Id} {since : Nat} : q.method.map lower = str "get" → pre.map lower = str "/games" →
      q.resource = pre ++ (str "/" ++ (dec gid.toNat ++ (str "/moves?since=" ++ dec since))) → since < 2 ^ 32 →
      Asks c d q (.moves gid since)

/-- The response for an answer of the server: JSON, or a status and some text. -/
inductive Describes : Resp → Http.Response → Prop
  | json {a b} : BodyText a b → Describes a (mkResponse (str "200") (str "OK") (some (str "application/json")) b)
  | refused {n : Nat} {reason : String} {body : List Byte} :
      (n, reason) ∈ [(400, "Bad Request"), (403, "Forbidden"), (404, "Not Found"), (503, "Service Unavailable")] →
      Describes (.refused n) (mkResponse (dec n) (str reason) (some plain) body)

theorem judge_done {hs : List Header} (h : hs.filter (fun h => decide (IsType h)) = []) (has : Bool) :
    judge has hs = if has then .json else .missing := by
  induction hs with
  | nil => rfl
  | cons x hs ih =>
    by_cases hx : IsType x
    · simp [hx] at h
    · simp only [judge, hx, if_false]
      exact ih (by simpa [hx] using h)

theorem judge_json {hs : List Header} (h : SendsJson hs) : judge false hs = .json := by
  obtain ⟨t, h1, h2⟩ := h
  induction hs with
  | nil => simp at h1
  | cons x hs ih =>
    by_cases hx : IsType x
    · simp only [List.filter_cons, hx, decide_true, if_true, List.cons.injEq] at h1
      obtain ⟨rfl, h1⟩ := h1
      simp only [judge, hx, h2, if_true, judge_done h1]
      simp
    · simp only [judge, hx, if_false]
      exact ih (by simpa [hx] using h1)

theorem headers_length (hs : List Header) : hs.length ≤ (headersText hs).length := by
  induction hs with
  | nil => simp
  | cons h hs ih => rw [headersText_cons]; simp [crlf]; omega

theorem fine_json : Fine (str "200") (str "OK") (some (str "application/json")) := by
  refine ⟨by decide, by decide, by decide, by decide, ?_, by decide⟩
  intro t ht
  simp only [Option.mem_def, Option.some.injEq] at ht
  rw [← ht]; decide

theorem succeed_any {c : Ctx} (hc : 2048 ≤ c.room) {a : Resp} (hs : Small a) (srv : Server) (s : In) :
    ∃ r, Describes a r ∧ r.Ok ∧ Complete r.text ∧ succeed c srv s a = .ok (srv, .sent (if s.good then r.text else []) false) := by
  obtain ⟨ts, b, h1, h2, h3, h4⟩ := response_body hs
  have hok := mkResponse_ok fine_json b
  refine ⟨_, .json h2, hok, mkResponse_complete hok, ?_⟩
  unfold succeed
  rw [h1]
  dsimp only
  rw [h3, Res.ok_bind, simpleCalls_eq, jsonType, answer_response fine_json b (by omega) [b] (by simp) s c.room (by omega) false]

theorem succeed_ok {c : Ctx} (hc : CtxOk c) {a : Resp} (hs : Small a) (srv : Server) (s : In) (hg : s.good = true) :
    ∃ r, Describes a r ∧ r.Ok ∧ Complete r.text ∧ succeed c srv s a = .ok (srv, .sent r.text false) := by
  obtain ⟨r, h1, h2, h3, h4⟩ := succeed_any hc.room hs srv s
  rw [if_pos hg] at h4
  exact ⟨r, h1, h2, h3, h4⟩

/-- The refusals of the game, and the one of the endpoint. -/
def refusals : List (Nat × String) :=
  [(400, "Bad Request"), (403, "Forbidden"), (404, "Not Found"), (503, "Service Unavailable"), (405, "Method Not Allowed")]

theorem refuse_any {c : Ctx} (hr : 2048 ≤ c.room) {n : Nat} {status reason : String} (body : String)
    (h : (n, reason) ∈ refusals) (hn : str status = dec n) (hb : (str body).length ≤ 512) (s : In) :
    ∃ r, r = mkResponse (dec n) (str reason) (some plain) (str body) ∧ r.Ok ∧ Complete r.text ∧
      refuse c s status reason body = .sent (if s.good then r.text else []) false := by
  have hf : Fine (str status) (str reason) (some plain) := by
    rw [hn]
    apply fine_plain
    simp only [refusals, List.mem_cons, Prod.mk.injEq, List.not_mem_nil, or_false] at h
    rcases h with ⟨rfl, rfl⟩ | ⟨rfl, rfl⟩ | ⟨rfl, rfl⟩ | ⟨rfl, rfl⟩ | ⟨rfl, rfl⟩ <;> decide +kernel
  have hok := mkResponse_ok hf (str body)
  refine ⟨_, rfl, by rw [← hn]; exact hok, by rw [← hn]; exact mkResponse_complete hok, ?_⟩
  unfold refuse
  rw [simpleCalls_eq, answer_response hf (str body) (by omega) [str body] (by simp) s c.room (by omega) false, hn]

theorem refuse_ok {c : Ctx} (hc : CtxOk c) {n : Nat} {status reason : String} (body : String)
    (h : (n, reason) ∈ [(400, "Bad Request"), (403, "Forbidden"), (404, "Not Found"), (503, "Service Unavailable")])
    (hn : str status = dec n) (hb : (str body).length ≤ 512) (s : In) (hg : s.good = true) :
    ∃ r, Describes (.refused n) r ∧ r.Ok ∧ Complete r.text ∧ refuse c s status reason body = .sent r.text false := by
  obtain ⟨r, rfl, h2, h3, h4⟩ := refuse_any hc.room body (List.mem_append_left [(405, "Method Not Allowed")] h) hn hb s
  rw [if_pos hg] at h4
  exact ⟨_, .refused h, h2, h3, h4⟩

theorem whenJson_ok {S : Type} {c : Ctx} (hc : CtxOk c) {hs : List Header} (hfit : HeadersFit hs) (hj : SendsJson hs) (r : List Byte)
    (hfu : (headersText hs).length + 4 ≤ c.fuel) (srv : S) (g : Nat) (k : Rd → DoneOf S) :
    whenJson c srv ⟨In.ofList (headersText hs ++ (crlf ++ r)), .headerName, g⟩ k = k ⟨In.ofList r, .body, 0⟩ := by
  have hl := headers_length hs
  obtain ⟨v, h1, h2⟩ := headerLoop_judge (fuel := c.fuel) hs hfit r false c.header hc.header g c.fuel (by omega) hfu
  rw [judge_json hj] at h2
  simp only [Judged.Ends] at h2
  unfold whenJson
  rw [h1, Res.ok_bind, h2]

theorem method_is {q : Request} (hq : q.Ok) (hm : q.method.length ≤ 32) {m : String} {l : String} (h : q.method.map lower = str l)
    (hl : (str m).map lower = str l) (h0 : (0 : Byte) ∉ str m) (hlen : (str m).length ≤ 10) :
    areEqualI (mem q.method) (mem (str m)) = some true := by
  have hz : (0 : Byte) ∉ q.method := fun hc => by
    have := hq.method 0 hc; revert this; decide
  rw [Endpoint.equal_i hz h0 (by unfold sizeMax; omega) (by unfold sizeMax; omega), h, hl]
  simp

theorem lower_length {p : List Byte} {s : String} (h : p.map lower = str s) : p.length = (str s).length := by
  rw [← h, List.length_map]

theorem games_prefix {pre tail : List Byte} (h : pre.map lower = str "/games") (h0 : (0 : Byte) ∉ pre ++ tail) :
    areEqualIN (mem (pre ++ tail)) (mem (str "/games")) 6 = some true ∧ (pre ++ tail).drop 6 = tail := by
  have hl : pre.length = 6 := lower_length h
  constructor
  · have := buf_starts_i (m := (pre ++ tail) ++ [0]) (w := pre ++ tail) (b := str "/games") (cstr_str _ h0) (by simp) (by decide)
    have e : (str "/games").length = 6 := by decide
    rw [e] at this
    unfold mem at this ⊢
    rw [this, show (pre ++ tail).take 6 = pre by rw [← hl]; simp, h]
    simp only [Option.some.injEq, decide_eq_true_eq]
    decide
  · rw [← hl]; simp

theorem tail_is {tail : List Byte} (h0 : (0 : Byte) ∉ tail) (hl : tail.length < 4096) :
    areEqualI (mem tail) (mem []) = some (decide (tail = [])) := by
  rw [Endpoint.equal_i h0 (by simp) (by unfold sizeMax; omega) (by decide)]
  simp

/-- What the server answers, given what it answered before, fits. -/
theorem small_of_answer {t : Trace} (hr : TicTacToe.Reach (GameServer.standing t)) {req : Req} {a : Resp} (h : Answer t req a)
    (hne : ∀ s m, req ≠ .engine s m) : Small a ∨ ∃ n, a = .refused n := by
  cases h with
  | created => exact .inl trivial
  | claimed => exact .inl trivial
  | @accepted gid pid m c w _ _ _ _ _ _ hl hw =>
    have := (TicTacToe.Reach.step hr hl).length_le
    simp only [List.length_cons] at this
    exact .inl ⟨by omega, by omega⟩
  | @moves gid since c w _ _ _ hw =>
    left
    have hle := hr.length_le
    refine ⟨((GameServer.standing t).reverse.zipIdx.map fun x => (x.2, x.1)).drop since, ?_, ?_, ?_⟩
    · rw [List.map_drop, List.map_map]; rfl
    · simp; omega
    · intro x hx
      have hx := List.mem_of_mem_drop hx
      obtain ⟨y, hy, rfl⟩ := List.mem_map.1 hx
      have h1 := List.mem_zipIdx hy
      simp only [List.length_reverse] at h1
      refine ⟨by dsimp only; omega, ?_⟩
      dsimp only
      rw [h1.2.2]
      exact hr.onBoard _ (List.mem_reverse.1 (List.getElem_mem _))
  | engine => exact absurd rfl (hne _ _)
  | engineRefused => exact absurd rfl (hne _ _)
  | busy => exact .inr ⟨_, rfl⟩
  | claimBad => exact .inr ⟨_, rfl⟩
  | claimUnknown => exact .inr ⟨_, rfl⟩
  | claimLate => exact .inr ⟨_, rfl⟩
  | moveBad => exact .inr ⟨_, rfl⟩
  | moveUnknown => exact .inr ⟨_, rfl⟩
  | moveRefused => exact .inr ⟨_, rfl⟩
  | movesBad => exact .inr ⟨_, rfl⟩
  | movesUnknown => exact .inr ⟨_, rfl⟩

/-- A request the server can read, with what the handler needs. -/
structure Fits (cfg : Config) (c : Ctx) (q : Request) (after mm mp mc : List Byte) : Prop where
  ok : q.Ok
  headers : HeadersFit q.headers
  method : q.method.length ≤ 32
  resource : cfg.rootDir.length + q.resource.length ≤ 2047
  protocol : (protocolText q.maj q.min).length ≤ 16
  /-- not a request for a file -/
  rest : ¬ Endpoint.PrefixMatches cfg q.resource
  mm : mm.length = 33
  mp : mp.length = 2049
  mc : mc.length = 17
  fuel : (q.text ++ after).length + 32 ≤ c.fuel

theorem resource_zero {q : Request} (hq : q.Ok) : (0 : Byte) ∉ q.resource := fun hc => by
  have := hq.resource 0 hc; revert this; decide

/-- The bytes of a request reach the handler. -/
theorem serveWith_handler {S : Type} {cfg : Config} (hcfg : ConfigOk cfg) (stat : List Byte → Option Nat) (content : List Byte → List Byte)
    {c : Ctx} {q : Request} {after mm mp mc : List Byte} (hf : Fits cfg c q after mm mp mc)
    (hfav : ¬ (q.method.map lower = str "get" ∧ q.resource.map lower = str "/favicon.ico")) (srv : S)
    (k : Rd → List Byte → List Byte → DoneOf S) :
    serveWith cfg stat content c mm mp mc false srv k (q.text ++ after) =
      k ⟨In.ofList (headersText q.headers ++ (crlf ++ (q.body ++ after))), .headerName, (protocolText q.maj q.min).length⟩
        q.method q.resource := by
  have hm : (0 : Byte) ∉ q.method := fun hc => by
    have := hf.ok.method 0 hc; revert this; decide
  have h1 := hf.fuel
  have h2 := hf.method
  have h3 := hf.resource
  rw [List.length_append] at h1
  obtain ⟨b, hb, hb2⟩ := Endpoint.is_file_request_correct cfg q.method q.resource ⟨hm, by unfold sizeMax; omega⟩
    ⟨resource_zero hf.ok, by unfold sizeMax; omega⟩ hcfg.pfx
  have : b = false := by
    cases b with
    | false => rfl
    | true => exact absurd (hb2.1 rfl) (by rintro (h | h); exacts [hf.rest h, hfav h])
  subst this
  unfold serveWith
  rw [read_line_ok cfg hcfg.root q hf.ok hf.method hf.resource hf.protocol after mm mp mc hf.mm hf.mp hf.mc c.fuel (by omega), Res.ok_bind]
  simp only [Bool.false_eq_true, if_false, hb]

theorem serve_handler {cfg : Config} (hcfg : ConfigOk cfg) (stat : List Byte → Option Nat) (content : List Byte → List Byte)
    {c : Ctx} {q : Request} {after mm mp mc : List Byte} (hf : Fits cfg c q after mm mp mc)
    (hfav : ¬ (q.method.map lower = str "get" ∧ q.resource.map lower = str "/favicon.ico")) (srv : Server) (d : Draw) :
    serve cfg stat content c mm mp mc false srv d (q.text ++ after) =
      gameHandler c srv d ⟨In.ofList (headersText q.headers ++ (crlf ++ (q.body ++ after))), .headerName, (protocolText q.maj q.min).length⟩
        q.method q.resource := serveWith_handler hcfg stat content hf hfav srv _

theorem not_favicon {pre tail : List Byte} (h : pre.map lower = str "/games") : (pre ++ tail).map lower ≠ str "/favicon.ico" := by
  intro hc
  have hl : pre.length = 6 := lower_length h
  rw [List.map_append, h] at hc
  have := congrArg (List.take 6) hc
  rw [List.take_append_of_le_length (by decide)] at this
  revert this; decide

/-- A request for one of the four services, for every server that has answered rightly so far. -/
theorem serve_asks {cfg : Config} (hcfg : ConfigOk cfg) (stat : List Byte → Option Nat) (content : List Byte → List Byte)
    {c : Ctx} (hc : CtxOk c) {q : Request} {after mm mp mc : List Byte} (hf : Fits cfg c q after mm mp mc) {d : Draw} {req : Req}
    (ha : Asks c d q req) {srv : Server} {t : Trace} (hi : Inv srv t) :
    ∃ srv' a r, GameServer.step srv req = some (srv', a) ∧ Inv srv' ((req, a) :: t) ∧ Answer t req a ∧
      Describes a r ∧ r.Ok ∧ Complete r.text ∧
      serve cfg stat content c mm mp mc false srv d (q.text ++ after) = .ok (srv', .sent r.text false) := by
  have hlen : (headersText q.headers).length + 4 ≤ c.fuel ∧ (q.body ++ after).length + 27 ≤ c.fuel := by
    have := hf.fuel
    rw [List.length_append, q.text_length] at this
    rw [List.length_append]
    constructor <;> omega
  have hz := resource_zero hf.ok
  have hrl := hf.resource
  cases ha with
  | @create lead w r ms tx to_ hm hres hj hb hw hv hp =>
    have hpre : areEqualIN (mem q.resource) (mem (str "/games")) 6 = some true ∧ q.resource.drop 6 = [] := by
      have := games_prefix (pre := q.resource) (tail := []) hres (by simpa using hz)
      simpa using this
    have hbody := playersBody_ok hc hw hv hp (r ++ after) (by
      have := hlen.2; rw [hb] at this; simpa using this)
    have hans := GameServer.answer_create hi tx to_ d.game d.x d.o
    generalize hcr : GameServer.create srv tx to_ d.game d.x d.o = res at hans
    obtain ⟨srv', a⟩ := res
    dsimp only at hans
    have key : ∃ r, Describes a r ∧ r.Ok ∧ Complete r.text ∧
        serve cfg stat content c mm mp mc false srv d (q.text ++ after) = .ok (srv', .sent r.text false) := by
      rw [serve_handler hcfg stat content hf (fun h => absurd (hres.symm.trans h.2) (by decide)) srv d]
      unfold gameHandler
      rw [hpre.1]
      dsimp only
      unfold processGames
      rw [hpre.2, tail_is (by simp) (by simp)]
      simp only [decide_true]
      unfold createGame whenPost
      rw [method_is hf.ok hf.method (m := "POST") hm (by decide) (by decide) (by decide)]
      dsimp only
      rw [whenJson_ok hc hf.headers hj _ hlen.1]
      have e : (In.ofList (q.body ++ after)).rest = lead ++ ((Spec.Value.obj w ms).text ++ (r ++ after)) := by
        rw [hb]; simp [In.ofList]
      dsimp only
      rw [e, hbody, Res.ok_bind]
      dsimp only
      rw [hcr]
      rcases small_of_answer hi.reach hans.2 (by simp) with hs | ⟨n, rfl⟩
      · cases a <;> first | exact hs.elim | exact succeed_ok hc hs srv' _ rfl
      · have hn : n = 503 := by cases hans.2; rfl
        subst hn
        obtain ⟨r, r1, r2, r3, r4⟩ := refuse_ok hc (n := 503) (status := "503") (reason := "Service Unavailable")
          "The service has a temporary game capacity shortage." (by simp) (by decide +kernel) (by decide +kernel) (In.ofList (q.body ++ after)) rfl
        exact ⟨r, r1, r2, r3, by dsimp only; rw [r4]⟩
    obtain ⟨r, hr⟩ := key
    exact ⟨srv', a, r, by rw [GameServer.step, hcr], hans.1, hans.2, hr⟩
  | @claim pre gid i hm hpre hres hi32 =>
    rw [hres] at hz
    have hpz := games_prefix hpre hz
    have hans := GameServer.answer_claim hi gid i
    have hgid : BitVec.ofNat 32 gid.toNat = gid := by simp
    generalize hcr : GameServer.claim srv gid i = res at hans
    obtain ⟨srv', a⟩ := res
    dsimp only at hans
    have key : ∃ r, Describes a r ∧ r.Ok ∧ Complete r.text ∧
        serve cfg stat content c mm mp mc false srv d (q.text ++ after) = .ok (srv', .sent r.text false) := by
      rw [serve_handler hcfg stat content hf (fun h => absurd (hm.symm.trans h.1) (by decide)) srv d]
      unfold gameHandler
      rw [hres, hpz.1]
      dsimp only
      unfold processGames
      rw [hpz.2, tail_is (fun h => hz (by simp only [List.mem_append] at h ⊢; tauto))
        (by rw [hres] at hrl; simp only [List.length_append] at hrl ⊢; omega)]
      rw [decide_eq_false (by simp [dec_spec]), route_claim _ _ gid.isLt hi32]
      dsimp only
      unfold claimPlayer whenPost
      rw [method_is hf.ok hf.method (m := "POST") hm (by decide) (by decide) (by decide), hgid, hcr]
      dsimp only
      rcases small_of_answer hi.reach hans.2 (by simp) with hs | ⟨n, rfl⟩
      · cases a <;> first | exact hs.elim | exact succeed_ok hc hs srv' _ rfl
      · have hn : n = 400 ∨ n = 403 ∨ n = 404 := by cases hans.2 <;> simp
        rcases hn with rfl | rfl | rfl
        · obtain ⟨r, r1, r2, r3, r4⟩ := refuse_ok hc (n := 400) (status := "400") (reason := "Bad Request") badResource
            (by simp) (by decide +kernel) (by decide +kernel) (In.ofList (headersText q.headers ++ (crlf ++ (q.body ++ after)))) rfl
          exact ⟨r, r1, r2, r3, by rw [← r4]; rfl⟩
        · obtain ⟨r, r1, r2, r3, r4⟩ := refuse_ok hc (n := 403) (status := "403") (reason := "Forbidden") "This play has already been claimed."
            (by simp) (by decide +kernel) (by decide +kernel) (In.ofList (headersText q.headers ++ (crlf ++ (q.body ++ after)))) rfl
          exact ⟨r, r1, r2, r3, by rw [← r4]; rfl⟩
        · obtain ⟨r, r1, r2, r3, r4⟩ := refuse_ok hc (n := 404) (status := "404") (reason := "Not Found") noGame
            (by simp) (by decide +kernel) (by decide +kernel) (In.ofList (headersText q.headers ++ (crlf ++ (q.body ++ after)))) rfl
          exact ⟨r, r1, r2, r3, by rw [← r4]; rfl⟩
    obtain ⟨r, hr⟩ := key
    exact ⟨srv', a, r, by rw [GameServer.step, hcr], hans.1, hans.2, hr⟩
  | @move pre lead w r gid pid ms row col hm hpre hres hj hb hw hv hp =>
    rw [hres] at hz
    have hpz := games_prefix hpre hz
    obtain ⟨srv', a, hmv, hinv, hans⟩ := GameServer.answer_move hi gid pid ⟨row, col⟩
    have hgid : BitVec.ofNat 32 gid.toNat = gid := by simp
    have hpid : BitVec.ofNat 32 pid.toNat = pid := by simp
    have hbody := moveBody_ok hc hw hv hp (r ++ after) (by
      have := hlen.2; rw [hb] at this; simpa using this)
    have hrc : row ≤ 2 ∧ col ≤ 2 := by
      cases hp with
      | mk _ _ h1 h2 => exact ⟨hc.cell _ _ h1, hc.cell _ _ h2⟩
    have key : ∃ r, Describes a r ∧ r.Ok ∧ Complete r.text ∧
        serve cfg stat content c mm mp mc false srv d (q.text ++ after) = .ok (srv', .sent r.text false) := by
      rw [serve_handler hcfg stat content hf (fun h => absurd (hm.symm.trans h.1) (by decide)) srv d]
      unfold gameHandler
      rw [hres, hpz.1]
      dsimp only
      unfold processGames
      rw [hpz.2, tail_is (fun h => hz (by simp only [List.mem_append] at h ⊢; tauto))
        (by rw [hres] at hrl; simp only [List.length_append] at hrl ⊢; omega)]
      rw [decide_eq_false (by simp [dec_spec]), route_move _ _ gid.isLt pid.isLt]
      dsimp only
      unfold acceptMove whenPost
      rw [Endpoint.equal_i (by decide) (by decide) (by decide) (by decide)]
      simp only [decide_true]
      rw [method_is hf.ok hf.method (m := "POST") hm (by decide) (by decide) (by decide)]
      dsimp only
      rw [whenJson_ok hc hf.headers hj _ hlen.1, hgid, hpid]
      have e : (In.ofList (q.body ++ after)).rest = lead ++ ((Spec.Value.obj w ms).text ++ (r ++ after)) := by
        rw [hb]; simp [In.ofList]
      have badr : ∀ (body : String), (str body).length ≤ 512 → ∃ r, Describes (.refused 400) r ∧ r.Ok ∧ Complete r.text ∧
          bad c (In.ofList (q.body ++ after)) body = .sent r.text false := fun body hbl =>
        refuse_ok hc (n := 400) (status := "400") (reason := "Bad Request") body (by simp) (by decide +kernel) hbl _ rfl
      by_cases h0 : gid = 0 ∨ pid = 0
      · rw [if_pos h0]
        rw [GameServer.move, if_pos h0] at hmv
        simp only [Option.some.injEq, Prod.mk.injEq] at hmv
        obtain ⟨rfl, rfl⟩ := hmv
        obtain ⟨r, r1, r2, r3, r4⟩ := badr badResource (by decide +kernel)
        exact ⟨r, r1, r2, r3, by dsimp only; rw [r4]⟩
      rw [if_neg h0]
      dsimp only
      rw [e, hbody, Res.ok_bind]
      dsimp only
      rw [hmv]
      rcases small_of_answer hi.reach hans (by simp) with hs | ⟨n, rfl⟩
      · cases a <;> first | exact hs.elim | exact succeed_ok hc hs srv' _ rfl
      · have hn : n = 403 ∨ n = 404 := by
          cases hans with
          | moveBad h =>
            exfalso
            rcases h with h | h | h
            · exact h0 (.inl h)
            · exact h0 (.inr h)
            · exact h ⟨by simp, by simp; omega, by simp, by simp; omega⟩
          | moveUnknown => simp
          | moveRefused => simp
        rcases hn with rfl | rfl
        · obtain ⟨r, r1, r2, r3, r4⟩ := refuse_ok hc (n := 403) (status := "403") (reason := "Forbidden") "The move was not accepted."
            (by simp) (by decide +kernel) (by decide +kernel) (In.ofList (q.body ++ after)) rfl
          exact ⟨r, r1, r2, r3, by rw [← r4]; rfl⟩
        · have h404 : ∀ body : String, (str body).length ≤ 512 → ∃ r, Describes (.refused 404) r ∧ r.Ok ∧ Complete r.text ∧
              refuse c (In.ofList (q.body ++ after)) "404" "Not Found" body = .sent r.text false := fun body hbl =>
            refuse_ok hc (n := 404) (status := "404") (reason := "Not Found") body (by simp) (by decide +kernel) hbl _ rfl
          obtain ⟨r, r1, r2, r3, r4⟩ := h404 (if 0 < srv.count ∧ srv.game.gid = gid then "A player with the supplied ID was not found." else noGame)
            (by split <;> decide +kernel)
          exact ⟨r, r1, r2, r3, by rw [← r4]; rfl⟩
    obtain ⟨r, hr⟩ := key
    exact ⟨srv', a, r, hmv, hinv, hans, hr⟩
  | @moves pre gid since hm hpre hres hs32 =>
    rw [hres] at hz
    have hpz := games_prefix hpre hz
    have hans := GameServer.answer_moves hi gid since
    have hgid : BitVec.ofNat 32 gid.toNat = gid := by simp
    generalize hcr : GameServer.moves srv gid since = res at hans
    obtain ⟨srv', a⟩ := res
    dsimp only at hans
    have key : ∃ r, Describes a r ∧ r.Ok ∧ Complete r.text ∧
        serve cfg stat content c mm mp mc false srv d (q.text ++ after) = .ok (srv', .sent r.text false) := by
      rw [serve_handler hcfg stat content hf (by rw [hres]; exact fun h => not_favicon hpre h.2) srv d]
      unfold gameHandler
      rw [hres, hpz.1]
      dsimp only
      unfold processGames
      rw [hpz.2, tail_is (fun h => hz (by simp only [List.mem_append] at h ⊢; tauto))
        (by rw [hres] at hrl; simp only [List.length_append] at hrl ⊢; omega)]
      rw [decide_eq_false (by simp [dec_spec]), route_moves _ _ gid.isLt hs32]
      dsimp only
      unfold getMoves whenGet
      rw [method_is hf.ok hf.method (m := "GET") hm (by decide) (by decide) (by decide), hgid, hcr]
      dsimp only
      rcases small_of_answer hi.reach hans.2 (by simp) with hs | ⟨n, rfl⟩
      · cases a <;> first | exact hs.elim | exact succeed_ok hc hs srv' _ rfl
      · have hn : n = 400 ∨ n = 404 := by cases hans.2 <;> simp
        rcases hn with rfl | rfl
        · obtain ⟨r, r1, r2, r3, r4⟩ := refuse_ok hc (n := 400) (status := "400") (reason := "Bad Request") badResource
            (by simp) (by decide +kernel) (by decide +kernel) (In.ofList (headersText q.headers ++ (crlf ++ (q.body ++ after)))) rfl
          exact ⟨r, r1, r2, r3, by rw [← r4]; rfl⟩
        · obtain ⟨r, r1, r2, r3, r4⟩ := refuse_ok hc (n := 404) (status := "404") (reason := "Not Found") noGame
            (by simp) (by decide +kernel) (by decide +kernel) (In.ofList (headersText q.headers ++ (crlf ++ (q.body ++ after)))) rfl
          exact ⟨r, r1, r2, r3, by rw [← r4]; rfl⟩
    obtain ⟨r, hr⟩ := key
    exact ⟨srv', a, r, by rw [GameServer.step, hcr], hans.1, hans.2, hr⟩

/-! ## C64: sessions -/

/-- What happens to the server: a request on a connection of its own, or an engine finishing a move. -/
inductive Event where
  | request (c : Ctx) (mm mp mc : List Byte) (d : Draw) (bytes : List Byte)
  | engine (side : Side) (m : Move)

/-- The server after some events (newest first), and what it did on each connection. -/
def play (cfg : Config) (stat : List Byte → Option Nat) (content : List Byte → List Byte) :
    List Event → Res (Server × List (Option Outcome))
  | [] => .ok ({}, [])
  | .request c mm mp mc d bytes :: es =>
    (play cfg stat content es).bind fun x =>
    (serve cfg stat content c mm mp mc false x.1 d bytes).bind fun y => .ok (y.1, some y.2 :: x.2)
  | .engine side m :: es =>
    (play cfg stat content es).bind fun x =>
    match GameServer.engine x.1 side m with
    | none => .ub
    | some y => .ok (y.1, none :: x.2)

/-- The event asks for `req`, by a request the server can read. -/
inductive Event.Asks (cfg : Config) : Event → Req → Prop
  | request {c : Ctx} {mm mp mc after : List Byte} {d : Draw} {q : Request} {req : Req} : CtxOk c → Fits cfg c q after mm mp mc →
      GameWire.Asks c d q req → Event.Asks cfg (.request c mm mp mc d (q.text ++ after)) req
  | engine {side : Side} {m : Move} : Event.Asks cfg (.engine side m) (.engine side m)

/-- The bytes sent show the answer. -/
inductive Shows : Req × Resp → Option Outcome → Prop
  | request {req : Req} {a : Resp} {r : Http.Response} : Describes a r → r.Ok → Complete r.text → Shows (req, a) (some (.sent r.text false))
  | engine {side : Side} {m : Move} {a : Resp} : Shows (.engine side m, a) none

/-- C64.  For every session, that is for every number of requests to create a game, to claim a player, to make
a move and to list the moves, in any order, each in any of its well-formed texts, with any numbers drawn, any
memory contents and any moves of engines in between: the server runs without undefined behaviour, sends on each
connection one complete response with the right length, and these responses are, in turn, the texts of the answers that
the rules of the game and of the service (`Follows`) prescribe for the requests. -/
theorem C64_session {cfg : Config} (hcfg : ConfigOk cfg) (stat : List Byte → Option Nat) (content : List Byte → List Byte)
    {es : List Event} {reqs : List Req} (h : List.Forall₂ (Event.Asks cfg) es reqs) :
    ∃ srv t outs, play cfg stat content es = .ok (srv, outs) ∧ t.map Prod.fst = reqs ∧ Follows t ∧ Inv srv t ∧
      List.Forall₂ Shows t outs := by
  induction h with
  | nil => exact ⟨{}, [], [], rfl, rfl, trivial, GameServer.inv_init, .nil⟩
  | @cons e req es reqs ha _ ih =>
    obtain ⟨srv, t, outs, h1, h2, h3, h4, h5⟩ := ih
    cases ha with
    | @request c mm mp mc after d q _ hc hf ha =>
      obtain ⟨srv', a, r, _, k2, k3, k4, k5, k6, k7⟩ := serve_asks hcfg stat content hc hf ha h4
      refine ⟨srv', (req, a) :: t, some (.sent r.text false) :: outs, ?_, by simp [h2], ⟨k3, h3⟩, k2, .cons (.request k4 k5 k6) h5⟩
      rw [play, h1, Res.ok_bind, k7, Res.ok_bind]
    | @engine side m =>
      obtain ⟨srv', a, k1, k2, k3⟩ := GameServer.answer_engine h4 side m
      refine ⟨srv', (.engine side m, a) :: t, none :: outs, ?_, by simp [h2], ⟨k3, h3⟩, k2, .cons .engine h5⟩
      rw [play, h1, Res.ok_bind]
      dsimp only
      rw [k1]

/-! ## C65: any bytes -/

/-- Not a JSON text. -/
def NotJson (r : Http.Response) : Prop := (str "Content-Type", str "application/json") ∉ r.headers

theorem notJson_of {status reason : List Byte} {ctype : Option (List Byte)} {body : List Byte} (h : ctype ≠ some (str "application/json")) :
    NotJson (mkResponse status reason ctype body) := by
  have n1 : str "Content-Type" ≠ str "Connection" := by decide
  have n2 : str "Content-Type" ≠ str "Content-Length" := by decide
  intro hm
  simp only [mkResponse, List.mem_append, List.mem_singleton, Option.mem_toList, Option.map_eq_some_iff, Prod.mk.injEq] at hm
  rcases hm with (⟨h, _⟩ | ⟨t, ht, _, h2⟩) | ⟨h, _⟩
  · exact n1 h
  · exact h (by rw [ht, h2])
  · exact n2 h

theorem type_notJson {path : List Byte} {t : Option String} (h : TypeOf path t) : t.map str ≠ some (str "application/json") := by
  rcases h with ⟨_, rfl⟩ | ⟨_, ext, _, _, rfl⟩
  · simp
  · unfold Endpoint.typeOfExtension
    dsimp only
    repeat' split
    all_goals decide +kernel

/-- What one connection may do to a server with the past `t`. -/
inductive Safe (t : Trace) (srv : Server) : Server → Outcome → Prop
  /-- an exception in the thread of the connection -/
  | terminated : Safe t srv srv .terminated
  /-- no effect, and nothing sent -/
  | silent (sd : Bool) : Safe t srv srv (.sent [] sd)
  /-- no effect, and one complete response, which is not JSON -/
  | other {r : Http.Response} {sd : Bool} : r.Ok → Complete r.text → NotJson r → Safe t srv srv (.sent r.text sd)
  /-- the effect of one request, and the response for its answer, or nothing -/
  | game {req : Req} {a : Resp} {srv' : Server} {r : Http.Response} (sent : Bool) : (∀ s m, req ≠ .engine s m) → Inv srv' ((req, a) :: t) →
      Answer t req a → Describes a r → r.Ok → Complete r.text → Safe t srv srv' (.sent (if sent then r.text else []) false)

/-- Whatever it is that comes out, it is safe. -/
def AllSafe (t : Trace) (srv : Server) (x : Done) : Prop := ∀ srv' out, x = .ok (srv', out) → Safe t srv srv' out

theorem allSafe_bind {α : Type} {t : Trace} {srv : Server} (x : Res α) {k : α → Done} (h : ∀ a, AllSafe t srv (k a)) : AllSafe t srv (x.bind k) := by
  intro srv' out he
  cases x with
  | ok a => exact h a srv' out he
  | ub => exact absurd he (by simp [Res.bind])
  | running => exact absurd he (by simp [Res.bind])

theorem allSafe_ub {t : Trace} {srv : Server} : AllSafe t srv .ub := fun _ _ h => by cases h

theorem allSafe_ok {t : Trace} {srv srv' : Server} {out : Outcome} (h : Safe t srv srv' out) : AllSafe t srv (.ok (srv', out)) := by
  intro s o he
  cases he
  exact h

theorem allSafe_refuse {t : Trace} {srv : Server} {c : Ctx} (hr : 2048 ≤ c.room) (n : Nat) {status reason : String} (body : String)
    (h : (n, reason) ∈ refusals) (hn : str status = dec n) (hb : (str body).length ≤ 512) (s : In) :
    AllSafe t srv (.ok (srv, refuse c s status reason body)) := by
  obtain ⟨r, h1, h2, h3, h4⟩ := refuse_any hr body h hn hb s
  rw [h4]
  apply allSafe_ok
  cases s.good
  · exact .silent false
  · exact .other h2 h3 (by rw [h1]; exact notJson_of (by decide))

theorem allSafe_bad {t : Trace} {srv : Server} {c : Ctx} (hr : 2048 ≤ c.room) (body : String) (hb : (str body).length ≤ 512) (s : In) :
    AllSafe t srv (.ok (srv, bad c s body)) :=
  allSafe_refuse hr 400 body (by decide) (by decide +kernel) hb s

/-- The refusal of a request. -/
theorem allSafe_game {t : Trace} {srv srv' : Server} {c : Ctx} (hr : 2048 ≤ c.room) {req : Req} (n : Nat) {status reason : String} (body : String)
    (h : (n, reason) ∈ [(400, "Bad Request"), (403, "Forbidden"), (404, "Not Found"), (503, "Service Unavailable")])
    (hn : str status = dec n) (hb : (str body).length ≤ 512) (s : In)
    (hne : ∀ s m, req ≠ .engine s m) (hi : Inv srv' ((req, .refused n) :: t)) (ha : Answer t req (.refused n)) :
    AllSafe t srv (.ok (srv', refuse c s status reason body)) := by
  obtain ⟨r, rfl, h2, h3, h4⟩ := refuse_any hr body (List.mem_append_left [(405, "Method Not Allowed")] h) hn hb s
  rw [h4]
  exact allSafe_ok (.game s.good hne hi ha (.refused h) h2 h3)

theorem allSafe_succeed {t : Trace} {srv srv' : Server} {c : Ctx} (hr : 2048 ≤ c.room) {req : Req} {a : Resp} (hs : Small a) (s : In)
    (hne : ∀ s m, req ≠ .engine s m) (hi : Inv srv' ((req, a) :: t)) (ha : Answer t req a) : AllSafe t srv (succeed c srv' s a) := by
  obtain ⟨r, h1, h2, h3, h4⟩ := succeed_any hr hs srv' s
  rw [h4]
  exact allSafe_ok (.game s.good hne hi ha h1 h2 h3)

theorem allSafe_post {t : Trace} {srv : Server} {c : Ctx} (hr : 2048 ≤ c.room) (st : Rd) (method : List Byte) {k : Done} (hk : AllSafe t srv k) :
    AllSafe t srv (whenPost c srv st method k) := by
  unfold whenPost
  split
  · exact allSafe_ub
  · exact hk
  · exact allSafe_refuse hr 405 _ (by decide) (by decide +kernel) (by decide +kernel) _

theorem allSafe_get {t : Trace} {srv : Server} {c : Ctx} (hr : 2048 ≤ c.room) (st : Rd) (method : List Byte) {k : Done} (hk : AllSafe t srv k) :
    AllSafe t srv (whenGet c srv st method k) := by
  unfold whenGet
  split
  · exact allSafe_ub
  · exact hk
  · exact allSafe_refuse hr 405 _ (by decide) (by decide +kernel) (by decide +kernel) _

theorem headerLoop_refused {fuel f : Nat} {has : Bool} {st st' : Rd} {hm : List Byte} {body : String}
    (h : headerLoop fuel f has st hm = .ok (.refused st' body)) : (str body).length ≤ 512 := by
  induction f generalizing has st hm with
  | zero => cases h
  | succ f ih =>
    rw [headerLoop] at h
    cases ha : getHeaderName fuel st hm 1025 with
    | ub => rw [ha] at h; cases h
    | running => rw [ha] at h; cases h
    | ok a =>
      rw [ha, Res.ok_bind] at h
      split at h
      · cases h
      split at h
      · split at h <;> cases h
      split at h
      · cases h
      · split at h
        · cases h; decide +kernel
        cases hb : getHeaderValue fuel a.st a.mem 1025 with
        | ub => rw [hb] at h; cases h
        | running => rw [hb] at h; cases h
        | ok b =>
          rw [hb, Res.ok_bind] at h
          split at h
          · cases h
          split at h
          · cases h
          · cases h; decide +kernel
          · exact ih h
      · cases hb : getHeaderValue fuel a.st a.mem 1025 with
        | ub => rw [hb] at h; cases h
        | running => rw [hb] at h; cases h
        | ok b =>
          rw [hb, Res.ok_bind] at h
          split at h
          · cases h
          · exact ih h

theorem allSafe_json {t : Trace} {srv : Server} {c : Ctx} (hr : 2048 ≤ c.room) (st : Rd) {k : Rd → Done} (hk : ∀ st, AllSafe t srv (k st)) :
    AllSafe t srv (whenJson c srv st k) := by
  unfold whenJson
  cases h : headerLoop c.fuel c.fuel false st c.header with
  | ub => exact fun _ _ h => by cases h
  | running => exact fun _ _ h => by cases h
  | ok v =>
    rw [Res.ok_bind]
    cases v with
    | json st => exact hk st
    | missing => exact allSafe_ok (.silent false)
    | refused st body => exact allSafe_bad hr body (headerLoop_refused h) _
    | thrown => exact allSafe_ok .terminated

theorem playersBody_error {c : Ctx} {body : List Byte} {msg : String} (h : playersBody c body = .ok (.error msg)) : (str msg).length ≤ 512 := by
  unfold playersBody at h
  dsimp only at h
  cases ha : getTok c { s := { rest := body } } c.token with
  | ub => rw [ha] at h; cases h
  | running => rw [ha] at h; cases h
  | ok a =>
    rw [ha, Res.ok_bind] at h
    split at h
    · cases h; decide +kernel
    cases hb : playersLoop c c.fuel a.st (Tok.block a) none with
    | ub => rw [hb] at h; cases h
    | running => rw [hb] at h; cases h
    | ok b =>
      rw [hb, Res.ok_bind] at h
      split at h
      · cases h; decide +kernel
      · cases h; decide +kernel
      · split at h
        · cases h
        · cases h; decide +kernel
        · split at h
          · cases h
          · cases h; decide +kernel
          · cases h

theorem expectCell_le {c : Ctx} (hc : ∀ m k, c.cell m = some k → k ≤ 2) {a : Tok} {x : Tok × Nat}
    (h : expectCell c a = .ok (some x)) : x.2 ≤ 2 := by
  unfold expectCell at h
  cases ha : getTok c a.st (Tok.block a) with
  | ub => rw [ha] at h; cases h
  | running => rw [ha] at h; cases h
  | ok b =>
    rw [ha, Res.ok_bind] at h
    split at h
    · cases h
    split at h
    · cases h
    · rename_i n hn
      cases h
      exact hc _ _ hn

theorem moveBody_board {c : Ctx} (hc : ∀ m k, c.cell m = some k → k ≤ 2) {body : List Byte} {m : Move}
    (h : moveBody c body = .ok (some m)) : OnBoard m := by
  unfold moveBody at h
  cases h1 : getTok c { s := { rest := body } } c.token with
  | ub => rw [h1] at h; cases h
  | running => rw [h1] at h; cases h
  | ok a =>
    rw [h1, Res.ok_bind] at h
    split at h
    · cases h
    cases h2 : expectName c (str "row") a with
    | ub => rw [h2] at h; cases h
    | running => rw [h2] at h; cases h
    | ok b =>
      rw [h2, Res.ok_bind] at h
      cases b with
      | none => cases h
      | some b =>
        dsimp only at h
        cases h3 : expectCell c b with
        | ub => rw [h3] at h; cases h
        | running => rw [h3] at h; cases h
        | ok x =>
          rw [h3, Res.ok_bind] at h
          cases x with
          | none => cases h
          | some x =>
            dsimp only at h
            cases h4 : expectName c (str "col") x.1 with
            | ub => rw [h4] at h; cases h
            | running => rw [h4] at h; cases h
            | ok e =>
              rw [h4, Res.ok_bind] at h
              cases e with
              | none => cases h
              | some e =>
                dsimp only at h
                cases h5 : expectCell c e with
                | ub => rw [h5] at h; cases h
                | running => rw [h5] at h; cases h
                | ok y =>
                  rw [h5, Res.ok_bind] at h
                  cases y with
                  | none => cases h
                  | some y =>
                    cases h
                    have r1 := expectCell_le hc h3
                    have r2 := expectCell_le hc h5
                    refine ⟨?_, ?_, ?_, ?_⟩ <;> dsimp only <;> omega

theorem gameHandler_safe {t : Trace} {srv : Server} (hi : Inv srv t) {c : Ctx} (hr : 2048 ≤ c.room)
    (hcell : ∀ m k, c.cell m = some k → k ≤ 2) (d : Draw) (st : Rd) (method resource : List Byte) :
    AllSafe t srv (gameHandler c srv d st method resource) := by
  unfold gameHandler
  split
  · exact allSafe_ub
  · unfold processGames
    split
    · exact allSafe_ub
    · unfold createGame
      apply allSafe_post hr
      apply allSafe_json hr
      intro st
      cases hb : playersBody c st.s.rest with
      | ub => exact fun _ _ h => by cases h
      | running => exact fun _ _ h => by cases h
      | ok v =>
        rw [Res.ok_bind]
        cases v with
        | error msg => exact allSafe_bad hr msg (playersBody_error hb) _
        | ok v =>
          obtain ⟨tx, to_⟩ := v
          dsimp only
          have hans := GameServer.answer_create hi tx to_ d.game d.x d.o
          generalize GameServer.create srv tx to_ d.game d.x d.o = res at hans
          obtain ⟨srv', a⟩ := res
          dsimp only at hans
          rcases small_of_answer hi.reach hans.2 (by simp) with hs | ⟨n, rfl⟩
          · cases a <;> first | exact hs.elim | exact allSafe_succeed hr hs _ (by simp) hans.1 hans.2
          · have hn : n = 503 := by cases hans.2; rfl
            subst hn
            exact allSafe_game hr 503 _ (by simp) (by decide +kernel) (by decide +kernel) _ (by simp) hans.1 hans.2
    · split
      · rename_i g p w _
        unfold acceptMove
        split
        · exact allSafe_ub
        · exact allSafe_bad hr _ (by decide +kernel) _
        · apply allSafe_post hr
          apply allSafe_json hr
          intro st
          split
          · exact allSafe_bad hr _ (by decide +kernel) _
          rename_i h0
          cases hb : moveBody c st.s.rest with
          | ub => exact fun _ _ h => by cases h
          | running => exact fun _ _ h => by cases h
          | ok v =>
            rw [Res.ok_bind]
            cases v with
            | none => exact allSafe_bad hr _ (by decide +kernel) _
            | some m =>
              dsimp only
              obtain ⟨srv', a, hmv, hinv, hans⟩ := GameServer.answer_move hi (BitVec.ofNat 32 g) (BitVec.ofNat 32 p) m
              have hob := moveBody_board hcell hb
              rw [hmv]
              rcases small_of_answer hi.reach hans (by simp) with hs | ⟨n, rfl⟩
              · cases a <;> first | exact hs.elim | exact allSafe_succeed hr hs _ (by simp) hinv hans
              · have hn : n = 403 ∨ n = 404 := by
                  cases hans with
                  | moveBad h =>
                    exfalso
                    rcases h with h | h | h
                    · exact h0 (.inl h)
                    · exact h0 (.inr h)
                    · exact h hob
                  | moveUnknown => simp
                  | moveRefused => simp
                rcases hn with rfl | rfl
                · exact allSafe_game hr 403 _ (by simp) (by decide +kernel) (by decide +kernel) _ (by simp) hinv hans
                · exact allSafe_game hr 404 _ (by simp) (by decide +kernel) (by split <;> decide +kernel) _ (by simp) hinv hans
      · rename_i g i _
        unfold claimPlayer
        apply allSafe_post hr
        have hans := GameServer.answer_claim hi (BitVec.ofNat 32 g) i
        generalize GameServer.claim srv (BitVec.ofNat 32 g) i = res at hans
        obtain ⟨srv', a⟩ := res
        dsimp only at hans
        rcases small_of_answer hi.reach hans.2 (by simp) with hs | ⟨n, rfl⟩
        · cases a <;> first | exact hs.elim | exact allSafe_succeed hr hs _ (by simp) hans.1 hans.2
        · have hn : n = 400 ∨ n = 403 ∨ n = 404 := by cases hans.2 <;> simp
          rcases hn with rfl | rfl | rfl
          · exact allSafe_game hr 400 badResource (by simp) (by decide +kernel) (by decide +kernel) _ (by simp) hans.1 hans.2
          · exact allSafe_game hr 403 _ (by simp) (by decide +kernel) (by decide +kernel) _ (by simp) hans.1 hans.2
          · exact allSafe_game hr 404 _ (by simp) (by decide +kernel) (by decide +kernel) _ (by simp) hans.1 hans.2
      · rename_i g n _
        unfold getMoves
        apply allSafe_get hr
        have hans := GameServer.answer_moves hi (BitVec.ofNat 32 g) n
        generalize GameServer.moves srv (BitVec.ofNat 32 g) n = res at hans
        obtain ⟨srv', a⟩ := res
        dsimp only at hans
        rcases small_of_answer hi.reach hans.2 (by simp) with hs | ⟨n, rfl⟩
        · cases a <;> first | exact hs.elim | exact allSafe_succeed hr hs _ (by simp) hans.1 hans.2
        · have hn : n = 400 ∨ n = 404 := by cases hans.2 <;> simp
          rcases hn with rfl | rfl
          · exact allSafe_game hr 400 badResource (by simp) (by decide +kernel) (by decide +kernel) _ (by simp) hans.1 hans.2
          · exact allSafe_game hr 404 _ (by simp) (by decide +kernel) (by decide +kernel) _ (by simp) hans.1 hans.2
      · exact allSafe_ok (.silent false)
  · split
    · exact allSafe_ub
    · unfold processShutdown
      apply allSafe_post hr
      have hf := fine_plain (str "200") (str "OK") (by decide)
      rw [simpleCalls_eq, answer_response hf _ (by decide +kernel) _ (by simp) st.s c.room (by
        have : (str "Server is shuting down...").length = 25 := by decide +kernel
        omega) true]
      apply allSafe_ok
      cases st.s.good
      · exact .silent true
      · exact .other (mkResponse_ok hf _) (mkResponse_complete (mkResponse_ok hf _)) (notJson_of (by decide))
    · exact allSafe_refuse hr 404 _ (by decide) (by decide +kernel) (by decide +kernel) _

/-- C65, one connection. -/
theorem serve_safe {cfg : Config} (hcfg : ConfigOk cfg) {stat : List Byte → Option Nat} {content : List Byte → List Byte}
    {c : Ctx} (hc : CtxOk c) (he : Env stat content c.room) {mm mp mc : List Byte} (hmm : mm.length = 33)
    (hmp : mp.length = 2049) (hmc : mc.length = 17) {srv : Server} {t : Trace} (hi : Inv srv t) (d : Draw) (down : Bool) (bytes : List Byte)
    (hf : bytes.length + 2 < c.fuel) : AllSafe t srv (serve cfg stat content c mm mp mc down srv d bytes) := by
  obtain ⟨st, m, r, ⟨hm1, hm2⟩, ⟨hr1, hr2⟩, _, _, hrun⟩ := read_line cfg hcfg.root hcfg.short bytes mm mp mc hmm hmp hmc c.fuel hf
  unfold serve serveWith
  rw [hrun, Res.ok_bind]
  dsimp only
  split
  · exact allSafe_ok (.silent false)
  split
  · exact allSafe_ub
  · rename_i hfile
    obtain ⟨q, sd, hex, hq, _, h⟩ := handled cfg stat content c.room he m r ⟨hm1, by unfold sizeMax; omega⟩
      ⟨hr1, by unfold sizeMax; omega⟩ ⟨by simp [hcfg.root, hr1], by simp only [List.length_append]; unfold sizeMax; omega⟩ hcfg.pfx st
    unfold dispatch at h
    rw [hfile] at h
    dsimp only at h
    rw [h, Res.ok_bind]
    apply allSafe_ok
    have hcomp : Complete q.text := by cases hex <;> exact mkResponse_complete hq
    have hnj : NotJson q := by
      cases hex with
      | file _ _ _ _ t ht => exact notJson_of (type_notJson ht)
      | notAllowed => exact notJson_of (by decide)
      | notFound => exact notJson_of (by decide)
      | rest => exact notJson_of (by decide)
    cases st.s.good
    · exact .silent sd
    · exact .other hq hcomp hnj
  · exact gameHandler_safe hi hc.room hc.cell d st m r

/-- An event the server may see: any bytes at all. -/
def Event.Any (stat : List Byte → Option Nat) (content : List Byte → List Byte) : Event → Prop
  | .request c mm mp mc _ bytes => CtxOk c ∧ Env stat content c.room ∧ mm.length = 33 ∧ mp.length = 2049 ∧ mc.length = 17 ∧
      bytes.length + 2 < c.fuel
  | .engine _ _ => True

/-- What was done on the connections tells the past `t`: a connection without effect got nothing or one complete
response that is not JSON, or ended in an exception; one with the effect of a request got the response for its answer,
or nothing. -/
inductive Tells : Trace → List (Option Outcome) → Prop
  | start : Tells [] []
  | engine {t : Trace} {outs : List (Option Outcome)} {side : Side} {m : Move} {a : Resp} : Tells t outs →
      Tells ((.engine side m, a) :: t) (none :: outs)
  | terminated {t : Trace} {outs : List (Option Outcome)} : Tells t outs → Tells t (some .terminated :: outs)
  | silent {t : Trace} {outs : List (Option Outcome)} {sd : Bool} : Tells t outs → Tells t (some (.sent [] sd) :: outs)
  | other {t : Trace} {outs : List (Option Outcome)} {sd : Bool} {r : Http.Response} : Tells t outs → Complete r.text → NotJson r →
      Tells t (some (.sent r.text sd) :: outs)
  | game {t : Trace} {outs : List (Option Outcome)} {req : Req} {a : Resp} {r : Http.Response} (sent : Bool) : Tells t outs → Describes a r →
      Complete r.text → Tells ((req, a) :: t) (some (.sent (if sent then r.text else []) false) :: outs)

/-- C65.  Whatever bytes arrive on however many connections, with engines moving in between: as long as the
process lives, the game is one played by the rules.  The state of the server is the one after some requests, all of
them answered as `Follows` prescribes; each connection has the effect of at most one of them; and what is sent on a
connection is nothing or one complete response, in JSON only if it describes the answer to that one. -/
theorem C65_any_bytes {cfg : Config} (hcfg : ConfigOk cfg) {stat : List Byte → Option Nat} {content : List Byte → List Byte}
    {es : List Event} (h : ∀ e ∈ es, e.Any stat content) {srv : Server} {outs : List (Option Outcome)}
    (hp : play cfg stat content es = .ok (srv, outs)) :
    ∃ t, Follows t ∧ Inv srv t ∧ Tells t outs := by
  induction es generalizing srv outs with
  | nil =>
    cases hp
    exact ⟨[], trivial, GameServer.inv_init, .start⟩
  | cons e es ih =>
    cases hx : play cfg stat content es with
    | ub => cases e <;> (rw [play, hx] at hp; cases hp)
    | running => cases e <;> (rw [play, hx] at hp; cases hp)
    | ok x =>
      obtain ⟨t, h1, h2, h3⟩ := ih (fun e he => h e (by simp [he])) hx
      have he := h e (by simp)
      cases e with
      | engine side m =>
        rw [play, hx, Res.ok_bind] at hp
        obtain ⟨srv', a, k1, k2, k3⟩ := GameServer.answer_engine h2 side m
        rw [k1] at hp
        cases hp
        exact ⟨(.engine side m, a) :: t, ⟨k3, h1⟩, k2, .engine h3⟩
      | request c mm mp mc d bytes =>
        obtain ⟨hc, henv, hmm, hmp, hmc, hf⟩ := he
        rw [play, hx, Res.ok_bind] at hp
        cases hs : serve cfg stat content c mm mp mc false x.1 d bytes with
        | ub => rw [hs] at hp; cases hp
        | running => rw [hs] at hp; cases hp
        | ok y =>
          rw [hs, Res.ok_bind] at hp
          have hsafe := serve_safe hcfg hc henv hmm hmp hmc h2 d false bytes hf y.1 y.2 hs
          cases hp
          generalize y.1 = srv' at hsafe ⊢
          generalize y.2 = out at hsafe ⊢
          cases hsafe with
          | terminated => exact ⟨t, h1, h2, .terminated h3⟩
          | silent sd => exact ⟨t, h1, h2, .silent h3⟩
          | other hr hcm hnj => exact ⟨t, h1, h2, .other h3 hcm hnj⟩
          | @game req a srv' r sent hne hinv ha hd _ hcm =>
            exact ⟨(req, a) :: t, ⟨ha, h1⟩, hinv, .game sent h3 hd hcm⟩

/-! ## Concrete cases -/

/-- A context: numbers are told apart by their first character. -/
def demoCtx : Ctx :=
  { room := 4096, fuel := 400, atof := fun x => (x ++ List.replicate 8 0).take 8
    cell := fun m => if m.head? = some 48 then some 0 else if m.head? = some 49 then some 1 else if m.head? = some 50 then some 2 else none
    header := List.replicate 1025 7, token := List.replicate 1041 7 }

theorem demoCtx_ok : CtxOk demoCtx := by
  refine ⟨by decide, fun x => ?_, ?_, ?_, ?_⟩
  · show ((x ++ List.replicate 8 0).take 8).length = 8
    simp
  · intro m k h
    simp only [demoCtx] at h
    repeat' split at h
    all_goals simp at h; try omega
  · unfold demoCtx; rw [List.length_replicate]
  · unfold demoCtx; rw [List.length_replicate]

/-- Files are below `/f/`. -/
def demoCfg : Config := { rootDir := str "/w", filesPrefix := some (str "/f/") }
theorem demoCfg_ok : ConfigOk demoCfg := ⟨by decide, by decide, by
  intro p hp; simp only [demoCfg, Option.some.injEq] at hp; rw [← hp]; decide⟩

/-- A connection on which these bytes arrive. -/
def demoEvent (d : Draw) (bytes : List Byte) : Event :=
  .request demoCtx (List.replicate 33 7) (List.replicate 2049 7) (List.replicate 17 7) d bytes

/-- The request for a new game. -/
def demoCreate : Request :=
  ⟨str "POST", str "/Games", str "1", str "1", [(str "Host", str "x"), (str "content-type", str "application/json")],
    str "{\"x\":[1],\"players\":[\"external\",\"slow_engine\"]}"⟩

/-- A request that C64 is about: it asks for a new game, has a member the server does not know, and mixes cases. -/
example : Event.Asks demoCfg (demoEvent ⟨3, 8, 7⟩ (demoCreate.text ++ [])) (.create .external .slow 3 8 7) := by
  refine .request demoCtx_ok ⟨?_, ?_, by decide, by decide, by decide, ?_, ?_, ?_, ?_, by decide +kernel⟩ ?_
  · refine ⟨by decide, by decide, by decide, by decide, by decide, by decide, by decide, ?_⟩
    unfold HeaderOk; decide +kernel
  · unfold HeadersFit HeaderOk; decide +kernel
  · rintro ⟨p, hp, h⟩
    simp only [demoCfg, Option.some.injEq] at hp
    subst hp
    revert h; decide +kernel
  · rw [List.length_replicate]
  · rw [List.length_replicate]
  · rw [List.length_replicate]
  · refine .create (lead := []) (w := []) (r := []) (tx := .external) (to_ := .slow)
      (ms := .cons (key "x") [] [] (.arr [] (.cons (num 1) [] [] .nil)) [] []
        (.cons (key "players") [] [] (.arr [] (.cons (.atom (.str (key "external"))) [] [] (.cons (.atom (.str (key "slow_engine"))) [] [] .nil)))
          [] [] .nil)) (by decide) (by decide) ?_ (by decide +kernel) (by simp [Spec.Ws]) ?_ ?_
    · exact ⟨(str "content-type", str "application/json"), by decide +kernel, by unfold SaysJson; decide +kernel⟩
    · simp [Spec.Value.Ok, Spec.Mems.Ok, Spec.Elems.Ok, Spec.Atom.Ok, num, key, Spec.Num.Ok, Spec.Str.Ok, Spec.Ws, Spec.Plain, Spec.Digit]
      decide +kernel
    · refine .other (by decide) (by decide) (by decide) (by decide +kernel) (.players (by decide) (by decide) (by decide) (by decide) (by decide) .nil)

/-- A session in the model, from bytes to bytes (newest first): a game is created, `x` is claimed, `x` moves, the
moves are listed; the last 40 bytes of each response. -/
example : (play demoCfg (fun _ => none) (fun _ => [])
    [demoEvent ⟨0, 0, 0⟩ (str "GET /games/3/moves?since=0 HTTP/1.1\r\n\r\n"),
     demoEvent ⟨0, 0, 0⟩ (str "POST /games/3/players/8/moves HTTP/1.1\r\nContent-Type: application/json\r\n\r\n{\"row\":1,\"col\":2}"),
     demoEvent ⟨0, 0, 0⟩ (str "POST /games/3/players/0 HTTP/1.1\r\n\r\n"),
     demoEvent ⟨3, 8, 7⟩ demoCreate.text]).bind (fun x => .ok (x.2.map fun
       | some (.sent out _) => out.drop (out.length - 40)
       | _ => [])) =
    .ok [str "ves\":[{\"i\":0,\"move\":{\"row\":1,\"col\":2}}]}", str "ation/json\r\nContent-Length: 7\r\n\r\n{\"i\":0}",
      str "on\r\nContent-Length: 14\r\n\r\n{\"playerId\":8}", str "json\r\nContent-Length: 12\r\n\r\n{\"gameId\":3}"] := by
  decide +kernel

/-- An event of C65: bytes that are no request. -/
example : (demoEvent ⟨3, 8, 7⟩ [0, 255, 13, 10, 7]).Any (fun _ => none) (fun _ => []) := by
  refine ⟨demoCtx_ok, ⟨by simp, by decide, by simp⟩, ?_, ?_, ?_, by decide⟩ <;> rw [List.length_replicate]

end Abc.GameWire
