import Verif.Samples.GameWireTotal
import Verif.Samples.Connect4WireProps

/-!
# The connect-four server at the level of bytes: is every request answered?

What does not depend on the board is that of `Verif/Samples/GameWireTotal.lean`.
-/

namespace Abc.Connect4Wire

open Abc.Ascii Abc.Stream Abc.Http Abc.Wire
open Abc.Json hiding Returned
open Abc.Endpoint (Config str mem)
open Abc.GameServer (Id PType)
open Abc.GameWire hiding BodyText Small Asks Describes Event.Asks Event.Any demoEvent Event play Shows Safe AllSafe Tells Done moveText moveValue moveElems Cells
open Abc.Connect4Server (Server Req Resp Inv Answer Follows Trace)
open Abc.Connect4 (Pid Move OnBoard Side)

section Bodies
open Spec

/-- Its value: 400, or the reader is after it. -/
theorem expectNum_any {c : Ctx} (hc : CtxOk c) {cell : List Byte → Option Nat} {v : Value} (hv : v.Ok) (hs : ShortV v) {w2 tail R : List Byte} (hl : Ws w2) (ht : Tail [true] tail R)
    {buf : List Byte} (hb : buf.length = 1041) (hf : (w2 ++ (v.text ++ (tail ++ R))).length + 27 ≤ c.fuel) (g : Nat) (it : Json.Item) :
    ∃ x, expectNum c cell ⟨⟨In.ofList (w2 ++ (v.text ++ (tail ++ R))), false, [true], g⟩, it, some buf⟩ = .ok x ∧
      ∀ t ∈ x, ∃ n b it', b.length = 1041 ∧ t.1 = ⟨⟨In.ofList R, true, [true], n⟩, it', some b⟩ ∧
        R.length < (w2 ++ (v.text ++ (tail ++ R))).length := by
  obtain ⟨n, b, h1, h2, h3, h4⟩ := getTok_first hc hv hs hl (e := false) (ls := [true]) rfl ht (by simp) (by simp) hb hf g
  unfold expectNum
  simp only [Tok.block, Option.getD_some]
  rw [h1, Res.ok_bind]
  dsimp only
  by_cases hn : tokItem (firstTok v) = .number
  · rw [if_neg (by simp [hn])]
    cases v with
    | arr => simp [firstTok, tokItem] at hn
    | obj => simp [firstTok, tokItem] at hn
    | atom a =>
      split
      · exact ⟨none, rfl, by simp⟩
      · refine ⟨_, rfl, ?_⟩
        intro t ht'
        simp only [Option.mem_def, Option.some.injEq] at ht'
        subst ht'
        exact ⟨n, b, _, h2, rfl, h4⟩
  · exact ⟨none, by rw [if_pos hn], by simp⟩

theorem moveBody_any {c : Ctx4} (hc : CtxOk c.toCtx) {body : List Byte} (hb : BodyOk body) (after : List Byte) (hf : (body ++ after).length + 27 ≤ c.fuel) :
    ∃ x, moveBody c (body ++ after) = .ok x := by
  obtain ⟨lead, v, r, rfl, hl, hv, hs, hd, hn⟩ := hb.ex
  have e : lead ++ (v.text ++ r) ++ after = lead ++ (v.text ++ ([] ++ (r ++ after))) := by simp
  rw [e] at hf ⊢
  obtain ⟨n, b, h1, h2, _, h4⟩ := getTok_first hc hv hs hl (e := false) (ls := []) rfl (.inl ⟨rfl, rfl⟩) (by simp) (fun _ => hn) hc.token hf 0
  unfold moveBody
  have h1' : getTok c.toCtx { s := { rest := lead ++ (v.text ++ ([] ++ (r ++ after))) } } c.token = _ := h1
  rw [h1', Res.ok_bind]
  dsimp only
  by_cases ho : tokItem (firstTok v) = .beginObject
  · rw [if_neg (by simp [ho])]
    obtain ⟨w, ms, rfl⟩ := firstTok_object ho
    simp only [Value.Ok] at hv
    simp only [ShortV] at hs
    simp only [firstPos] at h4 ⊢
    obtain ⟨x1, e1, f1⟩ := expectName_any hc hv.2 hs hv.1 ([] ++ (r ++ after)) (str "row") h2 (by omega) n (tokItem (firstTok (.obj w ms)))
    rw [e1, Res.ok_bind]
    cases x1 with
    | none => exact ⟨_, rfl⟩
    | some t1 =>
      obtain ⟨w2, v1, tail1, lead1, rest1, n1, b1, i1, a1, a2, a3, a4, a5, a6, a7, a8, rfl, a9⟩ := f1 t1 rfl
      dsimp only
      obtain ⟨x2, e2, f2⟩ := expectNum_any hc a2 a3 a1 a5 a8 (by omega) n1 i1
      rw [e2, Res.ok_bind]
      cases x2 with
      | none => exact ⟨_, rfl⟩
      | some t2 =>
        obtain ⟨n2, b2, i2, d1, d2, d3⟩ := f2 t2 rfl
        obtain ⟨t2, k2⟩ := t2
        dsimp only at d2 ⊢
        subst d2
        obtain ⟨x3, e3, f3⟩ := expectName_any hc a6 a7 a4 ([] ++ (r ++ after)) (str "col") d1 (by omega) n2 i2
        rw [e3, Res.ok_bind]
        cases x3 with
        | none => exact ⟨_, rfl⟩
        | some t3 =>
          obtain ⟨w3, v3, tail3, lead3, rest3, n3, b3, i3, c1, c2, c3, c4, c5, c6, c7, c8, rfl, c9⟩ := f3 t3 rfl
          dsimp only
          obtain ⟨x4, e4, f4⟩ := expectNum_any hc c2 c3 c1 c5 c8 (by omega) n3 i3
          rw [e4, Res.ok_bind]
          cases x4 with
          | none => exact ⟨_, rfl⟩
          | some t4 => exact ⟨_, rfl⟩
  · exact ⟨_, by rw [if_pos ho]⟩

end Bodies

/-! ## Replies -/

theorem replies_succeed {c : Ctx4} (hc : Ctx4Ok c) (srv : Server) {a : Resp} (hs : Small a) (s : In) :
    Replies s.good (succeed c srv s a) false := by
  obtain ⟨r, _, h2, h3, h4⟩ := succeed_any hc.base.room hs srv s
  exact ⟨srv, r, h4, h2, h3⟩

theorem replies_claim {t : Trace} {srv : Server} (hi : Inv srv t) {c : Ctx4} (hc : Ctx4Ok c) (st : Rd) {m : List Byte} (h0 : (0 : Byte) ∉ m)
    (hl : m.length ≤ 32) (g i : Nat) : Replies st.s.good (claimPlayer c srv st m g i) false := by
  unfold claimPlayer
  refine replies_post hc.base srv st h0 hl fun _ => ?_
  have hans := Connect4Server.answer_claim hi (BitVec.ofNat 32 g) i
  generalize Connect4Server.claim srv (BitVec.ofNat 32 g) i = res at hans
  obtain ⟨srv', a⟩ := res
  dsimp only at hans
  rcases small_of_answer hi.reach hans.2 (by simp) with hs | ⟨n, rfl⟩
  · cases a <;> first | exact hs.elim | exact replies_succeed hc srv' hs _
  · have hn : n = 400 ∨ n = 403 ∨ n = 404 := by cases hans.2 <;> simp
    rcases hn with rfl | rfl | rfl
    · exact replies_bad hc.base srv' badResource (by decide +kernel) _
    · exact replies_refuse hc.base srv' 403 _ (by decide) (by decide +kernel) (by decide +kernel) _
    · exact replies_refuse hc.base srv' 404 _ (by decide) (by decide +kernel) (by decide +kernel) _

theorem replies_moves {t : Trace} {srv : Server} (hi : Inv srv t) {c : Ctx4} (hc : Ctx4Ok c) (st : Rd) {m : List Byte} (h0 : (0 : Byte) ∉ m)
    (hl : m.length ≤ 32) (g n : Nat) : Replies st.s.good (getMoves c srv st m g n) false := by
  unfold getMoves
  refine replies_get hc.base srv st h0 hl ?_
  have hans := Connect4Server.answer_moves hi (BitVec.ofNat 32 g) n
  generalize Connect4Server.moves srv (BitVec.ofNat 32 g) n = res at hans
  obtain ⟨srv', a⟩ := res
  dsimp only at hans
  rcases small_of_answer hi.reach hans.2 (by simp) with hs | ⟨n, rfl⟩
  · cases a <;> first | exact hs.elim | exact replies_succeed hc srv' hs _
  · have hn : n = 400 ∨ n = 404 := by cases hans.2 <;> simp
    rcases hn with rfl | rfl
    · exact replies_bad hc.base srv' badResource (by decide +kernel) _
    · exact replies_refuse hc.base srv' 404 _ (by decide) (by decide +kernel) (by decide +kernel) _

theorem replies_create {t : Trace} {srv : Server} (hi : Inv srv t) {c : Ctx4} (hc : Ctx4Ok c) (d : Draw) {st : Rd} (hg : st.s.good = true)
    {m body : List Byte} (h0 : (0 : Byte) ∉ m) (hl : m.length ≤ 32) (hr : m.map lower = str "post" → Ready c.toCtx st body) :
    Replies true (createGame c srv d st m) false := by
  unfold createGame
  rw [← hg]
  refine replies_post hc.base srv st h0 hl fun hm => ?_
  rw [hg]
  refine replies_json hc.base srv (hr hm) fun b after e hb hf => ?_
  obtain ⟨x, hx⟩ := playersBody_any hc.base hb after (by rw [← e]; exact hf)
  rw [← e] at hx
  have e2 : (In.ofList body).rest = body := rfl
  dsimp only
  rw [e2, hx, Res.ok_bind]
  cases x with
  | error msg => exact replies_bad hc.base srv msg (playersBody_error hx) (In.ofList body)
  | ok v =>
    obtain ⟨tx, to_⟩ := v
    dsimp only
    have hans := Connect4Server.answer_create hi tx to_ d.game d.x d.o
    generalize Connect4Server.create srv tx to_ d.game d.x d.o = res at hans
    obtain ⟨srv', a⟩ := res
    dsimp only at hans
    rcases small_of_answer hi.reach hans.2 (by simp) with hs | ⟨n, rfl⟩
    · cases a <;> first | exact hs.elim | exact replies_succeed hc srv' hs (In.ofList body)
    · exact replies_refuse hc.base srv' 503 _ (by decide) (by decide +kernel) (by decide +kernel) (In.ofList body)

theorem replies_move {t : Trace} {srv : Server} (hi : Inv srv t) {c : Ctx4} (hc : Ctx4Ok c) {st : Rd} (hg : st.s.good = true)
    {m body : List Byte} (h0 : (0 : Byte) ∉ m) (hl : m.length ≤ 32) (hr : m.map lower = str "post" → Ready c.toCtx st body) (g p : Nat) (w : List Byte) :
    Replies true (acceptMove c srv st m g p w) false := by
  unfold acceptMove
  have hw : ∃ x, areEqualI (mem w) (mem (str "moves")) = some x := by
    unfold areEqualI mem
    rw [are_equal_correct false _ _ _ (by simp) (by simp)]
    exact ⟨_, rfl⟩
  obtain ⟨x, hx⟩ := hw
  rw [hx]
  rw [← hg]
  cases x with
  | false => exact replies_bad hc.base srv badResource (by decide +kernel) _
  | true =>
    refine replies_post hc.base srv st h0 hl fun hm => ?_
    rw [hg]
    refine replies_json hc.base srv (hr hm) fun b after e hb hf => ?_
    split
    · exact replies_bad hc.base srv badResource (by decide +kernel) (In.ofList body)
    rename_i h0
    obtain ⟨x, hx⟩ := moveBody_any hc.base hb after (by rw [← e]; exact hf)
    rw [← e] at hx
    have e2 : (In.ofList body).rest = body := rfl
    dsimp only
    rw [e2, hx, Res.ok_bind]
    cases x with
    | none => exact replies_bad hc.base srv _ (by decide +kernel) (In.ofList body)
    | some mv =>
      dsimp only
      obtain ⟨srv', a, hmv, hinv, hans⟩ := Connect4Server.answer_move hi (BitVec.ofNat 32 g) (BitVec.ofNat 32 p) mv
      have hob := moveBody_board hc.row hc.col hx
      rw [hmv]
      rcases small_of_answer hi.reach hans (by simp) with hs | ⟨n, rfl⟩
      · cases a <;> first | exact hs.elim | exact replies_succeed hc srv' hs (In.ofList body)
      · have hn : n = 403 ∨ n = 404 := by
          cases hans with
          | moveBad h =>
            exfalso
            rcases h with h | h | h
            · exact h0 (.inl h)
            · exact h0 (.inr h)
            · exact h hob
          | moveUnknown => simp
          | moveRefused => simp
        rcases hn with rfl | rfl
        · exact replies_refuse hc.base srv' 403 _ (by decide) (by decide +kernel) (by decide +kernel) (In.ofList body)
        · exact replies_refuse hc.base srv' 404 _ (by decide) (by decide +kernel) (by split <;> decide +kernel) (In.ofList body)

/-- Requests outside `/games`. -/
theorem replies_other {c : Ctx4} (hc : Ctx4Ok c) (srv : Server) (d : Draw) (st : Rd) {m r : List Byte} (h0 : (0 : Byte) ∉ m) (hl : m.length ≤ 32)
    (hr0 : (0 : Byte) ∉ r) (hrl : r.length ≤ 2048) (hn : ¬ Endpoint.startsWithI (str "/games") r) :
    Replies st.s.good (gameHandler c srv d st m r) (decide (m.map lower = str "post" ∧ r.map lower = str "/shutdown")) := by
  have e1 : areEqualIN (mem r) (mem (str "/games")) 6 = some false := by
    have := buf_starts_i (m := r ++ [0]) (w := r) (b := str "/games") (cstr_str _ hr0) (by simp) (by decide)
    have e : (str "/games").length = 6 := by decide
    rw [e] at this
    unfold mem at this ⊢
    rw [this]
    simp only [Option.some.injEq, decide_eq_false_iff_not]
    intro h
    apply hn
    unfold Endpoint.startsWithI
    rw [← h]
    exact (List.take_prefix 6 r).map lower
  unfold gameHandler
  rw [e1]
  dsimp only
  rw [Endpoint.equal_i hr0 (by decide) (by unfold sizeMax; omega) (by decide), show (str "/shutdown").map lower = str "/shutdown" by decide]
  by_cases hs : r.map lower = str "/shutdown"
  · simp only [hs, decide_true, and_true]
    unfold processShutdown whenPost
    rw [post_is h0 hl]
    by_cases hm : m.map lower = str "post"
    · simp only [hm, decide_true]
      have hf := fine_plain (str "200") (str "OK") (by decide)
      have hroom := hc.base.room
      rw [simpleCalls_eq, answer_response hf _ (by decide +kernel) _ (by simp) st.s c.room (by
        have : (str "Server is shuting down...").length = 25 := by decide +kernel
        omega) true]
      exact ⟨srv, _, rfl, mkResponse_ok hf _, mkResponse_complete (mkResponse_ok hf _)⟩
    · simp only [hm, decide_false]
      exact replies_refuse hc.base srv 405 _ (by decide) (by decide +kernel) (by decide +kernel) _
  · simp only [hs, decide_false, and_false]
    exact replies_refuse hc.base srv 404 _ (by decide) (by decide +kernel) (by decide +kernel) _

/-! ## C108: requests that can be read are answered -/

theorem games_handler {c : Ctx4} (srv : Server) (d : Draw) (st : Rd) (m : List Byte) {r pre tail : List Byte} (hpre : pre.map lower = str "/games")
    (hr : r = pre ++ tail) (h0 : (0 : Byte) ∉ r) (hl : r.length ≤ 2048) :
    gameHandler c srv d st m r = if tail = [] then createGame c srv d st m else
      match route tail with
      | .move g p w => acceptMove c srv st m g p w
      | .claim g i => claimPlayer c srv st m g i
      | .moves g n => getMoves c srv st m g n
      | .unknown => .ok (srv, .sent [] false) := by
  subst hr
  have hpz := games_prefix hpre h0
  unfold gameHandler
  rw [hpz.1]
  dsimp only
  unfold processGames
  rw [hpz.2, tail_is (fun h => h0 (by simp only [List.mem_append]; exact .inr h)) (by simp only [List.length_append] at hl; omega)]
  by_cases h : tail = []
  · simp only [h, decide_true, if_true]
  · simp only [h, decide_false, if_false]
    cases route tail <;> rfl

/-- The handler, for a resource with a service. -/
theorem handler_answers {t : Trace} {srv : Server} (hi : Inv srv t) {c : Ctx4} (hc : Ctx4Ok c) (d : Draw) {rest m r : List Byte} (g0 : Nat)
    (h0 : (0 : Byte) ∉ m) (hl : m.length ≤ 32) (hr0 : (0 : Byte) ∉ r) (hrl : r.length ≤ 2048) (hf : rest.length + 30 ≤ c.fuel)
    (hs : Served r) (hb : m.map lower = str "post" → TakesBody r → RestOk rest) :
    ∃ sd, Replies true (gameHandler c srv d ⟨In.ofList rest, .headerName, g0⟩ m r) sd ∧
      (sd = true → m.map lower = str "post" ∧ r.map lower = str "/shutdown") := by
  cases hs with
  | other hn => exact ⟨_, replies_other hc srv d ⟨In.ofList rest, .headerName, g0⟩ h0 hl hr0 hrl hn, fun h => of_decide_eq_true h⟩
  | create hp =>
    refine ⟨false, ?_, by simp⟩
    rw [games_handler srv d _ m (tail := []) hp (by simp) hr0 hrl, if_pos rfl]
    by_cases hm : m.map lower = str "post"
    · obtain ⟨body, hr⟩ := ready_of (hb hm (.create hp)) hf g0
      exact replies_create hi hc d rfl h0 hl (fun _ => hr)
    · exact replies_create (body := []) hi hc d rfl h0 hl (fun h => absurd h hm)
  | @claim pre g i hp hr hg hi' =>
    refine ⟨false, ?_, by simp⟩
    rw [games_handler srv d _ m hp hr hr0 hrl, if_neg (by simp [dec_spec]), route_claim _ _ hg hi']
    exact replies_claim hi hc ⟨In.ofList rest, .headerName, g0⟩ h0 hl g i
  | @move pre g p hp hr hg hp' =>
    refine ⟨false, ?_, by simp⟩
    rw [games_handler srv d _ m hp hr hr0 hrl, if_neg (by simp [dec_spec]), route_move _ _ hg hp']
    by_cases hm : m.map lower = str "post"
    · obtain ⟨body, hr⟩ := ready_of (hb hm (.move hp hr)) hf g0
      exact replies_move hi hc rfl h0 hl (fun _ => hr) g p _
    · exact replies_move (body := []) hi hc rfl h0 hl (fun h => absurd h hm) g p _
  | @moves pre g n hp hr hg hn =>
    refine ⟨false, ?_, by simp⟩
    rw [games_handler srv d _ m hp hr hr0 hrl, if_neg (by simp [dec_spec]), route_moves _ _ hg hn]
    exact replies_moves hi hc ⟨In.ofList rest, .headerName, g0⟩ h0 hl g n

/-- C108, in full: every request that the server can read is answered by one complete response. -/
def C108Full : Prop :=
  ∀ (cfg : Config) (stat : List Byte → Option Nat) (content : List Byte → List Byte) (c : Ctx4) (q : Request) (after mm mp mc : List Byte)
    (srv : Server) (t : Trace) (d : Draw), ConfigOk cfg → Ctx4Ok c → Env stat content c.room → Fits cfg c.toCtx q after mm mp mc → Inv srv t →
    ∃ srv' out sd, serve cfg stat content c mm mp mc false srv d (q.text ++ after) = .ok (srv', .sent out sd) ∧ Complete out

/-- C108, the part that holds: for every state of the game, every request line that fits, and every resource with a service
or outside `/games`: one complete response is sent, whatever follows the line; only if the method is POST and the
resource takes a body, what follows must have a Content-Type and, if that is JSON, any JSON value as body.  The server is
told to shut down only by `POST /shutdown`.  Missing for `C108Full`: requests without Content-Type, resources without
service, and bodies that are not JSON. -/
theorem C108_answered_partial {cfg : Config} (hcfg : ConfigOk cfg) {stat : List Byte → Option Nat} {content : List Byte → List Byte} {c : Ctx4}
    (hc : Ctx4Ok c) (he : Env stat content c.room) {q : Request} {rest mm mp mc : List Byte} (hf : LineFits cfg c.toCtx q rest mm mp mc)
    {srv : Server} {t : Trace} (hi : Inv srv t) (d : Draw) (hs : Served q.resource)
    (hb : q.method.map lower = str "post" → TakesBody q.resource → RestOk rest) :
    ∃ srv' out sd, serve cfg stat content c mm mp mc false srv d (q.line ++ rest) = .ok (srv', .sent out sd) ∧ Complete out ∧
      (sd = true → q.method.map lower = str "post" ∧ q.resource.map lower = str "/shutdown") := by
  rcases serve_line hcfg he hf srv (gameHandler c srv d) with ⟨r, h1, _, h3⟩ | ⟨_, h⟩
  · exact ⟨srv, r.text, false, h1, h3, by simp⟩
  · obtain ⟨hm0, hr0⟩ := line_zero hf.ok
    have h1 := hf.fuel
    have h3 := hf.resource
    rw [List.length_append] at h1
    obtain ⟨sd, ⟨srv', r, e, _, h5⟩, h6⟩ := handler_answers hi hc d (rest := rest) (protocolText q.maj q.min).length hm0 hf.method hr0 (by omega) (by omega) hs hb
    exact ⟨srv', r.text, sd, by rw [serve, h, e]; rfl, h5, h6⟩

/-- C108 fails: a POST that takes a body but has no Content-Type gets no answer, and has no effect. -/
theorem C108_violated_no_type {cfg : Config} (hcfg : ConfigOk cfg) {stat : List Byte → Option Nat} {content : List Byte → List Byte} {c : Ctx4}
    (hc : Ctx4Ok c) {q : Request} {after mm mp mc : List Byte} (hf : Fits cfg c.toCtx q after mm mp mc) (srv : Server) (d : Draw)
    (hm : q.method.map lower = str "post") (hr : q.resource.map lower = str "/games") (hn : ∀ h ∈ q.headers, ¬ IsType h) :
    serve cfg stat content c mm mp mc false srv d (q.text ++ after) = .ok (srv, .sent [] false) := by
  rw [serve_handler hcfg stat content hf (fun h => absurd (hr.symm.trans h.2) (by decide)) srv d]
  have h3 := hf.resource
  have h1 := hf.fuel
  rw [List.length_append, q.text_length] at h1
  rw [games_handler srv d _ _ (tail := []) hr (by simp) (resource_zero hf.ok) (by omega), if_pos rfl]
  unfold createGame whenPost
  rw [method_is hf.ok hf.method (m := "POST") hm (by decide) (by decide) (by decide)]
  dsimp only
  exact whenJson_missing hc.base hf.headers hn _ (by omega) srv _ _

/-- C108 fails: a resource that merely starts with `/games` gets no answer. -/
theorem C108_violated_no_service {cfg : Config} (hcfg : ConfigOk cfg) {stat : List Byte → Option Nat} {content : List Byte → List Byte} {c : Ctx4}
    {q : Request} {after mm mp mc pre tail : List Byte} {x : Byte} (hf : Fits cfg c.toCtx q after mm mp mc) (srv : Server) (d : Draw)
    (hp : pre.map lower = str "/games") (hr : q.resource = pre ++ x :: tail) (hx : x ≠ 47) :
    serve cfg stat content c mm mp mc false srv d (q.text ++ after) = .ok (srv, .sent [] false) := by
  rw [serve_handler hcfg stat content hf (by rw [hr]; exact fun h => not_favicon hp h.2) srv d]
  have h3 := hf.resource
  rw [games_handler srv d _ _ hp hr (resource_zero hf.ok) (by omega), if_neg (by simp)]
  have e : str "/" = [47] := by decide
  have e1 : scanLit [47] (x :: tail) = none := by simp [scanLit, Ne.symm hx]
  have : route (x :: tail) = .unknown := by
    unfold route scanMove scanMoves scanPlayers
    simp [e, e1]
  rw [this]

/-- So the full statement is false. -/
theorem C108_violated : ¬ C108Full := by
  intro h
  obtain ⟨srv', out, sd, h1, h2⟩ := h demoCfg (fun _ => none) (fun _ => []) demoCtx4 demoNoType [] (List.replicate 33 7) (List.replicate 2049 7)
    (List.replicate 17 7) {} [] ⟨3, 8, 7⟩ demoCfg_ok demoCtx4_ok ⟨by simp, by decide, by simp⟩ demoNoType_fits Connect4Server.inv_init
  rw [C108_violated_no_type demoCfg_ok demoCtx4_ok demoNoType_fits {} ⟨3, 8, 7⟩ (by decide) (by decide) (by unfold IsType; decide +kernel)] at h1
  simp only [Res.ok.injEq, Prod.mk.injEq, Outcome.sent.injEq] at h1
  rw [← h1.2.1] at h2
  exact not_complete_nil h2

/-! ## C109: requests that end or block the server -/

/-- C109, in full: whatever bytes arrive, the connection is served without undefined behaviour and without an exception,
and no loop goes on for ever. -/
def C109Full : Prop :=
  ∀ (cfg : Config) (stat : List Byte → Option Nat) (content : List Byte → List Byte) (c : Ctx4) (bytes mm mp mc : List Byte)
    (srv : Server) (t : Trace) (d : Draw), ConfigOk cfg → Ctx4Ok c → Env stat content c.room → mm.length = 33 → mp.length = 2049 → mc.length = 17 →
    bytes.length + 32 ≤ c.fuel → Inv srv t → ∃ srv' out sd, serve cfg stat content c mm mp mc false srv d bytes = .ok (srv', .sent out sd)

theorem handler_returns {t : Trace} {srv : Server} (hi : Inv srv t) {c : Ctx4} (hc : Ctx4Ok c) (d : Draw) (st : Rd) {m r : List Byte}
    (h0 : (0 : Byte) ∉ m) (hl : m.length ≤ 32) (hr0 : (0 : Byte) ∉ r) (hrl : r.length ≤ 2048)
    (hn : ¬ (m.map lower = str "post" ∧ Endpoint.startsWithI (str "/games") r)) : Returned (gameHandler c srv d st m r) := by
  by_cases hg : Endpoint.startsWithI (str "/games") r
  · have hm : m.map lower ≠ str "post" := fun h => hn ⟨h, hg⟩
    have hpre : (r.take 6).map lower = str "/games" := by
      obtain ⟨x, hx⟩ := hg
      rw [List.map_take, ← hx, List.take_append_of_le_length (by decide)]
      decide
    rw [games_handler srv d st m (tail := r.drop 6) hpre (by simp) hr0 hrl]
    split
    · unfold createGame
      exact (replies_post hc.base srv st h0 hl (fun h => absurd h hm)).returned
    · split
      · rename_i g p w _
        unfold acceptMove
        have hw : ∃ x, areEqualI (mem w) (mem (str "moves")) = some x := by
          unfold areEqualI mem
          rw [are_equal_correct false _ _ _ (by simp) (by simp)]
          exact ⟨_, rfl⟩
        obtain ⟨x, hx⟩ := hw
        rw [hx]
        cases x with
        | false => exact (replies_bad hc.base srv badResource (by decide +kernel) _).returned
        | true => exact (replies_post hc.base srv st h0 hl (fun h => absurd h hm)).returned
      · exact (replies_claim hi hc st h0 hl _ _).returned
      · exact (replies_moves hi hc st h0 hl _ _).returned
      · exact ⟨srv, [], false, rfl, .inl rfl⟩
  · exact (replies_other hc srv d st h0 hl hr0 hrl hg).returned

/-- C109, the part that holds: any bytes, in any state of the game.  Unless what is read from them as the method is POST and
as the resource starts with `/games`, the connection is served without undefined behaviour, exception or endless loop, and
nothing or one complete response is sent. -/
theorem C109_returns_partial {cfg : Config} (hcfg : ConfigOk cfg) {stat : List Byte → Option Nat} {content : List Byte → List Byte} {c : Ctx4}
    (hc : Ctx4Ok c) (he : Env stat content c.room) {bytes mm mp mc : List Byte} (hmm : mm.length = 33) (hmp : mp.length = 2049) (hmc : mc.length = 17)
    (hf : bytes.length + 2 < c.fuel) {srv : Server} {t : Trace} (hi : Inv srv t) (d : Draw)
    (hn : ∀ l, requestLine cfg c.fuel mm mp mc bytes = .ok (some l) →
      ¬ (l.method.map lower = str "post" ∧ Endpoint.startsWithI (str "/games") l.resource)) :
    ∃ srv' out sd, serve cfg stat content c mm mp mc false srv d bytes = .ok (srv', .sent out sd) ∧ (out = [] ∨ Complete out) := by
  obtain ⟨st, m, r, ⟨hm1, hm2⟩, ⟨hr1, hr2⟩, _, _, hrun⟩ := read_line cfg hcfg.root hcfg.short bytes mm mp mc hmm hmp hmc c.fuel hf
  have hn := hn _ hrun
  unfold serve serveWith
  rw [hrun, Res.ok_bind]
  simp only [Bool.false_eq_true, if_false]
  have hmt : Endpoint.Text m := ⟨hm1, by unfold sizeMax; omega⟩
  have hrt : Endpoint.Text r := ⟨hr1, by unfold sizeMax; omega⟩
  obtain ⟨b, hb, _⟩ := Endpoint.is_file_request_correct cfg m r hmt hrt hcfg.pfx
  rw [hb]
  cases b with
  | false => exact handler_returns hi hc d st hm1 hm2 hr1 (by omega) hn
  | true =>
    obtain ⟨q, sd, hex, hq, _, h⟩ := handled cfg stat content c.room he m r hmt hrt
      ⟨by simp [hcfg.root, hr1], by simp only [List.length_append]; unfold sizeMax; omega⟩ hcfg.pfx st
    unfold dispatch at h
    rw [hb] at h
    dsimp only at h ⊢
    have hcomp : Complete q.text := by cases hex <;> exact mkResponse_complete hq
    rw [h, Res.ok_bind]
    refine ⟨srv, _, sd, rfl, ?_⟩
    cases st.s.good
    · exact .inl rfl
    · exact .inr hcomp

section Violations
open Spec

/-- The POST requests for a new game whose body is `body`. -/
theorem serve_create {cfg : Config} (hcfg : ConfigOk cfg) (stat : List Byte → Option Nat) (content : List Byte → List Byte) {c : Ctx4}
    (hc : Ctx4Ok c) {q : Request} {after mm mp mc : List Byte} (hf : Fits cfg c.toCtx q after mm mp mc) (srv : Server) (d : Draw)
    (hm : q.method.map lower = str "post") (hr : q.resource.map lower = str "/games") (hj : SendsJson q.headers)
    {x : Res (Except String (PType × PType))} (hb : playersBody c.toCtx (q.body ++ after) = x) (hx : x = .ub ∨ x = .running) :
    serve cfg stat content c mm mp mc false srv d (q.text ++ after) = x.bind fun _ => .ub := by
  rw [serve_handler hcfg stat content hf (fun h => absurd (hr.symm.trans h.2) (by decide)) srv d]
  have h3 := hf.resource
  have h1 := hf.fuel
  rw [List.length_append, q.text_length] at h1
  rw [games_handler srv d _ _ (tail := []) hr (by simp) (resource_zero hf.ok) (by omega), if_pos rfl]
  unfold createGame whenPost
  rw [method_is hf.ok hf.method (m := "POST") hm (by decide) (by decide) (by decide)]
  dsimp only
  rw [whenJson_ok hc.base hf.headers hj _ (by omega)]
  have e2 : (In.ofList (q.body ++ after)).rest = q.body ++ after := rfl
  dsimp only
  rw [e2, hb]
  rcases hx with rfl | rfl <;> rfl

/-- C109 fails: the name of the first player has 65 characters or more (any that are not quotes, backslashes or NUL): it is
copied over the end of its array. -/
theorem C109_violated_overflow {cfg : Config} (hcfg : ConfigOk cfg) (stat : List Byte → Option Nat) (content : List Byte → List Byte) {c : Ctx4}
    (hc : Ctx4Ok c) {q : Request} {mm mp mc : List Byte} (hf : Fits cfg c.toCtx q [] mm mp mc) (srv : Server) (d : Draw)
    (hm : q.method.map lower = str "post") (hr : q.resource.map lower = str "/games") (hj : SendsJson q.headers) {w R : List Byte}
    (hw : ∀ x ∈ w, Plain x ∧ x ≠ 0) (h1 : 65 ≤ w.length) (h2 : w.length ≤ 1024) (hb : q.body = str "{\"players\":[\"" ++ (w ++ (str "\"," ++ R))) :
    serve cfg stat content c mm mp mc false srv d q.text = .ub := by
  have h3 := hf.fuel
  rw [List.length_append, q.text_length, hb] at h3
  simp only [List.length_append] at h3
  have e1 : (str "{\"players\":[\"").length = 13 := by decide
  have e3 : q.method.length = 4 := lower_length hm
  have e2 : (str "\",").length = 2 := by decide
  have := serve_create hcfg stat content hc hf srv d hm hr hj (x := .ub) (by
    rw [hb, List.append_nil]; exact playersBody_overflow hc.base hw h1 h2 (by omega)) (.inl rfl)
  rwa [List.append_nil] at this

/-- C109 fails: a member other than `players` whose value is a string without closing quote: reading never ends, however
long one waits. -/
theorem C109_violated_hang {cfg : Config} (hcfg : ConfigOk cfg) (stat : List Byte → Option Nat) (content : List Byte → List Byte) {c : Ctx4}
    (hc : Ctx4Ok c) {q : Request} {mm mp mc : List Byte} (hf : Fits cfg c.toCtx q [] mm mp mc) (srv : Server) (d : Draw)
    (hm : q.method.map lower = str "post") (hr : q.resource.map lower = str "/games") (hj : SendsJson q.headers) {s : Str} {w : List Byte}
    (hs : s.Ok) (hs0 : (0 : Byte) ∉ s.val) (hsp : s.val ≠ str "players") (hsl : s.val.length ≤ 1024) (hw : ∀ x ∈ w, Plain x)
    (hb : q.body = str "{\"" ++ (s.text ++ (str "\":\"" ++ w))) :
    serve cfg stat content c mm mp mc false srv d q.text = .running := by
  have h3 := hf.fuel
  rw [List.length_append, q.text_length, hb] at h3
  simp only [List.length_append] at h3
  have e1 : (str "{\"").length = 2 := by decide
  have e3 : q.method.length = 4 := lower_length hm
  have e2 : (str "\":\"").length = 3 := by decide
  have := serve_create hcfg stat content hc hf srv d hm hr hj (x := .running) (by
    rw [hb, List.append_nil]; exact playersBody_hangs hc.base hs hs0 hsp hsl hw (by omega)) (.inr rfl)
  rwa [List.append_nil] at this

/-- C109 fails: a header whose value has 1024 characters, a blank and then another character.  The exception of the next read
leaves the thread of the request: the whole server ends. -/
theorem C109_violated_crash {cfg : Config} (hcfg : ConfigOk cfg) (stat : List Byte → Option Nat) (content : List Byte → List Byte) {c : Ctx4}
    (hc : Ctx4Ok c) {q : Request} {n v rest mm mp mc : List Byte} {z : Byte}
    (hf : LineFits cfg c.toCtx q (n ++ ([58, 32] ++ (v ++ 32 :: z :: rest))) mm mp mc) (srv : Server) (d : Draw)
    (hm : q.method.map lower = str "post") (hr : q.resource.map lower = str "/games") (hx : ¬ Endpoint.PrefixMatches cfg q.resource)
    (hn : ∀ x ∈ n, tokenChar x = true) (hn1 : n ≠ []) (hn2 : n.length ≤ 1024) (hn3 : n.map lower ≠ str "content-type")
    (hv : ∀ x ∈ v, printable x = true) (hl : v.length = 1024) (hz : printable z = true) :
    serve cfg stat content c mm mp mc false srv d (q.line ++ (n ++ ([58, 32] ++ (v ++ 32 :: z :: rest)))) = .ok (srv, .terminated) := by
  obtain ⟨hm0, hr0⟩ := line_zero hf.ok
  have h1 := hf.fuel
  have h2 := hf.method
  have h3 := hf.resource
  simp only [List.length_append, List.length_cons] at h1
  have hmt : Endpoint.Text q.method := ⟨hm0, by unfold sizeMax; omega⟩
  have hrt : Endpoint.Text q.resource := ⟨hr0, by unfold sizeMax; omega⟩
  obtain ⟨b, hb, hb2⟩ := Endpoint.is_file_request_correct cfg q.method q.resource hmt hrt hcfg.pfx
  have hbf : b = false := by
    cases b with
    | false => rfl
    | true =>
      rcases hb2.1 rfl with h | h
      · exact absurd h hx
      · exact absurd (hr.symm.trans h.2) (by decide)
  subst hbf
  unfold serve serveWith
  rw [read_line_rest cfg hcfg.root q hf.ok hf.method hf.resource hf.protocol _ mm mp mc hf.mm hf.mp hf.mc c.fuel (by omega), Res.ok_bind]
  simp only [Bool.false_eq_true, if_false, hb]
  rw [games_handler srv d _ _ (tail := []) hr (by simp) hr0 (by omega), if_pos rfl]
  unfold createGame whenPost
  rw [Endpoint.equal_i hm0 (by decide) hmt.2 (by decide)]
  rw [hm, show (str "POST").map lower = str "post" by decide]
  simp only [decide_true]
  unfold whenJson
  rw [headerLoop_long hc.base (by omega) _ hn hn1 hn2 hn3 hv hl hz]
  rfl

theorem demo_overflow (srv : Server) (d : Draw) :
    serve demoCfg (fun _ => none) (fun _ => []) demoCtx4 (List.replicate 33 7) (List.replicate 2049 7) (List.replicate 17 7) false srv d demoLongName.text = .ub :=
  C109_violated_overflow demoCfg_ok _ _ demoCtx4_ok demoLongName_fits srv d (by decide) (by decide) demo_sends
    (w := List.replicate 65 120) (R := str "\"slow_engine\"]}") (by unfold Plain; decide +kernel) (by rw [List.length_replicate]) (by rw [List.length_replicate]; omega) rfl

example (srv : Server) (d : Draw) :
    serve demoCfg (fun _ => none) (fun _ => []) demoCtx4 (List.replicate 33 7) (List.replicate 2049 7) (List.replicate 17 7) false srv d demoOpen.text = .running :=
  C109_violated_hang demoCfg_ok _ _ demoCtx4_ok demoOpen_fits srv d (by decide) (by decide) demo_sends
    (s := key "x") (w := str "abc") (by simp only [key, Str.Ok, Plain]; exact ⟨by decide, by simp⟩) (by decide +kernel) (by decide +kernel) (by decide +kernel) (by unfold Plain; decide +kernel) rfl

/-- So the full statement is false. -/
theorem C109_violated : ¬ C109Full := by
  intro h
  have hl := demoLongName_fits.fuel
  rw [List.append_nil] at hl
  obtain ⟨srv', out, sd, h1⟩ := h demoCfg (fun _ => none) (fun _ => []) demoCtx4 demoLongName.text (List.replicate 33 7) (List.replicate 2049 7)
    (List.replicate 17 7) {} [] ⟨3, 8, 7⟩ demoCfg_ok demoCtx4_ok ⟨by simp, by decide, by simp⟩ (by rw [List.length_replicate]) (by rw [List.length_replicate])
    (by rw [List.length_replicate]) hl Connect4Server.inv_init
  rw [demo_overflow] at h1
  cases h1

/-- C108 applies to a body that is JSON but not what the server wants; it goes on behind the value. -/
example (srv : Server) (t : Trace) (hi : Inv srv t) (d : Draw) :
    ∃ srv' out sd, serve demoCfg (fun _ => none) (fun _ => []) demoCtx4 (List.replicate 33 7) (List.replicate 2049 7) (List.replicate 17 7) false srv d
      (demoCreate.line ++ (headersText demoCreate.headers ++ (crlf ++ (str "[true]" ++ str "x")))) = .ok (srv', .sent out sd) ∧ Complete out := by
  have he : Env (fun _ => none) (fun _ => []) demoCtx.room := ⟨by simp, by decide, by simp⟩
  have hf : LineFits demoCfg demoCtx4.toCtx demoNoType (headersText demoCreate.headers ++ (crlf ++ (str "[true]" ++ str "x"))) (List.replicate 33 7) (List.replicate 2049 7)
      (List.replicate 17 7) :=
    ⟨Request.Ok.line demoNoType_fits.ok, by decide, by decide, by decide, by rw [List.length_replicate], by rw [List.length_replicate], by rw [List.length_replicate],
      by decide +kernel⟩
  obtain ⟨srv', out, sd, h1, h2, _⟩ := C108_answered_partial demoCfg_ok demoCtx4_ok he hf hi d (.create (by decide)) (fun _ _ =>
    ⟨demoCreate.headers, str "[true]", str "x", rfl, by unfold HeadersFit HeaderOk; decide +kernel,
      ⟨(str "content-type", str "application/json"), by decide, by unfold IsType; decide +kernel⟩,
      fun _ => ⟨[], .arr [] (.cons (.atom (.bool true)) [] [] .nil), [], by decide, by simp [Ws], by simp [Value.Ok, Elems.Ok, Atom.Ok, Ws],
        by simp [ShortV, ShortE], by decide, by simp⟩⟩)
  exact ⟨srv', out, sd, h1, h2⟩

/-- C109 applies to bytes that are no request. -/
example (srv : Server) (t : Trace) (hi : Inv srv t) (d : Draw) :
    ∃ srv' out sd, serve demoCfg (fun _ => none) (fun _ => []) demoCtx4 (List.replicate 33 7) (List.replicate 2049 7) (List.replicate 17 7) false srv d
      (str "PUT /games/7/players/1/moves" ++ [200, 0, 13, 10]) = .ok (srv', .sent out sd) ∧ (out = [] ∨ Complete out) := by
  refine C109_returns_partial demoCfg_ok demoCtx4_ok ⟨by simp, by decide, by simp⟩ (by rw [List.length_replicate]) (by rw [List.length_replicate])
    (by rw [List.length_replicate]) (by decide +kernel) hi d ?_
  intro l hl h
  have : (match requestLine demoCfg demoCtx4.fuel (List.replicate 33 7) (List.replicate 2049 7) (List.replicate 17 7) (str "PUT /games/7/players/1/moves" ++ [200, 0, 13, 10]) with
    | .ok (some l) => decide (l.method.map lower ≠ str "post") | _ => true) = true := by decide +kernel
  rw [hl] at this
  exact of_decide_eq_true this h.1

/-- A request line that fits, for the example of the crash. -/
example (srv : Server) (d : Draw) (w : List Byte) (hw : ∀ x ∈ w, printable x = true) (hl : w.length = 1024) (rest : List Byte) (hrest : rest.length ≤ 100) :
    serve demoCfg (fun _ => none) (fun _ => []) { demoCtx4 with fuel := 1300 } (List.replicate 33 7) (List.replicate 2049 7) (List.replicate 17 7) false srv d
      (demoCreate.line ++ (str "A" ++ ([58, 32] ++ (w ++ 32 :: 121 :: rest)))) = .ok (srv, .terminated) := by
  refine C109_violated_crash (c := { demoCtx4 with fuel := 1300 }) demoCfg_ok _ _ ⟨⟨demoCtx_ok.room, demoCtx_ok.atof, demoCtx_ok.cell, demoCtx_ok.header, demoCtx_ok.token⟩, demoCtx4_ok.row, demoCtx4_ok.col⟩
    ⟨Request.Ok.line demoNoType_fits.ok, by decide, by decide, by decide, by rw [List.length_replicate], by rw [List.length_replicate], by rw [List.length_replicate], ?_⟩
    srv d (by decide) (by decide) ?_ (by decide) (by decide) (by decide) (by decide +kernel) hw hl (by decide)
  · have e1 : demoNoType.line.length ≤ 100 := by decide +kernel
    have e2 : (str "A").length = 1 := by decide
    simp only [List.length_append, List.length_cons, hl, e2, List.length_nil]
    show _ ≤ 1300
    omega
  · rintro ⟨p, hp, h⟩
    simp only [demoCfg, Option.some.injEq] at hp
    subst hp
    exact absurd h (by decide +kernel)

end Violations

end Abc.Connect4Wire
