import Verif.Samples.EquationsDouble

/-!
# C98, C99: the solver of `samples/basic` and any bytes

What is sent on a connection whatever arrives on it (C99), which requests are answered, and which ones end or block the
process (C98).
-/

namespace Abc.EquationsWire

open Abc.Ascii Abc.Stream Abc.Http Abc.Wire Abc.Json Abc.GameWire
open Abc.Endpoint (Config str mem)
open Abc.CarWire (okJson okText badText bad_any whenResource_eq serveWith_any shutdown_answer begin_any tokString_open tokString_over)

/-! ## C99: any bytes -/

/-- What may be sent on a connection, whose first line is `l` if it can be read. -/
inductive Sends {D : Type} (F : Arith D) (l : Option Wire.Line) : Outcome → Prop
  /-- an exception in the thread of the connection -/
  | terminated {x : Wire.Line} : l = some x → x.method.map lower = str "post" → x.resource.map lower = str "/problem" → Sends F l .terminated
  /-- nothing -/
  | silent : Sends F l (.sent [] false)
  /-- one complete response without JSON -/
  | other {r : Http.Response} : r.Ok → Complete r.text → NotJson r → Sends F l (.sent r.text false)
  /-- one complete response with what was computed from six numbers -/
  | solution {x : Wire.Line} {status : Nat} (a00 a01 a10 a11 b0 b1 : List Byte) : l = some x → x.method.map lower = str "post" →
      x.resource.map lower = str "/problem" → status ≤ 2 →
      (solve F (F.load a00) (F.load a01) (F.load a10) (F.load a11) (F.load b0) (F.load b1)).1 = status →
      Complete (okJson (answerText status (F.text (solve F (F.load a00) (F.load a01) (F.load a10) (F.load a11) (F.load b0) (F.load b1)).2.1)
        (F.text (solve F (F.load a00) (F.load a01) (F.load a10) (F.load a11) (F.load b0) (F.load b1)).2.2))).text →
      Sends F l (.sent (okJson (answerText status (F.text (solve F (F.load a00) (F.load a01) (F.load a10) (F.load a11) (F.load b0) (F.load b1)).2.1)
        (F.text (solve F (F.load a00) (F.load a01) (F.load a10) (F.load a11) (F.load b0) (F.load b1)).2.2))).text false)
  /-- the server is told to stop -/
  | shutdown {x : Wire.Line} (sent : Bool) : l = some x → x.method.map lower = str "post" → x.resource.map lower = str "/shutdown" →
      Complete (okText (str "Server is shuting down...")).text →
      Sends F l (.sent (if sent then (okText (str "Server is shuting down...")).text else []) true)

/-- Whatever it is that comes out. -/
def AllSends {D : Type} (F : Arith D) (l : Option Wire.Line) (x : Done) : Prop := ∀ out, x = .ok ((), out) → Sends F l out

theorem allSends_ok {D : Type} {F : Arith D} {l : Option Wire.Line} {out : Outcome} (h : Sends F l out) : AllSends F l (.ok ((), out)) := by
  intro out' e
  cases e
  exact h

theorem sends_of {D : Type} {F : Arith D} {l : Option Wire.Line} {g : Bool} {r : Http.Response} (h1 : r.Ok) (h2 : Complete r.text) (h3 : NotJson r) :
    Sends F l (.sent (if g then r.text else []) false) := by
  cases g
  · exact .silent
  · exact .other h1 h2 h3

theorem allSends_refuse {D : Type} {F : Arith D} {l : Option Wire.Line} {c : Ctx} (hr : 2048 ≤ c.room) (n : Nat) {status reason : String} (body : String)
    (h : (n, reason) ∈ refusals) (hn : str status = dec n) (hb : (str body).length ≤ 512) (i : In) :
    AllSends F l (.ok ((), refuse c i status reason body)) := by
  obtain ⟨r, rfl, h2, h3, h4⟩ := refuse_any hr body h hn hb i
  rw [h4]
  exact allSends_ok (sends_of h2 h3 (notJson_of (by decide)))

theorem allSends_bad {D : Type} {F : Arith D} {l : Option Wire.Line} {c : Ctx} (hr : 2048 ≤ c.room) (body : String) (hb : (str body).length ≤ 512) (i : In) :
    AllSends F l (.ok ((), bad c i body)) :=
  allSends_refuse hr 400 body (by decide) (by decide +kernel) hb i

theorem headerLoop_refused {fuel f : Nat} {has : Bool} {st : Rd} {hm : List Byte} {st' : Rd} {body : String}
    (h : headerLoop fuel f has st hm = .ok (.refused st' body)) : (str body).length ≤ 512 := by
  induction f generalizing has st hm with
  | zero => cases h
  | succ f ih =>
    rw [headerLoop] at h
    cases h1 : getHeaderName fuel st hm 1025 with
    | ub => rw [h1] at h; cases h
    | running => rw [h1] at h; cases h
    | ok a =>
      rw [h1, Res.ok_bind] at h
      by_cases t1 : a.thrown = true
      · rw [if_pos t1] at h; cases h
      rw [if_neg t1] at h
      by_cases t2 : a.st.gcount = 0
      · rw [if_pos t2] at h; cases h
      rw [if_neg t2] at h
      cases h2 : areEqualI (some a.mem) (mem (str "Content-Type")) with
      | none => rw [h2] at h; cases h
      | some b =>
        rw [h2] at h
        cases b with
        | true =>
          dsimp only at h
          by_cases t3 : has = true
          · rw [if_pos t3] at h; cases h; decide +kernel
          rw [if_neg t3] at h
          cases h3 : getHeaderValue fuel a.st a.mem 1025 with
          | ub => rw [h3] at h; cases h
          | running => rw [h3] at h; cases h
          | ok b =>
            rw [h3, Res.ok_bind] at h
            by_cases t4 : b.thrown = true
            · rw [if_pos t4] at h; cases h
            rw [if_neg t4] at h
            cases h4 : areEqualIN (some b.mem) (mem jsonType) jsonType.length with
            | none => rw [h4] at h; cases h
            | some k =>
              rw [h4] at h
              cases k with
              | false => cases h; decide +kernel
              | true => exact ih h
        | false =>
          dsimp only at h
          cases h3 : getHeaderValue fuel a.st a.mem 1025 with
          | ub => rw [h3] at h; cases h
          | running => rw [h3] at h; cases h
          | ok b =>
            rw [h3, Res.ok_bind] at h
            by_cases t4 : b.thrown = true
            · rw [if_pos t4] at h; cases h
            rw [if_neg t4] at h
            exact ih h

theorem processProblem_sends {D : Type} {F : Arith D} (hF : ∀ d, Printed (F.text d)) {c : Ctx} (hr : 2048 ≤ c.room) (st : Rd) {x : Wire.Line}
    (hm : x.method.map lower = str "post") (hp : x.resource.map lower = str "/problem") : AllSends F (some x) (processProblem c F st) := by
  unfold processProblem
  cases h : headerLoop c.fuel c.fuel false st c.header with
  | ub => exact fun _ h => by cases h
  | running => exact fun _ h => by cases h
  | ok v =>
    rw [Res.ok_bind]
    cases v with
    | thrown => exact allSends_ok (.terminated rfl hm hp)
    | refused st body => exact allSends_bad hr body (headerLoop_refused h) _
    | done st =>
      dsimp only
      cases hb : problemBody c st.s.rest with
      | ub => exact fun _ h => by cases h
      | running => exact fun _ h => by cases h
      | ok y =>
        rw [Res.ok_bind]
        match y with
        | none => exact allSends_bad hr _ (by decide +kernel) _
        | some (((a00, a01), (a10, a11)), (b0, b1)) =>
          dsimp only
          obtain ⟨n, hn, he⟩ := solve_status F (F.load a00) (F.load a01) (F.load a10) (F.load a11) (F.load b0) (F.load b1)
          obtain ⟨k1, k2⟩ := answer_body hn (hF (solve F (F.load a00) (F.load a01) (F.load a10) (F.load a11) (F.load b0) (F.load b1)).2.1)
            (hF (solve F (F.load a00) (F.load a01) (F.load a10) (F.load a11) (F.load b0) (F.load b1)).2.2)
          obtain ⟨-, k3, k4⟩ := okJson_any hr k2 st.s
          rw [he, k1, Res.ok_bind, k4]
          apply allSends_ok
          cases st.s.good
          · exact .silent
          · exact .solution a00 a01 a10 a11 b0 b1 rfl hm hp hn he k3

theorem handler_sends {D : Type} {F : Arith D} (hF : ∀ d, Printed (F.text d)) {c : Ctx} (hr : 2048 ≤ c.room) (x : Wire.Line)
    (hm : (0 : Byte) ∉ x.method) (hml : x.method.length ≤ 32) (hr0 : (0 : Byte) ∉ x.resource) (hrl : x.resource.length ≤ 2048) :
    AllSends F (some x) (handler c F x.st x.method x.resource) := by
  rw [handler_eq F c x.st hm hml hr0 hrl]
  split
  · rename_i h
    rw [shutdown_answer hr (by decide +kernel)]
    exact allSends_ok (.shutdown x.st.s.good rfl h.1 h.2 (mkResponse_complete (mkResponse_ok CarWire.fine_ok _)))
  split
  · exact allSends_refuse hr 404 _ (by decide) (by decide +kernel) (by decide +kernel) _
  split
  · exact allSends_refuse hr 405 _ (by decide) (by decide +kernel) (by decide +kernel) _
  · rename_i h1 h2
    exact processProblem_sends hF hr _ (not_not.1 h2) (not_not.1 h1)

/-- The first line of what arrives, if it can be read. -/
def lineOf (cfg : Config) (fuel : Nat) (mm mp mc bytes : List Byte) : Option Wire.Line :=
  match requestLine cfg fuel mm mp mc bytes with
  | .ok l => l
  | _ => none

/-- C99.  Whatever bytes arrive: if the process lives, what is sent is nothing, or one complete response without JSON, or - only after
`POST /problem` - one complete response with what was computed from six numbers, or - only after `POST /shutdown` - the good-bye;
and only after that the server is told to stop. -/
theorem C99_any_bytes {D : Type} {F : Arith D} (hF : ∀ d, Printed (F.text d)) {cfg : Config} (hcfg : ConfigOk cfg) {stat : List Byte → Option Nat}
    {content : List Byte → List Byte} {c : Ctx} (hr : 2048 ≤ c.room) (he : Env stat content c.room) {bytes mm mp mc : List Byte} (hmm : mm.length = 33)
    (hmp : mp.length = 2049) (hmc : mc.length = 17) (hf : bytes.length + 2 < c.fuel) {out : Outcome}
    (h : serve cfg stat content c F mm mp mc false bytes = .ok ((), out)) : Sends F (lineOf cfg c.fuel mm mp mc bytes) out := by
  unfold serve at h
  rcases serveWith_any hcfg he hmm hmp hmc bytes hf () (handler c F) with ⟨sent, r, e, k1, k2, k3⟩ | ⟨l, hl, l1, l2, l3, l4, e⟩
  · rw [e] at h
    cases h
    exact sends_of k1 k2 k3
  · rw [e] at h
    unfold lineOf
    rw [hl]
    exact handler_sends hF hr l l1 l2 l3 l4 out h

/-! ## C98: which requests are answered -/

/-- C98, in full: whatever bytes arrive, the connection is served without undefined behaviour and without an exception,
and no loop goes on for ever. -/
def C98Full : Prop :=
  ∀ (I : Ideal) (cfg : Config) (stat : List Byte → Option Nat) (content : List Byte → List Byte) (c : Ctx) (bytes mm mp mc : List Byte),
    I.Ok → ConfigOk cfg → CtxOk c → Env stat content c.room → mm.length = 33 → mp.length = 2049 → mc.length = 17 →
    bytes.length + 32 ≤ c.fuel → ∃ out sd, serve cfg stat content c I.arith mm mp mc false bytes = .ok ((), .sent out sd)

theorem replies_other {D : Type} (F : Arith D) {c : Ctx} (hc : CtxOk c) (st : Rd) {m r : List Byte}
    (h0 : (0 : Byte) ∉ m) (hl : m.length ≤ 32) (hr0 : (0 : Byte) ∉ r) (hrl : r.length ≤ 2048) (hn : ¬ (m.map lower = str "post" ∧ r.map lower = str "/problem")) :
    Replies st.s.good (handler c F st m r) (decide (m.map lower = str "post" ∧ r.map lower = str "/shutdown")) := by
  rw [handler_eq F c st h0 hl hr0 hrl]
  by_cases h1 : m.map lower = str "post" ∧ r.map lower = str "/shutdown"
  · rw [if_pos h1, shutdown_answer hc.room (by decide +kernel)]
    have hok := mkResponse_ok CarWire.fine_ok (str "Server is shuting down...")
    simp only [h1, and_self, decide_true]
    exact ⟨(), _, rfl, hok, mkResponse_complete hok⟩
  · rw [if_neg h1, decide_eq_false h1]
    split
    · exact replies_refuse hc _ 404 _ (by decide) (by decide +kernel) (by decide +kernel) _
    split
    · exact replies_refuse hc _ 405 _ (by decide) (by decide +kernel) (by decide +kernel) _
    · rename_i h2 h3
      exact absurd ⟨not_not.1 h3, not_not.1 h2⟩ hn

/-- C98, the part that holds for any bytes: unless what is read from them as the method is POST and as the resource `/problem`, the
connection is served without undefined behaviour, exception or endless loop, and nothing or one complete response is sent. -/
theorem C98_returns_partial {D : Type} (F : Arith D) {cfg : Config} (hcfg : ConfigOk cfg) {stat : List Byte → Option Nat} {content : List Byte → List Byte} {c : Ctx}
    (hc : CtxOk c) (he : Env stat content c.room) {bytes mm mp mc : List Byte} (hmm : mm.length = 33) (hmp : mp.length = 2049)
    (hmc : mc.length = 17) (hf : bytes.length + 2 < c.fuel)
    (hn : ∀ l, requestLine cfg c.fuel mm mp mc bytes = .ok (some l) → ¬ (l.method.map lower = str "post" ∧ l.resource.map lower = str "/problem")) :
    ∃ y out sd, serve cfg stat content c F mm mp mc false bytes = .ok (y, .sent out sd) ∧ (out = [] ∨ Complete out) := by
  unfold serve
  rcases serveWith_any hcfg he hmm hmp hmc bytes hf () (handler c F) with ⟨sent, r, e, _, k2, _⟩ | ⟨l, hl, l1, l2, l3, l4, e⟩
  · refine ⟨_, _, _, e, ?_⟩
    cases sent
    · exact .inl rfl
    · exact .inr k2
  · rw [e]
    exact (replies_other F hc l.st l1 l2 l3 l4 (hn l hl)).returned

/-- A JSON value that the reader can hold, and is not a bare number. -/
def FineV : Spec.Value → Prop
  | .obj _ ms => FineM ms
  | .arr w es => ShortV (.arr w es)
  | .atom x => ShortV (.atom x) ∧ ∀ n, x ≠ .num n

/-- Headers that can be read; and if there is no Content-Type or it is JSON then a JSON value follows (and then anything). -/
structure RestFine (rest : List Byte) : Prop where
  ex : ∃ hs body, rest = headersText hs ++ (crlf ++ body) ∧ HeadersFit hs ∧
    (TypeFits hs → ∃ lead v r, body = lead ++ (Spec.Value.text v ++ r) ∧ Spec.Ws lead ∧ Spec.Value.Ok v ∧ FineV v)

theorem problemBody_fine {c : Ctx} (hc : CtxOk c) {lead : List Byte} {v : Spec.Value} {r : List Byte} (l1 : Spec.Ws lead) (l2 : Spec.Value.Ok v) (l3 : FineV v)
    (hf : (lead ++ (Spec.Value.text v ++ r)).length + 27 ≤ c.fuel) : ∃ x, problemBody c (lead ++ (Spec.Value.text v ++ r)) = .ok x := by
  cases v with
  | obj w ms => exact ⟨_, problemBody_object hc l1 l2 l3 r (by simpa only [List.length_append] using hf)⟩
  | atom x =>
    exact ⟨_, problemBody_other hc l1 l2 l3.1 (fun n h => l3.2 n (by simpa using h)) (by simp) r (by simpa only [List.length_append] using hf)⟩
  | arr w es => exact ⟨_, problemBody_other hc l1 l2 l3 (by simp) (by simp) r (by simpa only [List.length_append] using hf)⟩

theorem replies_done {D : Type} {F : Arith D} (hF : ∀ d, Printed (F.text d)) {c : Ctx} (hc : CtxOk c) {st : Rd} {body : List Byte}
    (h : headerLoop c.fuel c.fuel false st c.header = .ok (.done ⟨In.ofList body, .body, 0⟩)) {x : Option (((List Byte × List Byte) × (List Byte × List Byte)) × (List Byte × List Byte))}
    (hx : problemBody c body = .ok x) : Replies true (processProblem c F st) false := by
  unfold processProblem
  rw [h, Res.ok_bind]
  have e2 : (In.ofList body).rest = body := rfl
  dsimp only
  rw [e2, hx, Res.ok_bind]
  match x with
  | none => exact replies_bad hc _ _ (by decide +kernel) (In.ofList body)
  | some (((a00, a01), (a10, a11)), (b0, b1)) =>
    dsimp only
    obtain ⟨n, hn, he⟩ := solve_status F (F.load a00) (F.load a01) (F.load a10) (F.load a11) (F.load b0) (F.load b1)
    obtain ⟨k1, k2⟩ := answer_body hn (hF (solve F (F.load a00) (F.load a01) (F.load a10) (F.load a11) (F.load b0) (F.load b1)).2.1)
      (hF (solve F (F.load a00) (F.load a01) (F.load a10) (F.load a11) (F.load b0) (F.load b1)).2.2)
    obtain ⟨k0, k3, k4⟩ := okJson_any hc.room k2 (In.ofList body)
    rw [he, k1, Res.ok_bind, k4]
    exact ⟨(), _, rfl, k0, k3⟩

theorem replies_problem {D : Type} {F : Arith D} (hF : ∀ d, Printed (F.text d)) {c : Ctx} (hc : CtxOk c) {rest : List Byte} (h : RestFine rest)
    (hf : rest.length + 30 ≤ c.fuel) (g : Nat) : Replies true (processProblem c F ⟨In.ofList rest, .headerName, g⟩) false := by
  obtain ⟨hs, body, rfl, hfit, hb⟩ := h.ex
  have hl := headers_length hs
  rw [List.length_append, List.length_append] at hf
  obtain ⟨v, h1, h2⟩ := headerLoop_judge (fuel := c.fuel) hs hfit body false c.header hc.header g c.fuel (by omega)
    (by omega)
  have hdone : TypeFits hs → v = .done ⟨In.ofList body, .body, 0⟩ →
      Replies true (processProblem c F ⟨In.ofList (headersText hs ++ (crlf ++ body)), .headerName, g⟩) false := by
    rintro ht rfl
    obtain ⟨lead, v, r, rfl, l1, l2, l3⟩ := hb ht
    obtain ⟨x, hx⟩ := problemBody_fine (r := r) hc l1 l2 l3 (by omega)
    exact replies_done hF hc h1 hx
  cases hj : judge false hs with
  | json =>
    rw [hj] at h2
    exact hdone (.inr (judge_is_json hj)) h2
  | missing =>
    rw [hj] at h2
    exact hdone (.inl (judge_missing hj)) h2
  | wrong =>
    rw [hj] at h2
    obtain ⟨st, rfl, hg⟩ := h2
    have := replies_bad hc () "'application/json' is the only supported Content-Type." (by decide +kernel) st.s
    unfold processProblem
    rw [h1, Res.ok_bind]
    rwa [hg] at this
  | twice =>
    rw [hj] at h2
    obtain ⟨st, rfl, hg⟩ := h2
    have := replies_bad hc () "The Content-Type header was supplied more than once." (by decide +kernel) st.s
    unfold processProblem
    rw [h1, Res.ok_bind]
    rwa [hg] at this

/-- C98, the part that holds for requests: every request line that fits gets one complete response, whatever follows it; only if the
method is POST and the resource is `/problem`, what follows must be headers, and a JSON value unless the Content-Type is another.  The
server is told to shut down only by `POST /shutdown`. -/
theorem C98_answered_partial {D : Type} {F : Arith D} (hF : ∀ d, Printed (F.text d)) {cfg : Config} (hcfg : ConfigOk cfg) {stat : List Byte → Option Nat}
    {content : List Byte → List Byte} {c : Ctx} (hc : CtxOk c) (he : Env stat content c.room) {q : Request} {rest mm mp mc : List Byte}
    (hf : LineFits cfg c q rest mm mp mc) (hb : q.method.map lower = str "post" → q.resource.map lower = str "/problem" → RestFine rest) :
    ∃ out sd, serve cfg stat content c F mm mp mc false (q.line ++ rest) = .ok ((), .sent out sd) ∧ Complete out ∧
      (sd = true → q.method.map lower = str "post" ∧ q.resource.map lower = str "/shutdown") := by
  unfold serve
  rcases serve_line hcfg he hf () (handler c F) with ⟨r, h1, _, h3⟩ | ⟨_, h⟩
  · exact ⟨r.text, false, h1, h3, by simp⟩
  · obtain ⟨hm0, hr0⟩ := line_zero hf.ok
    have h1 := hf.fuel
    have h3 := hf.resource
    rw [List.length_append] at h1
    rw [h]
    by_cases hp : q.method.map lower = str "post" ∧ q.resource.map lower = str "/problem"
    · rw [handler_problem F c _ hp.1 hp.2 hm0 hf.method hr0 (by omega)]
      obtain ⟨y, r, e, _, h5⟩ := replies_problem hF hc (hb hp.1 hp.2) (by omega) (protocolText q.maj q.min).length
      exact ⟨r.text, false, by rw [e]; rfl, h5, by simp⟩
    · obtain ⟨y, r, e, _, h5⟩ := replies_other F hc ⟨In.ofList rest, .headerName, (protocolText q.maj q.min).length⟩ hm0 hf.method hr0 (by omega) hp
      exact ⟨r.text, _, e, h5, fun h => of_decide_eq_true h⟩

/-! ## Where it fails -/

section Violations
open Spec

theorem problemBody_hangs {c : Ctx} (hc : CtxOk c) {w : List Byte} (hw : ∀ x ∈ w, Plain x)
    (hl : w.length ≤ 1031) (hf : w.length + 31 ≤ c.fuel) : problemBody c (str "{\"" ++ w) = .running := by
  have e : str "{\"" ++ w = 123 :: 34 :: w := by rw [show str "{\"" = [123, 34] by decide]; rfl
  obtain ⟨n, b, h1, h2⟩ := begin_any hc (R := 34 :: w) (by simp; omega)
  obtain ⟨f, hfu⟩ : ∃ k, c.fuel = k + 1 := ⟨c.fuel - 1, by omega⟩
  have h3 : getTok c ⟨In.ofList (34 :: w), true, [true], n⟩ b = .running := by
    unfold getTok
    have := tokString_open (fuel := c.fuel) hw hl h1 (by omega)
    rw [hfu] at this ⊢
    exact readToken_hangs this
  unfold problemBody
  rw [e, h2, Res.ok_bind]
  simp only [ne_eq, not_true_eq_false, if_false, Tok.block, Option.getD_some]
  have hp : problemLoop c c.fuel ⟨In.ofList (34 :: w), true, [true], n⟩ b {} = .running := by
    have : ∀ f, problemLoop c (f + 1) ⟨In.ofList (34 :: w), true, [true], n⟩ b {} = .running := fun f => by
      rw [problemLoop, h3]
      rfl
    rw [hfu]
    exact this f
  rw [hp]
  rfl

theorem problemBody_over {c : Ctx} (hc : CtxOk c) {w r : List Byte} (hw : ∀ x ∈ w, Plain x)
    (h1 : 1033 ≤ w.length) (h2 : w.length ≤ 1038) (hf : w.length + r.length + 32 ≤ c.fuel) :
    problemBody c (str "{\"" ++ (w ++ (str "\"" ++ r))) = .ub := by
  have e : str "{\"" ++ (w ++ (str "\"" ++ r)) = 123 :: 34 :: (w ++ 34 :: r) := by
    rw [show str "{\"" = [123, 34] by decide, show str "\"" = [34] by decide]; simp
  obtain ⟨n, b, h3, h4⟩ := begin_any hc (R := 34 :: (w ++ 34 :: r)) (by simp; omega)
  obtain ⟨f, hfu⟩ : ∃ k, c.fuel = k + 1 := ⟨c.fuel - 1, by omega⟩
  have h5 : getTok c ⟨In.ofList (34 :: (w ++ 34 :: r)), true, [true], n⟩ b = .ub := by
    unfold getTok
    have := tokString_over (fuel := c.fuel) (r := r) hw h1 h2 h3 (by omega)
    rw [hfu] at this ⊢
    exact readToken_ub this
  unfold problemBody
  rw [e, h4, Res.ok_bind]
  simp only [ne_eq, not_true_eq_false, if_false, Tok.block, Option.getD_some]
  have hp : problemLoop c c.fuel ⟨In.ofList (34 :: (w ++ 34 :: r)), true, [true], n⟩ b {} = .ub := by
    have : ∀ f, problemLoop c (f + 1) ⟨In.ofList (34 :: (w ++ 34 :: r)), true, [true], n⟩ b {} = .ub := fun f => by
      rw [problemLoop, h5]
      rfl
    rw [hfu]
    exact this f
  rw [hp]
  rfl

/-- C98 fails: the name of the first member has no closing quote (and at most 1031 characters): reading never ends, however long
one waits. -/
theorem C98_violated_hang {D : Type} (F : Arith D) {cfg : Config} (hcfg : ConfigOk cfg) (stat : List Byte → Option Nat) (content : List Byte → List Byte) {c : Ctx}
    (hc : CtxOk c) {q : Request} {mm mp mc : List Byte} (hf : Fits cfg c q [] mm mp mc)
    (hm : q.method.map lower = str "post") (hr : q.resource.map lower = str "/problem") (hj : TypeFits q.headers) {w : List Byte}
    (hw : ∀ x ∈ w, Plain x) (hl : w.length ≤ 1031) (hb : q.body = str "{\"" ++ w) :
    serve cfg stat content c F mm mp mc false q.text = .running := by
  have h3 := hf.fuel
  rw [List.length_append, q.text_length, hb] at h3
  simp only [List.length_append] at h3
  have e1 : (str "{\"").length = 2 := by decide
  have := serve_problem hcfg stat content hc F hf hm hr hj
  rw [List.append_nil] at this
  rw [this, List.append_nil, hb, problemBody_hangs hc hw hl (by omega)]
  rfl

/-- C98 fails: the name of the first member has 1033 to 1038 characters: it is written over the end of the block. -/
theorem C98_violated_overflow {D : Type} (F : Arith D) {cfg : Config} (hcfg : ConfigOk cfg) (stat : List Byte → Option Nat) (content : List Byte → List Byte) {c : Ctx}
    (hc : CtxOk c) {q : Request} {mm mp mc : List Byte} (hf : Fits cfg c q [] mm mp mc)
    (hm : q.method.map lower = str "post") (hr : q.resource.map lower = str "/problem") (hj : TypeFits q.headers) {w r : List Byte}
    (hw : ∀ x ∈ w, Plain x) (h1 : 1033 ≤ w.length) (h2 : w.length ≤ 1038) (hb : q.body = str "{\"" ++ (w ++ (str "\"" ++ r))) :
    serve cfg stat content c F mm mp mc false q.text = .ub := by
  have h3 := hf.fuel
  rw [List.length_append, q.text_length, hb] at h3
  simp only [List.length_append] at h3
  have e1 : (str "{\"").length = 2 := by decide
  have e2 : (str "\"").length = 1 := by decide
  have := serve_problem hcfg stat content hc F hf hm hr hj
  rw [List.append_nil] at this
  rw [this, List.append_nil, hb, problemBody_over hc hw h1 h2 (by omega)]
  rfl

/-- C98 fails: a number of 25 digits before its point, where the body should begin. -/
theorem C98_violated_number {D : Type} (F : Arith D) {cfg : Config} (hcfg : ConfigOk cfg) (stat : List Byte → Option Nat) (content : List Byte → List Byte) {c : Ctx}
    (hc : CtxOk c) {q : Request} {mm mp mc : List Byte} (hf : Fits cfg c q [] mm mp mc)
    (hm : q.method.map lower = str "post") (hr : q.resource.map lower = str "/problem") (hj : TypeFits q.headers) {d r : List Byte}
    (hd : ∀ x ∈ d, Digit x) (hl : d.length = 25) (hb : q.body = d ++ (str ".0" ++ r)) :
    serve cfg stat content c F mm mp mc false q.text = .ub := by
  have h3 := hf.fuel
  rw [List.length_append, q.text_length, hb] at h3
  simp only [List.length_append] at h3
  have e : d ++ (str ".0" ++ r) = d ++ 46 :: 48 :: r := by rw [show str ".0" = [46, 48] by decide]; rfl
  have := serve_problem hcfg stat content hc F hf hm hr hj
  rw [List.append_nil] at this
  have hu : problemBody c (d ++ 46 :: 48 :: r) = .ub := by
    have h : getTok c { s := { rest := d ++ 46 :: 48 :: r } } c.token = .ub :=
      C08_violated_number (ls := []) (r := r) hd hl (by omega)
    unfold problemBody
    rw [h]
    rfl
  rw [this, List.append_nil, hb, e, hu]
  rfl

/-- The exception leaves the loop over the headers. -/
theorem headerLoop_throws {c : Ctx} (hc : CtxOk c) {n v rest : List Byte} {z : Byte} (hf : n.length + 1032 ≤ c.fuel) (g : Nat)
    (hn : ∀ x ∈ n, tokenChar x = true) (hn1 : n ≠ []) (hn2 : n.length ≤ 1024) (hn3 : n.map lower ≠ str "content-type")
    (hv : ∀ x ∈ v, printable x = true) (hl : v.length = 1024) (hz : printable z = true) :
    headerLoop c.fuel c.fuel false ⟨In.ofList (n ++ ([58, 32] ++ (v ++ 32 :: z :: rest))), .headerName, g⟩ c.header = .ok .thrown := by
  obtain ⟨a, w, rfl⟩ : ∃ a w, v = a :: w := by
    cases v with
    | nil => simp at hl
    | cons a w => exact ⟨a, w, rfl⟩
  have ha := hv a (by simp)
  obtain ⟨m1, g1, hold⟩ := getHeaderName_ok (fuel := c.fuel) n hn1 hn a (w ++ 32 :: z :: rest) (ascii_of_printable ha) (blank_of_printable ha) c.header
    (by rw [hc.header]; omega) (by rw [hc.header]; omega) g (by omega)
  have hl1 : m1.length = 1025 := by rw [hold.1, hc.header]
  obtain ⟨s, m2, g2⟩ := headerValue_long (fuel := c.fuel) hv hl hz rest m1 hl1 (by omega) n.length
  rw [hc.header] at g1
  have e1 : areEqualI (some m1) (mem (str "Content-Type")) = some false := by
    rw [buf_equal_i hold.2 (by omega) (by rw [hl1]; decide) (by decide) (by decide), show (str "Content-Type").map lower = str "content-type" by decide]
    simp [hn3]
  obtain ⟨f, hfu⟩ : ∃ k, c.fuel = k + 1 + 1 := ⟨c.fuel - 2, by omega⟩
  have hloop : headerLoop c.fuel (f + 1 + 1) false ⟨In.ofList (n ++ ([58, 32] ++ (a :: w ++ 32 :: z :: rest))), .headerName, g⟩ c.header =
      .ok .thrown := by
    rw [headerLoop, show a :: w ++ 32 :: z :: rest = a :: (w ++ 32 :: z :: rest) from rfl, g1, Res.ok_bind]
    dsimp only
    rw [if_neg (by simp), if_neg (fun h0 => hn1 (List.length_eq_zero_iff.1 h0)), e1]
    rw [List.cons_append] at g2
    dsimp only
    rw [g2, Res.ok_bind]
    dsimp only
    rw [if_neg (by simp), headerLoop, getHeaderName, if_pos (by simp), Res.ok_bind]
    rfl
  rw [← hloop, ← hfu]

/-- C98 fails: a header whose value has 1024 characters, a blank and then another character.  The exception of the next read
leaves the thread of the request: the whole server ends. -/
theorem C98_violated_crash {D : Type} (F : Arith D) {cfg : Config} (hcfg : ConfigOk cfg) (stat : List Byte → Option Nat) (content : List Byte → List Byte) {c : Ctx}
    (hc : CtxOk c) {q : Request} {n v rest mm mp mc : List Byte} {z : Byte}
    (hf : LineFits cfg c q (n ++ ([58, 32] ++ (v ++ 32 :: z :: rest))) mm mp mc)
    (hm : q.method.map lower = str "post") (hr : q.resource.map lower = str "/problem") (hx : ¬ Endpoint.PrefixMatches cfg q.resource)
    (hn : ∀ x ∈ n, tokenChar x = true) (hn1 : n ≠ []) (hn2 : n.length ≤ 1024) (hn3 : n.map lower ≠ str "content-type")
    (hv : ∀ x ∈ v, printable x = true) (hl : v.length = 1024) (hz : printable z = true) :
    serve cfg stat content c F mm mp mc false (q.line ++ (n ++ ([58, 32] ++ (v ++ 32 :: z :: rest)))) = .ok ((), .terminated) := by
  obtain ⟨hm0, hr0⟩ := line_zero hf.ok
  have h1 := hf.fuel
  have h2 := hf.method
  have h3 := hf.resource
  simp only [List.length_append, List.length_cons] at h1
  have hmt : Endpoint.Text q.method := ⟨hm0, by unfold sizeMax; omega⟩
  have hrt : Endpoint.Text q.resource := ⟨hr0, by unfold sizeMax; omega⟩
  obtain ⟨b, hb, hb2⟩ := Endpoint.is_file_request_correct cfg q.method q.resource hmt hrt hcfg.pfx
  have hbf : b = false := by
    cases b with
    | false => rfl
    | true =>
      rcases hb2.1 rfl with h | h
      · exact absurd h hx
      · exact absurd (hm.symm.trans h.1) (by decide)
  subst hbf
  unfold serve serveWith
  rw [read_line_rest cfg hcfg.root q hf.ok hf.method hf.resource hf.protocol _ mm mp mc hf.mm hf.mp hf.mc c.fuel (by omega), Res.ok_bind]
  simp only [Bool.false_eq_true, if_false, hb]
  rw [handler_problem F c _ hm hr hm0 h2 hr0 (by omega)]
  unfold processProblem
  rw [headerLoop_throws hc (by omega) _ hn hn1 hn2 hn3 hv hl hz]
  rfl

end Violations

/-! ## Instances -/

section Instances
open Spec
open Abc.CarWire (demoPost demoPost_fits Nice demo_json demo_env demoCtx_more)

theorem demoLast_env : Env (fun _ => none) (fun _ => []) demoLast.room := ⟨by simp, by decide, by simp⟩

/-- C99 applies to any bytes. -/
example {D : Type} {F : Arith D} (hF : ∀ d, Printed (F.text d)) (bytes : List Byte) (hl : bytes.length ≤ 700) {out : Outcome}
    (h : serve demoCfg (fun _ => none) (fun _ => []) demoLast F (List.replicate 33 7) (List.replicate 2049 7) (List.replicate 17 7) false bytes = .ok ((), out)) :
    Sends F (lineOf demoCfg 800 (List.replicate 33 7) (List.replicate 2049 7) (List.replicate 17 7) bytes) out :=
  C99_any_bytes (c := demoLast) hF demoCfg_ok demoLast_ok.room demoLast_env (by rw [List.length_replicate]) (by rw [List.length_replicate])
    (by rw [List.length_replicate]) (by show _ < 800; omega) h

/-- And there are bytes on which the process lives: a problem, and something that is no request. -/
example {rnd : Rat → Ext} (h : Ieee rnd) :
    (∃ out, serve demoCfg (fun _ => none) (fun _ => []) demoLast (demoIdeal rnd 0).arith (List.replicate 33 7) (List.replicate 2049 7) (List.replicate 17 7) false
      ((demoProblem ((whole "2", whole "1"), (whole "1", whole "1")) (whole "1", whole "0")).text ++ []) = .ok ((), .sent out false)) ∧
    ∃ y out sd, serve demoCfg (fun _ => none) (fun _ => []) demoLast (demoIdeal rnd 0).arith (List.replicate 33 7) (List.replicate 2049 7) (List.replicate 17 7) false
      (str "PUT /problem" ++ [200, 0, 13, 10]) = .ok (y, .sent out sd) ∧ (out = [] ∨ Complete out) := by
  constructor
  · obtain ⟨n, -, -, h3, -⟩ := C97_answer demoCfg_ok (fun _ => none) (fun _ => []) demoLast_ok (demoIdeal rnd 0).arith (demoIdeal_ok h 0).printed
      (demo_asks (a := ((whole "2", whole "1"), (whole "1", whole "1"))) (b := (whole "1", whole "0")) ok2 ok1 ok1 ok1 ok1 ok0)
    exact ⟨_, h3⟩
  · refine C98_returns_partial _ demoCfg_ok demoLast_ok demoLast_env (by rw [List.length_replicate]) (by rw [List.length_replicate])
      (by rw [List.length_replicate]) (by decide +kernel) ?_
    intro l hl h
    have : (match requestLine demoCfg demoLast.fuel (List.replicate 33 7) (List.replicate 2049 7) (List.replicate 17 7) (str "PUT /problem" ++ [200, 0, 13, 10]) with
      | .ok (some l) => decide (l.method.map lower ≠ str "post") | _ => true) = true := by decide +kernel
    rw [hl] at this
    exact of_decide_eq_true this h.1

/-- C98 applies to a body that is JSON but no problem. -/
example {D : Type} {F : Arith D} (hF : ∀ d, Printed (F.text d)) :
    ∃ out sd, serve demoCfg (fun _ => none) (fun _ => []) demoLast F (List.replicate 33 7) (List.replicate 2049 7) (List.replicate 17 7) false
      ((demoPost "/Problem" []).line ++ (headersText demoCreate.headers ++ (crlf ++ str "[true]x"))) = .ok ((), .sent out sd) ∧ Complete out := by
  have hf : LineFits demoCfg demoLast (demoPost "/Problem" []) (headersText demoCreate.headers ++ (crlf ++ str "[true]x")) (List.replicate 33 7)
      (List.replicate 2049 7) (List.replicate 17 7) :=
    ⟨Request.Ok.line (demoPost_fits (c := demoCtx) (after := []) nice_problem (by decide +kernel)).ok, by decide, by decide, by decide, by rw [List.length_replicate],
      by rw [List.length_replicate], by rw [List.length_replicate], by decide +kernel⟩
  obtain ⟨out, sd, h1, h2, _⟩ := C98_answered_partial hF demoCfg_ok demoLast_ok demoLast_env hf (fun _ _ =>
    ⟨demoCreate.headers, str "[true]x", rfl, by unfold HeadersFit HeaderOk; decide +kernel,
      fun _ => ⟨[], .arr [] (.cons (.atom (.bool true)) [] [] .nil), str "x", by decide, by simp [Ws], by simp [Value.Ok, Elems.Ok, Atom.Ok, Ws],
        by simp [FineV, ShortV, ShortE]⟩⟩)
  exact ⟨out, sd, h1, h2⟩

/-- C98: three characters are enough to block a thread for ever. -/
theorem demo_hang {D : Type} (F : Arith D) :
    serve demoCfg (fun _ => none) (fun _ => []) demoLast F (List.replicate 33 7) (List.replicate 2049 7) (List.replicate 17 7) false
      (demoPost "/Problem" (str "{\"" ++ str "a")).text = .running :=
  C98_violated_hang F demoCfg_ok _ _ demoLast_ok (demoPost_fits nice_problem (by decide +kernel)) (by decide) (by decide) (.inr (demo_json _ _))
    (w := str "a") (by unfold Plain; decide) (by decide) rfl

/-- C98: twenty-seven write over the end of a number. -/
example {D : Type} (F : Arith D) :
    serve demoCfg (fun _ => none) (fun _ => []) demoLast F (List.replicate 33 7) (List.replicate 2049 7) (List.replicate 17 7) false
      (demoPost "/Problem" (str "1234567890123456789012345" ++ (str ".0" ++ []))).text = .ub :=
  C98_violated_number F demoCfg_ok _ _ demoLast_ok (demoPost_fits nice_problem (by decide +kernel)) (by decide) (by decide) (.inr (demo_json _ _))
    (d := str "1234567890123456789012345") (r := []) (by unfold Digit; decide) (by decide) rfl

/-- C98: and 1033 over the end of the block. -/
example {D : Type} (F : Arith D) :
    serve demoCfg (fun _ => none) (fun _ => []) { demoCtx with fuel := 1300 } F (List.replicate 33 7) (List.replicate 2049 7) (List.replicate 17 7) false
      (demoPost "/Problem" (str "{\"" ++ (List.replicate 1033 97 ++ (str "\"" ++ str ":1}")))).text = .ub := by
  have e1 : (str "{\"").length = 2 := by decide
  have e2 : (str "\"").length = 1 := by decide
  have e3 : (str ":1}").length = 3 := by decide
  refine C98_violated_overflow F demoCfg_ok _ _ (demoCtx_more 1300) (demoPost_fits nice_problem ?_) (by decide) (by decide) (.inr (demo_json _ _))
    (w := List.replicate 1033 97) (r := str ":1}") ?_ (by rw [List.length_replicate]) (by rw [List.length_replicate]; omega) rfl
  · simp only [List.length_append, List.length_replicate, e1, e2, e3, List.length_nil]
    show _ ≤ 1300
    omega
  · intro x hx
    rw [List.mem_replicate] at hx
    rw [hx.2]
    unfold Plain
    decide

/-- C98: the exception. -/
example {D : Type} (F : Arith D) (w : List Byte) (hw : ∀ x ∈ w, printable x = true) (hl : w.length = 1024) (rest : List Byte) (hrest : rest.length ≤ 100) :
    serve demoCfg (fun _ => none) (fun _ => []) { demoCtx with fuel := 1300 } F (List.replicate 33 7) (List.replicate 2049 7) (List.replicate 17 7) false
      ((demoPost "/Problem" []).line ++ (str "A" ++ ([58, 32] ++ (w ++ 32 :: 121 :: rest)))) = .ok ((), .terminated) := by
  refine C98_violated_crash (c := { demoCtx with fuel := 1300 }) F demoCfg_ok _ _ (demoCtx_more 1300)
    ⟨Request.Ok.line (demoPost_fits (c := demoCtx) (after := []) nice_problem (by decide +kernel)).ok, by decide, by decide, by decide, by rw [List.length_replicate],
      by rw [List.length_replicate], by rw [List.length_replicate], ?_⟩
    (by decide) (by decide) ?_ (by decide) (by decide) (by decide) (by decide +kernel) hw hl (by decide)
  · have e1 : (demoPost "/Problem" []).line.length ≤ 100 := by decide +kernel
    have e2 : (str "A").length = 1 := by decide
    simp only [List.length_append, List.length_cons, hl, e2, List.length_nil]
    show _ ≤ 1300
    omega
  · rintro ⟨p, hp, h⟩
    simp only [demoCfg, Option.some.injEq] at hp
    subst hp
    exact absurd h (by decide +kernel)

/-- So the full statement is false. -/
theorem C98_violated : ¬ C98Full := by
  intro h
  obtain ⟨rnd, hr⟩ := ieee_exists
  obtain ⟨out, sd, h1⟩ := h (demoIdeal rnd 0) demoCfg (fun _ => none) (fun _ => []) demoLast (demoPost "/Problem" (str "{\"" ++ str "a")).text (List.replicate 33 7)
    (List.replicate 2049 7) (List.replicate 17 7) (demoIdeal_ok hr 0) demoCfg_ok demoLast_ok demoLast_env (by rw [List.length_replicate]) (by rw [List.length_replicate])
    (by rw [List.length_replicate]) (by decide +kernel)
  rw [demo_hang] at h1
  cases h1

end Instances

end Abc.EquationsWire
