import Verif.Http.Safety
import Verif.Http.Calls
import Verif.Http.Props
import Verif.Endpoint.Props

/-!
# A whole request through `endpoint`: from the bytes of a connection to the bytes of the answer

`endpoint::process_request` (`src/endpoint.h` 104-170) with everything it calls: the HTTP reader on the
connection, routing, files, the base class's REST handler, and the HTTP writer.  The socket and its stream
buffer are the list of bytes the peer sends and the number of bytes the peer still accepts (`room`).

`http_server_stream` (`src/i/http.i.h` 730) is an `std::istream` and an `std::ostream` over one virtual
`std::basic_ios`, so the state bits left by reading are the state bits writing starts with.  All reading
happens before all writing here, which is why one transfer of the bits is enough (`startWriting`).
Logging is not modelled.
-/

namespace Abc.Wire

open Abc.Ascii Abc.Stream Abc.Http
open Abc.Endpoint (Config str mem)

/-! ## Model -/

/-- Digits of a number, most significant first; `f` bounds their number. -/
def decLoop : Nat → Nat → List Byte
  | 0, _ => []
  | f + 1, n => if n < 10 then [UInt8.ofNat (48 + n)] else decLoop f (n / 10) ++ [UInt8.ofNat (48 + n % 10)]

/-- `%zu`, `src/endpoint.h` 202, 256. -/
def dec (n : Nat) : List Byte := decLoop (n + 1) n

/-- What happens to a connection. -/
inductive Outcome where
  /-- the bytes sent before the connection is closed, and whether shutdown was requested -/
  | sent (bytes : List Byte) (shutdown : Bool)
  /-- an exception left the thread's function: `std::terminate` -/
  | terminated
  deriving DecidableEq, Repr

/-- The shared `std::basic_ios` as seen by the writing half. -/
def startWriting (s : In) (room : Nat) : Out :=
  { out := [], room := room, fail := s.fail || s.eof, bad := s.bad }

/-- Calls on the writer; nobody catches `std::logic_error` (`none`). -/
def run : Wr → List WCall → Option Wr
  | st, [] => some st
  | st, c :: cs => if (wcall st c).thrown then none else run (wcall st c).st cs

/-- `send_simple_response`, 249-278. -/
def simpleCalls (status reason ctype body : List Byte) : List WCall :=
  [.responseProtocol (str "HTTP/1.1"), .statusCode status, .reasonPhrase (some reason),
   .headerName (str "Connection"), .headerValue (str "close"),
   .headerName (str "Content-Type"), .headerValue ctype,
   .headerName (str "Content-Length"), .headerValue (dec body.length),
   .endHeaders, .body body]

/-- The chunks of the loop 228-231. -/
def chunks : Nat → List Byte → List (List Byte)
  | 0, _ => []
  | n + 1, left => left.take Endpoint.chunkSize :: chunks n (left.drop Endpoint.chunkSize)

/-- Lines 209-231. -/
def fileCalls (ctype : Option String) (fsize : Nat) (body : List Byte) : List WCall :=
  [.responseProtocol (str "HTTP/1.1"), .statusCode (str "200"), .reasonPhrase (some (str "OK")),
   .headerName (str "Connection"), .headerValue (str "close")] ++
  (match ctype with
   | none => []
   | some t => [.headerName (str "Content-Type"), .headerValue (str t)]) ++
  [.headerName (str "Content-Length"), .headerValue (dec fsize), .endHeaders] ++
  (chunks (Endpoint.chunkCount fsize) body).map .body

/-- `text/plain; charset=utf-8`. -/
def plain : List Byte := str "text/plain; charset=utf-8"

/-- The calls that send a response chosen by `process_file_request` or `process_rest_request`.  (The
chunks of the content and of what `sendChunks` kept of it are the same.) -/
def answerCalls : Endpoint.Response → List WCall
  | .methodNotAllowed => simpleCalls (str "405") (str "Method Not Allowed") plain
      (str "GET is the only supported method for static files.")
  | .notFound => simpleCalls (str "404") (str "Not Found") plain (str "Error: The requested resource was not found.")
  | .file _ ct n b => fileCalls ct n b
  | .rest _ => simpleCalls (str "200") (str "200") plain (str "TODO: Override process_rest_request().")

/-- Send a response; `s` is the reader's stream at that moment. -/
def answer (s : In) (room : Nat) (shutdown : Bool) (cs : List WCall) : Outcome :=
  match run ⟨startWriting s room, .protocol⟩ cs with
  | none => .terminated
  | some w => .sent w.o.out shutdown

/-- A virtual `process_rest_request`: the reader after the request line, method and resource. -/
abbrev Handler := Rd → List Byte → List Byte → Res Outcome

/-- `endpoint::process_rest_request`, 236-246. -/
def baseHandler (room : Nat) : Handler := fun st method resource =>
  match Endpoint.processRest method resource with
  | none => .ub
  | some (.rest sd) => .ok (answer st.s room sd (answerCalls (.rest sd)))
  | some r => .ok (answer st.s room false (answerCalls r))

/-- `process_file_request`, 174-232. -/
def fileHandler (stat : List Byte → Option Nat) (content : List Byte → List Byte) (room : Nat) (st : Rd)
    (method path : List Byte) : Res Outcome :=
  match Endpoint.processFile stat content method path with
  | none => .ub
  | some r => .ok (answer st.s room false (answerCalls r))

/-- Lines 147-152. -/
def dispatch (cfg : Config) (stat : List Byte → Option Nat) (content : List Byte → List Byte)
    (room : Nat) (rest : Handler) (st : Rd) (method resource path : List Byte) : Res Outcome :=
  match Endpoint.isFileRequest cfg method resource with
  | none => .ub
  | some true => fileHandler stat content room st method path
  | some false => rest st method resource

/-- A request line that was read: the reader after it, the method, the resource, the path. -/
structure Line where
  st : Rd
  method : List Byte
  resource : List Byte
  path : List Byte

/-- `process_request`, 110-132, on a connection that delivers `bytes` and then ends; `none` is an exception.
`mm`, `mp`, `mc` are the arrays `method`, `path`, `protocol` (`src/i/endpoint.i.h`: 32+1, 2048+1, 16+1 bytes)
with whatever they contain.  (`root_dir_len` is `strlen(root_dir)`.) -/
def requestLine (cfg : Config) (fuel : Nat) (mm mp mc : List Byte) (bytes : List Byte) : Res (Option Line) :=
  (getMethod fuel ⟨{ rest := bytes }, .method, 0⟩ mm 33).bind fun a =>
  if a.thrown then .ok none else
  if mp.length < cfg.rootDir.length + 1 then .ub else
  (getResource fuel a.st (0 :: mp.drop (cfg.rootDir.length + 1)) (sub64 2049 cfg.rootDir.length)).bind fun b =>
  if b.thrown then .ok none else
  (getRequestProtocol fuel b.st mc 17).bind fun c =>
  if c.thrown then .ok none else
  .ok (some ⟨c.st, cstr a.mem, cstr b.mem, cstr (cfg.rootDir ++ b.mem)⟩)

/-- `process_request`, 104-170; `down` is `_is_shutdown_requested` at line 138. -/
def processRequest (cfg : Config) (stat : List Byte → Option Nat) (content : List Byte → List Byte)
    (room : Nat) (rest : Handler) (fuel : Nat) (mm mp mc : List Byte) (down : Bool) (bytes : List Byte) : Res Outcome :=
  (requestLine cfg fuel mm mp mc bytes).bind fun
    | none => .ok .terminated
    | some l => if down then .ok (.sent [] false) else dispatch cfg stat content room rest l.st l.method l.resource l.path

/-! ## Decimal numbers -/

/-- The number a decimal text stands for. -/
def ofDec (s : List Byte) : Nat := s.foldl (fun n c => n * 10 + (c.toNat - 48)) 0

theorem decLoop_fuel (f g n : Nat) (hf : n < f) (hg : n < g) : decLoop f n = decLoop g n := by
  induction f generalizing g n with
  | zero => omega
  | succ f ih =>
    cases g with
    | zero => omega
    | succ g =>
      rw [decLoop, decLoop]
      split
      · rfl
      · rw [ih g (n / 10) (by omega) (by omega)]

theorem dec_eq (n : Nat) :
    dec n = if n < 10 then [UInt8.ofNat (48 + n)] else dec (n / 10) ++ [UInt8.ofNat (48 + n % 10)] := by
  rw [dec, decLoop]
  split
  · rfl
  · rw [decLoop_fuel n (n / 10 + 1) (n / 10) (by omega) (by omega), dec]

theorem dec_spec (n : Nat) : dec n ≠ [] ∧ (∀ c ∈ dec n, digit c = true) ∧ ofDec (dec n) = n ∧ (dec n).length ≤ n + 1 := by
  have hd : ∀ k, k < 10 → digit (UInt8.ofNat (48 + k)) = true ∧ (UInt8.ofNat (48 + k)).toNat - 48 = k := by decide
  induction n using Nat.strongRecOn with
  | _ n ih =>
    rw [dec_eq]
    split
    · rename_i h
      refine ⟨by simp, ?_, ?_, by simp⟩
      · intro c hc; simp only [List.mem_singleton] at hc; rw [hc]; exact (hd n h).1
      · simp only [ofDec, List.foldl_cons, List.foldl_nil, (hd n h).2]; omega
    · rename_i h
      obtain ⟨h1, h2, h3, h4⟩ := ih (n / 10) (by omega)
      refine ⟨by simp, ?_, ?_, ?_⟩
      · intro c hc
        simp only [List.mem_append, List.mem_singleton] at hc
        rcases hc with hc | hc
        · exact h2 c hc
        · rw [hc]; exact (hd _ (Nat.mod_lt _ (by omega))).1
      · simp only [ofDec, List.foldl_append, List.foldl_cons, List.foldl_nil, (hd _ (Nat.mod_lt n (by omega : 10 > 0))).2] at h3 ⊢
        rw [h3]; omega
      · simp only [List.length_append, List.length_cons, List.length_nil]; omega

/-! ## The writer -/

theorem run_cons {st : Wr} {c : WCall} {cs : List WCall} (h : st.next = c.item) :
    run st (c :: cs) = run (wcall st c).st cs := by
  rw [run]
  have := (wcall_order st c).1
  by_cases ht : (wcall st c).thrown = true
  · exact absurd h (this.1 ht)
  · rw [if_neg ht]

theorem wcall_next {st : Wr} {c : WCall} (h : st.next = c.item) : (wcall st c).st.next = c.after := by
  have := (wcall_order st c).1
  refine (wcall_after st c ?_).1
  by_cases ht : (wcall st c).thrown = true
  · exact absurd h (this.1 ht)
  · simpa using ht

/-- The calls that send a response. -/
def responseCalls (q : Http.Response) (parts : List (List Byte)) : List WCall :=
  [.responseProtocol (str "HTTP/1.1"), .statusCode q.status, .reasonPhrase (some q.reason)] ++
  q.headers.flatMap (fun h => [.headerName h.1, .headerValue h.2]) ++ [.endHeaders] ++ parts.map .body

theorem run_headers (hs : List Header) (st : Wr) (hn : st.next = .headerName) (cs : List WCall) :
    run st (hs.flatMap (fun h => [.headerName h.1, .headerValue h.2]) ++ cs) = run (sendHeaders hs st) cs ∧
      (sendHeaders hs st).next = .headerName := by
  induction hs generalizing st with
  | nil => exact ⟨rfl, hn⟩
  | cons h hs ih =>
    have h1 := wcall_next (c := .headerName h.1) hn
    have h2 := wcall_next (st := (wcall st (.headerName h.1)).st) (c := .headerValue h.2) h1
    obtain ⟨i1, i2⟩ := ih _ h2
    simp only [List.flatMap_cons, List.cons_append, List.nil_append]
    rw [run_cons (by exact hn), run_cons (by exact h1)]
    exact ⟨i1, i2⟩

theorem run_bodies (parts : List (List Byte)) (o : Out) (hg : o.good = true) (hr : parts.flatten.length ≤ o.room) :
    run ⟨o, .body⟩ (parts.map .body) = some ⟨adv o parts.flatten, .body⟩ := by
  induction parts generalizing o with
  | nil => simp [run, adv_nil]
  | cons p ps ih =>
    simp only [List.flatten_cons, List.length_append] at hr
    rw [List.map_cons, run_cons rfl]
    have : (wcall ⟨o, .body⟩ (.body p)).st = ⟨adv o p, .body⟩ := by
      simp only [wcall, putBody, ne_eq, not_true_eq_false, if_false]
      rw [putBytes_adv p hg (by omega)]
    rw [this, ih _ (by simpa using hg) (by rw [adv_room]; omega), adv_adv, List.flatten_cons]

/-- The calls are in order: no exception, whatever the stream does. -/
theorem run_returns (q : Http.Response) (parts : List (List Byte)) (o : Out) :
    ∃ w, run ⟨o, .protocol⟩ (responseCalls q parts) = some w := by
  unfold responseCalls
  simp only [List.cons_append, List.nil_append, List.append_assoc]
  have n1 := wcall_next (st := ⟨o, .protocol⟩) (c := .responseProtocol (str "HTTP/1.1")) rfl
  have n2 := wcall_next (c := .statusCode q.status) n1
  have n3 := wcall_next (c := .reasonPhrase (some q.reason)) n2
  rw [run_cons rfl, run_cons (by exact n1), run_cons (by exact n2)]
  obtain ⟨r1, r2⟩ := run_headers q.headers _ n3 (.endHeaders :: parts.map .body)
  rw [r1, run_cons (by exact r2)]
  have n4 := wcall_next (c := .endHeaders) r2
  generalize (wcall _ WCall.endHeaders).st = st at n4 ⊢
  clear r1 r2
  induction parts generalizing st with
  | nil => exact ⟨_, rfl⟩
  | cons p ps ih =>
    rw [List.map_cons, run_cons (by exact n4)]
    exact ih _ (wcall_next (c := .body p) n4)

/-- Sending a well-formed response over a good stream with enough room sends exactly its text. -/
theorem run_response (q : Http.Response) (hq : q.Ok) (h11 : q.maj = [49] ∧ q.min = [49]) (parts : List (List Byte))
    (hp : parts.flatten = q.body) (o : Out) (hg : o.good = true) (hr : q.text.length ≤ o.room) :
    run ⟨o, .protocol⟩ (responseCalls q parts) = some ⟨adv o q.text, .body⟩ := by
  set q0 : Http.Response := { q with body := [] } with hq0
  have ht : q.text = q0.text ++ q.body := by simp [Http.Response.text, hq0]
  have hq0' : q0.Ok := ⟨hq.maj_ne, hq.maj, hq.min_ne, hq.min, hq.status_ne, hq.status, hq.reason, hq.reason_head, hq.headers⟩
  rw [ht, List.length_append] at hr
  have hs := sendResponse_text q0 hq0' (str "HTTP/") (by unfold HttpSlash; decide) o hg (by omega)
  unfold responseCalls
  simp only [List.cons_append, List.nil_append, List.append_assoc]
  have n1 := wcall_next (st := ⟨o, .protocol⟩) (c := .responseProtocol (str "HTTP/1.1")) rfl
  have n2 := wcall_next (c := .statusCode q.status) n1
  have n3 := wcall_next (c := .reasonPhrase (some q.reason)) n2
  rw [run_cons rfl, run_cons (by exact n1), run_cons (by exact n2)]
  obtain ⟨r1, r2⟩ := run_headers q.headers _ n3 (.endHeaders :: parts.map .body)
  rw [r1, run_cons (by exact r2)]
  have e : (wcall (sendHeaders q.headers (wcall (wcall (wcall ⟨o, .protocol⟩ (.responseProtocol (str "HTTP/1.1"))).st
      (.statusCode q.status)).st (.reasonPhrase (some q.reason))).st) .endHeaders).st = ⟨adv o q0.text, .body⟩ := by
    have n4 := wcall_next (c := .endHeaders) r2
    have e1 : str "HTTP/" ++ q0.maj ++ 46 :: q0.min = str "HTTP/1.1" := by
      rw [show q0.maj = [49] from h11.1, show q0.min = [49] from h11.2]; decide
    unfold sendResponse at hs
    simp only [e1] at hs
    generalize hw : (wcall (sendHeaders q.headers _) .endHeaders).st = w at n4 ⊢
    have hs' : (putBody w []).st = ⟨adv o q0.text, .body⟩ := by rw [← hw]; exact hs
    obtain ⟨wo, wn⟩ := w
    simp only [WCall.after] at n4
    subst n4
    simpa [putBody, putBytes] using hs'
  rw [e, run_bodies parts _ (by simpa using hg) (by rw [hp]; simp; omega), adv_adv, hp, ht]

/-! ## The answers -/

/-- An HTTP/1.1 response with the headers `Connection: close`, `Content-Type` (if any), `Content-Length`. -/
def mkResponse (status reason : List Byte) (ctype : Option (List Byte)) (body : List Byte) : Http.Response :=
  { maj := [49], min := [49], status := status, reason := reason
    headers := [(str "Connection", str "close")] ++ (ctype.map (fun t => (str "Content-Type", t))).toList ++
      [(str "Content-Length", dec body.length)]
    body := body }

theorem simpleCalls_eq (status reason ctype body : List Byte) :
    simpleCalls status reason ctype body = responseCalls (mkResponse status reason (some ctype) body) [body] := rfl

theorem fileCalls_eq (ctype : Option String) (body : List Byte) :
    fileCalls ctype body.length body =
      responseCalls (mkResponse (str "200") (str "OK") (ctype.map str) body) (chunks (Endpoint.chunkCount body.length) body) := by
  cases ctype <;> rfl

theorem chunks_flatten (n : Nat) (l : List Byte) : (chunks n l).flatten = l.take (n * Endpoint.chunkSize) := by
  induction n generalizing l with
  | zero => simp [chunks]
  | succ n ih =>
    rw [chunks, List.flatten_cons, ih, Nat.succ_mul, Nat.add_comm, List.take_add]

/-- Decimal texts of numbers below `10 ^ k` have at most `k` digits. -/
theorem dec_length (k n : Nat) (hk : 0 < k) (h : n < 10 ^ k) : (dec n).length ≤ k := by
  induction k generalizing n with
  | zero => omega
  | succ k ih =>
    rw [dec_eq]
    split
    · simp
    · have : n / 10 < 10 ^ k := by rw [Nat.pow_succ] at h; omega
      have hk' : 0 < k := by
        rcases Nat.eq_zero_or_pos k with h0 | h0
        · subst h0; omega
        · exact h0
      have := ih (n / 10) hk' this
      simp only [List.length_append, List.length_cons, List.length_nil]; omega

/-- The texts used as status, reason and type are fit for HTTP. -/
structure Fine (status reason : List Byte) (ctype : Option (List Byte)) : Prop where
  sNe : status ≠ []
  sDigits : ∀ c ∈ status, digit c = true
  rChars : ∀ c ∈ reason, printable c = true ∨ blank c = true
  rHead : ∀ c ∈ reason.head?, blank c = false
  tChars : ∀ t ∈ ctype, (∀ c ∈ t, printable c = true ∨ blank c = true) ∧ norm false false t = t
  short : status.length + reason.length + (ctype.map List.length).getD 0 ≤ 128

theorem mkResponse_ok {status reason : List Byte} {ctype : Option (List Byte)} (h : Fine status reason ctype)
    (body : List Byte) : (mkResponse status reason ctype body).Ok := by
  obtain ⟨_, d2, _, _⟩ := dec_spec body.length
  refine ⟨by simp [mkResponse], by simp [mkResponse]; decide, by simp [mkResponse], by simp [mkResponse]; decide, h.sNe, h.sDigits, h.rChars, h.rHead, ?_⟩
  intro x hx
  simp only [mkResponse, List.mem_append, List.mem_singleton, Option.mem_toList, Option.map_eq_some_iff] at hx
  rcases hx with (rfl | ⟨t, ht, rfl⟩) | rfl
  · unfold HeaderOk; decide
  · exact ⟨(by decide : str "Content-Type" ≠ []), (by decide : ∀ c ∈ str "Content-Type", tokenChar c = true), (h.tChars t ht).1⟩
  · exact ⟨(by decide : str "Content-Length" ≠ []), (by decide : ∀ c ∈ str "Content-Length", tokenChar c = true), fun c hc => Or.inl (printable_of_digit c (d2 c hc))⟩

theorem norm_digits (v : List Byte) (h : ∀ c ∈ v, digit c = true) (st : Bool) : norm st false v = v := by
  induction v generalizing st with
  | nil => rfl
  | cons c v ih =>
    have hb := blank_of_printable (printable_of_digit c (h c (by simp)))
    simp only [norm, hb, Bool.and_false, Bool.false_eq_true, if_false, List.nil_append]
    rw [ih (fun d hd => h d (by simp [hd]))]

theorem mkResponse_norm {status reason : List Byte} {ctype : Option (List Byte)} (h : Fine status reason ctype)
    (body : List Byte) : (mkResponse status reason ctype body).headers.map (fun h => (h.1, norm false false h.2)) =
      (mkResponse status reason ctype body).headers := by
  obtain ⟨_, d2, _, _⟩ := dec_spec body.length
  have e1 : norm false false (str "close") = str "close" := by decide
  have e2 := norm_digits _ d2 false
  cases ctype with
  | none => simp [mkResponse, e1, e2]
  | some t => simp [mkResponse, e1, e2, (h.tChars t rfl).2]

theorem mkResponse_length {status reason : List Byte} {ctype : Option (List Byte)} (h : Fine status reason ctype)
    (body : List Byte) (hb : body.length < 2 ^ 64) : (mkResponse status reason ctype body).text.length ≤ body.length + 512 := by
  obtain ⟨_, d2, _, _⟩ := dec_spec body.length
  have hs := h.short
  have hd := dec_length 20 body.length (by omega) (by omega)
  have hn : norm false false (str "close") = str "close" := by decide
  have headersText_nil : headersText [] = [] := rfl
  have l1 : (str "Connection").length = 10 := by decide
  have l2 : (str "Content-Type").length = 12 := by decide
  have l3 : (str "Content-Length").length = 14 := by decide
  have l4 : (str "close").length = 5 := by decide
  rw [Http.Response.text_length]
  cases ctype with
  | none =>
    simp only [Option.map_none, Option.getD_none] at hs
    simp only [mkResponse, protocolText, headersText_cons, Option.map_none, Option.toList_none, List.append_nil, List.singleton_append,
      headersText_nil, List.length_append, List.length_cons, List.length_nil, crlf, hn, norm_digits _ d2 false, l1, l3, l4]
    omega
  | some t =>
    simp only [Option.map_some, Option.getD_some] at hs
    simp only [mkResponse, protocolText, headersText_cons, Option.map_some, Option.toList_some, List.cons_append, List.nil_append,
      headersText_nil, List.length_append, List.length_cons, List.length_nil, crlf, hn, norm_digits _ d2 false, l1, l2, l3, l4, (h.tChars t rfl).2]
    omega

/-- Sending on whatever reading left: nothing if reading failed, the whole response otherwise. -/
theorem answer_response {status reason : List Byte} {ctype : Option (List Byte)} (h : Fine status reason ctype)
    (body : List Byte) (hb : body.length < 2 ^ 64) (parts : List (List Byte)) (hp : parts.flatten = body) (s : In) (room : Nat)
    (hr : body.length + 512 ≤ room) (sd : Bool) :
    answer s room sd (responseCalls (mkResponse status reason ctype body) parts) =
      .sent (if s.good then (mkResponse status reason ctype body).text else []) sd := by
  have hlen := mkResponse_length h body hb
  unfold answer
  by_cases hg : s.good = true
  · have hg' : (startWriting s room).good = true := by
      simp only [In.good, Bool.and_eq_true, Bool.not_eq_true'] at hg
      simp [startWriting, Out.good, hg]
    rw [run_response _ (mkResponse_ok h body) ⟨rfl, rfl⟩ parts hp _ hg' (by simp only [startWriting]; omega)]
    simp [hg, startWriting]
  · have hg' : (startWriting s room).good = false := by
      simp only [In.good, Bool.and_eq_true, Bool.not_eq_true', not_and_or, Bool.not_eq_false] at hg
      rcases hg with (h | h) | h <;> simp [startWriting, Out.good, h]
    have hrun : ∀ (cs : List WCall) (w : Wr), run ⟨startWriting s room, .protocol⟩ cs = some w →
        w.o.out = [] := by
      have : ∀ (cs : List WCall) (st w : Wr), run st cs = some w → w = (wrun st cs).1 := by
        intro cs
        induction cs with
        | nil => intro st w h; simpa [run, wrun, eq_comm] using h
        | cons c cs ih =>
          intro st w h
          rw [run] at h
          split at h
          · simp at h
          · rw [ih _ _ h, wrun]
      intro cs w hw
      rw [this _ _ _ hw]
      exact (nothing_after_failure _ hg' cs).1
    obtain ⟨w, hw⟩ := run_returns (mkResponse status reason ctype body) parts (startWriting s room)
    rw [hw]
    simp [hrun _ _ hw, hg]

/-! ## Routing -/

/-- The content type of a path, by the text after its last dot. -/
def TypeOf (path : List Byte) (t : Option String) : Prop :=
  ((46 : Byte) ∉ path ∧ t = none) ∨
    ∃ stem ext, path = stem ++ 46 :: ext ∧ (46 : Byte) ∉ ext ∧ t = Endpoint.typeOfExtension ext

theorem contentType_spec (path : List Byte) (hp : Endpoint.Text path) :
    ∃ t, Endpoint.contentType path = some t ∧ TypeOf path t := by
  by_cases hd : (46 : Byte) ∈ path
  · have : ∃ s e, path = s ++ 46 :: e ∧ (46 : Byte) ∉ e := by
      clear hp
      induction path with
      | nil => simp at hd
      | cons c l ih =>
        by_cases hl : (46 : Byte) ∈ l
        · obtain ⟨s, e, h1, h2⟩ := ih hl
          exact ⟨c :: s, e, by rw [h1]; rfl, h2⟩
        · have : c = 46 := by simpa [hl, eq_comm] using hd
          exact ⟨[], l, by rw [this]; rfl, hl⟩
    obtain ⟨s, e, h1, h2⟩ := this
    refine ⟨_, ?_, Or.inr ⟨s, e, h1, h2, rfl⟩⟩
    rw [h1] at hp ⊢
    refine Endpoint.content_type_correct s e h2 ⟨?_, ?_⟩
    · intro h; exact hp.1 (List.mem_append_right _ h)
    · have := hp.2; simp only [List.length_append] at this; omega
  · exact ⟨none, Endpoint.content_type_no_dot _ hd, Or.inl ⟨hd, rfl⟩⟩

/-- What the endpoint is expected to answer: response and shutdown request. -/
inductive Expected (cfg : Config) (stat : List Byte → Option Nat) (content : List Byte → List Byte)
    (method resource : List Byte) : Http.Response → Bool → Prop
  | notAllowed (hp : Endpoint.PrefixMatches cfg resource) (hm : method.map lower ≠ str "get") :
      Expected cfg stat content method resource (mkResponse (str "405") (str "Method Not Allowed") (some plain)
        (str "GET is the only supported method for static files.")) false
  | notFound (hm : method.map lower = str "get")
      (hp : Endpoint.PrefixMatches cfg resource ∨ resource.map lower = str "/favicon.ico")
      (hs : stat (cfg.rootDir ++ resource) = none) :
      Expected cfg stat content method resource (mkResponse (str "404") (str "Not Found") (some plain)
        (str "Error: The requested resource was not found.")) false
  | file (hm : method.map lower = str "get")
      (hp : Endpoint.PrefixMatches cfg resource ∨ resource.map lower = str "/favicon.ico")
      (n : Nat) (hs : stat (cfg.rootDir ++ resource) = some n) (t : Option String) (ht : TypeOf (cfg.rootDir ++ resource) t) :
      Expected cfg stat content method resource (mkResponse (str "200") (str "OK") (t.map str)
        (content (cfg.rootDir ++ resource))) false
  | rest (hp : ¬ Endpoint.PrefixMatches cfg resource)
      (hf : ¬ (method.map lower = str "get" ∧ resource.map lower = str "/favicon.ico")) :
      Expected cfg stat content method resource (mkResponse (str "200") (str "200") (some plain)
        (str "TODO: Override process_rest_request().")) (decide (method.map lower = str "post" ∧ resource.map lower = str "/shutdown"))

theorem fine_plain (status reason : List Byte) (h : status ≠ [] ∧ (∀ c ∈ status, digit c = true) ∧
    (∀ c ∈ reason, printable c = true ∨ blank c = true) ∧ (∀ c ∈ reason.head?, blank c = false) ∧
    status.length + reason.length ≤ 100) : Fine status reason (some plain) := by
  refine ⟨h.1, h.2.1, h.2.2.1, h.2.2.2.1, ?_, ?_⟩
  · intro t ht
    simp only [Option.mem_def, Option.some.injEq] at ht
    rw [← ht]; decide
  · have : plain.length = 25 := by decide
    simp only [Option.map_some, Option.getD_some, this]; omega

theorem fine_type (path : List Byte) (t : Option String) (h : TypeOf path t) : Fine (str "200") (str "OK") (t.map str) := by
  have key : ∀ t : Option String, t = none ∨ t ∈ ["text/html; charset=utf-8", "text/css; charset=utf-8", "text/javascript; charset=utf-8",
      "text/plain; charset=utf-8", "text/xml; charset=utf-8", "image/png", "image/jpeg", "image/gif", "image/bmp",
      "image/svg+xml"].map some → Fine (str "200") (str "OK") (t.map str) := by
    intro t ht
    refine ⟨by decide, by decide, by decide, by decide, ?_, ?_⟩
    · rcases ht with rfl | ht
      · simp
      · simp only [List.map_cons, List.map_nil, List.mem_cons, List.not_mem_nil, or_false] at ht
        intro u hu
        rcases ht with rfl | rfl | rfl | rfl | rfl | rfl | rfl | rfl | rfl | rfl <;>
          simp only [Option.map_some, Option.mem_def, Option.some.injEq] at hu <;> rw [← hu] <;> decide
    · rcases ht with rfl | ht
      · decide
      · simp only [List.map_cons, List.map_nil, List.mem_cons, List.not_mem_nil, or_false] at ht
        rcases ht with rfl | rfl | rfl | rfl | rfl | rfl | rfl | rfl | rfl | rfl <;> decide
  apply key
  rcases h with ⟨_, h⟩ | ⟨_, ext, _, _, h⟩
  · exact Or.inl h
  · rw [h]
    unfold Endpoint.typeOfExtension
    simp only
    split
    · simp
    split
    · simp
    split
    · simp
    split
    · simp
    split
    · simp
    split
    · simp
    split
    · simp
    split
    · simp
    split
    · simp
    split
    · simp
    · simp

/-- The files are as `stat` says, and the peer accepts any answer. -/
structure Env (stat : List Byte → Option Nat) (content : List Byte → List Byte) (room : Nat) : Prop where
  size : ∀ p n, stat p = some n → (content p).length = n ∧ n < 2 ^ 64
  atLeast : 1024 ≤ room
  fits : ∀ p n, stat p = some n → n + 1024 ≤ room

/-- Routing and sending: the expected response is sent if reading went well, nothing otherwise. -/
theorem handled (cfg : Config) (stat : List Byte → Option Nat) (content : List Byte → List Byte) (room : Nat)
    (he : Env stat content room) (method resource : List Byte) (hm : Endpoint.Text method) (hr : Endpoint.Text resource)
    (hpath : Endpoint.Text (cfg.rootDir ++ resource)) (hp : ∀ p, cfg.filesPrefix = some p → (0 : Byte) ∉ p) (st : Rd) :
    ∃ q sd, Expected cfg stat content method resource q sd ∧ q.Ok ∧
      q.headers.map (fun h => (h.1, norm false false h.2)) = q.headers ∧
      dispatch cfg stat content room (baseHandler room) st method resource (cfg.rootDir ++ resource) =
        .ok (.sent (if st.s.good then q.text else []) sd) := by
  obtain ⟨b, hb, hbi⟩ := Endpoint.is_file_request_correct cfg method resource hm hr hp
  have hroom := he.atLeast
  have simple : ∀ (status reason body : List Byte) (sd : Bool), Fine status reason (some plain) → body.length ≤ 100 →
      answer st.s room sd (simpleCalls status reason plain body) =
        .sent (if st.s.good then (mkResponse status reason (some plain) body).text else []) sd := by
    intro status reason body sd hf hl
    rw [simpleCalls_eq]
    exact answer_response hf body (by omega) [body] (by simp) st.s room (by omega) sd
  have f405 := fine_plain (str "405") (str "Method Not Allowed") (by decide)
  have f404 := fine_plain (str "404") (str "Not Found") (by decide)
  have f200 := fine_plain (str "200") (str "200") (by decide)
  have e1 : areEqualI (mem method) (mem (str "GET")) = some (decide (method.map lower = str "get")) := by
    rw [Endpoint.equal_i hm.1 (by decide) hm.2 (by decide)]
    have : (str "GET").map lower = str "get" := by decide
    rw [this]
  have e2 : areEqualI (mem method) (mem (str "POST")) = some (decide (method.map lower = str "post")) := by
    rw [Endpoint.equal_i hm.1 (by decide) hm.2 (by decide)]
    have : (str "POST").map lower = str "post" := by decide
    rw [this]
  have e3 : areEqualI (mem resource) (mem (str "/shutdown")) = some (decide (resource.map lower = str "/shutdown")) := by
    rw [Endpoint.equal_i hr.1 (by decide) hr.2 (by decide)]
    have : (str "/shutdown").map lower = str "/shutdown" := by decide
    rw [this]
  unfold dispatch
  rw [hb]
  cases b with
  | false =>
    simp only [Bool.false_eq_true, false_iff, not_or] at hbi
    refine ⟨_, _, .rest hbi.1 hbi.2, mkResponse_ok f200 _, mkResponse_norm f200 _, ?_⟩
    simp only [baseHandler, Endpoint.processRest, e2]
    by_cases h1 : method.map lower = str "post"
    · simp only [h1, decide_true, e3, Option.map_some, true_and]
      rw [answerCalls, simple _ _ _ _ f200 (by decide)]
    · simp only [h1, decide_false, false_and]
      rw [answerCalls, simple _ _ _ _ f200 (by decide)]
  | true =>
    simp only [true_iff] at hbi
    simp only [fileHandler, Endpoint.processFile, e1]
    by_cases h1 : method.map lower = str "get"
    · have hpm : Endpoint.PrefixMatches cfg resource ∨ resource.map lower = str "/favicon.ico" := hbi.imp id (·.2)
      simp only [h1, decide_true]
      cases hs : stat (cfg.rootDir ++ resource) with
      | none =>
        refine ⟨_, _, .notFound h1 hpm hs, mkResponse_ok f404 _, mkResponse_norm f404 _, ?_⟩
        dsimp only
        rw [answerCalls, simple _ _ _ _ f404 (by decide)]
      | some n =>
        obtain ⟨t, ht, hty⟩ := contentType_spec _ hpath
        have hf := fine_type _ t hty
        obtain ⟨hn, hn2⟩ := he.size _ _ hs
        have hfit := he.fits _ _ hs
        refine ⟨_, _, .file h1 hpm n hs t hty, mkResponse_ok hf _, mkResponse_norm hf _, ?_⟩
        simp only [ht]
        have hsend : Endpoint.sendChunks (Endpoint.chunkCount n) (content (cfg.rootDir ++ resource)) = content (cfg.rootDir ++ resource) := by
          have : ∀ n l, Endpoint.sendChunks n l = l.take (n * Endpoint.chunkSize) := by
            intro n
            induction n with
            | zero => intro l; simp [Endpoint.sendChunks]
            | succ n ih => intro l; rw [Endpoint.sendChunks, ih, Nat.succ_mul, Nat.add_comm, List.take_add]
          rw [this, List.take_of_length_le]
          rw [hn]; unfold Endpoint.chunkCount Endpoint.chunkSize; omega
        rw [hsend, answerCalls]
        conv_lhs => rw [← hn]
        rw [fileCalls_eq, answer_response hf _ (by omega) _ ?_ st.s room (by omega)]
        rw [chunks_flatten, List.take_of_length_le]
        unfold Endpoint.chunkCount Endpoint.chunkSize; omega
    · simp only [h1, decide_false]
      have hpm : Endpoint.PrefixMatches cfg resource := by
        rcases hbi with h | h
        · exact h
        · exact absurd h.1 h1
      refine ⟨_, _, .notAllowed hpm h1, mkResponse_ok f405 _, mkResponse_norm f405 _, ?_⟩
      rw [answerCalls, simple _ _ _ _ f405 (by decide)]

/-! ## Reading the request line -/

theorem cstr_text (mem : List Byte) (n size : Nat) (hn : n < size) (h : mem[n]? = some 0) :
    (0 : Byte) ∉ cstr mem ∧ (cstr mem).length < size := by
  refine ⟨?_, ?_⟩
  · intro h0
    have := List.all_eq_true.1 (List.all_takeWhile (l := mem) (p := fun c => decide (c ≠ 0))) 0 h0
    simp at this
  · obtain ⟨hl, h⟩ := List.getElem?_eq_some_iff.1 h
    have e : mem = mem.take n ++ 0 :: mem.drop (n + 1) := by
      conv_lhs => rw [← List.take_append_drop n mem, List.drop_eq_getElem_cons hl, h]
    have : (cstr mem).length ≤ n := by
      rw [cstr, e, List.takeWhile_append]
      split
      · simp; omega
      · rename_i hne
        have := (List.takeWhile_sublist (fun x : Byte => decide (x ≠ 0)) (l := mem.take n)).length_le
        have h2 : (mem.take n).length ≤ n := by simp; omega
        omega
    omega

theorem cstr_root (root m : List Byte) (h : (0 : Byte) ∉ root) : cstr (root ++ m) = root ++ cstr m := by
  rw [cstr, List.takeWhile_append_of_pos]
  · rfl
  · intro c hc
    simp only [ne_eq, decide_eq_true_eq]
    rintro rfl; exact h hc

/-- Whatever the peer sends, reading the request line returns, stays inside its buffers, throws nothing,
and yields C strings. -/
theorem read_line (cfg : Config) (hroot : (0 : Byte) ∉ cfg.rootDir) (hlen : cfg.rootDir.length ≤ 2047)
    (bytes mm mp mc : List Byte) (hmm : mm.length = 33) (hmp : mp.length = 2049) (hmc : mc.length = 17)
    (fuel : Nat) (hf : bytes.length + 2 < fuel) :
    ∃ (st : Rd) (m r : List Byte), ((0 : Byte) ∉ m ∧ m.length ≤ 32) ∧
      ((0 : Byte) ∉ r ∧ cfg.rootDir.length + r.length ≤ 2048) ∧ st.next = .headerName ∧ st.s.meas ≤ bytes.length + 1 ∧
      requestLine cfg fuel mm mp mc bytes = .ok (some ⟨st, m, r, cfg.rootDir ++ r⟩) := by
  have hmeas0 : ({ rest := bytes } : In).meas ≤ bytes.length + 1 := by unfold In.meas; dsimp only; split <;> omega
  obtain ⟨a, a1, a2, a3⟩ := reader_safe_partial .method ⟨{ rest := bytes }, .method, 0⟩ mm 33 (by decide) (by decide)
    (by omega) fuel (by dsimp only; omega)
  obtain ⟨at1, at2, _⟩ := rcall_in_order .method _ mm 33 fuel a rfl a1
  obtain ⟨ag, az⟩ := a2.nul at1 (by simp)
  replace a3 : a.st.s.meas ≤ bytes.length + 1 := Nat.le_trans a3 hmeas0
  have a4 : a.st.s.rest.length ≤ a.st.s.meas := by unfold In.meas; omega
  have hsub : sub64 2049 cfg.rootDir.length = 2049 - cfg.rootDir.length := by
    unfold sub64; rw [show 2049 + (2 ^ 64 - cfg.rootDir.length) = 2 ^ 64 + (2049 - cfg.rootDir.length) by omega]
    rw [Nat.add_mod_left, Nat.mod_eq_of_lt (by omega)]
  have hblk : (0 :: mp.drop (cfg.rootDir.length + 1)).length = 2049 - cfg.rootDir.length := by simp; omega
  obtain ⟨b, b1, b2, b3⟩ := reader_safe_partial .resource a.st (0 :: mp.drop (cfg.rootDir.length + 1))
    (2049 - cfg.rootDir.length) (by simp only [RKind.minSize]; omega) (by omega) (by omega) fuel (by omega)
  have an : a.st.next = .resource := at2
  obtain ⟨bt1, bt2, _⟩ := rcall_in_order .resource _ _ _ fuel b an b1
  obtain ⟨bg, bz⟩ := b2.nul bt1 (by simp)
  have b4 : b.st.s.rest.length ≤ b.st.s.meas := by unfold In.meas; omega
  obtain ⟨c, c1, c2, c3⟩ := reader_safe_partial .requestProtocol b.st mc 17 (by decide) (by decide) (by omega) fuel (by omega)
  have bn : b.st.next = .protocol := bt2
  obtain ⟨ct1, ct2, _⟩ := rcall_in_order .requestProtocol _ _ _ fuel c bn c1
  obtain ⟨m1, m2⟩ := cstr_text a.mem _ _ ag az
  obtain ⟨r1, r2⟩ := cstr_text b.mem _ _ bg bz
  refine ⟨c.st, cstr a.mem, cstr b.mem, ⟨m1, by omega⟩, ⟨r1, by omega⟩, ct2, by omega, ?_⟩
  simp only [rcall] at a1 b1 c1
  unfold requestLine
  rw [a1, Res.ok_bind, at1]
  simp only [Bool.false_eq_true, if_false]
  rw [if_neg (by omega), hsub, b1, Res.ok_bind, bt1]
  simp only [Bool.false_eq_true, if_false]
  rw [c1, Res.ok_bind, ct1, cstr_root _ _ hroot]
  simp only [Bool.false_eq_true, if_false]

/-- A request line according to RFC 2616. -/
def _root_.Abc.Http.Request.line (q : Request) : List Byte := q.method ++ 32 :: (q.resource ++ 32 :: (protocolText q.maj q.min ++ crlf))

/-- What it may consist of. -/
structure _root_.Abc.Http.Request.LineOk (q : Request) : Prop where
  method : ∀ c ∈ q.method, tokenChar c = true
  resource_ne : q.resource ≠ []
  resource : ∀ c ∈ q.resource, printable c = true
  maj_ne : q.maj ≠ []
  maj : ∀ c ∈ q.maj, digit c = true
  min_ne : q.min ≠ []
  min : ∀ c ∈ q.min, digit c = true

theorem _root_.Abc.Http.Request.Ok.line {q : Request} (h : q.Ok) : q.LineOk := ⟨h.1, h.2, h.3, h.4, h.5, h.6, h.7⟩

/-- A request line that fits, followed by any bytes, is read. -/
theorem read_line_rest (cfg : Config) (hroot : (0 : Byte) ∉ cfg.rootDir) (q : Request) (hq : q.LineOk)
    (hm : q.method.length ≤ 32) (hr : cfg.rootDir.length + q.resource.length ≤ 2047)
    (hv : (protocolText q.maj q.min).length ≤ 16) (rest : List Byte)
    (mm mp mc : List Byte) (hmm : mm.length = 33) (hmp : mp.length = 2049) (hmc : mc.length = 17)
    (fuel : Nat) (hf : q.line.length + 4 ≤ fuel) :
    requestLine cfg fuel mm mp mc (q.line ++ rest) =
      .ok (some ⟨⟨In.ofList rest, .headerName, (protocolText q.maj q.min).length⟩,
        q.method, q.resource, cfg.rootDir ++ q.resource⟩) := by
  have hlen : q.line.length = q.method.length + q.resource.length + (protocolText q.maj q.min).length + 4 := by
    simp [Request.line, crlf]; omega
  rw [hlen] at hf
  obtain ⟨c, x, hcx, hcp⟩ : ∃ c x, q.resource = c :: x ∧ printable c = true := by
    cases hres : q.resource with
    | nil => exact absurd hres hq.resource_ne
    | cons c x => exact ⟨c, x, rfl, hq.resource c (by rw [hres]; simp)⟩
  have e0 : ({ rest := q.line ++ rest } : In) =
      In.ofList (q.method ++ 32 :: c :: (x ++ 32 :: 72 :: ((protocolText q.maj q.min).tail ++ (crlf ++
        rest)))) := by
    simp [In.ofList, Request.line, hcx, protocolText]
  unfold requestLine
  rw [e0]
  obtain ⟨ma, a1, a2⟩ := getMethod_ok (fuel := fuel) q.method hq.method c (x ++ 32 :: 72 :: ((protocolText q.maj q.min).tail ++ (crlf ++
        rest)))
    (ascii_of_printable hcp) (blank_of_printable hcp) mm (by omega) (by omega) 0 (by omega)
  rw [hmm] at a1
  rw [a1, Res.ok_bind]
  simp only [Bool.false_eq_true, if_false]
  rw [if_neg (by omega)]
  have hsub : sub64 2049 cfg.rootDir.length = (0 :: mp.drop (cfg.rootDir.length + 1)).length := by
    simp only [List.length_cons, List.length_drop, hmp]
    unfold sub64; rw [show 2049 + (2 ^ 64 - cfg.rootDir.length) = 2 ^ 64 + (2049 - cfg.rootDir.length) by omega]
    rw [Nat.add_mod_left, Nat.mod_eq_of_lt (by omega)]; omega
  have hblk : (0 :: mp.drop (cfg.rootDir.length + 1)).length = 2049 - cfg.rootDir.length := by simp; omega
  obtain ⟨mb, b1, b2, _⟩ := getResource_ok (fuel := fuel) q.resource hq.resource 72 ((protocolText q.maj q.min).tail ++ (crlf ++
        rest))
    (by decide) (by decide) (0 :: mp.drop (cfg.rootDir.length + 1)) (by omega) (by omega) q.method.length (by omega)
  rw [hcx, List.cons_append] at b1
  rw [hsub, b1, Res.ok_bind]
  simp only [Bool.false_eq_true, if_false]
  obtain ⟨mc', c1, c2⟩ := getRequestProtocol_ok (fuel := fuel) q.maj q.min hq.maj hq.min
    rest mc (by omega) (by omega) (c :: x).length (by omega)
  rw [hmc] at c1
  rw [show 72 :: ((protocolText q.maj q.min).tail ++ (crlf ++ rest)) =
    protocolText q.maj q.min ++ (crlf ++ rest) by simp [protocolText],
    c1, Res.ok_bind]
  simp only [Bool.false_eq_true, if_false]
  rw [cstr_root _ _ hroot, a2.2, b2.2]

/-- A request within the limits is read as it was sent. -/
theorem read_line_ok (cfg : Config) (hroot : (0 : Byte) ∉ cfg.rootDir) (q : Request) (hq : q.Ok)
    (hm : q.method.length ≤ 32) (hr : cfg.rootDir.length + q.resource.length ≤ 2047)
    (hv : (protocolText q.maj q.min).length ≤ 16) (after : List Byte)
    (mm mp mc : List Byte) (hmm : mm.length = 33) (hmp : mp.length = 2049) (hmc : mc.length = 17)
    (fuel : Nat) (hf : q.text.length + 4 ≤ fuel) :
    requestLine cfg fuel mm mp mc (q.text ++ after) =
      .ok (some ⟨⟨In.ofList (headersText q.headers ++ (crlf ++ (q.body ++ after))), .headerName, (protocolText q.maj q.min).length⟩,
        q.method, q.resource, cfg.rootDir ++ q.resource⟩) := by
  have e : q.text ++ after = q.line ++ (headersText q.headers ++ (crlf ++ (q.body ++ after))) := by simp [Request.text, Request.line]
  have hl : q.line.length ≤ q.text.length := by simp [Request.text, Request.line]
  rw [e]
  exact read_line_rest cfg hroot q hq.line hm hr hv _ mm mp mc hmm hmp hmc fuel (by omega)

/-! ## C62: answers are complete -/

/-- A complete HTTP response with one `Content-Length`, which tells the length of the body. -/
def Complete (out : List Byte) : Prop :=
  ∃ q : Http.Response, q.Ok ∧ out = q.text ∧ ∃ len, (str "Content-Length", len) ∈ q.headers ∧
    ofDec len = q.body.length ∧ ∀ v, (str "Content-Length", v) ∈ q.headers → v = len

theorem mkResponse_complete {status reason : List Byte} {ctype : Option (List Byte)} {body : List Byte}
    (h : (mkResponse status reason ctype body).Ok) : Complete (mkResponse status reason ctype body).text := by
  refine ⟨_, h, rfl, dec body.length, by simp [mkResponse], (dec_spec body.length).2.2.1, ?_⟩
  intro v hv
  have n1 : str "Content-Length" ≠ str "Connection" := by decide
  have n2 : str "Content-Type" ≠ str "Content-Length" := by decide
  simp only [mkResponse, List.mem_append, List.mem_singleton, Option.mem_toList, Option.map_eq_some_iff, Prod.mk.injEq] at hv
  rcases hv with (⟨h, _⟩ | ⟨t, _, h, _⟩) | ⟨_, h⟩
  · exact absurd h n1
  · exact absurd h n2
  · exact h

/-- What the configuration must be like: strings without NUL, and a root directory that leaves room for a
resource in the 2049-byte path buffer. -/
structure ConfigOk (cfg : Config) : Prop where
  root : (0 : Byte) ∉ cfg.rootDir
  short : cfg.rootDir.length ≤ 2047
  pfx : ∀ p, cfg.filesPrefix = some p → (0 : Byte) ∉ p

/-- C62 in full: every request, whatever its bytes, is answered with a complete response. -/
def C62Full : Prop :=
  ∀ (cfg : Config) (stat : List Byte → Option Nat) (content : List Byte → List Byte) (room : Nat),
    ConfigOk cfg → 1024 ≤ room → (∀ p n, stat p = some n → n + 1024 ≤ room ∧ n < 2 ^ 64 ∧ (content p).length ≤ n) →
    ∀ (bytes mm mp mc : List Byte) (fuel : Nat), mm.length = 33 → mp.length = 2049 → mc.length = 17 →
    bytes.length + 2 < fuel →
    ∃ out sd, processRequest cfg stat content room (baseHandler room) fuel mm mp mc false bytes = .ok (.sent out sd) ∧
      Complete out

/-- C62.  For every sequence of bytes a peer may send, in every memory state: the endpoint returns without
undefined behaviour and without an exception leaving the thread, and what it has sent is either nothing or
one complete response (`C62_answered_partial` tells when it is the latter). -/
theorem C62_all_or_nothing_partial (cfg : Config) (hc : ConfigOk cfg) (stat : List Byte → Option Nat) (content : List Byte → List Byte)
    (room : Nat) (he : Env stat content room) (down : Bool) (bytes mm mp mc : List Byte) (hmm : mm.length = 33)
    (hmp : mp.length = 2049) (hmc : mc.length = 17) (fuel : Nat) (hf : bytes.length + 2 < fuel) :
    ∃ out sd, processRequest cfg stat content room (baseHandler room) fuel mm mp mc down bytes = .ok (.sent out sd) ∧
      (out = [] ∨ Complete out) := by
  obtain ⟨st, m, r, ⟨hm1, hm2⟩, ⟨hr1, hr2⟩, _, _, hrun⟩ := read_line cfg hc.root hc.short bytes mm mp mc hmm hmp hmc fuel hf
  rw [processRequest, hrun, Res.ok_bind]
  cases down with
  | true => exact ⟨[], false, rfl, Or.inl rfl⟩
  | false =>
    simp only [Bool.false_eq_true, if_false]
    obtain ⟨q, sd, he', hq, _, h⟩ := handled cfg stat content room he m r ⟨hm1, by unfold sizeMax; omega⟩
      ⟨hr1, by unfold sizeMax; omega⟩ ⟨by simp [hc.root, hr1], by simp only [List.length_append]; unfold sizeMax; omega⟩ hc.pfx st
    refine ⟨_, _, h, ?_⟩
    split
    · right
      cases he' <;> exact mkResponse_complete hq
    · left; rfl

/-! ## C63: client and endpoint -/

/-- C62 and C63.  For every well-formed request within the limits (method of at most 32 characters, path of
at most 2047, protocol of at most 16), followed by anything: the bytes the library's client sends make the
endpoint send exactly the expected response, complete and with the right `Content-Length`; the library's
client reads from these bytes the expected status, reason, headers and body; and shutdown is requested exactly
by `POST /shutdown` that is not a file request. -/
theorem C63_end_to_end (cfg : Config) (hc : ConfigOk cfg) (stat : List Byte → Option Nat) (content : List Byte → List Byte)
    (room : Nat) (he : Env stat content room) (q : Request) (hq : q.Ok)
    (hm : q.method.length ≤ 32) (hr : cfg.rootDir.length + q.resource.length ≤ 2047)
    (hv : (protocolText q.maj q.min).length ≤ 16) (pre : List Byte) (hpre : HttpSlash pre) (croom : Nat)
    (hcroom : q.text.length ≤ croom) (after : List Byte) (mm mp mc : List Byte) (hmm : mm.length = 33)
    (hmp : mp.length = 2049) (hmc : mc.length = 17) (fuel : Nat) (hf : q.text.length + 4 ≤ fuel) :
    ∃ (r : Http.Response) (sd : Bool), Expected cfg stat content q.method q.resource r sd ∧ r.Ok ∧ Complete r.text ∧
      processRequest cfg stat content room (baseHandler room) fuel mm mp mc false
        ((sendRequest pre q { out := [], room := croom }).o.out ++ after) = .ok (.sent r.text sd) ∧
      ∀ (m : Bufs) (fuel' : Nat), m.Fit 8 r.status.length r.reason.length r.headers r.body.length →
        r.text.length + 4 ≤ fuel' →
        recvResponse fuel' m r.body.length { rest := r.text } =
          .ok ⟨str "HTTP/1.1", r.status, r.reason, r.headers, r.body, ⟨{ rest := [] }, .body, r.body.length⟩⟩ := by
  rw [sendRequest_text q hq pre hpre _ rfl hcroom]
  have hz : ∀ l : List Byte, (∀ c ∈ l, printable c = true) → (0 : Byte) ∉ l := by
    intro l hl h0; have := hl 0 h0; revert this; decide
  have hm0 := hz q.method (fun c hc => printable_of_token (hq.method c hc))
  have hr0 := hz q.resource hq.resource
  obtain ⟨r, sd, h1, h2, h3, h4⟩ := handled cfg stat content room he q.method q.resource ⟨hm0, by unfold sizeMax; omega⟩
    ⟨hr0, by unfold sizeMax; omega⟩ ⟨by simp [hc.root, hr0], by simp only [List.length_append]; unfold sizeMax; omega⟩ hc.pfx
    ⟨In.ofList (headersText q.headers ++ (crlf ++ (q.body ++ after))), .headerName, (protocolText q.maj q.min).length⟩
  have hcomp : Complete r.text := by cases h1 <;> exact mkResponse_complete h2
  refine ⟨r, sd, h1, h2, hcomp, ?_, ?_⟩
  · simp only [adv_out, List.nil_append]
    rw [processRequest, read_line_ok cfg hc.root q hq hm hr hv after mm mp mc hmm hmp hmc fuel hf, Res.ok_bind]
    simp [h4]
  · intro m fuel' hfit hf'
    have h11 : protocolText r.maj r.min = str "HTTP/1.1" := by
      have : protocolText [49] [49] = str "HTTP/1.1" := by decide
      cases h1 <;> exact this
    have h8 : (str "HTTP/1.1").length = 8 := by decide
    have := (response_round_trip r h2 (str "HTTP/") (by unfold HttpSlash; decide) r.text.length (Nat.le_refl _) [] m
      (by rw [h11, h8]; exact hfit) fuel' hf').2
    rw [sendResponse_text r h2 (str "HTTP/") (by unfold HttpSlash; decide) _ rfl (Nat.le_refl _)] at this
    simp only [adv_out, List.nil_append, List.append_nil] at this
    rw [this, h3, h11]

/-- The site of the examples: `/srv`, files under `/f/`, one file of five bytes. -/
def site : Config := ⟨str "/srv", some (str "/f/")⟩
def siteStat (p : List Byte) : Option Nat := if p = str "/srv/f/a.txt" then some 5 else none
def siteContent (p : List Byte) : List Byte := if p = str "/srv/f/a.txt" then str "hello" else []

example : ConfigOk site ∧ Env siteStat siteContent 2000 := by
  refine ⟨⟨by decide, by decide, ?_⟩, ?_, by omega, ?_⟩
  · intro p hp; simp only [site, Option.some.injEq] at hp; rw [← hp]; decide
  · intro p n h
    unfold siteStat at h
    split at h
    · rename_i hp; simp only [Option.some.injEq] at h; subst h; rw [hp]; decide
    · simp at h
  · intro p n h
    unfold siteStat at h
    split at h
    · simp only [Option.some.injEq] at h; omega
    · simp at h

/-- A GET of the file, end to end, in the model. -/
example : processRequest site siteStat siteContent 2000 (baseHandler 2000) 100 (List.replicate 33 7) (List.replicate 2049 7)
    (List.replicate 17 7) false (str "GET /f/a.txt HTTP/1.1\r\nHost: x\r\n\r\n") =
    .ok (.sent (str "HTTP/1.1 200 OK\r\nConnection: close\r\nContent-Type: text/plain; charset=utf-8\r\nContent-Length: 5\r\n\r\nhello") false) := by
  decide +kernel

/-- A request of C63. -/
example : let q : Request := ⟨str "GET", str "/f/a.txt", str "1", str "1", [(str "Host", str "x")], []⟩
    q.Ok ∧ q.method.length ≤ 32 ∧ site.rootDir.length + q.resource.length ≤ 2047 ∧ (protocolText q.maj q.min).length ≤ 16 := by
  refine ⟨⟨by decide, by decide, by decide, by decide, by decide, by decide, by decide, ?_⟩, by decide, by decide, by decide⟩
  unfold HeaderOk; decide

theorem site_ok : ConfigOk site := ⟨by decide, by decide, by
  intro p hp; simp only [site, Option.some.injEq] at hp; rw [← hp]; decide⟩

/-- C62 fails: a method of 33 letters leaves the shared stream state failed, and nothing is sent (instead of
a 4xx response). -/
theorem C62_violated_silent : ¬ C62Full := by
  intro h
  obtain ⟨out, sd, h1, h2⟩ := h site (fun _ => none) (fun _ => []) 2000 site_ok (by omega) (by simp)
    (List.replicate 33 65 ++ str " / HTTP/1.1\r\n\r\n") (List.replicate 33 7) (List.replicate 2049 7) (List.replicate 17 7)
    100 (by rw [List.length_replicate]) (by rw [List.length_replicate]) (by rw [List.length_replicate]) (by decide)
  have h3 : processRequest site (fun _ => none) (fun _ => []) 2000 (baseHandler 2000) 100 (List.replicate 33 7) (List.replicate 2049 7)
      (List.replicate 17 7) false (List.replicate 33 65 ++ str " / HTTP/1.1\r\n\r\n") = .ok (.sent [] false) := by decide +kernel
  rw [h3] at h1
  simp only [Res.ok.injEq, Outcome.sent.injEq] at h1
  obtain ⟨q, _, hq, _⟩ := h2
  rw [← h1.1] at hq
  have := congrArg List.length hq
  rw [q.text_length] at this
  simp only [List.length_nil] at this
  omega

/-- C62 fails for a directory (`stat` succeeds with some size, reading yields nothing): the header announces
4096 bytes and none follow, so the peer waits for a body that does not come. -/
theorem C62_violated_directory :
    processRequest site (fun _ => some 4096) (fun _ => []) 8000 (baseHandler 8000) 100 (List.replicate 33 7) (List.replicate 2049 7)
      (List.replicate 17 7) false (str "GET /f/ HTTP/1.1\r\n\r\n") =
    .ok (.sent (str "HTTP/1.1 200 OK\r\nConnection: close\r\nContent-Length: 4096\r\n\r\n") false) := by
  decide +kernel

end Abc.Wire
