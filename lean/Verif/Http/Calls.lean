import Verif.Http.WriteLemmas
import Verif.Http.Messages

/-!
# C12, C13 and C56 for the HTTP writers

A user of a writer makes any sequence of calls.
-/

namespace Abc.Http

open Abc.Ascii Abc.Stream

/-- The calls of `http_request_ostream` and `http_response_ostream`, with their bytes. -/
inductive WCall where
  | method (b : List Byte)
  | resource (b : List Byte)
  | requestProtocol (b : List Byte)
  | responseProtocol (b : List Byte)
  | statusCode (b : List Byte)
  | reasonPhrase (b : Option (List Byte))
  | headerName (b : List Byte)
  | headerValue (b : List Byte)
  | endHeaders
  | body (b : List Byte)
  deriving DecidableEq, Repr

/-- Make a call. -/
def wcall (st : Wr) : WCall → WrRes
  | .method b => putMethod st b
  | .resource b => putResource st b
  | .requestProtocol b => putRequestProtocol st b
  | .responseProtocol b => putResponseProtocol st b
  | .statusCode b => putStatusCode st b
  | .reasonPhrase b => putReasonPhrase st b
  | .headerName b => putHeaderName st b
  | .headerValue b => putHeaderValue st b
  | .endHeaders => Http.endHeaders st
  | .body b => putBody st b

/-- Make calls; the caller catches `std::logic_error` and goes on.  Returns the final state and the
calls that did not throw. -/
def wrun : Wr → List WCall → Wr × List WCall
  | st, [] => (st, [])
  | st, c :: cs =>
    ((wrun (wcall st c).st cs).1,
      if (wcall st c).thrown then (wrun (wcall st c).st cs).2 else c :: (wrun (wcall st c).st cs).2)

/-! ## C12 -/

/-- The line terminator the writer adds on its own for a call. -/
def WCall.terminator : WCall → List Byte
  | .requestProtocol _ => crlf
  | .reasonPhrase _ => crlf
  | .headerValue _ => crlf
  | .endHeaders => crlf
  | _ => []

/-- What a call may add to the wire: for a body any beginning of its bytes, for everything else
bytes without CR and LF followed by (a beginning of) the call's own line terminator. -/
def WCall.Piece (c : WCall) (p : List Byte) : Prop :=
  match c with
  | .body b => p <+: b
  | c => ∃ w t, p = w ++ t ∧ (∀ x ∈ w, x ≠ 13 ∧ x ≠ 10) ∧ t <+: c.terminator

theorem piece_crlf {o o' : Out} {w : List Byte} (h : Grew NoBreak o o' w) :
    ∃ w t, (putCrlf o').out = o.out ++ (w ++ t) ∧ (∀ x ∈ w, x ≠ 13 ∧ x ≠ 10) ∧ t <+: crlf := by
  obtain ⟨t, h1, h2, _⟩ := putCrlf_grew o'
  exact ⟨w, t, by rw [h2, h.1, List.append_assoc], h.2.1, h1⟩

theorem piece_plain {o o' : Out} {w : List Byte} (h : Grew NoBreak o o' w) :
    ∃ w t, o'.out = o.out ++ (w ++ t) ∧ (∀ x ∈ w, x ≠ 13 ∧ x ≠ 10) ∧ t <+: ([] : List Byte) :=
  ⟨w, [], by rw [h.1, List.append_nil], h.2.1, by simp⟩

theorem chars_noBreak (b : List Byte) (o : Out) (pred : Byte → Bool)
    (hp : pred = httpIsToken ∨ pred = isAbcprint ∨ pred = isDigit ∨ pred = isAbcprintOrSpace) :
    ∃ w, Grew NoBreak o (putChars pred b o).o w := by
  apply putChars_noBreak
  intro c hc
  rcases hp with rfl | rfl | rfl | rfl
  · exact noBreak_of_token (by rwa [httpIsToken_eq] at hc)
  · exact noBreak_of_printable (by rwa [isAbcprint_eq] at hc)
  · exact noBreak_of_digit (by rwa [isDigit_eq] at hc)
  · rw [isAbcprintOrSpace_eq, Bool.or_eq_true] at hc
    rcases hc with hc | hc
    · exact noBreak_of_printable hc
    · exact noBreak_of_blank hc

theorem headerName_noBreak (b : List Byte) (st : Wr) :
    ∃ w, Grew NoBreak st.o (putHeaderName st b).st.o w := by
  unfold putHeaderName
  split
  · exact ⟨[], Grew.refl _ _⟩
  · dsimp only
    obtain ⟨w, h⟩ := chars_noBreak b st.o httpIsToken (Or.inl rfl)
    have h1 : ∃ w, Grew NoBreak st.o (if (putChars httpIsToken b st.o).o.good ∧ (putChars httpIsToken b st.o).left ≠ []
        then (putChars httpIsToken b st.o).o.setBad else (putChars httpIsToken b st.o).o) w := by
      split
      · exact ⟨_, h.trans (setBad_grew _ _)⟩
      · exact ⟨_, h⟩
    obtain ⟨w1, h1⟩ := h1
    generalize (if (putChars httpIsToken b st.o).o.good ∧ (putChars httpIsToken b st.o).left ≠ []
        then (putChars httpIsToken b st.o).o.setBad else (putChars httpIsToken b st.o).o) = o1 at h1 ⊢
    split
    · obtain ⟨w2, h2, _⟩ := put_grew NoBreak o1 58 (by unfold NoBreak; decide)
      obtain ⟨w3, h3⟩ := putSpace_grew (o1.put 58)
      exact ⟨_, (h1.trans h2).trans h3⟩
    · exact ⟨_, h1⟩

/-- Writers add to the output and never take back. -/
theorem wcall_piece (st : Wr) (c : WCall) :
    ∃ p, (wcall st c).st.o.out = st.o.out ++ p ∧ c.Piece p := by
  have hnil : ∀ c : WCall, c.Piece [] := by
    intro c; cases c <;> first | exact ⟨[], [], by simp, by simp, by simp⟩ | exact List.nil_prefix
  cases c with
  | body b =>
    simp only [wcall, putBody]
    split
    · exact ⟨[], by simp, hnil _⟩
    · obtain ⟨w, h1, h2, _⟩ := putBytes_grew b st.o (fun _ => True) (fun _ _ => trivial)
      exact ⟨w, h1.1, h2⟩
  | method b =>
    simp only [wcall, putMethod]
    split
    · exact ⟨[], by simp, hnil _⟩
    · obtain ⟨w, h⟩ := chars_noBreak b st.o httpIsToken (Or.inl rfl)
      obtain ⟨w2, h2⟩ := putSpace_grew (putChars httpIsToken b st.o).o
      obtain ⟨w, t, e, h1, h2⟩ := piece_plain (h.trans h2)
      exact ⟨w ++ t, e, w, t, rfl, h1, h2⟩
  | resource b =>
    simp only [wcall, putResource]
    split
    · exact ⟨[], by simp, hnil _⟩
    · obtain ⟨w, h⟩ := chars_noBreak b st.o isAbcprint (by simp)
      obtain ⟨w2, h2⟩ := putSpace_grew (putChars isAbcprint b st.o).o
      obtain ⟨w, t, e, h1, h2⟩ := piece_plain (h.trans h2)
      exact ⟨w ++ t, e, w, t, rfl, h1, h2⟩
  | requestProtocol b =>
    simp only [wcall, putRequestProtocol]
    split
    · exact ⟨[], by simp, hnil _⟩
    · obtain ⟨w, h⟩ := putProtocolBase_grew b st.o
      obtain ⟨w, t, e, h1, h2⟩ := piece_crlf h
      exact ⟨w ++ t, e, w, t, rfl, h1, h2⟩
  | responseProtocol b =>
    simp only [wcall, putResponseProtocol]
    split
    · exact ⟨[], by simp, hnil _⟩
    · obtain ⟨w, h⟩ := putProtocolBase_grew b st.o
      obtain ⟨w2, h2⟩ := putSpace_grew (putProtocolBase b st.o)
      obtain ⟨w, t, e, h1, h2⟩ := piece_plain (h.trans h2)
      exact ⟨w ++ t, e, w, t, rfl, h1, h2⟩
  | statusCode b =>
    simp only [wcall, putStatusCode]
    split
    · exact ⟨[], by simp, hnil _⟩
    · obtain ⟨w, h⟩ := chars_noBreak b st.o isDigit (by simp)
      obtain ⟨w2, h2⟩ := putSpace_grew (putChars isDigit b st.o).o
      obtain ⟨w, t, e, h1, h2⟩ := piece_plain (h.trans h2)
      exact ⟨w ++ t, e, w, t, rfl, h1, h2⟩
  | reasonPhrase b =>
    simp only [wcall, putReasonPhrase]
    split
    · exact ⟨[], by simp, hnil _⟩
    · cases b with
      | none =>
        obtain ⟨w, t, e, h1, h2⟩ := piece_crlf (Grew.refl NoBreak st.o)
        exact ⟨w ++ t, e, w, t, rfl, h1, h2⟩
      | some b =>
        obtain ⟨w, h⟩ := chars_noBreak b st.o isAbcprintOrSpace (by simp)
        obtain ⟨w, t, e, h1, h2⟩ := piece_crlf h
        exact ⟨w ++ t, e, w, t, rfl, h1, h2⟩
  | headerName b =>
    obtain ⟨w, h⟩ := headerName_noBreak b st
    obtain ⟨w, t, e, h1, h2⟩ := piece_plain h
    exact ⟨w ++ t, e, w, t, rfl, h1, h2⟩
  | headerValue b =>
    simp only [wcall, putHeaderValue]
    split
    · exact ⟨[], by simp, hnil _⟩
    · obtain ⟨w, h⟩ := putHvLoop_grew (b.length + 1) true b st.o
      obtain ⟨w, t, e, h1, h2⟩ := piece_crlf h
      exact ⟨w ++ t, e, w, t, rfl, h1, h2⟩
  | endHeaders =>
    simp only [wcall, Http.endHeaders]
    split
    · exact ⟨[], by simp, hnil _⟩
    · obtain ⟨w, t, e, h1, h2⟩ := piece_crlf (Grew.refl NoBreak st.o)
      exact ⟨w ++ t, e, w, t, rfl, h1, h2⟩

/-- C12.  For every sequence of writer calls with any bytes, from any state, in any order, what reaches
the wire is a sequence of pieces, one per call; apart from bodies a piece has no CR or LF other
than the terminator the writer itself adds at its end. -/
theorem no_injection (st : Wr) (cs : List WCall) :
    ∃ ps, List.Forall₂ WCall.Piece cs ps ∧ (wrun st cs).1.o.out = st.o.out ++ ps.flatten := by
  induction cs generalizing st with
  | nil => exact ⟨[], List.Forall₂.nil, by simp [wrun]⟩
  | cons c cs ih =>
    obtain ⟨p, h1, h2⟩ := wcall_piece st c
    obtain ⟨ps, h3, h4⟩ := ih (wcall st c).st
    exact ⟨p :: ps, List.Forall₂.cons h2 h3, by rw [wrun]; dsimp only; rw [h4, h1]; simp⟩

theorem piece_breaks {c : WCall} {p : List Byte} (hb : ∀ b, c ≠ .body b) (h : c.Piece p) :
    p.count 10 ≤ c.terminator.count 10 := by
  have h' : ∃ w t, p = w ++ t ∧ (∀ x ∈ w, x ≠ 13 ∧ x ≠ 10) ∧ t <+: c.terminator := by
    cases c with
    | body b => exact absurd rfl (hb b)
    | _ => exact h
  obtain ⟨w, t, rfl, h1, h2⟩ := h'
  rw [List.count_append, List.count_eq_zero_of_not_mem (fun h => (h1 _ h).2 rfl), Nat.zero_add]
  exact h2.sublist.count_le 10

/-- C12, counted: before any body, the wire has at most one line feed per call that ends a line, whatever
bytes the calls pass. -/
theorem lines_bounded (st : Wr) (cs : List WCall) (hb : ∀ c ∈ cs, ∀ b, c ≠ .body b) :
    (wrun st cs).1.o.out.count 10 ≤
      st.o.out.count 10 + (cs.map fun c => c.terminator.count 10).sum := by
  obtain ⟨ps, h1, h2⟩ := no_injection st cs
  rw [h2, List.count_append]
  apply Nat.add_le_add_left
  clear h2
  induction h1 with
  | nil => simp
  | cons hp _ ih =>
    have := piece_breaks (hb _ (by simp)) hp
    have := ih (fun c hc => hb c (by simp [hc]))
    simp only [List.flatten_cons, List.count_append, List.map_cons, List.sum_cons]
    omega

/-- A header value with a forged header inside. -/
example : (wrun ⟨{ out := [], room := 100 }, .headerName⟩
    [.headerName [65], .headerValue [98, 13, 10, 67, 58, 100]]).1.o.out = [65, 58, 32, 98] ∧
    (wrun ⟨{ out := [], room := 100 }, .headerName⟩
      [.headerName [65], .headerValue [98, 13, 10, 67, 58, 100]]).1.o.good = false := by decide

/-! ## C13 -/

/-- The place of a call in the message. -/
def WCall.item : WCall → Item
  | .method _ => .method
  | .resource _ => .resource
  | .requestProtocol _ => .protocol
  | .responseProtocol _ => .protocol
  | .statusCode _ => .statusCode
  | .reasonPhrase _ => .reasonPhrase
  | .headerName _ => .headerName
  | .headerValue _ => .headerValue
  | .endHeaders => .headerName
  | .body _ => .body

/-- C13, writers.  A call throws exactly when it is out of order, and then neither the stream nor the
protocol state changes. -/
theorem wcall_order (st : Wr) (c : WCall) :
    ((wcall st c).thrown = true ↔ st.next ≠ c.item) ∧ ((wcall st c).thrown = true → (wcall st c).st = st) := by
  cases c <;> simp only [wcall, putMethod, putResource, putRequestProtocol, putResponseProtocol, putStatusCode,
    putReasonPhrase, putHeaderName, putHeaderValue, Http.endHeaders, putBody, WCall.item] <;> split <;> simp_all

/-- The next item after an accepted call. -/
def WCall.after : WCall → Item
  | .method _ => .resource
  | .resource _ => .protocol
  | .requestProtocol _ => .headerName
  | .responseProtocol _ => .statusCode
  | .statusCode _ => .reasonPhrase
  | .reasonPhrase _ => .headerName
  | .headerName _ => .headerValue
  | .headerValue _ => .headerName
  | .endHeaders => .body
  | .body _ => .body

theorem wcall_after (st : Wr) (c : WCall) (h : (wcall st c).thrown = false) :
    (wcall st c).st.next = c.after ∧ st.next = c.item := by
  have h0 : st.next = c.item := by
    by_contra hc
    rw [((wcall_order st c).1).2 hc] at h
    cases h
  refine ⟨?_, h0⟩
  cases c <;> simp only [wcall, putMethod, putResource, putRequestProtocol, putResponseProtocol, putStatusCode,
    putReasonPhrase, putHeaderName, putHeaderValue, Http.endHeaders, putBody, WCall.item, WCall.after] at h h0 ⊢ <;>
    simp [h0]

/-- Calls a request stream / a response stream has. -/
def WCall.ofRequest : WCall → Bool
  | .responseProtocol _ => false
  | .statusCode _ => false
  | .reasonPhrase _ => false
  | _ => true
def WCall.ofResponse : WCall → Bool
  | .method _ => false
  | .resource _ => false
  | .requestProtocol _ => false
  | _ => true

/-- The headers part of a message: pairs of a name and a value. -/
inductive Pairs : List WCall → Prop
  | nil : Pairs []
  | snoc {cs : List WCall} (n v : List Byte) : Pairs cs → Pairs (cs ++ [.headerName n, .headerValue v])

/-- The order of a message after its start line: pairs of header name and value, optionally a last name
alone; or all pairs, the end of the headers, and bodies. -/
def Rest (cs : List WCall) : Prop :=
  (∃ hs, Pairs hs ∧ (cs = hs ∨ ∃ n, cs = hs ++ [.headerName n])) ∨
  (∃ hs bs, Pairs hs ∧ cs = hs ++ .endHeaders :: bs ∧ ∀ c ∈ bs, ∃ b, c = .body b)

/-- The order of a request: method, resource, protocol, then the rest; possibly unfinished. -/
def RequestOrder (cs : List WCall) : Prop :=
  cs = [] ∨ (∃ m, cs = [.method m]) ∨ (∃ m r, cs = [.method m, .resource r]) ∨
    ∃ m r p x, cs = .method m :: .resource r :: .requestProtocol p :: x ∧ Rest x

/-- The order of a response. -/
def ResponseOrder (cs : List WCall) : Prop :=
  cs = [] ∨ (∃ p, cs = [.responseProtocol p]) ∨ (∃ p s, cs = [.responseProtocol p, .statusCode s]) ∨
    ∃ p s r x, cs = .responseProtocol p :: .statusCode s :: .reasonPhrase r :: x ∧ Rest x

/-- What has been accepted when the writer expects an item (after the start line). -/
def RestAt (x : List WCall) : Item → Prop
  | .headerName => Pairs x
  | .headerValue => ∃ hs n, Pairs hs ∧ x = hs ++ [.headerName n]
  | .body => ∃ hs bs, Pairs hs ∧ x = hs ++ .endHeaders :: bs ∧ ∀ c ∈ bs, ∃ b, c = .body b
  | _ => False

theorem RestAt.rest {x : List WCall} {i : Item} (h : RestAt x i) : Rest x := by
  cases i with
  | headerName => exact Or.inl ⟨x, h, Or.inl rfl⟩
  | headerValue => obtain ⟨hs, n, h1, h2⟩ := h; exact Or.inl ⟨hs, h1, Or.inr ⟨n, h2⟩⟩
  | body => exact Or.inr h
  | _ => exact absurd h (by simp [RestAt])

theorem RestAt.step {x : List WCall} {i : Item} (h : RestAt x i) (c : WCall) (hc : c.item = i) :
    RestAt (x ++ [c]) c.after := by
  subst hc
  cases c with
  | headerName n => exact ⟨x, n, h, rfl⟩
  | headerValue v =>
    obtain ⟨hs, n, h1, rfl⟩ := h
    have := Pairs.snoc n v h1
    simpa [RestAt, WCall.after] using this
  | endHeaders => exact ⟨x, [], h, rfl, by simp⟩
  | body b =>
    obtain ⟨hs, bs, h1, rfl, h3⟩ := h
    refine ⟨hs, bs ++ [.body b], h1, by simp, ?_⟩
    intro c hc
    rcases List.mem_append.1 hc with h | h
    · exact h3 c h
    · exact ⟨b, by simpa using h⟩
  | _ => exact absurd h (by simp [RestAt, WCall.item])

/-- The invariants: the accepted calls so far and the item expected next. -/
def ReqAt (acc : List WCall) (i : Item) : Prop :=
  (acc = [] ∧ i = .method) ∨ (∃ m, acc = [.method m] ∧ i = .resource) ∨
  (∃ m r, acc = [.method m, .resource r] ∧ i = .protocol) ∨
  ∃ m r p x, acc = .method m :: .resource r :: .requestProtocol p :: x ∧ RestAt x i

def RespAt (acc : List WCall) (i : Item) : Prop :=
  (acc = [] ∧ i = .protocol) ∨ (∃ p, acc = [.responseProtocol p] ∧ i = .statusCode) ∨
  (∃ p s, acc = [.responseProtocol p, .statusCode s] ∧ i = .reasonPhrase) ∨
  ∃ p s r x, acc = .responseProtocol p :: .statusCode s :: .reasonPhrase r :: x ∧ RestAt x i

theorem ReqAt.step {acc : List WCall} {i : Item} (h : ReqAt acc i) (c : WCall) (hq : c.ofRequest = true)
    (hc : c.item = i) : ReqAt (acc ++ [c]) c.after := by
  rcases h with ⟨rfl, rfl⟩ | ⟨m, rfl, rfl⟩ | ⟨m, r, rfl, rfl⟩ | ⟨m, r, p, x, rfl, h⟩
  · cases c <;> simp_all [WCall.item, WCall.ofRequest, ReqAt, WCall.after]
  · cases c <;> simp_all [WCall.item, WCall.ofRequest, ReqAt, WCall.after]
  · cases c <;> simp_all [WCall.item, WCall.ofRequest, ReqAt, WCall.after, RestAt, Pairs.nil]
  · exact Or.inr (Or.inr (Or.inr ⟨m, r, p, x ++ [c], by simp, h.step c hc⟩))

theorem RespAt.step {acc : List WCall} {i : Item} (h : RespAt acc i) (c : WCall) (hq : c.ofResponse = true)
    (hc : c.item = i) : RespAt (acc ++ [c]) c.after := by
  rcases h with ⟨rfl, rfl⟩ | ⟨m, rfl, rfl⟩ | ⟨m, r, rfl, rfl⟩ | ⟨m, r, p, x, rfl, h⟩
  · cases c <;> simp_all [WCall.item, WCall.ofResponse, RespAt, WCall.after]
  · cases c <;> simp_all [WCall.item, WCall.ofResponse, RespAt, WCall.after]
  · cases c <;> simp_all [WCall.item, WCall.ofResponse, RespAt, WCall.after, RestAt, Pairs.nil]
  · exact Or.inr (Or.inr (Or.inr ⟨m, r, p, x ++ [c], by simp, h.step c hc⟩))

theorem wrun_invariant (Inv : List WCall → Item → Prop) (ok : WCall → Bool)
    (hstep : ∀ acc c, Inv acc c.item → ok c = true → Inv (acc ++ [c]) c.after)
    (cs : List WCall) (hcs : ∀ c ∈ cs, ok c = true) (st : Wr) (acc : List WCall) (h : Inv acc st.next) :
    Inv (acc ++ (wrun st cs).2) (wrun st cs).1.next := by
  induction cs generalizing st acc with
  | nil => simpa [wrun] using h
  | cons c cs ih =>
    have hcs' : ∀ c ∈ cs, ok c = true := fun d hd => hcs d (by simp [hd])
    rw [wrun]
    dsimp only
    cases ht : (wcall st c).thrown with
    | true =>
      have he := (wcall_order st c).2 ht
      rw [he]
      exact ih hcs' st acc h
    | false =>
      obtain ⟨h1, h2⟩ := wcall_after st c ht
      have := ih hcs' (wcall st c).st (acc ++ [c]) (by rw [h1]; exact hstep acc c (h2 ▸ h) (hcs c (by simp)))
      simpa using this

/-- C13, request writer.  Whatever calls are made in whatever order, the calls that have any effect (the
ones that do not throw) are in the order of a request. -/
theorem request_calls_in_order (o : Out) (cs : List WCall) (hcs : ∀ c ∈ cs, c.ofRequest = true) :
    RequestOrder (wrun ⟨o, .method⟩ cs).2 := by
  have h := wrun_invariant ReqAt WCall.ofRequest (fun acc c h hq => h.step c hq rfl) cs hcs ⟨o, .method⟩ []
    (Or.inl ⟨rfl, rfl⟩)
  rw [List.nil_append] at h
  rcases h with ⟨h, _⟩ | ⟨m, h, _⟩ | ⟨m, r, h, _⟩ | ⟨m, r, p, x, h, h'⟩
  · exact Or.inl h
  · exact Or.inr (Or.inl ⟨m, h⟩)
  · exact Or.inr (Or.inr (Or.inl ⟨m, r, h⟩))
  · exact Or.inr (Or.inr (Or.inr ⟨m, r, p, x, h, h'.rest⟩))

/-- C13, response writer. -/
theorem response_calls_in_order (o : Out) (cs : List WCall) (hcs : ∀ c ∈ cs, c.ofResponse = true) :
    ResponseOrder (wrun ⟨o, .protocol⟩ cs).2 := by
  have h := wrun_invariant RespAt WCall.ofResponse (fun acc c h hq => h.step c hq rfl) cs hcs ⟨o, .protocol⟩ []
    (Or.inl ⟨rfl, rfl⟩)
  rw [List.nil_append] at h
  rcases h with ⟨h, _⟩ | ⟨m, h, _⟩ | ⟨m, r, h, _⟩ | ⟨m, r, p, x, h, h'⟩
  · exact Or.inl h
  · exact Or.inr (Or.inl ⟨m, h⟩)
  · exact Or.inr (Or.inr (Or.inl ⟨m, r, h⟩))
  · exact Or.inr (Or.inr (Or.inr ⟨m, r, p, x, h, h'.rest⟩))

theorem wrun_append (st : Wr) (a b : List WCall) :
    wrun st (a ++ b) = ((wrun (wrun st a).1 b).1, (wrun st a).2 ++ (wrun (wrun st a).1 b).2) := by
  induction a generalizing st with
  | nil => simp [wrun]
  | cons c a ih =>
    rw [List.cons_append, wrun, ih, wrun]
    dsimp only
    split <;> simp

/-- An in-order call is accepted. -/
theorem wrun_accept (st : Wr) (c : WCall) (h : st.next = c.item) :
    wrun st [c] = ((wcall st c).st, [c]) ∧ (wcall st c).st.next = c.after := by
  have ht : (wcall st c).thrown = false := by
    cases ht : (wcall st c).thrown with
    | false => rfl
    | true => exact absurd h (((wcall_order st c).1).1 ht)
  exact ⟨by simp [wrun, ht], (wcall_after st c ht).1⟩

theorem wrun_snoc {st : Wr} {cs : List WCall} {c : WCall} (h1 : (wrun st cs).2 = cs)
    (h2 : (wrun st cs).1.next = c.item) :
    (wrun st (cs ++ [c])).2 = cs ++ [c] ∧ (wrun st (cs ++ [c])).1.next = c.after := by
  rw [wrun_append]
  dsimp only
  obtain ⟨a, b⟩ := wrun_accept _ c h2
  rw [a, h1]
  exact ⟨rfl, b⟩

theorem pairs_accepted (st : Wr) (cs x : List WCall) (h1 : (wrun st cs).2 = cs)
    (h2 : (wrun st cs).1.next = .headerName) (hx : Pairs x) :
    (wrun st (cs ++ x)).2 = cs ++ x ∧ (wrun st (cs ++ x)).1.next = .headerName := by
  induction hx with
  | nil => simpa using ⟨h1, h2⟩
  | snoc n v _ ih =>
    obtain ⟨a, b⟩ := wrun_snoc (c := .headerName n) ih.1 (by rw [ih.2]; rfl)
    obtain ⟨c, d⟩ := wrun_snoc (c := .headerValue v) a (by rw [b]; rfl)
    simp only [List.append_assoc, List.cons_append, List.nil_append] at c d ⊢
    exact ⟨c, d⟩

theorem rest_accepted (st : Wr) (cs x : List WCall) (h1 : (wrun st cs).2 = cs)
    (h2 : (wrun st cs).1.next = .headerName) (hx : Rest x) : (wrun st (cs ++ x)).2 = cs ++ x := by
  rcases hx with ⟨hs, hp, rfl | ⟨n, rfl⟩⟩ | ⟨hs, bs, hp, rfl, hb⟩
  · exact (pairs_accepted st cs _ h1 h2 hp).1
  · obtain ⟨a, b⟩ := pairs_accepted st cs _ h1 h2 hp
    have := (wrun_snoc (c := .headerName n) a (by rw [b]; rfl)).1
    simpa using this
  · obtain ⟨a, b⟩ := pairs_accepted st cs _ h1 h2 hp
    obtain ⟨c, d⟩ := wrun_snoc (c := .endHeaders) a (by rw [b]; rfl)
    have hall : ∀ bs : List WCall, (∀ c ∈ bs, ∃ b, c = .body b) → ∀ cs : List WCall, (wrun st cs).2 = cs →
        (wrun st cs).1.next = .body → (wrun st (cs ++ bs)).2 = cs ++ bs := by
      intro bs
      induction bs with
      | nil => intro _ cs h _; simpa using h
      | cons x bs ih =>
        intro hb cs h1 h2
        obtain ⟨b, rfl⟩ := hb x (by simp)
        obtain ⟨e, f⟩ := wrun_snoc (c := .body b) h1 (by rw [h2]; rfl)
        have := ih (fun c hc => hb c (by simp [hc])) _ e f
        simpa using this
    have := hall bs hb _ c d
    simpa using this

/-- C13, the other direction: no call of a sequence in the order of a request throws. -/
theorem request_order_accepted (o : Out) (cs : List WCall) (h : RequestOrder cs) :
    (wrun ⟨o, .method⟩ cs).2 = cs := by
  have h0 : ∀ m, (wrun ⟨o, .method⟩ [.method m]).2 = [.method m] ∧ (wrun ⟨o, .method⟩ [.method m]).1.next = .resource :=
    fun m => wrun_snoc (cs := []) (c := .method m) rfl rfl
  have h1 : ∀ m r, _ := fun m r => wrun_snoc (c := .resource r) (h0 m).1 (h0 m).2
  have h2 : ∀ m r p, _ := fun m r p => wrun_snoc (c := .requestProtocol p) (h1 m r).1 (h1 m r).2
  rcases h with rfl | ⟨m, rfl⟩ | ⟨m, r, rfl⟩ | ⟨m, r, p, x, rfl, hx⟩
  · rfl
  · exact (h0 m).1
  · exact (h1 m r).1
  · have := rest_accepted _ _ x (h2 m r p).1 (h2 m r p).2 hx
    simpa using this

theorem response_order_accepted (o : Out) (cs : List WCall) (h : ResponseOrder cs) :
    (wrun ⟨o, .protocol⟩ cs).2 = cs := by
  have h0 : ∀ m, (wrun ⟨o, .protocol⟩ [.responseProtocol m]).2 = [.responseProtocol m] ∧
      (wrun ⟨o, .protocol⟩ [.responseProtocol m]).1.next = .statusCode :=
    fun m => wrun_snoc (cs := []) (c := .responseProtocol m) rfl rfl
  have h1 : ∀ m r, _ := fun m r => wrun_snoc (c := .statusCode r) (h0 m).1 (h0 m).2
  have h2 : ∀ m r p, _ := fun m r p => wrun_snoc (c := .reasonPhrase p) (h1 m r).1 (h1 m r).2
  rcases h with rfl | ⟨m, rfl⟩ | ⟨m, r, rfl⟩ | ⟨m, r, p, x, rfl, hx⟩
  · rfl
  · exact (h0 m).1
  · exact (h1 m r).1
  · have := rest_accepted _ _ x (h2 m r p).1 (h2 m r p).2 hx
    simpa using this

/-- A call out of order in the middle: the value before its name is refused, the rest goes on. -/
example : (wrun ⟨{ out := [], room := 99 }, .method⟩
    [.method [71], .headerValue [120], .resource [47], .body [1], .requestProtocol [72, 84, 84, 80, 47, 49, 46, 49],
      .headerValue [120], .headerName [65], .endHeaders, .headerValue [98], .endHeaders, .body [7]]).2 =
    [.method [71], .resource [47], .requestProtocol [72, 84, 84, 80, 47, 49, 46, 49], .headerName [65],
      .headerValue [98], .endHeaders, .body [7]] := by decide

/-- The stream is not good and has the same output. -/
def Dead (o o' : Out) : Prop := o'.good = false ∧ o'.out = o.out

theorem Grew.dead {P : Byte → Prop} {o o' : Out} {w : List Byte} (h : Grew P o o' w) (hg : o.good = false) :
    Dead o o' := by
  obtain ⟨h1, _, h3, h4⟩ := h
  refine ⟨?_, by rw [h1, h4 hg]; simp⟩
  cases hg' : o'.good with
  | false => rfl
  | true => rw [h3 hg'] at hg; cases hg

theorem crlf_dead {o o' : Out} (h : Dead o o') : Dead o (putCrlf o') := by
  obtain ⟨t, _, h2, h3, h4⟩ := putCrlf_grew o'
  refine ⟨?_, by rw [h2, h4 h.1, h.2]; simp⟩
  cases hg' : (putCrlf o').good with
  | false => rfl
  | true => have := (h3 hg').2; rw [h.1] at this; cases this

theorem space_dead {o o' : Out} (h : Dead o o') : Dead o (putSpace o') := by
  obtain ⟨w, hw⟩ := putSpace_grew o'
  have := hw.dead h.1
  exact ⟨this.1, this.2.trans h.2⟩

theorem chars_dead (pred : Byte → Bool) (b : List Byte) {o : Out} (hg : o.good = false) :
    Dead o (putChars pred b o).o := by
  obtain ⟨w, hw, _⟩ := putChars_grew pred b o
  exact hw.dead hg

theorem wcall_dead (st : Wr) (c : WCall) (hg : st.o.good = false) : Dead st.o (wcall st c).st.o := by
  have hrefl : Dead st.o st.o := ⟨hg, rfl⟩
  cases c with
  | body b =>
    simp only [wcall, putBody]; split
    · exact hrefl
    · obtain ⟨w, hw, _⟩ := putBytes_grew b st.o (fun _ => True) (fun _ _ => trivial)
      exact hw.dead hg
  | headerName b => obtain ⟨w, hw⟩ := headerName_noBreak b st; exact hw.dead hg
  | headerValue b =>
    simp only [wcall, putHeaderValue]; split
    · exact hrefl
    · obtain ⟨w, hw⟩ := putHvLoop_grew (b.length + 1) true b st.o
      exact crlf_dead (hw.dead hg)
  | endHeaders =>
    simp only [wcall, Http.endHeaders]; split
    · exact hrefl
    · exact crlf_dead hrefl
  | method b =>
    simp only [wcall, putMethod]; split
    · exact hrefl
    · exact space_dead (chars_dead _ _ hg)
  | resource b =>
    simp only [wcall, putResource]; split
    · exact hrefl
    · exact space_dead (chars_dead _ _ hg)
  | statusCode b =>
    simp only [wcall, putStatusCode]; split
    · exact hrefl
    · exact space_dead (chars_dead _ _ hg)
  | requestProtocol b =>
    simp only [wcall, putRequestProtocol]; split
    · exact hrefl
    · obtain ⟨w, hw⟩ := putProtocolBase_grew b st.o; exact crlf_dead (hw.dead hg)
  | responseProtocol b =>
    simp only [wcall, putResponseProtocol]; split
    · exact hrefl
    · obtain ⟨w, hw⟩ := putProtocolBase_grew b st.o; exact space_dead (hw.dead hg)
  | reasonPhrase b =>
    simp only [wcall, putReasonPhrase]; split
    · exact hrefl
    · cases b with
      | none => exact crlf_dead hrefl
      | some b => exact crlf_dead (chars_dead _ _ hg)

/-- C13.  Once the stream is not good, no sequence of calls emits anything more or makes it good. -/
theorem nothing_after_failure (st : Wr) (hg : st.o.good = false) (cs : List WCall) :
    (wrun st cs).1.o.out = st.o.out ∧ (wrun st cs).1.o.good = false := by
  induction cs generalizing st with
  | nil => exact ⟨rfl, hg⟩
  | cons c cs ih =>
    obtain ⟨h1, h2⟩ := wcall_dead st c hg
    obtain ⟨h3, h4⟩ := ih (wcall st c).st h1
    exact ⟨h3.trans h2, h4⟩

example : (Out.mk [1, 2] 9 true false).good = false := by decide

/-! ## C56 -/

/-- The bytes an element may consist of. -/
def WCall.allowed : WCall → Byte → Bool
  | .method _, c => tokenChar c
  | .resource _, c => printable c
  | .requestProtocol _, c => digit c || [72, 84, 80, 104, 116, 112, 47, 46].contains c
  | .responseProtocol _, c => digit c || [72, 84, 80, 104, 116, 112, 47, 46].contains c
  | .statusCode _, c => digit c
  | .reasonPhrase _, c => printable c || blank c
  | .headerName _, c => tokenChar c
  | .headerValue _, c => printable c || blank c || c == 13 || c == 10
  | .endHeaders, _ => true
  | .body _, _ => true

/-- The bytes passed to a call. -/
def WCall.bytes : WCall → List Byte
  | .method b => b
  | .resource b => b
  | .requestProtocol b => b
  | .responseProtocol b => b
  | .statusCode b => b
  | .reasonPhrase b => b.getD []
  | .headerName b => b
  | .headerValue b => b
  | .endHeaders => []
  | .body b => b

/-- C56 in full: a call that leaves the stream good was given only bytes the element may consist of. -/
def ReportsBadBytes : Prop :=
  ∀ st c, (wcall st c).thrown = false → (wcall st c).st.o.good = true → ∀ x ∈ c.bytes, c.allowed x = true

/-- C56 does not hold: `put_method` with `G`, a space and `H` writes `G` and stays good; so do the
resource, the status code and the reason phrase with a line break inside. -/
theorem reports_bad_bytes_violated : ¬ ReportsBadBytes := by
  intro h
  have := h ⟨{ out := [], room := 9 }, .method⟩ (.method [71, 32, 72]) (by decide) (by decide) 32 (by decide)
  revert this; decide

theorem truncates_violated :
    (wcall ⟨{ out := [], room := 9 }, .resource⟩ (.resource [47, 13, 10, 65])).st.o = { out := [47, 32], room := 7 } ∧
    (wcall ⟨{ out := [], room := 9 }, .statusCode⟩ (.statusCode [50, 120, 48])).st.o = { out := [50, 32], room := 7 } ∧
    (wcall ⟨{ out := [], room := 9 }, .reasonPhrase⟩ (.reasonPhrase (some [79, 10, 75]))).st.o =
      { out := [79, 13, 10], room := 6 } := by decide

/-- An unfinished protocol is written as it is and the stream stays good. -/
theorem short_protocol_violated :
    (wcall ⟨{ out := [], room := 19 }, .protocol⟩ (.requestProtocol [72, 84, 84, 80, 47])).st.o.good = true ∧
    (wcall ⟨{ out := [], room := 19 }, .protocol⟩ (.requestProtocol [72, 84, 84, 80, 47, 49, 46])).st.o.good = true := by
  decide

theorem skipHv_suffix (b : List Byte) : ∃ s, b = s ++ skipHv b ∧
    ∀ c ∈ s, blank c = true ∨ c = 13 ∨ c = 10 := by
  induction hn : b.length using Nat.strongRecOn generalizing b with
  | _ n ih =>
    cases b with
    | nil => exact ⟨[], by simp [skipHv]⟩
    | cons c b =>
      rw [skipHv_cons]
      split
      · rename_i hc
        obtain ⟨s, h1, h2⟩ := ih b.length (by simp at hn; omega) b rfl
        refine ⟨c :: s, by rw [List.cons_append, ← h1], ?_⟩
        intro d hd
        rcases List.mem_cons.1 hd with rfl | hd
        · left; rwa [isSpace_eq] at hc
        · exact h2 d hd
      · split
        · rename_i hc
          split
          · rename_i d x y b'
            split
            · rename_i hd
              obtain ⟨s, h1, h2⟩ := ih (y :: b').length (by simp at hn ⊢; omega) (y :: b') rfl
              refine ⟨c :: d :: x :: s, by simp only [List.cons_append]; rw [← h1], ?_⟩
              intro e he
              rcases List.mem_cons.1 he with rfl | he
              · right; left; exact hc
              rcases List.mem_cons.1 he with rfl | he
              · right; right; exact hd.1
              rcases List.mem_cons.1 he with rfl | he
              · left; have := hd.2; rwa [isSpace_eq] at this
              · exact h2 e he
            · exact ⟨[], by simp⟩
          · exact ⟨[], by simp⟩
        · exact ⟨[], by simp⟩

theorem putHvLoop_good (f : Nat) (start : Bool) (b : List Byte) (o : Out) (hf : b.length < f)
    (hg : (putHvLoop f start b o).good = true) :
    ∀ c ∈ b, printable c = true ∨ blank c = true ∨ c = 13 ∨ c = 10 := by
  induction f generalizing start b o with
  | zero => omega
  | succ f ih =>
    rw [putHvLoop] at hg
    dsimp only at hg
    obtain ⟨s, hs1, hs2⟩ := skipHv_suffix b
    generalize skipHv b = l at hg hs1
    have hs : ∀ c ∈ s, printable c = true ∨ blank c = true ∨ c = 13 ∨ c = 10 := fun c hc => Or.inr (hs2 c hc)
    generalize (if !start ∧ l.length < b.length ∧ l ≠ [] then putSpace o else o) = o1 at hg
    subst hs1
    intro c hc
    cases l with
    | nil => rw [List.append_nil] at hc; exact hs c hc
    | cons d l =>
      simp only at hg
      split at hg
      · rename_i hd
        rcases List.mem_append.1 hc with hc | hc
        · exact hs c hc
        obtain ⟨w, hw1, hw2, hw3⟩ := putChars_grew isAbcprint (d :: l) o1
        have hw : ∀ x ∈ w, printable x = true := fun x hx => by rw [← isAbcprint_eq]; exact hw1.2.1 x hx
        split at hg
        · rename_i hp
          obtain ⟨e1, _⟩ := hw3 hp.1
          rw [← e1] at hc
          have hlen : (putChars isAbcprint (d :: l) o1).left.length < f := by
            have h1 := congrArg List.length e1
            have h2 : w ≠ [] := by
              intro h
              subst h
              have := (hw3 hp.1).2
              rw [List.nil_append] at e1
              rw [e1] at this
              have := this d (by simp)
              rw [hd] at this; cases this
            have := List.length_pos_iff.2 h2
            simp at h1 hf; omega
          rcases List.mem_append.1 hc with hc | hc
          · exact Or.inl (hw c hc)
          · exact ih false _ _ hlen hg c hc
        · rename_i hp
          obtain ⟨e1, _⟩ := hw3 hg
          have : (putChars isAbcprint (d :: l) o1).left = [] := by
            by_contra h; exact hp ⟨hg, h⟩
          rw [this, List.append_nil] at e1
          rw [← e1] at hc
          exact Or.inl (hw c hc)
      · simp at hg

/-- C56, what holds: header names, header values and bodies are written completely or reported. -/
theorem reports_bad_bytes_partial (st : Wr) (c : WCall)
    (hc : (∃ b, c = .headerName b) ∨ (∃ b, c = .headerValue b) ∨ (∃ b, c = .body b))
    (ht : (wcall st c).thrown = false) (hg : (wcall st c).st.o.good = true) :
    (∀ x ∈ c.bytes, c.allowed x = true) ∧
    (∀ b, c = .headerName b → (wcall st c).st.o.out = st.o.out ++ b ++ [58, 32]) ∧
    (∀ b, c = .body b → (wcall st c).st.o.out = st.o.out ++ b) := by
  rcases hc with ⟨b, rfl⟩ | ⟨b, rfl⟩ | ⟨b, rfl⟩
  · refine ⟨?_, ?_, by simp⟩
    all_goals
      simp only [wcall, putHeaderName, WCall.bytes, WCall.allowed] at ht hg ⊢
      have hn : ¬ st.next ≠ .headerName := by
        intro h; rw [if_pos h] at ht; cases ht
      rw [if_neg hn] at hg
      obtain ⟨w, hw1, hw2, hw3⟩ := putChars_grew httpIsToken b st.o
      dsimp only at hg
    · generalize putChars httpIsToken b st.o = p at hg hw1 hw2 hw3
      by_cases hp : p.o.good = true ∧ p.left ≠ []
      · rw [if_pos hp] at hg; simp at hg
      · rw [if_neg hp] at hg
        cases hpg : p.o.good with
        | false => rw [hpg] at hg; simp [hpg] at hg
        | true =>
          have hl : p.left = [] := by by_contra h; exact hp ⟨hpg, h⟩
          obtain ⟨e, _⟩ := hw3 hpg
          rw [hl, List.append_nil] at e
          subst e
          intro x hx
          rw [← httpIsToken_eq]; exact hw1.2.1 x hx
    · intro b' hb'
      cases hb'
      rw [if_neg hn]
      dsimp only
      generalize putChars httpIsToken b st.o = p at hg hw1 hw2 hw3 ⊢
      by_cases hp : p.o.good = true ∧ p.left ≠ []
      · rw [if_pos hp] at hg; simp at hg
      · rw [if_neg hp] at hg ⊢
        cases hpg : p.o.good with
        | false => rw [hpg] at hg; simp [hpg] at hg
        | true =>
          have hl : p.left = [] := by by_contra h; exact hp ⟨hpg, h⟩
          obtain ⟨e, _⟩ := hw3 hpg
          rw [hl, List.append_nil] at e
          subst e
          rw [if_pos hpg] at hg
          rw [if_pos rfl]
          have hsp : ∀ q : Out, putSpace q = q.put 32 := by
            intro q
            unfold putSpace putChar; split
            · rfl
            · rename_i h; rw [Out.put_notgood (by simpa using h)]
          rw [hsp] at hg ⊢
          rw [Out.put_good_out hg, Out.put_good_out (Out.put_good_before hg), hw1.1]
          simp
  · refine ⟨?_, by simp, by simp⟩
    simp only [wcall, putHeaderValue, WCall.bytes, WCall.allowed] at ht hg ⊢
    have hn : ¬ st.next ≠ .headerValue := by
      intro h; rw [if_pos h] at ht; cases ht
    rw [if_neg hn] at hg
    obtain ⟨t, _, _, h3, _⟩ := putCrlf_grew (putHvLoop (b.length + 1) true b st.o)
    intro x hx
    have := putHvLoop_good _ _ _ _ (by omega) (h3 hg).2 x hx
    simp only [Bool.or_eq_true, beq_iff_eq]
    tauto
  · refine ⟨by simp [WCall.allowed], by simp, ?_⟩
    simp only [wcall, putBody] at ht hg ⊢
    have hn : ¬ st.next ≠ .body := by
      intro h; rw [if_pos h] at ht; cases ht
    rw [if_neg hn] at hg ⊢
    intro b' hb'
    cases hb'
    obtain ⟨w, h1, _, h3⟩ := putBytes_grew b st.o (fun _ => True) (fun _ _ => trivial)
    rw [h1.1, h3 hg]

example : (wcall ⟨{ out := [], room := 9 }, .headerName⟩ (.headerName [65, 45])).st.o.good = true := by decide

end Abc.Http
