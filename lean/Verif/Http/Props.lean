import Verif.Http.Messages

/-!
# Properties of the HTTP streams

C10 and C11 (round trips); the other properties are in `Safety` and `Query`.
-/

namespace Abc.Http

open Abc.Ascii Abc.Stream

/-- A request: the version is `maj.min`. -/
structure Request where
  method : List Byte
  resource : List Byte
  maj : List Byte
  min : List Byte
  headers : List Header
  body : List Byte

/-- The requests the library promises to carry. -/
structure Request.Ok (q : Request) : Prop where
  method : ∀ c ∈ q.method, tokenChar c = true
  resource_ne : q.resource ≠ []
  resource : ∀ c ∈ q.resource, printable c = true
  maj_ne : q.maj ≠ []
  maj : ∀ c ∈ q.maj, digit c = true
  min_ne : q.min ≠ []
  min : ∀ c ∈ q.min, digit c = true
  headers : ∀ h ∈ q.headers, HeaderOk h

/-- `HTTP/` in any case. -/
def HttpSlash (p : List Byte) : Prop := p.map lower = [104, 116, 116, 112, 47]

/-- The client program: the calls a user of `http_request_ostream` makes. -/
def sendRequest (pre : List Byte) (q : Request) (o : Out) : Wr :=
  let st := (putMethod ⟨o, .method⟩ q.method).st
  let st := (putResource st q.resource).st
  let st := (putRequestProtocol st (pre ++ q.maj ++ 46 :: q.min)).st
  let st := sendHeaders q.headers st
  (putBody (endHeaders st).st q.body).st

/-- The bytes of a request according to RFC 2616. -/
def Request.text (q : Request) : List Byte :=
  q.method ++ 32 :: (q.resource ++ 32 :: (protocolText q.maj q.min ++ (crlf ++ (headersText q.headers ++
    (crlf ++ q.body)))))

/-- The buffers of the server program. -/
structure Bufs where
  a : List Byte
  b : List Byte
  c : List Byte
  name : List Byte
  value : List Byte
  body : List Byte

/-- What the server program has read: the C strings in its buffers. -/
structure Received where
  a : List Byte
  b : List Byte
  c : List Byte
  headers : List Header
  body : List Byte
  rest : Rd
  deriving DecidableEq, Repr

/-- The server program: the calls a user of `http_request_istream` makes, with the body length known. -/
def recvRequest (fuel : Nat) (m : Bufs) (bodyLen : Nat) (s : In) : Res Received :=
  (getMethod fuel ⟨s, .method, 0⟩ m.a m.a.length).bind fun a =>
  (getResource fuel a.st m.b m.b.length).bind fun b =>
  (getRequestProtocol fuel b.st m.c m.c.length).bind fun c =>
  (recvHeaders fuel fuel c.st m.name m.value).bind fun h =>
  (getBody fuel h.st m.body bodyLen).bind fun d =>
  .ok ⟨cstr a.mem, cstr b.mem, cstr c.mem, h.headers, d.mem.take d.st.gcount, d.st⟩

theorem putProtocolBase_adv (pre maj min : List Byte) (hpre : HttpSlash pre) (hmaj : maj ≠ [])
    (hmaj' : ∀ c ∈ maj, digit c = true) (hmin : min ≠ []) (hmin' : ∀ c ∈ min, digit c = true)
    (o : Out) (hg : o.good = true) (hr : (protocolText maj min).length ≤ o.room) :
    putProtocolBase (pre ++ maj ++ 46 :: min) o = adv o (protocolText maj min) := by
  obtain ⟨a1, a2, a3, a4, a5, rfl⟩ : ∃ a1 a2 a3 a4 a5, pre = [a1, a2, a3, a4, a5] := by
    have hlen := congrArg List.length hpre
    simp only [List.length_map] at hlen
    match pre, hlen with
    | [a1, a2, a3, a4, a5], _ => exact ⟨a1, a2, a3, a4, a5, rfl⟩
  have heq : areEqualIN (some ([a1, a2, a3, a4, a5] ++ maj ++ 46 :: min)) (some [72, 84, 84, 80, 47, 0]) 5 =
      some true := by
    simp only [HttpSlash, List.map_cons, List.map_nil, List.cons.injEq] at hpre
    obtain ⟨h1, h2, h3, h4, h5, _⟩ := hpre
    simp only [areEqualIN, areEqual, List.cons_append, List.nil_append, areEqualLoop_cons, fold]
    have e1 : lower 72 = 104 := by decide
    have e2 : lower 84 = 116 := by decide
    have e3 : lower 80 = 112 := by decide
    have e4 : lower 47 = 47 := by decide
    have hz : ∀ a : Byte, lower a ≠ 0 → a ≠ 0 := fun a h h' => h ((lower_zero a).2 h')
    have z1 := hz a1 (by rw [h1]; decide)
    have z2 := hz a2 (by rw [h2]; decide)
    have z3 := hz a3 (by rw [h3]; decide)
    have z4 := hz a4 (by rw [h4]; decide)
    have z5 := hz a5 (by rw [h5]; decide)
    simp [h1, h2, h3, h4, h5, e1, e2, e3, e4, z1, z2, z3, z4, z5, areEqualLoop]
  have htl : (protocolText maj min).length = 6 + maj.length + min.length := by
    simp [protocolText]; omega
  have hd : ∀ w : List Byte, (∀ c ∈ w, digit c = true) → ∀ c ∈ w, isDigit c = true :=
    fun w hw c hc => by rw [isDigit_eq]; exact hw c hc
  unfold putProtocolBase
  have hc : ¬(([a1, a2, a3, a4, a5] ++ maj ++ 46 :: min).length < 5 ∨
      areEqualIN (some ([a1, a2, a3, a4, a5] ++ maj ++ 46 :: min)) (some [72, 84, 84, 80, 47, 0]) 5 ≠ some true) := by
    rw [heq]; simp
  dsimp only
  rw [if_neg hc, putBytes_adv _ hg (by simp; omega)]
  have hdrop : ([a1, a2, a3, a4, a5] ++ maj ++ 46 :: min).drop 5 = maj ++ 46 :: min := by simp
  rw [hdrop]
  have s1 : putProtoDigits ⟨adv o [72, 84, 84, 80, 47], maj ++ 46 :: min⟩ =
      ⟨adv o ([72, 84, 84, 80, 47] ++ maj), 46 :: min⟩ := by
    unfold putProtoDigits
    dsimp only
    rw [if_pos ⟨by simpa using hg, by simp⟩, putChars_adv maj (46 :: min) (hd _ hmaj')
      (by intro c hc; simp at hc; subst hc; decide) (by simpa using hg) (by simp; omega), adv_adv]
    dsimp only
    have := List.length_pos_iff.2 hmaj
    rw [if_neg (by simp; omega)]
  have s2 : putProtoDot ⟨adv o ([72, 84, 84, 80, 47] ++ maj), 46 :: min⟩ =
      ⟨adv o ([72, 84, 84, 80, 47] ++ maj ++ [46]), min⟩ := by
    unfold putProtoDot
    dsimp only
    rw [if_pos (by simpa using hg), if_neg (by simp), put_adv (by simpa using hg) (by simp; omega), adv_adv]
  have s3 : putProtoDigits ⟨adv o ([72, 84, 84, 80, 47] ++ maj ++ [46]), min⟩ =
      ⟨adv o ([72, 84, 84, 80, 47] ++ maj ++ [46] ++ min), []⟩ := by
    unfold putProtoDigits
    dsimp only
    rw [if_pos ⟨by simpa using hg, hmin⟩, putChars_all min (hd _ hmin') (by simpa using hg) (by simp; omega), adv_adv]
    dsimp only
    have := List.length_pos_iff.2 hmin
    rw [if_neg (by simp; omega)]
  rw [s1, s2, s3]
  simp [protocolText]

theorem Request.text_length (q : Request) : q.text.length =
    q.method.length + 1 + q.resource.length + 1 + (protocolText q.maj q.min).length + 2 +
      (headersText q.headers).length + 2 + q.body.length := by
  simp [Request.text, crlf]; omega

theorem sendRequest_text (q : Request) (hq : q.Ok) (pre : List Byte) (hpre : HttpSlash pre) (o : Out)
    (hg : o.good = true) (hr : q.text.length ≤ o.room) :
    sendRequest pre q o = ⟨adv o q.text, .body⟩ := by
  rw [q.text_length] at hr
  unfold sendRequest
  dsimp only
  have s1 : putMethod ⟨o, .method⟩ q.method = ⟨⟨adv o (q.method ++ [32]), .resource⟩, false⟩ := by
    rw [putMethod, if_neg (by simp)]
    dsimp only
    rw [putChars_all _ (fun c hc => by rw [httpIsToken_eq]; exact hq.method c hc) hg (by omega)]
    dsimp only
    rw [putSpace_adv (by simpa using hg) (by simp; omega), adv_adv]
  rw [s1]
  have s2 : ∀ o' : Out, o'.good = true → q.resource.length + 1 ≤ o'.room →
      putResource ⟨o', .resource⟩ q.resource = ⟨⟨adv o' (q.resource ++ [32]), .protocol⟩, false⟩ := by
    intro o' hg' hr'
    rw [putResource, if_neg (by simp)]
    dsimp only
    rw [putChars_all _ (fun c hc => by rw [isAbcprint_eq]; exact hq.resource c hc) hg' (by omega)]
    dsimp only
    rw [putSpace_adv (by simpa using hg') (by simp; omega), adv_adv]
  dsimp only
  rw [s2 _ (by simpa using hg) (by simp; omega)]
  dsimp only
  rw [putRequestProtocol, if_neg (by simp)]
  dsimp only
  rw [putProtocolBase_adv pre q.maj q.min hpre hq.maj_ne hq.maj hq.min_ne hq.min _ (by simpa using hg) (by simp; omega),
    putCrlf_adv (by simpa using hg) (by simp; omega), adv_adv, adv_adv, adv_adv,
    sendHeaders_adv q.headers hq.headers _ (by simpa using hg) (by simp [crlf]; omega), adv_adv,
    endHeaders, if_neg (by simp)]
  dsimp only
  rw [putCrlf_adv (by simpa using hg) (by simp [crlf]; omega), adv_adv, putBody, if_neg (by simp)]
  dsimp only
  rw [putBytes_adv _ (by simpa using hg) (by simp [crlf]; omega)]
  dsimp only
  rw [adv_adv]
  simp [Request.text]

/-- The buffers are large enough for the message (the resource needs a second NUL). -/
structure Bufs.Fit (m : Bufs) (a b c : Nat) (hs : List Header) (body : Nat) : Prop where
  a : a < m.a.length
  b : b < m.b.length
  c : c < m.c.length
  name0 : 0 < m.name.length
  name : ∀ h ∈ hs, h.1.length < m.name.length
  value : ∀ h ∈ hs, (norm false false h.2).length < m.value.length
  body : body ≤ m.body.length
  max : m.a.length < 2 ^ 64 ∧ m.b.length < 2 ^ 64 ∧ m.c.length < 2 ^ 64 ∧ m.name.length < 2 ^ 64 ∧
    m.value.length < 2 ^ 64

theorem headers_count (hs : List Header) : hs.length ≤ (headersText hs).length := by
  induction hs with
  | nil => simp
  | cons h hs ih => rw [headersText_cons]; simp; omega

/-- C10.  Any well-formed request sent by the client program over a stream with enough room is
received by the server program as the same method, resource, version, headers (values with
blanks normalised) and body; both streams stay good, and reading stops exactly at the end of the
message whatever follows. -/
theorem request_round_trip (q : Request) (hq : q.Ok) (pre : List Byte) (hpre : HttpSlash pre) (room : Nat)
    (hroom : q.text.length ≤ room) (after : List Byte) (m : Bufs)
    (hm : m.Fit q.method.length (q.resource.length + 1) (protocolText q.maj q.min).length q.headers q.body.length)
    (fuel : Nat) (hf : q.text.length + 4 ≤ fuel) :
    (sendRequest pre q { out := [], room := room }).o.good = true ∧
    recvRequest fuel m q.body.length
        { rest := (sendRequest pre q { out := [], room := room }).o.out ++ after } =
      .ok ⟨q.method, q.resource, protocolText q.maj q.min,
        q.headers.map (fun h => (h.1, norm false false h.2)), q.body,
        ⟨{ rest := after }, .body, q.body.length⟩⟩ := by
  rw [sendRequest_text q hq pre hpre _ rfl hroom]
  refine ⟨rfl, ?_⟩
  rw [q.text_length] at hf
  obtain ⟨m1, m2, m3, m4, m5⟩ := hm.max
  have hcount := headers_count q.headers
  obtain ⟨c, x, hcx, hcp⟩ : ∃ c x, q.resource = c :: x ∧ printable c = true := by
    cases hres : q.resource with
    | nil => exact absurd hres hq.resource_ne
    | cons c x => exact ⟨c, x, rfl, hq.resource c (by rw [hres]; simp)⟩
  unfold recvRequest
  have e0 : ({ rest := (adv { out := [], room := room } q.text).out ++ after } : In) =
      In.ofList (q.method ++ 32 :: c :: (x ++ 32 :: 72 :: ((protocolText q.maj q.min).tail ++ (crlf ++
        (headersText q.headers ++ (crlf ++ (q.body ++ after))))))) := by
    simp [In.ofList, Request.text, hcx, protocolText]
  dsimp only
  rw [e0]
  obtain ⟨ma, a1, a2⟩ := getMethod_ok (fuel := fuel) q.method hq.method c (x ++ 32 :: 72 :: ((protocolText q.maj q.min).tail ++ (crlf ++
        (headersText q.headers ++ (crlf ++ (q.body ++ after))))))
    (ascii_of_printable hcp) (blank_of_printable hcp) m.a hm.a m1 0 (by omega)
  rw [a1, Res.ok_bind]
  dsimp only
  obtain ⟨mb, b1, b2, _⟩ := getResource_ok (fuel := fuel) q.resource hq.resource 72 ((protocolText q.maj q.min).tail ++ (crlf ++
        (headersText q.headers ++ (crlf ++ (q.body ++ after)))))
    (by decide) (by decide) m.b hm.b m2 q.method.length (by omega)
  rw [hcx, List.cons_append] at b1
  rw [b1, Res.ok_bind]
  dsimp only
  obtain ⟨mc, c1, c2⟩ := getRequestProtocol_ok (fuel := fuel) q.maj q.min hq.maj hq.min
    (headersText q.headers ++ (crlf ++ (q.body ++ after))) m.c hm.c m3 (c :: x).length (by omega)
  rw [show 72 :: ((protocolText q.maj q.min).tail ++ (crlf ++ (headersText q.headers ++ (crlf ++ (q.body ++ after))))) =
    protocolText q.maj q.min ++ (crlf ++ (headersText q.headers ++ (crlf ++ (q.body ++ after)))) by simp [protocolText],
    c1, Res.ok_bind]
  dsimp only
  obtain ⟨nb, vb, h1, _, _⟩ := recvHeaders_ok (fuel := fuel) q.headers hq.headers (q.body ++ after) m.name m.value
    hm.name hm.value hm.name0 m4 m5 (protocolText q.maj q.min).length fuel (by omega) (by omega)
  rw [h1, Res.ok_bind]
  dsimp only
  rw [getBody_ok q.body after m.body hm.body 0 (by omega), Res.ok_bind]
  dsimp only
  rw [a2.2, b2.2, c2.2]
  have := putMem_take (mem := m.body) (off := 0) (w := q.body) (by simpa using hm.body)
  simp only [Nat.zero_add, List.take_zero, List.nil_append] at this
  rw [this, hcx]
  rfl

/-- `POST /a?b HTTP/1.1`, two headers (one value with blanks), body `{}`. -/
def sampleRequest : Request :=
  { method := [80, 79, 83, 84], resource := [47, 97, 63, 98], maj := [49], min := [49],
    headers := [([72, 111, 115, 116], [120, 121]), ([88, 45, 65], [32, 97, 9, 32, 98, 32])], body := [123, 125] }

example : sampleRequest.Ok ∧ HttpSlash [104, 84, 116, 112, 47] ∧
    norm false false [32, 97, 9, 32, 98, 32] = [97, 32, 98] ∧
    (⟨List.replicate 5 7, List.replicate 6 7, List.replicate 9 7, List.replicate 5 7, List.replicate 4 7, [1, 2, 3]⟩ : Bufs).Fit
      sampleRequest.method.length (sampleRequest.resource.length + 1)
      (protocolText sampleRequest.maj sampleRequest.min).length sampleRequest.headers sampleRequest.body.length := by
  refine ⟨⟨by decide, by decide, by decide, by decide, by decide, by decide, by decide, ?_⟩, by unfold HttpSlash; decide, by decide, ?_⟩
  · unfold HeaderOk; decide
  · constructor <;> decide

/-- C10, values written in normal form come back unchanged. -/
theorem norm_fixed (v : List Byte) : norm false false (norm false false v) = norm false false v :=
  norm_norm false false v

/-! ## Responses -/

/-- A response. -/
structure Response where
  maj : List Byte
  min : List Byte
  status : List Byte
  reason : List Byte
  headers : List Header
  body : List Byte

/-- The responses the library promises to carry; the reason phrase may be empty but does not begin
with a blank. -/
structure Response.Ok (q : Response) : Prop where
  maj_ne : q.maj ≠ []
  maj : ∀ c ∈ q.maj, digit c = true
  min_ne : q.min ≠ []
  min : ∀ c ∈ q.min, digit c = true
  status_ne : q.status ≠ []
  status : ∀ c ∈ q.status, digit c = true
  reason : ∀ c ∈ q.reason, printable c = true ∨ blank c = true
  reason_head : ∀ c ∈ q.reason.head?, blank c = false
  headers : ∀ h ∈ q.headers, HeaderOk h

/-- The bytes of a response. -/
def Response.text (q : Response) : List Byte :=
  protocolText q.maj q.min ++ 32 :: (q.status ++ 32 :: (q.reason ++ (crlf ++ (headersText q.headers ++
    (crlf ++ q.body)))))

/-- The server program writing a response. -/
def sendResponse (pre : List Byte) (q : Response) (o : Out) : Wr :=
  let st := (putResponseProtocol ⟨o, .protocol⟩ (pre ++ q.maj ++ 46 :: q.min)).st
  let st := (putStatusCode st q.status).st
  let st := (putReasonPhrase st (some q.reason)).st
  let st := sendHeaders q.headers st
  (putBody (endHeaders st).st q.body).st

/-- The client program reading a response. -/
def recvResponse (fuel : Nat) (m : Bufs) (bodyLen : Nat) (s : In) : Res Received :=
  (getResponseProtocol fuel ⟨s, .protocol, 0⟩ m.a m.a.length).bind fun a =>
  (getStatusCode fuel a.st m.b m.b.length).bind fun b =>
  (getReasonPhrase fuel b.st m.c m.c.length).bind fun c =>
  (recvHeaders fuel fuel c.st m.name m.value).bind fun h =>
  (getBody fuel h.st m.body bodyLen).bind fun d =>
  .ok ⟨cstr a.mem, cstr b.mem, cstr c.mem, h.headers, d.mem.take d.st.gcount, d.st⟩

theorem Response.text_length (q : Response) : q.text.length =
    (protocolText q.maj q.min).length + 1 + q.status.length + 1 + q.reason.length + 2 +
      (headersText q.headers).length + 2 + q.body.length := by
  simp [Response.text, crlf]; omega

theorem sendResponse_text (q : Response) (hq : q.Ok) (pre : List Byte) (hpre : HttpSlash pre) (o : Out)
    (hg : o.good = true) (hr : q.text.length ≤ o.room) :
    sendResponse pre q o = ⟨adv o q.text, .body⟩ := by
  rw [q.text_length] at hr
  unfold sendResponse
  dsimp only
  rw [putResponseProtocol, if_neg (by simp)]
  dsimp only
  rw [putProtocolBase_adv pre q.maj q.min hpre hq.maj_ne hq.maj hq.min_ne hq.min _ hg (by omega),
    putSpace_adv (by simpa using hg) (by simp; omega), adv_adv, putStatusCode, if_neg (by simp)]
  dsimp only
  rw [putChars_all _ (fun c hc => by rw [isDigit_eq]; exact hq.status c hc) (by simpa using hg) (by simp; omega)]
  dsimp only
  rw [putSpace_adv (by simpa using hg) (by simp; omega), adv_adv, adv_adv, putReasonPhrase, if_neg (by simp)]
  dsimp only
  rw [putChars_all _ (fun c hc => by rw [isAbcprintOrSpace_eq]; simpa using hq.reason c hc)
    (by simpa using hg) (by simp; omega)]
  dsimp only
  rw [adv_adv, putCrlf_adv (by simpa using hg) (by simp; omega), adv_adv,
    sendHeaders_adv q.headers hq.headers _ (by simpa using hg) (by simp [crlf]; omega), adv_adv,
    endHeaders, if_neg (by simp)]
  dsimp only
  rw [putCrlf_adv (by simpa using hg) (by simp [crlf]; omega), adv_adv, putBody, if_neg (by simp)]
  dsimp only
  rw [putBytes_adv _ (by simpa using hg) (by simp [crlf]; omega)]
  dsimp only
  rw [adv_adv]
  simp [Response.text]

/-- C11.  Any well-formed response sent over a stream with enough room is received as the same
version, status code, reason phrase, headers (values with blanks normalised) and body; both streams
stay good and reading stops exactly at the end of the message. -/
theorem response_round_trip (q : Response) (hq : q.Ok) (pre : List Byte) (hpre : HttpSlash pre) (room : Nat)
    (hroom : q.text.length ≤ room) (after : List Byte) (m : Bufs)
    (hm : m.Fit (protocolText q.maj q.min).length q.status.length q.reason.length q.headers q.body.length)
    (fuel : Nat) (hf : q.text.length + 4 ≤ fuel) :
    (sendResponse pre q { out := [], room := room }).o.good = true ∧
    recvResponse fuel m q.body.length
        { rest := (sendResponse pre q { out := [], room := room }).o.out ++ after } =
      .ok ⟨protocolText q.maj q.min, q.status, q.reason,
        q.headers.map (fun h => (h.1, norm false false h.2)), q.body,
        ⟨{ rest := after }, .body, q.body.length⟩⟩ := by
  rw [sendResponse_text q hq pre hpre _ rfl hroom]
  refine ⟨rfl, ?_⟩
  rw [q.text_length] at hf
  obtain ⟨m1, m2, m3, m4, m5⟩ := hm.max
  have hcount := headers_count q.headers
  obtain ⟨c, x, hcx, hcd⟩ : ∃ c x, q.status = c :: x ∧ digit c = true := by
    cases hres : q.status with
    | nil => exact absurd hres hq.status_ne
    | cons c x => exact ⟨c, x, rfl, hq.status c (by rw [hres]; simp)⟩
  have hcp := printable_of_digit c hcd
  obtain ⟨d, y, hdy, hda, hdb⟩ : ∃ d y, q.reason ++ (crlf ++ (headersText q.headers ++ (crlf ++ (q.body ++ after)))) = d :: y ∧
      isAscii d = true ∧ blank d = false := by
    cases hre : q.reason with
    | nil => exact ⟨13, _, rfl, by decide, by decide⟩
    | cons d y =>
      refine ⟨d, _, rfl, ascii_of_value ?_, hq.reason_head d (by rw [hre]; simp)⟩
      simpa [valueChar] using hq.reason d (by rw [hre]; simp)
  unfold recvResponse
  have e0 : ({ rest := (adv { out := [], room := room } q.text).out ++ after } : In) =
      In.ofList (protocolText q.maj q.min ++ 32 :: c :: (x ++ 32 :: d :: y)) := by
    rw [← hdy]
    simp [In.ofList, Response.text, hcx]
  dsimp only
  rw [e0]
  obtain ⟨ma, a1, a2⟩ := getResponseProtocol_ok (fuel := fuel) q.maj q.min hq.maj hq.min c (x ++ 32 :: d :: y)
    (ascii_of_printable hcp) (blank_of_printable hcp) m.a hm.a m1 0 (by omega)
  rw [a1, Res.ok_bind]
  dsimp only
  obtain ⟨mb, b1, b2⟩ := getStatusCode_ok (fuel := fuel) q.status hq.status d y hda hdb m.b hm.b m2
    (protocolText q.maj q.min).length (by omega)
  rw [hcx, List.cons_append] at b1
  rw [b1, Res.ok_bind]
  dsimp only
  obtain ⟨mc, c1, c2⟩ := getReasonPhrase_ok (fuel := fuel) q.reason
    (fun c hc => by simpa [valueChar] using hq.reason c hc)
    (headersText q.headers ++ (crlf ++ (q.body ++ after))) m.c hm.c m3 (c :: x).length (by omega)
  rw [← hdy, c1, Res.ok_bind]
  dsimp only
  obtain ⟨nb, vb, h1, _, _⟩ := recvHeaders_ok (fuel := fuel) q.headers hq.headers (q.body ++ after) m.name m.value
    hm.name hm.value hm.name0 m4 m5 q.reason.length fuel (by omega) (by omega)
  rw [h1, Res.ok_bind]
  dsimp only
  rw [getBody_ok q.body after m.body hm.body 0 (by omega), Res.ok_bind]
  dsimp only
  rw [a2.2, b2.2, c2.2]
  have := putMem_take (mem := m.body) (off := 0) (w := q.body) (by simpa using hm.body)
  simp only [Nat.zero_add, List.take_zero, List.nil_append] at this
  rw [this, hcx]
  rfl

/-- `HTTP/1.1 404 Not Found`. -/
def sampleResponse : Response :=
  { maj := [49], min := [49], status := [52, 48, 52], reason := [78, 111, 116, 32, 70, 111, 117, 110, 100],
    headers := [([65], [])], body := [10, 13, 0] }

example : sampleResponse.Ok ∧
    (⟨List.replicate 9 7, List.replicate 4 7, List.replicate 10 7, [1, 1], [1], [1, 2, 3]⟩ : Bufs).Fit
      (protocolText sampleResponse.maj sampleResponse.min).length sampleResponse.status.length
      sampleResponse.reason.length sampleResponse.headers sampleResponse.body.length := by
  refine ⟨⟨by decide, by decide, by decide, by decide, by decide, by decide, by decide, by decide, ?_⟩, ?_⟩
  · unfold HeaderOk; decide
  · constructor <;> decide

/-- C10/C11, reading: a header value folded over any number of lines (every continuation line starts
with a blank, RFC 2616 section 2.2) is read as its words joined by single spaces. -/
theorem folded_value (ls : List Line) (l : Line)
    (hok : ∀ k ∈ l :: ls, (∀ p ∈ k.1, WordOk p) ∧ (∀ c ∈ k.2, blank c = true))
    (hch : ChainOk [] l.1) (hcont : ∀ k ∈ ls, Cont k) (c : Byte) (r : List Byte) (hca : c < 128)
    (hcb : blank c = false) (mem : List Byte)
    (hl : (List.intercalate [32] ((wordsL (l :: ls)).map (·.2))).length < mem.length)
    (h2 : mem.length < 2 ^ 64) (g fuel : Nat) (hf : (encL (l :: ls)).length + 2 ≤ fuel) :
    ∃ mem', getHeaderValue fuel ⟨{ rest := encL (l :: ls) ++ c :: r }, .headerValue, g⟩ mem mem.length =
      .ok ⟨⟨{ rest := c :: r }, .headerName,
        (List.intercalate [32] ((wordsL (l :: ls)).map (·.2))).length⟩, mem', false⟩ ∧
      Holds mem mem' (List.intercalate [32] ((wordsL (l :: ls)).map (·.2))) := by
  have hwok : ∀ p ∈ wordsL (l :: ls), WordOk p := by
    intro p hp
    simp only [wordsL, List.mem_flatten, List.mem_map] at hp
    obtain ⟨_, ⟨k, hk, rfl⟩, hp⟩ := hp
    exact (hok k hk).1 p hp
  have hj : ∀ (ws : List Word), (∀ p ∈ ws, WordOk p) → ∀ acc : List Byte, acc ≠ [] →
      joinW acc ws = List.intercalate [32] (acc :: ws.map (·.2)) := by
    intro ws hws
    induction ws with
    | nil => intro acc _; simp [joinW, List.intercalate]
    | cons p ws ih =>
      intro acc hacc
      rw [joinW, if_neg hacc, ih (fun q hq => hws q (by simp [hq])) _ (by simp)]
      cases ws <;> simp [List.intercalate, List.intersperse]
  have hj0 : joinW [] (wordsL (l :: ls)) = List.intercalate [32] ((wordsL (l :: ls)).map (·.2)) := by
    cases hw : wordsL (l :: ls) with
    | nil => simp [joinW, List.intercalate]
    | cons p ws =>
      have hp := hwok p (by rw [hw]; simp)
      rw [joinW, if_pos rfl, hj ws (fun q hq => hwok q (by rw [hw]; simp [hq])) _ hp.2.1]
      rfl
  obtain ⟨mem', h1, h3, h4⟩ := getHeaderValue_lines (fuel := fuel) ls l hok hch hcont c r
    (by rw [isAscii_eq]; simpa using hca) hcb mem (by rw [hj0]; exact hl) h2 g hf
  rw [hj0] at h1 h4
  refine ⟨mem', h1, h3, cstr_of_take h4 ?_⟩
  intro d hd
  rw [← hj0] at hd
  have hval : ∀ (ws : List Word), (∀ p ∈ ws, WordOk p) → ∀ acc : List Byte, (∀ d ∈ acc, d ≠ 0) →
      ∀ d ∈ joinW acc ws, d ≠ 0 := by
    intro ws hws
    induction ws with
    | nil => intro acc h; exact h
    | cons p ws ih =>
      intro acc h
      rw [joinW]
      apply ih (fun q hq => hws q (by simp [hq]))
      have hp : ∀ d ∈ p.2, d ≠ 0 := fun d hd => ne0_of_printable ((hws p (by simp)).2.2 d hd)
      intro d hd
      split at hd
      · exact hp d hd
      · rcases List.mem_append.1 hd with h' | h'
        · exact h d h'
        · rcases List.mem_cons.1 h' with rfl | h'
          · decide
          · exact hp d h'
  exact hval _ hwok [] (by simp) d hd

/-- `a` CR LF tab `b` space CR LF: two lines. -/
example : encL [([([], [97])], []), ([([9], [98])], [32])] = [97, 13, 10, 9, 98, 32, 13, 10] ∧
    ChainOk [] [([], [97])] ∧ Cont ([([9], [98])], [32]) := by
  refine ⟨by decide, ⟨Or.inl rfl, by simp⟩, by simp, by simp⟩

end Abc.Http
