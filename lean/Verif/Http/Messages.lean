import Verif.Http.RoundTrip

/-!
# C10, C11: whole requests and responses
-/

namespace Abc.Http

open Abc.Ascii Abc.Stream

theorem getRequestProtocol_ok {fuel : Nat} (maj min : List Byte) (hmaj : ∀ c ∈ maj, digit c = true)
    (hmin : ∀ c ∈ min, digit c = true) (r : List Byte) (mem : List Byte)
    (hl : (protocolText maj min).length < mem.length) (h2 : mem.length < 2 ^ 64) (g : Nat)
    (hf : (protocolText maj min).length + 2 ≤ fuel) :
    ∃ mem', getRequestProtocol fuel ⟨In.ofList (protocolText maj min ++ (crlf ++ r)), .protocol, g⟩ mem mem.length =
      .ok ⟨⟨In.ofList r, .headerName, (protocolText maj min).length⟩, mem', false⟩ ∧
      Holds mem mem' (protocolText maj min) := by
  have hz : ∀ c ∈ protocolText maj min, c ≠ 0 := by
    intro c hc
    simp only [protocolText, List.mem_append, List.mem_cons] at hc
    rcases hc with (h | h) | h | h
    · rintro rfl; simp at h
    · exact ne0_of_printable (printable_of_digit c (hmaj c h))
    · rintro rfl; simp at h
    · exact ne0_of_printable (printable_of_digit c (hmin c h))
  refine ⟨putMem mem 0 (protocolText maj min ++ [0]), ?_, putMem_length (by simp; omega),
    cstr_of_take (take_putMem0 hl) hz⟩
  have := getProtocolBase_ok maj min hmaj hmin [] (by simp) 13 (10 :: r) (by decide) (by decide) (Or.inl (by decide))
    mem hl h2 (fuel := fuel) (by simpa using hf)
  rw [List.nil_append] at this
  rw [getRequestProtocol, if_neg (by simp)]
  dsimp only
  rw [show crlf ++ r = 13 :: 10 :: r from rfl, this, Res.ok_bind]
  dsimp only
  rw [skipCrlf_ok]

theorem getResponseProtocol_ok {fuel : Nat} (maj min : List Byte) (hmaj : ∀ c ∈ maj, digit c = true)
    (hmin : ∀ c ∈ min, digit c = true) (c : Byte) (r : List Byte) (hca : isAscii c = true)
    (hcb : blank c = false) (mem : List Byte)
    (hl : (protocolText maj min).length < mem.length) (h2 : mem.length < 2 ^ 64) (g : Nat)
    (hf : (protocolText maj min).length + 3 ≤ fuel) :
    ∃ mem', getResponseProtocol fuel ⟨In.ofList (protocolText maj min ++ 32 :: c :: r), .protocol, g⟩ mem mem.length =
      .ok ⟨⟨In.ofList (c :: r), .statusCode, (protocolText maj min).length⟩, mem', false⟩ ∧
      Holds mem mem' (protocolText maj min) := by
  have hz : ∀ c ∈ protocolText maj min, c ≠ 0 := by
    intro c hc
    simp only [protocolText, List.mem_append, List.mem_cons] at hc
    rcases hc with (h | h) | h | h
    · rintro rfl; simp at h
    · exact ne0_of_printable (printable_of_digit c (hmaj c h))
    · rintro rfl; simp at h
    · exact ne0_of_printable (printable_of_digit c (hmin c h))
  refine ⟨putMem mem 0 (protocolText maj min ++ [0]), ?_, putMem_length (by simp; omega),
    cstr_of_take (take_putMem0 hl) hz⟩
  have := getProtocolBase_ok maj min hmaj hmin [32] (by simp [blank]) c r hca hcb (Or.inr (by simp))
    mem hl h2 (fuel := fuel) (by simp; omega)
  rw [List.singleton_append] at this
  rw [getResponseProtocol, if_neg (by simp)]
  dsimp only
  rw [this, Res.ok_bind]

theorem getStatusCode_ok {fuel : Nat} (m : List Byte) (hm : ∀ c ∈ m, digit c = true) (c : Byte) (r : List Byte)
    (hca : isAscii c = true) (hcb : blank c = false) (mem : List Byte) (hl : m.length < mem.length)
    (h2 : mem.length < 2 ^ 64) (g : Nat) (hf : m.length + 2 ≤ fuel) :
    ∃ mem', getStatusCode fuel ⟨In.ofList (m ++ 32 :: c :: r), .statusCode, g⟩ mem mem.length =
      .ok ⟨⟨In.ofList (c :: r), .reasonPhrase, m.length⟩, mem', false⟩ ∧ Holds mem mem' m := by
  refine ⟨putMem mem 0 (m ++ [0]), ?_, putMem_length (by simp; omega), cstr_of_take (take_putMem0 hl)
    (fun c hc => ne0_of_printable (printable_of_digit c (hm c hc)))⟩
  rw [getStatusCode, if_neg (by simp)]
  dsimp only
  rw [getWord (by omega) h2 (by omega) m 32 (c :: r) (by decide) (by decide)
    (fun d hd => ⟨ascii_of_printable (printable_of_digit d (hm d hd)), by rw [isDigit_eq]; exact hm d hd⟩)
    fuel (by omega) (by omega), Res.ok_bind]
  have := skipBlanks [32] c r hca hcb (by simp [blank]) fuel (by simp; omega)
  rw [List.singleton_append] at this
  rw [this, Res.ok_bind]

theorem ascii_of_value {c : Byte} (h : valueChar c = true) : isAscii c = true := by
  simp only [valueChar, Bool.or_eq_true] at h
  rcases h with h | h
  · exact ascii_of_printable h
  · exact ascii_of_blank h

theorem getReasonPhrase_ok {fuel : Nat} (m : List Byte) (hm : ∀ c ∈ m, valueChar c = true) (r : List Byte)
    (mem : List Byte) (hl : m.length < mem.length)
    (h2 : mem.length < 2 ^ 64) (g : Nat) (hf : m.length + 2 ≤ fuel) :
    ∃ mem', getReasonPhrase fuel ⟨In.ofList (m ++ (crlf ++ r)), .reasonPhrase, g⟩ mem mem.length =
      .ok ⟨⟨In.ofList r, .headerName, m.length⟩, mem', false⟩ ∧ Holds mem mem' m := by
  refine ⟨putMem mem 0 (m ++ [0]), ?_, putMem_length (by simp; omega), cstr_of_take (take_putMem0 hl)
    (fun c hc => ne0_of_value (hm c hc))⟩
  rw [getReasonPhrase, if_neg (by simp)]
  dsimp only
  rw [show crlf ++ r = 13 :: 10 :: r from rfl]
  rw [getWord (by omega) h2 (by omega) m 13 (10 :: r) (by decide) (by decide)
    (fun d hd => ⟨ascii_of_value (hm d hd), by rw [isAbcprintOrSpace_eq]; exact hm d hd⟩)
    fuel (by omega) (by omega), Res.ok_bind]
  have := skipBlanks [] 13 (10 :: r) (by decide) (by decide) (by simp) fuel (by simp; omega)
  rw [List.nil_append] at this
  rw [this, Res.ok_bind]
  dsimp only
  rw [skipCrlf_ok]

theorem getHeaderName_ok {fuel : Nat} (m : List Byte) (hne : m ≠ []) (hm : ∀ c ∈ m, tokenChar c = true)
    (c : Byte) (r : List Byte) (hca : isAscii c = true) (hcb : blank c = false) (mem : List Byte)
    (hl : m.length < mem.length) (h2 : mem.length < 2 ^ 64) (g : Nat) (hf : m.length + 2 ≤ fuel) :
    ∃ mem', getHeaderName fuel ⟨In.ofList (m ++ ([58, 32] ++ c :: r)), .headerName, g⟩ mem mem.length =
      .ok ⟨⟨In.ofList (c :: r), .headerValue, m.length⟩, mem', false⟩ ∧ Holds mem mem' m := by
  refine ⟨putMem mem 0 (m ++ [0]), ?_, putMem_length (by simp; omega), cstr_of_take (take_putMem0 hl)
    (fun c hc => ne0_of_printable (printable_of_token (hm c hc)))⟩
  have hpos := List.length_pos_iff.2 hne
  rw [getHeaderName, if_neg (by simp)]
  dsimp only
  rw [show [58, 32] ++ c :: r = 58 :: 32 :: c :: r from rfl]
  rw [getWord (by omega) h2 (by omega) m 58 (32 :: c :: r) (by decide) (by decide)
    (fun d hd => ⟨ascii_of_printable (printable_of_token (hm d hd)), by rw [httpIsToken_eq]; exact hm d hd⟩)
    fuel (by omega) (by omega), Res.ok_bind]
  have h0 := skipBlanks [] 58 (32 :: c :: r) (by decide) (by decide) (by simp) fuel (by simp; omega)
  rw [List.nil_append] at h0
  have h58 : isAscii 58 = true := by decide
  rw [h0, Res.ok_bind]
  dsimp only
  rw [if_neg (by omega)]
  simp only [In.ofList_good, if_true, In.peekCharV_cons _ h58, In.getCharS_cons _ h58, ne_eq,
    not_true_eq_false, if_false]
  have h1 := skipBlanks [32] c r hca hcb (by simp [blank]) fuel (by simp; omega)
  rw [List.singleton_append] at h1
  rw [h1, Res.ok_bind]

/-- The empty line after the headers. -/
theorem getHeaderName_end {fuel : Nat} (r : List Byte) (mem : List Byte) (hl : 0 < mem.length)
    (h2 : mem.length < 2 ^ 64) (g : Nat) (hf : 2 ≤ fuel) :
    ∃ mem', getHeaderName fuel ⟨In.ofList (crlf ++ r), .headerName, g⟩ mem mem.length =
      .ok ⟨⟨In.ofList r, .body, 0⟩, mem', false⟩ ∧ Holds mem mem' [] := by
  refine ⟨putMem mem 0 ([] ++ [0]), ?_, putMem_length (by simp; omega), cstr_of_take (take_putMem0 (by simp; omega)) (by simp)⟩
  rw [getHeaderName, if_neg (by simp)]
  dsimp only
  have h1 := getWord (pred := httpIsToken) (off := 0) (size := mem.length) (mem := mem) (by omega) h2 (by omega) [] 13 (10 :: r) (by decide) (by decide)
    (by simp) fuel (by simp; omega) (by simp)
  rw [List.nil_append] at h1
  rw [show crlf ++ r = 13 :: 10 :: r from rfl, h1, Res.ok_bind]
  have h0 := skipBlanks [] 13 (10 :: r) (by decide) (by decide) (by simp) fuel (by simp; omega)
  rw [List.nil_append] at h0
  rw [h0, Res.ok_bind]
  dsimp only
  rw [if_pos (by simp), skipCrlf_ok]
  rfl

/-- Reading a header value spread over any number of lines (RFC 2616 folding). -/
theorem getHeaderValue_lines {fuel : Nat} (ls : List Line) (l : Line)
    (hok : ∀ k ∈ l :: ls, (∀ p ∈ k.1, WordOk p) ∧ (∀ c ∈ k.2, blank c = true))
    (hch : ChainOk [] l.1) (hcont : ∀ k ∈ ls, Cont k) (c : Byte) (r : List Byte) (hca : isAscii c = true)
    (hcb : blank c = false) (mem : List Byte) (hl : (joinW [] (wordsL (l :: ls))).length < mem.length)
    (h2 : mem.length < 2 ^ 64) (g : Nat) (hf : (encL (l :: ls)).length + 2 ≤ fuel) :
    ∃ mem', getHeaderValue fuel ⟨In.ofList (encL (l :: ls) ++ c :: r), .headerValue, g⟩ mem mem.length =
      .ok ⟨⟨In.ofList (c :: r), .headerName, (joinW [] (wordsL (l :: ls))).length⟩, mem', false⟩ ∧
      mem'.length = mem.length ∧
      mem'.take ((joinW [] (wordsL (l :: ls))).length + 1) = joinW [] (wordsL (l :: ls)) ++ [0] := by
  have hll : ls.length < fuel := by
    have : ls.length ≤ (encL ls).length := by
      clear hok hcont hch hl hf
      induction ls with
      | nil => simp
      | cons k ls ih => rw [encL_cons]; simp; omega
    rw [encL_cons] at hf; simp at hf; omega
  obtain ⟨mem', h1, h3, h4⟩ := hvOuter_ok (fuel := fuel) h2 c r hca hcb ls l hok hcont [] hch mem (Nat.le_refl _)
    (by simp) hl (by omega) fuel hll
  refine ⟨mem', ?_, h3.1, h4⟩
  rw [getHeaderValue, if_neg (by simp)]
  dsimp only
  rw [show (0 : Nat) = ([] : List Byte).length from rfl, h1, Res.ok_bind, if_neg (by simp)]
  dsimp only
  have := skipBlanks [] c r hca hcb (by simp) fuel (by simp; omega)
  rw [List.nil_append] at this
  rw [this, Res.ok_bind]

theorem getHeaderValue_ok {fuel : Nat} (v : List Byte) (hv : ∀ c ∈ v, valueChar c = true)
    (c : Byte) (r : List Byte) (hca : isAscii c = true) (hcb : blank c = false) (mem : List Byte)
    (hl : (norm false false v).length < mem.length) (h2 : mem.length < 2 ^ 64) (g : Nat)
    (hf : v.length + 4 ≤ fuel) :
    ∃ mem', getHeaderValue fuel ⟨In.ofList (v ++ (crlf ++ c :: r)), .headerValue, g⟩ mem mem.length =
      .ok ⟨⟨In.ofList (c :: r), .headerName, (norm false false v).length⟩, mem', false⟩ ∧
      Holds mem mem' (norm false false v) := by
  obtain ⟨ws, tl, h1, h3, h4, h5, _⟩ := value_words v.length v (Nat.le_refl _) hv
  have hj := joinW_norm ws h3 tl h4 [] h5
  simp only [List.isEmpty_nil, Bool.not_true, List.nil_append] at hj
  rw [← h1] at hj
  have hw : wordsL [(ws, tl)] = ws := by simp [wordsL]
  have he : encL [(ws, tl)] = v ++ crlf := by rw [h1]; simp [encL]
  obtain ⟨mem', g1, g2, g3⟩ := getHeaderValue_lines (fuel := fuel) [] (ws, tl) (by simpa using ⟨fun a b hp => h3 (a, b) hp, h4⟩)
    h5 (by simp) c r hca hcb mem (by rw [hw, hj]; exact hl) h2 g (by rw [he]; simp [crlf]; omega)
  rw [hw, hj, he, List.append_assoc] at g1
  rw [hw, hj] at g3
  exact ⟨mem', g1, g2, cstr_of_take g3 (fun c hc => ne0_of_value (norm_chars _ _ v hv c hc))⟩

theorem getBytesLoop_ok (b r : List Byte) (size fuel : Nat) (u mem : List Byte) (hm : size ≤ mem.length)
    (hl : u.length + b.length = size) (hf : b.length < fuel) :
    getBytesLoop size fuel (In.ofList (b ++ r)) (putMem mem 0 u) u.length =
      .ok ⟨In.ofList r, putMem mem 0 (u ++ b), size⟩ := by
  induction b generalizing u fuel with
  | nil =>
    obtain ⟨f, rfl⟩ : ∃ f, fuel = f + 1 := ⟨fuel - 1, by simp at hf; omega⟩
    simp only [List.length_nil, Nat.add_zero] at hl
    rw [getBytesLoop, if_neg (by omega), hl]
    simp
  | cons c b ih =>
    obtain ⟨f, rfl⟩ : ∃ f, fuel = f + 1 := ⟨fuel - 1, by omega⟩
    simp only [List.length_cons] at hl hf
    rw [getBytesLoop, if_pos ⟨by simp, by omega⟩, List.cons_append, In.getV_cons, In.getS_cons]
    have := wr_putMem (mem := mem) (off := 0) (w := u) (c := c) (by omega)
    rw [Nat.zero_add] at this
    rw [this, Res.ok_bind]
    have h := ih f (u ++ [c]) (by simp; omega) (by omega)
    simp only [List.length_append, List.length_singleton] at h
    rw [h]; simp

theorem getBody_ok {fuel : Nat} (b r mem : List Byte) (hl : b.length ≤ mem.length) (g : Nat)
    (hf : b.length < fuel) :
    getBody fuel ⟨In.ofList (b ++ r), .body, g⟩ mem b.length =
      .ok ⟨⟨In.ofList r, .body, b.length⟩, putMem mem 0 b, false⟩ := by
  rw [getBody, if_neg (by simp)]
  have := getBytesLoop_ok b r b.length fuel [] mem hl (by simp) hf
  rw [putMem_nil, List.length_nil] at this
  rw [this, Res.ok_bind]
  simp

/-! ## Programs that send and receive a message -/

/-- A header: name and value. -/
abbrev Header := List Byte × List Byte

/-- Send the headers. -/
def sendHeaders : List Header → Wr → Wr
  | [], st => st
  | h :: hs, st => sendHeaders hs (putHeaderValue (putHeaderName st h.1).st h.2).st

/-- What the program received. -/
structure HdrsRes where
  st : Rd
  nameBuf : List Byte
  valueBuf : List Byte
  headers : List Header
  deriving DecidableEq, Repr

/-- Receive headers until the empty line: the loop every user of the library writes. -/
def recvHeaders (fuel : Nat) : Nat → Rd → List Byte → List Byte → Res HdrsRes
  | 0, _, _, _ => .running
  | f + 1, st, nb, vb =>
    (getHeaderName fuel st nb nb.length).bind fun a =>
    if a.st.gcount = 0 then .ok ⟨a.st, a.mem, vb, []⟩
    else
      (getHeaderValue fuel a.st vb vb.length).bind fun b =>
      (recvHeaders fuel f b.st a.mem b.mem).bind fun h =>
      .ok { h with headers := (cstr a.mem, cstr b.mem) :: h.headers }

/-- The wire form of headers. -/
def headersText (hs : List Header) : List Byte :=
  (hs.map fun h => h.1 ++ ([58, 32] ++ (norm false false h.2 ++ crlf))).flatten

theorem headersText_cons (h : Header) (hs : List Header) :
    headersText (h :: hs) = h.1 ++ ([58, 32] ++ (norm false false h.2 ++ (crlf ++ headersText hs))) := by
  simp [headersText]

/-- A header the library can carry: a non-empty token and a value of visible characters and blanks. -/
def HeaderOk (h : Header) : Prop :=
  h.1 ≠ [] ∧ (∀ c ∈ h.1, tokenChar c = true) ∧ (∀ c ∈ h.2, printable c = true ∨ blank c = true)

theorem HeaderOk.value {h : Header} (hh : HeaderOk h) : ∀ c ∈ h.2, valueChar c = true := by
  intro c hc; simpa [valueChar] using hh.2.2 c hc

theorem putHeaderName_adv (m : List Byte) (hm : ∀ c ∈ m, tokenChar c = true) (o : Out) (hg : o.good = true)
    (hr : m.length + 2 ≤ o.room) :
    putHeaderName ⟨o, .headerName⟩ m = ⟨⟨adv o (m ++ [58, 32]), .headerValue⟩, false⟩ := by
  rw [putHeaderName, if_neg (by simp)]
  dsimp only
  rw [putChars_all m (fun c hc => by rw [httpIsToken_eq]; exact hm c hc) hg (by omega)]
  simp only [ne_eq, not_true_eq_false, and_false, if_false, adv_good, hg, if_true]
  rw [put_adv (by simpa using hg) (by simp; omega), putSpace_adv (by simpa using hg) (by simp; omega), adv_adv, adv_adv]
  simp

theorem putHeaderValue_adv (v : List Byte) (hv : ∀ c ∈ v, valueChar c = true) (o : Out) (hg : o.good = true)
    (hr : (norm false false v).length + 2 ≤ o.room) :
    putHeaderValue ⟨o, .headerValue⟩ v = ⟨⟨adv o (norm false false v ++ crlf), .headerName⟩, false⟩ := by
  rw [putHeaderValue, if_neg (by simp)]
  dsimp only
  have := putHvLoop_adv (v.length + 1) true v o hv (by omega) hg (by simp; omega)
  simp only [Bool.not_true] at this
  rw [this, putCrlf_adv (by simpa using hg) (by simp; omega), adv_adv]

theorem sendHeaders_adv (hs : List Header) (hok : ∀ h ∈ hs, HeaderOk h) (o : Out) (hg : o.good = true)
    (hr : (headersText hs).length ≤ o.room) :
    sendHeaders hs ⟨o, .headerName⟩ = ⟨adv o (headersText hs), .headerName⟩ := by
  induction hs generalizing o with
  | nil => simp [sendHeaders, headersText, adv_nil]
  | cons h hs ih =>
    have hh := hok h (by simp)
    have hlen : (headersText (h :: hs)).length =
        h.1.length + 2 + (norm false false h.2).length + 2 + (headersText hs).length := by
      rw [headersText_cons]; simp [crlf]; omega
    rw [sendHeaders, putHeaderName_adv h.1 hh.2.1 o hg (by omega)]
    dsimp only
    rw [putHeaderValue_adv h.2 hh.value _ (by simpa using hg) (by simp; omega)]
    dsimp only
    rw [adv_adv, ih (fun k hk => hok k (by simp [hk])) _ (by simpa using hg) (by simp [crlf]; omega), adv_adv,
      headersText_cons]
    simp

theorem headers_next (hs : List Header) (hok : ∀ h ∈ hs, HeaderOk h) (r : List Byte) :
    ∃ c x, headersText hs ++ (crlf ++ r) = c :: x ∧ isAscii c = true ∧ blank c = false := by
  cases hs with
  | nil => exact ⟨13, 10 :: r, rfl, by decide, by decide⟩
  | cons h hs =>
    obtain ⟨hne, ht, _⟩ := hok h (by simp)
    obtain ⟨n, v⟩ := h
    dsimp only at hne ht
    cases n with
    | nil => exact absurd rfl hne
    | cons a n =>
      have hp := printable_of_token (ht a (by simp))
      exact ⟨a, _, by rw [headersText_cons]; rfl, ascii_of_printable hp, blank_of_printable hp⟩

theorem recvHeaders_ok {fuel : Nat} (hs : List Header) (hok : ∀ h ∈ hs, HeaderOk h) (r : List Byte)
    (nb vb : List Byte) (hn : ∀ h ∈ hs, h.1.length < nb.length)
    (hv : ∀ h ∈ hs, (norm false false h.2).length < vb.length) (hnb : 0 < nb.length)
    (hn2 : nb.length < 2 ^ 64) (hv2 : vb.length < 2 ^ 64) (g : Nat) (f : Nat) (hff : hs.length < f)
    (hf : (headersText hs).length + 4 ≤ fuel) :
    ∃ nb' vb', recvHeaders fuel f ⟨In.ofList (headersText hs ++ (crlf ++ r)), .headerName, g⟩ nb vb =
      .ok ⟨⟨In.ofList r, .body, 0⟩, nb', vb', hs.map fun h => (h.1, norm false false h.2)⟩ ∧
      nb'.length = nb.length ∧ vb'.length = vb.length := by
  induction hs generalizing nb vb g f with
  | nil =>
    obtain ⟨f, rfl⟩ : ∃ k, f = k + 1 := ⟨f - 1, by simp at hff; omega⟩
    obtain ⟨nb', h1, h3⟩ := getHeaderName_end (fuel := fuel) r nb hnb hn2 g (by omega)
    refine ⟨nb', vb, ?_, h3.1, rfl⟩
    rw [recvHeaders, headersText, List.map_nil, List.flatten_nil, List.nil_append, h1, Res.ok_bind]
    simp
  | cons h hs ih =>
    obtain ⟨f, rfl⟩ : ∃ k, f = k + 1 := ⟨f - 1, by simp at hff; omega⟩
    have hh := hok h (by simp)
    have hlen : (headersText (h :: hs)).length =
        h.1.length + 2 + (norm false false h.2).length + 2 + (headersText hs).length := by
      rw [headersText_cons]; simp [crlf]; omega
    have hpos := List.length_pos_iff.2 hh.1
    obtain ⟨c, x, hcx, hca, hcb⟩ := headers_next hs (fun k hk => hok k (by simp [hk])) r
    -- first character of the value
    obtain ⟨d, y, hdy, hda, hdb⟩ : ∃ d y, norm false false h.2 ++ (crlf ++ (c :: x)) = d :: y ∧ isAscii d = true ∧
        blank d = false := by
      cases hnv : norm false false h.2 with
      | nil => exact ⟨13, 10 :: c :: x, rfl, by decide, by decide⟩
      | cons d y =>
        have hd := norm_chars false false h.2 hh.value d (by rw [hnv]; simp)
        refine ⟨d, _, rfl, ascii_of_value hd, ?_⟩
        cases hb : blank d with
        | false => rfl
        | true =>
          exfalso
          have hnn := norm_norm false false h.2
          have hlt := norm_length false false y
          rw [hnv, norm, if_pos hb] at hnn
          have h3 : ∀ (g : Bool) (v : List Byte) (z : Byte), z ∈ (norm false g v).head? → blank z = false := by
            intro g v
            induction v generalizing g with
            | nil => simp [norm]
            | cons a v ih2 =>
              intro z hz
              rw [norm] at hz
              split at hz
              · exact ih2 true z hz
              · simp at hz; subst hz; simpa using ‹¬ blank a = true›
          have := h3 false h.2 d (by rw [hnv]; simp)
          rw [hb] at this; cases this
    obtain ⟨nb1, h1, h3⟩ := getHeaderName_ok (fuel := fuel) h.1 hh.1 hh.2.1 d y hda hdb nb (hn h (by simp)) hn2 g (by omega)
    obtain ⟨vb1, h4, h5⟩ := getHeaderValue_ok (fuel := fuel) (norm false false h.2) (norm_chars _ _ _ hh.value) c x hca hcb vb
      (by rw [norm_norm]; exact hv h (by simp)) hv2 h.1.length (by omega)
    rw [norm_norm] at h4 h5
    obtain ⟨nb', vb', h6, h7, h8⟩ := ih (fun k hk => hok k (by simp [hk])) nb1 vb1
      (fun k hk => by rw [h3.1]; exact hn k (by simp [hk])) (fun k hk => by rw [h5.1]; exact hv k (by simp [hk]))
      (by rw [h3.1]; exact hnb) (by rw [h3.1]; exact hn2) (by rw [h5.1]; exact hv2) (norm false false h.2).length f
      (by simp at hff; omega) (by omega)
    refine ⟨nb', vb', ?_, by rw [h7, h3.1], by rw [h8, h5.1]⟩
    rw [recvHeaders, headersText_cons]
    simp only [List.append_assoc]
    rw [hcx, hdy, ← List.append_assoc, List.append_assoc, h1, Res.ok_bind]
    dsimp only
    rw [if_neg (by omega)]
    rw [hdy] at h4
    rw [h4, Res.ok_bind]
    dsimp only
    rw [← hcx, h6, Res.ok_bind]
    simp [h3.2, h5.2]

end Abc.Http
