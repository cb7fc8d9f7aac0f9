import Verif.Http.Short
import Verif.Json.Short
import Verif.Samples.EquationsWireTotal

/-!
# Short hostile input

What the three servers do with at most 1024 bytes of anything: memory is not corrupted and the process is not ended.  The worst
that can happen is that a thread reads for ever.
-/

namespace Abc.ShortInput

open Abc.Ascii Abc.Stream Abc.Http Abc.Wire Abc.Json Abc.GameWire
open Abc.Endpoint (Config str mem)

/-- Nothing or one complete response was sent. -/
def Sent {S : Type} (y : S × Outcome) : Prop := ∃ out sd, y.2 = .sent out sd ∧ (out = [] ∨ Complete out)

theorem safe_returned {S : Type} {x : DoneOf S} (h : GameWire.Returned x) : Json.Safe Sent x := by
  obtain ⟨srv', out, sd, rfl, h⟩ := h
  exact ⟨out, sd, rfl, h⟩

theorem safe_cases {S : Type} {x : DoneOf S} (h : Json.Safe Sent x) : x = .running ∨ GameWire.Returned x := by
  cases x with
  | ok y => obtain ⟨out, sd, h1, h2⟩ := h; exact .inr ⟨y.1, out, sd, by rw [← h1], h2⟩
  | ub => exact h.elim
  | running => exact .inl rfl

/-- Bytes that cannot harm: at most 1024, and nowhere more than 25 characters of a number in a row. -/
structure Mild (bytes : List Byte) : Prop where
  short : bytes.length ≤ 1024
  runs : ∀ r, r <:+ bytes → run r ≤ 25

theorem Mild.suffix {a b : List Byte} (h : Mild b) (ha : a <:+ b) : Mild a :=
  ⟨Nat.le_trans ha.length_le h.short, fun r hr => h.runs r (hr.trans ha)⟩

/-! ## The request line and the headers -/

theorem requestLine_forward {cfg : Config} {fuel : Nat} {mm mp mc bytes : List Byte} {l : Wire.Line}
    (h : requestLine cfg fuel mm mp mc bytes = .ok (some l)) : l.st.s.rest <:+ bytes := by
  unfold requestLine at h
  cases ha : getMethod fuel ⟨{ rest := bytes }, .method, 0⟩ mm 33 with
  | ub => rw [ha] at h; cases h
  | running => rw [ha] at h; cases h
  | ok a =>
    rw [ha, Res.ok_bind] at h
    split at h
    · cases h
    split at h
    · cases h
    cases hb : getResource fuel a.st (0 :: mp.drop (cfg.rootDir.length + 1)) (sub64 2049 cfg.rootDir.length) with
    | ub => rw [hb] at h; cases h
    | running => rw [hb] at h; cases h
    | ok b =>
      rw [hb, Res.ok_bind] at h
      split at h
      · cases h
      cases hc : getRequestProtocol fuel b.st mc 17 with
      | ub => rw [hc] at h; cases h
      | running => rw [hc] at h; cases h
      | ok c =>
        rw [hc, Res.ok_bind] at h
        split at h
        · cases h
        cases h
        exact ((getRequestProtocol_forward _ _ _ _ c hc).trans (getResource_forward _ _ _ _ b hb)).trans (getMethod_forward _ _ _ _ a ha)

/-- What one iteration over the headers needs to know. -/
theorem name_short {fuel : Nat} {st : Rd} {hm : List Byte} (hn : st.next = .headerName) (hl : hm.length = 1025) (hf : st.s.rest.length + 1 < fuel) :
    ∃ a, getHeaderName fuel st hm 1025 = .ok a ∧ a.thrown = false ∧ a.mem.length = 1025 ∧ (0 : Byte) ∈ a.mem ∧ a.st.s.rest <:+ st.s.rest ∧
      (a.st.gcount ≠ 0 → a.st.next = .headerValue ∧ a.st.s.meas < st.s.meas) := by
  obtain ⟨a, h1, h2, h3⟩ := reader_safe_partial .headerName st hm 1025 (by decide) (by decide) (by omega) fuel hf
  obtain ⟨h4, h5, h6⟩ := rcall_in_order .headerName st hm 1025 fuel a hn h1
  obtain ⟨_, h7⟩ := h2.nul h4 (by simp)
  refine ⟨a, h1, h4, by rw [h2.same.1, hl], List.mem_of_getElem? h7, getHeaderName_forward fuel st hm 1025 a h1, fun h => ?_⟩
  refine ⟨h5.resolve_right fun h5 => h ((h6 rfl).1 h5), ?_⟩
  have h8 := getHeaderName_count h1 hn
  omega

theorem value_short {fuel : Nat} {st : Rd} {hm : List Byte} (hn : st.next = .headerValue) (hl : hm.length = 1025) (hs : st.s.rest.length ≤ 1024)
    (hf : st.s.rest.length + 1 < fuel) :
    ∃ a, getHeaderValue fuel st hm 1025 = .ok a ∧ a.thrown = false ∧ a.mem.length = 1025 ∧ (0 : Byte) ∈ a.mem ∧ a.st.s.rest <:+ st.s.rest ∧
      a.st.next = .headerName ∧ a.st.s.meas ≤ st.s.meas := by
  obtain ⟨a, h1, h2, h3⟩ := reader_safe_partial .headerValue st hm 1025 (by decide) (by decide) (by omega) fuel hf
  obtain ⟨h4, h5, h6⟩ := getHeaderValue_short (by decide) (by decide) h1 hn (by have := meas_le st.s; omega)
  obtain ⟨_, h7⟩ := h2.nul h6 (by simp)
  exact ⟨a, h1, h6, by rw [h2.same.1, hl], List.mem_of_getElem? h7, h4, h5, h3⟩

theorem equal_defined {m n : List Byte} (cs : Bool) (k : Nat) (h1 : (0 : Byte) ∈ m) (h2 : (0 : Byte) ∈ n) :
    ∃ b, areEqual (some m) (some n) cs k = some b := ⟨_, are_equal_correct cs m n k h1 h2⟩

/-- How the headers of short input can end. -/
def HeadersShort (s : In) : GameWire.Headers → Prop
  | .json st => st.s.rest <:+ s.rest
  | .refused _ _ => True
  | .missing => True
  | .thrown => False

theorem headerLoop_short {fuel : Nat} (f : Nat) : ∀ (has : Bool) (st : Rd) (hm : List Byte), st.next = .headerName → hm.length = 1025 →
    st.s.rest.length ≤ 1024 → st.s.rest.length + 1 < fuel → Json.Safe (HeadersShort st.s) (GameWire.headerLoop fuel f has st hm) := by
  induction f with
  | zero => intro has st hm _ _ _ _; trivial
  | succ f ih =>
    intro has st hm hn hl hs hf
    obtain ⟨a, a1, a2, a3, a4, a5, a6⟩ := name_short hn hl hf
    have a7 := a5.length_le
    rw [GameWire.headerLoop, a1, Res.ok_bind, if_neg (by simp [a2])]
    split
    · split
      · exact a5
      · trivial
    · rename_i hg
      obtain ⟨e, he⟩ := equal_defined false sizeMax a4 (show (0 : Byte) ∈ str "Content-Type" ++ [0] by simp)
      obtain ⟨b, b1, b2, b3, b4, b5, b6, b8⟩ := value_short (fuel := fuel) (a6 hg).1 a3 (by omega) (by omega)
      have b7 := b5.length_le
      have hnext : ∀ has', Json.Safe (HeadersShort st.s) (GameWire.headerLoop fuel f has' b.st b.mem) := fun has' =>
        (ih has' b.st b.mem b6 b3 (by omega) (by omega)).mono fun h hh => by
          cases h <;> first | exact trivial | exact hh.elim | exact (hh : _ <:+ _).trans (b5.trans a5)
      have he' : areEqualI (some a.mem) (mem (str "Content-Type")) = some e := he
      rw [he']
      cases e with
      | true =>
        dsimp only
        split
        · trivial
        · rw [b1, Res.ok_bind, if_neg (by simp [b2])]
          obtain ⟨e2, he2⟩ := equal_defined false jsonType.length b4 (show (0 : Byte) ∈ jsonType ++ [0] by simp)
          have he3 : areEqualIN (some b.mem) (mem jsonType) jsonType.length = some e2 := he2
          rw [he3]
          cases e2 with
          | true => exact hnext true
          | false => trivial
      | false =>
        dsimp only
        rw [b1, Res.ok_bind, if_neg (by simp [b2])]
        exact hnext has

/-! ## Bodies -/

/-- A token buffer, and input that it has room for. -/
structure Holds (j : Jr) (b : List Byte) (n : Nat) : Prop where
  buf : b.length = 1041
  short : j.s.rest.length ≤ n
  runs : Runs j.s

theorem getTok_short {c : Ctx} (hc : CtxOk c) {j : Jr} {b : List Byte} {n : Nat} (h : Holds j b n) (hn : n ≤ 1031) :
    Json.Safe (fun t => Holds t.st (Tok.block t) n ∧
      (t.item = .property ∨ t.item = .string → ∃ k, k ≤ n + 1 ∧ (Tok.value t)[k]? = some 0)) (getTok c j b) := by
  have h1 := h.buf
  have h2 := h.short
  refine (readToken_short (max := 64) hc.atof (fuel := c.fuel) (size := 1041) (buf := some b) h.runs
    (fun m hm => by cases hm; exact ⟨by omega, by omega⟩)).mono ?_
  rintro t ⟨k1, k2, k3⟩
  have k4 := k2.length
  cases ht : t.buf with
  | none => rw [ht] at k1; exact k1.elim
  | some m =>
    rw [ht] at k1 k3
    have hm : m.length = b.length := k1
    have hb : Tok.block t = m := by simp [Tok.block, ht]
    refine ⟨⟨by rw [hb]; omega, by omega, h.runs.le k2⟩, fun hi => ?_⟩
    obtain ⟨k, k5, k6⟩ := k3 hi m rfl
    refine ⟨k, by omega, ?_⟩
    rw [Tok.value, hb, List.getElem?_drop]
    exact k6

theorem value_equal {t : Tok} {n : Nat} {name : List Byte} (h : ∃ k, k ≤ n + 1 ∧ (Tok.value t)[k]? = some 0) :
    ∃ e, areEqualC (some (Tok.value t)) (mem name) = some e := by
  obtain ⟨k, _, h⟩ := h
  exact equal_defined true sizeMax (List.mem_of_getElem? h) (show (0 : Byte) ∈ name ++ [0] by simp)

theorem first_holds {c : Ctx} (hc : CtxOk c) {body : List Byte} (h : Mild body) : Holds { s := { rest := body } } c.token body.length :=
  ⟨hc.token, Nat.le_refl _, h.runs⟩

theorem expectName_short {c : Ctx} (hc : CtxOk c) {t : Tok} {n : Nat} (h : Holds t.st (Tok.block t) n) (hn : n ≤ 1031) (name : List Byte) :
    Json.Safe (fun x => ∀ t' ∈ x, Holds t'.st (Tok.block t') n) (expectName c name t) := by
  unfold expectName
  refine (getTok_short hc h hn).bind ?_
  rintro t' ⟨k1, k2⟩
  split
  · intro t' ht; cases ht
  · rename_i hi
    obtain ⟨e, he⟩ := value_equal (name := name) (k2 (.inl (by simpa using hi)))
    rw [he]
    cases e with
    | false => intro t' ht; cases ht
    | true => intro t2 ht; cases ht; exact k1

/-! ## What the servers share -/

theorem whenPost_short {S : Type} {c : Ctx} (hc : CtxOk c) (srv : S) (st : Rd) {m : List Byte} (h0 : (0 : Byte) ∉ m) (hl : m.length ≤ 32) {k : DoneOf S}
    (hk : m.map lower = str "post" → Json.Safe Sent k) : Json.Safe Sent (whenPost c srv st m k) := by
  by_cases h : m.map lower = str "post"
  · unfold whenPost
    rw [post_is h0 hl]
    simp only [h, decide_true]
    exact hk h
  · exact safe_returned (replies_post hc srv st h0 hl fun h' => absurd h' h).returned

theorem whenJson_short {S : Type} {c : Ctx} (hc : CtxOk c) (srv : S) {st : Rd} (hn : st.next = .headerName) (hs : st.s.rest.length ≤ 1024)
    (hf : st.s.rest.length + 1 < c.fuel) {k : Rd → DoneOf S}
    (hk : ∀ st', headerLoop c.fuel c.fuel false st c.header = .ok (.json st') → st'.s.rest <:+ st.s.rest → Json.Safe Sent (k st')) :
    Json.Safe Sent (whenJson c srv st k) := by
  unfold whenJson
  refine ((headerLoop_short c.fuel false st c.header hn hc.header hs hf).and (Q := fun h => headerLoop c.fuel c.fuel false st c.header = .ok h)
    fun h e => e).bind ?_
  rintro h ⟨h1, h2⟩
  cases h with
  | json st' => exact hk st' h2 h1
  | missing => exact ⟨[], false, rfl, .inl rfl⟩
  | refused st' body => exact safe_returned (replies_bad hc srv body (headerLoop_refused h2) st'.s).returned
  | thrown => exact h1.elim

/-- Short input to an endpoint whose handler does no harm. -/
theorem serveWith_short {S : Type} {cfg : Config} (hcfg : ConfigOk cfg) {stat : List Byte → Option Nat} {content : List Byte → List Byte}
    {c : Ctx} (he : Env stat content c.room) {mm mp mc : List Byte} (hmm : mm.length = 33) (hmp : mp.length = 2049) (hmc : mc.length = 17) {bytes : List Byte}
    (hf : bytes.length + 2 < c.fuel) (srv : S) (k : Rd → List Byte → List Byte → DoneOf S)
    (hk : ∀ l, requestLine cfg c.fuel mm mp mc bytes = .ok (some l) → (0 : Byte) ∉ l.method → l.method.length ≤ 32 → (0 : Byte) ∉ l.resource →
      l.resource.length ≤ 2048 → l.st.next = .headerName → l.st.s.rest <:+ bytes → Json.Safe Sent (k l.st l.method l.resource)) :
    Json.Safe Sent (serveWith cfg stat content c mm mp mc false srv k bytes) := by
  rcases CarWire.serveWith_any hcfg he hmm hmp hmc bytes hf srv k with ⟨sent, r, e, _, k2, _⟩ | ⟨l, hl, l1, l2, l3, l4, e⟩
  · rw [e]
    refine ⟨_, _, rfl, ?_⟩
    cases sent
    · exact .inl rfl
    · exact .inr k2
  · rw [e]
    refine hk l hl l1 l2 l3 l4 ?_ (requestLine_forward hl)
    obtain ⟨st, m, r, _, _, h5, _, h7⟩ := read_line cfg hcfg.root hcfg.short bytes mm mp mc hmm hmp hmc c.fuel hf
    rw [h7] at hl
    cases hl
    exact h5

/-! ## The car -/

section Car
open Abc.CarWire Abc.Car

theorem numberBody_short {c : Ctx} (hc : CtxOk c) (num : List Byte → Option Rat) (name : String) (lo hi : Int) {body : List Byte} (h : Mild body) :
    Json.Safe (fun _ => True) (numberBody c num name lo hi body) := by
  have hs := h.short
  unfold numberBody
  refine (getTok_short hc (first_holds hc h) (by omega)).bind ?_
  rintro t ⟨k1, -⟩
  split
  · trivial
  · refine (expectName_short hc k1 (by omega) (str name)).bind fun x hx => ?_
    cases x with
    | none => trivial
    | some t' =>
      dsimp only
      unfold expectNumber
      refine (getTok_short hc (hx t' rfl) (by omega)).bind ?_
      rintro t2 -
      split
      · trivial
      · split <;> trivial

theorem number_short {c : Ctx} (hc : CtxOk c) (num : List Byte → Option Rat) {car : Car} (hcar : Car.Fine car) (t : Target) {st : Rd} {m : List Byte}
    (h0 : (0 : Byte) ∉ m) (hl : m.length ≤ 32) (hn : st.next = .headerName) (hs : Mild st.s.rest) (hf : st.s.rest.length + 1 < c.fuel) :
    Json.Safe Sent (t.process c num car st m) := by
  rw [process_eq]
  refine whenPost_short hc _ st h0 hl fun _ => whenJson_short hc _ hn hs.short hf fun st' _ h2 => ?_
  refine (numberBody_short hc num _ _ _ (hs.suffix h2)).bind fun x _ => ?_
  cases x with
  | none => exact safe_returned (replies_bad hc _ _ (by cases t <;> decide +kernel) st'.s).returned
  | some n =>
    dsimp only
    split
    · rename_i ha
      have hrep := report_short (fine_step hcar (t.event n)) t ha
      obtain ⟨k1, k2, k3⟩ := succeed_any hc.room (body := t.report (step car (t.event n)).1 n) (by omega) st'.s
      have : Replies st'.s.good (.ok (step car (t.event n), succeed c st'.s (t.report (step car (t.event n)).1 n))) false := ⟨_, _, by rw [k3], k1, k2⟩
      exact safe_returned this.returned
    · exact safe_returned (replies_bad hc _ _ (by decide +kernel) st'.s).returned

/-- C88 and C100: at most 1024 bytes of anything without 26 characters of a number in a row, in any state of the car: nothing or one complete
response is sent, or reading never ends; there is neither undefined behaviour nor an exception. -/
theorem C88_short_partial {cfg : Config} (hcfg : ConfigOk cfg) {stat : List Byte → Option Nat} {content : List Byte → List Byte} {c : Ctx}
    (hc : CtxOk c) (he : Env stat content c.room) (num : List Byte → Option Rat) {bytes mm mp mc : List Byte} (hmm : mm.length = 33) (hmp : mp.length = 2049)
    (hmc : mc.length = 17) (hf : bytes.length + 2 < c.fuel) (hb : Mild bytes) {s : Sensors} (hs : s.Ok) {car : Car} (hcar : Car.Fine car) :
    CarWire.serve cfg stat content c num mm mp mc false s car bytes = .running ∨
    ∃ y out sd, CarWire.serve cfg stat content c num mm mp mc false s car bytes = .ok (y, .sent out sd) ∧ (out = [] ∨ Complete out) := by
  refine safe_cases (serveWith_short hcfg he hmm hmp hmc hf _ _ fun l _ l1 l2 l3 l4 l5 l6 => ?_)
  rcases target_cases l.resource with ⟨t, ht⟩ | hnt
  · rw [handler_target t l3 l4 ht]
    have := l6.length_le
    exact number_short hc num hcar t l1 l2 l5 (hb.suffix l6) (by omega)
  · exact safe_returned (CarWire.replies_other hc num hs car l.st l1 l2 l3 l4 hnt).returned

end Car

/-! ## The solver -/

section Solver
open Abc.EquationsWire

/-- How the headers of short input can end. -/
def DoneShort (s : In) : EquationsWire.Headers → Prop
  | .done st => st.s.rest <:+ s.rest
  | .refused _ _ => True
  | .thrown => False

theorem solverHeaders_short {fuel : Nat} (f : Nat) : ∀ (has : Bool) (st : Rd) (hm : List Byte), st.next = .headerName → hm.length = 1025 →
    st.s.rest.length ≤ 1024 → st.s.rest.length + 1 < fuel → Json.Safe (DoneShort st.s) (EquationsWire.headerLoop fuel f has st hm) := by
  induction f with
  | zero => intro has st hm _ _ _ _; trivial
  | succ f ih =>
    intro has st hm hn hl hs hf
    obtain ⟨a, a1, a2, a3, a4, a5, a6⟩ := name_short hn hl hf
    have a7 := a5.length_le
    rw [EquationsWire.headerLoop, a1, Res.ok_bind, if_neg (by simp [a2])]
    split
    · exact a5
    · rename_i hg
      obtain ⟨e, he⟩ := equal_defined false sizeMax a4 (show (0 : Byte) ∈ str "Content-Type" ++ [0] by simp)
      obtain ⟨b, b1, b2, b3, b4, b5, b6, b8⟩ := value_short (fuel := fuel) (a6 hg).1 a3 (by omega) (by omega)
      have b7 := b5.length_le
      have hnext : ∀ has', Json.Safe (DoneShort st.s) (EquationsWire.headerLoop fuel f has' b.st b.mem) := fun has' =>
        (ih has' b.st b.mem b6 b3 (by omega) (by omega)).mono fun h hh => by
          cases h <;> first | exact trivial | exact hh.elim | exact (hh : _ <:+ _).trans (b5.trans a5)
      have he' : areEqualI (some a.mem) (mem (str "Content-Type")) = some e := he
      rw [he']
      cases e with
      | true =>
        dsimp only
        split
        · trivial
        · rw [b1, Res.ok_bind, if_neg (by simp [b2])]
          obtain ⟨e2, he2⟩ := equal_defined false jsonType.length b4 (show (0 : Byte) ∈ jsonType ++ [0] by simp)
          have he3 : areEqualIN (some b.mem) (mem jsonType) jsonType.length = some e2 := he2
          rw [he3]
          cases e2 with
          | true => exact hnext true
          | false => trivial
      | false =>
        dsimp only
        rw [b1, Res.ok_bind, if_neg (by simp [b2])]
        exact hnext has

theorem parseArray2_short {c : Ctx} (hc : CtxOk c) {j : Jr} {b : List Byte} {n : Nat} (h : Holds j b n) (hn : n ≤ 1031) :
    Json.Safe (fun x => ∀ y ∈ x, Holds y.1.st (Tok.block y.1) n) (parseArray2 c j b) := by
  have hnone : Json.Safe (fun x => ∀ y ∈ x, Holds y.1.st (Tok.block y.1) n) (Res.ok (none : Option (Tok × List Byte × List Byte))) := by
    intro y hy; cases hy
  unfold parseArray2
  refine (getTok_short hc h hn).bind ?_
  rintro t ⟨k1, -⟩
  split
  · exact hnone
  refine (getTok_short hc k1 hn).bind ?_
  rintro x ⟨k2, -⟩
  split
  · exact hnone
  refine (getTok_short hc k2 hn).bind ?_
  rintro y ⟨k3, -⟩
  split
  · exact hnone
  refine (getTok_short hc k3 hn).bind ?_
  rintro e ⟨k4, -⟩
  split
  · exact hnone
  intro z hz
  cases hz
  exact k4

theorem parseA_short {c : Ctx} (hc : CtxOk c) {j : Jr} {b : List Byte} {n : Nat} (h : Holds j b n) (hn : n ≤ 1031) :
    Json.Safe (fun x => ∀ y ∈ x, Holds y.1.st (Tok.block y.1) n) (parseA c j b) := by
  have hnone : Json.Safe (fun x => ∀ y ∈ x, Holds y.1.st (Tok.block y.1) n)
      (Res.ok (none : Option (Tok × (List Byte × List Byte) × (List Byte × List Byte)))) := by
    intro y hy; cases hy
  unfold parseA
  refine (getTok_short hc h hn).bind ?_
  rintro t ⟨k1, -⟩
  split
  · exact hnone
  refine (parseArray2_short hc k1 hn).bind fun x hx => ?_
  match x with
  | none => exact hnone
  | some (t1, a0) =>
    refine (parseArray2_short hc (hx _ rfl) hn).bind fun x2 hx2 => ?_
    match x2 with
    | none => exact hnone
    | some (t2, a1) =>
      refine (getTok_short hc (hx2 _ rfl) hn).bind ?_
      rintro t3 ⟨k4, -⟩
      split
      · exact hnone
      · intro z hz
        cases hz
        exact k4

theorem skip_short {c : Ctx} {t : Tok} {n : Nat} (h : Holds t.st (Tok.block t) n) :
    Json.Safe (fun k => Holds k.st (Tok.block t) n) (skipValue 64 c.fuel t.st) :=
  (skipLoop_short c.fuel t.st h.runs).mono fun _ hk => ⟨h.buf, Nat.le_trans hk.length h.short, h.runs.le hk⟩

theorem problemLoop_short {c : Ctx} (hc : CtxOk c) {n : Nat} (hn : n ≤ 1031) (f : Nat) : ∀ (j : Jr) (b : List Byte) (got : EquationsWire.Got), Holds j b n →
    Json.Safe (fun _ => True) (problemLoop c f j b got) := by
  induction f with
  | zero => intro j b got _; trivial
  | succ f ih =>
    intro j b got h
    rw [problemLoop]
    refine (getTok_short hc h hn).bind ?_
    rintro t ⟨k1, k2⟩
    split
    · trivial
    split
    · trivial
    rename_i hi
    have k3 := k2 (.inl (by simpa using hi))
    obtain ⟨e, he⟩ := value_equal (name := str "a") k3
    rw [he]
    cases e with
    | true =>
      refine (parseA_short hc k1 hn).bind fun x hx => ?_
      match x with
      | none => trivial
      | some (t, a) => exact ih _ _ _ (hx _ rfl)
    | false =>
      obtain ⟨e2, he2⟩ := value_equal (name := str "b") k3
      dsimp only
      rw [he2]
      cases e2 with
      | true =>
        refine (parseArray2_short hc k1 hn).bind fun x hx => ?_
        match x with
        | none => trivial
        | some (t, a) => exact ih _ _ _ (hx _ rfl)
      | false => exact (skip_short k1).bind fun k hk => ih _ _ _ hk

theorem problemBody_short {c : Ctx} (hc : CtxOk c) {body : List Byte} (h : Mild body) : Json.Safe (fun _ => True) (problemBody c body) := by
  have hs := h.short
  unfold problemBody
  refine (getTok_short hc (first_holds hc h) (by omega)).bind ?_
  rintro t ⟨k1, -⟩
  split
  · trivial
  · refine (problemLoop_short hc (by omega) c.fuel t.st (Tok.block t) {} k1).bind fun x _ => ?_
    split <;> trivial

theorem problem_short {D : Type} {F : Arith D} (hF : ∀ d, Printed (F.text d)) {c : Ctx} (hc : CtxOk c) {st : Rd} (hn : st.next = .headerName)
    (hs : Mild st.s.rest) (hf : st.s.rest.length + 1 < c.fuel) : Json.Safe Sent (processProblem c F st) := by
  unfold processProblem
  refine ((solverHeaders_short c.fuel false st c.header hn hc.header hs.short hf).and
    (Q := fun h => EquationsWire.headerLoop c.fuel c.fuel false st c.header = .ok h) fun h e => e).bind ?_
  rintro h ⟨h1, h2⟩
  cases h with
  | thrown => exact h1.elim
  | refused st' body => exact safe_returned (replies_bad hc () body (EquationsWire.headerLoop_refused h2) st'.s).returned
  | done st' =>
    refine (problemBody_short hc (hs.suffix h1)).bind fun x _ => ?_
    match x with
    | none => exact safe_returned (replies_bad hc () _ (by decide +kernel) st'.s).returned
    | some (((a00, a01), (a10, a11)), (b0, b1)) =>
      dsimp only
      obtain ⟨n, hn, he⟩ := solve_status F (F.load a00) (F.load a01) (F.load a10) (F.load a11) (F.load b0) (F.load b1)
      obtain ⟨k1, k2⟩ := answer_body hn (hF (solve F (F.load a00) (F.load a01) (F.load a10) (F.load a11) (F.load b0) (F.load b1)).2.1)
        (hF (solve F (F.load a00) (F.load a01) (F.load a10) (F.load a11) (F.load b0) (F.load b1)).2.2)
      obtain ⟨k0, k3, k4⟩ := okJson_any hc.room k2 st'.s
      rw [he, k1, Res.ok_bind, k4]
      exact safe_returned (Replies.returned (g := st'.s.good) (sd := false) ⟨(), _, rfl, k0, k3⟩)

/-- C98 and C100: the same for the solver. -/
theorem C98_short_partial {D : Type} {F : Arith D} (hF : ∀ d, Printed (F.text d)) {cfg : Config} (hcfg : ConfigOk cfg) {stat : List Byte → Option Nat}
    {content : List Byte → List Byte} {c : Ctx} (hc : CtxOk c) (he : Env stat content c.room) {bytes mm mp mc : List Byte} (hmm : mm.length = 33)
    (hmp : mp.length = 2049) (hmc : mc.length = 17) (hf : bytes.length + 2 < c.fuel) (hb : Mild bytes) :
    EquationsWire.serve cfg stat content c F mm mp mc false bytes = .running ∨
    ∃ y out sd, EquationsWire.serve cfg stat content c F mm mp mc false bytes = .ok (y, .sent out sd) ∧ (out = [] ∨ Complete out) := by
  refine safe_cases (serveWith_short hcfg he hmm hmp hmc hf _ _ fun l _ l1 l2 l3 l4 l5 l6 => ?_)
  by_cases hp : l.method.map lower = str "post" ∧ l.resource.map lower = str "/problem"
  · rw [handler_eq F c l.st l1 l2 l3 l4, if_neg (fun h => by have := hp.2.symm.trans h.2; revert this; decide), if_neg (by simp [hp.2]),
      if_neg (by simp [hp.1])]
    have := l6.length_le
    exact problem_short hF hc l5 (hb.suffix l6) (by omega)
  · exact safe_returned (EquationsWire.replies_other F hc l.st l1 l2 l3 l4 hp).returned

end Solver

/-! ## The game -/

section Game
open Abc.GameServer (Server Trace Inv)

theorem expectCell_short {c : Ctx} (hc : CtxOk c) {t : Tok} {n : Nat} (h : Holds t.st (Tok.block t) n) (hn : n ≤ 1031) :
    Json.Safe (fun x => ∀ y ∈ x, Holds y.1.st (Tok.block y.1) n) (expectCell c t) := by
  unfold expectCell
  refine (getTok_short hc h hn).bind ?_
  rintro t' ⟨k1, -⟩
  split
  · intro y hy; cases hy
  · split
    · intro y hy; cases hy
    · intro y hy; cases hy; exact k1

theorem moveBody_short {c : Ctx} (hc : CtxOk c) {body : List Byte} (h : Mild body) : Json.Safe (fun _ => True) (moveBody c body) := by
  have hs := h.short
  have hn : body.length ≤ 1031 := by omega
  unfold moveBody
  refine (getTok_short hc (first_holds hc h) hn).bind ?_
  rintro t ⟨k1, -⟩
  split
  · trivial
  refine (expectName_short hc k1 hn _).bind fun x hx => ?_
  cases x with
  | none => trivial
  | some t1 =>
    refine (expectCell_short hc (hx _ rfl) hn).bind fun x2 hx2 => ?_
    match x2 with
    | none => trivial
    | some (t2, row) =>
      refine (expectName_short hc (hx2 _ rfl) hn _).bind fun x3 hx3 => ?_
      cases x3 with
      | none => trivial
      | some t3 =>
        refine (expectCell_short hc (hx3 _ rfl) hn).bind fun x4 hx4 => ?_
        match x4 with
        | none => trivial
        | some (t4, col) => trivial

theorem copy_short {t : Tok} {n : Nat} (hn : n ≤ 63) (h : ∃ k, k ≤ n + 1 ∧ (Tok.value t)[k]? = some 0) :
    ∃ x, copy65 (Tok.value t) = .ok x := by
  obtain ⟨k, h1, h2⟩ := h
  obtain ⟨_, h3⟩ := cstr_text (Tok.value t) k 65 (by omega) h2
  exact ⟨_, by rw [copy65, if_pos ⟨List.mem_of_getElem? h2, by omega⟩]⟩

theorem playersLoop_short {c : Ctx} (hc : CtxOk c) {n : Nat} (hn : n ≤ 63) (f : Nat) : ∀ (j : Jr) (b : List Byte) (got : Option (List Byte × List Byte)),
    Holds j b n → Json.Safe (fun _ => True) (playersLoop c f j b got) := by
  have hn' : n ≤ 1031 := by omega
  induction f with
  | zero => intro j b got _; trivial
  | succ f ih =>
    intro j b got h
    rw [playersLoop]
    refine (getTok_short hc h hn').bind ?_
    rintro t ⟨k1, k2⟩
    split
    · trivial
    split
    · trivial
    rename_i hi
    obtain ⟨e, he⟩ := value_equal (name := str "players") (k2 (.inl (by simpa using hi)))
    rw [he]
    cases e with
    | false => exact (skip_short k1).bind fun k hk => ih _ _ _ hk
    | true =>
      refine (getTok_short hc k1 hn').bind ?_
      rintro a ⟨a1, -⟩
      split
      · trivial
      refine (getTok_short hc a1 hn').bind ?_
      rintro x ⟨x1, x2⟩
      split
      · trivial
      rename_i hx
      obtain ⟨px, hpx⟩ := copy_short hn (x2 (.inr (by simpa using hx)))
      rw [hpx, Res.ok_bind]
      refine (getTok_short hc x1 hn').bind ?_
      rintro y ⟨y1, y2⟩
      split
      · trivial
      rename_i hy
      obtain ⟨py, hpy⟩ := copy_short hn (y2 (.inr (by simpa using hy)))
      rw [hpy, Res.ok_bind]
      refine (getTok_short hc y1 hn').bind ?_
      rintro z ⟨z1, -⟩
      split
      · trivial
      exact ih _ _ _ z1

theorem playersBody_short {c : Ctx} (hc : CtxOk c) {body : List Byte} (h : Mild body) (hl : body.length ≤ 63) :
    Json.Safe (fun _ => True) (playersBody c body) := by
  unfold playersBody
  refine (getTok_short hc (first_holds hc h) (by omega)).bind ?_
  rintro t ⟨k1, -⟩
  split
  · trivial
  refine (playersLoop_short hc hl c.fuel t.st (Tok.block t) none k1).bind fun x _ => ?_
  match x with
  | none => trivial
  | some none => trivial
  | some (some (px, py)) =>
    obtain ⟨tx, htx⟩ := fromText_any px
    obtain ⟨ty, hty⟩ := fromText_any py
    dsimp only
    rw [htx]
    cases tx with
    | none => trivial
    | some tx =>
      dsimp only
      rw [hty]
      cases ty <;> trivial

theorem create_short {t : Trace} {srv : Server} (hi : Inv srv t) {c : Ctx} (hc : CtxOk c) (d : Draw) {st : Rd} {m : List Byte} (h0 : (0 : Byte) ∉ m)
    (hl : m.length ≤ 32) (hn : st.next = .headerName) (hs : Mild st.s.rest) (hf : st.s.rest.length + 1 < c.fuel)
    (hb : m.map lower = str "post" → ∀ st', headerLoop c.fuel c.fuel false st c.header = .ok (.json st') → st'.s.rest.length ≤ 63) :
    Json.Safe Sent (createGame c srv d st m) := by
  unfold createGame
  refine whenPost_short hc _ st h0 hl fun hm => whenJson_short hc _ hn hs.short hf fun st' h1 h2 => ?_
  refine ((playersBody_short hc (hs.suffix h2) (hb hm st' h1)).and (Q := fun x => playersBody c st'.s.rest = .ok x) fun x e => e).bind ?_
  rintro x ⟨-, hx⟩
  cases x with
  | error msg => exact safe_returned (replies_bad hc srv msg (playersBody_error hx) st'.s).returned
  | ok v =>
    obtain ⟨tx, to_⟩ := v
    dsimp only
    have hans := GameServer.answer_create hi tx to_ d.game d.x d.o
    generalize GameServer.create srv tx to_ d.game d.x d.o = res at hans
    obtain ⟨srv', a⟩ := res
    dsimp only at hans
    rcases small_of_answer hi.reach hans.2 (by simp) with hs | ⟨n, rfl⟩
    · cases a <;> first | exact hs.elim | exact safe_returned (replies_succeed hc srv' hs st'.s).returned
    · exact safe_returned (replies_refuse hc srv' 503 _ (by decide) (by decide +kernel) (by decide +kernel) st'.s).returned

theorem move_short {t : Trace} {srv : Server} (hi : Inv srv t) {c : Ctx} (hc : CtxOk c) {st : Rd} {m : List Byte} (h0 : (0 : Byte) ∉ m)
    (hl : m.length ≤ 32) (hn : st.next = .headerName) (hs : Mild st.s.rest) (hf : st.s.rest.length + 1 < c.fuel) (g p : Nat) (w : List Byte) :
    Json.Safe Sent (acceptMove c srv st m g p w) := by
  unfold acceptMove
  have hw : ∃ x, areEqualI (mem w) (mem (str "moves")) = some x := equal_defined false sizeMax (by simp) (by simp)
  obtain ⟨x, hx⟩ := hw
  rw [hx]
  cases x with
  | false => exact safe_returned (replies_bad hc srv badResource (by decide +kernel) _).returned
  | true =>
    refine whenPost_short hc _ st h0 hl fun _ => whenJson_short hc _ hn hs.short hf fun st' _ h2 => ?_
    split
    · exact safe_returned (replies_bad hc srv badResource (by decide +kernel) st'.s).returned
    rename_i h0
    refine ((moveBody_short hc (hs.suffix h2)).and (Q := fun x => moveBody c st'.s.rest = .ok x) fun x e => e).bind ?_
    rintro x ⟨-, hx⟩
    cases x with
    | none => exact safe_returned (replies_bad hc srv _ (by decide +kernel) st'.s).returned
    | some mv =>
      dsimp only
      obtain ⟨srv', a, hmv, hinv, hans⟩ := GameServer.answer_move hi (BitVec.ofNat 32 g) (BitVec.ofNat 32 p) mv
      have hob := moveBody_board hc.cell hx
      rw [hmv]
      rcases small_of_answer hi.reach hans (by simp) with hs | ⟨n, rfl⟩
      · cases a <;> first | exact hs.elim | exact safe_returned (replies_succeed hc srv' hs st'.s).returned
      · have hn : n = 403 ∨ n = 404 := by
          cases hans with
          | moveBad h =>
            exfalso
            rcases h with h | h | h
            · exact h0 (.inl h)
            · exact h0 (.inr h)
            · exact h hob
          | moveUnknown => simp
          | moveRefused => simp
        rcases hn with rfl | rfl
        · exact safe_returned (replies_refuse hc srv' 403 _ (by decide) (by decide +kernel) (by decide +kernel) st'.s).returned
        · exact safe_returned (replies_refuse hc srv' 404 _ (by decide) (by decide +kernel) (by split <;> decide +kernel) st'.s).returned

/-- C67 and C100: the same for the game, in any state that can be reached.  The body of a request for a new game has to be shorter than 64 bytes: the
names of the players are copied into arrays of 65. -/
theorem C67_short_partial {cfg : Config} (hcfg : ConfigOk cfg) {stat : List Byte → Option Nat} {content : List Byte → List Byte} {c : Ctx}
    (hc : CtxOk c) (he : Env stat content c.room) {bytes mm mp mc : List Byte} (hmm : mm.length = 33) (hmp : mp.length = 2049) (hmc : mc.length = 17)
    (hf : bytes.length + 2 < c.fuel) (hb : Mild bytes) {srv : Server} {t : Trace} (hi : Inv srv t) (d : Draw)
    (hp : ∀ l st, requestLine cfg c.fuel mm mp mc bytes = .ok (some l) → l.method.map lower = str "post" → l.resource.map lower = str "/games" →
      headerLoop c.fuel c.fuel false l.st c.header = .ok (.json st) → st.s.rest.length ≤ 63) :
    GameWire.serve cfg stat content c mm mp mc false srv d bytes = .running ∨
    ∃ srv' out sd, GameWire.serve cfg stat content c mm mp mc false srv d bytes = .ok (srv', .sent out sd) ∧ (out = [] ∨ Complete out) := by
  refine safe_cases (serveWith_short hcfg he hmm hmp hmc hf _ _ fun l hl l1 l2 l3 l4 l5 l6 => ?_)
  have l7 := l6.length_le
  by_cases hg : Endpoint.startsWithI (str "/games") l.resource
  · have hpre : (l.resource.take 6).map lower = str "/games" := by
      obtain ⟨x, hx⟩ := hg
      rw [List.map_take, ← hx, List.take_append_of_le_length (by decide)]
      decide
    rw [games_handler srv d l.st l.method (tail := l.resource.drop 6) hpre (by simp) l3 l4]
    split
    · rename_i hd
      have hr : l.resource.map lower = str "/games" := by
        rw [← hpre, List.take_of_length_le (List.drop_eq_nil_iff.1 hd)]
      exact create_short hi hc d l1 l2 l5 (hb.suffix l6) (by omega) fun hm st' hst => hp l st' hl hm hr hst
    · split
      · exact move_short hi hc l1 l2 l5 (hb.suffix l6) (by omega) _ _ _
      · exact safe_returned (replies_claim hi hc l.st l1 l2 _ _).returned
      · exact safe_returned (replies_moves hi hc l.st l1 l2 _ _).returned
      · exact ⟨[], false, rfl, .inl rfl⟩
  · exact safe_returned (GameWire.replies_other hc srv d l.st l1 l2 l3 l4 hg).returned

end Game

/-! ## Without quotation marks -/

/-- Bytes that cannot harm and cannot block. -/
structure Calm (bytes : List Byte) : Prop extends Mild bytes where
  quiet : (34 : Byte) ∉ bytes

theorem Calm.suffix {a b : List Byte} (h : Calm b) (ha : a <:+ b) : Calm a :=
  ⟨h.toMild.suffix ha, fun hm => h.quiet (ha.subset hm)⟩

theorem returned_of {α : Type} {P : α → Prop} {x : Res α} (h : Json.Safe P x) (hr : Json.Returned x) : ∃ a, x = .ok a ∧ P a := by
  cases x with
  | ok a => exact ⟨a, rfl, h⟩
  | ub => exact h.elim
  | running => exact absurd rfl hr

/-- Without a quotation mark there is no property. -/
theorem readToken_quiet {max : Nat} {atof : List Byte → List Byte} {fuel size : Nat} {st : Jr} {buf : Option (List Byte)} (h : (34 : Byte) ∉ st.s.rest)
    (hf : st.s.rest.length + 1 < fuel) :
    Json.Returned (readToken max atof fuel st buf size) ∧ ∀ t, readToken max atof fuel st buf size = .ok t → t.item ≠ .property := by
  have hq : ∀ k, skipChars fuel valid jsonIsSpace st.s = .ok k → k.s.peekV ≠ 34 := by
    intro k hk hp
    exact h ((skipCharsLoop_le fuel st.s 0 k hk).1.subset (peekV_mem hp (by decide)))
  refine ⟨readToken_returned (by have := meas_le st.s; omega) fun k hk hp => absurd hp (hq k hk), fun t ht => ?_⟩
  unfold readToken at ht
  cases hk : skipChars fuel valid jsonIsSpace st.s with
  | ub => rw [hk] at ht; cases ht
  | running => rw [hk] at ht; cases ht
  | ok k =>
    rw [hk, Res.ok_bind] at ht
    have hn := hq k hk
    have hp : ∀ p, (if expectProperty st.expect st.levels then propPart fuel size k.s.peekV k.s.peekS st buf
        else valuePart max atof fuel size k.s.peekV k.s.peekS st buf) = .ok p → p.item ≠ .property := by
      intro p hp
      split at hp
      · unfold propPart at hp
        rw [if_neg hn] at hp
        split at hp
        · split at hp <;> (cases hp; simp)
        · cases hp; simp
      · have hbuf : ∀ (x : Res (Option (List Byte))) (f : Option (List Byte) → Part), (∀ b, (f b).item ≠ .property) →
            (x.bind fun b => .ok (f b)) = .ok p → p.item ≠ .property := by
          intro x f hf hx
          cases x with
          | ub => cases hx
          | running => cases hx
          | ok b => cases hx; exact hf b
        unfold valuePart at hp
        dsimp only at hp
        split at hp
        · cases hp; dsimp only; split <;> simp
        split at hp
        · split at hp
          · exact hbuf _ _ (by simp) hp
          · cases hp; simp
        split at hp
        · split at hp
          · exact hbuf _ _ (by simp) hp
          · cases hp; simp
        split at hp
        · cases hg : getNumber fuel k.s.peekS with
          | ub => rw [hg] at hp; cases hp
          | running => rw [hg] at hp; cases hp
          | ok g => rw [hg, Res.ok_bind] at hp; exact hbuf _ _ (by simp) hp
        split at hp
        · cases hp; unfold levelPart; split <;> simp
        split at hp
        · cases hp; unfold levelPart; split <;> simp
        split at hp
        · cases hp; unfold levelPart; split <;> simp
        · cases hp; simp
    cases hx : (if expectProperty st.expect st.levels then propPart fuel size k.s.peekV k.s.peekS st buf
        else valuePart max atof fuel size k.s.peekV k.s.peekS st buf) with
    | ub => rw [hx] at ht; cases ht
    | running => rw [hx] at ht; cases ht
    | ok p =>
      rw [hx, Res.ok_bind] at ht
      have hp := hp p hx
      cases h3 : trailPart fuel p with
      | ub => rw [h3] at ht; cases ht
      | running => rw [h3] at ht; cases ht
      | ok s3 =>
        rw [h3, Res.ok_bind] at ht
        cases h4 : bufItem p.item p.buf with
        | ub => rw [h4] at ht; cases ht
        | running => rw [h4] at ht; cases ht
        | ok b4 =>
          rw [h4, Res.ok_bind] at ht
          cases ht
          exact hp

/-- A token of such input: it is read, and is not a property. -/
theorem getTok_quiet {c : Ctx} (hc : CtxOk c) {j : Jr} {b : List Byte} {n : Nat} (h : Holds j b n) (hn : n ≤ 1031) (hf : n + 1 < c.fuel)
    (hq : (34 : Byte) ∉ j.s.rest) :
    ∃ t, getTok c j b = .ok t ∧ Holds t.st (Tok.block t) n ∧ t.item ≠ .property ∧ (34 : Byte) ∉ t.st.s.rest := by
  have hs := h.short
  obtain ⟨h1, h2⟩ := readToken_quiet (max := 64) (atof := c.atof) (fuel := c.fuel) (size := 1041) (st := j) (buf := some b) hq (by omega)
  have hb := h.buf
  have h3 := readToken_short (max := 64) hc.atof (fuel := c.fuel) (size := 1041) (buf := some b) h.runs
    (fun m hm => by cases hm; exact ⟨by omega, by omega⟩)
  obtain ⟨t, e, k1, _⟩ := returned_of (getTok_short hc h hn) h1
  have e' : readToken 64 c.atof c.fuel j (some b) 1041 = .ok t := e
  rw [e'] at h3
  exact ⟨t, e, k1, h2 t e', fun hm => hq (h3.2.1.1.subset hm)⟩

theorem headerLoop_returned {fuel : Nat} (f : Nat) : ∀ (has : Bool) (st : Rd) (hm : List Byte), st.next = .headerName → hm.length = 1025 →
    st.s.rest.length ≤ 1024 → st.s.rest.length + 1 < fuel → st.s.meas < f → Json.Returned (GameWire.headerLoop fuel f has st hm) := by
  induction f with
  | zero => intro has st hm _ _ _ _ h; omega
  | succ f ih =>
    intro has st hm hn hl hs hf hm'
    obtain ⟨a, a1, a2, a3, a4, a5, a6⟩ := name_short hn hl hf
    have a7 := a5.length_le
    rw [GameWire.headerLoop, a1, Res.ok_bind, if_neg (by simp [a2])]
    split
    · exact returned_ok _
    · rename_i hg
      obtain ⟨b, b1, b2, b3, b4, b5, b6, b8⟩ := value_short (fuel := fuel) (a6 hg).1 a3 (by omega) (by omega)
      have b7 := b5.length_le
      have a8 := (a6 hg).2
      have hnext : ∀ has', Json.Returned (GameWire.headerLoop fuel f has' b.st b.mem) := fun has' =>
        ih has' b.st b.mem b6 b3 (by omega) (by omega) (by omega)
      split
      · simp [Json.Returned]
      · split
        · exact returned_ok _
        · rw [b1, Res.ok_bind, if_neg (by simp [b2])]
          split
          · simp [Json.Returned]
          · exact returned_ok _
          · exact hnext true
      · rw [b1, Res.ok_bind, if_neg (by simp [b2])]
        exact hnext has

theorem solverHeaders_returned {fuel : Nat} (f : Nat) : ∀ (has : Bool) (st : Rd) (hm : List Byte), st.next = .headerName → hm.length = 1025 →
    st.s.rest.length ≤ 1024 → st.s.rest.length + 1 < fuel → st.s.meas < f → Json.Returned (EquationsWire.headerLoop fuel f has st hm) := by
  induction f with
  | zero => intro has st hm _ _ _ _ h; omega
  | succ f ih =>
    intro has st hm hn hl hs hf hm'
    obtain ⟨a, a1, a2, a3, a4, a5, a6⟩ := name_short hn hl hf
    have a7 := a5.length_le
    rw [EquationsWire.headerLoop, a1, Res.ok_bind, if_neg (by simp [a2])]
    split
    · exact returned_ok _
    · rename_i hg
      obtain ⟨b, b1, b2, b3, b4, b5, b6, b8⟩ := value_short (fuel := fuel) (a6 hg).1 a3 (by omega) (by omega)
      have b7 := b5.length_le
      have a8 := (a6 hg).2
      have hnext : ∀ has', Json.Returned (EquationsWire.headerLoop fuel f has' b.st b.mem) := fun has' =>
        ih has' b.st b.mem b6 b3 (by omega) (by omega) (by omega)
      split
      · simp [Json.Returned]
      · split
        · exact returned_ok _
        · rw [b1, Res.ok_bind, if_neg (by simp [b2])]
          split
          · simp [Json.Returned]
          · exact returned_ok _
          · exact hnext true
      · rw [b1, Res.ok_bind, if_neg (by simp [b2])]
        exact hnext has

/-- The first token of a body without quotation marks is read; if it begins an object, the second is no property. -/
theorem first_quiet {c : Ctx} (hc : CtxOk c) {body : List Byte} (h : Calm body) (hf : body.length + 1 < c.fuel) :
    ∃ t, getTok c { s := { rest := body } } c.token = .ok t ∧
      ∃ t2, getTok c t.st (Tok.block t) = .ok t2 ∧ t2.item ≠ .property := by
  have hs := h.short
  obtain ⟨t, e, k1, _, k3⟩ := getTok_quiet hc (first_holds hc h.toMild) (by omega) hf h.quiet
  obtain ⟨t2, e2, _, k4, _⟩ := getTok_quiet hc k1 (by omega) hf k3
  exact ⟨t, e, t2, e2, k4⟩

theorem numberBody_quiet {c : Ctx} (hc : CtxOk c) (num : List Byte → Option Rat) (name : String) (lo hi : Int) {body : List Byte} (h : Calm body)
    (hf : body.length + 1 < c.fuel) : CarWire.numberBody c num name lo hi body = .ok none := by
  obtain ⟨t, e, t2, e2, hp⟩ := first_quiet hc h hf
  unfold CarWire.numberBody expectName
  rw [e, Res.ok_bind]
  split
  · rfl
  · rw [e2, Res.ok_bind, if_pos hp]; rfl

theorem moveBody_quiet {c : Ctx} (hc : CtxOk c) {body : List Byte} (h : Calm body) (hf : body.length + 1 < c.fuel) : moveBody c body = .ok none := by
  obtain ⟨t, e, t2, e2, hp⟩ := first_quiet hc h hf
  unfold moveBody expectName
  rw [e, Res.ok_bind]
  split
  · rfl
  · rw [e2, Res.ok_bind, if_pos hp]; rfl

theorem playersBody_quiet {c : Ctx} (hc : CtxOk c) {body : List Byte} (h : Calm body) (hf : body.length + 1 < c.fuel) :
    ∃ msg, playersBody c body = .ok (.error msg) := by
  obtain ⟨t, e, t2, e2, hp⟩ := first_quiet hc h hf
  obtain ⟨f, hfu⟩ : ∃ k, c.fuel = k + 1 := ⟨c.fuel - 1, by omega⟩
  unfold playersBody
  rw [e, Res.ok_bind]
  split
  · exact ⟨_, rfl⟩
  · rw [hfu, playersLoop, e2, Res.ok_bind]
    split
    · exact ⟨_, rfl⟩
    · exact ⟨_, rfl⟩

theorem problemBody_quiet {c : Ctx} (hc : CtxOk c) {body : List Byte} (h : Calm body) (hf : body.length + 1 < c.fuel) :
    EquationsWire.problemBody c body = .ok none := by
  obtain ⟨t, e, t2, e2, hp⟩ := first_quiet hc h hf
  obtain ⟨f, hfu⟩ : ∃ k, c.fuel = k + 1 := ⟨c.fuel - 1, by omega⟩
  unfold EquationsWire.problemBody
  rw [e, Res.ok_bind]
  split
  · rfl
  · rw [hfu, EquationsWire.problemLoop, e2, Res.ok_bind]
    split
    · rfl
    · rfl

theorem whenPost_quiet {S : Type} {c : Ctx} (hc : CtxOk c) (srv : S) (st : Rd) {m : List Byte} (h0 : (0 : Byte) ∉ m) (hl : m.length ≤ 32) {k : DoneOf S}
    (hk : GameWire.Returned k) : GameWire.Returned (whenPost c srv st m k) := by
  by_cases h : m.map lower = str "post"
  · unfold whenPost
    rw [post_is h0 hl]
    simp only [h, decide_true]
    exact hk
  · exact (replies_post hc srv st h0 hl fun h' => absurd h' h).returned

theorem whenJson_quiet {S : Type} {c : Ctx} (hc : CtxOk c) (srv : S) {st : Rd} (hn : st.next = .headerName) (hs : st.s.rest.length ≤ 1024)
    (hf : st.s.rest.length + 1 < c.fuel) {k : Rd → DoneOf S} (hk : ∀ st', st'.s.rest <:+ st.s.rest → GameWire.Returned (k st')) :
    GameWire.Returned (whenJson c srv st k) := by
  obtain ⟨h, h1, h2⟩ := returned_of (headerLoop_short c.fuel false st c.header hn hc.header hs hf)
    (headerLoop_returned c.fuel false st c.header hn hc.header hs hf (by have := meas_le st.s; omega))
  unfold whenJson
  rw [h1, Res.ok_bind]
  cases h with
  | json st' => exact hk st' h2
  | missing => exact ⟨srv, [], false, rfl, .inl rfl⟩
  | refused st' body => exact (replies_bad hc srv body (headerLoop_refused h1) st'.s).returned
  | thrown => exact h2.elim

/-- Bytes that do not block, to an endpoint whose handler returns. -/
theorem serveWith_quiet {S : Type} {cfg : Config} (hcfg : ConfigOk cfg) {stat : List Byte → Option Nat} {content : List Byte → List Byte}
    {c : Ctx} (he : Env stat content c.room) {mm mp mc : List Byte} (hmm : mm.length = 33) (hmp : mp.length = 2049) (hmc : mc.length = 17) {bytes : List Byte}
    (hf : bytes.length + 2 < c.fuel) (srv : S) (k : Rd → List Byte → List Byte → DoneOf S)
    (hk : ∀ l : Wire.Line, (0 : Byte) ∉ l.method → l.method.length ≤ 32 → (0 : Byte) ∉ l.resource → l.resource.length ≤ 2048 →
      l.st.next = .headerName → l.st.s.rest <:+ bytes → GameWire.Returned (k l.st l.method l.resource)) :
    GameWire.Returned (serveWith cfg stat content c mm mp mc false srv k bytes) := by
  rcases CarWire.serveWith_any hcfg he hmm hmp hmc bytes hf srv k with ⟨sent, r, e, _, k2, _⟩ | ⟨l, hl, l1, l2, l3, l4, e⟩
  · rw [e]
    refine ⟨_, _, _, rfl, ?_⟩
    cases sent
    · exact .inl rfl
    · exact .inr k2
  · rw [e]
    refine hk l l1 l2 l3 l4 ?_ (requestLine_forward hl)
    obtain ⟨st, m, r, _, _, h5, _, h7⟩ := read_line cfg hcfg.root hcfg.short bytes mm mp mc hmm hmp hmc c.fuel hf
    rw [h7] at hl
    cases hl
    exact h5

/-- C88 and C100: at most 1024 bytes without a quotation mark and without 26 characters of a number in a row never block, end or corrupt the
car. -/
theorem C88_quiet_partial {cfg : Config} (hcfg : ConfigOk cfg) {stat : List Byte → Option Nat} {content : List Byte → List Byte} {c : Ctx}
    (hc : CtxOk c) (he : Env stat content c.room) (num : List Byte → Option Rat) {bytes mm mp mc : List Byte} (hmm : mm.length = 33) (hmp : mp.length = 2049)
    (hmc : mc.length = 17) (hf : bytes.length + 2 < c.fuel) (hb : Calm bytes) {s : CarWire.Sensors} (hs : s.Ok) (car : Car.Car) :
    ∃ y out sd, CarWire.serve cfg stat content c num mm mp mc false s car bytes = .ok (y, .sent out sd) ∧ (out = [] ∨ Complete out) := by
  refine serveWith_quiet hcfg he hmm hmp hmc hf _ _ fun l l1 l2 l3 l4 l5 l6 => ?_
  rcases CarWire.target_cases l.resource with ⟨t, ht⟩ | hnt
  · have l7 := l6.length_le
    have hb' := hb.suffix l6
    rw [CarWire.handler_target t l3 l4 ht, CarWire.process_eq]
    refine whenPost_quiet hc _ l.st l1 l2 (whenJson_quiet hc _ l5 hb'.short (by omega) fun st' h2 => ?_)
    have := h2.length_le
    rw [numberBody_quiet hc num _ _ _ (hb'.suffix h2) (by omega)]
    exact (replies_bad hc _ _ (by cases t <;> decide +kernel) st'.s).returned
  · exact (CarWire.replies_other hc num hs car l.st l1 l2 l3 l4 hnt).returned

/-- C98 and C100: the same for the solver. -/
theorem C98_quiet_partial {D : Type} (F : EquationsWire.Arith D) {cfg : Config} (hcfg : ConfigOk cfg) {stat : List Byte → Option Nat}
    {content : List Byte → List Byte} {c : Ctx} (hc : CtxOk c) (he : Env stat content c.room) {bytes mm mp mc : List Byte} (hmm : mm.length = 33)
    (hmp : mp.length = 2049) (hmc : mc.length = 17) (hf : bytes.length + 2 < c.fuel) (hb : Calm bytes) :
    ∃ y out sd, EquationsWire.serve cfg stat content c F mm mp mc false bytes = .ok (y, .sent out sd) ∧ (out = [] ∨ Complete out) := by
  refine serveWith_quiet hcfg he hmm hmp hmc hf _ _ fun l l1 l2 l3 l4 l5 l6 => ?_
  by_cases hp : l.method.map lower = str "post" ∧ l.resource.map lower = str "/problem"
  · rw [EquationsWire.handler_eq F c l.st l1 l2 l3 l4, if_neg (fun h => by have := hp.2.symm.trans h.2; revert this; decide), if_neg (by simp [hp.2]),
      if_neg (by simp [hp.1])]
    have l7 := l6.length_le
    have hb' := hb.suffix l6
    obtain ⟨h, h1, h2⟩ := returned_of (solverHeaders_short (fuel := c.fuel) c.fuel false l.st c.header l5 hc.header hb'.short (by omega))
      (solverHeaders_returned (fuel := c.fuel) c.fuel false l.st c.header l5 hc.header hb'.short (by omega) (by have := meas_le l.st.s; omega))
    unfold EquationsWire.processProblem
    rw [h1, Res.ok_bind]
    cases h with
    | thrown => exact h2.elim
    | refused st' body => exact (replies_bad hc () body (EquationsWire.headerLoop_refused h1) st'.s).returned
    | done st' =>
      have h3 : st'.s.rest <:+ l.st.s.rest := h2
      have := h3.length_le
      dsimp only
      rw [problemBody_quiet hc (hb'.suffix h3) (by omega)]
      exact (replies_bad hc () _ (by decide +kernel) st'.s).returned
  · exact (EquationsWire.replies_other F hc l.st l1 l2 l3 l4 hp).returned

/-- C67 and C100: the same for the game, in any state that can be reached. -/
theorem C67_quiet_partial {cfg : Config} (hcfg : ConfigOk cfg) {stat : List Byte → Option Nat} {content : List Byte → List Byte} {c : Ctx}
    (hc : CtxOk c) (he : Env stat content c.room) {bytes mm mp mc : List Byte} (hmm : mm.length = 33) (hmp : mp.length = 2049) (hmc : mc.length = 17)
    (hf : bytes.length + 2 < c.fuel) (hb : Calm bytes) {srv : GameServer.Server} {t : GameServer.Trace} (hi : GameServer.Inv srv t) (d : Draw) :
    ∃ srv' out sd, GameWire.serve cfg stat content c mm mp mc false srv d bytes = .ok (srv', .sent out sd) ∧ (out = [] ∨ Complete out) := by
  refine serveWith_quiet hcfg he hmm hmp hmc hf _ _ fun l l1 l2 l3 l4 l5 l6 => ?_
  have l7 := l6.length_le
  have hb' := hb.suffix l6
  by_cases hg : Endpoint.startsWithI (str "/games") l.resource
  · have hpre : (l.resource.take 6).map lower = str "/games" := by
      obtain ⟨x, hx⟩ := hg
      rw [List.map_take, ← hx, List.take_append_of_le_length (by decide)]
      decide
    rw [games_handler srv d l.st l.method (tail := l.resource.drop 6) hpre (by simp) l3 l4]
    split
    · unfold createGame
      refine whenPost_quiet hc _ l.st l1 l2 (whenJson_quiet hc _ l5 hb'.short (by omega) fun st' h2 => ?_)
      have := h2.length_le
      obtain ⟨msg, hx⟩ := playersBody_quiet hc (hb'.suffix h2) (by omega)
      rw [hx]
      exact (replies_bad hc srv msg (playersBody_error hx) st'.s).returned
    · split
      · rename_i g p w _
        unfold acceptMove
        have hw : ∃ x, areEqualI (mem w) (mem (str "moves")) = some x := equal_defined false sizeMax (by simp) (by simp)
        obtain ⟨x, hx⟩ := hw
        rw [hx]
        cases x with
        | false => exact (replies_bad hc srv badResource (by decide +kernel) _).returned
        | true =>
          refine whenPost_quiet hc _ l.st l1 l2 (whenJson_quiet hc _ l5 hb'.short (by omega) fun st' h2 => ?_)
          have := h2.length_le
          split
          · exact (replies_bad hc srv badResource (by decide +kernel) st'.s).returned
          · rw [moveBody_quiet hc (hb'.suffix h2) (by omega)]
            exact (replies_bad hc srv _ (by decide +kernel) st'.s).returned
      · exact (replies_claim hi hc l.st l1 l2 _ _).returned
      · exact (replies_moves hi hc l.st l1 l2 _ _).returned
      · exact ⟨srv, [], false, rfl, .inl rfl⟩
  · exact (GameWire.replies_other hc srv d l.st l1 l2 l3 l4 hg).returned

/-! ## Instances -/

/-- C100, in full, for the solver: at most 1024 bytes of anything do not corrupt memory or end the process. -/
def C100Full : Prop :=
  ∀ (D : Type) (F : EquationsWire.Arith D) (cfg : Config) (stat : List Byte → Option Nat) (content : List Byte → List Byte) (c : Ctx)
    (bytes mm mp mc : List Byte), (∀ d, EquationsWire.Printed (F.text d)) → ConfigOk cfg → CtxOk c → Env stat content c.room → mm.length = 33 →
    mp.length = 2049 → mc.length = 17 → bytes.length + 2 < c.fuel → bytes.length ≤ 1024 →
    EquationsWire.serve cfg stat content c F mm mp mc false bytes ≠ .ub ∧
    ∀ y, EquationsWire.serve cfg stat content c F mm mp mc false bytes ≠ .ok (y, .terminated)

section Instances
open Abc.CarWire (demoNum demoSensors demoSensors_ok demo_env)
open Abc.EquationsWire (demoLast demoLast_ok demoLast_env)

theorem mild_of {bytes : List Byte} (h1 : bytes.length ≤ 1024) (h2 : bytes.tails.all (fun r => decide (run r ≤ 25)) = true) : Mild bytes :=
  ⟨h1, fun r hr => of_decide_eq_true (List.all_eq_true.1 h2 r ((List.mem_tails r bytes).2 hr))⟩

/-- A header without a colon, control characters, a name that is never closed, bytes above 127. -/
def hostile (line : String) : List Byte :=
  str line ++ (crlf ++ (str "Content-Type: Application/JSON; x" ++ (crlf ++ (str "Odd" ++ ([7, 200] ++ (crlf ++ (crlf ++ (str "{\"a\\u00" ++ [0, 255, 34, 1]))))))))

/-- The same without quotation marks. -/
def quiet (line : String) : List Byte :=
  str line ++ (crlf ++ (str "Content-Type: Application/JSON; x" ++ (crlf ++ (crlf ++ (str "{ [1.5e+7, " ++ [0, 255, 1])))))

theorem hostile_power : Mild (hostile "post /Power http/7.77") := mild_of (by decide +kernel) (by decide +kernel)
theorem hostile_problem : Mild (hostile "POST /problem") := mild_of (by decide +kernel) (by decide +kernel)
theorem hostile_games : Mild (hostile "POST /games HTTP/1.1") := mild_of (by decide +kernel) (by decide +kernel)
theorem quiet_turn : Calm (quiet "POST /turn HTTP/1.1") := ⟨mild_of (by decide +kernel) (by decide +kernel), by decide +kernel⟩
theorem quiet_problem : Calm (quiet "POST /problem HTTP/1.1") := ⟨mild_of (by decide +kernel) (by decide +kernel), by decide +kernel⟩
theorem quiet_games : Calm (quiet "POST /games HTTP/1.1") := ⟨mild_of (by decide +kernel) (by decide +kernel), by decide +kernel⟩

/-- C100, the car. -/
example : CarWire.serve demoCfg (fun _ => none) (fun _ => []) demoCtx demoNum (List.replicate 33 7) (List.replicate 2049 7) (List.replicate 17 7) false
      demoSensors ⟨true, 75, 30, false⟩ (hostile "post /Power http/7.77") = .running ∨
    ∃ y out sd, CarWire.serve demoCfg (fun _ => none) (fun _ => []) demoCtx demoNum (List.replicate 33 7) (List.replicate 2049 7) (List.replicate 17 7) false
      demoSensors ⟨true, 75, 30, false⟩ (hostile "post /Power http/7.77") = .ok (y, .sent out sd) ∧ (out = [] ∨ Complete out) :=
  C88_short_partial demoCfg_ok demoCtx_ok demo_env demoNum (by rw [List.length_replicate]) (by rw [List.length_replicate]) (by rw [List.length_replicate])
    (by decide +kernel) hostile_power demoSensors_ok ⟨by decide, by decide⟩

/-- C100, the car, without quotation marks. -/
example : ∃ y out sd, CarWire.serve demoCfg (fun _ => none) (fun _ => []) demoCtx demoNum (List.replicate 33 7) (List.replicate 2049 7) (List.replicate 17 7) false
      demoSensors ⟨true, 75, 30, false⟩ (quiet "POST /turn HTTP/1.1") = .ok (y, .sent out sd) ∧ (out = [] ∨ Complete out) :=
  C88_quiet_partial demoCfg_ok demoCtx_ok demo_env demoNum (by rw [List.length_replicate]) (by rw [List.length_replicate]) (by rw [List.length_replicate])
    (by decide +kernel) quiet_turn demoSensors_ok _

/-- C100, the solver. -/
example {D : Type} {F : EquationsWire.Arith D} (hF : ∀ d, EquationsWire.Printed (F.text d)) :
    EquationsWire.serve demoCfg (fun _ => none) (fun _ => []) demoLast F (List.replicate 33 7) (List.replicate 2049 7) (List.replicate 17 7) false
      (hostile "POST /problem") = .running ∨
    ∃ y out sd, EquationsWire.serve demoCfg (fun _ => none) (fun _ => []) demoLast F (List.replicate 33 7) (List.replicate 2049 7) (List.replicate 17 7) false
      (hostile "POST /problem") = .ok (y, .sent out sd) ∧ (out = [] ∨ Complete out) :=
  C98_short_partial hF demoCfg_ok demoLast_ok demoLast_env (by rw [List.length_replicate]) (by rw [List.length_replicate]) (by rw [List.length_replicate])
    (by decide +kernel) hostile_problem

/-- C100, the solver, without quotation marks. -/
example {D : Type} (F : EquationsWire.Arith D) :
    ∃ y out sd, EquationsWire.serve demoCfg (fun _ => none) (fun _ => []) demoLast F (List.replicate 33 7) (List.replicate 2049 7) (List.replicate 17 7) false
      (quiet "POST /problem HTTP/1.1") = .ok (y, .sent out sd) ∧ (out = [] ∨ Complete out) :=
  C98_quiet_partial F demoCfg_ok demoLast_ok demoLast_env (by rw [List.length_replicate]) (by rw [List.length_replicate]) (by rw [List.length_replicate])
    (by decide +kernel) quiet_problem

/-- C100, the game: here the headers are not even accepted. -/
example : GameWire.serve demoCfg (fun _ => none) (fun _ => []) demoCtx (List.replicate 33 7) (List.replicate 2049 7) (List.replicate 17 7) false {} ⟨3, 8, 7⟩
      (hostile "POST /games HTTP/1.1") = .running ∨
    ∃ srv' out sd, GameWire.serve demoCfg (fun _ => none) (fun _ => []) demoCtx (List.replicate 33 7) (List.replicate 2049 7) (List.replicate 17 7) false {} ⟨3, 8, 7⟩
      (hostile "POST /games HTTP/1.1") = .ok (srv', .sent out sd) ∧ (out = [] ∨ Complete out) := by
  refine C67_short_partial demoCfg_ok demoCtx_ok demo_env (by rw [List.length_replicate]) (by rw [List.length_replicate]) (by rw [List.length_replicate])
    (by decide +kernel) hostile_games GameServer.inv_init _ ?_
  intro l st hl _ _ hst
  have : (match requestLine demoCfg demoCtx.fuel (List.replicate 33 7) (List.replicate 2049 7) (List.replicate 17 7) (hostile "POST /games HTTP/1.1") with
    | .ok (some l) => (match headerLoop demoCtx.fuel demoCtx.fuel false l.st demoCtx.header with
      | .ok (.json st) => decide (st.s.rest.length ≤ 63) | _ => true) | _ => true) = true := by decide +kernel
  rw [hl] at this
  dsimp only at this
  rw [hst] at this
  exact of_decide_eq_true this

/-- C100, the game, without quotation marks. -/
example : ∃ srv' out sd, GameWire.serve demoCfg (fun _ => none) (fun _ => []) demoCtx (List.replicate 33 7) (List.replicate 2049 7) (List.replicate 17 7) false {}
      ⟨3, 8, 7⟩ (quiet "POST /games HTTP/1.1") = .ok (srv', .sent out sd) ∧ (out = [] ∨ Complete out) :=
  C67_quiet_partial demoCfg_ok demoCtx_ok demo_env (by rw [List.length_replicate]) (by rw [List.length_replicate]) (by rw [List.length_replicate])
    (by decide +kernel) quiet_games GameServer.inv_init _

/-- The limit for numbers is needed: with 27 characters of a number in a row the request is 1024 bytes or less, and memory is corrupted. -/
theorem C100_violated : ¬ C100Full := by
  intro h
  obtain ⟨rnd, hr⟩ := EquationsWire.ieee_exists
  refine (h _ (EquationsWire.demoIdeal rnd 0).arith demoCfg (fun _ => none) (fun _ => []) demoLast
    (CarWire.demoPost "/Problem" (str "1234567890123456789012345" ++ (str ".0" ++ []))).text (List.replicate 33 7) (List.replicate 2049 7) (List.replicate 17 7)
    (EquationsWire.demoIdeal_ok hr 0).printed demoCfg_ok demoLast_ok demoLast_env (by rw [List.length_replicate]) (by rw [List.length_replicate])
    (by rw [List.length_replicate]) (by decide +kernel) (by decide +kernel)).1 ?_
  exact EquationsWire.C98_violated_number _ demoCfg_ok _ _ demoLast_ok (CarWire.demoPost_fits EquationsWire.nice_problem (by decide +kernel)) (by decide) (by decide)
    (.inr (CarWire.demo_json _ _)) (d := str "1234567890123456789012345") (r := []) (by unfold Spec.Digit; decide) (by decide) rfl

/-- The first possibility is needed too: the bytes of this request, on which reading never ends, are harmless in this sense. -/
example {D : Type} (F : EquationsWire.Arith D) : Mild (CarWire.demoPost "/Problem" (str "{\"" ++ str "a")).text ∧
    EquationsWire.serve demoCfg (fun _ => none) (fun _ => []) demoLast F (List.replicate 33 7) (List.replicate 2049 7) (List.replicate 17 7) false
      (CarWire.demoPost "/Problem" (str "{\"" ++ str "a")).text = .running :=
  ⟨mild_of (by decide +kernel) (by decide +kernel), EquationsWire.demo_hang F⟩

end Instances

end Abc.ShortInput
