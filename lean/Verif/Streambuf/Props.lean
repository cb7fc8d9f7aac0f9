import Verif.Streambuf.Model
import Verif.Ascii.Lemmas

/-!
# C31, C32, C47, C50: stream buffers
-/

namespace Abc.Streambuf
open Abc.Ascii

/-- Specification: the bytes a history writes. -/
def written : List OutOp → List Byte
  | [] => []
  | .put c :: ops => c :: written ops
  | .flush :: ops => written ops

theorem written_append (a b : List OutOp) : written (a ++ b) = written a ++ written b := by
  induction a with
  | nil => rfl
  | cons x a ih => cases x <;> simp [written, ih]

/-- All bytes held or delivered. -/
private def Out.all (s : Out) : List Byte := s.sink ++ s.pending.toList

private theorem step_all (ok : Nat → Bool) (hok : ∀ n, ok n = true) (s : Out) (op : OutOp) :
    ((s.step ok op).1).all = s.all ++ written [op] ∧ (s.step ok op).2 = true := by
  cases op with
  | put c =>
    have hc : toInt c ≠ eof := by unfold toInt eof; omega
    cases hp : s.pending <;> simp [Out.step, Out.sputc, Out.emit, Out.all, written, hp, hok, hc]
  | flush =>
    cases hp : s.pending <;> simp [Out.step, Out.sync, Out.emit, Out.all, written, hp, hok]

private theorem run_all (ok : Nat → Bool) (hok : ∀ n, ok n = true) (ops : List OutOp) :
    ∀ s : Out × Bool, ((Out.run ok ops s).1).all = s.1.all ++ written ops ∧ (Out.run ok ops s).2 = s.2 := by
  induction ops with
  | nil => intro s; simp [Out.run, written]
  | cons op ops ih =>
    intro s
    obtain ⟨h1, h2⟩ := step_all ok hok s.1 op
    obtain ⟨h3, h4⟩ := ih ((s.1.step ok op).1, s.2 && (s.1.step ok op).2)
    simp only [Out.run]
    refine ⟨?_, by rw [h4, h2]; simp⟩
    rw [h3, h1, List.append_assoc, ← written_append]; rfl

private theorem run_append (ok : Nat → Bool) (a b : List OutOp) : ∀ s, Out.run ok (a ++ b) s = Out.run ok b (Out.run ok a s) := by
  induction a with
  | nil => intro s; rfl
  | cons x a ih => intro s; simp only [List.cons_append, Out.run]; exact ih _

/-- C31, C32 (output, transfers succeed).  For every history of writes and flushes: the bytes delivered
to the string or to the connection are the bytes written, in order, except that at most the very last
one may still be held back; right after a flush nothing is held back; every call reports success. -/
theorem output_exact (ops : List OutOp) :
    (∃ held : List Byte, held.length ≤ 1 ∧
      (Out.run (fun _ => true) ops (Out.init, true)).1.sink ++ held = written ops) ∧
    (Out.run (fun _ => true) (ops ++ [.flush]) (Out.init, true)).1.sink = written ops ∧
    (Out.run (fun _ => true) (ops ++ [.flush]) (Out.init, true)).2 = true := by
  obtain ⟨h1, h2⟩ := run_all (fun _ => true) (fun _ => rfl) ops (Out.init, true)
  have h1' : ((Out.run (fun _ => true) ops (Out.init, true)).1).all = written ops := by
    rw [h1]; simp [Out.all, Out.init]
  refine ⟨⟨_, ?_, h1'⟩, ?_⟩
  · cases (Out.run (fun _ => true) ops (Out.init, true)).1.pending <;> simp
  · rw [run_append]
    generalize hs : Out.run (fun _ => true) ops (Out.init, true) = s at *
    simp only [Out.run]
    cases hp : s.1.pending with
    | none => simp [Out.step, Out.sync, hp, ← h1', Out.all, h2]
    | some p => simp [Out.step, Out.sync, hp, ← h1', Out.all, h2, Out.emit]

example : (Out.run (fun _ => true) [.put 72, .put 105, .put 33] (Out.init, true)).1 = ⟨some 33, [72, 105], 2⟩ := by decide

/-- Without a final flush a byte can be held back (the destructors do not flush): the length of the
history decides. -/
theorem output_may_hold_back :
    ∃ ops, (Out.run (fun _ => true) ops (Out.init, true)).1.sink ≠ written ops :=
  ⟨[.put 65], by decide⟩

/-- C32 is violated when a send fails: whatever byte is written, it is lost, and yet the write and the
flush report success. -/
theorem socket_output_violated (c : Byte) :
    (Out.run (fun _ => false) [.put c, .flush] (Out.init, true)).1.sink = [] ∧
    (Out.run (fun _ => false) [.put c, .flush] (Out.init, true)).2 = true := by
  have hc : toInt c ≠ eof := by unfold toInt eof; omega
  simp [Out.run, Out.step, Out.sputc, Out.sync, Out.emit, Out.init, hc]

/-- Specification of reading: a `peek` shows the next byte, a `get` also consumes it; at the end both
report end of stream. -/
def readSpec : List InOp → List Byte → List (Option Byte)
  | [], _ => []
  | .peek :: ops, bs => bs.head? :: readSpec ops bs
  | .get :: ops, bs => bs.head? :: readSpec ops bs.tail

set_option maxRecDepth 10000 in
theorem charToInt_props : ∀ c : Byte, (charToInt c = eof ↔ c = 255) ∧ (c ≠ 255 → toByte? (charToInt c) = some c) ∧
    toByte? (toInt c) = some c ∧ toInt c ≠ eof := forall_byte (by decide)

/-- Bytes a reader still has to deliver. -/
private def In.left (s : In) : List Byte := (if s.avail then s.getCh.toList else []) ++ s.rest

private def In.Ok (s : In) : Prop := s.avail = true → s.getCh ≠ none

private theorem read_step (uf : In → Option (In × Int))
    (hu : ∀ s : In, ∀ b r, s.rest = b :: r → uf s = some (⟨some b, true, r⟩, charToInt b))
    (s : In) (hok : s.Ok) (hne : s.left ≠ []) (h255 : ∀ b ∈ s.rest, b ≠ 255) :
    (∃ s', sgetc uf s = some (s', (match s.left.head? with | some b => (if s.avail then toInt b else charToInt b) | none => eof)) ∧ s'.left = s.left ∧ s'.Ok ∧ ∀ b ∈ s'.rest, b ≠ 255) ∧
    (∃ s', sbumpc uf s = some (s', (match s.left.head? with | some b => toInt b | none => eof)) ∧ s'.left = s.left.tail ∧ s'.Ok ∧ ∀ b ∈ s'.rest, b ≠ 255) := by
  obtain ⟨g, a, rest⟩ := s
  cases a with
  | true =>
    cases g with
    | none => exact absurd rfl (hok rfl)
    | some c =>
      refine ⟨⟨⟨some c, true, rest⟩, ?_, rfl, hok, h255⟩, ⟨⟨some c, false, rest⟩, ?_, ?_, ?_, h255⟩⟩
      · simp [sgetc, In.left]
      · simp [sbumpc, In.left]
      · simp [In.left]
      · intro h; simp at h
  | false =>
    cases rest with
    | nil => simp [In.left] at hne
    | cons b r =>
      have hb : b ≠ 255 := h255 b (by simp)
      have hce : charToInt b ≠ eof := fun h => hb ((charToInt_props b).1.1 h)
      refine ⟨⟨⟨some b, true, r⟩, ?_, ?_, ?_, fun x hx => h255 x (by simp [hx])⟩,
        ⟨⟨some b, false, r⟩, ?_, ?_, ?_, fun x hx => h255 x (by simp [hx])⟩⟩
      · simp [sgetc, In.left, hu ⟨g, false, b :: r⟩ b r rfl]
      · simp [In.left]
      · intro _; simp
      · simp [sbumpc, In.left, hu ⟨g, false, b :: r⟩ b r rfl, hce]
      · simp [In.left]
      · intro h; simp at h

/-- C31 (input), the part that holds: for a string without the byte 0xFF, every history of peeks and
gets sees exactly the bytes of the string in order and then end of stream, for ever.
Missing: strings containing 0xFF (`string_input_violated`). -/
theorem string_input_partial (content : List Byte) (h255 : ∀ b ∈ content, b ≠ 255) (ops : List InOp) :
    ∃ s, readAll stringUnderflow ops (stringIn content) = some (s, readSpec ops content) := by
  have gen : ∀ (ops : List InOp) (s : In), s.Ok → (∀ b ∈ s.rest, b ≠ 255) →
      ∃ s', readAll stringUnderflow ops s = some (s', readSpec ops s.left) := by
    intro ops
    induction ops with
    | nil => intro s _ _; exact ⟨s, rfl⟩
    | cons op ops ih =>
      intro s hok h
      by_cases hl : s.left = []
      · have ha : s.avail = false ∧ s.rest = [] := by
          obtain ⟨g, a, r⟩ := s
          cases a <;> cases g <;> simp_all [In.left, In.Ok]
        obtain ⟨s', e'⟩ := ih s hok h
        refine ⟨s', ?_⟩
        have e1 : sgetc stringUnderflow s = some (s, eof) := by simp [sgetc, ha, stringUnderflow]
        have e2 : sbumpc stringUnderflow s = some (s, eof) := by simp [sbumpc, ha, stringUnderflow]
        cases op with
        | peek => simp only [readAll]; rw [e1]; simp only; rw [e']; simp [hl, readSpec, toByte?]
        | get => simp only [readAll]; rw [e2]; simp only; rw [e']; simp [hl, readSpec, toByte?]
      · obtain ⟨⟨s1, e1, l1, o1, q1⟩, ⟨s2, e2, l2, o2, q2⟩⟩ := read_step stringUnderflow
          (fun s b r hr => by simp [stringUnderflow, hr]) s hok hl h
        obtain ⟨b, t, hbt⟩ : ∃ b t, s.left = b :: t := List.exists_cons_of_ne_nil hl
        cases op with
        | peek =>
          obtain ⟨s', e'⟩ := ih s1 o1 q1
          refine ⟨s', ?_⟩
          simp only [readAll]; rw [e1]; simp only; rw [e', l1, hbt]
          simp only [readSpec, List.head?_cons]
          congr 3
          by_cases ha : s.avail = true
          · rw [if_pos ha]; exact (charToInt_props b).2.2.1
          · rw [if_neg ha]
            have : b ∈ s.rest := by
              have : s.left = s.rest := by simp [In.left, ha]
              rw [← this, hbt]; simp
            exact (charToInt_props b).2.1 (h b this)
        | get =>
          obtain ⟨s', e'⟩ := ih s2 o2 q2
          refine ⟨s', ?_⟩
          simp only [readAll]; rw [e2]; simp only; rw [e', l2, hbt]
          simp only [readSpec, List.head?_cons, List.tail_cons]
          congr 3
          exact (charToInt_props b).2.2.1
  obtain ⟨s, e⟩ := gen ops (stringIn content) (by intro h; simp [stringIn] at h) h255
  exact ⟨s, e⟩

example : readSpec [.peek, .get, .get, .peek] [200] = [some 200, some 200, none, none] := by decide

/-- C31: what is written to a string and flushed is what is read back (no 0xFF). -/
theorem string_roundtrip_partial (wops : List OutOp) (h255 : ∀ b ∈ written wops, b ≠ 255) (rops : List InOp) :
    ∃ s, readAll stringUnderflow rops (stringIn (Out.run (fun _ => true) (wops ++ [.flush]) (Out.init, true)).1.sink)
      = some (s, readSpec rops (written wops)) := by
  rw [(output_exact wops).2.1]
  exact string_input_partial _ h255 rops

example : ∀ b ∈ written [.put 72, .flush, .put 105], b ≠ 255 := by decide

/-- C31 is violated for every string that begins with 0xFF: the first read reports end of stream
although there is data (and the next read delivers the byte). -/
theorem string_input_violated (tail : List Byte) :
    ∃ s, readAll stringUnderflow [.get, .get] (stringIn (255 :: tail)) = some (s, [none, some 255]) := by
  have he : charToInt 255 = eof := by decide
  have hb : toByte? (toInt 255) = some 255 := by decide
  refine ⟨⟨some 255, false, tail⟩, ?_⟩
  simp [readAll, sbumpc, stringIn, stringUnderflow, he, hb]
  simp [toByte?]

/-- C32 (input), the part that holds: while the peer still has bytes for us (none of them 0xFF), every
history of peeks and gets that consumes at most what was sent sees exactly those bytes in order.
Missing: end of stream (`socket_input_violated_eof`, `…_empty`) and 0xFF. -/
theorem socket_input_partial (content : List Byte) (h255 : ∀ b ∈ content, b ≠ 255) (ops : List InOp)
    (hlen : ∀ n < ops.length, ((ops.take n).filter (fun o => o matches .get)).length < content.length) :
    ∃ s, readAll socketUnderflow ops (socketIn content) = some (s, readSpec ops content) := by
  have gen : ∀ (ops : List InOp) (s : In), s.Ok → (∀ b ∈ s.rest, b ≠ 255) →
      (∀ n < ops.length, ((ops.take n).filter (fun o => o matches .get)).length < s.left.length) →
      ∃ s', readAll socketUnderflow ops s = some (s', readSpec ops s.left) := by
    intro ops
    induction ops with
    | nil => intro s _ _ _; exact ⟨s, rfl⟩
    | cons op ops ih =>
      intro s hok h hlen
      have hl : s.left ≠ [] := by
        have := hlen 0 (by simp); intro e; rw [e] at this; simp at this
      obtain ⟨⟨s1, e1, l1, o1, q1⟩, ⟨s2, e2, l2, o2, q2⟩⟩ := read_step socketUnderflow
        (fun s b r hr => by simp [socketUnderflow, hr]) s hok hl h
      obtain ⟨b, t, hbt⟩ : ∃ b t, s.left = b :: t := List.exists_cons_of_ne_nil hl
      cases op with
      | peek =>
        obtain ⟨s', e'⟩ := ih s1 o1 q1 (fun n hn => by
          have := hlen (n + 1) (by simpa using hn); rw [l1]; simpa using this)
        refine ⟨s', ?_⟩
        simp only [readAll]; rw [e1]; simp only; rw [e', l1, hbt]
        simp only [readSpec, List.head?_cons]
        congr 3
        by_cases ha : s.avail = true
        · rw [if_pos ha]; exact (charToInt_props b).2.2.1
        · rw [if_neg ha]
          have : b ∈ s.rest := by
            have : s.left = s.rest := by simp [In.left, ha]
            rw [← this, hbt]; simp
          exact (charToInt_props b).2.1 (h b this)
      | get =>
        obtain ⟨s', e'⟩ := ih s2 o2 q2 (fun n hn => by
          have := hlen (n + 1) (by simpa using hn)
          rw [l2]; simp at this ⊢; omega)
        refine ⟨s', ?_⟩
        simp only [readAll]; rw [e2]; simp only; rw [e', l2, hbt]
        simp only [readSpec, List.head?_cons, List.tail_cons]
        congr 3
        exact (charToInt_props b).2.2.1
  obtain ⟨s, e⟩ := gen ops (socketIn content) (by intro h; simp [socketIn] at h) h255 (by simpa [In.left, socketIn] using hlen)
  exact ⟨s, by simpa [In.left, socketIn] using e⟩

example : ∀ n < [InOp.peek, .get, .get].length,
    (([InOp.peek, .get, .get].take n).filter (fun o => o matches .get)).length < ([1, 2] : List Byte).length := by
  decide

/-- C32 is violated at end of stream: once the peer has closed, reading delivers the last byte again,
any number of times, and never reports end of stream. -/
theorem socket_input_violated_eof (c : Byte) (hc : c ≠ 255) (n : Nat) :
    ∃ s, readAll socketUnderflow (List.replicate (n + 1) .get) (socketIn [c]) = some (s, List.replicate (n + 1) (some c)) := by
  have hce : charToInt c ≠ eof := fun h => hc ((charToInt_props c).1.1 h)
  have hb := (charToInt_props c).2.2.1
  have again : ∀ n, ∃ s, readAll socketUnderflow (List.replicate n .get) ⟨some c, false, []⟩ = some (s, List.replicate n (some c)) := by
    intro n
    induction n with
    | zero => exact ⟨_, rfl⟩
    | succ n ih =>
      obtain ⟨s, e⟩ := ih
      refine ⟨s, ?_⟩
      simp [List.replicate_succ, readAll, sbumpc, socketUnderflow, hce, e, hb]
  obtain ⟨s, e⟩ := again n
  refine ⟨s, ?_⟩
  simp [List.replicate_succ, readAll, sbumpc, socketIn, socketUnderflow, hce, e, hb]

/-- C32 is violated if the peer closes without sending anything: the first read uses an uninitialised
character. -/
theorem socket_input_violated_empty (op : InOp) (ops : List InOp) :
    readAll socketUnderflow (op :: ops) (socketIn []) = none := by
  cases op <;> simp [readAll, sgetc, sbumpc, socketIn, socketUnderflow]

/-! ## `buffer_streambuf` -/

/-- Specification of the calls on a buffer stream with `room` free places and `bs` still to be read:
the results, and the bytes accepted. -/
def bufSpec : List BufOp → Nat → List Byte → List (Option Byte) × List Byte
  | [], _, _ => ([], [])
  | .put _ :: ops, 0, bs => let r := bufSpec ops 0 bs; (none :: r.1, r.2)
  | .put c :: ops, n + 1, bs => let r := bufSpec ops n bs; (some c :: r.1, c :: r.2)
  | .peek :: ops, n, bs => let r := bufSpec ops n bs; (bs.head? :: r.1, r.2)
  | .get :: ops, n, bs => let r := bufSpec ops n bs.tail; (bs.head? :: r.1, r.2)

/-- C47: for every history of puts, peeks and gets on a stream over `put[pbegin, pend)` and
`get[gbegin, gend)`: nothing outside the arrays is touched; the accepted characters appear in order from
`pbegin` on, never beyond `pend`, and everything else in the array is unchanged; reads see exactly
`get[gbegin, gend)` in order and then end of stream. -/
theorem buffer_exact (get put : List Byte) (gbegin gend pbegin pend : Nat) (hg : gbegin ≤ gend) (hg2 : gend ≤ get.length)
    (hp : pbegin ≤ pend) (hp2 : pend ≤ put.length) (ops : List BufOp) :
    ∃ b, Buf.run ops (Buf.new get gbegin gend put pbegin pend)
        = some (b, (bufSpec ops (pend - pbegin) ((get.take gend).drop gbegin)).1) ∧
      (bufSpec ops (pend - pbegin) ((get.take gend).drop gbegin)).2.length ≤ pend - pbegin ∧
      b.put = put.take pbegin ++ (bufSpec ops (pend - pbegin) ((get.take gend).drop gbegin)).2 ++
        put.drop (pbegin + (bufSpec ops (pend - pbegin) ((get.take gend).drop gbegin)).2.length) ∧
      b.get = get := by
  have gen : ∀ (ops : List BufOp) (b : Buf), b.gptr ≤ b.gend → b.gend ≤ b.get.length → b.pptr ≤ b.pend → b.pend ≤ b.put.length →
      ∃ b', Buf.run ops b = some (b', (bufSpec ops (b.pend - b.pptr) ((b.get.take b.gend).drop b.gptr)).1) ∧
        (bufSpec ops (b.pend - b.pptr) ((b.get.take b.gend).drop b.gptr)).2.length ≤ b.pend - b.pptr ∧
        b'.put = b.put.take b.pptr ++ (bufSpec ops (b.pend - b.pptr) ((b.get.take b.gend).drop b.gptr)).2 ++
          b.put.drop (b.pptr + (bufSpec ops (b.pend - b.pptr) ((b.get.take b.gend).drop b.gptr)).2.length) ∧
        b'.get = b.get := by
    intro ops
    induction ops with
    | nil => intro b _ _ _ _; exact ⟨b, rfl, by simp [bufSpec], by simp [bufSpec], rfl⟩
    | cons op ops ih =>
      intro b h1 h2 h3 h4
      have hread : (b.gptr < b.gend ∧ ∃ c, b.get[b.gptr]? = some c ∧ (b.get.take b.gend).drop b.gptr = c :: (b.get.take b.gend).drop (b.gptr + 1)) ∨
          (¬ b.gptr < b.gend ∧ (b.get.take b.gend).drop b.gptr = []) := by
        by_cases hc : b.gptr < b.gend
        · left
          have hlt : b.gptr < (b.get.take b.gend).length := by simp; omega
          refine ⟨hc, b.get[b.gptr]'(by omega), List.getElem?_eq_getElem _, ?_⟩
          rw [List.drop_eq_getElem_cons hlt]; simp
        · right
          exact ⟨hc, List.drop_of_length_le (by simp; omega)⟩
      cases op with
      | put c =>
        by_cases hc : b.pptr < b.pend
        · obtain ⟨b', e, l, p, g⟩ := ih { b with put := b.put.set b.pptr c, pptr := b.pptr + 1 } h1 h2 (by simp only; omega) (by simp; omega)
          have hn : b.pend - b.pptr = (b.pend - (b.pptr + 1)) + 1 := by omega
          simp only at e l p g
          refine ⟨b', ?_, ?_, ?_, g⟩
          · simp only [Buf.run, Buf.sputc]
            rw [if_pos hc, if_pos (by omega)]
            simp only
            rw [e, hn]
            simp [bufSpec, (charToInt_props c).2.2.1]
          · rw [hn]; simp only [bufSpec, List.length_cons]; omega
          · rw [p, hn]
            simp only [bufSpec, List.length_cons]
            generalize (bufSpec ops (b.pend - (b.pptr + 1)) ((b.get.take b.gend).drop b.gptr)).2 = x
            have hlt : b.pptr < b.put.length := by omega
            rw [List.take_add_one, List.getElem?_set_self (by omega), List.take_set_of_le (by omega),
              List.drop_set_of_lt (by omega), show b.pptr + 1 + x.length = b.pptr + (x.length + 1) by omega]
            simp
        · obtain ⟨b', e, l, p, g⟩ := ih b h1 h2 h3 h4
          have hn : b.pend - b.pptr = 0 := by omega
          refine ⟨b', ?_, ?_, ?_, g⟩
          · simp only [Buf.run, Buf.sputc]
            rw [if_neg hc]
            simp only
            rw [e, hn]
            simp [bufSpec, toByte?]
          · rw [hn] at l ⊢; simpa [bufSpec] using l
          · rw [p, hn]; simp [bufSpec]
      | peek =>
        obtain ⟨b', e, l, p, g⟩ := ih b h1 h2 h3 h4
        refine ⟨b', ?_, by simpa [bufSpec] using l, by simpa [bufSpec] using p, g⟩
        simp only [Buf.run, Buf.sgetc]
        rcases hread with ⟨hc, c, hc1, hc2⟩ | ⟨hc, hc2⟩
        · rw [if_pos hc, hc1]; simp only; rw [e]; simp [bufSpec, hc2, (charToInt_props c).2.2.1]
        · rw [if_neg hc]; simp only; rw [e]; simp [bufSpec, hc2, toByte?]
      | get =>
        rcases hread with ⟨hc, c, hc1, hc2⟩ | ⟨hc, hc2⟩
        · obtain ⟨b', e, l, p, g⟩ := ih { b with gptr := b.gptr + 1 } (by simp only; omega) h2 h3 h4
          simp only at e l p g
          refine ⟨b', ?_, by simpa [bufSpec, hc2] using l, by simpa [bufSpec, hc2] using p, g⟩
          simp only [Buf.run, Buf.sbumpc]
          rw [if_pos hc, hc1]; simp only; rw [e]; simp [bufSpec, hc2, (charToInt_props c).2.2.1]
        · obtain ⟨b', e, l, p, g⟩ := ih b h1 h2 h3 h4
          refine ⟨b', ?_, by simpa [bufSpec, hc2] using l, by simpa [bufSpec, hc2] using p, g⟩
          simp only [Buf.run, Buf.sbumpc]
          rw [if_neg hc]; simp only; rw [e]; simp [bufSpec, hc2, toByte?]
  exact gen ops (Buf.new get gbegin gend put pbegin pend) hg hg2 hp hp2

example : (1 : Nat) ≤ 3 ∧ 3 ≤ ([1, 2, 3, 4] : List Byte).length ∧
    bufSpec [.put 9, .get, .put 8, .put 7] 2 [1] = ([some 9, some 1, some 8, none], [9, 8]) := by decide

/-- C50 is violated: moving a buffer stream forgets how far it was, so the next character read is the
first one again and the next character put overwrites the first one. -/
theorem move_rewinds (a b : Byte) :
    ∃ s1 s2 s3, Buf.run [.get, .put a] (Buf.new [a, b] 0 2 [0, 0] 0 2) = some (s1, [some a, some a]) ∧
      Buf.run [.get] s1 = some (s2, [some b]) ∧
      Buf.run [.get, .put b] s1.moved = some (s3, [some a, some b]) ∧ s3.put = [b, 0] := by
  have ha := (charToInt_props a).2.2.1
  have hb := (charToInt_props b).2.2.1
  refine ⟨⟨[a, 0], 0, 2, 1, [a, b], 0, 2, 1⟩, ⟨[a, 0], 0, 2, 1, [a, b], 0, 2, 2⟩, ⟨[b, 0], 0, 2, 1, [a, b], 0, 2, 1⟩, ?_, ?_, ?_, rfl⟩
  · simp [Buf.run, Buf.sbumpc, Buf.sputc, Buf.new, ha]
  · simp [Buf.run, Buf.sbumpc, hb]
  · simp [Buf.run, Buf.sbumpc, Buf.sputc, Buf.new, Buf.moved, ha, hb]

/-- C50 in full: after any history, the moved object goes on like the old one would have. -/
def C50Full : Prop :=
  ∀ (get put : List Byte) (gbegin gend pbegin pend : Nat), gbegin ≤ gend → gend ≤ get.length →
    pbegin ≤ pend → pend ≤ put.length → ∀ (before : List BufOp) (b : Buf) (rs : List (Option Byte)),
    Buf.run before (Buf.new get gbegin gend put pbegin pend) = some (b, rs) →
    ∀ after, Buf.run after b.moved = Buf.run after b

theorem C50_violated : ¬ C50Full := by
  intro h
  have := h [1, 2] [0, 0] 0 2 0 2 (by decide) (by decide) (by decide) (by decide) [.get] _ _ rfl [.get]
  revert this
  decide

theorem run_areas : ∀ (ops : List BufOp) (b b' : Buf) (rs : List (Option Byte)), Buf.run ops b = some (b', rs) →
    b'.pbegin = b.pbegin ∧ b'.pend = b.pend ∧ b'.gbegin = b.gbegin ∧ b'.gend = b.gend ∧ b'.get = b.get ∧
      b'.put.length = b.put.length := by
  intro ops
  induction ops with
  | nil => intro b b' rs h; simp [Buf.run] at h; rw [h.1]; simp
  | cons op ops ih =>
    intro b b' rs h
    have one : ∀ c i, (match op with | .put c => b.sputc c | .peek => b.sgetc | .get => b.sbumpc) = some (c, i) →
        c.pbegin = b.pbegin ∧ c.pend = b.pend ∧ c.gbegin = b.gbegin ∧ c.gend = b.gend ∧ c.get = b.get ∧
          c.put.length = b.put.length := by
      intro c i hc
      cases op with
      | put x =>
        simp only [Buf.sputc] at hc
        split at hc
        · split at hc
          · simp at hc; rw [← hc.1]; simp
          · simp at hc
        · simp at hc; rw [← hc.1]; simp
      | peek =>
        simp only [Buf.sgetc] at hc
        split at hc
        · split at hc
          · simp at hc
          · simp at hc; rw [← hc.1]; simp
        · simp at hc; rw [← hc.1]; simp
      | get =>
        simp only [Buf.sbumpc] at hc
        split at hc
        · split at hc
          · simp at hc
          · simp at hc; rw [← hc.1]; simp
        · simp at hc; rw [← hc.1]; simp
    simp only [Buf.run] at h
    split at h
    · simp at h
    · rename_i c i hc
      have h1 := one c i hc
      split at h
      · simp at h
      · rename_i c' rs' hr
        simp at h
        rw [← h.1]
        have h2 := ih c c' rs' hr
        simp_all

/-- C50, what moving does after any history: the new object reads its whole area from the beginning
again, and writes from the beginning of its area. -/
theorem C50_rewinds (get put : List Byte) (gbegin gend pbegin pend : Nat) (hg : gbegin ≤ gend) (hg2 : gend ≤ get.length)
    (hp : pbegin ≤ pend) (hp2 : pend ≤ put.length) (before after : List BufOp) :
    ∃ b rs b', Buf.run before (Buf.new get gbegin gend put pbegin pend) = some (b, rs) ∧
      Buf.run after b.moved = some (b', (bufSpec after (pend - pbegin) ((get.take gend).drop gbegin)).1) ∧
      b'.put = b.put.take pbegin ++ (bufSpec after (pend - pbegin) ((get.take gend).drop gbegin)).2 ++
        b.put.drop (pbegin + (bufSpec after (pend - pbegin) ((get.take gend).drop gbegin)).2.length) := by
  obtain ⟨b, e, -, -, -⟩ := buffer_exact get put gbegin gend pbegin pend hg hg2 hp hp2 before
  obtain ⟨a1, a2, a3, a4, a5, a6⟩ := run_areas _ _ _ _ e
  simp only [Buf.new] at a1 a2 a3 a4 a5 a6
  have hm : b.moved = Buf.new get gbegin gend b.put pbegin pend := by
    unfold Buf.moved
    rw [a1, a2, a3, a4, a5]
  obtain ⟨b', e', -, p', -⟩ := buffer_exact get b.put gbegin gend pbegin pend hg hg2 hp (by omega) after
  refine ⟨b, _, b', e, ?_, p'⟩
  rw [hm]
  exact e'

/-- C50, the part that holds: a stream that has only been looked at goes on as before.  Missing: streams
that have been read from or written to, which start again (`C50_rewinds`). -/
theorem C50_untouched_partial (get put : List Byte) (gbegin gend pbegin pend : Nat) (n : Nat) (b : Buf)
    (rs : List (Option Byte))
    (h : Buf.run (List.replicate n .peek) (Buf.new get gbegin gend put pbegin pend) = some (b, rs)) (after : List BufOp) :
    Buf.run after b.moved = Buf.run after b := by
  have gen : ∀ (n : Nat) (b b' : Buf) (rs : List (Option Byte)), Buf.run (List.replicate n .peek) b = some (b', rs) →
      b' = b := by
    intro n
    induction n with
    | zero => intro b b' rs h; simp [Buf.run] at h; exact h.1.symm
    | succ n ih =>
      intro b b' rs h
      simp only [List.replicate_succ, Buf.run] at h
      split at h
      · simp at h
      · rename_i c i hc
        have hcb : c = b := by
          simp only [Buf.sgetc] at hc
          split at hc
          · split at hc
            · simp at hc
            · simp at hc; exact hc.1.symm
          · simp at hc; exact hc.1.symm
        split at h
        · simp at h
        · rename_i c' rs' hr
          simp at h
          rw [← h.1, ih c c' rs' hr, hcb]
  rw [gen n _ b rs h]
  rfl

example : Buf.run (List.replicate 2 .peek) (Buf.new [7, 8] 0 2 [0] 0 1) =
    some (Buf.new [7, 8] 0 2 [0] 0 1, [some 7, some 7]) := by decide

end Abc.Streambuf
