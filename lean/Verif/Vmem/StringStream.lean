import Verif.Vmem.StringKeep
import Verif.Streambuf.Model

/-! # Streams over strings that are still being written (C116)

The stream buffers of `src/x/vmem_string.x.h` over a string that lives in the pages of a pool
(`Verif/Vmem/PagesModel.lean`).  Any number of streams write to the string and any number read from it, in
any order; other containers of the pool are used in between.  `std::streambuf` is as in
`Verif/Streambuf/Model.lean`.  No call runs in parallel to another one. -/

namespace Abc.Vmem.StringStream
open Abc.Vmem.Pages Abc.Streambuf Abc.Ascii

/-- The input side of a `vmem_basic_string_streambuf`, `src/i/vmem_string.i.h` 150-173: `_get_itr`
(`none` for `nullptr`), `_get_ch`, and whether `gptr() < egptr()`. -/
structure Reader where
  itr : Option Itr
  ch : Byte
  avail : Bool
deriving DecidableEq, Repr

/-- Just constructed, `src/x/vmem_string.x.h` 37-50. -/
def Reader.init : Reader := ⟨none, 0, false⟩

/-- The pool with its containers, the put areas of the writing streams (`none`: `pptr() == &_put_ch`), and
the reading streams. -/
structure St where
  c : CSt Byte
  put : Nat → Option Byte
  rd : Nat → Reader

/-- A new pool and new streams. -/
def St.init : St := ⟨CSt.init 0, fun _ => none, fun _ => Reader.init⟩

/-- `_string->push_back(b)`; its result is not looked at. -/
def push (cfg : Nat → Cfg) (k : Nat) (c : CSt Byte) (b : Byte) : CSt Byte := c.step cfg (.push k [] b)

/-- `sputc` of stream `w` with `overflow`, `src/x/vmem_string.x.h` 90-97. -/
def sputc (cfg : Nat → Cfg) (k : Nat) (s : St) (w : Nat) (b : Byte) : St × Int :=
  match s.put w with
  | none => ({ s with put := fun v => if v = w then some b else s.put v }, toInt b)
  | some p => ({ s with c := push cfg k (push cfg k s.c p) b, put := fun v => if v = w then none else s.put v }, toInt b)

/-- `sync` of stream `w`, `src/x/vmem_string.x.h` 100-108. -/
def sync (cfg : Nat → Cfg) (k : Nat) (s : St) (w : Nat) : St :=
  match s.put w with
  | none => s
  | some p => { s with c := push cfg k s.c p, put := fun v => if v = w then none else s.put v }

/-- `underflow`, `src/x/vmem_string.x.h` 72-87; the inner `none` is the exception of `deref()`
(`src/x/vmem_iterator.x.h` 242-253).  `*_get_itr++` moves `_get_itr` first and dereferences the copy. -/
def underflow (max k : Nat) (c : CSt Byte) (r : Reader) : Reader × Option Int :=
  let i := r.itr.getD (cbegin (c.heap.states (k + 1)))
  if canDeref i = false then ({ r with itr := some i }, some eof)
  else
    match deref max [] c.heap i with
    | none => ({ r with itr := some (cnext max [] c.heap (k + 1) i) }, none)
    | some b => (⟨some (cnext max [] c.heap (k + 1) i), b, true⟩, some (charToInt b))

/-- `sgetc()` of `std::streambuf`. -/
def sgetc (max k : Nat) (c : CSt Byte) (r : Reader) : Reader × Option Int :=
  if r.avail then (r, some (toInt r.ch)) else underflow max k c r

/-- `sbumpc()` of `std::streambuf`, with the default `uflow()`. -/
def sbumpc (max k : Nat) (c : CSt Byte) (r : Reader) : Reader × Option Int :=
  if r.avail then ({ r with avail := false }, some (toInt r.ch))
  else
    match underflow max k c r with
    | (r', none) => (r', none)
    | (r', some i) => if i = eof then (r', some eof) else ({ r' with avail := false }, some (toInt r'.ch))

/-- What happens: a stream is written to or flushed, a stream is read from, or another container is used. -/
inductive Ev where
  | put (w : Nat) (b : Byte)
  | flush (w : Nat)
  | peek (r : Nat)
  | get (r : Nat)
  | other (o : COp Byte)

/-- What a reading program sees: which stream, whether it was `get` (or `peek`), and the result; `none` is an
exception. -/
structure Obs where
  r : Nat
  isGet : Bool
  res : Option Int
deriving DecidableEq, Repr

def St.setRd (s : St) (r : Nat) (x : Reader) : St := { s with rd := fun q => if q = r then x else s.rd q }

def step (cfg : Nat → Cfg) (max k : Nat) (s : St) : Ev → St × List Obs
  | .put w b => ((sputc cfg k s w b).1, [])
  | .flush w => (sync cfg k s w, [])
  | .peek r => (s.setRd r (sgetc max k s.c (s.rd r)).1, [⟨r, false, (sgetc max k s.c (s.rd r)).2⟩])
  | .get r => (s.setRd r (sbumpc max k s.c (s.rd r)).1, [⟨r, true, (sbumpc max k s.c (s.rd r)).2⟩])
  | .other o => ({ s with c := s.c.step cfg o }, [])

/-- A history from a new pool; the events are given latest first. -/
def hist (cfg : Nat → Cfg) (max k : Nat) : List Ev → St × List Obs
  | [] => (St.init, [])
  | e :: es => let p := hist cfg max k es; let q := step cfg max k p.1 e; (q.1, p.2 ++ q.2)

/-- A history, in order. -/
def run (cfg : Nat → Cfg) (max k : Nat) (es : List Ev) : St × List Obs := hist cfg max k es.reverse

/-- The results of the calls of `get` on stream `r`. -/
def gets (r : Nat) (os : List Obs) : List (Option Int) := (os.filter (fun o => decide (o.r = r) && o.isGet)).map Obs.res

/-- Stream `r` was read from. -/
def looked (r : Nat) (os : List Obs) : Prop := ∃ o ∈ os, o.r = r

/-- The events of the claims: characters other than `0xFF` (see C31) are written, and the other containers are
used as they may be. -/
def Ev.Ok (cfg : Nat → Cfg) (max k : Nat) : Ev → Prop
  | .put _ b => b ≠ 255
  | .other o => o.Ok cfg max ∧ o.num ≠ k
  | _ => True

theorem push_facts {cfg : Nat → Cfg} {max limit k : Nat} {s : CSt Byte} {pss : Nat → List Nat} {fs : List Nat} (ok : CfgOk cfg max limit)
    (v : CInv cfg s pss fs) (hm : 5 < max) (he : (cfg k).insEnd = false) (hl : s.heap.len ≤ limit) (x : Byte) :
    ∃ pss' fs', CInv cfg (push cfg k s x) pss' fs' ∧ (push cfg k s x).heap.len ≤ limit ∧
      (((push cfg k s x).lists k = s.lists k ∧ (push cfg k s x).heap = s.heap ∧ limit ≤ s.heap.len) ∨ (push cfg k s x).lists k = s.lists k ++ [x]) ∧
      ∀ i n, n < (s.lists k).length → At s.heap (pss k) i ((s.lists k).take n) ((s.lists k).drop n) →
        At (push cfg k s x).heap (pss' k) i (((push cfg k s x).lists k).take n) (((push cfg k s x).lists k).drop n) := by
  have a := at_end (v.cont k)
  rw [v.items k] at a
  have hn : (s.lists k).length ≤ (s.lists k).length := Nat.le_refl _
  have a' : At s.heap (pss k) (cend (s.heap.states (k + 1))) ((s.lists k).take (s.lists k).length) ((s.lists k).drop (s.lists k).length) := by
    rw [List.take_length, List.drop_length]; exact a
  obtain ⟨r, hr, h⟩ := insert_inv (x := x) (held := []) ok v (by simpa using hm) hn a' (Or.inl rfl)
  unfold push CSt.step CSt.insertAt
  simp only
  rw [hr]
  simp only
  rcases h with ⟨h1, h2, h3⟩ | ⟨j, pss', fs', h1, h2, h3, h4, h5⟩
  · rw [h1, h2, if_pos rfl]
    exact ⟨pss, fs, v, hl, Or.inl ⟨rfl, rfl, h3⟩, fun i n _ a => a⟩
  · rw [h1, if_neg (by simpa using h2)]
    refine ⟨pss', fs', h3, h4 hl, Or.inr (by simp [setList]), ?_⟩
    intro i n hn a
    rw [← List.getElem_cons_drop hn] at a
    have b := push_keeps (v.world k) (by rw [ok.hmax]; simpa using hm) (by rw [ok.hlimit]; exact ok.lim) (ok.log k) he hr
      (by rw [h1]; simpa using h2) (h3.cont k).own a
    rw [List.getElem_cons_drop hn] at b
    simp only [setList, if_pos]
    rw [List.take_length, List.drop_length, List.take_append_of_le_length (by omega), List.drop_append_of_le_length (by omega)]
    exact b

/-- The latest event is a read of stream `r`, which before it had got all but at most one of the characters. -/
def LastRead (cfg : Nat → Cfg) (max k r : Nat) (es : List Ev) : Prop :=
  ∃ e es0, es = e :: es0 ∧ (e = .get r ∨ e = .peek r) ∧ ((hist cfg max k es0).1.c.lists k).length ≤ (gets r (hist cfg max k es0).2).length + 1

/-- What holds of reader `r` after the events `es` (latest first). -/
structure RInv (cfg : Nat → Cfg) (max k : Nat) (es : List Ev) (ps : List Nat) (r : Nat) (s : St) (os : List Obs) (n m : Nat) : Prop where
  le : n ≤ (s.c.lists k).length
  got : gets r os = ((s.c.lists k).take (n - (s.rd r).avail.toNat)).map (fun b => some (toInt b)) ++ List.replicate m (some eof)
  ch : (s.rd r).avail = true → 1 ≤ n ∧ m = 0 ∧ (s.c.lists k)[n - 1]? = some (s.rd r).ch
  none_ : (s.rd r).itr = none → n = 0 ∧ m = 0
  look : (s.rd r).itr = none ↔ ¬ looked r os
  live : ∀ i, (s.rd r).itr = some i → (n < (s.c.lists k).length ∧ m = 0 ∧ At s.c.heap ps i ((s.c.lists k).take n) ((s.c.lists k).drop n)) ∨
    (canDeref i = false ∧ ∃ es1 es2, es = es2 ++ es1 ∧ (hist cfg max k es1).1.c.lists k = (s.c.lists k).take n ∧ looked r (hist cfg max k es1).2 ∧ LastRead cfg max k r es1)

structure SInv (cfg : Nat → Cfg) (max limit k : Nat) (es : List Ev) (pss : Nat → List Nat) (fs : List Nat) : Prop where
  inv : CInv cfg (hist cfg max k es).1.c pss fs
  len : (hist cfg max k es).1.c.heap.len ≤ limit
  text : ∀ b ∈ (hist cfg max k es).1.c.lists k, b ≠ 255
  put : ∀ w b, (hist cfg max k es).1.put w = some b → b ≠ 255
  rd : ∀ r, ∃ n m, RInv cfg max k es (pss k) r (hist cfg max k es).1 (hist cfg max k es).2 n m

theorem canDeref_at {cap : Nat} {h : Heap Byte} {sid : Nat} {ps : List Nat} {i : Itr} {u v : List Byte} {y : Byte} (c : Cont cap h sid ps) (hcap : cap < nilItem)
    (a : At h ps i u (y :: v)) : canDeref i = true := by
  generalize hv : y :: v = v0 at a
  cases a with
  | fin => cases hv
  | item as p bs k e hk =>
    have h1 := c.own.nn p (by rw [e]; simp)
    have h2 := (c.cnt p (by rw [e]; simp)).2
    have h3 : k ≠ nilItem := by omega
    simp [canDeref, h1, h3]

theorem charToInt_ne {b : Byte} (hb : b ≠ 255) : charToInt b ≠ eof := by
  have : ∀ b : Byte, b ≠ 255 → charToInt b ≠ eof := by
    have h : ∀ n : Fin 256, UInt8.ofNat n.1 ≠ 255 → charToInt (UInt8.ofNat n.1) ≠ eof := by decide +kernel
    intro b
    have := h ⟨b.toNat, b.toNat_lt⟩
    simpa using this
  exact this b hb

/-- What `underflow` does when nothing is in the get area. -/
theorem underflow_facts {cfg : Nat → Cfg} {max limit k : Nat} {es : List Ev} {pss : Nat → List Nat} {fs : List Nat} {r n m : Nat} {s : St} {os : List Obs}
    (ok : CfgOk cfg max limit) (hm : 0 < max) (v : CInv cfg s.c pss fs) (h : RInv cfg max k es (pss k) r s os n m) :
    (∃ i b, n < (s.c.lists k).length ∧ m = 0 ∧ (s.c.lists k)[n]? = some b ∧ underflow max k s.c (s.rd r) = (⟨some i, b, true⟩, some (charToInt b)) ∧
      At s.c.heap (pss k) i ((s.c.lists k).take (n + 1)) ((s.c.lists k).drop (n + 1))) ∨
    (∃ i, canDeref i = false ∧ underflow max k s.c (s.rd r) = ({ s.rd r with itr := some i }, some eof) ∧
      ((∃ es1 es2, es = es2 ++ es1 ∧ (hist cfg max k es1).1.c.lists k = (s.c.lists k).take n ∧ looked r (hist cfg max k es1).2 ∧ LastRead cfg max k r es1) ∨ (s.c.lists k = [] ∧ n = 0))) := by
  have key : (n < (s.c.lists k).length ∧ m = 0 ∧ At s.c.heap (pss k) ((s.rd r).itr.getD (cbegin (s.c.heap.states (k + 1)))) ((s.c.lists k).take n) ((s.c.lists k).drop n)) ∨
      (canDeref ((s.rd r).itr.getD (cbegin (s.c.heap.states (k + 1)))) = false ∧
      ((∃ es1 es2, es = es2 ++ es1 ∧ (hist cfg max k es1).1.c.lists k = (s.c.lists k).take n ∧ looked r (hist cfg max k es1).2 ∧ LastRead cfg max k r es1) ∨ (s.c.lists k = [] ∧ n = 0))) := by
    cases hi : (s.rd r).itr with
    | some i =>
      rcases h.live i hi with h1 | ⟨h1, h2⟩
      · exact Or.inl h1
      · exact Or.inr ⟨h1, Or.inl h2⟩
    | none =>
      obtain ⟨h1, h2⟩ := h.none_ hi
      have a := at_begin (v.cont k)
      rw [v.items k] at a
      by_cases ht : s.c.lists k = []
      · right
        refine ⟨?_, Or.inr ⟨ht, h1⟩⟩
        have e := at_end (v.cont k)
        rw [v.items k] at e
        rw [ht] at a e
        rw [Option.getD_none, at_unique (v.cont k) a e rfl]
        simp [canDeref, cend]
      · left
        rw [h1]
        exact ⟨List.length_pos_iff.2 ht, h2, a⟩
  unfold underflow
  simp only
  generalize (s.rd r).itr.getD (cbegin (s.c.heap.states (k + 1))) = i at key ⊢
  rcases key with ⟨h1, h2, h3⟩ | ⟨h1, h2⟩
  · left
    have h3' := h3
    rw [← List.getElem_cons_drop h1] at h3
    rw [canDeref_at (v.cont k) (ok.cap2 k) h3, if_neg (by decide), deref_at (v.cont k) (ok.cap2 k) (by simpa using hm) h3]
    refine ⟨_, _, h1, h2, List.getElem?_eq_getElem h1, rfl, ?_⟩
    have := at_next (v.cont k) (ok.cap2 k) (held := []) (by simpa using hm) h3
    rwa [List.take_append_getElem] at this
  · right
    rw [if_pos h1]
    exact ⟨i, h1, rfl, h2⟩

theorem rinv_mono {cfg : Nat → Cfg} {max k : Nat} {es : List Ev} {ps ps' : List Nat} {r n m : Nat} {s s' : St} {os : List Obs} {e : Ev}
    (h : RInv cfg max k es ps r s os n m) (hrd : s'.rd r = s.rd r) {z : List Byte} (hl : s'.c.lists k = s.c.lists k ++ z)
    (hat : ∀ i n, n < (s.c.lists k).length → At s.c.heap ps i ((s.c.lists k).take n) ((s.c.lists k).drop n) →
      At s'.c.heap ps' i ((s'.c.lists k).take n) ((s'.c.lists k).drop n)) : RInv cfg max k (e :: es) ps' r s' os n m where
  le := by rw [hl, List.length_append]; have := h.le; omega
  got := by rw [hrd, hl, List.take_append_of_le_length (by have := h.le; omega)]; exact h.got
  ch := by
    rw [hrd]
    intro ha
    obtain ⟨h1, h2, h3⟩ := h.ch ha
    have := h.le
    exact ⟨h1, h2, by rw [hl, List.getElem?_append_left (by omega)]; exact h3⟩
  none_ := by rw [hrd]; exact h.none_
  look := by rw [hrd]; exact h.look
  live := by
    rw [hrd]
    intro i hi
    rcases h.live i hi with ⟨h1, h2, h3⟩ | ⟨h1, es1, es2, h2, h3, h4⟩
    · exact Or.inl ⟨by rw [hl, List.length_append]; omega, h2, hat i n h1 h3⟩
    · exact Or.inr ⟨h1, es1, e :: es2, by rw [h2]; rfl, by rw [h3, hl, List.take_append_of_le_length h.le], h4⟩

theorem gets_append (r : Nat) (os os' : List Obs) : gets r (os ++ os') = gets r os ++ gets r os' := by simp [gets]
theorem gets_ne {r r' : Nat} {b : Bool} {x : Option Int} (h : r' ≠ r) : gets r [⟨r', b, x⟩] = [] := by simp [gets, h]
theorem gets_peek {r r' : Nat} {x : Option Int} : gets r [⟨r', false, x⟩] = [] := by simp [gets]
theorem gets_get {r : Nat} {x : Option Int} : gets r [⟨r, true, x⟩] = [x] := by simp [gets]

theorem looked_append {r r' : Nat} {os : List Obs} {b : Bool} {x : Option Int} (h : r' ≠ r) : looked r (os ++ [⟨r', b, x⟩]) ↔ looked r os := by
  unfold looked
  constructor
  · rintro ⟨o, ho, h1⟩
    rcases List.mem_append.1 ho with h2 | h2
    · exact ⟨o, h2, h1⟩
    · rw [List.mem_singleton] at h2; rw [h2] at h1; exact absurd h1 h
  · rintro ⟨o, ho, h1⟩
    exact ⟨o, List.mem_append_left _ ho, h1⟩

theorem looked_self {r : Nat} {os : List Obs} {b : Bool} {x : Option Int} : looked r (os ++ [⟨r, b, x⟩]) := ⟨_, List.mem_append_right _ (List.mem_singleton.2 rfl), rfl⟩

/-- Another stream was read from. -/
theorem rinv_read {cfg : Nat → Cfg} {max k : Nat} {es : List Ev} {ps : List Nat} {r r' n m : Nat} {s : St} {os : List Obs} {e : Ev} {x : Reader} {b : Bool} {y : Option Int}
    (h : RInv cfg max k es ps r s os n m) (hr : r' ≠ r) : RInv cfg max k (e :: es) ps r (s.setRd r' x) (os ++ [⟨r', b, y⟩]) n m := by
  have hrd : (s.setRd r' x).rd r = s.rd r := by
    simp only [St.setRd]; rw [if_neg (fun e => hr e.symm)]
  have h1 := rinv_mono (s' := s.setRd r' x) (e := e) (z := []) (ps' := ps) h hrd (by simp [St.setRd]) (fun i n _ a => a)
  exact ⟨h1.le, by rw [gets_append, gets_ne hr, List.append_nil]; exact h1.got, h1.ch, h1.none_, by rw [looked_append hr]; exact h1.look, h1.live⟩

theorem hist_peek (cfg : Nat → Cfg) (max k r : Nat) (es : List Ev) : hist cfg max k (.peek r :: es) =
    ((hist cfg max k es).1.setRd r (sgetc max k (hist cfg max k es).1.c ((hist cfg max k es).1.rd r)).1,
      (hist cfg max k es).2 ++ [⟨r, false, (sgetc max k (hist cfg max k es).1.c ((hist cfg max k es).1.rd r)).2⟩]) := rfl

theorem hist_get (cfg : Nat → Cfg) (max k r : Nat) (es : List Ev) : hist cfg max k (.get r :: es) =
    ((hist cfg max k es).1.setRd r (sbumpc max k (hist cfg max k es).1.c ((hist cfg max k es).1.rd r)).1,
      (hist cfg max k es).2 ++ [⟨r, true, (sbumpc max k (hist cfg max k es).1.c ((hist cfg max k es).1.rd r)).2⟩]) := rfl

/-- The new state of a reader, with the stream itself set apart. -/
theorem rinv_self {cfg : Nat → Cfg} {max k : Nat} {es : List Ev} {ps : List Nat} {r n m : Nat} {s : St} {os : List Obs} {x : Reader} {b : Bool} {y : Option Int} {i : Itr}
    (hx : x.itr = some i) (le : n ≤ (s.c.lists k).length)
    (got : gets r os ++ (if b then [y] else []) = ((s.c.lists k).take (n - x.avail.toNat)).map (fun b => some (toInt b)) ++ List.replicate m (some eof))
    (ch : x.avail = true → 1 ≤ n ∧ m = 0 ∧ (s.c.lists k)[n - 1]? = some x.ch)
    (live : (n < (s.c.lists k).length ∧ m = 0 ∧ At s.c.heap ps i ((s.c.lists k).take n) ((s.c.lists k).drop n)) ∨
      (canDeref i = false ∧ ∃ es1 es2, es = es2 ++ es1 ∧ (hist cfg max k es1).1.c.lists k = (s.c.lists k).take n ∧ looked r (hist cfg max k es1).2 ∧ LastRead cfg max k r es1)) :
    RInv cfg max k es ps r (s.setRd r x) (os ++ [⟨r, b, y⟩]) n m := by
  have hrd : (s.setRd r x).rd r = x := by simp [St.setRd]
  have hc : (s.setRd r x).c = s.c := rfl
  refine ⟨le, ?_, ?_, ?_, ?_, ?_⟩
  · rw [hrd, hc, ← got, gets_append]
    cases b
    · rw [gets_peek]; rfl
    · rw [gets_get]; rfl
  · rw [hrd, hc]; exact ch
  · rw [hrd, hx]; intro h; cases h
  · rw [hrd, hx]
    simp only [reduceCtorEq, false_iff, not_not]
    exact looked_self
  · rw [hrd, hx, hc]
    intro j hj
    cases hj
    exact live

theorem toNat_le_one (b : Bool) : b.toNat ≤ 1 := by cases b <;> decide

theorem rinv_peek {cfg : Nat → Cfg} {max limit k : Nat} {es : List Ev} {pss : Nat → List Nat} {fs : List Nat} {r n m : Nat}
    (ok : CfgOk cfg max limit) (hm : 0 < max) (v : CInv cfg (hist cfg max k es).1.c pss fs)
    (h : RInv cfg max k es (pss k) r (hist cfg max k es).1 (hist cfg max k es).2 n m) :
    ∃ n m, RInv cfg max k (.peek r :: es) (pss k) r (hist cfg max k (.peek r :: es)).1 (hist cfg max k (.peek r :: es)).2 n m := by
  have hh := hist_peek cfg max k r es
  cases ha : ((hist cfg max k es).1.rd r).avail with
  | true =>
    obtain ⟨i, hi⟩ : ∃ i, ((hist cfg max k es).1.rd r).itr = some i := by
      cases hi : ((hist cfg max k es).1.rd r).itr with
      | some i => exact ⟨i, rfl⟩
      | none => have := (h.none_ hi).1; have := (h.ch ha).1; omega
    have e1 : sgetc max k (hist cfg max k es).1.c ((hist cfg max k es).1.rd r) = ((hist cfg max k es).1.rd r, some (toInt ((hist cfg max k es).1.rd r).ch)) := by
      unfold sgetc; rw [ha]; rfl
    refine ⟨n, m, ?_⟩
    rw [hh, e1]
    refine rinv_self hi h.le (by rw [if_neg (by decide), List.append_nil]; exact h.got) h.ch ?_
    rcases h.live i hi with h1 | ⟨h1, es1, es2, h2, h3, h4⟩
    · exact Or.inl h1
    · exact Or.inr ⟨h1, es1, _ :: es2, by rw [h2]; rfl, h3, h4⟩
  | false =>
    have e1 : sgetc max k (hist cfg max k es).1.c ((hist cfg max k es).1.rd r) = underflow max k (hist cfg max k es).1.c ((hist cfg max k es).1.rd r) := by
      unfold sgetc; rw [ha]; rfl
    have hgot := h.got
    rw [ha] at hgot
    simp only [Bool.toNat_false, Nat.sub_zero] at hgot
    rcases underflow_facts ok hm v h with ⟨i, b, g1, g2, g3, g4, g5⟩ | ⟨i, g1, g2, g3⟩
    · refine ⟨n + 1, m, ?_⟩
      have hlast := hh
      rw [hh, e1, g4]
      refine rinv_self rfl (by omega) (by rw [if_neg (by decide), List.append_nil]; simpa using hgot) (fun _ => ⟨by omega, g2, by simpa using g3⟩) ?_
      by_cases hn : n + 1 < ((hist cfg max k es).1.c.lists k).length
      · exact Or.inl ⟨hn, g2, g5⟩
      · right
        refine ⟨?_, .peek r :: es, [], rfl, ?_, by rw [hlast]; exact looked_self, _, _, rfl, Or.inr rfl, by rw [hgot]; simp; omega⟩
        · have a := at_end (v.cont k)
          rw [at_unique (v.cont k) g5 a (by rw [v.items k, List.length_take]; omega)]
          simp [canDeref, cend]
        · rw [hlast, List.take_of_length_le (by omega)]; rfl
    · refine ⟨n, m, ?_⟩
      have hlast := hh
      rw [hh, e1, g2]
      refine rinv_self rfl h.le (by rw [if_neg (by decide), List.append_nil]; exact h.got) h.ch (Or.inr ⟨g1, ?_⟩)
      rcases g3 with ⟨es1, es2, h2, h3, h4⟩ | ⟨h1, h2⟩
      · exact ⟨es1, _ :: es2, by rw [h2]; rfl, h3, h4⟩
      · exact ⟨.peek r :: es, [], rfl, by rw [hlast, h2]; simpa [St.setRd] using h1, by rw [hlast]; exact looked_self, _, _, rfl, Or.inr rfl, by rw [h1]; simp⟩

theorem rinv_get {cfg : Nat → Cfg} {max limit k : Nat} {es : List Ev} {pss : Nat → List Nat} {fs : List Nat} {r n m : Nat}
    (ok : CfgOk cfg max limit) (hm : 0 < max) (v : CInv cfg (hist cfg max k es).1.c pss fs) (ht : ∀ b ∈ (hist cfg max k es).1.c.lists k, b ≠ 255)
    (h : RInv cfg max k es (pss k) r (hist cfg max k es).1 (hist cfg max k es).2 n m) :
    ∃ n m, RInv cfg max k (.get r :: es) (pss k) r (hist cfg max k (.get r :: es)).1 (hist cfg max k (.get r :: es)).2 n m := by
  have hh := hist_get cfg max k r es
  have hgot := h.got
  cases ha : ((hist cfg max k es).1.rd r).avail with
  | true =>
    obtain ⟨i, hi⟩ : ∃ i, ((hist cfg max k es).1.rd r).itr = some i := by
      cases hi : ((hist cfg max k es).1.rd r).itr with
      | some i => exact ⟨i, rfl⟩
      | none => have := (h.none_ hi).1; have := (h.ch ha).1; omega
    have e1 : sbumpc max k (hist cfg max k es).1.c ((hist cfg max k es).1.rd r) = ({ (hist cfg max k es).1.rd r with avail := false }, some (toInt ((hist cfg max k es).1.rd r).ch)) := by
      unfold sbumpc; rw [ha]; rfl
    obtain ⟨c1, c2, c3⟩ := h.ch ha
    refine ⟨n, m, ?_⟩
    rw [hh, e1]
    refine rinv_self hi h.le ?_ (fun h => by cases h) ?_
    · rw [hgot, ha, c2]
      simp only [Bool.toNat_true, Bool.toNat_false, List.replicate_zero, List.append_nil, Nat.sub_zero]
      rw [if_pos trivial]
      obtain ⟨n', rfl⟩ : ∃ n', n = n' + 1 := ⟨n - 1, by omega⟩
      simp only [Nat.add_sub_cancel] at c3 ⊢
      rw [List.take_add_one, c3]
      simp
    · rcases h.live i hi with h1 | ⟨h1, es1, es2, h2, h3, h4⟩
      · exact Or.inl h1
      · exact Or.inr ⟨h1, es1, _ :: es2, by rw [h2]; rfl, h3, h4⟩
  | false =>
    rw [ha] at hgot
    simp only [Bool.toNat_false, Nat.sub_zero] at hgot
    rcases underflow_facts ok hm v h with ⟨i, b, g1, g2, g3, g4, g5⟩ | ⟨i, g1, g2, g3⟩
    · have hb : charToInt b ≠ eof := charToInt_ne (ht b (List.mem_of_getElem? g3))
      have e1 : sbumpc max k (hist cfg max k es).1.c ((hist cfg max k es).1.rd r) = (⟨some i, b, false⟩, some (toInt b)) := by
        unfold sbumpc; rw [ha, g4]; simp [hb]
      refine ⟨n + 1, m, ?_⟩
      have hlast := hh
      rw [hh, e1]
      refine rinv_self rfl (by omega) ?_ (fun h => by cases h) ?_
      · rw [hgot, g2, if_pos rfl]
        simp only [Bool.toNat_false, List.replicate_zero, List.append_nil, Nat.sub_zero]
        rw [List.take_add_one, g3]
        simp
      by_cases hn : n + 1 < ((hist cfg max k es).1.c.lists k).length
      · exact Or.inl ⟨hn, g2, g5⟩
      · right
        refine ⟨?_, .get r :: es, [], rfl, ?_, by rw [hlast]; exact looked_self, _, _, rfl, Or.inl rfl, by rw [hgot]; simp; omega⟩
        · have a := at_end (v.cont k)
          rw [at_unique (v.cont k) g5 a (by rw [v.items k, List.length_take]; omega)]
          simp [canDeref, cend]
        · rw [hlast, List.take_of_length_le (by omega)]; rfl
    · have e1 : sbumpc max k (hist cfg max k es).1.c ((hist cfg max k es).1.rd r) = ({ (hist cfg max k es).1.rd r with itr := some i }, some eof) := by
        unfold sbumpc; rw [ha, g2]; simp
      refine ⟨n, m + 1, ?_⟩
      have hlast := hh
      rw [hh, e1]
      refine rinv_self rfl h.le ?_ (fun h => by rw [show _ = false from ha] at h; cases h) (Or.inr ⟨g1, ?_⟩)
      · rw [hgot, if_pos rfl]
        simp only [ha, Bool.toNat_false, Nat.sub_zero]
        rw [List.replicate_succ', List.append_assoc]
      rcases g3 with ⟨es1, es2, h2, h3, h4⟩ | ⟨h1, h2⟩
      · exact ⟨es1, _ :: es2, by rw [h2]; rfl, h3, h4⟩
      · exact ⟨.get r :: es, [], rfl, by rw [hlast, h2]; simpa [St.setRd] using h1, by rw [hlast]; exact looked_self, _, _, rfl, Or.inl rfl, by rw [h1]; simp⟩

/-- A step that reads nothing. -/
theorem sinv_write {cfg : Nat → Cfg} {max limit k : Nat} {es : List Ev} {pss pss' : Nat → List Nat} {fs fs' : List Nat} {e : Ev} {s' : St}
    (h : SInv cfg max limit k es pss fs) (hs : hist cfg max k (e :: es) = (s', (hist cfg max k es).2)) (hrd : s'.rd = (hist cfg max k es).1.rd)
    (v : CInv cfg s'.c pss' fs') (hl : s'.c.heap.len ≤ limit) {z : List Byte} (hz : s'.c.lists k = (hist cfg max k es).1.c.lists k ++ z) (hzz : ∀ b ∈ z, b ≠ 255)
    (hp : ∀ w b, s'.put w = some b → b ≠ 255)
    (hat : ∀ i n, n < ((hist cfg max k es).1.c.lists k).length →
      At (hist cfg max k es).1.c.heap (pss k) i (((hist cfg max k es).1.c.lists k).take n) (((hist cfg max k es).1.c.lists k).drop n) →
      At s'.c.heap (pss' k) i ((s'.c.lists k).take n) ((s'.c.lists k).drop n)) : SInv cfg max limit k (e :: es) pss' fs' := by
  constructor
  · rw [hs]; exact v
  · rw [hs]; exact hl
  · rw [hs, hz]
    intro b hb
    rcases List.mem_append.1 hb with h1 | h1
    · exact h.text b h1
    · exact hzz b h1
  · rw [hs]; exact hp
  · intro r
    obtain ⟨n, m, hr⟩ := h.rd r
    rw [hs]
    exact ⟨n, m, rinv_mono hr (by rw [hrd]) hz hat⟩

theorem sinv_step {cfg : Nat → Cfg} {max limit k : Nat} {es : List Ev} {pss : Nat → List Nat} {fs : List Nat} {e : Ev} (ok : CfgOk cfg max limit) (hm : 5 < max)
    (he : (cfg k).insEnd = false) (h : SInv cfg max limit k es pss fs) (ho : e.Ok cfg max k) : ∃ pss' fs', SInv cfg max limit k (e :: es) pss' fs' := by
  cases e with
  | put w b =>
    cases hw : (hist cfg max k es).1.put w with
    | none =>
      have hs : hist cfg max k (.put w b :: es) = ({ (hist cfg max k es).1 with put := fun v => if v = w then some b else (hist cfg max k es).1.put v }, (hist cfg max k es).2) := by
        show ((sputc cfg k (hist cfg max k es).1 w b).1, (hist cfg max k es).2 ++ []) = _
        unfold sputc; rw [hw, List.append_nil]
      refine ⟨pss, fs, sinv_write (z := []) h hs rfl h.inv h.len (by simp) (by simp) ?_ (fun i n _ a => a)⟩
      intro w' b' h'
      simp only at h'
      split at h'
      · cases h'; exact ho
      · exact h.put w' b' h'
    | some p =>
      have hs : hist cfg max k (.put w b :: es) = ({ (hist cfg max k es).1 with
          c := push cfg k (push cfg k (hist cfg max k es).1.c p) b, put := fun v => if v = w then none else (hist cfg max k es).1.put v }, (hist cfg max k es).2) := by
        show ((sputc cfg k (hist cfg max k es).1 w b).1, (hist cfg max k es).2 ++ []) = _
        unfold sputc; rw [hw, List.append_nil]
      obtain ⟨ps1, fs1, v1, l1, t1, a1⟩ := push_facts ok h.inv hm he h.len p
      obtain ⟨ps2, fs2, v2, l2, t2, a2⟩ := push_facts ok v1 hm he l1 b
      have hp := h.put w p hw
      have hz : ∃ z : List Byte, (∀ x ∈ z, x ≠ 255) ∧ (push cfg k (push cfg k (hist cfg max k es).1.c p) b).lists k = (hist cfg max k es).1.c.lists k ++ z := by
        have ho : b ≠ 255 := ho
        rcases t1 with ⟨t1, _⟩ | t1 <;> rcases t2 with ⟨t2, _⟩ | t2 <;> rw [t2, t1]
        · exact ⟨[], by simp, by simp⟩
        · exact ⟨[b], by simpa using ho, rfl⟩
        · exact ⟨[p], by simpa using hp, rfl⟩
        · exact ⟨[p, b], by simp [ho, hp], by simp⟩
      obtain ⟨z, z1, z2⟩ := hz
      refine ⟨ps2, fs2, sinv_write (z := z) h hs rfl v2 l2 z2 z1 ?_ ?_⟩
      · intro w' b' h'
        simp only at h'
        split at h'
        · cases h'
        · exact h.put w' b' h'
      · intro i n hn a
        exact a2 i n (by
          rcases t1 with ⟨t1, _⟩ | t1
          · rw [t1]; exact hn
          · rw [t1, List.length_append]; omega) (a1 i n hn a)
  | flush w =>
    cases hw : (hist cfg max k es).1.put w with
    | none =>
      have hs : hist cfg max k (.flush w :: es) = ((hist cfg max k es).1, (hist cfg max k es).2) := by
        show (sync cfg k (hist cfg max k es).1 w, (hist cfg max k es).2 ++ []) = _
        unfold sync; rw [hw, List.append_nil]
      exact ⟨pss, fs, sinv_write (z := []) h hs rfl h.inv h.len (by simp) (by simp) h.put (fun i n _ a => a)⟩
    | some p =>
      have hs : hist cfg max k (.flush w :: es) = ({ (hist cfg max k es).1 with
          c := push cfg k (hist cfg max k es).1.c p, put := fun v => if v = w then none else (hist cfg max k es).1.put v }, (hist cfg max k es).2) := by
        show (sync cfg k (hist cfg max k es).1 w, (hist cfg max k es).2 ++ []) = _
        unfold sync; rw [hw, List.append_nil]
      obtain ⟨ps1, fs1, v1, l1, t1, a1⟩ := push_facts ok h.inv hm he h.len p
      have hp := h.put w p hw
      have hz : ∃ z : List Byte, (∀ x ∈ z, x ≠ 255) ∧ (push cfg k (hist cfg max k es).1.c p).lists k = (hist cfg max k es).1.c.lists k ++ z := by
        rcases t1 with ⟨t1, _⟩ | t1 <;> rw [t1]
        · exact ⟨[], by simp, by simp⟩
        · exact ⟨[p], by simpa using hp, rfl⟩
      obtain ⟨z, z1, z2⟩ := hz
      refine ⟨ps1, fs1, sinv_write (z := z) h hs rfl v1 l1 z2 z1 ?_ a1⟩
      intro w' b' h'
      simp only at h'
      split at h'
      · cases h'
      · exact h.put w' b' h'
  | other o =>
    obtain ⟨ho1, ho2⟩ : o.Ok cfg max ∧ o.num ≠ k := ho
    have hs : hist cfg max k (.other o :: es) = ({ (hist cfg max k es).1 with c := (hist cfg max k es).1.c.step cfg o }, (hist cfg max k es).2) := by
      show ((step cfg max k (hist cfg max k es).1 (.other o)).1, (hist cfg max k es).2 ++ []) = _
      rw [List.append_nil]; rfl
    obtain ⟨l1, pss', fs', v1⟩ := cInv_step ok h.inv h.len ho1
    obtain ⟨q1, q2, q3⟩ := step_other ok h.inv ho1 ho2
    refine ⟨pss', fs', sinv_write (z := []) h hs rfl v1 l1 (by rw [List.append_nil]; exact q1) (by simp) h.put ?_⟩
    intro i n hn a
    rw [own_unique (v1.cont k).own q2, q1]
    exact q3 i _ _ a
  | peek r =>
    obtain ⟨n, m, hr⟩ := h.rd r
    have hh := hist_peek cfg max k r es
    refine ⟨pss, fs, by rw [hh]; exact h.inv, by rw [hh]; exact h.len, by rw [hh]; exact h.text, by rw [hh]; exact h.put, ?_⟩
    intro r'
    by_cases e : r = r'
    · subst e
      exact rinv_peek ok (by omega) h.inv hr
    · obtain ⟨n', m', hr'⟩ := h.rd r'
      rw [hh]
      exact ⟨n', m', rinv_read hr' e⟩
  | get r =>
    obtain ⟨n, m, hr⟩ := h.rd r
    have hh := hist_get cfg max k r es
    refine ⟨pss, fs, by rw [hh]; exact h.inv, by rw [hh]; exact h.len, by rw [hh]; exact h.text, by rw [hh]; exact h.put, ?_⟩
    intro r'
    by_cases e : r = r'
    · subst e
      exact rinv_get ok (by omega) h.inv h.text hr
    · obtain ⟨n', m', hr'⟩ := h.rd r'
      rw [hh]
      exact ⟨n', m', rinv_read hr' e⟩

theorem sinv_hist {cfg : Nat → Cfg} {max limit k : Nat} (ok : CfgOk cfg max limit) (h2 : 2 ≤ limit) (hm : 5 < max)
    (he : (cfg k).insEnd = false) (es : List Ev) (ho : ∀ e ∈ es, e.Ok cfg max k) : ∃ pss fs, SInv cfg max limit k es pss fs := by
  induction es with
  | nil =>
    refine ⟨fun _ => [], [], cInv_init cfg 0, h2, by simp [hist, St.init, CSt.init], by simp [hist, St.init], fun r => ⟨0, 0, ?_⟩⟩
    exact
      { le := Nat.zero_le _
        got := rfl
        ch := fun h => by cases h
        none_ := fun _ => ⟨rfl, rfl⟩
        look := by simp [hist, St.init, Reader.init, looked]
        live := fun i h => by cases h }
  | cons e es ih =>
    obtain ⟨pss, fs, h⟩ := ih (fun e h => ho e (by simp [h]))
    exact sinv_step ok hm he h (ho e (by simp))

/-- Histories in order. -/
theorem sinv_run {cfg : Nat → Cfg} {max limit k : Nat} (ok : CfgOk cfg max limit) (h2 : 2 ≤ limit) (hm : 5 < max)
    (he : (cfg k).insEnd = false) (es : List Ev) (ho : ∀ e ∈ es, e.Ok cfg max k) : ∃ pss fs, SInv cfg max limit k es.reverse pss fs :=
  sinv_hist ok h2 hm he es.reverse (fun e h => ho e (by simpa using h))

theorem hist_app (cfg : Nat → Cfg) (max k : Nat) (es1 es2 : List Ev) : ∃ os, (hist cfg max k (es2 ++ es1)).2 = (hist cfg max k es1).2 ++ os := by
  induction es2 with
  | nil => exact ⟨[], by simp⟩
  | cons e es2 ih =>
    obtain ⟨os, h⟩ := ih
    refine ⟨os ++ (step cfg max k (hist cfg max k (es2 ++ es1)).1 e).2, ?_⟩
    rw [← List.append_assoc, ← h]; rfl

/-- What is in a string is what a program reads from it. -/
theorem reads_inj {max k : Nat} {h : Heap Byte} {l l' : List Byte} (hm : 0 < max) (a : Reads max h k l) (b : Reads max h k l') : l = l' := by
  have h1 := a.forward [] 0 (by simpa using hm)
  have h2 := b.forward [] 0 (by simpa using hm)
  have e : l.length = l'.length := by rw [← a.size, ← b.size]
  rw [e] at h1
  exact List.map_injective_iff.2 (fun _ _ h => Option.some.inj h) (h1.symm.trans h2)

/-- C116 as one would want it: a reader that meets the end of the stream has got all the text there is. -/
def C116Full : Prop :=
  ∀ (cfg : Nat → Cfg) (max limit k : Nat), CfgOk cfg max limit → 2 ≤ limit → 5 < max → (cfg k).insEnd = false →
    ∀ (es : List Ev), (∀ e ∈ es, e.Ok cfg max k) → ∀ (r : Nat) (text : List Byte), Reads max (run cfg max k es).1.c.heap k text →
      (run cfg max k (es ++ [.get r])).2 = (run cfg max k es).2 ++ [⟨r, true, some eof⟩] →
      ∃ m, gets r (run cfg max k es).2 = text.map (fun b => some (toInt b)) ++ List.replicate m (some eof)

theorem partial_aux {cfg : Nat → Cfg} {max limit k : Nat} (ok : CfgOk cfg max limit) (h2 : 2 ≤ limit) (hm : 5 < max) (he : (cfg k).insEnd = false)
    (es : List Ev) (ho : ∀ e ∈ es, e.Ok cfg max k) :
    ∃ text, Reads max (run cfg max k es).1.c.heap k text ∧ ∀ r, ∃ n m, n ≤ text.length ∧
      gets r (run cfg max k es).2 = (text.take n).map (fun b => some (toInt b)) ++ List.replicate m (some eof) ∧
      (0 < m → ∃ es1 es2, es = es1 ++ es2 ∧ Reads max (run cfg max k es1).1.c.heap k (text.take n) ∧ looked r (run cfg max k es1).2 ∧ LastRead cfg max k r es1.reverse) := by
  obtain ⟨pss, fs, h⟩ := sinv_run ok h2 hm he es ho
  refine ⟨_, reads_of_inv ok h.inv k, fun r => ?_⟩
  obtain ⟨n, m, hr⟩ := h.rd r
  refine ⟨n - ((hist cfg max k es.reverse).1.rd r).avail.toNat, m, by have := hr.le; omega, hr.got, ?_⟩
  intro hm0
  have ha : ((hist cfg max k es.reverse).1.rd r).avail = false := by
    cases e : ((hist cfg max k es.reverse).1.rd r).avail with
    | false => rfl
    | true => have := (hr.ch e).2.1; omega
  rw [ha]
  simp only [Bool.toNat_false, Nat.sub_zero]
  cases hi : ((hist cfg max k es.reverse).1.rd r).itr with
  | none => have := (hr.none_ hi).2; omega
  | some i =>
    rcases hr.live i hi with ⟨_, h1, _⟩ | ⟨_, es1, es2, e1, e2, e3⟩
    · omega
    · have e4 : es = es1.reverse ++ es2.reverse := by
        have := congrArg List.reverse e1
        simpa using this
      refine ⟨es1.reverse, es2.reverse, e4, ?_, by unfold run; rw [List.reverse_reverse]; exact e3.1, by rw [List.reverse_reverse]; exact e3.2⟩
      obtain ⟨pss', fs', h'⟩ := sinv_run ok h2 hm he es1.reverse (fun e hx => ho e (by rw [e4]; exact List.mem_append_left _ hx))
      have := reads_of_inv ok h'.inv k
      rw [List.reverse_reverse, e2] at this
      unfold run
      rw [List.reverse_reverse]
      exact this

/-- C116, the part that holds.  Whatever is written, flushed and read, by however many streams and in whatever
order: no read throws, and what a reader gets is a beginning of the text that is in the string, followed by ends of
stream only.  If it met the end of the stream, what it got is all that was in the string at some time after it first
looked. -/
theorem C116_partial {cfg : Nat → Cfg} {max limit k : Nat} (ok : CfgOk cfg max limit) (h2 : 2 ≤ limit) (hm : 5 < max) (he : (cfg k).insEnd = false)
    (es : List Ev) (ho : ∀ e ∈ es, e.Ok cfg max k) :
    ∃ text, Reads max (run cfg max k es).1.c.heap k text ∧ ∀ r, ∃ n m, n ≤ text.length ∧
      gets r (run cfg max k es).2 = (text.take n).map (fun b => some (toInt b)) ++ List.replicate m (some eof) ∧
      (0 < m → ∃ es1 es2, es = es1 ++ es2 ∧ Reads max (run cfg max k es1).1.c.heap k (text.take n) ∧ looked r (run cfg max k es1).2) := by
  obtain ⟨text, h1, h⟩ := partial_aux ok h2 hm he es ho
  refine ⟨text, h1, fun r => ?_⟩
  obtain ⟨n, m, n1, n2, n3⟩ := h r
  refine ⟨n, m, n1, n2, fun h => ?_⟩
  obtain ⟨es1, es2, e1, e2, e3, _⟩ := n3 h
  exact ⟨es1, es2, e1, e2, e3⟩

/-- Events that do not write to the string. -/
def Ev.silent : Ev → Prop
  | .put _ _ => False
  | .flush _ => False
  | _ => True

theorem lists_silent {cfg : Nat → Cfg} {max limit k : Nat} (ok : CfgOk cfg max limit) (h2 : 2 ≤ limit) (hm : 5 < max) (he : (cfg k).insEnd = false) (es1 : List Ev) :
    ∀ es2, (∀ e ∈ es2 ++ es1, e.Ok cfg max k) → (∀ e ∈ es2, e.silent) → (hist cfg max k (es2 ++ es1)).1.c.lists k = (hist cfg max k es1).1.c.lists k := by
  intro es2
  induction es2 with
  | nil => intro _ _; rfl
  | cons e es2 ih =>
    intro ho hs
    rw [← ih (fun e h => ho e (by simp at h ⊢; tauto)) (fun e h => hs e (by simp [h]))]
    have hs := hs e (by simp)
    have hoe := ho e (by simp)
    cases e with
    | put => exact absurd hs id
    | flush => exact absurd hs id
    | peek => rfl
    | get => rfl
    | other o =>
      obtain ⟨pss, fs, h⟩ := sinv_hist ok h2 hm he (es2 ++ es1) (fun e h => ho e (by simp at h ⊢; tauto))
      exact (step_other ok h.inv hoe.1 hoe.2).1

/-- The usual case: if nothing is written any more once a reader has started, it gets the whole text and then ends
of stream, whatever other streams read in between. -/
theorem C116_after_partial {cfg : Nat → Cfg} {max limit k : Nat} (ok : CfgOk cfg max limit) (h2 : 2 ≤ limit) (hm : 5 < max) (he : (cfg k).insEnd = false)
    (es1 es2 : List Ev) (ho : ∀ e ∈ es1 ++ es2, e.Ok cfg max k) (r : Nat) (h1 : ¬ looked r (run cfg max k es1).2) (hs : ∀ e ∈ es2, e.silent) :
    ∃ text, Reads max (run cfg max k es1).1.c.heap k text ∧ Reads max (run cfg max k (es1 ++ es2)).1.c.heap k text ∧
      ∀ l, l = (gets r (run cfg max k (es1 ++ es2)).2).length →
        gets r (run cfg max k (es1 ++ es2)).2 = (text.map (fun b => some (toInt b)) ++ List.replicate l (some eof)).take l := by
  obtain ⟨pss, fs, h⟩ := sinv_run ok h2 hm he (es1 ++ es2) ho
  obtain ⟨pss1, fs1, g⟩ := sinv_run ok h2 hm he es1 (fun e hx => ho e (List.mem_append_left _ hx))
  have same : ∀ es2' es3', es2 = es2' ++ es3' → (hist cfg max k (es1 ++ es2').reverse).1.c.lists k = (hist cfg max k es1.reverse).1.c.lists k := by
    intro es2' es3' e
    rw [List.reverse_append]
    exact lists_silent ok h2 hm he es1.reverse es2'.reverse (fun e' h' => ho e' (by rw [e]; simp at h' ⊢; tauto)) (fun e' h' => hs e' (by rw [e]; simp at h' ⊢; tauto))
  have all := same es2 [] (by simp)
  refine ⟨_, reads_of_inv ok g.inv k, ?_, ?_⟩
  · rw [← all]; exact reads_of_inv ok h.inv k
  intro l hl
  obtain ⟨text, t1, t2⟩ := C116_partial ok h2 hm he (es1 ++ es2) ho
  have e := reads_inj (by omega) t1 (reads_of_inv ok h.inv k)
  obtain ⟨n, m, n1, n2, n3⟩ := t2 r
  rw [e, all] at n1 n2 n3
  rw [n2] at hl ⊢
  rcases Nat.eq_zero_or_pos m with h0 | h0
  · rw [h0] at hl ⊢
    simp only [List.replicate_zero, List.append_nil, List.length_map, List.length_take] at hl ⊢
    have hln : l = n := by omega
    rw [hln, List.take_append_of_le_length (by simpa using n1), List.map_take]
  · obtain ⟨a, b, ab, ar, al⟩ := n3 h0
    obtain ⟨c, hc, hc2⟩ : ∃ c, a = es1 ++ c ∧ es2 = c ++ b := by
      rcases List.append_eq_append_iff.1 ab with ⟨c, c1, c2⟩ | ⟨c, c1, c2⟩
      · exact ⟨c, c1, c2⟩
      · exfalso
        apply h1
        obtain ⟨o, o1, o2⟩ := al
        obtain ⟨os, hos⟩ := hist_app cfg max k a.reverse c.reverse
        refine ⟨o, ?_, o2⟩
        unfold run
        rw [c1, List.reverse_append, hos]
        exact List.mem_append_left _ o1
    obtain ⟨pssa, fsa, ga⟩ := sinv_run ok h2 hm he a (fun e hx => ho e (by rw [ab]; exact List.mem_append_left _ hx))
    have ea := reads_inj (by omega) ar (reads_of_inv ok ga.inv k)
    rw [hc, same c b hc2] at ea
    rw [ea] at hl ⊢
    simp only [List.length_append, List.length_map, List.length_replicate] at hl
    rw [List.take_append, List.take_of_length_le (by simp; omega), List.take_replicate]
    congr 2
    simp; omega

theorem toInt_ne (b : Byte) : some (toInt b) ≠ some eof := by
  intro h
  have h := Option.some.inj h
  simp only [toInt, eof] at h
  omega

theorem take_all {text : List Byte} {n m m' : Nat}
    (h : (text.take n).map (fun b => some (toInt b)) ++ List.replicate m (some eof) = text.map (fun b => some (toInt b)) ++ List.replicate m' (some eof)) :
    text.length ≤ n := by
  have h := congrArg (fun l => (l.filter (fun o => decide (o ≠ some eof))).length) h
  simp only [List.filter_append, List.length_append] at h
  have e1 : ∀ l : List Byte, (l.map (fun b => some (toInt b))).filter (fun o => decide (o ≠ some eof)) = l.map (fun b => some (toInt b)) := by
    intro l
    rw [List.filter_eq_self]
    intro o ho
    obtain ⟨b, _, hb⟩ := List.mem_map.1 ho
    rw [← hb]
    exact decide_eq_true (toInt_ne b)
  have e2 : ∀ n, (List.replicate n (some eof)).filter (fun o => decide (o ≠ some eof)) = [] := by
    intro n; simp
  rw [e1, e1, e2, e2] at h
  simp at h
  omega

/-- A reader that is at the end stays there. -/
structure Dead (r : Nat) (s : St) : Prop where
  avail : (s.rd r).avail = false
  itr : ∃ i, (s.rd r).itr = some i ∧ canDeref i = false

theorem dead_underflow {r max k : Nat} {s : St} (h : Dead r s) : underflow max k s.c (s.rd r) = (s.rd r, some eof) := by
  obtain ⟨i, hi, hd⟩ := h.itr
  unfold underflow
  simp only [hi, Option.getD_some]
  rw [if_pos hd, ← hi]

theorem dead_step {cfg : Nat → Cfg} {max k r : Nat} {s : St} (h : Dead r s) (e : Ev) :
    Dead r (step cfg max k s e).1 ∧ ∀ o ∈ (step cfg max k s e).2, o.r = r → o.res = some eof := by
  have hg : sgetc max k s.c (s.rd r) = (s.rd r, some eof) := by unfold sgetc; rw [h.avail]; exact dead_underflow h
  have hb : sbumpc max k s.c (s.rd r) = (s.rd r, some eof) := by unfold sbumpc; rw [h.avail, dead_underflow h]; simp
  cases e with
  | put w b =>
    have : (sputc cfg k s w b).1.rd = s.rd := by unfold sputc; split <;> rfl
    exact ⟨⟨by simp only [step, this]; exact h.avail, by simp only [step, this]; exact h.itr⟩, by simp [step]⟩
  | flush w =>
    have : (sync cfg k s w).rd = s.rd := by unfold sync; split <;> rfl
    exact ⟨⟨by simp only [step, this]; exact h.avail, by simp only [step, this]; exact h.itr⟩, by simp [step]⟩
  | other o => exact ⟨⟨h.avail, h.itr⟩, by simp [step]⟩
  | peek q =>
    have : (s.setRd q (sgetc max k s.c (s.rd q)).1).rd r = s.rd r := by
      simp only [St.setRd]
      split
      · rename_i e; rw [← e, hg]
      · rfl
    refine ⟨⟨by simp only [step, this]; exact h.avail, by simp only [step, this]; exact h.itr⟩, ?_⟩
    intro o ho hr
    simp only [step, List.mem_singleton] at ho
    rw [ho] at hr ⊢
    have hr : q = r := hr
    simp only [hr, hg]
  | get q =>
    have : (s.setRd q (sbumpc max k s.c (s.rd q)).1).rd r = s.rd r := by
      simp only [St.setRd]
      split
      · rename_i e; rw [← e, hb]
      · rfl
    refine ⟨⟨by simp only [step, this]; exact h.avail, by simp only [step, this]; exact h.itr⟩, ?_⟩
    intro o ho hr
    simp only [step, List.mem_singleton] at ho
    rw [ho] at hr ⊢
    have hr : q = r := hr
    simp only [hr, hb]

/-- C116 is violated, always: once a reader has got all that is in the string (or has looked at an empty string), it
is at the end for good.  Whatever is written and flushed later, each of its reads tells the end of the stream. -/
theorem C116_violated_stuck {cfg : Nat → Cfg} {max limit k : Nat} (ok : CfgOk cfg max limit) (h2 : 2 ≤ limit) (hm : 5 < max) (he : (cfg k).insEnd = false)
    (es : List Ev) (ho : ∀ e ∈ es, e.Ok cfg max k) (r m : Nat) (text : List Byte) (ht : Reads max (run cfg max k es).1.c.heap k text)
    (hl : looked r (run cfg max k es).2) (hg : gets r (run cfg max k es).2 = text.map (fun b => some (toInt b)) ++ List.replicate m (some eof)) (es' : List Ev) :
    ∃ os, (run cfg max k (es ++ es')).2 = (run cfg max k es).2 ++ os ∧ ∀ o ∈ os, o.r = r → o.res = some eof := by
  obtain ⟨pss, fs, h⟩ := sinv_run ok h2 hm he es ho
  have e := reads_inj (by omega) ht (reads_of_inv ok h.inv k)
  obtain ⟨n, m', hr⟩ := h.rd r
  have hle := hr.le
  have hgot := hr.got
  rw [show gets r (hist cfg max k es.reverse).2 = _ from hg, e] at hgot
  have hn := take_all hgot.symm
  have ha : ((hist cfg max k es.reverse).1.rd r).avail = false := by
    cases ea : ((hist cfg max k es.reverse).1.rd r).avail with
    | false => rfl
    | true =>
      rw [ea] at hn
      simp only [Bool.toNat_true] at hn
      have := (hr.ch ea).1
      omega
  have dead : Dead r (hist cfg max k es.reverse).1 := by
    refine ⟨ha, ?_⟩
    cases hi : ((hist cfg max k es.reverse).1.rd r).itr with
    | none => exact absurd hl (hr.look.1 hi)
    | some i =>
      refine ⟨i, rfl, ?_⟩
      rcases hr.live i hi with ⟨h1, _⟩ | ⟨h1, _⟩
      · rw [ha] at hn; simp at hn; omega
      · exact h1
  have key : ∀ es2, Dead r (hist cfg max k (es2 ++ es.reverse)).1 ∧ ∃ os, (hist cfg max k (es2 ++ es.reverse)).2 = (hist cfg max k es.reverse).2 ++ os ∧
      ∀ o ∈ os, o.r = r → o.res = some eof := by
    intro es2
    induction es2 with
    | nil => exact ⟨dead, [], by simp, by simp⟩
    | cons x es2 ih =>
      obtain ⟨d, os, e1, e2⟩ := ih
      obtain ⟨d1, d2⟩ := dead_step (cfg := cfg) (max := max) (k := k) d x
      refine ⟨d1, os ++ (step cfg max k (hist cfg max k (es2 ++ es.reverse)).1 x).2, by rw [← List.append_assoc, ← e1]; rfl, ?_⟩
      intro o ho
      rcases List.mem_append.1 ho with h' | h'
      · exact e2 o h'
      · exact d2 o h'
  unfold run
  rw [List.reverse_append]
  exact (key es'.reverse).2

/-- A string like `vmem_string` with room for two characters on a page, and another list, in one pool. -/
def demoCfg (limit : Nat) : Nat → Cfg := fun _ => { listCfg 2 true with limit := limit }

theorem demoCfg_ok {limit : Nat} (h : limit ≤ nil) : CfgOk (demoCfg limit) 16 limit :=
  ⟨fun _ => rfl, fun _ => rfl, h, fun _ => rfl, fun _ => show 1 ≤ 2 by decide, fun _ => show 2 < nilItem by decide⟩

/-- Two writers, two readers, and another list in the same pool. -/
def demoEvs : List Ev :=
  [.put 0 1, .put 0 2, .put 0 3, .put 1 200, .flush 1, .peek 5, .other (.push 7 [] 9), .get 5, .put 0 4, .get 5, .flush 0, .get 6, .get 5, .other (.pop 7 []), .put 1 6, .put 1 7, .get 5, .get 5]

theorem demoEvs_ok (limit : Nat) : ∀ e ∈ demoEvs, e.Ok (demoCfg limit) 16 0 := by
  intro e he
  simp only [demoEvs, List.mem_cons, List.not_mem_nil, or_false] at he
  rcases he with rfl | rfl | rfl | rfl | rfl | rfl | rfl | rfl | rfl | rfl | rfl | rfl | rfl | rfl | rfl | rfl | rfl | rfl <;>
    first
    | exact trivial
    | (show (_ : Byte) ≠ 255; decide)
    | exact ⟨⟨by decide, fun _ _ _ _ h => by cases h⟩, by decide⟩

example : (run (demoCfg 100) 16 0 demoEvs).1.c.lists 0 = [1, 2, 200, 3, 4, 6, 7] ∧
    gets 5 (run (demoCfg 100) 16 0 demoEvs).2 = [some 1, some 2, some 200, some 3, some 4] ∧ gets 6 (run (demoCfg 100) 16 0 demoEvs).2 = [some 1] := by decide +kernel

example : ∃ text, Reads 16 (run (demoCfg 100) 16 0 demoEvs).1.c.heap 0 text ∧ ∀ r, ∃ n m, n ≤ text.length ∧
    gets r (run (demoCfg 100) 16 0 demoEvs).2 = (text.take n).map (fun b => some (toInt b)) ++ List.replicate m (some eof) ∧
    (0 < m → ∃ es1 es2, demoEvs = es1 ++ es2 ∧ Reads 16 (run (demoCfg 100) 16 0 es1).1.c.heap 0 (text.take n) ∧ looked r (run (demoCfg 100) 16 0 es1).2) :=
  C116_partial (demoCfg_ok (by decide)) (by decide) (by decide) rfl demoEvs (demoEvs_ok 100)

/-- Three characters are written and flushed; a reader gets them; two more are written and flushed. -/
def lateEvs : List Ev := [.put 0 1, .put 0 2, .put 0 3, .flush 0, .get 5, .get 5, .get 5]
def lateEvs2 : List Ev := [.put 0 4, .put 0 5, .flush 0]

theorem lateEvs_ok : ∀ e ∈ lateEvs ++ lateEvs2, e.Ok (demoCfg 100) 16 0 := by
  intro e he
  simp only [lateEvs, lateEvs2, List.cons_append, List.nil_append, List.mem_cons, List.not_mem_nil, or_false] at he
  rcases he with rfl | rfl | rfl | rfl | rfl | rfl | rfl | rfl | rfl | rfl <;>
    first
    | exact trivial
    | (show (_ : Byte) ≠ 255; decide)

theorem late_reads (es : List Ev) (ho : ∀ e ∈ es, e.Ok (demoCfg 100) 16 0) : Reads 16 (run (demoCfg 100) 16 0 es).1.c.heap 0 ((run (demoCfg 100) 16 0 es).1.c.lists 0) := by
  obtain ⟨pss, fs, h⟩ := sinv_run (demoCfg_ok (limit := 100) (by decide)) (by decide) (by decide) rfl es ho
  exact reads_of_inv (demoCfg_ok (by decide)) h.inv 0

/-- A case of `C116_violated_stuck`: the reader has got the three characters and never meets the others. -/
example : ∃ os, (run (demoCfg 100) 16 0 (lateEvs ++ (lateEvs2 ++ [.peek 5, .get 5]))).2 = (run (demoCfg 100) 16 0 lateEvs).2 ++ os ∧ ∀ o ∈ os, o.r = 5 → o.res = some eof :=
  C116_violated_stuck (demoCfg_ok (by decide)) (by decide) (by decide) rfl lateEvs (fun e h => lateEvs_ok e (by simp [h])) 5 0 [1, 2, 3]
    (by have := late_reads lateEvs (fun e h => lateEvs_ok e (by simp [h]))
        rwa [show (run (demoCfg 100) 16 0 lateEvs).1.c.lists 0 = [1, 2, 3] by decide +kernel] at this)
    ⟨⟨5, true, some 1⟩, by decide +kernel, rfl⟩ (by decide +kernel) _

/-- C116 is violated: the reader gets three characters and the end of the stream although five are there. -/
theorem C116_violated : ¬ C116Full := by
  intro h
  have h1 := late_reads (lateEvs ++ lateEvs2) lateEvs_ok
  rw [show (run (demoCfg 100) 16 0 (lateEvs ++ lateEvs2)).1.c.lists 0 = [1, 2, 3, 4, 5] by decide +kernel] at h1
  obtain ⟨m, hm⟩ := h (demoCfg 100) 16 100 0 (demoCfg_ok (by decide)) (by decide) (by decide) rfl (lateEvs ++ lateEvs2) lateEvs_ok 5 _ h1 (by decide +kernel)
  rw [show gets 5 (run (demoCfg 100) 16 0 (lateEvs ++ lateEvs2)).2 = [some 1, some 2, some 3] by decide +kernel] at hm
  have := congrArg List.length hm
  simp at this

/-- A case of `C116_after_partial`. -/
example : gets 5 (run (demoCfg 100) 16 0 ([.put 0 1, .put 0 2, .put 0 3, .flush 0] ++ [.get 5, .get 6, .peek 5, .get 5, .get 5, .peek 5, .get 5, .get 5])).2 =
    [some 1, some 2, some 3, some (-1), some (-1)] := by decide +kernel

/-- Two characters behind is enough: a reader that reads only while at least two characters that it has not got are
there misses nothing, however the reads and the writes are interleaved. -/
theorem C116_trailing_partial {cfg : Nat → Cfg} {max limit k : Nat} (ok : CfgOk cfg max limit) (h2 : 2 ≤ limit) (hm : 5 < max) (he : (cfg k).insEnd = false)
    (es : List Ev) (ho : ∀ e ∈ es, e.Ok cfg max k) (r : Nat)
    (hb : ∀ es1 e es2, es = es1 ++ e :: es2 → e = .get r ∨ e = .peek r → ∃ text, Reads max (run cfg max k es1).1.c.heap k text ∧ (gets r (run cfg max k es1).2).length + 1 < text.length) :
    ∃ text, Reads max (run cfg max k es).1.c.heap k text ∧
      gets r (run cfg max k es).2 = (text.take (gets r (run cfg max k es).2).length).map (fun b => some (toInt b)) := by
  obtain ⟨text, t1, t2⟩ := partial_aux ok h2 hm he es ho
  refine ⟨text, t1, ?_⟩
  obtain ⟨n, m, n1, n2, n3⟩ := t2 r
  have hm0 : m = 0 := by
    apply Nat.eq_zero_of_not_pos
    intro hpos
    obtain ⟨es1, es2, e1, _, _, e, es0, e4, e5, e6⟩ := n3 hpos
    have e4 : es1 = es0.reverse ++ [e] := by
      have := congrArg List.reverse e4
      simpa using this
    have e7 : es = es0.reverse ++ e :: es2 := by rw [e1, e4]; simp
    obtain ⟨t, h1, h3⟩ := hb _ e es2 e7 e5
    obtain ⟨pss, fs, g⟩ := sinv_run ok h2 hm he es0.reverse (fun x hx => ho x (by rw [e7]; exact List.mem_append_left _ hx))
    have h4 := reads_inj (by omega) h1 (reads_of_inv ok g.inv k)
    unfold run at h3
    rw [List.reverse_reverse] at h3 h4
    rw [h4] at h3
    omega
  rw [hm0] at n2
  simp only [List.replicate_zero, List.append_nil] at n2
  have : (gets r (run cfg max k es).2).length = n := by rw [n2]; simp; omega
  rw [this, n2]

/-- A case of `C116_trailing_partial`: the reader is always two characters behind; its reads and the writes
alternate. -/
def trailEvs : List Ev := [.put 0 1, .put 0 2, .get 5, .put 0 3, .put 0 4, .get 5, .peek 5, .flush 0, .put 0 5, .put 0 6, .get 5, .other (.push 7 [] 9)]

example : gets 5 (run (demoCfg 100) 16 0 trailEvs).2 = [some 1, some 2, some 3] ∧
    (∀ n < trailEvs.length, trailEvs[n]? = some (.get 5) ∨ trailEvs[n]? = some (.peek 5) →
      (gets 5 (run (demoCfg 100) 16 0 (trailEvs.take n)).2).length + 1 < ((run (demoCfg 100) 16 0 (trailEvs.take n)).1.c.lists 0).length) := by
  refine ⟨by decide +kernel, ?_⟩
  intro n hn
  simp only [trailEvs, List.length_cons, List.length_nil] at hn
  have : n = 0 ∨ n = 1 ∨ n = 2 ∨ n = 3 ∨ n = 4 ∨ n = 5 ∨ n = 6 ∨ n = 7 ∨ n = 8 ∨ n = 9 ∨ n = 10 ∨ n = 11 := by omega
  rcases this with rfl | rfl | rfl | rfl | rfl | rfl | rfl | rfl | rfl | rfl | rfl | rfl <;> simp [trailEvs] <;> decide +kernel

/-- The characters put to stream `w`. -/
def puts (w : Nat) : List Ev → List Byte
  | [] => []
  | .put v b :: es => (if v = w then [b] else []) ++ puts w es
  | _ :: es => puts w es

/-- Only stream `w` is written to. -/
def Ev.only (w : Nat) : Ev → Prop
  | .put v _ => v = w
  | .flush v => v = w
  | _ => True

theorem puts_append (w : Nat) (es es' : List Ev) : puts w (es ++ es') = puts w es ++ puts w es' := by
  induction es with
  | nil => rfl
  | cons e es ih => cases e <;> simp [puts, ih]

theorem hist_len {cfg : Nat → Cfg} {max limit k : Nat} {es : List Ev} {pss : Nat → List Nat} {fs : List Nat} {e : Ev} (ok : CfgOk cfg max limit) (hm : 5 < max)
    (he : (cfg k).insEnd = false) (h : SInv cfg max limit k es pss fs) (ho : e.Ok cfg max k) :
    (hist cfg max k es).1.c.heap.len ≤ (hist cfg max k (e :: es)).1.c.heap.len := by
  have one : ∀ (c : CSt Byte) pss fs, CInv cfg c pss fs → ∀ b, c.heap.len ≤ (push cfg k c b).heap.len := fun c pss fs v b =>
    step_len ok v (o := .push k [] b) ⟨by simpa [COp.held] using hm, fun _ _ _ _ h => by cases h⟩
  cases e with
  | put w b =>
    show _ ≤ (sputc cfg k (hist cfg max k es).1 w b).1.c.heap.len
    unfold sputc
    split
    · exact Nat.le_refl _
    · rename_i p _
      obtain ⟨ps1, fs1, v1, l1, _⟩ := push_facts ok h.inv hm he h.len p
      exact Nat.le_trans (one _ _ _ h.inv p) (one _ _ _ v1 b)
  | flush w =>
    show _ ≤ (sync cfg k (hist cfg max k es).1 w).c.heap.len
    unfold sync
    split
    · exact Nat.le_refl _
    · exact one _ _ _ h.inv _
  | peek r => exact Nat.le_refl _
  | get r => exact Nat.le_refl _
  | other o => exact step_len ok h.inv ho.1

/-- While the pool may still grow nothing that one stream writes is lost, changed or reordered, even if others read and
other containers are used: the string holds all the characters put to the stream but at most the last one, and that
one too after a flush. -/
theorem C116_written_partial {cfg : Nat → Cfg} {max limit k : Nat} (ok : CfgOk cfg max limit) (h2 : 2 ≤ limit) (hm : 5 < max) (he : (cfg k).insEnd = false)
    (es : List Ev) (ho : ∀ e ∈ es, e.Ok cfg max k) (w : Nat) (hw : ∀ e ∈ es, e.only w) (hroom : (run cfg max k es).1.c.heap.len < limit) :
    ∃ text, Reads max (run cfg max k es).1.c.heap k text ∧ (puts w es = text ∨ ∃ b, puts w es = text ++ [b]) ∧
      ∃ text', Reads max (run cfg max k (es ++ [.flush w])).1.c.heap k text' ∧
        ((run cfg max k (es ++ [.flush w])).1.c.heap.len < limit → text' = puts w es) := by
  have key : ∀ es : List Ev, (∀ e ∈ es, e.Ok cfg max k) → (∀ e ∈ es, e.only w) → (hist cfg max k es).1.c.heap.len < limit →
      (hist cfg max k es).1.c.lists k ++ ((hist cfg max k es).1.put w).toList = puts w es.reverse := by
    intro es
    induction es with
    | nil => intro _ _ _; rfl
    | cons e es ih =>
      intro ho hw hr
      obtain ⟨pss, fs, h⟩ := sinv_hist ok h2 hm he es (fun x hx => ho x (by simp [hx]))
      have hle := hist_len ok hm he h (ho e (by simp))
      have ih := ih (fun x hx => ho x (by simp [hx])) (fun x hx => hw x (by simp [hx])) (by omega)
      have hwe := hw e (by simp)
      have hoe := ho e (by simp)
      rw [List.reverse_cons, puts_append, ← ih]
      cases e with
      | put v b =>
        have hv : v = w := hwe
        subst hv
        simp only [puts, if_pos, List.append_nil]
        cases hp : (hist cfg max k es).1.put v with
        | none =>
          have hs : (hist cfg max k (.put v b :: es)).1 = { (hist cfg max k es).1 with put := fun q => if q = v then some b else (hist cfg max k es).1.put q } := by
            show (sputc cfg k (hist cfg max k es).1 v b).1 = _
            unfold sputc; rw [hp]
          rw [hs]
          simp
        | some p =>
          have hs : (hist cfg max k (.put v b :: es)).1 = { (hist cfg max k es).1 with
              c := push cfg k (push cfg k (hist cfg max k es).1.c p) b, put := fun q => if q = v then none else (hist cfg max k es).1.put q } := by
            show (sputc cfg k (hist cfg max k es).1 v b).1 = _
            unfold sputc; rw [hp]
          obtain ⟨ps1, fs1, v1, l1, t1, _⟩ := push_facts ok h.inv hm he h.len p
          obtain ⟨ps2, fs2, v2, l2, t2, _⟩ := push_facts ok v1 hm he l1 b
          rw [hs] at hr hle ⊢
          simp only at hr hle ⊢
          rcases t1 with ⟨_, _, t1⟩ | t1
          · omega
          · rcases t2 with ⟨_, t2', t2⟩ | t2
            · rw [t2'] at hr; omega
            · rw [t2, t1]; simp
      | flush v =>
        have hv : v = w := hwe
        subst hv
        simp only [puts, List.append_nil]
        cases hp : (hist cfg max k es).1.put v with
        | none =>
          have hs : (hist cfg max k (.flush v :: es)).1 = (hist cfg max k es).1 := by
            show sync cfg k (hist cfg max k es).1 v = _
            unfold sync; rw [hp]
          rw [hs, hp]
        | some p =>
          have hs : (hist cfg max k (.flush v :: es)).1 = { (hist cfg max k es).1 with
              c := push cfg k (hist cfg max k es).1.c p, put := fun q => if q = v then none else (hist cfg max k es).1.put q } := by
            show sync cfg k (hist cfg max k es).1 v = _
            unfold sync; rw [hp]
          obtain ⟨ps1, fs1, v1, l1, t1, _⟩ := push_facts ok h.inv hm he h.len p
          rw [hs] at hr hle ⊢
          simp only at hr hle ⊢
          rcases t1 with ⟨_, _, t1⟩ | t1
          · omega
          · rw [t1]; simp
      | peek r => simp only [puts, List.append_nil]; rfl
      | get r => simp only [puts, List.append_nil]; rfl
      | other o =>
        simp only [puts, List.append_nil]
        show ((hist cfg max k es).1.c.step cfg o).lists k ++ _ = _
        rw [(step_other ok h.inv hoe.1 hoe.2).1]
        rfl
  have ho' : ∀ e ∈ es ++ [.flush w], e.Ok cfg max k := by
    intro e hx
    rcases List.mem_append.1 hx with h | h
    · exact ho e h
    · rw [List.mem_singleton.1 h]; trivial
  obtain ⟨pss, fs, h⟩ := sinv_run ok h2 hm he es ho
  obtain ⟨pss', fs', h'⟩ := sinv_run ok h2 hm he (es ++ [.flush w]) ho'
  have k1 := key es.reverse (fun e hx => ho e (by simpa using hx)) (fun e hx => hw e (by simpa using hx)) hroom
  rw [List.reverse_reverse] at k1
  refine ⟨_, reads_of_inv ok h.inv k, ?_, _, reads_of_inv ok h'.inv k, ?_⟩
  · rw [← k1]
    cases (hist cfg max k es.reverse).1.put w with
    | none => left; simp
    | some b => right; exact ⟨b, rfl⟩
  · intro hr
    have k2 := key (es ++ [Ev.flush w]).reverse (fun e hx => ho' e (List.mem_reverse.1 hx)) (fun e hx => by
      rw [List.mem_reverse] at hx
      rcases List.mem_append.1 hx with h | h
      · exact hw e h
      · rw [List.mem_singleton.1 h]; rfl) hr
    rw [List.reverse_reverse, puts_append] at k2
    simp only [puts, List.append_nil] at k2
    rw [← k2]
    have : (hist cfg max k (es ++ [Ev.flush w]).reverse).1.put w = none := by
      rw [List.reverse_append]
      show (sync cfg k (hist cfg max k es.reverse).1 w).put w = none
      unfold sync
      split
      · assumption
      · simp
    rw [this]
    simp

/-- A case of `C116_written_partial`. -/
example : (run (demoCfg 100) 16 0 trailEvs).1.c.lists 0 = puts 0 trailEvs ∧ (∀ e ∈ trailEvs, e.only 0) ∧ (run (demoCfg 100) 16 0 trailEvs).1.c.heap.len < 100 := by
  refine ⟨by decide +kernel, ?_, by decide +kernel⟩
  intro e he
  simp only [trailEvs, List.mem_cons, List.not_mem_nil, or_false] at he
  rcases he with rfl | rfl | rfl | rfl | rfl | rfl | rfl | rfl | rfl | rfl | rfl | rfl <;> first | rfl | trivial

/-- Without room the stream loses characters and says nothing: each `sputc` returns the character and `sync` always
returns 0 (`src/x/vmem_string.x.h` 90-108).  Four pages, two of them for the string, with room for two characters
each: of seven characters four arrive. -/
theorem C116_violated_lost : ∃ es : List Ev, (∀ e ∈ es, e.Ok (demoCfg 4) 16 0) ∧ (∀ e ∈ es, e.only 0) ∧ puts 0 es = [1, 2, 3, 4, 5, 6, 7] ∧
    (∀ s w b, (sputc (demoCfg 4) 0 s w b).2 ≠ eof) ∧ Reads 16 (run (demoCfg 4) 16 0 es).1.c.heap 0 [1, 2, 3, 4] := by
  refine ⟨[.put 0 1, .put 0 2, .put 0 3, .put 0 4, .put 0 5, .put 0 6, .put 0 7, .flush 0], ?_, ?_, rfl, ?_, ?_⟩
  · intro e he
    simp only [List.mem_cons, List.not_mem_nil, or_false] at he
    rcases he with rfl | rfl | rfl | rfl | rfl | rfl | rfl | rfl <;> first | exact trivial | (show (_ : Byte) ≠ 255; decide)
  · intro e he
    simp only [List.mem_cons, List.not_mem_nil, or_false] at he
    rcases he with rfl | rfl | rfl | rfl | rfl | rfl | rfl | rfl <;> rfl
  · intro s w b h
    apply toInt_ne b
    rw [← h]
    unfold sputc
    split <;> rfl
  · obtain ⟨pss, fs, h⟩ := sinv_run (k := 0) (demoCfg_ok (limit := 4) (by decide)) (by decide) (by decide) rfl
      [.put 0 1, .put 0 2, .put 0 3, .put 0 4, .put 0 5, .put 0 6, .put 0 7, .flush 0] (by
        intro e he
        simp only [List.mem_cons, List.not_mem_nil, or_false] at he
        rcases he with rfl | rfl | rfl | rfl | rfl | rfl | rfl | rfl <;> first | exact trivial | (show (_ : Byte) ≠ 255; decide))
    have := reads_of_inv (demoCfg_ok (by decide)) h.inv 0
    rwa [show (hist (demoCfg 4) 16 0 [Ev.put 0 1, .put 0 2, .put 0 3, .put 0 4, .put 0 5, .put 0 6, .put 0 7, .flush 0].reverse).1.c.lists 0 = [1, 2, 3, 4] by decide +kernel] at this

end Abc.Vmem.StringStream
