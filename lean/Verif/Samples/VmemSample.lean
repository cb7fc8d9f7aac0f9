import Verif.Vmem.StringStream
import Verif.Vmem.Layout
import Mathlib.Data.List.Perm.Subperm

/-!
# `samples/vmem/main.cpp`, run again and again on one pool file

The program opens the pool file next to it, makes three lists and two strings with states on the start page, shows what they hold, and
adds to them.  The next run finds what the runs before have left.
-/

namespace Abc.VmemSample

open Abc.Vmem.Pages Abc.Vmem.Layout

/-- What the program logs, `samples/vmem/main.cpp` 127-153 and 164-191: about container `k` the size at first, an item (`none` would be
undefined behaviour), that an item is added, and the size at last. -/
inductive Line where
  | initial (k n : Nat)
  | item (k : Nat) (x : Option Nat)
  | added (k x : Nat)
  | final (k n : Nat)
deriving DecidableEq, Repr

/-- The size of an item of container `k`: `list1` and `list2` hold a number of 8 bytes and 900 further bytes (`samples/vmem/main.cpp` 45-48),
`list3` integers (128), `str1` and `str2` characters (137, 146). -/
def itemSize : Nat → Nat
  | 0 => 908
  | 1 => 908
  | 2 => 4
  | _ => 1

/-- The parameters of container `k`: 8 mapped pages at most (`samples/vmem/main.cpp` 37); a `vmem_string` is a
`vmem_list` (`src/i/vmem_string.i.h` 43-44), with the balance flags of `src/i/vmem_list.i.h` 72-73. -/
def cfg (limit k : Nat) : Cfg :=
  { max := 8, cap := pageCapacity noHeader (itemSize k), limit := limit, log := true, insBegin := true, insInner := true, insEnd := false,
    erBegin := true, erInner := true, erEnd := true }

/-- The pages the program has locked all the time: the start page, `samples/vmem/main.cpp` 111.  The pointers of 118-121 lock it once more
or nothing. -/
def held : List Nat := [1]

/-- Successive calls of `push_back`, which is `insert(end(), …)` (`container` 299-302). -/
def pushes (limit k : Nat) (s : CSt Nat) (xs : List Nat) : CSt Nat := xs.foldl (fun s x => s.step (cfg limit) (.push k held x)) s

/-- The items shown by a loop from `begin()` to `end()`.  The loops of the program have no limit; here they end after one turn more than there
should be items (by `Reads.forward` any other number that is not smaller gives the same). -/
def shown (h : Heap Nat) (k : Nat) : List Line :=
  (cwalk 8 held h (k + 1) ((h.states (k + 1)).total + 1) (cbegin (h.states (k + 1)))).map (Line.item k)

/-- `work_with_list`, `samples/vmem/main.cpp` 164-191.  A list item is the number in it. -/
def work (limit k add : Nat) (s : CSt Nat) : CSt Nat × List Line :=
  let size := (s.heap.states (k + 1)).total
  let xs := (List.range add).map (size + ·)
  let s' := pushes limit k s xs
  (s', Line.initial k size :: shown s.heap k ++ xs.map (Line.added k) ++ [Line.final k (s'.heap.states (k + 1)).total])

/-- Items are added one by one, and then all are shown, `samples/vmem/main.cpp` 128-134 and 137-143. -/
def fill (limit k : Nat) (xs : List Nat) (s : CSt Nat) : CSt Nat × List Line :=
  let s' := pushes limit k s xs
  (s', shown s'.heap k)

/-- What a new stream buffer that is not flushed passes on of a text: the characters go in pairs (`overflow`,
`src/x/vmem_string.x.h` 89-97), so a last one without another stays in the buffer. -/
def streamed (xs : List Nat) : List Nat := xs.take (xs.length / 2 * 2)

/-- The characters written by `samples/vmem/main.cpp` 149: `abc12xyz`. -/
def text : List Nat := [97, 98, 99, 49, 50, 120, 121, 122]

/-- One run of the program, `samples/vmem/main.cpp` 108-160: the state of the file afterwards and what is logged.  The mapped pages are
written back at the end of the run and read again by the next one, and the containers find their states on the start page (C21, C110).
Left out: the comparison of pointers (117-125), and reading the second string as a stream (155-158; C116). -/
def once (limit : Nat) (s : CSt Nat) : CSt Nat × List Line :=
  let a := work limit 0 1 s
  let b := work limit 1 5 a.1
  let c := fill limit 2 [42, 43, 44] b.1
  let d := fill limit 3 [120, 121, 122] c.1
  let e := fill limit 4 (streamed text) d.1
  (e.1, a.2 ++ b.2 ++ c.2 ++ d.2 ++ e.2)

/-- The file after `n` runs, the first on a new file. -/
def file (limit : Nat) : Nat → CSt Nat
  | 0 => CSt.init 0
  | n + 1 => (once limit (file limit n)).1

/-- What run number `n` (from 0) logs. -/
def output (limit n : Nat) : List Line := (once limit (file limit n)).2

/-! ## What is expected -/

/-- A list repeated. -/
def times {β : Type} : Nat → List β → List β
  | 0, _ => []
  | n + 1, l => times n l ++ l

/-- The lines of a run in which the containers hold what all runs before and this one have added. -/
def expected (n : Nat) : List Line :=
  (Line.initial 0 n :: (List.range n).map (fun x => Line.item 0 (some x))) ++ [Line.added 0 n, Line.final 0 (n + 1)] ++
  (Line.initial 1 (5 * n) :: (List.range (5 * n)).map (fun x => Line.item 1 (some x))) ++
    [Line.added 1 (5 * n), Line.added 1 (5 * n + 1), Line.added 1 (5 * n + 2), Line.added 1 (5 * n + 3), Line.added 1 (5 * n + 4), Line.final 1 (5 * n + 5)] ++
  times (n + 1) [Line.item 2 (some 42), Line.item 2 (some 43), Line.item 2 (some 44)] ++
  times (n + 1) [Line.item 3 (some 120), Line.item 3 (some 121), Line.item 3 (some 122)] ++
  times (n + 1) [Line.item 4 (some 97), Line.item 4 (some 98), Line.item 4 (some 99), Line.item 4 (some 49), Line.item 4 (some 50),
    Line.item 4 (some 120), Line.item 4 (some 121), Line.item 4 (some 122)]

/-! ## Proofs -/

theorem cap_eq (limit k : Nat) : (cfg limit k).cap = pageCapacity noHeader (itemSize k) := rfl

theorem cfg_ok {limit : Nat} (h : limit ≤ nil) : CfgOk (cfg limit) 8 limit := by
  refine ⟨fun _ => rfl, fun _ => rfl, h, fun _ => rfl, ?_, ?_⟩
  · intro k
    rw [cap_eq]
    match k with
    | 0 => decide
    | 1 => decide
    | 2 => decide
    | k + 3 =>
      show 1 ≤ pageCapacity noHeader 1
      decide
  · intro k
    rw [cap_eq]
    match k with
    | 0 => decide
    | 1 => decide
    | 2 => decide
    | k + 3 =>
      show pageCapacity noHeader 1 < nilItem
      decide

/-- One insertion at the end. -/
theorem push_one {limit k : Nat} {s : CSt Nat} {pss : Nat → List Nat} {fs : List Nat} (hl : limit ≤ nil) (v : CInv (cfg limit) s pss fs)
    (hlen : s.heap.len ≤ limit) (x : Nat) : ∃ pss' fs', CInv (cfg limit) (s.step (cfg limit) (.push k held x)) pss' fs' ∧
      (s.step (cfg limit) (.push k held x)).heap.len ≤ limit ∧ s.heap.len ≤ (s.step (cfg limit) (.push k held x)).heap.len ∧
      ((s.step (cfg limit) (.push k held x)).heap.len < limit →
        (s.step (cfg limit) (.push k held x)).lists = setList s.lists k (s.lists k ++ [x])) := by
  have ok := cfg_ok hl
  have a := at_end (v.cont k)
  rw [v.items k] at a
  have a' : At s.heap (pss k) (cend (s.heap.states (k + 1))) ((s.lists k).take (s.lists k).length) ((s.lists k).drop (s.lists k).length) := by
    rw [List.take_length, List.drop_length]; exact a
  have hm := step_len ok v (o := .push k held x) ⟨by show held.length + 5 < 8; decide, fun _ _ _ _ h => by cases h⟩
  obtain ⟨r, hr, h⟩ := insert_inv (x := x) (held := held) ok v (by decide) (Nat.le_refl _) a' (Or.inl rfl)
  have hs : s.step (cfg limit) (.push k held x) =
      ⟨r.heap, if r.itr = some (cend (r.heap.states (k + 1))) then s.lists else setList s.lists k ((s.lists k).take (s.lists k).length ++ x :: (s.lists k).drop (s.lists k).length)⟩ := by
    unfold CSt.step CSt.insertAt
    simp only
    rw [hr]
  rw [hs] at hm ⊢
  rcases h with ⟨h1, h2, h3⟩ | ⟨j, pss', fs', h1, h2, h3, h4, h5⟩
  · rw [h1, h2, if_pos rfl]
    exact ⟨pss, fs, v, hlen, Nat.le_refl _, fun h => by simp only at h; omega⟩
  · rw [h1, if_neg (by simpa using h2)] at hm ⊢
    exact ⟨pss', fs', h3, h4 hlen, hm, fun _ => by rw [List.take_length, List.drop_length]⟩

/-- Successive insertions at the end: if the file could still grow afterwards, all have succeeded. -/
theorem pushes_spec {limit k : Nat} (hl : limit ≤ nil) (xs : List Nat) : ∀ (s : CSt Nat) (pss : Nat → List Nat) (fs : List Nat),
    CInv (cfg limit) s pss fs → s.heap.len ≤ limit → ∃ pss' fs', CInv (cfg limit) (pushes limit k s xs) pss' fs' ∧
      (pushes limit k s xs).heap.len ≤ limit ∧ s.heap.len ≤ (pushes limit k s xs).heap.len ∧
      ((pushes limit k s xs).heap.len < limit → (pushes limit k s xs).lists = setList s.lists k (s.lists k ++ xs)) := by
  induction xs with
  | nil =>
    intro s pss fs v hlen
    refine ⟨pss, fs, v, hlen, Nat.le_refl _, fun _ => ?_⟩
    funext j
    unfold setList
    split
    · rename_i e; rw [e, List.append_nil]; rfl
    · rfl
  | cons x xs ih =>
    intro s pss fs v hlen
    obtain ⟨p1, f1, v1, l1, m1, e1⟩ := push_one (k := k) hl v hlen x
    obtain ⟨p2, f2, v2, l2, m2, e2⟩ := ih _ p1 f1 v1 l1
    refine ⟨p2, f2, v2, l2, Nat.le_trans m1 m2, fun h => ?_⟩
    show (pushes limit k (s.step (cfg limit) (.push k held x)) xs).lists = _
    rw [e2 h, e1 (Nat.lt_of_le_of_lt m2 h)]
    funext j
    unfold setList
    by_cases e : j = k
    · simp [e]
    · simp [e]

theorem shown_eq {limit k : Nat} {s : CSt Nat} {pss : Nat → List Nat} {fs : List Nat} (hl : limit ≤ nil) (v : CInv (cfg limit) s pss fs) :
    shown s.heap k = (s.lists k).map (fun x => Line.item k (some x)) := by
  unfold shown
  rw [v.total k, (reads_of_inv (cfg_ok hl) v k).forward held 1 (by decide), List.map_map]
  rfl

theorem work_spec {limit k add : Nat} {s : CSt Nat} {pss : Nat → List Nat} {fs : List Nat} (hl : limit ≤ nil) (v : CInv (cfg limit) s pss fs)
    (hlen : s.heap.len ≤ limit) : ∃ pss' fs', CInv (cfg limit) (work limit k add s).1 pss' fs' ∧ (work limit k add s).1.heap.len ≤ limit ∧
      s.heap.len ≤ (work limit k add s).1.heap.len ∧ ((work limit k add s).1.heap.len < limit →
        (work limit k add s).1.lists = setList s.lists k (s.lists k ++ (List.range add).map ((s.lists k).length + ·)) ∧
        (work limit k add s).2 = Line.initial k (s.lists k).length :: (s.lists k).map (fun x => Line.item k (some x)) ++
          (List.range add).map (fun i => Line.added k ((s.lists k).length + i)) ++ [Line.final k ((s.lists k).length + add)]) := by
  obtain ⟨p, f, w, l, m, e⟩ := pushes_spec (k := k) hl ((List.range add).map ((s.heap.states (k + 1)).total + ·)) s pss fs v hlen
  refine ⟨p, f, w, l, m, fun h => ?_⟩
  have e := e h
  rw [v.total k] at e
  refine ⟨by show (pushes _ _ _ _).lists = _; rw [v.total k]; exact e, ?_⟩
  have ht := w.total k
  show Line.initial k _ :: shown s.heap k ++ _ ++ [Line.final k ((pushes _ _ _ _).heap.states (k + 1)).total] = _
  rw [ht, v.total k, e, shown_eq hl v, List.map_map]
  simp [setList, Function.comp_def]

theorem fill_spec {limit k : Nat} {xs : List Nat} {s : CSt Nat} {pss : Nat → List Nat} {fs : List Nat} (hl : limit ≤ nil) (v : CInv (cfg limit) s pss fs)
    (hlen : s.heap.len ≤ limit) : ∃ pss' fs', CInv (cfg limit) (fill limit k xs s).1 pss' fs' ∧ (fill limit k xs s).1.heap.len ≤ limit ∧
      s.heap.len ≤ (fill limit k xs s).1.heap.len ∧ ((fill limit k xs s).1.heap.len < limit →
        (fill limit k xs s).1.lists = setList s.lists k (s.lists k ++ xs) ∧
        (fill limit k xs s).2 = (s.lists k ++ xs).map (fun x => Line.item k (some x))) := by
  obtain ⟨p, f, w, l, m, e⟩ := pushes_spec (k := k) hl xs s pss fs v hlen
  refine ⟨p, f, w, l, m, fun h => ⟨e h, ?_⟩⟩
  show shown (pushes limit k s xs).heap k = _
  rw [shown_eq hl w, e h]
  simp [setList]

/-- The contents after `n` runs that all had room. -/
def Holds (n : Nat) (l : Nat → List Nat) : Prop :=
  l 0 = List.range n ∧ l 1 = List.range (5 * n) ∧ l 2 = times n [42, 43, 44] ∧ l 3 = times n [120, 121, 122] ∧ l 4 = times n text

theorem range_more (n m : Nat) : List.range n ++ (List.range m).map (n + ·) = List.range (n + m) := by
  rw [List.range_add]

theorem times_map {β γ : Type} (f : β → γ) (l : List β) : ∀ n, (times n l).map f = times n (l.map f)
  | 0 => rfl
  | n + 1 => by simp only [times, List.map_append, times_map f l n]

theorem once_spec {limit n : Nat} {s : CSt Nat} {pss : Nat → List Nat} {fs : List Nat} (hl : limit ≤ nil) (v : CInv (cfg limit) s pss fs)
    (hlen : s.heap.len ≤ limit) : ∃ pss' fs', CInv (cfg limit) (once limit s).1 pss' fs' ∧ (once limit s).1.heap.len ≤ limit ∧
      s.heap.len ≤ (once limit s).1.heap.len ∧ ((once limit s).1.heap.len < limit → Holds n s.lists →
        Holds (n + 1) (once limit s).1.lists ∧ (once limit s).2 = expected n) := by
  unfold once
  simp only
  obtain ⟨p1, f1, v1, l1, m1, e1⟩ := work_spec (k := 0) (add := 1) hl v hlen
  generalize work limit 0 1 s = a at *
  obtain ⟨p2, f2, v2, l2, m2, e2⟩ := work_spec (k := 1) (add := 5) hl v1 l1
  generalize work limit 1 5 a.1 = b at *
  obtain ⟨p3, f3, v3, l3, m3, e3⟩ := fill_spec (k := 2) (xs := [42, 43, 44]) hl v2 l2
  generalize fill limit 2 [42, 43, 44] b.1 = c at *
  obtain ⟨p4, f4, v4, l4, m4, e4⟩ := fill_spec (k := 3) (xs := [120, 121, 122]) hl v3 l3
  generalize fill limit 3 [120, 121, 122] c.1 = d at *
  obtain ⟨p5, f5, v5, l5, m5, e5⟩ := fill_spec (k := 4) (xs := streamed text) hl v4 l4
  generalize fill limit 4 (streamed text) d.1 = e at *
  refine ⟨p5, f5, v5, l5, by omega, fun h hh => ?_⟩
  obtain ⟨g1, o1⟩ := e1 (by omega)
  obtain ⟨g2, o2⟩ := e2 (by omega)
  obtain ⟨g3, o3⟩ := e3 (by omega)
  obtain ⟨g4, o4⟩ := e4 (by omega)
  obtain ⟨g5, o5⟩ := e5 (by omega)
  obtain ⟨h0, h1, h2, h3, h4⟩ := hh
  have hst : streamed text = text := by decide
  rw [hst] at g5 o5
  rw [g1] at g2 o2
  rw [g2] at g3 o3
  rw [g3] at g4 o4
  rw [g4] at g5 o5
  constructor
  · rw [g5]
    refine ⟨?_, ?_, ?_, ?_, ?_⟩
    · simp (decide := true) only [setList, if_true, if_false, h0, List.length_range]
      exact range_more n 1
    · simp (decide := true) only [setList, if_true, if_false, h1, List.length_range]
      exact range_more (5 * n) 5
    · simp [setList, h2, times]
    · simp [setList, h3, times]
    · simp [setList, h4, times]
  · rw [o1, o2, o3, o4, o5]
    unfold expected
    simp [setList, h0, h1, h2, h3, h4, times, times_map, text, List.range_succ]

theorem file_succ (limit n : Nat) : file limit (n + 1) = (once limit (file limit n)).1 := rfl

theorem output_eq (limit n : Nat) : output limit n = (once limit (file limit n)).2 := rfl

theorem file_spec {limit : Nat} (hl : limit ≤ nil) (h2 : 2 ≤ limit) : ∀ n, ∃ pss fs, CInv (cfg limit) (file limit n) pss fs ∧ (file limit n).heap.len ≤ limit ∧
    ((file limit n).heap.len < limit → Holds n (file limit n).lists) := by
  intro n
  induction n with
  | zero =>
    exact ⟨_, _, cInv_init (cfg limit) 0, h2, fun _ => ⟨rfl, rfl, rfl, rfl, rfl⟩⟩
  | succ n ih =>
    obtain ⟨p, f, v, l, h⟩ := ih
    obtain ⟨p', f', v', l', m', e'⟩ := once_spec (n := n) hl v l
    rw [← file_succ] at v' l' m' e'
    exact ⟨p', f', v', l', fun hlt => (e' hlt (h (Nat.lt_of_le_of_lt m' hlt))).1⟩

/-- The whole claim: every run shows exactly what the runs before it have added, and then what it adds itself. -/
def C128Full : Prop := ∀ limit n, 2 ≤ limit → limit ≤ nil → output limit n = expected n

/-- As long as the file has not reached its limit after run number `n`, that run and all before it log what is expected, and the
containers can be read from both ends and hold that. -/
theorem C128_runs_partial {limit n : Nat} (h2 : 2 ≤ limit) (hl : limit ≤ nil) (hroom : (file limit (n + 1)).heap.len < limit) :
    (∀ m, m ≤ n → output limit m = expected m) ∧ (file limit (n + 1)).heap.bad = false ∧
    Reads 8 (file limit (n + 1)).heap 0 (List.range (n + 1)) ∧ Reads 8 (file limit (n + 1)).heap 1 (List.range (5 * (n + 1))) ∧
    Reads 8 (file limit (n + 1)).heap 2 (times (n + 1) [42, 43, 44]) ∧ Reads 8 (file limit (n + 1)).heap 3 (times (n + 1) [120, 121, 122]) ∧
    Reads 8 (file limit (n + 1)).heap 4 (times (n + 1) text) := by
  have mono : ∀ m d, (file limit m).heap.len ≤ (file limit (m + d)).heap.len := by
    intro m d
    induction d with
    | zero => exact Nat.le_refl _
    | succ d ih =>
      obtain ⟨p, f, v, l, _⟩ := file_spec hl h2 (m + d)
      obtain ⟨_, _, _, _, m', _⟩ := once_spec (n := 0) hl v l
      rw [← file_succ] at m'
      rw [← Nat.add_assoc]
      exact Nat.le_trans ih m'
  obtain ⟨p, f, v, l, h⟩ := file_spec hl h2 (n + 1)
  obtain ⟨r0, r1, r2, r3, r4⟩ := h hroom
  refine ⟨?_, v.bad, ?_, ?_, ?_, ?_, ?_⟩
  · intro m hm
    have hlt : (file limit (m + 1)).heap.len < limit := by
      have := mono (m + 1) (n - m)
      rw [show m + 1 + (n - m) = n + 1 by omega] at this
      omega
    obtain ⟨p', f', v', l', h'⟩ := file_spec hl h2 m
    obtain ⟨_, _, _, _, m', e'⟩ := once_spec (n := m) hl v' l'
    rw [← file_succ] at m' e'
    rw [output_eq]
    exact (e' hlt (h' (Nat.lt_of_le_of_lt m' hlt))).2
  · rw [← r0]; exact reads_of_inv (cfg_ok hl) v 0
  · rw [← r1]; exact reads_of_inv (cfg_ok hl) v 1
  · rw [← r2]; exact reads_of_inv (cfg_ok hl) v 2
  · rw [← r3]; exact reads_of_inv (cfg_ok hl) v 3
  · rw [← r4]; exact reads_of_inv (cfg_ok hl) v 4

/-- A case of `C128_runs_partial`: three runs on a file of at most a hundred pages.  The second list has got a fourth page by then. -/
example : output 100 2 = expected 2 :=
  (C128_runs_partial (limit := 100) (n := 2) (by decide) (by decide) (by decide +kernel)).1 2 (by decide)

example : (file 100 1).heap.len = 8 ∧ (file 100 3).heap.len = 10 := by decide +kernel

/-- When the file cannot grow any more (here: two pages beyond those every pool has), the program logs items as added that are not, and the
containers behind stay empty: `insert` tells so with the iterator it returns, and `push_back` does not tell it at all. -/
theorem C128_violated_full : output 4 0 =
    [.initial 0 0, .added 0 0, .final 0 1, .initial 1 0, .added 1 0, .added 1 1, .added 1 2, .added 1 3, .added 1 4, .final 1 4] := by decide +kernel

theorem contents_le {h : Heap Nat} {cap : Nat} : ∀ ps : List Nat, (∀ p ∈ ps, (h.pages p).count ≤ cap) → (contents h ps).length ≤ ps.length * cap
  | [], _ => Nat.zero_le _
  | p :: ps, hc => by
    have h1 := contents_le ps (fun q hq => hc q (by simp [hq]))
    have h2 := hc p (by simp)
    rw [contents_cons, List.length_append, pageItems_length, List.length_cons, Nat.add_mul]
    omega

/-- Whatever the limit of the file, the runs do not all find what the ones before have logged as added: after as many runs as four times the
limit there are fewer items in the first list. -/
theorem C128_violated_any {limit : Nat} (h2 : 2 ≤ limit) (hl : limit ≤ nil) {n : Nat} (hn : 4 * limit ≤ n) :
    ∃ k, k < n ∧ (output limit n).head? = some (.initial 0 k) ∧ output limit n ≠ expected n := by
  obtain ⟨pss, fs, v, l, _⟩ := file_spec hl h2 n
  have hh : (output limit n).head? = some (.initial 0 ((file limit n).heap.states (0 + 1)).total) := by
    rw [output_eq]
    unfold once work
    simp only [List.cons_append, List.append_assoc]
    rfl
  have hk : ((file limit n).heap.states (0 + 1)).total < n := by
    rw [v.total 0, ← v.items 0]
    have h1 := contents_le (cap := 4) (pss 0) (fun p hp => ((v.cont 0).cnt p hp).2)
    have h3 : (pss 0).length ≤ (List.range limit).length :=
      (List.subperm_of_subset (v.cont 0).own.nodup (fun q hq => List.mem_range.2 (by have := (v.range 0 q hq).2; omega))).length_le
    rw [List.length_range] at h3
    have h4 : (pss 0).length < limit := by
      rcases Nat.lt_or_ge (pss 0).length limit with h | h
      · exact h
      · exfalso
        have h5 : (0 :: pss 0).length ≤ (List.range limit).length :=
          (List.subperm_of_subset (List.nodup_cons.2 ⟨fun hq => by have := (v.range 0 0 hq).1; omega, (v.cont 0).own.nodup⟩) (fun q hq => List.mem_range.2 (by
            rcases List.mem_cons.1 hq with e | hq
            · omega
            · have := (v.range 0 q hq).2; omega))).length_le
        rw [List.length_range, List.length_cons] at h5
        omega
    omega
  refine ⟨_, hk, hh, fun e => ?_⟩
  rw [e] at hh
  have : (Line.initial 0 n) = .initial 0 ((file limit n).heap.states (0 + 1)).total := by simpa [expected] using hh
  injection this with _ h
  omega

theorem C128_violated : ¬ C128Full := by
  intro h
  obtain ⟨_, _, _, hn⟩ := C128_violated_any (limit := 4) (n := 16) (by decide) (by decide) (by decide)
  exact hn (h 4 16 (by decide) (by decide))

end Abc.VmemSample
