import Verif.Vmem.ContHistory

/-! # Properties of containers (C24 to C28, C44, C59) -/

namespace Abc.Vmem.Pages

variable {α : Type}

/-- What a client sees of container `k`: its size, and the items it meets going forward from `begin()` until
the iterator equals `end()`, and going back from `rend()` until it equals `rbegin()`.  The walks are given more
steps than there are items, so they stop because the end is met. -/
structure Reads (max : Nat) (h : Heap α) (k : Nat) (l : List α) : Prop where
  size : (h.states (k + 1)).total = l.length
  empty : isEmpty (h.states (k + 1)) = true ↔ l = []
  forward : ∀ (held : List Nat) (n : Nat), held.length < max → cwalk max held h (k + 1) (l.length + n) (cbegin (h.states (k + 1))) = l.map some
  backward : ∀ (held : List Nat) (n : Nat), held.length + 1 < max →
    cwalkBack max held h (k + 1) (l.length + n) (crend max held h (h.states (k + 1))) = l.reverse.map some

theorem contents_ne {cap : Nat} {h : Heap α} {sid : Nat} {ps : List Nat} (c : Cont cap h sid ps) (hp : ps ≠ []) : contents h ps ≠ [] := by
  cases ps with
  | nil => exact absurd rfl hp
  | cons p ps =>
    have := (c.cnt p (by simp)).1
    rw [contents_cons]
    intro hc
    have := congrArg List.length hc
    simp at this
    omega

theorem reads_of_inv {cfg : Nat → Cfg} {max limit : Nat} {s : CSt α} {pss : Nat → List Nat} {fs : List Nat} (ok : CfgOk cfg max limit) (v : CInv cfg s pss fs) (k : Nat) :
    Reads max s.heap k (s.lists k) where
  size := v.total k
  empty := by
    rw [← v.items k]
    by_cases hp : pss k = []
    · have o := (v.cont k).own
      rw [hp] at o ⊢
      simp [own_empty o]
    · rw [own_nonempty (v.cont k).own hp]
      simpa using contents_ne (v.cont k) hp
  forward := by
    intro held n hm
    have a := at_begin (v.cont k)
    rw [v.items k] at a
    exact cwalk_at (v.cont k) (ok.cap2 k) hm _ _ _ n a
  backward := by
    intro held n hm
    rcases List.eq_nil_or_concat (s.lists k) with e | ⟨u, y, e⟩
    · rw [crend_nil (v.cont k) ((v.items k).trans e), e]
      cases n with
      | zero => rfl
      | succ n => show cwalkBack max held s.heap (k + 1) (0 + n + 1) _ = []; unfold cwalkBack; rw [if_pos rfl]
    · rw [List.concat_eq_append] at e
      have a := at_rend (held := held) (max := max) (v.cont k) (by omega) ((v.items k).trans e)
      have := cwalkBack_at (v.cont k) (ok.cap2 k) hm u y [] _ n a
      rw [e]
      simpa using this

/-- Any history of calls on any number of containers in a new pool. -/
theorem reachable {cfg : Nat → Cfg} {max limit : Nat} (ok : CfgOk cfg max limit) (h2 : 2 ≤ limit) (x : α) (os : List (COp α)) (ho : ∀ o ∈ os, o.Ok cfg max) :
    ((CSt.init x).run cfg os).heap.len ≤ limit ∧ ∃ pss fs, CInv cfg ((CSt.init x).run cfg os) pss fs :=
  cInv_run ok os (cInv_init cfg x) h2 ho

theorem insert_facts {cfg : Nat → Cfg} {max limit k n : Nat} {held : List Nat} {s : CSt α} {pss : Nat → List Nat} {fs : List Nat} {i : Itr} {x : α}
    (ok : CfgOk cfg max limit) (v : CInv cfg s pss fs) (hm : held.length + 5 < max) (hn : n ≤ (s.lists k).length)
    (a : At s.heap (pss k) i ((s.lists k).take n) ((s.lists k).drop n)) (hpol : i.edge = .fin ∨ ListLike (cfg k)) :
    ∃ r j, insert2 (cfg k) held s.heap (k + 1) i x = some r ∧ r.itr = some j ∧ r.heap.bad = false ∧
      ((j = cend (r.heap.states (k + 1)) ∧ limit ≤ s.heap.len ∧ r.heap = s.heap) ∨
       (j ≠ cend (r.heap.states (k + 1)) ∧ Reads max r.heap k ((s.lists k).take n ++ x :: (s.lists k).drop n) ∧
        (∀ k', k' ≠ k → Reads max r.heap k' (s.lists k')) ∧
        ∀ held', held'.length < max → j = itrAt max held' r.heap (k + 1) n ∧ deref max held' r.heap j = some x)) := by
  obtain ⟨r, hr, h⟩ := insert_inv (x := x) ok v hm hn a hpol
  rcases h with ⟨h1, h2, h3⟩ | ⟨j, pss', fs', h1, h2, h3, h4, h5⟩
  · exact ⟨r, _, hr, h2, by rw [h1]; exact v.bad, Or.inl ⟨by rw [h1], h3, h1⟩⟩
  · refine ⟨r, j, hr, h1, h3.bad, Or.inr ⟨h2, ?_, ?_, ?_⟩⟩
    · have := reads_of_inv ok h3 k
      simpa [setList] using this
    · intro k' hk
      have := reads_of_inv ok h3 k'
      simpa [setList, hk] using this
    · intro held' hm'
      refine ⟨?_, deref_at (h3.cont k) (ok.cap2 k) hm' h5⟩
      have b := at_lists ok h3 (held := held') hm' k n
      refine at_unique (h3.cont k) h5 b ?_
      simp [setList]
      omega

/-! ## C24: insertion -/

/-- C24: after any history of calls on any number of containers in a pool, `insert` at any position of a
list either reports failure because the file cannot grow, and changes nothing, or puts the item at exactly
that position: the list reads as before with the item there, its size is one more, the returned iterator is
the one at that position and gives the item, and the other containers are unchanged.  Assumed are a log, room for
two items on a page, the balance policy of a list (not only at the end) and five pages that can be locked. -/
theorem C24_insert_partial {cfg : Nat → Cfg} {max limit : Nat} (ok : CfgOk cfg max limit) (h2 : 2 ≤ limit) (x0 : α) (os : List (COp α))
    (ho : ∀ o ∈ os, o.Ok cfg max) (k : Nat) (hk : ListLike (cfg k)) (held : List Nat) (hm : held.length + 5 < max) (n : Nat) (x : α) :
    let s := (CSt.init x0).run cfg os
    (∀ k', Reads max s.heap k' (s.lists k')) ∧ (n ≤ (s.lists k).length →
    ∃ r j, insert2 (cfg k) held s.heap (k + 1) (itrAt max held s.heap (k + 1) n) x = some r ∧ r.itr = some j ∧ r.heap.bad = false ∧
      ((j = cend (r.heap.states (k + 1)) ∧ limit ≤ s.heap.len ∧ r.heap = s.heap) ∨
       (j ≠ cend (r.heap.states (k + 1)) ∧ Reads max r.heap k ((s.lists k).take n ++ x :: (s.lists k).drop n) ∧
        (∀ k', k' ≠ k → Reads max r.heap k' (s.lists k')) ∧
        ∀ held', held'.length < max → j = itrAt max held' r.heap (k + 1) n ∧ deref max held' r.heap j = some x))) := by
  obtain ⟨_, pss, fs, v⟩ := reachable ok h2 x0 os ho
  simp only
  generalize (CSt.init x0).run cfg os = s at *
  exact ⟨reads_of_inv ok v, fun hn => insert_facts ok v hm hn (at_lists ok v (by omega) k n) (Or.inr hk)⟩

/-- A configuration like `vmem_list` with room for `cap` items on a page. -/
def listCfg (cap : Nat) (log : Bool) : Cfg :=
  { max := 16, cap := cap, limit := 100, log := log, insBegin := true, insInner := true, insEnd := false, erBegin := true, erInner := true, erEnd := true }

/-- A configuration like `vmem_stack`. -/
def stackCfg (cap : Nat) : Cfg :=
  { max := 16, cap := cap, limit := 100, log := true, insBegin := false, insInner := false, insEnd := false, erBegin := false, erInner := false, erEnd := false }

theorem listCfg_ok {cap : Nat} (h1 : 1 ≤ cap) (h2 : cap < nilItem) : CfgOk (fun _ => listCfg cap true) 16 100 :=
  ⟨fun _ => rfl, fun _ => rfl, by decide, fun _ => rfl, fun _ => h1, fun _ => h2⟩

/-- Pages are split and merged: two lists in one pool. -/
def demoOps : List (COp Nat) :=
  [.push 0 [] 1, .push 0 [] 2, .push 0 [] 3, .push 1 [] 10, .insert 0 [] 0 4, .insert 0 [] 2 5, .insert 1 [] 0 11, .insert 0 [] 1 6, .erase 0 [] 3, .insert 1 [] 1 12, .erase 1 [] 0, .pop 0 []]

example : (∀ o ∈ demoOps, o.Ok (fun _ => listCfg 3 true) 16) ∧
    ((CSt.init 0).run (fun _ => listCfg 3 true) demoOps).lists 0 = [4, 6, 1, 2] ∧ ((CSt.init 0).run (fun _ => listCfg 3 true) demoOps).lists 1 = [12, 10] := by
  refine ⟨?_, by decide +kernel, by decide +kernel⟩
  intro o ho
  simp only [demoOps, List.mem_cons, List.not_mem_nil, or_false] at ho
  rcases ho with rfl | rfl | rfl | rfl | rfl | rfl | rfl | rfl | rfl | rfl | rfl | rfl <;>
    exact ⟨by decide, fun _ _ _ _ _ => ⟨show 2 ≤ 3 by decide, rfl, rfl⟩⟩

/-! ## C25: erasure -/

theorem erase_facts {cfg : Nat → Cfg} {max limit k n : Nat} {held : List Nat} {s : CSt α} {pss : Nat → List Nat} {fs : List Nat} {i : Itr}
    (ok : CfgOk cfg max limit) (v : CInv cfg s pss fs) (hm : held.length + 5 < max) (hn : n < (s.lists k).length)
    (a : At s.heap (pss k) i ((s.lists k).take n) ((s.lists k).drop n)) :
    ∃ r j, erase2 (cfg k) held s.heap (k + 1) i = some r ∧ r.itr = some j ∧ r.heap.bad = false ∧
      Reads max r.heap k ((s.lists k).eraseIdx n) ∧ (∀ k', k' ≠ k → Reads max r.heap k' (s.lists k')) ∧
      (ErGood (cfg k) s.heap i → ∀ held', held'.length < max → j = itrAt max held' r.heap (k + 1) n) := by
  obtain ⟨r, j, pss', fs', hr, h1, h2, h3, h4⟩ := erase_inv ok v hm hn a
  refine ⟨r, j, hr, h1, h2.bad, ?_, ?_, ?_⟩
  · have := reads_of_inv ok h2 k
    simpa [setList] using this
  · intro k' hk
    have := reads_of_inv ok h2 k'
    simpa [setList, hk] using this
  · intro hg held' hm'
    have b := at_lists ok h2 (held := held') hm' k n
    refine at_unique (h2.cont k) (h4 hg) b ?_
    simp [setList, List.length_eraseIdx]
    split <;> omega

/-- C25: after any history of calls on any number of containers in a pool, `erase` of any item of any
container removes exactly that item, the size is one less, and the other containers are unchanged.  The
returned iterator is the one at that position if `ErGood` holds: the page keeps items and is not merged with
the next page while there is a previous one, or the page goes away and is not the last one. -/
theorem C25_erase_partial {cfg : Nat → Cfg} {max limit : Nat} (ok : CfgOk cfg max limit) (h2 : 2 ≤ limit) (x0 : α) (os : List (COp α))
    (ho : ∀ o ∈ os, o.Ok cfg max) (k : Nat) (held : List Nat) (hm : held.length + 5 < max) (n : Nat) :
    let s := (CSt.init x0).run cfg os
    n < (s.lists k).length →
    ∃ r j, erase2 (cfg k) held s.heap (k + 1) (itrAt max held s.heap (k + 1) n) = some r ∧ r.itr = some j ∧ r.heap.bad = false ∧
      Reads max r.heap k ((s.lists k).eraseIdx n) ∧ (∀ k', k' ≠ k → Reads max r.heap k' (s.lists k')) ∧
      (ErGood (cfg k) s.heap (itrAt max held s.heap (k + 1) n) → ∀ held', held'.length < max → j = itrAt max held' r.heap (k + 1) n) := by
  obtain ⟨_, pss, fs, v⟩ := reachable ok h2 x0 os ho
  simp only
  generalize (CSt.init x0).run cfg os = s at *
  exact fun hn => erase_facts ok v hm hn (at_lists ok v (by omega) k n)

example : ErGood (listCfg 3 true) ((CSt.init 0).run (fun _ => listCfg 3 true) demoOps).heap
    (itrAt 16 [] ((CSt.init 0).run (fun _ => listCfg 3 true) demoOps).heap 1 2) := by
  unfold ErGood
  decide +kernel

/-- The whole claim about the returned iterator: it is the one at the place of the erased item. -/
def C25Full : Prop := ∀ (cap : Nat) (os : List (COp Nat)) (n : Nat), 2 ≤ cap → cap < nilItem →
  (∀ o ∈ os, o.Ok (fun _ => listCfg cap true) 16) →
  let s := (CSt.init 0).run (fun _ => listCfg cap true) os
  n < (s.lists 0).length → ∀ r, erase2 (listCfg cap true) [] s.heap 1 (itrAt 16 [] s.heap 1 n) = some r →
  r.itr = some (itrAt 16 [] r.heap 1 n)

theorem ok_of {cap : Nat} {o : COp Nat} (h : 2 ≤ cap) (hh : o.held.length + 5 < 16) : o.Ok (fun _ => listCfg cap true) 16 :=
  ⟨hh, fun _ _ _ _ _ => ⟨h, rfl, rfl⟩⟩

/-- The only item of a list is erased: the returned iterator is not `end()`. -/
theorem C25_violated : ¬ C25Full := by
  intro h
  have := h 2 [.push 0 [] 7] 0 (by decide) (by decide) (by intro o ho; simp at ho; subst ho; exact ok_of (by decide) (by decide))
    (by decide) _ rfl
  revert this
  decide

def danglingOps : List (COp Nat) :=
  [.push 0 [] 0, .push 0 [] 1, .push 0 [] 2, .push 0 [] 3, .push 0 [] 4, .push 0 [] 5, .push 0 [] 6, .push 0 [] 7, .push 0 [] 8, .push 0 [] 9,
   .push 0 [] 10, .push 0 [] 11, .erase 0 [] 8, .erase 0 [] 8, .erase 0 [] 4]

/-- The last item of a page in the middle is erased and the page is merged with the next one: the
returned iterator is not the one at that place; it points to the page that was freed and `++` goes
round there, so that `end()` is not met within 20 steps although two items are left. -/
theorem C25_violated_merge : let s := (CSt.init 0).run (fun _ => listCfg 4 true) danglingOps
    s.lists 0 = [0, 1, 2, 3, 5, 6, 7, 10, 11] ∧
    (erase2 (listCfg 4 true) [] s.heap 1 (itrAt 16 [] s.heap 1 6)).isSome = true ∧
    ∀ r ∈ erase2 (listCfg 4 true) [] s.heap 1 (itrAt 16 [] s.heap 1 6), r.itr.isSome = true ∧ ∀ j ∈ r.itr, j ≠ itrAt 16 [] r.heap 1 6 ∧
      j.page = (r.heap.states 0).back ∧
      cwalk 16 [] r.heap 1 20 (itrAt 16 [] r.heap 1 6) = [some 10, some 11] ∧ (cwalk 16 [] r.heap 1 20 j).length = 20 := by
  decide +kernel

/-! ## C26: iteration -/

/-- An iterator points to one place only. -/
theorem at_fun {h : Heap α} {ps : List Nat} {i : Itr} {u v u' v' : List α} (hnd : ps.Nodup) (a : At h ps i u v) (b : At h ps i u' v') : u = u' := by
  cases a with
  | item as p bs k e hk =>
    subst e
    exact (at_inv hnd b).2.1.symm
  | fin => exact (at_inv_fin b).2.2.1.symm

/-- C26: after any history of calls, for every container and every position `n` up to its size: `++` leads from
position `n` to position `n + 1` and `--` back; before the end the iterator gives the item at `n`; after as many
steps as there are items the end is met, and not before; `--` at the begin gives `rbegin()`, from which `++` gives
the begin; `rend()` is the last item; different positions have different iterators.  One page
can be locked for `++` and two for `--`. -/
theorem C26_iterate_partial {cfg : Nat → Cfg} {max limit : Nat} (ok : CfgOk cfg max limit) (h2 : 2 ≤ limit) (x0 : α) (os : List (COp α))
    (ho : ∀ o ∈ os, o.Ok cfg max) (k : Nat) (held : List Nat) (hm : held.length + 1 < max) :
    let s := (CSt.init x0).run cfg os
    let it := itrAt max held s.heap (k + 1)
    it 0 = cbegin (s.heap.states (k + 1)) ∧ it (s.lists k).length = cend (s.heap.states (k + 1)) ∧
    (∀ n, n < (s.lists k).length → cnext max held s.heap (k + 1) (it n) = it (n + 1) ∧ cprev max held s.heap (k + 1) (it (n + 1)) = it n ∧
      deref max held s.heap (it n) = (s.lists k)[n]? ∧ it n ≠ cend (s.heap.states (k + 1)) ∧ it n ≠ crbegin (s.heap.states (k + 1))) ∧
    (∀ n m, n ≤ (s.lists k).length → m ≤ (s.lists k).length → it n = it m → n = m) ∧
    cprev max held s.heap (k + 1) (it 0) = crbegin (s.heap.states (k + 1)) ∧ cnext max held s.heap (k + 1) (crbegin (s.heap.states (k + 1))) = it 0 ∧
    (s.lists k ≠ [] → crend max held s.heap (s.heap.states (k + 1)) = it ((s.lists k).length - 1)) ∧
    Reads max s.heap k (s.lists k) := by
  obtain ⟨_, pss, fs, v⟩ := reachable ok h2 x0 os ho
  simp only
  generalize (CSt.init x0).run cfg os = s at *
  have a := at_lists ok v (held := held) (by omega) k
  have hend := at_end (v.cont k)
  rw [v.items k] at hend
  have huniq : ∀ n m, n ≤ (s.lists k).length → m ≤ (s.lists k).length → itrAt max held s.heap (k + 1) n = itrAt max held s.heap (k + 1) m → n = m := by
    intro n m hn hm2 e
    have h1 := a n
    rw [e] at h1
    have := congrArg List.length (at_fun (v.cont k).own.nodup h1 (a m))
    simp at this
    omega
  have hlast : itrAt max held s.heap (k + 1) (s.lists k).length = cend (s.heap.states (k + 1)) := by
    have h1 := a (s.lists k).length
    rw [List.take_length, List.drop_length] at h1
    exact at_unique (v.cont k) h1 hend rfl
  refine ⟨rfl, hlast, ?_, huniq, prev_begin (v.cont k) (ok.cap2 k) (by omega), next_rbegin, ?_, reads_of_inv ok v k⟩
  · intro n hn
    have h1 := a n
    rw [← List.getElem_cons_drop hn] at h1
    have h3 := a (n + 1)
    rw [List.take_succ_eq_append_getElem hn] at h3
    refine ⟨?_, ?_, ?_, ?_, fun e => at_not_rbegin (e ▸ h1)⟩
    · unfold itrAt
      rw [Function.iterate_succ_apply']
    · exact at_unique (v.cont k) (at_prev (v.cont k) (ok.cap2 k) hm h3) h1 rfl
    · rw [deref_at (v.cont k) (ok.cap2 k) (by omega) h1, List.getElem?_eq_getElem hn]
    · intro e
      rw [← hlast] at e
      have := huniq n _ (by omega) (Nat.le_refl _) e
      omega
  · intro hne
    rcases List.eq_nil_or_concat (s.lists k) with e | ⟨u, y, e⟩
    · exact absurd e hne
    · rw [List.concat_eq_append] at e
      have b := at_rend (held := held) (max := max) (v.cont k) (by omega) ((v.items k).trans e)
      refine at_unique (v.cont k) b (a _) ?_
      rw [e]
      simp

/-- `operator ++` of an iterator, `src/x/vmem_iterator.x.h` 156-178, reports to the log without looking whether
there is one; `none` is the use of a null pointer. -/
def opNext (c : Cfg) (held : List Nat) (h : Heap α) (sid : Nat) (i : Itr) : Option Itr := if c.log then some (cnext c.max held h sid i) else none

/-- The whole claim of C26 also for containers that were made without a log. -/
def C26Full : Prop := ∀ (log : Bool) (os : List (COp Nat)), (∀ o ∈ os, o.held.length + 5 < 16) →
  let s := (CSt.init 0).run (fun _ => listCfg 2 log) os
  opNext (listCfg 2 log) [] s.heap 1 (itrAt 16 [] s.heap 1 0) = some (itrAt 16 [] s.heap 1 1)

theorem C26_violated : ¬ C26Full := by
  intro h
  have := h false [.push 0 [] 7] (by decide)
  revert this
  decide

/-- A locked page too many: `++` at an item gives the end. -/
theorem C26_violated_locks : let s := (CSt.init 0).run (fun _ => listCfg 2 true) [.push 0 [] 7, .push 0 [] 8]
    itrAt 3 [20, 21, 22] s.heap 1 1 = cend (s.heap.states 1) ∧ itrAt 3 [20, 21] s.heap 1 1 ≠ cend (s.heap.states 1) := by decide

/-! ## C27: stacks -/

/-- C27: after any history of calls on any number of containers in a pool, for every container, whatever its
balance policy and its page capacity: `push_back` of `x` either changes nothing because the file cannot
grow, or puts `x` on top, where `back()` finds it, and grows the size by one; `pop_back` removes exactly the
item on top, which `back()` gave, and leaves the rest; `pop_back` of an empty container throws. -/
theorem C27_stack_partial {cfg : Nat → Cfg} {max limit : Nat} (ok : CfgOk cfg max limit) (h2 : 2 ≤ limit) (x0 : α) (os : List (COp α))
    (ho : ∀ o ∈ os, o.Ok cfg max) (k : Nat) (held : List Nat) (hm : held.length + 5 < max) :
    let s := (CSt.init x0).run cfg os
    let top := fun h : Heap α => deref max held h (crend max held h (h.states (k + 1)))
    Reads max s.heap k (s.lists k) ∧ top s.heap = (s.lists k).getLast? ∧
    (∀ x, ∃ r, insert2 (cfg k) held s.heap (k + 1) (cend (s.heap.states (k + 1))) x = some r ∧
      ((limit ≤ s.heap.len ∧ r.heap = s.heap) ∨
       (Reads max r.heap k (s.lists k ++ [x]) ∧ top r.heap = some x ∧ ∀ k', k' ≠ k → Reads max r.heap k' (s.lists k')))) ∧
    (s.lists k = [] → erase2 (cfg k) held s.heap (k + 1) (crend max held s.heap (s.heap.states (k + 1))) = none) ∧
    (∀ u y, s.lists k = u ++ [y] → ∃ r, erase2 (cfg k) held s.heap (k + 1) (crend max held s.heap (s.heap.states (k + 1))) = some r ∧
      Reads max r.heap k u ∧ top r.heap = u.getLast? ∧ ∀ k', k' ≠ k → Reads max r.heap k' (s.lists k')) := by
  obtain ⟨_, pss, fs, v⟩ := reachable ok h2 x0 os ho
  simp only
  generalize (CSt.init x0).run cfg os = s at *
  have top : ∀ {s : CSt α} {pss : Nat → List Nat} {fs : List Nat}, CInv cfg s pss fs →
      deref max held s.heap (crend max held s.heap (s.heap.states (k + 1))) = (s.lists k).getLast? := by
    intro s pss fs v
    rcases List.eq_nil_or_concat (s.lists k) with e | ⟨u, y, e⟩
    · rw [crend_nil (v.cont k) ((v.items k).trans e), e]
      simp [deref, crbegin]
    · rw [List.concat_eq_append] at e
      have b := at_rend (held := held) (max := max) (v.cont k) (by omega) ((v.items k).trans e)
      rw [deref_at (v.cont k) (ok.cap2 k) (by omega) b, e]
      simp
  refine ⟨reads_of_inv ok v k, top v, ?_, ?_, ?_⟩
  · intro x
    have a := at_end (v.cont k)
    rw [v.items k] at a
    obtain ⟨r, hr, h⟩ := insert_inv (n := (s.lists k).length) (x := x) ok v hm (Nat.le_refl _) (by rw [List.take_length, List.drop_length]; exact a) (Or.inl rfl)
    refine ⟨r, hr, ?_⟩
    rcases h with ⟨h1, _, h3⟩ | ⟨j, pss', fs', h1, h2, h3, h4, h5⟩
    · exact Or.inl ⟨h3, h1⟩
    · rw [List.take_length, List.drop_length] at h3
      refine Or.inr ⟨?_, ?_, ?_⟩
      · have := reads_of_inv ok h3 k
        simpa [setList] using this
      · have := top h3
        simpa [setList] using this
      · intro k' hk
        have := reads_of_inv ok h3 k'
        simpa [setList, hk] using this
  · intro e
    rw [crend_nil (v.cont k) ((v.items k).trans e)]
    unfold erase2
    simp [canDeref, crbegin]
  · intro u y e
    have b := at_rend (held := held) (max := max) (v.cont k) (by omega) ((v.items k).trans e)
    obtain ⟨r, j, pss', fs', hr, h1, h3, _, _⟩ := erase_inv (n := u.length) ok v hm (by rw [e]; simp) (by rw [e]; simpa using b)
    have hl : (s.lists k).eraseIdx u.length = u := by
      rw [e, List.eraseIdx_append_of_length_le (Nat.le_refl _)]; simp
    rw [hl] at h3
    refine ⟨r, hr, ?_, ?_, ?_⟩
    · have := reads_of_inv ok h3 k
      simpa [setList] using this
    · have := top h3
      simpa [setList] using this
    · intro k' hk
      have := reads_of_inv ok h3 k'
      simpa [setList, hk] using this

example : CfgOk (fun _ => stackCfg 1) 16 100 ∧ ∀ o ∈ ([.push 0 [] 7, .push 0 [] 8, .pop 0 []] : List (COp Nat)), o.Ok (fun _ => stackCfg 1) 16 := by
  refine ⟨⟨fun _ => rfl, fun _ => rfl, by decide, fun _ => rfl, fun _ => by decide, fun _ => by decide⟩, ?_⟩
  intro o ho
  simp at ho
  rcases ho with rfl | rfl | rfl <;> exact ⟨by decide, by intro _ _ _ _ e; cases e⟩

/-! ## C59: nothing outside of a page is touched -/

/-- C59: no history of calls does anything undefined: no write past the end of a page, no use of a null
log, no exception out of a `noexcept` function; and the file does not grow beyond its limit. -/
theorem C59_no_fault_partial {cfg : Nat → Cfg} {max limit : Nat} (ok : CfgOk cfg max limit) (h2 : 2 ≤ limit) (x0 : α) (os : List (COp α))
    (ho : ∀ o ∈ os, o.Ok cfg max) : ((CSt.init x0).run cfg os).heap.bad = false ∧ ((CSt.init x0).run cfg os).heap.len ≤ limit := by
  obtain ⟨h, pss, fs, v⟩ := reachable ok h2 x0 os ho
  exact ⟨v.bad, h⟩

/-- The whole claim: for lists and stacks of any item size that fits a page, with or without a log. -/
def C59Full : Prop := ∀ (c : Cfg) (os : List (COp Nat)), c.max = 16 → 1 ≤ c.cap → c.cap < nilItem → c.limit ≤ nil → (∀ o ∈ os, o.held = []) →
  ((CSt.init 0).run (fun _ => c) os).heap.bad = false

/-- A list of items that fill more than half a page: the second `push_front` writes past the page. -/
theorem C59_violated : ¬ C59Full := by
  intro h
  have := h (listCfg 1 true) [.push 0 [] 7, .insert 0 [] 0 8] rfl (by decide) (by decide) (by decide) (by intro o ho; simp at ho; rcases ho with rfl | rfl <;> rfl)
  revert this
  decide

/-- A list without a log: the first page that is added behind another one uses the null log. -/
theorem C59_violated_log : ((CSt.init 0).run (fun _ => listCfg 2 false) [.push 0 [] 7, .push 0 [] 8, .push 0 [] 9]).heap.bad = true := by decide

/-- `push_front`, which `vmem_stack` does not delete, writes past a full page. -/
theorem C59_violated_stack : ((CSt.init 0).run (fun _ => stackCfg 2) [.push 0 [] 7, .push 0 [] 8, .insert 0 [] 0 9]).heap.bad = true := by decide

/-- The whole claim of C24: any item size that fits a page. -/
def C24Full : Prop := ∀ (cap : Nat) (os : List (COp Nat)) (n x : Nat), 1 ≤ cap → cap < nilItem → (∀ o ∈ os, o.held = []) →
  let s := (CSt.init 0).run (fun _ => listCfg cap true) os
  n ≤ (s.lists 0).length → ∃ r j, insert2 (listCfg cap true) [] s.heap 1 (itrAt 16 [] s.heap 1 n) x = some r ∧ r.itr = some j ∧
    (j = cend (r.heap.states 1) ∨ (r.heap.bad = false ∧ Reads 16 r.heap 0 ((s.lists 0).take n ++ x :: (s.lists 0).drop n)))

theorem C24_violated : ¬ C24Full := by
  intro h
  obtain ⟨r, j, hr, hj, h2⟩ := h 1 [.push 0 [] 7] 0 8 (by decide) (by decide) (by intro o ho; simp at ho; subst ho; rfl) (by decide)
  have e := Option.some.inj hr
  subst e
  have e2 := Option.some.inj hj
  subst e2
  rcases h2 with h2 | ⟨h2, _⟩
  · revert h2; decide
  · revert h2; decide

end Abc.Vmem.Pages
