import Verif.Vmem.PagesList
import Mathlib.Logic.Function.Iterate
import Mathlib.Tactic.ByContra

/-! # Properties of the page allocation and of linked pages (C22, C23) -/

namespace Abc.Vmem.Pages

variable {α : Type}

/-! ## C22: allocation -/

/-- What clients do with pages; `held` are the pages they have locked at that time. -/
inductive AOp (α : Type) where
  | alloc (held : List Nat)
  | free (held : List Nat) (i : Nat)
  | write (i : Nat) (v : Page α)

/-- The pool and the pages in use. -/
structure ASt (α : Type) where
  heap : Heap α
  used : List Nat

/-- One call: `alloc_page`, `free_page` of a used page, or the client writes anything to a used page. -/
def ASt.step (max limit : Nat) (s : ASt α) : AOp α → ASt α
  | .alloc held =>
    if (allocPage max limit held s.heap).2 = nil then { s with heap := (allocPage max limit held s.heap).1 }
    else ⟨(allocPage max limit held s.heap).1, (allocPage max limit held s.heap).2 :: s.used⟩
  | .free held i => match s.used[i]? with
    | none => s
    | some p => ⟨freePage max held s.heap p, s.used.eraseIdx i⟩
  | .write i v => match s.used[i]? with
    | none => s
    | some p => { s with heap := s.heap.mod p (fun _ => v) }

def ASt.run (max limit : Nat) : ASt α → List (AOp α) → ASt α
  | s, [] => s
  | s, o :: os => (s.step max limit o).run max limit os

def AOp.held : AOp α → List Nat
  | .alloc h => h
  | .free h _ => h
  | .write _ _ => []

/-- What holds after any history. -/
structure AInv (s : ASt α) (fs : List Nat) : Prop where
  free : FreeList s.heap fs
  front : (s.heap.states 0).front = fs.getLastD nil
  nodup : (s.used ++ fs).Nodup
  range : ∀ p ∈ s.used ++ fs, 2 ≤ p ∧ p < s.heap.len
  size : s.heap.len = 2 + s.used.length + fs.length

theorem freeList_congr {h h' : Heap α} {fs : List Nat} (hf : FreeList h fs) (hs : h'.states 0 = h.states 0)
    (hp : ∀ q ∈ fs, h'.pages q = h.pages q) : FreeList h' fs := by
  cases hf with
  | empty e => exact .empty (by rw [hs]; exact e)
  | chain c =>
    obtain ⟨r, e, _⟩ := chain_cons c
    have hm : (h.states 0).back ∈ fs := by rw [e]; simp
    refine .chain ⟨by rw [hs]; exact c.front, c.ne, ?_, ?_, c.nodup⟩
    · rw [hs]; exact bchain_congr c.links (fun q h => by rw [hp q h]; exact ⟨rfl, rfl⟩)
    · rw [hs, hp _ hm]; exact c.next

theorem aInv_init (x : α) : AInv ⟨Heap.init x, []⟩ [] :=
  ⟨.empty rfl, rfl, by simp, by simp, rfl⟩

theorem freeList_isEmpty {h : Heap α} {fs : List Nat} (hf : FreeList h fs) (he : fs ≠ []) : isEmpty (h.states 0) = false := by
  cases hf with
  | empty e => exact absurd rfl he
  | chain c => obtain ⟨r, e, hb, _⟩ := chain_cons c; exact isEmpty_false c.front hb

theorem perm_eraseIdx {l : List Nat} : ∀ {i p : Nat}, l[i]? = some p → (p :: l.eraseIdx i).Perm l := by
  induction l with
  | nil => intro i p h; simp at h
  | cons a l ih =>
    intro i p h
    cases i with
    | zero => simp at h; subst h; exact List.Perm.refl _
    | succ i =>
      simp only [List.getElem?_cons_succ] at h
      exact (List.Perm.swap a p _).trans ((ih h).cons a)

/-- Everything about one allocation. -/
theorem alloc_exact {max limit : Nat} {held : List Nat} {s : ASt α} {fs : List Nat} (hm : held.length + 4 < max)
    (hl : s.heap.len ≤ limit) (v : AInv s fs) :
    (fs = [] → s.heap.len = limit → allocPage max limit held s.heap = (s.heap, nil)) ∧
    (fs = [] → s.heap.len < limit → (allocPage max limit held s.heap).2 = s.heap.len ∧
      AInv ⟨(allocPage max limit held s.heap).1, s.heap.len :: s.used⟩ []) ∧
    (∀ p r, fs = p :: r → (allocPage max limit held s.heap).2 = p ∧ AInv ⟨(allocPage max limit held s.heap).1, p :: s.used⟩ r) ∧
    (allocPage max limit held s.heap).1.len ≤ limit := by
  have hempty : fs = [] → popFree max held s.heap = (s.heap, nil) := by
    intro e
    have := v.free
    rw [e] at this
    cases this with
    | empty e => exact popFree_none e
    | chain c => exact absurd rfl c.ne
  have hne : ∀ p r, fs = p :: r → (allocPage max limit held s.heap).2 = p ∧ AInv ⟨(allocPage max limit held s.heap).1, p :: s.used⟩ r ∧
      (allocPage max limit held s.heap).1.len ≤ limit := by
    intro p r e
    have he := freeList_isEmpty v.free (by rw [e]; simp)
    obtain ⟨r', fs', e', hn, _, hfl, fr, hex⟩ := popFree_spec (max := max) (held := held) hm v.free.ok he
    have hpr : p = (popFree max held s.heap).2 ∧ r = r' := List.cons.inj (e.symm.trans e')
    have hal : allocPage max limit held s.heap = popFree max held s.heap := by
      unfold allocPage; simp only; rw [if_neg hn]
    have hback : (s.heap.states 0).back = p := by
      have hf := v.free
      rw [e] at hf
      cases hf with
      | chain c => exact c.links.1
    have hnd : (p :: r).Nodup := by have := (List.nodup_append.1 v.nodup).2.1; rwa [e] at this
    have hcase : (s.heap.states 0).front ≠ (s.heap.states 0).back ∨ r' = [] := by
      rw [← hpr.2]
      cases hr : r with
      | nil => exact Or.inr rfl
      | cons a r2 =>
        left
        rw [v.front, hback, e, hr]
        intro e2
        rw [hr] at hnd
        apply (List.nodup_cons.1 hnd).1
        have : (p :: a :: r2).getLastD nil = (a :: r2).getLastD nil := getLastD_append nil nil (by simp) [p]
        rw [this] at e2
        exact e2 ▸ getLastD_mem (by simp)
    obtain ⟨hfs', hfront⟩ := hex hcase
    rw [hal]
    refine ⟨hpr.1.symm, ⟨?_, ?_, ?_, ?_, ?_⟩, ?_⟩
    · rw [hpr.2, ← hfs']; exact hfl
    · simp only
      rw [hfront, hback, v.front, e]
      cases hr : r with
      | nil => simp
      | cons a r2 =>
        have : (p :: a :: r2).getLastD nil = (a :: r2).getLastD nil := getLastD_append nil nil (by simp) [p]
        rw [this, if_neg]
        intro e2
        rw [hr] at hnd
        exact (List.nodup_cons.1 hnd).1 (e2 ▸ getLastD_mem (by simp))
    · have := v.nodup
      rw [e] at this
      exact (List.perm_middle.nodup_iff.1 this)
    · intro q hq
      rw [fr.len]
      apply v.range q
      rw [e]
      simp at hq ⊢; tauto
    · simp only [List.length_cons]
      rw [fr.len, v.size, e, List.length_cons]; omega
    · rw [fr.len]; exact hl
  refine ⟨?_, ?_, ?_, ?_⟩
  · intro e hl'
    unfold allocPage
    simp only
    rw [hempty e, if_pos rfl]
    unfold createPage
    rw [if_neg (by simp only; omega)]
  · intro e hl'
    have hal : allocPage max limit held s.heap = createPage limit s.heap := by
      unfold allocPage; simp only; rw [hempty e, if_pos rfl]
    rw [hal]
    unfold createPage
    rw [if_pos hl']
    refine ⟨rfl, ⟨?_, ?_, ?_, ?_, ?_⟩⟩
    · have hf := v.free
      rw [e] at hf
      exact freeList_congr hf rfl (by simp)
    · have := v.front; rw [e] at this; exact this
    · have h1 := v.nodup
      have h2 := v.range
      rw [e, List.append_nil] at h1 h2
      rw [List.append_nil]
      refine List.nodup_cons.2 ⟨?_, h1⟩
      intro hx; have := (h2 _ hx).2; omega
    · intro q hq
      have h2 := v.range
      rw [e, List.append_nil] at h2
      rw [List.append_nil] at hq
      have hsz := v.size
      rcases List.mem_cons.1 hq with hq | hq
      · subst hq; simp only; omega
      · have := h2 q hq; simp only; omega
    · have hsz := v.size
      rw [e] at hsz
      simp only [List.length_cons, List.length_nil] at hsz ⊢; omega
  · intro p r e; exact ⟨(hne p r e).1, (hne p r e).2.1⟩
  · cases hfs : fs with
    | cons p r => exact (hne p r hfs).2.2
    | nil =>
      have hal : allocPage max limit held s.heap = createPage limit s.heap := by
        unfold allocPage; simp only; rw [hempty hfs, if_pos rfl]
      rw [hal]
      unfold createPage
      by_cases h : s.heap.len < limit
      · rw [if_pos h]; simp only; omega
      · rw [if_neg h]; exact hl

theorem aInv_step {max limit : Nat} {s : ASt α} {o : AOp α} {fs : List Nat} (hm : o.held.length + 4 < max) (hlim : limit ≤ nil)
    (hl : s.heap.len ≤ limit) (v : AInv s fs) : ∃ fs', AInv (s.step max limit o) fs' ∧ (s.step max limit o).heap.len ≤ limit := by
  cases o with
  | alloc held =>
    obtain ⟨a1, a2, a3, a4⟩ := alloc_exact (limit := limit) hm hl v
    unfold ASt.step
    simp only [AOp.held] at *
    cases hfs : fs with
    | nil =>
      by_cases h : s.heap.len < limit
      · obtain ⟨b1, b2⟩ := a2 hfs h
        rw [if_neg (by rw [b1]; omega)]
        rw [b1]
        exact ⟨[], b2, a4⟩
      · rw [a1 hfs (by omega), if_pos rfl]
        exact ⟨fs, v, hl⟩
    | cons p r =>
      obtain ⟨b1, b2⟩ := a3 p r hfs
      have := v.range p (by rw [hfs]; simp)
      rw [if_neg (by rw [b1]; omega), b1]
      exact ⟨r, b2, a4⟩
  | free held i =>
    unfold ASt.step
    simp only [AOp.held] at *
    cases hi : s.used[i]? with
    | none => exact ⟨fs, v, hl⟩
    | some p =>
      obtain ⟨hlt, hpe⟩ := List.getElem?_eq_some_iff.1 hi
      have hmem : p ∈ s.used := hpe ▸ List.getElem_mem hlt
      have hrng := v.range p (by simp [hmem])
      have hpn : p ≠ nil := by omega
      have hnd := List.nodup_append.1 v.nodup
      have hpf : p ∉ fs := fun hx => hnd.2.2 p hmem p hx rfl
      simp only
      rw [freePage_eq hpn]
      have fr : FreeFrame s.heap (pushFree max held s.heap p) p fs := pushFree_frame (by omega) (fun he => Or.inr (back_mem v.free.ok he))
      refine ⟨p :: fs, ⟨pushFree_list (by omega) v.free hpn hpf, ?_, ?_, ?_, ?_⟩, by rw [fr.len]; exact hl⟩
      · simp only
        rw [pushFree_eq _ _ (by omega), setState_same]
        simp only
        rw [v.front]
        cases hfs : fs with
        | nil => simp
        | cons a r =>
          have : (p :: a :: r).getLastD nil = (a :: r).getLastD nil := getLastD_append nil nil (by simp) [p]
          rw [this, if_neg]
          have hm2 : (a :: r).getLastD nil ∈ fs := by rw [hfs]; exact getLastD_mem (by simp)
          have := v.range _ (List.mem_append.2 (Or.inr hm2))
          omega
      · simp only
        refine (List.perm_middle.nodup_iff).2 ?_
        have hsub : (p :: (s.used.eraseIdx i ++ fs)).Perm (s.used ++ fs) := by
          exact ((perm_eraseIdx hi).append_right fs)
        exact hsub.nodup_iff.2 v.nodup
      · intro q hq
        rw [fr.len]
        apply v.range
        simp only [List.mem_append, List.mem_cons] at hq ⊢
        rcases hq with hq | hq | hq
        · exact Or.inl (List.mem_of_mem_eraseIdx hq)
        · exact Or.inl (hq ▸ hmem)
        · exact Or.inr hq
      · simp only [List.length_cons]
        rw [fr.len, v.size, List.length_eraseIdx_of_lt hlt]
        omega
  | write i w =>
    unfold ASt.step
    simp only
    cases hi : s.used[i]? with
    | none => exact ⟨fs, v, hl⟩
    | some p =>
      obtain ⟨hlt, hpe⟩ := List.getElem?_eq_some_iff.1 hi
      have hmem : p ∈ s.used := hpe ▸ List.getElem_mem hlt
      have hnd := List.nodup_append.1 v.nodup
      have hpf : p ∉ fs := fun hx => hnd.2.2 p hmem p hx rfl
      simp only
      refine ⟨fs, ⟨freeList_congr v.free rfl (fun q hq => mod_pages_ne s.heap (fun _ => w) (fun (e : q = p) => hpf (e ▸ hq))), v.front, v.nodup, v.range, v.size⟩, hl⟩

theorem aInv_run {max limit : Nat} (hlim : limit ≤ nil) : ∀ (os : List (AOp α)) {s : ASt α} {fs : List Nat}, (∀ o ∈ os, o.held.length + 4 < max) →
    s.heap.len ≤ limit → AInv s fs → ∃ fs', AInv (s.run max limit os) fs' ∧ (s.run max limit os).heap.len ≤ limit := by
  intro os
  induction os with
  | nil => intro s fs _ hl v; exact ⟨fs, v, hl⟩
  | cons o os ih =>
    intro s fs hm hl v
    obtain ⟨fs', v', hl'⟩ := aInv_step (hm o (by simp)) hlim hl v
    exact ih (fun o ho => hm o (by simp [ho])) hl' v'

/-- C22: after any history of allocations, frees and writes of the clients to their pages, `alloc_page`
returns a page that is not the root page, not the start page and not in use, and is inside the file.
It fails exactly when the file has reached its limit and all pages are in use; the file
grows only when all pages are in use.  It is assumed that four more pages can be locked. -/
theorem C22_alloc_partial (x : α) {max limit : Nat} (hlim : limit ≤ nil) (h2 : 2 ≤ limit) (os : List (AOp α))
    (hm : ∀ o ∈ os, o.held.length + 4 < max) (held : List Nat) (hheld : held.length + 4 < max) :
    let s := ASt.run max limit ⟨Heap.init x, []⟩ os
    let r := allocPage max limit held s.heap
    (r.2 ≠ nil → r.2 ≠ 0 ∧ r.2 ≠ 1 ∧ r.2 ∉ s.used ∧ r.2 < r.1.len) ∧
    (r.2 = nil ↔ s.heap.len = limit ∧ s.used.length + 2 = limit) ∧
    (r.1.len ≠ s.heap.len → s.used.length + 2 = s.heap.len) ∧ s.used.Nodup := by
  obtain ⟨fs, v, hl⟩ := aInv_run (max := max) hlim os (s := ⟨Heap.init x, []⟩) hm h2 (aInv_init x)
  simp only
  generalize ASt.run max limit ⟨Heap.init x, []⟩ os = s at *
  obtain ⟨a1, a2, a3, a4⟩ := alloc_exact hheld hl v
  have hsz := v.size
  cases hfs : fs with
  | nil =>
    rw [hfs, List.length_nil] at hsz
    by_cases h : s.heap.len < limit
    · obtain ⟨b1, b2⟩ := a2 hfs h
      have hnd := b2.nodup
      have hrng := b2.range s.heap.len (by simp)
      rw [b1]
      simp only [List.append_nil] at hnd
      refine ⟨fun _ => ⟨by omega, by omega, (List.nodup_cons.1 hnd).1, hrng.2⟩, ⟨fun e => ?_, fun e => by omega⟩, fun _ => by omega,
        (List.nodup_cons.1 hnd).2⟩
      omega
    · rw [a1 hfs (by omega)]
      exact ⟨fun e => absurd rfl e, ⟨fun _ => ⟨by omega, by omega⟩, fun _ => rfl⟩, fun e => absurd rfl e, (List.nodup_append.1 v.nodup).1⟩
  | cons p r =>
    rw [hfs, List.length_cons] at hsz
    obtain ⟨b1, b2⟩ := a3 p r hfs
    have hrng := b2.range p (by simp)
    have hrng0 := v.range p (by rw [hfs]; simp)
    have hnd := b2.nodup
    rw [b1]
    rw [List.cons_append] at hnd
    have h3 : (allocPage max limit held s.heap).1.len = s.heap.len := by have := b2.size; simp only [List.length_cons] at this; omega
    refine ⟨fun _ => ⟨by omega, by omega, fun hx => (List.nodup_cons.1 hnd).1 (by simp [hx]), hrng.2⟩, ⟨fun e => ?_, fun e => by omega⟩,
      fun e => absurd h3 e, (List.nodup_append.1 v.nodup).1⟩
    omega

/-- A history that meets the assumptions: three pages are allocated, two are freed, one of them is
allocated again while the third one is locked. -/
example : (ASt.run 5 10 ⟨Heap.init (0 : Nat), []⟩ [.alloc [], .alloc [], .alloc [], .free [] 0, .free [] 0, .alloc []]).used = [3, 2] ∧
    (allocPage 5 10 [] (ASt.run 5 10 ⟨Heap.init (0 : Nat), []⟩ [.alloc [], .alloc [], .alloc [], .free [] 0, .free [] 0, .alloc []]).heap).2 = 4 := by
  decide

/-- The whole claim of C22: with any number of pages that can be locked from the documented minimum on,
also when clients have locked pages they use. -/
def C22Full : Prop := ∀ (max limit : Nat) (os : List (AOp Nat)) (held : List Nat), 3 ≤ max → limit ≤ nil →
  (∀ o ∈ os, o.held.length < max) → held.length < max →
  let s := ASt.run max limit ⟨Heap.init 0, []⟩ os
  (allocPage max limit held s.heap).2 ≠ nil → (allocPage max limit held s.heap).2 ∉ s.used

/-- Three pages can be locked (`vmem_min_mapped_pages`) and the client has locked one: `erase` of the free
page fails because its neighbour cannot be locked, `pop_free_page_pos` returns the page nevertheless, and
the same page is returned again. -/
theorem C22_violated_locks : ¬ C22Full := by
  intro h
  have := h 3 10 [.alloc [], .alloc [], .alloc [], .free [] 0, .free [] 0, .alloc [2]] [2] (by decide) (by decide) (by decide) (by decide)
  revert this
  decide

/-! ## C23: linked pages -/

/-- The iterator after `n` steps from the begin. -/
def lwalk (max : Nat) (held : List Nat) (h : Heap α) (sid n : Nat) : LItr := (lnext max held h sid)^[n] (lbegin (h.states sid))

/-- The iterator after `n` steps back from the last page. -/
def lwalkBack (max : Nat) (held : List Nat) (h : Heap α) (sid n : Nat) : LItr := (lprev max held h sid)^[n] (lrend (h.states sid))

/-- What clients do with linked lists; list number `k` has state `k + 1`. -/
inductive LOp (α : Type) where
  | insert (held : List Nat) (k i : Nat)
  | erase (held : List Nat) (k i : Nat)
  | write (k i count : Nat) (items : Nat → α)

def LOp.held : LOp α → List Nat
  | .insert h _ _ => h
  | .erase h _ _ => h
  | .write _ _ _ _ => []

/-- The pool, and the lists the clients expect. -/
structure LSt (α : Type) where
  heap : Heap α
  lists : Nat → List Nat

/-- A change of one list. -/
def LSt.upd (s : LSt α) (h : Heap α) (k : Nat) (l : List Nat) : LSt α := ⟨h, fun j => if j = k then l else s.lists j⟩

/-- One step of a client: it allocates a page and inserts it before position `i` (`linked` 216), erases
the page at position `i` (`linked` 372), or writes to a page of a list without changing its links. -/
def LSt.step (max limit : Nat) (s : LSt α) : LOp α → LSt α
  | .insert held k i =>
    if (allocPage max limit held s.heap).2 = nil then { s with heap := (allocPage max limit held s.heap).1 }
    else s.upd
      (linsert max held (allocPage max limit held s.heap).1 (k + 1) (lwalk max held s.heap (k + 1) i) (allocPage max limit held s.heap).2).1 k
      ((s.lists k).take i ++ (allocPage max limit held s.heap).2 :: (s.lists k).drop i)
  | .erase held k i =>
    if (lwalk max held s.heap (k + 1) i).edge = .none then
      s.upd (lerase max held s.heap (k + 1) (lwalk max held s.heap (k + 1) i).page).1 k ((s.lists k).eraseIdx i)
    else s
  | .write k i n v => match (s.lists k)[i]? with
    | none => s
    | some p => { s with heap := s.heap.mod p (fun x => { x with count := n, items := v }) }

def LSt.run (max limit : Nat) : LSt α → List (LOp α) → LSt α
  | s, [] => s
  | s, o :: os => (s.step max limit o).run max limit os

/-- What holds after any history. -/
structure LInv (s : LSt α) (fs : List Nat) : Prop where
  free : FreeList s.heap fs
  own : ∀ k, Own s.heap (k + 1) (s.lists k)
  disj : ∀ j k, j ≠ k → ∀ p ∈ s.lists j, p ∉ s.lists k
  notFree : ∀ k, ∀ p ∈ s.lists k, p ∉ fs
  range : ∀ k, ∀ p ∈ s.lists k, 2 ≤ p ∧ p < s.heap.len
  frange : ∀ p ∈ fs, 2 ≤ p ∧ p < s.heap.len
  len : 2 ≤ s.heap.len
  bad : s.heap.bad = false

theorem itrOf_begin {h : Heap α} {sid : Nat} {ps : List Nat} (o : Own h sid ps) : lbegin (h.states sid) = itrOf ps := by
  unfold lbegin
  cases ps with
  | nil => rw [if_pos (show (h.states sid).front = nil from o.front)]; rfl
  | cons p ps =>
    have hf : (h.states sid).front = p := o.front
    rw [hf, if_neg (o.nn p (by simp))]; rfl

theorem lnext_end {max : Nat} {held : List Nat} {h : Heap α} {sid : Nat} : lnext max held h sid lend = lend := by
  unfold lnext; rw [if_pos rfl]

theorem lwalk_eq {max : Nat} {held : List Nat} {h : Heap α} {sid : Nat} {ps : List Nat} (hm : held.length < max) (o : Own h sid ps) (n : Nat) :
    lwalk max held h sid n = itrOf (ps.drop n) := by
  induction n with
  | zero => exact itrOf_begin o
  | succ n ih =>
    unfold lwalk at ih ⊢
    rw [Function.iterate_succ_apply', ih]
    cases hd : ps.drop n with
    | nil =>
      rw [show ps.drop (n + 1) = [] by
        rw [List.drop_eq_nil_iff] at hd ⊢; omega]
      exact lnext_end
    | cons p r =>
      have e : ps = ps.take n ++ p :: r := by rw [← hd, List.take_append_drop]
      have e2 : ps.drop (n + 1) = r := by
        rw [← List.drop_drop, hd]; rfl
      rw [e2]
      rw [e] at o
      exact lnext_spec hm o

theorem lprev_spec {max : Nat} {held : List Nat} {h : Heap α} {sid p : Nat} {as bs : List Nat} (hm : held.length < max)
    (o : Own h sid (as ++ p :: bs)) : lprev max held h sid ⟨p, .none⟩ = if as = [] then lrbegin else ⟨as.getLastD nil, .none⟩ := by
  have hp : p ≠ nil := o.nn p (by simp)
  unfold lprev
  rw [if_neg (by unfold lrbegin; intro e; exact hp (congrArg LItr.page e)), itrOf_begin o]
  have hd := (dl_append.1 o.dl).2
  simp only [DL] at hd
  cases as with
  | nil => simp [itrOf]
  | cons a as' =>
    have hne : (⟨p, .none⟩ : LItr) ≠ itrOf (a :: as' ++ p :: bs) := by
      intro e
      have e1 : p = a := congrArg LItr.page e
      have hnd := (List.nodup_append.1 o.nodup).2.2 a (by simp) p (by simp)
      exact hnd e1.symm
    rw [if_neg hne, if_neg (by unfold lend; intro e; exact hp (congrArg LItr.page e)), if_neg hp, canLock_of hm, if_neg (by decide), hd.2.1]
    have : (a :: as').getLastD nil ≠ nil := o.nn _ (List.mem_append.2 (Or.inl (getLastD_mem (by simp))))
    rw [if_neg this, if_neg (by simp)]

theorem getLastD_take {ps : List Nat} {n : Nat} (h : n < ps.length) : (ps.take (n + 1)).getLastD nil = ps[n] := by
  rw [List.take_succ_eq_append_getElem h, getLastD_append nil nil (by simp)]
  rfl

theorem lwalkBack_eq {max : Nat} {held : List Nat} {h : Heap α} {sid : Nat} {ps : List Nat} (hm : held.length < max) (o : Own h sid ps) (n : Nat)
    (hn : n < ps.length) : lwalkBack max held h sid n = ⟨ps[ps.length - 1 - n], .none⟩ := by
  induction n with
  | zero =>
    unfold lwalkBack
    simp only [Function.iterate_zero, id]
    have hb := o.back
    have hne : ps ≠ [] := by intro e; rw [e] at hn; simp at hn
    have h1 : ps.getLastD nil = ps[ps.length - 1] := by
      rw [← getLastD_take (by omega)]
      rw [show ps.length - 1 + 1 = ps.length by omega, List.take_length]
    rw [lrend_eq (by rw [hb]; exact o.nn _ (getLastD_mem hne)), hb, h1]
    simp
  | succ n ih =>
    unfold lwalkBack at ih ⊢
    rw [Function.iterate_succ_apply', ih (by omega)]
    have hlt : ps.length - 1 - n < ps.length := by omega
    have e : ps = ps.take (ps.length - 1 - n) ++ ps[ps.length - 1 - n] :: ps.drop (ps.length - 1 - n + 1) := by
      rw [List.getElem_cons_drop, List.take_append_drop]
    have o' := o
    rw [e] at o'
    rw [lprev_spec hm o', if_neg]
    · rw [show ps.length - 1 - n = ps.length - 1 - (n + 1) + 1 by omega, getLastD_take (by omega)]
    · intro h0
      rw [List.take_eq_nil_iff] at h0
      rcases h0 with h0 | h0
      · omega
      · rw [h0] at hn; simp at hn

theorem lInv_init (x : α) : LInv ⟨Heap.init x, fun _ => []⟩ [] :=
  ⟨.empty rfl, fun _ => ⟨rfl, rfl, trivial, List.nodup_nil, by simp⟩, by simp, by simp, by simp, by simp, Nat.le_refl _, rfl⟩

theorem own_take_drop {h : Heap α} {sid : Nat} {ps : List Nat} (i : Nat) (o : Own h sid ps) : Own h sid (ps.take i ++ ps.drop i) := by
  rw [List.take_append_drop]; exact o

theorem LSt.upd_same (s : LSt α) (h : Heap α) (k : Nat) (l : List Nat) : (s.upd h k l).lists k = l := by simp [LSt.upd]
theorem LSt.upd_ne (s : LSt α) (h : Heap α) {k j : Nat} (l : List Nat) (hj : j ≠ k) : (s.upd h k l).lists j = s.lists j := by simp [LSt.upd, hj]

theorem eraseIdx_split {l : List Nat} {i p : Nat} (h : l[i]? = some p) : l = l.take i ++ p :: l.drop (i + 1) ∧ l.eraseIdx i = l.take i ++ l.drop (i + 1) := by
  obtain ⟨hlt, e⟩ := List.getElem?_eq_some_iff.1 h
  refine ⟨?_, List.eraseIdx_eq_take_drop_succ _ _⟩
  rw [← e, List.getElem_cons_drop, List.take_append_drop]

theorem lInv_step {max limit : Nat} {s : LSt α} {o : LOp α} {fs : List Nat} (hm : o.held.length + 4 < max) (hlim : limit ≤ nil)
    (hl : s.heap.len ≤ limit) (v : LInv s fs) : ∃ fs', LInv (s.step max limit o) fs' ∧ (s.step max limit o).heap.len ≤ limit := by
  cases o with
  | insert held k i =>
    simp only [LOp.held] at hm
    unfold LSt.step
    simp only
    rcases alloc_spec (limit := limit) hm v.free.ok hlim with ⟨h1, _⟩ | ⟨hl', fs', a⟩
    · rw [h1, if_pos rfl]; exact ⟨fs, v, hl⟩
    · rw [if_neg a.nn, lwalk_eq (by omega) (v.own k)]
      have hl2 := hl' hl
      generalize (allocPage max limit held s.heap).1 = g at *
      generalize (allocPage max limit held s.heap).2 = p at *
      have hpnew : ∀ j, p ∉ s.lists j := by
        intro j hx
        rcases a.which with ⟨h1, _⟩ | ⟨h1, _⟩
        · exact v.notFree j p hx h1
        · have := (v.range j p hx).2; omega
      have hpr : 2 ≤ p ∧ p < g.len := by
        rcases a.which with ⟨h1, h2⟩ | ⟨h1, h2⟩
        · have := v.frange p h1; omega
        · have := v.len; omega
      have hlen : s.heap.len ≤ g.len := by rcases a.which with ⟨_, h2⟩ | ⟨_, h2⟩ <;> omega
      have hown : ∀ j, Own g (j + 1) (s.lists j) := by
        intro j
        refine own_congr (v.own j) (a.states _ (by omega)) (fun q hq => SameLinks.of_eq (a.pages q (v.notFree j q hq) ?_))
        intro e; exact hpnew j (e ▸ hq)
      obtain ⟨_, i2, i3⟩ := linsert_spec (max := max) (held := held) (n := p) (by omega) (own_take_drop i (hown k))
        (by rw [List.take_append_drop]; exact hpnew k) a.nn
      rw [List.take_append_drop] at i3
      generalize (linsert max held g (k + 1) (itrOf ((s.lists k).drop i)) p).1 = g' at *
      have hmem : ∀ q, q ∈ (s.lists k).take i ++ p :: (s.lists k).drop i ↔ q = p ∨ q ∈ s.lists k := by
        intro q
        conv => rhs; rw [← List.take_append_drop i (s.lists k)]
        simp only [List.mem_append, List.mem_cons]; tauto
      refine ⟨fs', ⟨?_, ?_, ?_, ?_, ?_, ?_, ?_, ?_⟩, ?_⟩
      · refine freeList_congr a.free (i3.states 0 (by omega)) (fun q hq => ?_)
        refine i3.pages q ?_ (fun hx => v.notFree k q hx (a.sub q hq))
        intro e; exact a.fresh (e ▸ hq)
      · intro j
        by_cases hj : j = k
        · subst hj; rw [LSt.upd_same]; exact i2
        · rw [LSt.upd_ne _ _ _ hj]
          refine own_congr (hown j) (i3.states _ (by omega)) (fun q hq => SameLinks.of_eq (i3.pages q ?_ (v.disj j k hj q hq)))
          intro e; exact hpnew j (e ▸ hq)
      · intro j j' hne q hq
        by_cases hj : j = k
        · subst hj
          rw [LSt.upd_ne _ _ _ (Ne.symm hne)]
          rw [LSt.upd_same, hmem] at hq
          rcases hq with hq | hq
          · rw [hq]; exact hpnew j'
          · exact v.disj j j' hne q hq
        · rw [LSt.upd_ne _ _ _ hj] at hq
          by_cases hj' : j' = k
          · subst hj'
            rw [LSt.upd_same, hmem]
            intro hx
            rcases hx with hx | hx
            · exact hpnew j (hx ▸ hq)
            · exact v.disj j j' hne q hq hx
          · rw [LSt.upd_ne _ _ _ hj']; exact v.disj j j' hne q hq
      · intro j q hq hx
        by_cases hj : j = k
        · subst hj
          rw [LSt.upd_same, hmem] at hq
          rcases hq with hq | hq
          · exact a.fresh (hq ▸ hx)
          · exact v.notFree j q hq (a.sub q hx)
        · rw [LSt.upd_ne _ _ _ hj] at hq
          exact v.notFree j q hq (a.sub q hx)
      · intro j q hq
        simp only [LSt.upd] at hq ⊢
        rw [i3.len]
        split at hq
        · rw [hmem] at hq
          rcases hq with hq | hq
          · rw [hq]; exact hpr
          · have := v.range k q hq; omega
        · have := v.range j q hq; omega
      · intro q hq
        have := v.frange q (a.sub q hq)
        simp only [LSt.upd]
        rw [i3.len]; omega
      · have := v.len; simp only [LSt.upd]; rw [i3.len]; omega
      · simp only [LSt.upd]; rw [i3.bad, a.bad]; exact v.bad
      · simp only [LSt.upd]; rw [i3.len]; exact hl2
  | erase held k i =>
    simp only [LOp.held] at hm
    unfold LSt.step
    simp only
    rw [lwalk_eq (by omega) (v.own k)]
    cases hi : (s.lists k)[i]? with
    | none =>
      have : (s.lists k).drop i = [] := by rw [List.drop_eq_nil_iff]; exact List.getElem?_eq_none_iff.1 hi
      rw [this, if_neg (by decide)]
      exact ⟨fs, v, hl⟩
    | some p =>
      obtain ⟨e1, e2⟩ := eraseIdx_split hi
      have hd : (s.lists k).drop i = p :: (s.lists k).drop (i + 1) := by
        obtain ⟨hlt, e⟩ := List.getElem?_eq_some_iff.1 hi
        rw [← e, List.getElem_cons_drop]
      rw [hd, show itrOf (p :: (s.lists k).drop (i + 1)) = ⟨p, .none⟩ from rfl, if_pos rfl]
      have o := v.own k
      rw [e1] at o
      have hdj : ∀ q ∈ (s.lists k).take i ++ p :: (s.lists k).drop (i + 1), q ∉ fs := by
        rw [← e1]; exact v.notFree k
      obtain ⟨_, d2, d3, _, _, d6⟩ := lerase_spec (max := max) (held := held) (by omega) (by omega) o v.free.ok hdj
      have d7 := d6 v.free
      have hpk : p ∈ s.lists k := by rw [e1]; simp
      rw [← e2] at d2 d3
      have hsub : ∀ q ∈ (s.lists k).eraseIdx i, q ∈ s.lists k ∧ q ≠ p := by
        intro q hq
        have h1 := List.mem_of_mem_eraseIdx hq
        refine ⟨h1, ?_⟩
        intro e
        have := (perm_eraseIdx hi).nodup_iff.2 (v.own k).nodup
        exact (List.nodup_cons.1 this).1 (e ▸ hq)
      simp only
      generalize (lerase max held s.heap (k + 1) p).1 = g at *
      refine ⟨p :: fs, ⟨d7, ?_, ?_, ?_, ?_, ?_, ?_, ?_⟩, ?_⟩
      · intro j
        by_cases hj : j = k
        · subst hj; rw [LSt.upd_same]; exact d2
        · rw [LSt.upd_ne _ _ _ hj]
          refine own_congr (v.own j) (d3.states _ (by omega) (by omega)) (fun q hq => SameLinks.of_eq (d3.pages q ?_ ?_ (v.notFree j q hq)))
          · intro e; exact v.disj j k hj q hq (e ▸ hpk)
          · intro hx; exact v.disj j k hj q hq (hsub q hx).1
      · intro j j' hne q hq
        by_cases hj : j = k
        · subst hj
          rw [LSt.upd_ne _ _ _ (Ne.symm hne)]
          rw [LSt.upd_same] at hq
          exact v.disj j j' hne q (hsub q hq).1
        · rw [LSt.upd_ne _ _ _ hj] at hq
          by_cases hj' : j' = k
          · subst hj'
            rw [LSt.upd_same]
            intro hx
            exact v.disj j j' hne q hq (hsub q hx).1
          · rw [LSt.upd_ne _ _ _ hj']; exact v.disj j j' hne q hq
      · intro j q hq hx
        by_cases hj : j = k
        · subst hj
          rw [LSt.upd_same] at hq
          rcases List.mem_cons.1 hx with hx | hx
          · exact (hsub q hq).2 hx
          · exact v.notFree j q (hsub q hq).1 hx
        · rw [LSt.upd_ne _ _ _ hj] at hq
          rcases List.mem_cons.1 hx with hx | hx
          · exact v.disj j k hj q hq (hx ▸ hpk)
          · exact v.notFree j q hq hx
      · intro j q hq
        simp only [LSt.upd] at hq ⊢
        rw [d3.len]
        split at hq
        · exact v.range k q (hsub q hq).1
        · exact v.range j q hq
      · intro q hq
        simp only [LSt.upd]
        rw [d3.len]
        rcases List.mem_cons.1 hq with hq | hq
        · rw [hq]; exact v.range k p hpk
        · exact v.frange q hq
      · simp only [LSt.upd]; rw [d3.len]; exact v.len
      · simp only [LSt.upd]; rw [d3.bad]; exact v.bad
      · simp only [LSt.upd]; rw [d3.len]; exact hl
  | write k i n w =>
    unfold LSt.step
    simp only
    cases hi : (s.lists k)[i]? with
    | none => exact ⟨fs, v, hl⟩
    | some p =>
      have hpk : p ∈ s.lists k := List.mem_of_getElem? hi
      have hpf := v.notFree k p hpk
      simp only
      refine ⟨fs, ⟨?_, ?_, v.disj, v.notFree, v.range, v.frange, v.len, v.bad⟩, hl⟩
      · exact freeList_congr v.free rfl (fun q hq => mod_pages_ne s.heap (fun x => { x with count := n, items := w }) (fun (e : q = p) => hpf (e ▸ hq)))
      · intro j
        refine own_congr (v.own j) rfl (fun q hq => ?_)
        show SameLinks s.heap (s.heap.mod p (fun x => { x with count := n, items := w })) q
        unfold SameLinks
        rw [mod_pages]
        split
        · rename_i e; subst e; exact ⟨rfl, rfl, rfl⟩
        · exact ⟨rfl, rfl, rfl⟩

theorem lInv_run {max limit : Nat} (hlim : limit ≤ nil) : ∀ (os : List (LOp α)) {s : LSt α} {fs : List Nat}, (∀ o ∈ os, o.held.length + 4 < max) →
    s.heap.len ≤ limit → LInv s fs → ∃ fs', LInv (s.run max limit os) fs' ∧ (s.run max limit os).heap.len ≤ limit := by
  intro os
  induction os with
  | nil => intro s fs _ hl v; exact ⟨fs, v, hl⟩
  | cons o os ih =>
    intro s fs hm hl v
    obtain ⟨fs', v', hl'⟩ := lInv_step (hm o (by simp)) hlim hl v
    exact ih (fun o ho => hm o (by simp [ho])) hl' v'

theorem lprev_rbegin {max : Nat} {held : List Nat} {h : Heap α} {sid : Nat} {ps : List Nat} (hm : held.length < max) (o : Own h sid ps) :
    lwalkBack max held h sid ps.length = lrbegin := by
  cases hps : ps with
  | nil =>
    unfold lwalkBack lrend
    have : (h.states sid).back = nil := by rw [o.back, hps]; rfl
    rw [if_pos this]; rfl
  | cons p r =>
    have h1 := lwalkBack_eq hm o r.length (by rw [hps]; simp)
    unfold lwalkBack at h1 ⊢
    rw [List.length_cons, Function.iterate_succ_apply', h1]
    have e : ps[ps.length - 1 - r.length]'(by rw [hps]; simp) = p := by
      simp [hps]
    rw [e]
    rw [hps] at o
    rw [lprev_spec (as := []) hm o, if_pos rfl]

theorem linked_facts {max : Nat} {held : List Nat} {s : LSt α} {fs : List Nat} (v : LInv s fs) (hheld : held.length < max) (k : Nat) :
    (∀ n, (hn : n < (s.lists k).length) → lwalk max held s.heap (k + 1) n = ⟨(s.lists k)[n], .none⟩ ∧ (s.heap.pages (s.lists k)[n]).pos = (s.lists k)[n]) ∧
    lwalk max held s.heap (k + 1) (s.lists k).length = lend ∧
    (∀ n, (hn : n < (s.lists k).length) → lwalkBack max held s.heap (k + 1) n = ⟨(s.lists k)[(s.lists k).length - 1 - n], .none⟩) ∧
    lwalkBack max held s.heap (k + 1) (s.lists k).length = lrbegin ∧
    ((s.lists k) ≠ [] → lprev max held s.heap (k + 1) lend = lrend (s.heap.states (k + 1))) ∧
    ((s.heap.states (k + 1)).front = (s.lists k).headD nil ∧ (s.heap.states (k + 1)).back = (s.lists k).getLastD nil) ∧
    (isEmpty (s.heap.states (k + 1)) = true ↔ (s.lists k) = []) ∧
    (s.lists k).Nodup ∧ (∀ j, j ≠ k → ∀ p ∈ (s.lists k), p ∉ s.lists j) ∧ s.heap.bad = false := by
  have o := v.own k
  refine ⟨?_, ?_, fun n hn => lwalkBack_eq hheld o n hn, lprev_rbegin hheld o, ?_, ⟨o.front, o.back⟩, ?_, o.nodup, fun j hj p hp => v.disj k j (Ne.symm hj) p hp, v.bad⟩
  · intro n hn
    constructor
    · rw [lwalk_eq hheld o, ← List.getElem_cons_drop hn]; rfl
    · have d := o.dl
      have e : s.lists k = (s.lists k).take n ++ (s.lists k)[n] :: (s.lists k).drop (n + 1) := by
        rw [List.getElem_cons_drop, List.take_append_drop]
      rw [e, dl_append] at d
      exact d.2.1
  · rw [lwalk_eq hheld o, List.drop_length]; rfl
  · intro hne
    unfold lprev
    rw [if_neg (by decide), itrOf_begin o, if_neg, if_pos rfl]
    cases hh : s.lists k with
    | nil => exact absurd hh hne
    | cons a r => intro e; exact absurd (congrArg LItr.edge e) (by simp [lend, itrOf])
  · constructor
    · intro he
      by_contra hne
      rw [own_nonempty o hne] at he
      cases he
    · intro e
      rw [e] at o
      exact own_empty o

/-- C23: several lists of linked pages on one pool, changed in any order.  Whatever was inserted and erased
and written to the pages before, stepping forward from `begin` visits the pages of the expected list in
order and then reaches `end`; stepping back from the last page visits them in reverse order and then
reaches `rbegin`; `--` of `end` is the last page; `front` and `back` are its first and last page; no
page belongs to two lists.  It is assumed that four more pages can be locked. -/
theorem C23_linked_partial (x : α) {max limit : Nat} (hlim : limit ≤ nil) (h2 : 2 ≤ limit) (os : List (LOp α))
    (hm : ∀ o ∈ os, o.held.length + 4 < max) (held : List Nat) (hheld : held.length < max) (k : Nat) :
    let s := LSt.run max limit ⟨Heap.init x, fun _ => []⟩ os
    let l := s.lists k
    (∀ n, (hn : n < l.length) → lwalk max held s.heap (k + 1) n = ⟨l[n], .none⟩ ∧ (s.heap.pages l[n]).pos = l[n]) ∧
    lwalk max held s.heap (k + 1) l.length = lend ∧
    (∀ n, (hn : n < l.length) → lwalkBack max held s.heap (k + 1) n = ⟨l[l.length - 1 - n], .none⟩) ∧
    lwalkBack max held s.heap (k + 1) l.length = lrbegin ∧
    (l ≠ [] → lprev max held s.heap (k + 1) lend = lrend (s.heap.states (k + 1))) ∧
    ((s.heap.states (k + 1)).front = l.headD nil ∧ (s.heap.states (k + 1)).back = l.getLastD nil) ∧
    (isEmpty (s.heap.states (k + 1)) = true ↔ l = []) ∧
    l.Nodup ∧ (∀ j, j ≠ k → ∀ p ∈ l, p ∉ s.lists j) ∧ s.heap.bad = false := by
  obtain ⟨fs, v, _⟩ := lInv_run (max := max) hlim os (s := ⟨Heap.init x, fun _ => []⟩) hm h2 (lInv_init x)
  exact linked_facts v hheld k

/-- Two lists that are changed in turn, with an insertion in the middle and an erasure. -/
example : (LSt.run 5 10 ⟨Heap.init (0 : Nat), fun _ => []⟩
    [.insert [] 0 0, .insert [] 1 0, .insert [] 0 1, .insert [] 0 1, .erase [] 0 0, .insert [] 1 0]).lists 0 = [5, 4] ∧
  (LSt.run 5 10 ⟨Heap.init (0 : Nat), fun _ => []⟩
    [.insert [] 0 0, .insert [] 1 0, .insert [] 0 1, .insert [] 0 1, .erase [] 0 0, .insert [] 1 0]).lists 1 = [2, 3] := by
  decide

/-- The whole claim of C23 on any pool: forward and backward iteration agree on some list. -/
def C23Full : Prop := ∀ (max limit : Nat) (os : List (LOp Nat)) (k : Nat), 3 ≤ max → limit ≤ nil → (∀ o ∈ os, o.held.length < max) →
  let s := LSt.run max limit ⟨Heap.init 0, fun _ => []⟩ os
  ∃ l : List Nat, (∀ n, (hn : n < l.length) → lwalk max [] s.heap (k + 1) n = ⟨l[n], .none⟩) ∧ lwalk max [] s.heap (k + 1) l.length = lend ∧
    (∀ n, (hn : n < l.length) → lwalkBack max [] s.heap (k + 1) n = ⟨l[l.length - 1 - n], .none⟩) ∧ lwalkBack max [] s.heap (k + 1) l.length = lrbegin

/-- Three pages can be locked, the client has locked two when it erases the second page of three: the
previous page can be locked, as it is one of them, and is changed, the next page cannot. -/
theorem C23_violated_locks : ¬ C23Full := by
  intro h
  obtain ⟨l, h1, h2, h3, h4⟩ := h 3 10 [.insert [] 0 0, .insert [] 0 1, .insert [] 0 2, .insert [] 1 0, .erase [2, 5] 0 1] 0
    (by decide) (by decide) (by decide)
  generalize hs : LSt.run 3 10 ⟨Heap.init 0, fun _ => []⟩ [.insert [] 0 0, .insert [] 0 1, .insert [] 0 2, .insert [] 1 0, .erase [2, 5] 0 1] = s at *
  have f2 : lwalk 3 [] s.heap 1 2 = lend := by subst hs; decide
  have b2 : lwalkBack 3 [] s.heap 1 2 = ⟨2, .none⟩ := by subst hs; decide
  have hlen : l.length ≤ 2 := by
    by_contra hc
    have := h1 2 (by omega)
    rw [Nat.zero_add, f2] at this
    exact absurd (congrArg LItr.edge this) (by simp [lend])
  have hback : lwalkBack 3 [] s.heap 1 l.length ≠ lrbegin := by
    have e0 : lwalkBack 3 [] s.heap 1 0 = ⟨4, .none⟩ := by subst hs; decide
    have e1 : lwalkBack 3 [] s.heap 1 1 = ⟨3, .none⟩ := by subst hs; decide
    have : l.length = 0 ∨ l.length = 1 ∨ l.length = 2 := by omega
    rcases this with e | e | e <;> rw [e]
    · rw [e0]; decide
    · rw [e1]; decide
    · rw [b2]; decide
  exact hback h4

end Abc.Vmem.Pages
