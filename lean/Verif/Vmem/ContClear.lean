import Verif.Vmem.ContProps

/-! # Clearing (C28) and stopping in the middle of an insertion (C44) -/

namespace Abc.Vmem.Pages

variable {α : Type}

theorem bchain_rev {h : Heap α} {b f : Nat} : ∀ {ps : List Nat} {fs : List Nat} {a : Nat}, DL h a ps b → (∀ p ∈ ps, p ≠ nil) → BChain h f a fs →
    BChain h f (ps.getLastD a) (ps.reverse ++ fs) := by
  intro ps
  induction ps with
  | nil => intro fs a _ _ h3; exact h3
  | cons p ps ih =>
    intro fs a h1 h2 h3
    obtain ⟨e1, e2, e3, e4⟩ := h1
    rw [List.getLastD_cons, List.reverse_cons, List.append_assoc]
    exact ih e4 (fun q hq => h2 q (by simp [hq])) ⟨rfl, h2 p (by simp), e1, Or.inl (by rw [e2]; exact h3)⟩

/-- A list of free pages to which other pages can be added: the pages `fs`, from the back. -/
structure Bare (h : Heap α) (fs : List Nat) : Prop where
  front : (h.states 0).front ≠ nil
  ne : fs ≠ []
  links : BChain h (h.states 0).front (h.states 0).back fs
  nodup : fs.Nodup

theorem Chain.bare {h : Heap α} {fs : List Nat} (c : Chain h fs) : Bare h fs := ⟨c.front, c.ne, c.links, c.nodup⟩

/-- A page that was freed twice, if there was no other free page before. -/
theorem Loop.bare {h : Heap α} {p : Nat} (c : Loop h p) (hf : (h.states 0).front = p) : Bare h [p] :=
  ⟨c.front, by simp, by rw [c.back]; exact ⟨rfl, c.nn, c.pos, Or.inr ⟨rfl, c.prev, hf⟩⟩, by simp⟩

theorem Bare.back {h : Heap α} {fs : List Nat} (c : Bare h fs) : (h.states 0).back ∈ fs ∧ (h.states 0).back ≠ nil := by
  have l := c.links
  cases hfs : fs with
  | nil => exact absurd hfs c.ne
  | cons b r =>
    rw [hfs] at l
    exact ⟨by rw [l.1]; simp, by rw [l.1]; exact l.2.1⟩

/-- Clearing a list while there is a list of free pages. -/
theorem clear_spec {max : Nat} {held : List Nat} {h : Heap α} {sid : Nat} {ps fs : List Nat} (hm : held.length + 2 < max) (hs : sid ≠ 0)
    (c : Bare h fs) (o : Own h sid ps) (hd : ∀ p ∈ ps, p ∉ fs) (hne : ps ≠ []) :
    Chain (clear max held h sid) (ps.reverse ++ fs) ∧ Own (clear max held h sid) sid [] ∧
    ((clear max held h sid).states 0).back = ps.getLastD nil ∧
    (∀ t, t ≠ 0 → t ≠ sid → (clear max held h sid).states t = h.states t) ∧
    (∀ q, q ∉ ps → q ∉ fs → (clear max held h sid).pages q = h.pages q) ∧
    (clear max held h sid).len = h.len ∧ (clear max held h sid).bad = h.bad := by
  obtain ⟨hbm, hb⟩ := c.back
  have he0 : isEmpty (h.states 0) = false := isEmpty_false c.front hb
  have hes : isEmpty (h.states sid) = false := own_nonempty o hne
  have hl : clear max held h sid = ((((h.mod (h.states 0).back (fun x => { x with next := (h.states sid).front })).mod (h.states sid).front
      (fun x => { x with prev := (h.states 0).back })).setState 0 { h.states 0 with back := (h.states sid).back }).setState sid
      { h.states sid with front := nil, back := nil }) := by
    unfold clear splice
    rw [canLock_of (by omega), if_neg (by decide), hes, he0, canLock_of (by rw [List.length_cons]; omega), canLock_of (by rw [List.length_cons, List.length_cons]; omega)]
    simp only [Bool.false_eq_true, if_false, Bool.true_eq_false]
    rw [setState_ne _ _ hs]
    rfl
  rw [hl]
  have hfm : (h.states sid).front ∈ ps := by rw [o.front]; exact headD_mem hne
  have hfb : (h.states sid).front ≠ (h.states 0).back := fun e => hd _ hfm (e ▸ hbm)
  have hlast : (h.states sid).back ∈ ps := by rw [o.back]; exact getLastD_mem hne
  have hpg : ∀ q, q ≠ (h.states 0).back → q ≠ (h.states sid).front → ((h.mod (h.states 0).back (fun x => { x with next := (h.states sid).front })).mod (h.states sid).front
      (fun x => { x with prev := (h.states 0).back })).pages q = h.pages q := by
    intro q h1 h2
    rw [mod_pages_ne _ _ h2, mod_pages_ne _ _ h1]
  have hfront : ((h.mod (h.states 0).back (fun x => { x with next := (h.states sid).front })).mod (h.states sid).front
      (fun x => { x with prev := (h.states 0).back })).pages (h.states sid).front = { h.pages (h.states sid).front with prev := (h.states 0).back } := by
    rw [mod_pages_same, mod_pages_ne _ _ hfb]
  have hback : ((h.mod (h.states 0).back (fun x => { x with next := (h.states sid).front })).mod (h.states sid).front
      (fun x => { x with prev := (h.states 0).back })).pages (h.states 0).back = { h.pages (h.states 0).back with next := (h.states sid).front } := by
    rw [mod_pages_ne _ _ (Ne.symm hfb), mod_pages_same]
  obtain ⟨g1, g2, g3⟩ : ((h.mod (h.states 0).back (fun x => { x with next := (h.states sid).front })).mod (h.states sid).front
      (fun x => { x with prev := (h.states 0).back })).len = h.len ∧ ((h.mod (h.states 0).back (fun x => { x with next := (h.states sid).front })).mod (h.states sid).front
      (fun x => { x with prev := (h.states 0).back })).bad = h.bad ∧ ((h.mod (h.states 0).back (fun x => { x with next := (h.states sid).front })).mod (h.states sid).front
      (fun x => { x with prev := (h.states 0).back })).states = h.states := ⟨rfl, rfl, rfl⟩
  generalize (h.mod (h.states 0).back (fun x => { x with next := (h.states sid).front })).mod (h.states sid).front
      (fun x => { x with prev := (h.states 0).back }) = g at hpg hfront hback g1 g2 g3 ⊢
  have hdl : DL g (h.states 0).back ps nil := by
    cases hps : ps with
    | nil => exact absurd hps hne
    | cons p ps' =>
      have hpf : (h.states sid).front = p := by rw [o.front, hps]; rfl
      have d := o.dl
      rw [hps] at d
      obtain ⟨d1, d2, d3, d4⟩ := d
      rw [hpf] at hfront
      refine ⟨by rw [hfront]; exact d1, by rw [hfront], by rw [hfront]; exact d3, ?_⟩
      refine dl_congr d4 (fun q hq => SameLinks.of_eq (hpg q ?_ ?_))
      · intro e; exact hd q (by rw [hps]; simp [hq]) (e ▸ hbm)
      · intro e
        have := o.nodup
        rw [hps, List.nodup_cons] at this
        exact this.1 (hpf ▸ e ▸ hq)
  have hbc : BChain g (h.states 0).front (h.states 0).back fs := by
    refine bchain_congr c.links (fun q hq => ?_)
    by_cases e : q = (h.states 0).back
    · rw [e, hback]; exact ⟨rfl, rfl⟩
    · rw [hpg q e (fun e' => hd _ hfm (e' ▸ hq))]; exact ⟨rfl, rfl⟩
  have hch := bchain_rev hdl o.nn hbc
  have hlastD : ps.getLastD (h.states 0).back = ps.getLastD nil := by
    rcases List.eq_nil_or_concat ps with e | ⟨l, a, e⟩
    · exact absurd e hne
    · rw [e]; simp
  have hs0 : ((g.setState 0 { h.states 0 with back := (h.states sid).back }).setState sid { h.states sid with front := nil, back := nil }).states 0 =
      { h.states 0 with back := (h.states sid).back } := by
    rw [setState_ne _ _ (Ne.symm hs), setState_same]
  have hgs : ∀ t, t ≠ 0 → t ≠ sid → ((g.setState 0 { h.states 0 with back := (h.states sid).back }).setState sid { h.states sid with front := nil, back := nil }).states t = g.states t := by
    intro t h1 h2
    rw [setState_ne _ _ h2, setState_ne _ _ h1]
  refine ⟨⟨?_, by simp [hne], ?_, ?_, ?_⟩, ⟨by rw [setState_same]; rfl, by rw [setState_same]; rfl, trivial, List.nodup_nil, by simp⟩, ?_, ?_, ?_, g1, g2⟩
  · rw [hs0]; exact c.front
  · rw [hs0]
    show BChain _ (h.states 0).front (h.states sid).back _
    rw [o.back, ← hlastD]
    exact bchain_congr hch (fun q _ => ⟨rfl, rfl⟩)
  · rw [hs0]
    show (g.pages (h.states sid).back).next = nil
    have hdl2 := hdl
    rcases List.eq_nil_or_concat ps with e | ⟨l, a, e⟩
    · exact absurd e hne
    · rw [List.concat_eq_append] at e
      rw [o.back, e]
      rw [e, dl_append] at hdl2
      have := hdl2.2.2.2.1
      simpa using this
  · rw [List.nodup_append]
    refine ⟨(List.reverse_perm ps).nodup_iff.2 o.nodup, c.nodup, ?_⟩
    intro q hq q' hq' e
    exact hd q (List.mem_reverse.1 hq) (e ▸ hq')
  · rw [hs0]; exact o.back
  · intro t h1 h2
    rw [hgs t h1 h2, g3]
  · intro q h1 h2
    exact hpg q (fun e => h2 (e ▸ hbm)) (fun e => h1 (e ▸ hfm))

/-! ## C28: clearing -/

/-- The calls on lists of linked pages together with `clear`, `src/x/vmem_linked.x.h` 492-495. -/
inductive KOp (α : Type) where
  | op (o : LOp α)
  | clear (held : List Nat) (k : Nat)

def KOp.held : KOp α → List Nat
  | .op o => o.held
  | .clear held _ => held

def LSt.kstep (max limit : Nat) (s : LSt α) : KOp α → LSt α
  | .op o => s.step max limit o
  | .clear held k => s.upd (Pages.clear max held s.heap (k + 1)) k []

def LSt.krun (max limit : Nat) : LSt α → List (KOp α) → LSt α
  | s, [] => s
  | s, o :: os => (s.kstep max limit o).krun max limit os

/-- Whenever a list is cleared there is some free page, or the list is empty. -/
def GoodClears (max limit : Nat) : LSt α → List (KOp α) → Bool
  | _, [] => true
  | s, .op o :: os => GoodClears max limit (s.kstep max limit (.op o)) os
  | s, .clear held k :: os => (!isEmpty (s.heap.states 0) || (s.lists k).isEmpty) && GoodClears max limit (s.kstep max limit (.clear held k)) os

theorem lInv_clear {max : Nat} {s : LSt α} {fs held : List Nat} {k : Nat} (hm : held.length + 2 < max) (v : LInv s fs)
    (hg : isEmpty (s.heap.states 0) = false ∨ s.lists k = []) :
    LInv (s.upd (Pages.clear max held s.heap (k + 1)) k []) ((s.lists k).reverse ++ fs) ∧ (Pages.clear max held s.heap (k + 1)).len = s.heap.len ∧
    (s.lists k ≠ [] → ((Pages.clear max held s.heap (k + 1)).states 0).back = (s.lists k).getLastD nil ∧ isEmpty ((Pages.clear max held s.heap (k + 1)).states 0) = false) := by
  by_cases hne : s.lists k = []
  · have he : Pages.clear max held s.heap (k + 1) = s.heap := by
      unfold Pages.clear splice
      have := v.own k
      rw [hne] at this
      rw [canLock_of (by omega), if_neg (by decide), own_empty this, if_pos rfl]
    rw [he, hne]
    refine ⟨?_, rfl, fun h => absurd rfl h⟩
    have : s.upd s.heap k [] = s := by
      unfold LSt.upd
      congr
      funext j
      split
      · rename_i e; rw [e, hne]
      · rfl
    rw [this]
    exact v
  · have hg' := hg.resolve_right hne
    have hch : Chain s.heap fs := by
      cases v.free with
      | empty e => rw [e] at hg'; cases hg'
      | chain c => exact c
    obtain ⟨c1, c2, c3, c4, c5, c6, c7⟩ := clear_spec (max := max) (held := held) hm (by omega) hch.bare (v.own k) (v.notFree k) hne
    generalize Pages.clear max held s.heap (k + 1) = g at *
    have hmem : ∀ q, q ∈ (s.lists k).reverse ++ fs ↔ q ∈ s.lists k ∨ q ∈ fs := by intro q; simp
    have hsub : ∀ j q, q ∈ (s.upd g k []).lists j → q ∈ s.lists j ∧ j ≠ k := by
      intro j q hq
      by_cases hj : j = k
      · subst hj; rw [LSt.upd_same] at hq; simp at hq
      · rw [LSt.upd_ne _ _ _ hj] at hq; exact ⟨hq, hj⟩
    refine ⟨⟨.chain c1, ?_, ?_, ?_, ?_, ?_, ?_, ?_⟩, c6, fun _ => ⟨c3, isEmpty_false c1.front ?_⟩⟩
    · intro j
      by_cases hj : j = k
      · subst hj; rw [LSt.upd_same]; exact c2
      · rw [LSt.upd_ne _ _ _ hj]
        exact own_congr (v.own j) (c4 _ (by omega) (by omega)) (fun q hq => SameLinks.of_eq (c5 q (v.disj j k hj q hq) (v.notFree j q hq)))
    · intro j j' hjj q hq hq'
      exact v.disj j j' hjj q (hsub j q hq).1 (hsub j' q hq').1
    · intro j q hq hx
      have h1 := hsub j q hq
      rcases (hmem q).1 hx with h | h
      · exact v.disj j k h1.2 q h1.1 h
      · exact v.notFree j q h1.1 h
    · intro j q hq
      show 2 ≤ q ∧ q < g.len
      rw [c6]; exact v.range j q (hsub j q hq).1
    · intro q hq
      show 2 ≤ q ∧ q < g.len
      rw [c6]
      rcases (hmem q).1 hq with h | h
      · exact v.range k q h
      · exact v.frange q h
    · show 2 ≤ g.len; rw [c6]; exact v.len
    · exact c7.trans v.bad
    · rw [c3]; exact (v.own k).nn _ (getLastD_mem hne)

theorem lInv_krun {max limit : Nat} (hlim : limit ≤ nil) : ∀ (os : List (KOp α)) {s : LSt α} {fs : List Nat}, (∀ o ∈ os, o.held.length + 4 < max) →
    GoodClears max limit s os = true → s.heap.len ≤ limit → LInv s fs → ∃ fs', LInv (s.krun max limit os) fs' ∧ (s.krun max limit os).heap.len ≤ limit := by
  intro os
  induction os with
  | nil => intro s fs _ _ hl v; exact ⟨fs, v, hl⟩
  | cons o os ih =>
    intro s fs hm hg hl v
    have hmo := hm o (by simp)
    cases o with
    | op o =>
      obtain ⟨fs', v', hl'⟩ := lInv_step hmo hlim hl v
      exact ih (fun o ho => hm o (by simp [ho])) hg hl' v'
    | clear held k =>
      simp only [KOp.held] at hmo
      simp only [GoodClears, Bool.and_eq_true, Bool.or_eq_true, Bool.not_eq_true', List.isEmpty_iff] at hg
      obtain ⟨v', hl', _⟩ := lInv_clear (max := max) (held := held) (by omega) v hg.1
      exact ih (fun o ho => hm o (by simp [ho])) hg.2 (by show (Pages.clear max held s.heap (k + 1)).len ≤ limit; rw [hl']; exact hl) v'

/-- C28, the part that holds: if some page is free whenever a list of pages is cleared, then in any history
of insertions, erasures, writes to pages and clearings, on any number of lists, a list is empty after it was
cleared, the other lists are as before, the page handed out next is the last one of the cleared list, no
page ever belongs to two lists, and each list always reads as it should. -/
theorem C28_clear_partial (x : α) {max limit : Nat} (hlim : limit ≤ nil) (h2 : 2 ≤ limit) (os : List (KOp α))
    (hm : ∀ o ∈ os, o.held.length + 4 < max) (hg : GoodClears max limit ⟨Heap.init x, fun _ => []⟩ os = true) (held : List Nat) (hheld : held.length + 4 < max) :
    let s := LSt.krun max limit ⟨Heap.init x, fun _ => []⟩ os
    (∀ k, (∀ n, (hn : n < (s.lists k).length) → lwalk max held s.heap (k + 1) n = ⟨(s.lists k)[n], .none⟩) ∧
      lwalk max held s.heap (k + 1) (s.lists k).length = lend ∧ (s.lists k).Nodup ∧ (∀ j, j ≠ k → ∀ p ∈ s.lists k, p ∉ s.lists j)) ∧ s.heap.bad = false ∧
    ∀ k, isEmpty (s.heap.states 0) = false →
      let g := clear max held s.heap (k + 1)
      isEmpty (g.states (k + 1)) = true ∧ lbegin (g.states (k + 1)) = lend ∧
      (∀ j, j ≠ k → ∀ n, (hn : n < (s.lists j).length) → lwalk max held g (j + 1) n = ⟨(s.lists j)[n], .none⟩) ∧
      (s.lists k ≠ [] → (allocPage max limit held g).2 = (s.lists k).getLastD nil) := by
  obtain ⟨fs, v, _⟩ := lInv_krun (max := max) hlim os (s := ⟨Heap.init x, fun _ => []⟩) hm hg h2 (lInv_init x)
  simp only
  generalize LSt.krun max limit ⟨Heap.init x, fun _ => []⟩ os = s at *
  refine ⟨?_, v.bad, ?_⟩
  · intro k
    have f := linked_facts (max := max) (held := held) v (by omega) k
    exact ⟨fun n hn => (f.1 n hn).1, f.2.1, f.2.2.2.2.2.2.2.1, f.2.2.2.2.2.2.2.2.1⟩
  · intro k hk
    obtain ⟨v', _, hb⟩ := lInv_clear (max := max) (held := held) (k := k) (by omega) v (Or.inl hk)
    have f := linked_facts (max := max) (held := held) v' (by omega)
    refine ⟨(f k).2.2.2.2.2.2.1.2 (LSt.upd_same _ _ _ _), ?_, ?_, ?_⟩
    · have := (f k).2.1
      rw [LSt.upd_same] at this
      exact this
    · intro j hj n hn
      have := (f j).1 n (by rw [LSt.upd_ne _ _ _ hj]; exact hn)
      simp only [LSt.upd_ne _ _ _ hj] at this
      exact this.1
    · intro hne
      obtain ⟨b1, b2⟩ := hb hne
      obtain ⟨r, fs', e', hn, _⟩ := popFree_spec (max := max) (held := held) hheld v'.free.ok b2
      have hch : Chain (clear max held s.heap (k + 1)) ((s.lists k).reverse ++ fs) := by
        have hf := v'.free
        generalize (s.lists k).reverse ++ fs = l at hf
        cases hf with
        | empty e => rw [show (s.upd (clear max held s.heap (k + 1)) k []).heap = clear max held s.heap (k + 1) from rfl, b2] at e; cases e
        | chain c => exact c
      obtain ⟨r2, e2, _⟩ := chain_cons hch
      have := (List.cons.inj (e'.symm.trans e2)).1
      rw [show (s.upd (clear max held s.heap (k + 1)) k []).heap = clear max held s.heap (k + 1) from rfl] at hn this
      unfold allocPage
      simp only
      rw [if_neg hn]
      exact this.trans b1

/-- A history with two clearings of lists of two pages, reuse of the pages and a third clearing. -/
def clearOps : List (KOp Nat) :=
  [.op (.insert [] 0 0), .op (.insert [] 0 0), .op (.insert [] 0 1), .op (.insert [] 1 0), .op (.insert [] 1 0), .op (.erase [] 0 1), .clear [] 0, .op (.insert [] 0 0), .clear [] 1]

example : (LSt.krun 9 100 ⟨Heap.init 0, fun _ => []⟩ clearOps).lists 0 = [2] ∧ GoodClears 9 100 ⟨Heap.init 0, fun _ => []⟩ clearOps = true := by
  decide +kernel

/-- The whole claim of C28 about a container: it is empty after `clear`. -/
def C28Full : Prop := ∀ (cap : Nat) (os : List (COp Nat)), 2 ≤ cap → cap < nilItem → (∀ o ∈ os, o.held = []) →
  Reads 16 (clear 16 [] ((CSt.init 0).run (fun _ => listCfg cap true) os).heap 1) 0 []

/-- In a new pool the list of free pages is empty: `clear` of a list of one item leaves its size. -/
theorem C28_violated : ¬ C28Full := by
  intro h
  have := (h 4 [.push 0 [] 7] (by decide) (by decide) (by intro o ho; simp at ho; subst ho; rfl)).size
  revert this
  decide

def sizeOps : List (COp Nat) := [.push 0 [] 1, .push 0 [] 2, .push 0 [] 3, .push 1 [] 4, .push 1 [] 5, .push 1 [] 6, .push 1 [] 7, .pop 0 []]

/-- The size is kept also if there is a free page, where the pages are taken away: the list has no items
but size 4. -/
theorem C28_violated_size : let s := (CSt.init 0).run (fun _ => listCfg 2 true) sizeOps
    let g := clear 16 [] s.heap 2
    isEmpty (s.heap.states 0) = false ∧ s.lists 1 = [4, 5, 6, 7] ∧ isEmpty (g.states 2) = true ∧ (g.states 2).total = 4 := by
  decide +kernel

/-- Without a free page the list keeps its pages although they are free as well: the next item that is
pushed to another container is read from the list that was cleared, in place of its own items. -/
theorem C28_violated_alias : let s := (CSt.init 0).run (fun _ => listCfg 4 true) [.push 0 [] 5, .push 0 [] 6]
    let g := clear 16 [] s.heap 1
    cwalk 16 [] g 1 10 (cbegin (g.states 1)) = [some 5, some 6] ∧
    (insert2 (listCfg 4 true) [] g 2 (cend (g.states 2)) 7).isSome = true ∧
    ∀ r ∈ insert2 (listCfg 4 true) [] g 2 (cend (g.states 2)) 7, cwalk 16 [] r.heap 1 10 (cbegin (r.heap.states 1)) = [some 7] ∧
      cwalk 16 [] r.heap 2 10 (cbegin (r.heap.states 2)) = [some 7] := by
  decide +kernel

/-! ## C44: stopping in the middle -/

/-- The file if the process stops in an insertion into a full page after `alloc_page` has returned,
`src/x/vmem_container.x.h` 601-606. -/
def crashAfterAlloc (c : Cfg) (held : List Nat) (h : Heap α) : Heap α := (allocPage c.max c.limit held h).1

/-- The file if the process stops after `insert_page_after` has linked the new page and set its number of
items to 0, `src/x/vmem_container.x.h` 598-650, before an item is written to it (513-527). -/
def crashAfterPage (c : Cfg) (held : List Nat) (h : Heap α) (sid : Nat) (i : Itr) : Heap α := (insertPageAfter c held h sid i.page).1

/-- The file if the process stops after `insert_nostate` has written the item, before the state is updated,
`src/x/vmem_container.x.h` 338-345. -/
def crashAfterItem (c : Cfg) (held : List Nat) (h : Heap α) (sid : Nat) (i : Itr) (x : α) : Heap α := (cinsertNostate c held h sid i x).heap

/-- Some of the states of the file between the first and the last write of an insertion at `i`. -/
def crashPoints (c : Cfg) (held : List Nat) (h : Heap α) (sid : Nat) (i : Itr) (x : α) : List (Heap α) :=
  if (h.pages i.page).count = c.cap then
    [crashAfterAlloc c (i.page :: held) h, crashAfterPage c (i.page :: held) h sid i, crashAfterItem c held h sid i x]
  else [crashAfterItem c held h sid i x]

/-- The whole claim of C44 for an insertion at the end: wherever the process stops, the list is the old or
the new one. -/
def C44Full : Prop := ∀ (cap : Nat) (os : List (COp Nat)) (x : Nat), 2 ≤ cap → cap < nilItem → (∀ o ∈ os, o.held = []) →
  let s := (CSt.init 0).run (fun _ => listCfg cap true) os
  ∀ i, i = cend (s.heap.states 1) → s.lists 0 ≠ [] → ∀ g ∈ crashPoints (listCfg cap true) [] s.heap 1 i x,
    Reads 16 g 0 (s.lists 0) ∨ Reads 16 g 0 (s.lists 0 ++ [x])

/-- The new page is linked with no items, and an item is read from it all the same. -/
theorem C44_violated : ¬ C44Full := by
  intro h
  have := h 2 [.push 0 [] 5, .push 0 [] 6] 7 (by decide) (by decide) (by intro o ho; simp at ho; rcases ho with rfl | rfl <;> rfl) _ rfl (by decide)
    (crashAfterPage (listCfg 2 true) [2] ((CSt.init 0).run (fun _ => listCfg 2 true) [.push 0 [] 5, .push 0 [] 6]).heap 1 ⟨2, nilItem, .fin⟩)
    (by unfold crashPoints; rw [if_pos (by decide)]; exact List.mem_cons_of_mem _ (List.mem_cons_self ..))
  rcases this with h1 | h1
  · have := h1.forward [] 2 (by decide)
    revert this
    decide
  · have := h1.forward [] 2 (by decide)
    revert this
    decide

/-- After the item was written and before the state is updated, the item is there but not counted. -/
theorem C44_violated_size : let s := (CSt.init 0).run (fun _ => listCfg 4 true) [.push 0 [] 5, .push 0 [] 6]
    let g := crashAfterItem (listCfg 4 true) [] s.heap 1 (cend (s.heap.states 1)) 7
    cwalk 16 [] g 1 10 (cbegin (g.states 1)) = [some 5, some 6, some 7] ∧ (g.states 1).total = 2 := by
  decide +kernel

/-- C44, the part that holds: after any history, if the process stops after a page was allocated and before it is
linked, all containers read as before; only the page is lost. -/
theorem C44_alloc_partial {cfg : Nat → Cfg} {max limit : Nat} (ok : CfgOk cfg max limit) (h2 : 2 ≤ limit) (x0 : α) (os : List (COp α))
    (ho : ∀ o ∈ os, o.Ok cfg max) (k : Nat) (held : List Nat) (hm : held.length + 4 < max) :
    let s := (CSt.init x0).run cfg os
    ∀ k', Reads max (crashAfterAlloc (cfg k) held s.heap) k' (s.lists k') := by
  obtain ⟨_, pss, fs, v⟩ := reachable ok h2 x0 os ho
  simp only
  generalize (CSt.init x0).run cfg os = s at *
  unfold crashAfterAlloc
  rw [ok.hmax, ok.hlimit]
  rcases alloc_spec (limit := limit) hm v.free ok.lim with ⟨h1, _⟩ | ⟨_, fs', a⟩
  · rw [h1]; exact reads_of_inv ok v
  · generalize (allocPage max limit held s.heap).1 = g at *
    generalize (allocPage max limit held s.heap).2 = p at *
    have hpnew : ∀ j, p ∉ pss j := by
      intro j hx
      rcases a.which with ⟨h1, _⟩ | ⟨h1, _⟩
      · exact v.disj j p hx h1
      · have := (v.range j p hx).2; omega
    have same : ∀ j, ∀ q ∈ pss j, g.pages q = s.heap.pages q := fun j q hq => a.pages q (v.disj j q hq) (fun e => hpnew j (e ▸ hq))
    have hlen : s.heap.len ≤ g.len := by rcases a.which with ⟨_, h2⟩ | ⟨_, h2⟩ <;> omega
    have v' : CInv cfg ⟨g, s.lists⟩ pss fs' := by
      have hl := v.len
      refine ⟨?_, a.free.ok, ?_, ?_, ?_, v.sep, ?_, ?_, ?_, a.bad.trans v.bad⟩
      · intro j
        refine ⟨own_congr (v.cont j).own (a.states _ (by omega)) (fun q hq => SameLinks.of_eq (same j q hq)), ?_⟩
        intro q hq
        show 1 ≤ (g.pages q).count ∧ _
        rw [same j q hq]; exact (v.cont j).cnt q hq
      · intro j q hq hx; exact v.disj j q hq (a.sub q hx)
      · intro j q hq
        show 2 ≤ q ∧ q < g.len
        have := v.range j q hq; omega
      · intro q hq
        show 2 ≤ q ∧ q < g.len
        have := v.frange q (a.sub q hq); omega
      · intro j
        rw [← v.items j]
        exact contents_congr (fun q hq => by show pageItems (g.pages q) = _; rw [same j q hq])
      · intro j
        show (g.states (j + 1)).total = _
        rw [a.states _ (by omega)]; exact v.total j
      · show 2 ≤ g.len; omega
    exact reads_of_inv ok v'

example : ∀ o ∈ demoOps, o.Ok (fun _ => listCfg 3 true) 16 := by
  intro o ho
  simp only [demoOps, List.mem_cons, List.not_mem_nil, or_false] at ho
  rcases ho with rfl | rfl | rfl | rfl | rfl | rfl | rfl | rfl | rfl | rfl | rfl | rfl <;> exact ok_of (by decide) (by decide)

end Abc.Vmem.Pages
