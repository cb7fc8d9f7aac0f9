import Verif.Vmem.PagesModel
import Mathlib.Data.List.Basic

/-! # The list of free pages -/

namespace Abc.Vmem.Pages

variable {α : Type}

@[simp] theorem mod_pages_same (h : Heap α) (p : Nat) (f : Page α → Page α) : (h.mod p f).pages p = f (h.pages p) := by simp [Heap.mod]
theorem mod_pages_ne (h : Heap α) {p q : Nat} (f : Page α → Page α) (hq : q ≠ p) : (h.mod p f).pages q = h.pages q := by simp [Heap.mod, hq]
theorem mod_pages (h : Heap α) (p q : Nat) (f : Page α → Page α) : (h.mod p f).pages q = if q = p then f (h.pages p) else h.pages q := rfl
@[simp] theorem mod_states (h : Heap α) (p : Nat) (f : Page α → Page α) : (h.mod p f).states = h.states := rfl
@[simp] theorem mod_len (h : Heap α) (p : Nat) (f : Page α → Page α) : (h.mod p f).len = h.len := rfl
@[simp] theorem mod_bad (h : Heap α) (p : Nat) (f : Page α → Page α) : (h.mod p f).bad = h.bad := rfl
@[simp] theorem setState_pages (h : Heap α) (s : Nat) (v : CState) : (h.setState s v).pages = h.pages := rfl
@[simp] theorem setState_len (h : Heap α) (s : Nat) (v : CState) : (h.setState s v).len = h.len := rfl
@[simp] theorem setState_bad (h : Heap α) (s : Nat) (v : CState) : (h.setState s v).bad = h.bad := rfl
@[simp] theorem setState_same (h : Heap α) (s : Nat) (v : CState) : (h.setState s v).states s = v := by simp [Heap.setState]
theorem setState_ne (h : Heap α) {s t : Nat} (v : CState) (ht : t ≠ s) : (h.setState s v).states t = h.states t := by simp [Heap.setState, ht]
@[simp] theorem check_true (h : Heap α) : h.check true = h := by simp [Heap.check]

theorem distinct_le (l : List Nat) : distinct l ≤ l.length := by
  induction l with
  | nil => exact Nat.le_refl _
  | cons a l ih => unfold distinct; split <;> simp only [List.length_cons] <;> omega

theorem canLock_of {max : Nat} {held : List Nat} {p : Nat} (h : held.length < max) : canLock max held p = true := by
  have := distinct_le held
  unfold canLock
  rw [decide_eq_true (show distinct held < max by omega)]
  simp

theorem canLock_mem {max : Nat} {held : List Nat} {p : Nat} (h : p ∈ held) : canLock max held p = true := by
  unfold canLock
  rw [decide_eq_true h]
  simp

/-- The items and counts of the pages are the same. -/
def SameData (h h' : Heap α) : Prop := ∀ q, (h'.pages q).count = (h.pages q).count ∧ (h'.pages q).items = (h.pages q).items

theorem SameData.refl (h : Heap α) : SameData h h := fun _ => ⟨rfl, rfl⟩

theorem SameData.trans {h1 h2 h3 : Heap α} (a : SameData h1 h2) (b : SameData h2 h3) : SameData h1 h3 :=
  fun q => ⟨(b q).1.trans (a q).1, (b q).2.trans (a q).2⟩

/-- A write that keeps items and counts. -/
theorem mod_sameData (h : Heap α) (p : Nat) (f : Page α → Page α) (hf : ∀ x, (f x).count = x.count ∧ (f x).items = x.items) :
    SameData h (h.mod p f) := by
  intro q
  rw [mod_pages]
  split
  · rename_i e; subst e; exact hf _
  · exact ⟨rfl, rfl⟩

/-- The list of free pages seen from the back: `p` is the page to start at.  The last page may be linked to
itself if it is the front page `f` too: such a list is left when the pages of a container are put behind a page
that was freed twice (`erasePage` and `clear`). -/
def BChain (h : Heap α) (f : Nat) : Nat → List Nat → Prop
  | p, [] => p = nil
  | p, b :: r => p = b ∧ b ≠ nil ∧ (h.pages b).pos = b ∧ (BChain h f (h.pages b).prev r ∨ r = [] ∧ (h.pages b).prev = b ∧ f = b)

theorem bchain_congr {h h' : Heap α} {f : Nat} {fs : List Nat} : ∀ {p : Nat}, BChain h f p fs →
    (∀ q ∈ fs, (h'.pages q).pos = (h.pages q).pos ∧ (h'.pages q).prev = (h.pages q).prev) → BChain h' f p fs := by
  induction fs with
  | nil => intro p h1 _; exact h1
  | cons b r ih =>
    intro p h1 h2
    obtain ⟨e, hb, hp, hr⟩ := h1
    refine ⟨e, hb, ((h2 b (by simp)).1).trans hp, ?_⟩
    rw [(h2 b (by simp)).2]
    rcases hr with hr | hr
    · exact Or.inl (ih hr (fun q hq => h2 q (by simp [hq])))
    · exact Or.inr hr

/-- The list of free pages is a proper list with the pages `fs`, from the back. -/
structure Chain (h : Heap α) (fs : List Nat) : Prop where
  front : (h.states 0).front ≠ nil
  ne : fs ≠ []
  links : BChain h (h.states 0).front (h.states 0).back fs
  next : (h.pages (h.states 0).back).next = nil
  nodup : fs.Nodup

/-- The list of free pages ends in one page that is linked to itself. -/
structure Loop (h : Heap α) (p : Nat) : Prop where
  front : (h.states 0).front ≠ nil
  back : (h.states 0).back = p
  nn : p ≠ nil
  pos : (h.pages p).pos = p
  prev : (h.pages p).prev = p
  next : (h.pages p).next = p

/-- The pages that can be obtained from the list of free pages without making any other page free. -/
inductive FreeOk (h : Heap α) : List Nat → Prop
  | empty : isEmpty (h.states 0) = true → FreeOk h []
  | chain {fs} : Chain h fs → FreeOk h fs
  | loop {p} : Loop h p → FreeOk h [p]

/-- A proper or empty list of free pages. -/
inductive FreeList (h : Heap α) : List Nat → Prop
  | empty : isEmpty (h.states 0) = true → FreeList h []
  | chain {fs} : Chain h fs → FreeList h fs

theorem FreeList.ok {h : Heap α} {fs : List Nat} (hf : FreeList h fs) : FreeOk h fs := by
  cases hf with
  | empty h => exact .empty h
  | chain h => exact .chain h

theorem FreeOk.nodup {h : Heap α} {fs : List Nat} (hf : FreeOk h fs) : fs.Nodup := by
  cases hf with
  | empty _ => exact List.nodup_nil
  | chain h => exact h.nodup
  | loop _ => simp

theorem chain_cons {h : Heap α} {fs : List Nat} (c : Chain h fs) : ∃ r, fs = (h.states 0).back :: r ∧ (h.states 0).back ≠ nil ∧
    (h.pages (h.states 0).back).pos = (h.states 0).back ∧ (BChain h (h.states 0).front (h.pages (h.states 0).back).prev r ∨
      r = [] ∧ (h.pages (h.states 0).back).prev = (h.states 0).back ∧ (h.states 0).front = (h.states 0).back) := by
  cases hfs : fs with
  | nil => exact absurd hfs c.ne
  | cons b r =>
    have := c.links
    rw [hfs] at this
    obtain ⟨e, hb, hp, hr⟩ := this
    rw [e]
    exact ⟨r, rfl, hb, hp, hr⟩

theorem isEmpty_false {s : CState} (h1 : s.front ≠ nil) (h2 : s.back ≠ nil) : isEmpty s = false := by
  simp [isEmpty, h1, h2]

theorem isEmpty_true {s : CState} (h : s.front = nil ∨ s.back = nil) : isEmpty s = true := by
  unfold isEmpty
  rcases h with h | h <;> simp [h]

theorem freeOk_congr {h h' : Heap α} {fs : List Nat} (hf : FreeOk h fs) (hs : h'.states 0 = h.states 0)
    (hp : ∀ q ∈ fs, (h'.pages q).pos = (h.pages q).pos ∧ (h'.pages q).prev = (h.pages q).prev ∧ (h'.pages q).next = (h.pages q).next) :
    FreeOk h' fs := by
  cases hf with
  | empty e => exact .empty (by rw [hs]; exact e)
  | chain c =>
    obtain ⟨r, e, _⟩ := chain_cons c
    have hm : (h.states 0).back ∈ fs := by rw [e]; simp
    refine .chain ⟨by rw [hs]; exact c.front, c.ne, ?_, ?_, c.nodup⟩
    · rw [hs]; exact bchain_congr c.links (fun q hq => ⟨(hp q hq).1, (hp q hq).2.1⟩)
    · rw [hs, (hp _ hm).2.2]; exact c.next
  | loop l =>
    obtain ⟨a, b, d⟩ := hp _ (List.mem_singleton.2 rfl)
    exact .loop ⟨by rw [hs]; exact l.front, by rw [hs]; exact l.back, l.nn, a.trans l.pos, b.trans l.prev, d.trans l.next⟩

/-! ## `free_page` -/

/-- What `insert_nostate` at the end does, with enough room to lock pages. -/
theorem insertNostate_end {max : Nat} {held : List Nat} (h : Heap α) (sid p back : Nat) (hm : held.length + 1 < max) :
    insertNostate max held h sid nil p back =
      if isEmpty (h.states sid) then (initLinks h p, true) else (linkBack (initLinks h p) p back, true) := by
  unfold insertNostate
  rw [canLock_of (by omega), if_neg (by decide)]
  split
  · rfl
  · rw [if_pos rfl, canLock_of (by rw [List.length_cons]; omega), if_neg (by decide)]

/-- `push_free_page_pos` with enough room. -/
theorem pushFree_eq {max : Nat} {held : List Nat} (h : Heap α) (p : Nat) (hm : held.length + 2 < max) :
    pushFree max held h p =
      (if isEmpty (h.states 0) then initLinks h p else linkBack (initLinks h p) p (h.states 0).back).setState 0
        ⟨if (h.states 0).front = nil then p else (h.states 0).front, p, (h.states 0).total⟩ := by
  unfold pushFree
  rw [canLock_of (by omega), if_neg (by decide)]
  unfold linsert
  dsimp only
  rw [show lend.page = nil from rfl, insertNostate_end h 0 p _ (by rw [List.length_cons]; omega)]
  have key : ∀ (g : Heap α), g.states = h.states → g.setState 0 (insertState (g.states 0) lend p) =
      g.setState 0 ⟨if (h.states 0).front = nil then p else (h.states 0).front, p, (h.states 0).total⟩ := by
    intro g hg
    rw [hg]
    unfold insertState lend
    by_cases hf : (h.states 0).front = nil <;> simp [hf]
  split
  · simp only [if_true]
    exact key _ rfl
  · simp only [if_true]
    exact key _ rfl

theorem initLinks_pages (h : Heap α) (p q : Nat) : (initLinks h p).pages q =
    if q = p then { h.pages p with pos := p, prev := nil, next := nil } else h.pages q := rfl

theorem initLinks_sameData (h : Heap α) (p : Nat) : SameData h (initLinks h p) := mod_sameData _ _ _ (fun _ => ⟨rfl, rfl⟩)

theorem linkBack_sameData (h : Heap α) (p b : Nat) : SameData h (linkBack h p b) := by
  unfold linkBack
  refine SameData.trans (mod_sameData h b _ ?_) (mod_sameData _ p _ ?_)
  · intro x; exact ⟨rfl, rfl⟩
  · intro x; exact ⟨rfl, rfl⟩

theorem linkBack_ne {h : Heap α} {p b q : Nat} (h1 : q ≠ p) (h2 : q ≠ b) : (linkBack h p b).pages q = h.pages q := by
  unfold linkBack
  rw [mod_pages_ne _ _ h1, mod_pages_ne _ _ h2]

/-- What changes when a page is freed. -/
structure FreeFrame (h h' : Heap α) (p : Nat) (fs : List Nat) : Prop where
  data : SameData h h'
  pages : ∀ q, q ≠ p → q ∉ fs → h'.pages q = h.pages q
  states : ∀ t, t ≠ 0 → h'.states t = h.states t
  len : h'.len = h.len
  bad : h'.bad = h.bad

theorem freeFrame_trans {h h1 h2 : Heap α} {p : Nat} {fs fs' : List Nat} (a : FreeFrame h h1 p fs) (b : FreeFrame h1 h2 p fs')
    (hs : ∀ q ∈ fs', q = p ∨ q ∈ fs) : FreeFrame h h2 p fs :=
  ⟨a.data.trans b.data, fun q h1 h2 => (b.pages q h1 (fun hm => (hs q hm).elim h1 h2)).trans (a.pages q h1 h2),
    fun t ht => (b.states t ht).trans (a.states t ht), b.len.trans a.len, b.bad.trans a.bad⟩

/-- The back page is one of the free pages if there are any. -/
theorem back_mem {h : Heap α} {fs : List Nat} (hf : FreeOk h fs) (he : isEmpty (h.states 0) = false) : (h.states 0).back ∈ fs := by
  cases hf with
  | empty e => rw [e] at he; cases he
  | chain c => obtain ⟨r, e, _⟩ := chain_cons c; rw [e]; simp
  | loop l => rw [l.back]; simp

theorem pushFree_frame {max : Nat} {held : List Nat} {h : Heap α} {fs : List Nat} {p : Nat} (hm : held.length + 2 < max)
    (hb : isEmpty (h.states 0) = false → (h.states 0).back = p ∨ (h.states 0).back ∈ fs) : FreeFrame h (pushFree max held h p) p fs := by
  rw [pushFree_eq h p hm]
  split
  · rename_i he
    exact ⟨initLinks_sameData h p, fun q hq _ => by rw [setState_pages, initLinks_pages, if_neg hq],
      fun t ht => setState_ne _ _ ht, rfl, rfl⟩
  · rename_i he
    have hb' := hb (by simpa using he)
    refine ⟨(initLinks_sameData h p).trans (linkBack_sameData _ _ _), fun q h1 h2 => ?_, fun t ht => setState_ne _ _ ht, rfl, rfl⟩
    rw [setState_pages, linkBack_ne h1, initLinks_pages, if_neg h1]
    intro e
    rcases hb' with hb' | hb'
    · exact h1 (e.trans hb')
    · exact h2 (e ▸ hb')

/-- Freeing a page puts it in front of the pages that will be reused. -/
theorem pushFree_list {max : Nat} {held : List Nat} {h : Heap α} {fs : List Nat} {p : Nat} (hm : held.length + 2 < max)
    (hf : FreeList h fs) (hp : p ≠ nil) (hn : p ∉ fs) : FreeList (pushFree max held h p) (p :: fs) := by
  have hfront : ∀ g : Heap α, ((g.setState 0 ⟨if (h.states 0).front = nil then p else (h.states 0).front, p, (h.states 0).total⟩).states 0).front ≠ nil := by
    intro g
    rw [setState_same]
    simp only
    split
    · exact hp
    · assumption
  rw [pushFree_eq h p hm]
  cases hf with
  | empty e =>
    rw [if_pos e]
    refine .chain ⟨hfront _, by simp, ?_, ?_, by simp⟩
    · rw [setState_same]
      refine ⟨rfl, hp, ?_, ?_⟩
      · rw [setState_pages, initLinks_pages, if_pos rfl]
      · rw [setState_pages, initLinks_pages, if_pos rfl]; exact Or.inl rfl
    · rw [setState_same, setState_pages, initLinks_pages, if_pos rfl]
  | chain c =>
    obtain ⟨r, e, hb, hpos, hr⟩ := chain_cons c
    rw [isEmpty_false c.front hb, if_neg (by decide)]
    have hbp : (h.states 0).back ≠ p := by
      intro e'; exact hn (by rw [e, e']; simp)
    generalize hbk : (h.states 0).back = b at *
    have pp : ∀ q, q ≠ p → ((linkBack (initLinks h p) p b).pages q).pos = (h.pages q).pos ∧
        ((linkBack (initLinks h p) p b).pages q).prev = (h.pages q).prev := by
      intro q hq
      unfold linkBack
      rw [mod_pages_ne _ _ hq, mod_pages]
      split
      · rename_i e'; subst e'; rw [initLinks_pages, if_neg hq]; exact ⟨rfl, rfl⟩
      · rw [initLinks_pages, if_neg hq]; exact ⟨rfl, rfl⟩
    have ppp : (linkBack (initLinks h p) p b).pages p = { h.pages p with pos := p, prev := b, next := nil } := by
      unfold linkBack
      rw [mod_pages_same, mod_pages_ne _ _ hbp.symm, initLinks_pages, if_pos rfl]
    refine .chain ⟨hfront _, by simp, ?_, ?_, List.nodup_cons.2 ⟨hn, c.nodup⟩⟩
    · rw [setState_same]
      refine ⟨rfl, hp, ?_, ?_⟩
      · rw [setState_pages, ppp]
      · rw [setState_pages, ppp]
        have := c.links
        rw [hbk] at this
        simp only [if_neg c.front]
        exact Or.inl (bchain_congr this (fun q hq => pp q (by intro e'; exact hn (e' ▸ hq))))
    · rw [setState_same, setState_pages, ppp]

/-- Freeing a page again leaves it linked to itself. -/
theorem pushFree_again {max : Nat} {held : List Nat} {g : Heap α} {p : Nat} (hm : held.length + 2 < max) (hp : p ≠ nil)
    (hf : (g.states 0).front ≠ nil) (hb : (g.states 0).back = p) : Loop (pushFree max held g p) p := by
  rw [pushFree_eq _ p hm, isEmpty_false hf (by rw [hb]; exact hp), if_neg (by decide), hb]
  have ppp : (linkBack (initLinks g p) p p).pages p = { g.pages p with pos := p, prev := p, next := p } := by
    unfold linkBack
    rw [mod_pages_same, mod_pages_same, initLinks_pages, if_pos rfl]
  refine ⟨?_, ?_, hp, ?_, ?_, ?_⟩
  · rw [setState_same]; simp only; rw [if_neg hf]; exact hf
  · rw [setState_same]
  · rw [setState_pages, ppp]
  · rw [setState_pages, ppp]
  · rw [setState_pages, ppp]

theorem freePage_eq {max : Nat} {held : List Nat} {h : Heap α} {p : Nat} (hp : p ≠ nil) : freePage max held h p = pushFree max held h p := by
  unfold freePage; rw [if_neg hp]

/-! ## `alloc_page` -/

/-- `pop_free_page_pos` with enough room, when there is a back page. -/
theorem popFree_some {max : Nat} {held : List Nat} {h : Heap α} (hm : held.length + 4 < max) (he : isEmpty (h.states 0) = false) :
    popFree max held h = ((lerase max (0 :: held) h 0 (h.states 0).back).1, (h.pages (h.states 0).back).pos) := by
  unfold popFree
  rw [canLock_of (by omega), if_neg (by decide), he, if_neg (by decide), canLock_of (by rw [List.length_cons]; omega), if_neg (by decide)]

theorem unlinkPrev_eq {max : Nat} {held : List Nat} {h : Heap α} {p : Nat} (hm : held.length < max) :
    unlinkPrev max held h p = (if (h.pages p).prev = nil then h else h.mod (h.pages p).prev (fun x => { x with next := (h.pages p).next }), true) := by
  unfold unlinkPrev
  split
  · rfl
  · rw [canLock_of hm, if_neg (by decide)]

theorem unlinkNext_eq {max : Nat} {held : List Nat} {h : Heap α} {p : Nat} (hm : held.length < max) :
    unlinkNext max held h p = (if (h.pages p).next = nil then h else h.mod (h.pages p).next (fun x => { x with prev := (h.pages p).prev }), true) := by
  unfold unlinkNext
  split
  · rfl
  · rw [canLock_of hm, if_neg (by decide)]

/-- `erase_nostate` with enough room. -/
theorem eraseNostate_eq {max : Nat} {held : List Nat} {h : Heap α} {p : Nat} (hm : held.length + 1 < max) (hp : p ≠ nil) :
    eraseNostate max held h p =
      (pushFree max held (unlinkNext max (p :: held) (unlinkPrev max (p :: held) h p).1 p).1 p, true,
        exportedBack (unlinkPrev max (p :: held) h p).1 p) := by
  unfold eraseNostate
  rw [canLock_of (by omega), if_neg (by decide)]
  simp only
  have e1 : (unlinkPrev max (p :: held) h p).2 = true := by rw [unlinkPrev_eq (by rw [List.length_cons]; omega)]
  have e2 : ∀ g : Heap α, (unlinkNext max (p :: held) g p).2 = true := by intro g; rw [unlinkNext_eq (by rw [List.length_cons]; omega)]
  rw [e1, if_neg (by decide), e2, if_neg (by decide), freePage_eq hp]

theorem lrend_eq {s : CState} (h : s.back ≠ nil) : lrend s = ⟨s.back, .none⟩ := by unfold lrend; rw [if_neg h]

/-- `next` of the back page is the end. -/
theorem lnext_back {max : Nat} {held : List Nat} {h : Heap α} {sid : Nat} (hb : (h.states sid).back ≠ nil) :
    lnext max held h sid ⟨(h.states sid).back, .none⟩ = lend := by
  unfold lnext
  rw [lrend_eq hb]
  by_cases h1 : (⟨(h.states sid).back, .none⟩ : LItr) = lend
  · rw [if_pos h1]
  · rw [if_neg h1, if_neg (by unfold lrbegin; intro e; exact absurd (congrArg LItr.edge e) (by simp)), if_pos rfl]

/-- What changes when a page is taken from the list of free pages. -/
structure PopFrame (h h' : Heap α) (fs : List Nat) : Prop where
  data : SameData h h'
  pages : ∀ q, q ∉ fs → h'.pages q = h.pages q
  states : ∀ t, t ≠ 0 → h'.states t = h.states t
  len : h'.len = h.len
  bad : h'.bad = h.bad

/-- Taking a page from a list of free pages that is not empty. -/
theorem popFree_spec {max : Nat} {held : List Nat} {h : Heap α} {fs : List Nat} (hm : held.length + 4 < max) (hf : FreeOk h fs)
    (he : isEmpty (h.states 0) = false) :
    ∃ r fs', fs = (popFree max held h).2 :: r ∧ (popFree max held h).2 ≠ nil ∧ (fs' = r ∨ fs' = []) ∧
      FreeList (popFree max held h).1 fs' ∧ PopFrame h (popFree max held h).1 fs ∧
      ((h.states 0).front ≠ (h.states 0).back ∨ r = [] → fs' = r ∧
        ((popFree max held h).1.states 0).front = if (h.states 0).front = (h.states 0).back then nil else (h.states 0).front) := by
  have hl1 : (0 :: held).length + 1 < max := by rw [List.length_cons]; omega
  rw [popFree_some hm he]
  cases hf with
  | empty e => rw [e] at he; cases he
  | chain c =>
    obtain ⟨r, e, hb, hpos, hr⟩ := chain_cons c
    have hnd := c.nodup
    have hnx := c.next
    generalize hbk : (h.states 0).back = b at *
    have hl : lnext max (0 :: held) h 0 ⟨b, .none⟩ = lend := by
      have := lnext_back (max := max) (held := 0 :: held) (h := h) (sid := 0) (by rw [hbk]; exact hb)
      rw [hbk] at this; exact this
    unfold lerase
    rw [hl, eraseNostate_eq hl1 hb]
    simp only [if_true, lend]
    rw [unlinkPrev_eq (by rw [List.length_cons]; exact hl1)]
    simp only
    -- the heap after unlinking the previous page
    generalize hg : (if (h.pages b).prev = nil then h else h.mod (h.pages b).prev (fun x => { x with next := (h.pages b).next })) = g
    have hbr : b ∉ r := by rw [e] at hnd; exact (List.nodup_cons.1 hnd).1
    have hprev : (h.pages b).prev = nil ∨ (∃ b2 r2, r = b2 :: r2 ∧ (h.pages b).prev = b2 ∧ b2 ≠ nil) ∨
        r = [] ∧ (h.pages b).prev = b ∧ (h.states 0).front = b := by
      rcases hr with hr | hr
      · cases r with
        | nil => exact Or.inl hr
        | cons b2 r2 => exact Or.inr (Or.inl ⟨b2, r2, rfl, hr.1, hr.2.1⟩)
      · exact Or.inr (Or.inr hr)
    have hgb : g.pages b = h.pages b := by
      rw [← hg]
      rcases hprev with hp | ⟨b2, r2, e2, hp, hn⟩ | ⟨_, hp, _⟩
      · rw [if_pos hp]
      · rw [hp, if_neg hn, mod_pages_ne]
        intro e'; rw [e2, e'] at hbr; simp at hbr
      · rw [hp, if_neg hb, mod_pages_same]
    have hgs : g.states = h.states := by rw [← hg]; split <;> rfl
    have hgl : g.len = h.len := by rw [← hg]; split <;> rfl
    have hgbad : g.bad = h.bad := by rw [← hg]; split <;> rfl
    have hgd : SameData h g := by
      rw [← hg]; split
      · exact SameData.refl h
      · exact mod_sameData _ _ _ (fun _ => ⟨rfl, rfl⟩)
    have hgp : ∀ q, q ∉ fs → g.pages q = h.pages q := by
      intro q hq
      rw [← hg]
      rcases hprev with hp | ⟨b2, r2, e2, hp, hn⟩ | ⟨_, hp, _⟩
      · rw [if_pos hp]
      · rw [hp, if_neg hn, mod_pages_ne]
        intro e'; apply hq; rw [e, e2, e']; simp
      · rw [hp, if_neg hb, mod_pages_ne]
        intro e'; apply hq; rw [e, e']; simp
    have hgpp : ∀ q, (g.pages q).pos = (h.pages q).pos ∧ (g.pages q).prev = (h.pages q).prev := by
      intro q
      rw [← hg]
      split
      · exact ⟨rfl, rfl⟩
      · rw [mod_pages]; split
        · rename_i e'; subst e'; exact ⟨rfl, rfl⟩
        · exact ⟨rfl, rfl⟩
    have hu : (unlinkNext max (b :: 0 :: held) g b).1 = g := by
      rw [unlinkNext_eq (by rw [List.length_cons]; exact hl1), hgb]
      simp only
      rw [if_pos hnx]
    rw [hu]
    have hex : exportedBack g b = (h.pages b).prev := by
      unfold exportedBack; rw [hgb, if_pos hnx]
    rw [hex]
    have hpush := pushFree_eq (max := max) (held := 0 :: held) g b (by rw [List.length_cons]; omega)
    have hframe : FreeFrame g (pushFree max (0 :: held) g b) b fs := by
      apply pushFree_frame (by rw [List.length_cons]; omega)
      intro _
      left; rw [hgs]; exact hbk
    -- pages of the rest of the list are not touched by the push
    have hp0 : ∀ q, q ≠ b → (pushFree max (0 :: held) g b).pages q = g.pages q := by
      intro q hq
      rw [hpush, setState_pages]
      split
      · rw [initLinks_pages, if_neg hq]
      · rw [hgs, hbk, linkBack_ne hq hq, initLinks_pages, if_neg hq]
    have hst : (pushFree max (0 :: held) g b).states 0 = ⟨if (h.states 0).front = nil then b else (h.states 0).front, b, (h.states 0).total⟩ := by
      rw [hpush, setState_same, hgs]
    have hfr : (h.states 0).front ≠ nil := c.front
    rw [if_neg hfr] at hst
    have heS : eraseState ((pushFree max (0 :: held) g b).states 0) b nil (h.pages b).prev =
        ⟨if (h.states 0).front = b then nil else (h.states 0).front, (h.pages b).prev, (h.states 0).total⟩ := by
      rw [hst]
      simp [eraseState]
    rw [heS]
    -- the new list
    have hfin : ∀ v : CState, PopFrame h ((pushFree max (0 :: held) g b).setState 0 v) fs := by
      intro v
      refine ⟨hgd.trans hframe.data, ?_, ?_, ?_, ?_⟩
      · intro q hq
        have hqb : q ≠ b := by intro e'; apply hq; rw [e, e']; simp
        rw [setState_pages, hframe.pages q hqb hq, hgp q hq]
      · intro t ht; rw [setState_ne _ _ ht, hframe.states t ht, hgs]
      · rw [setState_len, hframe.len, hgl]
      · rw [setState_bad, hframe.bad, hgbad]
    have hchain : ∀ b2 r2, r = b2 :: r2 → ∀ v : CState, v.front = (h.states 0).front → v.back = (h.pages b).prev →
        FreeList ((pushFree max (0 :: held) g b).setState 0 v) r := by
      intro b2 r2 e2 v hv1 hv2
      have hr := hr.resolve_right (fun hx => by rw [e2] at hx; exact absurd hx.1 (by simp))
      rcases hprev with hp | ⟨b3, r3, e3, hp, hn⟩ | ⟨h0, _⟩
      · rw [e2] at hr; exact absurd (hp ▸ hr.1).symm hr.2.1
      · have hb23 : b2 = b3 := by rw [e2] at e3; exact (List.cons.inj e3).1
        subst hb23
        have hb2b : b2 ≠ b := by intro e'; rw [e2, e'] at hbr; simp at hbr
        refine .chain ⟨?_, by rw [e2]; simp, ?_, ?_, ?_⟩
        · rw [setState_same, hv1]; exact hfr
        · rw [setState_same, hv1, hv2]
          apply bchain_congr hr
          intro q hq
          have hqb : q ≠ b := by intro e'; rw [e'] at hq; exact hbr hq
          rw [setState_pages, hp0 q hqb]
          exact hgpp q
        · rw [setState_same, hv2, hp, setState_pages, hp0 _ hb2b, ← hg, hp, if_neg hn, mod_pages_same]
          exact hnx
        · rw [e] at hnd; exact (List.nodup_cons.1 hnd).2
      · rw [e2] at h0; cases h0
    have hposb : (h.pages b).pos = b := hpos
    rw [hposb]
    by_cases hff : (h.states 0).front = b
    · rw [if_pos hff]
      refine ⟨r, [], e, hb, Or.inr rfl, .empty ?_, hfin _, ?_⟩
      · rw [setState_same]; exact isEmpty_true (Or.inl rfl)
      · intro hcase
        rcases hcase with hcase | hcase
        · exact absurd hff hcase
        · exact ⟨hcase.symm, by rw [setState_same]⟩
    · rw [if_neg hff]
      cases hr2 : r with
      | nil =>
        have hpn : (h.pages b).prev = nil := by rw [hr2] at hr; exact hr.resolve_right (fun hx => hff hx.2.2)
        refine ⟨[], [], by rw [e, hr2], hb, Or.inl rfl, .empty ?_, hfin _, fun _ => ⟨rfl, by rw [setState_same]⟩⟩
        rw [setState_same]; exact isEmpty_true (Or.inr hpn)
      | cons b2 r2 =>
        have := hchain b2 r2 hr2 ⟨(h.states 0).front, (h.pages b).prev, (h.states 0).total⟩ rfl rfl
        rw [hr2] at this e
        exact ⟨b2 :: r2, b2 :: r2, e, hb, Or.inl rfl, this, hfin _, fun _ => ⟨rfl, by rw [setState_same]⟩⟩
  | loop l =>
    rename_i b
    obtain ⟨hfr, hbk, hb, hpos, hprev, hnx⟩ := l
    rw [hbk]
    have hl : lnext max (0 :: held) h 0 ⟨b, .none⟩ = lend := by
      have := lnext_back (max := max) (held := 0 :: held) (h := h) (sid := 0) (by rw [hbk]; exact hb)
      rw [hbk] at this; exact this
    unfold lerase
    rw [hl, eraseNostate_eq hl1 hb]
    simp only [if_true, lend]
    rw [unlinkPrev_eq (by rw [List.length_cons]; exact hl1)]
    simp only
    rw [hprev, if_neg hb, hnx]
    generalize hg : h.mod b (fun x => { x with next := b }) = g
    have hgb : g.pages b = { h.pages b with next := b } := by rw [← hg, mod_pages_same]
    have hgo : ∀ q, q ≠ b → g.pages q = h.pages q := by intro q hq; rw [← hg, mod_pages_ne _ _ hq]
    have hgs : g.states = h.states := by rw [← hg]; rfl
    have hgl : g.len = h.len := by rw [← hg]; rfl
    have hgbad : g.bad = h.bad := by rw [← hg]; rfl
    have hgd : SameData h g := by rw [← hg]; exact mod_sameData _ _ _ (fun _ => ⟨rfl, rfl⟩)
    rw [unlinkNext_eq (by rw [List.length_cons]; exact hl1)]
    simp only
    have hn1 : (g.pages b).next = b := by rw [hgb]
    have hn2 : (g.pages b).prev = b := by rw [hgb]; exact hprev
    rw [hn1, hn2, if_neg hb]
    have hex : exportedBack g b = nil := by unfold exportedBack; rw [hn1, if_neg hb]
    rw [hex]
    generalize hk : g.mod b (fun x => { x with prev := b }) = k
    have hko : ∀ q, q ≠ b → k.pages q = g.pages q := by intro q hq; rw [← hk, mod_pages_ne _ _ hq]
    have hks : k.states = g.states := by rw [← hk]; rfl
    have hkd : SameData g k := by rw [← hk]; exact mod_sameData _ _ _ (fun _ => ⟨rfl, rfl⟩)
    have hframe : FreeFrame k (pushFree max (0 :: held) k b) b [b] := by
      apply pushFree_frame (by rw [List.length_cons]; omega)
      intro _
      left; rw [hks, hgs]; exact hbk
    have hst : (pushFree max (0 :: held) k b).states 0 = ⟨(h.states 0).front, b, (h.states 0).total⟩ := by
      rw [pushFree_eq k b (by rw [List.length_cons]; omega), setState_same, hks, hgs, if_neg hfr]
    have heS : eraseState ((pushFree max (0 :: held) k b).states 0) b nil nil =
        ⟨if (h.states 0).front = b then nil else (h.states 0).front, nil, (h.states 0).total⟩ := by
      rw [hst]
      simp [eraseState]
    rw [heS, hpos]
    refine ⟨[], [], rfl, hb, Or.inl rfl, .empty ?_, ⟨(hgd.trans hkd).trans hframe.data, ?_, ?_, ?_, ?_⟩, fun _ => ⟨rfl, by rw [setState_same]⟩⟩
    · rw [setState_same]; exact isEmpty_true (Or.inr rfl)
    · intro q hq
      have hqb : q ≠ b := by simpa using hq
      rw [setState_pages, hframe.pages q hqb (by simpa using hq), hko q hqb, hgo q hqb]
    · intro t ht; rw [setState_ne _ _ ht, hframe.states t ht, hks, hgs]
    · rw [setState_len, hframe.len, ← hk, mod_len, hgl]
    · rw [setState_bad, hframe.bad, ← hk, mod_bad, hgbad]

theorem popFree_none {max : Nat} {held : List Nat} {h : Heap α} (he : isEmpty (h.states 0) = true) : popFree max held h = (h, nil) := by
  unfold popFree
  rw [if_pos he]
  split <;> rfl

/-- What is known after an allocation. -/
structure AllocOut (h h' : Heap α) (fs fs' : List Nat) (p : Nat) : Prop where
  free : FreeList h' fs'
  sub : ∀ q ∈ fs', q ∈ fs
  fresh : p ∉ fs'
  pages : ∀ q, q ∉ fs → q ≠ p → h'.pages q = h.pages q
  data : ∀ q, q ≠ p → (h'.pages q).count = (h.pages q).count ∧ (h'.pages q).items = (h.pages q).items
  states : ∀ t, t ≠ 0 → h'.states t = h.states t
  bad : h'.bad = h.bad
  which : (p ∈ fs ∧ h'.len = h.len) ∨ (p = h.len ∧ h'.len = h.len + 1)
  nn : p ≠ nil
  one : fs.length ≤ 1 → fs' = []
  items : ∀ q, (h'.pages q).items = (h.pages q).items

/-- `alloc_page` returns a free page or a new one, or fails and changes nothing. -/
theorem alloc_spec {max limit : Nat} {held : List Nat} {h : Heap α} {fs : List Nat} (hm : held.length + 4 < max) (hf : FreeOk h fs)
    (hlim : limit ≤ nil) :
    allocPage max limit held h = (h, nil) ∧ limit ≤ h.len ∨
    (h.len ≤ limit → (allocPage max limit held h).1.len ≤ limit) ∧
      ∃ fs', AllocOut h (allocPage max limit held h).1 fs fs' (allocPage max limit held h).2 := by
  unfold allocPage
  simp only
  cases he : isEmpty (h.states 0) with
  | true =>
    rw [popFree_none he]
    simp only [if_true]
    unfold createPage
    by_cases hlen : h.len < limit
    · rw [if_pos hlen]
      refine Or.inr ⟨fun _ => hlen, [], ⟨.empty he, by simp, by simp, ?_, ?_, fun _ _ => rfl, rfl, Or.inr ⟨rfl, rfl⟩, by omega, fun _ => rfl, ?_⟩⟩
      · intro q _ hq
        exact mod_pages_ne h (fun x => (⟨0, 0, 0, 0, x.items⟩ : Page α)) hq
      · intro q hq
        have := mod_pages_ne h (fun x => (⟨0, 0, 0, 0, x.items⟩ : Page α)) hq
        exact ⟨congrArg Page.count this, congrArg Page.items this⟩
      · intro q
        show (Page.items (if q = h.len then _ else h.pages q)) = _
        split
        · rename_i e; rw [e]
        · rfl
    · rw [if_neg hlen]
      exact Or.inl ⟨rfl, by omega⟩
  | false =>
    obtain ⟨r, fs', e, hn, hsub, hfl, fr, _⟩ := popFree_spec (max := max) (held := held) hm hf he
    rw [if_neg hn]
    have hnd := hf.nodup
    have hr : (popFree max held h).2 ∉ r := by rw [e] at hnd; exact (List.nodup_cons.1 hnd).1
    refine Or.inr ⟨fun hl => by rw [fr.len]; exact hl, fs', ⟨hfl, ?_, ?_, fun q hq _ => fr.pages q hq, fun q _ => fr.data q, fr.states, fr.bad, Or.inl ⟨?_, fr.len⟩, hn, ?_, fun q => (fr.data q).2⟩⟩
    · intro q hq
      rcases hsub with hs | hs
      · rw [hs] at hq; rw [e]; exact List.mem_cons_of_mem _ hq
      · rw [hs] at hq; cases hq
    · rcases hsub with hs | hs
      · rw [hs]; exact hr
      · rw [hs]; simp
    · rw [e]; simp
    · intro h1
      rcases hsub with hs | hs
      · rw [e, List.length_cons] at h1
        rw [hs]; exact List.eq_nil_of_length_eq_zero (by omega)
      · exact hs

end Abc.Vmem.Pages
