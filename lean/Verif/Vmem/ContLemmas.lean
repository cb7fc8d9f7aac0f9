import Verif.Vmem.PagesProps

/-! # Items of containers -/

namespace Abc.Vmem.Pages

variable {α : Type}

/-- The items of a page. -/
def pageItems (q : Page α) : List α := (List.range q.count).map q.items

/-- The items of a list of pages. -/
def contents (h : Heap α) (ps : List Nat) : List α := ps.flatMap (fun p => pageItems (h.pages p))

@[simp] theorem pageItems_length (q : Page α) : (pageItems q).length = q.count := by simp [pageItems]

@[simp] theorem contents_nil (h : Heap α) : contents h [] = [] := rfl

theorem contents_cons (h : Heap α) (p : Nat) (ps : List Nat) : contents h (p :: ps) = pageItems (h.pages p) ++ contents h ps := by
  simp [contents]

theorem contents_append (h : Heap α) (as bs : List Nat) : contents h (as ++ bs) = contents h as ++ contents h bs := by
  simp [contents]

theorem pageItems_congr {q q' : Page α} (hc : q'.count = q.count) (hi : ∀ j, j < q.count → q'.items j = q.items j) : pageItems q' = pageItems q := by
  unfold pageItems
  rw [hc]
  apply List.map_congr_left
  intro j hj
  exact hi j (List.mem_range.1 hj)

theorem contents_congr {h h' : Heap α} {ps : List Nat} (hp : ∀ p ∈ ps, pageItems (h'.pages p) = pageItems (h.pages p)) : contents h' ps = contents h ps := by
  induction ps with
  | nil => rfl
  | cons p ps ih => rw [contents_cons, contents_cons, hp p (by simp), ih (fun q hq => hp q (by simp [hq]))]

theorem shiftIn_items (n k : Nat) (x : α) (f : Nat → α) (hk : k ≤ n) :
    (List.range (n + 1)).map (shiftIn n k x f) = ((List.range n).map f).take k ++ x :: ((List.range n).map f).drop k := by
  apply List.ext_getElem
  · simp; omega
  · intro i h1 h2
    simp only [List.length_map, List.length_range] at h1
    rw [List.getElem_map, List.getElem_range, List.getElem_append]
    simp only [List.length_take, List.length_map, List.length_range, Nat.min_eq_left hk]
    unfold shiftIn
    split
    · rename_i e; subst e
      rw [dif_neg (by omega)]
      simp
    · split
      · rename_i h3 h4
        rw [dif_neg (by omega)]
        rw [List.getElem_cons, dif_neg (by omega)]
        simp only [List.getElem_drop, List.getElem_map, List.getElem_range]
        congr 1; omega
      · rename_i h3 h4
        rw [dif_pos (by omega)]
        simp

theorem shiftOut_items (n k : Nat) (f : Nat → α) (hk : k < n) :
    (List.range (n - 1)).map (shiftOut n k f) = ((List.range n).map f).take k ++ ((List.range n).map f).drop (k + 1) := by
  apply List.ext_getElem
  · simp; omega
  · intro i h1 h2
    simp only [List.length_map, List.length_range] at h1
    rw [List.getElem_map, List.getElem_range, List.getElem_append]
    simp only [List.length_take, List.length_map, List.length_range, Nat.min_eq_left (Nat.le_of_lt hk)]
    unfold shiftOut
    split
    · rename_i h3
      rw [dif_neg (by omega)]
      simp only [List.getElem_drop, List.getElem_map, List.getElem_range]
      congr 1; omega
    · rename_i h3
      rw [dif_pos (by omega)]
      simp

theorem append_items (n m : Nat) (f g : Nat → α) :
    (List.range (n + m)).map (fun j => if n ≤ j ∧ j < n + m then g (j - n) else f j) = (List.range n).map f ++ (List.range m).map g := by
  apply List.ext_getElem
  · simp
  · intro i h1 h2
    simp only [List.length_map, List.length_range] at h1
    rw [List.getElem_map, List.getElem_range, List.getElem_append]
    simp only [List.length_map, List.length_range, List.getElem_map, List.getElem_range]
    by_cases h : n ≤ i
    · rw [if_pos ⟨h, h1⟩, dif_neg (by omega)]
    · rw [if_neg (by omega), dif_pos (by omega)]

theorem take_items (n k : Nat) (f : Nat → α) (hk : k ≤ n) : (List.range k).map f = ((List.range n).map f).take k := by
  rw [← List.map_take, List.take_range, Nat.min_eq_left hk]

theorem drop_items (n k : Nat) (f g : Nat → α) :
    (List.range (n - k)).map (fun j => if j < n - k then f (k + j) else g j) = ((List.range n).map f).drop k := by
  apply List.ext_getElem
  · simp
  · intro i h1 h2
    simp only [List.length_map, List.length_range] at h1
    simp only [List.getElem_map, List.getElem_range, List.getElem_drop]
    rw [if_pos h1]

/-- The pages of a container: between one and `cap` items on each. -/
structure Cont (cap : Nat) (h : Heap α) (sid : Nat) (ps : List Nat) : Prop where
  own : Own h sid ps
  cnt : ∀ p ∈ ps, 1 ≤ (h.pages p).count ∧ (h.pages p).count ≤ cap

/-- Where an iterator points: the items before it and the items from it on. -/
inductive At (h : Heap α) (ps : List Nat) : Itr → List α → List α → Prop
  | item (as : List Nat) (p : Nat) (bs : List Nat) (k : Nat) : ps = as ++ p :: bs → k < (h.pages p).count →
      At h ps ⟨p, k, .none⟩ (contents h as ++ (pageItems (h.pages p)).take k) ((pageItems (h.pages p)).drop k ++ contents h bs)
  | fin : At h ps ⟨ps.getLastD nil, nilItem, .fin⟩ (contents h ps) []

theorem At.contents {h : Heap α} {ps : List Nat} {i : Itr} {u w : List α} (a : At h ps i u w) : contents h ps = u ++ w := by
  cases a with
  | item as p bs k e hk =>
    rw [e, contents_append, contents_cons]
    conv => lhs; rw [← List.take_append_drop k (pageItems (h.pages p))]
    simp only [List.append_assoc]
  | fin => simp

/-- What an operation of one container does to the rest. -/
structure Step (limit : Nat) (h h' : Heap α) (sid : Nat) (ps ps' fs fs' : List Nat) : Prop where
  free : FreeOk h' fs'
  pages : ∀ q, q ∉ ps → q ∉ fs → q < h.len → h'.pages q = h.pages q
  states : ∀ t, t ≠ sid → t ≠ 0 → h'.states t = h.states t
  sub : ∀ q ∈ ps', q ∈ ps ∨ q ∈ fs ∨ (h.len ≤ q ∧ q < h'.len)
  fsub : ∀ q ∈ fs', q ∈ fs ∨ q ∈ ps ∨ (h.len ≤ q ∧ q < h'.len)
  disj : ∀ q ∈ ps', q ∉ fs'
  len : h.len ≤ h'.len
  lim : h.len ≤ limit → h'.len ≤ limit
  bad : h'.bad = h.bad

theorem Step.trans {limit : Nat} {h1 h2 h3 : Heap α} {sid : Nat} {p1 p2 p3 f1 f2 f3 : List Nat} (a : Step limit h1 h2 sid p1 p2 f1 f2)
    (b : Step limit h2 h3 sid p2 p3 f2 f3) : Step limit h1 h3 sid p1 p3 f1 f3 where
  free := b.free
  pages := by
    intro q hp hf hl
    rw [b.pages q ?_ ?_ (Nat.lt_of_lt_of_le hl a.len), a.pages q hp hf hl]
    · intro hx; rcases a.sub q hx with h | h | h
      · exact hp h
      · exact hf h
      · omega
    · intro hx; rcases a.fsub q hx with h | h | h
      · exact hf h
      · exact hp h
      · omega
  states := fun t h1 h2 => (b.states t h1 h2).trans (a.states t h1 h2)
  sub := by
    intro q hq
    have hl := b.len
    have hl2 := a.len
    rcases b.sub q hq with h | h | h
    · rcases a.sub q h with h | h | h
      · exact Or.inl h
      · exact Or.inr (Or.inl h)
      · exact Or.inr (Or.inr (by omega))
    · rcases a.fsub q h with h | h | h
      · exact Or.inr (Or.inl h)
      · exact Or.inl h
      · exact Or.inr (Or.inr (by omega))
    · exact Or.inr (Or.inr (by omega))
  fsub := by
    intro q hq
    have hl := b.len
    have hl2 := a.len
    rcases b.fsub q hq with h | h | h
    · rcases a.fsub q h with h | h | h
      · exact Or.inl h
      · exact Or.inr (Or.inl h)
      · exact Or.inr (Or.inr (by omega))
    · rcases a.sub q h with h | h | h
      · exact Or.inr (Or.inl h)
      · exact Or.inl h
      · exact Or.inr (Or.inr (by omega))
    · exact Or.inr (Or.inr (by omega))
  disj := b.disj
  len := Nat.le_trans a.len b.len
  lim := fun h => b.lim (a.lim h)
  bad := b.bad.trans a.bad

/-- Writes that keep the links of all pages. -/
theorem own_data {h h' : Heap α} {sid : Nat} {ps : List Nat} (o : Own h sid ps) (hs : h'.states sid = h.states sid)
    (hl : ∀ q, SameLinks h h' q) : Own h' sid ps := own_congr o hs (fun q _ => hl q)

theorem mod_links {h : Heap α} {p : Nat} {f : Page α → Page α} (hf : ∀ x, (f x).pos = x.pos ∧ (f x).prev = x.prev ∧ (f x).next = x.next) (q : Nat) :
    SameLinks h (h.mod p f) q := by
  unfold SameLinks
  rw [mod_pages]
  split
  · rename_i e; subst e; exact hf _
  · exact ⟨rfl, rfl, rfl⟩

/-- The step that changes only items and counts of the container's own pages. -/
theorem step_data {limit : Nat} {h h' : Heap α} {sid : Nat} {ps fs : List Nat} (hf : FreeOk h fs) (hd : ∀ q ∈ ps, q ∉ fs)
    (hs : h'.states = h.states) (hl : ∀ q, SameLinks h h' q) (hp : ∀ q, q ∉ ps → h'.pages q = h.pages q) (hlen : h'.len = h.len)
    (hb : h'.bad = h.bad) : Step limit h h' sid ps ps fs fs where
  free := freeOk_congr hf (by rw [hs]) (fun q _ => hl q)
  pages := fun q h1 _ _ => hp q h1
  states := fun t _ _ => by rw [hs]
  sub := fun q hq => Or.inl hq
  fsub := fun q hq => Or.inl hq
  disj := hd
  len := by omega
  lim := by omega
  bad := hb

/-- What is assumed about a container and the pool before an operation. -/
structure World (cap : Nat) (h : Heap α) (sid : Nat) (ps fs : List Nat) : Prop where
  cont : Cont cap h sid ps
  free : FreeOk h fs
  disj : ∀ q ∈ ps, q ∉ fs
  range : ∀ q ∈ ps, q < h.len
  frange : ∀ q ∈ fs, q < h.len
  sid : sid ≠ 0

theorem Step.world {cap limit : Nat} {h h' : Heap α} {sid : Nat} {ps ps' fs fs' : List Nat} (w : World cap h sid ps fs)
    (s : Step limit h h' sid ps ps' fs fs') (c : Cont cap h' sid ps') : World cap h' sid ps' fs' where
  cont := c
  free := s.free
  disj := s.disj
  range := by
    intro q hq
    have := s.len
    rcases s.sub q hq with h | h | h
    · have := w.range q h; omega
    · have := w.frange q h; omega
    · exact h.2
  frange := by
    intro q hq
    have := s.len
    rcases s.fsub q hq with h | h | h
    · have := w.frange q h; omega
    · have := w.range q h; omega
    · exact h.2
  sid := w.sid

/-! ## Insertion -/

/-- `insert_page_after` fails without a change or puts a new empty page behind the given one. -/
theorem insertPageAfter_full {c : Cfg} {held : List Nat} {h : Heap α} {sid : Nat} {ps fs : List Nat} (w : World c.cap h sid ps fs)
    (hm : held.length + 4 < c.max) (hlim : c.limit ≤ nil) (hlog : c.log = true) (as bs : List Nat) (hps : ps = as ++ bs) (after : Nat)
    (ha : (after = nil ∧ ps = []) ∨ (as ≠ [] ∧ after = as.getLastD nil)) :
    insertPageAfter c held h sid after = (h, none) ∧ c.limit ≤ h.len ∨
    ∃ h1 n fs', insertPageAfter c held h sid after = (h1, some n) ∧ Own h1 sid (as ++ n :: bs) ∧
      Step c.limit h h1 sid ps (as ++ n :: bs) fs fs' ∧ (h1.pages n).count = 0 ∧ n ∉ ps ∧ n ≠ nil ∧
      (∀ q, q ≠ n → (h1.pages q).count = (h.pages q).count ∧ (h1.pages q).items = (h.pages q).items) ∧
      (h1.states sid).total = (h.states sid).total ∧ (fs.length ≤ 1 → fs' = []) ∧ ∀ q, (h1.pages q).items = (h.pages q).items := by
  unfold insertPageAfter
  simp only
  rcases alloc_spec (limit := c.limit) hm w.free hlim with ⟨h1, h2⟩ | ⟨hl', fs', a⟩
  · left; rw [h1, if_pos rfl]; exact ⟨rfl, h2⟩
  · right
    rw [if_neg a.nn, canLock_of (by omega), if_neg (by decide)]
    generalize (allocPage c.max c.limit held h).1 = g at *
    generalize (allocPage c.max c.limit held h).2 = p at *
    have hpnew : p ∉ ps := by
      intro hx
      rcases a.which with ⟨h1, _⟩ | ⟨h1, _⟩
      · exact w.disj p hx h1
      · have := w.range p hx; omega
    have hlen : h.len ≤ g.len := by rcases a.which with ⟨_, h2⟩ | ⟨_, h2⟩ <;> omega
    have hown : Own g sid ps := by
      refine own_congr w.cont.own (a.states _ w.sid) (fun q hq => SameLinks.of_eq (a.pages q (w.disj q hq) ?_))
      intro e; exact hpnew (e ▸ hq)
    have hi : (if after = nil then lend else lnext c.max (p :: held) g sid ⟨after, .none⟩) = itrOf bs := by
      rcases ha with ⟨h1, h2⟩ | ⟨h1, h2⟩
      · have : bs = [] := by rw [h2] at hps; exact (List.append_eq_nil_iff.1 hps.symm).2
        rw [if_pos h1, this]; rfl
      · have hmem : after ∈ as := h2 ▸ getLastD_mem h1
        have hnn : after ≠ nil := w.cont.own.nn after (by rw [hps]; simp [hmem])
        rw [if_neg hnn]
        rcases List.eq_nil_or_concat as with ha' | ⟨l, x, ha'⟩
        · exact absurd ha' h1
        · have hx : after = x := by rw [h2, ha']; simp
          have ho := hown
          rw [hps, ha', List.concat_eq_append, List.append_assoc] at ho
          rw [hx]
          exact lnext_spec (by rw [List.length_cons]; omega) ho
    have hck : (if after = nil then g else g.check c.log) = g := by split <;> simp [hlog]
    rw [hi, hck]
    obtain ⟨i1, i2, i3⟩ := linsert_spec (max := c.max) (held := p :: held) (n := p) (as := as) (bs := bs) (by rw [List.length_cons]; omega) (hps ▸ hown)
        (hps ▸ hpnew) a.nn
    rw [i1, if_neg (by unfold lend; intro e; exact a.nn (congrArg LItr.page e))]
    generalize (linsert c.max (p :: held) g sid (itrOf bs) p).1 = g' at *
    refine ⟨_, p, fs', rfl, ?_, ?_, by rw [mod_pages_same], hpnew, a.nn, ?_, ?_, a.one, ?_⟩
    · exact own_data i2 rfl (mod_links (fun x => ⟨rfl, rfl, rfl⟩))
    · refine ⟨?_, ?_, ?_, ?_, ?_, ?_, ?_, ?_, ?_⟩
      · have : FreeList g' fs' := by
          refine freeList_congr a.free (i3.states 0 (Ne.symm w.sid)) (fun q hq => i3.pages q ?_ (fun hx => w.disj q (hps ▸ hx) (a.sub q hq)))
          intro e; exact a.fresh (e ▸ hq)
        exact freeOk_congr this.ok rfl (fun q _ => mod_links (h := g') (p := p) (f := fun x => { x with count := 0 }) (fun x => ⟨rfl, rfl, rfl⟩) q)
      · intro q h1 h2 h3
        have hqp : q ≠ p := by
          intro e
          rcases a.which with ⟨h4, _⟩ | ⟨h4, _⟩
          · exact h2 (e ▸ h4)
          · omega
        rw [mod_pages_ne _ _ hqp, i3.pages q hqp (by rw [← hps]; exact h1), a.pages q h2 hqp]
      · intro t h1 h2
        rw [mod_states, i3.states t h1, a.states t h2]
      · intro q hq
        rw [mod_len, i3.len]
        rcases List.mem_append.1 hq with hq | hq
        · left; rw [hps]; simp [hq]
        · rcases List.mem_cons.1 hq with hq | hq
          · right
            rcases a.which with ⟨h4, h5⟩ | ⟨h4, h5⟩
            · left; rw [hq]; exact h4
            · right; omega
          · left; rw [hps]; simp [hq]
      · intro q hq; exact Or.inl (a.sub q hq)
      · intro q hq hx
        rcases List.mem_append.1 hq with hq | hq
        · exact w.disj q (by rw [hps]; simp [hq]) (a.sub q hx)
        · rcases List.mem_cons.1 hq with hq | hq
          · exact a.fresh (hq ▸ hx)
          · exact w.disj q (by rw [hps]; simp [hq]) (a.sub q hx)
      · rw [mod_len, i3.len]; exact hlen
      · intro hl; rw [mod_len, i3.len]; exact hl' hl
      · rw [mod_bad, i3.bad, a.bad]
    · intro q hq
      rw [mod_pages_ne _ _ hq, (i3.data q).1, (i3.data q).2]
      exact a.data q hq
    · rw [mod_states, i3.total, a.states _ w.sid]
    · intro q
      rw [← a.items q, ← (i3.data q).2, mod_pages]
      split
      · rename_i e; rw [e]
      · rfl

theorem insertPageAfter_spec {c : Cfg} {held : List Nat} {h : Heap α} {sid : Nat} {ps fs : List Nat} (w : World c.cap h sid ps fs)
    (hm : held.length + 4 < c.max) (hlim : c.limit ≤ nil) (hlog : c.log = true) (as bs : List Nat) (hps : ps = as ++ bs) (after : Nat)
    (ha : (after = nil ∧ ps = []) ∨ (as ≠ [] ∧ after = as.getLastD nil)) :
    insertPageAfter c held h sid after = (h, none) ∧ c.limit ≤ h.len ∨
    ∃ h1 n fs', insertPageAfter c held h sid after = (h1, some n) ∧ Own h1 sid (as ++ n :: bs) ∧
      Step c.limit h h1 sid ps (as ++ n :: bs) fs fs' ∧ (h1.pages n).count = 0 ∧ n ∉ ps ∧ n ≠ nil ∧
      (∀ q, q ≠ n → (h1.pages q).count = (h.pages q).count ∧ (h1.pages q).items = (h.pages q).items) ∧
      (h1.states sid).total = (h.states sid).total := by
  rcases insertPageAfter_full (held := held) w hm hlim hlog as bs hps after ha with h1 | ⟨h1, n, fs', e1, e2, e3, e4, e5, e6, e7, e8, _⟩
  · exact Or.inl h1
  · exact Or.inr ⟨h1, n, fs', e1, e2, e3, e4, e5, e6, e7, e8⟩

end Abc.Vmem.Pages
