import Verif.Vmem.MapProps

/-! # Maps of at most one page, with erasures (C30) -/

namespace Abc.Vmem.Pages

variable {α : Type}

theorem erasePage_len (c : Cfg) (held : List Nat) (h : Heap α) (sid p : Nat) : (erasePage c held h sid p).len = h.len := by
  unfold erasePage
  rw [freePage_len, lerase_len]

theorem mergeNext_len (c : Cfg) (held : List Nat) (h : Heap α) (sid : Nat) (i : Itr) (p : Nat) : (mergeNext c held h sid i p).heap.len = h.len := by
  unfold mergeNext
  simp only
  split
  · rfl
  · split
    · exact (erasePage_len ..).trans rfl
    · rfl

theorem mergePrev_len (c : Cfg) (held : List Nat) (h : Heap α) (sid : Nat) (i : Itr) (p : Nat) : (mergePrev c held h sid i p).heap.len = h.len := by
  unfold mergePrev
  simp only
  split
  · rfl
  · split
    · exact (erasePage_len ..).trans rfl
    · rfl

theorem balanceMerge_len (c : Cfg) (held : List Nat) (h : Heap α) (sid : Nat) (i : Itr) (p : Nat) : (balanceMerge c held h sid i p).heap.len = h.len := by
  have h1 : (if (h.pages p).next = nil then (⟨h, some i, .default, .default⟩ : Res α) else mergeNext c (p :: held) h sid i p).heap.len = h.len := by
    split
    · rfl
    · exact mergeNext_len ..
  unfold balanceMerge
  simp only
  generalize (if (h.pages p).next = nil then (⟨h, some i, .default, .default⟩ : Res α) else mergeNext c (p :: held) h sid i p) = r at *
  split
  · exact h1
  · exact (mergePrev_len ..).trans h1

theorem eraseFromMany_len (h : Heap α) (sid : Nat) (i : Itr) : (eraseFromMany h sid i).heap.len = h.len := by
  unfold eraseFromMany
  simp only
  split <;> rfl

theorem ceraseNostate_len (c : Cfg) (held : List Nat) (h : Heap α) (sid : Nat) (i : Itr) : (ceraseNostate c held h sid i).heap.len = h.len := by
  unfold ceraseNostate
  split
  · rfl
  · split
    · simp only
      split
      · exact (balanceMerge_len ..).trans (eraseFromMany_len ..)
      · exact eraseFromMany_len ..
    · exact erasePage_len ..

theorem erase2_len {c : Cfg} {held : List Nat} {h : Heap α} {sid : Nat} {i : Itr} {r : Res α} (e : erase2 c held h sid i = some r) : r.heap.len = h.len := by
  unfold erase2 at e
  have := ceraseNostate_len c held h sid i
  split at e
  · cases e
  · simp only at e
    split at e <;> cases e <;> exact this

/-- What erasing an item of the only page of a container does. -/
structure OneOut (c : Cfg) (h : Heap α) (sid p k total : Nat) (fs : List Nat) (r : Res α) (ps' fs' : List Nat) : Prop where
  itr : ∃ i, r.itr = some i
  one : ps'.length ≤ 1
  free : fs'.length ≤ 1
  cont : Cont c.cap r.heap sid ps'
  step : Step c.limit h r.heap sid [p] ps' fs fs'
  total : (r.heap.states sid).total = total
  items : contents r.heap ps' = (pageItems (h.pages p)).take k ++ (pageItems (h.pages p)).drop (k + 1)
  cells : ∀ q j, ∃ j', (r.heap.pages q).items j = (h.pages q).items j'

theorem ceraseOne_spec {c : Cfg} {held : List Nat} {h : Heap α} {sid p k : Nat} {fs : List Nat} (w : World c.cap h sid [p] fs) (hfs : fs.length ≤ 1)
    (hk : k < (h.pages p).count) (hm : held.length + 5 < c.max) :
    ∃ ps' fs', OneOut c h sid p k (h.states sid).total fs (ceraseNostate c held h sid ⟨p, k, .none⟩) ps' fs' := by
  have own : Own h sid ([] ++ p :: []) := w.cont.own
  have hnx : (h.pages p).next = nil := next_eq own
  have hpv : (h.pages p).prev = nil := prev_eq own
  unfold ceraseNostate
  rw [show (⟨p, k, .none⟩ : Itr).page = p from rfl, canLock_of (by omega), if_neg (by decide)]
  by_cases hmany : 1 < (h.pages p).count
  · rw [if_pos hmany]
    have hcells : ∀ q j, ∃ j', ((eraseFromMany h sid ⟨p, k, .none⟩).heap.pages q).items j = (h.pages q).items j' := by
      intro q j
      unfold eraseFromMany
      simp only
      split
      · simp only [Heap.mod]
        split
        · rename_i e
          subst e
          simp only [shiftOut]
          split
          · exact ⟨j + 1, rfl⟩
          · exact ⟨j, rfl⟩
        · exact ⟨j, rfl⟩
      · simp only [Heap.mod]
        split
        · rename_i e
          subst e
          exact ⟨j, rfl⟩
        · exact ⟨j, rfl⟩
    obtain ⟨i1, h1, h2, h3, h4, h5, h6, h7, h8, h9, h10⟩ := eraseFromMany_spec (c := c) (as := []) (bs := []) c.limit w hk hmany
    simp only at h1 h2 h3 h4 h5 h6 h7 h8 h9 h10 ⊢
    have hc := h10.contents
    rw [contents_nil, List.nil_append, List.append_nil] at hc
    generalize eraseFromMany h sid ⟨p, k, .none⟩ = r at *
    have hn2 : (r.heap.pages p).next = nil := by rw [(h9 p).2.2]; exact hnx
    have hp2 : (r.heap.pages p).prev = nil := by rw [(h9 p).2.1]; exact hpv
    have hres : ∀ r2 : Res α, r2.heap = r.heap → r2.itr = some i1 → ∃ ps' fs', OneOut c h sid p k (h.states sid).total fs r2 ps' fs' := by
      intro r2 e1 e2
      exact ⟨[p], fs, ⟨i1, e2⟩, by simp, hfs, by rw [e1]; exact h2, by rw [e1]; exact h3, by rw [e1, h4], by rw [e1]; exact hc, by rw [e1]; exact hcells⟩
    split
    · apply hres
      · unfold balanceMerge
        simp only
        rw [if_pos hn2, if_pos (by exact hp2)]
      · unfold balanceMerge
        simp only
        rw [if_pos hn2, if_pos (by exact hp2), h1]
        rfl
    · exact hres _ rfl h1
  · rw [if_neg hmany]
    have hc1 : (h.pages p).count = 1 := by have := (w.cont.cnt p (by simp)).1; omega
    obtain ⟨e1, e2, e3, e4⟩ := erasePage_spec (c := c) (held := held) (as := []) (bs := []) c.limit (by omega) w.sid own w.free w.disj
    have hk0 : k = 0 := by omega
    subst hk0
    have hd0 : (pageItems (h.pages p)).drop (0 + 1) = [] := List.drop_of_length_le (by simp; omega)
    exact ⟨[], [p], ⟨_, rfl⟩, by simp, by simp, ⟨e1, fun q hq => by cases hq⟩, e3, e4, by rw [hd0]; rfl, fun q j => ⟨j, by rw [(e2 q).2]⟩⟩

/-- Erasing an item of the only page of a container. -/
theorem eraseOne_spec {c : Cfg} {held : List Nat} {h : Heap α} {sid p k : Nat} {fs : List Nat} (w : World c.cap h sid [p] fs) (hfs : fs.length ≤ 1)
    (hk : k < (h.pages p).count) (hm : held.length + 5 < c.max) (hcap : c.cap < nilItem) :
    ∃ r ps' fs', erase2 c held h sid ⟨p, k, .none⟩ = some r ∧ OneOut c h sid p k ((h.states sid).total - 1) fs r ps' fs' := by
  have hnn := w.cont.own.nn p (by simp)
  have hle := (w.cont.cnt p (by simp)).2
  have hd : canDeref ⟨p, k, .none⟩ = true := by
    have : k ≠ nilItem := by omega
    simp [canDeref, hnn, this]
  obtain ⟨ps', fs', er⟩ := ceraseOne_spec (held := held) w hfs hk hm
  obtain ⟨i', hi'⟩ := er.itr
  unfold erase2
  rw [hd, if_neg (by decide)]
  simp only
  rw [hi']
  refine ⟨_, ps', fs', rfl, ⟨_, rfl⟩, er.one, er.free, ⟨own_of_state er.cont.own (by simp only; rw [setState_same]) (by simp only; rw [setState_same]) (fun q _ => ⟨rfl, rfl, rfl⟩), er.cont.cnt⟩,
    step_state w.sid er.step _, ?_, er.items, er.cells⟩
  simp only
  rw [setState_same]
  simp only
  rw [er.total]

end Abc.Vmem.Pages

namespace Abc.Vmem.Map

open Abc.Vmem.Pages

variable {K V : Type} [LinearOrder K]

theorem upErase_len (m : MCfg K V) : ∀ (rp : List Nat) (l : Nat) (h : Heap (Cell K V)) (a b : Lead (Cell K V)), (upErase m l rp h a b).1.len = h.len := by
  intro rp
  induction rp with
  | nil => intro l h a b; rfl
  | cons p rp ih =>
    intro l h a b
    unfold upErase
    split
    · rfl
    · simp only
      have h1 : (if a.op = .replace then replaceKey m h p (keyItemPos m [(h.states 2).front] h p (leadKey m a.fst)) (leadKey m a.snd) else h).len = h.len := by
        split <;> rfl
      generalize (if a.op = .replace then replaceKey m h p (keyItemPos m [(h.states 2).front] h p (leadKey m a.fst)) (leadKey m a.snd) else h) = h2 at *
      split
      · rfl
      · split
        · exact h1
        · split
          · exact h1
          · rename_i r e
            rw [ih, erase2_len e, h1]

theorem updateErase_len (m : MCfg K V) (h : Heap (Cell K V)) (depth : Nat) (path : List Nat) (a b : Lead (Cell K V)) : (updateErase m h depth path a b).heap.len = h.len := by
  unfold updateErase
  simp only
  have hu := upErase_len m path.reverse 0 h a b
  generalize upErase m 0 path.reverse h a b = u at *
  split
  · rfl
  · split
    · rfl
    · split
      · exact hu
      · split
        · split
          · exact hu
          · rename_i r e
            exact (erase2_len e).trans hu
        · exact hu

theorem erase_len (m : MCfg K V) (s : MSt K V) (k : K) : s.heap.len ≤ (s.erase m k).1.heap.len := by
  have hf := find2_len m s.heap s.depth k
  unfold MSt.erase
  simp only
  generalize find2 m s.heap s.depth k = f at *
  split
  · show s.heap.len ≤ (dropPath m f.heap).len
    rw [dropPath_len]; exact hf
  · split
    · show s.heap.len ≤ (dropPath m (f.heap.check false)).len
      rw [dropPath_len]; exact hf
    · rename_i r e
      show s.heap.len ≤ (dropPath m _).len
      rw [dropPath_len, updateErase_len, erase2_len e]; exact hf

theorem run_len_all (m : MCfg K V) : ∀ (os : List (MOp K V)) (s : MSt K V), s.heap.len ≤ (s.run m os).1.heap.len := by
  intro os
  induction os with
  | nil => intro s; exact Nat.le_refl _
  | cons o os ih =>
    intro s
    refine Nat.le_trans ?_ (ih (s.step m o).1)
    cases o with
    | insert k v => exact (insert_len m s k v).1
    | erase k => exact erase_len m s k
    | find k => exact (find_len m s k).1

/-- The search on the only page. -/
theorem value_small {m : MCfg K V} {h : Heap (Cell K V)} {key : K} {p : Nat} {L : List (K × V)} (hs : pageItems (h.pages p) = L.map cellOf)
    (hL : L.Pairwise (fun a b => a.1 < b.1)) (hout : (∀ e ∈ L, e.1 < key) → valKey m ((h.pages p).items (h.pages p).count) ≠ key) :
    ∃ La Lb, ValueFound m h key [] p [] L (valuePos m (h.pages p) key) La Lb := by
  have hlen : L.length = (h.pages p).count := by have := congrArg List.length hs; simpa using this.symm
  have hitem : ∀ i (hi : i < L.length), (h.pages p).items i = cellOf L[i] := by
    intro i hi
    have h3 := pageItems_get (q := h.pages p) (i := i) (by omega)
    rw [hs, List.getElem?_map, List.getElem?_eq_getElem hi] at h3
    exact (Option.some.inj h3).symm
  obtain ⟨_, s2, s3, s4⟩ := scan_spec (fun i => decide (valKey m ((h.pages p).items i) < key)) (h.pages p).count 0
  unfold valuePos
  generalize scan (fun i => decide (valKey m ((h.pages p).items i) < key)) (h.pages p).count 0 = r at *
  rw [Nat.zero_add] at s2 s4
  have hless : ∀ e ∈ L.take r, e.1 < key := by
    intro e he
    obtain ⟨j, hj, hje⟩ := List.getElem_of_mem he
    have hjr : j < r ∧ j < L.length := by rw [List.length_take] at hj; omega
    have := s3 j (by omega) hjr.1
    simp only [decide_eq_true_eq] at this
    rw [hitem j hjr.2, valKey_cellOf] at this
    rw [← hje, List.getElem_take]; exact this
  refine ⟨L.take r, L.drop r, by omega, (List.take_append_drop r L).symm, by rw [contents_nil, hs]; simp, by rw [contents_nil, hs]; simp, hless, ?_⟩
  by_cases hrc : r < L.length
  · have h5 := s4 (by omega)
    simp only [decide_eq_false_iff_not] at h5
    rw [hitem r hrc, valKey_cellOf] at h5
    rw [hitem r hrc, valKey_cellOf]
    have hd : L.drop r = L[r] :: L.drop (r + 1) := (List.getElem_cons_drop hrc).symm
    by_cases hk : L[r].1 = key
    · left
      refine ⟨hk, by omega, L[r].2, L.drop (r + 1), ?_, ?_⟩
      · rw [hd, ← hk]
      · rw [← hk]; rfl
    · right
      refine ⟨hk, ?_⟩
      have hlt : key < L[r].1 := lt_of_le_of_ne (not_lt.1 h5) (Ne.symm hk)
      intro e he
      rw [hd] at he
      rcases List.mem_cons.1 he with e' | he
      · rw [e']; exact hlt
      · have hpd : (L.drop r).Pairwise (fun a b => a.1 < b.1) := List.Pairwise.sublist (List.drop_sublist r L) hL
        rw [hd] at hpd
        exact lt_trans hlt ((List.pairwise_cons.1 hpd).1 e he)
  · right
    have hr : r = (h.pages p).count := by omega
    rw [List.drop_of_length_le (by omega)]
    refine ⟨?_, by simp⟩
    rw [hr]
    apply hout
    rw [List.take_of_length_le (by omega)] at hless
    exact hless

/-- A map with at most one page of values.  Every cell of every page has never been used, or has the key of an
element of the map or of an erased one. -/
structure Small (m : MCfg K V) (h : Heap (Cell K V)) (L : List (K × V)) (dead : K → Prop) (pss : Nat → List Nat) (fs : List Nat) (lists : Nat → List (Cell K V)) : Prop where
  inv : CInv (cfgs m) ⟨h, lists⟩ pss fs
  vals : lists 0 = L.map cellOf
  sorted : L.Pairwise (fun a b => a.1 < b.1)
  one : (pss 0).length ≤ 1
  path : pss 2 = []
  free : fs.length ≤ 1
  cells : ∀ p j, (h.pages p).items j = .zero ∨ ∃ k v, (h.pages p).items j = .val k v ∧ ((∃ e ∈ L, e.1 = k) ∨ dead k)

theorem Small.drop {m : MCfg K V} {h : Heap (Cell K V)} {L : List (K × V)} {dead : K → Prop} {pss : Nat → List Nat} {fs : List Nat} {lists : Nat → List (Cell K V)} (ok : m.Ok)
    (t : Small m h L dead pss fs lists) : dropPath m h = h := by
  have hm := ok.max
  have hc := t.inv.cont 2
  have hown : Own h 3 (pss 2) := hc.own
  rw [t.path] at hown
  have ht : (h.states 3).total = (lists 2).length := t.inv.total 2
  have hl : contents h (pss 2) = lists 2 := t.inv.items 2
  rw [t.path, contents_nil] at hl
  rw [← hl] at ht
  unfold dropPath clear
  rw [canLock_of (by simp; omega), if_neg (by decide)]
  unfold splice
  rw [if_pos (own_empty hown)]
  apply setState_self
  have h1 : (h.states 3).front = nil := hown.front
  have h2 : (h.states 3).back = nil := hown.back
  cases hst : h.states 3 with
  | mk a b c =>
    rw [hst] at h1 h2 ht
    simp only at h1 h2 ht
    rw [h1, h2, ht]
    rfl

/-- What a search finds in a small map. -/
structure SmallFound (m : MCfg K V) (h : Heap (Cell K V)) (L : List (K × V)) (key : K) (pss : Nat → List Nat) (f : Found K V) : Prop where
  heap : f.heap = h
  path : f.path = []
  res : (pss 0 = [] ∧ L = [] ∧ f.itr = noItr ∧ f.ok = false) ∨
    ∃ p i La Lb, pss 0 = [p] ∧ ValueFound m h key [] p [] L i La Lb ∧ f.itr = ⟨p, i, .none⟩ ∧ f.ok = decide (valKey m ((h.pages p).items i) = key)

theorem small_find {m : MCfg K V} {h : Heap (Cell K V)} {L : List (K × V)} {dead : K → Prop} {pss : Nat → List Nat} {fs : List Nat} {lists : Nat → List (Cell K V)} {key : K} (ok : m.Ok)
    (t : Small m h L dead pss fs lists) (hd : ¬ dead key) (hz : key ≠ m.zeroKey ∨ ∀ e ∈ L, m.zeroKey ≤ e.1) (hsp : m.spare = true ∨ L.length < m.capV) :
    nilItem < h.len ∨ SmallFound m h L key pss (find2 m h 0 key) := by
  have hm := ok.max
  have hcont : contents h (pss 0) = L.map cellOf := by rw [← t.vals]; exact t.inv.items 0
  have hf : (h.states 1).front = (pss 0).headD nil := (t.inv.cont 0).own.front
  unfold find2 findPage
  rw [if_pos rfl]
  simp only
  cases hps : pss 0 with
  | nil =>
    right
    rw [hps] at hf hcont
    have hL : L = [] := List.map_eq_nil_iff.1 hcont.symm
    rw [hf, if_pos (show ([] : List Nat).headD nil = nil from rfl)]
    exact ⟨rfl, rfl, Or.inl ⟨hps, hL, rfl, rfl⟩⟩
  | cons p ps =>
    have hps1 : ps = [] := by have := t.one; rw [hps, List.length_cons] at this; exact List.eq_nil_of_length_eq_zero (by omega)
    subst hps1
    have hpm : p ∈ pss 0 := by rw [hps]; simp
    have hpn := (t.inv.cont 0).own.nn p hpm
    have hrange : 2 ≤ p ∧ p < h.len := t.inv.range 0 p hpm
    have hcnt : 1 ≤ (h.pages p).count ∧ (h.pages p).count ≤ m.capV := (t.inv.cont 0).cnt p hpm
    have hcv := ok.capV
    rw [hps, contents_cons, contents_nil, List.append_nil] at hcont
    have hlen : L.length = (h.pages p).count := by have := congrArg List.length hcont; simpa using this.symm
    by_cases hn : nilItem < h.len
    · exact Or.inl hn
    · right
      rw [hps] at hf
      have hf' : (h.states 1).front = p := hf
      rw [hf', if_neg hpn, canLock_of (by simp; omega), if_neg (by decide)]
      obtain ⟨La, Lb, hv⟩ := value_small (m := m) (key := key) hcont t.sorted (by
        intro hall
        rcases t.cells p (h.pages p).count with hz0 | ⟨k, v, hcell, hk⟩
        · rw [hz0]
          show m.zeroKey ≠ key
          intro e
          rcases hz with hz | hz
          · exact hz e.symm
          · cases L with
            | nil => simp at hlen; omega
            | cons e0 L =>
              exact absurd (hall e0 (by simp)) (not_lt.2 (e ▸ hz e0 (by simp)))
        · rw [hcell]
          show k ≠ key
          intro e
          rcases hk with ⟨e0, he0, hek⟩ | hk
          · exact absurd (hall e0 he0) (by rw [hek, e]; exact lt_irrefl _)
          · exact hd (e ▸ hk))
      have hle := hv.le
      have hchk : h.check (decide (valuePos m (h.pages p) key < m.capV) || m.spare) = h := by
        have : (decide (valuePos m (h.pages p) key < m.capV) || m.spare) = true := by
          rcases hsp with h1 | h1
          · rw [h1]; simp
          · rw [decide_eq_true (by omega)]; rfl
        rw [this]
        unfold Heap.check
        simp
      rw [hchk, if_pos ⟨by omega, by omega⟩]
      exact ⟨rfl, rfl, Or.inr ⟨p, _, La, Lb, hps, hv, rfl, rfl⟩⟩

/-- A small map between two calls. -/
def SInv (m : MCfg K V) (s : MSt K V) (L : List (K × V)) (dead : K → Prop) : Prop :=
  s.depth = 0 ∧ ∃ pss fs lists, Small m s.heap L dead pss fs lists

theorem small_seek {m : MCfg K V} {s : MSt K V} {L : List (K × V)} {dead : K → Prop} {key : K} (ok : m.Ok) (v : SInv m s L dead) (hd : ¬ dead key)
    (hz : key ≠ m.zeroKey ∨ ∀ e ∈ L, m.zeroKey ≤ e.1) (hsp : m.spare = true ∨ L.length < m.capV) :
    nilItem < (s.find m key).1.heap.len ∨
      (SInv m (s.find m key).1 L dead ∧ seen m (s.find m key).1.heap (s.find m key).2 = (L.find? (fun e => e.1 = key)).map cellOf) := by
  obtain ⟨d0, pss, fs, lists, t⟩ := v
  have hlen := (find_len m s key).1
  rcases small_find ok t hd hz hsp with hf | o
  · left; omega
  · right
    unfold MSt.find
    simp only
    rw [d0]
    rw [o.heap, t.drop ok]
    refine ⟨⟨rfl, pss, fs, lists, t⟩, ?_⟩
    rcases o.res with ⟨_, hL, _, hok⟩ | ⟨p, i, La, Lb, hps, hv, hitr, hok⟩
    · rw [hok, hL]
      exact seen_end ..
    · have hpm : p ∈ pss 0 := by rw [hps]; simp
      have hpn : p ≠ nil := (t.inv.cont 0).own.nn p hpm
      rcases hv.res with ⟨hk, hi, v, Lb', hLb, hit⟩ | ⟨hk, hgt⟩
      · rw [hok, decide_eq_true hk, if_pos rfl, hitr, find?_some (by rw [hv.split, hLb]) hv.less]
        have hcap : (s.heap.pages p).count ≤ m.capV := ((t.inv.cont 0).cnt p hpm).2
        have := ok.capV
        rw [seen_of ok hpn (by omega), hit]; rfl
      · rw [hok, decide_eq_false hk, find?_none hv.split hv.less hgt]
        exact seen_end ..

theorem small_insert {m : MCfg K V} {s : MSt K V} {L : List (K × V)} {dead : K → Prop} {key : K} {val : V} (ok : m.Ok) (v : SInv m s L dead) (hd : ¬ dead key)
    (hz : key ≠ m.zeroKey ∨ ∀ e ∈ L, m.zeroKey ≤ e.1) (hsp : m.spare = true ∨ L.length < m.capV) (hsize : L.find? (fun e => e.1 = key) = none → L.length < m.capV) :
    m.limit ≤ (s.insert m key val).1.heap.len ∨ nilItem < (s.insert m key val).1.heap.len ∨ ∃ L', SInv m (s.insert m key val).1 L' dead ∧
      (match L.find? (fun e => e.1 = key) with
        | some e => L' = L ∧ (s.insert m key val).2.2 = false ∧ seen m (s.insert m key val).1.heap (s.insert m key val).2.1 = some (cellOf e)
        | none => Added L L' key val ∧ (s.insert m key val).2.2 = true ∧ seen m (s.insert m key val).1.heap (s.insert m key val).2.1 = some (.val key val)) := by
  obtain ⟨d0, pss, fs, lists, t⟩ := v
  have hm := ok.max
  have hcv := ok.capV
  have hlen := (insert_len m s key val).1
  rcases small_find ok t hd hz hsp with hf | o
  · right; left; omega
  have w : World m.capV s.heap 1 (pss 0) fs := t.inv.world 0
  have hitems : contents s.heap (pss 0) = L.map cellOf := by rw [← t.vals]; exact t.inv.items 0
  have htot : (s.heap.states 1).total = L.length := by
    have : (s.heap.states 1).total = (lists 0).length := t.inv.total 0
    rw [this, t.vals, List.length_map]
  have hcells : ∀ (L' : List (K × V)) (r : Heap (Cell K V)), (∀ e ∈ L, e ∈ L') → (key, val) ∈ L' → (∀ q j, (r.pages q).items j = .val key val ∨ ∃ j', (r.pages q).items j = (s.heap.pages q).items j') →
      ∀ p j, (r.pages p).items j = .zero ∨ ∃ k v, (r.pages p).items j = .val k v ∧ ((∃ e ∈ L', e.1 = k) ∨ dead k) := by
    intro L' r h1 h2 h3 p j
    rcases h3 p j with h4 | ⟨j', h4⟩
    · exact Or.inr ⟨key, val, h4, Or.inl ⟨_, h2, rfl⟩⟩
    · rw [h4]
      rcases t.cells p j' with h5 | ⟨k, v, h5, ⟨e, he, hek⟩ | h6⟩
      · exact Or.inl h5
      · exact Or.inr ⟨k, v, h5, Or.inl ⟨e, h1 e he, hek⟩⟩
      · exact Or.inr ⟨k, v, h5, Or.inr h6⟩
  have hshift : ∀ (c k : Nat) (x : Cell K V) (f : Nat → Cell K V) (j : Nat), shiftIn c k x f j = x ∨ ∃ j', shiftIn c k x f j = f j' := by
    intro c k x f j
    unfold shiftIn
    split
    · exact Or.inl rfl
    · split
      · exact Or.inr ⟨_, rfl⟩
      · exact Or.inr ⟨_, rfl⟩
  unfold MSt.insert at hlen ⊢
  simp only at hlen ⊢
  rw [d0] at hlen ⊢
  rw [o.heap] at hlen ⊢
  rcases o.res with ⟨hp0, hL, hitr, hok⟩ | ⟨p, i, La, Lb, hps, hv, hitr, hok⟩
  · rw [hok, if_neg (by decide), hitr]
    rw [hp0] at w
    obtain ⟨r, hr, ho⟩ := insertFirst_spec (c := allCfg m m.capV) (held := []) (x := .val key val) (e := .none) w (by show 0 + 5 < m.max; omega) ok.limit ok.log (by show 1 ≤ m.capV; omega) t.free
    rw [show noItr = ⟨nil, nilItem, .none⟩ from rfl, hr]
    simp only
    rcases ho with ⟨h1, h2⟩ | ⟨n, fo⟩
    · left
      rw [dropPath_len]
      refine Nat.le_trans ?_ (updateInsert_len ..).1
      rw [h2]; exact h1
    · right; right
      have hup : updateInsert m r.heap 0 (find2 m s.heap 0 key).path r.lead0 r.lead1 = ⟨r.heap, 0, true⟩ := by
        unfold updateInsert
        rw [fo.lead0, fo.lead1, if_pos ⟨rfl, rfl⟩]
      rw [hup]
      simp only
      have hnn := fo.cont.own.nn n (by simp)
      have hit0 : (r.heap.pages n).items 0 = .val key val := by rw [fo.items]; simp [shiftIn]
      have hct : contents r.heap [n] = [.val key val] := by
        rw [contents_cons, contents_nil, List.append_nil]
        unfold pageItems
        rw [fo.count]
        simp [hit0]
      have hst : Step m.limit s.heap r.heap (0 + 1) (pss 0) [n] fs [] := by rw [hp0]; exact fo.step
      have inv' := CInv.step (k := 0) (l := [.val key val]) t.inv fo.cont hst hct (by show (r.heap.states 1).total = 1; rw [fo.total, htot, hL]; rfl)
      have t' : Small m r.heap [(key, val)] dead (fun j => if j = 0 then [n] else pss j) [] (setList lists 0 [.val key val]) := by
        refine ⟨inv', rfl, List.pairwise_singleton _ _, by simp, by simp [t.path], by simp, hcells _ _ (by rw [hL]; simp) (by simp) ?_⟩
        intro q j
        by_cases hq : q = n
        · subst hq
          rw [fo.items]
          exact hshift _ _ _ _ _
        · exact Or.inr ⟨j, by rw [(fo.other q hq).2]⟩
      rw [t'.drop ok, hL]
      refine ⟨_, ⟨rfl, _, _, _, t'⟩, ⟨[], [], rfl, rfl⟩, trivial, ?_⟩
      rw [if_pos trivial, fo.itr]
      show seen m _ ⟨n, 0, .none⟩ = _
      rw [seen_of ok hnn (by unfold nilItem; omega), hit0]
  · have hpm : p ∈ pss 0 := by rw [hps]; simp
    have hpn : p ≠ nil := (t.inv.cont 0).own.nn p hpm
    have hcap : (s.heap.pages p).count ≤ m.capV := ((t.inv.cont 0).cnt p hpm).2
    rcases hv.res with ⟨hk, hi, v, Lb', hLb, hit⟩ | ⟨hk, hgt⟩
    · right; right
      rw [hok, decide_eq_true hk, if_pos rfl, find?_some (by rw [hv.split, hLb]) hv.less]
      simp only
      rw [t.drop ok]
      refine ⟨L, ⟨rfl, pss, fs, lists, t⟩, rfl, trivial, ?_⟩
      rw [hitr, seen_of ok hpn (by omega), hit]; rfl
    · right; right
      have hnone := find?_none hv.split hv.less hgt
      have hroom := hsize hnone
      rw [hok, decide_eq_false hk, if_neg (by decide), hitr, hnone]
      rw [hps] at w hitems
      rw [contents_cons, contents_nil, List.append_nil] at hitems
      have hcount : (s.heap.pages p).count = L.length := by have := congrArg List.length hitems; simpa using this
      have hle := hv.le
      obtain ⟨r, hr, ro⟩ := insertRoom_spec (c := allCfg m m.capV) (as := []) (bs := []) (held := []) (x := .val key val) w hle (by show _ < m.capV; omega) (by show 0 < m.max; omega) hcv.2
      rw [hr]
      simp only
      have hup : updateInsert m r.heap 0 (find2 m s.heap 0 key).path r.lead0 r.lead1 = ⟨r.heap, 0, true⟩ := by
        unfold updateInsert
        rw [ro.lead0, ro.lead1, if_pos ⟨rfl, rfl⟩]
      rw [hup]
      simp only
      have hb := hv.before
      have ha := hv.after
      rw [contents_nil, List.nil_append] at hb
      rw [contents_nil, List.append_nil] at ha
      have hpi : pageItems (r.heap.pages p) = (La ++ (key, val) :: Lb).map cellOf := by
        unfold pageItems
        rw [ro.count, ro.items, shiftIn_items _ _ _ _ hle]
        show (pageItems (s.heap.pages p)).take i ++ _ :: (pageItems (s.heap.pages p)).drop i = _
        rw [hb, ha, List.map_append, List.map_cons]; rfl
      have hct : contents r.heap [p] = (La ++ (key, val) :: Lb).map cellOf := by
        rw [contents_cons, contents_nil, List.append_nil]; exact hpi
      have hst : Step m.limit s.heap r.heap (0 + 1) (pss 0) [p] fs fs := by rw [hps]; exact ro.step
      have inv' := CInv.step (k := 0) (l := (La ++ (key, val) :: Lb).map cellOf) t.inv ro.cont hst hct (by
        show (r.heap.states 1).total = _
        rw [ro.total, htot, List.length_map, hv.split]; simp; omega)
      have hsorted : (La ++ (key, val) :: Lb).Pairwise (fun a b => a.1 < b.1) := by
        have hL := t.sorted
        rw [hv.split, List.pairwise_append] at hL
        rw [List.pairwise_append, List.pairwise_cons]
        refine ⟨hL.1, ⟨hgt, hL.2.1⟩, ?_⟩
        intro a ha b hb
        rcases List.mem_cons.1 hb with e | hb
        · rw [e]; exact hv.less a ha
        · exact hL.2.2 a ha b hb
      have t' : Small m r.heap (La ++ (key, val) :: Lb) dead (fun j => if j = 0 then [p] else pss j) fs (setList lists 0 ((La ++ (key, val) :: Lb).map cellOf)) := by
        refine ⟨inv', rfl, hsorted, by simp, by simp [t.path], t.free, hcells _ _ (by rw [hv.split]; intro e he; simp at he ⊢; tauto) (by simp) ?_⟩
        intro q j
        by_cases hq : q = p
        · subst hq
          rw [ro.items]
          exact hshift _ _ _ _ _
        · exact Or.inr ⟨j, by rw [ro.other q hq]⟩
      rw [t'.drop ok]
      refine ⟨_, ⟨rfl, _, _, _, t'⟩, ⟨La, Lb, hv.split, rfl⟩, trivial, ?_⟩
      rw [if_pos trivial, ro.itr]
      show seen m _ ⟨p, i, .none⟩ = _
      rw [seen_of ok hpn (by omega), ro.items]
      simp [shiftIn]

theorem small_erase {m : MCfg K V} {s : MSt K V} {L : List (K × V)} {dead : K → Prop} {key : K} (ok : m.Ok) (v : SInv m s L dead) (hd : ¬ dead key)
    (hz : key ≠ m.zeroKey ∨ ∀ e ∈ L, m.zeroKey ≤ e.1) (hsp : m.spare = true ∨ L.length < m.capV) :
    nilItem < (s.erase m key).1.heap.len ∨
      (match L.find? (fun e => e.1 = key) with
        | some _ => SInv m (s.erase m key).1 (L.filter (fun e => e.1 ≠ key)) (fun k => dead k ∨ k = key) ∧ (s.erase m key).2 = 1
        | none => SInv m (s.erase m key).1 L dead ∧ (s.erase m key).2 = 0) := by
  obtain ⟨d0, pss, fs, lists, t⟩ := v
  have hm := ok.max
  have hcv := ok.capV
  have hlen := erase_len m s key
  rcases small_find ok t hd hz hsp with hf | o
  · left; omega
  right
  have w : World m.capV s.heap 1 (pss 0) fs := t.inv.world 0
  have hitems : contents s.heap (pss 0) = L.map cellOf := by rw [← t.vals]; exact t.inv.items 0
  have htot : (s.heap.states 1).total = L.length := by
    have : (s.heap.states 1).total = (lists 0).length := t.inv.total 0
    rw [this, t.vals, List.length_map]
  unfold MSt.erase
  simp only
  rw [d0, o.heap]
  rcases o.res with ⟨hp0, hL, hitr, hok⟩ | ⟨p, i, La, Lb, hps, hv, hitr, hok⟩
  · rw [hok, if_pos rfl, hL, t.drop ok]
    exact ⟨⟨rfl, pss, fs, lists, hL ▸ t⟩, rfl⟩
  · have hpm : p ∈ pss 0 := by rw [hps]; simp
    rcases hv.res with ⟨hk, hi, v, Lb', hLb, hit⟩ | ⟨hk, hgt⟩
    · rw [hok, decide_eq_true hk, if_neg (by decide), find?_some (by rw [hv.split, hLb]) hv.less, hitr]
      rw [hps] at w hitems
      rw [contents_cons, contents_nil, List.append_nil] at hitems
      obtain ⟨r, ps', fs', hr, oo⟩ := eraseOne_spec (c := allCfg m m.capV) (held := []) w t.free hi (by show 0 + 5 < m.max; omega) hcv.2
      rw [hr]
      simp only
      have hup : updateErase m r.heap 0 (find2 m s.heap 0 key).path r.lead0 r.lead1 = ⟨r.heap, 0, true⟩ := by
        unfold updateErase
        rw [o.path]
        simp [upErase]
      rw [hup]
      simp only
      have hb := hv.before
      have ha := hv.after
      rw [contents_nil, List.nil_append] at hb
      rw [contents_nil, List.append_nil, hLb] at ha
      have hd1 : (pageItems (s.heap.pages p)).drop (i + 1) = Lb'.map cellOf := by
        rw [← List.drop_drop, ha]; rfl
      have hsort := t.sorted
      rw [hv.split, hLb, List.pairwise_append, List.pairwise_cons] at hsort
      have hfilter : L.filter (fun e => e.1 ≠ key) = La ++ Lb' := by
        rw [hv.split, hLb, List.filter_append, List.filter_cons]
        rw [List.filter_eq_self.2 (fun e he => by simpa using ne_of_lt (hv.less e he)), List.filter_eq_self.2 (fun e he => by simpa using ne_of_gt (hsort.2.1.1 e he))]
        simp
      have hct : contents r.heap ps' = (La ++ Lb').map cellOf := by rw [oo.items, hb, hd1, List.map_append]
      have hst : Step m.limit s.heap r.heap (0 + 1) (pss 0) ps' fs fs' := by rw [hps]; exact oo.step
      have inv' := CInv.step (k := 0) (l := (La ++ Lb').map cellOf) t.inv oo.cont hst hct (by
        show (r.heap.states 1).total = _
        rw [oo.total, htot, List.length_map, hv.split, hLb]; simp)
      have t' : Small m r.heap (La ++ Lb') (fun k => dead k ∨ k = key) (fun j => if j = 0 then ps' else pss j) fs' (setList lists 0 ((La ++ Lb').map cellOf)) := by
        refine ⟨inv', rfl, ?_, by simpa using oo.one, by simp [t.path], oo.free, ?_⟩
        · rw [List.pairwise_append]
          exact ⟨hsort.1, hsort.2.1.2, fun a ha b hb => hsort.2.2 a ha b (List.mem_cons_of_mem _ hb)⟩
        · intro q j
          obtain ⟨j', hj'⟩ := oo.cells q j
          rw [hj']
          rcases t.cells q j' with h5 | ⟨k, v, h5, ⟨e, he, hek⟩ | h6⟩
          · exact Or.inl h5
          · refine Or.inr ⟨k, v, h5, ?_⟩
            by_cases hkk : k = key
            · exact Or.inr (Or.inr hkk)
            · left
              refine ⟨e, ?_, hek⟩
              rw [← hfilter, List.mem_filter]
              exact ⟨he, by simp [hek, hkk]⟩
          · exact Or.inr ⟨k, v, h5, Or.inr (Or.inl h6)⟩
      rw [t'.drop ok, hfilter]
      exact ⟨⟨rfl, _, _, _, t'⟩, trivial⟩
    · rw [hok, decide_eq_false hk, if_pos rfl, find?_none hv.split hv.less hgt]
      simp only
      rw [t.drop ok]
      exact ⟨⟨rfl, pss, fs, lists, t⟩, trivial⟩

/-- The key of a call. -/
def MOp.key : MOp K V → K
  | .insert k _ => k
  | .erase k => k
  | .find k => k

/-- The elements of the list of elements are those of the map. -/
theorem filter_perm {L t : List (K × V)} (hp : L.Perm t) (k : K) : (L.filter (fun e => e.1 ≠ k)).Perm (t.filter (fun e => e.1 ≠ k)) := hp.filter _

theorem SInv.sorted {m : MCfg K V} {s : MSt K V} {L : List (K × V)} {dead : K → Prop} (v : SInv m s L dead) : L.Pairwise (fun a b => a.1 < b.1) := by
  obtain ⟨_, _, _, _, t⟩ := v
  exact t.sorted

theorem small_run {m : MCfg K V} (ok : m.Ok) : ∀ (os : List (MOp K V)) (s : MSt K V) (L t : List (K × V)) (dead : K → Prop), SInv m s L dead → L.Perm t →
    (∀ o ∈ os, ¬ dead o.key) → (∀ pre k post, os = pre ++ .erase k :: post → (∃ e ∈ (spec t pre).1, e.1 = k) → ∀ o ∈ post, o.key ≠ k) →
    ((∀ o ∈ os, o.key ≠ m.zeroKey) ∨ ((∀ k v, .insert k v ∈ os → m.zeroKey ≤ k) ∧ ∀ e ∈ L, m.zeroKey ≤ e.1)) →
    (∀ pre, pre <+: os → (spec t pre).1.length ≤ m.capV ∧ (m.spare = true ∨ (spec t pre).1.length < m.capV)) →
    (s.run m os).1.heap.len < m.limit → (s.run m os).1.heap.len ≤ nilItem →
    ∃ L' dead', SInv m (s.run m os).1 L' dead' ∧ L'.Perm (spec t os).1 ∧ (s.run m os).2 = (spec t os).2 := by
  intro os
  induction os with
  | nil => intro s L t dead v hp _ _ _ _ _ _; exact ⟨L, dead, v, hp, rfl⟩
  | cons o os ih =>
    intro s L t dead v hp hdead hre hzero hsize h1 h2
    have hrest := run_len_all m os (s.step m o).1
    have hr : (s.run m (o :: os)).1 = ((s.step m o).1.run m os).1 := rfl
    have hr2 : (s.run m (o :: os)).2 = (s.step m o).2 :: ((s.step m o).1.run m os).2 := rfl
    rw [hr] at h1 h2 ⊢
    rw [hr2]
    have hd : ¬ dead o.key := hdead o (by simp)
    have hz : o.key ≠ m.zeroKey ∨ ∀ e ∈ L, m.zeroKey ≤ e.1 := by
      rcases hzero with hz | hz
      · exact Or.inl (hz o (by simp))
      · exact Or.inr hz.2
    have hsp : m.spare = true ∨ L.length < m.capV := by
      have := (hsize [] (List.nil_prefix)).2
      rw [hp.length_eq]; exact this
    have hfind := find?_perm (k := o.key) v.sorted hp
    have hzt : ∀ (L' : List (K × V)), (∀ e ∈ L', e ∈ L ∨ (∃ v, o = .insert e.1 v)) →
        ((∀ o ∈ os, o.key ≠ m.zeroKey) ∨ ((∀ k v, .insert k v ∈ os → m.zeroKey ≤ k) ∧ ∀ e ∈ L', m.zeroKey ≤ e.1)) := by
      intro L' hL'
      rcases hzero with hz | ⟨hz1, hz2⟩
      · exact Or.inl (fun o ho => hz o (by simp [ho]))
      · refine Or.inr ⟨fun k v h => hz1 k v (by simp [h]), ?_⟩
        intro e he
        rcases hL' e he with h | ⟨v, h⟩
        · exact hz2 e h
        · exact hz1 e.1 v (by rw [h]; simp)
    cases o with
    | find k =>
      replace hrest : (s.find m k).1.heap.len ≤ ((s.find m k).1.run m os).1.heap.len := hrest
      replace h1 : ((s.find m k).1.run m os).1.heap.len < m.limit := h1
      replace h2 : ((s.find m k).1.run m os).1.heap.len ≤ nilItem := h2
      rcases small_seek (key := k) ok v hd hz hsp with hf | ⟨v', hseen⟩
      · omega
      · obtain ⟨L', dead', v'', hp', ha⟩ := ih (s.find m k).1 L t dead v' hp (fun o ho => hdead o (by simp [ho]))
          (fun pre k' post e he => hre (.find k :: pre) k' post (by rw [e]; rfl) he) (hzt L (fun e he => Or.inl he))
          (fun pre hpre => hsize (.find k :: pre) (List.cons_prefix_cons.2 ⟨rfl, hpre⟩)) h1 h2
        refine ⟨L', dead', v'', hp', ?_⟩
        show _ :: _ = _ :: _
        rw [show ((s.step m (.find k)).1.run m os).2 = (spec t os).2 from ha, show t.find? (fun e => e.1 = k) = L.find? (fun e => e.1 = k) from hfind]
        show MAns.found _ :: _ = _
        rw [hseen]
        rfl
    | erase k =>
      replace hrest : (s.erase m k).1.heap.len ≤ ((s.erase m k).1.run m os).1.heap.len := hrest
      replace h1 : ((s.erase m k).1.run m os).1.heap.len < m.limit := h1
      replace h2 : ((s.erase m k).1.run m os).1.heap.len ≤ nilItem := h2
      replace hfind : t.find? (fun e => e.1 = k) = L.find? (fun e => e.1 = k) := hfind
      rcases small_erase (key := k) ok v hd hz hsp with hf | hres
      · omega
      · have hspec : spec t (.erase k :: os) = ((spec (t.filter (fun e => e.1 ≠ k)) os).1, .erased (if (t.find? (fun e => e.1 = k)).isSome then 1 else 0) :: (spec (t.filter (fun e => e.1 ≠ k)) os).2) := rfl
        rw [hspec, hfind]
        have hsz : ∀ pre, pre <+: os → (spec (t.filter (fun e => e.1 ≠ k)) pre).1.length ≤ m.capV ∧ (m.spare = true ∨ (spec (t.filter (fun e => e.1 ≠ k)) pre).1.length < m.capV) :=
          fun pre hpre => hsize (.erase k :: pre) (List.cons_prefix_cons.2 ⟨rfl, hpre⟩)
        have hre' : ∀ pre k' post, os = pre ++ .erase k' :: post → (∃ e ∈ (spec (t.filter (fun e => e.1 ≠ k)) pre).1, e.1 = k') → ∀ o ∈ post, o.key ≠ k' :=
          fun pre k' post e he => hre (.erase k :: pre) k' post (by rw [e]; rfl) he
        cases hL : L.find? (fun e => e.1 = k) with
        | none =>
          rw [hL] at hres
          have hLk : L.filter (fun e => e.1 ≠ k) = L := by
            rw [List.filter_eq_self]
            intro e he
            have := List.find?_eq_none.1 hL e he
            simpa using this
          have hp2 := filter_perm hp k
          rw [hLk] at hp2
          obtain ⟨L', dead', v'', hp', ha⟩ := ih (s.erase m k).1 L _ dead hres.1 hp2 (fun o ho => hdead o (by simp [ho])) hre' (hzt L (fun e he => Or.inl he)) hsz h1 h2
          refine ⟨L', dead', v'', hp', ?_⟩
          show MAns.erased _ :: _ = _
          rw [hres.2, show ((s.step m (.erase k)).1.run m os).2 = _ from ha]
          rfl
        | some e0 =>
          rw [hL] at hres
          have he0 : e0 ∈ t ∧ e0.1 = k := by
            rw [hL] at hfind
            exact ⟨List.mem_of_find?_eq_some hfind, by simpa using List.find?_some hfind⟩
          have hnew : ∀ o ∈ os, o.key ≠ k := hre [] k os rfl ⟨e0, he0.1, he0.2⟩
          obtain ⟨L', dead', v'', hp', ha⟩ := ih (s.erase m k).1 _ _ _ hres.1 (filter_perm hp k) (fun o ho hx => by
              rcases hx with hx | hx
              · exact hdead o (by simp [ho]) hx
              · exact hnew o ho hx) hre' (hzt _ (fun e he => Or.inl (List.mem_filter.1 he).1)) hsz h1 h2
          refine ⟨L', dead', v'', hp', ?_⟩
          show MAns.erased _ :: _ = _
          rw [hres.2, show ((s.step m (.erase k)).1.run m os).2 = _ from ha]
          rfl
    | insert k x =>
      replace hrest : (s.insert m k x).1.heap.len ≤ ((s.insert m k x).1.run m os).1.heap.len := hrest
      replace h1 : ((s.insert m k x).1.run m os).1.heap.len < m.limit := h1
      replace h2 : ((s.insert m k x).1.run m os).1.heap.len ≤ nilItem := h2
      replace hfind : t.find? (fun e => e.1 = k) = L.find? (fun e => e.1 = k) := hfind
      have hroom : L.find? (fun e => e.1 = k) = none → L.length < m.capV := by
        intro hn
        rw [hn] at hfind
        have := (hsize [.insert k x] (List.cons_prefix_cons.2 ⟨rfl, List.nil_prefix⟩)).1
        unfold spec at this
        rw [hfind] at this
        simp only [spec, List.length_append, List.length_cons, List.length_nil] at this
        rw [hp.length_eq]; omega
      rcases small_insert (key := k) (val := x) ok v hd hz hsp hroom with hf | hf | ⟨L1, v', hres⟩
      · omega
      · omega
      · cases hL : L.find? (fun e => e.1 = k) with
        | some e =>
          rw [hL] at hres hfind
          obtain ⟨rfl, hb, hseen⟩ := hres
          have hspec : ∀ os, spec t (.insert k x :: os) = ((spec t os).1, .inserted false (some (.val e.1 e.2)) :: (spec t os).2) := by
            intro os
            conv_lhs => unfold spec
            rw [hfind]
          rw [hspec]
          obtain ⟨L', dead', v'', hp', ha⟩ := ih (s.insert m k x).1 L1 t dead v' hp (fun o ho => hdead o (by simp [ho]))
            (fun pre k' post e' he => hre (.insert k x :: pre) k' post (by rw [e']; rfl) (by rw [hspec]; exact he)) (hzt L1 (fun e he => Or.inl he))
            (fun pre hpre => by have := hsize (.insert k x :: pre) (List.cons_prefix_cons.2 ⟨rfl, hpre⟩); rw [hspec] at this; exact this) h1 h2
          refine ⟨L', dead', v'', hp', ?_⟩
          show MAns.inserted _ _ :: _ = _
          rw [hb, hseen, show ((s.step m (.insert k x)).1.run m os).2 = _ from ha]
          rfl
        | none =>
          rw [hL] at hres hfind
          obtain ⟨⟨La, Lb, e1, e2⟩, hb, hseen⟩ := hres
          have hspec : ∀ os, spec t (.insert k x :: os) = ((spec (t ++ [(k, x)]) os).1, .inserted true (some (.val k x)) :: (spec (t ++ [(k, x)]) os).2) := by
            intro os
            conv_lhs => unfold spec
            rw [hfind]
          have hp1 : L1.Perm (t ++ [(k, x)]) := by
            rw [e2]
            refine List.Perm.trans List.perm_middle ?_
            rw [← e1]
            exact List.Perm.trans (List.Perm.cons _ hp) (List.perm_append_singleton _ _).symm
          rw [hspec]
          have hL1 : ∀ e ∈ L1, e ∈ L ∨ ∃ v, (MOp.insert k x : MOp K V) = .insert e.1 v := by
            intro e he
            rw [e2] at he
            rcases List.mem_append.1 he with h | h
            · left; rw [e1]; simp [h]
            · rcases List.mem_cons.1 h with h | h
              · right; rw [h]; exact ⟨x, rfl⟩
              · left; rw [e1]; simp [h]
          obtain ⟨L', dead', v'', hp', ha⟩ := ih (s.insert m k x).1 L1 _ dead v' hp1 (fun o ho => hdead o (by simp [ho]))
            (fun pre k' post e' he => hre (.insert k x :: pre) k' post (by rw [e']; rfl) (by rw [hspec]; exact he)) (hzt L1 hL1)
            (fun pre hpre => by have := hsize (.insert k x :: pre) (List.cons_prefix_cons.2 ⟨rfl, hpre⟩); rw [hspec] at this; exact this) h1 h2
          refine ⟨L', dead', v'', hp', ?_⟩
          show MAns.inserted _ _ :: _ = _
          rw [hb, hseen, show ((s.step m (.insert k x)).1.run m os).2 = _ from ha]

theorem SInv.init (m : MCfg K V) : SInv m .init [] (fun _ => False) :=
  ⟨rfl, fun _ => [], [], fun _ => [], cInv_init (cfgs m) (Cell.zero (K := K) (V := V)), rfl, List.Pairwise.nil, by simp, rfl, by simp, fun _ _ => Or.inl rfl⟩

/-- C30, for maps that never have more elements than a page has room for, and clients that do not use a key
again after they have erased it: all answers are those of a list of elements, `size()` is its length and
iterating shows its elements in order.  Missing from the whole claim: keys that are used again, larger maps, and
the all-zero key when there are smaller ones.  The first two are violations. -/
theorem C30_small_partial (m : MCfg K V) (ok : m.Ok) (os : List (MOp K V))
    (hsmall : ∀ pre, pre <+: os → (spec [] pre).1.length ≤ m.capV ∧ (m.spare = true ∨ (spec [] pre).1.length < m.capV))
    (hagain : ∀ pre k post, os = pre ++ .erase k :: post → (∃ e ∈ (spec [] pre).1, e.1 = k) → ∀ o ∈ post, o.key ≠ k)
    (hzero : (∀ o ∈ os, o.key ≠ m.zeroKey) ∨ ∀ k v, .insert k v ∈ os → m.zeroKey ≤ k)
    (hroom : (MSt.run m .init os).1.heap.len < m.limit) (hnil : (MSt.run m .init os).1.heap.len ≤ nilItem) : Behaves m os := by
  obtain ⟨L, dead, v, hp, ha⟩ := small_run ok os .init [] [] (fun _ => False) (SInv.init m) (List.Perm.refl _) (fun _ _ => id) hagain
    (hzero.imp id (fun h => ⟨h, by simp⟩)) hsmall hroom hnil
  obtain ⟨_, pss, fs, lists, t⟩ := v
  have hbad : (MSt.run m .init os).1.heap.bad = false := t.inv.bad
  have htot : ((MSt.run m .init os).1.heap.states 1).total = (lists 0).length := t.inv.total 0
  have hcont : contents (MSt.run m .init os).1.heap (pss 0) = lists 0 := t.inv.items 0
  have c : Cont m.capV (MSt.run m .init os).1.heap 1 (pss 0) := t.inv.cont 0
  refine ⟨hbad, ha, ?_, L, t.sorted, fun e => hp.mem_iff, ?_⟩
  · rw [htot, t.vals, List.length_map, hp.length_eq]
  · have h0 := at_begin c
    have hw := cwalk_at (max := m.max) (held := []) c ok.capV.2 (by have := ok.max; simp; omega) _ _ _ 1 h0
    rw [hcont, t.vals, List.length_map, List.map_map] at hw
    exact hw

def smallOps : List (MOp Nat Nat) := [.insert 5 1, .insert 3 2, .insert 9 3, .insert 7 4, .find 10, .erase 3, .find 8, .insert 4 5, .erase 9, .erase 5, .insert 5000 0, .erase 8, .insert 8 1,
  .erase 7, .erase 4, .erase 5000, .erase 8, .insert 1 1, .find 1, .find 0, .insert 1 2]

example : Behaves (smallCfg 0 4 true) smallOps :=
  C30_small_partial (smallCfg 0 4 true) (smallCfg_ok 0 true) smallOps
    (by
      intro pre hpre
      have hall : ∀ n ∈ List.range 22, (spec [] (smallOps.take n)).1.length ≤ 4 := by decide +kernel
      rw [List.prefix_iff_eq_take.1 hpre]
      have hl : pre.length ≤ 21 := hpre.length_le
      exact ⟨hall _ (List.mem_range.2 (by omega)), Or.inl rfl⟩)
    (by
      intro pre k post e hin o ho
      have hall : ∀ n ∈ List.range 22, ∀ k ∈ (match smallOps[n]? with | some (.erase k) => [k] | _ => []), (∃ e ∈ (spec [] (smallOps.take n)).1, e.1 = k) →
          ∀ o ∈ smallOps.drop (n + 1), o.key ≠ k := by decide +kernel
      have hl : pre.length < 21 := by
        have := congrArg List.length e
        have h21 : smallOps.length = 21 := rfl
        rw [h21, List.length_append, List.length_cons] at this
        omega
      refine hall pre.length (List.mem_range.2 (by omega)) k ?_ ?_ o ?_
      · rw [e]; simp
      · rw [e, List.take_left']
        · exact hin
        · rfl
      · rw [e, List.drop_append]
        exact List.mem_append_right _ (by simpa using ho))
    (Or.inr (fun _ _ _ => Nat.zero_le _)) (by decide +kernel) (by decide +kernel)

end Abc.Vmem.Map
