import Verif.Vmem.MapSmall

/-! # Erasing from maps of any depth (C30) -/

namespace Abc.Vmem.Pages

variable {α : Type}

/-- After an item of page `p` was erased, no neighbour has room for the rest of the page. -/
def NoMerge (cap : Nat) (h : Heap α) (p : Nat) : Prop :=
  cap < 2 * ((h.pages p).count - 1) ∨
    ((h.pages p).next = nil ∨ cap < (h.pages p).count - 1 + (h.pages (h.pages p).next).count) ∧
    ((h.pages p).prev = nil ∨ cap < (h.pages p).count - 1 + (h.pages (h.pages p).prev).count)

instance (cap : Nat) (h : Heap α) (p : Nat) : Decidable (NoMerge cap h p) := by unfold NoMerge; infer_instance

theorem eraseFromMany_lead1 (h : Heap α) (sid : Nat) (i : Itr) : (eraseFromMany h sid i).lead1 = .default := by
  unfold eraseFromMany; simp only; split <;> rfl

theorem eraseFromMany_lead0 (h : Heap α) (sid : Nat) (i : Itr) (hi : 0 < i.item) : (eraseFromMany h sid i).lead0 = .default := by
  unfold eraseFromMany; simp only
  split
  · show (if i.item = 0 then _ else _) = _
    rw [if_neg (by omega)]
  · rfl

/-- What the items of the page are after the erasure. -/
theorem eraseFromMany_items (h : Heap α) (sid p k : Nat) : ∀ j, ((eraseFromMany h sid ⟨p, k, .none⟩).heap.pages p).items j = shiftOut (h.pages p).count k (h.pages p).items j := by
  intro j
  unfold eraseFromMany; simp only
  split
  · rw [mod_pages_same]
  · rename_i hk
    rw [mod_pages_same]
    unfold shiftOut
    rw [if_neg (by omega)]

theorem balanceMerge_keep {c : Cfg} {held : List Nat} {g : Heap α} {sid p : Nat} {i : Itr}
    (h1 : (g.pages p).next = nil ∨ c.cap < (g.pages p).count + (g.pages (g.pages p).next).count)
    (h2 : (g.pages p).prev = nil ∨ c.cap < (g.pages p).count + (g.pages (g.pages p).prev).count) :
    balanceMerge c held g sid i p = ⟨g, some i, .default, .default⟩ := by
  have hn : mergeNext c (p :: held) g sid i p = ⟨g, some i, .default, .default⟩ ∨ (g.pages p).next = nil := by
    rcases h1 with h1 | h1
    · exact Or.inr h1
    · left
      unfold mergeNext
      simp only
      split
      · rfl
      · rw [if_neg (by omega)]
  have hp : mergePrev c held g sid i p = ⟨g, some i, .default, .default⟩ ∨ (g.pages p).prev = nil := by
    rcases h2 with h2 | h2
    · exact Or.inr h2
    · left
      unfold mergePrev
      simp only
      split
      · rfl
      · rw [if_neg (by omega)]
  have hr : (if (g.pages p).next = nil then (⟨g, some i, .default, .default⟩ : Res α) else mergeNext c (p :: held) g sid i p) = ⟨g, some i, .default, .default⟩ := by
    split
    · rfl
    · rcases hn with hn | hn
      · exact hn
      · contradiction
  unfold balanceMerge
  simp only
  rw [hr]
  simp only
  split
  · rfl
  · rcases hp with hp | hp
    · exact hp
    · contradiction

/-- An erasure that does not change the pages of the container. -/
theorem erase2_keep {c : Cfg} {held : List Nat} {h : Heap α} {sid p k : Nat} {as bs fs : List Nat} (w : World c.cap h sid (as ++ p :: bs) fs)
    (hk : k < (h.pages p).count) (hmany : 1 < (h.pages p).count) (hm : held.length + 5 < c.max) (hcap : c.cap < nilItem) (hno : NoMerge c.cap h p) :
    ∃ r, erase2 c held h sid ⟨p, k, .none⟩ = some r ∧ r.lead1 = .default ∧ r.lead0 = (eraseFromMany h sid ⟨p, k, .none⟩).lead0 ∧
      r.heap = (eraseFromMany h sid ⟨p, k, .none⟩).heap.setState sid { h.states sid with total := (h.states sid).total - 1 } := by
  obtain ⟨i', hi, hc, hst, hs, hcnt, hoth, _, _, hln, _⟩ := eraseFromMany_spec 0 w hk hmany
  have hl1 := eraseFromMany_lead1 h sid ⟨p, k, .none⟩
  have own := w.cont.own
  have hnd1 := List.nodup_append.1 own.nodup
  have hpb : p ∉ bs := (List.nodup_cons.1 hnd1.2.1).1
  have hpa : p ∉ as := fun hx => hnd1.2.2 p hx p (by simp) rfl
  have hpn : p ≠ nil := own.nn p (by simp)
  have hnx : (h.pages p).next = nil ∨ (h.pages p).next ≠ p := by
    rw [next_eq own]
    cases bs with
    | nil => exact Or.inl rfl
    | cons b bs' => right; intro e; exact hpb (by rw [← e]; simp)
  have hpv : (h.pages p).prev = nil ∨ (h.pages p).prev ≠ p := by
    rw [prev_eq own]
    rcases List.eq_nil_or_concat as with e | ⟨as', a, e⟩
    · left; rw [e]; rfl
    · right
      rw [e]
      intro e2
      have : a = p := by simpa [List.getLastD_concat] using e2
      exact hpa (by rw [e, this]; simp)
  have hcp := (w.cont.cnt p (by simp)).2
  have hd : canDeref ⟨p, k, .none⟩ = true := by
    have h3 : k ≠ nilItem := by omega
    simp [canDeref, hpn, h3]
  have hn : ceraseNostate c held h sid ⟨p, k, .none⟩ = ⟨(eraseFromMany h sid ⟨p, k, .none⟩).heap, some i', (eraseFromMany h sid ⟨p, k, .none⟩).lead0, .default⟩ := by
    unfold ceraseNostate
    rw [canLock_of (by omega), if_neg (by decide), if_pos hmany]
    simp only
    generalize eraseFromMany h sid ⟨p, k, .none⟩ = r at *
    split
    · rename_i hb
      rw [Bool.and_eq_true, decide_eq_true_eq, hcnt] at hb
      rcases hno with hno | ⟨h1, h2⟩
      · omega
      · rw [balanceMerge_keep]
        · rw [hi]; rfl
        · rcases h1 with h1 | h1
          · left; rw [(hln p).2.2]; exact h1
          · rcases hnx with hnx | hnx
            · left; rw [(hln p).2.2]; exact hnx
            · right; rw [(hln p).2.2, hcnt, hoth _ hnx]; exact h1
        · rcases h2 with h2 | h2
          · left; rw [(hln p).2.1]; exact h2
          · rcases hpv with hpv | hpv
            · left; rw [(hln p).2.1]; exact hpv
            · right; rw [(hln p).2.1, hcnt, hoth _ hpv]; exact h2
    · rw [← hi, ← hl1]
  refine ⟨⟨(eraseFromMany h sid ⟨p, k, .none⟩).heap.setState sid { h.states sid with total := (h.states sid).total - 1 }, some i', (eraseFromMany h sid ⟨p, k, .none⟩).lead0, .default⟩, ?_, rfl, rfl, rfl⟩
  unfold erase2
  rw [hd, if_neg (by decide), hn]
  simp only
  rw [hs]

end Abc.Vmem.Pages

namespace Abc.Vmem.Map

open Abc.Vmem.Pages

variable {K V : Type} [LinearOrder K] {D : K → Prop}

/-- The key is not the first of its page (unless the map is that page), and its page keeps elements and is not merged with a neighbour. -/
def Inner (m : MCfg K V) (s : MSt K V) (k : K) : Prop :=
  let f := find2 m s.heap s.depth k
  1 < (f.heap.pages f.itr.page).count ∧ (s.depth = 0 ∨ 0 < f.itr.item) ∧ NoMerge m.capV f.heap f.itr.page

instance (m : MCfg K V) (s : MSt K V) (k : K) : Decidable (Inner m s k) := by unfold Inner; infer_instance

omit [LinearOrder K] in
theorem Stale.mono {D D' : K → Prop} (hd : ∀ k, D k → D' k) {h : Heap (Cell K V)} {ps : List Nat} (st : Stale D h ps) : Stale D' h ps := by
  intro p hp j hj
  rcases st p hp j hj with h1 | ⟨k, v, h1, h2⟩
  · exact Or.inl h1
  · exact Or.inr ⟨k, v, h1, h2.imp (hd k) id⟩

theorem filter_split {L La Lb : List (K × V)} {key : K} {v : V} (hL : L.Pairwise (fun a b => a.1 < b.1)) (h : L = La ++ (key, v) :: Lb) :
    L.filter (fun e => e.1 ≠ key) = La ++ Lb := by
  rw [h] at hL ⊢
  obtain ⟨_, h2, h3⟩ := List.pairwise_append.1 hL
  rw [List.filter_append, List.filter_cons, if_neg (by simp), List.filter_eq_self.2, List.filter_eq_self.2]
  · intro e he
    have := List.rel_of_pairwise_cons h2 he
    simpa using ne_of_gt this
  · intro e he
    have := h3 e he (key, v) (by simp)
    simpa using ne_of_lt this

omit [LinearOrder K] in
/-- What is left in the pages after the erasure of a key. -/
theorem stale_erase {h g : Heap (Cell K V)} {as bs : List Nat} {p i : Nat} {key : K} {v : V} {u w : List (Cell K V)}
    (st : Stale D h (as ++ p :: bs)) (hold : contents h (as ++ p :: bs) = u ++ .val key v :: w) (hnew : contents g (as ++ p :: bs) = u ++ w)
    (hvals : ∀ x ∈ contents h (as ++ p :: bs), ∃ k v, x = .val k v)
    (hcnt : (g.pages p).count = (h.pages p).count - 1) (hmany : 1 < (h.pages p).count)
    (hit : ∀ j, (g.pages p).items j = shiftOut (h.pages p).count i (h.pages p).items j) (hoth : ∀ q, q ≠ p → g.pages q = h.pages q) :
    Stale (fun k => D k ∨ k = key) g (as ++ p :: bs) := by
  have live : ∀ k v', .val k v' ∈ contents h (as ++ p :: bs) → (D k ∨ k = key) ∨ ∃ v'', .val k v'' ∈ contents g (as ++ p :: bs) := by
    intro k v' hx
    rw [hold] at hx
    rw [hnew]
    rcases List.mem_append.1 hx with hx | hx
    · exact Or.inr ⟨v', List.mem_append_left _ hx⟩
    · rcases List.mem_cons.1 hx with hx | hx
      · injection hx with h1 h2
        exact Or.inl (Or.inr h1)
      · exact Or.inr ⟨v', List.mem_append_right _ hx⟩
  have dead : ∀ x : Cell K V, (x = .zero ∨ ∃ k v, x = .val k v ∧ (D k ∨ ∃ v', .val k v' ∈ contents h (as ++ p :: bs))) →
      x = .zero ∨ ∃ k v, x = .val k v ∧ ((D k ∨ k = key) ∨ ∃ v', .val k v' ∈ contents g (as ++ p :: bs)) := by
    intro x hx
    rcases hx with hx | ⟨k, v, hx, hd | ⟨v', hl⟩⟩
    · exact Or.inl hx
    · exact Or.inr ⟨k, v, hx, Or.inl (Or.inl hd)⟩
    · exact Or.inr ⟨k, v, hx, live k v' hl⟩
  intro q hq j hj
  by_cases e : q = p
  · subst e
    rw [hit]
    unfold shiftOut
    rw [hcnt] at hj
    rw [if_neg (by omega)]
    by_cases hjc : (h.pages q).count ≤ j
    · exact dead _ (st q hq j hjc)
    · have hmem : (h.pages q).items j ∈ contents h (as ++ q :: bs) := by
        rw [contents_append, contents_cons]
        refine List.mem_append_right _ (List.mem_append_left _ ?_)
        have := pageItems_get (q := h.pages q) (i := j) (by omega)
        exact List.mem_of_getElem? this
      obtain ⟨k, v', hx⟩ := hvals _ hmem
      rw [hx] at hmem ⊢
      exact Or.inr ⟨k, v', rfl, live k v' hmem⟩
  · rw [hoth q e] at hj ⊢
    exact dead _ (st q hq j hj)

theorem erase_spec {m : MCfg K V} {s : MSt K V} {L : List (K × V)} {key : K} (ok : m.Ok) (hsp : m.spare = true) (v : MInv m D s L) (hcp : s.depth ≤ m.capP)
    (hz : ∀ e ∈ L, m.zeroKey ≤ e.1) (hD : ¬ D key) (hin : (L.find? (fun e => e.1 = key)).isSome = true → Inner m s key) :
    m.limit ≤ (s.erase m key).1.heap.len ∨ nilItem < (s.erase m key).1.heap.len ∨
      (match L.find? (fun e => e.1 = key) with
        | some _ => MInv m (fun k => D k ∨ k = key) (s.erase m key).1 (L.filter (fun e => e.1 ≠ key)) ∧ (s.erase m key).2 = 1
        | none => MInv m D (s.erase m key).1 L ∧ (s.erase m key).2 = 0) := by
  obtain ⟨pss, fs, lists, t, h2, hfs, hfs0⟩ := v
  have hm := ok.max
  have hcv := ok.capV
  have hfl := find2_spec (key := key) ok hsp t h2 hfs hfs0 hcp hz hD
  have hlen : (find2 m s.heap s.depth key).heap.len ≤ (s.erase m key).1.heap.len := by
    unfold MSt.erase
    simp only
    split
    · show _ ≤ (dropPath m _).len
      rw [dropPath_len]
    · split
      · show _ ≤ (dropPath m _).len
        rw [dropPath_len]; exact Nat.le_refl _
      · rename_i r e
        show _ ≤ (dropPath m _).len
        rw [dropPath_len, updateErase_len, erase2_len e]
  rcases hfl with hfail | hfail | ⟨pss', lists', o⟩
  · exact Or.inl (Nat.le_trans hfail hlen)
  · exact Or.inr (Or.inl (Nat.lt_of_lt_of_le hfail hlen))
  right; right
  clear hlen
  unfold Inner at hin
  unfold MSt.erase
  simp only at hin ⊢
  generalize find2 m s.heap s.depth key = f at *
  rcases o.res with ⟨hd, hp0, hL, hitr, hok⟩ | ⟨as, p, bs, i, La, Lb, e0, hle, hv, hitr, hok, hu⟩
  · rw [if_pos hok, hL]
    exact ⟨MInv.drop ok (hL ▸ o.tree) o.path2 o.path0, rfl⟩
  rcases hv.res with ⟨hk, hi, x, Lb', hLb, hit⟩ | ⟨hk, hgt⟩
  swap
  · rw [if_pos (by rw [hok, decide_eq_false hk]), find?_none hv.split hv.less hgt]
    exact ⟨MInv.drop ok o.tree o.path2 o.path0, rfl⟩
  have hsplit : L = La ++ (key, x) :: Lb' := by rw [hv.split, hLb]
  have hfind := find?_some hsplit hv.less
  rw [hfind] at hin ⊢
  rw [if_neg (by rw [hok, decide_eq_true hk]; decide), hitr]
  rw [hitr] at hin
  obtain ⟨hmany, hpos, hno⟩ := hin rfl
  simp only at hmany hpos hno
  have w : World m.capV f.heap 1 (as ++ p :: bs) [] := by have := o.tree.inv.world 0; rw [e0] at this; exact this
  obtain ⟨r, hr, hl1, hl0, hrh⟩ := erase2_keep (c := allCfg m m.capV) (held := []) w hi hmany (by show 0 + 5 < m.max; omega) hcv.2 hno
  obtain ⟨i', _, hc, hst, hs, hcnt, hoth, _, _, hln, hat⟩ := eraseFromMany_spec (c := allCfg m m.capV) m.limit w hi hmany
  have hitems := eraseFromMany_items f.heap 1 p i
  have hlen := Abc.Vmem.Pages.eraseFromMany_len f.heap 1 ⟨p, i, .none⟩
  have hzero : 0 < i → r.lead0 = .default := fun h0 => hl0.trans (eraseFromMany_lead0 f.heap 1 ⟨p, i, .none⟩ h0)
  rw [hr]
  simp only
  generalize eraseFromMany f.heap 1 ⟨p, i, .none⟩ = e at *
  -- the levels of keys stay
  have hup : updateErase m r.heap s.depth f.path r.lead0 r.lead1 = ⟨r.heap, s.depth, true⟩ := by
    unfold updateErase
    rcases hpos with hd0 | h0
    · have hpl : f.path = [] := by
        have := hu.length
        rw [List.length_reverse] at this
        exact List.eq_nil_of_length_eq_zero (by omega)
      rw [hpl, hd0]
      split
      · rfl
      · simp [upErase]
    · rw [hzero h0, hl1, if_pos ⟨rfl, rfl⟩]
  rw [hup]
  simp only
  have hrp : r.heap.pages = e.heap.pages := by rw [hrh]; rfl
  have hrs : r.heap.states 1 = { f.heap.states 1 with total := (f.heap.states 1).total - 1 } := by rw [hrh]; exact setState_same ..
  have hrl : r.heap.len = f.heap.len := by rw [hrh]; exact hlen
  have hLk := filter_split o.tree.sorted hsplit
  have hdrop : (pageItems (f.heap.pages p)).drop i = .val key x :: (pageItems (f.heap.pages p)).drop (i + 1) := by
    rw [List.drop_eq_getElem_cons (by simpa using hi)]
    congr 1
    have := pageItems_get hi
    rw [List.getElem?_eq_getElem (by simpa using hi)] at this
    rw [Option.some.inj this, hit]
  have hafter : (pageItems (f.heap.pages p)).drop (i + 1) ++ contents f.heap bs = Lb'.map cellOf := by
    have := hv.after
    rw [hdrop, hLb, List.map_cons, List.cons_append] at this
    exact (List.cons.inj this).2
  have hnewc : contents r.heap (as ++ p :: bs) = (La ++ Lb').map cellOf := by
    have h1 := hat.contents
    rw [hv.before, hafter, ← List.map_append] at h1
    rw [← h1]
    exact contents_same (fun q _ => by unfold Same; rw [hrp]; exact ⟨rfl, rfl⟩)
  have holdc : contents f.heap (as ++ p :: bs) = La.map cellOf ++ .val key x :: Lb'.map cellOf := by
    have h1 := o.tree.inv.items 0
    simp only at h1
    rw [e0, o.tree.vals, hsplit, List.map_append, List.map_cons] at h1
    exact h1
  have hcont : Cont m.capV r.heap 1 (as ++ p :: bs) := by
    refine ⟨own_of_state hc.own (by rw [hrs, hs]) (by rw [hrs, hs]) (fun q _ => by unfold SameLinks; rw [hrp]; exact ⟨rfl, rfl, rfl⟩), ?_⟩
    intro q hq
    rw [hrp]; exact hc.cnt q hq
  have hstep : Step m.limit f.heap r.heap 1 (as ++ p :: bs) (as ++ p :: bs) [] [] := by
    rw [hrh]; exact step_state (by decide) hst _
  have hstep0 : Step m.limit f.heap r.heap (0 + 1) (pss' 0) (as ++ p :: bs) [] [] := by rw [e0]; exact hstep
  have htot : (r.heap.states (0 + 1)).total = ((La ++ Lb').map cellOf).length := by
    have h1 := o.tree.inv.total 0
    simp only at h1
    rw [o.tree.vals, hsplit] at h1
    have h2 : (r.heap.states (0 + 1)).total = (f.heap.states (0 + 1)).total - 1 := by rw [show (0 + 1) = 1 from rfl, hrs]
    rw [h2, h1]
    simp
  have hinv := CInv.step (k := 0) o.tree.inv hcont hstep0 hnewc htot
  have hps : (fun j => if j = 0 then as ++ p :: bs else pss' j) = pss' := by
    funext j
    split
    · rename_i hj; rw [hj, e0]
    · rfl
  rw [hps] at hinv
  have hit0 : s.depth = 0 ∨ ∀ q, fk m r.heap q = fk m f.heap q := by
    rcases hpos with hd0 | h0
    · exact Or.inl hd0
    · right
      intro q
      unfold fk
      rw [hrp]
      by_cases hq : q = p
      · rw [hq, hitems]
        unfold shiftOut
        rw [if_neg (by omega)]
      · rw [hoth q hq]
  have hlist : ∀ j, j ≠ 0 → setList lists' 0 ((La ++ Lb').map cellOf) j = lists' j := fun j hj => if_neg hj
  have t1 : Tree m (fun k => D k ∨ k = key) r.heap s.depth (La ++ Lb') pss' [] (setList lists' 0 ((La ++ Lb').map cellOf)) := by
    refine ⟨hinv, if_pos rfl, ?_, ?_, o.tree.stackp, o.tree.above, ?_, ?_, ?_, o.tree.top, o.tree.topne⟩
    · rw [← hLk]; exact o.tree.sorted.filter _
    · rw [hlist 1 (by decide)]; exact o.tree.stack
    · rw [e0]
      refine stale_erase (i := i) (e0 ▸ o.tree.stale) holdc (by rw [hnewc, List.map_append]) ?_ (by rw [hrp]; exact hcnt) hmany (fun j => by rw [hrp]; exact hitems j)
        (fun q hq => by rw [hrp]; exact hoth q hq)
      intro y hy
      have h1 := o.tree.inv.items 0
      simp only at h1
      rw [e0, o.tree.vals] at h1
      rw [h1] at hy
      obtain ⟨a, _, ha⟩ := List.mem_map.1 hy
      exact ⟨a.1, a.2, ha.symm⟩
    · intro q hq j
      rw [hrl] at hq
      have hqp : q ≠ p := by
        have := (w.range p (by simp)); omega
      rw [hrp, hoth q hqp]
      exact o.tree.fresh q hq j
    · intro j hj
      rw [hlist _ (idx_pos (by omega)), o.tree.seps j hj]
      rcases hit0 with hd0 | hfk
      · omega
      · exact (sepf_same (fun q _ => hfk q)).symm
  rw [hLk]
  exact ⟨MInv.drop ok t1 o.path2 o.path0, trivial⟩

/-- The limits within which the calls are described: the file has room for another page, and the path stack and the stack of levels have room for the levels. -/
def Fits (m : MCfg K V) (s : MSt K V) : Prop := s.heap.len < m.limit ∧ s.heap.len ≤ nilItem ∧ s.depth < m.capS ∧ s.depth ≤ m.capP

instance (m : MCfg K V) (s : MSt K V) : Decidable (Fits m s) := by unfold Fits; infer_instance

theorem head_le {L : List (K × V)} {k : K} (hL : L.Pairwise (fun a b => a.1 < b.1)) (h : ∃ e ∈ L, e.1 ≤ k) : ∀ e ∈ L.head?, e.1 ≤ k := by
  obtain ⟨e, he, hk⟩ := h
  cases L with
  | nil => cases he
  | cons a L =>
    intro x hx
    have hxa : x = a := by simpa using hx.symm
    rw [hxa]
    rcases List.mem_cons.1 he with h | h
    · rw [← h]; exact hk
    · exact le_trans (le_of_lt (List.rel_of_pairwise_cons hL h)) hk

theorem inner_run {m : MCfg K V} (ok : m.Ok) (hsp : m.spare = true) : ∀ (os : List (MOp K V)) (s : MSt K V) (L t : List (K × V)) (D : K → Prop), MInv m D s L → L.Perm t →
    (∀ e ∈ L, m.zeroKey ≤ e.1) → (∀ k v, .insert k v ∈ os → m.zeroKey ≤ k) → (∀ o ∈ os, ¬ D o.key) →
    (∀ pre k v post, os = pre ++ .insert k v :: post → (spec t pre).1 = [] ∨ ∃ e ∈ (spec t pre).1, e.1 ≤ k) →
    (∀ pre k post, os = pre ++ .erase k :: post → (∃ e ∈ (spec t pre).1, e.1 = k) → ∀ o ∈ post, o.key ≠ k) →
    (∀ pre k post, os = pre ++ .erase k :: post → (∃ e ∈ (spec t pre).1, e.1 = k) → Inner m (s.run m pre).1 k) →
    (∀ pre, pre <+: os → Fits m (s.run m pre).1) →
    ∃ L' D', MInv m D' (s.run m os).1 L' ∧ L'.Perm (spec t os).1 ∧ (s.run m os).2 = (spec t os).2 := by
  intro os
  induction os with
  | nil => intro s L t D v hp _ _ _ _ _ _ _; exact ⟨L, D, v, hp, rfl⟩
  | cons o os ih =>
    intro s L t D v hp hz hzk hdead hmin hre hin hfit
    have hr2 : (s.run m (o :: os)).2 = (s.step m o).2 :: ((s.step m o).1.run m os).2 := rfl
    have hr1 : (s.run m (o :: os)).1 = ((s.step m o).1.run m os).1 := rfl
    rw [hr1, hr2]
    have hd : ¬ D o.key := hdead o (by simp)
    have hfind := find?_perm (k := o.key) v.sorted hp
    obtain ⟨_, _, hcs, hcp⟩ : Fits m s := hfit [] List.nil_prefix
    have hnext : Fits m (s.step m o).1 := hfit [o] (List.cons_prefix_cons.2 ⟨rfl, List.nil_prefix⟩)
    have hfit' : ∀ pre, pre <+: os → Fits m ((s.step m o).1.run m pre).1 := fun pre hpre => hfit (o :: pre) (List.cons_prefix_cons.2 ⟨rfl, hpre⟩)
    have hzk' : ∀ k v, .insert k v ∈ os → m.zeroKey ≤ k := fun k v h => hzk k v (by simp [h])
    -- what the rest of the history is given, once the list after the call is known
    have rest : ∀ (L1 t1 : List (K × V)) (D1 : K → Prop), (∀ pre, (spec t (o :: pre)).1 = (spec t1 pre).1) → MInv m D1 (s.step m o).1 L1 → L1.Perm t1 →
        (∀ e ∈ L1, m.zeroKey ≤ e.1) → (∀ o' ∈ os, ¬ D1 o'.key) →
        ∃ L' D', MInv m D' ((s.step m o).1.run m os).1 L' ∧ L'.Perm (spec t1 os).1 ∧ ((s.step m o).1.run m os).2 = (spec t1 os).2 := by
      intro L1 t1 D1 hs v1 hp1 hz1 hd1
      refine ih (s.step m o).1 L1 t1 D1 v1 hp1 hz1 hzk' hd1 ?_ ?_ ?_ hfit'
      · intro pre k x post e
        rw [← hs]
        exact hmin (o :: pre) k x post (by rw [e]; rfl)
      · intro pre k post e he
        rw [← hs] at he
        exact hre (o :: pre) k post (by rw [e]; rfl) he
      · intro pre k post e he
        rw [← hs] at he
        exact hin (o :: pre) k post (by rw [e]; rfl) he
    cases o with
    | find k =>
      obtain ⟨n1, n2, _, _⟩ : Fits m (s.find m k).1 := hnext
      rcases find_spec (key := k) ok hsp v hcp hz hd with hf | hf | ⟨v', hseen⟩
      · omega
      · omega
      · obtain ⟨L', D', v'', hp', ha⟩ := rest L t D (fun _ => rfl) v' hp hz (fun o ho => hdead o (by simp [ho]))
        refine ⟨L', D', v'', hp', ?_⟩
        show _ :: _ = _ :: _
        rw [ha, show t.find? (fun e => e.1 = k) = L.find? (fun e => e.1 = k) from hfind]
        show MAns.found _ :: _ = _
        rw [hseen]
        rfl
    | erase k =>
      obtain ⟨n1, n2, _, _⟩ : Fits m (s.erase m k).1 := hnext
      replace hfind : t.find? (fun e => e.1 = k) = L.find? (fun e => e.1 = k) := hfind
      have hthere : (L.find? (fun e => e.1 = k)).isSome = true → ∃ e ∈ t, e.1 = k := by
        intro h
        obtain ⟨e, he⟩ := Option.isSome_iff_exists.1 h
        rw [he] at hfind
        exact ⟨e, List.mem_of_find?_eq_some hfind, by simpa using List.find?_some hfind⟩
      have hspec : ∀ pre, spec t (.erase k :: pre) = ((spec (t.filter (fun e => e.1 ≠ k)) pre).1, .erased (if (t.find? (fun e => e.1 = k)).isSome then 1 else 0) :: (spec (t.filter (fun e => e.1 ≠ k)) pre).2) := fun _ => rfl
      rcases erase_spec (key := k) ok hsp v hcp hz hd (fun h => hin [] k os rfl (hthere h)) with hf | hf | hres
      · omega
      · omega
      · rw [hspec, hfind]
        cases hL : L.find? (fun e => e.1 = k) with
        | none =>
          rw [hL] at hres
          have hLk : L.filter (fun e => e.1 ≠ k) = L := by
            rw [List.filter_eq_self]
            intro e he
            have := List.find?_eq_none.1 hL e he
            simpa using this
          have hp2 := filter_perm hp k
          rw [hLk] at hp2
          obtain ⟨L', D', v'', hp', ha⟩ := rest L _ D (fun pre => by rw [hspec]) hres.1 hp2 hz (fun o ho => hdead o (by simp [ho]))
          refine ⟨L', D', v'', hp', ?_⟩
          show MAns.erased _ :: _ = _
          rw [hres.2, ha]
          rfl
        | some e0 =>
          have hnew : ∀ o ∈ os, o.key ≠ k := hre [] k os rfl (hthere (by rw [hL]; rfl))
          rw [hL] at hres
          obtain ⟨L', D', v'', hp', ha⟩ := rest _ _ _ (fun pre => by rw [hspec]) hres.1 (filter_perm hp k) (fun e he => hz e (List.mem_filter.1 he).1) (fun o ho hx => by
              rcases hx with hx | hx
              · exact hdead o (by simp [ho]) hx
              · exact hnew o ho hx)
          refine ⟨L', D', v'', hp', ?_⟩
          show MAns.erased _ :: _ = _
          rw [hres.2, ha]
          rfl
    | insert k x =>
      obtain ⟨n1, n2, _, _⟩ : Fits m (s.insert m k x).1 := hnext
      replace hfind : t.find? (fun e => e.1 = k) = L.find? (fun e => e.1 = k) := hfind
      have hlow : ∀ e ∈ L.head?, e.1 ≤ k := by
        rcases hmin [] k x os rfl with h | ⟨e, he, hk⟩
        · have : L = [] := List.Perm.eq_nil (h ▸ hp)
          rw [this]; simp
        · exact head_le v.sorted ⟨e, hp.mem_iff.2 he, hk⟩
      rcases insert_spec (key := k) (val := x) ok hsp v hcp hcs hz hd hlow with hf | hf | ⟨L1, v', hres⟩
      · omega
      · omega
      · cases hL : L.find? (fun e => e.1 = k) with
        | some e =>
          rw [hL] at hres hfind
          obtain ⟨rfl, hb, hseen⟩ := hres
          have hspec : ∀ os, spec t (.insert k x :: os) = ((spec t os).1, .inserted false (some (.val e.1 e.2)) :: (spec t os).2) := by
            intro os
            conv_lhs => unfold spec
            rw [hfind]
          rw [hspec]
          obtain ⟨L', D', v'', hp', ha⟩ := rest L1 t D (fun pre => by rw [hspec]) v' hp hz (fun o ho => hdead o (by simp [ho]))
          refine ⟨L', D', v'', hp', ?_⟩
          show MAns.inserted _ _ :: _ = _
          rw [hb, hseen, ha]
          rfl
        | none =>
          rw [hL] at hres hfind
          obtain ⟨⟨La, Lb, e1, e2⟩, hb, hseen⟩ := hres
          have hspec : ∀ os, spec t (.insert k x :: os) = ((spec (t ++ [(k, x)]) os).1, .inserted true (some (.val k x)) :: (spec (t ++ [(k, x)]) os).2) := by
            intro os
            conv_lhs => unfold spec
            rw [hfind]
          have hp1 : L1.Perm (t ++ [(k, x)]) := by
            rw [e2]
            refine List.Perm.trans List.perm_middle ?_
            rw [← e1]
            exact List.Perm.trans (List.Perm.cons _ hp) (List.perm_append_singleton _ _).symm
          have hz1 : ∀ e ∈ L1, m.zeroKey ≤ e.1 := by
            intro e he
            rw [e2] at he
            rcases List.mem_append.1 he with h | h
            · exact hz e (by rw [e1]; simp [h])
            · rcases List.mem_cons.1 h with h | h
              · rw [h]; exact hzk k x (by simp)
              · exact hz e (by rw [e1]; simp [h])
          rw [hspec]
          obtain ⟨L', D', v'', hp', ha⟩ := rest L1 _ D (fun pre => by rw [hspec]) v' hp1 hz1 (fun o ho => hdead o (by simp [ho]))
          refine ⟨L', D', v'', hp', ?_⟩
          show MAns.inserted _ _ :: _ = _
          rw [hb, hseen, ha]

/-- C30, for maps of any depth: a client may insert, look up and erase in any order, as long as an inserted key is
not smaller than all others, an erased key is not used again, and each erased key is not the first of its page and
leaves a page that is not merged with a neighbour.  Then all answers are those of a list of elements, `size()` is
its length and iterating shows its elements in order.  Missing from the whole claim: the first key of a page,
merged pages, keys that are used again and smaller keys; the first, the third and the fourth are violations, and
so are some of the merges. -/
theorem C30_inner_partial (m : MCfg K V) (ok : m.Ok) (hsp : m.spare = true) (os : List (MOp K V))
    (hzero : ∀ k v, .insert k v ∈ os → m.zeroKey ≤ k)
    (hmin : ∀ pre k v post, os = pre ++ .insert k v :: post → (spec [] pre).1 = [] ∨ ∃ e ∈ (spec [] pre).1, e.1 ≤ k)
    (hagain : ∀ pre k post, os = pre ++ .erase k :: post → (∃ e ∈ (spec [] pre).1, e.1 = k) → ∀ o ∈ post, o.key ≠ k)
    (hinner : ∀ pre k post, os = pre ++ .erase k :: post → (∃ e ∈ (spec [] pre).1, e.1 = k) → Inner m (MSt.run m .init pre).1 k)
    (hfits : ∀ pre, pre <+: os → Fits m (MSt.run m .init pre).1) : Behaves m os := by
  obtain ⟨L, D, ⟨pss, fs, lists, t, _⟩, hp, ha⟩ := inner_run ok hsp os .init [] [] (fun _ => False) (MInv.init m) (List.Perm.refl _) (by simp) hzero (fun _ _ => id) hmin hagain hinner hfits
  have hbad : (MSt.run m .init os).1.heap.bad = false := t.inv.bad
  have htot : ((MSt.run m .init os).1.heap.states 1).total = (lists 0).length := t.inv.total 0
  have hcont : contents (MSt.run m .init os).1.heap (pss 0) = lists 0 := t.inv.items 0
  have c : Cont m.capV (MSt.run m .init os).1.heap 1 (pss 0) := t.inv.cont 0
  refine ⟨hbad, ha, ?_, L, t.sorted, fun e => hp.mem_iff, ?_⟩
  · rw [htot, t.vals, List.length_map, hp.length_eq]
  · have h0 := at_begin c
    have hw := cwalk_at (max := m.max) (held := []) c ok.capV.2 (by have := ok.max; simp; omega) _ _ _ 1 h0
    rw [hcont, t.vals, List.length_map, List.map_map] at hw
    exact hw

/-- Insertions of increasing keys with other ones between them, in a map of three levels, and erasures. -/
def deepOps : List (MOp Nat Nat) := ([0, 10, 20, 30, 40, 50, 60, 70, 80, 90, 11, 12, 31, 32, 51, 52, 53, 54, 55, 100].map (fun k => .insert k k)) ++
  [.erase 32, .find 31, .find 29, .insert 33 7, .erase 11, .erase 5, .insert 13 0, .insert 14 0, .insert 105 2, .erase 90, .insert 106 3, .erase 105, .insert 34 1, .find 106, .find 30, .insert 12 9]

/-- What `C30_inner_partial` asks for, to be computed. -/
def innerCheck (m : MCfg Nat Nat) (os : List (MOp Nat Nat)) : Bool :=
  (List.range (os.length + 1)).all (fun n =>
    decide (Fits m (MSt.run m .init (os.take n)).1) &&
    match os[n]? with
    | some (.insert k _) => (spec [] (os.take n)).1.isEmpty || (spec [] (os.take n)).1.any (fun e => decide (e.1 ≤ k))
    | some (.erase k) => !((spec [] (os.take n)).1.any (fun e => decide (e.1 = k))) ||
        (decide (Inner m (MSt.run m .init (os.take n)).1 k) && (os.drop (n + 1)).all (fun o => decide (o.key ≠ k)))
    | _ => true)

theorem innerCheck_sound {m : MCfg Nat Nat} (ok : m.Ok) (hsp : m.spare = true) (hz : m.zeroKey = 0) {os : List (MOp Nat Nat)} (h : innerCheck m os = true) : Behaves m os := by
  unfold innerCheck at h
  rw [List.all_eq_true] at h
  have at_ : ∀ pre o post, os = pre ++ o :: post → pre.length ∈ List.range (os.length + 1) ∧ os[pre.length]? = some o ∧ os.take pre.length = pre ∧ os.drop (pre.length + 1) = post := by
    intro pre o post e
    refine ⟨List.mem_range.2 (by rw [e]; simp; omega), by rw [e]; simp, by rw [e]; simp, by rw [e, List.drop_append]; simp⟩
  refine C30_inner_partial m ok hsp os (fun k _ _ => by rw [hz]; exact Nat.zero_le _) ?_ ?_ ?_ ?_
  · intro pre k v post e
    obtain ⟨h1, h2, h3, _⟩ := at_ pre _ post e
    have := h _ h1
    rw [h2, h3] at this
    simp only [Bool.and_eq_true, Bool.or_eq_true, List.isEmpty_iff, List.any_eq_true, decide_eq_true_eq] at this
    exact this.2
  · intro pre k post e he o ho
    obtain ⟨h1, h2, h3, h4⟩ := at_ pre _ post e
    have := h _ h1
    rw [h2, h3, h4] at this
    have hany : (spec [] pre).1.any (fun e => decide (e.1 = k)) = true := by
      rw [List.any_eq_true]
      obtain ⟨e, he, hk⟩ := he
      exact ⟨e, he, by simpa using hk⟩
    simp only [hany, Bool.not_true, Bool.false_or, Bool.and_eq_true, List.all_eq_true, decide_eq_true_eq] at this
    exact this.2.2 o ho
  · intro pre k post e he
    obtain ⟨h1, h2, h3, h4⟩ := at_ pre _ post e
    have := h _ h1
    rw [h2, h3, h4] at this
    have hany : (spec [] pre).1.any (fun e => decide (e.1 = k)) = true := by
      rw [List.any_eq_true]
      obtain ⟨e, he, hk⟩ := he
      exact ⟨e, he, by simpa using hk⟩
    simp only [hany, Bool.not_true, Bool.false_or, Bool.and_eq_true, decide_eq_true_eq] at this
    exact this.2.1
  · intro pre hpre
    have := h pre.length (List.mem_range.2 (by have := hpre.length_le; omega))
    rw [← List.prefix_iff_eq_take.1 hpre] at this
    simp only [Bool.and_eq_true, decide_eq_true_eq] at this
    exact this.1

example : Behaves (smallCfg 0 4 true) deepOps := innerCheck_sound (smallCfg_ok 0 true) rfl rfl (by decide +kernel)

example : (MSt.run (smallCfg 0 4 true) .init deepOps).1.depth = 2 := by decide +kernel

/-- The rest of a page is merged with the page after it, but its item on the key page stays when there is a page
before it: the result of that merge is overwritten (`container` 867-873).  A key inserted there is in no page of the
map: `insert` and `find` show it, iterating does not. -/
theorem C30_violated_merge : let m := smallCfg 0 4 true
    let r := MSt.run m .init ([0, 10, 20, 30, 40, 50, 60, 70, 80, 11, 12].map (fun k => .insert k k) ++ [.erase 30, .insert 45 1, .find 45])
    r.1.heap.bad = false ∧ r.2.drop 11 = [.erased 1, .inserted true (some (.val 45 1)), .found (some (.val 45 1))] ∧
      r.1.walk m 20 = [0, 10, 11, 12, 20, 40, 50, 60, 70, 80].map (fun k => some (.val k k)) ∧ (r.1.heap.states 1).total = 11 := by decide +kernel

/-- And erasing a key from such a page returns 1, but iterating still shows it. -/
theorem C30_violated_merge_erase : let m := smallCfg 0 4 true
    let r := MSt.run m .init ([0, 10, 20, 30, 40, 50, 60, 70, 80, 11, 12].map (fun k => .insert k k) ++ [.erase 30, .erase 50, .find 40])
    r.2.drop 11 = [.erased 1, .erased 1, .found (some (.val 40 40))] ∧ some (.val 50 50) ∈ r.1.walk m 20 := by decide +kernel

/-- A map that had two pages, then one, and needs two again loses everything: the page of the key level and the
page of the stack of levels are the same one.  No key is used twice. -/
theorem C30_violated_regrow : let m := smallCfg 0 4 true
    let r := MSt.run m .init ([0, 10, 20, 30, 40].map (fun k => .insert k k) ++ [.erase 40, .insert 41 1, .find 41, .find 0])
    r.2.drop 5 = [.erased 1, .inserted true (some (.val 41 1)), .found none, .found none] ∧
      r.1.walk m 20 = [0, 10, 20, 30].map (fun k => some (.val k k)) ++ [some (.val 41 1)] := by decide +kernel

/-- A run, not a proof: pages merged with the page before them.  The item of the page is removed from its key page
and the page is used again. -/
example : let m := smallCfg 0 4 true
    let os : List (MOp Nat Nat) := [0, 10, 20, 30, 40, 50, 60, 70].map (fun k => .insert k k) ++ [.erase 30, .insert 80 1, .insert 90 1, .insert 100 1, .find 60, .find 40, .find 80, .find 0, .find 20, .find 100]
    (MSt.run m .init os).2 = (spec [] os).2 ∧ (MSt.run m .init os).1.heap.bad = false := by decide +kernel

end Abc.Vmem.Map
