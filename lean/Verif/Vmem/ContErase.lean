import Verif.Vmem.ContInsert
import Mathlib.Tactic.ClearExcept

/-! # Erasure from a container -/

namespace Abc.Vmem.Pages

variable {α : Type}

/-- `erase_page`: the page leaves the container and is the only page in the list of free pages. -/
theorem erasePage_spec {c : Cfg} {held : List Nat} {h : Heap α} {sid p : Nat} {as bs fs : List Nat} (limit : Nat) (hm : held.length + 4 < c.max) (hs : sid ≠ 0)
    (o : Own h sid (as ++ p :: bs)) (hf : FreeOk h fs) (hd : ∀ q ∈ as ++ p :: bs, q ∉ fs) :
    Own (erasePage c held h sid p) sid (as ++ bs) ∧ SameData h (erasePage c held h sid p) ∧
    Step limit h (erasePage c held h sid p) sid (as ++ p :: bs) (as ++ bs) fs [p] ∧
    ((erasePage c held h sid p).states sid).total = (h.states sid).total := by
  have hp : p ≠ nil := o.nn p (by simp)
  obtain ⟨_, e2, e3, e4, e5, _⟩ := lerase_spec (max := c.max) (held := p :: held) (by rw [List.length_cons]; omega) hs o hf hd
  unfold erasePage
  rw [freePage_eq hp]
  generalize (lerase c.max (p :: held) h sid p).1 = g at *
  have lp := pushFree_again (max := c.max) (held := held) (g := g) (p := p) (by omega) hp e4 e5
  have fr : FreeFrame g (pushFree c.max held g p) p [] := pushFree_frame (by omega) (fun _ => Or.inl e5)
  have hnd1 := List.nodup_append.1 o.nodup
  have hpb : p ∉ bs := (List.nodup_cons.1 hnd1.2.1).1
  have hpa : p ∉ as := fun hx => hnd1.2.2 p hx p (by simp) rfl
  have hab : ∀ q ∈ as ++ bs, q ≠ p := by
    intro q hq e
    subst e
    rcases List.mem_append.1 hq with hq | hq
    · exact hpa hq
    · exact hpb hq
  refine ⟨?_, e3.data.trans fr.data, ?_, ?_⟩
  · exact own_congr e2 (fr.states sid hs) (fun q hq => SameLinks.of_eq (fr.pages q (hab q hq) (by simp)))
  · refine ⟨.loop lp, ?_, ?_, ?_, ?_, ?_, ?_, ?_, ?_⟩
    · intro q h1 h2 _
      have hqp : q ≠ p := fun e => h1 (by rw [e]; simp)
      rw [fr.pages q hqp (by simp), e3.pages q hqp (fun hx => h1 (by simp at hx ⊢; tauto)) h2]
    · intro t h1 h2; rw [fr.states t h2, e3.states t h1 h2]
    · intro q hq; left; simp at hq ⊢; tauto
    · intro q hq; right; left; simp at hq ⊢; tauto
    · intro q hq hx; exact hab q hq (by simpa using hx)
    · rw [fr.len, e3.len]; exact Nat.le_refl _
    · intro hl; rw [fr.len, e3.len]; exact hl
    · rw [fr.bad, e3.bad]
  · rw [fr.states sid hs, e3.total]

theorem contents_sameData {h h' : Heap α} (d : SameData h h') (ps : List Nat) : contents h' ps = contents h ps :=
  contents_congr (fun q _ => pageItems_congr (d q).1 (fun j _ => by rw [(d q).2]))

theorem items_sameData {h h' : Heap α} (d : SameData h h') (q : Nat) : pageItems (h'.pages q) = pageItems (h.pages q) :=
  pageItems_congr (d q).1 (fun j _ => by rw [(d q).2])

/-- Moving the items of the page `q` behind those of the page `p` before it and erasing `q`. -/
theorem merge_spec {c : Cfg} {held : List Nat} {h : Heap α} {sid p q : Nat} {as bs fs : List Nat} (limit : Nat) (hm : held.length + 4 < c.max)
    (w : World c.cap h sid (as ++ p :: q :: bs) fs) (hfit : (h.pages p).count + (h.pages q).count ≤ c.cap) :
    let g := erasePage c held (appendItems h p q) sid q
    Cont c.cap g sid (as ++ p :: bs) ∧ Step limit h g sid (as ++ p :: q :: bs) (as ++ p :: bs) fs [q] ∧
    (g.states sid).total = (h.states sid).total ∧
    pageItems (g.pages p) = pageItems (h.pages p) ++ pageItems (h.pages q) ∧ (g.pages p).count = (h.pages p).count + (h.pages q).count ∧
    (∀ t, t ≠ p → pageItems (g.pages t) = pageItems (h.pages t)) := by
  simp only
  have own := w.cont.own
  have hnd1 := List.nodup_append.1 own.nodup
  have hpq : p ≠ q := by have := (List.nodup_cons.1 hnd1.2.1).1; simp at this; exact this.1
  have hl : ∀ t, SameLinks h (appendItems h p q) t := mod_links (fun _ => ⟨rfl, rfl, rfl⟩)
  have hne : ∀ t, t ≠ p → (appendItems h p q).pages t = h.pages t := fun t ht => mod_pages_ne _ _ ht
  have hs1 : Step limit h (appendItems h p q) sid (as ++ p :: q :: bs) (as ++ p :: q :: bs) fs fs :=
    step_data w.free w.disj rfl hl (fun t ht => hne t (fun e => ht (by rw [e]; simp))) rfl rfl
  have own1 : Own (appendItems h p q) sid (as ++ p :: q :: bs) := own_data own rfl hl
  have hpi : pageItems ((appendItems h p q).pages p) = pageItems (h.pages p) ++ pageItems (h.pages q) := by
    unfold appendItems
    rw [mod_pages_same]
    exact append_items _ _ _ _
  have hpc : ((appendItems h p q).pages p).count = (h.pages p).count + (h.pages q).count := by
    unfold appendItems; rw [mod_pages_same]
  have hsh : as ++ p :: q :: bs = (as ++ [p]) ++ q :: bs := by simp
  have hsh2 : (as ++ [p]) ++ bs = as ++ p :: bs := by simp
  rw [hsh] at own1
  have hd1 := hs1.disj
  rw [hsh] at hd1
  obtain ⟨f1, f2, f3, f4⟩ := erasePage_spec (c := c) (held := held) limit hm w.sid own1 hs1.free hd1
  rw [hsh2] at f1 f3
  rw [← hsh] at f3
  have f3' := hs1.trans f3
  have htot : ((appendItems h p q).states sid).total = (h.states sid).total := rfl
  generalize appendItems h p q = k at *
  generalize erasePage c held k sid q = g at *
  refine ⟨⟨f1, ?_⟩, f3', f4.trans htot, (items_sameData f2 p).trans hpi, (f2 p).1.trans hpc, ?_⟩
  · intro t ht
    rw [(f2 t).1]
    by_cases e : t = p
    · rw [e, hpc]
      have := (w.cont.cnt p (by simp)).1
      omega
    · rw [hne t e]; apply w.cont.cnt; simp at ht ⊢; tauto
  · intro t ht; rw [items_sameData f2 t, hne t ht]

/-- What a merge means: the items stay, and an iterator that points somewhere else stays. -/
theorem at_merge_keep {h g : Heap α} {as bs : List Nat} {p q : Nat} (hpi : pageItems (g.pages p) = pageItems (h.pages p) ++ pageItems (h.pages q))
    (hca : contents g as = contents h as) (hcb : contents g bs = contents h bs) : contents g (as ++ p :: bs) = contents h (as ++ p :: q :: bs) := by
  rw [contents_append, contents_append, contents_cons, contents_cons, contents_cons, hpi, hca, hcb, List.append_assoc]

/-- An iterator to an item of a page, given by the number of items before it. -/
theorem at_at {h : Heap α} {as bs : List Nat} {p k : Nat} {u v : List α} (hk : k < (h.pages p).count)
    (hu : u = contents h as ++ (pageItems (h.pages p)).take k) (hv : v = (pageItems (h.pages p)).drop k ++ contents h bs) :
    At h (as ++ p :: bs) ⟨p, k, .none⟩ u v := by
  rw [hu, hv]; exact At.item as p bs k rfl hk

theorem next_eq {h : Heap α} {sid : Nat} {as bs : List Nat} {p : Nat} (o : Own h sid (as ++ p :: bs)) : (h.pages p).next = bs.headD nil :=
  ((dl_append.1 o.dl).2).2.2.1

theorem prev_eq {h : Heap α} {sid : Nat} {as bs : List Nat} {p : Nat} (o : Own h sid (as ++ p :: bs)) : (h.pages p).prev = as.getLastD nil :=
  dl_prev_head o.dl

theorem step_refl {cap limit : Nat} {h : Heap α} {sid : Nat} {ps fs : List Nat} (w : World cap h sid ps fs) : Step limit h h sid ps ps fs fs :=
  step_data w.free w.disj rfl (fun _ => ⟨rfl, rfl, rfl⟩) (fun _ _ => rfl) rfl rfl

/-- Where the iterator computed by `erase_from_many` points: to the page, behind everything, or to the
first item of the next page. -/
def After (h : Heap α) (p : Nat) (bs : List Nat) (i : Itr) : Prop :=
  (∃ k, i = ⟨p, k, .none⟩ ∧ k < (h.pages p).count) ∨ (bs = [] ∧ i = ⟨p, nilItem, .fin⟩) ∨ ∃ b bs', bs = b :: bs' ∧ i = ⟨b, 0, .none⟩

theorem eraseFromMany_spec {c : Cfg} {h : Heap α} {sid p k : Nat} {as bs fs : List Nat} (limit : Nat) (w : World c.cap h sid (as ++ p :: bs) fs)
    (hk : k < (h.pages p).count) (hmany : 1 < (h.pages p).count) :
    let r := eraseFromMany h sid ⟨p, k, .none⟩
    ∃ i', r.itr = some i' ∧ Cont c.cap r.heap sid (as ++ p :: bs) ∧ Step limit h r.heap sid (as ++ p :: bs) (as ++ p :: bs) fs fs ∧
      r.heap.states = h.states ∧ (r.heap.pages p).count = (h.pages p).count - 1 ∧ (∀ q, q ≠ p → r.heap.pages q = h.pages q) ∧ After r.heap p bs i' ∧
      (k + 1 < (h.pages p).count → i' = ⟨p, k, .none⟩) ∧ (∀ q, SameLinks h r.heap q) ∧
      At r.heap (as ++ p :: bs) i' (contents h as ++ (pageItems (h.pages p)).take k) ((pageItems (h.pages p)).drop (k + 1) ++ contents h bs) := by
  have own := w.cont.own
  have hnd1 := List.nodup_append.1 own.nodup
  have hpb : p ∉ bs := (List.nodup_cons.1 hnd1.2.1).1
  have hpa : p ∉ as := fun hx => hnd1.2.2 p hx p (by simp) rfl
  have key : ∀ (g : Heap α), g.states = h.states → g.len = h.len → g.bad = h.bad → (∀ q, SameLinks h g q) → (∀ q, q ≠ p → g.pages q = h.pages q) →
      (g.pages p).count = (h.pages p).count - 1 → pageItems (g.pages p) = (pageItems (h.pages p)).take k ++ (pageItems (h.pages p)).drop (k + 1) →
      Cont c.cap g sid (as ++ p :: bs) ∧ Step limit h g sid (as ++ p :: bs) (as ++ p :: bs) fs fs ∧ contents g as = contents h as ∧ contents g bs = contents h bs := by
    intro g hs hl hb hln hp hc hi
    refine ⟨⟨own_data own (by rw [hs]) hln, ?_⟩, step_data w.free w.disj hs hln (fun q hq => hp q (fun e => hq (by rw [e]; simp))) hl hb,
      contents_other hpa hp, contents_other hpb hp⟩
    intro q hq
    have := w.cont.cnt q hq
    by_cases e : q = p
    · subst e; rw [hc]; omega
    · rw [hp q e]; exact this
  unfold eraseFromMany
  simp only
  by_cases hlast : k < (h.pages p).count - 1
  · rw [if_pos hlast]
    simp only
    generalize hg : h.mod p (fun y => { y with count := y.count - 1, items := shiftOut (h.pages p).count k y.items }) = g
    have hgp : g.pages p = { h.pages p with count := (h.pages p).count - 1, items := shiftOut (h.pages p).count k (h.pages p).items } := by
      rw [← hg, mod_pages_same]
    have hgo : ∀ q, q ≠ p → g.pages q = h.pages q := fun q hq => by rw [← hg, mod_pages_ne _ _ hq]
    have hgl : ∀ q, SameLinks h g q := by rw [← hg]; exact mod_links (fun _ => ⟨rfl, rfl, rfl⟩)
    have hgc : (g.pages p).count = (h.pages p).count - 1 := by rw [hgp]
    have hgi : pageItems (g.pages p) = (pageItems (h.pages p)).take k ++ (pageItems (h.pages p)).drop (k + 1) := by
      rw [hgp]; exact shiftOut_items _ _ _ hk
    obtain ⟨k1, k2, k3, k4⟩ := key g (by rw [← hg]; rfl) (by rw [← hg]; rfl) (by rw [← hg]; rfl) hgl hgo hgc hgi
    refine ⟨⟨p, k, .none⟩, rfl, k1, k2, by rw [← hg]; rfl, hgc, hgo, Or.inl ⟨k, rfl, by omega⟩, fun _ => rfl, hgl, at_at (by omega) ?_ ?_⟩
    · rw [k3, hgi, List.take_left' (by simp; omega)]
    · rw [k4, hgi, List.drop_left' (by simp; omega)]
  · rw [if_neg hlast]
    simp only
    have hkc : k = (h.pages p).count - 1 := by omega
    generalize hg : h.mod p (fun y => { y with count := y.count - 1 }) = g
    have hgp : g.pages p = { h.pages p with count := (h.pages p).count - 1 } := by rw [← hg, mod_pages_same]
    have hgo : ∀ q, q ≠ p → g.pages q = h.pages q := fun q hq => by rw [← hg, mod_pages_ne _ _ hq]
    have hgl : ∀ q, SameLinks h g q := by rw [← hg]; exact mod_links (fun _ => ⟨rfl, rfl, rfl⟩)
    have hgc : (g.pages p).count = (h.pages p).count - 1 := by rw [hgp]
    have hdrop : (pageItems (h.pages p)).drop (k + 1) = [] := List.drop_of_length_le (by simp; omega)
    have hgi0 : pageItems (g.pages p) = (pageItems (h.pages p)).take k := by
      rw [hgp, hkc]; exact take_items _ _ _ (Nat.sub_le _ _)
    have hgi : pageItems (g.pages p) = (pageItems (h.pages p)).take k ++ (pageItems (h.pages p)).drop (k + 1) := by
      rw [hdrop, List.append_nil]; exact hgi0
    obtain ⟨k1, k2, k3, k4⟩ := key g (by rw [← hg]; rfl) (by rw [← hg]; rfl) (by rw [← hg]; rfl) hgl hgo hgc hgi
    have hnx := next_eq own
    rw [hdrop, List.nil_append]
    cases hbs : bs with
    | nil =>
      rw [hbs] at hnx
      rw [if_pos (show (h.pages p).next = nil from hnx)]
      have hbk : (h.states sid).back = p := by
        rw [own.back, hbs, getLastD_append nil nil (by simp)]; rfl
      rw [hbs] at k1 k2
      refine ⟨_, rfl, k1, k2, by rw [← hg]; rfl, hgc, hgo, Or.inr (Or.inl ⟨rfl, by unfold cend; rw [hbk]⟩), fun hh => by omega, hgl, ?_⟩
      have : At g (as ++ [p]) ⟨(as ++ [p]).getLastD nil, nilItem, .fin⟩ (contents g (as ++ [p])) [] := At.fin
      rw [getLastD_append nil nil (by simp), contents_append, contents_cons, contents_nil, List.append_nil, k3, hgi0] at this
      unfold cend
      rw [hbk]
      exact this
    | cons b bs' =>
      rw [hbs] at hnx
      have hnn : (h.pages p).next ≠ nil := by rw [hnx]; exact own.nn b (by rw [hbs]; simp)
      rw [if_neg hnn]
      have hb : (h.pages p).next = b := hnx
      rw [hb]
      have hcb := k4
      rw [hbs] at k1 k2 hcb
      have hbp : b ≠ p := fun e => hpb (by rw [hbs, e]; simp)
      refine ⟨_, rfl, k1, k2, by rw [← hg]; rfl, hgc, hgo, Or.inr (Or.inr ⟨b, bs', rfl, rfl⟩), fun hh => by omega, hgl, ?_⟩
      have hsh : as ++ p :: b :: bs' = (as ++ [p]) ++ b :: bs' := by simp
      rw [hsh]
      refine at_at ?_ ?_ ?_
      · rw [hgo b hbp]; have := (w.cont.cnt b (by rw [hbs]; simp)).1; omega
      · rw [contents_append, contents_cons, contents_nil, k3, hgi0]; simp
      · rw [← hcb, contents_cons, List.drop_zero]

theorem nodup_split {as bs as2 bs2 : List Nat} {p : Nat} (h1 : (as ++ p :: bs).Nodup) (h2 : as ++ p :: bs = as2 ++ p :: bs2) : as2 = as ∧ bs2 = bs := by
  induction as generalizing as2 with
  | nil =>
    cases as2 with
    | nil => simpa using h2.symm
    | cons x xs =>
      simp only [List.nil_append, List.cons_append, List.cons.injEq] at h2
      obtain ⟨rfl, h3⟩ := h2
      rw [List.nil_append, List.nodup_cons, h3] at h1
      exact absurd (by simp) h1.1
  | cons y ys ih =>
    cases as2 with
    | nil =>
      simp only [List.nil_append, List.cons_append, List.cons.injEq] at h2
      obtain ⟨rfl, h3⟩ := h2
      rw [List.cons_append, List.nodup_cons] at h1
      exact absurd (by simp) h1.1
    | cons x xs =>
      simp only [List.cons_append, List.cons.injEq] at h2
      obtain ⟨rfl, h3⟩ := h2
      rw [List.cons_append, List.nodup_cons] at h1
      obtain ⟨e1, e2⟩ := ih h1.2 h3
      exact ⟨by rw [e1], e2⟩

theorem at_inv {h : Heap α} {as bs : List Nat} {p k : Nat} {u v : List α} (hnd : (as ++ p :: bs).Nodup) (a : At h (as ++ p :: bs) ⟨p, k, .none⟩ u v) :
    k < (h.pages p).count ∧ u = contents h as ++ (pageItems (h.pages p)).take k ∧ v = (pageItems (h.pages p)).drop k ++ contents h bs := by
  generalize hi : (⟨p, k, .none⟩ : Itr) = i at a
  cases a with
  | item as2 p2 bs2 k2 e hk =>
    have h1 : p = p2 := congrArg Itr.page hi
    have h2 : k = k2 := congrArg Itr.item hi
    subst h1 h2
    obtain ⟨rfl, rfl⟩ := nodup_split hnd e
    exact ⟨hk, rfl, rfl⟩
  | fin => exact absurd (congrArg Itr.edge hi) (by simp)

theorem at_inv_fin {h : Heap α} {ps : List Nat} {p k : Nat} {u v : List α} (a : At h ps ⟨p, k, .fin⟩ u v) :
    p = ps.getLastD nil ∧ k = nilItem ∧ u = contents h ps ∧ v = [] := by
  generalize hi : (⟨p, k, .fin⟩ : Itr) = i at a
  cases a with
  | item as2 p2 bs2 k2 e hk => exact absurd (congrArg Itr.edge hi) (by simp)
  | fin =>
    have h1 := congrArg Itr.page hi
    have h2 := congrArg Itr.item hi
    exact ⟨h1, h2, rfl, rfl⟩

theorem mergeNext_spec {c : Cfg} {held : List Nat} {g : Heap α} {sid p b : Nat} {as bs' fs : List Nat} {i : Itr} {u v : List α} (limit : Nat)
    (w : World c.cap g sid (as ++ p :: b :: bs') fs) (hm : held.length + 4 < c.max) (hi : After g p (b :: bs') i) (a : At g (as ++ p :: b :: bs') i u v) :
    (c.cap < (g.pages p).count + (g.pages b).count ∧ mergeNext c held g sid i p = ⟨g, some i, .default, .default⟩) ∨
    ((g.pages p).count + (g.pages b).count ≤ c.cap ∧ ∃ i', (mergeNext c held g sid i p).itr = some i' ∧
      Cont c.cap (mergeNext c held g sid i p).heap sid (as ++ p :: bs') ∧
      Step limit g (mergeNext c held g sid i p).heap sid (as ++ p :: b :: bs') (as ++ p :: bs') fs [b] ∧
      ((mergeNext c held g sid i p).heap.states sid).total = (g.states sid).total ∧
      At (mergeNext c held g sid i p).heap (as ++ p :: bs') i' u v ∧
      (i.page = p → i' = i ∧ After (mergeNext c held g sid i p).heap p bs' i)) := by
  have own := w.cont.own
  have hnx : (g.pages p).next = b := next_eq own
  have hnd1 := List.nodup_append.1 own.nodup
  have hn2 := List.nodup_cons.1 hnd1.2.1
  have hpb : p ≠ b := by intro e; exact hn2.1 (by rw [e]; simp)
  have hpa : p ∉ as := fun hx => hnd1.2.2 p hx p (by simp) rfl
  have hpbs : p ∉ bs' := fun hx => hn2.1 (by simp [hx])
  unfold mergeNext
  simp only
  rw [hnx, canLock_of (by omega), if_neg (by decide)]
  by_cases hfit : (g.pages p).count + (g.pages b).count ≤ c.cap
  · right
    rw [if_pos hfit]
    obtain ⟨m1, m2, m3, m4, m5, m6⟩ := merge_spec (c := c) (held := held) limit hm w hfit
    simp only at m1 m2 m3 m4 m5 m6 ⊢
    generalize erasePage c held (appendItems g p b) sid b = g' at *
    have hca : contents g' as = contents g as := contents_congr (fun q hq => m6 q (fun e => hpa (e ▸ hq)))
    have hcb : contents g' bs' = contents g bs' := contents_congr (fun q hq => m6 q (fun e => hpbs (e ▸ hq)))
    have hb1 := (w.cont.cnt b (by simp)).1
    refine ⟨hfit, _, rfl, m1, m2, m3, ?_, ?_⟩
    · rcases hi with ⟨k, e, hk⟩ | ⟨e, _⟩ | ⟨b2, bs2, e, e2⟩
      · subst e
        simp only
        rw [if_neg hpb]
        obtain ⟨_, hu, hv⟩ := at_inv own.nodup a
        refine at_at (by omega) ?_ ?_
        · rw [hu, hca, m4, List.take_append_of_le_length (by simp; omega)]
        · rw [hv, hcb, m4, List.drop_append_of_le_length (by simp; omega), contents_cons, List.append_assoc]
      · cases e
      · have he := List.cons.inj e
        subst e2
        simp only
        rw [← he.1, if_pos rfl]
        rw [← he.1] at a
        have hsh : as ++ p :: b :: bs' = (as ++ [p]) ++ b :: bs' := by simp
        rw [hsh] at a
        obtain ⟨_, hu, hv⟩ := at_inv (hsh ▸ own.nodup) a
        refine at_at (by omega) ?_ ?_
        · rw [hu, hca, m4, List.take_left' (by simp), contents_append, contents_cons, contents_nil]; simp
        · rw [hv, hcb, m4, List.drop_left' (by simp)]; simp
    · intro hip
      rw [if_neg (by rw [hip]; exact hpb)]
      refine ⟨rfl, ?_⟩
      rcases hi with ⟨k, e, hk⟩ | ⟨e, _⟩ | ⟨b2, bs2, e, e2⟩
      · exact Or.inl ⟨k, e, by omega⟩
      · cases e
      · have he := List.cons.inj e
        rw [e2] at hip
        exact absurd (hip.symm.trans he.1.symm) hpb
  · left
    rw [if_neg hfit]
    exact ⟨by omega, rfl⟩

theorem mergePrev_spec {c : Cfg} {held : List Nat} {g : Heap α} {sid p n : Nat} {as bs fs : List Nat} {i : Itr} {u v : List α} (limit : Nat)
    (w : World c.cap g sid (as ++ n :: p :: bs) fs) (hm : held.length + 5 < c.max) (hcap : c.cap < nilItem) (huv : contents g (as ++ n :: p :: bs) = u ++ v) :
    mergePrev c held g sid i p = ⟨g, some i, .default, .default⟩ ∨
    ∃ i', (mergePrev c held g sid i p).itr = some i' ∧
      Cont c.cap (mergePrev c held g sid i p).heap sid (as ++ n :: bs) ∧
      Step limit g (mergePrev c held g sid i p).heap sid (as ++ n :: p :: bs) (as ++ n :: bs) fs [p] ∧
      ((mergePrev c held g sid i p).heap.states sid).total = (g.states sid).total ∧
      contents (mergePrev c held g sid i p).heap (as ++ n :: bs) = u ++ v ∧
      (After g p bs i → At g (as ++ n :: p :: bs) i u v → At (mergePrev c held g sid i p).heap (as ++ n :: bs) i' u v) := by
  have own := w.cont.own
  have hsh : as ++ n :: p :: bs = (as ++ [n]) ++ p :: bs := by simp
  have hpv : (g.pages p).prev = n := by
    have := prev_eq (hsh ▸ own)
    rw [getLastD_append nil nil (by simp)] at this
    exact this
  have hnd1 := List.nodup_append.1 own.nodup
  have hn2 := List.nodup_cons.1 hnd1.2.1
  have hn3 := List.nodup_cons.1 hn2.2
  have hnp : n ≠ p := by intro e; exact hn2.1 (by rw [e]; simp)
  have hna : n ∉ as := fun hx => hnd1.2.2 n hx n (by simp) rfl
  have hnbs : n ∉ bs := fun hx => hn2.1 (by simp [hx])
  unfold mergePrev
  simp only
  rw [hpv, canLock_of (by simp; omega), if_neg (by decide)]
  by_cases hfit : (g.pages p).count + (g.pages n).count ≤ c.cap
  · right
    rw [if_pos hfit]
    obtain ⟨m1, m2, m3, m4, m5, m6⟩ := merge_spec (c := c) (held := n :: held) limit (by simp; omega) w (by omega)
    simp only at m1 m2 m3 m4 m5 m6 ⊢
    generalize erasePage c (n :: held) (appendItems g n p) sid p = g' at *
    have hca : contents g' as = contents g as := contents_congr (fun q hq => m6 q (fun e => hna (e ▸ hq)))
    have hcb : contents g' bs = contents g bs := contents_congr (fun q hq => m6 q (fun e => hnbs (e ▸ hq)))
    have hp1 := w.cont.cnt p (by simp)
    have hcon : contents g' (as ++ n :: bs) = u ++ v := by rw [at_merge_keep m4 hca hcb, huv]
    refine ⟨_, rfl, m1, m2, m3, hcon, ?_⟩
    intro hi a
    rcases hi with ⟨k, e, hk⟩ | ⟨e, e2⟩ | ⟨b, bs', e, e2⟩
    · subst e
      simp only
      rw [if_pos trivial, if_pos (by omega)]
      rw [hsh] at a
      obtain ⟨_, hu, hv⟩ := at_inv (hsh ▸ own.nodup) a
      refine at_at (by omega) ?_ ?_
      · rw [hu, hca, m4, List.take_append, contents_append, contents_cons, contents_nil]
        simp
        rw [List.take_of_length_le (by simp)]
      · rw [hv, hcb, m4, List.drop_append]
        simp
    · subst e e2
      simp only
      rw [if_pos trivial, if_neg (by simp)]
      obtain ⟨_, _, hu, hv⟩ := at_inv_fin a
      have h1 : At g' (as ++ [n]) ⟨(as ++ [n]).getLastD nil, nilItem, .fin⟩ (contents g' (as ++ [n])) [] := At.fin
      rw [hcon, hv, List.append_nil, getLastD_append nil nil (by simp)] at h1
      rw [hv]
      exact h1
    · subst e e2
      have hbp : b ≠ p := fun e => hn3.1 (by rw [e]; simp)
      have hbn : b ≠ n := fun e => hnbs (by rw [e]; simp)
      simp only
      rw [if_neg hbp]
      have hsh2 : as ++ n :: p :: b :: bs' = (as ++ [n, p]) ++ b :: bs' := by simp
      rw [hsh2] at a
      obtain ⟨hk, hu, hv⟩ := at_inv (hsh2 ▸ own.nodup) a
      have hsh3 : as ++ n :: b :: bs' = (as ++ [n]) ++ b :: bs' := by simp
      rw [hsh3]
      have hpb : pageItems (g'.pages b) = pageItems (g.pages b) := m6 b hbn
      have hcb' : contents g' bs' = contents g bs' := contents_congr (fun q hq => m6 q (fun e => hnbs (e ▸ by simp [hq])))
      refine at_at ?_ ?_ ?_
      · have := congrArg List.length hpb
        simp at this
        omega
      · rw [hu]
        simp [contents_append, contents_cons, contents_nil, hca, m4]
      · rw [hv, hpb, hcb']
  · left
    rw [if_neg hfit]

/-- Balancing after an erasure: the items stay, and the iterator is right unless the page was merged with
the next one, to which the iterator pointed, and there is a page before. -/
theorem balanceMerge_spec {c : Cfg} {held : List Nat} {g : Heap α} {sid p : Nat} {as bs fs : List Nat} {i : Itr} {u v : List α} (limit : Nat)
    (w : World c.cap g sid (as ++ p :: bs) fs) (hm : held.length + 5 < c.max) (hcap : c.cap < nilItem) (hi : After g p bs i)
    (a : At g (as ++ p :: bs) i u v) :
    ∃ ps' fs' i', (balanceMerge c held g sid i p).itr = some i' ∧ Cont c.cap (balanceMerge c held g sid i p).heap sid ps' ∧
      Step limit g (balanceMerge c held g sid i p).heap sid (as ++ p :: bs) ps' fs fs' ∧
      ((balanceMerge c held g sid i p).heap.states sid).total = (g.states sid).total ∧
      contents (balanceMerge c held g sid i p).heap ps' = u ++ v ∧
      (i.page = p ∨ as = [] ∨ c.cap < (g.pages p).count + (g.pages (g.pages p).next).count → At (balanceMerge c held g sid i p).heap ps' i' u v) := by
  have own := w.cont.own
  -- the state after merging with the next page
  have stage : ∃ (r1 : Res α) (bs1 fs1 : List Nat) (i1 : Itr), r1 = (if (g.pages p).next = nil then ⟨g, some i, .default, .default⟩ else mergeNext c (p :: held) g sid i p) ∧
      r1.itr = some i1 ∧ World c.cap r1.heap sid (as ++ p :: bs1) fs1 ∧ Step limit g r1.heap sid (as ++ p :: bs) (as ++ p :: bs1) fs fs1 ∧
      (r1.heap.states sid).total = (g.states sid).total ∧ At r1.heap (as ++ p :: bs1) i1 u v ∧
      (i.page = p ∨ c.cap < (g.pages p).count + (g.pages (g.pages p).next).count → i1 = i ∧ After r1.heap p bs1 i) := by
    have hnx := next_eq own
    cases hbs : bs with
    | nil =>
      rw [hbs] at hnx w a hi
      refine ⟨_, [], fs, i, rfl, ?_⟩
      rw [if_pos (show (g.pages p).next = nil from hnx)]
      exact ⟨rfl, w, step_refl w, rfl, a, fun _ => ⟨rfl, hi⟩⟩
    | cons b bs' =>
      rw [hbs] at hnx w a hi
      have hb : (g.pages p).next = b := hnx
      have hnn : (g.pages p).next ≠ nil := by rw [hnx]; exact own.nn b (by rw [hbs]; simp)
      rcases mergeNext_spec (held := p :: held) limit w (by simp; omega) hi a with ⟨h1, h2⟩ | ⟨h1, i', h2, h3, h4, h5, h6, h7⟩
      · refine ⟨_, b :: bs', fs, i, rfl, ?_⟩
        rw [if_neg hnn, h2]
        exact ⟨rfl, w, step_refl w, rfl, a, fun _ => ⟨rfl, hi⟩⟩
      · refine ⟨_, bs', [b], i', rfl, ?_⟩
        rw [if_neg hnn]
        refine ⟨h2, Step.world w h4 h3, h4, h5, h6, ?_⟩
        rw [hb]
        rintro (e | e)
        · exact h7 e
        · omega
  obtain ⟨r1, bs1, fs1, i1, hr1, hit, w1, st1, ht1, a1, hk1⟩ := stage
  unfold balanceMerge
  simp only
  rw [← hr1]
  have hpv := prev_eq w1.cont.own
  rcases List.eq_nil_or_concat as with e | ⟨as0, n, e⟩
  · subst e
    rw [if_pos (show (r1.heap.pages p).prev = nil from hpv)]
    exact ⟨_, fs1, i1, hit, w1.cont, st1, ht1, a1.contents, fun _ => a1⟩
  · rw [List.concat_eq_append] at e
    subst e
    rw [getLastD_append nil nil (by simp)] at hpv
    have hpn : (r1.heap.pages p).prev = n := hpv
    rw [if_neg (by rw [hpn]; exact own.nn n (by simp))]
    have hsh : ∀ l : List Nat, (as0 ++ [n]) ++ p :: l = as0 ++ n :: p :: l := fun l => by simp
    have hc := a1.contents
    rw [hsh] at w1 hc
    rcases mergePrev_spec (held := held) (i := i) limit w1 hm hcap hc with h1 | ⟨i', h1, h2, h3, h4, h5, h6⟩
    · rw [h1]
      refine ⟨_, fs1, i, rfl, w1.cont, by rw [← hsh]; exact st1, ht1, hc, ?_⟩
      rintro (e | e | e)
      · obtain ⟨e1, _⟩ := hk1 (Or.inl e)
        rw [← hsh, ← e1]; exact a1
      · simp at e
      · obtain ⟨e1, _⟩ := hk1 (Or.inr e)
        rw [← hsh, ← e1]; exact a1
    · refine ⟨_, [p], i', h1, h2, Step.trans st1 (by rw [hsh]; exact h3), by rw [h4, ht1], h5, ?_⟩
      have fin : i1 = i ∧ After r1.heap p bs1 i → At (mergePrev c held r1.heap sid i p).heap (as0 ++ n :: bs1) i' u v := by
        rintro ⟨e1, e2⟩
        apply h6 e2
        rw [← hsh, ← e1]; exact a1
      rintro (e | e | e)
      · exact fin (hk1 (Or.inl e))
      · simp at e
      · exact fin (hk1 (Or.inr e))

/-- When the iterator returned by an erasure is right, in terms of the page of the erased item: either the
page keeps items and either the erased item was not its last one, or there is no next page, or there is no
previous page, or the page is not merged with the next one; or the page goes away and there is a next one. -/
def ErGood (c : Cfg) (h : Heap α) (i : Itr) : Prop :=
  (1 < (h.pages i.page).count ∧
    (i.item + 1 < (h.pages i.page).count ∨ (h.pages i.page).next = nil ∨ (h.pages i.page).prev = nil ∨ shouldBalanceErase c h i = false ∨
      c.cap < 2 * ((h.pages i.page).count - 1) ∨ c.cap < (h.pages i.page).count - 1 + (h.pages (h.pages i.page).next).count)) ∨
  ((h.pages i.page).count = 1 ∧ (h.pages i.page).next ≠ nil)

structure Erased (c : Cfg) (h : Heap α) (sid : Nat) (ps fs : List Nat) (i : Itr) (u v : List α) (limit total : Nat) (r : Res α) (ps' fs' : List Nat) (i' : Itr) : Prop where
  itr : r.itr = some i'
  cont : Cont c.cap r.heap sid ps'
  step : Step limit h r.heap sid ps ps' fs fs'
  total : (r.heap.states sid).total = total
  items : contents r.heap ps' = u ++ v
  at_ : ErGood c h i → At r.heap ps' i' u v

theorem ceraseNostate_spec {c : Cfg} {held : List Nat} {h : Heap α} {sid : Nat} {ps fs : List Nat} {i : Itr} {u v : List α} {y : α} (limit : Nat)
    (w : World c.cap h sid ps fs) (hm : held.length + 5 < c.max) (hcap : c.cap < nilItem) (a : At h ps i u (y :: v)) :
    ∃ ps' fs' i', Erased c h sid ps fs i u v limit (h.states sid).total (ceraseNostate c held h sid i) ps' fs' i' := by
  generalize hv : y :: v = v0 at a
  cases a with
  | fin => cases hv
  | item as p bs k e hk =>
  subst e
  have own := w.cont.own
  have hdk : (pageItems (h.pages p)).drop k = (pageItems (h.pages p))[k]'(by simpa using hk) :: (pageItems (h.pages p)).drop (k + 1) :=
    (List.getElem_cons_drop (by simpa using hk)).symm
  have hv' : v = (pageItems (h.pages p)).drop (k + 1) ++ contents h bs := by
    rw [hdk, List.cons_append] at hv
    exact (List.cons.inj hv).2
  unfold ceraseNostate
  rw [show (⟨p, k, .none⟩ : Itr).page = p from rfl, canLock_of (by omega), if_neg (by decide)]
  by_cases hmany : 1 < (h.pages p).count
  · rw [if_pos hmany]
    obtain ⟨i1, h1, h2, h3, h4, h5, h6, h7, h8, h9, h10⟩ := eraseFromMany_spec limit w hk hmany
    simp only at h1 h2 h3 h4 h5 h6 h7 h8 h9 h10 ⊢
    rw [← hv'] at h10
    have w2 := Step.world w h3 h2
    cases hb : (shouldBalanceErase c h ⟨p, k, .none⟩ && decide (2 * ((eraseFromMany h sid ⟨p, k, .none⟩).heap.pages p).count ≤ c.cap)) with
    | false =>
      rw [if_neg (by decide)]
      exact ⟨_, _, i1, h1, h2, h3, by rw [h4], h10.contents, fun _ => h10⟩
    | true =>
      rw [if_pos rfl, h1, Option.getD_some]
      obtain ⟨ps', fs', i', m1, m2, m3, m4, m5, m6⟩ := balanceMerge_spec (held := held) limit w2 hm hcap h7 h10
      rw [Bool.and_eq_true, decide_eq_true_eq] at hb
      refine ⟨ps', fs', i', m1, m2, Step.trans h3 m3, by rw [m4, h4], m5, ?_⟩
      intro hg
      apply m6
      rcases hg with ⟨_, hg⟩ | ⟨hg, _⟩
      · simp only at hg
        rcases hg with hg | hg | hg | hg | hg | hg
        · left; rw [h8 hg]
        · have hnx := next_eq own
          left
          rcases h7 with ⟨k2, e, _⟩ | ⟨e, e2⟩ | ⟨b, bs', e, _⟩
          · rw [e]
          · rw [e2]
          · rw [hg, e] at hnx
            exact absurd hnx.symm (own.nn b (by rw [e]; simp))
        · have hpv := prev_eq own
          right; left
          rcases List.eq_nil_or_concat as with e | ⟨as0, n, e⟩
          · exact e
          · rw [List.concat_eq_append] at e
            rw [hg, e, getLastD_append nil nil (by simp)] at hpv
            exact absurd hpv.symm (own.nn n (by rw [e]; simp))
        · rw [hg] at hb; exact absurd hb.1 (by decide)
        · rw [h5] at hb; omega
        · have hnx := next_eq own
          cases bs with
          | nil =>
            left
            rcases h7 with ⟨k2, e, _⟩ | ⟨e, e2⟩ | ⟨b, bs', e, _⟩
            · rw [e]
            · rw [e2]
            · cases e
          | cons b bs' =>
            have hb2 : (h.pages p).next = b := hnx
            have hbp : b ≠ p := fun e => (List.nodup_cons.1 (List.nodup_append.1 own.nodup).2.1).1 (by rw [e]; simp)
            right; right
            rw [(h9 p).2.2, h5]
            rw [hb2] at hg ⊢
            rw [h6 b hbp]; exact hg
      · exact absurd hg (by show ¬ (h.pages p).count = 1; omega)
  · rw [if_neg hmany]
    have hc1 : (h.pages p).count = 1 := by have := (w.cont.cnt p (by simp)).1; omega
    have hk0 : k = 0 := by omega
    subst hk0
    obtain ⟨e1, e2, e3, e4⟩ := erasePage_spec (c := c) (held := held) limit (by omega) w.sid own w.free w.disj
    have hcont : contents (erasePage c held h sid p) (as ++ bs) = contents h as ++ (pageItems (h.pages p)).take 0 ++ v := by
      have hd0 : (pageItems (h.pages p)).drop (0 + 1) = [] := List.drop_of_length_le (by simp; omega)
      rw [hv', hd0, contents_sameData e2, contents_append]; simp
    have hcnt : Cont c.cap (erasePage c held h sid p) sid (as ++ bs) := by
      refine ⟨e1, fun q hq => ?_⟩
      rw [(e2 q).1]
      apply w.cont.cnt
      simp at hq ⊢; tauto
    refine ⟨as ++ bs, [p], _, rfl, hcnt, e3, e4, hcont, ?_⟩
    intro hg
    rcases hg with ⟨hg, _⟩ | ⟨_, hg⟩
    · exact absurd hg hmany
    · simp only at hg ⊢
      rw [if_neg hg]
      have hnx := next_eq own
      cases bs with
      | nil => exact absurd hnx hg
      | cons b bs' =>
        have hb2 : (h.pages p).next = b := hnx
        rw [hb2]
        have hcb := (w.cont.cnt b (by simp)).1
        have hd0 : (pageItems (h.pages p)).drop (0 + 1) = [] := List.drop_of_length_le (by simp; omega)
        refine at_at (by rw [(e2 b).1]; omega) ?_ ?_
        · rw [contents_sameData e2]; simp
        · rw [hv', hd0, contents_sameData e2, items_sameData e2, contents_cons]; simp

/-- `erase2` at an iterator to an item. -/
theorem erase2_spec {c : Cfg} {held : List Nat} {h : Heap α} {sid : Nat} {ps fs : List Nat} {i : Itr} {u v : List α} {y : α} (limit : Nat)
    (w : World c.cap h sid ps fs) (hm : held.length + 5 < c.max) (hcap : c.cap < nilItem) (a : At h ps i u (y :: v)) :
    ∃ r ps' fs' i', erase2 c held h sid i = some r ∧ Erased c h sid ps fs i u v limit ((h.states sid).total - 1) r ps' fs' i' := by
  obtain ⟨ps', fs', i', er⟩ := ceraseNostate_spec (held := held) limit w hm hcap a
  have hd : canDeref i = true := by
    generalize hv : y :: v = v0 at a
    cases a with
    | fin => cases hv
    | item as p bs k e hk =>
      have h1 := w.cont.own.nn p (by rw [e]; simp)
      have h2 := (w.cont.cnt p (by rw [e]; simp)).2
      have h3 : k ≠ nilItem := by omega
      simp [canDeref, h1, h3]
  unfold erase2
  rw [hd, if_neg (by decide)]
  simp only
  rw [er.itr]
  refine ⟨_, ps', fs', i', rfl, rfl, ⟨own_of_state er.cont.own (by simp only; rw [setState_same]) (by simp only; rw [setState_same]) (fun q _ => ⟨rfl, rfl, rfl⟩), er.cont.cnt⟩,
    step_state w.sid er.step _, ?_, er.items, fun hg => at_state (er.at_ hg)⟩
  simp only
  rw [setState_same]
  simp only
  rw [er.total]

end Abc.Vmem.Pages
