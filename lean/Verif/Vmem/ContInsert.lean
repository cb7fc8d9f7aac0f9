import Verif.Vmem.ContLemmas

/-! # Insertion into a container -/

namespace Abc.Vmem.Pages

variable {α : Type}

theorem own_of_state {h h' : Heap α} {sid : Nat} {ps : List Nat} (o : Own h sid ps) (hf : (h'.states sid).front = (h.states sid).front)
    (hb : (h'.states sid).back = (h.states sid).back) (hl : ∀ q ∈ ps, SameLinks h h' q) : Own h' sid ps :=
  ⟨hf.trans o.front, hb.trans o.back, dl_congr o.dl hl, o.nodup, o.nn⟩

/-- `insert_with_capacity` on a page with room. -/
theorem iwc_spec {c : Cfg} {h : Heap α} {p item k : Nat} {x : α} (hk : (if item = nilItem then (h.pages p).count else item) = k)
    (hle : k ≤ (h.pages p).count) (hlt : (h.pages p).count < c.cap) :
    let r := insertWithCapacity c h p item x
    r.itr = some ⟨p, k, .none⟩ ∧ r.lead0 = .default ∧ r.heap.states = h.states ∧ r.heap.len = h.len ∧ r.heap.bad = h.bad ∧
    (∀ q, SameLinks h r.heap q) ∧ (∀ q, q ≠ p → r.heap.pages q = h.pages q) ∧ (r.heap.pages p).count = (h.pages p).count + 1 ∧
    pageItems (r.heap.pages p) = (pageItems (h.pages p)).take k ++ x :: (pageItems (h.pages p)).drop k := by
  unfold insertWithCapacity
  simp only
  rw [hk, decide_eq_true hle, decide_eq_true hlt]
  simp only [Bool.and_self, check_true]
  refine ⟨trivial, trivial, rfl, rfl, rfl, mod_links (fun _ => ⟨rfl, rfl, rfl⟩), fun q hq => mod_pages_ne _ _ hq, by rw [mod_pages_same], ?_⟩
  rw [mod_pages_same]
  exact shiftIn_items _ _ _ _ hle

/-- An iterator to an item of a page whose items are known. -/
theorem at_item {h : Heap α} {as bs : List Nat} {p : Nat} {a b : List α} {x : α} (e : pageItems (h.pages p) = a ++ x :: b) :
    At h (as ++ p :: bs) ⟨p, a.length, .none⟩ (contents h as ++ a) (x :: b ++ contents h bs) := by
  have hl : (h.pages p).count = a.length + (b.length + 1) := by
    have := congrArg List.length e
    simpa using this
  have := At.item (h := h) (ps := as ++ p :: bs) as p bs a.length rfl (by omega)
  rw [e] at this
  simpa using this

theorem contents_other {h h' : Heap α} {ps : List Nat} {p : Nat} (hp : p ∉ ps) (hq : ∀ q, q ≠ p → h'.pages q = h.pages q) : contents h' ps = contents h ps :=
  contents_congr (fun q hx => by rw [hq q (fun e => hp (e ▸ hx))])

/-- Insertion into a page with room. -/
theorem insert_room {c : Cfg} {h : Heap α} {sid p item k : Nat} {x : α} {as bs : List Nat} (limit : Nat)
    (own : Own h sid (as ++ p :: bs)) (cnt : ∀ q ∈ as ++ bs, 1 ≤ (h.pages q).count ∧ (h.pages q).count ≤ c.cap)
    {fs : List Nat} (hf : FreeOk h fs) (hd : ∀ q ∈ as ++ p :: bs, q ∉ fs)
    (hk : (if item = nilItem then (h.pages p).count else item) = k) (hle : k ≤ (h.pages p).count) (hlt : (h.pages p).count < c.cap) :
    let r := insertWithCapacity c h p item x
    ∃ i', r.itr = some i' ∧ r.lead0 = .default ∧ Cont c.cap r.heap sid (as ++ p :: bs) ∧ Step limit h r.heap sid (as ++ p :: bs) (as ++ p :: bs) fs fs ∧
      r.heap.states = h.states ∧
      At r.heap (as ++ p :: bs) i' (contents h as ++ (pageItems (h.pages p)).take k) (x :: (pageItems (h.pages p)).drop k ++ contents h bs) := by
  obtain ⟨r1, r2, r3, r4, r5, r6, r7, r8, r9⟩ := iwc_spec (c := c) (x := x) hk hle hlt
  simp only
  generalize insertWithCapacity c h p item x = r at *
  have hnd := List.nodup_append.1 own.nodup
  have hpb : p ∉ bs := (List.nodup_cons.1 hnd.2.1).1
  have hpa : p ∉ as := fun hx => hnd.2.2 p hx p (by simp) rfl
  refine ⟨⟨p, k, .none⟩, r1, r2, ⟨own_data own (by rw [r3]) r6, ?_⟩, step_data hf hd r3 r6 ?_ r4 r5, r3, ?_⟩
  · intro q hq
    by_cases e : q = p
    · subst e; rw [r8]; omega
    · rw [r7 q e]; apply cnt; simp at hq ⊢; tauto
  · intro q hq; exact r7 q (fun e => hq (by rw [e]; simp))
  · have := at_item (as := as) (bs := bs) r9
    rw [contents_other hpa r7, contents_other hpb r7] at this
    have hlen : ((pageItems (h.pages p)).take k).length = k := by simp [hle]
    rw [hlen] at this
    exact this

/-- The update of the state keeps front and back. -/
theorem cinsertState_spec {h : Heap α} {sid : Nat} {ps : List Nat} {i j : Itr} {lead : Nat} (o : Own h sid ps) (hne : ps ≠ [])
    (hl : lead = nil ∨ (h.states sid).back ≠ i.page) :
    cinsertState (h.states sid) i j lead = ⟨(h.states sid).front, (h.states sid).back, (h.states sid).total + 1⟩ := by
  have hf : (h.states sid).front ≠ nil := by rw [o.front]; exact o.nn _ (headD_mem hne)
  have hb : (h.states sid).back ≠ nil := by rw [o.back]; exact o.nn _ (getLastD_mem hne)
  unfold cinsertState
  rw [if_neg hf, if_neg hb, if_neg]
  rintro ⟨h1, h2⟩
  rcases hl with h | h
  · exact h2 h
  · exact h h1

theorem at_state {h : Heap α} {ps : List Nat} {i : Itr} {u v : List α} {sid : Nat} {s : CState} (a : At h ps i u v) : At (h.setState sid s) ps i u v := by
  cases a with
  | item as p bs k e hk => exact At.item (h := h.setState sid s) as p bs k e hk
  | fin => exact At.fin (h := h.setState sid s)

/-- A write to the container's own state. -/
theorem step_state {limit : Nat} {h h' : Heap α} {sid : Nat} {ps ps' fs fs' : List Nat} (hs : sid ≠ 0) (s : Step limit h h' sid ps ps' fs fs') (v : CState) :
    Step limit h (h'.setState sid v) sid ps ps' fs fs' where
  free := freeOk_congr s.free (setState_ne _ _ (Ne.symm hs)) (fun _ _ => ⟨rfl, rfl, rfl⟩)
  pages := s.pages
  states := fun t h1 h2 => (setState_ne _ _ h1).trans (s.states t h1 h2)
  sub := s.sub
  fsub := s.fsub
  disj := s.disj
  len := s.len
  lim := s.lim
  bad := s.bad

/-- What a successful insertion means. -/
def Inserted (c : Cfg) (h : Heap α) (sid : Nat) (ps fs : List Nat) (u v : List α) (x : α) (r : Res α) : Prop :=
  ∃ i' ps' fs', r.itr = some i' ∧ Cont c.cap r.heap sid ps' ∧ Step c.limit h r.heap sid ps ps' fs fs' ∧ At r.heap ps' i' u (x :: v) ∧
    (r.heap.states sid).total = (h.states sid).total + 1

/-- The part of an insertion before the state is updated. -/
def Nearly (c : Cfg) (h : Heap α) (sid : Nat) (ps fs : List Nat) (i : Itr) (u v : List α) (x : α) (r : Res α) : Prop :=
  ∃ i' ps' fs', r.itr = some i' ∧ Cont c.cap r.heap sid ps' ∧ Step c.limit h r.heap sid ps ps' fs fs' ∧ At r.heap ps' i' u (x :: v) ∧
    (r.heap.states sid).total = (h.states sid).total ∧ ps' ≠ [] ∧ (r.lead0.page = nil ∨ (r.heap.states sid).back ≠ i.page)

theorem insert_overflow {c : Cfg} {held : List Nat} {h : Heap α} {sid : Nat} {ps fs : List Nat} {i : Itr} {u v : List α} {x : α}
    (w : World c.cap h sid ps fs) (a : At h ps i u v) (hne : ps ≠ []) (hm : held.length + 4 < c.max) (hlim : c.limit ≤ nil) (hlog : c.log = true)
    (hcap : 1 ≤ c.cap) (hcap2 : c.cap < nilItem) (hpol : i.edge = .fin ∨ (2 ≤ c.cap ∧ c.insBegin = true ∧ c.insInner = true))
    (hfull : (h.pages i.page).count = c.cap) :
    (insertWithOverflow c held h sid i x = .fail h ∧ c.limit ≤ h.len) ∨ Nearly c h sid ps fs i u v x (insertWithOverflow c held h sid i x) := by
  -- the page of the iterator and what is before and behind it
  obtain ⟨as, bs, hps, hfin⟩ : ∃ as bs, ps = as ++ i.page :: bs ∧ (i.item = nilItem → bs = []) ∧
      u = contents h as ++ (if i.item = nilItem then pageItems (h.pages i.page) else (pageItems (h.pages i.page)).take i.item) ∧
      v = (if i.item = nilItem then [] else (pageItems (h.pages i.page)).drop i.item) ++ contents h bs ∧
      (i.item = nilItem ∨ (i.item < c.cap ∧ i.edge = .none)) := by
    cases a with
    | item as p bs k e hk =>
      simp only at hfull
      rw [hfull] at hk
      have : k ≠ nilItem := by omega
      refine ⟨as, bs, e, fun hh => absurd hh this, ?_, ?_, Or.inr ⟨hk, rfl⟩⟩
      · simp only; rw [if_neg this]
      · simp only; rw [if_neg this]
    | fin =>
      rcases List.eq_nil_or_concat ps with he | ⟨l, p, he⟩
      · exact absurd he hne
      · have hl : ps.getLastD nil = p := by rw [he]; simp
        refine ⟨l, [], by simp only [hl]; rw [he]; simp, fun _ => rfl, ?_, by simp, Or.inl rfl⟩
        simp only [if_true, hl]
        rw [he, List.concat_eq_append, contents_append, contents_cons, contents_nil, List.append_nil]
  obtain ⟨hbs, hu, hv, hcase⟩ := hfin
  have hpm : i.page ∈ ps := by rw [hps]; simp
  have hps2 : ps = (as ++ [i.page]) ++ bs := by rw [hps]; simp
  unfold insertWithOverflow
  rcases insertPageAfter_spec (held := held) w hm hlim hlog (as ++ [i.page]) bs hps2 i.page (Or.inr ⟨by simp, by simp⟩) with ⟨h1, hl⟩ | hok
  · left; rw [h1]; exact ⟨rfl, hl⟩
  right
  obtain ⟨h1, n, fs', e1, own1, st1, hn0, hnew, hnn, hdat, htot⟩ := hok
  rw [e1]
  simp only
  have hnp : n ≠ i.page := fun e => hnew (e ▸ hpm)
  have hshape : as ++ [i.page] ++ n :: bs = as ++ i.page :: n :: bs := by simp
  rw [hshape] at own1 st1
  have hnd1 := List.nodup_append.1 own1.nodup
  have hpa : i.page ∉ as := fun hx => hnd1.2.2 i.page hx i.page (by simp) rfl
  have hpb : i.page ∉ bs := by have := (List.nodup_cons.1 hnd1.2.1).1; simp at this; tauto
  have hna : n ∉ as := fun hx => hnew (by rw [hps]; simp [hx])
  have hnb : n ∉ bs := fun hx => hnew (by rw [hps]; simp [hx])
  have hback : (h1.states sid).back ≠ i.page := by
    rw [own1.back, show as ++ i.page :: n :: bs = (as ++ [i.page]) ++ n :: bs by simp, getLastD_append nil nil (by simp)]
    intro e
    have : i.page ∈ n :: bs := e ▸ getLastD_mem (by simp)
    exact (List.nodup_cons.1 hnd1.2.1).1 this
  have hcp : (h1.pages i.page).count = c.cap := by rw [(hdat _ (Ne.symm hnp)).1]; exact hfull
  have hip : pageItems (h1.pages i.page) = pageItems (h.pages i.page) :=
    pageItems_congr (hdat _ (Ne.symm hnp)).1 (fun j _ => by rw [(hdat _ (Ne.symm hnp)).2])
  have hca : contents h1 as = contents h as := contents_congr (fun q hq => pageItems_congr (hdat q (fun e => hna (e ▸ hq))).1
    (fun j _ => by rw [(hdat q (fun e => hna (e ▸ hq))).2]))
  have hcb : contents h1 bs = contents h bs := contents_congr (fun q hq => pageItems_congr (hdat q (fun e => hnb (e ▸ hq))).1
    (fun j _ => by rw [(hdat q (fun e => hnb (e ▸ hq))).2]))
  have hcnt : ∀ q ∈ as ++ bs, 1 ≤ (h1.pages q).count ∧ (h1.pages q).count ≤ c.cap := by
    intro q hq
    have hqn : q ≠ n := by intro e; subst e; rcases List.mem_append.1 hq with hq | hq; exacts [hna hq, hnb hq]
    rw [(hdat q hqn).1]
    apply w.cont.cnt; rw [hps]; simp at hq ⊢; tauto
  -- the rest from the heap in which the item is inserted
  have finish : ∀ (g : Heap α) (q item k : Nat) (as' bs' : List Nat) (u' v' : List α), Step c.limit h g sid ps (as' ++ q :: bs') fs fs' → Own g sid (as' ++ q :: bs') →
      as' ++ q :: bs' = as ++ i.page :: n :: bs → g.states = h1.states →
      (∀ t ∈ as' ++ bs', 1 ≤ (g.pages t).count ∧ (g.pages t).count ≤ c.cap) →
      (if item = nilItem then (g.pages q).count else item) = k → k ≤ (g.pages q).count → (g.pages q).count < c.cap →
      u' = contents g as' ++ (pageItems (g.pages q)).take k → v' = (pageItems (g.pages q)).drop k ++ contents g bs' →
      ∀ l0 l1 : Lead α, Nearly c h sid ps fs i u' v' x { insertWithCapacity c g q item x with lead0 := l0, lead1 := l1 } := by
    intro g q item k as' bs' u' v' hst hown hsh hgs hcn hk hle hlt hu' hv' l0 l1
    obtain ⟨i', q1, q2, q3, q4, q5, q6⟩ := insert_room (x := x) c.limit hown hcn hst.free hst.disj hk hle hlt
    refine ⟨i', as' ++ q :: bs', fs', q1, q3, hst.trans q4, ?_, ?_, by simp, Or.inr ?_⟩
    · rw [hu', hv']; exact q6
    · simp only; rw [q5, hgs]; exact htot
    · simp only; rw [q5, hgs]; exact hback
  by_cases hb : shouldBalanceInsert c h i = true
  · -- the page is split
    rw [if_pos hb]
    unfold balanceSplit
    simp only
    generalize hg : (h1.mod n (fun q => { q with count := c.cap / 2, items := fun j =>
      if j < c.cap / 2 then (h1.pages i.page).items (c.cap - c.cap / 2 + j) else q.items j })).mod i.page (fun q => { q with count := c.cap - c.cap / 2 }) = g
    have hgp : g.pages i.page = { h1.pages i.page with count := c.cap - c.cap / 2 } := by
      rw [← hg, mod_pages_same, mod_pages_ne _ _ (Ne.symm hnp)]
    have hgn : g.pages n = { h1.pages n with count := c.cap / 2, items := fun j =>
        if j < c.cap / 2 then (h1.pages i.page).items (c.cap - c.cap / 2 + j) else (h1.pages n).items j } := by
      rw [← hg, mod_pages_ne _ _ hnp, mod_pages_same]
    have hgo : ∀ q, q ≠ i.page → q ≠ n → g.pages q = h1.pages q := by
      intro q h1' h2'; rw [← hg, mod_pages_ne _ _ h1', mod_pages_ne _ _ h2']
    have hgl : ∀ q, SameLinks h1 g q := by
      intro q
      by_cases e1 : q = i.page
      · rw [e1]; unfold SameLinks; rw [hgp]; exact ⟨rfl, rfl, rfl⟩
      · by_cases e2 : q = n
        · rw [e2]; unfold SameLinks; rw [hgn]; exact ⟨rfl, rfl, rfl⟩
        · exact SameLinks.of_eq (hgo q e1 e2)
    have hgs : g.states = h1.states := by rw [← hg]; rfl
    have hglen : g.len = h1.len := by rw [← hg]; rfl
    have hgbad : g.bad = h1.bad := by rw [← hg]; rfl
    have hown : Own g sid (as ++ i.page :: n :: bs) := own_data own1 (by rw [hgs]) hgl
    have hst : Step c.limit h g sid ps (as ++ i.page :: n :: bs) fs fs' := by
      refine st1.trans (step_data st1.free st1.disj hgs hgl ?_ hglen hgbad)
      intro q hq
      exact hgo q (fun e => hq (by rw [e]; simp)) (fun e => hq (by rw [e]; simp))
    have hcga : contents g as = contents h as := by
      rw [← hca]; exact contents_congr (fun q hq => by rw [hgo q (fun e => hpa (e ▸ hq)) (fun e => hna (e ▸ hq))])
    have hcgb : contents g bs = contents h bs := by
      rw [← hcb]; exact contents_congr (fun q hq => by rw [hgo q (fun e => hpb (e ▸ hq)) (fun e => hnb (e ▸ hq))])
    have hPp : pageItems (g.pages i.page) = (pageItems (h.pages i.page)).take (c.cap - c.cap / 2) := by
      rw [← hip, hgp]
      unfold pageItems
      simp only
      rw [hcp]
      exact take_items _ _ _ (by omega)
    have hPn : pageItems (g.pages n) = (pageItems (h.pages i.page)).drop (c.cap - c.cap / 2) := by
      rw [← hip, hgn]
      unfold pageItems
      simp only
      rw [hcp]
      have := drop_items c.cap (c.cap - c.cap / 2) (h1.pages i.page).items (h1.pages n).items
      rw [show c.cap - (c.cap - c.cap / 2) = c.cap / 2 by omega] at this
      exact this
    have hcount_p : (g.pages i.page).count = c.cap - c.cap / 2 := by rw [hgp]
    have hcount_n : (g.pages n).count = c.cap / 2 := by rw [hgn]
    have hcntg : ∀ q ∈ as ++ bs, 1 ≤ (g.pages q).count ∧ (g.pages q).count ≤ c.cap := by
      intro q hq
      have h1' : q ≠ i.page := by intro e; subst e; rcases List.mem_append.1 hq with hq | hq; exacts [hpa hq, hpb hq]
      have h2' : q ≠ n := by intro e; subst e; rcases List.mem_append.1 hq with hq | hq; exacts [hna hq, hnb hq]
      rw [hgo q h1' h2']; exact hcnt q hq
    unfold insertInto
    have hlenP : (pageItems (h.pages i.page)).length = c.cap := by simp [hfull]
    by_cases hit : i.item = nilItem
    · -- at the end: into the new page
      rw [if_neg (by intro hh; exact hh.1 hit), if_neg (by simp [hit])]
      have hb0 := hbs hit
      rw [if_pos hit] at hu hv
      have h1c : (if (g.pages n).count = nilItem then (g.pages n).count else (g.pages n).count) = (g.pages n).count := by split <;> rfl
      refine finish g n _ _ (as ++ [i.page]) bs _ _ (by simpa using hst) (by simpa using hown) (by simp) hgs ?_ h1c (Nat.le_refl _) (by rw [hcount_n]; omega) ?_ ?_ _ _
      · intro t ht
        simp only [List.append_assoc, List.mem_append, List.mem_singleton] at ht
        rcases ht with ht | ht | ht
        · exact hcntg t (by simp [ht])
        · rw [ht, hcount_p]; omega
        · exact hcntg t (by simp [ht])
      · rw [hu, contents_append, contents_cons, contents_nil, hcga, hPp, hPn]
        have e : ((pageItems (h.pages i.page)).drop (c.cap - c.cap / 2)).take (g.pages n).count = (pageItems (h.pages i.page)).drop (c.cap - c.cap / 2) :=
          List.take_of_length_le (by rw [List.length_drop, hlenP, hcount_n]; omega)
        rw [e]
        simp
      · rw [hv, hcgb, hPn, List.drop_of_length_le (by rw [List.length_drop, hlenP, hcount_n]; omega)]
    · have hkc : i.item < c.cap ∧ i.edge = .none := hcase.resolve_left hit
      have hpol2 := hpol.resolve_left (by rw [hkc.2]; decide)
      rw [if_neg hit] at hu hv
      by_cases hle : i.item ≤ (g.pages i.page).count
      · rw [if_pos ⟨hit, hle⟩]
        refine finish g i.page _ i.item as (n :: bs) _ _ hst hown rfl hgs ?_ (by rw [if_neg hit]) hle (by rw [hcount_p]; omega) ?_ ?_ _ _
        · intro t ht
          simp only [List.mem_append, List.mem_cons] at ht
          rcases ht with ht | ht | ht
          · exact hcntg t (by simp [ht])
          · rw [ht, hcount_n]; omega
          · exact hcntg t (by simp [ht])
        · rw [hu, hcga, hPp, List.take_take, Nat.min_eq_left (by rw [hcount_p] at hle; exact hle)]
        · rw [hv, contents_cons, hcgb, hPp, hPn, ← List.append_assoc]
          congr 1
          rw [hcount_p] at hle
          rw [List.drop_take]
          have : (pageItems (h.pages i.page)).drop (c.cap - c.cap / 2) = ((pageItems (h.pages i.page)).drop i.item).drop (c.cap - c.cap / 2 - i.item) := by
            rw [List.drop_drop]; congr 1; omega
          rw [this, List.take_append_drop]
      · rw [if_neg (by intro hh; exact hle hh.2), if_pos hit]
        rw [hcount_p] at hle
        have hkn : i.item - (g.pages i.page).count ≠ nilItem := by rw [hcount_p]; omega
        refine finish g n _ (i.item - (g.pages i.page).count) (as ++ [i.page]) bs _ _ (by simpa using hst) (by simpa using hown) (by simp) hgs ?_ (by rw [if_neg hkn])
          (by rw [hcount_p, hcount_n]; omega) (by rw [hcount_n]; omega) ?_ ?_ _ _
        · intro t ht
          simp only [List.append_assoc, List.mem_append, List.mem_singleton] at ht
          rcases ht with ht | ht | ht
          · exact hcntg t (by simp [ht])
          · rw [ht, hcount_p]; omega
          · exact hcntg t (by simp [ht])
        · rw [hu, contents_append, contents_cons, contents_nil, hcga, hPp, hPn, hcount_p, List.append_nil, List.append_assoc]
          congr 1
          have : i.item = (c.cap - c.cap / 2) + (i.item - (c.cap - c.cap / 2)) := by omega
          conv => lhs; rw [this, List.take_add]
        · rw [hv, hcgb, hPn, hcount_p, List.drop_drop]
          congr 2
          omega
  · -- nothing is moved
    rw [if_neg hb]
    have hit : i.item = nilItem := by
      rcases hcase with h | ⟨h3, h4⟩
      · exact h
      · exfalso
        have hpol2 := hpol.resolve_left (by rw [h4]; decide)
        apply hb
        unfold shouldBalanceInsert
        have hne : i.item ≠ nilItem := by omega
        split
        · exact hpol2.2.1
        · rw [if_neg (by intro hh; exact hne hh.2.1)]; exact hpol2.2.2
    have hb0 := hbs hit
    rw [if_pos hit] at hu hv
    unfold insertInto
    rw [if_neg (by intro hh; exact hh.1 hit), if_neg (by simp [hit])]
    have h1c : (if (h1.pages n).count = nilItem then (h1.pages n).count else (h1.pages n).count) = (h1.pages n).count := by split <;> rfl
    refine finish h1 n _ _ (as ++ [i.page]) bs _ _ (by simpa using st1) (by simpa using own1) (by simp) rfl ?_ h1c (Nat.le_refl _) (by rw [hn0]; omega) ?_ ?_ _ _
    · intro t ht
      simp only [List.append_assoc, List.mem_append, List.mem_singleton] at ht
      rcases ht with ht | ht | ht
      · exact hcnt t (by simp [ht])
      · rw [ht, hcp]; omega
      · exact hcnt t (by simp [ht])
    · rw [hu, contents_append, contents_cons, contents_nil, hca, hip, hn0]
      simp
    · rw [hv, hcb, hn0]
      have : pageItems (h1.pages n) = [] := by unfold pageItems; rw [hn0]; rfl
      rw [this]; rfl

/-- `insert_nostate` of the container. -/
theorem cinsertNostate_spec {c : Cfg} {held : List Nat} {h : Heap α} {sid : Nat} {ps fs : List Nat} {i : Itr} {u v : List α} {x : α}
    (w : World c.cap h sid ps fs) (a : At h ps i u v) (hm : held.length + 5 < c.max) (hlim : c.limit ≤ nil) (hlog : c.log = true)
    (hcap : 1 ≤ c.cap) (hcap2 : c.cap < nilItem) (hpol : i.edge = .fin ∨ (2 ≤ c.cap ∧ c.insBegin = true ∧ c.insInner = true)) :
    (cinsertNostate c held h sid i x = .fail h ∧ c.limit ≤ h.len) ∨ Nearly c h sid ps fs i u v x (cinsertNostate c held h sid i x) := by
  unfold cinsertNostate
  by_cases hps : ps = []
  · -- the first item
    subst hps
    have hi : i = ⟨nil, nilItem, .fin⟩ ∧ u = [] ∧ v = [] := by
      cases a with
      | item as p bs k e hk => simp at e
      | fin => exact ⟨rfl, rfl, rfl⟩
    obtain ⟨rfl, rfl, rfl⟩ := hi
    rw [if_pos rfl]
    rcases insertPageAfter_spec (held := held) w (by omega) hlim hlog [] [] rfl nil (Or.inl ⟨rfl, rfl⟩) with ⟨h1, hl⟩ | hok
    · left; rw [h1]; exact ⟨rfl, hl⟩
    · right
      obtain ⟨h1, n, fs', e1, own1, st1, hn0, hnew, hnn, hdat, htot⟩ := hok
      rw [e1]
      simp only
      obtain ⟨i', q1, q2, q3, q4, q5, q6⟩ := insert_room (c := c) (x := x) (item := 0) (k := 0) (as := []) (bs := []) c.limit own1 (by simp) st1.free st1.disj (by simp [nilItem])
        (by omega) (by omega)
      have hpi : pageItems (h1.pages n) = [] := by unfold pageItems; rw [hn0]; rfl
      refine ⟨i', [n], fs', q1, q3, st1.trans q4, ?_, by rw [q5]; exact htot, by simp, Or.inl (by rw [q2]; rfl)⟩
      rw [hpi] at q6
      exact q6
  · have hpm : i.page ∈ ps := by
      cases a with
      | item as p bs k e hk => rw [e]; simp
      | fin => exact getLastD_mem hps
    have hnn := w.cont.own.nn _ hpm
    rw [if_neg hnn, canLock_of (by omega), if_neg (by decide)]
    by_cases hfull : (h.pages i.page).count = c.cap
    · rw [if_pos hfull]
      exact insert_overflow w a hps (by rw [List.length_cons]; omega) hlim hlog hcap hcap2 hpol hfull
    · rw [if_neg hfull]
      right
      have hlt : (h.pages i.page).count < c.cap := by
        have := (w.cont.cnt _ hpm).2
        omega
      obtain ⟨as, bs, k, e, hk, hle, hu, hv⟩ : ∃ as bs k, ps = as ++ i.page :: bs ∧ (if i.item = nilItem then (h.pages i.page).count else i.item) = k ∧
          k ≤ (h.pages i.page).count ∧ u = contents h as ++ (pageItems (h.pages i.page)).take k ∧ v = (pageItems (h.pages i.page)).drop k ++ contents h bs := by
        cases a with
        | item as p bs k e hk =>
          have : k ≠ nilItem := by simp only at hlt; omega
          exact ⟨as, bs, k, e, by simp [this], by simp only; omega, rfl, rfl⟩
        | fin =>
          rcases List.eq_nil_or_concat ps with he | ⟨l, p, he⟩
          · exact absurd he hps
          · have hl : ps.getLastD nil = p := by rw [he]; simp
            simp only [hl, if_true]
            refine ⟨l, [], (h.pages p).count, by rw [he]; simp, rfl, Nat.le_refl _, ?_, ?_⟩
            · rw [he, List.concat_eq_append, contents_append, contents_cons, contents_nil, List.append_nil, List.take_of_length_le (by simp)]
            · rw [List.drop_of_length_le (by simp)]; rfl
      have own := w.cont.own
      have hd := w.disj
      rw [e] at own hd
      obtain ⟨i', q1, q2, q3, q4, q5, q6⟩ := insert_room (c := c) (x := x) c.limit own
        (fun q hq => w.cont.cnt q (by rw [e]; simp at hq ⊢; tauto)) w.free hd hk hle hlt
      rw [e, hu, hv]
      exact ⟨i', as ++ i.page :: bs, fs, q1, q3, q4, q6, by rw [q5], by simp, Or.inl (by rw [q2]; rfl)⟩

/-- `insert2` fails without a change when the pool is full, and otherwise inserts the item before the
given position and returns an iterator to it. -/
theorem insert2_spec {c : Cfg} {held : List Nat} {h : Heap α} {sid : Nat} {ps fs : List Nat} {i : Itr} {u v : List α} {x : α}
    (w : World c.cap h sid ps fs) (a : At h ps i u v) (hm : held.length + 5 < c.max) (hlim : c.limit ≤ nil) (hlog : c.log = true)
    (hcap : 1 ≤ c.cap) (hcap2 : c.cap < nilItem) (hpol : i.edge = .fin ∨ (2 ≤ c.cap ∧ c.insBegin = true ∧ c.insInner = true)) :
    ∃ r, insert2 c held h sid i x = some r ∧
      ((r.heap = h ∧ r.itr = some (cend (h.states sid)) ∧ c.limit ≤ h.len) ∨ Inserted c h sid ps fs u v x r) := by
  have g1 : ¬ (i.page = nil ∧ (i.item ≠ nilItem ∨ isEmpty (h.states sid) = false)) := by
    rintro ⟨h1, h2⟩
    cases a with
    | item as p bs k e hk => exact w.cont.own.nn p (by rw [e]; simp) h1
    | fin =>
      rcases h2 with h2 | h2
      · exact h2 rfl
      · by_cases hps : ps = []
        · have o := w.cont.own
          rw [hps] at o
          rw [own_empty o] at h2; cases h2
        · exact w.cont.own.nn _ (getLastD_mem hps) h1
  have g2 : ¬ (i.item = nilItem ∧ i.page ≠ (h.states sid).back ∧ i.edge ≠ .fin) := by
    rintro ⟨h1, h2, h3⟩
    cases a with
    | item as p bs k e hk =>
      have := (w.cont.cnt p (by rw [e]; simp)).2
      simp only at h1; omega
    | fin => exact h3 rfl
  unfold insert2
  rw [if_neg g1, if_neg g2]
  simp only
  rcases cinsertNostate_spec (x := x) w a hm hlim hlog hcap hcap2 hpol with ⟨h1, hl⟩ | ⟨i', ps', fs', n1, n2, n3, n4, n5, n6, n7⟩
  · rw [h1]
    exact ⟨_, rfl, Or.inl ⟨rfl, rfl, hl⟩⟩
  · rw [n1]
    refine ⟨_, rfl, Or.inr ?_⟩
    rw [cinsertState_spec n2.own n6 n7]
    refine ⟨i', ps', fs', rfl, ⟨?_, n2.cnt⟩, step_state w.sid n3 _, at_state n4, ?_⟩
    · exact own_of_state n2.own (by rw [setState_same]) (by rw [setState_same]) (fun q _ => ⟨rfl, rfl, rfl⟩)
    · simp only; rw [setState_same]; simp only; rw [n5]

end Abc.Vmem.Pages
