import Verif.Vmem.ContHistory
import Verif.Vmem.MapModel

/-! # Insertion into a page of a container, with the leads and the bytes behind the items -/

namespace Abc.Vmem.Pages

variable {α : Type}

theorem iwc_eq {c : Cfg} {h : Heap α} {p k : Nat} {x : α} (hn : k ≠ nilItem) (hle : k ≤ (h.pages p).count) (hlt : (h.pages p).count < c.cap) :
    insertWithCapacity c h p k x =
      ⟨h.mod p (fun q => { q with count := q.count + 1, items := shiftIn (h.pages p).count k x q.items }), some ⟨p, k, .none⟩, .default, .default⟩ := by
  unfold insertWithCapacity
  simp only
  rw [if_neg hn, decide_eq_true hle, decide_eq_true hlt]
  simp

/-- The page had room. -/
structure RoomOut (c : Cfg) (h : Heap α) (sid : Nat) (as : List Nat) (p : Nat) (bs fs : List Nat) (k : Nat) (x : α) (r : Res α) : Prop where
  itr : r.itr = some ⟨p, k, .none⟩
  lead0 : r.lead0 = .default
  lead1 : r.lead1 = .default
  cont : Cont c.cap r.heap sid (as ++ p :: bs)
  step : Step c.limit h r.heap sid (as ++ p :: bs) (as ++ p :: bs) fs fs
  count : (r.heap.pages p).count = (h.pages p).count + 1
  items : (r.heap.pages p).items = shiftIn (h.pages p).count k x (h.pages p).items
  other : ∀ q, q ≠ p → r.heap.pages q = h.pages q
  total : (r.heap.states sid).total = (h.states sid).total + 1
  len : r.heap.len = h.len

/-- The page was split; `n` is the new page and the item is at `k'` on the page `t`. -/
structure SplitOut (c : Cfg) (h : Heap α) (sid : Nat) (as : List Nat) (p : Nat) (bs fs : List Nat) (k : Nat) (x : α) (r : Res α) (n t k' : Nat) : Prop where
  new : n ∉ as ++ p :: bs
  nn : n ≠ nil
  cont : Cont c.cap r.heap sid (as ++ p :: n :: bs)
  step : Step c.limit h r.heap sid (as ++ p :: bs) (as ++ p :: n :: bs) fs []
  total : (r.heap.states sid).total = (h.states sid).total + 1
  itr : r.itr = some ⟨t, k', .none⟩
  which : t = p ∨ t = n
  here : (r.heap.pages t).items k' = x
  kn : k' < nilItem
  lead0 : r.lead0 = ⟨.insert, n, some ((r.heap.pages n).items 0), none⟩
  lead1 : r.lead1 = ⟨.original, p, some ((r.heap.pages p).items 0), none⟩
  other : ∀ q, q ≠ p → q ≠ n → (r.heap.pages q).count = (h.pages q).count ∧ (r.heap.pages q).items = (h.pages q).items
  join : pageItems (r.heap.pages p) ++ pageItems (r.heap.pages n) = (pageItems (h.pages p)).take k ++ x :: (pageItems (h.pages p)).drop k
  moved : ∀ j, (r.heap.pages p).count ≤ j → j < c.cap → (r.heap.pages p).items j ∈ pageItems (r.heap.pages n)
  behind : ∀ j, c.cap ≤ j → (r.heap.pages p).items j = (h.pages p).items j
  behindN : ∀ j, (r.heap.pages n).count ≤ j → (r.heap.pages n).items j = (h.pages n).items j
  first : 1 ≤ k → (r.heap.pages p).items 0 = (h.pages p).items 0

theorem mem_pageItems {q : Page α} {j : Nat} (h : j < q.count) : q.items j ∈ pageItems q :=
  List.mem_map.2 ⟨j, List.mem_range.2 h, rfl⟩

/-- The items of a list that ends up on two pages, one of them with the new item. -/
theorem two_pages {l : List α} {m k : Nat} {x : α} (_hm : m ≤ l.length) :
    (k ≤ m → ((l.take m).take k ++ x :: (l.take m).drop k) ++ l.drop m = l.take k ++ x :: l.drop k) ∧
    (m < k → l.take m ++ ((l.drop m).take (k - m) ++ x :: (l.drop m).drop (k - m)) = l.take k ++ x :: l.drop k) := by
  constructor
  · intro hk
    rw [List.take_take, Nat.min_eq_left hk, List.append_assoc, List.cons_append]
    congr 2
    rw [List.drop_take]
    have : l.drop m = (l.drop k).drop (m - k) := by rw [List.drop_drop]; congr 1; omega
    rw [this, List.take_append_drop]
  · intro hk
    rw [← List.append_assoc, List.drop_drop]
    have h1 : k = m + (k - m) := by omega
    congr 1
    · conv => rhs; rw [h1, List.take_add]
    · congr 2; omega

/-- `insert2` at a position on a page with room. -/
theorem insertRoom_spec {c : Cfg} {held : List Nat} {h : Heap α} {sid p k : Nat} {as bs fs : List Nat} {x : α}
    (w : World c.cap h sid (as ++ p :: bs) fs) (hk : k ≤ (h.pages p).count) (hlt : (h.pages p).count < c.cap) (hm : held.length < c.max)
    (hcap2 : c.cap < nilItem) :
    ∃ r, insert2 c held h sid ⟨p, k, .none⟩ x = some r ∧ RoomOut c h sid as p bs fs k x r := by
  have hpm : p ∈ as ++ p :: bs := by simp
  have hnn := w.cont.own.nn p hpm
  have hkn : k ≠ nilItem := by omega
  unfold insert2
  rw [if_neg (by rintro ⟨h1, _⟩; exact hnn h1), if_neg (by rintro ⟨h1, _⟩; exact hkn h1)]
  simp only
  unfold cinsertNostate
  rw [if_neg hnn, canLock_of (by omega), if_neg (by decide), if_neg (Nat.ne_of_lt hlt)]
  rw [iwc_eq hkn hk hlt]
  simp only
  generalize hh2 : h.mod p (fun q => { q with count := q.count + 1, items := shiftIn (h.pages p).count k x q.items }) = h2
  have h2t : h2.pages p = { h.pages p with count := (h.pages p).count + 1, items := shiftIn (h.pages p).count k x (h.pages p).items } := by
    rw [← hh2, mod_pages_same]
  have h2o : ∀ q, q ≠ p → h2.pages q = h.pages q := fun q hq => by rw [← hh2, mod_pages_ne _ _ hq]
  have h2l : ∀ q, SameLinks h h2 q := by rw [← hh2]; exact mod_links (fun _ => ⟨rfl, rfl, rfl⟩)
  have h2s : h2.states = h.states := by rw [← hh2]; rfl
  have own2 : Own h2 sid (as ++ p :: bs) := own_data w.cont.own (by rw [h2s]) h2l
  have h2len : h2.len = h.len := by rw [← hh2]; rfl
  have h2bad : h2.bad = h.bad := by rw [← hh2]; rfl
  refine ⟨_, rfl, ?_⟩
  rw [cinsertState_spec (h := h2) (lead := (Lead.default : Lead α).page) own2 (by simp) (Or.inl rfl)]
  refine ⟨rfl, rfl, rfl, ⟨?_, ?_⟩, step_state w.sid (step_data w.free w.disj h2s h2l (fun q hq => h2o q (fun e => hq (e ▸ hpm))) h2len h2bad) _, ?_, ?_, h2o, ?_, h2len⟩
  · exact own_of_state own2 (by rw [setState_same]) (by rw [setState_same]) (fun q _ => ⟨rfl, rfl, rfl⟩)
  · intro q hq
    show 1 ≤ (h2.pages q).count ∧ (h2.pages q).count ≤ c.cap
    by_cases e : q = p
    · rw [e, h2t]; simp only; omega
    · rw [h2o q e]; exact w.cont.cnt q hq
  · show (h2.pages p).count = _
    rw [h2t]
  · show (h2.pages p).items = _
    rw [h2t]
  · simp only; rw [setState_same]; simp only; rw [h2s]

/-- `insert2` at a position on a page, for containers that balance insertions. -/
theorem insertPage_spec {c : Cfg} {held : List Nat} {h : Heap α} {sid p k : Nat} {as bs fs : List Nat} {x : α}
    (w : World c.cap h sid (as ++ p :: bs) fs) (hk : k ≤ (h.pages p).count) (hm : held.length + 5 < c.max) (hlim : c.limit ≤ nil)
    (hlog : c.log = true) (hcap : 2 ≤ c.cap) (hcap2 : c.cap < nilItem) (hb1 : c.insBegin = true) (hb2 : c.insInner = true) (hfs : fs.length ≤ 1) :
    ∃ r, insert2 c held h sid ⟨p, k, .none⟩ x = some r ∧
      ((c.limit ≤ h.len ∧ r.heap = h) ∨ RoomOut c h sid as p bs fs k x r ∨ ∃ n t k', SplitOut c h sid as p bs fs k x r n t k') := by
  have hpm : p ∈ as ++ p :: bs := by simp
  have hnn := w.cont.own.nn p hpm
  have hcnt := w.cont.cnt p hpm
  have hkn : k ≠ nilItem := by omega
  have hnd0 := List.nodup_append.1 w.cont.own.nodup
  have hpb0 : p ∉ bs := (List.nodup_cons.1 hnd0.2.1).1
  have hpa0 : p ∉ as := fun hx => hnd0.2.2 p hx p (by simp) rfl
  unfold insert2
  rw [if_neg (by rintro ⟨h1, _⟩; exact hnn h1), if_neg (by rintro ⟨h1, _⟩; exact hkn h1)]
  simp only
  unfold cinsertNostate
  rw [if_neg hnn, canLock_of (by omega), if_neg (by decide)]
  by_cases hfull : (h.pages p).count = c.cap
  · rw [if_pos hfull]
    unfold insertWithOverflow
    rcases insertPageAfter_full (held := p :: held) w (by rw [List.length_cons]; omega) hlim hlog (as ++ [p]) bs (by simp) p (Or.inr ⟨by simp, by simp⟩) with ⟨h1, hl⟩ | hok
    · rw [h1]
      exact ⟨_, rfl, Or.inl ⟨hl, rfl⟩⟩
    obtain ⟨h1, n, fs', e1, own1, st1, hn0, hnew, hnnn, hdat, htot, hone, hit⟩ := hok
    rw [hone hfs] at st1
    rw [e1]
    simp only
    have hsb : shouldBalanceInsert c h ⟨p, k, .none⟩ = true := by
      unfold shouldBalanceInsert
      split
      · exact hb1
      · rw [if_neg (by intro hh; exact hkn hh.2.1)]; exact hb2
    rw [if_pos hsb]
    have hnp : n ≠ p := fun e => hnew (by rw [e]; simp)
    have hshape : as ++ [p] ++ n :: bs = as ++ p :: n :: bs := by simp
    rw [hshape] at own1 st1
    have hnd1 := List.nodup_append.1 own1.nodup
    have hna : n ∉ as := fun hx => hnew (by simp [hx])
    have hnb : n ∉ bs := fun hx => hnew (by simp [hx])
    have hback : (h1.states sid).back ≠ p := by
      rw [own1.back, show as ++ p :: n :: bs = (as ++ [p]) ++ n :: bs by simp, getLastD_append nil nil (by simp)]
      intro e
      have : p ∈ n :: bs := e ▸ getLastD_mem (by simp)
      exact (List.nodup_cons.1 hnd1.2.1).1 this
    have hcp : (h1.pages p).count = c.cap := by rw [(hdat _ (Ne.symm hnp)).1]; exact hfull
    have hip : pageItems (h1.pages p) = pageItems (h.pages p) := pageItems_congr (hdat _ (Ne.symm hnp)).1 (fun j _ => by rw [hit])
    unfold balanceSplit
    simp only
    generalize hg : (h1.mod n (fun q => { q with count := c.cap / 2, items := fun j => if j < c.cap / 2 then (h1.pages p).items (c.cap - c.cap / 2 + j) else q.items j })).mod p (fun q => { q with count := c.cap - c.cap / 2 }) = g
    have hgp : g.pages p = { h1.pages p with count := c.cap - c.cap / 2 } := by
      rw [← hg, mod_pages_same, mod_pages_ne _ _ (Ne.symm hnp)]
    have hgn : g.pages n = { h1.pages n with count := c.cap / 2, items := fun j =>
        if j < c.cap / 2 then (h1.pages p).items (c.cap - c.cap / 2 + j) else (h1.pages n).items j } := by
      rw [← hg, mod_pages_ne _ _ hnp, mod_pages_same]
    have hgo : ∀ q, q ≠ p → q ≠ n → g.pages q = h1.pages q := by
      intro q h1' h2'; rw [← hg, mod_pages_ne _ _ h1', mod_pages_ne _ _ h2']
    have hgl : ∀ q, SameLinks h1 g q := by
      intro q
      by_cases e1 : q = p
      · rw [e1]; unfold SameLinks; rw [hgp]; exact ⟨rfl, rfl, rfl⟩
      · by_cases e2 : q = n
        · rw [e2]; unfold SameLinks; rw [hgn]; exact ⟨rfl, rfl, rfl⟩
        · exact SameLinks.of_eq (hgo q e1 e2)
    have hgs : g.states = h1.states := by rw [← hg]; rfl
    have hglen : g.len = h1.len := by rw [← hg]; rfl
    have hgbad : g.bad = h1.bad := by rw [← hg]; rfl
    have hown : Own g sid (as ++ p :: n :: bs) := own_data own1 (by rw [hgs]) hgl
    have hst : Step c.limit h g sid (as ++ p :: bs) (as ++ p :: n :: bs) fs [] := by
      refine st1.trans (step_data st1.free st1.disj hgs hgl ?_ hglen hgbad)
      intro q hq
      exact hgo q (fun e => hq (by rw [e]; simp)) (fun e => hq (by rw [e]; simp))
    have hcount_p : (g.pages p).count = c.cap - c.cap / 2 := by rw [hgp]
    have hcount_n : (g.pages n).count = c.cap / 2 := by rw [hgn]
    have hPp : pageItems (g.pages p) = (pageItems (h.pages p)).take (c.cap - c.cap / 2) := by
      rw [← hip, hgp]
      unfold pageItems
      simp only
      rw [hcp]
      exact take_items _ _ _ (by omega)
    have hPn : pageItems (g.pages n) = (pageItems (h.pages p)).drop (c.cap - c.cap / 2) := by
      rw [← hip, hgn]
      unfold pageItems
      simp only
      rw [hcp]
      have := drop_items c.cap (c.cap - c.cap / 2) (h1.pages p).items (h1.pages n).items
      rw [show c.cap - (c.cap - c.cap / 2) = c.cap / 2 by omega] at this
      exact this
    have hgip : (g.pages p).items = (h.pages p).items := by rw [hgp]; exact hit p
    have hgin : ∀ j, (g.pages n).items j = if j < c.cap / 2 then (h.pages p).items (c.cap - c.cap / 2 + j) else (h.pages n).items j := by
      intro j; rw [hgn]; simp only; rw [hit, hit]
    have hcntg : ∀ q ∈ as ++ bs, 1 ≤ (g.pages q).count ∧ (g.pages q).count ≤ c.cap := by
      intro q hq
      have h1' : q ≠ p := by intro e; subst e; rcases List.mem_append.1 hq with hq | hq; exacts [hpa0 hq, hpb0 hq]
      have h2' : q ≠ n := by intro e; subst e; rcases List.mem_append.1 hq with hq | hq; exacts [hna hq, hnb hq]
      rw [hgo q h1' h2', (hdat q h2').1]
      exact w.cont.cnt q (by simp at hq ⊢; tauto)
    -- the insertion into one of the two pages
    obtain ⟨t, k', ht, hins, hk', hroom, hside⟩ : ∃ t k', (t = p ∨ t = n) ∧ insertInto c g ⟨p, k, .none⟩ n x = insertWithCapacity c g t k' x ∧
        k' ≤ (g.pages t).count ∧ (g.pages t).count < c.cap ∧
        ((t = p ∧ k' = k ∧ k ≤ c.cap - c.cap / 2) ∨ (t = n ∧ k' = k - (c.cap - c.cap / 2) ∧ c.cap - c.cap / 2 < k)) := by
      unfold insertInto
      simp only
      by_cases hle : k ≤ (g.pages p).count
      · refine ⟨p, k, Or.inl rfl, by rw [if_pos ⟨hkn, hle⟩], hle, by rw [hcount_p]; omega, Or.inl ⟨rfl, rfl, by rw [← hcount_p]; exact hle⟩⟩
      · refine ⟨n, k - (g.pages p).count, Or.inr rfl, by rw [if_neg (by rintro ⟨_, h2⟩; exact hle h2), if_pos hkn], ?_, by rw [hcount_n]; omega, ?_⟩
        · rw [hcount_n, hcount_p]; omega
        · rw [hcount_p] at hle ⊢; exact Or.inr ⟨rfl, rfl, by omega⟩
    have hk'n : k' ≠ nilItem := by omega
    have hkcap : k ≤ c.cap := by omega
    rw [hins, iwc_eq hk'n hk' hroom]
    simp only
    generalize hh2 : g.mod t (fun q => { q with count := q.count + 1, items := shiftIn (g.pages t).count k' x q.items }) = h2
    have h2t : h2.pages t = { g.pages t with count := (g.pages t).count + 1, items := shiftIn (g.pages t).count k' x (g.pages t).items } := by
      rw [← hh2, mod_pages_same]
    have h2o : ∀ q, q ≠ t → h2.pages q = g.pages q := fun q hq => by rw [← hh2, mod_pages_ne _ _ hq]
    have h2l : ∀ q, SameLinks g h2 q := by rw [← hh2]; exact mod_links (fun _ => ⟨rfl, rfl, rfl⟩)
    have h2s : h2.states = g.states := by rw [← hh2]; rfl
    have h2len : h2.len = g.len := by rw [← hh2]; rfl
    have h2bad : h2.bad = g.bad := by rw [← hh2]; rfl
    have htm : t ∈ as ++ p :: n :: bs := by rcases ht with e | e <;> rw [e] <;> simp
    have own2 : Own h2 sid (as ++ p :: n :: bs) := own_data hown (by rw [h2s]) h2l
    have step2 : Step c.limit h h2 sid (as ++ p :: bs) (as ++ p :: n :: bs) fs [] :=
      hst.trans (step_data hst.free hst.disj h2s h2l (fun q hq => h2o q (fun e => hq (e ▸ htm))) h2len h2bad)
    have items2 : pageItems (h2.pages t) = (pageItems (g.pages t)).take k' ++ x :: (pageItems (g.pages t)).drop k' := by
      rw [h2t]; exact shiftIn_items _ _ _ _ hk'
    refine ⟨_, rfl, Or.inr (Or.inr ⟨n, t, k', ?_⟩)⟩
    have hst2 : (h2.states sid).back ≠ p := by rw [h2s, hgs]; exact hback
    rw [cinsertState_spec (h := h2) own2 (by simp) (Or.inr hst2)]
    refine ⟨hnew, hnnn, ⟨?_, ?_⟩, step_state w.sid step2 _, ?_, rfl, ht, ?_, ?_, rfl, rfl, ?_, ?_, ?_, ?_, ?_, ?_⟩
    · exact own_of_state own2 (by rw [setState_same]) (by rw [setState_same]) (fun q _ => ⟨rfl, rfl, rfl⟩)
    · intro q hq
      show 1 ≤ (h2.pages q).count ∧ (h2.pages q).count ≤ c.cap
      by_cases e : q = t
      · rw [e, h2t]; simp only; omega
      · rw [h2o q e]
        simp only [List.mem_append, List.mem_cons] at hq
        rcases hq with hq | hq | hq | hq
        · exact hcntg q (by simp [hq])
        · rw [hq, hcount_p]; omega
        · rw [hq, hcount_n]; omega
        · exact hcntg q (by simp [hq])
    · simp only; rw [setState_same]; simp only; rw [h2s, hgs, htot]
    · show (h2.pages t).items k' = x
      rw [h2t]; simp [shiftIn]
    · omega
    · intro q h1' h2'
      show (h2.pages q).count = _ ∧ (h2.pages q).items = _
      have : q ≠ t := by rcases ht with e | e <;> rw [e] <;> assumption
      rw [h2o q this, hgo q h1' h2']
      exact hdat q h2'
    · show pageItems (h2.pages p) ++ pageItems (h2.pages n) = _
      obtain ⟨tp1, tp2⟩ := two_pages (l := pageItems (h.pages p)) (m := c.cap - c.cap / 2) (k := k) (x := x) (by simp [hfull])
      rcases hside with ⟨e1, e2, e3⟩ | ⟨e1, e2, e3⟩
      · subst e1 e2
        rw [items2, h2o n hnp, hPp, hPn]; exact tp1 e3
      · subst e1 e2
        rw [items2, h2o p (Ne.symm hnp), hPp, hPn]; exact tp2 e3
    · intro j hj hj2
      change (h2.pages p).count ≤ j at hj
      show (h2.pages p).items j ∈ pageItems (h2.pages n)
      have hpj : (h2.pages p).items j = (h.pages p).items j ∧ c.cap - c.cap / 2 ≤ j := by
        rcases hside with ⟨e1, e2, e3⟩ | ⟨e1, e2, e3⟩
        · subst e1
          rw [h2t] at hj ⊢
          simp only at hj ⊢
          rw [← hgip]
          refine ⟨?_, by omega⟩
          unfold shiftIn
          rw [if_neg (by omega), if_neg (by omega)]
        · subst e1
          rw [h2o p (Ne.symm hnp)] at hj ⊢
          rw [hgip]; exact ⟨rfl, by omega⟩
      rw [hpj.1]
      have hmem : (h.pages p).items j ∈ pageItems (g.pages n) := by
        have : (h.pages p).items j = (g.pages n).items (j - (c.cap - c.cap / 2)) := by
          rw [hgin, if_pos (by omega)]; congr 1; omega
        rw [this]; exact mem_pageItems (by rw [hcount_n]; omega)
      rcases ht with e | e
      · rw [h2o n (by rw [e]; exact hnp)]; exact hmem
      · subst e
        rw [items2]
        rw [← List.take_append_drop k' (pageItems (g.pages t))] at hmem
        simp only [List.mem_append, List.mem_cons] at hmem ⊢
        tauto
    · intro j hj
      show (h2.pages p).items j = _
      rcases ht with e | e
      · subst e
        rw [h2t]; simp only
        rw [← hgip]
        unfold shiftIn
        rw [if_neg (by omega), if_neg (by omega)]
      · rw [h2o p (by rw [e]; exact Ne.symm hnp), hgip]
    · intro j hj
      change (h2.pages n).count ≤ j at hj
      show (h2.pages n).items j = _
      rcases ht with e | e
      · rw [h2o n (by rw [e]; exact hnp)] at hj ⊢
        rw [hgin, if_neg (by omega)]
      · subst e
        rw [h2t] at hj ⊢
        simp only at hj ⊢
        unfold shiftIn
        rw [if_neg (by omega), if_neg (by omega), hgin, if_neg (by omega)]
    · intro hk1
      show (h2.pages p).items 0 = _
      rcases hside with ⟨e1, e2, e3⟩ | ⟨e1, e2, e3⟩
      · subst e1 e2
        rw [h2t]; simp only
        unfold shiftIn
        rw [if_neg (by omega), if_neg (by omega), hgip]
      · rw [h2o p (by rw [e1]; exact Ne.symm hnp), hgip]
  · obtain ⟨r, hr, ho⟩ := insertRoom_spec (held := held) (x := x) w hk (by omega) (by omega) hcap2
    unfold insert2 at hr
    rw [if_neg (by rintro ⟨h1, _⟩; exact hnn h1), if_neg (by rintro ⟨h1, _⟩; exact hkn h1)] at hr
    simp only at hr
    unfold cinsertNostate at hr
    rw [if_neg hnn, canLock_of (by omega), if_neg (by decide)] at hr
    exact ⟨r, hr, Or.inr (Or.inl ho)⟩

/-- At the end of a page with room. -/
theorem insert2_end {c : Cfg} {held : List Nat} {h : Heap α} {sid p : Nat} {x : α} (hnn : p ≠ nil) (hlt : (h.pages p).count < c.cap) (hcap2 : c.cap < nilItem) :
    insert2 c held h sid ⟨p, nilItem, .fin⟩ x = insert2 c held h sid ⟨p, (h.pages p).count, .none⟩ x := by
  have hkn : (h.pages p).count ≠ nilItem := by omega
  have hf : (h.pages p).count ≠ c.cap := by omega
  unfold insert2 cinsertNostate insertWithCapacity cinsertState
  simp [hnn, hkn, hf]

/-- The first item of a container. -/
structure FirstOut (c : Cfg) (h : Heap α) (sid : Nat) (fs : List Nat) (x : α) (r : Res α) (n : Nat) : Prop where
  itr : r.itr = some ⟨n, 0, .none⟩
  lead0 : r.lead0 = .default
  lead1 : r.lead1 = .default
  cont : Cont c.cap r.heap sid [n]
  step : Step c.limit h r.heap sid [] [n] fs []
  count : (r.heap.pages n).count = 1
  items : (r.heap.pages n).items = shiftIn 0 0 x (h.pages n).items
  other : ∀ q, q ≠ n → (r.heap.pages q).count = (h.pages q).count ∧ (r.heap.pages q).items = (h.pages q).items
  total : (r.heap.states sid).total = (h.states sid).total + 1

theorem insertFirst_spec {c : Cfg} {held : List Nat} {h : Heap α} {sid : Nat} {fs : List Nat} {x : α} {e : Edge}
    (w : World c.cap h sid [] fs) (hm : held.length + 5 < c.max) (hlim : c.limit ≤ nil)
    (hlog : c.log = true) (hcap : 1 ≤ c.cap) (hfs : fs.length ≤ 1) :
    ∃ r, insert2 c held h sid ⟨nil, nilItem, e⟩ x = some r ∧
      ((c.limit ≤ h.len ∧ r.heap = h) ∨ ∃ n, FirstOut c h sid fs x r n) := by
  have hemp := own_empty w.cont.own
  have hback : (h.states sid).back = nil := w.cont.own.back
  unfold insert2
  rw [if_neg (by rintro ⟨_, h1 | h1⟩; exacts [h1 rfl, by rw [hemp] at h1; cases h1]), if_neg (by rintro ⟨_, h1, _⟩; exact h1 hback.symm)]
  simp only
  unfold cinsertNostate
  rw [if_pos rfl]
  rcases insertPageAfter_full (held := held) w (by omega) hlim hlog [] [] rfl nil (Or.inl ⟨rfl, rfl⟩) with ⟨h1, hl⟩ | hok
  · rw [h1]
    exact ⟨_, rfl, Or.inl ⟨hl, rfl⟩⟩
  obtain ⟨h1, n, fs', e1, own1, st1, hn0, hnew, hnn, hdat, htot, hone, hit⟩ := hok
  rw [hone hfs] at st1
  rw [e1]
  simp only
  rw [iwc_eq (by decide) (by omega) (by omega)]
  simp only
  rw [List.nil_append] at own1 st1
  generalize hh2 : h1.mod n (fun q => { q with count := q.count + 1, items := shiftIn (h1.pages n).count 0 x q.items }) = h2
  have h2t : h2.pages n = { h1.pages n with count := (h1.pages n).count + 1, items := shiftIn (h1.pages n).count 0 x (h1.pages n).items } := by
    rw [← hh2, mod_pages_same]
  have h2o : ∀ q, q ≠ n → h2.pages q = h1.pages q := fun q hq => by rw [← hh2, mod_pages_ne _ _ hq]
  have h2l : ∀ q, SameLinks h1 h2 q := by rw [← hh2]; exact mod_links (fun _ => ⟨rfl, rfl, rfl⟩)
  have h2s : h2.states = h1.states := by rw [← hh2]; rfl
  have h2len : h2.len = h1.len := by rw [← hh2]; rfl
  have h2bad : h2.bad = h1.bad := by rw [← hh2]; rfl
  have own2 : Own h2 sid [n] := own_data own1 (by rw [h2s]) h2l
  have step2 : Step c.limit h h2 sid [] [n] fs [] :=
    st1.trans (step_data st1.free st1.disj h2s h2l (fun q hq => h2o q (fun e => hq (by rw [e]; simp))) h2len h2bad)
  refine ⟨_, rfl, Or.inr ⟨n, ?_⟩⟩
  rw [cinsertState_spec (h := h2) (lead := (Lead.default : Lead α).page) own2 (by simp) (Or.inl rfl)]
  refine ⟨rfl, rfl, rfl, ⟨?_, ?_⟩, step_state w.sid step2 _, ?_, ?_, ?_, ?_⟩
  · exact own_of_state own2 (by rw [setState_same]) (by rw [setState_same]) (fun q _ => ⟨rfl, rfl, rfl⟩)
  · intro q hq
    rw [List.mem_singleton] at hq
    show 1 ≤ (h2.pages q).count ∧ (h2.pages q).count ≤ c.cap
    rw [hq, h2t]; simp only; omega
  · show (h2.pages n).count = 1
    rw [h2t]; simp only; omega
  · show (h2.pages n).items = _
    rw [h2t]; simp only; rw [hn0, hit]
  · intro q hq
    show (h2.pages q).count = _ ∧ (h2.pages q).items = _
    rw [h2o q hq]; exact hdat q hq
  · simp only; rw [setState_same]; simp only; rw [h2s, htot]

end Abc.Vmem.Pages
