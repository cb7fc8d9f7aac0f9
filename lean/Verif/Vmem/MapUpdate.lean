import Verif.Vmem.MapSearch

/-! # The change of the key levels after an insertion -/

namespace Abc.Vmem.Map

open Abc.Vmem.Pages

variable {K V : Type} [LinearOrder K] {D : K → Prop}

theorem idx_pos {j : Nat} (h : j ≠ 0) : idx j ≠ 0 := by unfold idx; rw [if_neg h]; omega

/-- The pages of every level have increasing first keys. -/
theorem levels_sorted {m : MCfg K V} {h : Heap (Cell K V)} {L : List (K × V)} {pss : Nat → List Nat} {fs : List Nat} {lists : Nat → List (Cell K V)} {N : Nat}
    (v : CInv (cfgs m) ⟨h, lists⟩ pss fs) (hv : lists 0 = L.map cellOf) (hL : L.Pairwise (fun a b => a.1 < b.1))
    (hs : ∀ j, j < N → lists (idx (j + 1)) = (pss (idx j)).map (sepf m h)) : ∀ j, j ≤ N → (pss (idx j)).Pairwise (fun a b => fk m h a < fk m h b) := by
  intro j
  have hc : ∀ j, contents h (pss j) = lists j := v.items
  have hcnt : ∀ j, ∀ p ∈ pss j, 1 ≤ (h.pages p).count := fun j p hp => ((v.cont j).cnt p hp).1
  induction j with
  | zero =>
    intro _
    refine pages_sorted (hcnt 0) ?_
    show (contents h (pss 0)).Pairwise _
    rw [hc 0, hv]
    exact List.pairwise_map.2 hL
  | succ j ih =>
    intro hj
    refine pages_sorted (hcnt _) ?_
    rw [hc, hs j (by omega)]
    exact List.pairwise_map.2 (ih (by omega))

/-- The page `n` of level `l` has no item on the level above yet; it comes right behind `p`. -/
structure Gap (m : MCfg K V) (D : K → Prop) (h : Heap (Cell K V)) (depth : Nat) (L : List (K × V)) (pss : Nat → List Nat) (lists : Nat → List (Cell K V)) (l : Nat)
    (as : List Nat) (p n : Nat) (bs : List Nat) : Prop where
  inv : CInv (cfgs m) ⟨h, lists⟩ pss []
  vals : lists 0 = L.map cellOf
  sorted : L.Pairwise (fun a b => a.1 < b.1)
  stack : (lists 1).length = depth
  stackp : (pss 1).length ≤ 1
  above : ∀ j, depth < j → pss (idx j) = []
  stale : Stale D h (pss 0)
  fresh : Fresh h
  lev : l ≤ depth
  at_ : pss (idx l) = as ++ p :: n :: bs
  seps : ∀ j, j < depth → j ≠ l → lists (idx (j + 1)) = (pss (idx j)).map (sepf m h)
  gap : l < depth → lists (idx (l + 1)) = (as ++ p :: bs).map (sepf m h)
  top : l < depth → (pss (idx depth)).length ≤ 1
  topne : l < depth → pss (idx depth) ≠ []
  topGap : l = depth → as = [] ∧ bs = []

omit [LinearOrder K] in
theorem InsOut.fk {m : MCfg K V} {h : Heap (Cell K V)} {lists : Nat → List (Cell K V)} {pss : Nat → List Nat} {k p i : Nat} {as bs new : List Nat} {x : Cell K V}
    {r : Res (Cell K V)} (o : InsOut m h lists pss k as p bs i x r new) {j q : Nat} (hq : q ∈ pss j) : Map.fk m r.heap q = Map.fk m h q := by
  unfold Map.fk
  rw [o.first q (fun hn => o.out q hn j hq)]

omit [LinearOrder K] in
theorem InsOut.same {m : MCfg K V} {h : Heap (Cell K V)} {lists : Nat → List (Cell K V)} {pss : Nat → List Nat} {fs : List Nat} {k p i : Nat} {as bs new : List Nat} {x : Cell K V}
    {r : Res (Cell K V)} (o : InsOut m h lists pss k as p bs i x r new) (v : CInv (cfgs m) ⟨h, lists⟩ pss fs) (hp : p ∈ pss k) {j q : Nat} (hj : j ≠ k) (hq : q ∈ pss j) :
    Same h r.heap q :=
  o.other q (fun e => v.sep j k hj q hq (e ▸ hp)) (fun hn => o.out q hn j hq)

/-- The bytes behind the items of the value pages after an insertion. -/
theorem stale_ins {m : MCfg K V} {h : Heap (Cell K V)} {lists : Nat → List (Cell K V)} {pss : Nat → List Nat} {p i : Nat} {as bs new : List Nat} {x : Cell K V}
    {r : Res (Cell K V)} {L' : List (K × V)} (o : InsOut m h lists pss 0 as p bs i x r new) (e0 : pss 0 = as ++ p :: bs)
    (st : Stale D h (pss 0)) (hc : contents r.heap (as ++ p :: (new ++ bs)) = L'.map cellOf) :
    Stale D r.heap (as ++ p :: (new ++ bs)) := by
  have hitems : contents r.heap (as ++ p :: (new ++ bs)) = (contents h as ++ (pageItems (h.pages p)).take i) ++ x :: ((pageItems (h.pages p)).drop i ++ contents h bs) := by
    have h1 : contents r.heap (upd pss 0 (as ++ p :: (new ++ bs)) 0) = upd lists 0 _ 0 := o.inv.items 0
    rw [upd_same, upd_same] at h1
    exact h1
  have hold : ∀ c, c ∈ contents h (pss 0) → c ∈ contents r.heap (as ++ p :: (new ++ bs)) := by
    intro c hcm
    rw [e0, contents_append, contents_cons, ← List.take_append_drop i (pageItems (h.pages p))] at hcm
    rw [hitems]
    simp only [List.mem_append, List.mem_cons] at hcm ⊢
    tauto
  have carry : ∀ q, q ∈ pss 0 → ∀ j, (h.pages q).count ≤ j → (r.heap.pages q).items j = (h.pages q).items j →
      (r.heap.pages q).items j = .zero ∨ ∃ k v, (r.heap.pages q).items j = .val k v ∧ (D k ∨ ∃ v', .val k v' ∈ contents r.heap (as ++ p :: (new ++ bs))) := by
    intro q hq j hj he
    rw [he]
    rcases st q hq j hj with h1 | ⟨k, v, h1, h2⟩
    · exact Or.inl h1
    · exact Or.inr ⟨k, v, h1, h2.imp id (fun ⟨v', h3⟩ => ⟨v', hold _ h3⟩)⟩
  intro q hq j hj
  by_cases hqn : q ∈ new
  · exact Or.inl (o.staleNew q hqn j hj)
  · have hq0 : q ∈ pss 0 := by
      rw [e0]
      simp only [List.mem_append, List.mem_cons] at hq ⊢
      tauto
    by_cases hqp : q = p
    · subst hqp
      rcases o.stale j hj with ⟨h1, h2⟩ | ⟨n, hn, hmem⟩
      · exact carry q hq0 j h1 h2
      · right
        subst hn
        have hin : (r.heap.pages q).items j ∈ contents r.heap (as ++ q :: ([n] ++ bs)) := by
          rw [contents_append, contents_cons, List.singleton_append, contents_cons]
          simp [hmem]
        have hin' := hin
        rw [hc] at hin'
        obtain ⟨e, _, hee⟩ := List.mem_map.1 hin'
        exact ⟨e.1, e.2, hee.symm, Or.inr ⟨e.2, by rw [show Cell.val e.1 e.2 = _ from hee]; exact hin⟩⟩
    · have hs := o.other q hqp hqn
      rw [hs.1] at hj
      exact carry q hq0 j hj (by rw [hs.2])

/-- The value was inserted. -/
theorem value_inserted {m : MCfg K V} {h : Heap (Cell K V)} {depth : Nat} {L La Lb : List (K × V)} {pss : Nat → List Nat} {lists : Nat → List (Cell K V)} {key : K} {v : V}
    {as bs new : List Nat} {p i : Nat} {r : Res (Cell K V)} (t : Tree m D h depth L pss [] lists) (e0 : pss 0 = as ++ p :: bs) (f : ValueFound m h key as p bs L i La Lb)
    (hgt : ∀ e ∈ Lb, key < e.1) (o : InsOut m h lists pss 0 as p bs i (.val key v) r new) :
    ∃ pss' lists', (∀ j, j ≠ 0 → pss' j = pss j) ∧ pss' 0 = as ++ p :: (new ++ bs) ∧
      ((new = [] ∧ Tree m D r.heap depth (La ++ (key, v) :: Lb) pss' [] lists') ∨ ∃ n, new = [n] ∧ Gap m D r.heap depth (La ++ (key, v) :: Lb) pss' lists' 0 as p n bs) := by
  have hL' : (La ++ (key, v) :: Lb).Pairwise (fun a b => a.1 < b.1) := by
    have hL := t.sorted
    rw [f.split, List.pairwise_append] at hL
    refine List.pairwise_append.2 ⟨hL.1, List.pairwise_cons.2 ⟨hgt, hL.2.1⟩, ?_⟩
    intro a ha b hb
    rcases List.mem_cons.1 hb with e | hb
    · rw [e]; exact f.less a ha
    · exact hL.2.2 a ha b hb
  have hvals : (contents h as ++ (pageItems (h.pages p)).take i) ++ (.val key v) :: ((pageItems (h.pages p)).drop i ++ contents h bs) = (La ++ (key, v) :: Lb).map cellOf := by
    rw [f.before, f.after, List.map_append, List.map_cons]; rfl
  have hp0 : p ∈ pss 0 := by rw [e0]; simp
  have hcont : contents r.heap (as ++ p :: (new ++ bs)) = (La ++ (key, v) :: Lb).map cellOf := by
    have := o.inv.items 0
    simp only [upd_same] at this
    rw [this, hvals]
  have hst := stale_ins o e0 t.stale hcont
  have hne : ∀ j, idx (j + 1) ≠ 0 := fun j e => by have := idx_inj (i := j + 1) (j := 0) e; omega
  have hseps : ∀ j, j < depth → j ≠ 0 → (upd lists 0 ((contents h as ++ (pageItems (h.pages p)).take i) ++ (.val key v) :: ((pageItems (h.pages p)).drop i ++ contents h bs))) (idx (j + 1)) =
      ((upd pss 0 (as ++ p :: (new ++ bs))) (idx j)).map (sepf m r.heap) := by
    intro j hj hj0
    obtain ⟨j', rfl⟩ : ∃ j', j = j' + 1 := ⟨j - 1, by omega⟩
    rw [upd_ne _ _ (hne _), upd_ne _ _ (hne _), t.seps _ hj]
    exact (sepf_same (fun q hq => o.fk hq)).symm
  have habove : ∀ j, depth < j → (upd pss 0 (as ++ p :: (new ++ bs))) (idx j) = [] := by
    intro j hj
    obtain ⟨j', rfl⟩ : ∃ j', j = j' + 1 := ⟨j - 1, by omega⟩
    rw [upd_ne _ _ (hne _)]; exact t.above _ hj
  refine ⟨upd pss 0 (as ++ p :: (new ++ bs)), upd lists 0 ((contents h as ++ (pageItems (h.pages p)).take i) ++ (.val key v) :: ((pageItems (h.pages p)).drop i ++ contents h bs)),
    fun j hj => upd_ne _ _ hj, upd_same _ _ _, ?_⟩
  rcases o.leads with ⟨hnew, _⟩ | ⟨n, hnew, _⟩
  · left
    subst hnew
    refine ⟨rfl, o.inv, by rw [upd_same, hvals], hL', by rw [upd_ne _ _ (by decide)]; exact t.stack, by rw [upd_ne _ _ (by decide)]; exact t.stackp, habove, by rw [upd_same]; exact hst, o.fresh, ?_, ?_, ?_⟩
    · intro j hj
      by_cases hj0 : j = 0
      · subst hj0
        rw [upd_ne _ _ (hne _), show idx 0 = 0 from rfl, upd_same, t.seps 0 hj, show idx 0 = 0 from rfl, e0]
        exact (sepf_same (fun q hq => o.fk (j := 0) (by rw [e0]; exact hq))).symm
      · exact hseps j hj hj0
    · by_cases hd : depth = 0
      · subst hd
        have := t.top
        rw [show idx 0 = 0 from rfl, e0] at this
        rw [show idx 0 = 0 from rfl, upd_same]; exact this
      · rw [upd_ne _ _ (idx_pos hd)]; exact t.top
    · intro hd
      rw [upd_ne _ _ (idx_pos (by omega))]; exact t.topne hd
  · right
    subst hnew
    refine ⟨n, rfl, o.inv, by rw [upd_same, hvals], hL', by rw [upd_ne _ _ (by decide)]; exact t.stack, by rw [upd_ne _ _ (by decide)]; exact t.stackp, habove, by rw [upd_same]; exact hst, o.fresh,
      by omega, by rw [show idx 0 = 0 from rfl, upd_same]; rfl, hseps, ?_, ?_, ?_, ?_⟩
    · intro hd
      rw [upd_ne _ _ (hne _), t.seps 0 hd, show idx 0 = 0 from rfl, e0]
      exact (sepf_same (fun q hq => o.fk (j := 0) (by rw [e0]; exact hq))).symm
    · intro hd
      rw [upd_ne _ _ (idx_pos (by omega))]; exact t.top
    · intro hd
      rw [upd_ne _ _ (idx_pos (by omega))]; exact t.topne hd
    · intro hd
      have := t.top
      rw [← hd, show idx 0 = 0 from rfl, e0, List.length_append, List.length_cons] at this
      exact ⟨List.eq_nil_of_length_eq_zero (by omega), List.eq_nil_of_length_eq_zero (by omega)⟩

/-- Where the item for the new page goes. -/
theorem key_pos {m : MCfg K V} {h : Heap (Cell K V)} {as bs as' bs' cs held : List Nat} {p n P i : Nat}
    (hsort : (as ++ p :: n :: bs).Pairwise (fun a b => fk m h a < fk m h b)) (hnd : (as ++ p :: n :: bs).Nodup)
    (hcs : cs = as' ++ P :: bs') (hcont : contents h cs = (as ++ p :: bs).map (sepf m h)) (hi : i < (h.pages P).count) (hit : sepPage ((h.pages P).items i) = p)
    (hlock : held.length < m.max) :
    keyItemPos m held h P (fk m h n) = i + 1 ∧
      (contents h as' ++ (pageItems (h.pages P)).take (i + 1)) ++ sepf m h n :: ((pageItems (h.pages P)).drop (i + 1) ++ contents h bs') = (as ++ p :: n :: bs).map (sepf m h) := by
  subst hcs
  rw [contents_append, contents_cons] at hcont
  obtain ⟨ka, kr, e1, e2, e3⟩ := List.map_eq_append_iff.1 hcont.symm
  obtain ⟨kp, kb, e4, e5, e6⟩ := List.map_eq_append_iff.1 e3
  have hlen : kp.length = (h.pages P).count := by have := congrArg List.length e5; simpa using this
  have hitem : ∀ i (hi : i < kp.length), (h.pages P).items i = sepf m h kp[i] := by
    intro i hi
    have h3 := pageItems_get (q := h.pages P) (i := i) (by omega)
    rw [← e5, List.getElem?_map, List.getElem?_eq_getElem hi] at h3
    exact (Option.some.inj h3).symm
  have hik : i < kp.length := by omega
  have hp : kp[i] = p := by rw [hitem i hik] at hit; exact hit
  have hsplit : kp = kp.take i ++ p :: kp.drop (i + 1) := by
    have := List.take_append_drop i kp
    rw [← List.getElem_cons_drop hik, hp] at this
    exact this.symm
  have hnd2 : (as ++ p :: bs).Nodup := by
    refine List.Nodup.sublist ?_ hnd
    exact (List.append_sublist_append_left as).2 (List.cons_sublist_cons.2 (List.sublist_cons_self n bs))
  have hsame : as ++ p :: bs = (ka ++ kp.take i) ++ p :: (kp.drop (i + 1) ++ kb) := by
    rw [e1, e4]
    conv => lhs; rw [hsplit]
    simp
  obtain ⟨ha, hb⟩ := nodup_split hnd2 hsame
  have hs1 := List.pairwise_append.1 hsort
  have hs2 := List.pairwise_cons.1 hs1.2.1
  have hs3 := List.pairwise_cons.1 hs2.2
  constructor
  · unfold keyItemPos
    rw [canLock_of hlock, if_neg (by decide)]
    refine scan_eq (by omega) (by omega) ?_ ?_
    · intro j _ hj
      have hjk : j < kp.length := by omega
      simp only [decide_eq_true_eq]
      rw [hitem j hjk]
      show fk m h kp[j] < fk m h n
      by_cases hji : j = i
      · subst hji; rw [hp]; exact hs2.1 n (by simp)
      · refine hs1.2.2 _ ?_ n (by simp)
        rw [← ha]
        refine List.mem_append_right _ ?_
        have : (kp.take i)[j]'(by rw [List.length_take]; omega) = kp[j] := List.getElem_take
        rw [← this]; exact List.getElem_mem _
    · intro hlt
      have hjk : i + 1 < kp.length := by omega
      simp only [decide_eq_false_iff_not]
      rw [hitem _ hjk]
      show ¬ fk m h kp[i + 1] < fk m h n
      refine not_lt.2 (le_of_lt (hs3.1 _ ?_))
      rw [← hb]
      refine List.mem_append_left _ ?_
      rw [← List.getElem_cons_drop hjk]; exact List.mem_cons_self
  · have h1 : (pageItems (h.pages P)).take (i + 1) = (kp.take i ++ [p]).map (sepf m h) := by
      rw [← e5, ← List.map_take]
      congr 1
      rw [List.take_succ_eq_append_getElem hik, hp]
    have h2 : (pageItems (h.pages P)).drop (i + 1) = (kp.drop (i + 1)).map (sepf m h) := by rw [← e5, ← List.map_drop]
    rw [h1, h2, ← e2, ← e6, ← ha, ← hb]
    simp

/-- The item for the new page was inserted into the level above it. -/
theorem level_inserted {m : MCfg K V} {h : Heap (Cell K V)} {depth : Nat} {L : List (K × V)} {pss : Nat → List Nat} {lists : Nat → List (Cell K V)} {l : Nat}
    {as bs as' bs' new : List Nat} {p n P i : Nat} {r : Res (Cell K V)} (g : Gap m D h depth L pss lists l as p n bs) (hl : l < depth) (hP : pss (idx (l + 1)) = as' ++ P :: bs')
    (hlist : (contents h as' ++ (pageItems (h.pages P)).take (i + 1)) ++ sepf m h n :: ((pageItems (h.pages P)).drop (i + 1) ++ contents h bs') = (as ++ p :: n :: bs).map (sepf m h))
    (o : InsOut m h lists pss (idx (l + 1)) as' P bs' (i + 1) (sepf m h n) r new) :
    ∃ pss' lists', (∀ j, j ≠ idx (l + 1) → pss' j = pss j) ∧ (∀ j, j ≠ idx (l + 1) → ∀ q ∈ pss j, Same h r.heap q) ∧
      ((new = [] ∧ Tree m D r.heap depth L pss' [] lists') ∨ ∃ n', new = [n'] ∧ Gap m D r.heap depth L pss' lists' (l + 1) as' P n' bs') := by
  have hP1 : P ∈ pss (idx (l + 1)) := by rw [hP]; simp
  have hsame : ∀ j, j ≠ idx (l + 1) → ∀ q ∈ pss j, Same h r.heap q := fun j hj q hq => o.same g.inv hP1 hj hq
  have hne0 : (0 : Nat) ≠ idx (l + 1) := fun e => by have := idx_inj (i := 0) (j := l + 1) e; omega
  have hne1 : 1 ≠ idx (l + 1) := fun e => idx_ne1 _ e.symm
  have hidx : ∀ {j}, j ≠ l + 1 → idx j ≠ idx (l + 1) := fun hj e => hj (idx_inj e)
  have hseps : ∀ j, j < depth → j ≠ l + 1 → (upd lists (idx (l + 1)) ((as ++ p :: n :: bs).map (sepf m h))) (idx (j + 1)) =
      ((upd pss (idx (l + 1)) (as' ++ P :: (new ++ bs'))) (idx j)).map (sepf m r.heap) := by
    intro j hj hjl
    rw [upd_ne pss _ (hidx hjl), sepf_same (fun q hq => o.fk hq)]
    by_cases hjl2 : j = l
    · rw [hjl2, upd_same, g.at_]
    · rw [upd_ne _ _ (hidx (by omega)), g.seps j hj hjl2]
  have habove : ∀ j, depth < j → (upd pss (idx (l + 1)) (as' ++ P :: (new ++ bs'))) (idx j) = [] := by
    intro j hj; rw [upd_ne _ _ (hidx (by omega))]; exact g.above j hj
  have hinv := o.inv
  rw [hlist] at hinv
  refine ⟨upd pss (idx (l + 1)) (as' ++ P :: (new ++ bs')), upd lists (idx (l + 1)) ((as ++ p :: n :: bs).map (sepf m h)), fun j hj => upd_ne _ _ hj, hsame, ?_⟩
  have hvals : (upd lists (idx (l + 1)) ((as ++ p :: n :: bs).map (sepf m h))) 0 = L.map cellOf := by rw [upd_ne _ _ hne0]; exact g.vals
  have hstack : ((upd lists (idx (l + 1)) ((as ++ p :: n :: bs).map (sepf m h))) 1).length = depth := by rw [upd_ne _ _ hne1]; exact g.stack
  have hstackp : ((upd pss (idx (l + 1)) (as' ++ P :: (new ++ bs'))) 1).length ≤ 1 := by rw [upd_ne _ _ hne1]; exact g.stackp
  have hstale : Stale D r.heap ((upd pss (idx (l + 1)) (as' ++ P :: (new ++ bs'))) 0) := by
    rw [upd_ne _ _ hne0]; exact stale_same g.stale (hsame 0 hne0)
  have hseps2 : l + 1 < depth → (upd lists (idx (l + 1)) ((as ++ p :: n :: bs).map (sepf m h))) (idx (l + 1 + 1)) = (as' ++ P :: bs').map (sepf m r.heap) := by
    intro hd
    rw [upd_ne _ _ (hidx (by omega)), g.seps (l + 1) hd (by omega), hP]
    exact (sepf_same (fun q hq => o.fk (j := idx (l + 1)) (by rw [hP]; exact hq))).symm
  have htop : l + 1 < depth → ((upd pss (idx (l + 1)) (as' ++ P :: (new ++ bs'))) (idx depth)).length ≤ 1 := by
    intro hd; rw [upd_ne _ _ (hidx (by omega))]; exact g.top (by omega)
  have htopne : l + 1 < depth → (upd pss (idx (l + 1)) (as' ++ P :: (new ++ bs'))) (idx depth) ≠ [] := by
    intro hd; rw [upd_ne _ _ (hidx (by omega))]; exact g.topne (by omega)
  have htopAt : l + 1 = depth → as' = [] ∧ bs' = [] := by
    intro hd
    have := g.top hl
    rw [← hd, hP, List.length_append, List.length_cons] at this
    exact ⟨List.eq_nil_of_length_eq_zero (by omega), List.eq_nil_of_length_eq_zero (by omega)⟩
  rcases o.leads with ⟨hnew, _⟩ | ⟨n', hnew, _⟩
  · left
    subst hnew
    refine ⟨rfl, hinv, hvals, g.sorted, hstack, hstackp, habove, hstale, o.fresh, ?_, ?_, ?_⟩
    · intro j hj
      by_cases hjl : j = l + 1
      · subst hjl
        rw [hseps2 hj, upd_same]; rfl
      · exact hseps j hj hjl
    · by_cases hd : l + 1 = depth
      · obtain ⟨h1, h2⟩ := htopAt hd
        rw [← hd, upd_same, h1, h2]; simp
      · exact htop (by omega)
    · intro _
      by_cases hd : l + 1 = depth
      · rw [← hd, upd_same]; simp
      · exact htopne (by omega)
  · right
    subst hnew
    exact ⟨n', rfl, hinv, hvals, g.sorted, hstack, hstackp, habove, hstale, o.fresh, by omega, by rw [upd_same]; rfl, hseps, hseps2, htop, htopne, htopAt⟩

theorem upInsert_default (m : MCfg K V) (l : Nat) (rp : List Nat) (h : Heap (Cell K V)) : upInsert m l rp h .default .default = (h, true, .default, .default) := by
  cases rp with
  | nil => rfl
  | cons p rp => unfold upInsert; rw [if_pos ⟨rfl, rfl⟩]

/-- The leads of a split. -/
def leadNew (h : Heap (Cell K V)) (n : Nat) : Lead (Cell K V) := ⟨.insert, n, some ((h.pages n).items 0), none⟩
def leadOld (h : Heap (Cell K V)) (p : Nat) : Lead (Cell K V) := ⟨.original, p, some ((h.pages p).items 0), none⟩

/-- The walk up the path. -/
theorem upInsert_spec {m : MCfg K V} {depth : Nat} {L : List (K × V)} (ok : m.Ok) : ∀ (rp : List Nat) (l : Nat) (h : Heap (Cell K V)) (pss : Nat → List Nat)
    (lists : Nat → List (Cell K V)) (as bs : List Nat) (p n : Nat), Gap m D h depth L pss lists l as p n bs → Up h pss depth l p rp →
    m.limit ≤ (upInsert m l rp h (leadNew h n) (leadOld h p)).1.len ∨ ∃ h' pss' lists' a b, upInsert m l rp h (leadNew h n) (leadOld h p) = (h', true, a, b) ∧
      (∀ j, (∀ i, l < i → j ≠ idx i) → pss' j = pss j ∧ ∀ q ∈ pss j, Same h h' q) ∧
      ((a = .default ∧ b = .default ∧ Tree m D h' depth L pss' [] lists') ∨ ∃ p' n', a = leadNew h' n' ∧ b = leadOld h' p' ∧ n' ≠ nil ∧ Gap m D h' depth L pss' lists' depth [] p' n' []) := by
  intro rp
  have hm := ok.max
  induction rp with
  | nil =>
    intro l h pss lists as bs p n g hu
    right
    have hl : l = depth := hu
    obtain ⟨ha, hb⟩ := g.topGap hl
    subst ha hb hl
    have hn : n ≠ nil := (g.inv.cont (idx l)).own.nn n (by rw [g.at_]; simp)
    exact ⟨h, pss, lists, _, _, rfl, fun j _ => ⟨rfl, fun q _ => ⟨rfl, rfl⟩⟩, Or.inr ⟨p, n, rfl, rfl, hn, g⟩⟩
  | cons P rp ih =>
    intro l h pss lists as bs p n g hu
    obtain ⟨hl, hP, ⟨i, hi, hit⟩, hu'⟩ := hu
    obtain ⟨as', bs', hPs⟩ := List.append_of_mem hP
    have hcont : contents h (pss (idx (l + 1))) = (as ++ p :: bs).map (sepf m h) := by rw [← g.gap hl]; exact g.inv.items _
    have hsort : (as ++ p :: n :: bs).Pairwise (fun a b => fk m h a < fk m h b) := by
      rw [← g.at_]
      exact levels_sorted (N := l) g.inv g.vals g.sorted (fun j hj => g.seps j (by omega) (by omega)) l (Nat.le_refl _)
    have hnd : (as ++ p :: n :: bs).Nodup := by rw [← g.at_]; exact (g.inv.cont _).own.nodup
    obtain ⟨hk, hlist⟩ := key_pos (held := [(h.states 2).front]) hsort hnd hPs hcont hi hit (by simp; omega)
    have hcap := ok.capK
    have hcnt : (h.pages P).count ≤ m.capK := by
      have := ((g.inv.cont (idx (l + 1))).cnt P hP).2
      rw [cfgs_idx, if_neg (by omega)] at this
      exact this
    obtain ⟨r, hr, ho⟩ := insOut (held := [(h.states 2).front]) (x := sepf m h n) g.inv g.fresh (show cfgs m (idx (l + 1)) = allCfg m m.capK by rw [cfgs_idx, if_neg (by omega)]) hPs
      (i := i + 1) (by omega) (by omega) hcap (by simp; omega) ok.log ok.limit
    have hsid : idx (l + 1) + 1 = 4 + l := by unfold idx; rw [if_neg (by omega)]; omega
    rw [hsid] at hr
    unfold upInsert
    rw [if_neg (by rintro ⟨h1, _⟩; cases h1)]
    simp only
    rw [show leadKey m (leadNew h n).fst = fk m h n from rfl, hk, if_neg (by omega), show (Cell.sep (fk m h n) (leadNew h n).page : Cell K V) = sepf m h n from rfl, hr]
    simp only
    rcases ho with ⟨h1, h2⟩ | ⟨new, o⟩
    · left
      refine Nat.le_trans ?_ (upInsert_len ..)
      rw [h2]; exact h1
    · obtain ⟨pss', lists', hp', hs', hcase⟩ := level_inserted g hl hPs hlist o
      rcases o.leads with ⟨hnew, h0, h1⟩ | ⟨n', hnew, h0, h1⟩
      · rcases hcase with ⟨_, t⟩ | ⟨n', hn', _⟩
        · right
          rw [h0, h1, upInsert_default]
          refine ⟨r.heap, pss', lists', _, _, rfl, ?_, Or.inl ⟨rfl, rfl, t⟩⟩
          intro j hj
          exact ⟨hp' j (hj _ (by omega)), hs' j (hj _ (by omega))⟩
        · rw [hnew] at hn'; cases hn'
      · rcases hcase with ⟨hn', _⟩ | ⟨n'', hn', g'⟩
        · rw [hnew] at hn'; cases hn'
        · have hnn : n'' = n' := by rw [hnew] at hn'; exact (List.cons.inj hn').1.symm
          subst hnn
          have hup : Up r.heap pss' depth (l + 1) P rp := hu'.same (fun j hj => hp' _ (fun e => by have := idx_inj e; omega)) (fun j hj => hs' _ (fun e => by have := idx_inj e; omega))
          rw [h0, h1]
          rcases ih (l + 1) r.heap pss' lists' as' bs' P n'' g' hup with hfail | ⟨h', pss'', lists'', a, b, e, hkeep, hres⟩
          · exact Or.inl hfail
          · right
            refine ⟨h', pss'', lists'', a, b, e, ?_, hres⟩
            intro j hj
            have hne := hj (l + 1) (by omega)
            obtain ⟨k1, k2⟩ := hkeep j (fun i hi => hj i (by omega))
            refine ⟨k1.trans (hp' j hne), ?_⟩
            intro q hq
            have s1 := hs' j hne q hq
            have s2 := k2 q (by rw [hp' j hne]; exact hq)
            exact ⟨s2.1.trans s1.1, s2.2.trans s1.2⟩

omit [LinearOrder K] in
theorem setState_self (h : Heap (Cell K V)) (s : Nat) (c : CState) (e : h.states s = c) : h.setState s c = h := by
  unfold Heap.setState
  cases h with
  | mk pages states len bad =>
    simp only [Heap.mk.injEq, true_and, and_true]
    funext t
    by_cases ht : t = s
    · rw [if_pos ht, ht]; exact e.symm
    · rw [if_neg ht]

/-- A new top level. -/
theorem newLevel_spec {m : MCfg K V} {h : Heap (Cell K V)} {depth : Nat} {L : List (K × V)} {pss : Nat → List Nat} {lists : Nat → List (Cell K V)} {p n : Nat} (ok : m.Ok)
    (g : Gap m D h depth L pss lists depth [] p n []) (hcs : depth < m.capS) :
    m.limit ≤ (newLevel m h depth (leadNew h n) (leadOld h p)).heap.len ∨ ∃ h' pss' lists', newLevel m h depth (leadNew h n) (leadOld h p) = ⟨h', depth + 1, true⟩ ∧
      (∀ j, j ≠ 1 → j ≠ idx (depth + 1) → pss' j = pss j ∧ ∀ q ∈ pss j, Same h h' q) ∧ Tree m D h' (depth + 1) L pss' [] lists' := by
  have hm := ok.max
  have hcK := ok.capK
  have hcS := ok.capS
  have hcf : cfgs m (idx (depth + 1)) = allCfg m m.capK := by rw [cfgs_idx, if_neg (by omega)]
  have hsid : idx (depth + 1) + 1 = 4 + depth := by unfold idx; rw [if_neg (by omega)]; omega
  have hemp : pss (idx (depth + 1)) = [] := g.above _ (by omega)
  have hlemp : lists (idx (depth + 1)) = [] := by
    have : contents h (pss (idx (depth + 1))) = lists (idx (depth + 1)) := g.inv.items _
    rw [hemp, contents_nil] at this; exact this.symm
  have hstate : h.states (4 + depth) = CState.new := by
    have h1 := (g.inv.cont (idx (depth + 1))).own
    rw [hemp, hsid] at h1
    have h2 : (h.states (idx (depth + 1) + 1)).total = (lists (idx (depth + 1))).length := g.inv.total _
    rw [hsid, hlemp] at h2
    have hfr : (h.states (4 + depth)).front = nil := h1.front
    have hbk : (h.states (4 + depth)).back = nil := h1.back
    show h.states (4 + depth) = ⟨nil, nil, 0⟩
    cases hst : h.states (4 + depth) with
    | mk f b t =>
      rw [hst] at hfr hbk h2
      simp only [List.length_nil] at hfr hbk h2
      rw [hfr, hbk, h2]
  have hne1 : (1 : Nat) ≠ idx (depth + 1) := fun e => idx_ne1 _ e.symm
  -- the first item
  obtain ⟨r1, hr1, ho1⟩ := pushOut (k := idx (depth + 1)) (e := .fin) (held := []) (x := sepf m h p) g.inv g.fresh (by rw [hemp]; simp) (by simp) (fun _ => ⟨rfl, rfl⟩)
    (by rw [hlemp, hcf]; show 0 < m.capK; omega) (by rw [hcf]; exact hcK.2) (by simp; omega) ok.log ok.limit
  rw [hcf, hsid] at hr1
  have hpt1 : pushTo (allCfg m m.capK) h (4 + depth) (sepf m h p) = r1.heap := by
    unfold pushTo
    rw [show cend (h.states (4 + depth)) = ⟨(h.states (4 + depth)).back, nilItem, .fin⟩ from rfl, hr1]
  unfold newLevel
  rw [setState_self h _ _ hstate, show (Cell.sep (leadKey m (leadOld h p).fst) (leadOld h p).page : Cell K V) = sepf m h p from rfl, hpt1,
    show (Cell.sep (leadKey m (leadNew h n).fst) (leadNew h n).page : Cell K V) = sepf m h n from rfl]
  simp only
  have tail_len : ∀ (g2 : Heap (Cell K V)), m.limit ≤ g2.len → m.limit ≤ (match insert2 (noneCfg m m.capS) [] g2 2 (cend (g2.states 2)) (.lev depth) with
      | none => (⟨g2.check false, depth, true⟩ : Upd K V)
      | some r => ⟨r.heap, if r.itr = some (cend (r.heap.states 2)) then depth else depth + 1, true⟩).heap.len := by
    intro g2 hg
    split
    · exact hg
    · rename_i r e; exact Nat.le_trans hg (insert2_len e)
  rcases ho1 with ⟨h1, h2, _⟩ | ⟨a1, o1⟩
  · left
    refine tail_len _ (Nat.le_trans ?_ (pushTo_len ..))
    rw [h2]; exact h1
  -- the second item
  obtain ⟨r2, hr2, ho2⟩ := pushOut (k := idx (depth + 1)) (e := .fin) (held := []) (x := sepf m h n) o1.inv o1.fresh (by rw [upd_same]; simp) (by simp) (fun _ => ⟨rfl, rfl⟩)
    (by rw [upd_same, hlemp, hcf]; show 1 < m.capK; omega) (by rw [hcf]; exact hcK.2) (by simp; omega) ok.log ok.limit
  rw [hcf, hsid] at hr2
  have hpt2 : pushTo (allCfg m m.capK) r1.heap (4 + depth) (sepf m h n) = r2.heap := by
    unfold pushTo
    rw [show cend (r1.heap.states (4 + depth)) = ⟨(r1.heap.states (4 + depth)).back, nilItem, .fin⟩ from rfl, hr2]
  rw [hpt2]
  rcases ho2 with ⟨h1, h2, _⟩ | ⟨a2, o2⟩
  · left
    refine tail_len _ ?_
    rw [h2]; exact h1
  -- the stack
  have hl1 : (upd (upd lists (idx (depth + 1)) (lists (idx (depth + 1)) ++ [sepf m h p])) (idx (depth + 1))
      ((upd lists (idx (depth + 1)) (lists (idx (depth + 1)) ++ [sepf m h p])) (idx (depth + 1)) ++ [sepf m h n])) 1 = lists 1 := by
    rw [upd_ne _ _ hne1, upd_ne _ _ hne1]
  obtain ⟨r3, hr3, ho3⟩ := pushOut (k := 1) (e := .fin) (held := []) (x := .lev depth) o2.inv o2.fresh (by rw [upd_ne _ _ hne1, upd_ne _ _ hne1]; exact g.stackp) (by simp) (fun _ => ⟨rfl, rfl⟩)
    (by rw [hl1, g.stack]; exact hcs) hcS.2 (by simp; omega) ok.log ok.limit
  have hr3' : insert2 (noneCfg m m.capS) [] r2.heap 2 (cend (r2.heap.states 2)) (.lev depth) = some r3 := hr3
  rcases ho3 with ⟨h1, h2, _⟩ | ⟨a3, o3⟩
  · left; exact tail_len _ h1
  rw [hr3']
  simp only
  obtain ⟨k', hi3, _⟩ := o3.itr
  rw [if_neg (by rw [hi3]; intro e; cases e)]
  right
  have hkeep : ∀ j, j ≠ 1 → j ≠ idx (depth + 1) → ∀ q ∈ pss j, Same h r3.heap q := by
    intro j h1 h2 q hq
    have s1 := o1.other q (fun e => o1.out j h2 (e ▸ hq))
    have s2 := o2.other q (fun e => o2.out j h2 (by rw [upd_ne _ _ h2, ← e]; exact hq))
    have s3 := o3.other q (fun e => o3.out j h1 (by rw [upd_ne _ _ h2, upd_ne _ _ h2, ← e]; exact hq))
    exact ⟨s3.1.trans (s2.1.trans s1.1), s3.2.trans (s2.2.trans s1.2)⟩
  refine ⟨r3.heap, _, _, rfl, fun j h1 h2 => ⟨by rw [upd_ne _ _ h1, upd_ne _ _ h2, upd_ne _ _ h2], hkeep j h1 h2⟩, o3.inv, ?_, g.sorted, ?_, ?_, ?_, ?_, o3.fresh, ?_, ?_, ?_⟩
  · have h0 : (0 : Nat) ≠ idx (depth + 1) := Ne.symm (idx_pos (by omega))
    rw [upd_ne _ _ (by decide), upd_ne _ _ h0, upd_ne _ _ h0]; exact g.vals
  · rw [upd_same, List.length_append, hl1, g.stack]; rfl
  · rw [upd_same]; simp
  · intro j hj
    have : idx j ≠ idx (depth + 1) := fun e => by have := idx_inj e; omega
    rw [upd_ne _ _ (idx_ne1 j), upd_ne _ _ this, upd_ne _ _ this]; exact g.above j (by omega)
  · have h0 : (0 : Nat) ≠ idx (depth + 1) := Ne.symm (idx_pos (by omega))
    rw [upd_ne _ _ (by decide), upd_ne _ _ h0, upd_ne _ _ h0]
    exact stale_same g.stale (hkeep 0 (by decide) h0)
  · intro j hj
    have h2 : idx j ≠ idx (depth + 1) := fun e => by have := idx_inj e; omega
    rw [upd_ne _ _ (idx_ne1 (j + 1)), upd_ne _ _ (idx_ne1 j), upd_ne _ _ h2, upd_ne _ _ h2, sepf_same (fun q hq => (hkeep _ (idx_ne1 j) h2 q hq).fk)]
    by_cases hjd : j = depth
    · subst hjd
      rw [upd_same, upd_same, hlemp, g.at_]; rfl
    · have h3 : idx (j + 1) ≠ idx (depth + 1) := fun e => by have := idx_inj e; omega
      rw [upd_ne _ _ h3, upd_ne _ _ h3]
      exact g.seps j (by omega) hjd
  · rw [upd_ne _ _ (idx_ne1 _), upd_same]; simp
  · intro _
    rw [upd_ne _ _ (idx_ne1 _), upd_same]; simp

end Abc.Vmem.Map
