import Verif.Vmem.MapLevels

/-! # The invariant of a map and the lookup of a key -/

namespace Abc.Vmem.Map

open Abc.Vmem.Pages

variable {K V : Type} [LinearOrder K] {D : K → Prop}

/-- The pool holds a map with the pairs `L`: the pages of container `k` are `pss k` and its items `lists k`; `fs` are the free pages. -/
structure Tree (m : MCfg K V) (D : K → Prop) (h : Heap (Cell K V)) (depth : Nat) (L : List (K × V)) (pss : Nat → List Nat) (fs : List Nat) (lists : Nat → List (Cell K V)) : Prop where
  inv : CInv (cfgs m) ⟨h, lists⟩ pss fs
  vals : lists 0 = L.map cellOf
  sorted : L.Pairwise (fun a b => a.1 < b.1)
  stack : (lists 1).length = depth
  stackp : (pss 1).length ≤ 1
  above : ∀ j, depth < j → pss (idx j) = []
  stale : Stale D h (pss 0)
  fresh : Fresh h
  seps : ∀ j, j < depth → lists (idx (j + 1)) = (pss (idx j)).map (sepf m h)
  top : (pss (idx depth)).length ≤ 1
  topne : 0 < depth → pss (idx depth) ≠ []

omit [LinearOrder K] in
theorem sepf_same {m : MCfg K V} {h h' : Heap (Cell K V)} {ps : List Nat} (hs : ∀ q ∈ ps, fk m h' q = fk m h q) : ps.map (sepf m h') = ps.map (sepf m h) := by
  apply List.map_congr_left
  intro q hq
  unfold sepf
  rw [hs q hq]

omit [LinearOrder K] in
theorem stale_same {h h' : Heap (Cell K V)} {ps : List Nat} (st : Stale D h ps) (hs : ∀ q ∈ ps, Same h h' q) : Stale D h' ps := by
  intro p hpm j hj
  have hp := hs p hpm
  rw [hp.1] at hj
  rw [hp.2, contents_same hs]
  exact st p hpm j hj

theorem Tree.move {m : MCfg K V} {h h' : Heap (Cell K V)} {depth : Nat} {L : List (K × V)} {pss pss' : Nat → List Nat} {fs fs' : List Nat}
    {lists lists' : Nat → List (Cell K V)} (t : Tree m D h depth L pss fs lists) (v : CInv (cfgs m) ⟨h', lists'⟩ pss' fs') (hf : Fresh h')
    (hp : ∀ j, j ≠ 2 → pss' j = pss j) (hl : ∀ j, j ≠ 2 → lists' j = lists j) (hs : ∀ j, j ≠ 2 → ∀ q ∈ pss j, Same h h' q) :
    Tree m D h' depth L pss' fs' lists' where
  inv := v
  vals := by rw [hl 0 (by decide)]; exact t.vals
  sorted := t.sorted
  stack := by rw [hl 1 (by decide)]; exact t.stack
  stackp := by rw [hp 1 (by decide)]; exact t.stackp
  above := fun j hj => by rw [hp _ (idx_ne2 j)]; exact t.above j hj
  stale := by rw [hp 0 (by decide)]; exact stale_same t.stale (hs 0 (by decide))
  fresh := hf
  seps := fun j hj => by
    rw [hl _ (idx_ne2 _), hp _ (idx_ne2 _), t.seps j hj]
    exact (sepf_same (fun q hq => (hs _ (idx_ne2 j) q hq).fk)).symm
  top := by rw [hp _ (idx_ne2 _)]; exact t.top
  topne := fun h0 => by rw [hp _ (idx_ne2 _)]; exact t.topne h0

theorem Routed.same {m : MCfg K V} {h h' : Heap (Cell K V)} {key : K} {ps : List Nat} {p : Nat} (r : Routed m h key ps p) (hs : ∀ q ∈ ps, Same h h' q) :
    Routed m h' key ps p := by
  obtain ⟨as, bs, e, h1, h2⟩ := r
  refine ⟨as, bs, e, ?_, ?_⟩
  · rw [(hs p (by rw [e]; simp)).fk]; exact h1
  · intro q bs' hb
    rw [(hs q (by rw [e, hb]; simp)).fk]; exact h2 q bs' hb

/-- The pages above the page `c` of level `j`, from below: each one holds the item of the page below it. -/
def Up (h : Heap (Cell K V)) (pss : Nat → List Nat) (depth : Nat) : Nat → Nat → List Nat → Prop
  | j, _, [] => j = depth
  | j, c, P :: rp => j < depth ∧ P ∈ pss (idx (j + 1)) ∧ (∃ i, i < (h.pages P).count ∧ sepPage ((h.pages P).items i) = c) ∧ Up h pss depth (j + 1) P rp

omit [LinearOrder K] in
theorem Up.length {h : Heap (Cell K V)} {pss : Nat → List Nat} {depth : Nat} : ∀ {rp : List Nat} {j c : Nat}, Up h pss depth j c rp → rp.length + j = depth := by
  intro rp
  induction rp with
  | nil => intro j c u; show 0 + j = depth; rw [Nat.zero_add]; exact u
  | cons P rp ih => intro j c u; have := ih u.2.2.2; rw [List.length_cons]; omega

omit [LinearOrder K] in
/-- The pages on the path above level `j` did not change. -/
theorem Up.same {h h' : Heap (Cell K V)} {pss pss' : Nat → List Nat} {depth : Nat} : ∀ {rp : List Nat} {j c : Nat}, Up h pss depth j c rp →
    (∀ i, j < i → pss' (idx i) = pss (idx i)) → (∀ i, j < i → ∀ q ∈ pss (idx i), Same h h' q) → Up h' pss' depth j c rp := by
  intro rp
  induction rp with
  | nil => intro j c u _ _; exact u
  | cons P rp ih =>
    intro j c u hp hs
    obtain ⟨u1, u2, ⟨i, u3, u4⟩, u5⟩ := u
    have hP := hs (j + 1) (by omega) P u2
    refine ⟨u1, by rw [hp _ (by omega)]; exact u2, ⟨i, by rw [hP.1]; exact u3, by rw [hP.2]; exact u4⟩, ih u5 (fun i hi => hp i (by omega)) (fun i hi => hs i (by omega))⟩

/-- A page is pushed to the path. -/
theorem pushPath_spec {m : MCfg K V} {h : Heap (Cell K V)} {depth : Nat} {L : List (K × V)} {pss : Nat → List Nat} {fs held path : List Nat}
    {lists : Nat → List (Cell K V)} (ok : m.Ok) (t : Tree m D h depth L pss fs lists) (h2 : (pss 2).length ≤ 1) (hfs : fs.length ≤ 1) (hfs2 : pss 2 ≠ [] → fs = [])
    (hlen : (lists 2).length < m.capP) (hheld : held.length ≤ 1) (p : Nat) :
    m.limit ≤ (pushPath m held h p path).1.len ∨ ∃ h' pss' lists', pushPath m held h p path = (h', path ++ [p]) ∧ Tree m D h' depth L pss' [] lists' ∧
      (∀ j, j ≠ 2 → pss' j = pss j) ∧ (∀ j, j ≠ 2 → lists' j = lists j) ∧ (pss' 2).length = 1 ∧ (lists' 2).length = (lists 2).length + 1 ∧
      ∀ j, j ≠ 2 → ∀ q ∈ pss j, Same h h' q := by
  have hm := ok.max
  obtain ⟨r, hr, ho⟩ := pushOut (k := 2) (e := .fin) (held := held) (x := .pos p) t.inv t.fresh h2 hfs (fun hne => ⟨hfs2 hne, rfl⟩) hlen ok.capP.2 (by omega) ok.log ok.limit
  have hr' : insert2 (noneCfg m m.capP) held h 3 (cend (h.states 3)) (.pos p) = some r := hr
  unfold pushPath
  rw [hr']
  simp only
  rcases ho with ⟨h1, h3, _⟩ | ⟨a, ho⟩
  · left; rw [h3]; exact h1
  · right
    obtain ⟨k', hi, _⟩ := ho.itr
    have hne : ¬ r.itr = some (cend (r.heap.states 3)) := by
      rw [hi]; intro e; cases e
    rw [if_neg hne]
    have hs : ∀ j, j ≠ 2 → ∀ q ∈ pss j, Same h r.heap q := fun j hj q hq => ho.other q (fun e => ho.out j hj (e ▸ hq))
    refine ⟨r.heap, _, _, rfl, t.move ho.inv ho.fresh (fun j hj => upd_ne _ _ hj) (fun j hj => upd_ne _ _ hj) hs, fun j hj => upd_ne _ _ hj, fun j hj => upd_ne _ _ hj, ?_, ?_, hs⟩
    · rw [upd_same]; rfl
    · rw [upd_same]; simp

/-- The walk down from the page `p` of level `n`. -/
theorem descend_spec {m : MCfg K V} {depth : Nat} {L : List (K × V)} {key : K} (ok : m.Ok) (hcp : depth ≤ m.capP) : ∀ (n : Nat) (h : Heap (Cell K V))
    (pss : Nat → List Nat) (lists : Nat → List (Cell K V)) (path rp : List Nat) (p : Nat), n ≤ depth → Tree m D h depth L pss [] lists → (pss 2).length = 1 →
    (lists 2).length + (n - 1) = depth → Routed m h key (pss (idx n)) p → path.reverse = (if n = 0 then rp else p :: rp) → Up h pss depth n p rp →
    m.limit ≤ (descend m key n h path p).1.len ∨ ∃ h' pss' lists' path' p', descend m key n h path p = (h', path', p') ∧ Tree m D h' depth L pss' [] lists' ∧
      (∀ j, j ≠ 2 → pss' j = pss j) ∧ (pss' 2).length = 1 ∧ Routed m h' key (pss' 0) p' ∧ Up h' pss' depth 0 p' path'.reverse := by
  intro n
  have hm := ok.max
  induction n with
  | zero =>
    intro h pss lists path rp p _ t h2 hl hr hp hu
    right
    exact ⟨h, pss, lists, path, p, rfl, t, fun _ _ => rfl, h2, hr, by rw [hp]; exact hu⟩
  | succ n ih =>
    intro h pss lists path rp p hn t h2 hl hr hp hu
    have hpm : p ∈ pss (idx (n + 1)) := by obtain ⟨as, bs, e, _⟩ := hr; rw [e]; simp
    have hpn : p ≠ nil := (t.inv.cont _).own.nn p hpm
    unfold descend
    rw [if_neg hpn, canLock_of (by simp; omega), if_neg (by decide)]
    simp only
    have hcont : contents h (pss (idx (n + 1))) = (pss (idx n)).map (sepf m h) := by
      rw [← t.seps n (by omega)]; exact t.inv.items _
    obtain ⟨i, c, hi, hit, hc, hrc⟩ := route_step (fun q hq => ((t.inv.cont _).cnt q hq).1) hcont hr
    rw [hc]
    have hup : Up h pss depth n c (p :: rp) := ⟨by omega, hpm, ⟨i, hi, by rw [hit]; rfl⟩, hu⟩
    by_cases hn0 : n = 0
    · rw [if_pos hn0]
      subst hn0
      exact ih h pss lists path (p :: rp) c (by omega) t h2 (by omega) hrc hp hup
    · rw [if_neg hn0]
      rcases pushPath_spec (held := [p]) (path := path) ok t (by omega) (by simp) (fun _ => rfl) (by omega) (by simp) c with hfail | ⟨h', pss', lists', e, t', hp', hl', h2', hl2, hs⟩
      · left; exact Nat.le_trans hfail (descend_len ..)
      · rw [e]
        simp only
        have hrc' : Routed m h' key (pss' (idx n)) c := by rw [hp' _ (idx_ne2 n)]; exact hrc.same (hs _ (idx_ne2 n))
        have hup' : Up h' pss' depth n c (p :: rp) := hup.same (fun i _ => hp' _ (idx_ne2 i)) (fun i _ => hs _ (idx_ne2 i))
        have hpr : (path ++ [c]).reverse = if n = 0 then p :: rp else c :: p :: rp := by
          rw [if_neg hn0, List.reverse_append, hp, if_neg (by omega)]; rfl
        rcases ih h' pss' lists' (path ++ [c]) (p :: rp) c (by omega) t' h2' (by omega) hrc' hpr hup' with hfail | ⟨h'', pss'', lists'', path', p', e', t'', hp'', h2'', hr'', hu''⟩
        · exact Or.inl hfail
        · right
          exact ⟨h'', pss'', lists'', path', p', e', t'', fun j hj => (hp'' j hj).trans (hp' j hj), h2'', hr'', hu''⟩

/-- After the value page was looked for: the pool still holds the map, there is no free page, the path has one page or none. -/
structure Searched (m : MCfg K V) (D : K → Prop) (depth : Nat) (L : List (K × V)) (pss0 : Nat → List Nat) (key : K) (h : Heap (Cell K V)) (path : List Nat) (p : Nat) (pss : Nat → List Nat)
    (lists : Nat → List (Cell K V)) : Prop where
  tree : Tree m D h depth L pss [] lists
  pages : ∀ j, j ≠ 2 → pss j = pss0 j
  path2 : (pss 2).length ≤ 1
  path0 : depth = 0 → pss 2 = []
  where_ : (depth = 0 ∧ pss 0 = [] ∧ p = nil ∧ path = []) ∨ (Routed m h key (pss 0) p ∧ Up h pss depth 0 p path.reverse)

theorem findPage_spec {m : MCfg K V} {h : Heap (Cell K V)} {depth : Nat} {L : List (K × V)} {pss : Nat → List Nat} {fs : List Nat}
    {lists : Nat → List (Cell K V)} {key : K} (ok : m.Ok) (t : Tree m D h depth L pss fs lists) (h2 : pss 2 = []) (hfs : fs.length ≤ 1) (hfs0 : depth = 0 → fs = []) (hcp : depth ≤ m.capP) :
    m.limit ≤ (findPage m h depth key).1.len ∨
      ∃ h' path p pss' lists', findPage m h depth key = (h', path, p) ∧ Searched m D depth L pss key h' path p pss' lists' := by
  unfold findPage
  by_cases hd : depth = 0
  · rw [if_pos hd]
    right
    have hfs' := hfs0 hd
    subst hd hfs'
    have ht : (pss 0).length ≤ 1 := t.top
    refine ⟨h, [], (h.states 1).front, pss, lists, rfl, t, fun _ _ => rfl, by rw [h2]; simp, fun _ => h2, ?_⟩
    have hf : (h.states 1).front = (pss 0).headD nil := (t.inv.cont 0).own.front
    rw [hf]
    cases hps : pss 0 with
    | nil => left; exact ⟨rfl, rfl, rfl, rfl⟩
    | cons p ps =>
      have : ps = [] := by rw [hps, List.length_cons] at ht; exact List.eq_nil_of_length_eq_zero (by omega)
      subst this
      right
      exact ⟨⟨[], [], rfl, Or.inl rfl, fun q bs' e => by cases e⟩, rfl⟩
  · rw [if_neg hd]
    simp only
    have hl2 : (lists 2).length = 0 := by
      have := t.inv.items 2
      rw [h2, contents_nil] at this
      change [] = lists 2 at this
      rw [← this]; rfl
    have hc1 := ok.capP
    obtain ⟨R, hR⟩ : ∃ R, pss (idx depth) = [R] := by
      have h3 := t.top
      have h4 := t.topne (by omega)
      cases hps : pss (idx depth) with
      | nil => exact absurd hps h4
      | cons p ps =>
        rw [hps, List.length_cons] at h3
        exact ⟨p, by rw [List.eq_nil_of_length_eq_zero (show ps.length = 0 by omega)]⟩
    have hfront : (h.states (3 + depth)).front = R := by
      have := (t.inv.cont (idx depth)).own.front
      rw [hR] at this
      rw [show 3 + depth = idx depth + 1 by unfold idx; rw [if_neg hd]; omega]
      exact this
    rw [hfront]
    rcases pushPath_spec (held := []) (path := []) ok t (by rw [h2]; simp) hfs (fun hne => absurd h2 hne) (by omega) (by simp) R with hfail | ⟨h', pss', lists', e, t', hp', hl', h2', hl2', hs⟩
    · left; exact Nat.le_trans hfail (descend_len ..)
    · rw [e]
      simp only
      have hR' : Routed m h' key (pss' (idx depth)) R := by
        rw [hp' _ (idx_ne2 _), hR]; exact ⟨[], [], rfl, Or.inl rfl, fun q bs' e => by cases e⟩
      rcases descend_spec (key := key) ok hcp depth h' pss' lists' ([] ++ [R]) [] R (Nat.le_refl _) t' h2' (by omega) hR' (by rw [if_neg hd]; rfl) rfl with
        hfail | ⟨h'', pss'', lists'', path', p', e', t'', hp'', h2'', hr'', hu''⟩
      · exact Or.inl hfail
      · right
        exact ⟨h'', path', p', pss'', lists'', e', t'', fun j hj => (hp'' j hj).trans (hp' j hj), by omega, fun h0 => absurd h0 hd, Or.inr ⟨hr'', hu''⟩⟩

/-- What `find2` leaves: either the map is empty, or the iterator stands on the item or where it has to be inserted. -/
structure FoundOut (m : MCfg K V) (D : K → Prop) (depth : Nat) (L : List (K × V)) (key : K) (f : Found K V) (pss : Nat → List Nat) (lists : Nat → List (Cell K V)) : Prop where
  tree : Tree m D f.heap depth L pss [] lists
  path2 : (pss 2).length ≤ 1
  path0 : depth = 0 → pss 2 = []
  res : (depth = 0 ∧ pss 0 = [] ∧ L = [] ∧ f.itr = noItr ∧ f.ok = false) ∨
    ∃ as p bs i La Lb, pss 0 = as ++ p :: bs ∧ (as = [] ∨ fk m f.heap p ≤ key) ∧ ValueFound m f.heap key as p bs L i La Lb ∧ f.itr = ⟨p, i, .none⟩ ∧
      f.ok = decide (valKey m ((f.heap.pages p).items i) = key) ∧ Up f.heap pss depth 0 p f.path.reverse

theorem find2_spec {m : MCfg K V} {h : Heap (Cell K V)} {depth : Nat} {L : List (K × V)} {pss : Nat → List Nat} {fs : List Nat}
    {lists : Nat → List (Cell K V)} {key : K} (ok : m.Ok) (hsp : m.spare = true) (t : Tree m D h depth L pss fs lists) (h2 : pss 2 = []) (hfs : fs.length ≤ 1)
    (hfs0 : depth = 0 → fs = []) (hcp : depth ≤ m.capP) (hz : ∀ e ∈ L, m.zeroKey ≤ e.1) (hD : ¬ D key) :
    m.limit ≤ (find2 m h depth key).heap.len ∨ nilItem < (find2 m h depth key).heap.len ∨ ∃ pss' lists', FoundOut m D depth L key (find2 m h depth key) pss' lists' := by
  have hm := ok.max
  unfold find2
  rcases findPage_spec (key := key) ok t h2 hfs hfs0 hcp with hfail | ⟨h', path, p, pss', lists', e, s⟩
  · left
    simp only
    split
    · exact hfail
    · split <;> exact hfail
  · right
    rw [e]
    simp only
    rcases s.where_ with ⟨hd, hp0, hpn, hpath⟩ | ⟨hr, hu⟩
    · right
      rw [if_pos hpn]
      refine ⟨pss', lists', s.tree, s.path2, s.path0, Or.inl ⟨hd, hp0, ?_, rfl, rfl⟩⟩
      have h3 : contents h' (pss' 0) = lists' 0 := s.tree.inv.items 0
      rw [hp0, contents_nil, s.tree.vals] at h3
      exact List.map_eq_nil_iff.1 h3.symm
    · obtain ⟨as, bs, e0, hle, hlt⟩ := hr
      have hpm : p ∈ pss' 0 := by rw [e0]; simp
      have hpn : p ≠ nil := (s.tree.inv.cont 0).own.nn p hpm
      have hplt : p < h'.len := (s.tree.inv.range 0 p hpm).2
      rw [if_neg hpn, canLock_of (by simp; omega), if_neg (by decide), hsp, Bool.or_true, check_true]
      by_cases hbig : nilItem < h'.len
      · exact Or.inl hbig
      · right
        have hcont : contents h' (as ++ p :: bs) = L.map cellOf := by rw [← e0, ← s.tree.vals]; exact s.tree.inv.items 0
        obtain ⟨La, Lb, hv⟩ := value_find (m := m) (key := key) (fun q hq => ((s.tree.inv.cont 0).cnt q (by rw [e0]; exact hq)).1) hcont s.tree.sorted (by rw [← e0]; exact s.tree.stale) hD hz hle hlt
        have hcap : (h'.pages p).count ≤ m.capV := ((s.tree.inv.cont 0).cnt p hpm).2
        have hcv := ok.capV
        have hi : valuePos m (h'.pages p) key ≤ (h'.pages p).count := hv.le
        refine ⟨pss', lists', s.tree, s.path2, s.path0, Or.inr ⟨as, p, bs, _, La, Lb, e0, hle, hv, ?_, rfl, hu⟩⟩
        rw [if_pos ⟨by omega, by omega⟩]

end Abc.Vmem.Map
