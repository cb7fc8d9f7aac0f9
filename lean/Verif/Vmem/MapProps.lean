import Verif.Vmem.MapUpdate
import Verif.Vmem.MapViolations
import Mathlib.Tactic.ByContra

/-! # Maps to which keys are only added (C29) -/

namespace Abc.Vmem.Map

open Abc.Vmem.Pages

variable {K V : Type} [LinearOrder K] {D : K → Prop}

/-- The end of a call: the page of the path becomes free. -/
theorem dropPath_spec {m : MCfg K V} {h : Heap (Cell K V)} {depth : Nat} {L : List (K × V)} {pss : Nat → List Nat} {lists : Nat → List (Cell K V)} (ok : m.Ok)
    (t : Tree m D h depth L pss [] lists) (h2 : (pss 2).length ≤ 1) :
    Tree m D (dropPath m h) depth L (upd pss 2 []) (pss 2) (upd lists 2 []) ∧ (dropPath m h).pages = h.pages := by
  have hm := ok.max
  have hv := t.inv
  have hemp0 : isEmpty (h.states 0) = true := by
    cases he : isEmpty (h.states 0) with
    | true => rfl
    | false =>
      have hb : (h.states 0).back ∈ ([] : List Nat) := back_mem hv.free he
      cases hb
  have hown : Own h 3 (pss 2) := (hv.cont 2).own
  obtain ⟨hpages, hlen, hbad, hst, hst3, hfree⟩ : (dropPath m h).pages = h.pages ∧ (dropPath m h).len = h.len ∧ (dropPath m h).bad = h.bad ∧
      (∀ s, s ≠ 0 → s ≠ 3 → (dropPath m h).states s = h.states s) ∧ (dropPath m h).states 3 = CState.new ∧ FreeOk (dropPath m h) (pss 2) := by
    unfold dropPath clear
    rw [canLock_of (by simp; omega), if_neg (by decide)]
    unfold splice
    cases hps : pss 2 with
    | nil =>
      rw [hps] at hown
      rw [if_pos (own_empty hown)]
      refine ⟨rfl, rfl, rfl, fun s _ h3 => setState_ne _ _ h3, setState_same .., FreeOk.empty ?_⟩
      rw [setState_ne _ _ (by decide)]; exact hemp0
    | cons a ps =>
      have hps1 : ps = [] := by rw [hps, List.length_cons] at h2; exact List.eq_nil_of_length_eq_zero (by omega)
      subst hps1
      rw [hps] at hown
      have hne : ¬ isEmpty (h.states 3) = true := by rw [own_nonempty hown (by simp)]; decide
      rw [if_neg hne, if_pos hemp0]
      refine ⟨rfl, rfl, rfl, ?_, setState_same .., FreeOk.chain ?_⟩
      · intro s h0 h3; rw [setState_ne _ _ h3, setState_ne _ _ h0]
      · have hf : (h.states 3).front = a := hown.front
        have hb : (h.states 3).back = a := hown.back
        have ha := hown.nn a (by simp)
        obtain ⟨d1, d2, d3, _⟩ := hown.dl
        have hs0 : ∀ (c1 c2 : CState), ((h.setState 0 c1).setState 3 c2).states 0 = c1 := fun c1 c2 => by rw [setState_ne _ _ (by decide), setState_same]
        refine ⟨?_, by simp, ?_, ?_, by simp⟩
        · rw [hs0]; show (h.states 3).front ≠ nil; rw [hf]; exact ha
        · rw [hs0]; show BChain _ (h.states 3).front (h.states 3).back [a]
          rw [hb]; exact ⟨rfl, ha, d1, Or.inl d2⟩
        · rw [hs0]; show (h.pages (h.states 3).back).next = nil
          rw [hb]; exact d3
  refine ⟨t.move ⟨?_, hfree, ?_, ?_, ?_, ?_, ?_, ?_, by show 2 ≤ (dropPath m h).len; rw [hlen]; exact hv.len, by show (dropPath m h).bad = false; rw [hbad]; exact hv.bad⟩ ?_
    (fun j hj => upd_ne _ _ hj) (fun j hj => upd_ne _ _ hj) (fun j hj q hq => by unfold Same; rw [hpages]; exact ⟨rfl, rfl⟩), hpages⟩
  · intro k
    by_cases hk : k = 2
    · subst hk
      rw [upd_same]
      have e3 : (dropPath m h).states (2 + 1) = CState.new := hst3
      exact ⟨⟨by show ((dropPath m h).states (2 + 1)).front = _; rw [e3]; rfl, by show ((dropPath m h).states (2 + 1)).back = _; rw [e3]; rfl, trivial, List.nodup_nil, fun p hp => by cases hp⟩, fun p hp => by cases hp⟩
    · rw [upd_ne _ _ hk]
      have hc := hv.cont k
      refine ⟨own_congr hc.own (hst (k + 1) (by omega) (by omega)) (fun q _ => by unfold SameLinks; show _ ∧ _; rw [hpages]; exact ⟨rfl, rfl, rfl⟩), ?_⟩
      intro p hp
      show 1 ≤ ((dropPath m h).pages p).count ∧ _
      rw [hpages]; exact hc.cnt p hp
  · intro k q hq hq2
    by_cases hk : k = 2
    · subst hk; rw [upd_same] at hq; cases hq
    · rw [upd_ne _ _ hk] at hq
      exact hv.sep k 2 hk q hq hq2
  · intro k q hq
    by_cases hk : k = 2
    · subst hk; rw [upd_same] at hq; cases hq
    · rw [upd_ne _ _ hk] at hq
      show 2 ≤ q ∧ q < (dropPath m h).len
      rw [hlen]; exact hv.range k q hq
  · intro q hq
    show 2 ≤ q ∧ q < (dropPath m h).len
    rw [hlen]; exact hv.range 2 q hq
  · intro j k hjk q hq hq2
    by_cases hj : j = 2
    · subst hj; rw [upd_same] at hq; cases hq
    · by_cases hk : k = 2
      · subst hk; rw [upd_same] at hq2; cases hq2
      · rw [upd_ne _ _ hj] at hq
        rw [upd_ne _ _ hk] at hq2
        exact hv.sep j k hjk q hq hq2
  · intro k
    show contents (dropPath m h) _ = upd lists 2 [] k
    by_cases hk : k = 2
    · subst hk; rw [upd_same, upd_same]; rfl
    · rw [upd_ne _ _ hk, upd_ne _ _ hk, contents_same (h := h) (fun q _ => by unfold Same; rw [hpages]; exact ⟨rfl, rfl⟩)]
      exact hv.items k
  · intro k
    show ((dropPath m h).states (k + 1)).total = (upd lists 2 [] k).length
    by_cases hk : k = 2
    · subst hk
      have e3 : (dropPath m h).states (2 + 1) = CState.new := hst3
      rw [upd_same, e3]; rfl
    · rw [upd_ne _ _ hk, hst _ (by omega) (by omega)]; exact hv.total k
  · intro q hq j
    rw [hpages]
    rw [hlen] at hq
    exact t.fresh q hq j

/-- A map between two calls. -/
def MInv (m : MCfg K V) (D : K → Prop) (s : MSt K V) (L : List (K × V)) : Prop :=
  ∃ pss fs lists, Tree m D s.heap s.depth L pss fs lists ∧ pss 2 = [] ∧ fs.length ≤ 1 ∧ (s.depth = 0 → fs = [])

theorem MInv.drop {m : MCfg K V} {h : Heap (Cell K V)} {depth : Nat} {L : List (K × V)} {pss : Nat → List Nat} {lists : Nat → List (Cell K V)} (ok : m.Ok)
    (t : Tree m D h depth L pss [] lists) (h2 : (pss 2).length ≤ 1) (h0 : depth = 0 → pss 2 = []) : MInv m D ⟨dropPath m h, depth⟩ L :=
  ⟨_, _, _, (dropPath_spec ok t h2).1, upd_same _ _ _, h2, h0⟩

omit [LinearOrder K] in
theorem seen_of {m : MCfg K V} {h : Heap (Cell K V)} {p i : Nat} (ok : m.Ok) (hp : p ≠ nil) (hi : i < nilItem) : seen m h ⟨p, i, .none⟩ = some ((h.pages p).items i) := by
  have hm := ok.max
  unfold seen canDeref deref
  rw [canLock_of (by simp; omega)]
  simp [hp, show i ≠ nilItem by omega]

omit [LinearOrder K] in
theorem seen_end (m : MCfg K V) (h : Heap (Cell K V)) (s : CState) : seen m h (cend s) = none := by
  unfold seen canDeref cend
  simp

theorem find?_some {L La Lb : List (K × V)} {key : K} {v : V} (h : L = La ++ (key, v) :: Lb) (hl : ∀ e ∈ La, e.1 < key) : L.find? (fun e => e.1 = key) = some (key, v) := by
  rw [h, List.find?_append, List.find?_eq_none.2 (fun e he => by simpa using ne_of_lt (hl e he))]
  simp

theorem find?_none {L La Lb : List (K × V)} {key : K} (h : L = La ++ Lb) (hl : ∀ e ∈ La, e.1 < key) (hr : ∀ e ∈ Lb, key < e.1) : L.find? (fun e => e.1 = key) = none := by
  rw [List.find?_eq_none]
  intro e he
  rw [h] at he
  rcases List.mem_append.1 he with he | he
  · simpa using ne_of_lt (hl e he)
  · simpa using ne_of_gt (hr e he)

theorem find_spec {m : MCfg K V} {s : MSt K V} {L : List (K × V)} {key : K} (ok : m.Ok) (hsp : m.spare = true) (v : MInv m D s L) (hcp : s.depth ≤ m.capP)
    (hz : ∀ e ∈ L, m.zeroKey ≤ e.1) (hD : ¬ D key) :
    m.limit ≤ (s.find m key).1.heap.len ∨ nilItem < (s.find m key).1.heap.len ∨
      (MInv m D (s.find m key).1 L ∧ seen m (s.find m key).1.heap (s.find m key).2 = (L.find? (fun e => e.1 = key)).map cellOf) := by
  obtain ⟨pss, fs, lists, t, h2, hfs, hfs0⟩ := v
  unfold MSt.find
  simp only
  rw [dropPath_len]
  rcases find2_spec (key := key) ok hsp t h2 hfs hfs0 hcp hz hD with hfail | hfail | ⟨pss', lists', o⟩
  · exact Or.inl hfail
  · exact Or.inr (Or.inl hfail)
  · right; right
    generalize find2 m s.heap s.depth key = f at *
    refine ⟨MInv.drop ok o.tree o.path2 o.path0, ?_⟩
    have hpages := (dropPath_spec ok o.tree o.path2).2
    rcases o.res with ⟨_, _, hL, _, hok⟩ | ⟨as, p, bs, i, La, Lb, e0, _, hv, hitr, hok, _⟩
    · rw [hok, hL]
      exact seen_end ..
    · have hpn : p ≠ nil := (o.tree.inv.cont 0).own.nn p (by rw [e0]; simp)
      rcases hv.res with ⟨hk, hi, v, Lb', hLb, hit⟩ | ⟨hk, hgt⟩
      · rw [hok, decide_eq_true hk, if_pos rfl, hitr, find?_some (by rw [hv.split, hLb]) hv.less]
        have hcap : (f.heap.pages p).count ≤ m.capV := ((o.tree.inv.cont 0).cnt p (by rw [e0]; simp)).2
        have := ok.capV
        rw [seen_of ok hpn (by omega), hpages, hit]; rfl
      · rw [hok, decide_eq_false hk, find?_none hv.split hv.less hgt]
        exact seen_end ..

/-- What an insertion of a key does to the pairs. -/
def Added (L L' : List (K × V)) (k : K) (v : V) : Prop := ∃ La Lb, L = La ++ Lb ∧ L' = La ++ (k, v) :: Lb

theorem insert_spec {m : MCfg K V} {s : MSt K V} {L : List (K × V)} {key : K} {val : V} (ok : m.Ok) (hsp : m.spare = true) (v : MInv m D s L) (hcp : s.depth ≤ m.capP)
    (hcs : s.depth < m.capS) (hz : ∀ e ∈ L, m.zeroKey ≤ e.1) (hD : ¬ D key) (hmin : ∀ e ∈ L.head?, e.1 ≤ key) :
    m.limit ≤ (s.insert m key val).1.heap.len ∨ nilItem < (s.insert m key val).1.heap.len ∨ ∃ L', MInv m D (s.insert m key val).1 L' ∧
      (match L.find? (fun e => e.1 = key) with
        | some e => L' = L ∧ (s.insert m key val).2.2 = false ∧ seen m (s.insert m key val).1.heap (s.insert m key val).2.1 = some (cellOf e)
        | none => Added L L' key val ∧ (s.insert m key val).2.2 = true ∧ seen m (s.insert m key val).1.heap (s.insert m key val).2.1 = some (.val key val)) := by
  obtain ⟨pss, fs, lists, t, h2, hfs, hfs0⟩ := v
  have hm := ok.max
  have hfl := find2_spec (key := key) ok hsp t h2 hfs hfs0 hcp hz hD
  unfold MSt.insert
  simp only
  generalize find2 m s.heap s.depth key = f at *
  have mono : ∀ (B : Nat), B ≤ f.heap.len → B ≤ (if f.ok = true then ((⟨dropPath m f.heap, s.depth⟩ : MSt K V), f.itr, false)
      else match insert2 (allCfg m m.capV) [] f.heap 1 f.itr (.val key val) with
        | none => (⟨dropPath m (f.heap.check false), s.depth⟩, noItr, false)
        | some r => (⟨dropPath m (updateInsert m r.heap s.depth f.path r.lead0 r.lead1).heap, (updateInsert m r.heap s.depth f.path r.lead0 r.lead1).depth⟩,
            if (updateInsert m r.heap s.depth f.path r.lead0 r.lead1).ok then r.itr.getD noItr else noItr, (updateInsert m r.heap s.depth f.path r.lead0 r.lead1).ok)).1.heap.len := by
    intro B hB
    split
    · show B ≤ (dropPath m f.heap).len
      rw [dropPath_len]; exact hB
    · split
      · show B ≤ (dropPath m (f.heap.check false)).len
        rw [dropPath_len]; exact hB
      · rename_i r e
        show B ≤ (dropPath m (updateInsert m r.heap s.depth f.path r.lead0 r.lead1).heap).len
        rw [dropPath_len]
        exact Nat.le_trans hB (Nat.le_trans (insert2_len e) (updateInsert_len ..).1)
  rcases hfl with hfail | hfail | ⟨pss', lists', o⟩
  · exact Or.inl (mono _ hfail)
  · exact Or.inr (Or.inl (mono _ hfail))
  rcases o.res with ⟨hd, hp0, hL, hitr, hok⟩ | ⟨as, p, bs, i, La, Lb, e0, hle, hv, hitr, hok, hu⟩
  · -- the map is empty
    rw [hok, if_neg (by decide), hitr]
    have hl0 : lists' 0 = [] := by rw [o.tree.vals, hL]; rfl
    have hcv := ok.capV
    have hback : (f.heap.states 1).back = nil := by
      have := (o.tree.inv.cont 0).own.back
      rw [hp0] at this; exact this
    obtain ⟨r, hr, ho⟩ := pushOut (k := 0) (e := .none) (held := []) (x := .val key val) o.tree.inv o.tree.fresh (by rw [hp0]; simp) (by simp) (fun hne => absurd hp0 hne)
      (by rw [hl0]; show 0 < m.capV; omega) hcv.2 (by simp; omega) ok.log ok.limit
    have hr' : insert2 (allCfg m m.capV) [] f.heap 1 noItr (.val key val) = some r := by
      rw [show noItr = ⟨nil, nilItem, .none⟩ from rfl, ← hback]; exact hr
    rw [hr']
    simp only
    rcases ho with ⟨h1, h3, _⟩ | ⟨a, o1⟩
    · left
      rw [dropPath_len]
      refine Nat.le_trans ?_ (updateInsert_len ..).1
      rw [h3]; exact h1
    · right; right
      have hup : updateInsert m r.heap s.depth f.path r.lead0 r.lead1 = ⟨r.heap, s.depth, true⟩ := by
        unfold updateInsert
        rw [o1.lead.1, o1.lead.2, if_pos ⟨rfl, rfl⟩]
      rw [hup]
      simp only
      subst hL
      have hpn : a ≠ nil := (o1.inv.cont 0).own.nn a (by rw [upd_same]; simp)
      have halen : f.heap.len ≤ a := by
        rcases o1.isNew hp0 with h1 | h1
        · cases h1
        · exact h1
      have hjd : ∀ {j}, s.depth < j → idx j ≠ 0 := fun hj => idx_pos (by omega)
      have hstale : Stale D r.heap [a] := by
        intro q hq j hj
        rw [List.mem_singleton] at hq
        subst hq
        left
        have hc1 : 1 ≤ (r.heap.pages q).count := ((o1.inv.cont 0).cnt q (by rw [upd_same]; simp)).1
        rw [o1.firstNew hp0]
        unfold shiftIn
        rw [if_neg (by omega), if_neg (by omega)]
        exact o.tree.fresh q halen j
      have t1 : Tree m D r.heap s.depth [(key, val)] (upd pss' 0 [a]) [] (upd lists' 0 (lists' 0 ++ [.val key val])) := by
        refine ⟨o1.inv, by rw [upd_same, hl0]; rfl, List.pairwise_singleton _ _, by rw [upd_ne _ _ (by decide)]; exact o.tree.stack, by rw [upd_ne _ _ (by decide)]; exact o.tree.stackp,
          fun j hj => by rw [upd_ne _ _ (hjd hj)]; exact o.tree.above j hj, by rw [upd_same]; exact hstale, o1.fresh, fun j hj => by omega, ?_, fun h => by omega⟩
        rw [hd]; rw [show idx 0 = 0 from rfl, upd_same]; simp
      have hp2 : (upd pss' 0 [a]) 2 = pss' 2 := upd_ne _ _ (by decide)
      refine ⟨[(key, val)], MInv.drop ok t1 (by rw [hp2]; exact o.path2) (fun h => by rw [hp2]; exact o.path0 h), ⟨[], [], rfl, rfl⟩, trivial, ?_⟩
      obtain ⟨k', hi, hx, hk'⟩ := o1.itr
      rw [if_pos trivial, hi]
      show seen m _ ⟨a, k', .none⟩ = _
      rw [seen_of ok hpn hk', (dropPath_spec ok t1 (by rw [hp2]; exact o.path2)).2, hx]
  · have hpm : p ∈ pss' 0 := by rw [e0]; simp
    have hpn : p ≠ nil := (o.tree.inv.cont 0).own.nn p hpm
    have hcv := ok.capV
    have hcap : (f.heap.pages p).count ≤ m.capV := ((o.tree.inv.cont 0).cnt p hpm).2
    have hpages := (dropPath_spec ok o.tree o.path2).2
    rcases hv.res with ⟨hk, hi, v, Lb', hLb, hit⟩ | ⟨hk, hgt⟩
    · -- the key is there
      right; right
      rw [hok, decide_eq_true hk, if_pos rfl, find?_some (by rw [hv.split, hLb]) hv.less]
      refine ⟨L, MInv.drop ok o.tree o.path2 o.path0, rfl, rfl, ?_⟩
      simp only
      rw [hitr, seen_of ok hpn (by omega), hpages, hit]; rfl
    · rw [hok, decide_eq_false hk, if_neg (by decide), hitr, find?_none hv.split hv.less hgt]
      have hcnt1 : 1 ≤ (f.heap.pages p).count := ((o.tree.inv.cont 0).cnt p hpm).1
      -- not before the first item of the page
      have hi1 : 1 ≤ i := by
        by_contra hc
        have hi0 : i = 0 := by omega
        subst hi0
        obtain ⟨rest, hrest⟩ := pageItems_cons hcnt1
        have haft := hv.after
        rw [List.drop_zero, hrest, List.cons_append] at haft
        cases Lb with
        | nil => cases haft
        | cons b Lb' =>
          rw [List.map_cons] at haft
          have hb : (f.heap.pages p).items 0 = cellOf b := (List.cons.inj haft).1
          have hfk : fk m f.heap p = b.1 := by
            show leadKey m (some ((f.heap.pages p).items 0)) = _
            rw [hb]; rfl
          have hlt := hgt b (by simp)
          rcases hle with ha | hle
          · have hbef := hv.before
            rw [ha, contents_nil, List.take_zero, List.append_nil] at hbef
            have hLa : La = [] := List.map_eq_nil_iff.1 hbef.symm
            have := hmin b (by rw [hv.split, hLa]; rfl)
            exact absurd hlt (not_lt.2 this)
          · rw [hfk] at hle; exact absurd hlt (not_lt.2 hle)
      obtain ⟨r, hr, ho⟩ := insOut (held := []) (x := .val key val) o.tree.inv o.tree.fresh (show cfgs m 0 = allCfg m m.capV from rfl) e0 hv.le hi1 hcv (by simp; omega) ok.log ok.limit
      have hr' : insert2 (allCfg m m.capV) [] f.heap 1 ⟨p, i, .none⟩ (.val key val) = some r := hr
      rw [hr']
      simp only
      rcases ho with ⟨h1, h3⟩ | ⟨new, oi⟩
      · left
        rw [dropPath_len]
        refine Nat.le_trans ?_ (updateInsert_len ..).1
        rw [h3]; exact h1
      obtain ⟨pss2, lists2, hpo, hp00, hcase⟩ := value_inserted o.tree e0 hv hgt oi
      obtain ⟨ti, k', hri, hti, hx, hk'⟩ := oi.itr
      have hadd : Added L (La ++ (key, val) :: Lb) key val := ⟨La, Lb, hv.split, rfl⟩
      have hp2 : pss2 2 = pss' 2 := hpo 2 (by decide)
      have hti2 : ti ∈ pss2 0 := by
        rw [hp00]
        rcases hti with h1 | h1
        · rw [h1]; simp
        · simp [h1]
      rcases hcase with ⟨hnew, t1⟩ | ⟨n, hnew, g⟩
      · -- no new page
        right; right
        have hleads : r.lead0 = .default ∧ r.lead1 = .default := by
          rcases oi.leads with ⟨_, h1, h2⟩ | ⟨n, h1, _⟩
          · exact ⟨h1, h2⟩
          · rw [hnew] at h1; cases h1
        have hup : updateInsert m r.heap s.depth f.path r.lead0 r.lead1 = ⟨r.heap, s.depth, true⟩ := by
          unfold updateInsert
          rw [hleads.1, hleads.2, if_pos ⟨rfl, rfl⟩]
        rw [hup]
        simp only
        refine ⟨_, MInv.drop ok t1 (by rw [hp2]; exact o.path2) (fun h => by rw [hp2]; exact o.path0 h), hadd, trivial, ?_⟩
        rw [if_pos trivial, hri]
        show seen m _ ⟨ti, k', .none⟩ = _
        rw [seen_of ok ((t1.inv.cont 0).own.nn ti hti2) hk', (dropPath_spec ok t1 (by rw [hp2]; exact o.path2)).2, hx]
      · have hleads : r.lead0 = leadNew r.heap n ∧ r.lead1 = leadOld r.heap p := by
          rcases oi.leads with ⟨h1, _⟩ | ⟨n', h1, h2, h3⟩
          · rw [hnew] at h1; cases h1
          · rw [hnew] at h1
            have := (List.cons.inj h1).1
            rw [this]
            exact ⟨h2, h3⟩
        rw [hleads.1, hleads.2]
        have hu' : Up r.heap pss2 s.depth 0 p f.path.reverse :=
          hu.same (fun j hj => hpo _ (idx_pos (by omega))) (fun j hj q hq => oi.same o.tree.inv hpm (idx_pos (by omega)) hq)
        have hplen : s.depth = f.path.length := by have := hu.length; rw [List.length_reverse] at this; omega
        have hun : updateInsert m r.heap s.depth f.path (leadNew r.heap n) (leadOld r.heap p) =
            (let u := upInsert m 0 f.path.reverse r.heap (leadNew r.heap n) (leadOld r.heap p)
             if u.2.1 = false then ⟨u.1, s.depth, false⟩
             else if u.2.2.1.page ≠ nil then newLevel m u.1 s.depth u.2.2.1 u.2.2.2
             else ⟨u.1, s.depth, true⟩) := by
          unfold updateInsert
          rw [if_neg (by rintro ⟨h1, _⟩; cases h1), if_neg (by omega)]
        have hmono := updateInsert_len m r.heap s.depth f.path (leadNew r.heap n) (leadOld r.heap p)
        have hmid : (upInsert m 0 f.path.reverse r.heap (leadNew r.heap n) (leadOld r.heap p)).1.len ≤ (updateInsert m r.heap s.depth f.path (leadNew r.heap n) (leadOld r.heap p)).heap.len := by
          rw [hun]
          simp only
          split
          · exact Nat.le_refl _
          · split
            · exact (newLevel_len ..).1
            · exact Nat.le_refl _
        rcases upInsert_spec ok f.path.reverse 0 r.heap pss2 lists2 as bs p n g hu' with hfail | ⟨h3, pss3, lists3, a, b, e3, hkeep, hres⟩
        · left
          rw [dropPath_len]
          exact Nat.le_trans hfail hmid
        have hk0 := hkeep 0 (fun i hi => Ne.symm (idx_pos (by omega)))
        have hk2 := hkeep 2 (fun i hi => Ne.symm (idx_ne2 i))
        rw [e3] at hun
        simp only at hun
        rw [if_neg (by decide)] at hun
        have finish : ∀ (h4 : Heap (Cell K V)) (d4 : Nat) (pss4 : Nat → List Nat) (lists4 : Nat → List (Cell K V)), updateInsert m r.heap s.depth f.path (leadNew r.heap n) (leadOld r.heap p) = ⟨h4, d4, true⟩ →
            s.depth ≤ d4 → Tree m D h4 d4 (La ++ (key, val) :: Lb) pss4 [] lists4 → pss4 2 = pss' 2 → (∀ q ∈ pss2 0, Same r.heap h4 q) → pss4 0 = pss2 0 →
            ∃ L', MInv m D ⟨dropPath m h4, d4⟩ L' ∧ (Added L L' key val ∧ true = true ∧ seen m (dropPath m h4) (if true = true then r.itr.getD noItr else noItr) = some (.val key val)) := by
          intro h4 d4 pss4 lists4 _ hd4 t4 hp42 hs4 hp40
          refine ⟨_, MInv.drop ok t4 (by rw [hp42]; exact o.path2) (fun h => by rw [hp42]; exact o.path0 (by omega)), hadd, rfl, ?_⟩
          rw [if_pos rfl, hri]
          show seen m _ ⟨ti, k', .none⟩ = _
          rw [seen_of ok ((t4.inv.cont 0).own.nn ti (by rw [hp40]; exact hti2)) hk', (dropPath_spec ok t4 (by rw [hp42]; exact o.path2)).2, (hs4 ti hti2).2, hx]
        rcases hres with ⟨ha, hb, t3⟩ | ⟨p', n', ha, hb, hn', g3⟩
        · right; right
          rw [ha, if_neg (by show ¬ nil ≠ nil; simp)] at hun
          have := finish h3 s.depth pss3 lists3 hun (Nat.le_refl _) t3 (hk2.1.trans hp2) hk0.2 hk0.1
          rw [hun]
          exact this
        · rw [ha, hb, if_pos (by exact hn')] at hun
          rcases newLevel_spec ok g3 hcs with hfail | ⟨h4, pss4, lists4, e4, hkeep4, t4⟩
          · left
            rw [dropPath_len, hun]
            exact hfail
          · right; right
            rw [e4] at hun
            have hk40 := hkeep4 0 (by decide) (Ne.symm (idx_pos (by omega)))
            have hk42 := hkeep4 2 (by decide) (Ne.symm (idx_ne2 _))
            have := finish h4 (s.depth + 1) pss4 lists4 hun (by omega) t4 (hk42.1.trans (hk2.1.trans hp2)) (fun q hq => by
              have s1 := hk0.2 q hq
              have s2 := hk40.2 q (by rw [hk0.1]; exact hq)
              exact ⟨s2.1.trans s1.1, s2.2.trans s1.2⟩) (hk40.1.trans hk0.1)
            rw [hun]
            exact this

/-- The keys that are inserted. -/
def insKeys : List (MOp K V) → List K
  | [] => []
  | .insert k _ :: os => k :: insKeys os
  | _ :: os => insKeys os

theorem sorted_unique : ∀ {L : List (K × V)}, L.Pairwise (fun a b => a.1 < b.1) → ∀ a ∈ L, ∀ b ∈ L, a.1 = b.1 → a = b := by
  intro L hL
  induction L with
  | nil => intro a ha; cases ha
  | cons x L ih =>
    rw [List.pairwise_cons] at hL
    intro a ha b hb hab
    rcases List.mem_cons.1 ha with ea | ha' <;> rcases List.mem_cons.1 hb with eb | hb'
    · rw [ea, eb]
    · exact absurd hab (ne_of_lt (ea ▸ hL.1 b hb'))
    · exact absurd hab.symm (ne_of_lt (eb ▸ hL.1 a ha'))
    · exact ih hL.2 a ha' b hb' hab

theorem find?_perm {L t : List (K × V)} {k : K} (hL : L.Pairwise (fun a b => a.1 < b.1)) (hp : L.Perm t) : t.find? (fun e => e.1 = k) = L.find? (fun e => e.1 = k) := by
  have huniq := sorted_unique hL
  cases hf : L.find? (fun e => e.1 = k) with
  | none =>
    rw [List.find?_eq_none] at hf ⊢
    intro e he
    exact hf e (hp.mem_iff.2 he)
  | some e =>
    have he := List.mem_of_find?_eq_some hf
    have hek : e.1 = k := by simpa using List.find?_some hf
    cases hf2 : t.find? (fun e => e.1 = k) with
    | none =>
      rw [List.find?_eq_none] at hf2
      exact absurd hek (by simpa using hf2 e (hp.mem_iff.1 he))
    | some e' =>
      have he' := hp.mem_iff.2 (List.mem_of_find?_eq_some hf2)
      have hek' : e'.1 = k := by simpa using List.find?_some hf2
      rw [huniq e' he' e he (hek'.trans hek.symm)]

theorem MInv.sorted {m : MCfg K V} {s : MSt K V} {L : List (K × V)} (v : MInv m D s L) : L.Pairwise (fun a b => a.1 < b.1) := by
  obtain ⟨_, _, _, t, _⟩ := v
  exact t.sorted

theorem run_spec {m : MCfg K V} (ok : m.Ok) (hsp : m.spare = true) : ∀ (os : List (MOp K V)) (s : MSt K V) (L t : List (K × V)), (∀ o ∈ os, o.keeps = true) → MInv m (fun _ => False) s L → L.Perm t →
    (∀ e ∈ L, m.zeroKey ≤ e.1) → (∀ k ∈ insKeys os, m.zeroKey ≤ k) → (∀ e ∈ L.head?, ∀ k ∈ insKeys os, e.1 ≤ k) → (L = [] → ∀ k0 ∈ (insKeys os).head?, ∀ k ∈ insKeys os, k0 ≤ k) →
    (s.run m os).1.heap.len < m.limit → (s.run m os).1.heap.len ≤ nilItem → (s.run m os).1.depth < m.capS → (s.run m os).1.depth ≤ m.capP →
    ∃ L', MInv m (fun _ => False) (s.run m os).1 L' ∧ L'.Perm (spec t os).1 ∧ (s.run m os).2 = (spec t os).2 := by
  intro os
  induction os with
  | nil => intro s L t _ v hp _ _ _ _ _ _ _ _; exact ⟨L, v, hp, rfl⟩
  | cons o os ih =>
    intro s L t hk v hp hz hzk hmin hfirst h1 h2 h3 h4
    have hrest := run_len m os (s.step m o).1 (fun o' ho => hk o' (by simp [ho]))
    have hr : (s.run m (o :: os)).1 = ((s.step m o).1.run m os).1 := rfl
    have hr2 : (s.run m (o :: os)).2 = (s.step m o).2 :: ((s.step m o).1.run m os).2 := rfl
    rw [hr] at h1 h2 h3 h4 ⊢
    rw [hr2]
    cases o with
    | erase k => have := hk (.erase k) (by simp); cases this
    | find k =>
      have hst : s.step m (.find k) = ((s.find m k).1, .found (seen m (s.find m k).1.heap (s.find m k).2)) := rfl
      rw [hst] at hrest h1 h2 h3 h4 ⊢
      replace hrest : (s.find m k).1.heap.len ≤ ((s.find m k).1.run m os).1.heap.len ∧ (s.find m k).1.depth ≤ ((s.find m k).1.run m os).1.depth := hrest
      replace h1 : ((s.find m k).1.run m os).1.heap.len < m.limit := h1
      replace h2 : ((s.find m k).1.run m os).1.heap.len ≤ nilItem := h2
      replace h3 : ((s.find m k).1.run m os).1.depth < m.capS := h3
      replace h4 : ((s.find m k).1.run m os).1.depth ≤ m.capP := h4
      have hd := (find_len m s k).2
      rcases find_spec (key := k) ok hsp v (by omega) hz id with hf | hf | ⟨v', hseen⟩
      · omega
      · omega
      · obtain ⟨L', v'', hp', ha⟩ := ih (s.find m k).1 L t (fun o' ho => hk o' (by simp [ho])) v' hp hz hzk hmin hfirst h1 h2 h3 h4
        refine ⟨L', v'', hp', ?_⟩
        show _ :: _ = _ :: _
        rw [ha, hseen, find?_perm v.sorted hp]
        rfl
    | insert k x =>
      have hst : s.step m (.insert k x) = ((s.insert m k x).1, .inserted (s.insert m k x).2.2 (seen m (s.insert m k x).1.heap (s.insert m k x).2.1)) := rfl
      rw [hst] at hrest h1 h2 h3 h4 ⊢
      replace hrest : (s.insert m k x).1.heap.len ≤ ((s.insert m k x).1.run m os).1.heap.len ∧ (s.insert m k x).1.depth ≤ ((s.insert m k x).1.run m os).1.depth := hrest
      replace h1 : ((s.insert m k x).1.run m os).1.heap.len < m.limit := h1
      replace h2 : ((s.insert m k x).1.run m os).1.heap.len ≤ nilItem := h2
      replace h3 : ((s.insert m k x).1.run m os).1.depth < m.capS := h3
      replace h4 : ((s.insert m k x).1.run m os).1.depth ≤ m.capP := h4
      have hd := (insert_len m s k x).2
      have hkz := hzk k (by simp [insKeys])
      rcases insert_spec (key := k) (val := x) ok hsp v (by omega) (by omega) hz id (fun e he => hmin e he k (by simp [insKeys])) with hf | hf | ⟨L1, v', hres⟩
      · omega
      · omega
      · have hfind := find?_perm (k := k) v.sorted hp
        cases hL : L.find? (fun e => e.1 = k) with
        | some e =>
          rw [hL] at hres hfind
          obtain ⟨rfl, hb, hseen⟩ := hres
          have hne : L1 = [] → ∀ k0 ∈ (insKeys os).head?, ∀ k' ∈ insKeys os, k0 ≤ k' := by
            intro hnil
            rw [hnil] at hL
            cases hL
          obtain ⟨L', v'', hp', ha⟩ := ih (s.insert m k x).1 L1 t (fun o' ho => hk o' (by simp [ho])) v' hp hz (fun k' hk' => hzk k' (by simp [insKeys, hk']))
            (fun e he k' hk' => hmin e he k' (by simp [insKeys, hk'])) hne h1 h2 h3 h4
          refine ⟨L', v'', ?_, ?_⟩
          · unfold spec; rw [hfind]; exact hp'
          · unfold spec; rw [hfind]; simp only; rw [ha, hb, hseen]; rfl
        | none =>
          rw [hL] at hres hfind
          obtain ⟨⟨La, Lb, e1, e2⟩, hb, hseen⟩ := hres
          have hp1 : L1.Perm (t ++ [(k, x)]) := by
            rw [e2]
            refine List.Perm.trans List.perm_middle ?_
            rw [← e1]
            exact List.Perm.trans (List.Perm.cons _ hp) (List.perm_append_singleton _ _).symm
          have hs1 := v'.sorted
          have hz1 : ∀ e ∈ L1, m.zeroKey ≤ e.1 := by
            intro e he
            rw [e2] at he
            rcases List.mem_append.1 he with h | h
            · exact hz e (by rw [e1]; simp [h])
            · rcases List.mem_cons.1 h with h | h
              · rw [h]; exact hkz
              · exact hz e (by rw [e1]; simp [h])
          have hmin1 : ∀ e ∈ L1.head?, ∀ k' ∈ insKeys os, e.1 ≤ k' := by
            intro e he k' hk'
            cases La with
            | cons a La =>
              rw [e2] at he
              exact hmin e (by rw [e1]; exact he) k' (by simp [insKeys, hk'])
            | nil =>
              have hek : e = (k, x) := by
                rw [e2] at he
                simpa using he.symm
              cases Lb with
              | nil =>
                rw [hek]
                exact hfirst (by simpa using e1) k (by simp [insKeys]) k' (by simp [insKeys, hk'])
              | cons b Lb =>
                have h1 : b.1 ≤ k := hmin b (by rw [e1]; simp) k (by simp [insKeys])
                rw [e2] at hs1
                have h2 : k < b.1 := by
                  have := List.rel_of_pairwise_cons hs1 (List.mem_cons_self (a := b) (l := Lb))
                  exact this
                exact absurd h2 (not_lt.2 h1)
          have hne : L1 = [] → ∀ k0 ∈ (insKeys os).head?, ∀ k' ∈ insKeys os, k0 ≤ k' := by
            intro hnil
            rw [hnil] at e2
            simp at e2
          obtain ⟨L', v'', hp', ha⟩ := ih (s.insert m k x).1 L1 (t ++ [(k, x)]) (fun o' ho => hk o' (by simp [ho])) v' hp1 hz1 (fun k' hk' => hzk k' (by simp [insKeys, hk']))
            hmin1 hne h1 h2 h3 h4
          refine ⟨L', v'', ?_, ?_⟩
          · unfold spec; rw [hfind]; exact hp'
          · unfold spec; rw [hfind]; simp only; rw [ha, hb, hseen]

theorem MInv.init (m : MCfg K V) : MInv m (fun _ => False) .init [] := by
  refine ⟨fun _ => [], [], fun _ => [], ⟨cInv_init (cfgs m) (Cell.zero (K := K) (V := V)), rfl, List.Pairwise.nil, rfl, by simp, fun _ _ => rfl, ?_, ?_, ?_, by simp, ?_⟩, rfl, by simp, fun _ => rfl⟩
  · intro p hp; cases hp
  · intro q _ j; rfl
  · intro j hj; exact absurd hj (Nat.not_lt_zero _)
  · intro h; exact absurd h (Nat.lt_irrefl _)

/-- C29, in a map whose first key stays the smallest: as long as the file has room, the pages have room after
their items, and the tree is not too deep for the path stack, insertions and lookups in any order answer as the
list of elements would, `size()` is its length, and iterating shows each element once with increasing keys.
Missing from the whole claim: smaller keys later on, keys that are smaller than the key of a new page, and full
pages at the very end of memory. Each of them is a violation. -/
theorem C29_min_first_partial (m : MCfg K V) (ok : m.Ok) (hsp : m.spare = true) (os : List (MOp K V)) (hk : ∀ o ∈ os, o.keeps = true)
    (hzero : ∀ k v, .insert k v ∈ os → m.zeroKey ≤ k)
    (hfirst : ∀ pre k v rest, os = pre ++ .insert k v :: rest → (∀ k' v', .insert k' v' ∉ pre) → ∀ k' v', .insert k' v' ∈ rest → k ≤ k')
    (hroom : (MSt.run m .init os).1.heap.len < m.limit) (hnil : (MSt.run m .init os).1.heap.len ≤ nilItem)
    (hstack : (MSt.run m .init os).1.depth < m.capS) (hpath : (MSt.run m .init os).1.depth ≤ m.capP) : Behaves m os := by
  have hmem : ∀ (l : List (MOp K V)) k, k ∈ insKeys l → ∃ v, .insert k v ∈ l := by
    intro l
    induction l with
    | nil => intro k h; cases h
    | cons o l ih =>
      intro k h
      cases o with
      | insert k' v' =>
        rcases List.mem_cons.1 (show k ∈ k' :: insKeys l from h) with rfl | h
        · exact ⟨v', by simp⟩
        · obtain ⟨v, hv⟩ := ih k h; exact ⟨v, by simp [hv]⟩
      | erase k' => obtain ⟨v, hv⟩ := ih k h; exact ⟨v, by simp [hv]⟩
      | find k' => obtain ⟨v, hv⟩ := ih k h; exact ⟨v, by simp [hv]⟩
  have hsplit : ∀ l : List (MOp K V), (∀ pre k v rest, l = pre ++ .insert k v :: rest → (∀ k' v', .insert k' v' ∉ pre) → ∀ k' v', .insert k' v' ∈ rest → k ≤ k') →
      ∀ k0 ∈ (insKeys l).head?, ∀ k ∈ insKeys l, k0 ≤ k := by
    intro l
    induction l with
    | nil => intro _ k0 h; cases h
    | cons o l ih =>
      intro hl k0 h0 k h
      cases o with
      | insert k' v' =>
        have e0 : k' = k0 := by simpa [insKeys] using h0
        subst e0
        rcases List.mem_cons.1 (show k ∈ k' :: insKeys l from h) with rfl | h
        · exact le_rfl
        · obtain ⟨v, hv⟩ := hmem l k h
          exact hl [] k' v' l rfl (by simp) k v hv
      | erase k' => exact ih (fun pre k v rest e hp => hl (.erase k' :: pre) k v rest (by rw [e]; rfl) (by simpa using hp)) k0 h0 k h
      | find k' => exact ih (fun pre k v rest e hp => hl (.find k' :: pre) k v rest (by rw [e]; rfl) (by simpa using hp)) k0 h0 k h
  obtain ⟨L, v, hp, ha⟩ := run_spec ok hsp os .init [] [] hk (MInv.init m) (List.Perm.refl _) (by simp) (fun k h => by obtain ⟨x, hx⟩ := hmem os k h; exact hzero k x hx)
    (by simp) (fun _ => hsplit os hfirst) hroom hnil hstack hpath
  obtain ⟨pss, fs, lists, t, _⟩ := v
  have hbad : (MSt.run m .init os).1.heap.bad = false := t.inv.bad
  have htot : ((MSt.run m .init os).1.heap.states 1).total = (lists 0).length := t.inv.total 0
  have hcont : contents (MSt.run m .init os).1.heap (pss 0) = lists 0 := t.inv.items 0
  have c : Cont m.capV (MSt.run m .init os).1.heap 1 (pss 0) := t.inv.cont 0
  refine ⟨hbad, ha, ?_, L, t.sorted, fun e => hp.mem_iff, ?_⟩
  · rw [htot, t.vals, List.length_map, hp.length_eq]
  · have h0 := at_begin c
    have hw := cwalk_at (max := m.max) (held := []) c ok.capV.2 (by have := ok.max; simp; omega) _ _ _ 1 h0
    rw [hcont, t.vals, List.length_map, List.map_map] at hw
    exact hw

/-- 30 keys, each larger than the first, in no order, with pages of four items: two levels of keys. -/
def mixedOps : List (MOp Nat Nat) := (List.range 30).flatMap (fun i => [.insert (i * 7 % 31 + 2) i, .find (i * 5 % 31 + 2), .insert 9 0])

example : Behaves (smallCfg 0 4 true) mixedOps :=
  C29_min_first_partial (smallCfg 0 4 true) (smallCfg_ok 0 true) rfl mixedOps (by decide +kernel) (fun _ _ _ => Nat.zero_le _)
    (by
      intro pre k v rest e hpre k' v' hk'
      cases pre with
      | nil =>
        have h0 : mixedOps = .insert 2 0 :: mixedOps.tail := rfl
        rw [h0] at e
        injection e with e1 e2
        injection e1 with e3 _
        rw [← e3]
        have hall : ∀ o ∈ mixedOps.tail, (match o with | .insert k _ => decide (2 ≤ k) | _ => true) = true := by decide +kernel
        have := hall _ (by rw [e2]; exact hk')
        simpa using this
      | cons o pre =>
        have h0 : mixedOps = .insert 2 0 :: mixedOps.tail := rfl
        rw [h0] at e
        injection e with e1 _
        exact absurd (by rw [← e1]; exact List.mem_cons_self) (hpre 2 0))
    (by decide +kernel) (by decide +kernel) (by decide +kernel) (by decide +kernel)

end Abc.Vmem.Map
