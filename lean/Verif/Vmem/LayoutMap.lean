import Verif.Vmem.Layout
import Verif.Vmem.MapClear

/-! # Which types of keys and values a map works with

The capacities of the pages of a map follow from the sizes of its keys and values (`Layout`).  This file connects
them with what is proved about maps (`MapProps`, `MapSmall`), and shows for which accepted sizes maps do not work. -/

namespace Abc.Vmem.Layout

open Abc.Vmem.Pages Abc.Vmem.Map

variable {K V : Type} [LinearOrder K]

/-- The parameters of a map with keys of `k` and values of `v` bytes, `x/vmem_map.x.h` 76-110: its value pages,
its key pages, the stack of key levels (`vmem_container_state`), and the path (`vmem_page_pos_t`, `i/vmem_map.i.h`
259-267).  `spare`: whether a key fits on a value page behind the last value. -/
def mapCfg (k v max limit : Nat) (log : Bool) (zeroKey : K) (junk : Cell K V → K) : MCfg K V where
  max := max
  limit := limit
  log := log
  capV := pageCapacity noHeader (mapValueSize k v)
  capK := pageCapacity noHeader (mapKeySize k)
  capS := pageCapacity noHeader stateSize
  capP := pageCapacity noHeader posSize
  spare := decide (slot noHeader (mapValueSize k v) (pageCapacity noHeader (mapValueSize k v)) + k ≤ pageSize)
  zeroKey := zeroKey
  junk := junk

theorem capacity_eq (s : Nat) : pageCapacity noHeader s = 4069 / s := by
  unfold pageCapacity
  rw [maxItemSize_eq s (by unfold noHeader; omega)]
  rfl

theorem spare_iff (k v : Nat) :
    slot noHeader (mapValueSize k v) (pageCapacity noHeader (mapValueSize k v)) + k ≤ pageSize ↔ k ≤ 4069 % (k + v) := by
  unfold slot pageSize
  rw [capacity_eq, itemsPos_eq]
  unfold mapValueSize noHeader
  have hd := Nat.div_add_mod 4069 (k + v)
  rw [Nat.mul_comm] at hd
  omega

/-- Which sizes the constructor accepts. -/
theorem makeMap_accepts (k v max : Nat) (hk : 0 < k) :
    (makeMap k v max true ⟨newCt, newCt⟩).2 = none ↔ k ≤ 2026 ∧ k + v ≤ 4069 ∧ 3 ≤ max := by
  have hnh : noHeader ≤ 4070 := by unfold noHeader; omega
  have hn1 : noHeader = 1 := rfl
  constructor
  · intro h
    have h' : makeMap k v max true ⟨newCt, newCt⟩ = ((makeMap k v max true ⟨newCt, newCt⟩).1, none) := by rw [← h]
    obtain ⟨ha, hb, hc⟩ := makeMap_ok h'
    have h1 := (accepted_iff (s := mapValueSize k v) (max := max) hnh).1 (by unfold Accepted; rw [hb])
    rw [hn1] at h1
    unfold mapValueSize at h1
    refine ⟨?_, by omega, h1.2⟩
    unfold mapChecks at hc
    rw [maxItemSize_eq _ hnh, capacity_eq] at hc
    unfold mapKeySize posSize at hc
    split at hc
    · cases hc
    · split at hc
      · cases hc
      · split at hc
        · cases hc
        · rename_i h2
          have := (Nat.le_div_iff_mul_le (show 0 < k + 8 by omega)).1 (show 2 ≤ 4069 / (k + 8) by omega)
          omega
  · rintro ⟨h1, h2, h3⟩
    have ha := (accepted_iff (s := stateSize) (max := max) hnh).2 ⟨by unfold stateSize posSize itemPosSize; omega, h3⟩
    have hb := (accepted_iff (s := mapValueSize k v) (max := max) hnh).2 ⟨by unfold mapValueSize; omega, h3⟩
    unfold Accepted at ha hb
    have ha' : make noHeader stateSize max true newCt = ((make noHeader stateSize max true newCt).1, none) := by rw [← ha]
    have hb' : make noHeader (mapValueSize k v) max true newCt = ((make noHeader (mapValueSize k v) max true newCt).1, none) := by rw [← hb]
    obtain ⟨_, _, _, _, sa⟩ := make_ok ha'
    obtain ⟨_, _, _, _, sb⟩ := make_ok hb'
    unfold makeMap
    simp only
    rw [ha, hb]
    simp only
    unfold mapChecks
    simp only
    rw [sa, sb, maxItemSize_eq _ hnh, maxItemSize_eq _ hnh, capacity_eq]
    have : 2 ≤ 4069 / mapKeySize k := (Nat.le_div_iff_mul_le (by unfold mapKeySize posSize; omega)).2 (by unfold mapKeySize posSize; omega)
    rw [if_neg (by unfold mapKeySize posSize; omega), if_neg (by unfold mapValueSize; omega), if_neg (by omega), if_neg (by unfold minMapped; omega),
      if_neg (by simp), if_neg (by simp)]

omit [LinearOrder K] in
/-- Accepted sizes with room for two elements on a page give capacities with which the containers work. -/
theorem mapCfg_ok {k v max limit : Nat} {z : K} {j : Cell K V → K} (hk : 0 < k) (hv : 0 < v) (ha : (makeMap k v max true ⟨newCt, newCt⟩).2 = none) (h2 : 2 * (k + v) ≤ 4069)
    (hmax : 8 ≤ max) (hl : limit ≤ nil) : (mapCfg k v max limit true z j).Ok := by
  obtain ⟨h3, _, _⟩ := (makeMap_accepts k v max hk).1 ha
  have c1 : 2 ≤ 4069 / (k + v) := (Nat.le_div_iff_mul_le (by omega)).2 h2
  have c2 : 2 ≤ 4069 / (k + 8) := (Nat.le_div_iff_mul_le (by omega)).2 (by omega)
  have d1 : 4069 / (k + v) ≤ 4069 := Nat.div_le_self _ _
  have d2 : 4069 / (k + 8) ≤ 4069 := Nat.div_le_self _ _
  refine ⟨hmax, rfl, ?_, ?_, ?_, ?_, hl⟩
  · show 2 ≤ pageCapacity _ _ ∧ pageCapacity _ _ < nilItem
    rw [capacity_eq]; unfold mapValueSize nilItem; omega
  · show 2 ≤ pageCapacity _ _ ∧ pageCapacity _ _ < nilItem
    rw [capacity_eq]; unfold mapKeySize posSize nilItem; omega
  · show 1 ≤ pageCapacity noHeader stateSize ∧ pageCapacity noHeader stateSize < nilItem
    rw [capacity_eq]; decide
  · show 1 ≤ pageCapacity noHeader posSize ∧ pageCapacity noHeader posSize < nilItem
    rw [capacity_eq]; decide

/-- C112, for keys of `k` and values of `v` bytes that the constructor accepts, of which two fit on a page and
leave room for a key behind the last: the map behaves as expected for the histories of C29.  The stack of key
levels has room for 156 levels on a page.  Missing from the whole claim: sizes of which only one fits or which leave no
room, which are violations, and what is missing from C29. -/
theorem C112_types_partial (k v max limit : Nat) (z : K) (j : Cell K V → K) (hk : 0 < k) (hv : 0 < v)
    (ha : (makeMap k v max true ⟨newCt, newCt⟩).2 = none) (h2 : 2 * (k + v) ≤ 4069) (hsp : k ≤ 4069 % (k + v)) (hmax : 8 ≤ max) (hl : limit ≤ nil)
    (os : List (MOp K V)) (hkeep : ∀ o ∈ os, o.keeps = true) (hzero : ∀ k v, .insert k v ∈ os → z ≤ k)
    (hfirst : ∀ pre k v rest, os = pre ++ .insert k v :: rest → (∀ k' v', .insert k' v' ∉ pre) → ∀ k' v', .insert k' v' ∈ rest → k ≤ k')
    (hroom : (MSt.run (mapCfg k v max limit true z j) .init os).1.heap.len < limit)
    (hnil : (MSt.run (mapCfg k v max limit true z j) .init os).1.heap.len ≤ nilItem)
    (hdepth : (MSt.run (mapCfg k v max limit true z j) .init os).1.depth < 156) : Behaves (mapCfg k v max limit true z j) os := by
  have e1 : pageCapacity noHeader stateSize = 156 := by rw [capacity_eq]; rfl
  have e2 : pageCapacity noHeader posSize = 508 := by rw [capacity_eq]; rfl
  refine C29_min_first_partial _ (mapCfg_ok hk hv ha h2 hmax hl) (decide_eq_true ((spare_iff k v).2 hsp)) os hkeep hzero hfirst hroom hnil ?_ ?_
  · show _ < pageCapacity noHeader stateSize
    rw [e1]; exact hdepth
  · show _ ≤ pageCapacity noHeader posSize
    rw [e2]; omega

/-- C112, for maps that stay smaller than a page: all accepted sizes of which two fit on a page, histories with
erasures as in C30. -/
theorem C112_small_partial (k v max limit : Nat) (z : K) (j : Cell K V → K) (hk : 0 < k) (hv : 0 < v)
    (ha : (makeMap k v max true ⟨newCt, newCt⟩).2 = none) (h2 : 2 * (k + v) ≤ 4069) (hmax : 8 ≤ max) (hl : limit ≤ nil)
    (os : List (MOp K V)) (hsmall : ∀ pre, pre <+: os → ((spec [] pre).1.length + 1) * (k + v) ≤ 4069)
    (hagain : ∀ pre k post, os = pre ++ .erase k :: post → (∃ e ∈ (spec [] pre).1, e.1 = k) → ∀ o ∈ post, o.key ≠ k)
    (hzero : (∀ o ∈ os, o.key ≠ z) ∨ ∀ k v, .insert k v ∈ os → z ≤ k)
    (hroom : (MSt.run (mapCfg k v max limit true z j) .init os).1.heap.len < limit)
    (hnil : (MSt.run (mapCfg k v max limit true z j) .init os).1.heap.len ≤ nilItem) : Behaves (mapCfg k v max limit true z j) os := by
  refine C30_small_partial _ (mapCfg_ok hk hv ha h2 hmax hl) os (fun pre hp => ?_) hagain hzero hroom hnil
  have h3 : (spec [] pre).1.length + 1 ≤ 4069 / (k + v) := (Nat.le_div_iff_mul_le (by omega)).2 (hsmall pre hp)
  have h4 : (spec [] pre).1.length < (mapCfg k v max limit true z j).capV := by
    show _ < pageCapacity noHeader (mapValueSize k v)
    rw [capacity_eq]; unfold mapValueSize; omega
  exact ⟨Nat.le_of_lt h4, Or.inr h4⟩

/-! ### Elements of which only one fits on a page -/

/-- A map with one element. -/
def one (k : K) (v : V) : MSt K V :=
  ⟨{ pages := fun q => if q = 2 then ⟨2, nil, nil, 1, fun j => if j = 0 then .val k v else .zero⟩ else ⟨0, 0, 0, 0, fun _ => .zero⟩
     states := fun t => if t = 1 then ⟨2, 2, 1⟩ else ⟨nil, nil, 0⟩
     len := 3, bad := false }, 0⟩

theorem insert_first {m : MCfg K V} (h8 : 3 ≤ m.max) (hl : 3 ≤ m.limit) (hc : m.capV = 1) (k : K) (v : V) : (MSt.init.insert m k v).1 = one k v := by
  have e1 : 0 < m.max := by omega
  have e2 : 1 < m.max := by omega
  have e3 : 2 < m.limit := by omega
  simp [MSt.insert, MSt.init, find2, findPage, Heap.init, insert2, noItr, isEmpty, cinsertNostate, insertPageAfter, allocPage, popFree, canLock, distinct,
    createPage, nil, nilItem, allCfg, e1, e2, e3, hc, linsert, lend, insertNostate, Heap.mod, Heap.check, Heap.setState, initLinks, insertState,
    insertWithCapacity, cinsertState, updateInsert, Lead.default, dropPath, clear, splice, CState.new, one]
  refine ⟨?_, ?_⟩
  · funext q
    split
    · simp; funext j; simp only [shiftIn]; split
      · rfl
      · split <;> rfl
    · simp_all
  · funext t
    split <;> simp_all

theorem insert_second {m : MCfg K V} (h8 : 3 ≤ m.max) (hl : 4 ≤ m.limit) (hc : m.capV = 1) {k k' : K} (v v' : V) (hne : k ≠ k') :
    (MSt.insert m (one k v) k' v').1.heap.bad = true ∨ (MSt.insert m (one k v) k' v').2.2 = false := by
  have e1 : 0 < m.max := by omega
  have e2 : 1 < m.max := by omega
  have e2' : 2 < m.max := by omega
  have e3 : 3 < m.limit := by omega
  -- the element is written past the page, wherever it goes
  have key : ∀ (b : Bool) (i : Nat), i ≤ 1 → ∀ r, insert2 (allCfg m m.capV) [] ((one k v).heap.check b) 1 ⟨2, i, .none⟩ (.val k' v') = some r → r.heap.bad = true := by
    intro b i hi r e
    have hi' : i = 0 ∨ i = 1 := by omega
    rcases hi' with rfl | rfl <;>
    · simp [one, insert2, nil, nilItem, cinsertNostate, canLock, distinct, allCfg, hc, e1, e2, e2', e3, insertWithOverflow, insertPageAfter, allocPage, popFree,
        isEmpty, createPage, Heap.mod, Heap.check, linsert, insertNostate, initLinks, linkBack, lnext, lrend, lend, lrbegin, insertState, shouldBalanceInsert,
        balanceSplit, insertInto, insertWithCapacity, Heap.setState] at e
      rw [← e]
  have hf : find2 m (one k v).heap (one k v).depth k' =
      ⟨(one k v).heap.check (decide ((if k < k' then 1 else 0) < m.capV) || m.spare), [], ⟨2, if k < k' then 1 else 0, .none⟩, decide (k < k' ∧ m.zeroKey = k')⟩ := by
    by_cases h : k < k'
    · simp [find2, findPage, one, valuePos, scan, valKey, Heap.check, canLock, distinct, e1, hc, h, nil, nilItem]
    · simp [find2, findPage, one, valuePos, scan, valKey, Heap.check, canLock, distinct, e1, hc, h, hne, nil, nilItem]
  unfold MSt.insert
  rw [hf]
  simp only
  by_cases h : k < k' ∧ m.zeroKey = k'
  · right
    rw [if_pos (decide_eq_true h)]
  · left
    rw [if_neg (by simp only [decide_eq_true_eq]; exact h)]
    cases e : insert2 (allCfg m m.capV) [] ((one k v).heap.check (decide ((if k < k' then 1 else 0) < m.capV) || m.spare)) 1
        ⟨2, if k < k' then 1 else 0, .none⟩ (.val k' v') with
    | none => exact (dropPath_bad ..).trans (by simp [Heap.check])
    | some r => exact (dropPath_bad ..).trans (updateInsert_bad _ (key _ _ (by split <;> omega) r e) _ _ _ _)

theorem run_cons (m : MCfg K V) (s : MSt K V) (o : MOp K V) (os : List (MOp K V)) :
    s.run m (o :: os) = (((s.step m o).1.run m os).1, (s.step m o).2 :: ((s.step m o).1.run m os).2) := rfl

theorem step_insert (m : MCfg K V) (s : MSt K V) (k : K) (v : V) :
    s.step m (.insert k v) = ((s.insert m k v).1, .inserted (s.insert m k v).2.2 (seen m (s.insert m k v).1.heap (s.insert m k v).2.1)) := rfl

/-- A map whose pages have room for one element does not survive its second key. -/
theorem two_keys {m : MCfg K V} (h8 : 3 ≤ m.max) (hl : 4 ≤ m.limit) (hc : m.capV = 1) (k k' : K) (v v' : V) (hne : k ≠ k') (rest : List (MOp K V)) :
    ¬ Behaves m (.insert k v :: .insert k' v' :: rest) := by
  rintro ⟨hb, ha, _⟩
  have hspec : ∃ a t, (spec ([] : List (K × V)) (.insert k v :: .insert k' v' :: rest)).2 = a :: .inserted true (some (.val k' v')) :: t := by
    simp [spec, hne]
  obtain ⟨a, t, hs⟩ := hspec
  have h1 : (MSt.step m .init (.insert k v)).1 = one k v := insert_first h8 (by omega) hc k v
  rw [hs, run_cons, run_cons, h1, step_insert] at ha
  rw [run_cons, run_cons, h1, step_insert] at hb
  have h2 := (List.cons.inj (List.cons.inj ha).2).1
  rcases insert_second h8 hl hc v v' hne with h | h
  · have := run_bad m rest _ h
    rw [this] at hb
    cases hb
  · rw [h] at h2
    cases h2

/-- The whole claim: maps of all types that the constructor accepts behave as expected for the histories of C29. -/
def C112Full : Prop := ∀ (k v max limit : Nat) (os : List (MOp Nat Nat)), 0 < k → 0 < v → (makeMap k v max true ⟨newCt, newCt⟩).2 = none → 8 ≤ max → limit ≤ nil →
  (∀ o ∈ os, o.keeps = true) → (∀ pre k v rest, os = pre ++ .insert k v :: rest → (∀ k' v', .insert k' v' ∉ pre) → ∀ k' v', .insert k' v' ∈ rest → k ≤ k') →
  (MSt.run (mapCfg k v max limit true 0 fun _ => 0) .init os).1.heap.len < limit → (MSt.run (mapCfg k v max limit true 0 fun _ => 0) .init os).1.heap.len ≤ nilItem →
  Behaves (mapCfg k v max limit true 0 fun _ => 0) os

/-- Keys and values of more than half a page together: the constructor accepts them, but no map of such types
survives the insertion of a second key, whatever the keys are and whatever is done afterwards. -/
theorem C112_violated_half_page (k v max limit : Nat) (log : Bool) (z : K) (j : Cell K V → K) (hk : 0 < k)
    (ha : (makeMap k v max true ⟨newCt, newCt⟩).2 = none) (h2 : 4069 < 2 * (k + v)) (hl : 4 ≤ limit) (a b : K) (x y : V) (hne : a ≠ b) (rest : List (MOp K V)) :
    ¬ Behaves (mapCfg k v max limit log z j) (.insert a x :: .insert b y :: rest) := by
  obtain ⟨_, h3, h4⟩ := (makeMap_accepts k v max hk).1 ha
  refine two_keys h4 hl ?_ a b x y hne rest
  show pageCapacity noHeader (mapValueSize k v) = 1
  rw [capacity_eq]
  unfold mapValueSize
  have h5 : 4069 / (k + v) < 2 := (Nat.div_lt_iff_lt_mul (by omega)).2 (by omega)
  have h6 : 1 ≤ 4069 / (k + v) := (Nat.le_div_iff_mul_le (by omega)).2 (by omega)
  omega

/-- Keys of 8 bytes and values of 2500 bytes. -/
example : (makeMap 8 2500 16 true ⟨newCt, newCt⟩).2 = none ∧ ¬ Behaves (mapCfg 8 2500 16 1000 true (0 : Nat) fun _ => 0) [.insert 1 (7 : Nat), .insert 2 8, .find 1] :=
  ⟨by decide, C112_violated_half_page 8 2500 16 1000 true 0 _ (by decide) (by decide) (by decide) (by decide) 1 2 7 8 (by decide) [.find 1]⟩

/-! ### Elements that fill a page -/

/-- A search past a full page of one page, when there is no room for another key. -/
theorem find_past {m : MCfg K V} (ok : m.Ok) {s : MSt K V} {L : List (K × V)} {dead : K → Prop} (v : SInv m s L dead) (hlen : L.length = m.capV)
    (hsp : m.spare = false) (key : K) (hkey : ∀ e ∈ L, e.1 < key) : (s.find m key).1.heap.bad = true := by
  obtain ⟨d0, pss, fs, lists, t⟩ := v
  have hcont : contents s.heap (pss 0) = L.map cellOf := by rw [← t.vals]; exact t.inv.items 0
  have hf : (s.heap.states 1).front = (pss 0).headD nil := (t.inv.cont 0).own.front
  have hc2 := ok.capV
  have hm := ok.max
  cases hps : pss 0 with
  | nil =>
    rw [hps] at hcont
    have hL : L = [] := List.map_eq_nil_iff.1 hcont.symm
    rw [hL] at hlen
    simp at hlen
    omega
  | cons p ps =>
    have hps1 : ps = [] := by have := t.one; rw [hps, List.length_cons] at this; exact List.eq_nil_of_length_eq_zero (by omega)
    subst hps1
    have hpm : p ∈ pss 0 := by rw [hps]; simp
    have hpn : p ≠ nil := (t.inv.cont 0).own.nn p hpm
    rw [hps] at hf hcont
    have hfr : (s.heap.states 1).front = p := hf
    have hpi : pageItems (s.heap.pages p) = L.map cellOf := by
      have : contents s.heap [p] = pageItems (s.heap.pages p) := by simp [contents]
      rw [← this]; exact hcont
    have hcount : (s.heap.pages p).count = m.capV := by
      have := congrArg List.length hpi
      unfold pageItems at this
      rw [List.length_map, List.length_range, List.length_map, hlen] at this
      exact this
    have hit : ∀ i, i < (s.heap.pages p).count → valKey m ((s.heap.pages p).items i) < key := by
      intro i hi
      have hmem : (s.heap.pages p).items i ∈ pageItems (s.heap.pages p) := List.mem_map.2 ⟨i, List.mem_range.2 hi, rfl⟩
      rw [hpi] at hmem
      obtain ⟨e, he, h2⟩ := List.mem_map.1 hmem
      rw [← h2]
      exact hkey e he
    have hscan : ∀ n i, i + n = (s.heap.pages p).count → scan (fun i => decide (valKey m ((s.heap.pages p).items i) < key)) n i = (s.heap.pages p).count := by
      intro n
      induction n with
      | zero => intro i hi; exact hi
      | succ n ih =>
        intro i hi
        unfold scan
        rw [if_pos (by simp only [decide_eq_true_eq]; exact hit i (by omega))]
        exact ih (i + 1) (by omega)
    have hpos : valuePos m (s.heap.pages p) key = m.capV := by
      unfold valuePos
      rw [hscan _ 0 (by omega), hcount]
    unfold MSt.find
    simp only
    rw [dropPath_bad, d0]
    unfold find2 findPage
    rw [if_pos rfl]
    simp only
    have hlock : canLock m.max [] p = true := by
      have h0 : 0 < m.max := by omega
      simp [canLock, distinct, h0]
    rw [hfr, if_neg hpn, if_neg (by rw [hlock]; simp)]
    simp only
    rw [hpos]
    simp [Heap.check, hsp]

/-- Insertions of different keys, as long as there is room on one page. -/
theorem fill {m : MCfg K V} (ok : m.Ok) (key : K) : ∀ (es L : List (K × V)) (s : MSt K V), SInv m s L (fun _ => False) →
    (∀ e ∈ L, m.zeroKey ≤ e.1 ∧ e.1 < key) → (∀ e ∈ es, m.zeroKey ≤ e.1 ∧ e.1 < key) → (es.map (·.1)).Nodup → (∀ e ∈ es, ∀ e' ∈ L, e'.1 ≠ e.1) →
    L.length + es.length ≤ m.capV → (s.run m (es.map (fun e => .insert e.1 e.2))).1.heap.len < m.limit → (s.run m (es.map (fun e => .insert e.1 e.2))).1.heap.len ≤ nilItem →
    ∃ L', SInv m (s.run m (es.map (fun e => .insert e.1 e.2))).1 L' (fun _ => False) ∧ L'.length = L.length + es.length ∧ ∀ e ∈ L', e.1 < key := by
  intro es
  induction es with
  | nil => intro L s v hL _ _ _ _ _ _; exact ⟨L, v, rfl, fun e he => (hL e he).2⟩
  | cons e es ih =>
    intro L s v hL hes hnd hdis hlen h1 h2
    have hrest := run_len_all m (es.map (fun e => .insert e.1 e.2)) (s.insert m e.1 e.2).1
    rw [List.map_cons, run_cons, step_insert] at h1 h2 ⊢
    simp only at h1 h2 ⊢
    rw [List.length_cons] at hlen
    have hnone : L.find? (fun x => x.1 = e.1) = none := by
      rw [List.find?_eq_none]
      intro x hx
      simpa using hdis e (by simp) x hx
    rcases small_insert (key := e.1) (val := e.2) ok v (fun h => h) (Or.inr fun x hx => (hL x hx).1) (Or.inr (by omega)) (fun _ => by omega) with h | h | ⟨L1, v1, h⟩
    · omega
    · omega
    · rw [hnone] at h
      obtain ⟨⟨La, Lb, e1, e2⟩, _, _⟩ := h
      rw [List.map_cons, List.nodup_cons] at hnd
      have hlen1 : L1.length = L.length + 1 := by rw [e1, e2]; simp; omega
      have hmem : ∀ x ∈ L1, x = (e.1, e.2) ∨ x ∈ L := by
        intro x hx
        rw [e2] at hx
        rw [e1]
        rcases List.mem_append.1 hx with h | h
        · right; simp [h]
        · rcases List.mem_cons.1 h with h | h
          · left; exact h
          · right; simp [h]
      obtain ⟨L', v', hl', hk'⟩ := ih L1 (s.insert m e.1 e.2).1 v1
        (fun x hx => by
          rcases hmem x hx with h | h
          · rw [h]; exact hes e (by simp)
          · exact hL x h)
        (fun x hx => hes x (by simp [hx])) hnd.2
        (fun x hx y hy => by
          rcases hmem y hy with h | h
          · rw [h]
            intro heq
            exact hnd.1 (List.mem_map.2 ⟨x, hx, heq.symm⟩)
          · exact hdis x (by simp [hx]) y h)
        (by omega) h1 h2
      exact ⟨L', v', by rw [hl', hlen1, List.length_cons]; omega, hk'⟩

/-- Keys and values that fill a page so that no key fits behind the last one: once a page of them is full, a
search for a larger key reads past the page.  This includes keys and values of 8 bytes. -/
theorem C112_violated_full_page (k v max limit : Nat) (z : K) (j : Cell K V → K) (hk : 0 < k) (hv : 0 < v)
    (ha : (makeMap k v max true ⟨newCt, newCt⟩).2 = none) (h2 : 2 * (k + v) ≤ 4069) (hsp : 4069 % (k + v) < k) (hmax : 8 ≤ max) (hl : limit ≤ nil)
    (es : List (K × V)) (key : K) (hes : ∀ e ∈ es, z ≤ e.1 ∧ e.1 < key) (hnd : (es.map (·.1)).Nodup) (hlen : es.length = 4069 / (k + v))
    (hroom : (MSt.run (mapCfg k v max limit true z j) .init (es.map (fun e => .insert e.1 e.2))).1.heap.len < limit)
    (hnil : (MSt.run (mapCfg k v max limit true z j) .init (es.map (fun e => .insert e.1 e.2))).1.heap.len ≤ nilItem) (rest : List (MOp K V)) :
    ¬ Behaves (mapCfg k v max limit true z j) (es.map (fun e => .insert e.1 e.2) ++ .find key :: rest) := by
  have ok := mapCfg_ok (z := z) (j := j) hk hv ha h2 hmax hl
  have hcap : (mapCfg k v max limit true z j).capV = 4069 / (k + v) := by
    show pageCapacity noHeader (mapValueSize k v) = _
    rw [capacity_eq]; rfl
  obtain ⟨L, s, hL, hkey⟩ := fill ok key es [] .init (SInv.init _) (by simp) hes hnd (by simp) (by rw [hcap]; simp; omega) hroom hnil
  rintro ⟨hb, _⟩
  rw [MSt.run_append, run_cons] at hb
  have hbad := find_past ok s (by rw [hL, hcap]; simp; omega) (decide_eq_false (by rw [spare_iff]; omega)) key hkey
  have := run_bad (mapCfg k v max limit true z j) rest _ hbad
  exact absurd (this.symm.trans hb) (by simp)

/-- Numbers of 8 bytes as keys and values: 254 elements fit on a page, and behind them no key. -/
example : (makeMap 8 8 16 true ⟨newCt, newCt⟩).2 = none ∧ 4069 / (8 + 8) = 254 ∧ 4069 % (8 + 8) < 8 := by decide

def fullPage : List (Nat × Nat) := [(3, 1), (1, 2), (4, 3), (2, 4)]

/-- Keys of 8 and values of 1009 bytes; four of them fill a page. -/
example : ¬ Behaves (mapCfg 8 1009 16 1000 true 0 fun _ => 0) (fullPage.map (fun e => .insert e.1 e.2) ++ [.find 9]) :=
  C112_violated_full_page 8 1009 16 1000 0 _ (by decide) (by decide) (by decide) (by decide) (by decide) (by decide) (by decide) fullPage 9
    (by decide) (by decide) (by decide) (by decide +kernel) (by decide +kernel) []

theorem C112_violated : ¬ C112Full := by
  intro h
  refine C112_violated_half_page 8 2500 16 1000 true (0 : Nat) (fun _ => 0) (by decide) (by decide) (by decide) (by decide) 1 2 7 8 (by decide) []
    (h 8 2500 16 1000 _ (by decide) (by decide) (by decide) (by decide) (by decide) (by decide) ?_ (by decide +kernel) (by decide +kernel))
  intro pre k v rest e hp k' v' hm
  cases pre with
  | nil =>
    obtain ⟨e1, e2⟩ := List.cons.inj e
    cases e1
    rw [← e2] at hm
    simp at hm
    omega
  | cons o pre =>
    obtain ⟨e1, _⟩ := List.cons.inj e
    exact absurd (by rw [← e1]; simp) (hp 1 7)

/-- The hypotheses of C112 for keys of 8 and values of 1000 bytes: four elements on a page, 20 elements. -/
def typedOps : List (MOp Nat Nat) := (List.range 20).map (fun i => .insert i (i + 100)) ++ [.find 7, .insert 7 0, .find 50]

example : Behaves (mapCfg 8 1000 16 1000 true 0 fun _ => 0) typedOps :=
  C112_types_partial 8 1000 16 1000 0 _ (by decide) (by decide) (by decide) (by decide) (by decide) (by decide) (by decide) typedOps
    (by decide) (fun _ _ _ => Nat.zero_le _)
    (by
      intro pre k v rest e hp k' v' _
      cases pre with
      | nil => obtain ⟨e1, _⟩ := List.cons.inj e; cases e1; exact Nat.zero_le _
      | cons o pre => obtain ⟨e1, _⟩ := List.cons.inj e; exact absurd (by rw [← e1]; simp) (hp 0 100))
    (by decide +kernel) (by decide +kernel) (by decide +kernel)

def typedSmall : List (MOp Nat Nat) := [.insert 5 1, .insert 3 2, .insert 9 3, .find 10, .erase 3, .find 8, .insert 4 5]

example : Behaves (mapCfg 8 1009 16 1000 true 0 fun _ => 0) typedSmall :=
  C112_small_partial 8 1009 16 1000 0 _ (by decide) (by decide) (by decide) (by decide) (by decide) (by decide) typedSmall
    (by
      intro pre hpre
      have hall : ∀ n ∈ List.range 8, ((spec [] (typedSmall.take n)).1.length + 1) * (8 + 1009) ≤ 4069 := by decide +kernel
      rw [List.prefix_iff_eq_take.1 hpre]
      have hl : pre.length ≤ 7 := hpre.length_le
      exact hall _ (List.mem_range.2 (by omega)))
    (by
      intro pre k post e _ o ho
      have hall : ∀ n ∈ List.range 8, ∀ k ∈ (match typedSmall[n]? with | some (.erase k) => [k] | _ => []), ∀ o ∈ typedSmall.drop (n + 1), o.key ≠ k := by decide +kernel
      have hl : pre.length < 7 := by
        have := congrArg List.length e
        have h7 : typedSmall.length = 7 := rfl
        rw [h7, List.length_append, List.length_cons] at this
        omega
      refine hall pre.length (List.mem_range.2 (by omega)) k ?_ o ?_
      · rw [e]; simp
      · rw [e, List.drop_append]; simp [ho])
    (Or.inr fun _ _ _ => Nat.zero_le _) (by decide +kernel) (by decide +kernel)

end Abc.Vmem.Layout
