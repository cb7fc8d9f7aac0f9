import Verif.Vmem.MapErase
import Verif.Vmem.MapBad

/-! # The layout of pages, and the constructors of containers and maps

Models, in `/repo/src`:
- `i/vmem_layout.i.h` 34-173: the packed structures on the pages;
- `x/vmem_container.x.h` 80-164: sizes, capacity and constructor of `vmem_container`, abbreviated `container`;
- `x/vmem_map.x.h` 76-160: sizes, capacities and constructor of `vmem_map`, abbreviated `map`.

Sizes are those of the structures packed with `#pragma pack(push, 1)`: the sum of the sizes of the members; an
empty structure has size 1 as a member.  `sizeof` of any C++ type is at least 1.

Simplifications: the logging of the constructors is left out; a thrown exception is the name of the failed check.
-/

namespace Abc.Vmem.Layout

open Abc.Vmem.Pages Abc.Vmem.Map

/-- `vmem_page_size`, `i/vmem_pool.i.h` 43. -/
def pageSize : Nat := 4096

/-- `sizeof(vmem_page_pos_t)`, `i/vmem_pool.i.h` 37. -/
def posSize : Nat := 8

/-- `sizeof(vmem_item_pos_t)`, `i/vmem_pool.i.h` 38. -/
def itemPosSize : Nat := 2

/-- `vmem_min_mapped_pages`, `i/vmem_pool.i.h` 48. -/
def minMapped : Nat := 3

/-- `sizeof(vmem_noheader)`, `i/vmem_layout.i.h` 45-46. -/
def noHeader : Nat := 1

/-- `sizeof(vmem_container_page<T, Header>)`, `i/vmem_layout.i.h` 55-73, for headers of `hdr` bytes and items
of `s` bytes: three page positions, the header, the number of items, and one item. -/
def containerPage (hdr s : Nat) : Nat := 3 * posSize + hdr + itemPosSize + s

/-- `sizeof(vmem_map_key<Key>)`, `i/vmem_layout.i.h` 90-94. -/
def mapKeySize (k : Nat) : Nat := k + posSize

/-- `sizeof(vmem_map_value<Key, T>)`, `i/vmem_layout.i.h` 102-106. -/
def mapValueSize (k v : Nat) : Nat := k + v

/-- `sizeof(vmem_container_state)`, `i/vmem_layout.i.h` 134-147. -/
def stateSize : Nat := posSize + posSize + itemPosSize + posSize

/-- `items_pos`, `container` 81-84; `key_items_pos` and `value_items_pos`, `map` 77-80 and 95-98. -/
def itemsPos (hdr s : Nat) : Nat := containerPage hdr s - s

/-- `max_item_size`, `container` 87-90; `map` 83-86 and 101-104: a subtraction of `std::size_t`. -/
def maxItemSize (hdr s : Nat) : Nat := (pageSize + 2 ^ 64 - itemsPos hdr s) % 2 ^ 64

/-- `page_capacity`, `container` 93-96; `map` 89-92 and 107-110. -/
def pageCapacity (hdr s : Nat) : Nat := maxItemSize hdr s / s

/-- The position of `items[i]` on a page. -/
def slot (hdr s i : Nat) : Nat := itemsPos hdr s + i * s

/-- `vmem_container_state`, `i/vmem_layout.i.h` 134-147. -/
structure CtState where
  front : Nat
  back : Nat
  itemSize : Nat
  total : Nat
deriving DecidableEq, Repr

/-- The checks of the constructors. -/
inductive Err where
  | state | pool | excess | keyExcess | valueExcess | keyCapacity | pages | mismatch | keyMismatch | valueMismatch
deriving DecidableEq, Repr

/-- `is_uninit`, `container` 99-117. -/
def isUninit (st : CtState) : Bool :=
  (decide (st.front = nil) && decide (st.back = nil) && decide (st.itemSize = 0)) ||
  (decide (st.front = 0) && decide (st.back = 0) && decide (st.itemSize = 0))

/-- The initialisation of a state, `container` 148-152; `item_size` has 16 bits. -/
def initState (s : Nat) (st : CtState) : CtState :=
  if isUninit st then { st with front := nil, back := nil, itemSize := s % 65536 } else st

/-- The constructor of `vmem_container`, `container` 121-164, for items of `s` bytes: the state afterwards, and
the exception.  `pool` says whether there is a pool; `max` is its `max_mapped_pages()`. -/
def make (hdr s max : Nat) (pool : Bool) (st : CtState) : CtState × Option Err :=
  if pool = false then (st, some .pool)
  else if s > maxItemSize hdr s then (st, some .excess)
  else if max < minMapped then (st, some .pages)
  else if s ≠ (initState s st).itemSize then (initState s st, some .mismatch)
  else (initState s st, none)

/-- `vmem_map_state`, `i/vmem_layout.i.h` 170-173. -/
structure MapState where
  keys : CtState
  values : CtState
deriving DecidableEq, Repr

/-- The checks in the body of the constructor of `vmem_map`, `map` 125-155. -/
def mapChecks (k v max : Nat) (st : MapState) : Option Err :=
  if mapKeySize k > maxItemSize noHeader (mapKeySize k) then some .keyExcess
  else if mapValueSize k v > maxItemSize noHeader (mapValueSize k v) then some .valueExcess
  else if pageCapacity noHeader (mapKeySize k) < 2 then some .keyCapacity
  else if max < minMapped then some .pages
  else if stateSize ≠ st.keys.itemSize then some .keyMismatch
  else if mapValueSize k v ≠ st.values.itemSize then some .valueMismatch
  else none

/-- The constructor of `vmem_map`, `map` 113-160, for keys of `k` and values of `v` bytes.  The stack of key
levels and the list of values are made first. -/
def makeMap (k v max : Nat) (pool : Bool) (st : MapState) : MapState × Option Err :=
  let a := make noHeader stateSize max pool st.keys
  match a.2 with
  | some e => ({ st with keys := a.1 }, some e)
  | none =>
    let b := make noHeader (mapValueSize k v) max pool st.values
    match b.2 with
    | some e => (⟨a.1, b.1⟩, some e)
    | none => (⟨a.1, b.1⟩, mapChecks k v max ⟨a.1, b.1⟩)

/-- `vmem_container_state` before any use, `i/vmem_layout.i.h` 134-147. -/
def newCt : CtState := ⟨nil, nil, 0, 0⟩

/-! ## C110: the items of accepted types lie on their page -/

theorem itemsPos_eq (hdr s : Nat) : itemsPos hdr s = hdr + 26 := by unfold itemsPos containerPage posSize itemPosSize; omega

theorem maxItemSize_eq {hdr : Nat} (s : Nat) (h : hdr ≤ 4070) : maxItemSize hdr s = 4070 - hdr := by
  unfold maxItemSize
  rw [itemsPos_eq]
  unfold pageSize
  rw [show 4096 + 2 ^ 64 - (hdr + 26) = (4070 - hdr) + 2 ^ 64 by omega, Nat.add_mod_right]
  exact Nat.mod_eq_of_lt (by omega)

/-- Whether the constructor accepts the item type, on a new state. -/
def Accepted (hdr s max : Nat) : Prop := (make hdr s max true newCt).2 = none

theorem initState_new (s : Nat) : initState s newCt = ⟨nil, nil, s % 65536, 0⟩ := by
  unfold initState newCt isUninit; simp

theorem accepted_iff {hdr s max : Nat} (hh : hdr ≤ 4070) : Accepted hdr s max ↔ s ≤ 4070 - hdr ∧ 3 ≤ max := by
  unfold Accepted make minMapped
  rw [maxItemSize_eq s hh, initState_new]
  simp only [Bool.true_eq_false, if_false]
  by_cases h1 : s > 4070 - hdr
  · rw [if_pos h1]; simp; omega
  · rw [if_neg h1]
    by_cases h2 : max < 3
    · rw [if_pos h2]; simp; omega
    · rw [if_neg h2, if_neg (by simp only [ne_eq, Decidable.not_not]; exact (Nat.mod_eq_of_lt (by omega)).symm)]; simp; omega

/-- C110, for headers that leave room on a page: the constructor accepts exactly the items that fit behind the
header.  All items of a page then lie on the page, behind its header and the number of its items, and do not
overlap; a page has room for at least one item and no room for another one behind the last; the positions of
items differ from the one that stands for none.  Missing from the whole claim: larger headers. -/
theorem C110_layout_partial (hdr s max : Nat) (hh : hdr ≤ 4070) (hs : 0 < s) :
    (Accepted hdr s max ↔ 3 * 8 + hdr + 2 + s ≤ 4096 ∧ 3 ≤ max) ∧
    (Accepted hdr s max →
      (∀ i, i < pageCapacity hdr s → 3 * 8 + hdr + 2 ≤ slot hdr s i ∧ slot hdr s i + s ≤ 4096) ∧
      (∀ i j, i < j → slot hdr s i + s ≤ slot hdr s j) ∧
      0 < pageCapacity hdr s ∧ 4096 < slot hdr s (pageCapacity hdr s) + s ∧ pageCapacity hdr s < nilItem) := by
  rw [accepted_iff hh]
  refine ⟨by omega, ?_⟩
  rintro ⟨h1, _⟩
  unfold slot pageCapacity
  rw [itemsPos_eq, maxItemSize_eq s hh]
  have hd := Nat.div_add_mod (4070 - hdr) s
  have hm := Nat.mod_lt (4070 - hdr) hs
  have hp := Nat.div_pos h1 hs
  have hle : (4070 - hdr) / s ≤ 4070 - hdr := Nat.div_le_self _ _
  generalize (4070 - hdr) / s = c at *
  refine ⟨fun i hi => ⟨by omega, ?_⟩, fun i j hij => ?_, hp, ?_, by unfold nilItem; omega⟩
  · have := Nat.mul_le_mul_right s (show i + 1 ≤ c from hi)
    rw [Nat.add_mul, Nat.mul_comm c s] at this
    omega
  · have := Nat.mul_le_mul_right s (show i + 1 ≤ j from hij)
    rw [Nat.add_mul] at this
    omega
  · rw [Nat.mul_comm c s]; omega

example : Accepted noHeader 16 10 ∧ pageCapacity noHeader 16 = 254 ∧ slot noHeader 16 253 = 4075 ∧ slot noHeader 16 254 = 4091 ∧
    Accepted noHeader 4069 3 ∧ pageCapacity noHeader 4069 = 1 ∧ ¬ Accepted noHeader 4070 3 ∧ ¬ Accepted noHeader 16 2 := by
  refine ⟨?_, ?_, ?_, ?_, ?_, ?_, ?_, ?_⟩ <;> first | decide | (unfold Accepted; decide)

/-- The whole claim: an accepted item fits on a page, whatever the header. -/
def C110Full : Prop := ∀ hdr s max, 0 < s → Accepted hdr s max → slot hdr s 0 + s ≤ 4096

/-- For every header that does not fit on a page itself, every item of up to 64 kilobytes is accepted, although
none of its bytes lies on the page: the difference of the sizes wraps around. -/
theorem C110_violated : ¬ C110Full ∧ ∀ hdr s max, 4070 < hdr → hdr < 2 ^ 32 → 0 < s → s < 65536 → 3 ≤ max →
    Accepted hdr s max ∧ 4096 < slot hdr s 0 := by
  have hu : ∀ hdr s max, 4070 < hdr → hdr < 2 ^ 32 → 0 < s → s < 65536 → 3 ≤ max → Accepted hdr s max ∧ 4096 < slot hdr s 0 := by
    intro hdr s max h1 h2 h3 h4 h5
    constructor
    · unfold Accepted make minMapped maxItemSize
      rw [itemsPos_eq, initState_new]
      unfold pageSize
      rw [Nat.mod_eq_of_lt (show 4096 + 2 ^ 64 - (hdr + 26) < 2 ^ 64 by omega), if_neg (by simp), if_neg (by omega), if_neg (by omega),
        if_neg (by simp only [ne_eq, Decidable.not_not]; exact (Nat.mod_eq_of_lt h4).symm)]
    · unfold slot
      rw [itemsPos_eq]; omega
  refine ⟨fun h => ?_, hu⟩
  have h1 := hu 5000 8 3 (by omega) (by omega) (by omega) (by omega) (by omega)
  have := h 5000 8 3 (by omega) h1.1
  omega

/-! ## C111: a container is opened again with items of the same size only -/

theorem make_ok {hdr s max : Nat} {pool : Bool} {st st1 : CtState} (h : make hdr s max pool st = (st1, none)) :
    pool = true ∧ s ≤ maxItemSize hdr s ∧ 3 ≤ max ∧ st1 = initState s st ∧ st1.itemSize = s := by
  unfold make minMapped at h
  cases pool with
  | false => simp at h
  | true =>
    simp only [Bool.true_eq_false, if_false] at h
    split at h
    · cases h
    · split at h
      · cases h
      · split at h
        · cases h
        · rename_i h1 h2 h3
          have e := (Prod.mk.inj h).1
          subst e
          simp only [ne_eq, Decidable.not_not] at h3
          exact ⟨rfl, by omega, by omega, rfl, h3.symm⟩

theorem initState_same {s : Nat} {st : CtState} (h : st.itemSize ≠ 0) : initState s st = st := by
  unfold initState isUninit; simp [h]

/-- C111: when a container with items of `s` bytes was made on a state, and the state was used afterwards in
any way (no operation writes the size of the items), a container with items of the same size is made on it
again without changing it, and a container with items of another size is refused without changing it. -/
theorem C111_reopen (hdr s max : Nat) (pool : Bool) (st st1 : CtState) (hs : 0 < s) (h : make hdr s max pool st = (st1, none)) (front back total : Nat) :
    let st2 : CtState := { st1 with front := front, back := back, total := total }
    make hdr s max pool st2 = (st2, none) ∧
    ∀ hdr' s' max' pool', s' ≠ s → (make hdr' s' max' pool' st2).1 = st2 ∧ (make hdr' s' max' pool' st2).2 ≠ none := by
  obtain ⟨rfl, h1, h2, _, h3⟩ := make_ok h
  simp only
  generalize h4 : ({ st1 with front := front, back := back, total := total } : CtState) = st2
  have h5 : st2.itemSize = s := by rw [← h4]; exact h3
  have hi : ∀ s', initState s' st2 = st2 := fun s' => initState_same (by omega)
  constructor
  · unfold make minMapped
    rw [hi, h5, if_neg (by simp), if_neg (by omega), if_neg (by omega), if_neg (by simp)]
  · intro hdr' s' max' pool' hne
    unfold make minMapped
    rw [hi, h5]
    split
    · simp
    · split
      · simp
      · split
        · simp
        · simp

/-- A state of a list of numbers of 8 bytes that has two pages. -/
example : make noHeader 8 16 true newCt = (⟨nil, nil, 8, 0⟩, none) ∧ make noHeader 8 16 true ⟨2, 3, 8, 700⟩ = (⟨2, 3, 8, 700⟩, none) ∧
    make noHeader 4 16 true ⟨2, 3, 8, 700⟩ = (⟨2, 3, 8, 700⟩, some .mismatch) := by decide

/-- Two states with the same use differ in the links and totals only. -/
def Used (a b : MapState) : Prop := a.keys.itemSize = b.keys.itemSize ∧ a.values.itemSize = b.values.itemSize

theorem makeMap_ok {k v max : Nat} {pool : Bool} {st st1 : MapState} (h : makeMap k v max pool st = (st1, none)) :
    make noHeader stateSize max pool st.keys = (st1.keys, none) ∧ make noHeader (mapValueSize k v) max pool st.values = (st1.values, none) ∧
    mapChecks k v max st1 = none := by
  unfold makeMap at h
  simp only at h
  generalize ha : make noHeader stateSize max pool st.keys = a at h
  generalize hb : make noHeader (mapValueSize k v) max pool st.values = b at h
  obtain ⟨a1, a2⟩ := a
  obtain ⟨b1, b2⟩ := b
  cases a2 with
  | some e => cases h
  | none =>
    cases b2 with
    | some e => cases h
    | none =>
      simp only at h
      have e1 := (Prod.mk.inj h).1
      have e2 := (Prod.mk.inj h).2
      subst e1
      exact ⟨rfl, rfl, e2⟩

/-- C111 for maps: a map is made again on a state that was used by a map with keys and values of the same sizes,
and refused if the sizes of key and value together differ.  Missing from the whole claim: other sizes with the
same sum. -/
theorem C111_map_partial (k v max : Nat) (pool : Bool) (st st1 st2 : MapState) (hk : 0 < k) (h : makeMap k v max pool st = (st1, none)) (hu : Used st1 st2) :
    makeMap k v max pool st2 = (st2, none) ∧
    ∀ k' v' max' pool', k' + v' ≠ k + v → (makeMap k' v' max' pool' st2).1 = st2 ∧ (makeMap k' v' max' pool' st2).2 ≠ none := by
  obtain ⟨ha, hb, hc⟩ := makeMap_ok h
  obtain ⟨_, _, _, _, hs1⟩ := make_ok ha
  obtain ⟨_, _, _, _, hs2⟩ := make_ok hb
  have ra := C111_reopen _ _ _ _ _ _ (by unfold stateSize posSize itemPosSize; omega) ha st2.keys.front st2.keys.back st2.keys.total
  have rb := C111_reopen _ _ _ _ _ _ (by unfold mapValueSize; omega) hb st2.values.front st2.values.back st2.values.total
  simp only at ra rb
  have e1 : ({ st1.keys with front := st2.keys.front, back := st2.keys.back, total := st2.keys.total } : CtState) = st2.keys := by
    have := hu.1; rcases st2 with ⟨⟨_, _, _, _⟩, _⟩; simp_all
  have e2 : ({ st1.values with front := st2.values.front, back := st2.values.back, total := st2.values.total } : CtState) = st2.values := by
    have := hu.2; rcases st2 with ⟨_, ⟨_, _, _, _⟩⟩; simp_all
  rw [e1] at ra
  rw [e2] at rb
  have hch : mapChecks k v max st2 = none := by
    rw [← hc]; unfold mapChecks; rw [hu.1, hu.2]
  have hpair : (⟨st2.keys, st2.values⟩ : MapState) = st2 := rfl
  constructor
  · unfold makeMap
    simp only
    rw [ra.1, rb.1]
    simp only
    rw [hpair, hch]
  · intro k' v' max' pool' hne
    have hv := rb.2 noHeader (mapValueSize k' v') max' pool' (by unfold mapValueSize; exact hne)
    have hkeys : (make noHeader stateSize max' pool' st2.keys).1 = st2.keys := by
      have hi : initState stateSize st2.keys = st2.keys := initState_same (by rw [← hu.1, hs1]; unfold stateSize posSize itemPosSize; omega)
      unfold make
      rw [hi]
      repeat' (first | split | rfl)
    unfold makeMap
    simp only
    generalize make noHeader stateSize max' pool' st2.keys = a at hkeys
    generalize make noHeader (mapValueSize k' v') max' pool' st2.values = b at hv
    obtain ⟨a1, a2⟩ := a
    obtain ⟨b1, b2⟩ := b
    simp only at hkeys hv
    subst hkeys
    obtain ⟨hb1, hb2⟩ := hv
    subst hb1
    cases a2 with
    | some e => exact ⟨rfl, by simp⟩
    | none =>
      cases b2 with
      | some e => exact ⟨rfl, by simp⟩
      | none => exact absurd rfl hb2

/-- The state of a map of numbers of 4 and 8 bytes with one key level. -/
example : (makeMap 4 8 16 true ⟨newCt, newCt⟩) = (⟨⟨nil, nil, 26, 0⟩, ⟨nil, nil, 12, 0⟩⟩, none) ∧
    makeMap 4 8 16 true ⟨⟨5, 5, 26, 1⟩, ⟨2, 4, 12, 500⟩⟩ = (⟨⟨5, 5, 26, 1⟩, ⟨2, 4, 12, 500⟩⟩, none) ∧
    (makeMap 4 4 16 true ⟨⟨5, 5, 26, 1⟩, ⟨2, 4, 12, 500⟩⟩).2 = some .mismatch := by decide

/-- The whole claim: a map is opened with the sizes of key and value it was made with, and no others. -/
def C111Full : Prop := ∀ k v k' v' max st st1 st2, 0 < k → 0 < v → 0 < k' → 0 < v' → makeMap k v max true st = (st1, none) → Used st1 st2 →
  (makeMap k' v' max true st2).2 = none → k' = k ∧ v' = v

/-- For all sizes with the same sum, as long as two keys fit on a page, the state of one map is accepted for the
other: the values of the file are then read with their bytes at the wrong places. -/
theorem C111_violated : ¬ C111Full ∧ ∀ k v k' v' max st st1 st2, makeMap k v max true st = (st1, none) → Used st1 st2 → 0 < k → k' + v' = k + v → k' ≤ 2026 →
    makeMap k' v' max true st2 = (st2, none) := by
  have hu : ∀ k v k' v' max st st1 st2, makeMap k v max true st = (st1, none) → Used st1 st2 → 0 < k → k' + v' = k + v → k' ≤ 2026 →
      makeMap k' v' max true st2 = (st2, none) := by
    intro k v k' v' max st st1 st2 h hu hk hs hk'
    have h2 := (C111_map_partial k v max true st st1 st2 hk h hu).1
    obtain ⟨ha, hb, hc⟩ := makeMap_ok h2
    unfold makeMap
    simp only
    rw [ha, show mapValueSize k' v' = mapValueSize k v from hs, hb]
    simp only
    have hp : mapChecks k' v' max st2 = none := by
      unfold mapChecks at hc ⊢
      rw [show mapValueSize k' v' = mapValueSize k v from hs]
      unfold pageCapacity at hc ⊢
      simp only [maxItemSize_eq _ (show noHeader ≤ 4070 by unfold noHeader; omega)] at hc ⊢
      unfold mapKeySize posSize noHeader at hc ⊢
      have h3 : 2 ≤ (4070 - 1) / (k' + 8) := (Nat.le_div_iff_mul_le (by omega)).2 (by omega)
      rw [if_neg (by omega)]
      split at hc
      · cases hc
      · split
        · rename_i h; rw [if_pos h] at hc; cases hc
        · rename_i h
          rw [if_neg h] at hc
          split at hc
          · cases hc
          · rw [if_neg (by omega)]; exact hc
    rw [hp]
  refine ⟨fun h => ?_, hu⟩
  have h1 : makeMap 4 8 16 true ⟨newCt, newCt⟩ = (⟨⟨nil, nil, 26, 0⟩, ⟨nil, nil, 12, 0⟩⟩, none) := by decide
  have := h 4 8 8 4 16 _ _ ⟨⟨5, 5, 26, 1⟩, ⟨2, 4, 12, 500⟩⟩ (by omega) (by omega) (by omega) (by omega) h1 ⟨rfl, rfl⟩ (by decide)
  omega

end Abc.Vmem.Layout
