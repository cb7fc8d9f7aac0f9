import Verif.Vmem.PoolModel
import Mathlib.Tactic.Common
import Mathlib.Data.List.Basic
import Mathlib.Data.List.Perm.Basic

/-!
# Lemmas about the mapping cache: it is handled as the list of its entries in use
-/

namespace Abc.Vmem.Pool

/-- The entries in use. -/
def live (c : Cache) : List Slot := (List.range c.count).map c.slots

theorem length_live (c : Cache) : (live c).length = c.count := by simp [live]

theorem live_get (c : Cache) {i : Nat} (h : i < (live c).length) : (live c)[i] = c.slots i := by simp [live]

theorem live_get? (c : Cache) {i : Nat} (h : i < c.count) : (live c)[i]? = some (c.slots i) := by
  rw [List.getElem?_eq_getElem (by rw [length_live]; exact h), live_get]

theorem mem_live {c : Cache} {x : Slot} : x ∈ live c ↔ ∃ i, i < c.count ∧ c.slots i = x := by
  simp [live, List.mem_map, List.mem_range]

theorem live_ext {c : Cache} {L : List Slot} (hl : L.length = c.count) (h : ∀ (i : Nat) (hi : i < L.length), c.slots i = L[i]) :
    live c = L := by
  apply List.ext_getElem
  · rw [length_live, hl]
  · intro i h1 h2
    rw [live_get, h i h2]

/-! ## find -/

theorem findFrom_spec (slots : Nat → Slot) (pos : Nat) : ∀ n i,
    (findFrom slots pos i n = i + n ∧ ∀ j, i ≤ j → j < i + n → (slots j).pos ≠ pos) ∨
    (i ≤ findFrom slots pos i n ∧ findFrom slots pos i n < i + n ∧ (slots (findFrom slots pos i n)).pos = pos) := by
  intro n
  induction n with
  | zero => intro i; left; exact ⟨rfl, fun j h1 h2 => absurd h2 (by omega)⟩
  | succ n ih =>
    intro i
    unfold findFrom
    by_cases h : (slots i).pos = pos
    · right; rw [if_pos h]; exact ⟨Nat.le_refl _, by omega, h⟩
    · rw [if_neg h]
      rcases ih (i + 1) with ⟨e, g⟩ | ⟨a, b, d⟩
      · left
        refine ⟨by omega, fun j h1 h2 => ?_⟩
        by_cases hj : j = i
        · exact hj ▸ h
        · exact g j (by omega) (by omega)
      · right; exact ⟨by omega, by omega, d⟩

theorem find_spec (c : Cache) (pos : Nat) :
    (find c pos = c.count ∧ ∀ x ∈ live c, x.pos ≠ pos) ∨
    (find c pos < c.count ∧ (c.slots (find c pos)).pos = pos) := by
  rcases findFrom_spec c.slots pos c.count 0 with ⟨e, g⟩ | ⟨_, b, d⟩
  · left
    refine ⟨by unfold find; omega, fun x hx => ?_⟩
    obtain ⟨i, hi, rfl⟩ := mem_live.1 hx
    exact g i (by omega) (by omega)
  · right; exact ⟨by unfold find; omega, d⟩

/-! ## The sweep -/

/-- The state of the sweep before entry `i`: `K` are the entries kept so far. -/
structure SweepInv (orig : Nat → Slot) (max i : Nat) (s : Sweep) (K : List Slot) : Prop where
  len : K.length + s.unmapped.length = i
  front : ∀ (j : Nat) (h : j < K.length), s.slots j = K[j]
  gap : ∀ j, K.length ≤ j → j < i → s.slots j = Slot.zero
  rest : ∀ j, i ≤ j → s.slots j = orig j
  empty : s.empty = if s.unmapped.length = 0 then max else K.length

theorem nextEmpty_stop {slots : Nat → Slot} {i e : Nat} (n : Nat) (h : ¬ (e < i ∧ (slots e).ptr ≠ 0)) :
    nextEmpty slots i e n = e := by
  cases n with
  | zero => rfl
  | succ n => unfold nextEmpty; rw [if_neg h]

theorem sweep_keep {orig : Nat → Slot} {max i count min : Nat} {s : Sweep} {K : List Slot} (hi : i < count) (hm : count ≤ max)
    (h : SweepInv orig max i s K) : SweepInv orig max (i + 1) (keepPage count i min s) (K ++ [reduce min (orig i)]) := by
  have ho : s.slots i = orig i := h.rest i (Nat.le_refl _)
  have hlen := h.len
  have hempty := h.empty
  by_cases hu : s.unmapped.length = 0
  · rw [if_pos hu] at hempty
    have hk : K.length = i := by omega
    unfold keepPage
    rw [if_neg (by omega)]
    constructor
    · simp; omega
    · intro j hj
      simp only [setSlot]
      by_cases hji : j = i
      · subst hji
        rw [if_pos rfl, List.getElem_append_right (by omega)]
        simp [ho]
      · rw [if_neg hji]
        have : j < K.length := by simp at hj; omega
        rw [List.getElem_append_left this]
        exact h.front j this
    · intro j h1 h2
      simp at h1; omega
    · intro j hj
      simp only [setSlot]
      rw [if_neg (by omega)]
      exact h.rest j (by omega)
    · show s.empty = _
      rw [hempty, if_pos hu]
  · rw [if_neg hu] at hempty
    have hk : K.length < i := by omega
    have hslots : ∀ j, (setSlot (setSlot s.slots s.empty (reduce min (s.slots i))) i Slot.zero) j
        = if j = i then Slot.zero else if j = K.length then reduce min (orig i) else s.slots j := by
      intro j
      simp only [setSlot, hempty, ho]
    unfold keepPage
    rw [if_pos (by omega)]
    constructor
    · simp; omega
    · intro j hj
      simp only
      rw [hslots]
      have hj' : j < K.length + 1 := by simpa using hj
      rw [if_neg (by omega)]
      by_cases hjk : j = K.length
      · rw [if_pos hjk]
        subst hjk
        simp
      · rw [if_neg hjk, List.getElem_append_left (by omega)]
        exact h.front j (by omega)
    · intro j h1 h2
      simp only
      rw [hslots]
      simp at h1
      by_cases hji : j = i
      · rw [if_pos hji]
      · rw [if_neg hji, if_neg (by omega)]
        exact h.gap j (by omega) (by omega)
    · intro j hj
      simp only
      rw [hslots, if_neg (by omega), if_neg (by omega)]
      exact h.rest j (by omega)
    · show nextEmpty _ _ _ _ = if s.unmapped.length = 0 then _ else _
      rw [if_neg hu, nextEmpty_stop]
      · simp [hempty]
      · rintro ⟨h1, h2⟩
        apply h2
        rw [hslots, if_neg (by omega), if_neg (by omega), h.gap _ (by omega) (by omega)]
        rfl

theorem sweep_unmap {orig : Nat → Slot} {max i : Nat} {s : Sweep} {K : List Slot}
    (h : SweepInv orig max i s K) : SweepInv orig max (i + 1) (unmapPage i s) K := by
  have hlen := h.len
  unfold unmapPage
  constructor
  · simp; omega
  · intro j hj
    simp only [setSlot]
    rw [if_neg (by omega)]
    exact h.front j hj
  · intro j h1 h2
    simp only [setSlot]
    by_cases hji : j = i
    · rw [if_pos hji]
    · rw [if_neg hji]; exact h.gap j h1 (by omega)
  · intro j hj
    simp only [setSlot]
    rw [if_neg (by omega)]
    exact h.rest j (by omega)
  · simp only [List.length_append, List.length_singleton]
    rw [if_neg (by omega : ¬ s.unmapped.length + 1 = 0)]
    by_cases hu : s.unmapped.length = 0
    · rw [if_pos hu]; omega
    · rw [if_neg hu]; have := h.empty; rw [if_neg hu] at this; exact this

/-- Sum of the keep counts. -/
def sumKeep (L : List Slot) : Nat := (L.map Slot.keep).sum

theorem sweepFrom_spec {orig : Nat → Slot} {max count min : Nat} (hm : count ≤ max) : ∀ (n i : Nat) (s : Sweep) (K : List Slot),
    i + n = count → SweepInv orig max i s K →
    SweepInv orig max count (sweepFrom count min i n s)
      (K ++ (((List.range' i n).map orig).filter (shouldKeep min)).map (reduce min)) ∧
    (sweepFrom count min i n s).unmapped
      = s.unmapped ++ (((List.range' i n).map orig).filter (fun x => !shouldKeep min x)).map Slot.ptr := by
  intro n
  induction n with
  | zero => intro i s K hi h; simp [sweepFrom]; exact (by omega : i = count) ▸ h
  | succ n ih =>
    intro i s K hi h
    have ho : s.slots i = orig i := h.rest i (Nat.le_refl _)
    unfold sweepFrom
    rw [ho, List.range'_succ, List.map_cons]
    by_cases hk : shouldKeep min (orig i)
    · rw [if_pos hk]
      obtain ⟨a, b⟩ := ih (i + 1) _ _ (by omega) (sweep_keep (min := min) (by omega) hm h)
      rw [List.filter_cons_of_pos hk, List.filter_cons_of_neg (by simp [hk])]
      refine ⟨by simpa using a, ?_⟩
      rw [b]
      congr 1
      unfold keepPage
      split <;> rfl
    · rw [if_neg hk]
      obtain ⟨a, b⟩ := ih (i + 1) _ _ (by omega) (sweep_unmap h)
      rw [List.filter_cons_of_neg hk, List.filter_cons_of_pos (by simp [hk])]
      refine ⟨a, ?_⟩
      rw [b]
      simp [unmapPage, ho]

theorem reduce_keep {min : Nat} {x : Slot} (hx : x.keep < 4294967296) : (reduce min x).keep + reduction min x = x.keep := by
  unfold reduce reduction sub32
  split <;> simp only
  · omega
  · omega

theorem sweepFrom_keep {orig : Nat → Slot} {max count min : Nat} (hm : count ≤ max) : ∀ (n i : Nat) (s : Sweep) (K : List Slot),
    i + n = count → SweepInv orig max i s K → s.keep < 4294967296 →
    sumKeep K + sumKeep ((List.range' i n).map orig) ≤ s.keep →
    sumKeep (K ++ (((List.range' i n).map orig).filter (shouldKeep min)).map (reduce min)) ≤ (sweepFrom count min i n s).keep ∧
    (sweepFrom count min i n s).keep ≤ s.keep := by
  intro n
  induction n with
  | zero => intro i s K hi h hs hsum; simp [sweepFrom, sumKeep] at hsum ⊢; exact hsum
  | succ n ih =>
    intro i s K hi h hs hsum
    have ho : s.slots i = orig i := h.rest i (Nat.le_refl _)
    unfold sweepFrom
    rw [ho]
    rw [List.range'_succ, List.map_cons] at hsum ⊢
    have hsum' : sumKeep K + ((orig i).keep + sumKeep ((List.range' (i + 1) n).map orig)) ≤ s.keep := by
      simpa [sumKeep] using hsum
    by_cases hk : shouldKeep min (orig i)
    · rw [if_pos hk, List.filter_cons_of_pos hk]
      have hr := reduce_keep (min := min) (x := orig i) (by omega)
      have hkeep : (keepPage count i min s).keep = s.keep - reduction min (orig i) := by
        have : (keepPage count i min s).keep = sub32 s.keep (reduction min (s.slots i)) := by
          unfold keepPage; split <;> rfl
        rw [this, ho]; unfold sub32; omega
      have hK : sumKeep (K ++ [reduce min (orig i)]) = sumKeep K + (reduce min (orig i)).keep := by simp [sumKeep]
      obtain ⟨a, b⟩ := ih (i + 1) _ _ (by omega) (sweep_keep (min := min) (by omega) hm h) (by omega) (by rw [hK, hkeep]; omega)
      refine ⟨by simpa using a, by omega⟩
    · rw [if_neg hk, List.filter_cons_of_neg hk]
      have hkeep : (unmapPage i s).keep = s.keep := rfl
      obtain ⟨a, b⟩ := ih (i + 1) _ _ (by omega) (sweep_unmap h) (by omega) (by rw [hkeep]; omega)
      exact ⟨a, by omega⟩

/-- `make_mapping_capacity(min)` keeps the entries that should be kept, in order, and unmaps the others. -/
theorem makeRoom_live {max min : Nat} {c : Cache} (hm : c.count ≤ max) :
    live (makeRoom max min c).1 = ((live c).filter (shouldKeep min)).map (reduce min) ∧
    (makeRoom max min c).2 = ((live c).filter (fun x => !shouldKeep min x)).map Slot.ptr := by
  have h0 : SweepInv c.slots max 0 ⟨c.slots, c.totals.keep, max, []⟩ [] :=
    ⟨rfl, fun j h => absurd h (by simp), fun j _ h => absurd h (by omega), fun j _ => rfl, rfl⟩
  obtain ⟨a, b⟩ := sweepFrom_spec (min := min) hm c.count 0 _ _ (by omega) h0
  have hl : live c = (List.range' 0 c.count).map c.slots := by rw [live, List.range_eq_range']
  simp only [List.nil_append] at a b
  rw [← hl] at a b
  refine ⟨?_, by unfold makeRoom; exact b⟩
  apply live_ext
  · unfold makeRoom
    simp only
    have := a.len
    omega
  · intro i hi
    exact a.front i hi

theorem makeRoom_keep {max min : Nat} {c : Cache} (hm : c.count ≤ max) (hk : c.totals.keep < 4294967296)
    (hs : sumKeep (live c) ≤ c.totals.keep) :
    sumKeep (live (makeRoom max min c).1) ≤ (makeRoom max min c).1.totals.keep ∧
    (makeRoom max min c).1.totals.keep ≤ c.totals.keep := by
  have h0 : SweepInv c.slots max 0 ⟨c.slots, c.totals.keep, max, []⟩ [] :=
    ⟨rfl, fun j h => absurd h (by simp), fun j _ h => absurd h (by omega), fun j _ => rfl, rfl⟩
  have hl : live c = (List.range' 0 c.count).map c.slots := by rw [live, List.range_eq_range']
  have := sweepFrom_keep (min := min) hm c.count 0 _ _ (by omega) h0 hk (by rw [← hl]; simpa [sumKeep] using hs)
  rw [(makeRoom_live hm).1, hl]
  simp only [List.nil_append] at this
  exact this

/-! ## Swapping -/

theorem setSlot_swap_live {c : Cache} {i j : Nat} (hi : i < c.count) (hj : j < c.count) (hij : j < i) :
    (live { c with slots := setSlot (setSlot c.slots j (c.slots i)) i (c.slots j) }).Perm (live c) := by
  have e : live { c with slots := setSlot (setSlot c.slots j (c.slots i)) i (c.slots j) }
      = ((live c).set j (c.slots i)).set i (c.slots j) := by
    apply live_ext
    · simp [length_live]
    · intro k hk
      simp only [setSlot, List.getElem_set]
      by_cases h1 : k = i
      · simp [h1]
      · have h1' : ¬ i = k := fun h => h1 h.symm
        by_cases h2 : k = j
        · subst h2
          rw [if_neg h1, if_pos rfl, if_neg h1', if_pos rfl]
        · have h2' : ¬ j = k := fun h => h2 h.symm
          simp [h1, h1', h2, h2', live_get]
  rw [e]
  have h := List.set_set_perm (as := live c) (i := i) (j := j) (by rw [length_live]; omega) (by rw [length_live]; omega)
  rw [live_get, live_get] at h
  rw [List.set_comm _ _ (by omega)]
  exact h

theorem optimizeFrom_live {c : Cache} {i : Nat} (hi : i < c.count) : ∀ n j, j + n = i →
    (live { c with slots := optimizeFrom c.slots i j n }).Perm (live c) := by
  intro n
  induction n with
  | zero => intro j _; exact List.Perm.refl _
  | succ n ih =>
    intro j hj
    unfold optimizeFrom
    split
    · exact setSlot_swap_live hi (by omega) (by omega)
    · exact ih (j + 1) (by omega)

theorem optimize_live {c : Cache} {i : Nat} (hi : i < c.count) : (live (optimize c i)).Perm (live c) :=
  optimizeFrom_live hi i 0 (by omega)

theorem logTotals_slots (log : Bool) (c : Cache) : (logTotals log c).slots = c.slots ∧ (logTotals log c).count = c.count ∧
    (logTotals log c).totals = c.totals := by
  unfold logTotals; split <;> exact ⟨rfl, rfl, rfl⟩

theorem logTotals_live (log : Bool) (c : Cache) : live (logTotals log c) = live c := by
  unfold live; rw [(logTotals_slots log c).1, (logTotals_slots log c).2.1]

theorem setSlot_live {c : Cache} {i : Nat} (x : Slot) :
    live { c with slots := setSlot c.slots i x } = (live c).set i x := by
  apply live_ext
  · simp [length_live]
  · intro k hk
    simp only [setSlot, List.getElem_set]
    by_cases h1 : k = i
    · rw [if_pos h1, if_pos h1.symm]
    · rw [if_neg h1, if_neg (fun h => h1 h.symm), live_get]

theorem mapNew_live (c : Cache) (pos addr : Nat) : live (mapNew c c.count pos addr) = live c ++ [⟨pos, addr, 1, 1⟩] := by
  apply live_ext
  · simp [length_live, mapNew]
  · intro k hk
    simp only [mapNew, setSlot]
    have hk' : k < c.count + 1 := by simpa [length_live] using hk
    by_cases h : k = c.count
    · rw [if_pos h, List.getElem_append_right (by rw [length_live]; omega)]; simp
    · rw [if_neg h, List.getElem_append_left (by rw [length_live]; omega), live_get]

end Abc.Vmem.Pool
