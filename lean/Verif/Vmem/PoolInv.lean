import Verif.Vmem.PoolLemmas

/-!
# The invariant of the mapping cache
-/

namespace Abc.Vmem.Pool

/-- Invariant that ties the entries in use to the mappings of the process and to the pointers held. -/
structure LInv (max : Nat) (L : List Slot) (maps : Nat → Option Nat) (held : List (Nat × Nat)) : Prop where
  len : L.length ≤ max
  nodup : (L.map Slot.pos).Nodup
  ptr : ∀ x ∈ L, x.ptr ≠ 0
  mapped : ∀ x ∈ L, maps x.ptr = some x.pos
  only : ∀ a q, maps a = some q → ∃ x ∈ L, x.ptr = a
  locks : ∀ x ∈ L, x.lock = held.countP (fun h => h.1 == x.pos)
  held : ∀ h ∈ held, ∃ x ∈ L, x.pos = h.1 ∧ x.ptr = h.2

theorem LInv.perm {max : Nat} {L L' : List Slot} {maps : Nat → Option Nat} {held : List (Nat × Nat)} (hp : L'.Perm L)
    (h : LInv max L maps held) : LInv max L' maps held where
  len := by rw [hp.length_eq]; exact h.len
  nodup := (hp.map Slot.pos).nodup_iff.2 h.nodup
  ptr x hx := h.ptr x (hp.mem_iff.1 hx)
  mapped x hx := h.mapped x (hp.mem_iff.1 hx)
  only a q e := by obtain ⟨x, hx, r⟩ := h.only a q e; exact ⟨x, hp.mem_iff.2 hx, r⟩
  locks x hx := h.locks x (hp.mem_iff.1 hx)
  held k hk := by obtain ⟨x, hx, r⟩ := h.held k hk; exact ⟨x, hp.mem_iff.2 hx, r⟩

theorem pos_inj {L : List Slot} (h : (L.map Slot.pos).Nodup) {x y : Slot} (hx : x ∈ L) (hy : y ∈ L) (e : x.pos = y.pos) :
    x = y := List.inj_on_of_nodup_map h hx hy e

theorem LInv.ptr_inj {max : Nat} {L : List Slot} {maps : Nat → Option Nat} {held : List (Nat × Nat)}
    (h : LInv max L maps held) {x y : Slot} (hx : x ∈ L) (hy : y ∈ L) (e : x.ptr = y.ptr) : x = y := by
  apply pos_inj h.nodup hx hy
  have h1 := h.mapped x hx
  have h2 := h.mapped y hy
  rw [e, h2] at h1
  exact (Option.some.inj h1).symm

theorem set_eq_map {L : List Slot} (h : (L.map Slot.pos).Nodup) {i : Nat} (hi : i < L.length) (f : Slot → Slot) :
    L.set i (f L[i]) = L.map (fun y => if y.pos = L[i].pos then f y else y) := by
  apply List.ext_getElem
  · simp
  · intro j h1 h2
    have hj : j < L.length := by simpa using h1
    rw [List.getElem_set, List.getElem_map]
    by_cases hij : i = j
    · subst hij; rw [if_pos rfl, if_pos rfl]
    · rw [if_neg hij]
      have : L[j].pos ≠ L[i].pos := by
        intro e
        have := (List.Nodup.getElem_inj_iff h (i := j) (hi := by simpa using hj) (j := i) (hj := by simpa using hi)).1 (by simpa using e)
        exact hij this.symm
      rw [if_neg this]

/-- One entry is replaced by one with the same page, address and an adapted lock count. -/
theorem LInv.set {max : Nat} {L : List Slot} {maps : Nat → Option Nat} {held held' : List (Nat × Nat)}
    (h : LInv max L maps held) {i : Nat} (hi : i < L.length) {x : Slot} (hp : x.pos = L[i].pos) (hq : x.ptr = L[i].ptr)
    (hl : x.lock = held'.countP (fun h => h.1 == x.pos))
    (hc : ∀ q, q ≠ L[i].pos → held'.countP (fun h => h.1 == q) = held.countP (fun h => h.1 == q))
    (hh : ∀ k ∈ held', k ∈ held ∨ k = (L[i].pos, L[i].ptr)) :
    LInv max (L.set i x) maps held' := by
  have e : L.set i x = L.map (fun y => if y.pos = L[i].pos then x else y) := set_eq_map h.nodup hi (fun _ => x)
  have hmem : ∀ y ∈ L.set i x, y = x ∨ (y ∈ L ∧ y.pos ≠ L[i].pos) := by
    intro y hy
    rw [e] at hy
    obtain ⟨z, hz, rfl⟩ := List.mem_map.1 hy
    by_cases hzp : z.pos = L[i].pos
    · rw [if_pos hzp]; exact Or.inl rfl
    · rw [if_neg hzp]; exact Or.inr ⟨hz, hzp⟩
  have hx : x ∈ L.set i x := List.mem_set hi x
  have hL : L[i] ∈ L := List.getElem_mem hi
  have hkeep : ∀ y ∈ L, ∃ z ∈ L.set i x, z.pos = y.pos ∧ z.ptr = y.ptr := by
    intro y hy
    by_cases hyp : y.pos = L[i].pos
    · have := pos_inj h.nodup hy hL hyp
      exact ⟨x, hx, by rw [hp, this], by rw [hq, this]⟩
    · refine ⟨y, ?_, rfl, rfl⟩
      rw [e]
      exact List.mem_map.2 ⟨y, hy, by rw [if_neg hyp]⟩
  constructor
  · simpa using h.len
  · have : (L.set i x).map Slot.pos = L.map Slot.pos := by
      rw [e, List.map_map]
      apply List.map_congr_left
      intro y hy
      simp only [Function.comp]
      split
      · next h1 => rw [hp, h1]
      · rfl
    rw [this]; exact h.nodup
  · intro y hy
    rcases hmem y hy with rfl | ⟨hy, _⟩
    · rw [hq]; exact h.ptr _ hL
    · exact h.ptr y hy
  · intro y hy
    rcases hmem y hy with rfl | ⟨hy, _⟩
    · rw [hp, hq]; exact h.mapped _ hL
    · exact h.mapped y hy
  · intro a q ha
    obtain ⟨y, hy, rfl⟩ := h.only a q ha
    obtain ⟨z, hz, _, r⟩ := hkeep y hy
    exact ⟨z, hz, r⟩
  · intro y hy
    rcases hmem y hy with rfl | ⟨hy, hne⟩
    · exact hl
    · rw [hc _ hne]; exact h.locks y hy
  · intro k hk
    rcases hh k hk with hk | rfl
    · obtain ⟨y, hy, r1, r2⟩ := h.held k hk
      obtain ⟨z, hz, s1, s2⟩ := hkeep y hy
      exact ⟨z, hz, s1.trans r1, s2.trans r2⟩
    · exact ⟨x, hx, hp, hq⟩

theorem countP_append_one (held : List (Nat × Nat)) (p a q : Nat) :
    (held ++ [(p, a)]).countP (fun h => h.1 == q) = held.countP (fun h => h.1 == q) + if p = q then 1 else 0 := by
  rw [List.countP_append]
  simp [List.countP_cons]

/-- The sweep. -/
theorem LInv.sweep {max min : Nat} {L : List Slot} {maps : Nat → Option Nat} {held : List (Nat × Nat)} (h : LInv max L maps held) :
    LInv max ((L.filter (shouldKeep min)).map (reduce min))
      (unmapAll maps ((L.filter (fun x => !shouldKeep min x)).map Slot.ptr)) held := by
  have hr : ∀ x, (reduce min x).pos = x.pos ∧ (reduce min x).ptr = x.ptr ∧ (reduce min x).lock = x.lock := by
    intro x; unfold reduce; split <;> exact ⟨rfl, rfl, rfl⟩
  have hmem : ∀ y ∈ (L.filter (shouldKeep min)).map (reduce min), ∃ x ∈ L, shouldKeep min x = true ∧ y = reduce min x := by
    intro y hy
    obtain ⟨x, hx, rfl⟩ := List.mem_map.1 hy
    rw [List.mem_filter] at hx
    exact ⟨x, hx.1, hx.2, rfl⟩
  constructor
  · rw [List.length_map]; exact Nat.le_trans (List.length_filter_le _ _) h.len
  · rw [List.map_map]
    have : (Slot.pos ∘ reduce min) = Slot.pos := by funext x; exact (hr x).1
    rw [this]
    exact h.nodup.sublist (List.filter_sublist.map _)
  · intro y hy
    obtain ⟨x, hx, _, rfl⟩ := hmem y hy
    rw [(hr x).2.1]; exact h.ptr x hx
  · intro y hy
    obtain ⟨x, hx, hk, rfl⟩ := hmem y hy
    rw [(hr x).2.1, (hr x).1]
    unfold unmapAll
    rw [if_neg]
    · exact h.mapped x hx
    · intro hm
      obtain ⟨z, hz, e⟩ := List.mem_map.1 hm
      rw [List.mem_filter] at hz
      have := h.ptr_inj hz.1 hx e
      subst this
      rw [hk] at hz
      exact absurd hz.2 (by simp)
  · intro a q ha
    unfold unmapAll at ha
    by_cases hm : a ∈ (L.filter (fun x => !shouldKeep min x)).map Slot.ptr
    · rw [if_pos hm] at ha; cases ha
    · rw [if_neg hm] at ha
      obtain ⟨x, hx, rfl⟩ := h.only a q ha
      have hk : shouldKeep min x = true := by
        by_contra hn
        exact hm (List.mem_map.2 ⟨x, List.mem_filter.2 ⟨hx, by simpa using hn⟩, rfl⟩)
      exact ⟨reduce min x, List.mem_map.2 ⟨x, List.mem_filter.2 ⟨hx, hk⟩, rfl⟩, (hr x).2.1⟩
  · intro y hy
    obtain ⟨x, hx, _, rfl⟩ := hmem y hy
    rw [(hr x).2.2, (hr x).1]; exact h.locks x hx
  · intro k hk
    obtain ⟨x, hx, r1, r2⟩ := h.held k hk
    have hpos : 0 < x.lock := by
      rw [h.locks x hx]
      exact List.countP_pos_iff.2 ⟨k, hk, by simp [r1]⟩
    have hkeep : shouldKeep min x = true := by unfold shouldKeep; simp [hpos]
    exact ⟨reduce min x, List.mem_map.2 ⟨x, List.mem_filter.2 ⟨hx, hkeep⟩, rfl⟩, (hr x).1.trans r1, (hr x).2.1.trans r2⟩

/-- A new entry. -/
theorem LInv.push {max : Nat} {L : List Slot} {maps : Nat → Option Nat} {held : List (Nat × Nat)} (h : LInv max L maps held)
    {pos addr k : Nat} (hlen : L.length < max) (hpos : ∀ x ∈ L, x.pos ≠ pos) (h0 : addr ≠ 0) (hf : addr ≠ mapFailed)
    (hfresh : maps addr = none) : LInv max (L ++ [⟨pos, addr, 1, k⟩]) (mapAt maps addr pos) (held ++ [(pos, addr)]) := by
  have hm : ∀ a, mapAt maps addr pos a = if a = addr then some pos else maps a := by
    intro a; unfold mapAt; rw [if_neg hf]
  have hold : ∀ x ∈ L, x.ptr ≠ addr := by
    intro x hx e
    have := h.mapped x hx
    rw [e, hfresh] at this
    cases this
  constructor
  · simp; omega
  · rw [List.map_append, List.nodup_append]
    refine ⟨h.nodup, by simp, ?_⟩
    intro a ha b hb
    obtain ⟨x, hx, rfl⟩ := List.mem_map.1 ha
    simp at hb
    rw [hb]
    exact hpos x hx
  · intro x hx
    rcases List.mem_append.1 hx with hx | hx
    · exact h.ptr x hx
    · simp at hx; subst hx; exact h0
  · intro x hx
    rw [hm]
    rcases List.mem_append.1 hx with hx | hx
    · rw [if_neg (hold x hx)]; exact h.mapped x hx
    · simp at hx; subst hx; rw [if_pos rfl]
  · intro a q ha
    rw [hm] at ha
    by_cases e : a = addr
    · exact ⟨⟨pos, addr, 1, k⟩, by simp, e.symm⟩
    · rw [if_neg e] at ha
      obtain ⟨x, hx, r⟩ := h.only a q ha
      exact ⟨x, by simp [hx], r⟩
  · intro x hx
    rw [countP_append_one]
    rcases List.mem_append.1 hx with hx | hx
    · rw [if_neg (fun e => hpos x hx e.symm)]; exact h.locks x hx
    · simp at hx; subst hx
      rw [if_pos rfl]
      have : held.countP (fun h => h.1 == pos) = 0 := by
        rw [List.countP_eq_zero]
        intro k hk e
        obtain ⟨y, hy, r, _⟩ := h.held k hk
        simp at e
        exact hpos y hy (r.trans e)
      simp [this]
  · intro q hq
    rcases List.mem_append.1 hq with hq | hq
    · obtain ⟨x, hx, r⟩ := h.held q hq
      exact ⟨x, by simp [hx], r⟩
    · simp at hq; subst hq
      exact ⟨⟨pos, addr, 1, k⟩, by simp, rfl, rfl⟩

/-! ## Steps -/

/-- The invariant of the process. -/
def Inv {α : Type} (max : Nat) (w : World α) : Prop :=
  LInv max (live w.cache) w.maps w.held ∧ w.held.length < 4294967296

theorem inv_init {α : Type} (max : Nat) (file : Nat → α) : Inv max (World.init file) := by
  have : live (World.init file).cache = [] := rfl
  unfold Inv
  rw [this]
  refine ⟨?_, by show 0 < _; omega⟩
  exact ⟨by simp, by simp, by simp, by simp, (fun a q h => by cases h), by simp, (fun h hh => by cases hh)⟩

/-- What the environment guarantees for an action: `mmap` returns a fresh valid address and the number
of pointers held fits the lock counters. -/
def GoodAct {α : Type} (max : Nat) (log : Bool) (w : World α) : Act α → Prop
  | .lock pos addr => addr ≠ 0 ∧ addr ≠ mapFailed ∧
      unmapAll w.maps (lockPage max log w.cache pos addr).unmapped addr = none ∧ w.held.length + 1 < 4294967296
  | .unlock _ => True
  | .write _ _ => True

/-- The environment guarantees hold along a history. -/
def GoodRun {α : Type} (max : Nat) (log : Bool) (w : World α) : List (Act α) → Prop
  | [] => True
  | a :: as => GoodAct max log w a ∧ GoodRun max log (step max log w a) as

theorem live_totals (c : Cache) (t : Totals) : live { c with totals := t } = live c := rfl
theorem live_countCheck (c : Cache) (i : Nat) : live (countCheck c i) = live c := rfl

theorem unmapAll_append (maps : Nat → Option Nat) (as bs : List Nat) :
    unmapAll (unmapAll maps as) bs = unmapAll maps (as ++ bs) := by
  funext a
  unfold unmapAll
  by_cases h1 : a ∈ as <;> by_cases h2 : a ∈ bs <;> simp [h1, h2]

theorem unmapAll_nil (maps : Nat → Option Nat) : unmapAll maps [] = maps := by
  funext a; unfold unmapAll; simp

theorem makeCapacity_inv {max : Nat} {c : Cache} {maps : Nat → Option Nat} {held : List (Nat × Nat)}
    (h : LInv max (live c) maps held) :
    LInv max (live (makeCapacity max c).1) (unmapAll maps (makeCapacity max c).2) held := by
  have hc : c.count ≤ max := by have := h.len; rwa [length_live] at this
  obtain ⟨a, b⟩ := makeRoom_live (min := c.totals.keep / c.count) hc
  have h1 := h.sweep (min := c.totals.keep / c.count)
  rw [← a, ← b] at h1
  unfold makeCapacity
  simp only
  by_cases hr : 0 < (makeRoom max (c.totals.keep / c.count) c).2.length
  · rw [if_pos hr]; exact h1
  · rw [if_neg hr]
    generalize (makeRoom max (c.totals.keep / c.count) c) = r at *
    have hc' : r.1.count ≤ max := by have := h1.len; rwa [length_live] at this
    obtain ⟨a', b'⟩ := makeRoom_live (min := w32 (r.1.totals.keep + 1)) hc'
    have h2 := h1.sweep (min := w32 (r.1.totals.keep + 1))
    rw [← a', ← b', unmapAll_append] at h2
    exact h2

/-- The pages that stay mapped are among those mapped before. -/
theorem makeRoom_pos {max min : Nat} {c : Cache} (hc : c.count ≤ max) :
    ∀ x ∈ live (makeRoom max min c).1, ∃ y ∈ live c, y.pos = x.pos := by
  intro x hx
  rw [(makeRoom_live hc).1] at hx
  obtain ⟨y, hy, rfl⟩ := List.mem_map.1 hx
  refine ⟨y, (List.mem_filter.1 hy).1, ?_⟩
  unfold reduce; split <;> rfl

theorem makeRoom_count {max min : Nat} {c : Cache} : (makeRoom max min c).1.count ≤ c.count := by
  unfold makeRoom; simp only; omega

theorem makeCapacity_pos {max : Nat} {c : Cache} (hc : c.count ≤ max) :
    ∀ x ∈ live (makeCapacity max c).1, ∃ y ∈ live c, y.pos = x.pos := by
  unfold makeCapacity
  simp only
  by_cases hr : 0 < (makeRoom max (c.totals.keep / c.count) c).2.length
  · rw [if_pos hr]; exact makeRoom_pos hc
  · rw [if_neg hr]
    intro x hx
    obtain ⟨y, hy, e⟩ := makeRoom_pos (Nat.le_trans makeRoom_count hc) x hx
    obtain ⟨z, hz, e'⟩ := makeRoom_pos hc y hy
    exact ⟨z, hz, e'.trans e⟩

theorem lockAt_found {log : Bool} {c : Cache} {i pos addr max : Nat} {maps : Nat → Option Nat} {held : List (Nat × Nat)}
    (h : LInv max (live c) maps held) (hi : i < c.count) (hp : (c.slots i).pos = pos) (hn : held.length + 1 < 4294967296) :
    LInv max (live (lockAt log c i pos addr).1) maps (held ++ [(pos, (lockAt log c i pos addr).2)]) ∧
    (lockAt log c i pos addr).2 ≠ 0 := by
  have hil : i < (live c).length := by rw [length_live]; exact hi
  have hg : (live c)[i] = c.slots i := live_get c hil
  have hmem : c.slots i ∈ live c := mem_live.2 ⟨i, hi, rfl⟩
  unfold lockAt
  rw [if_pos hi]
  refine ⟨?_, h.ptr _ hmem⟩
  rw [logTotals_live]
  apply LInv.perm (optimize_live (by exact hi))
  have : live (lockMapped c i) = (live c).set i { c.slots i with lock := w32 ((c.slots i).lock + 1), keep := w32 ((c.slots i).keep + 1) } :=
    setSlot_live (c := c) _
  rw [this]
  have hcount := h.locks _ hmem
  have hle : held.countP (fun h => h.1 == (c.slots i).pos) ≤ held.length := List.countP_le_length
  apply h.set hil
  · rw [hg]
  · rw [hg]
  · simp only
    rw [countP_append_one, if_pos hp.symm, ← hcount]
    unfold w32
    omega
  · intro q hq
    rw [countP_append_one, if_neg]
    · rfl
    · intro e; apply hq; rw [hg, hp, e]
  · intro k hk
    rcases List.mem_append.1 hk with hk | hk
    · exact Or.inl hk
    · right; simp at hk; rw [hk, hg, hp]

theorem lockAt_new {log : Bool} {c : Cache} {pos addr max : Nat} {maps : Nat → Option Nat} {held : List (Nat × Nat)}
    (h : LInv max (live c) maps held) (hc : c.count < max) (hp : ∀ x ∈ live c, x.pos ≠ pos)
    (h0 : addr ≠ 0) (hf : addr ≠ mapFailed) (hfresh : maps addr = none) :
    LInv max (live (lockAt log c c.count pos addr).1) (mapAt maps addr pos)
      (held ++ [(pos, (lockAt log c c.count pos addr).2)]) ∧ (lockAt log c c.count pos addr).2 ≠ 0 := by
  unfold lockAt
  rw [if_neg (Nat.lt_irrefl _)]
  refine ⟨?_, h0⟩
  rw [logTotals_live]
  apply LInv.perm (optimize_live (by show c.count < c.count + 1; omega))
  rw [mapNew_live]
  exact h.push (by rw [length_live]; exact hc) hp h0 hf hfresh

theorem step_lock_inv {α : Type} {max : Nat} {log : Bool} {w : World α} {pos addr : Nat} (h : Inv max w)
    (hg : GoodAct max log w (.lock pos addr)) : Inv max (step max log w (.lock pos addr)) := by
  obtain ⟨h0, hf, hfresh, hn⟩ := hg
  suffices hh : LInv max (live (step max log w (.lock pos addr)).cache) (step max log w (.lock pos addr)).maps
      (step max log w (.lock pos addr)).held by
    refine ⟨hh, ?_⟩
    simp only [step]
    split
    · omega
    · simp; omega
  have h := h.1
  simp only [step]
  rw [lockPage] at hfresh ⊢
  simp only at hfresh ⊢
  have hl : live (countCheck w.cache (find w.cache pos)) = live w.cache := rfl
  have hcnt : (countCheck w.cache (find w.cache pos)).count = w.cache.count := rfl
  rcases find_spec w.cache pos with ⟨hfind, hno⟩ | ⟨hfind, hyes⟩
  · rw [if_neg (by rw [hcnt, hfind]; omega)] at hfresh ⊢
    generalize hm : (if (countCheck w.cache (find w.cache pos)).count < max then (countCheck w.cache (find w.cache pos), [])
      else makeCapacity max (countCheck w.cache (find w.cache pos))) = m at *
    have hinv : LInv max (live m.1) (unmapAll w.maps m.2) w.held ∧ ∀ x ∈ live m.1, x.pos ≠ pos := by
      by_cases hlt : (countCheck w.cache (find w.cache pos)).count < max
      · rw [if_pos hlt] at hm
        subst hm
        rw [unmapAll_nil]
        exact ⟨h, hno⟩
      · rw [if_neg hlt] at hm
        subst hm
        refine ⟨makeCapacity_inv (by rw [hl]; exact h), ?_⟩
        intro x hx
        obtain ⟨y, hy, e⟩ := makeCapacity_pos (by have := h.len; rwa [length_live] at this) x hx
        rw [← e]; exact hno y hy
    by_cases hlt : m.1.count < max
    · rw [if_pos hlt] at hfresh ⊢
      simp only at hfresh ⊢
      obtain ⟨a, b⟩ := lockAt_new (log := log) hinv.1 hlt hinv.2 h0 hf hfresh
      rw [if_neg b]
      exact a
    · rw [if_neg hlt]
      simp only [if_true, Bool.false_eq_true, if_false]
      exact hinv.1
  · rw [if_pos (by rw [hcnt]; exact hfind)]
    simp only [Bool.false_eq_true, if_false]
    rw [unmapAll_nil]
    obtain ⟨a, b⟩ := lockAt_found (log := log) (addr := addr) (c := countCheck w.cache (find w.cache pos)) h hfind hyes hn
    rw [if_neg b]
    exact a

theorem countP_eraseIdx {held : List (Nat × Nat)} {k : Nat} {h : Nat × Nat} (hk : held[k]? = some h) (q : Nat) :
    held.countP (fun h => h.1 == q) = (held.eraseIdx k).countP (fun h => h.1 == q) + if h.1 = q then 1 else 0 := by
  induction held generalizing k with
  | nil => simp at hk
  | cons a t ih =>
    cases k with
    | zero =>
      simp at hk
      subst hk
      simp [List.countP_cons]
    | succ k =>
      simp at hk
      rw [List.eraseIdx_cons_succ, List.countP_cons, List.countP_cons, ih hk]
      omega

theorem unlock_inv {log : Bool} {c : Cache} {max : Nat} {maps : Nat → Option Nat} {held : List (Nat × Nat)} {k : Nat}
    {hd : Nat × Nat} (h : LInv max (live c) maps held) (hk : held[k]? = some hd) (hn : held.length < 4294967296) :
    LInv max (live (unlockPage log c hd.1).1) maps (held.eraseIdx k) ∧ (unlockPage log c hd.1).2 = true := by
  have hmem : hd ∈ held := List.mem_of_getElem? hk
  obtain ⟨x, hx, hxp, hxq⟩ := h.held hd hmem
  unfold unlockPage
  simp only
  have hf : find { c with totals := { c.totals with unlock := w32 (c.totals.unlock + 1) } } hd.1 = find c hd.1 := rfl
  rcases find_spec c hd.1 with ⟨_, hno⟩ | ⟨hfind, hyes⟩
  · exact absurd hxp (hno x hx)
  · rw [if_pos (by rw [hf]; exact hfind)]
    refine ⟨?_, rfl⟩
    rw [logTotals_live, hf]
    generalize find c hd.1 = i at *
    have hil : i < (live c).length := by rw [length_live]; exact hfind
    have hg : (live c)[i] = c.slots i := live_get c hil
    have hm : c.slots i ∈ live c := mem_live.2 ⟨i, hfind, rfl⟩
    have : live (unlockMapped (countCheck { c with totals := { c.totals with unlock := w32 (c.totals.unlock + 1) } } i) i)
        = (live c).set i { c.slots i with lock := sub32 (c.slots i).lock 1 } :=
      setSlot_live (c := c) _
    rw [this]
    have hcount := h.locks _ hm
    have he := countP_eraseIdx hk (c.slots i).pos
    rw [if_pos hyes.symm] at he
    have hpc : (live c)[i] = x := by
      rw [hg]; exact pos_inj h.nodup hm hx (hyes.trans hxp.symm)
    apply h.set hil
    · rw [hg]
    · rw [hg]
    · simp only
      have hle : held.countP (fun h => h.1 == (c.slots i).pos) ≤ held.length := List.countP_le_length
      unfold sub32
      omega
    · intro q hq
      have := countP_eraseIdx hk q
      rw [if_neg] at this
      · omega
      · intro e; apply hq; rw [hg, hyes, e]
    · intro q hq
      exact Or.inl (List.eraseIdx_subset hq)

theorem step_inv {α : Type} {max : Nat} {log : Bool} {w : World α} {a : Act α} (h : Inv max w) (hg : GoodAct max log w a) :
    Inv max (step max log w a) := by
  cases a with
  | lock pos addr => exact step_lock_inv h hg
  | unlock k =>
    simp only [step]
    cases hk : w.held[k]? with
    | none => exact h
    | some hd =>
      refine ⟨(unlock_inv h.1 hk h.2).1, ?_⟩
      exact Nat.lt_of_le_of_lt (List.eraseIdx_sublist ..).length_le h.2
  | write k v =>
    simp only [step]
    cases hk : w.held[k]? with
    | none => exact h
    | some hd => simp only; cases w.maps hd.2 <;> exact h

theorem run_cons {α : Type} (max : Nat) (log : Bool) (w : World α) (a : Act α) (as : List (Act α)) :
    run max log w (a :: as) = run max log (step max log w a) as := rfl

theorem run_inv {α : Type} {max : Nat} {log : Bool} {as : List (Act α)} {w : World α} (h : Inv max w)
    (hg : GoodRun max log w as) : Inv max (run max log w as) := by
  induction as generalizing w with
  | nil => exact h
  | cons a as ih => exact ih (step_inv h hg.1) hg.2

end Abc.Vmem.Pool
