import Verif.Vmem.PoolProps

/-!
# C20, C58: what happens when the 32-bit counters of the pool wrap
-/

namespace Abc.Vmem.Pool

/-- An array given by its first entries. -/
def tab (L : List Slot) : Nat → Slot := fun j => (L[j]?).getD Slot.zero

theorem tab_get {L : List Slot} {i : Nat} {x : Slot} (h : L[i]? = some x) : tab L i = x := by simp [tab, h]

theorem setSlot_tab {L : List Slot} {i : Nat} (h : i < L.length) (x : Slot) : setSlot (tab L) i x = tab (L.set i x) := by
  funext j
  simp only [setSlot, tab, List.getElem?_set]
  by_cases hj : j = i
  · subst hj; simp [h]
  · have hj' : ¬ i = j := fun e => hj e.symm
    simp [hj, hj']

theorem setSlot_tab_length (L : List Slot) (x : Slot) : setSlot (tab L) L.length x = tab (L ++ [x]) := by
  funext j
  simp only [setSlot, tab]
  by_cases hj : j = L.length
  · subst hj; simp
  · rw [if_neg hj]
    by_cases hlt : j < L.length
    · rw [List.getElem?_append_left hlt]
    · rw [List.getElem?_eq_none (by omega), List.getElem?_eq_none (by simp; omega)]

theorem optimizeFrom_id {slots : Nat → Slot} {i : Nat} : ∀ n j, j + n = i →
    (∀ k, k < i → (slots i).keep ≤ (slots k).keep) → optimizeFrom slots i j n = slots := by
  intro n
  induction n with
  | zero => intro j _ _; rfl
  | succ n ih =>
    intro j hj h
    unfold optimizeFrom
    have := h j (by omega)
    rw [if_neg (by omega)]
    exact ih (j + 1) (by omega) h

theorem findFrom_eq {slots : Nat → Slot} {pos i : Nat} (hp : (slots i).pos = pos) (hno : ∀ j, j < i → (slots j).pos ≠ pos) :
    ∀ n j, j ≤ i → i < j + n → findFrom slots pos j n = i := by
  intro n
  induction n with
  | zero => intro j h1 h2; omega
  | succ n ih =>
    intro j h1 h2
    unfold findFrom
    by_cases hj : j = i
    · subst hj; rw [if_pos hp]
    · rw [if_neg (hno j (by omega))]; exact ih (j + 1) (by omega) (by omega)

theorem find_eq {c : Cache} {pos i : Nat} (hi : i < c.count) (hp : (c.slots i).pos = pos)
    (hno : ∀ j, j < i → (c.slots j).pos ≠ pos) : find c pos = i := findFrom_eq hp hno _ 0 (Nat.zero_le _) (by omega)

theorem find_none {c : Cache} {pos : Nat} (hno : ∀ j, j < c.count → (c.slots j).pos ≠ pos) : find c pos = c.count := by
  rcases find_spec c pos with h | h
  · exact h.1
  · exact absurd h.2 (hno _ h.1)

/-- The relevant part of a process in which nobody holds a pointer. -/
structure At {α : Type} (w : World α) (L : List Slot) (t h m u : Nat) (M : Nat → Option Nat) : Prop where
  held : w.held = []
  slots : w.cache.slots = tab L
  count : w.cache.count = L.length
  keep : w.cache.totals.keep = t
  hit : w.cache.totals.hit = h
  miss : w.cache.totals.miss = m
  unlock : w.cache.totals.unlock = u
  maps : w.maps = M
  fault : w.cache.fault = false

theorem logTotals_id {log : Bool} {c : Cache} (h : log = false ∨
    (0 < c.totals.hit + c.totals.miss ∧ c.totals.hit + c.totals.miss + c.totals.unlock < 4294967296)) : logTotals log c = c := by
  unfold logTotals
  rcases h with rfl | ⟨h1, h2⟩
  · rfl
  · rw [if_neg]
    have e1 : ¬ w32 (c.totals.hit + c.totals.miss) = 0 := by unfold w32; omega
    have e2 : ¬ w32 (w32 (c.totals.hit + c.totals.miss) + c.totals.unlock) = 0 := by unfold w32; omega
    rw [decide_eq_false e1, decide_eq_false e2]
    simp

/-- `lock_page` of a page that is mapped. -/
theorem lockPage_hit {max : Nat} {log : Bool} {c : Cache} {L : List Slot} {i p q K a : Nat} (hs : c.slots = tab L) (hc : c.count = L.length)
    (hi : L[i]? = some ⟨p, q, 0, K⟩) (hno : ∀ j x, j < i → L[j]? = some x → x.pos ≠ p ∧ K + 1 ≤ x.keep)
    (hK : K + 1 < 4294967296)
    (hlog : log = false ∨ c.totals.hit + c.totals.miss + c.totals.unlock + 1 < 4294967296) :
    lockPage max log c p a = ⟨Cache.mk (tab (L.set i ⟨p, q, 1, K + 1⟩)) c.count ⟨w32 (c.totals.keep + 1), w32 (c.totals.hit + 1), c.totals.miss, c.totals.unlock, w32 (c.totals.check + i + 1)⟩ c.fault,
      q, [], false⟩ := by
  have hil : i < L.length := (List.getElem?_eq_some_iff.1 hi).1
  have hti : tab L i = ⟨p, q, 0, K⟩ := tab_get hi
  have hget : ∀ j, j < i → ∃ x, L[j]? = some x ∧ tab L j = x := fun j hj =>
    ⟨L[j], List.getElem?_eq_getElem (by omega), tab_get (List.getElem?_eq_getElem (by omega))⟩
  have hfind : find c p = i := by
    apply find_eq (by omega)
    · rw [hs, hti]
    · intro j hj
      obtain ⟨x, hx, e⟩ := hget j hj
      rw [hs, e]
      exact (hno j x hj hx).1
  rw [lockPage]
  simp only
  rw [hfind, if_pos (show i < (countCheck c i).count from by show i < c.count; omega)]
  unfold lockAt
  rw [if_pos (show i < (countCheck c i).count from by show i < c.count; omega)]
  have e1 : lockMapped (countCheck c i) i = Cache.mk (tab (L.set i ⟨p, q, 1, K + 1⟩)) c.count ⟨w32 (c.totals.keep + 1), w32 (c.totals.hit + 1), c.totals.miss, c.totals.unlock, w32 (c.totals.check + i + 1)⟩ c.fault := by
    simp only [lockMapped, countCheck, hs, hti]
    rw [setSlot_tab hil]
    have : w32 (K + 1) = K + 1 := by unfold w32; omega
    rw [this]
    rfl
  rw [e1]
  have e2 : optimize (Cache.mk (tab (L.set i ⟨p, q, 1, K + 1⟩)) c.count ⟨w32 (c.totals.keep + 1), w32 (c.totals.hit + 1), c.totals.miss, c.totals.unlock, w32 (c.totals.check + i + 1)⟩ c.fault) i
      = Cache.mk (tab (L.set i ⟨p, q, 1, K + 1⟩)) c.count ⟨w32 (c.totals.keep + 1), w32 (c.totals.hit + 1), c.totals.miss, c.totals.unlock, w32 (c.totals.check + i + 1)⟩ c.fault := by
    unfold optimize
    simp only
    rw [optimizeFrom_id i 0 (by omega)]
    intro k hk
    have a1 : tab (L.set i ⟨p, q, 1, K + 1⟩) i = ⟨p, q, 1, K + 1⟩ := tab_get (by simp [hil])
    obtain ⟨x, hx, e⟩ := hget k hk
    have a2 : tab (L.set i ⟨p, q, 1, K + 1⟩) k = x := tab_get (by rw [List.getElem?_set, if_neg (by omega)]; exact hx)
    rw [a1, a2]
    exact (hno k x hk hx).2
  rw [e2, logTotals_id]
  · simp only [countCheck, hs, hti]
  · rcases hlog with h | h
    · exact Or.inl h
    · right
      simp only [w32]
      omega

/-- `lock_page` of a page that is not mapped, with a free slot. -/
theorem lockPage_new {max : Nat} {log : Bool} {c : Cache} {L : List Slot} {p a : Nat} (hs : c.slots = tab L) (hc : c.count = L.length)
    (hno : ∀ x ∈ L, x.pos ≠ p ∧ 1 ≤ x.keep) (hmax : L.length < max)
    (hlog : log = false ∨ c.totals.hit + c.totals.miss + c.totals.unlock + 1 < 4294967296) :
    lockPage max log c p a = ⟨Cache.mk (tab (L ++ [⟨p, a, 1, 1⟩])) (L.length + 1) ⟨w32 (c.totals.keep + 1), c.totals.hit, w32 (c.totals.miss + 1), c.totals.unlock, w32 (c.totals.check + L.length + 1)⟩ c.fault,
      a, [], true⟩ := by
  have hget : ∀ j, j < L.length → tab L j ∈ L := fun j hj => by
    rw [tab_get (List.getElem?_eq_getElem hj)]; exact List.getElem_mem hj
  have hfind : find c p = L.length := by
    rw [← hc]
    apply find_none
    intro j hj
    rw [hs]
    exact (hno _ (hget j (by omega))).1
  rw [lockPage]
  simp only
  have hcc : (countCheck c (find c p)).count = L.length := hc
  rw [if_neg (by rw [hcc, hfind]; omega)]
  have em : (if (countCheck c (find c p)).count < max then (countCheck c (find c p), ([] : List Nat))
      else makeCapacity max (countCheck c (find c p))) = (countCheck c (find c p), []) := by
    rw [if_pos (by rw [hcc]; exact hmax)]
  rw [em]
  simp only
  rw [if_pos (by rw [hcc]; exact hmax)]
  unfold lockAt
  rw [if_neg (Nat.lt_irrefl _), hcc, hfind]
  have e1 : mapNew (countCheck c L.length) L.length p a = Cache.mk (tab (L ++ [⟨p, a, 1, 1⟩])) (L.length + 1) ⟨w32 (c.totals.keep + 1), c.totals.hit, w32 (c.totals.miss + 1), c.totals.unlock, w32 (c.totals.check + L.length + 1)⟩ c.fault := by
    simp only [mapNew, countCheck, hs, hc]
    rw [setSlot_tab_length]
  rw [e1]
  have e2 : optimize (Cache.mk (tab (L ++ [⟨p, a, 1, 1⟩])) (L.length + 1) ⟨w32 (c.totals.keep + 1), c.totals.hit, w32 (c.totals.miss + 1), c.totals.unlock, w32 (c.totals.check + L.length + 1)⟩ c.fault) L.length
      = Cache.mk (tab (L ++ [⟨p, a, 1, 1⟩])) (L.length + 1) ⟨w32 (c.totals.keep + 1), c.totals.hit, w32 (c.totals.miss + 1), c.totals.unlock, w32 (c.totals.check + L.length + 1)⟩ c.fault := by
    unfold optimize
    simp only
    rw [optimizeFrom_id L.length 0 (by omega)]
    intro k hk
    have a1 : tab (L ++ [⟨p, a, 1, 1⟩]) L.length = ⟨p, a, 1, 1⟩ := tab_get (by simp)
    have a2 : tab (L ++ [⟨p, a, 1, 1⟩]) k = tab L k := by unfold tab; rw [List.getElem?_append_left hk]
    rw [a1, a2]
    exact (hno _ (hget k hk)).2
  rw [e2, logTotals_id]
  rcases hlog with h | h
  · exact Or.inl h
  · right
    simp only [w32]
    omega

/-- `unlock_page` of a page that is locked once. -/
theorem unlockPage_one {log : Bool} {c : Cache} {L : List Slot} {i p q K : Nat} (hs : c.slots = tab L) (hc : c.count = L.length)
    (hi : L[i]? = some ⟨p, q, 1, K⟩) (hno : ∀ j x, j < i → L[j]? = some x → x.pos ≠ p) :
    ∃ chk, (unlockPage log c p).1 = logTotals log (Cache.mk (tab (L.set i ⟨p, q, 0, K⟩)) c.count ⟨c.totals.keep, c.totals.hit, c.totals.miss, w32 (c.totals.unlock + 1), chk⟩ c.fault) := by
  have hil : i < L.length := (List.getElem?_eq_some_iff.1 hi).1
  have hti : tab L i = ⟨p, q, 1, K⟩ := tab_get hi
  have hfind : ∀ t, find { c with totals := t } p = i := by
    intro t
    apply find_eq (by show i < c.count; omega)
    · show (c.slots i).pos = p; rw [hs, hti]
    · intro j hj
      show (c.slots j).pos ≠ p
      have hx : L[j]? = some L[j] := List.getElem?_eq_getElem (by omega)
      rw [hs, tab_get hx]
      exact hno j _ hj hx
  unfold unlockPage
  simp only
  rw [hfind, if_pos (by show i < c.count; omega)]
  refine ⟨w32 (c.totals.check + i + 1), ?_⟩
  simp only [unlockMapped, countCheck, hs, hti]
  rw [setSlot_tab hil]
  rfl

theorem set_set_same {L : List Slot} {i : Nat} (x y : Slot) : (L.set i x).set i y = L.set i y := List.set_set ..

/-- Lock and unlock a page that is mapped. -/
theorem pair_hit {α : Type} {max : Nat} {log : Bool} {w : World α} {L : List Slot} {t h m u : Nat} {M : Nat → Option Nat}
    {i p q K a : Nat} (hw : At w L t h m u M) (hi : L[i]? = some ⟨p, q, 0, K⟩)
    (hno : ∀ j x, j < i → L[j]? = some x → x.pos ≠ p ∧ K + 1 ≤ x.keep) (hK : K + 1 < 4294967296) (hq : q ≠ 0)
    (hlog : log = false ∨ h + m + u + 2 < 4294967296) :
    At (step max log (step max log w (.lock p a)) (.unlock 0)) (L.set i ⟨p, q, 0, K + 1⟩) (w32 (t + 1)) (w32 (h + 1)) m (w32 (u + 1)) M := by
  have hil : i < L.length := (List.getElem?_eq_some_iff.1 hi).1
  have hl := lockPage_hit (max := max) (log := log) (a := a) hw.slots hw.count hi hno hK (by rw [hw.hit, hw.miss, hw.unlock]; exact hlog.imp id (fun h => by omega))
  simp only [step]
  rw [hl]
  simp only [if_neg hq, hw.held, List.nil_append, List.getElem?_cons_zero]
  obtain ⟨chk, e⟩ := unlockPage_one (log := log) (L := L.set i ⟨p, q, 1, K + 1⟩) (i := i) (p := p) (q := q) (K := K + 1)
    (c := Cache.mk (tab (L.set i ⟨p, q, 1, K + 1⟩)) w.cache.count ⟨w32 (w.cache.totals.keep + 1), w32 (w.cache.totals.hit + 1), w.cache.totals.miss, w.cache.totals.unlock, w32 (w.cache.totals.check + i + 1)⟩ w.cache.fault)
    rfl (by rw [List.length_set]; exact hw.count) (by simp [hil])
    (by intro j x hj hx; rw [List.getElem?_set, if_neg (by omega)] at hx; exact (hno j x hj hx).1)
  rw [e, logTotals_id]
  · refine ⟨rfl, ?_, ?_, ?_, ?_, ?_, ?_, ?_, ?_⟩
    · simp only; rw [set_set_same]
    · simp only [List.length_set]; exact hw.count
    · simp only; rw [hw.keep]
    · simp only; rw [hw.hit]
    · exact hw.miss
    · simp only; rw [hw.unlock]
    · simp only [Bool.false_eq_true, if_false]; rw [unmapAll_nil]; exact hw.maps
    · exact hw.fault
  · rcases hlog with h | h
    · exact Or.inl h
    · right
      simp only [hw.hit, hw.miss, hw.unlock, w32]
      omega

/-- Lock and unlock a page that is not mapped. -/
theorem pair_new {α : Type} {max : Nat} {log : Bool} {w : World α} {L : List Slot} {t h m u : Nat} {M : Nat → Option Nat}
    {p a : Nat} (hw : At w L t h m u M) (hno : ∀ x ∈ L, x.pos ≠ p ∧ 1 ≤ x.keep) (hmax : L.length < max) (ha : a ≠ 0)
    (hlog : log = false ∨ h + m + u + 2 < 4294967296) :
    At (step max log (step max log w (.lock p a)) (.unlock 0)) (L ++ [⟨p, a, 0, 1⟩]) (w32 (t + 1)) h (w32 (m + 1)) (w32 (u + 1))
      (mapAt M a p) := by
  have hl := lockPage_new (max := max) (log := log) (a := a) hw.slots hw.count hno hmax (by rw [hw.hit, hw.miss, hw.unlock]; exact hlog.imp id (fun h => by omega))
  simp only [step]
  rw [hl]
  simp only [if_neg ha, hw.held, List.nil_append, List.getElem?_cons_zero]
  obtain ⟨chk, e⟩ := unlockPage_one (log := log) (L := L ++ [⟨p, a, 1, 1⟩]) (i := L.length) (p := p) (q := a) (K := 1)
    (c := Cache.mk (tab (L ++ [⟨p, a, 1, 1⟩])) (L.length + 1) ⟨w32 (w.cache.totals.keep + 1), w.cache.totals.hit, w32 (w.cache.totals.miss + 1), w.cache.totals.unlock, w32 (w.cache.totals.check + L.length + 1)⟩ w.cache.fault)
    rfl (by simp) (by simp)
    (by intro j x hj hx
        rw [List.getElem?_append_left hj] at hx
        exact (hno x (List.mem_of_getElem? hx)).1)
  rw [e, logTotals_id]
  · refine ⟨rfl, ?_, ?_, ?_, ?_, ?_, ?_, ?_, ?_⟩
    · simp
    · simp
    · simp only; rw [hw.keep]
    · exact hw.hit
    · simp only; rw [hw.miss]
    · simp only; rw [hw.unlock]
    · simp only [if_true]; rw [unmapAll_nil, hw.maps]
    · exact hw.fault
  · rcases hlog with h | h
    · exact Or.inl h
    · right
      simp only [hw.hit, hw.miss, hw.unlock, w32]
      omega

/-- `n` times lock and unlock. -/
def pairs (p a : Nat) : Nat → List (Act Nat)
  | 0 => []
  | n + 1 => .lock p a :: .unlock 0 :: pairs p a n

theorem w32_w32 (a b : Nat) : w32 (w32 a + b) = w32 (a + b) := by unfold w32; omega

theorem pairs_at {max : Nat} {log : Bool} {i p q a : Nat} (hq : q ≠ 0) (ha : a ≠ 0) (haf : a ≠ mapFailed) : ∀ (n : Nat) (w : World Nat)
    (L : List Slot) (t h m u : Nat) (M : Nat → Option Nat) (K : Nat), At w L t h m u M → L[i]? = some ⟨p, q, 0, K⟩ →
    (∀ j x, j < i → L[j]? = some x → x.pos ≠ p ∧ K + n ≤ x.keep) → K + n < 4294967296 → M a = none →
    (log = false ∨ h + m + u + 2 * n < 4294967296) → t < 4294967296 → h < 4294967296 → u < 4294967296 →
    At (run max log w (pairs p a n)) (L.set i ⟨p, q, 0, K + n⟩) (w32 (t + n)) (w32 (h + n)) m (w32 (u + n)) M ∧
    GoodRun max log w (pairs p a n) := by
  intro n
  induction n with
  | zero =>
    intro w L t h m u M K hw hi _ _ _ _ ht hh hu
    refine ⟨?_, trivial⟩
    have e : L.set i ⟨p, q, 0, K + 0⟩ = L := by
      apply List.ext_getElem?
      intro j
      rw [List.getElem?_set]
      by_cases hj : i = j
      · subst hj; rw [if_pos rfl, if_pos (List.getElem?_eq_some_iff.1 hi).1, hi]; rfl
      · rw [if_neg hj]
    have e1 : w32 (t + 0) = t := by unfold w32; omega
    have e2 : w32 (h + 0) = h := by unfold w32; omega
    have e3 : w32 (u + 0) = u := by unfold w32; omega
    rw [e, e1, e2, e3]
    exact hw
  | succ n ih =>
    intro w L t h m u M K hw hi hno hK hM hlog ht hh hu
    have hil : i < L.length := (List.getElem?_eq_some_iff.1 hi).1
    have h1 := pair_hit (max := max) (log := log) (a := a) hw hi (fun j x hj hx => ⟨(hno j x hj hx).1, by have := (hno j x hj hx).2; omega⟩)
      (by omega) hq (hlog.imp id (fun h => by omega))
    have hl := lockPage_hit (max := max) (log := log) (a := a) hw.slots hw.count hi
      (fun j x hj hx => ⟨(hno j x hj hx).1, by have := (hno j x hj hx).2; omega⟩) (by omega) (by rw [hw.hit, hw.miss, hw.unlock]; exact hlog.imp id (fun h => by omega))
    obtain ⟨a1, a2⟩ := ih _ _ _ _ _ _ _ (K + 1) h1 (by simp [hil])
      (by intro j x hj hx
          rw [List.getElem?_set, if_neg (by omega)] at hx
          exact ⟨(hno j x hj hx).1, by have := (hno j x hj hx).2; omega⟩)
      (by omega) hM (by rcases hlog with h | h
                        · exact Or.inl h
                        · right; unfold w32; omega)
      (by unfold w32; omega) (by unfold w32; omega) (by unfold w32; omega)
    rw [set_set_same, w32_w32, w32_w32, w32_w32] at a1
    refine ⟨?_, ⟨ha, haf, ?_, ?_⟩, trivial, a2⟩
    · rw [pairs, run_cons, run_cons]
      have e1 : K + (n + 1) = K + 1 + n := by omega
      have e2 : t + (n + 1) = t + 1 + n := by omega
      have e3 : h + (n + 1) = h + 1 + n := by omega
      have e4 : u + (n + 1) = u + 1 + n := by omega
      rw [e1, e2, e3, e4]
      exact a1
    · rw [hl, hw.maps]
      simp only
      rw [unmapAll_nil]; exact hM
    · rw [hw.held]; decide

theorem run_append {α : Type} (max : Nat) (log : Bool) (w : World α) (as bs : List (Act α)) :
    run max log w (as ++ bs) = run max log (run max log w as) bs := List.foldl_append ..

theorem goodRun_append {α : Type} {max : Nat} {log : Bool} {as bs : List (Act α)} : ∀ {w : World α}, GoodRun max log w as →
    GoodRun max log (run max log w as) bs → GoodRun max log w (as ++ bs) := by
  induction as with
  | nil => intro w _ h; exact h
  | cons a as ih => intro w h1 h2; exact ⟨h1.1, ih h1.2 h2⟩

/-- Lock and unlock a new page, then `n` more times. -/
theorem use_page {max : Nat} {log : Bool} {p a b n : Nat} {w : World Nat} {L : List Slot} {t h m u : Nat} {M : Nat → Option Nat}
    (hw : At w L t h m u M) (hno : ∀ x ∈ L, x.pos ≠ p ∧ 1 + n ≤ x.keep) (hmax : L.length < max) (ha : a ≠ 0) (haf : a ≠ mapFailed)
    (hMa : M a = none) (hb : b ≠ 0) (hbf : b ≠ mapFailed) (hMb : M b = none) (hab : b ≠ a) (hn : 1 + n < 4294967296)
    (hlog : log = false ∨ h + m + u + 2 * n + 2 < 4294967296) (hh : h < 4294967296) (hu : u < 4294967296) :
    At (run max log w (.lock p a :: .unlock 0 :: pairs p b n)) (L ++ [⟨p, a, 0, 1 + n⟩]) (w32 (t + 1 + n)) (w32 (h + n)) (w32 (m + 1))
      (w32 (u + 1 + n)) (mapAt M a p) ∧
    GoodRun max log w (.lock p a :: .unlock 0 :: pairs p b n) := by
  have h1 := pair_new (max := max) (log := log) hw (fun x hx => ⟨(hno x hx).1, by have := (hno x hx).2; omega⟩) hmax ha (hlog.imp id (fun h => by omega))
  have hl := lockPage_new (max := max) (log := log) (a := a) hw.slots hw.count
    (fun x hx => ⟨(hno x hx).1, by have := (hno x hx).2; omega⟩) hmax (by rw [hw.hit, hw.miss, hw.unlock]; exact hlog.imp id (fun h => by omega))
  obtain ⟨a1, a2⟩ := pairs_at (max := max) (log := log) (i := L.length) (p := p) (q := a) (a := b) ha hb hbf n _ _ _ _ _ _ _ 1 h1 (by simp)
    (by intro j x hj hx
        rw [List.getElem?_append_left hj] at hx
        exact hno x (List.mem_of_getElem? hx))
    hn (by unfold mapAt; rw [if_neg haf, if_neg hab]; exact hMb)
    (by rcases hlog with h | h
        · exact Or.inl h
        · right; unfold w32; omega)
    (by unfold w32; omega) hh (by unfold w32; omega)
  rw [w32_w32, w32_w32] at a1
  have e : (L ++ [(⟨p, a, 0, 1⟩ : Slot)]).set L.length ⟨p, a, 0, 1 + n⟩ = L ++ [⟨p, a, 0, 1 + n⟩] := by
    rw [List.set_append_right _ _ (Nat.le_refl _)]; simp
  rw [e] at a1
  refine ⟨?_, ⟨ha, haf, ?_, ?_⟩, trivial, a2⟩
  · rw [run_cons, run_cons]; exact a1
  · rw [hl, hw.maps]; simp only; rw [unmapAll_nil]; exact hMa
  · rw [hw.held]; decide

theorem at_init (file : Nat → Nat) : At (World.init file) [] 0 0 0 0 (fun _ => none) :=
  ⟨rfl, by funext j; simp [World.init, Cache.init, tab], rfl, rfl, rfl, rfl, rfl, rfl, rfl⟩

/-- The history of `C20_violated`: page 10 is used 2^32 - 10 times, pages 11 and 12 twenty times each. -/
def wrapHistory : List (Act Nat) :=
  (.lock 10 100 :: .unlock 0 :: pairs 10 99 4294967285) ++
  ((.lock 11 101 :: .unlock 0 :: pairs 11 99 19) ++ (.lock 12 102 :: .unlock 0 :: pairs 12 99 19))

theorem wrapHistory_at : At (run 3 false (World.init (fun _ => 0)) wrapHistory)
      [⟨10, 100, 0, 4294967286⟩, ⟨11, 101, 0, 20⟩, ⟨12, 102, 0, 20⟩] 30 27 3 30
      (mapAt (mapAt (mapAt (fun _ => none) 100 10) 101 11) 102 12) ∧
    GoodRun 3 false (World.init (fun _ => 0)) wrapHistory := by
  obtain ⟨a1, b1⟩ := use_page (max := 3) (log := false) (p := 10) (a := 100) (b := 99) (n := 4294967285) (at_init (fun _ => 0))
    (by simp) (by decide) (by decide) (by decide) (by decide) (by decide) (by decide) (by decide) (by decide) (by decide) (Or.inl rfl) (by decide) (by decide)
  obtain ⟨a2, b2⟩ := use_page (max := 3) (log := false) (p := 11) (a := 101) (b := 99) (n := 19) a1
    (by simp) (by decide) (by decide) (by decide) (by decide) (by decide) (by decide) (by decide) (by decide) (by decide) (Or.inl rfl) (by decide) (by decide)
  obtain ⟨a3, b3⟩ := use_page (max := 3) (log := false) (p := 12) (a := 102) (b := 99) (n := 19) a2
    (by simp) (by decide) (by decide) (by decide) (by decide) (by decide) (by decide) (by decide) (by decide) (by decide) (Or.inl rfl) (by decide) (by decide)
  constructor
  · unfold wrapHistory
    rw [run_append, run_append]
    exact a3
  · unfold wrapHistory
    exact goodRun_append b1 (goodRun_append b2 b3)

/-- **C20** does not hold for all histories: `_mapped_page_totals.keep_count` wraps after 2^32 locks.
Nobody holds a pointer, all three slots could be reused, and yet the lock of a fourth page is refused. -/
theorem C20_violated : ¬ C20Full := by
  intro h
  obtain ⟨hat, hgood⟩ := wrapHistory_at
  have href := h 3 false (fun _ => 0) wrapHistory hgood 13 103 (by decide)
  generalize run 3 false (World.init (fun _ => 0)) wrapHistory = w at *
  have : (lockPage 3 false w.cache 13 103).ptr = 0 := by
    obtain ⟨⟨slots, count, ⟨keep, hit, miss, unl, chk⟩, fault⟩, maps, file, held, crashed⟩ := w
    have e1 := hat.slots
    have e2 := hat.count
    have e3 := hat.keep
    simp only at e1 e2 e3
    subst e1 e2 e3
    simp [lockPage, find, findFrom, countCheck, makeCapacity, makeRoom, sweepFrom, keepPage, shouldKeep, tab, w32, sub32, reduce,
      reduction, setSlot]
  obtain ⟨ps, hnd, hlen, _, hheld⟩ := href this
  cases ps with
  | nil => simp at hlen
  | cons p ps =>
    obtain ⟨a, ha⟩ := hheld p (by simp)
    rw [hat.held] at ha
    cases ha

/-! ## C58 -/

/-- The full statement of C58: writing the totals to a log never divides by zero. -/
def C58Full : Prop :=
  ∀ (max : Nat) (log : Bool) (file : Nat → Nat) (as : List (Act Nat)), GoodRun max log (World.init file) as →
    (run max log (World.init file) as).cache.fault = false

/-- What the totals look like after `n` calls. -/
structure FInv {α : Type} (w : World α) (n : Nat) : Prop where
  fault : w.cache.fault = false
  calls : w.cache.totals.hit + w.cache.totals.miss + w.cache.totals.unlock ≤ n
  used : w.held ≠ [] → 0 < w.cache.totals.hit + w.cache.totals.miss

theorem makeCapacity_totals (max : Nat) (c : Cache) : (makeCapacity max c).1.fault = c.fault ∧
    (makeCapacity max c).1.totals.hit = c.totals.hit ∧ (makeCapacity max c).1.totals.miss = c.totals.miss ∧
    (makeCapacity max c).1.totals.unlock = c.totals.unlock := by
  unfold makeCapacity
  simp only
  split <;> exact ⟨rfl, rfl, rfl, rfl⟩

theorem lockAt_totals {log : Bool} {c : Cache} {i pos addr n : Nat} (hf : c.fault = false)
    (hc : c.totals.hit + c.totals.miss + c.totals.unlock ≤ n) (hn : n + 1 < 4294967296) :
    (lockAt log c i pos addr).1.fault = false ∧
    (lockAt log c i pos addr).1.totals.hit + (lockAt log c i pos addr).1.totals.miss + (lockAt log c i pos addr).1.totals.unlock ≤ n + 1 ∧
    0 < (lockAt log c i pos addr).1.totals.hit + (lockAt log c i pos addr).1.totals.miss := by
  unfold lockAt
  split
  · have e : (optimize (lockMapped c i) i).totals.hit = c.totals.hit + 1 := by
      show w32 (c.totals.hit + 1) = _; unfold w32; omega
    have e2 : (optimize (lockMapped c i) i).totals.miss = c.totals.miss := rfl
    have e3 : (optimize (lockMapped c i) i).totals.unlock = c.totals.unlock := rfl
    have e4 : (optimize (lockMapped c i) i).fault = c.fault := rfl
    simp only
    rw [logTotals_id (Or.inr (by rw [e, e2, e3]; omega)), e, e2, e3, e4]
    exact ⟨hf, by omega, by omega⟩
  · have e : (optimize (mapNew c i pos addr) i).totals.miss = c.totals.miss + 1 := by
      show w32 (c.totals.miss + 1) = _; unfold w32; omega
    have e2 : (optimize (mapNew c i pos addr) i).totals.hit = c.totals.hit := rfl
    have e3 : (optimize (mapNew c i pos addr) i).totals.unlock = c.totals.unlock := rfl
    have e4 : (optimize (mapNew c i pos addr) i).fault = c.fault := rfl
    simp only
    rw [logTotals_id (Or.inr (by rw [e, e2, e3]; omega)), e, e2, e3, e4]
    exact ⟨hf, by omega, by omega⟩

theorem lockPage_totals {max : Nat} {log : Bool} {c : Cache} {pos addr n : Nat} (hf : c.fault = false)
    (hc : c.totals.hit + c.totals.miss + c.totals.unlock ≤ n) (hn : n + 1 < 4294967296) :
    (lockPage max log c pos addr).cache.fault = false ∧
    (lockPage max log c pos addr).cache.totals.hit + (lockPage max log c pos addr).cache.totals.miss +
      (lockPage max log c pos addr).cache.totals.unlock ≤ n + 1 ∧
    ((lockPage max log c pos addr).ptr = 0 → (lockPage max log c pos addr).cache.totals.hit = c.totals.hit ∨
      0 < (lockPage max log c pos addr).cache.totals.hit + (lockPage max log c pos addr).cache.totals.miss) ∧
    (0 < c.totals.hit + c.totals.miss ∨ (lockPage max log c pos addr).ptr ≠ 0 →
      0 < (lockPage max log c pos addr).cache.totals.hit + (lockPage max log c pos addr).cache.totals.miss) := by
  rw [lockPage]
  simp only
  split
  · have := lockAt_totals (log := log) (i := find c pos) (pos := pos) (addr := addr) (c := countCheck c (find c pos)) hf hc hn
    exact ⟨this.1, this.2.1, fun _ => Or.inr this.2.2, fun _ => this.2.2⟩
  · generalize hm : (if (countCheck c (find c pos)).count < max then (countCheck c (find c pos), ([] : List Nat))
      else makeCapacity max (countCheck c (find c pos))) = m
    have hmt : m.1.fault = c.fault ∧ m.1.totals.hit = c.totals.hit ∧ m.1.totals.miss = c.totals.miss ∧ m.1.totals.unlock = c.totals.unlock := by
      rw [← hm]
      split
      · exact ⟨rfl, rfl, rfl, rfl⟩
      · exact makeCapacity_totals max _
    obtain ⟨h1, h2, h3, h4⟩ := hmt
    split
    · have := lockAt_totals (log := log) (i := m.1.count) (pos := pos) (addr := addr) (c := m.1) (n := n) (h1.trans hf) (by omega) hn
      exact ⟨this.1, this.2.1, fun _ => Or.inr this.2.2, fun _ => this.2.2⟩
    · simp only
      refine ⟨h1.trans hf, by omega, fun _ => Or.inl h2, fun h => ?_⟩
      rcases h with h | h
      · omega
      · exact absurd rfl h

theorem unlockPage_totals {log : Bool} {c : Cache} {pos n : Nat} (hf : c.fault = false)
    (hc : c.totals.hit + c.totals.miss + c.totals.unlock ≤ n) (hn : n + 1 < 4294967296) (h0 : 0 < c.totals.hit + c.totals.miss) :
    (unlockPage log c pos).1.fault = false ∧
    (unlockPage log c pos).1.totals.hit + (unlockPage log c pos).1.totals.miss + (unlockPage log c pos).1.totals.unlock ≤ n + 1 ∧
    0 < (unlockPage log c pos).1.totals.hit + (unlockPage log c pos).1.totals.miss := by
  have hu : w32 (c.totals.unlock + 1) = c.totals.unlock + 1 := by unfold w32; omega
  unfold unlockPage
  simp only
  rw [hu]
  split
  · rw [logTotals_id]
    · exact ⟨hf, show c.totals.hit + c.totals.miss + (c.totals.unlock + 1) ≤ n + 1 by omega, h0⟩
    · right
      exact ⟨h0, show c.totals.hit + c.totals.miss + (c.totals.unlock + 1) < 4294967296 by omega⟩
  · exact ⟨hf, show c.totals.hit + c.totals.miss + (c.totals.unlock + 1) ≤ n + 1 by omega, h0⟩

theorem step_finv {α : Type} {max : Nat} {log : Bool} {w : World α} {n : Nat} (h : FInv w n) (hn : n + 1 < 4294967296) (a : Act α) :
    FInv (step max log w a) (n + 1) := by
  cases a with
  | lock pos addr =>
    have := lockPage_totals (max := max) (log := log) (pos := pos) (addr := addr) h.fault h.calls hn
    refine ⟨this.1, this.2.1, ?_⟩
    intro hh
    apply this.2.2.2
    by_cases hp : (lockPage max log w.cache pos addr).ptr = 0
    · left
      apply h.used
      simp only [step, if_pos hp] at hh
      exact hh
    · exact Or.inr hp
  | unlock k =>
    simp only [step]
    split
    · exact ⟨h.fault, by have := h.calls; omega, h.used⟩
    · rename_i x hk
      have hne : w.held ≠ [] := by
        intro e; rw [e] at hk; simp at hk
      have := unlockPage_totals (log := log) (pos := x.1) h.fault h.calls hn (h.used hne)
      exact ⟨this.1, this.2.1, fun _ => this.2.2⟩
  | write k v =>
    simp only [step]
    split
    · exact ⟨h.fault, by have := h.calls; omega, h.used⟩
    · split
      · exact ⟨h.fault, by have := h.calls; simp only; omega, h.used⟩
      · exact ⟨h.fault, by have := h.calls; simp only; omega, h.used⟩

theorem run_finv {α : Type} {max : Nat} {log : Bool} : ∀ (as : List (Act α)) (w : World α) (n : Nat), FInv w n → n + as.length < 4294967296 →
    FInv (run max log w as) (n + as.length) := by
  intro as
  induction as with
  | nil => intro w n h _; exact h
  | cons a as ih =>
    intro w n h hn
    rw [run_cons]
    rw [List.length_cons] at hn ⊢
    have := ih _ _ (step_finv (max := max) (log := log) h (by omega) a) (by omega)
    have e : n + (as.length + 1) = n + 1 + as.length := by omega
    rw [e]
    exact this

/-- **C58**, for histories of fewer than 2^32 calls: writing the totals to the log never divides by
zero, whatever the calls are.  Missing: longer histories (`C58_violated`). -/
theorem C58_no_fault_partial (max : Nat) (log : Bool) (file : Nat → Nat) (as : List (Act Nat)) (hn : as.length < 4294967296) :
    (run max log (World.init file) as).cache.fault = false := by
  have h0 : FInv (World.init file) 0 := ⟨rfl, Nat.le_refl _, fun h => absurd rfl h⟩
  exact (run_finv (max := max) (log := log) as _ 0 h0 (by omega)).fault

/-- Five calls with a log, the totals are written after each of them. -/
example : (run 3 true (World.init (fun _ => (0 : Nat))) [.lock 7 70, .lock 7 71, .unlock 0, .lock 8 80, .unlock 1]).cache.totals.hit = 1 ∧
    (run 3 true (World.init (fun _ => (0 : Nat))) [.lock 7 70, .lock 7 71, .unlock 0, .lock 8 80, .unlock 1]).cache.fault = false := by decide

/-- The history of `C58_violated`: one page is locked and unlocked 2^31 times. -/
def longHistory : List (Act Nat) := .lock 10 100 :: .unlock 0 :: pairs 10 99 2147483646

theorem longHistory_at : At (run 3 true (World.init (fun _ => 0)) longHistory) [⟨10, 100, 0, 2147483647⟩] 2147483647 2147483646 1 2147483647
      (mapAt (fun _ => none) 100 10) ∧ GoodRun 3 true (World.init (fun _ => 0)) longHistory := by
  obtain ⟨a1, b1⟩ := use_page (max := 3) (log := true) (p := 10) (a := 100) (b := 99) (n := 2147483646) (at_init (fun _ => 0))
    (by simp) (by decide) (by decide) (by decide) (by decide) (by decide) (by decide) (by decide) (by decide) (by decide) (Or.inr (by decide)) (by decide) (by decide)
  exact ⟨a1, b1⟩

theorem last_pair {w : World Nat} {t : Nat} {M : Nat → Option Nat} (hat : At w [⟨10, 100, 0, 2147483647⟩] t 2147483646 1 2147483647 M)
    (hM : M 99 = none) : GoodRun 3 true w [.lock 10 99, .unlock 0] ∧
    (run 3 true w [.lock 10 99, .unlock 0]).cache.fault = true := by
  have hl := lockPage_hit (max := 3) (log := true) (c := w.cache) (i := 0) (p := 10) (q := 100) (K := 2147483647) (a := 99)
    hat.slots hat.count rfl (fun j x hj => absurd hj (by omega)) (by decide) (Or.inr (by rw [hat.hit, hat.miss, hat.unlock]; decide))
  have hset : [(⟨10, 100, 0, 2147483647⟩ : Slot)].set 0 ⟨10, 100, 1, 2147483647 + 1⟩ = [⟨10, 100, 1, 2147483648⟩] := rfl
  rw [hset] at hl
  refine ⟨⟨⟨by decide, by decide, ?_, ?_⟩, trivial, trivial⟩, ?_⟩
  · rw [hl, hat.maps]; simp only; rw [unmapAll_nil]; exact hM
  · rw [hat.held]; decide
  · rw [run_cons, run_cons]
    simp only [step, hl, hat.held]
    rw [if_neg (by decide)]
    simp only [List.nil_append, List.getElem?_cons_zero]
    obtain ⟨chk, e⟩ := unlockPage_one (log := true) (L := [⟨10, 100, 1, 2147483648⟩]) (i := 0) (p := 10) (q := 100) (K := 2147483648)
      (c := Cache.mk (tab [⟨10, 100, 1, 2147483648⟩]) w.cache.count ⟨w32 (w.cache.totals.keep + 1), w32 (w.cache.totals.hit + 1),
        w.cache.totals.miss, w.cache.totals.unlock, w32 (w.cache.totals.check + 0 + 1)⟩ w.cache.fault)
      rfl hat.count rfl (fun j x hj => absurd hj (by omega))
    rw [run, List.foldl_nil]
    simp only
    rw [e]
    unfold logTotals
    rw [if_pos]
    simp only [hat.hit, hat.miss, hat.unlock]
    decide

/-- `log_totals` divides by the sum of three 32-bit counters, which is zero after 2^31 locks and unlocks. -/
theorem C58_violated : ¬ C58Full := by
  intro h
  have h1 := longHistory_at
  generalize longHistory = l at h1
  have h2 := last_pair h1.1 (by decide)
  have h3 := h 3 true (fun _ => 0) _ (goodRun_append h1.2 h2.1)
  rw [run_append, h2.2] at h3
  exact absurd h3 (by decide)

end Abc.Vmem.Pool
