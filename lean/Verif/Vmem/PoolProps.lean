import Verif.Vmem.PoolInv

/-!
# C20, C21, C58: the mapping cache of `vmem_pool`
-/

namespace Abc.Vmem.Pool

/-! ## C20 -/

/-- **C20**: a history of locks, unlocks and writes leaves at most `max` mappings, no page is mapped at
two addresses, and every pointer that a client holds shows the page it was handed out for (so that page
was neither unmapped nor moved), the same one for all holders of the page. -/
theorem C20_mapping {α : Type} (max : Nat) (log : Bool) (file : Nat → α) (as : List (Act α))
    (hg : GoodRun max log (World.init file) as) :
    (∃ l : List Nat, l.length ≤ max ∧ ∀ a, (run max log (World.init file) as).maps a ≠ none → a ∈ l) ∧
    (∀ a b q, (run max log (World.init file) as).maps a = some q → (run max log (World.init file) as).maps b = some q → a = b) ∧
    (∀ h ∈ (run max log (World.init file) as).held,
      (run max log (World.init file) as).maps h.2 = some h.1 ∧ h.2 ≠ 0 ∧
      ∀ h' ∈ (run max log (World.init file) as).held, h'.1 = h.1 → h'.2 = h.2) := by
  have hi := (run_inv (inv_init max file) hg).1
  generalize run max log (World.init file) as = w at *
  refine ⟨⟨(live w.cache).map Slot.ptr, by simpa using hi.len, ?_⟩, ?_, ?_⟩
  · intro a ha
    obtain ⟨q, hq⟩ := Option.ne_none_iff_exists'.1 ha
    obtain ⟨x, hx, rfl⟩ := hi.only a q hq
    exact List.mem_map.2 ⟨x, hx, rfl⟩
  · intro a b q ha hb
    obtain ⟨x, hx, rfl⟩ := hi.only a q ha
    obtain ⟨y, hy, rfl⟩ := hi.only b q hb
    rw [hi.mapped x hx] at ha
    rw [hi.mapped y hy] at hb
    have := pos_inj hi.nodup hx hy (by rw [Option.some.inj ha, Option.some.inj hb])
    rw [this]
  · intro h hh
    obtain ⟨x, hx, e1, e2⟩ := hi.held h hh
    refine ⟨by rw [← e1, ← e2]; exact hi.mapped x hx, by rw [← e2]; exact hi.ptr x hx, ?_⟩
    intro h' hh' e
    obtain ⟨y, hy, f1, f2⟩ := hi.held h' hh'
    have := pos_inj hi.nodup hx hy (by rw [e1, f1, e])
    rw [← f2, ← e2, this]

/-- The number of lock requests in a history. -/
def lockCount {α : Type} : List (Act α) → Nat
  | [] => 0
  | .lock _ _ :: as => lockCount as + 1
  | _ :: as => lockCount as

/-- The keep counts are in range: their sum is at most the total, which is at most the number of locks. -/
def KInv (c : Cache) (n : Nat) : Prop := sumKeep (live c) ≤ c.totals.keep ∧ c.totals.keep ≤ n

theorem sumKeep_perm {L L' : List Slot} (h : L.Perm L') : sumKeep L = sumKeep L' := (h.map Slot.keep).sum_nat

theorem keep_le_sum {L : List Slot} {x : Slot} (h : x ∈ L) : x.keep ≤ sumKeep L := by
  induction L with
  | nil => cases h
  | cons a t ih =>
    simp only [sumKeep, List.map_cons, List.sum_cons]
    rcases List.mem_cons.1 h with rfl | h
    · omega
    · have := ih h; unfold sumKeep at this; omega

theorem sumKeep_set {L : List Slot} {i : Nat} (hi : i < L.length) (x : Slot) :
    sumKeep (L.set i x) + L[i].keep = sumKeep L + x.keep := by
  induction L generalizing i with
  | nil => simp at hi
  | cons a t ih =>
    cases i with
    | zero => simp [sumKeep]; omega
    | succ i =>
      have := ih (i := i) (by simpa using hi)
      simp only [sumKeep, List.set_cons_succ, List.map_cons, List.sum_cons, List.getElem_cons_succ] at this ⊢
      omega

theorem lockAt_keep {log : Bool} {c : Cache} {i pos addr n : Nat} (hi : i ≤ c.count) (hk : KInv c n) (hn : n + 1 < 4294967296) :
    KInv (lockAt log c i pos addr).1 (n + 1) := by
  obtain ⟨h1, h2⟩ := hk
  unfold lockAt KInv
  by_cases hlt : i < c.count
  · rw [if_pos hlt]
    simp only
    rw [logTotals_live, (logTotals_slots log _).2.2, sumKeep_perm (optimize_live (by exact hlt))]
    have hil : i < (live c).length := by rw [length_live]; exact hlt
    have : live (lockMapped c i) = (live c).set i { c.slots i with lock := w32 ((c.slots i).lock + 1), keep := w32 ((c.slots i).keep + 1) } :=
      setSlot_live (c := c) _
    rw [this]
    have hs := sumKeep_set hil { c.slots i with lock := w32 ((c.slots i).lock + 1), keep := w32 ((c.slots i).keep + 1) }
    rw [live_get] at hs
    have hx := keep_le_sum (mem_live.2 ⟨i, hlt, rfl⟩)
    simp only [optimize, lockMapped, w32] at hs ⊢
    omega
  · rw [if_neg hlt]
    simp only
    have hie : i = c.count := by omega
    subst hie
    rw [logTotals_live, (logTotals_slots log _).2.2, sumKeep_perm (optimize_live (by show c.count < c.count + 1; omega)), mapNew_live]
    have : sumKeep (live c ++ [⟨pos, addr, 1, 1⟩]) = sumKeep (live c) + 1 := by simp [sumKeep]
    rw [this]
    simp only [optimize, mapNew, w32]
    omega

theorem makeCapacity_keep {max n : Nat} {c : Cache} (hc : c.count ≤ max) (hk : KInv c n) (hn : n + 1 < 4294967296) :
    KInv (makeCapacity max c).1 n := by
  obtain ⟨h1, h2⟩ := hk
  unfold makeCapacity
  simp only
  obtain ⟨a, b⟩ := makeRoom_keep (min := c.totals.keep / c.count) hc (by omega) h1
  by_cases hr : 0 < (makeRoom max (c.totals.keep / c.count) c).2.length
  · rw [if_pos hr]; exact ⟨a, by omega⟩
  · rw [if_neg hr]
    have hc' := makeRoom_count (max := max) (min := c.totals.keep / c.count) (c := c)
    generalize (makeRoom max (c.totals.keep / c.count) c) = r at *
    obtain ⟨a', b'⟩ := makeRoom_keep (max := max) (min := w32 (r.1.totals.keep + 1)) (c := r.1) (by omega) (by omega) a
    exact ⟨a', by simp only; omega⟩

theorem lockPage_keep {max n : Nat} {log : Bool} {c : Cache} {pos addr : Nat} (hc : c.count ≤ max) (hk : KInv c n)
    (hn : n + 1 < 4294967296) : KInv (lockPage max log c pos addr).cache (n + 1) := by
  have hcc : ∀ i, KInv (countCheck c i) n := fun i => hk
  rw [lockPage]
  simp only
  split
  · next h => exact lockAt_keep (Nat.le_of_lt h) (hcc _) hn
  · generalize hm : (if (countCheck c (find c pos)).count < max then (countCheck c (find c pos), [])
      else makeCapacity max (countCheck c (find c pos))) = m
    have hkm : KInv m.1 n := by
      subst hm
      split
      · exact hcc _
      · exact makeCapacity_keep hc (hcc _) hn
    split
    · exact lockAt_keep (Nat.le_refl _) hkm hn
    · exact ⟨hkm.1, by have := hkm.2; simp only; omega⟩

theorem unlockPage_keep {n : Nat} {log : Bool} {c : Cache} {pos : Nat} (hk : KInv c n) : KInv (unlockPage log c pos).1 n := by
  unfold unlockPage
  simp only
  split
  · next h =>
    unfold KInv
    rw [logTotals_live, (logTotals_slots log _).2.2]
    generalize find { c with totals := { c.totals with unlock := w32 (c.totals.unlock + 1) } } pos = i at *
    have hil : i < (live c).length := by rw [length_live]; exact h
    obtain ⟨x, hx, e⟩ : ∃ x : Slot, x.keep = (c.slots i).keep ∧
        live (unlockMapped (countCheck { c with totals := { c.totals with unlock := w32 (c.totals.unlock + 1) } } i) i)
          = (live c).set i x :=
      ⟨{ c.slots i with lock := sub32 (c.slots i).lock 1 }, rfl, setSlot_live (c := c) _⟩
    rw [e]
    have hs := sumKeep_set hil x
    rw [live_get] at hs
    have := hk
    unfold KInv at this
    refine ⟨?_, this.2⟩
    show _ ≤ c.totals.keep
    omega
  · exact hk

theorem run_keep {α : Type} {max : Nat} {log : Bool} {as : List (Act α)} {w : World α} {n : Nat} (h : Inv max w)
    (hg : GoodRun max log w as) (hk : KInv w.cache n) (hn : n + lockCount as < 4294967295) :
    KInv (run max log w as).cache (n + lockCount as) := by
  induction as generalizing w n with
  | nil => exact hk
  | cons a as ih =>
    rw [run_cons]
    have hi := step_inv h hg.1
    have hc : w.cache.count ≤ max := by have := h.1.len; rwa [length_live] at this
    cases a with
    | lock pos addr =>
      simp only [lockCount] at hn ⊢
      have := ih (n := n + 1) hi hg.2 (lockPage_keep hc hk (by omega)) (by omega)
      rw [show n + (lockCount as + 1) = n + 1 + lockCount as by omega]
      exact this
    | unlock k =>
      simp only [lockCount] at hn ⊢
      refine ih hi hg.2 ?_ hn
      simp only [step]
      cases w.held[k]? with
      | none => exact hk
      | some hd => exact unlockPage_keep hk
    | write k v =>
      simp only [lockCount] at hn ⊢
      refine ih hi hg.2 ?_ hn
      simp only [step]
      cases w.held[k]? with
      | none => exact hk
      | some hd => simp only; cases w.maps hd.2 <;> exact hk

theorem makeCapacity_full {max n : Nat} {c : Cache} (hc : c.count = max) (hk : KInv c n) (hn : n + 1 < 4294967296)
    (hfull : ¬ (makeCapacity max c).1.count < max) : ∀ x ∈ live c, 0 < x.lock := by
  obtain ⟨h1, h2⟩ := hk
  obtain ⟨a, b⟩ := makeRoom_live (max := max) (min := c.totals.keep / c.count) (c := c) (by omega)
  obtain ⟨a', b'⟩ := makeRoom_keep (max := max) (min := c.totals.keep / c.count) (c := c) (by omega) (by omega) h1
  have hcount : (makeRoom max (c.totals.keep / c.count) c).1.count = c.count - (makeRoom max (c.totals.keep / c.count) c).2.length := rfl
  unfold makeCapacity at hfull
  simp only at hfull
  have hle : (makeRoom max (c.totals.keep / c.count) c).2.length ≤ c.count := by
    rw [b, List.length_map, ← length_live c]; exact List.length_filter_le _ _
  by_cases hr : 0 < (makeRoom max (c.totals.keep / c.count) c).2.length
  · rw [if_pos hr] at hfull; omega
  · rw [if_neg hr] at hfull
    simp only at hfull
    have hnil : (live c).filter (fun x => !shouldKeep (c.totals.keep / c.count) x) = [] := by
      rw [← List.length_eq_zero_iff]
      rw [b, List.length_map] at hr
      omega
    have hall : (live c).filter (shouldKeep (c.totals.keep / c.count)) = live c := by
      rw [List.filter_eq_self]
      intro x hx
      rw [List.filter_eq_nil_iff] at hnil
      simpa using hnil x hx
    rw [hall] at a
    generalize (makeRoom max (c.totals.keep / c.count) c) = r at *
    have hrc : r.1.count = max := by omega
    obtain ⟨p, q⟩ := makeRoom_live (max := max) (min := w32 (r.1.totals.keep + 1)) (c := r.1) (by omega)
    have hcount2 : (makeRoom max (w32 (r.1.totals.keep + 1)) r.1).1.count
        = r.1.count - (makeRoom max (w32 (r.1.totals.keep + 1)) r.1).2.length := rfl
    have hnil2 : (live r.1).filter (fun x => !shouldKeep (w32 (r.1.totals.keep + 1)) x) = [] := by
      rw [← List.length_eq_zero_iff]
      have hq : (makeRoom max (w32 (r.1.totals.keep + 1)) r.1).2.length ≤ r.1.count := by
        rw [q, List.length_map, ← length_live r.1]; exact List.length_filter_le _ _
      rw [← List.length_map (f := Slot.ptr), ← q]
      omega
    intro x hx
    have hy : reduce (c.totals.keep / c.count) x ∈ live r.1 := by rw [a]; exact List.mem_map_of_mem hx
    rw [List.filter_eq_nil_iff] at hnil2
    have hk := hnil2 _ hy
    have hks := keep_le_sum hy
    have hlock : (reduce (c.totals.keep / c.count) x).lock = x.lock := by unfold reduce; split <;> rfl
    have hw : w32 (r.1.totals.keep + 1) = r.1.totals.keep + 1 := by unfold w32; omega
    rw [hw] at hk
    simp only [shouldKeep, Bool.not_eq_true', Bool.not_eq_false, Bool.or_eq_true, decide_eq_true_eq] at hk
    rw [← hlock]
    omega

/-- A lock of `pos` is refused, in a state with the pointers `held`, only if all `max` slots are taken
by pages that are locked. -/
def RefusedOnlyIfFull {α : Type} (max : Nat) (log : Bool) (w : World α) : Prop :=
  ∀ pos addr, addr ≠ 0 → (lockPage max log w.cache pos addr).ptr = 0 →
    ∃ ps : List Nat, ps.Nodup ∧ ps.length = max ∧ pos ∉ ps ∧ ∀ p ∈ ps, ∃ a, (p, a) ∈ w.held

/-- The full statement of the last part of C20. -/
def C20Full : Prop :=
  ∀ (max : Nat) (log : Bool) (file : Nat → Nat) (as : List (Act Nat)), GoodRun max log (World.init file) as →
    RefusedOnlyIfFull max log (run max log (World.init file) as)

/-- **C20** (refusal): as long as fewer than 2^32 - 1 locks were requested, a lock is refused only when
every slot holds a locked page.  `C20_violated` shows that the bound is needed. -/
theorem C20_refusal_partial {α : Type} (max : Nat) (log : Bool) (file : Nat → α) (as : List (Act α))
    (hg : GoodRun max log (World.init file) as) (hn : lockCount as < 4294967295) :
    RefusedOnlyIfFull max log (run max log (World.init file) as) := by
  have hi := run_inv (inv_init max file) hg
  have hk := run_keep (inv_init max file) hg (n := 0) ⟨Nat.zero_le _, Nat.zero_le _⟩ (by omega)
  generalize run max log (World.init file) as = w at *
  intro pos addr h0 href
  have hi := hi.1
  have hc : w.cache.count ≤ max := by have := hi.len; rwa [length_live] at this
  rw [lockPage] at href
  simp only at href
  have hcnt : (countCheck w.cache (find w.cache pos)).count = w.cache.count := rfl
  rcases find_spec w.cache pos with ⟨hfind, hno⟩ | ⟨hfind, hyes⟩
  · rw [if_neg (by rw [hcnt, hfind]; omega)] at href
    by_cases hlt : (countCheck w.cache (find w.cache pos)).count < max
    · rw [if_pos hlt] at href
      rw [if_pos hlt] at href
      simp only [lockAt] at href
      rw [if_neg (Nat.lt_irrefl _)] at href
      exact absurd href h0
    · rw [if_neg hlt] at href
      by_cases hlt2 : (makeCapacity max (countCheck w.cache (find w.cache pos))).1.count < max
      · rw [if_pos hlt2] at href
        simp only [lockAt] at href
        rw [if_neg (Nat.lt_irrefl _)] at href
        exact absurd href h0
      · have hall := makeCapacity_full (n := 0 + lockCount as) (by omega) (show KInv (countCheck w.cache (find w.cache pos)) _ from hk) (by omega) hlt2
        refine ⟨(live w.cache).map Slot.pos, hi.nodup, by rw [List.length_map, length_live]; omega, ?_, ?_⟩
        · intro hp
          obtain ⟨x, hx, e⟩ := List.mem_map.1 hp
          exact hno x hx e
        · intro p hp
          obtain ⟨x, hx, rfl⟩ := List.mem_map.1 hp
          have hl : 0 < x.lock := hall x hx
          rw [hi.locks x hx] at hl
          obtain ⟨h, hh, e⟩ := List.countP_pos_iff.1 hl
          simp at e
          exact ⟨h.2, by rw [← e]; exact hh⟩
  · rw [if_pos (by rw [hcnt]; exact hfind)] at href
    simp only [lockAt] at href
    rw [if_pos (by rw [hcnt]; exact hfind)] at href
    exact absurd href (hi.ptr _ (mem_live.2 ⟨_, hfind, rfl⟩))

/-! ## C21 -/

/-- What was written in a history, in order: the page that the client had locked, and the value. -/
def writes {α : Type} (max : Nat) (log : Bool) : World α → List (Act α) → List (Nat × α)
  | _, [] => []
  | w, .write k v :: as =>
    (match w.held[k]? with | none => [] | some h => [(h.1, v)]) ++ writes max log (step max log w (.write k v)) as
  | w, a :: as => writes max log (step max log w a) as

/-- The value last written to a page, or the original one. -/
def lastOf {α : Type} (ws : List (Nat × α)) (p : Nat) (d : α) : α := ws.foldl (fun d x => if x.1 = p then x.2 else d) d

theorem run_file {α : Type} {max : Nat} {log : Bool} {as : List (Act α)} {w : World α} (h : Inv max w)
    (hg : GoodRun max log w as) (hc : w.crashed = false) :
    (run max log w as).crashed = false ∧ ∀ p, (run max log w as).file p = lastOf (writes max log w as) p (w.file p) := by
  induction as generalizing w with
  | nil => exact ⟨hc, fun p => rfl⟩
  | cons a as ih =>
    rw [run_cons]
    have hi := step_inv h hg.1
    cases a with
    | lock pos addr => exact ih hi hg.2 hc
    | unlock k =>
      have e1 : (step max log w (.unlock k)).crashed = w.crashed ∧ (step max log w (.unlock k)).file = w.file := by
        simp only [step]; cases w.held[k]? <;> exact ⟨rfl, rfl⟩
      obtain ⟨x, y⟩ := ih hi hg.2 (by rw [e1.1]; exact hc)
      exact ⟨x, fun p => by rw [y p, e1.2]; rfl⟩
    | write k v =>
      cases hk : w.held[k]? with
      | none =>
        have e : step max log w (.write k v) = w := by simp only [step]; rw [hk]
        have ew : writes max log w (.write k v :: as) = writes max log w as := by
          simp only [writes]; rw [hk, e]; rfl
        rw [ew]
        rw [e] at hi ⊢
        have hg2 := hg.2
        rw [e] at hg2
        exact ih hi hg2 hc
      | some hd =>
        obtain ⟨x, hx, e1, e2⟩ := h.1.held hd (List.mem_of_getElem? hk)
        have hm : w.maps hd.2 = some hd.1 := by rw [← e1, ← e2]; exact h.1.mapped x hx
        have e : step max log w (.write k v) = { w with file := fun p => if p = hd.1 then v else w.file p } := by
          simp only [step]; rw [hk]; simp only; rw [hm]
        have ew : writes max log w (.write k v :: as) = (hd.1, v) :: writes max log (step max log w (.write k v)) as := by
          simp only [writes]; rw [hk]; rfl
        obtain ⟨x, y⟩ := ih hi hg.2 (by rw [e]; exact hc)
        refine ⟨x, fun p => ?_⟩
        rw [y p, ew]
        simp only [lastOf, List.foldl_cons]
        congr 1
        rw [e]
        simp only
        by_cases hp : p = hd.1
        · rw [if_pos hp, if_pos hp.symm]
        · rw [if_neg hp, if_neg (fun q => hp q.symm)]

/-- **C21**: if `mmap` does not fail, no access through a pointer that is held hits unmapped memory, and
what a client sees through it is what was last written to that page through any pointer, however often
the page was unmapped in between.  `C21_violated` shows what happens if `mmap` fails. -/
theorem C21_contents_partial {α : Type} (max : Nat) (log : Bool) (file : Nat → α) (as : List (Act α))
    (hg : GoodRun max log (World.init file) as) (k : Nat) (h : Nat × Nat)
    (hk : (run max log (World.init file) as).held[k]? = some h) :
    (run max log (World.init file) as).crashed = false ∧
    look (run max log (World.init file) as) k
      = some (lastOf (writes max log (World.init file) as) h.1 (file h.1)) := by
  have hi := run_inv (inv_init max file) hg
  obtain ⟨a, b⟩ := run_file (inv_init max file) hg rfl
  refine ⟨a, ?_⟩
  unfold look
  rw [hk]
  obtain ⟨x, hx, e1, e2⟩ := hi.1.held h (List.mem_of_getElem? hk)
  simp only
  rw [← e2, hi.1.mapped x hx, Option.map_some, b, e1]
  rfl

/-- Like `GoodAct`, but `mmap` may fail. -/
def EnvAct {α : Type} (max : Nat) (log : Bool) (w : World α) : Act α → Prop
  | .lock pos addr => addr = mapFailed ∨ GoodAct max log w (.lock pos addr)
  | _ => True

def EnvRun {α : Type} (max : Nat) (log : Bool) (w : World α) : List (Act α) → Prop
  | [] => True
  | a :: as => EnvAct max log w a ∧ EnvRun max log (step max log w a) as

/-- The full statement of C21: also if `mmap` fails. -/
def C21Full : Prop :=
  ∀ (max : Nat) (log : Bool) (file : Nat → Nat) (as : List (Act Nat)), EnvRun max log (World.init file) as →
    (run max log (World.init file) as).crashed = false ∧
    ∀ k h, (run max log (World.init file) as).held[k]? = some h →
      look (run max log (World.init file) as) k = some (lastOf (writes max log (World.init file) as) h.1 (file h.1))

/-- `map_new_page` does not check `mmap`: `MAP_FAILED` is handed out as if it were a page, and using it
is an access to unmapped memory. -/
theorem C21_violated : ¬ C21Full := by
  intro h
  have := (h 3 false (fun _ => 0) [.lock 0 mapFailed, .write 0 7] ⟨Or.inl rfl, trivial, trivial⟩).1
  exact absurd this (by decide)

instance {α : Type} (max : Nat) (log : Bool) (w : World α) (a : Act α) : Decidable (GoodAct max log w a) := by
  cases a <;> unfold GoodAct <;> infer_instance

instance decGoodRun {α : Type} (max : Nat) (log : Bool) : ∀ (as : List (Act α)) (w : World α), Decidable (GoodRun max log w as)
  | [], _ => isTrue trivial
  | a :: as, w => @instDecidableAnd _ _ _ (decGoodRun max log as (step max log w a))

/-- A history in which page 4 evicts page 1 and page 1 is mapped again at another address. -/
example : GoodRun 3 false (World.init (fun _ => 0))
    [.lock 1 10, .write 0 5, .lock 2 20, .lock 3 30, .unlock 0, .lock 4 40, .lock 2 99, .unlock 0, .unlock 1, .lock 1 50] ∧
    look (run 3 false (World.init (fun _ => 0))
      [.lock 1 10, .write 0 5, .lock 2 20, .lock 3 30, .unlock 0, .lock 4 40, .lock 2 99, .unlock 0, .unlock 1, .lock 1 50]) 2 = some 5 := by
  decide

end Abc.Vmem.Pool
