import Verif.Vmem.PoolProps

/-!
# C117: references to items

`operator *` of an iterator, `front()` and `back()` return references.  `deref()` gets the page with a local
`vmem_ptr`, so that the page is unlocked again when the reference is returned
(`src/x/vmem_iterator.x.h` 229-253, `src/x/vmem_container.x.h` 263-296).
-/

namespace Abc.Vmem.Pool

variable {α : Type}

/-- `deref()` of an iterator to an item on page `pos`, `src/x/vmem_iterator.x.h` 243-253: the page is locked, which
gives the address of the reference (0: the exception "Dereferencing invalid iterator" is thrown), and unlocked.  The
offset of the item within the page is left out.  `addr` is what `mmap` would return. -/
def deref (max : Nat) (log : Bool) (w : World α) (pos addr : Nat) : World α × Nat :=
  let w1 := step max log w (.lock pos addr)
  let p := (lockPage max log w.cache pos addr).ptr
  if p = 0 then (w1, 0) else (step max log w1 (.unlock w.held.length), p)

/-- What is seen through a reference; `none` is an access to unmapped memory. -/
def World.at {α : Type} (w : World α) (p : Nat) : Option α := (w.maps p).map w.file

/-- The pages that a history locks. -/
def pagesOf : List (Act α) → List Nat
  | [] => []
  | .lock pos _ :: as => pos :: pagesOf as
  | _ :: as => pagesOf as

theorem goodRun_app {max : Nat} {log : Bool} {as bs : List (Act α)} : ∀ {w : World α}, GoodRun max log w (as ++ bs) ↔ GoodRun max log w as ∧ GoodRun max log (run max log w as) bs := by
  induction as with
  | nil => intro w; simp [GoodRun, run]
  | cons a as ih =>
    intro w
    rw [List.cons_append, GoodRun, GoodRun, ih, run_cons, and_assoc]

theorem run_app (max : Nat) (log : Bool) (w : World α) (as bs : List (Act α)) : run max log w (as ++ bs) = run max log (run max log w as) bs := by
  simp [run]

/-- The reference is good when it is returned. -/
theorem deref_good {max : Nat} {log : Bool} {w : World α} {pos addr : Nat} (hi : Inv max w) (hg : GoodAct max log w (.lock pos addr)) (hp : (deref max log w pos addr).2 ≠ 0) :
    Inv max (deref max log w pos addr).1 ∧ (deref max log w pos addr).1.maps (deref max log w pos addr).2 = some pos := by
  have h1 := step_lock_inv hi hg
  unfold deref at hp ⊢
  simp only at hp ⊢
  split at hp
  · exact absurd rfl hp
  · rename_i hne
    rw [if_neg hne]
    refine ⟨step_inv h1 trivial, ?_⟩
    have hmem : (pos, (lockPage max log w.cache pos addr).ptr) ∈ (step max log w (.lock pos addr)).held := by
      simp only [step]
      rw [if_neg hne]
      simp
    obtain ⟨x, hx, e1, e2⟩ := h1.1.held _ hmem
    have hm : (step max log (step max log w (.lock pos addr)) (.unlock w.held.length)).maps = (step max log w (.lock pos addr)).maps := by
      generalize step max log w (.lock pos addr) = w1
      simp only [step]
      split <;> rfl
    simp only [hm]
    have := h1.1.mapped x hx
    rw [e1, e2] at this
    exact this

/-- A step that needs no room unmaps nothing. -/
theorem step_few {max : Nat} {log : Bool} {w : World α} {a : Act α} {D : List Nat} (hi : Inv max w) (hg : GoodAct max log w a) (hD : D.length ≤ max)
    (hm : ∀ p q, w.maps p = some q → q ∈ D) (ha : ∀ q ∈ pagesOf [a], q ∈ D) :
    (∀ p q, w.maps p = some q → (step max log w a).maps p = some q) ∧ ∀ p q, (step max log w a).maps p = some q → q ∈ D := by
  cases a with
  | unlock k =>
    have : (step max log w (.unlock k)).maps = w.maps := by simp only [step]; split <;> rfl
    rw [this]
    exact ⟨fun _ _ h => h, hm⟩
  | write k v =>
    have : (step max log w (.write k v)).maps = w.maps := by
      simp only [step]; split
      · rfl
      · split <;> rfl
    rw [this]
    exact ⟨fun _ _ h => h, hm⟩
  | lock pos addr =>
    have hpos : pos ∈ D := ha pos (by simp [pagesOf])
    obtain ⟨h0, hf, hfresh, hn⟩ := hg
    have h := hi.1
    have hcnt : (countCheck w.cache (find w.cache pos)).count = w.cache.count := rfl
    rcases find_spec w.cache pos with ⟨hfind, hno⟩ | ⟨hfind, hyes⟩
    · have hlt : w.cache.count < max := by
        have h1 : (pos :: (live w.cache).map Slot.pos).Nodup := by
          rw [List.nodup_cons]
          refine ⟨?_, h.nodup⟩
          intro hx
          obtain ⟨x, hx, e⟩ := List.mem_map.1 hx
          exact hno x hx e
        have h2 : (pos :: (live w.cache).map Slot.pos) ⊆ D := by
          intro q hq
          rcases List.mem_cons.1 hq with rfl | hq
          · exact hpos
          · obtain ⟨x, hx, rfl⟩ := List.mem_map.1 hq
            exact hm x.ptr x.pos (h.mapped x hx)
        have h3 := (List.subperm_of_subset h1 h2).length_le
        rw [List.length_cons, List.length_map, length_live] at h3
        omega
      have e : (lockPage max log w.cache pos addr).unmapped = [] ∧ (lockPage max log w.cache pos addr).mapped = true := by
        unfold lockPage
        simp only
        rw [if_neg (by rw [hcnt, hfind]; omega)]
        have em : (if (countCheck w.cache (find w.cache pos)).count < max then (countCheck w.cache (find w.cache pos), ([] : List Nat))
            else makeCapacity max (countCheck w.cache (find w.cache pos))) = (countCheck w.cache (find w.cache pos), []) := if_pos (by rw [hcnt]; exact hlt)
        rw [em]
        simp only
        rw [if_pos (by rw [hcnt]; exact hlt)]
        simp only [and_self]
      have e2 : (step max log w (.lock pos addr)).maps = mapAt w.maps addr pos := by
        simp only [step]
        rw [e.1, e.2, unmapAll_nil, if_pos rfl]
      rw [e.1, unmapAll_nil] at hfresh
      rw [e2]
      unfold mapAt
      rw [if_neg hf]
      constructor
      · intro p q hpq
        rw [if_neg]
        · exact hpq
        · intro ep
          rw [ep, hfresh] at hpq
          cases hpq
      · intro p q hpq
        split at hpq
        · cases hpq; exact hpos
        · exact hm p q hpq
    · have e : (lockPage max log w.cache pos addr).unmapped = [] ∧ (lockPage max log w.cache pos addr).mapped = false := by
        unfold lockPage
        simp only
        rw [if_pos (by rw [hcnt]; exact hfind)]
        exact ⟨rfl, rfl⟩
      have e2 : (step max log w (.lock pos addr)).maps = w.maps := by
        simp only [step]
        rw [e.1, e.2, unmapAll_nil, if_neg (by decide)]
      rw [e2]
      exact ⟨fun _ _ h => h, hm⟩

theorem run_few {max : Nat} {log : Bool} {D : List Nat} (hD : D.length ≤ max) (as : List (Act α)) : ∀ {w : World α}, Inv max w → GoodRun max log w as →
    (∀ p q, w.maps p = some q → q ∈ D) → (∀ q ∈ pagesOf as, q ∈ D) →
    (∀ p q, w.maps p = some q → (run max log w as).maps p = some q) ∧ ∀ p q, (run max log w as).maps p = some q → q ∈ D := by
  induction as with
  | nil => intro w _ _ hm _; exact ⟨fun _ _ h => h, hm⟩
  | cons a as ih =>
    intro w hi hg hm ha
    have ha1 : ∀ q ∈ pagesOf [a], q ∈ D := by
      intro q hq; apply ha; cases a <;> simp_all [pagesOf]
    have ha2 : ∀ q ∈ pagesOf as, q ∈ D := by
      intro q hq; apply ha; cases a <;> simp_all [pagesOf]
    obtain ⟨h1, h2⟩ := step_few hi hg.1 hD hm ha1
    obtain ⟨h3, h4⟩ := ih (step_inv hi hg.1) hg.2 h2 ha2
    exact ⟨fun p q h => h3 p q (h1 p q h), h4⟩

/-- C117 as one would want it: the reference keeps showing the item. -/
def C117Full : Prop :=
  ∀ (max : Nat) (log : Bool) (file : Nat → Nat) (as : List (Act Nat)) (pos addr : Nat) (bs : List (Act Nat)),
    GoodRun max log (World.init file) (as ++ [.lock pos addr]) → (deref max log (run max log (World.init file) as) pos addr).2 ≠ 0 →
    GoodRun max log (deref max log (run max log (World.init file) as) pos addr).1 bs →
    (run max log (deref max log (run max log (World.init file) as) pos addr).1 bs).at (deref max log (run max log (World.init file) as) pos addr).2 =
      some ((run max log (deref max log (run max log (World.init file) as) pos addr).1 bs).file pos)

/-- C117, the part that holds: a program that uses at most as many pages as the pool may have mapped can keep its
references. -/
theorem C117_few_partial (max : Nat) (log : Bool) (file : Nat → α) (as bs : List (Act α)) (pos addr : Nat) (D : List Nat) (hD : D.length ≤ max)
    (hg : GoodRun max log (World.init file) (as ++ [.lock pos addr])) (hp : (deref max log (run max log (World.init file) as) pos addr).2 ≠ 0)
    (hb : GoodRun max log (deref max log (run max log (World.init file) as) pos addr).1 bs) (hu : ∀ q ∈ pagesOf as ++ [pos] ++ pagesOf bs, q ∈ D) :
    (run max log (deref max log (run max log (World.init file) as) pos addr).1 bs).at (deref max log (run max log (World.init file) as) pos addr).2 =
      some ((run max log (deref max log (run max log (World.init file) as) pos addr).1 bs).file pos) := by
  rw [goodRun_app] at hg
  have hi := run_inv (inv_init max file) hg.1
  have hga := hg.2.1
  obtain ⟨_, f2⟩ := run_few hD as (inv_init max file) hg.1 (fun p q h => by cases h) (fun q hq => hu q (by simp [hq]))
  obtain ⟨h1, h2⟩ := deref_good hi hga hp
  obtain ⟨_, f4⟩ := step_few hi hga hD f2 (fun q hq => hu q (by simp [pagesOf] at hq; simp [hq]))
  have f5 : ∀ p q, (deref max log (run max log (World.init file) as) pos addr).1.maps p = some q → q ∈ D := by
    intro p q h
    unfold deref at h
    simp only at h
    split at h
    · exact f4 p q h
    · have hm : (step max log (step max log (run max log (World.init file) as) (.lock pos addr)) (.unlock (run max log (World.init file) as).held.length)).maps =
          (step max log (run max log (World.init file) as) (.lock pos addr)).maps := by
        generalize step max log (run max log (World.init file) as) (.lock pos addr) = w1
        simp only [step]
        split <;> rfl
      rw [hm] at h
      exact f4 p q h
  have := (run_few hD bs h1 hb f5 (fun q hq => hu q (by simp [hq]))).1 _ _ h2
  unfold World.at
  rw [this]
  rfl

theorem held_step {max : Nat} {log : Bool} {w : World α} {a : Act α} {p pos : Nat} (hi : Inv max w) (hg : GoodAct max log w a) (hp : w.maps p = some pos)
    (h1 : ∃ h ∈ w.held, h.1 = pos) (h2 : ∃ h ∈ (step max log w a).held, h.1 = pos) : (step max log w a).maps p = some pos := by
  have same : ∀ h ∈ w.held, h.1 = pos → h.2 = p := by
    intro h hh e
    obtain ⟨x, hx, e1, e2⟩ := hi.1.held h hh
    obtain ⟨y, hy, f⟩ := hi.1.only p pos hp
    have f2 := hi.1.mapped y hy
    rw [f, hp] at f2
    rw [← e2, ← f, pos_inj hi.1.nodup hx hy (by rw [e1, e]; exact Option.some.inj f2)]
  have key : ∀ h ∈ (step max log w a).held, h.1 = pos → h.2 = p → (step max log w a).maps p = some pos := by
    intro h hh e1 e2
    obtain ⟨x, hx, f1, f2⟩ := (step_inv hi hg).1.held h hh
    rw [← e2, ← f2, (step_inv hi hg).1.mapped x hx, f1, e1]
  cases a with
  | lock q addr =>
    obtain ⟨h, hh, e⟩ := h1
    refine key h ?_ e (same h hh e)
    simp only [step]
    split
    · exact hh
    · exact List.mem_append_left _ hh
  | unlock k =>
    obtain ⟨h, hh, e⟩ := h2
    refine key h hh e (same h ?_ e)
    simp only [step] at hh
    split at hh
    · exact hh
    · exact List.mem_of_mem_eraseIdx hh
  | write k v =>
    obtain ⟨h, hh, e⟩ := h2
    refine key h hh e (same h ?_ e)
    simp only [step] at hh
    split at hh
    · exact hh
    · split at hh <;> exact hh

/-- The reference also stays good as long as someone holds the page the whole time, for instance by the pointer that
`operator ->` or `ptr()` returns. -/
theorem C117_held_partial (max : Nat) (log : Bool) (file : Nat → α) (as bs : List (Act α)) (pos addr : Nat)
    (hg : GoodRun max log (World.init file) (as ++ [.lock pos addr])) (hp : (deref max log (run max log (World.init file) as) pos addr).2 ≠ 0)
    (hb : GoodRun max log (deref max log (run max log (World.init file) as) pos addr).1 bs)
    (hh : ∀ bs1 bs2, bs = bs1 ++ bs2 → ∃ h ∈ (run max log (deref max log (run max log (World.init file) as) pos addr).1 bs1).held, h.1 = pos) :
    (run max log (deref max log (run max log (World.init file) as) pos addr).1 bs).at (deref max log (run max log (World.init file) as) pos addr).2 =
      some ((run max log (deref max log (run max log (World.init file) as) pos addr).1 bs).file pos) := by
  rw [goodRun_app] at hg
  obtain ⟨h1, h2⟩ := deref_good (run_inv (inv_init max file) hg.1) hg.2.1 hp
  generalize (deref max log (run max log (World.init file) as) pos addr).2 = p at *
  generalize (deref max log (run max log (World.init file) as) pos addr).1 = w at *
  have : (run max log w bs).maps p = some pos := by
    induction bs generalizing w with
    | nil => exact h2
    | cons a bs ih =>
      rw [run_cons]
      refine ih _ hb.2 (fun bs1 bs2 e => ?_) (step_inv h1 hb.1) (held_step h1 hb.1 h2 (hh [] _ rfl) (hh [a] bs rfl))
      have := hh (a :: bs1) bs2 (by rw [e]; rfl)
      rwa [run_cons] at this
  unfold World.at
  rw [this]
  rfl

/-- C117 is violated whenever the pool is busy: once as many other pages are locked at the same time as the pool may
have mapped, the reference shows nothing (the memory is not mapped) or another page. -/
theorem C117_violated_busy (max : Nat) (log : Bool) (file : Nat → α) (cs : List (Act α)) (hg : GoodRun max log (World.init file) cs)
    (D : List Nat) (hD : D.Nodup) (hl : D.length = max) (hh : ∀ q ∈ D, ∃ h ∈ (run max log (World.init file) cs).held, h.1 = q)
    (pos : Nat) (hp : pos ∉ D) (p : Nat) :
    (run max log (World.init file) cs).maps p ≠ some pos ∧
    ((run max log (World.init file) cs).at p = none ∨ ∃ q ∈ D, (run max log (World.init file) cs).at p = some ((run max log (World.init file) cs).file q)) := by
  have hi := (run_inv (inv_init max file) hg).1
  generalize run max log (World.init file) cs = w at *
  have all : ∀ x ∈ live w.cache, x.pos ∈ D := by
    have sub : D ⊆ (live w.cache).map Slot.pos := by
      intro q hq
      obtain ⟨h, h1, h2⟩ := hh q hq
      obtain ⟨x, hx, e1, _⟩ := hi.held h h1
      exact List.mem_map.2 ⟨x, hx, by rw [e1, h2]⟩
    have sp := List.subperm_of_subset hD sub
    have hle : ((live w.cache).map Slot.pos).length ≤ D.length := by rw [List.length_map, hl]; exact hi.len
    have hperm := sp.perm_of_length_le hle
    intro x hx
    exact hperm.mem_iff.2 (List.mem_map.2 ⟨x, hx, rfl⟩)
  have some_ : ∀ q, w.maps p = some q → q ∈ D := by
    intro q hq
    obtain ⟨x, hx, rfl⟩ := hi.only p q hq
    have := hi.mapped x hx
    rw [hq] at this
    rw [Option.some.inj this]
    exact all x hx
  refine ⟨fun h => hp (some_ pos h), ?_⟩
  unfold World.at
  cases hm : w.maps p with
  | none => exact Or.inl rfl
  | some q => exact Or.inr ⟨q, some_ q hm, rfl⟩

/-- A pool with room for three pages; page 1 holds 5.  A reference to it is taken; then three other pages are locked. -/
def refStart : List (Act Nat) := [.lock 1 10, .write 0 5, .unlock 0]
def refThen : List (Act Nat) := [.lock 2 20, .lock 3 30, .lock 4 10]

/-- C117 is violated: the reference to page 1 shows page 4, which was mapped at the same address. -/
theorem C117_violated : ¬ C117Full := by
  intro h
  have := h 3 true (fun n => n) refStart 1 99 refThen (by decide) (by decide) (by decide)
  revert this
  decide

/-- A case of `C117_violated_busy`. -/
example : (run 3 true (World.init (fun n => n)) (refStart ++ [.lock 1 99, .unlock 0] ++ refThen)).at 10 = some 4 ∧
    (run 3 true (World.init (fun n => n)) (refStart ++ [.lock 1 99, .unlock 0] ++ refThen)).file 1 = 5 ∧
    GoodRun 3 true (World.init (fun n => n)) (refStart ++ [.lock 1 99, .unlock 0] ++ refThen) ∧
    (∀ q ∈ [2, 3, 4], ∃ h ∈ (run 3 true (World.init (fun n => n)) (refStart ++ [.lock 1 99, .unlock 0] ++ refThen)).held, h.1 = q) := by decide

/-- A case of `C117_few_partial`: with room for four pages the reference shows what was written last. -/
example : (run 4 true (deref 4 true (run 4 true (World.init (fun n => n)) refStart) 1 99).1 [.lock 2 20, .lock 3 30, .lock 4 40, .lock 1 98, .write 3 7]).at 10 = some 7 := by
  rw [show (10 : Nat) = (deref 4 true (run 4 true (World.init (fun n => n)) refStart) 1 99).2 from by decide]
  rw [C117_few_partial 4 true (fun n => n) refStart _ 1 99 [1, 2, 3, 4] (by decide) (by decide) (by decide) (by decide) (by decide)]
  decide

/-- A case of `C117_held_partial`: page 1 is held from before on. -/
example : (run 3 true (deref 3 true (run 3 true (World.init (fun n => n)) [.lock 1 10, .write 0 5]) 1 99).1
    [.lock 2 20, .lock 3 30, .unlock 1, .lock 4 40, .lock 1 77, .unlock 0]).at 10 = some 5 := by decide

end Abc.Vmem.Pool
