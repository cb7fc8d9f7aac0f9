import Verif.Vmem.MapModel

/-! # The file never becomes shorter and a map without erasures never loses a key level -/

namespace Abc.Vmem.Pages

variable {α : Type}

@[simp] theorem check_len (h : Heap α) (b : Bool) : (h.check b).len = h.len := rfl

theorem insertNostate_len (max : Nat) (held : List Nat) (h : Heap α) (sid i p b : Nat) : (insertNostate max held h sid i p b).1.len = h.len := by
  unfold insertNostate
  repeat' (first | split | rfl)

theorem linsert_len (max : Nat) (held : List Nat) (h : Heap α) (sid : Nat) (i : LItr) (p : Nat) : (linsert max held h sid i p).1.len = h.len := by
  unfold linsert
  simp only
  split
  · exact insertNostate_len ..
  · exact insertNostate_len ..

theorem freePage_len (max : Nat) (held : List Nat) (h : Heap α) (p : Nat) : (freePage max held h p).len = h.len := by
  unfold freePage pushFree
  split
  · rfl
  · split
    · rfl
    · exact linsert_len ..

theorem unlinkPrev_len (max : Nat) (held : List Nat) (h : Heap α) (p : Nat) : (unlinkPrev max held h p).1.len = h.len := by
  unfold unlinkPrev
  split
  · rfl
  · split <;> rfl

theorem unlinkNext_len (max : Nat) (held : List Nat) (h : Heap α) (p : Nat) : (unlinkNext max held h p).1.len = h.len := by
  unfold unlinkNext
  split
  · rfl
  · split <;> rfl

theorem eraseNostate_len (max : Nat) (held : List Nat) (h : Heap α) (p : Nat) : (eraseNostate max held h p).1.len = h.len := by
  unfold eraseNostate
  simp only
  repeat' (first | split | rfl | exact freePage_len .. | exact (unlinkNext_len ..).trans (unlinkPrev_len ..) | exact unlinkPrev_len .. | exact (freePage_len ..).trans ((unlinkNext_len ..).trans (unlinkPrev_len ..)))

theorem lerase_len (max : Nat) (held : List Nat) (h : Heap α) (sid p : Nat) : (lerase max held h sid p).1.len = h.len := by
  unfold lerase
  simp only
  split
  · exact eraseNostate_len ..
  · exact eraseNostate_len ..

theorem popFree_len (max : Nat) (held : List Nat) (h : Heap α) : (popFree max held h).1.len = h.len := by
  unfold popFree
  split
  · rfl
  · split
    · rfl
    · split
      · rfl
      · exact lerase_len ..

theorem allocPage_len (max limit : Nat) (held : List Nat) (h : Heap α) : h.len ≤ (allocPage max limit held h).1.len := by
  unfold allocPage
  simp only
  have := popFree_len max held h
  split
  · unfold createPage
    split
    · show h.len ≤ (popFree max held h).1.len + 1; omega
    · show h.len ≤ (popFree max held h).1.len; omega
  · omega

theorem insertPageAfter_len (c : Cfg) (held : List Nat) (h : Heap α) (sid after : Nat) : h.len ≤ (insertPageAfter c held h sid after).1.len := by
  unfold insertPageAfter
  simp only
  have := allocPage_len c.max c.limit held h
  generalize allocPage c.max c.limit held h = r at *
  split
  · exact this
  · split
    · exact this
    · split
      · split
        · rw [freePage_len, linsert_len]; exact this
        · rw [mod_len, linsert_len]; exact this
      · split
        · rw [freePage_len, linsert_len]; exact this
        · rw [mod_len, linsert_len]; exact this

theorem insertWithCapacity_len (c : Cfg) (h : Heap α) (p i : Nat) (x : α) : (insertWithCapacity c h p i x).heap.len = h.len := rfl

theorem insertInto_len (c : Cfg) (h : Heap α) (i : Itr) (n : Nat) (x : α) : (insertInto c h i n x).heap.len = h.len := by
  unfold insertInto
  split <;> rfl

theorem cinsertNostate_len (c : Cfg) (held : List Nat) (h : Heap α) (sid : Nat) (i : Itr) (x : α) : h.len ≤ (cinsertNostate c held h sid i x).heap.len := by
  unfold cinsertNostate
  split
  · have := insertPageAfter_len c held h sid nil
    generalize insertPageAfter c held h sid nil = r at *
    obtain ⟨h1, o⟩ := r
    cases o <;> exact this
  · split
    · exact Nat.le_refl _
    · split
      · unfold insertWithOverflow
        have := insertPageAfter_len c (i.page :: held) h sid i.page
        generalize insertPageAfter c (i.page :: held) h sid i.page = r at *
        obtain ⟨h1, o⟩ := r
        cases o with
        | none => exact this
        | some n =>
          show h.len ≤ (insertInto _ _ _ _ _).heap.len
          rw [insertInto_len]
          split <;> exact this
      · exact Nat.le_refl _

theorem insert2_len {c : Cfg} {held : List Nat} {h : Heap α} {sid : Nat} {i : Itr} {x : α} {r : Res α} (e : insert2 c held h sid i x = some r) :
    h.len ≤ r.heap.len := by
  unfold insert2 at e
  have := cinsertNostate_len c held h sid i x
  split at e
  · cases e
  · split at e
    · cases e
    · simp only at e
      generalize cinsertNostate c held h sid i x = q at *
      split at e <;> cases e <;> exact this

theorem clear_len (max : Nat) (held : List Nat) (h : Heap α) (sid : Nat) : (clear max held h sid).len = h.len := by
  unfold clear splice
  simp only
  repeat' (first | split | rfl)

end Abc.Vmem.Pages

namespace Abc.Vmem.Map

open Abc.Vmem.Pages

variable {K V : Type} [LinearOrder K]

omit [LinearOrder K] in
theorem pushPath_len (m : MCfg K V) (held : List Nat) (h : Heap (Cell K V)) (p : Nat) (path : List Nat) : h.len ≤ (pushPath m held h p path).1.len := by
  unfold pushPath
  cases e : insert2 (noneCfg m m.capP) held h 3 (cend (h.states 3)) (.pos p) with
  | none => exact Nat.le_refl _
  | some r => exact insert2_len e

theorem descend_len (m : MCfg K V) (key : K) : ∀ (n : Nat) (h : Heap (Cell K V)) (path : List Nat) (p : Nat), h.len ≤ (descend m key n h path p).1.len := by
  intro n
  induction n with
  | zero => intro h path p; exact Nat.le_refl _
  | succ n ih =>
    intro h path p
    unfold descend
    split
    · exact Nat.le_refl _
    · split
      · exact Nat.le_refl _
      · simp only
        refine Nat.le_trans ?_ (ih _ _ _)
        split
        · exact Nat.le_refl _
        · exact pushPath_len ..

theorem find2_len (m : MCfg K V) (h : Heap (Cell K V)) (depth : Nat) (key : K) : h.len ≤ (find2 m h depth key).heap.len := by
  have hf : h.len ≤ (findPage m h depth key).1.len := by
    unfold findPage
    split
    · exact Nat.le_refl _
    · exact Nat.le_trans (pushPath_len ..) (descend_len ..)
  unfold find2
  simp only
  split
  · exact hf
  · split <;> exact hf

omit [LinearOrder K] in
theorem dropPath_len (m : MCfg K V) (h : Heap (Cell K V)) : (dropPath m h).len = h.len := clear_len ..

theorem upInsert_len (m : MCfg K V) : ∀ (rp : List Nat) (l : Nat) (h : Heap (Cell K V)) (a b : Lead (Cell K V)), h.len ≤ (upInsert m l rp h a b).1.len := by
  intro rp
  induction rp with
  | nil => intro l h a b; exact Nat.le_refl _
  | cons p rp ih =>
    intro l h a b
    unfold upInsert
    split
    · exact Nat.le_refl _
    · simp only
      split
      · exact Nat.le_refl _
      · split
        · exact Nat.le_refl _
        · rename_i r e
          exact Nat.le_trans (insert2_len e) (ih _ _ _ _)

omit [LinearOrder K] in
theorem pushTo_len (c : Cfg) (h : Heap (Cell K V)) (sid : Nat) (x : Cell K V) : h.len ≤ (pushTo c h sid x).len := by
  unfold pushTo
  split
  · exact Nat.le_refl _
  · rename_i r e; exact insert2_len e

omit [LinearOrder K] in
theorem newLevel_len (m : MCfg K V) (h : Heap (Cell K V)) (d : Nat) (a b : Lead (Cell K V)) : h.len ≤ (newLevel m h d a b).heap.len ∧ d ≤ (newLevel m h d a b).depth := by
  unfold newLevel
  simp only
  have h1 := pushTo_len (allCfg m m.capK) (h.setState (4 + d) CState.new) (4 + d) (.sep (leadKey m b.fst) b.page)
  generalize pushTo (allCfg m m.capK) (h.setState (4 + d) CState.new) (4 + d) (.sep (leadKey m b.fst) b.page) = g1 at *
  have h2 := pushTo_len (allCfg m m.capK) g1 (4 + d) (.sep (leadKey m a.fst) a.page)
  generalize pushTo (allCfg m m.capK) g1 (4 + d) (.sep (leadKey m a.fst) a.page) = g2 at *
  have h3 : h.len ≤ g2.len := Nat.le_trans h1 h2
  split
  · exact ⟨h3, Nat.le_refl _⟩
  · rename_i r e
    refine ⟨Nat.le_trans h3 (insert2_len e), ?_⟩
    simp only
    split <;> omega

theorem updateInsert_len (m : MCfg K V) (h : Heap (Cell K V)) (d : Nat) (path : List Nat) (a b : Lead (Cell K V)) :
    h.len ≤ (updateInsert m h d path a b).heap.len ∧ d ≤ (updateInsert m h d path a b).depth := by
  unfold updateInsert
  split
  · exact ⟨Nat.le_refl _, Nat.le_refl _⟩
  · split
    · exact ⟨Nat.le_refl _, Nat.le_refl _⟩
    · simp only
      have := upInsert_len m path.reverse 0 h a b
      split
      · exact ⟨this, Nat.le_refl _⟩
      · split
        · have h2 := newLevel_len m (upInsert m 0 path.reverse h a b).1 d (upInsert m 0 path.reverse h a b).2.2.1 (upInsert m 0 path.reverse h a b).2.2.2
          exact ⟨Nat.le_trans this h2.1, h2.2⟩
        · exact ⟨this, Nat.le_refl _⟩

theorem insert_len (m : MCfg K V) (s : MSt K V) (k : K) (v : V) : s.heap.len ≤ (s.insert m k v).1.heap.len ∧ s.depth ≤ (s.insert m k v).1.depth := by
  unfold MSt.insert
  simp only
  have h1 := find2_len m s.heap s.depth k
  split
  · exact ⟨by rw [dropPath_len]; exact h1, Nat.le_refl _⟩
  · split
    · exact ⟨by rw [dropPath_len]; exact h1, Nat.le_refl _⟩
    · rename_i r e
      have h2 := updateInsert_len m r.heap s.depth (find2 m s.heap s.depth k).path r.lead0 r.lead1
      exact ⟨by rw [dropPath_len]; exact Nat.le_trans h1 (Nat.le_trans (insert2_len e) h2.1), h2.2⟩

theorem find_len (m : MCfg K V) (s : MSt K V) (k : K) : s.heap.len ≤ (s.find m k).1.heap.len ∧ s.depth ≤ (s.find m k).1.depth := by
  unfold MSt.find
  exact ⟨by simp only; rw [dropPath_len]; exact find2_len .., Nat.le_refl _⟩

/-- Histories without erasures. -/
theorem run_len (m : MCfg K V) : ∀ (os : List (MOp K V)) (s : MSt K V), (∀ o ∈ os, o.keeps = true) →
    s.heap.len ≤ (s.run m os).1.heap.len ∧ s.depth ≤ (s.run m os).1.depth := by
  intro os
  induction os with
  | nil => intro s _; exact ⟨Nat.le_refl _, Nat.le_refl _⟩
  | cons o os ih =>
    intro s hk
    have h2 := ih (s.step m o).1 (fun o' ho => hk o' (by simp [ho]))
    have h1 : s.heap.len ≤ (s.step m o).1.heap.len ∧ s.depth ≤ (s.step m o).1.depth := by
      cases o with
      | insert k v => exact insert_len m s k v
      | erase k => have := hk (.erase k) (by simp); cases this
      | find k => exact find_len m s k
    exact ⟨Nat.le_trans h1.1 h2.1, Nat.le_trans h1.2 h2.2⟩

end Abc.Vmem.Map
