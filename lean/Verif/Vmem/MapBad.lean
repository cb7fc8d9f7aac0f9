import Verif.Vmem.MapMono

/-! # Undefined behaviour is never forgotten: once the flag of the heap is set, every later call keeps it -/

namespace Abc.Vmem.Pages

variable {α : Type}

theorem insertNostate_bad (max : Nat) (held : List Nat) (h : Heap α) (sid i p b : Nat) : (insertNostate max held h sid i p b).1.bad = h.bad := by
  unfold insertNostate
  repeat' (first | split | rfl)

theorem linsert_bad (max : Nat) (held : List Nat) (h : Heap α) (sid : Nat) (i : LItr) (p : Nat) : (linsert max held h sid i p).1.bad = h.bad := by
  unfold linsert
  simp only
  split
  · exact insertNostate_bad ..
  · exact insertNostate_bad ..

theorem freePage_bad (max : Nat) (held : List Nat) (h : Heap α) (p : Nat) : (freePage max held h p).bad = h.bad := by
  unfold freePage pushFree
  split
  · rfl
  · split
    · rfl
    · exact linsert_bad ..

theorem unlinkPrev_bad (max : Nat) (held : List Nat) (h : Heap α) (p : Nat) : (unlinkPrev max held h p).1.bad = h.bad := by
  unfold unlinkPrev
  split
  · rfl
  · split <;> rfl

theorem unlinkNext_bad (max : Nat) (held : List Nat) (h : Heap α) (p : Nat) : (unlinkNext max held h p).1.bad = h.bad := by
  unfold unlinkNext
  split
  · rfl
  · split <;> rfl

theorem eraseNostate_bad (max : Nat) (held : List Nat) (h : Heap α) (p : Nat) : (eraseNostate max held h p).1.bad = h.bad := by
  unfold eraseNostate
  simp only
  repeat' (first | split | rfl | exact freePage_bad .. | exact (unlinkNext_bad ..).trans (unlinkPrev_bad ..) | exact unlinkPrev_bad .. | exact (freePage_bad ..).trans ((unlinkNext_bad ..).trans (unlinkPrev_bad ..)))

theorem lerase_bad (max : Nat) (held : List Nat) (h : Heap α) (sid p : Nat) : (lerase max held h sid p).1.bad = h.bad := by
  unfold lerase
  simp only
  split
  · exact eraseNostate_bad ..
  · exact eraseNostate_bad ..

theorem check_bad {h : Heap α} (b : Bool) (hb : h.bad = true) : (h.check b).bad = true := by simp [Heap.check, hb]

theorem popFree_bad (max : Nat) (held : List Nat) {h : Heap α} (hb : h.bad = true) : (popFree max held h).1.bad = true := by
  unfold popFree
  split
  · exact hb
  · split
    · exact hb
    · split
      · exact check_bad _ hb
      · exact (lerase_bad ..).trans hb

theorem allocPage_bad (max limit : Nat) (held : List Nat) {h : Heap α} (hb : h.bad = true) : (allocPage max limit held h).1.bad = true := by
  unfold allocPage
  simp only
  have := popFree_bad max held hb
  split
  · unfold createPage
    split <;> exact this
  · exact this

theorem insertPageAfter_bad (c : Cfg) (held : List Nat) {h : Heap α} (hb : h.bad = true) (sid after : Nat) :
    (insertPageAfter c held h sid after).1.bad = true := by
  unfold insertPageAfter
  simp only
  have := allocPage_bad c.max c.limit held hb
  generalize allocPage c.max c.limit held h = r at *
  split
  · exact this
  · split
    · exact this
    · have h1 : (if after = nil then r.1 else r.1.check c.log).bad = true := by
        split
        · exact this
        · exact check_bad _ this
      generalize (if after = nil then r.1 else r.1.check c.log) = g at *
      generalize (if after = nil then lend else lnext c.max (r.2 :: held) r.1 sid ⟨after, .none⟩) = i
      split
      · rw [freePage_bad, linsert_bad]; exact h1
      · exact (linsert_bad ..).trans h1

theorem insertWithCapacity_bad (c : Cfg) {h : Heap α} (hb : h.bad = true) (p i : Nat) (x : α) : (insertWithCapacity c h p i x).heap.bad = true :=
  check_bad _ hb

theorem insertInto_bad (c : Cfg) {h : Heap α} (hb : h.bad = true) (i : Itr) (n : Nat) (x : α) : (insertInto c h i n x).heap.bad = true := by
  unfold insertInto
  split <;> exact insertWithCapacity_bad _ hb _ _ _

theorem cinsertNostate_bad (c : Cfg) (held : List Nat) {h : Heap α} (hb : h.bad = true) (sid : Nat) (i : Itr) (x : α) :
    (cinsertNostate c held h sid i x).heap.bad = true := by
  unfold cinsertNostate
  split
  · have := insertPageAfter_bad c held hb sid nil
    generalize insertPageAfter c held h sid nil = r at *
    obtain ⟨h1, o⟩ := r
    cases o
    · exact this
    · exact insertWithCapacity_bad _ this _ _ _
  · split
    · exact hb
    · split
      · unfold insertWithOverflow
        have := insertPageAfter_bad c (i.page :: held) hb sid i.page
        generalize insertPageAfter c (i.page :: held) h sid i.page = r at *
        obtain ⟨h1, o⟩ := r
        cases o with
        | none => exact this
        | some n =>
          refine insertInto_bad c ?_ _ _ _
          split <;> exact this
      · exact insertWithCapacity_bad _ hb _ _ _

theorem insert2_bad {c : Cfg} {held : List Nat} {h : Heap α} (hb : h.bad = true) {sid : Nat} {i : Itr} {x : α} {r : Res α}
    (e : insert2 c held h sid i x = some r) : r.heap.bad = true := by
  unfold insert2 at e
  have := cinsertNostate_bad c held hb sid i x
  split at e
  · cases e
  · split at e
    · cases e
    · simp only at e
      generalize cinsertNostate c held h sid i x = q at *
      split at e <;> cases e <;> exact this

theorem clear_bad (max : Nat) (held : List Nat) (h : Heap α) (sid : Nat) : (clear max held h sid).bad = h.bad := by
  unfold clear splice
  simp only
  repeat' (first | split | rfl)

theorem erasePage_bad (c : Cfg) (held : List Nat) (h : Heap α) (sid p : Nat) : (erasePage c held h sid p).bad = h.bad :=
  (freePage_bad ..).trans (lerase_bad ..)

theorem eraseFromMany_bad (h : Heap α) (sid : Nat) (i : Itr) : (eraseFromMany h sid i).heap.bad = h.bad := by
  unfold eraseFromMany
  simp only
  split <;> rfl

theorem mergeNext_bad (c : Cfg) (held : List Nat) (h : Heap α) (sid : Nat) (i : Itr) (p : Nat) : (mergeNext c held h sid i p).heap.bad = h.bad := by
  unfold mergeNext
  simp only
  split
  · rfl
  · split
    · exact erasePage_bad ..
    · rfl

theorem mergePrev_bad (c : Cfg) (held : List Nat) (h : Heap α) (sid : Nat) (i : Itr) (p : Nat) : (mergePrev c held h sid i p).heap.bad = h.bad := by
  unfold mergePrev
  simp only
  split
  · rfl
  · split
    · exact erasePage_bad ..
    · rfl

theorem balanceMerge_bad (c : Cfg) (held : List Nat) (h : Heap α) (sid : Nat) (i : Itr) (p : Nat) : (balanceMerge c held h sid i p).heap.bad = h.bad := by
  have h1 : (if (h.pages p).next = nil then (⟨h, some i, .default, .default⟩ : Res α) else mergeNext c (p :: held) h sid i p).heap.bad = h.bad := by
    split
    · rfl
    · exact mergeNext_bad ..
  unfold balanceMerge
  simp only
  generalize (if (h.pages p).next = nil then (⟨h, some i, .default, .default⟩ : Res α) else mergeNext c (p :: held) h sid i p) = r at *
  split
  · exact h1
  · exact (mergePrev_bad ..).trans h1

theorem ceraseNostate_bad (c : Cfg) (held : List Nat) (h : Heap α) (sid : Nat) (i : Itr) : (ceraseNostate c held h sid i).heap.bad = h.bad := by
  unfold ceraseNostate
  split
  · rfl
  · split
    · simp only
      split
      · exact (balanceMerge_bad ..).trans (eraseFromMany_bad ..)
      · exact eraseFromMany_bad ..
    · exact erasePage_bad ..

theorem erase2_bad {c : Cfg} {held : List Nat} {h : Heap α} (hb : h.bad = true) {sid : Nat} {i : Itr} {r : Res α} (e : erase2 c held h sid i = some r) :
    r.heap.bad = true := by
  unfold erase2 at e
  have := (ceraseNostate_bad c held h sid i).trans hb
  split at e
  · cases e
  · simp only at e
    generalize ceraseNostate c held h sid i = q at *
    split at e <;> cases e <;> exact this

end Abc.Vmem.Pages

namespace Abc.Vmem.Map

open Abc.Vmem.Pages

variable {K V : Type} [LinearOrder K]

omit [LinearOrder K] in
theorem pushPath_bad (m : MCfg K V) (held : List Nat) {h : Heap (Cell K V)} (hb : h.bad = true) (p : Nat) (path : List Nat) :
    (pushPath m held h p path).1.bad = true := by
  unfold pushPath
  cases e : insert2 (noneCfg m m.capP) held h 3 (cend (h.states 3)) (.pos p) with
  | none => exact check_bad _ hb
  | some r => exact insert2_bad hb e

theorem descend_bad (m : MCfg K V) (key : K) : ∀ (n : Nat) (h : Heap (Cell K V)) (path : List Nat) (p : Nat), h.bad = true →
    (descend m key n h path p).1.bad = true := by
  intro n
  induction n with
  | zero => intro h path p hb; exact hb
  | succ n ih =>
    intro h path p hb
    unfold descend
    split
    · exact hb
    · split
      · exact hb
      · simp only
        refine ih _ _ _ ?_
        split
        · exact hb
        · exact pushPath_bad _ _ hb _ _

theorem find2_bad (m : MCfg K V) {h : Heap (Cell K V)} (hb : h.bad = true) (depth : Nat) (key : K) : (find2 m h depth key).heap.bad = true := by
  have hf : (findPage m h depth key).1.bad = true := by
    unfold findPage
    split
    · exact hb
    · exact descend_bad _ _ _ _ _ _ (pushPath_bad _ _ hb _ _)
  unfold find2
  simp only
  split
  · exact hf
  · split
    · exact hf
    · exact check_bad _ hf

omit [LinearOrder K] in
theorem dropPath_bad (m : MCfg K V) (h : Heap (Cell K V)) : (dropPath m h).bad = h.bad := clear_bad ..

theorem upInsert_bad (m : MCfg K V) : ∀ (rp : List Nat) (l : Nat) (h : Heap (Cell K V)) (a b : Lead (Cell K V)), h.bad = true →
    (upInsert m l rp h a b).1.bad = true := by
  intro rp
  induction rp with
  | nil => intro l h a b hb; exact hb
  | cons p rp ih =>
    intro l h a b hb
    unfold upInsert
    split
    · exact hb
    · simp only
      split
      · exact hb
      · split
        · exact check_bad _ hb
        · rename_i r e
          exact ih _ _ _ _ (insert2_bad hb e)

omit [LinearOrder K] in
theorem pushTo_bad (c : Cfg) {h : Heap (Cell K V)} (hb : h.bad = true) (sid : Nat) (x : Cell K V) : (pushTo c h sid x).bad = true := by
  unfold pushTo
  split
  · exact check_bad _ hb
  · rename_i r e; exact insert2_bad hb e

omit [LinearOrder K] in
theorem newLevel_bad (m : MCfg K V) {h : Heap (Cell K V)} (hb : h.bad = true) (d : Nat) (a b : Lead (Cell K V)) : (newLevel m h d a b).heap.bad = true := by
  unfold newLevel
  simp only
  have h1 := pushTo_bad (allCfg m m.capK) (h := h.setState (4 + d) CState.new) hb (4 + d) (.sep (leadKey m b.fst) b.page)
  have h2 := pushTo_bad (allCfg m m.capK) h1 (4 + d) (.sep (leadKey m a.fst) a.page)
  split
  · exact check_bad _ h2
  · rename_i r e
    exact insert2_bad h2 e

theorem updateInsert_bad (m : MCfg K V) {h : Heap (Cell K V)} (hb : h.bad = true) (d : Nat) (path : List Nat) (a b : Lead (Cell K V)) :
    (updateInsert m h d path a b).heap.bad = true := by
  unfold updateInsert
  split
  · exact hb
  · split
    · exact hb
    · simp only
      have := upInsert_bad m path.reverse 0 h a b hb
      split
      · exact this
      · split
        · exact newLevel_bad _ this _ _ _
        · exact this

theorem upErase_bad (m : MCfg K V) : ∀ (rp : List Nat) (l : Nat) (h : Heap (Cell K V)) (a b : Lead (Cell K V)), h.bad = true →
    (upErase m l rp h a b).1.bad = true := by
  intro rp
  induction rp with
  | nil => intro l h a b hb; exact hb
  | cons p rp ih =>
    intro l h a b hb
    unfold upErase
    split
    · exact hb
    · simp only
      split
      · exact hb
      · have h1 : (if a.op = .replace then replaceKey m h p (keyItemPos m [(h.states 2).front] h p (leadKey m a.fst)) (leadKey m a.snd) else h).bad = true := by
          split
          · exact check_bad _ hb
          · exact hb
        generalize (if a.op = .replace then replaceKey m h p (keyItemPos m [(h.states 2).front] h p (leadKey m a.fst)) (leadKey m a.snd) else h) = g at *
        split
        · exact h1
        · split
          · exact check_bad _ h1
          · rename_i r e
            exact ih _ _ _ _ (erase2_bad h1 e)

theorem updateErase_bad (m : MCfg K V) {h : Heap (Cell K V)} (hb : h.bad = true) (d : Nat) (path : List Nat) (a b : Lead (Cell K V)) :
    (updateErase m h d path a b).heap.bad = true := by
  unfold updateErase
  split
  · exact hb
  · split
    · exact hb
    · simp only
      have := upErase_bad m path.reverse 0 h a b hb
      split
      · exact this
      · split
        · split
          · exact check_bad _ this
          · rename_i r e
            exact erase2_bad this e
        · exact this

theorem insert_bad (m : MCfg K V) {s : MSt K V} (hb : s.heap.bad = true) (k : K) (v : V) : (s.insert m k v).1.heap.bad = true := by
  unfold MSt.insert
  simp only
  have h1 := find2_bad m hb s.depth k
  split
  · exact (dropPath_bad ..).trans h1
  · split
    · exact (dropPath_bad ..).trans (check_bad _ h1)
    · rename_i r e
      exact (dropPath_bad ..).trans (updateInsert_bad _ (insert2_bad h1 e) _ _ _ _)

theorem erase_bad (m : MCfg K V) {s : MSt K V} (hb : s.heap.bad = true) (k : K) : (s.erase m k).1.heap.bad = true := by
  unfold MSt.erase
  simp only
  have h1 := find2_bad m hb s.depth k
  split
  · exact (dropPath_bad ..).trans h1
  · split
    · exact (dropPath_bad ..).trans (check_bad _ h1)
    · rename_i r e
      exact (dropPath_bad ..).trans (updateErase_bad _ (erase2_bad h1 e) _ _ _ _)

theorem find_bad (m : MCfg K V) {s : MSt K V} (hb : s.heap.bad = true) (k : K) : (s.find m k).1.heap.bad = true :=
  (dropPath_bad ..).trans (find2_bad m hb s.depth k)

theorem run_bad (m : MCfg K V) : ∀ (os : List (MOp K V)) (s : MSt K V), s.heap.bad = true → (s.run m os).1.heap.bad = true := by
  intro os
  induction os with
  | nil => intro s hb; exact hb
  | cons o os ih =>
    intro s hb
    refine ih (s.step m o).1 ?_
    cases o with
    | insert k v => exact insert_bad m hb k v
    | erase k => exact erase_bad m hb k
    | find k => exact find_bad m hb k

end Abc.Vmem.Map
