import Verif.Vmem.MapProps

/-! # Clearing a map (C102)

`map` is `src/x/vmem_map.x.h`, as in `Verif/Vmem/MapModel.lean`.

`vmem_container::clear` does not touch the number of items (`src/x/vmem_container.x.h` 1088-1091).  That is why a map
that was cleared is more than an `MSt`: `_key_stack.size()`, which `update_key_levels` compares with the length of the
path (`map` 408), is no longer the number of key levels. -/

namespace Abc.Vmem.Map

open Abc.Vmem.Pages

variable {K V : Type}

/-- The loop over the key levels, `map` 600-606, from the top level down to level `n - 1`...0; the page of the stack is
locked meanwhile.  As in the rest of the model the stack is on one page. -/
def clearLevels (m : MCfg K V) : Nat → Heap (Cell K V) → Heap (Cell K V)
  | 0, h => h
  | n + 1, h => clearLevels m n (clear m.max [(h.states 2).front] h (4 + n))

/-- The pool after `clear`, `map` 599-611. -/
def MSt.cleared (m : MCfg K V) (s : MSt K V) : Heap (Cell K V) :=
  clear m.max [] (clear m.max [] (clearLevels m s.depth s.heap) 2) 1

/-- A map that may have been cleared: `_key_stack.size()` is `depth + stale`. -/
structure CMap (K V : Type) where
  st : MSt K V
  stale : Nat

/-- A new map. -/
def CMap.init : CMap K V := ⟨.init, 0⟩

/-- `clear`, `map` 599-611. -/
def CMap.clear (m : MCfg K V) (s : CMap K V) : CMap K V :=
  let h := s.st.cleared m
  let depth := if isEmpty (h.states 2) then 0 else s.st.depth
  ⟨⟨h, depth⟩, s.st.depth + s.stale - depth⟩

variable [LinearOrder K]

/-- `insert`, as `MSt.insert`, with the comparison of `map` 408.  (The loop of `find2` over the levels is bounded by
`_key_stack.size()` too, `map` 683; where that is not the number of levels, there are none, `CMap.stale_or`, and the loop
is not entered, `map` 673.) -/
def CMap.insert (m : MCfg K V) (s : CMap K V) (k : K) (v : V) : CMap K V × Itr × Bool :=
  let f := find2 m s.st.heap s.st.depth k
  if f.ok then (⟨⟨dropPath m f.heap, s.st.depth⟩, s.stale⟩, f.itr, false)
  else match insert2 (allCfg m m.capV) [] f.heap 1 f.itr (.val k v) with
    | none => (⟨⟨dropPath m (f.heap.check false), s.st.depth⟩, s.stale⟩, noItr, false)
    | some r =>
      let u := if (r.lead0.op ≠ .none ∨ r.lead1.op ≠ .none) ∧ s.st.depth + s.stale ≠ f.path.length then ⟨r.heap, s.st.depth, false⟩
        else updateInsert m r.heap s.st.depth f.path r.lead0 r.lead1
      (⟨⟨dropPath m u.heap, u.depth⟩, s.stale⟩, if u.ok then r.itr.getD noItr else noItr, u.ok)

/-- `erase` of a key, as `MSt.erase`, with the comparison of `map` 408. -/
def CMap.erase (m : MCfg K V) (s : CMap K V) (k : K) : CMap K V × Nat :=
  let f := find2 m s.st.heap s.st.depth k
  if f.ok = false then (⟨⟨dropPath m f.heap, s.st.depth⟩, s.stale⟩, 0)
  else match erase2 (allCfg m m.capV) [] f.heap 1 f.itr with
    | none => (⟨⟨dropPath m (f.heap.check false), s.st.depth⟩, s.stale⟩, 0)
    | some r =>
      let u := if (r.lead0.op ≠ .none ∨ r.lead1.op ≠ .none) ∧ s.st.depth + s.stale ≠ f.path.length then ⟨r.heap, s.st.depth, false⟩
        else updateErase m r.heap s.st.depth f.path r.lead0 r.lead1
      (⟨⟨dropPath m u.heap, u.depth⟩, s.stale⟩, 1)

/-- The calls of a client. -/
inductive KOp (K V : Type) where
  | op (o : MOp K V)
  | clear

/-- One call, and what the client sees. -/
def CMap.step (m : MCfg K V) (s : CMap K V) : KOp K V → CMap K V × List (MAns K V)
  | .op (.insert k v) => let r := s.insert m k v; (r.1, [.inserted r.2.2 (seen m r.1.st.heap r.2.1)])
  | .op (.erase k) => let r := s.erase m k; (r.1, [.erased r.2])
  | .op (.find k) => let r := s.st.find m k; (⟨r.1, s.stale⟩, [.found (seen m r.1.heap r.2)])
  | .clear => (s.clear m, [])

def CMap.run (m : MCfg K V) : CMap K V → List (KOp K V) → CMap K V × List (MAns K V)
  | s, [] => (s, [])
  | s, o :: os =>
    let r := s.step m o
    let t := r.1.run m os
    (t.1, r.2 ++ t.2)

/-- What is expected: the elements after the calls, and the answers. -/
def kspec : List (K × V) → List (KOp K V) → List (K × V) × List (MAns K V)
  | t, [] => (t, [])
  | t, .op o :: os => let a := spec t [o]; let r := kspec a.1 os; (r.1, a.2 ++ r.2)
  | _, .clear :: os => kspec [] os

/-- C102 in full: insertions and lookups of keys in increasing order, among them calls of `clear`: the answers are those of
a list of elements that is empty after `clear`, and `size()` is its length. -/
def C102Full : Prop := ∀ (m : MCfg Nat Nat), m.Ok → m.spare = true → ∀ os : List (KOp Nat Nat),
  (∀ k, .op (.erase k) ∉ os) → os.Pairwise (fun a b => match a, b with | .op (.insert k _), .op (.insert k' _) => k < k' | _, _ => True) →
  (CMap.run m .init os).1.st.heap.len < m.limit →
  (CMap.run m .init os).2 = (kspec [] os).2 ∧ ((CMap.run m .init os).1.st.heap.states 1).total = (kspec [] os).1.length

/-- In a new pool `clear` leaves the element where it is. -/
theorem C102_violated_kept : ¬ C102Full := by
  intro h
  have := (h (smallCfg 0 4 true) (smallCfg_ok 0 true) rfl [.op (.insert 1 1), .clear, .op (.find 1)] (by simp) (by simp) (by decide +kernel)).1
  exact absurd this (by decide +kernel)

/-- Six elements, which make a key level, and `clear`: the elements are gone, but `size()` is still 6. -/
theorem C102_violated_size : let r := (CMap.run (smallCfg 0 4 true) .init ((List.range 6).map (fun k => .op (.insert k k)) ++ [.clear]))
    r.1.st.walk (smallCfg 0 4 true) 9 = [] ∧ (r.1.st.heap.states 1).total = 6 := by
  decide +kernel

/-- After that five elements can be inserted as far as can be seen from the first four answers; the fifth insertion
fails. The elements that had to move to a second page are not found any more, although iterating shows them. -/
theorem C102_violated_unusable :
    let r := CMap.run (smallCfg 0 4 true) .init ((List.range 6).map (fun k => .op (.insert k k)) ++ .clear ::
      (List.range 5).map (fun k => .op (.insert (k + 10) k)) ++ [.op (.find 13), .op (.find 14)])
    r.2.drop 6 = (List.range 4).map (fun k => .inserted true (some (.val (k + 10) k))) ++ [.inserted false none, .found none, .found none] ∧
    r.1.st.walk (smallCfg 0 4 true) 9 = (List.range 5).map (fun k => some (.val (k + 10) k)) := by
  decide +kernel

/-! ## What `clear` does -/

/-- The ends of a container are set, or none of them. -/
def Ends (s : CState) : Prop := s.front = nil ↔ s.back = nil

omit [LinearOrder K] in
/-- Clearing while there is a free page. -/
theorem clear_free {α : Type} {max : Nat} {held : List Nat} {h : Heap α} {sid : Nat} (hm : held.length + 2 < max) (hs : sid ≠ 0) (he : Ends (h.states sid))
    (h0 : isEmpty (h.states 0) = false) :
    isEmpty ((Pages.clear max held h sid).states 0) = false ∧ (∀ t, t ≠ 0 → t ≠ sid → (Pages.clear max held h sid).states t = h.states t) ∧
    (Pages.clear max held h sid).states sid = ⟨nil, nil, (h.states sid).total⟩ ∧ (Pages.clear max held h sid).bad = h.bad := by
  unfold Pages.clear splice
  rw [canLock_of (by omega), if_neg (by decide)]
  cases hes : isEmpty (h.states sid) with
  | true =>
    rw [if_pos rfl]
    refine ⟨h0, fun _ _ _ => rfl, ?_, rfl⟩
    unfold isEmpty at hes
    unfold Ends at he
    simp only [Bool.or_eq_true, decide_eq_true_eq] at hes
    have h1 : (h.states sid).front = nil := by rcases hes with h | h; exact h; exact he.2 h
    have h2 := he.1 h1
    cases hst : h.states sid
    rw [hst] at h1 h2
    simp only at h1 h2
    rw [h1, h2]
  | false =>
    rw [if_neg (by decide), h0, if_neg (by decide), canLock_of (by rw [List.length_cons]; omega), if_neg (by decide), canLock_of (by rw [List.length_cons, List.length_cons]; omega),
      if_neg (by decide)]
    have hb : isEmpty (h.states sid) = false := hes
    unfold isEmpty at hb h0
    simp only [Bool.or_eq_false_iff, decide_eq_false_iff_not] at hb h0
    refine ⟨?_, ?_, ?_, rfl⟩
    · rw [setState_ne _ _ (Ne.symm hs), setState_same]
      exact isEmpty_false h0.1 hb.2
    · intro t h1 h2
      rw [setState_ne _ _ h2, setState_ne _ _ h1]; rfl
    · rw [setState_same, setState_ne _ _ hs]; rfl

omit [LinearOrder K] in
/-- Clearing while there is no free page: the pages become free, but the container keeps them. -/
theorem clear_first {α : Type} {max : Nat} {held : List Nat} {h : Heap α} {sid : Nat} (hm : held.length + 2 < max) (hne : isEmpty (h.states sid) = false)
    (h0 : isEmpty (h.states 0) = true) :
    isEmpty ((Pages.clear max held h sid).states 0) = false ∧ (∀ t, t ≠ 0 → (Pages.clear max held h sid).states t = h.states t) ∧
    (Pages.clear max held h sid).pages = h.pages ∧ (Pages.clear max held h sid).bad = h.bad := by
  unfold Pages.clear splice
  rw [canLock_of (by omega), if_neg (by decide), hne, if_neg (by decide), if_pos h0]
  refine ⟨?_, fun t ht => setState_ne _ _ ht, rfl, rfl⟩
  rw [setState_same]
  unfold isEmpty at hne ⊢
  exact hne

omit [LinearOrder K] in
theorem clearLevels_free {m : MCfg K V} (ok : m.Ok) : ∀ (n : Nat) (h : Heap (Cell K V)), (∀ j, j < n → Ends (h.states (4 + j))) → isEmpty (h.states 0) = false →
    isEmpty ((clearLevels m n h).states 0) = false ∧ (∀ t, t ≠ 0 → t < 4 → (clearLevels m n h).states t = h.states t) ∧ (clearLevels m n h).bad = h.bad := by
  intro n
  induction n with
  | zero => intro h _ h0; exact ⟨h0, fun _ _ _ => rfl, rfl⟩
  | succ n ih =>
    intro h he h0
    have hm := ok.max
    obtain ⟨a, b, c, d⟩ := clear_free (max := m.max) (held := [(h.states 2).front]) (h := h) (sid := 4 + n) (by simp; omega) (by omega) (he n (by omega)) h0
    obtain ⟨a', b', d'⟩ := ih (Pages.clear m.max [(h.states 2).front] h (4 + n)) (fun j hj => by rw [b _ (by omega) (by omega)]; exact he j (by omega)) a
    exact ⟨a', fun t h1 h2 => (b' t h1 h2).trans (b t h1 (by omega)), d'.trans d⟩

/-- A map with nothing in it. -/
theorem find_nothing (m : MCfg K V) {h : Heap (Cell K V)} (h1 : (h.states 1).front = nil) (k : K) :
    seen m ((⟨h, 0⟩ : MSt K V).find m k).1.heap ((⟨h, 0⟩ : MSt K V).find m k).2 = none := by
  unfold MSt.find find2 findPage
  simp only [if_true, h1]
  exact seen_end ..

omit [LinearOrder K] in
theorem walk_nothing (m : MCfg K V) {h : Heap (Cell K V)} (h1 : (h.states 1).front = nil) (d n : Nat) : (⟨h, d⟩ : MSt K V).walk m n = [] := by
  unfold MSt.walk
  cases n with
  | zero => rfl
  | succ n =>
    unfold cwalk cbegin cend
    rw [if_pos h1, if_pos rfl]

/-- C102, the part that holds, for any map in any pool: if some page is free, or the map has key levels, then after `clear`
no key is found and iterating shows nothing.  (The ends of the containers are set or not, as they are in every history of
C24 and C29.)
Missing: a map without key levels in a pool without free pages (`C102_violated_always`), `size()` (`C102_violated_size`),
and going on with a map that had key levels (`C102_violated_stuck`). -/
theorem C102_clear_partial {m : MCfg K V} (ok : m.Ok) (s : CMap K V) (h1 : Ends (s.st.heap.states 1)) (h2 : Ends (s.st.heap.states 2))
    (he : ∀ j, j < s.st.depth → Ends (s.st.heap.states (4 + j)))
    (hfree : isEmpty (s.st.heap.states 0) = false ∨ (0 < s.st.depth ∧ isEmpty (s.st.heap.states (3 + s.st.depth)) = false)) :
    (∀ k, ((s.clear m).step m (.op (.find k))).2 = [.found none]) ∧ (∀ n, (s.clear m).st.walk m n = []) ∧ (s.clear m).st.heap.bad = s.st.heap.bad ∧
    (s.clear m).st.depth = 0 ∧ (s.clear m).stale = s.st.depth + s.stale ∧ ((s.clear m).st.heap.states 1).total = (s.st.heap.states 1).total := by
  have hm := ok.max
  obtain ⟨a, b, c⟩ : isEmpty ((clearLevels m s.st.depth s.st.heap).states 0) = false ∧
      (∀ t, t ≠ 0 → t < 4 → (clearLevels m s.st.depth s.st.heap).states t = s.st.heap.states t) ∧ (clearLevels m s.st.depth s.st.heap).bad = s.st.heap.bad := by
    cases h0 : isEmpty (s.st.heap.states 0) with
    | false => exact clearLevels_free ok _ _ he h0
    | true =>
      obtain ⟨hd, hne⟩ := hfree.resolve_left (by rw [h0]; decide)
      obtain ⟨n, hn⟩ := Nat.exists_eq_succ_of_ne_zero (Nat.ne_of_gt hd)
      rw [hn] at hne he ⊢
      obtain ⟨a, b, _, d⟩ := clear_first (max := m.max) (held := [(s.st.heap.states 2).front]) (sid := 4 + n) (by simp; omega)
        (by rw [show 3 + (n + 1) = 4 + n by omega] at hne; exact hne) h0
      obtain ⟨a', b', d'⟩ := clearLevels_free ok n (Pages.clear m.max [(s.st.heap.states 2).front] s.st.heap (4 + n))
        (fun j hj => by rw [b _ (by omega)]; exact he j (by omega)) a
      exact ⟨a', fun t h1 h2 => (b' t h1 h2).trans (b t h1), d'.trans d⟩
  obtain ⟨a2, b2, c2, d2⟩ := clear_free (max := m.max) (held := []) (h := clearLevels m s.st.depth s.st.heap) (sid := 2) (by simp; omega) (by decide)
    (by rw [b 2 (by decide) (by decide)]; exact h2) a
  obtain ⟨a1, b1, c1, d1⟩ := clear_free (max := m.max) (held := []) (h := Pages.clear m.max [] (clearLevels m s.st.depth s.st.heap) 2) (sid := 1) (by simp; omega) (by decide)
    (by rw [b2 1 (by decide) (by decide), b 1 (by decide) (by decide)]; exact h1) a2
  have hf : ((s.st.cleared m).states 1).front = nil := by unfold MSt.cleared; rw [c1]
  have hd : isEmpty ((s.st.cleared m).states 2) = true := by
    unfold MSt.cleared
    rw [b1 2 (by decide) (by decide), c2]; rfl
  have hc : s.clear m = ⟨⟨s.st.cleared m, 0⟩, s.st.depth + s.stale⟩ := by unfold CMap.clear; simp only [hd, if_true]; rfl
  rw [hc]
  refine ⟨fun k => ?_, fun n => walk_nothing m hf 0 n, ?_, rfl, rfl, ?_⟩
  · show [MAns.found (seen m _ _)] = _
    rw [find_nothing m hf]
  · show (Pages.clear m.max [] (Pages.clear m.max [] (clearLevels m s.st.depth s.st.heap) 2) 1).bad = _
    rw [d1, d2, c]
  · show ((Pages.clear m.max [] (Pages.clear m.max [] (clearLevels m s.st.depth s.st.heap) 2) 1).states 1).total = _
    rw [c1, b2 1 (by decide) (by decide), b 1 (by decide) (by decide)]

/-! ## Going on after `clear` -/

theorem CMap.run_append (m : MCfg K V) : ∀ (os os' : List (KOp K V)) (s : CMap K V),
    s.run m (os ++ os') = (((s.run m os).1.run m os').1, (s.run m os).2 ++ ((s.run m os).1.run m os').2) := by
  intro os
  induction os with
  | nil => intro os' s; rfl
  | cons o os ih =>
    intro os' s
    show (((s.step m o).1.run m (os ++ os')).1, (s.step m o).2 ++ ((s.step m o).1.run m (os ++ os')).2) = _
    rw [ih]
    show _ = (_, ((s.step m o).2 ++ ((s.step m o).1.run m os).2) ++ _)
    rw [List.append_assoc]
    rfl

theorem MSt.run_append (m : MCfg K V) : ∀ (os os' : List (MOp K V)) (s : MSt K V),
    s.run m (os ++ os') = (((s.run m os).1.run m os').1, (s.run m os).2 ++ ((s.run m os).1.run m os').2) := by
  intro os
  induction os with
  | nil => intro os' s; rfl
  | cons o os ih =>
    intro os' s
    show (((s.step m o).1.run m (os ++ os')).1, (s.step m o).2 :: ((s.step m o).1.run m (os ++ os')).2) = _
    rw [ih]
    rfl

/-- A map that was not cleared is the map of C29. -/
theorem CMap.step_op (m : MCfg K V) (s : MSt K V) (o : MOp K V) : (CMap.mk s 0).step m (.op o) = (⟨(s.step m o).1, 0⟩, [(s.step m o).2]) := by
  cases o with
  | find k => rfl
  | insert k v =>
    have e : (CMap.mk s 0).insert m k v = (⟨(s.insert m k v).1, 0⟩, (s.insert m k v).2) := by
      unfold CMap.insert MSt.insert
      simp only [Nat.add_zero]
      split
      · rfl
      · cases insert2 (allCfg m m.capV) [] (find2 m s.heap s.depth k).heap 1 (find2 m s.heap s.depth k).itr (.val k v) with
        | none => rfl
        | some r =>
          have : (if (r.lead0.op ≠ .none ∨ r.lead1.op ≠ .none) ∧ s.depth ≠ (find2 m s.heap s.depth k).path.length then ⟨r.heap, s.depth, false⟩
              else updateInsert m r.heap s.depth (find2 m s.heap s.depth k).path r.lead0 r.lead1) = updateInsert m r.heap s.depth (find2 m s.heap s.depth k).path r.lead0 r.lead1 := by
            split
            · rename_i hc
              unfold updateInsert
              rw [if_neg (fun hn => hc.1.elim (fun h => h hn.1) (fun h => h hn.2)), if_pos hc.2]
            · rfl
          simp only
          rw [this]
    show (((CMap.mk s 0).insert m k v).1, [_]) = _
    rw [e]; rfl
  | erase k =>
    have e : (CMap.mk s 0).erase m k = (⟨(s.erase m k).1, 0⟩, (s.erase m k).2) := by
      unfold CMap.erase MSt.erase
      simp only [Nat.add_zero]
      split
      · rfl
      · cases erase2 (allCfg m m.capV) [] (find2 m s.heap s.depth k).heap 1 (find2 m s.heap s.depth k).itr with
        | none => rfl
        | some r =>
          have : (if (r.lead0.op ≠ .none ∨ r.lead1.op ≠ .none) ∧ s.depth ≠ (find2 m s.heap s.depth k).path.length then ⟨r.heap, s.depth, false⟩
              else updateErase m r.heap s.depth (find2 m s.heap s.depth k).path r.lead0 r.lead1) = updateErase m r.heap s.depth (find2 m s.heap s.depth k).path r.lead0 r.lead1 := by
            split
            · rename_i hc
              unfold updateErase
              rw [if_neg (fun hn => hc.1.elim (fun h => h hn.1) (fun h => h hn.2)), if_pos hc.2]
            · rfl
          simp only
          rw [this]
    show (((CMap.mk s 0).erase m k).1, [_]) = _
    rw [e]; rfl

theorem CMap.run_ops (m : MCfg K V) : ∀ (os : List (MOp K V)) (s : MSt K V), (CMap.mk s 0).run m (os.map .op) = (⟨(s.run m os).1, 0⟩, (s.run m os).2) := by
  intro os
  induction os with
  | nil => intro s; rfl
  | cons o os ih =>
    intro s
    show ((((CMap.mk s 0).step m (.op o)).1.run m (os.map .op)).1, ((CMap.mk s 0).step m (.op o)).2 ++ (((CMap.mk s 0).step m (.op o)).1.run m (os.map .op)).2) = _
    rw [CMap.step_op, ih]
    rfl

theorem find2_flat (m : MCfg K V) (h : Heap (Cell K V)) (k : K) : (find2 m h 0 k).path = [] := by
  unfold find2 findPage
  simp only [if_true]
  split
  · rfl
  · split <;> rfl

/-- Without key levels but with a stack that is said not to be empty there will never be a key level. -/
theorem CMap.flat_step (m : MCfg K V) (s : CMap K V) (hd : s.st.depth = 0) (hs : 0 < s.stale) (o : KOp K V) :
    (s.step m o).1.st.depth = 0 ∧ (s.step m o).1.stale = s.stale := by
  obtain ⟨⟨h, d⟩, st⟩ := s
  simp only at hd hs
  subst hd
  cases o with
  | clear =>
    show (if _ then 0 else 0) = 0 ∧ 0 + st - (if _ then 0 else 0) = st
    split <;> exact ⟨rfl, by omega⟩
  | op o =>
    cases o with
    | find k => exact ⟨rfl, rfl⟩
    | insert k v =>
      show (CMap.insert m ⟨⟨h, 0⟩, st⟩ k v).1.st.depth = 0 ∧ (CMap.insert m ⟨⟨h, 0⟩, st⟩ k v).1.stale = st
      unfold CMap.insert
      simp only
      split
      · exact ⟨rfl, rfl⟩
      · split
        · exact ⟨rfl, rfl⟩
        · refine ⟨?_, rfl⟩
          rename_i r _
          show Upd.depth (if _ then _ else _) = 0
          split
          · rfl
          · rename_i hc
            rw [find2_flat] at hc
            have : r.lead0.op = .none ∧ r.lead1.op = .none := by
              by_contra hn
              exact hc ⟨by rwa [← not_and_or], by simp only [List.length_nil]; omega⟩
            unfold updateInsert
            rw [if_pos this]
    | erase k =>
      show (CMap.erase m ⟨⟨h, 0⟩, st⟩ k).1.st.depth = 0 ∧ (CMap.erase m ⟨⟨h, 0⟩, st⟩ k).1.stale = st
      unfold CMap.erase
      simp only
      split
      · exact ⟨rfl, rfl⟩
      · split
        · exact ⟨rfl, rfl⟩
        · refine ⟨?_, rfl⟩
          rename_i r _
          show Upd.depth (if _ then _ else _) = 0
          split
          · rfl
          · rename_i hc
            rw [find2_flat] at hc
            have : r.lead0.op = .none ∧ r.lead1.op = .none := by
              by_contra hn
              exact hc ⟨by rwa [← not_and_or], by simp only [List.length_nil]; omega⟩
            unfold updateErase
            rw [if_pos this]

/-- `_key_stack.size()` is the number of levels, or there are none. -/
theorem CMap.stale_or (m : MCfg K V) : ∀ (os : List (KOp K V)) (s : CMap K V), s.stale = 0 ∨ s.st.depth = 0 → (s.run m os).1.stale = 0 ∨ (s.run m os).1.st.depth = 0 := by
  intro os
  induction os with
  | nil => intro s h; exact h
  | cons o os ih =>
    intro s h
    refine ih (s.step m o).1 ?_
    by_cases h0 : s.stale = 0
    · cases o with
      | clear =>
        show s.st.depth + s.stale - (if _ then 0 else s.st.depth) = 0 ∨ (if _ then 0 else s.st.depth) = 0
        split
        · exact Or.inr rfl
        · exact Or.inl (by omega)
      | op o =>
        obtain ⟨t, st⟩ := s
        simp only at h0
        subst h0
        rw [CMap.step_op]
        exact Or.inl rfl
    · exact Or.inr (CMap.flat_step m s (h.resolve_left h0) (by omega) o).1

omit [LinearOrder K] in
theorem insertInto_itr {α : Type} (c : Cfg) (h : Heap α) (i : Itr) (new : Nat) (x : α) : (insertInto c h i new x).itr ≠ none := by
  unfold insertInto
  split <;> (unfold insertWithCapacity; exact Option.some_ne_none _)

/-- C102 is violated for good: after `clear` of a map with key levels, whatever is done with it, the map has no key level
(and `_key_stack.size()` is not 0); and when its first page is full, no further key can be inserted: the answer is no
iterator to an item. -/
theorem C102_violated_stuck {m : MCfg K V} (ok : m.Ok) (s : CMap K V) (hd : s.st.depth = 0) (hs : 0 < s.stale) (os : List (KOp K V)) :
    (s.run m os).1.st.depth = 0 ∧ (s.run m os).1.stale = s.stale ∧
    ∀ k v, isEmpty ((s.run m os).1.st.heap.states 1) = false → ((s.run m os).1.st.heap.pages ((s.run m os).1.st.heap.states 1).front).count = m.capV →
      ((s.run m os).1.step m (.op (.find k))).2 = [.found none] → ∃ b, ((s.run m os).1.step m (.op (.insert k v))).2 = [.inserted b none] := by
  have hrun : ∀ (os : List (KOp K V)) (s : CMap K V), s.st.depth = 0 → 0 < s.stale → (s.run m os).1.st.depth = 0 ∧ (s.run m os).1.stale = s.stale := by
    intro os
    induction os with
    | nil => intro s h _; exact ⟨h, rfl⟩
    | cons o os ih =>
      intro s h h'
      obtain ⟨a, b⟩ := CMap.flat_step m s h h' o
      obtain ⟨c, d⟩ := ih (s.step m o).1 a (by rw [b]; exact h')
      exact ⟨c, d.trans b⟩
  obtain ⟨h1, h2⟩ := hrun os s hd hs
  refine ⟨h1, h2, ?_⟩
  rw [← h2] at hs
  clear h2 hd hrun
  generalize (s.run m os).1 = t at *
  obtain ⟨⟨h, d⟩, st⟩ := t
  simp only at h1 hs
  subst h1
  intro k v hne hfull hfind
  have hm := ok.max
  have hfind' : seen m (dropPath m (find2 m h 0 k).heap) (if (find2 m h 0 k).ok then (find2 m h 0 k).itr else cend ((dropPath m (find2 m h 0 k).heap).states 1)) = none := by
    have := (List.cons.inj hfind).1
    exact MAns.found.inj this
  show ∃ b, [MAns.inserted (CMap.insert m ⟨⟨h, 0⟩, st⟩ k v).2.2 (seen m (CMap.insert m ⟨⟨h, 0⟩, st⟩ k v).1.st.heap (CMap.insert m ⟨⟨h, 0⟩, st⟩ k v).2.1)] = _
  refine ⟨(CMap.insert m ⟨⟨h, 0⟩, st⟩ k v).2.2, ?_⟩
  suffices hsuf : seen m (CMap.insert m ⟨⟨h, 0⟩, st⟩ k v).1.st.heap (CMap.insert m ⟨⟨h, 0⟩, st⟩ k v).2.1 = none by rw [hsuf]
  have hno : ∀ h' : Heap (Cell K V), seen m h' noItr = none := by
    intro h'
    unfold seen canDeref noItr
    simp
  unfold CMap.insert
  simp only
  cases hok : (find2 m h 0 k).ok with
  | true => rw [hok] at hfind'; simp only [if_true] at hfind' ⊢; exact hfind'
  | false =>
    simp only [Bool.false_eq_true, if_false]
    cases hi : insert2 (allCfg m m.capV) [] (find2 m h 0 k).heap 1 (find2 m h 0 k).itr (.val k v) with
    | none => exact hno _
    | some r =>
      simp only
      have hfr : (h.states 1).front ≠ nil := by
        unfold isEmpty at hne
        simp only [Bool.or_eq_false_iff, decide_eq_false_iff_not] at hne
        exact hne.1
      have hst : (find2 m h 0 k).heap.states = h.states ∧ (find2 m h 0 k).heap.pages = h.pages := by
        unfold find2 findPage
        simp only [if_true]
        split
        · exact ⟨rfl, rfl⟩
        · split <;> exact ⟨rfl, rfl⟩
      have hitr : (find2 m h 0 k).itr = noItr ∨ ((find2 m h 0 k).itr.page = (h.states 1).front ∧ (find2 m h 0 k).itr.page ≠ nil) := by
        unfold find2 findPage
        simp only [if_true]
        split
        · exact Or.inl rfl
        · split
          · exact Or.inl rfl
          · show (if _ then _ else _) = _ ∨ _
            split
            · exact Or.inr ⟨rfl, hfr⟩
            · exact Or.inl rfl
      generalize hf : find2 m h 0 k = f at *
      have hpath : f.path = [] := by rw [← hf]; exact find2_flat m h k
      rcases hitr with hitr | ⟨hp, hpn⟩
      · exfalso
        unfold insert2 at hi
        rw [hitr, if_pos ⟨rfl, Or.inr (by rw [hst.1]; exact hne)⟩] at hi
        cases hi
      · unfold insert2 at hi
        rw [if_neg (fun hc => hpn hc.1)] at hi
        split at hi
        · cases hi
        · have hcn : cinsertNostate (allCfg m m.capV) [] f.heap 1 f.itr (.val k v) = insertWithOverflow (allCfg m m.capV) [f.itr.page] f.heap 1 f.itr (.val k v) := by
            unfold cinsertNostate
            rw [if_neg hpn, canLock_of (by show 0 < m.max; omega), if_neg (by decide), if_pos (by rw [hst.2, hp]; exact hfull)]
          rw [hcn] at hi
          unfold insertWithOverflow at hi
          rcases hipa : insertPageAfter (allCfg m m.capV) [f.itr.page] f.heap 1 f.itr.page with ⟨h1, _ | new⟩
          · rw [hipa] at hi
            simp only [Res.fail, Option.some.injEq] at hi
            subst hi
            simp only [Lead.default, ne_eq, not_true_eq_false, or_self, false_and, if_false]
            unfold updateInsert
            simp only [and_self, if_true, Option.getD_some]
            exact seen_end ..
          · rw [hipa] at hi
            simp only at hi
            have hop : r.lead0.op = .insert := by
              split at hi
              · injection hi with hi; rw [← hi]
              · rename_i hc
                exfalso
                exact insertInto_itr _ _ _ _ _ hc
            rw [if_pos ⟨Or.inl (by rw [hop]; decide), by rw [hpath]; simp only [List.length_nil]; omega⟩]
            exact hno _

/-! ## Histories -/

omit [LinearOrder K] in
theorem own_ends {α : Type} {h : Heap α} {sid : Nat} {ps : List Nat} (o : Own h sid ps) : Ends (h.states sid) := by
  unfold Ends
  rw [o.front, o.back]
  cases ps with
  | nil => exact ⟨fun _ => rfl, fun _ => rfl⟩
  | cons p ps => exact ⟨fun h => absurd h (o.nn _ (headD_mem (by simp))), fun h => absurd h (o.nn _ (getLastD_mem (by simp)))⟩

/-- What C29 says about a history, with the invariant. -/
theorem MInv.run {m : MCfg K V} (ok : m.Ok) (hsp : m.spare = true) {os : List (MOp K V)} (hk : ∀ o ∈ os, o.keeps = true)
    (hzero : ∀ k v, .insert k v ∈ os → m.zeroKey ≤ k)
    (hfirst : ∀ k0 ∈ (insKeys os).head?, ∀ k ∈ insKeys os, k0 ≤ k)
    (hroom : (MSt.run m .init os).1.heap.len < m.limit) (hnil : (MSt.run m .init os).1.heap.len ≤ nilItem)
    (hstack : (MSt.run m .init os).1.depth < m.capS) (hpath : (MSt.run m .init os).1.depth ≤ m.capP) :
    ∃ L, MInv m (fun _ => False) (MSt.run m .init os).1 L ∧ L.Perm (spec [] os).1 ∧ (MSt.run m .init os).2 = (spec [] os).2 := by
  refine run_spec ok hsp os .init [] [] hk (MInv.init m) (List.Perm.refl _) (by simp) ?_ (by simp) (fun _ => hfirst) hroom hnil hstack hpath
  intro k hkm
  have hmem : ∀ l : List (MOp K V), k ∈ insKeys l → ∃ v, .insert k v ∈ l := by
    intro l
    induction l with
    | nil => intro h; cases h
    | cons o l ih =>
      intro h
      cases o with
      | insert k' v' =>
        rcases List.mem_cons.1 (show k ∈ k' :: insKeys l from h) with rfl | h
        · exact ⟨v', by simp⟩
        · obtain ⟨v, hv⟩ := ih h; exact ⟨v, by simp [hv]⟩
      | erase k' => obtain ⟨v, hv⟩ := ih h; exact ⟨v, by simp [hv]⟩
      | find k' => obtain ⟨v, hv⟩ := ih h; exact ⟨v, by simp [hv]⟩
  obtain ⟨v, hv⟩ := hmem os hkm
  exact hzero k v hv

/-- C102 in the histories of `C29_min_first_partial` that made a key level: `clear` empties the map.  `size()` stays, and
`_key_stack.size()` too, so that `C102_violated_stuck` says how the map goes on. -/
theorem C102_history_partial (m : MCfg K V) (ok : m.Ok) (hsp : m.spare = true) (os : List (MOp K V)) (hk : ∀ o ∈ os, o.keeps = true)
    (hzero : ∀ k v, .insert k v ∈ os → m.zeroKey ≤ k)
    (hfirst : ∀ k0 ∈ (insKeys os).head?, ∀ k ∈ insKeys os, k0 ≤ k)
    (hroom : (MSt.run m .init os).1.heap.len < m.limit) (hnil : (MSt.run m .init os).1.heap.len ≤ nilItem)
    (hstack : (MSt.run m .init os).1.depth < m.capS) (hpath : (MSt.run m .init os).1.depth ≤ m.capP) (hdepth : 0 < (MSt.run m .init os).1.depth) :
    let r := CMap.run m .init (os.map .op ++ [.clear])
    r.2 = (spec [] os).2 ∧ r.1.st.heap.bad = false ∧ (∀ k, (r.1.step m (.op (.find k))).2 = [.found none]) ∧ (∀ n, r.1.st.walk m n = []) ∧
    r.1.st.depth = 0 ∧ 0 < r.1.stale ∧ (r.1.st.heap.states 1).total = (spec [] os).1.length := by
  obtain ⟨L, ⟨pss, fs, lists, t, h2, hfs, hfs0⟩, hperm, hans⟩ := MInv.run ok hsp hk hzero hfirst hroom hnil hstack hpath
  have htop : isEmpty ((MSt.run m .init os).1.heap.states (3 + (MSt.run m .init os).1.depth)) = false := by
    have := own_nonempty (t.inv.cont (idx (MSt.run m .init os).1.depth)).own (t.topne hdepth)
    unfold idx at this
    rw [if_neg (by omega), show (MSt.run m .init os).1.depth + 2 + 1 = 3 + (MSt.run m .init os).1.depth by omega] at this
    exact this
  have hrun : CMap.run m .init (os.map .op ++ [.clear]) = ((CMap.mk (MSt.run m .init os).1 0).clear m, (MSt.run m .init os).2) := by
    rw [CMap.run_append, show (CMap.init : CMap K V) = ⟨.init, 0⟩ from rfl, CMap.run_ops]
    show (_, _ ++ ([] ++ [])) = _
    rw [List.append_nil, List.append_nil]
    rfl
  rw [hrun]
  obtain ⟨a, b, c, d, e, f⟩ := C102_clear_partial ok (CMap.mk (MSt.run m .init os).1 0) (own_ends (t.inv.cont 0).own) (own_ends (t.inv.cont 1).own)
    (fun j _ => by
      have := own_ends (t.inv.cont (j + 3)).own
      rw [show j + 3 + 1 = 4 + j by omega] at this
      exact this) (Or.inr ⟨hdepth, htop⟩)
  refine ⟨hans, c.trans t.inv.bad, a, b, d, by rw [e]; exact hdepth, ?_⟩
  have ht := t.inv.total 0
  simp only at ht
  rw [f, ht, t.vals, List.length_map, hperm.length_eq]

/-- C102 is violated in all other histories of `C29_min_first_partial`, those without a key level: after `clear` every key
is found as before. -/
theorem C102_violated_always (m : MCfg K V) (ok : m.Ok) (hsp : m.spare = true) (os : List (MOp K V)) (hk : ∀ o ∈ os, o.keeps = true)
    (hzero : ∀ k v, .insert k v ∈ os → m.zeroKey ≤ k)
    (hfirst : ∀ k0 ∈ (insKeys os).head?, ∀ k ∈ insKeys os, k0 ≤ k)
    (hroom : (MSt.run m .init os).1.heap.len < m.limit) (hnil : (MSt.run m .init os).1.heap.len ≤ nilItem)
    (hstack : (MSt.run m .init os).1.depth < m.capS) (hpath : (MSt.run m .init os).1.depth ≤ m.capP) (hdepth : (MSt.run m .init os).1.depth = 0) (k : K) :
    (CMap.run m .init (os.map .op ++ [.clear, .op (.find k)])).2 = (MSt.run m .init (os ++ [.find k])).2 := by
  obtain ⟨L, ⟨pss, fs, lists, t, h2, hfs, hfs0⟩, hperm, hans⟩ := MInv.run ok hsp hk hzero hfirst hroom hnil hstack hpath
  have hm := ok.max
  have hrun : CMap.run m .init (os.map .op ++ [.clear, .op (.find k)]) = ((((CMap.mk (MSt.run m .init os).1 0).clear m).step m (.op (.find k))).1,
      (MSt.run m .init os).2 ++ (((CMap.mk (MSt.run m .init os).1 0).clear m).step m (.op (.find k))).2) := by
    rw [CMap.run_append, show (CMap.init : CMap K V) = ⟨.init, 0⟩ from rfl, CMap.run_ops]
    show (_, _ ++ ([] ++ (_ ++ []))) = _
    rw [List.append_nil, List.nil_append]
    rfl
  rw [hrun, MSt.run_append]
  show (MSt.run m .init os).2 ++ [_] = (MSt.run m .init os).2 ++ [_]
  congr 2
  rw [hfs0 hdepth] at t
  generalize (MSt.run m .init os).1 = s at *
  obtain ⟨h, d⟩ := s
  simp only at hdepth
  subst hdepth
  have hfree : isEmpty (h.states 0) = true := by
    have := t.inv.free
    by_contra hne
    have := back_mem this (by simpa using hne)
    cases this
  have hst2 : isEmpty (h.states 2) = true := by
    have h1 : pss 1 = [] := by
      cases hp : pss 1 with
      | nil => rfl
      | cons p ps =>
        exfalso
        have hc := ((t.inv.cont 1).cnt p (by rw [hp]; simp)).1
        have hl := t.stack
        have hi := t.inv.items 1
        simp only at hi hc
        rw [← hi, hp] at hl
        unfold contents at hl
        simp at hl
        omega
    have := t.inv.cont 1
    rw [h1] at this
    exact own_empty this.own
  have hst3 : isEmpty (h.states 3) = true := by
    have := t.inv.cont 2
    rw [h2] at this
    exact own_empty this.own
  have hcl : ∀ (h' : Heap (Cell K V)) sid, isEmpty (h'.states sid) = true → Pages.clear m.max [] h' sid = h' := by
    intro h' sid he
    unfold Pages.clear splice
    rw [canLock_of (by simp; omega), if_neg (by decide), if_pos he]
  have hcleared : ((⟨h, 0⟩ : MSt K V).cleared m).pages = h.pages ∧ ∀ t, t ≠ 0 → ((⟨h, 0⟩ : MSt K V).cleared m).states t = h.states t := by
    unfold MSt.cleared clearLevels
    simp only
    rw [hcl h 2 hst2]
    cases h1 : isEmpty (h.states 1) with
    | true => rw [hcl h 1 h1]; exact ⟨rfl, fun _ _ => rfl⟩
    | false =>
      obtain ⟨_, b, c, _⟩ := clear_first (max := m.max) (held := []) (by simp; omega) h1 hfree
      exact ⟨c, b⟩
  have hclear : (CMap.mk (⟨h, 0⟩ : MSt K V) 0).clear m = ⟨⟨(⟨h, 0⟩ : MSt K V).cleared m, 0⟩, 0⟩ := by
    unfold CMap.clear
    simp only
    rw [hcleared.2 2 (by decide), hst2, if_pos rfl]
  rw [hclear]
  have hfind : ∀ h' : Heap (Cell K V), (∀ t, t ≠ 0 → h'.states t = h.states t) → h'.pages = h.pages →
      ((⟨h', 0⟩ : MSt K V).step m (.find k)).2 = .found (seen m h (if (find2 m h 0 k).ok then (find2 m h 0 k).itr else cend (h.states 1))) := by
    intro h' hs hp
    have hf2 : (find2 m h' 0 k).itr = (find2 m h 0 k).itr ∧ (find2 m h' 0 k).ok = (find2 m h 0 k).ok ∧ (find2 m h' 0 k).heap.states = h'.states ∧ (find2 m h' 0 k).heap.pages = h'.pages := by
      unfold find2 findPage
      simp only [if_true, hs 1 (by decide), hp]
      split
      · exact ⟨rfl, rfl, rfl, hp⟩
      · split
        · exact ⟨rfl, rfl, rfl, hp⟩
        · exact ⟨rfl, rfl, rfl, hp⟩
    have hdp : (dropPath m (find2 m h' 0 k).heap).pages = h.pages ∧ (dropPath m (find2 m h' 0 k).heap).states 1 = h.states 1 := by
      unfold dropPath
      rw [hcl _ 3 (by rw [hf2.2.2.1, hs 3 (by decide)]; exact hst3)]
      refine ⟨?_, ?_⟩
      · show (find2 m h' 0 k).heap.pages = _
        rw [hf2.2.2.2, hp]
      · rw [setState_ne _ _ (by decide), hf2.2.2.1, hs 1 (by decide)]
    have hseen : ∀ i, seen m (dropPath m (find2 m h' 0 k).heap) i = seen m h i := by
      intro i
      unfold seen deref
      rw [hdp.1]
    show MAns.found (seen m (dropPath m (find2 m h' 0 k).heap) (if (find2 m h' 0 k).ok then (find2 m h' 0 k).itr else cend ((dropPath m (find2 m h' 0 k).heap).states 1))) = _
    rw [hseen, hf2.1, hf2.2.1, hdp.2]
  exact (hfind _ hcleared.2 hcleared.1).trans (hfind h (fun _ _ => rfl) rfl).symm

/-! ## Cases -/

/-- Six elements make a key level. -/
def sixOps : List (MOp Nat Nat) := (List.range 6).map (fun k => .insert k (10 * k)) ++ [.find 4]

example : let r := CMap.run (smallCfg 0 4 true) .init (sixOps.map .op ++ [.clear])
    r.2 = (spec [] sixOps).2 ∧ r.1.st.heap.bad = false ∧ (∀ k, (r.1.step (smallCfg 0 4 true) (.op (.find k))).2 = [.found none]) ∧ (∀ n, r.1.st.walk (smallCfg 0 4 true) n = []) ∧
    r.1.st.depth = 0 ∧ 0 < r.1.stale ∧ (r.1.st.heap.states 1).total = 6 :=
  C102_history_partial (smallCfg 0 4 true) (smallCfg_ok 0 true) rfl sixOps (by decide +kernel) (fun _ _ _ => Nat.zero_le _) (by decide +kernel)
    (by decide +kernel) (by decide +kernel) (by decide +kernel) (by decide +kernel) (by decide +kernel)

example : (CMap.run (smallCfg 0 4 true) .init ([.op (.insert 3 30), .op (.insert 7 70)] ++ [.clear, .op (.find 7)])).2 =
    [.inserted true (some (.val 3 30)), .inserted true (some (.val 7 70)), .found (some (.val 7 70))] :=
  C102_violated_always (smallCfg 0 4 true) (smallCfg_ok 0 true) rfl [.insert 3 30, .insert 7 70] (by decide +kernel) (fun _ _ _ => Nat.zero_le _) (by decide +kernel)
    (by decide +kernel) (by decide +kernel) (by decide +kernel) (by decide +kernel) (by decide +kernel) 7

/-- Four elements after `clear` fill the page: the fifth is not inserted, whatever it is. -/
example : let s := (CMap.run (smallCfg 0 4 true) .init (sixOps.map .op ++ [.clear])).1
    ∃ b, ((s.run (smallCfg 0 4 true) ((List.range 4).map (fun k => .op (.insert k k)))).1.step (smallCfg 0 4 true) (.op (.insert 77 1))).2 = [.inserted b none] :=
  (C102_violated_stuck (smallCfg_ok 0 true) _ (by decide +kernel) (by decide +kernel) _).2.2 77 1 (by decide +kernel) (by decide +kernel) (by decide +kernel)

end Abc.Vmem.Map
