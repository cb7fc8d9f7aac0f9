import Verif.Resource.Devices
import Mathlib.Tactic.ByContra

/-!
# What programs with devices can rely on (C71)
-/

namespace Abc.Resource.Devices

open Abc.Resource

/-- The descriptors of an object, or none if it is gone. -/
def fdsOf : Option Dev → List Desc
  | none => []
  | some x => x.fds

def held (objs : List (Option Dev)) : List Desc := objs.flatMap fdsOf

theorem held_add (objs : List (Option Dev)) (x : Dev) :
    (held (objs ++ [some x])).Perm (x.fds ++ held objs) := by
  unfold held
  rw [List.flatMap_append]
  refine List.perm_append_comm.trans ?_
  simp [fdsOf]

theorem held_set : ∀ (objs : List (Option Dev)) (i : Nat) (x y : Option Dev), objs[i]? = some x →
    (fdsOf x ++ held (objs.set i y)).Perm (fdsOf y ++ held objs) := by
  intro objs
  induction objs with
  | nil => intro i x y h; simp at h
  | cons a t ih =>
    intro i x y h
    cases i with
    | zero =>
      have ha : a = x := by simpa using h
      subst ha
      simp only [List.set_cons_zero, held, List.flatMap_cons]
      rw [← List.append_assoc, ← List.append_assoc]
      exact List.perm_append_comm.append_right _
    | succ i =>
      have h' : t[i]? = some x := by simpa using h
      have := ih i x y h'
      simp only [List.set_cons_succ]
      unfold held at this ⊢
      simp only [List.flatMap_cons]
      have e1 : ∀ p q r : List Desc, (p ++ (q ++ r)).Perm (q ++ (p ++ r)) := by
        intro p q r
        rw [← List.append_assoc, ← List.append_assoc]
        exact List.perm_append_comm.append_right _
      exact (e1 _ _ _).trans ((this.append_left _).trans (e1 _ _ _))

theorem get_some {w : World} {i : Nat} {x : Dev} (h : w.get i = some x) :
    w.objs[i]? = some (some x) := by
  unfold World.get at h
  cases hg : w.objs[i]? with
  | none => simp [hg] at h
  | some y =>
    rw [hg] at h
    have hy : y = some x := by simpa using h
    rw [hy]

theorem get_of {w : World} {i : Nat} {x : Dev} (h : w.objs[i]? = some (some x)) :
    w.get i = some x := by
  unfold World.get; rw [h]; rfl

theorem mem_held {w : World} {d : Desc} :
    d ∈ held w.objs ↔ ∃ i x, w.get i = some x ∧ d ∈ x.fds := by
  unfold held
  rw [List.mem_flatMap]
  constructor
  · rintro ⟨y, hy, hd⟩
    cases y with
    | none => cases hd
    | some x =>
      obtain ⟨i, hi⟩ := List.mem_iff_getElem?.mp hy
      exact ⟨i, x, get_of hi, hd⟩
  · rintro ⟨i, x, hg, hd⟩
    exact ⟨some x, List.mem_of_getElem? (get_some hg), hd⟩

/-- Two different objects hold nothing in common if what is held has no duplicates. -/
theorem held_index {w : World} (hn : (held w.objs).Nodup) {i j : Nat} {x y : Dev} {d : Desc}
    (hi : w.get i = some x) (hj : w.get j = some y) (hx : d ∈ x.fds) (hy : d ∈ y.fds) : i = j := by
  by_contra hij
  have hp := held_set w.objs i (some x) none (get_some hi)
  have hp' : (x.fds ++ held (w.objs.set i none)).Perm (held w.objs) := by simpa [fdsOf] using hp
  have hnd := hp'.nodup_iff.mpr hn
  have hd : d ∈ held (w.objs.set i none) := by
    refine List.mem_flatMap.mpr ⟨some y, ?_, hy⟩
    refine List.mem_of_getElem? (i := j) ?_
    rw [List.getElem?_set_ne hij]
    exact get_some hj
  exact (List.disjoint_of_nodup_append hnd) hx hd

theorem closeAll_inv : ∀ (ds : List Desc) {k : Kernel} {h : List Desc}, KInv k (ds ++ h) →
    KInv (closeAll k ds) h := by
  intro ds
  induction ds with
  | nil => intro k h H; exact H
  | cons d ds ih =>
    intro k h H
    unfold closeAll
    refine KInv.close (ih ?_)
    exact H.congr List.perm_middle.symm

theorem useAll_inv : ∀ (ds : List Desc) {k : Kernel} {h : List Desc}, KInv k h →
    (∀ d ∈ ds, d ∈ h) → useAll k ds = k := by
  intro ds
  induction ds with
  | nil => intro k h _ _; rfl
  | cons d ds ih =>
    intro k h H hd
    unfold useAll
    rw [H.use (hd d (by simp))]
    exact ih H (fun e he => hd e (by simp [he]))

theorem makeLine_open {k : Kernel} {a : LineAnswers} (h : (makeLine k a).2 ≠ none) :
    a.open ≠ none := by
  intro hc
  unfold makeLine at h
  rw [hc] at h
  exact h rfl

theorem makeLine_inv {k : Kernel} {h : List Desc} (H : KInv k h) (a : LineAnswers) :
    ∃ lost, KInv (makeLine k a).1 ((makeLine k a).2.toList ++ (lost ++ h)) ∧
      ((makeLine k a).2 ≠ none ∨ a.open = none → lost = []) := by
  unfold makeLine
  cases hf : (k.fresh a.open).2 with
  | none =>
    have h1 := H.fresh_none hf
    rw [show k.fresh a.open = ((k.fresh a.open).1, none) from by rw [← hf]]
    exact ⟨[], h1, fun _ => rfl⟩
  | some fd =>
    have h1 := H.fresh_some hf
    have ho : a.open ≠ none := by
      intro hc; rw [hc] at hf; cases hf
    rw [show k.fresh a.open = ((k.fresh a.open).1, some fd) from by rw [← hf]]
    generalize (k.fresh a.open).1 = k1 at h1 ⊢
    dsimp only
    rw [h1.use (by simp)]
    cases hl : (k1.fresh a.line).2 with
    | none =>
      have h2 := h1.fresh_none hl
      rw [show k1.fresh a.line = ((k1.fresh a.line).1, none) from by rw [← hl]]
      refine ⟨[fd], h2, ?_⟩
      rintro (hc | hc)
      · exact absurd rfl hc
      · exact absurd hc ho
    | some line =>
      have h2 := h1.fresh_some hl
      rw [show k1.fresh a.line = ((k1.fresh a.line).1, some line) from by rw [← hl]]
      generalize (k1.fresh a.line).1 = k2 at h2 ⊢
      dsimp only
      have h3 : KInv (k2.close fd) (line :: h) := KInv.close (h2.congr (List.Perm.swap _ _ _))
      cases hc : a.close with
      | true => exact ⟨[], h3, fun _ => rfl⟩
      | false =>
        refine ⟨[line], h3, ?_⟩
        rintro (hc | hc)
        · exact absurd rfl hc
        · exact absurd hc ho

/-- The operation moves an object that has a line. -/
def movesLine (w : World) : Op → Prop
  | .move i => ∃ x, w.get i = some x ∧ (x.kind = .line ∨ x.kind = .ultrasonic)
  | _ => False

/-- The first `open` of a constructor fails. -/
def Op.openFails : Op → Prop
  | .newChip o | .newBus o _ | .newPool o _ => o = none
  | .newLine _ a | .newUltrasonic _ a _ => a.open = none
  | _ => False

/-- No object with a line is ever moved. -/
def Tame (w : World) : List Op → Prop
  | [] => True
  | op :: ops => ¬ movesLine w op ∧ Tame (step w op).1 ops

/-- A constructor that throws does so because it could not open anything. -/
def Clean (w : World) : List Op → Prop
  | [] => True
  | op :: ops => ((step w op).2 = .thrown → op.openFails) ∧ Clean (step w op).1 ops

/-- Classes other than those with lines hold what they hold. -/
def Wf (w : World) : Prop := ∀ i x, w.get i = some x → x.kind = .chip → x.fds = []

theorem Wf.add {w : World} (h : Wf w) {k : Kernel} {x : Dev} (hx : x.kind = .chip → x.fds = []) :
    Wf ({ w with k := k }.add x) := by
  intro j y hy hc
  have hm : some y ∈ w.objs ++ [some x] := List.mem_of_getElem? (get_some hy)
  rcases List.mem_append.mp hm with hm | hm
  · obtain ⟨i, hi⟩ := List.mem_iff_getElem?.mp hm
    exact h i y (get_of hi) hc
  · have : y = x := by simpa using hm
    subst this
    exact hx hc

theorem Wf.put {w : World} (h : Wf w) {k : Kernel} {i : Nat} {x : Option Dev}
    (hx : ∀ y, x = some y → y.kind = .chip → y.fds = []) : Wf ({ w with k := k }.put i x) := by
  intro j y hy hc
  have hm : some y ∈ w.objs.set i x := List.mem_of_getElem? (get_some hy)
  rcases List.mem_or_eq_of_mem_set hm with hm | hm
  · obtain ⟨i, hi⟩ := List.mem_iff_getElem?.mp hm
    exact h i y (get_of hi) hc
  · exact hx y hm.symm hc

theorem step_inv {w : World} {lost : List Desc} (H : KInv w.k (held w.objs ++ lost)) (hw : Wf w)
    (op : Op) (ht : ¬ movesLine w op) :
    ∃ more, KInv (step w op).1.k (held (step w op).1.objs ++ (more ++ lost)) ∧ Wf (step w op).1 ∧
      (((step w op).2 = .thrown → op.openFails) → more = []) := by
  have same : ∀ k : Kernel, KInv k (held w.objs ++ lost) →
      KInv k (held w.objs ++ ([] ++ lost)) := fun k h => h
  have add1 : ∀ (k : Kernel) (x : Dev), KInv k (x.fds ++ (held w.objs ++ lost)) →
      KInv k (held (w.objs ++ [some x]) ++ ([] ++ lost)) := by
    intro k x h
    refine h.congr ?_
    rw [← List.append_assoc]
    exact (held_add w.objs x).symm.append_right _
  have lose : ∀ (k : Kernel) (l : List Desc), KInv k (l ++ (held w.objs ++ lost)) →
      KInv k (held w.objs ++ (l ++ lost)) := by
    intro k l h
    refine h.congr ?_
    rw [← List.append_assoc, ← List.append_assoc]
    exact List.perm_append_comm.append_right _
  cases op with
  | newChip o =>
    dsimp only [step]
    cases hf : (w.k.fresh o).2 with
    | none =>
      have h1 := H.fresh_none hf
      rw [show w.k.fresh o = ((w.k.fresh o).1, none) from by rw [← hf]]
      exact ⟨[], h1, hw, fun _ => rfl⟩
    | some fd =>
      have h1 := H.fresh_some hf
      rw [show w.k.fresh o = ((w.k.fresh o).1, some fd) from by rw [← hf]]
      exact ⟨[], add1 _ ⟨.chip, []⟩ h1.close, hw.add (fun _ => rfl), fun _ => rfl⟩
  | info i o =>
    dsimp only [step]
    split
    · cases hf : (w.k.fresh o).2 with
      | none =>
        have h1 := H.fresh_none hf
        rw [show w.k.fresh o = ((w.k.fresh o).1, none) from by rw [← hf]]
        exact ⟨[], h1, hw, fun _ => rfl⟩
      | some fd =>
        have h1 := H.fresh_some hf
        rw [show w.k.fresh o = ((w.k.fresh o).1, some fd) from by rw [← hf]]
        dsimp only
        rw [h1.use (by simp)]
        exact ⟨[], h1.close, hw, fun _ => rfl⟩
    · exact ⟨[], H, hw, fun _ => rfl⟩
  | newLine chip a =>
    dsimp only [step]
    split
    · obtain ⟨l, h1, h2⟩ := makeLine_inv H a
      generalize makeLine w.k a = r at h1 h2 ⊢
      obtain ⟨k1, d⟩ := r
      cases d with
      | none =>
        refine ⟨l, lose _ _ h1, hw, ?_⟩
        intro hc
        exact h2 (Or.inr (hc rfl))
      | some d =>
        have hl := h2 (Or.inl (by simp))
        subst hl
        exact ⟨[], add1 _ ⟨.line, [d]⟩ h1, hw.add (by intro hc; cases hc), fun _ => rfl⟩
    · exact ⟨[], H, hw, fun _ => rfl⟩
  | newUltrasonic chip a b =>
    dsimp only [step]
    split
    · obtain ⟨l, h1, h2⟩ := makeLine_inv H a
      have h2' := makeLine_open (k := w.k) (a := a)
      generalize makeLine w.k a = r at h1 h2 h2' ⊢
      obtain ⟨k1, d⟩ := r
      cases d with
      | none =>
        refine ⟨l, lose _ _ h1, hw, ?_⟩
        intro hc
        exact h2 (Or.inr (hc rfl))
      | some d =>
        have hl := h2 (Or.inl (by simp))
        subst hl
        dsimp only at h1 ⊢
        obtain ⟨l2, h3, h4⟩ := makeLine_inv h1 b
        generalize makeLine k1 b = r2 at h3 h4 ⊢
        obtain ⟨k2, e⟩ := r2
        cases e with
        | none =>
          dsimp only at h3 ⊢
          have h5 : KInv k2 (d :: (l2 ++ (held w.objs ++ lost))) := by
            refine h3.congr ?_
            show (l2 ++ ([d] ++ ([] ++ (held w.objs ++ lost)))).Perm _
            exact List.perm_middle
          refine ⟨l2, lose _ _ h5.close, hw, ?_⟩
          intro hc
          have hao : a.open = none := hc rfl
          -- the first line was made, so its `open` did not fail
          exact absurd hao (h2' (by simp))
        | some e =>
          have hl := h4 (Or.inl (by simp))
          subst hl
          refine ⟨[], add1 _ ⟨.ultrasonic, [d, e]⟩ ?_, hw.add (by intro hc; cases hc), fun _ => rfl⟩
          refine h3.congr ?_
          exact List.Perm.swap _ _ _
    · exact ⟨[], H, hw, fun _ => rfl⟩
  | newBus o funcs =>
    dsimp only [step]
    cases hf : (w.k.fresh o).2 with
    | none =>
      have h1 := H.fresh_none hf
      rw [show w.k.fresh o = ((w.k.fresh o).1, none) from by rw [← hf]]
      exact ⟨[], h1, hw, fun _ => rfl⟩
    | some fd =>
      have h1 := H.fresh_some hf
      have ho : o ≠ none := by
        intro hc; rw [hc] at hf; cases hf
      rw [show w.k.fresh o = ((w.k.fresh o).1, some fd) from by rw [← hf]]
      dsimp only
      rw [h1.use (by simp)]
      cases funcs with
      | true => exact ⟨[], add1 _ ⟨.bus, [fd]⟩ h1, hw.add (by intro hc; cases hc), fun _ => rfl⟩
      | false =>
        refine ⟨[fd], lose _ [fd] h1, hw, ?_⟩
        intro hc
        exact absurd (hc rfl) ho
  | newPool o rest =>
    dsimp only [step]
    cases hf : (w.k.fresh o).2 with
    | none =>
      have h1 := H.fresh_none hf
      rw [show w.k.fresh o = ((w.k.fresh o).1, none) from by rw [← hf]]
      exact ⟨[], h1, hw, fun _ => rfl⟩
    | some fd =>
      have h1 := H.fresh_some hf
      have ho : o ≠ none := by
        intro hc; rw [hc] at hf; cases hf
      rw [show w.k.fresh o = ((w.k.fresh o).1, some fd) from by rw [← hf]]
      dsimp only
      rw [h1.use (by simp)]
      cases rest with
      | true => exact ⟨[], add1 _ ⟨.pool, [fd]⟩ h1, hw.add (by intro hc; cases hc), fun _ => rfl⟩
      | false =>
        refine ⟨[fd], lose _ [fd] h1, hw, ?_⟩
        intro hc
        exact absurd (hc rfl) ho
  | move i =>
    dsimp only [step]
    cases hg : w.get i with
    | none => exact ⟨[], H, hw, fun _ => rfl⟩
    | some x =>
      dsimp only
      cases hk : x.kind with
      | bus => exact ⟨[], H, hw, fun _ => rfl⟩
      | line => exact absurd ⟨x, hg, Or.inl hk⟩ ht
      | ultrasonic => exact absurd ⟨x, hg, Or.inr hk⟩ ht
      | chip =>
        have hx := hw i x hg hk
        refine ⟨[], add1 _ x (by rw [hx]; exact H), hw.add (fun _ => hx), fun _ => rfl⟩
      | pool =>
        refine ⟨[], ?_, ?_, fun _ => rfl⟩
        · refine H.congr (List.Perm.append_right _ ?_)
          have h1 := held_set w.objs i (some x) (some ⟨.pool, []⟩) (get_some hg)
          have h1 : (x.fds ++ held (w.objs.set i (some ⟨.pool, []⟩))).Perm (held w.objs) := h1
          exact h1.symm.trans (held_add _ x).symm
        · exact (hw.put (k := w.k) (by intro y hy hc; cases hy; rfl)).add (by
            intro hc; rw [hk] at hc; cases hc)
  | use i =>
    dsimp only [step]
    cases hg : w.get i with
    | none => exact ⟨[], H, hw, fun _ => rfl⟩
    | some x =>
      dsimp only
      rw [useAll_inv x.fds H (by
        intro d hd
        exact List.mem_append_left _ (mem_held.mpr ⟨i, x, hg, hd⟩))]
      exact ⟨[], H, hw, fun _ => rfl⟩
  | destroy i =>
    dsimp only [step]
    cases hg : w.get i with
    | none => exact ⟨[], H, hw, fun _ => rfl⟩
    | some x =>
      dsimp only
      refine ⟨[], ?_, hw.put (by intro y hy; cases hy), fun _ => rfl⟩
      refine closeAll_inv x.fds (H.congr ?_)
      have h1 := held_set w.objs i (some x) none (get_some hg)
      have h1 : (x.fds ++ held (w.objs.set i none)).Perm (held w.objs) := h1
      rw [← List.append_assoc]
      exact h1.symm.append_right _

theorem run_inv : ∀ (ops : List Op) {w : World} {lost : List Desc},
    KInv w.k (held w.objs ++ lost) → Wf w → Tame w ops →
    ∃ more, KInv (run w ops).k (held (run w ops).objs ++ (more ++ lost)) ∧
      (Clean w ops → more = []) := by
  intro ops
  induction ops with
  | nil => intro w lost H _ _; exact ⟨[], H, fun _ => rfl⟩
  | cons op ops ih =>
    intro w lost H hw ht
    obtain ⟨m1, h1, h2, h3⟩ := step_inv H hw op ht.1
    obtain ⟨m2, h4, h5⟩ := ih h1 h2 ht.2
    refine ⟨m2 ++ m1, ?_, ?_⟩
    · rw [List.append_assoc]; exact h4
    · rintro ⟨c1, c2⟩
      rw [h3 c1, h5 c2]; rfl

/-- **C71, as stated.**  In every program no call is made on a descriptor number whose opening is
over, what an object holds is open, no two objects hold the same number, and when all objects are
gone nothing is open. -/
def C71Full : Prop := ∀ ops : List Op,
  let w := run World.init ops
  w.k.wrong = [] ∧
  (∀ i x d, w.get i = some x → d ∈ x.fds → d ∈ w.k.table) ∧
  (∀ i j x y d e, w.get i = some x → w.get j = some y → d ∈ x.fds → e ∈ y.fds → d.num = e.num →
    i = j) ∧
  ((∀ i, w.get i = none) → w.k.table = [])

/-- A line is moved; the old object goes, a bus gets the number, the new object goes: it closes the
bus.  The next call on the bus fails. -/
def demoMove : List Op :=
  [.newChip (some 3), .newLine 0 ⟨some 3, some 4, true⟩, .move 1, .destroy 1,
   .newBus (some 4) true, .destroy 2, .use 3]

theorem C71_violated_move : ¬ C71Full ∧
    ∃ x d e, (run World.init demoMove).get 3 = some x ∧ x.kind = .bus ∧ x.fds = [e] ∧
      e ∉ (run World.init demoMove).k.table ∧ e.num = d.num ∧ e ≠ d ∧
      (run World.init demoMove).k.wrong = [e, d] := by
  refine ⟨?_, ⟨.bus, [⟨4, 3⟩]⟩, ⟨4, 2⟩, ⟨4, 3⟩, by decide +kernel⟩
  intro h
  have := (h demoMove).1
  revert this
  decide +kernel

/-- Constructors that throw keep what they opened: a line whose position does not exist or is in use,
a bus whose driver does not report its functions, a pool file of odd size. -/
theorem C71_violated_ctor : ¬ C71Full ∧
    (step (run World.init [.newChip (some 3)]) (.newLine 0 ⟨some 3, none, true⟩)).1.k.table =
      [⟨3, 1⟩] ∧
    (step World.init (.newBus (some 3) false)).1.k.table = [⟨3, 0⟩] ∧
    (step World.init (.newPool (some 3) false)).1.k.table = [⟨3, 0⟩] := by
  refine ⟨?_, by decide +kernel, by decide +kernel, by decide +kernel⟩
  intro h
  have := (h [.newPool (some 3) false]).2.2.2 (by
    intro i
    have ho : (run World.init [.newPool (some 3) false]).objs = [] := by decide +kernel
    unfold World.get; rw [ho]; rfl)
  revert this
  decide +kernel

/-- **C71, proved part.**  In every program that does not move a line or an object with lines: no call
is made on a stale number, what an object holds is open, objects do not share numbers, and every
descriptor that was opened is closed at most once, and never while an object holds it.  If also no
constructor throws after its `open` succeeded, then every descriptor is held or closed, and when all
objects are gone nothing is open.

Missing: moves of lines (`C71_violated_move`) and constructors that throw later
(`C71_violated_ctor`). -/
theorem C71_devices_partial (ops : List Op) (ht : Tame World.init ops) :
    let w := run World.init ops
    w.k.wrong = [] ∧
    (∀ i x d, w.get i = some x → d ∈ x.fds → d ∈ w.k.table) ∧
    (∀ i j x y d e, w.get i = some x → w.get j = some y → d ∈ x.fds → e ∈ y.fds → d.num = e.num →
      i = j ∧ d = e) ∧
    (∀ d ∈ w.k.opened, w.k.closed.count d ≤ 1 ∧
      ((∃ i x, w.get i = some x ∧ d ∈ x.fds) → w.k.closed.count d = 0)) ∧
    (Clean World.init ops →
      (∀ d ∈ w.k.opened, (∃ i x, w.get i = some x ∧ d ∈ x.fds) ∨ w.k.closed.count d = 1) ∧
      ((∀ i, w.get i = none) → w.k.table = [])) := by
  intro w
  obtain ⟨more, H, hc⟩ := run_inv ops (w := World.init) (lost := []) KInv.init
    (by intro i x hg; unfold World.get at hg; simp [World.init] at hg) ht
  have H : KInv w.k (held w.objs ++ (more ++ [])) := H
  rw [List.append_nil] at H
  have htab : ∀ i x d, w.get i = some x → d ∈ x.fds → d ∈ w.k.table := by
    intro i x d hg hd
    exact H.perm.mem_iff.mp (List.mem_append_left _ (mem_held.mpr ⟨i, x, hg, hd⟩))
  refine ⟨H.wrong, htab, ?_, ?_, ?_⟩
  · intro i j x y d e hi hj hx hy hde
    have : d = e := List.inj_on_of_nodup_map H.nums (htab i x d hi hx) (htab j y e hj hy) hde
    subst this
    have hn : (held w.objs ++ more).Nodup := H.perm.nodup_iff.mpr (List.Nodup.of_map _ H.nums)
    exact ⟨held_index (List.nodup_append.mp hn).1 hi hj hx hy, rfl⟩
  · intro d hd
    rcases H.once hd with ⟨h1, h2⟩ | ⟨h1, h2⟩
    · exact ⟨by omega, fun _ => h2⟩
    · refine ⟨by omega, ?_⟩
      intro hx
      exact absurd (List.mem_append_left _ (mem_held.mpr hx)) h1
  · intro hcl
    have := hc hcl
    subst this
    rw [List.append_nil] at H
    refine ⟨?_, ?_⟩
    · intro d hd
      rcases H.once hd with ⟨h1, -⟩ | ⟨-, h2⟩
      · exact Or.inl (mem_held.mp h1)
      · exact Or.inr h2
    · intro hall
      refine List.eq_nil_iff_forall_not_mem.mpr ?_
      intro d hd
      obtain ⟨i, x, hg, -⟩ := mem_held.mp (H.perm.mem_iff.mpr hd)
      rw [hall i] at hg; cases hg

/-- A chip, an ultrasonic sensor, a bus that cannot be opened at first, and a pool that is moved. -/
def demoDevices : List Op :=
  [.newChip (some 3), .info 0 (some 3), .newUltrasonic 0 ⟨some 3, some 4, true⟩ ⟨some 3, some 5, true⟩,
   .newBus none true, .newBus (some 3) true, .newPool (some 6) true, .move 3, .use 1, .use 4,
   .destroy 3, .destroy 1, .destroy 4, .destroy 2, .destroy 0]

example : Tame World.init demoDevices ∧ Clean World.init demoDevices ∧
    (run World.init (demoDevices.take 9)).k.table.map Desc.num = [6, 3, 5, 4] ∧
    (run World.init demoDevices).k.opened.length = 8 ∧
    (run World.init demoDevices).k.table = [] := by
  refine ⟨?_, ?_, by decide +kernel, by decide +kernel, by decide +kernel⟩
  · simp only [demoDevices, Tame, movesLine, not_false_eq_true, true_and, and_true]
    rintro ⟨x, hx, hk⟩
    have hx' : x = ⟨.pool, [⟨6, 7⟩]⟩ := by
      have : (some ⟨.pool, [⟨6, 7⟩]⟩ : Option Dev) = some x := by rw [← hx]; decide +kernel
      cases this; rfl
    subst hx'
    rcases hk with hk | hk <;> cases hk
  · simp only [demoDevices, Clean, and_true, Op.openFails]
    decide +kernel

end Abc.Resource.Devices
