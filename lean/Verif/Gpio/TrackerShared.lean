import Verif.Gpio.Tracker
import Mathlib.Tactic.IntervalCases

/-!
# Setting the position while the motion tracker runs (C77)

The worker of `src/x/gpio_smbus_motion_tracker.x.h` reads the four atomic members one by one (227-230),
computes, and writes them back one by one (250-265).  Another thread may call `set_depth`, ... (129-150)
at any point in between.
-/

namespace Abc.Gpio.Tracker

noncomputable section

/-- The four atomic members. -/
inductive Field
  | depth
  | width
  | speed
  | direction
  deriving DecidableEq

/-- The getters, 105-126. -/
def Pose.get (x : Pose) : Field → ℝ
  | .depth => x.depth
  | .width => x.width
  | .speed => x.speed
  | .direction => x.direction

/-- The setters, 129-150. -/
def Pose.put (x : Pose) (v : ℝ) : Field → Pose
  | .depth => { x with depth := v }
  | .width => { x with width := v }
  | .speed => { x with speed := v }
  | .direction => { x with direction := v }

/-- The members, the local copies of the worker (`prev_depth`, ..., 227-230), and how many of the eight
accesses of a pass the worker has done. -/
structure Shared where
  mem : Pose
  loc : Pose
  pc : ℕ

/-- The next access of the worker in a pass from sample `p` to sample `q`: 227, 228, 229, 230, then
250 or 260, 251 or 261, 262 (not in the dead band), 265. -/
def work (p q : Sample) (s : Shared) : Shared :=
  match s.pc with
  | 0 => { s with loc := s.loc.put (s.mem.get .depth) .depth, pc := 1 }
  | 1 => { s with loc := s.loc.put (s.mem.get .width) .width, pc := 2 }
  | 2 => { s with loc := s.loc.put (s.mem.get .speed) .speed, pc := 3 }
  | 3 => { s with loc := s.loc.put (s.mem.get .direction) .direction, pc := 4 }
  | 4 => { s with mem := s.mem.put ((stepPose s.loc p q).get .depth) .depth, pc := 5 }
  | 5 => { s with mem := s.mem.put ((stepPose s.loc p q).get .width) .width, pc := 6 }
  | 6 =>
    let sec := seconds p q
    let gyro := p.gyro * sec + (q.gyro - p.gyro) / sec * sec * sec / 2
    if |gyro| < 0.000001 then { s with pc := 7 }
    else { s with mem := s.mem.put ((stepPose s.loc p q).get .direction) .direction, pc := 7 }
  | 7 => { s with mem := s.mem.put ((stepPose s.loc p q).get .speed) .speed, pc := 8 }
  | _ => s

/-- What happens next: an access by the worker, or a setter called by another thread. -/
inductive Act
  | work
  | set (f : Field) (v : ℝ)

/-- One happening. -/
def act (p q : Sample) (s : Shared) : Act → Shared
  | .work => work p q s
  | .set f v => { s with mem := s.mem.put v f }

/-- A pass during which the given things happen, in this order. -/
def pass (p q : Sample) (x : Pose) (l : List Act) : Shared := l.foldl (act p q) ⟨x, x, 0⟩

/-- The accesses of the worker in a list. -/
def works : List Act → ℕ
  | [] => 0
  | .work :: l => works l + 1
  | .set _ _ :: l => works l

/-- A sequence of calls of the setters. -/
def puts (x : Pose) (l : List (Field × ℝ)) : Pose := l.foldl (fun x s => x.put s.2 s.1) x

/-- The setters called, in order. -/
def sets : List Act → List (Field × ℝ)
  | [] => []
  | .work :: l => sets l
  | .set f v :: l => (f, v) :: sets l

/-- C77 in full: whatever is set while the worker makes a pass, the result is as if every setter had
been called before or after the pass, each field in the order of the calls. -/
def C77Full : Prop :=
  ∀ (p q : Sample) (x : Pose) (l : List Act), works l = 8 →
    ∃ e t : List (Field × ℝ),
      (∀ f, (e ++ t).filter (·.1 = f) = (sets l).filter (·.1 = f)) ∧
      (pass p q x l).mem = puts (stepPose (puts x e) p q) t

/-- A position set between the reading and the writing of it is forgotten: the car is set to 100, and is
found at 1. -/
theorem C77_violated : ¬ C77Full := by
  intro h
  obtain ⟨e, t, h1, h2⟩ := h ⟨0, 0, 0⟩ ⟨1000000000, 0, 0⟩ ⟨0, 0, 0, 1⟩
    [.work, .set .depth 100, .work, .work, .work, .work, .work, .work, .work] rfl
  have hs : seconds ⟨0, 0, 0⟩ ⟨1000000000, 0, 0⟩ = 1 := by
    unfold seconds
    rw [show (Int.tdiv ((1000000000 : Int) - 0) 1000) = 1000000 from by decide]
    norm_num
  have hz : (0 : ℝ) < 0.000001 := by norm_num
  have hm : (pass ⟨0, 0, 0⟩ ⟨1000000000, 0, 0⟩ ⟨0, 0, 0, 1⟩
      [.work, .set .depth 100, .work, .work, .work, .work, .work, .work, .work]).mem.depth = 1 := by
    simp [pass, act, work, Pose.put, Pose.get, stepPose, hs, degToRad, hz]
  have hd := h1 .depth
  have hn : ∀ f, f ≠ .depth → (e ++ t).filter (·.1 = f) = [] := by
    intro f hf
    rw [h1 f]
    simp [sets, Ne.symm hf]
  have hall : ∀ s ∈ e ++ t, s.1 = .depth := by
    intro s hs
    by_contra hc
    have : s ∈ (e ++ t).filter (·.1 = s.1) := by simp at hs ⊢; exact hs
    rw [hn s.1 hc] at this
    simp at this
  rw [List.filter_eq_self.mpr (by simpa using hall)] at hd
  simp [sets] at hd
  rw [h2] at hm
  rcases e with _ | ⟨a, e⟩
  · simp at hd
    subst hd
    simp [puts, Pose.put] at hm
  · simp at hd
    obtain ⟨rfl, rfl, rfl⟩ := hd
    simp [puts, Pose.put, stepPose, hs, degToRad, hz] at hm

/-- Which access of the worker reads a field. -/
def Field.readAt : Field → ℕ
  | .depth => 0
  | .width => 1
  | .speed => 2
  | .direction => 3

/-- Which access of the worker writes it. -/
def Field.writeAt : Field → ℕ
  | .depth => 4
  | .width => 5
  | .direction => 6
  | .speed => 7

/-- No setter is called between the reading and the writing of its field, when the worker has already
done `n` accesses. -/
def Clear (n : ℕ) : List Act → Prop
  | [] => True
  | .work :: l => Clear (n + 1) l
  | .set f _ :: l => (n ≤ f.readAt ∨ f.writeAt < n) ∧ Clear n l

/-- The setters called before the worker has read their field. -/
def early (n : ℕ) : List Act → List (Field × ℝ)
  | [] => []
  | .work :: l => early (n + 1) l
  | .set f v :: l => if n ≤ f.readAt then (f, v) :: early n l else early n l

/-- The setters called after that. -/
def late (n : ℕ) : List Act → List (Field × ℝ)
  | [] => []
  | .work :: l => late (n + 1) l
  | .set f v :: l => if n ≤ f.readAt then late n l else (f, v) :: late n l

theorem get_put (x : Pose) (v : ℝ) (f g : Field) : (x.put v f).get g = if f = g then v else x.get g := by
  cases f <;> cases g <;> rfl

theorem pose_ext {x y : Pose} (h : ∀ f, x.get f = y.get f) : x = y := by
  have h1 := h .depth
  have h2 := h .width
  have h3 := h .speed
  have h4 := h .direction
  cases x; cases y
  simp only [Pose.get] at *
  subst h1 h2 h3 h4
  rfl

theorem dead_band {x : Pose} {p q : Sample}
    (h : |p.gyro * seconds p q + (q.gyro - p.gyro) / seconds p q * seconds p q * seconds p q / 2| < 0.000001) :
    (stepPose x p q).direction = x.direction := by
  simp only [stepPose]
  rw [if_pos h]

/-- While a pass goes on: `E` is what the reads find, `D` the result so far of later setters on top of
the computed pose. -/
structure Mid (p q : Sample) (s : Shared) (E D : Pose) : Prop where
  loc : ∀ f, f.readAt < s.pc → s.loc.get f = E.get f
  before : ∀ f, s.pc ≤ f.writeAt → s.mem.get f = E.get f ∧ D.get f = (stepPose E p q).get f
  after : ∀ f, f.writeAt < s.pc → s.mem.get f = D.get f

theorem loc_eq {p q : Sample} {s : Shared} {E D : Pose} (h : Mid p q s E D) (hs : 4 ≤ s.pc) : s.loc = E :=
  pose_ext (fun f => h.loc f (by cases f <;> simp [Field.readAt] <;> omega))

theorem mid_work {p q : Sample} {s : Shared} {E D : Pose} (h : Mid p q s E D) (hs : s.pc < 8) :
    Mid p q (work p q s) E D ∧ (work p q s).pc = s.pc + 1 := by
  obtain ⟨mem, loc, pc⟩ := s
  simp only at hs
  have hl : 4 ≤ pc → loc = E := fun h4 => loc_eq h h4
  obtain ⟨h1, h2, h3⟩ := h
  simp only at h1 h2 h3
  interval_cases pc
  case «6» =>
    have hl := hl (by omega)
    simp only [work]
    split
    · rename_i hd
      refine ⟨⟨fun f _ => h1 f (by cases f <;> simp [Field.readAt]), fun f hf => ?_, fun f hf => ?_⟩, rfl⟩
      · cases f <;> simp [Field.writeAt] at hf ⊢
        exact h2 _ (by simp [Field.writeAt])
      · cases f <;> simp [Field.writeAt] at hf ⊢
        · exact h3 _ (by simp [Field.writeAt])
        · exact h3 _ (by simp [Field.writeAt])
        · obtain ⟨a, b⟩ := h2 .direction (by simp [Field.writeAt])
          rw [a, b]
          exact (dead_band hd).symm
    · refine ⟨⟨fun f _ => h1 f (by cases f <;> simp [Field.readAt]), fun f hf => ?_, fun f hf => ?_⟩, rfl⟩
      · cases f <;> simp [Field.writeAt] at hf ⊢
        rw [get_put, if_neg (by decide)]
        exact h2 _ (by simp [Field.writeAt])
      · cases f <;> simp [Field.writeAt] at hf ⊢ <;> rw [get_put]
        · rw [if_neg (by decide)]; exact h3 _ (by simp [Field.writeAt])
        · rw [if_neg (by decide)]; exact h3 _ (by simp [Field.writeAt])
        · rw [if_pos rfl, (h2 .direction (by simp [Field.writeAt])).2, hl]
  all_goals
    refine ⟨⟨fun f hf => ?_, fun f hf => ?_, fun f hf => ?_⟩, rfl⟩ <;> simp only [work] at hf ⊢
    · cases f <;> simp [Field.readAt] at hf ⊢ <;> (try rw [get_put]) <;> (try simp) <;>
        first
          | exact h1 _ (by simp [Field.readAt])
          | exact (h2 _ (by simp [Field.writeAt])).1
    · cases f <;> simp [Field.writeAt] at hf ⊢ <;> (try rw [get_put]) <;> (try simp) <;>
        exact h2 _ (by simp [Field.writeAt])
    · cases f <;> simp [Field.writeAt] at hf ⊢ <;> (try rw [get_put]) <;> (try simp) <;>
        first
          | exact h3 _ (by simp [Field.writeAt])
          | (rw [hl (by omega)]; exact (h2 _ (by simp [Field.writeAt])).2.symm)

theorem sets_split : ∀ (l : List Act) (n : ℕ) (f : Field),
    (early n l ++ late n l).filter (·.1 = f) = (sets l).filter (·.1 = f) := by
  intro l
  induction l with
  | nil => intros; rfl
  | cons a l ih =>
    intro n f
    cases a with
    | work => exact ih (n + 1) f
    | set g v =>
      have hlate : ∀ (l : List Act) (n : ℕ), f.readAt < n → (early n l).filter (·.1 = f) = [] := by
        intro l
        induction l with
        | nil => intros; rfl
        | cons a l ih =>
          intro n hn
          cases a with
          | work => exact ih (n + 1) (by omega)
          | set g v =>
            simp only [early]
            split
            · rename_i h
              rw [List.filter_cons_of_neg (by simp; rintro rfl; omega)]
              exact ih n hn
            · exact ih n hn
      have := ih n f
      rw [List.filter_append] at this ⊢
      simp only [early, late, sets]
      split
      · by_cases hg : g = f
        · rw [List.filter_cons_of_pos (by simpa using hg), List.filter_cons_of_pos (by simpa using hg),
            ← this, List.cons_append]
        · rw [List.filter_cons_of_neg (by simpa using hg), List.filter_cons_of_neg (by simpa using hg), this]
      · rename_i h
        by_cases hg : g = f
        · subst hg
          rw [List.filter_cons_of_pos (by simp), List.filter_cons_of_pos (by simp), hlate l n (by omega)]
          rw [hlate l n (by omega)] at this
          simpa using this
        · rw [List.filter_cons_of_neg (by simpa using hg), List.filter_cons_of_neg (by simpa using hg), this]

theorem pass_clear {p q : Sample} : ∀ (l : List Act) (s : Shared) (E : Pose) (t : List (Field × ℝ)),
    Mid p q s E (puts (stepPose E p q) t) → (s.pc ≤ 3 → t = []) → Clear s.pc l → s.pc + works l = 8 →
    (l.foldl (act p q) s).mem =
      puts (stepPose (puts E (early s.pc l)) p q) (t ++ late s.pc l) := by
  intro l
  induction l with
  | nil =>
    intro s E t h _ _ hw
    simp only [works] at hw
    simp only [List.foldl_nil, early, late, List.append_nil]
    exact pose_ext (fun f => h.after f (by cases f <;> simp [Field.writeAt] <;> omega))
  | cons a l ih =>
    intro s E t h ht hc hw
    cases a with
    | work =>
      simp only [works] at hw
      obtain ⟨h1, h2⟩ := mid_work h (by omega)
      have := ih (work p q s) E t h1 (fun h => ht (by omega)) (by rw [h2]; exact hc) (by rw [h2]; omega)
      rw [h2] at this
      exact this
    | set f v =>
      simp only [works] at hw
      obtain ⟨hf, hc⟩ := hc
      simp only [List.foldl_cons, act, early, late]
      have hr : f.readAt ≤ 3 := by cases f <;> simp [Field.readAt]
      have hrw : ∀ g : Field, 4 ≤ g.writeAt := by intro g; cases g <;> simp [Field.writeAt]
      split
      · rename_i hp
        have h3 : s.pc ≤ 3 := by omega
        obtain rfl := ht h3
        refine ih { s with mem := s.mem.put v f } (E.put v f) [] ⟨?_, ?_, ?_⟩ ht hc hw
        · intro g hg
          simp only at hg ⊢
          rw [get_put, if_neg (by rintro rfl; omega)]
          exact h.loc g hg
        · intro g hg
          simp only at hg ⊢
          rw [get_put, get_put]
          refine ⟨?_, rfl⟩
          split
          · rfl
          · exact (h.before g hg).1
        · intro g hg
          have := hrw g
          simp only at hg
          omega
      · rename_i hp
        have hfw : f.writeAt < s.pc := by omega
        have h4 : ¬ s.pc ≤ 3 := by have := hrw f; omega
        have := ih { s with mem := s.mem.put v f } E (t ++ [(f, v)]) ⟨?_, ?_, ?_⟩
          (fun h => absurd h h4) hc hw
        · rw [this]
          simp
        · exact h.loc
        · intro g hg
          simp only at hg ⊢
          have e : puts (stepPose E p q) (t ++ [(f, v)]) = (puts (stepPose E p q) t).put v f := by
            simp [puts]
          rw [e, get_put, get_put, if_neg (by rintro rfl; omega), if_neg (by rintro rfl; omega)]
          exact h.before g hg
        · intro g hg
          simp only at hg ⊢
          have e : puts (stepPose E p q) (t ++ [(f, v)]) = (puts (stepPose E p q) t).put v f := by
            simp [puts]
          rw [e, get_put, get_put]
          split
          · rfl
          · exact h.after g hg

/-- C77, the part that holds: if no field is set between the reading and the writing of it, the result
is as if every setter had been called before or after the pass.  Missing: setters called in between,
which are forgotten (`C77_violated`). -/
theorem C77_set_partial (p q : Sample) (x : Pose) (l : List Act) (hw : works l = 8) (hc : Clear 0 l) :
    ∃ e t : List (Field × ℝ),
      (∀ f, (e ++ t).filter (·.1 = f) = (sets l).filter (·.1 = f)) ∧
      (pass p q x l).mem = puts (stepPose (puts x e) p q) t := by
  refine ⟨early 0 l, late 0 l, sets_split l 0, ?_⟩
  have := pass_clear (p := p) (q := q) l ⟨x, x, 0⟩ x []
    ⟨fun f hf => by simp at hf, fun f _ => ⟨rfl, rfl⟩, fun f hf => by simp at hf⟩ (fun _ => rfl) hc
    (by simpa using hw)
  simpa [pass] using this

/-- In particular a setter called while the worker does not touch the members (it sleeps, or waits for
the sensor) takes effect, and the next pass starts from it. -/
theorem C77_between (p q : Sample) (x : Pose) (f : Field) (v : ℝ) :
    (pass p q x (.set f v :: List.replicate 8 .work)).mem = stepPose (x.put v f) p q ∧
    (pass p q x (List.replicate 8 .work ++ [.set f v])).mem = (stepPose x p q).put v f := by
  constructor
  · have := pass_clear (p := p) (q := q) (.set f v :: List.replicate 8 .work) ⟨x, x, 0⟩ x []
      ⟨fun f hf => by simp at hf, fun f _ => ⟨rfl, rfl⟩, fun f hf => by simp at hf⟩ (fun _ => rfl)
      ⟨Or.inl (Nat.zero_le _), by simp [Clear, List.replicate]⟩ rfl
    simpa [pass, early, late, puts, List.replicate] using this
  · have := pass_clear (p := p) (q := q) (List.replicate 8 .work ++ [.set f v]) ⟨x, x, 0⟩ x []
      ⟨fun f hf => by simp at hf, fun f _ => ⟨rfl, rfl⟩, fun f hf => by simp at hf⟩ (fun _ => rfl)
      (by cases f <;> simp [Clear, List.replicate, Field.readAt, Field.writeAt]) rfl
    cases f <;> simpa [pass, early, late, puts, List.replicate, Field.readAt] using this

/-- Two getters called one after the other need not fit together: the depth of the new position and the
width of the old one. -/
theorem C77_violated_torn :
    ∃ (p q : Sample) (x : Pose) (l l' : List Act), sets (l ++ l') = [] ∧ works (l ++ l') = 8 ∧
      let d := (pass p q x l).mem.depth
      let w := (pass p q x (l ++ l')).mem.width
      let y := (pass p q x (l ++ l')).mem
      (d, w) ≠ (x.depth, x.width) ∧ (d, w) ≠ (y.depth, y.width) := by
  have hc : 0 < constPi := by unfold constPi; norm_num
  refine ⟨⟨0, 0, 0⟩, ⟨1000000000, 0, 0⟩, ⟨0, 0, 30, 1⟩, [.work, .work, .work, .work],
    [.work, .work, .work, .work], rfl, rfl, ?_⟩
  have hs : seconds ⟨0, 0, 0⟩ ⟨1000000000, 0, 0⟩ = 1 := by
    unfold seconds
    rw [show (Int.tdiv ((1000000000 : Int) - 0) 1000) = 1000000 from by decide]
    norm_num
  have hz : (0 : ℝ) < 0.000001 := by norm_num
  have h1 : 0 < Real.sin (degToRad 30) := Real.sin_pos_of_pos_of_lt_pi (by unfold degToRad constPi; norm_num)
    (by have := Real.pi_gt_three; unfold degToRad constPi; linarith)
  have h2 : 0 < Real.cos (degToRad 30) := Real.cos_pos_of_mem_Ioo ⟨by
    have := Real.pi_gt_three; unfold degToRad constPi; linarith,
    by have := Real.pi_gt_three; unfold degToRad constPi; linarith⟩
  simp [pass, act, work, Pose.put, Pose.get, stepPose, hs, hz]
  exact ⟨ne_of_gt h1, fun h => absurd h.symm (ne_of_gt h2)⟩

example : Clear 0 [.set .width 3, .work, .set .width 7, .work, .work, .work, .work, .set .depth 5, .work, .work,
    .work, .set .speed 0] := by
  simp [Clear, Field.readAt, Field.writeAt]

end

end Abc.Gpio.Tracker
