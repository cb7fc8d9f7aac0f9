/-
Properties of the background threads: C45.
-/
import Verif.Gpio.Threads

namespace Abc.Threads

/-! ## The motion tracker -/

namespace Tracker

/-- The full claim: whatever calls were made before and however the threads interleave, the
destructor does not hang. -/
def C45Full : Prop :=
  ∀ (calls : List Call) (sched : List Choice) (s : St),
    run (init (calls ++ [.destroy])) sched = some s → Stuck s → s.todo = []

/-- The destructor sets `quit` and notifies while the worker sleeps for 200 ms after it found
`_run` false: the notification is lost, the worker waits for ever and `join` with it. -/
theorem C45_violated : ¬ C45Full := by
  intro h
  have := h [] [.worker, .worker, .owner, .owner, .worker] ⟨true, false, .waiting, [.join]⟩ rfl
    ⟨rfl, rfl⟩
  cases this

/-- The same for `start`: the tracker reports that it is running and never measures. -/
theorem C45_violated_start : ∃ s, run (init [.start]) [.worker, .worker, .owner, .owner, .worker] = some s ∧
    Stuck s ∧ s.todo = [] ∧ s.run = true ∧ s.pc = .waiting := by
  exact ⟨⟨false, true, .waiting, []⟩, rfl, ⟨rfl, rfl⟩, rfl, rfl, rfl⟩

/-- The worker has read the variables before `quit` was set and has not called `wait` yet. -/
def Window (s : St) : Prop := s.pc = .settling ∨ (s.pc = .readRun false ∧ s.run = false)

instance (s : St) : Decidable (Window s) := by unfold Window; infer_instance

/-- How many steps are left, outside the window, once `quit` is set. -/
def rank (s : St) : Nat :=
  (match s.pc with
    | .top => 2 | .readRun q => if q then 1 else 4 | .settling => 0 | .waiting => 2 | .woken => 1
    | .measuring => 3 | .done => 0) + 2 * s.todo.length

/-- The states of a destructor call that is not going to hang. -/
structure Good (s : St) : Prop where
  quit : s.quit = true
  todo : s.todo = [.notify, .join] ∨ s.todo = [.join] ∧ s.pc ≠ .waiting ∨
    s.todo = [] ∧ s.pc = .done
  outside : ¬ Window s

theorem good_step {s s' : St} {c : Choice} (h : Good s) (hs : step s c = some s') :
    Good s' ∧ rank s' < rank s := by
  obtain ⟨hq, ht, hw⟩ := h
  obtain ⟨q, r, pc, todo⟩ := s
  simp only at hq ht
  subst hq
  have fin : ∀ s'' : St, (s''.quit = true ∧ (s''.todo = [.notify, .join] ∨
      s''.todo = [.join] ∧ s''.pc ≠ .waiting ∨ s''.todo = [] ∧ s''.pc = .done) ∧ ¬ Window s'') ∧
      rank s'' < rank ⟨true, r, pc, todo⟩ → Good s'' ∧ rank s'' < rank ⟨true, r, pc, todo⟩ :=
    fun s'' h => ⟨⟨h.1.1, h.1.2.1, h.1.2.2⟩, h.2⟩
  rcases ht with rfl | ⟨rfl, hp⟩ | ⟨rfl, hd⟩
  · cases c
    all_goals cases pc
    all_goals try (rename_i b; cases b)
    all_goals cases r
    all_goals simp [step, worker, owner, Window] at hs hw
    all_goals first
      | (subst hs; apply fin; decide)
  · cases c
    all_goals cases pc
    all_goals try (rename_i b; cases b)
    all_goals cases r
    all_goals simp [step, worker, owner, Window] at hs hw hp
    all_goals first
      | (subst hs; apply fin; decide)
  · subst hd
    cases c <;> simp [step, worker, owner] at hs

theorem good_stuck {s : St} (h : Good s) (hs : Stuck s) : s.todo = [] := by
  obtain ⟨hq, ht, hw⟩ := h
  obtain ⟨q, r, pc, todo⟩ := s
  obtain ⟨h1, h2⟩ := hs
  simp only at hq ht
  subst hq
  rcases ht with rfl | ⟨rfl, hp⟩ | ⟨rfl, rfl⟩
  · simp [owner] at h2
  · cases pc <;> simp_all [worker, owner]
  · rfl

theorem good_run {s s' : St} {cs : List Choice} (h : Good s) (hs : run s cs = some s') :
    Good s' ∧ cs.length + rank s' ≤ rank s := by
  induction cs generalizing s with
  | nil => cases hs; exact ⟨h, by simp⟩
  | cons c cs ih =>
    simp only [run] at hs
    rcases hstep : step s c with _ | s1
    · rw [hstep] at hs; cases hs
    · rw [hstep] at hs
      have h1 := good_step h hstep
      have h2 := ih h1.1 hs
      refine ⟨h2.1, ?_⟩
      simp only [List.length_cons]
      omega

/-- Inside the window, without a wake-up out of nowhere, the worker never finishes. -/
theorem window_run {s s' : St} {cs : List Choice} (ht : s.todo = [.join])
    (hw : Window s ∨ s.pc = .waiting) (hns : Choice.spurious ∉ cs) (hs : run s cs = some s') :
    s'.todo = [.join] ∧ (Window s' ∨ s'.pc = .waiting) := by
  induction cs generalizing s with
  | nil => cases hs; exact ⟨ht, hw⟩
  | cons c cs ih =>
    simp only [run] at hs
    rcases hstep : step s c with _ | s1
    · rw [hstep] at hs; cases hs
    · rw [hstep] at hs
      have key : s1.todo = [.join] ∧ (Window s1 ∨ s1.pc = .waiting) := by
        obtain ⟨q, r, pc, todo⟩ := s
        simp only at ht
        subst ht
        cases c
        · rcases hw with (h | ⟨h1, h2⟩) | h
          · simp only at h; subst h
            simp [step, worker] at hstep; subst hstep
            exact ⟨rfl, .inr rfl⟩
          · simp only at h1 h2; subst h1; subst h2
            simp [step, worker] at hstep; subst hstep
            exact ⟨rfl, .inl (.inl rfl)⟩
          · simp only at h; subst h
            simp [step, worker] at hstep
        · rcases hw with (h | ⟨h1, h2⟩) | h
          · simp only at h; subst h; simp [step, owner] at hstep
          · simp only at h1; subst h1; simp [step, owner] at hstep
          · simp only at h; subst h; simp [step, owner] at hstep
        · exact absurd (List.Mem.head _) hns
      exact ih key.1 key.2 (fun c => hns (.tail _ c)) hs

theorem quit_set {s s' : St} {cs : List Choice} (h : Act.setQuit ∈ s.todo ∨ s.quit = true)
    (hs : run s cs = some s') : Act.setQuit ∈ s'.todo ∨ s'.quit = true := by
  induction cs generalizing s with
  | nil => cases hs; exact h
  | cons c cs ih =>
    simp only [run] at hs
    rcases hstep : step s c with _ | s1
    · rw [hstep] at hs; cases hs
    · rw [hstep] at hs
      refine ih ?_ hs
      obtain ⟨q, r, pc, todo⟩ := s
      cases c
      · simp only [step, worker] at hstep
        split at hstep <;> simp at hstep <;> subst hstep <;> exact h
      · simp only [step, owner] at hstep
        split at hstep
        · cases hstep
        · simp at hstep; subst hstep; simpa using h
        · simp at hstep; subst hstep; exact .inr rfl
        · simp at hstep; subst hstep; simpa using h
        · split at hstep
          · simp at hstep; subst hstep; simpa using h
          · cases hstep
      · simp only [step] at hstep
        split at hstep
        · simp at hstep; subst hstep; exact h
        · cases hstep

/-- C45, motion tracker: after any calls and any interleaving, consider the destructor at its
`join`.  If the worker is not between its test of the variables and its `wait`, nor already
waiting, every continuation ends within 6 steps and only with the destructor finished.
Otherwise the destructor never returns, unless `wait` wakes up without a notification. -/
theorem C45_tracker_partial {calls : List Call} {sched : List Choice} {s : St}
    (h : run (init (calls ++ [.destroy])) sched = some s) (hj : s.todo = [.join]) :
    ((¬ Window s ∧ s.pc ≠ .waiting) → ∀ sched' s', run s sched' = some s' →
      sched'.length ≤ 6 ∧ (Stuck s' → s'.todo = [] ∧ s'.pc = .done)) ∧
    ((Window s ∨ s.pc = .waiting) → ∀ sched' s', Choice.spurious ∉ sched' →
      run s sched' = some s' → s'.todo = [.join] ∧ s'.pc ≠ .done) := by
  have hq : s.quit = true := by
    rcases quit_set (.inl (by simp [init, Call.acts])) h with h1 | h1
    · rw [hj] at h1; simp at h1
    · exact h1
  constructor
  · rintro ⟨h1, h2⟩ sched' s' hr
    have hg : Good s := ⟨hq, .inr (.inl ⟨hj, h2⟩), h1⟩
    have h3 := good_run hg hr
    refine ⟨?_, fun hst => ?_⟩
    · have : rank s ≤ 6 := by
        unfold rank
        rw [hj]
        cases s.pc <;> simp
        rename_i b; cases b <;> simp
      omega
    · have h4 := good_stuck h3.1 hst
      refine ⟨h4, ?_⟩
      rcases h3.1.todo with h5 | ⟨h5, _⟩ | ⟨_, h5⟩
      · rw [h4] at h5; cases h5
      · rw [h4] at h5; cases h5
      · exact h5
  · intro hw sched' s' hns hr
    have := window_run hj hw hns hr
    refine ⟨this.1, ?_⟩
    intro hd
    rcases this.2 with (h1 | ⟨h1, _⟩) | h1 <;> rw [hd] at h1 <;> cases h1

/-- C45, motion tracker: a destructor that starts while the worker is blocked in `wait` wakes it up, and
every continuation (without wake-ups out of nowhere) ends within 7 steps, only with the destructor finished. -/
theorem C45_tracker_waiting_partial {calls : List Call} {sched : List Choice} {s : St}
    (_ : run (init (calls ++ [.destroy])) sched = some s) (hj : s.todo = Call.destroy.acts) (hw : s.pc = .waiting)
    {sched' : List Choice} {s' : St} (hns : Choice.spurious ∉ sched') (hr : run s sched' = some s') :
    sched'.length ≤ 7 ∧ (Stuck s' → s'.todo = [] ∧ s'.pc = .done) := by
  obtain ⟨q, r, pc, todo⟩ := s
  simp only at hj hw
  subst hj hw
  cases sched' with
  | nil =>
    cases hr
    refine ⟨by simp, fun hst => ?_⟩
    have := hst.2
    simp [owner, Call.acts] at this
  | cons c cs =>
    cases c
    · simp [run, step, worker] at hr
    · simp only [run, step, owner, Call.acts, Option.bind_some] at hr
      have hg : Good ⟨true, r, .waiting, [.notify, .join]⟩ := ⟨rfl, .inl rfl, by simp [Window]⟩
      have h3 := good_run hg hr
      have hrk : rank ⟨true, r, .waiting, [.notify, .join]⟩ = 6 := rfl
      refine ⟨by simp only [List.length_cons]; omega, fun hst => ?_⟩
      have h4 := good_stuck h3.1 hst
      refine ⟨h4, ?_⟩
      rcases h3.1.todo with h5 | ⟨h5, _⟩ | ⟨_, h5⟩
      · rw [h4] at h5; cases h5
      · rw [h4] at h5; cases h5
      · exact h5
    · exact absurd (List.Mem.head _) hns

/-- Destroyed while the worker waits. -/
example : run (init ([] ++ [.destroy])) [.worker, .worker, .worker] = some ⟨false, false, .waiting, Call.destroy.acts⟩ := by decide

/-- Both cases occur: destroyed while measuring, and destroyed within 200 ms of `stop`. -/
example : (run (init [.start, .destroy])
      [.owner, .owner, .worker, .worker, .owner, .owner, .worker, .worker, .worker, .owner]) =
      some ⟨true, true, .done, []⟩ ∧
    (run (init [.start, .stop, .destroy])
      [.owner, .owner, .worker, .worker, .worker, .owner, .worker, .worker, .owner, .owner, .worker]) =
      some ⟨true, false, .waiting, [.join]⟩ := by decide

end Tracker

/-! ## The PWM emulator -/

namespace Emulator

/-- How many steps are left once `_quit` is set. -/
def rank (s : St) : Nat :=
  (match s.pc with
    | .start => 3
    | .startDuty q => if q then 2 else 7
    | .top q _ => if q then 1 else 6
    | .waiting => 4
    | .woken => 3
    | .wokenDuty q => if q then 2 else 7
    | .high _ => 5
    | .highQuit _ => 4
    | .highDuty q => if q then 3 else 8
    | .low long q _ => if long then 4 else if q then 2 else 7
    | .lowQuit => 3
    | .lowDuty q => if q then 2 else 7
    | .done => 0) + s.todo.length

theorem rank_step {p : Params} {s s' : St} {c : Choice} (hq : s.quit = true)
    (hs : step p s c = some s') : s'.quit = true ∧ rank s' < rank s := by
  obtain ⟨q, d, lv, pc, todo⟩ := s
  simp only at hq
  subst hq
  cases c
  · simp only [step, worker] at hs
    split at hs
    all_goals try (rename_i b; cases b)
    all_goals try (split at hs)
    all_goals try (split at hs)
    all_goals simp at hs
    all_goals try (subst hs)
    all_goals try (refine ⟨rfl, ?_⟩)
    all_goals simp [rank]
    all_goals try (split)
    all_goals simp_all
  · simp only [step, owner] at hs
    split at hs
    · cases hs
    · simp at hs; subst hs; exact ⟨rfl, by simp [rank]⟩
    · simp at hs; subst hs; exact ⟨rfl, by simp [rank]⟩
    · simp at hs; subst hs
      refine ⟨rfl, ?_⟩
      by_cases hw : pc = .waiting
      · subst hw; simp [rank]; omega
      · simp [rank, hw]
    · split at hs
      · simp at hs; subst hs; exact ⟨rfl, by simp [rank]⟩
      · cases hs
  · simp only [step] at hs
    split at hs
    · rename_i hw
      simp at hs hw; subst hs; subst hw
      exact ⟨rfl, by simp [rank]⟩
    · cases hs

theorem rank_run {p : Params} {s s' : St} {cs : List Choice} (hq : s.quit = true)
    (hs : run p s cs = some s') : s'.quit = true ∧ cs.length + rank s' ≤ rank s := by
  induction cs generalizing s with
  | nil => cases hs; exact ⟨hq, by simp⟩
  | cons c cs ih =>
    simp only [run] at hs
    rcases hstep : step p s c with _ | s1
    · rw [hstep] at hs; cases hs
    · rw [hstep] at hs
      have h1 := rank_step hq hstep
      have h2 := ih h1.1 hs
      refine ⟨h2.1, ?_⟩
      simp only [List.length_cons]
      omega

/-- The owner's actions end with the destructor; a worker that is done saw `_quit` and left the
line low. -/
structure Ok (s : St) : Prop where
  todo : (∃ l, s.todo = l ++ [.setQuit, .notify, .join] ∧ Act.join ∉ l ∧ Act.setQuit ∉ l) ∧
      s.quit = false ∨
    (s.quit = true ∧ (s.todo = [.notify, .join] ∨ s.todo = [.join] ∨ s.todo = [] ∧ s.pc = .done))
  done : s.pc = .done → s.level = false
  fresh : s.quit = false → s.pc ≠ .done ∧ (∀ d, s.pc ≠ .top true d) ∧ s.pc ≠ .startDuty true ∧
    s.pc ≠ .wokenDuty true ∧ s.pc ≠ .highDuty true ∧ (∀ l d, s.pc ≠ .low l true d) ∧
    s.pc ≠ .lowDuty true

theorem ok_step {p : Params} {s s' : St} {c : Choice} (h : Ok s) (hs : step p s c = some s') :
    Ok s' := by
  obtain ⟨ht, hd, hf⟩ := h
  obtain ⟨q, d, lv, pc, todo⟩ := s
  simp only at ht hd hf
  cases c
  · have ht' : pc ≠ .done → ∀ pc', (∃ l, todo = l ++ [.setQuit, .notify, .join] ∧ Act.join ∉ l ∧
        Act.setQuit ∉ l) ∧ q = false ∨
        (q = true ∧ (todo = [.notify, .join] ∨ todo = [.join] ∨ todo = [] ∧ pc' = Pc.done)) := by
      intro h pc'
      rcases ht with h1 | ⟨h0, h1 | h1 | h1⟩
      · exact .inl h1
      · exact .inr ⟨h0, .inl h1⟩
      · exact .inr ⟨h0, .inr (.inl h1)⟩
      · exact absurd h1.2 h
    simp only [step, worker] at hs
    split at hs
    all_goals try (split at hs)
    all_goals try (split at hs)
    all_goals simp at hs
    all_goals try (subst hs)
    all_goals refine ⟨ht' (by simp) _, ?_, ?_⟩
    all_goals simp
    all_goals simp_all
  · simp only [step, owner] at hs
    have hpc : ∀ lv', (pc = .done → lv' = false) →
        ((if pc = .waiting then Pc.woken else pc) = .done → lv' = false) := by
      intro lv' h1 h2
      split at h2
      · cases h2
      · exact h1 h2
    split at hs
    · cases hs
    · rename_i x l
      simp at hs; subst hs
      refine ⟨?_, hd, hf⟩
      rcases ht with ⟨⟨m, h1, h2, h3⟩, h4⟩ | ⟨_, h1 | h1 | ⟨h1, _⟩⟩
      · rcases m with _ | ⟨a, m⟩
        · simp at h1
        · simp at h1
          refine .inl ⟨⟨m, h1.2, ?_, ?_⟩, h4⟩ <;> simp_all
      all_goals simp at h1
    · rename_i l
      simp at hs; subst hs
      refine ⟨.inr ⟨rfl, ?_⟩, hd, by intro h; cases h⟩
      rcases ht with ⟨⟨m, h1, h2, h3⟩, h4⟩ | ⟨_, h1 | h1 | ⟨h1, _⟩⟩
      · rcases m with _ | ⟨a, m⟩
        · simp at h1; exact .inl h1
        · simp at h1
          simp [← h1.1] at h3
      all_goals simp at h1
    · rename_i l
      simp at hs; subst hs
      refine ⟨?_, hpc lv hd, ?_⟩
      · rcases ht with ⟨⟨m, h1, h2, h3⟩, h4⟩ | ⟨h0, h1 | h1 | ⟨h1, _⟩⟩
        · rcases m with _ | ⟨a, m⟩
          · simp at h1
          · simp at h1
            refine .inl ⟨⟨m, h1.2, ?_, ?_⟩, h4⟩ <;> simp_all
        · simp at h1; exact .inr ⟨h0, .inr (.inl h1)⟩
        · simp at h1
        · simp at h1
      · intro h
        have := hf h
        by_cases hw : pc = .waiting
        · simp [hw]
        · simpa [hw] using this
    · split at hs
      · rename_i l hdone
        simp at hs; subst hs
        refine ⟨?_, hd, hf⟩
        rcases ht with ⟨⟨m, h1, h2, h3⟩, h4⟩ | ⟨h0, h1 | h1 | ⟨h1, _⟩⟩
        · exact absurd hdone (hf h4).1
        · simp at h1
        · simp at h1; exact .inr ⟨h0, .inr (.inr ⟨h1, hdone⟩)⟩
        · simp at h1
      · cases hs
  · simp only [step] at hs
    split at hs
    · rename_i hw
      simp at hs hw; subst hs
      refine ⟨?_, by simp, by simp⟩
      rcases ht with h1 | ⟨h0, h1 | h1 | ⟨h1, h2⟩⟩
      · exact .inl h1
      · exact .inr ⟨h0, .inl h1⟩
      · exact .inr ⟨h0, .inr (.inl h1)⟩
      · rw [hw] at h2; cases h2
    · cases hs

theorem ok_run {p : Params} {s s' : St} {cs : List Choice} (h : Ok s) (hs : run p s cs = some s') :
    Ok s' := by
  induction cs generalizing s with
  | nil => cases hs; exact h
  | cons c cs ih =>
    simp only [run] at hs
    rcases hstep : step p s c with _ | s1
    · rw [hstep] at hs; cases hs
    · rw [hstep] at hs
      exact ih (ok_step h hstep) hs

theorem ok_init (duties : List Nat) : Ok (init duties) where
  todo := .inl ⟨⟨_, rfl, by simp, by simp⟩, rfl⟩
  done := by intro h; cases h
  fresh := by intro _; simp [init]

/-- C45, PWM emulator: whatever duty cycles were set and however the threads interleave, the two
threads are never stuck before the destructor has returned; once `_quit` is set, at most 10 steps
are left; and when the destructor has returned the worker is gone and the line is low. -/
theorem C45_emulator (p : Params) (duties : List Nat) {sched : List Choice} {s : St}
    (h : run p (init duties) sched = some s) :
    (s.todo ≠ [] → ∃ c, (c = .worker ∨ c = .owner) ∧ (step p s c).isSome) ∧
    (s.quit = true → ∀ sched' s', run p s sched' = some s' → sched'.length ≤ 10) ∧
    (s.todo = [] → s.quit = true ∧ s.pc = .done ∧ s.level = false) := by
  have ok := ok_run (ok_init duties) h
  refine ⟨?_, ?_, ?_⟩
  · intro ht
    by_cases hp : s.pc = .done
    · refine ⟨.owner, .inr rfl, ?_⟩
      simp only [step, owner, hp]
      split
      · contradiction
      all_goals simp
    · refine ⟨.worker, .inl rfl, ?_⟩
      simp only [step, worker]
      split <;> try rfl
      · split
        · rfl
        · split <;> rfl
      · contradiction
  · intro hq sched' s' hr
    have h1 := (rank_run hq hr).2
    have h2 : s.todo.length ≤ 2 := by
      rcases ok.todo with ⟨_, h3⟩ | ⟨_, h3 | h3 | ⟨h3, _⟩⟩
      · rw [h3] at hq; cases hq
      all_goals simp [h3]
    have h3 : rank s ≤ 8 + s.todo.length := by
      unfold rank
      cases s.pc <;> simp <;> split <;> first | simp | (split <;> simp)
    omega
  · intro ht
    rcases ok.todo with ⟨⟨l, h1, _⟩, _⟩ | ⟨h0, h1 | h1 | ⟨_, h1⟩⟩
    · rw [ht] at h1; simp at h1
    · rw [ht] at h1; cases h1
    · rw [ht] at h1; cases h1
    · exact ⟨h0, h1, ok.done h1⟩

/-- A run to the end: duty cycle 30, then destroyed in the middle of the high part. -/
example : run ⟨fun d => decide (50 ≤ d), 100⟩ (init [30])
    [.owner, .owner, .worker, .worker, .worker, .worker, .owner, .owner, .worker, .worker, .worker,
      .worker, .owner] = some ⟨true, 30, false, .done, []⟩ := by decide

end Emulator
end Abc.Threads
