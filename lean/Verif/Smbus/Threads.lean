import Verif.Smbus.Props
import Mathlib.Tactic.Common

/-!
# Several threads on one bus (C55)

`ensure_address` looks at `_addr` (`gpio_smbus.x.h` 458), sets the address in the kernel (467) and then
stores it (475); the transfer follows in the calling function.  Only the two `ioctl` calls hold the
mutex (489), each for itself.  Here these four are the steps of a thread, and threads are scheduled in
any way.  `_addr` is an ordinary member, so that its concurrent use is a data race; it is modelled as if
it were atomic, which can only make the code look better.
-/

namespace Abc.Smbus

open Abc.Ascii

/-- Where a thread is in a call. -/
inductive At where
  | check
  | set
  | store
  | send
deriving DecidableEq, Repr

/-- A thread: its remaining calls (address and message; the first one is the current), and where it is. -/
structure Thr where
  calls : List (Nat × Msg)
  pos : At

/-- The bus, the threads, and (for the statement only) the messages carried out with the addresses they
were meant for. -/
structure Sys (σ : Type) where
  bus : Bus σ
  thr : Nat → Thr
  want : List (Nat × Msg)

section
variable {σ : Type} (io : σ → Req → σ × Outcome)

/-- The next step of thread `i`: 458-464, 466-473, 475, and `safe_ioctl(I2C_SMBUS, &msg)` of the calling
function (e.g. 146).  A failing `ensure_address` ends the call if there is a log. -/
def sysStep (s : Sys σ) (i : Nat) : Sys σ :=
  let put (t : Thr) : Nat → Thr := fun j => if j = i then t else s.thr j
  match (s.thr i).calls with
  | [] => s
  | (a, m) :: rest =>
    match (s.thr i).pos with
    | .check =>
      if s.bus.addr = a ∧ s.bus.log = true then { s with thr := put ⟨(a, m) :: rest, .send⟩ }
      else { s with thr := put ⟨(a, m) :: rest, .set⟩ }
    | .set =>
      let r := ioctlAddress io s.bus a
      if r.2 < 0 ∧ s.bus.log = true then { s with bus := r.1, thr := put ⟨rest, .check⟩ }
      else { s with bus := r.1, thr := put ⟨(a, m) :: rest, .store⟩ }
    | .store => { s with bus := { s.bus with addr := a }, thr := put ⟨(a, m) :: rest, .send⟩ }
    | .send =>
      let r := ioctlTransfer io s.bus m
      { bus := r.1, thr := put ⟨rest, .check⟩,
        want := if r.2.1 = 0 then s.want ++ [(a, m)] else s.want }

/-- A schedule: which thread makes the next step. -/
def sysRun (s : Sys σ) (schedule : List Nat) : Sys σ := schedule.foldl (sysStep io) s

/-- A new bus used by the given threads. -/
def startSys (e : σ) (calls : Nat → List (Nat × Msg)) : Sys σ := ⟨fresh e, fun i => ⟨calls i, .check⟩, []⟩

end

variable {σ : Type}

/-- C55 in full: whatever the schedule, the messages carried out go to the addresses they were meant for. -/
def C55Full (σ : Type) : Prop :=
  ∀ (io : σ → Req → σ × Outcome), Lockable io → ∀ (e : σ) (calls : Nat → List (Nat × Msg)) (schedule : List Nat),
    (sysRun io (startSys e calls) schedule).bus.done = (sysRun io (startSys e calls) schedule).want

/-- A thread that is not interrupted makes the steps of `transfer`, and nothing else. -/
theorem sysRun_transfer (io : σ → Req → σ × Outcome) (s : Sys σ) (i : Nat) (t : Target) (m : Msg)
    (rest : List (Nat × Msg)) (h : s.thr i = ⟨(t.address, m) :: rest, .check⟩) :
    ∃ n, (sysRun io s (List.replicate n i)).bus = (transfer io s.bus t m).1 ∧
      (sysRun io s (List.replicate n i)).thr i = ⟨rest, .check⟩ := by
  unfold transfer ensureAddress
  by_cases h1 : s.bus.addr = t.address ∧ s.bus.log = true
  · refine ⟨2, ?_⟩
    simp only [if_pos h1]
    simp [sysRun, sysStep, h, h1]
    split <;> rfl
  · simp only [if_neg h1]
    by_cases h2 : (ioctlAddress io s.bus t.address).2 < 0 ∧ s.bus.log = true
    · refine ⟨2, ?_⟩
      simp only [if_pos h2]
      have h3 : ¬ s.bus.addr = t.address := fun e => h1 ⟨e, h2.2⟩
      simp [sysRun, sysStep, h, h3, h2]
    · refine ⟨4, ?_⟩
      simp only [if_neg h2]
      simp [sysRun, sysStep, h, h1, h2]
      split <;> rfl

/-- Two threads in the middle of calls use the same address. -/
def Agree (s : Sys σ) : Prop :=
  ∀ i j a b m n ri rj, (s.thr i).calls = (a, m) :: ri → (s.thr j).calls = (b, n) :: rj →
    (s.thr i).pos ≠ .check → (s.thr j).pos ≠ .check → a = b

/-- The schedule never interrupts a call by a call to another address. -/
def Apart (io : σ → Req → σ × Outcome) (s : Sys σ) : List Nat → Prop
  | [] => Agree s
  | i :: l => Agree s ∧ Apart io (sysStep io s i) l

/-- What holds under such schedules. -/
structure Quiet (s : Sys σ) : Prop where
  log : s.bus.log = true
  /-- The kernel has the address of every thread that relies on it. -/
  kernel : ∀ i a m r, (s.thr i).calls = (a, m) :: r → ((s.thr i).pos = .store ∨ (s.thr i).pos = .send) →
    s.bus.kernelAddr = a
  /-- The remembered address is the one of the kernel, or is just being stored. -/
  addr : s.bus.addr = s.bus.kernelAddr ∨ ∃ i a m r, (s.thr i).calls = (a, m) :: r ∧ (s.thr i).pos = .store
  done : s.bus.done = s.want

theorem quiet_step {io : σ → Req → σ × Outcome} (hl : Lockable io) {s : Sys σ} (hq : Quiet s) (i : Nat)
    (ha : Agree (sysStep io s i)) : Quiet (sysStep io s i) := by
  obtain ⟨q1, q2, q3, q4⟩ := hq
  rcases ht : s.thr i with ⟨calls, pos⟩
  rcases calls with _ | ⟨⟨a, m⟩, rest⟩
  · have e : sysStep io s i = s := by simp [sysStep, ht]
    rw [e]
    exact ⟨q1, q2, q3, q4⟩
  cases pos with
  | check =>
    by_cases h : s.bus.addr = a
    · have e : sysStep io s i =
          { s with thr := fun j => if j = i then ⟨(a, m) :: rest, .send⟩ else s.thr j } := by
        simp [sysStep, ht, h, q1]
      rw [e] at ha ⊢
      have hk : s.bus.kernelAddr = a := by
        rcases q3 with h3 | ⟨j, b, n, r, h3, h4⟩
        · rw [← h3, h]
        · have hj : j ≠ i := by rintro rfl; rw [ht] at h4; cases h4
          have := ha i j a b m n rest r (by simp) (by simp [hj, h3]) (by simp) (by simp [hj, h4])
          rw [this]
          exact q2 j b n r h3 (Or.inl h4)
      refine ⟨q1, ?_, ?_, q4⟩
      · intro j b n r hj hp
        by_cases hji : j = i
        · simp [hji] at hj
          obtain ⟨⟨rfl, -⟩, -⟩ := hj
          exact hk
        · simp [hji] at hj hp
          exact q2 j b n r hj hp
      · rcases q3 with h3 | ⟨j, b, n, r, h3, h4⟩
        · exact Or.inl h3
        · have hj : j ≠ i := by rintro rfl; rw [ht] at h4; cases h4
          exact Or.inr ⟨j, b, n, r, by simp [hj, h3], by simp [hj, h4]⟩
    · have e : sysStep io s i =
          { s with thr := fun j => if j = i then ⟨(a, m) :: rest, .set⟩ else s.thr j } := by
        simp [sysStep, ht, h]
      rw [e]
      refine ⟨q1, ?_, ?_, q4⟩
      · intro j b n r hj hp
        by_cases hji : j = i
        · simp [hji] at hp
        · simp [hji] at hj hp
          exact q2 j b n r hj hp
      · rcases q3 with h3 | ⟨j, b, n, r, h3, h4⟩
        · exact Or.inl h3
        · have hj : j ≠ i := by rintro rfl; rw [ht] at h4; cases h4
          exact Or.inr ⟨j, b, n, r, by simp [hj, h3], by simp [hj, h4]⟩
  | set =>
    rcases hr : io s.bus.env (.setAddress a) with ⟨e', o⟩
    have ho : o ≠ .threw := by have := hl s.bus.env (.setAddress a); rw [hr] at this; exact this
    cases o with
    | threw => exact absurd rfl ho
    | failed =>
      have e : sysStep io s i =
          { s with bus := { s.bus with env := e' }, thr := fun j => if j = i then ⟨rest, .check⟩ else s.thr j } := by
        simp [sysStep, ht, ioctlAddress, hr, Outcome.code, q1]
      rw [e]
      refine ⟨q1, ?_, ?_, q4⟩
      · intro j b n r hj hp
        by_cases hji : j = i
        · simp [hji] at hp
        · simp [hji] at hj hp
          exact q2 j b n r hj hp
      · rcases q3 with h3 | ⟨j, b, n, r, h3, h4⟩
        · exact Or.inl h3
        · have hj : j ≠ i := by rintro rfl; rw [ht] at h4; cases h4
          exact Or.inr ⟨j, b, n, r, by simp [hj, h3], by simp [hj, h4]⟩
    | ok d =>
      have e : sysStep io s i =
          { s with bus := { s.bus with env := e', kernelAddr := a },
                   thr := fun j => if j = i then ⟨(a, m) :: rest, .store⟩ else s.thr j } := by
        simp [sysStep, ht, ioctlAddress, hr, Outcome.code]
      rw [e] at ha ⊢
      refine ⟨q1, ?_, Or.inr ⟨i, a, m, rest, by simp, by simp⟩, q4⟩
      intro j b n r hj hp
      exact ha i j a b m n rest r (by simp) hj (by simp) (by
        intro hc
        rw [hc] at hp
        simp at hp)
  | store =>
    have e : sysStep io s i =
        { s with bus := { s.bus with addr := a },
                 thr := fun j => if j = i then ⟨(a, m) :: rest, .send⟩ else s.thr j } := by
      simp [sysStep, ht]
    rw [e]
    have hk := q2 i a m rest (by rw [ht]) (by rw [ht]; exact Or.inl rfl)
    refine ⟨q1, ?_, Or.inl hk.symm, q4⟩
    intro j b n r hj hp
    by_cases hji : j = i
    · simp [hji] at hj
      obtain ⟨⟨rfl, -⟩, -⟩ := hj
      exact hk
    · simp [hji] at hj hp
      exact q2 j b n r hj hp
  | send =>
    have hk := q2 i a m rest (by rw [ht]) (by rw [ht]; exact Or.inr rfl)
    rcases hr : io s.bus.env (.transfer m) with ⟨e', o⟩
    have ho : o ≠ .threw := by have := hl s.bus.env (.transfer m); rw [hr] at this; exact this
    have hthr : (sysStep io s i).thr = fun j => if j = i then ⟨rest, .check⟩ else s.thr j := by
      simp [sysStep, ht]
    have hbus : (sysStep io s i).bus.log = s.bus.log ∧ (sysStep io s i).bus.kernelAddr = s.bus.kernelAddr ∧
        (sysStep io s i).bus.addr = s.bus.addr ∧ (sysStep io s i).bus.done = (sysStep io s i).want := by
      cases o with
      | threw => exact absurd rfl ho
      | failed => simp [sysStep, ht, ioctlTransfer, hr, Outcome.code, q4]
      | ok d => simp [sysStep, ht, ioctlTransfer, hr, q4, hk]
    obtain ⟨b1, b2, b3, b4⟩ := hbus
    refine ⟨by rw [b1]; exact q1, ?_, ?_, b4⟩
    · intro j b n r hj hp
      rw [hthr] at hj hp
      rw [b2]
      by_cases hji : j = i
      · simp [hji] at hp
      · simp [hji] at hj hp
        exact q2 j b n r hj hp
    · rw [b2, b3, hthr]
      rcases q3 with h3 | ⟨j, b, n, r, h3, h4⟩
      · exact Or.inl h3
      · have hj : j ≠ i := by rintro rfl; rw [ht] at h4; cases h4
        exact Or.inr ⟨j, b, n, r, by simp [hj, h3], by simp [hj, h4]⟩

theorem apart_head {io : σ → Req → σ × Outcome} {s : Sys σ} {l : List Nat} (h : Apart io s l) : Agree s := by
  cases l with
  | nil => exact h
  | cons _ _ => exact h.1

theorem quiet_run {io : σ → Req → σ × Outcome} (hl : Lockable io) : ∀ (l : List Nat) (s : Sys σ), Quiet s →
    Apart io s l → Quiet (sysRun io s l) := by
  intro l
  induction l with
  | nil => intro s h _; exact h
  | cons i l ih => intro s h ha; exact ih _ (quiet_step hl h i (apart_head ha.2)) ha.2

/-- C55, the part that holds: any number of threads, any schedule in which calls that overlap use the
same address; address or transfer may fail at any time.  Every message carried out went to its own
target.  Missing: overlapping calls to different addresses (`C55_violated`). -/
theorem C55_apart_partial (io : σ → Req → σ × Outcome) (hl : Lockable io) (e : σ)
    (calls : Nat → List (Nat × Msg)) (schedule : List Nat) (ha : Apart io (startSys e calls) schedule) :
    (sysRun io (startSys e calls) schedule).bus.done = (sysRun io (startSys e calls) schedule).want :=
  (quiet_run hl schedule _ ⟨rfl, fun i a m r _ h => by simp [startSys] at h, Or.inl rfl, rfl⟩ ha).done

theorem agree_one {s : Sys σ} (k : Nat) (h : ∀ i, i ≠ k → (s.thr i).pos = .check) : Agree s := by
  intro i j a b m n ri rj h1 h2 h3 h4
  have hi : i = k := by
    by_contra hc
    exact h3 (h i hc)
  have hj : j = k := by
    by_contra hc
    exact h4 (h j hc)
  subst hi hj
  rw [h1] at h2
  simp at h2
  exact h2.1.1

/-- The hypotheses can be met: two threads with different targets, one call after the other. -/
example : Apart (fun s _ => (s, Outcome.ok [])) (startSys () (fun i =>
    if i = 0 then [(1, ⟨false, 7, 0, []⟩)] else if i = 1 then [(2, ⟨false, 8, 0, []⟩)] else []))
    [0, 0, 0, 0, 1, 1, 1, 1] := by
  refine ⟨agree_one 0 ?_, agree_one 0 ?_, agree_one 0 ?_, agree_one 0 ?_, agree_one 1 ?_, agree_one 1 ?_,
    agree_one 1 ?_, agree_one 1 ?_, agree_one 1 ?_⟩ <;> intro i hi <;>
    simp [startSys, sysStep, fresh, ioctlAddress, ioctlTransfer, Outcome.code, hi] <;>
    by_cases h : i = 0 <;> simp [h]

/-- C55, one target: if all threads use the same address, any schedule will do. -/
theorem C55_one_target (io : σ → Req → σ × Outcome) (hl : Lockable io) (e : σ) (a : Nat)
    (calls : Nat → List (Nat × Msg)) (h : ∀ i, ∀ c ∈ calls i, c.1 = a) (schedule : List Nat) :
    (sysRun io (startSys e calls) schedule).bus.done = (sysRun io (startSys e calls) schedule).want := by
  refine C55_apart_partial io hl e calls schedule ?_
  have gen : ∀ (l : List Nat) (s : Sys σ), (∀ i, ∀ c ∈ (s.thr i).calls, c.1 = a) → Apart io s l := by
    intro l
    induction l with
    | nil =>
      intro s hs i j b c m n ri rj h1 h2 _ _
      have e1 := hs i (b, m) (by rw [h1]; simp)
      have e2 := hs j (c, n) (by rw [h2]; simp)
      simp only at e1 e2
      rw [e1, e2]
    | cons k l ih =>
      intro s hs
      refine ⟨?_, ih _ ?_⟩
      · intro i j b c m n ri rj h1 h2 _ _
        have e1 := hs i (b, m) (by rw [h1]; simp)
        have e2 := hs j (c, n) (by rw [h2]; simp)
        simp only at e1 e2
        rw [e1, e2]
      · intro i c hc
        apply hs i c
        have hsub : ∀ c ∈ ((sysStep io s k).thr i).calls, c ∈ (s.thr i).calls := by
          intro c hc
          rcases ht : s.thr k with ⟨cs, pos⟩
          by_cases hik : i = k
          · subst hik
            rcases cs with _ | ⟨⟨b, m⟩, rest⟩
            · simp [sysStep, ht] at hc
            · cases pos <;> simp only [sysStep, ht] at hc ⊢ <;> (try split at hc) <;> simp at hc ⊢ <;> tauto
          · rcases cs with _ | ⟨⟨b, m⟩, rest⟩
            · simpa [sysStep, ht] using hc
            · cases pos <;> simp only [sysStep, ht] at hc ⊢ <;> (try split at hc) <;> (try simp [hik] at hc) <;> tauto
        exact hsub c hc
  exact gen schedule _ h

/-- C55 is violated: the address set by one thread is overwritten by the other before the transfer. -/
theorem C55_violated (e : σ) : ¬ C55Full σ := by
  intro h
  have := h (fun s _ => (s, Outcome.ok [])) (by intro s r; simp) e
    (fun i => if i = 0 then [(1, ⟨false, 0, 0, []⟩)] else [(2, ⟨false, 0, 0, []⟩)]) [0, 0, 0, 1, 1, 0]
  simp [sysRun, startSys, sysStep, fresh, ioctlAddress, ioctlTransfer, Outcome.code] at this

/-- Worse, the mix-up lasts: two threads set their addresses at the same time, after which the object
remembers one address and the kernel has the other.  From then on every message of the first thread,
alone on the bus, goes to the target of the second, and is reported as sent, however many there are. -/
theorem C55_violated_lasting (e : σ) (a b : Nat) (ha : a ≠ 0) (hb : b ≠ 0) (m n : Msg)
    (l : List Msg) :
    ∃ schedule : List Nat,
      (sysRun (fun s _ => (s, Outcome.ok [])) (startSys e (fun i =>
          if i = 0 then (a, m) :: l.map (fun m => (a, m)) else if i = 1 then [(b, n)] else [])) schedule).bus.done
        = (b, n) :: (b, m) :: l.map (fun m => (b, m)) ∧
      (sysRun (fun s _ => (s, Outcome.ok [])) (startSys e (fun i =>
          if i = 0 then (a, m) :: l.map (fun m => (a, m)) else if i = 1 then [(b, n)] else [])) schedule).want
        = (b, n) :: (a, m) :: l.map (fun m => (a, m)) := by
  have gen : ∀ (l : List Msg) (s : Sys σ), s.bus.addr = a → s.bus.log = true → s.bus.kernelAddr = b →
      s.thr 0 = ⟨l.map (fun m => (a, m)), .check⟩ →
      ∃ k, (sysRun (fun s _ => (s, Outcome.ok [])) s (List.replicate k 0)).bus.done
          = s.bus.done ++ l.map (fun m => (b, m)) ∧
        (sysRun (fun s _ => (s, Outcome.ok [])) s (List.replicate k 0)).want
          = s.want ++ l.map (fun m => (a, m)) := by
    intro l
    induction l with
    | nil => intro s _ _ _ _; exact ⟨0, by simp [sysRun]⟩
    | cons x l ih =>
      intro s h1 h2 h3 h4
      obtain ⟨k, h5, h6⟩ := ih (sysStep (fun s _ => (s, Outcome.ok [])) (sysStep (fun s _ => (s, Outcome.ok [])) s 0) 0)
        (by simp [sysStep, h4, h1, h2, ioctlTransfer]) (by simp [sysStep, h4, h1, h2, ioctlTransfer])
        (by simp [sysStep, h4, h1, h2, h3, ioctlTransfer]) (by simp [sysStep, h4, h1, h2])
      refine ⟨k + 2, ?_⟩
      have e2 : List.replicate (k + 2) (0 : Nat) = 0 :: 0 :: List.replicate k 0 := rfl
      rw [e2]
      simp only [sysRun, List.foldl_cons] at h5 h6 ⊢
      rw [h5, h6]
      simp [sysStep, h4, h1, h2, h3, ioctlTransfer]
  obtain ⟨k, h1, h2⟩ := gen l (sysRun (fun s _ => (s, Outcome.ok [])) (startSys e (fun i =>
      if i = 0 then (a, m) :: l.map (fun m => (a, m)) else if i = 1 then [(b, n)] else [])) [0, 0, 1, 1, 1, 0, 1, 0])
    (by simp [sysRun, startSys, sysStep, fresh, ioctlAddress, ioctlTransfer, Outcome.code, Ne.symm ha, Ne.symm hb])
    (by simp [sysRun, startSys, sysStep, fresh, ioctlAddress, ioctlTransfer, Outcome.code, Ne.symm ha, Ne.symm hb])
    (by simp [sysRun, startSys, sysStep, fresh, ioctlAddress, ioctlTransfer, Outcome.code, Ne.symm ha, Ne.symm hb])
    (by simp [sysRun, startSys, sysStep, fresh, ioctlAddress, ioctlTransfer, Outcome.code, Ne.symm ha, Ne.symm hb])
  refine ⟨[0, 0, 1, 1, 1, 0, 1, 0] ++ List.replicate k 0, ?_⟩
  unfold sysRun at h1 h2 ⊢
  rw [List.foldl_append, h1, h2]
  simp [startSys, sysStep, fresh, ioctlAddress, ioctlTransfer, Outcome.code, Ne.symm ha, Ne.symm hb]

end Abc.Smbus
