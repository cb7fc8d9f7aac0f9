import Verif.Ascii.Model
import Mathlib.Tactic.ByContra

/-!
# C33: shutdown of `endpoint` (`src/endpoint.h` 105-170, 334-342)

Interleaving semantics of any number of request threads running `process_request`.  Each step is one
access to a shared variable (`_is_shutdown_requested`, `_requests_in_progress`, `_promise`; the first
two are atomics).  What the handler does with the connection is not modelled, except for requesting the
shutdown.
-/

namespace Abc.Endpoint.Shutdown

/-- Where a request thread is in `process_request`. -/
inductive Pc where
  /-- reading the request line (112-130) -/
  | reading
  /-- past `if (_is_shutdown_requested) return;` (133-135) -/
  | checked
  /-- past `++_requests_in_progress` (137): handling the request -/
  | handling
  /-- handled and flushed (142-150) -/
  | handled
  /-- past `--_requests_in_progress`, which gave 0 (157, left operand of `&&`) -/
  | decremented
  /-- past `_is_shutdown_requested` of 157, which was true -/
  | setting
  /-- returned -/
  | done
deriving DecidableEq, Repr

/-- Shared state and threads; `asks[i]` tells whether request `i` is a shutdown request. -/
structure State where
  shutdown : Bool
  inProgress : Nat
  promiseSets : Nat
  pcs : List Pc
deriving DecidableEq, Repr

/-- Any number of requests have arrived. -/
def init (n : Nat) : State := ⟨false, 0, 0, List.replicate n .reading⟩

/-- Thread `i` makes its next step. -/
def step (asks : Nat → Bool) (s : State) (i : Nat) : State :=
  match s.pcs[i]? with
  | none => s
  | some .reading => { s with pcs := s.pcs.set i (if s.shutdown then .done else .checked) }
  | some .checked => { s with inProgress := s.inProgress + 1, pcs := s.pcs.set i .handling }
  | some .handling => { s with shutdown := s.shutdown || asks i, pcs := s.pcs.set i .handled }
  | some .handled =>
    { s with inProgress := s.inProgress - 1, pcs := s.pcs.set i (if s.inProgress - 1 = 0 then .decremented else .done) }
  | some .decremented => { s with pcs := s.pcs.set i (if s.shutdown then .setting else .done) }
  | some .setting => { s with promiseSets := s.promiseSets + 1, pcs := s.pcs.set i .done }
  | some .done => s

/-- A schedule is the list of the threads that make a step. -/
def run (asks : Nat → Bool) (schedule : List Nat) (s : State) : State := schedule.foldl (step asks) s

/-- All requests have been served. -/
def AllDone (s : State) : Prop := ∀ p ∈ s.pcs, p = .done

/-- Requests that are being served and will send a response. -/
def InFlight (p : Pc) : Prop := p = .checked ∨ p = .handling ∨ p = .handled

/-- A schedule in which no other thread runs between the check of the flag and the increment, and
between the decrement and the second check. -/
def Uninterrupted (asks : Nat → Bool) (s : State) : List Nat → Prop
  | [] => True
  | i :: rest =>
    (∀ j, s.pcs[j]? = some Pc.checked ∨ s.pcs[j]? = some Pc.decremented ∨ s.pcs[j]? = some Pc.setting → i = j) ∧
      Uninterrupted asks (step asks s i) rest

/-! ## Proofs -/

private def counted (p : Pc) : Bool := p = .handling || p = .handled

private def cnt (l : List Pc) : Nat := l.countP counted

private theorem cnt_set {l : List Pc} {i : Nat} {p q : Pc} (h : l[i]? = some p) :
    cnt (l.set i q) + (if counted p then 1 else 0) = cnt l + (if counted q then 1 else 0) := by
  unfold cnt
  induction l generalizing i with
  | nil => simp at h
  | cons a l ih =>
    cases i with
    | zero =>
      simp only [List.getElem?_cons_zero, Option.some.injEq] at h; subst h
      simp only [List.set_cons_zero, List.countP_cons]; omega
    | succ i =>
      simp only [List.getElem?_cons_succ] at h
      have := ih h
      simp only [List.set_cons_succ, List.countP_cons]; omega

private theorem mem_of_get {l : List Pc} {i : Nat} {p : Pc} (h : l[i]? = some p) : p ∈ l := by
  exact List.mem_of_getElem? h

private theorem set_mem {l : List Pc} {i : Nat} {q x : Pc} (h : x ∈ l.set i q) : x = q ∨ x ∈ l := by
  rcases List.mem_or_eq_of_mem_set h with h | h
  · exact Or.inr h
  · exact Or.inl h

private theorem mem_set_self {l : List Pc} {i : Nat} {p q : Pc} (h : l[i]? = some p) : q ∈ l.set i q := by
  have : i < l.length := by
    by_contra hc; rw [List.getElem?_eq_none (by omega)] at h; simp at h
  rw [List.mem_iff_getElem?]; exact ⟨i, by rw [List.getElem?_set_self this]⟩

private theorem mem_set_of_ne {l : List Pc} {i : Nat} {p q x : Pc} (h : l[i]? = some p) (hx : x ∈ l) (hne : x ≠ p) : x ∈ l.set i q := by
  obtain ⟨j, hj⟩ := List.mem_iff_getElem?.1 hx
  have hij : i ≠ j := by rintro rfl; rw [h] at hj; exact hne (Option.some.inj hj).symm
  exact List.mem_iff_getElem?.2 ⟨j, by rw [List.getElem?_set_ne hij]; exact hj⟩

private theorem cnt_pos {l : List Pc} {p : Pc} (h : p ∈ l) (hc : counted p = true) : 0 < cnt l := by
  unfold cnt; rw [List.countP_pos_iff]; exact ⟨p, h, hc⟩

/-- Invariant of every schedule. -/
private def Inv (s : State) : Prop :=
  s.inProgress = cnt s.pcs ∧
  (s.shutdown = true → 0 < s.promiseSets ∨ 0 < s.inProgress ∨ .decremented ∈ s.pcs ∨ .setting ∈ s.pcs) ∧
  (0 < s.promiseSets ∨ .setting ∈ s.pcs → s.shutdown = true)

private theorem inv_step (asks : Nat → Bool) (s : State) (i : Nat) (h : Inv s) : Inv (step asks s i) := by
  obtain ⟨h1, h2, h3⟩ := h
  unfold step
  cases hp : s.pcs[i]? with
  | none => exact ⟨h1, h2, h3⟩
  | some p =>
    have hm := mem_of_get hp
    cases p with
    | reading =>
      have hc := cnt_set (q := if s.shutdown then .done else .checked) hp
      have hq : counted (if s.shutdown then .done else .checked) = false := by cases s.shutdown <;> rfl
      rw [hq] at hc
      simp only [counted] at hc
      refine ⟨by simp at hc; simp only; omega, fun hs => ?_, fun hs => ?_⟩
      · rcases h2 hs with a | a | a | a
        · exact Or.inl a
        · exact Or.inr (Or.inl a)
        · exact Or.inr (Or.inr (Or.inl (mem_set_of_ne hp a (by simp))))
        · exact Or.inr (Or.inr (Or.inr (mem_set_of_ne hp a (by simp))))
      · rcases hs with a | a
        · exact h3 (Or.inl a)
        · rcases set_mem a with a | a
          · cases hsd : s.shutdown <;> rw [hsd] at a <;> simp at a
          · exact h3 (Or.inr a)
    | checked =>
      have hc := cnt_set (q := .handling) hp
      simp [counted] at hc
      refine ⟨by simp only; omega, fun hs => Or.inr (Or.inl (by simp only; omega)), fun hs => ?_⟩
      rcases hs with a | a
      · exact h3 (Or.inl a)
      · rcases set_mem a with a | a
        · simp at a
        · exact h3 (Or.inr a)
    | handling =>
      have hc := cnt_set (q := .handled) hp
      simp [counted] at hc
      have hpos := cnt_pos hm (by rfl)
      refine ⟨by simp only; omega, fun _ => Or.inr (Or.inl (by simp only; omega)), fun hs => ?_⟩
      simp only [Bool.or_eq_true]
      left
      rcases hs with a | a
      · exact h3 (Or.inl a)
      · rcases set_mem a with a | a
        · simp at a
        · exact h3 (Or.inr a)
    | handled =>
      have hpos := cnt_pos hm (by rfl)
      have hc := cnt_set (q := if s.inProgress - 1 = 0 then .decremented else .done) hp
      have hq : counted (if s.inProgress - 1 = 0 then .decremented else .done) = false := by split <;> rfl
      rw [hq] at hc
      simp [counted] at hc
      refine ⟨by simp only; omega, fun hs => ?_, fun hs => ?_⟩
      · by_cases hz : s.inProgress - 1 = 0
        · refine Or.inr (Or.inr (Or.inl ?_))
          simp only [hz, if_true]
          exact mem_set_self hp
        · exact Or.inr (Or.inl (by simp only; omega))
      · rcases hs with a | a
        · exact h3 (Or.inl a)
        · rcases set_mem a with a | a
          · split at a <;> simp at a
          · exact h3 (Or.inr a)
    | decremented =>
      have hc := cnt_set (q := if s.shutdown then .setting else .done) hp
      have hq : counted (if s.shutdown then .setting else .done) = false := by cases s.shutdown <;> rfl
      rw [hq] at hc
      simp [counted] at hc
      refine ⟨by simp only; omega, fun hs => ?_, fun hs => ?_⟩
      · refine Or.inr (Or.inr (Or.inr ?_))
        simp only at hs
        simp only [hs, if_true]
        exact mem_set_self hp
      · rcases hs with a | a
        · exact h3 (Or.inl a)
        · rcases set_mem a with a | a
          · cases hsd : s.shutdown <;> rw [hsd] at a <;> simp at a
          · exact h3 (Or.inr a)
    | setting =>
      have hc := cnt_set (q := .done) hp
      simp [counted] at hc
      exact ⟨by simp only; omega, fun _ => Or.inl (by simp), fun _ => h3 (Or.inr hm)⟩
    | done => exact ⟨h1, h2, h3⟩

private theorem inv_init (n : Nat) : Inv (init n) := by
  refine ⟨?_, by simp [init], ?_⟩
  · simp only [init, cnt]
    symm
    rw [List.countP_eq_zero]
    intro a ha; simp at ha; simp [ha.2, counted]
  · simp [init]

private theorem inv_run (asks : Nat → Bool) (sch : List Nat) : ∀ s, Inv s → Inv (run asks sch s) := by
  induction sch with
  | nil => intro s h; exact h
  | cons i sch ih => intro s h; exact ih _ (inv_step asks s i h)

/-- C33, the part that holds for every schedule of any number of requests: the future becomes ready
only if a shutdown was requested, and once all requests have been served after a shutdown request it
has become ready (at least once).
Missing: at most once, and not before in-flight requests are served (`shutdown_violated_twice`,
`shutdown_violated_in_flight`, `shutdown_violated_second_race`). -/
theorem shutdown_partial (asks : Nat → Bool) (n : Nat) (schedule : List Nat) :
    let s := run asks schedule (init n)
    (0 < s.promiseSets → s.shutdown = true) ∧ (AllDone s → s.shutdown = true → 0 < s.promiseSets) := by
  intro s
  obtain ⟨h1, h2, h3⟩ := inv_run asks schedule (init n) (inv_init n)
  refine ⟨fun h => h3 (Or.inl h), fun hd hs => ?_⟩
  rcases h2 hs with a | a | a | a
  · exact a
  · exfalso
    rw [h1] at a
    unfold cnt at a
    rw [List.countP_pos_iff] at a
    obtain ⟨p, hp, hc⟩ := a
    rw [hd p hp] at hc
    simp [counted] at hc
  · have := hd _ a; simp at this
  · have := hd _ a; simp at this

/-- Two requests, the second one asking for shutdown, served one after the other. -/
example : (run (fun i => i == 1) [0, 0, 0, 0, 0, 1, 1, 1, 1, 1, 1] (init 2)) = ⟨true, 0, 1, [.done, .done]⟩ := by decide

/-- C33 is violated: request 0 passes the check, request 1 shuts down and completes the promise; then
request 0 completes it again (which throws). -/
theorem shutdown_violated_twice :
    ∃ schedule, (run (fun i => i == 1) schedule (init 2)).promiseSets = 2 :=
  ⟨[0, 1, 1, 1, 1, 1, 1, 0, 0, 0, 0, 0], by decide⟩

/-- C33 is violated: the future becomes ready while a request is still in flight. -/
theorem shutdown_violated_in_flight :
    ∃ schedule, (run (fun i => i == 1) schedule (init 2)).promiseSets = 1 ∧
      ∃ p ∈ (run (fun i => i == 1) schedule (init 2)).pcs, InFlight p :=
  ⟨[0, 1, 1, 1, 1, 1, 1], by decide, .checked, by decide, Or.inl rfl⟩

/-- The second race alone (between the decrement and the second check) is enough. -/
theorem shutdown_violated_second_race :
    ∃ schedule, (run (fun i => i == 1) schedule (init 2)).promiseSets = 2 :=
  ⟨[0, 0, 0, 0, 1, 1, 1, 1, 1, 1, 0, 0], by decide⟩

/-- C33 under uninterrupted schedules: the future becomes ready at most once, and when it does no
request is in flight. -/
theorem shutdown_uninterrupted_partial (asks : Nat → Bool) (n : Nat) (schedule : List Nat)
    (hu : Uninterrupted asks (init n) schedule) :
    let s := run asks schedule (init n)
    s.promiseSets ≤ 1 ∧ (s.promiseSets = 1 → ∀ p ∈ s.pcs, ¬ InFlight p) := by
  -- strengthened invariant
  have gen : ∀ (sch : List Nat) (s : State), Inv s →
      (s.promiseSets ≤ 1 ∧ (s.promiseSets = 1 → ∀ p ∈ s.pcs, p = .reading ∨ p = .done) ∧
        (∀ j : Nat, s.pcs[j]? = some Pc.decremented ∨ s.pcs[j]? = some Pc.setting → s.promiseSets = 0 ∧
          ∀ k : Nat, k ≠ j → s.pcs[k]? = none ∨ s.pcs[k]? = some Pc.reading ∨ s.pcs[k]? = some Pc.done)) →
      Uninterrupted asks s sch →
      ((run asks sch s).promiseSets ≤ 1 ∧ ((run asks sch s).promiseSets = 1 → ∀ p ∈ (run asks sch s).pcs, p = .reading ∨ p = .done)) := by
    intro sch
    induction sch with
    | nil => intro s _ h _; exact ⟨h.1, h.2.1⟩
    | cons i sch ih =>
      intro s hinv ⟨h1, h2, h3⟩ ⟨hu1, hu2⟩
      refine ih (step asks s i) (inv_step asks s i hinv) ?_ hu2
      obtain ⟨i1, i2, i3⟩ := hinv
      -- while someone is between decrement and set, only that thread moves
      unfold step
      cases hp : s.pcs[i]? with
      | none => exact ⟨h1, h2, h3⟩
      | some p =>
        have hm := mem_of_get hp
        have hlt : i < s.pcs.length := by
          by_contra hc; rw [List.getElem?_eq_none (by omega)] at hp; simp at hp
        have get_self : ∀ q, (s.pcs.set i q)[i]? = some q := fun q => by rw [List.getElem?_set_self hlt]
        have get_ne : ∀ (q : Pc) (j : Nat), j ≠ i → (s.pcs.set i q)[j]? = s.pcs[j]? := fun q j hj => by rw [List.getElem?_set_ne (Ne.symm hj)]
        -- if someone else is in the critical part, it is `i`
        have crit : ∀ j : Nat, s.pcs[j]? = some Pc.decremented ∨ s.pcs[j]? = some Pc.setting → j = i := by
          intro j hj; exact (hu1 j (by rcases hj with a | a <;> simp [a])).symm
        cases p with
        | reading =>
          have nocrit : ∀ j : Nat, ¬ (s.pcs[j]? = some Pc.decremented ∨ s.pcs[j]? = some Pc.setting) := by
            intro j hj; have := crit j hj; subst this; rw [hp] at hj; simp at hj
          refine ⟨h1, fun hs p hpm => ?_, fun j hj => ?_⟩
          · have hsd : s.shutdown = true := i3 (Or.inl (by simp only at hs; omega))
            simp only [hsd, if_true] at hpm
            rcases set_mem hpm with a | a
            · exact Or.inr a
            · exact h2 hs p a
          · exfalso
            by_cases hji : j = i
            · subst hji; simp only [get_self] at hj
              cases hsd : s.shutdown <;> simp [hsd] at hj
            · simp only [get_ne _ _ hji] at hj; exact nocrit j hj
        | checked =>
          have nocrit : ∀ j : Nat, ¬ (s.pcs[j]? = some Pc.decremented ∨ s.pcs[j]? = some Pc.setting) := by
            intro j hj; have := crit j hj; subst this; rw [hp] at hj; simp at hj
          refine ⟨h1, fun hs p hpm => ?_, fun j hj => ?_⟩
          · have := h2 hs _ hm; simp at this
          · exfalso
            by_cases hji : j = i
            · subst hji; simp only [get_self] at hj; simp at hj
            · simp only [get_ne _ _ hji] at hj; exact nocrit j hj
        | handling =>
          have nocrit : ∀ j : Nat, ¬ (s.pcs[j]? = some Pc.decremented ∨ s.pcs[j]? = some Pc.setting) := by
            intro j hj; have := crit j hj; subst this; rw [hp] at hj; simp at hj
          refine ⟨h1, fun hs p hpm => ?_, fun j hj => ?_⟩
          · have := h2 hs _ hm; simp at this
          · exfalso
            by_cases hji : j = i
            · subst hji; simp only [get_self] at hj; simp at hj
            · simp only [get_ne _ _ hji] at hj; exact nocrit j hj
        | handled =>
          have nocrit : ∀ j : Nat, ¬ (s.pcs[j]? = some Pc.decremented ∨ s.pcs[j]? = some Pc.setting) := by
            intro j hj; have := crit j hj; subst this; rw [hp] at hj; simp at hj
          have hps : s.promiseSets = 0 := by
            by_contra hc
            have := h2 (by omega) _ hm; simp at this
          refine ⟨h1, fun hs p hpm => by simp only at hs; omega, fun j hj => ?_⟩
          have hji : j = i := by
            by_contra hji; simp only [get_ne _ _ hji] at hj; exact nocrit j hj
          subst hji
          simp only [get_self] at hj
          have hz : s.inProgress - 1 = 0 := by
            by_contra hz; simp [hz] at hj
          refine ⟨hps, fun k hk => ?_⟩
          simp only [get_ne _ _ hk]
          -- nobody else is counted, nobody is at `checked`
          cases hpk : s.pcs[k]? with
          | none => exact Or.inl rfl
          | some q =>
            right
            have hc := cnt_set (q := .done) hp
            simp [counted] at hc
            have hkm : q ∈ s.pcs.set j .done := List.mem_iff_getElem?.2 ⟨k, by rw [get_ne _ _ hk]; exact hpk⟩
            have hq0 : counted q = false := by
              cases hcq : counted q with
              | false => rfl
              | true => have := cnt_pos hkm hcq; omega
            cases q with
            | reading => exact Or.inl rfl
            | done => exact Or.inr rfl
            | checked => exact absurd (hu1 k (Or.inl hpk)).symm hk
            | decremented => exact absurd (Or.inl hpk) (nocrit k)
            | setting => exact absurd (Or.inr hpk) (nocrit k)
            | handling => simp [counted] at hq0
            | handled => simp [counted] at hq0
        | decremented =>
          obtain ⟨h0, hothers⟩ := h3 i (Or.inl hp)
          refine ⟨h1, fun hs => by simp only at hs; omega, fun j hj => ?_⟩
          have hji : j = i := by
            by_contra hji; simp only [get_ne _ _ hji] at hj; exact hji (crit j hj)
          subst hji
          exact ⟨h0, fun k hk => by simp only [get_ne _ _ hk]; exact hothers k hk⟩
        | setting =>
          obtain ⟨h0, hothers⟩ := h3 i (Or.inr hp)
          refine ⟨by simp only; omega, fun _ p hpm => ?_, fun j hj => ?_⟩
          · obtain ⟨k, hk⟩ := List.mem_iff_getElem?.1 hpm
            simp only at hk
            by_cases hki : k = i
            · subst hki; rw [get_self] at hk; right; exact (Option.some.inj hk).symm
            · rw [get_ne _ _ hki] at hk
              rcases hothers k hki with a | a | a
              · rw [a] at hk; simp at hk
              · rw [a] at hk; left; exact (Option.some.inj hk).symm
              · rw [a] at hk; right; exact (Option.some.inj hk).symm
          · exfalso
            by_cases hji : j = i
            · subst hji; simp only [get_self] at hj; simp at hj
            · simp only [get_ne _ _ hji] at hj; exact hji (crit j hj)
        | done => exact ⟨h1, h2, h3⟩
  intro s
  have hinit : ∀ p ∈ (init n).pcs, p = .reading := by intro p hp; simp [init] at hp; exact hp.2
  obtain ⟨a, b⟩ := gen schedule (init n) (inv_init n) ⟨by simp [init], by simp [init], fun j hj => by
    exfalso
    rcases hj with a | a <;> · have := hinit _ (mem_of_get a); simp at this⟩ hu
  refine ⟨a, fun h1 p hp hin => ?_⟩
  rcases b h1 p hp with e | e <;> subst e <;> rcases hin with x | x | x <;> simp at x

/-- A schedule meeting the hypothesis, in which two requests overlap. -/
example : Uninterrupted (fun i => i == 1) (init 2) [0, 0, 1, 1, 1, 0, 1, 0, 0, 0] := by
  have h : ∀ (s : State) (i : Nat), (∀ j < s.pcs.length, s.pcs[j]? = some Pc.checked ∨ s.pcs[j]? = some Pc.decremented ∨ s.pcs[j]? = some Pc.setting → i = j) →
      (∀ j, s.pcs[j]? = some Pc.checked ∨ s.pcs[j]? = some Pc.decremented ∨ s.pcs[j]? = some Pc.setting → i = j) := by
    intro s i hh j hj
    by_cases hl : j < s.pcs.length
    · exact hh j hl hj
    · rw [List.getElem?_eq_none (by omega)] at hj; simp at hj
  refine ⟨h _ _ (by decide), h _ _ (by decide), h _ _ (by decide), h _ _ (by decide), h _ _ (by decide), h _ _ (by decide),
    h _ _ (by decide), h _ _ (by decide), h _ _ (by decide), h _ _ (by decide), trivial⟩

end Abc.Endpoint.Shutdown
