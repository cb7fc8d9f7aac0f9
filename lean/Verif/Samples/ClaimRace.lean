/-!
# Seats claimed at the same time

Every request runs in a thread of its own (`src/endpoint.h` 69-97), and nothing is locked in the two games. Here `endpoint_game::claim_player`
(`samples/tictactoe/game.h` 629-652, `samples/connect4/game.h` 848-871, the same text) is taken apart into its single accesses: the test of `is_claimed`, the
read of the number of the seat, the write of `is_claimed`, the two reads that find out whether the game can start, and the call of `start()`.

Simplifications: one game, which is not replaced meanwhile (for that see `Samples/GameSlots.lean`); it is not a game between two engines, which is started by
`endpoint_game::reset` itself (623-625); every access acts at once and in the order of the text. Of `start()` (533-545) there is only that it was called: each call
makes the engine of the player to move, if it is an engine, think in a thread of its own.
-/

namespace Abc.ClaimRace

inductive Seat where
  | x | o
deriving DecidableEq, Repr

/-- Where a thread is in `claim_player` (lines of tic-tac-toe): before the test of `is_claimed` (631, 639), before reading the number (635, 643), before writing
`is_claimed` (636, 644), before reading that of X (647), before reading that of O (647), before `start()` (648). -/
inductive Pc where
  | test | read | set | seeX | seeO | start
deriving DecidableEq, Repr

/-- A request for a seat; `got` is `endpoint_player_id`, the variable of the caller (1009). -/
structure Thr where
  seat : Seat
  pc : Pc
  got : Nat
deriving DecidableEq, Repr

/-- The two `is_claimed`, the threads, the calls of `start()`; and the answers: the seat asked for and the number given, or a refusal (403). -/
structure St where
  claimed : Seat → Bool
  thr : Nat → Option Thr
  answers : List (Seat × Option Nat)
  starts : Nat

/-- Thread `k` is asked for a seat, or makes a step. -/
inductive Ev where
  | claim (k : Nat) (s : Seat)
  | step (k : Nat)
deriving DecidableEq

def setThr (f : Nat → Option Thr) (k : Nat) (t : Option Thr) : Nat → Option Thr := fun j => if j = k then t else f j

def St.goto (st : St) (k : Nat) (t : Thr) (pc : Pc) : St := { st with thr := setThr st.thr k (some { t with pc := pc }) }

def St.ret (st : St) (k : Nat) (t : Thr) (r : Option Nat) : St :=
  { st with thr := setThr st.thr k none, answers := st.answers ++ [(t.seat, r)] }

/-- A step of a thread in `claim_player`: `tictactoe/game.h` 629-652. `ids` are the numbers of the seats (618, 620). -/
def stepThr (ids : Seat → Nat) (st : St) (k : Nat) (t : Thr) : St :=
  match t.pc with
  | .test => if st.claimed t.seat then st.ret k t none else st.goto k t .read
  | .read => { st with thr := setThr st.thr k (some { t with pc := .set, got := ids t.seat }) }
  | .set => { st.goto k t .seeX with claimed := fun s => if s = t.seat then true else st.claimed s }
  | .seeX => if st.claimed .x then st.goto k t .seeO else st.ret k t (some t.got)
  | .seeO => if st.claimed .o then st.goto k t .start else st.ret k t (some t.got)
  | .start => { st.ret k t (some t.got) with starts := st.starts + 1 }

def step (ids : Seat → Nat) (st : St) : Ev → St
  | .claim k s => match st.thr k with
    | some _ => st
    | none => { st with thr := setThr st.thr k (some ⟨s, .test, 0⟩) }
  | .step k => match st.thr k with
    | none => st
    | some t => stepThr ids st k t

/-- After `endpoint_game::reset` (617-621): the seats of engines, those with number 0, are claimed. -/
def init (ids : Seat → Nat) : St := ⟨fun s => ids s == 0, fun _ => none, [], 0⟩

/-- The states after the events of a list, the latest event first. -/
def hist (ids : Seat → Nat) : List Ev → St
  | [] => init ids
  | e :: es => step ids (hist ids es) e

/-! ## What the statements speak of -/

/-- How many clients were given a seat. -/
def given (st : St) (s : Seat) : Nat := st.answers.countP (fun a => decide (a.1 = s) && a.2.isSome)

/-- No request is under way. -/
def Idle (st : St) : Prop := ∀ k, st.thr k = none

/-- A property of all events of a history, in the states in which they happen. -/
def All (ids : Seat → Nat) (P : St → Ev → Prop) : List Ev → Prop
  | [] => True
  | e :: es => P (hist ids es) e ∧ All ids P es

/-- No seat is claimed while another claim of the same seat is under way. -/
def Single (st : St) : Ev → Prop
  | .claim _ s => ∀ j t, st.thr j = some t → t.seat ≠ s
  | .step _ => True

/-- Nothing is claimed while another claim is under way. -/
def Alone (st : St) : Ev → Prop
  | .claim _ _ => Idle st
  | .step _ => True

/-- The whole claim: once no claim is under way, no seat was given to two clients; a seat that was asked for is an engine's or was given to a client; and the
game was started exactly once if one of the players is an engine and the other seat is taken, at least once if both players are clients and both seats are
taken, and not at all before. -/
def C136Full : Prop :=
  ∀ (ids : Seat → Nat) (es : List Ev), (∃ s, ids s ≠ 0) → Idle (hist ids es) →
    (∀ s, given (hist ids es) s ≤ 1) ∧
    (∀ s r, (s, r) ∈ (hist ids es).answers → ids s = 0 ∨ given (hist ids es) s ≥ 1) ∧
    ((∀ s, ids s = 0 ∨ given (hist ids es) s ≥ 1) → (hist ids es).starts ≥ 1) ∧
    ((∀ s, ids s = 0 ∨ given (hist ids es) s ≥ 1) → (∃ s, ids s = 0) → (hist ids es).starts = 1) ∧
    (¬ (∀ s, ids s = 0 ∨ given (hist ids es) s ≥ 1) → (hist ids es).starts = 0)

/-! ## Whatever the interleaving -/

/-- The thread has written `is_claimed` of its seat. -/
def Pc.late : Pc → Prop
  | .seeX => True
  | .seeO => True
  | .start => True
  | _ => False

instance (p : Pc) : Decidable p.late := by cases p <;> (unfold Pc.late; infer_instance)

structure Inv (ids : Seat → Nat) (st : St) : Prop where
  /-- A seat is claimed exactly if it is an engine's, was given, or is about to be. -/
  why : ∀ s, st.claimed s = true ↔ ids s = 0 ∨ given st s ≥ 1 ∨ ∃ k t, st.thr k = some t ∧ t.seat = s ∧ t.pc.late
  /-- Threads hold the right numbers. -/
  got : ∀ k t, st.thr k = some t → (t.pc = .set ∨ t.pc.late) → t.got = ids t.seat
  right : ∀ s n, (s, some n) ∈ st.answers → n = ids s
  /-- Refusals are of claimed seats. -/
  no : ∀ s, (s, none) ∈ st.answers → st.claimed s = true
  /-- A start is not lost: somebody saw both seats claimed, or will. -/
  soon : st.claimed .x = true → st.claimed .o = true → (∃ s, ids s ≠ 0) →
    st.starts ≥ 1 ∨ ∃ k t, st.thr k = some t ∧ t.pc.late
  /-- A start is not early. -/
  early : st.starts ≥ 1 → st.claimed .x = true ∧ st.claimed .o = true
  saw : ∀ k t, st.thr k = some t → (t.pc = .seeO → st.claimed .x = true) ∧
    (t.pc = .start → st.claimed .x = true ∧ st.claimed .o = true)

theorem setThr_same (f : Nat → Option Thr) (k : Nat) (t : Option Thr) : setThr f k t k = t := if_pos rfl

theorem setThr_ne (f : Nat → Option Thr) {j k : Nat} (t : Option Thr) (h : j ≠ k) : setThr f k t j = f j := if_neg h

theorem given_append (st : St) (a : Seat × Option Nat) (s : Seat) (thr : Nat → Option Thr) (n : Nat) :
    given { st with thr := thr, answers := st.answers ++ [a], starts := n } s =
      given st s + (if a.1 = s ∧ a.2.isSome then 1 else 0) := by
  simp [given, List.countP_append, List.countP_cons]

theorem inv_init (ids : Seat → Nat) : Inv ids (init ids) := by
  constructor
  · intro s; simp [init, given]
  · intro k t h; simp [init] at h
  · intro s n h; simp [init] at h
  · intro s h; simp [init] at h
  · rintro h1 h2 ⟨s, hs⟩
    simp only [init, beq_iff_eq] at h1 h2
    cases s
    · exact absurd h1 hs
    · exact absurd h2 hs
  · intro h; simp [init] at h
  · intro k t h; simp [init] at h

/-- A thread that goes on without writing anything. -/
theorem inv_goto {ids : Seat → Nat} {st : St} (v : Inv ids st) {k : Nat} {t t' : Thr} (hk : st.thr k = some t)
    (hs : t'.seat = t.seat) (hl : t'.pc.late ↔ t.pc.late) (hg : t'.pc = .set ∨ t'.pc.late → t'.got = ids t.seat)
    (hsaw : (t'.pc = .seeO → st.claimed .x = true) ∧ (t'.pc = .start → st.claimed .x = true ∧ st.claimed .o = true)) :
    Inv ids { st with thr := setThr st.thr k (some t') } := by
  have late : ∀ {P : Seat → Prop}, (∃ j u, st.thr j = some u ∧ P u.seat ∧ u.pc.late) ↔
      ∃ j u, setThr st.thr k (some t') j = some u ∧ P u.seat ∧ u.pc.late := by
    intro P
    constructor
    · rintro ⟨j, u, hj, hp, hu⟩
      by_cases e : j = k
      · subst e
        rw [hk] at hj
        simp only [Option.some.injEq] at hj
        subst hj
        exact ⟨j, t', setThr_same _ _ _, hs ▸ hp, hl.mpr hu⟩
      · exact ⟨j, u, (setThr_ne _ _ e).trans hj, hp, hu⟩
    · rintro ⟨j, u, hj, hp, hu⟩
      by_cases e : j = k
      · subst e
        rw [setThr_same] at hj
        simp only [Option.some.injEq] at hj
        subst hj
        exact ⟨j, t, hk, hs ▸ hp, hl.mp hu⟩
      · rw [setThr_ne _ _ e] at hj
        exact ⟨j, u, hj, hp, hu⟩
  constructor
  · intro s
    refine (v.why s).trans (or_congr Iff.rfl (or_congr Iff.rfl ?_))
    exact late (P := fun s' => s' = s)
  · intro j u hj hu
    simp only at hj
    by_cases e : j = k
    · subst e
      rw [setThr_same] at hj
      simp only [Option.some.injEq] at hj
      subst hj
      rw [hs]; exact hg hu
    · rw [setThr_ne _ _ e] at hj
      exact v.got j u hj hu
  · exact v.right
  · exact v.no
  · intro h1 h2 h3
    refine (v.soon h1 h2 h3).imp id ?_
    rintro ⟨j, u, hj, hu⟩
    obtain ⟨j', u', h, -, h'⟩ := (late (P := fun _ => True)).mp ⟨j, u, hj, trivial, hu⟩
    exact ⟨j', u', h, h'⟩
  · exact v.early
  · intro j u hj
    simp only at hj
    by_cases e : j = k
    · subst e
      rw [setThr_same] at hj
      simp only [Option.some.injEq] at hj
      subst hj
      exact hsaw
    · rw [setThr_ne _ _ e] at hj
      exact v.saw j u hj

/-- A thread that is done, with a number. -/
theorem inv_ret {ids : Seat → Nat} {st : St} (v : Inv ids st) {k : Nat} {t : Thr} (hk : st.thr k = some t) (hl : t.pc.late) (n : Nat)
    (hsoon : n ≥ 1 ∨ ¬ (st.claimed .x = true ∧ st.claimed .o = true)) (hearly : n ≥ 1 → st.claimed .x = true ∧ st.claimed .o = true) :
    Inv ids { st.ret k t (some t.got) with starts := n } := by
  have gv : ∀ s, given { st.ret k t (some t.got) with starts := n } s = given st s + (if t.seat = s then 1 else 0) := by
    intro s
    refine (given_append st (t.seat, some t.got) s _ n).trans ?_
    simp
  have old : ∀ {j u}, setThr st.thr k none j = some u → j ≠ k ∧ st.thr j = some u := by
    intro j u hj
    by_cases e : j = k
    · subst e; rw [setThr_same] at hj; cases hj
    · exact ⟨e, by rw [setThr_ne _ _ e] at hj; exact hj⟩
  constructor
  · intro s
    refine (v.why s).trans ?_
    rw [gv]
    constructor
    · rintro (h | h | ⟨j, u, hj, hs, hu⟩)
      · exact Or.inl h
      · exact Or.inr (Or.inl (by omega))
      · by_cases e : j = k
        · subst e
          rw [hk] at hj
          simp only [Option.some.injEq] at hj
          subst hj
          refine Or.inr (Or.inl ?_)
          rw [if_pos hs]; omega
        · exact Or.inr (Or.inr ⟨j, u, (setThr_ne _ _ e).trans hj, hs, hu⟩)
    · rintro (h | h | ⟨j, u, hj, hs, hu⟩)
      · exact Or.inl h
      · by_cases e : t.seat = s
        · exact Or.inr (Or.inr ⟨k, t, hk, e, hl⟩)
        · rw [if_neg e] at h
          exact Or.inr (Or.inl h)
      · exact Or.inr (Or.inr ⟨j, u, (old hj).2, hs, hu⟩)
  · intro j u hj hu
    exact v.got j u (old hj).2 hu
  · intro s m h
    rcases List.mem_append.mp h with h | h
    · exact v.right s m h
    · simp only [List.mem_singleton, Prod.mk.injEq, Option.some.injEq] at h
      obtain ⟨rfl, rfl⟩ := h
      exact v.got k t hk (Or.inr hl)
  · intro s h
    rcases List.mem_append.mp h with h | h
    · exact v.no s h
    · simp at h
  · intro h1 h2 h3
    rcases hsoon with h | h
    · exact Or.inl h
    · exact absurd ⟨h1, h2⟩ h
  · exact hearly
  · intro j u hj
    exact v.saw j u (old hj).2

/-- A thread that is refused. -/
theorem inv_no {ids : Seat → Nat} {st : St} (v : Inv ids st) {k : Nat} {t : Thr} (hk : st.thr k = some t) (hl : ¬ t.pc.late) (hc : st.claimed t.seat = true) :
    Inv ids (st.ret k t none) := by
  have gv : ∀ s, given (st.ret k t none) s = given st s := by
    intro s
    refine (given_append st (t.seat, none) s _ st.starts).trans ?_
    simp
  have old : ∀ {j u}, setThr st.thr k none j = some u → j ≠ k ∧ st.thr j = some u := by
    intro j u hj
    by_cases e : j = k
    · subst e; rw [setThr_same] at hj; cases hj
    · exact ⟨e, by rw [setThr_ne _ _ e] at hj; exact hj⟩
  have new : ∀ {j u}, st.thr j = some u → u.pc.late → setThr st.thr k none j = some u := by
    intro j u hj hu
    by_cases e : j = k
    · subst e
      rw [hk] at hj
      simp only [Option.some.injEq] at hj
      subst hj
      exact absurd hu hl
    · exact (setThr_ne _ _ e).trans hj
  constructor
  · intro s
    refine (v.why s).trans ?_
    rw [gv]
    refine or_congr Iff.rfl (or_congr Iff.rfl ⟨?_, ?_⟩)
    · rintro ⟨j, u, hj, hs, hu⟩
      exact ⟨j, u, new hj hu, hs, hu⟩
    · rintro ⟨j, u, hj, hs, hu⟩
      exact ⟨j, u, (old hj).2, hs, hu⟩
  · intro j u hj hu
    exact v.got j u (old hj).2 hu
  · intro s m h
    rcases List.mem_append.mp h with h | h
    · exact v.right s m h
    · simp at h
  · intro s h
    rcases List.mem_append.mp h with h | h
    · exact v.no s h
    · simp only [List.mem_singleton, Prod.mk.injEq, and_true] at h
      subst h
      exact hc
  · intro h1 h2 h3
    refine (v.soon h1 h2 h3).imp id ?_
    rintro ⟨j, u, hj, hu⟩
    exact ⟨j, u, new hj hu, hu⟩
  · exact v.early
  · intro j u hj
    exact v.saw j u (old hj).2

/-- A thread that writes `is_claimed`. -/
theorem inv_set {ids : Seat → Nat} {st : St} (v : Inv ids st) {k : Nat} {t : Thr} (hk : st.thr k = some t) (hp : t.pc = .set) :
    Inv ids { st.goto k t .seeX with claimed := fun s => if s = t.seat then true else st.claimed s } := by
  have hl : ¬ t.pc.late := by rw [hp]; exact fun h => h
  have up : ∀ {s}, st.claimed s = true → (if s = t.seat then true else st.claimed s) = true := by
    intro s h; split
    · rfl
    · exact h
  have me : setThr st.thr k (some { t with pc := .seeX }) k = some { t with pc := .seeX } := setThr_same _ _ _
  have new : ∀ {j u}, st.thr j = some u → u.pc.late → setThr st.thr k (some { t with pc := .seeX }) j = some u := by
    intro j u hj hu
    by_cases e : j = k
    · subst e
      rw [hk] at hj
      simp only [Option.some.injEq] at hj
      subst hj
      exact absurd hu hl
    · exact (setThr_ne _ _ e).trans hj
  constructor
  · intro s
    show (if s = t.seat then true else st.claimed s) = true ↔ _
    by_cases hs : s = t.seat
    · rw [if_pos hs]
      exact ⟨fun _ => Or.inr (Or.inr ⟨k, _, me, hs.symm, trivial⟩), fun _ => rfl⟩
    · rw [if_neg hs]
      refine (v.why s).trans (or_congr Iff.rfl (or_congr Iff.rfl ⟨?_, ?_⟩))
      · rintro ⟨j, u, hj, hs', hu⟩
        exact ⟨j, u, new hj hu, hs', hu⟩
      · rintro ⟨j, u, hj, hs', hu⟩
        by_cases e : j = k
        · subst e
          have hj' := me.symm.trans hj
          simp only [Option.some.injEq] at hj'
          subst hj'
          exact absurd hs'.symm hs
        · exact ⟨j, u, (setThr_ne _ _ e).symm.trans hj, hs', hu⟩
  · intro j u hj hu
    by_cases e : j = k
    · subst e
      have hj' := me.symm.trans hj
      simp only [Option.some.injEq] at hj'
      subst hj'
      exact v.got j t hk (Or.inl hp)
    · exact v.got j u ((setThr_ne _ _ e).symm.trans hj) hu
  · exact v.right
  · intro s h
    exact up (v.no s h)
  · intro _ _ _
    exact Or.inr ⟨k, _, me, trivial⟩
  · intro h
    exact ⟨up (v.early h).1, up (v.early h).2⟩
  · intro j u hj
    by_cases e : j = k
    · subst e
      have hj' := me.symm.trans hj
      simp only [Option.some.injEq] at hj'
      subst hj'
      exact ⟨fun h => (by cases h), fun h => (by cases h)⟩
    · have h := v.saw j u ((setThr_ne _ _ e).symm.trans hj)
      exact ⟨fun hh => up (h.1 hh), fun hh => ⟨up (h.2 hh).1, up (h.2 hh).2⟩⟩

theorem inv_stepThr {ids : Seat → Nat} {st : St} (v : Inv ids st) {k : Nat} {t : Thr} (hk : st.thr k = some t) :
    Inv ids (stepThr ids st k t) := by
  unfold stepThr
  split
  · next hp =>
    split
    · next hc => exact inv_no v hk (by rw [hp]; exact fun h => h) hc
    · refine inv_goto v hk rfl (by rw [hp]; exact Iff.rfl) ?_ ⟨fun h => (by cases h), fun h => (by cases h)⟩
      rintro (h | h)
      · cases h
      · exact absurd h (fun h => h)
  · next hp =>
    refine inv_goto v hk rfl (by rw [hp]; exact Iff.rfl) (fun _ => rfl) ⟨fun h => (by cases h), fun h => (by cases h)⟩
  · next hp => exact inv_set v hk hp
  · next hp =>
    have hl : t.pc.late := by rw [hp]; trivial
    split
    · next hc =>
      exact inv_goto v hk rfl ⟨fun _ => hl, fun _ => trivial⟩ (fun _ => v.got k t hk (Or.inr hl)) ⟨fun _ => hc, fun h => (by cases h)⟩
    · next hc =>
      exact inv_ret v hk hl st.starts (Or.inr fun h => hc h.1) v.early
  · next hp =>
    have hl : t.pc.late := by rw [hp]; trivial
    split
    · next hc =>
      exact inv_goto v hk rfl ⟨fun _ => hl, fun _ => trivial⟩ (fun _ => v.got k t hk (Or.inr hl))
        ⟨fun h => (by cases h), fun _ => ⟨(v.saw k t hk).1 hp, hc⟩⟩
    · next hc =>
      exact inv_ret v hk hl st.starts (Or.inr fun h => hc h.2) v.early
  · next hp =>
    have hl : t.pc.late := by rw [hp]; trivial
    exact inv_ret v hk hl (st.starts + 1) (Or.inl (by omega)) (fun _ => (v.saw k t hk).2 hp)

theorem inv_claim {ids : Seat → Nat} {st : St} (v : Inv ids st) {k : Nat} (hk : st.thr k = none) (s : Seat) :
    Inv ids { st with thr := setThr st.thr k (some ⟨s, .test, 0⟩) } := by
  have new : ∀ {j u}, st.thr j = some u → setThr st.thr k (some ⟨s, .test, 0⟩) j = some u := by
    intro j u hj
    by_cases e : j = k
    · subst e; rw [hk] at hj; cases hj
    · exact (setThr_ne _ _ e).trans hj
  have old : ∀ {j u}, setThr st.thr k (some ⟨s, .test, 0⟩) j = some u → u = ⟨s, .test, 0⟩ ∨ st.thr j = some u := by
    intro j u hj
    by_cases e : j = k
    · subst e
      rw [setThr_same] at hj
      simp only [Option.some.injEq] at hj
      exact Or.inl hj.symm
    · rw [setThr_ne _ _ e] at hj
      exact Or.inr hj
  constructor
  · intro s'
    refine (v.why s').trans (or_congr Iff.rfl (or_congr Iff.rfl ⟨?_, ?_⟩))
    · rintro ⟨j, u, hj, hs, hu⟩; exact ⟨j, u, new hj, hs, hu⟩
    · rintro ⟨j, u, hj, hs, hu⟩
      rcases old hj with e | h
      · subst e; exact absurd hu (fun h => h)
      · exact ⟨j, u, h, hs, hu⟩
  · intro j u hj hu
    rcases old hj with e | h
    · subst e
      rcases hu with h | h
      · cases h
      · exact absurd h (fun h => h)
    · exact v.got j u h hu
  · exact v.right
  · exact v.no
  · intro h1 h2 h3
    refine (v.soon h1 h2 h3).imp id ?_
    rintro ⟨j, u, hj, hu⟩; exact ⟨j, u, new hj, hu⟩
  · exact v.early
  · intro j u hj
    rcases old hj with e | h
    · subst e; exact ⟨fun h => (by cases h), fun h => (by cases h)⟩
    · exact v.saw j u h

theorem inv_hist (ids : Seat → Nat) : ∀ es, Inv ids (hist ids es)
  | [] => inv_init ids
  | e :: es => by
    have v := inv_hist ids es
    simp only [hist]
    cases e with
    | claim k s =>
      simp only [step]
      split
      · exact v
      · next h => exact inv_claim v h s
    | step k =>
      simp only [step]
      split
      · exact v
      · next t h => exact inv_stepThr v h

/-! ## If no seat is claimed twice at the same time -/

structure Inv2 (ids : Seat → Nat) (st : St) : Prop where
  one : ∀ j k t u, st.thr j = some t → st.thr k = some u → t.seat = u.seat → j = k
  free : ∀ k t, st.thr k = some t → (t.pc = .read ∨ t.pc = .set) → st.claimed t.seat = false
  first : ∀ k t, st.thr k = some t → t.pc.late → given st t.seat = 0
  most : ∀ s, given st s ≤ 1
  fresh : ∀ s, st.claimed s = false → given st s = 0
  engine : ∀ s, ids s = 0 → st.claimed s = true ∧ given st s = 0 ∧ ∀ k t, st.thr k = some t → t.seat = s → t.pc = .test
  calls : st.starts ≤ given st .x + given st .o

theorem inv2_init (ids : Seat → Nat) : Inv2 ids (init ids) := by
  constructor
  · intro j k t u h; simp [init] at h
  · intro k t h; simp [init] at h
  · intro k t h; simp [init] at h
  · intro s; simp [init, given]
  · intro s h; simp [init, given]
  · intro s h; refine ⟨by simp [init, h], by simp [init, given], ?_⟩; intro k t h; simp [init] at h
  · simp [init]

theorem inv2_goto {ids : Seat → Nat} {st : St} (v : Inv2 ids st) {k : Nat} {t t' : Thr} (hk : st.thr k = some t) (hs : t'.seat = t.seat)
    (hfree : t'.pc = .read ∨ t'.pc = .set → st.claimed t.seat = false) (hlate : t'.pc.late → t.pc.late)
    (heng : ids t.seat ≠ 0) : Inv2 ids { st with thr := setThr st.thr k (some t') } := by
  have old : ∀ {j u}, setThr st.thr k (some t') j = some u → (j = k ∧ u = t') ∨ (j ≠ k ∧ st.thr j = some u) := by
    intro j u hj
    by_cases e : j = k
    · subst e
      rw [setThr_same] at hj
      simp only [Option.some.injEq] at hj
      exact Or.inl ⟨rfl, hj.symm⟩
    · rw [setThr_ne _ _ e] at hj
      exact Or.inr ⟨e, hj⟩
  constructor
  · intro i j p q hi hj e
    rcases old hi with ⟨rfl, rfl⟩ | ⟨-, hi'⟩ <;> rcases old hj with ⟨rfl, rfl⟩ | ⟨-, hj'⟩
    · rfl
    · exact v.one i j t q hk hj' (hs ▸ e)
    · exact v.one i j p t hi' hk (e.trans hs)
    · exact v.one i j p q hi' hj' e
  · intro j u hj hu
    rcases old hj with ⟨rfl, rfl⟩ | ⟨-, hj⟩
    · show st.claimed _ = false
      rw [hs]; exact hfree hu
    · exact v.free j u hj hu
  · intro j u hj hu
    rcases old hj with ⟨rfl, rfl⟩ | ⟨-, hj⟩
    · rw [hs]; exact v.first j t hk (hlate hu)
    · exact v.first j u hj hu
  · exact v.most
  · exact v.fresh
  · intro s h
    refine ⟨(v.engine s h).1, (v.engine s h).2.1, ?_⟩
    intro j u hj hu
    rcases old hj with ⟨rfl, rfl⟩ | ⟨-, hj⟩
    · rw [hs] at hu; subst hu; exact absurd h heng
    · exact (v.engine s h).2.2 j u hj hu
  · exact v.calls

theorem inv2_ret {ids : Seat → Nat} {st : St} (v : Inv2 ids st) {k : Nat} {t : Thr} (hk : st.thr k = some t) (hl : t.pc.late)
    (hc : st.claimed t.seat = true) (n : Nat) (hn : n ≤ st.starts + 1) :
    Inv2 ids { st.ret k t (some t.got) with starts := n } := by
  have gv : ∀ s, given { st.ret k t (some t.got) with starts := n } s = given st s + (if t.seat = s then 1 else 0) := by
    intro s
    refine (given_append st (t.seat, some t.got) s _ n).trans ?_
    simp
  have old : ∀ {j u}, setThr st.thr k none j = some u → j ≠ k ∧ st.thr j = some u := by
    intro j u hj
    by_cases e : j = k
    · subst e; rw [setThr_same] at hj; cases hj
    · exact ⟨e, by rw [setThr_ne _ _ e] at hj; exact hj⟩
  have heng : ids t.seat ≠ 0 := by
    intro h
    have := (v.engine t.seat h).2.2 k t hk rfl
    rw [this] at hl; exact hl
  constructor
  · intro i j p q hi hj e
    exact v.one i j p q (old hi).2 (old hj).2 e
  · intro j u hj hu
    exact v.free j u (old hj).2 hu
  · intro j u hj hu
    rw [gv, v.first j u (old hj).2 hu, if_neg]
    intro e
    exact (old hj).1 (v.one k j t u hk (old hj).2 e).symm
  · intro s
    rw [gv]
    by_cases e : t.seat = s
    · subst e; rw [v.first k t hk hl, if_pos rfl]; omega
    · rw [if_neg e]; exact v.most s
  · intro s h
    have h : st.claimed s = false := h
    rw [gv, v.fresh s h, if_neg]
    intro e; subst e; rw [hc] at h; cases h
  · intro s h
    refine ⟨(v.engine s h).1, ?_, fun j u hj hu => (v.engine s h).2.2 j u (old hj).2 hu⟩
    rw [gv, (v.engine s h).2.1, if_neg]
    intro e; subst e; exact heng h
  · rw [gv, gv]
    show n ≤ _
    have := v.calls
    cases t.seat <;> simp <;> omega

theorem inv2_no {ids : Seat → Nat} {st : St} (v : Inv2 ids st) {k : Nat} {t : Thr} : Inv2 ids (st.ret k t none) := by
  have gv : ∀ s, given (st.ret k t none) s = given st s := by
    intro s
    refine (given_append st (t.seat, none) s _ st.starts).trans ?_
    simp
  have old : ∀ {j u}, setThr st.thr k none j = some u → st.thr j = some u := by
    intro j u hj
    by_cases e : j = k
    · subst e; rw [setThr_same] at hj; cases hj
    · rw [setThr_ne _ _ e] at hj; exact hj
  constructor
  · intro i j p q hi hj e
    exact v.one i j p q (old hi) (old hj) e
  · intro j u hj hu
    exact v.free j u (old hj) hu
  · intro j u hj hu
    rw [gv]; exact v.first j u (old hj) hu
  · intro s; rw [gv]; exact v.most s
  · intro s h; rw [gv]; exact v.fresh s h
  · intro s h
    rw [gv]
    exact ⟨(v.engine s h).1, (v.engine s h).2.1, fun j u hj hu => (v.engine s h).2.2 j u (old hj) hu⟩
  · rw [gv, gv]; exact v.calls

theorem inv2_set {ids : Seat → Nat} {st : St} (v : Inv2 ids st) {k : Nat} {t : Thr} (hk : st.thr k = some t) (hp : t.pc = .set) :
    Inv2 ids { st.goto k t .seeX with claimed := fun s => if s = t.seat then true else st.claimed s } := by
  have hf := v.free k t hk (Or.inr hp)
  have old : ∀ {j u}, setThr st.thr k (some { t with pc := .seeX }) j = some u →
      (j = k ∧ u = { t with pc := .seeX }) ∨ (j ≠ k ∧ st.thr j = some u) := by
    intro j u hj
    by_cases e : j = k
    · subst e
      rw [setThr_same] at hj
      simp only [Option.some.injEq] at hj
      exact Or.inl ⟨rfl, hj.symm⟩
    · rw [setThr_ne _ _ e] at hj
      exact Or.inr ⟨e, hj⟩
  constructor
  · intro i j p q hi hj e
    rcases old hi with ⟨rfl, rfl⟩ | ⟨-, hi'⟩ <;> rcases old hj with ⟨rfl, rfl⟩ | ⟨-, hj'⟩
    · rfl
    · exact v.one i j t q hk hj' e
    · exact v.one i j p t hi' hk e
    · exact v.one i j p q hi' hj' e
  · intro j u hj hu
    rcases old hj with ⟨rfl, rfl⟩ | ⟨hne, hj⟩
    · rcases hu with h | h <;> cases h
    · show (if u.seat = t.seat then true else st.claimed u.seat) = false
      rw [if_neg (fun e => hne (v.one j k u t hj hk e))]
      exact v.free j u hj hu
  · intro j u hj hu
    rcases old hj with ⟨rfl, rfl⟩ | ⟨-, hj⟩
    · exact v.fresh t.seat hf
    · exact v.first j u hj hu
  · exact v.most
  · intro s h
    have h : (if s = t.seat then true else st.claimed s) = false := h
    split at h
    · cases h
    · exact v.fresh s h
  · intro s h
    refine ⟨?_, (v.engine s h).2.1, ?_⟩
    · show (if s = t.seat then true else st.claimed s) = true
      split
      · rfl
      · exact (v.engine s h).1
    · intro j u hj hu
      rcases old hj with ⟨rfl, rfl⟩ | ⟨-, hj⟩
      · have := (v.engine s h).2.2 j t hk hu
        rw [hp] at this; cases this
      · exact (v.engine s h).2.2 j u hj hu
  · exact v.calls

theorem inv2_stepThr {ids : Seat → Nat} {st : St} (v : Inv2 ids st) (w : Inv ids st) {k : Nat} {t : Thr} (hk : st.thr k = some t) :
    Inv2 ids (stepThr ids st k t) := by
  have heng : (t.pc = .test → st.claimed t.seat = false) → ids t.seat ≠ 0 := by
    intro h e
    have hp := (v.engine t.seat e).2.2 k t hk rfl
    have := (v.engine t.seat e).1
    rw [h hp] at this; cases this
  have lc : t.pc.late → st.claimed t.seat = true := fun h => (w.why t.seat).mpr (Or.inr (Or.inr ⟨k, t, hk, rfl, h⟩))
  unfold stepThr
  split
  · next hp =>
    split
    · exact inv2_no v
    · next hc =>
      have hc : st.claimed t.seat = false := by simpa using hc
      exact inv2_goto v hk rfl (fun _ => hc) (fun h => absurd h (fun h => h)) (heng fun _ => hc)
  · next hp =>
    exact inv2_goto v hk rfl (fun _ => v.free k t hk (Or.inl hp)) (fun h => absurd h (fun h => h)) (heng fun h => by rw [hp] at h; cases h)
  · next hp => exact inv2_set v hk hp
  · next hp =>
    have hl : t.pc.late := by rw [hp]; trivial
    split
    · exact inv2_goto v hk rfl (fun h => by rcases h with h | h <;> cases h) (fun _ => hl) (heng fun h => by rw [hp] at h; cases h)
    · exact inv2_ret v hk hl (lc hl) st.starts (by omega)
  · next hp =>
    have hl : t.pc.late := by rw [hp]; trivial
    split
    · exact inv2_goto v hk rfl (fun h => by rcases h with h | h <;> cases h) (fun _ => hl) (heng fun h => by rw [hp] at h; cases h)
    · exact inv2_ret v hk hl (lc hl) st.starts (by omega)
  · next hp =>
    have hl : t.pc.late := by rw [hp]; trivial
    exact inv2_ret v hk hl (lc hl) (st.starts + 1) (by omega)

theorem inv2_claim {ids : Seat → Nat} {st : St} (v : Inv2 ids st) {k : Nat} (s : Seat) (g : ∀ j t, st.thr j = some t → t.seat ≠ s) :
    Inv2 ids { st with thr := setThr st.thr k (some ⟨s, .test, 0⟩) } := by
  have old : ∀ {j u}, setThr st.thr k (some ⟨s, .test, 0⟩) j = some u → (j = k ∧ u = ⟨s, .test, 0⟩) ∨ st.thr j = some u := by
    intro j u hj
    by_cases e : j = k
    · subst e
      rw [setThr_same] at hj
      simp only [Option.some.injEq] at hj
      exact Or.inl ⟨rfl, hj.symm⟩
    · rw [setThr_ne _ _ e] at hj
      exact Or.inr hj
  constructor
  · intro i j p q hi hj e
    rcases old hi with ⟨rfl, rfl⟩ | hi' <;> rcases old hj with ⟨rfl, rfl⟩ | hj'
    · rfl
    · exact absurd e.symm (g j q hj')
    · exact absurd e (g i p hi')
    · exact v.one i j p q hi' hj' e
  · intro j u hj hu
    rcases old hj with ⟨rfl, rfl⟩ | hj
    · rcases hu with h | h <;> cases h
    · exact v.free j u hj hu
  · intro j u hj hu
    rcases old hj with ⟨rfl, rfl⟩ | hj
    · exact absurd hu (fun h => h)
    · exact v.first j u hj hu
  · exact v.most
  · exact v.fresh
  · intro s' h
    refine ⟨(v.engine s' h).1, (v.engine s' h).2.1, ?_⟩
    intro j u hj hu
    rcases old hj with ⟨rfl, rfl⟩ | hj
    · rfl
    · exact (v.engine s' h).2.2 j u hj hu
  · exact v.calls

theorem inv2_hist (ids : Seat → Nat) : ∀ es, All ids Single es → Inv2 ids (hist ids es)
  | [], _ => inv2_init ids
  | e :: es, g => by
    have v := inv2_hist ids es g.2
    have g := g.1
    simp only [hist]
    cases e with
    | claim k s =>
      simp only [step]
      split
      · exact v
      · exact inv2_claim v s g
    | step k =>
      simp only [step]
      split
      · exact v
      · next t h => exact inv2_stepThr v (inv_hist ids es) h

/-! ## The theorems -/

/-- In every idle state the flags tell who has the seats. -/
theorem claimed_iff {ids : Seat → Nat} {es : List Ev} (hi : Idle (hist ids es)) (s : Seat) :
    (hist ids es).claimed s = true ↔ ids s = 0 ∨ given (hist ids es) s ≥ 1 := by
  refine ((inv_hist ids es).why s).trans (or_congr Iff.rfl ⟨?_, Or.inl⟩)
  rintro (h | ⟨k, t, hk, -⟩)
  · exact h
  · rw [hi k] at hk; cases hk

/-- C136, whatever the interleaving, any number of claims of the same seat at the same time: a client that is given a seat is told its number; a seat that was asked
for is an engine's or was given to somebody; the start of the game is never lost, and never early. -/
theorem C136_start_partial (ids : Seat → Nat) (es : List Ev) (he : ∃ s, ids s ≠ 0) (hi : Idle (hist ids es)) :
    (∀ s n, (s, some n) ∈ (hist ids es).answers → n = ids s) ∧
    (∀ s r, (s, r) ∈ (hist ids es).answers → ids s = 0 ∨ given (hist ids es) s ≥ 1) ∧
    ((∀ s, ids s = 0 ∨ given (hist ids es) s ≥ 1) ↔ (hist ids es).starts ≥ 1) := by
  have v := inv_hist ids es
  refine ⟨v.right, ?_, ?_, ?_⟩
  · intro s r h
    cases r with
    | none => exact (claimed_iff hi s).mp (v.no s h)
    | some n =>
      right
      unfold given
      exact List.countP_pos_iff.mpr ⟨_, h, by simp⟩
  · intro h
    rcases v.soon ((claimed_iff hi .x).mpr (h .x)) ((claimed_iff hi .o).mpr (h .o)) he with h | ⟨k, t, hk, -⟩
    · exact h
    · rw [hi k] at hk; cases hk
  · intro h s
    refine (claimed_iff hi s).mp ?_
    cases s
    · exact (v.early h).1
    · exact (v.early h).2

/-- C136, if no seat is claimed while another claim of the same seat is under way (claims of the two seats overlap in any way): all of it. -/
theorem C136_partial (ids : Seat → Nat) (es : List Ev) (he : ∃ s, ids s ≠ 0) (g : All ids Single es) (hi : Idle (hist ids es)) :
    (∀ s, given (hist ids es) s ≤ 1) ∧
    (∀ s r, (s, r) ∈ (hist ids es).answers → ids s = 0 ∨ given (hist ids es) s ≥ 1) ∧
    ((∀ s, ids s = 0 ∨ given (hist ids es) s ≥ 1) → (hist ids es).starts ≥ 1) ∧
    ((∀ s, ids s = 0 ∨ given (hist ids es) s ≥ 1) → (∃ s, ids s = 0) → (hist ids es).starts = 1) ∧
    (¬ (∀ s, ids s = 0 ∨ given (hist ids es) s ≥ 1) → (hist ids es).starts = 0) := by
  have w := inv2_hist ids es g
  obtain ⟨-, h2, h3⟩ := C136_start_partial ids es he hi
  refine ⟨w.most, h2, h3.mp, ?_, ?_⟩
  · rintro h ⟨s, hs⟩
    have h1 := h3.mp h
    have hx := w.most .x
    have ho := w.most .o
    have hc := w.calls
    have h0 := (w.engine s hs).2.1
    cases s <;> omega
  · intro h
    exact Nat.eq_zero_of_not_pos fun hh => h (h3.mpr hh)

/-- C136, the seats of engines: they are given to nobody, whatever the interleaving. -/
theorem C136_engine_partial (ids : Seat → Nat) (es : List Ev) (s : Seat) (hs : ids s = 0) : given (hist ids es) s = 0 := by
  have key : (hist ids es).claimed s = true ∧ given (hist ids es) s = 0 ∧
      ∀ k t, (hist ids es).thr k = some t → t.seat = s → t.pc = .test := by
    induction es with
    | nil => exact (inv2_init ids).engine s hs
    | cons e es ih =>
      obtain ⟨h1, h2, h3⟩ := ih
      simp only [hist]
      generalize hist ids es = st at h1 h2 h3
      cases e with
      | claim k s' =>
        simp only [step]
        split
        · exact ⟨h1, h2, h3⟩
        · refine ⟨h1, h2, ?_⟩
          intro j u hj hu
          by_cases e : j = k
          · subst e
            have hj : setThr st.thr j (some ⟨s', .test, 0⟩) j = some u := hj
            rw [setThr_same] at hj
            simp only [Option.some.injEq] at hj
            subst hj; rfl
          · exact h3 j u ((setThr_ne _ _ e).symm.trans hj) hu
      | step k =>
        simp only [step]
        split
        · exact ⟨h1, h2, h3⟩
        · next t hk =>
          have stay : ∀ (t' : Option Thr), (∀ u, t' = some u → u.seat = t.seat) → t.seat ≠ s →
              ∀ j u, setThr st.thr k t' j = some u → u.seat = s → u.pc = .test := by
            intro t' ht' hne j u hj hu
            by_cases e : j = k
            · subst e
              rw [setThr_same] at hj
              exact absurd ((ht' u hj).symm.trans hu) hne
            · rw [setThr_ne _ _ e] at hj
              exact h3 j u hj hu
          by_cases hts : t.seat = s
          · have hp := h3 k t hk hts
            have : stepThr ids st k t = st.ret k t none := by
              simp only [stepThr, hp, hts, h1, if_true]
            rw [this]
            refine ⟨h1, ?_, ?_⟩
            · refine (given_append st (t.seat, none) s _ st.starts).trans ?_
              simp [h2]
            · intro j u hj hu
              by_cases e : j = k
              · subst e
                have hj : setThr st.thr j none j = some u := hj
                rw [setThr_same] at hj; cases hj
              · exact h3 j u ((setThr_ne _ _ e).symm.trans hj) hu
          · have gr : ∀ r n, given { st.ret k t r with starts := n } s = 0 := by
              intro r n
              refine (given_append st (t.seat, r) s _ n).trans ?_
              simp [h2, hts]
            have one : ∀ u : Thr, u.seat = t.seat → ∀ v, some u = some v → v.seat = t.seat := by
              intro u h v e; cases e; exact h
            unfold stepThr
            split
            · split
              · exact ⟨h1, gr none st.starts, stay none (fun _ h => by cases h) hts⟩
              · exact ⟨h1, h2, stay _ (one _ rfl) hts⟩
            · exact ⟨h1, h2, stay _ (one _ rfl) hts⟩
            · refine ⟨?_, h2, stay _ (one _ rfl) hts⟩
              show (if s = t.seat then true else st.claimed s) = true
              rw [if_neg (fun e => hts e.symm)]; exact h1
            · split
              · exact ⟨h1, h2, stay _ (one _ rfl) hts⟩
              · exact ⟨h1, gr _ st.starts, stay none (fun _ h => by cases h) hts⟩
            · split
              · exact ⟨h1, h2, stay _ (one _ rfl) hts⟩
              · exact ⟨h1, gr _ st.starts, stay none (fun _ h => by cases h) hts⟩
            · exact ⟨h1, gr _ _, stay none (fun _ h => by cases h) hts⟩
  exact key.2.1

theorem single_of_alone {ids : Seat → Nat} : ∀ {es : List Ev}, All ids Alone es → All ids Single es
  | [], _ => trivial
  | e :: es, g => by
    refine ⟨?_, single_of_alone g.2⟩
    cases e with
    | claim k s =>
      intro j t hj
      have hi : Idle (hist ids es) := g.1
      rw [hi j] at hj; cases hj
    | step k => trivial

structure Inv3 (st : St) : Prop where
  one : ∀ j k t u, st.thr j = some t → st.thr k = some u → j = k
  before : ∀ k t, st.thr k = some t → t.pc.late → st.starts = 0
  most : st.starts ≤ 1

theorem inv3_thr {st : St} (v : Inv3 st) {k : Nat} {t : Thr} (hk : st.thr k = some t) (t' : Option Thr) (c : Seat → Bool) (a : List (Seat × Option Nat)) (n : Nat)
    (hl : ∀ u, t' = some u → u.pc.late → n = 0) (hn : n ≤ 1) : Inv3 ⟨c, setThr st.thr k t', a, n⟩ := by
  have only : ∀ {j u}, setThr st.thr k t' j = some u → j = k ∧ t' = some u := by
    intro j u hj
    by_cases e : j = k
    · subst e; rw [setThr_same] at hj; exact ⟨rfl, hj⟩
    · rw [setThr_ne _ _ e] at hj
      exact absurd (v.one j k u t hj hk) e
  exact ⟨fun i j p q hi hj => (only hi).1.trans (only hj).1.symm, fun j u hj hu => hl u (only hj).2 hu, hn⟩

theorem inv3_hist (ids : Seat → Nat) : ∀ es, All ids Alone es → Inv3 (hist ids es)
  | [], _ => by
    refine ⟨?_, ?_, Nat.zero_le _⟩
    · intro _ _ _ _ h; cases h
    · intro _ _ h; cases h
  | e :: es, g => by
    have v := inv3_hist ids es g.2
    have w := inv_hist ids es
    have w2 := inv2_hist ids es (single_of_alone g.2)
    simp only [hist]
    cases e with
    | claim k s =>
      have hi : Idle (hist ids es) := g.1
      simp only [step]
      split
      · exact v
      · have only : ∀ {j u}, setThr (hist ids es).thr k (some ⟨s, .test, 0⟩) j = some u → j = k ∧ u = ⟨s, .test, 0⟩ := by
          intro j u hj
          by_cases e : j = k
          · subst e
            rw [setThr_same] at hj
            simp only [Option.some.injEq] at hj
            exact ⟨rfl, hj.symm⟩
          · rw [setThr_ne _ _ e, hi j] at hj; cases hj
        refine ⟨fun i j p q hi hj => (only hi).1.trans (only hj).1.symm, ?_, v.most⟩
        intro j u hj hu
        rw [(only hj).2] at hu
        exact absurd hu (fun h => h)
    | step k =>
      simp only [step]
      split
      · exact v
      · next t hk =>
        have same : ∀ (u : Thr), t.pc.late → ∀ v', some u = some v' → v'.pc.late → (hist ids es).starts = 0 := fun _ hl _ _ _ => v.before k t hk hl
        unfold stepThr
        split
        · split
          · exact inv3_thr v hk _ _ _ _ (fun _ h => by cases h) v.most
          · exact inv3_thr v hk _ _ _ _ (fun u h hu => by cases h; exact absurd hu (fun h => h)) v.most
        · exact inv3_thr v hk _ _ _ _ (fun u h hu => by cases h; exact absurd hu (fun h => h)) v.most
        · next hp =>
          refine inv3_thr v hk _ _ _ _ (fun _ _ _ => ?_) v.most
          refine Nat.eq_zero_of_not_pos fun h => ?_
          have hf := w2.free k t hk (Or.inr hp)
          have he := w.early h
          cases hs : t.seat
          · rw [hs, he.1] at hf; cases hf
          · rw [hs, he.2] at hf; cases hf
        · next hp =>
          have hl : t.pc.late := by rw [hp]; trivial
          split
          · exact inv3_thr v hk _ _ _ _ (same _ hl) v.most
          · exact inv3_thr v hk _ _ _ _ (fun _ h => by cases h) v.most
        · next hp =>
          have hl : t.pc.late := by rw [hp]; trivial
          split
          · exact inv3_thr v hk _ _ _ _ (same _ hl) v.most
          · exact inv3_thr v hk _ _ _ _ (fun _ h => by cases h) v.most
        · next hp =>
          have hl : t.pc.late := by rw [hp]; trivial
          have := v.before k t hk hl
          exact inv3_thr v hk _ _ _ _ (fun _ h => by cases h) (by omega)

/-- C136, if nothing is claimed while another claim is under way: the game is started exactly once, also between two clients. -/
theorem C136_once_partial (ids : Seat → Nat) (es : List Ev) (he : ∃ s, ids s ≠ 0) (g : All ids Alone es) (hi : Idle (hist ids es)) :
    (∀ s, given (hist ids es) s ≤ 1) ∧
    ((∀ s, ids s = 0 ∨ given (hist ids es) s ≥ 1) → (hist ids es).starts = 1) ∧
    (¬ (∀ s, ids s = 0 ∨ given (hist ids es) s ≥ 1) → (hist ids es).starts = 0) := by
  have h3 := (C136_start_partial ids es he hi).2.2
  have hm := (inv3_hist ids es g).most
  refine ⟨(inv2_hist ids es (single_of_alone g)).most, fun h => ?_, fun h => ?_⟩
  · have := h3.mp h
    omega
  · exact Nat.eq_zero_of_not_pos fun hh => h (h3.mpr hh)

/-! ## Cases -/

/-- The numbers of the seats: two clients, and an engine as X against a client. -/
def two : Seat → Nat
  | .x => 11
  | .o => 22

def vs : Seat → Nat
  | .x => 0
  | .o => 22

/-- Events in the order in which they happen. -/
def play (l : List Ev) : List Ev := l.reverse

/-- Both seats claimed at the same time, step by step in turn, and a late claim that is refused. -/
def both : List Ev := play ([.claim 0 .x, .claim 1 .o] ++ (List.replicate 6 [.step 0, .step 1]).flatten ++ [.claim 2 .x, .step 2])

/-- The same seat claimed twice at the same time, against an engine. -/
def twice : List Ev := play ([.claim 0 .o, .claim 1 .o] ++ (List.replicate 6 [.step 0, .step 1]).flatten)

/-- Threads that are never asked for anything do nothing. -/
theorem far {ids : Seat → Nat} (n : Nat) : ∀ (es : List Ev), (∀ k s, Ev.claim k s ∈ es → k < n) → ∀ k, n ≤ k → (hist ids es).thr k = none := by
  intro es
  induction es with
  | nil => intro _ k _; rfl
  | cons e es ih =>
    intro hn k hk
    have old := ih (fun k s h => hn k s (List.mem_cons_of_mem _ h))
    simp only [hist]
    cases e with
    | claim j s =>
      have hj : j < n := hn j s (by simp)
      simp only [step]
      split
      · exact old k hk
      · exact (setThr_ne _ _ (by omega)).trans (old k hk)
    | step j =>
      simp only [step]
      split
      · exact old k hk
      · next t ht =>
        have hj : k ≠ j := by
          intro e; subst e; rw [old k hk] at ht; cases ht
        have : ∀ t', setThr (hist ids es).thr j t' k = none := fun t' => (setThr_ne _ _ hj).trans (old k hk)
        unfold stepThr
        repeat' split
        all_goals exact this _

theorem idle_of {ids : Seat → Nat} (es : List Ev) (n : Nat) (hn : ∀ k s, Ev.claim k s ∈ es → k < n) (h : ∀ k, k < n → (hist ids es).thr k = none) :
    Idle (hist ids es) := by
  intro k
  by_cases hk : k < n
  · exact h k hk
  · exact far n es hn k (by omega)

/-- `Single`, to be computed, for histories of the threads below `n`. -/
def check (ids : Seat → Nat) (n : Nat) : List Ev → Bool
  | [] => true
  | .step _ :: es => check ids n es
  | .claim _ s :: es => (List.range n).all (fun j => ((hist ids es).thr j).all (fun t => decide (t.seat ≠ s))) && check ids n es

theorem all_single {ids : Seat → Nat} (n : Nat) : ∀ (es : List Ev), (∀ k s, Ev.claim k s ∈ es → k < n) → check ids n es = true → All ids Single es
  | [], _, _ => trivial
  | .step _ :: es, hn, h => ⟨trivial, all_single n es (fun k s hm => hn k s (List.mem_cons_of_mem _ hm)) h⟩
  | .claim _ s :: es, hn, h => by
    have hn' : ∀ k s, Ev.claim k s ∈ es → k < n := fun k s hm => hn k s (List.mem_cons_of_mem _ hm)
    simp only [check, Bool.and_eq_true, List.all_eq_true, List.mem_range] at h
    refine ⟨?_, all_single n es hn' h.2⟩
    intro j t hj
    by_cases hjn : j < n
    · have := h.1 j hjn
      rw [hj] at this
      simpa using this
    · rw [far n es hn' j (by omega)] at hj; cases hj

theorem both_near : ∀ k s, Ev.claim k s ∈ both → k < 3 := by
  have h : both.all (fun e => match e with | .claim k _ => decide (k < 3) | .step _ => true) = true := by decide +kernel
  intro k s hm
  have := List.all_eq_true.mp h _ hm
  simpa using this

theorem twice_near : ∀ k s, Ev.claim k s ∈ twice → k < 3 := by
  have h : twice.all (fun e => match e with | .claim k _ => decide (k < 3) | .step _ => true) = true := by decide +kernel
  intro k s hm
  have := List.all_eq_true.mp h _ hm
  simpa using this

theorem both_idle : Idle (hist two both) := idle_of both 3 both_near (by decide +kernel)

theorem twice_idle : Idle (hist vs twice) := idle_of twice 3 twice_near (by decide +kernel)

example : given (hist two both) .x = 1 ∧ given (hist two both) .o = 1 ∧ (hist two both).starts = 2 ∧
    (hist two both).answers = [(.x, some 11), (.o, some 22), (.x, none)] := by decide +kernel

example : Idle (hist two both) := both_idle

example : All two Single both := all_single 3 both both_near (by decide +kernel)

/-- One claim after the other. -/
def inTurn : List Ev := play ([.claim 0 .x] ++ List.replicate 6 (.step 0) ++ [.claim 1 .o] ++ List.replicate 6 (.step 1))

example : All two Alone inTurn := by
  simp only [inTurn, play, List.replicate, List.cons_append, List.nil_append, List.reverse_cons, List.reverse_nil, All, Alone, and_true, true_and]
  refine ⟨?_, fun _ => rfl⟩
  exact idle_of _ 1 (by intro k s h; simp at h; omega) (by decide +kernel)

example : (hist two inTurn).starts = 1 ∧ given (hist two inTurn) .x = 1 ∧ given (hist two inTurn) .o = 1 := by decide +kernel

/-- C136 fails: two clients that claim the same seat at the same time both get it, and the engine that begins is started twice. -/
theorem C136_violated : ¬ C136Full := by
  intro h
  have := (h vs twice ⟨.o, by decide⟩ twice_idle).1 .o
  revert this
  decide +kernel

theorem C136_violated_twice :
    ∃ ids es, (∃ s, ids s ≠ 0) ∧ (∃ s, ids s = 0) ∧ Idle (hist ids es) ∧ (hist ids es).starts = 2 ∧ given (hist ids es) .o = 2 :=
  ⟨vs, twice, ⟨.o, by decide⟩, ⟨.x, by decide⟩, twice_idle, by decide +kernel, by decide +kernel⟩

end Abc.ClaimRace
