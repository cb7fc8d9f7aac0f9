import Verif.Log.Props

/-! # The test framework, `src/test.h`

`test_suite::run` (300-394), `srand` (398-405).  A test is a function of its context and of the world, which holds
the state of the random generator of the C library and everything else (`ω`).  It returns, throws an exception
derived from `std::exception`, or throws something else; the last ends the process, since `run` is `noexcept`.
The texts of log entries are kept as constructors instead of formatted and coloured strings. -/

namespace Abc.Testing

open Abc.Log Abc.Ascii

/-- `std::srand`, `std::rand` and `RAND_MAX`. -/
structure Gen (σ : Type) where
  srand : Nat → σ
  rand : σ → Nat × σ
  max : Nat

/-- How a test method ends. -/
inductive Res where
  | returned (passed : Bool)
  | threw (what : String)
  | alien
deriving DecidableEq

/-- What the suite puts into the log (300-394), and what the tests put there themselves (`own`). -/
inductive Text where
  | blank
  | category (name : String)
  | start (name : String)
  | exception (what : String)
  | verdict (pass : Bool) (name : String)
  | categoryVerdict (pass : Bool) (name : String)
  | summary
  | seed (n : Nat)
  | summaryVerdict (pass : Bool)
  | own (text : String)
deriving DecidableEq

/-- An entry, with its severity. -/
structure Entry where
  severity : Byte
  text : Text
deriving DecidableEq

/-- `test_context`, 98-102; the log and the path of the process belong to the world. -/
structure Ctx where
  category : String
  method : String
  seed : Nat

/-- `test_method`, 114: the result, the world afterwards and the entries the test made. -/
abbrev Test (W : Type) := Ctx → W → Res × W × List (Byte × String)

/-- `named_test_category`, 131-135. -/
structure Cat (W : Type) where
  name : String
  tests : List (String × Test W)

/-- `test_suite`, 175-179. -/
structure Suite (W : Type) where
  cats : List (Cat W)
  log : Bool
  seed : Nat

/-- What `run` leaves behind: its result, the log, the world and the member `seed`. -/
structure Out (W : Type) where
  passed : Bool
  log : List Entry
  world : W
  seed : Nat

/-- `if (log != nullptr) { log->put… }`. -/
def put (log : Bool) (es out : List Entry) : List Entry := if log then out ++ es else out

/-- `severity::critical` and `severity::warning`, `src/i/log.i.h` 63-64. -/
def critical : Byte := 1
def warning : Byte := 2

variable {W : Type}

/-- One test method, 321-348: `none` if the process ends. -/
def runTest (log : Bool) (seed : Nat) (cat : String) (t : String × Test W) (out : List Entry) (w : W) : Option (Bool × List Entry × W) :=
  let out := put log [⟨warning, .start t.1⟩] out
  match t.2 ⟨cat, t.1, seed⟩ w with
  | (.alien, _, _) => none
  | (.returned b, w', es) =>
    let out := put log (es.map fun e => ⟨e.1, .own e.2⟩) out
    some (b, put log [⟨critical, .verdict b t.1⟩] out, w')
  | (.threw what, w', es) =>
    let out := put log (es.map fun e => ⟨e.1, .own e.2⟩) out
    let out := put log [⟨critical, .exception what⟩] out
    some (false, put log [⟨critical, .verdict false t.1⟩] out, w')

/-- The loop over the methods of a category, 313-350. -/
def runTests (log : Bool) (seed : Nat) (cat : String) : List (String × Test W) → Bool → List Entry → W → Option (Bool × List Entry × W)
  | [], passed, out, w => some (passed, out, w)
  | t :: ts, passed, out, w =>
    match runTest log seed cat t out w with
    | none => none
    | some (b, out, w) => runTests log seed cat ts (passed && b) out w

/-- The loop over the categories, 312-367. -/
def runCats (log : Bool) (seed : Nat) : List (Cat W) → Bool → List Entry → W → Option (Bool × List Entry × W)
  | [], passed, out, w => some (passed, out, w)
  | c :: cs, passed, out, w =>
    match runTests log seed c.name c.tests true (put log [⟨critical, .category c.name⟩] out) w with
    | none => none
    | some (b, out, w) =>
      let out := put log [⟨critical, .categoryVerdict b c.name⟩] out
      let out := put log [⟨critical, .blank⟩] out
      runCats log seed cs (passed && b) out w

variable {σ ω : Type}

/-- `srand`, 398-405: the seed and the state of the generator afterwards. -/
def srand (g : Gen σ) (clock seed : Nat) : Nat × σ :=
  if seed = 0 then
    let s := (g.rand (g.srand (clock % g.max))).1
    (s, g.srand s)
  else (seed, g.srand seed)

/-- `run`, 300-394, at the instant `clock`, in a world whose generator has any state. -/
def run (g : Gen σ) (clock : Nat) (s : Suite (σ × ω)) (rest : ω) : Option (Out (σ × ω)) :=
  let (seed, gen) := srand g clock s.seed
  let blanks : List Entry := [⟨critical, .blank⟩, ⟨critical, .blank⟩, ⟨critical, .blank⟩]
  match runCats s.log seed s.cats true (put s.log blanks []) (gen, rest) with
  | none => none
  | some (passed, out, w) =>
    let out := put s.log [⟨critical, .blank⟩, ⟨critical, .summary⟩, ⟨warning, .seed seed⟩] out
    let out := put s.log [⟨critical, .summaryVerdict passed⟩] out
    let out := put s.log blanks out
    some ⟨passed, out, w, seed⟩

/-- `main` of the tests, `test/main.cpp` 196-198. -/
def exitCode (o : Out W) : Nat := if o.passed then 0 else 1

/-! ### What is expected -/

/-- Whether a test counts as passed: it returned true. -/
def Res.good : Res → Bool
  | .returned b => b
  | _ => false

/-- The tests of a category, one after the other, each in the world the one before left. -/
inductive RanTests (seed : Nat) (cat : String) : List (String × Test W) → W → List Bool → W → Prop where
  | nil (w : W) : RanTests seed cat [] w [] w
  | cons {n : String} {t : Test W} {ts : List (String × Test W)} {w w' : W} {r : Res} {w1 : W} {es : List (Byte × String)} {rs : List Bool} :
      t ⟨cat, n, seed⟩ w = (r, w1, es) → r ≠ .alien → RanTests seed cat ts w1 rs w' → RanTests seed cat ((n, t) :: ts) w (r.good :: rs) w'

/-- The categories, one after the other. -/
inductive Ran (seed : Nat) : List (Cat W) → W → List (List Bool) → W → Prop where
  | nil (w : W) : Ran seed [] w [] w
  | cons {c : Cat W} {cs : List (Cat W)} {w w1 w' : W} {r : List Bool} {rs : List (List Bool)} :
      RanTests seed c.name c.tests w r w1 → Ran seed cs w1 rs w' → Ran seed (c :: cs) w (r :: rs) w'

/-- The verdicts on tests a log shows. -/
def verdicts (log : List Entry) : List (Bool × String) :=
  log.filterMap fun e => match e.text with | .verdict b n => some (b, n) | _ => none

/-- The verdicts on categories a log shows. -/
def categoryVerdicts (log : List Entry) : List (Bool × String) :=
  log.filterMap fun e => match e.text with | .categoryVerdict b n => some (b, n) | _ => none

/-- The verdicts on the whole a log shows. -/
def summaryVerdicts (log : List Entry) : List Bool :=
  log.filterMap fun e => match e.text with | .summaryVerdict b => some b | _ => none

/-- The seeds a log shows. -/
def seeds (log : List Entry) : List Nat :=
  log.filterMap fun e => match e.text with | .seed n => some n | _ => none

/-- The entries a filter lets through. -/
def shown (f : Byte) (log : List Entry) : List Entry := log.filter fun e => isEnabled f 0xffff e.severity

/-- The names of all tests, in order. -/
def names (cats : List (Cat W)) : List String := cats.flatMap fun c => c.tests.map (·.1)

/-- What `run` reports: each test was run once, in order, in the world left by the one before, starting from the
seed that is reported; the result is the conjunction of the results; and, at every setting of the filter that shows
critical entries, the log shows one verdict for each test, one for each category and one for the whole. -/
def Reports (g : Gen σ) (s : Suite (σ × ω)) (rest : ω) (o : Out (σ × ω)) : Prop :=
  ∃ rs : List (List Bool), Ran o.seed s.cats (g.srand o.seed, rest) rs o.world ∧
    (exitCode o = 0 ↔ ∀ r ∈ rs, ∀ b ∈ r, b = true) ∧
    (s.log = false → o.log = []) ∧
    (s.log = true → ∀ f : Byte, 1 ≤ f.toNat → verdicts (shown f o.log) = rs.flatten.zip (names s.cats) ∧
      categoryVerdicts (shown f o.log) = (rs.map fun r => r.all id).zip (s.cats.map (·.name)) ∧
      summaryVerdicts (shown f o.log) = [o.passed])

/-! ### Proof -/

/-- The parts of a log that concern us. -/
structure View where
  v : List (Bool × String)
  c : List (Bool × String)
  s : List Bool
  n : List Nat

def view (f : Byte) (log : List Entry) : View :=
  ⟨verdicts (shown f log), categoryVerdicts (shown f log), summaryVerdicts (shown f log), seeds (shown f log)⟩

theorem view_append (f : Byte) (a b : List Entry) : view f (a ++ b) =
    ⟨(view f a).v ++ (view f b).v, (view f a).c ++ (view f b).c, (view f a).s ++ (view f b).s, (view f a).n ++ (view f b).n⟩ := by
  unfold view shown verdicts categoryVerdicts summaryVerdicts seeds
  simp only [List.filter_append, List.filterMap_append]

theorem view_own (f : Byte) (es : List (Byte × String)) : view f (es.map fun e => ⟨e.1, .own e.2⟩) = ⟨[], [], [], []⟩ := by
  induction es with
  | nil => rfl
  | cons e es ih =>
    have h : (List.map (fun e : Byte × String => (⟨e.1, .own e.2⟩ : Entry)) (e :: es)) = [⟨e.1, .own e.2⟩] ++ es.map (fun e => ⟨e.1, .own e.2⟩) := rfl
    rw [h, view_append, ih]
    unfold view shown verdicts categoryVerdicts summaryVerdicts seeds
    cases h2 : isEnabled f 0xffff e.1 <;> simp [List.filter, h2]

theorem enabled_critical {f : Byte} (h : 1 ≤ f.toNat) : isEnabled f 0xffff critical = true := by
  unfold isEnabled isHigherOrEqual critical
  exact decide_eq_true (UInt8.le_iff_toNat_le.2 h)

/-- One entry. -/
theorem view_one (f : Byte) (sev : Byte) (t : Text) : view f [⟨sev, t⟩] = if isEnabled f 0xffff sev then
    ⟨(match t with | .verdict b n => [(b, n)] | _ => []), (match t with | .categoryVerdict b n => [(b, n)] | _ => []),
      (match t with | .summaryVerdict b => [b] | _ => []), (match t with | .seed n => [n] | _ => [])⟩ else ⟨[], [], [], []⟩ := by
  unfold view shown verdicts categoryVerdicts summaryVerdicts seeds
  cases h2 : isEnabled f 0xffff sev <;> cases t <;> simp [List.filter, h2]

theorem runTest_spec (log : Bool) (seed : Nat) (cat : String) (t : String × Test W) (out : List Entry) (w : W) :
    match t.2 ⟨cat, t.1, seed⟩ w with
    | (.alien, _, _) => runTest log seed cat t out w = none
    | (r, w1, _) => ∃ out', runTest log seed cat t out w = some (r.good, out', w1) ∧ (log = false → out' = out) ∧
        (log = true → ∀ f : Byte, 1 ≤ f.toNat → view f out' = ⟨(view f out).v ++ [(r.good, t.1)], (view f out).c, (view f out).s, (view f out).n⟩) := by
  unfold runTest
  rcases h : t.2 ⟨cat, t.1, seed⟩ w with ⟨r, w1, es⟩
  cases r with
  | alien => rfl
  | returned b =>
    refine ⟨_, rfl, ?_, ?_⟩
    · rintro rfl; rfl
    · rintro rfl f hf
      simp only [put, if_true]
      rw [view_append, view_append, view_append, view_own, view_one, view_one]
      rw [enabled_critical hf]
      cases isEnabled f 0xffff warning <;> simp [Res.good]
  | threw what =>
    refine ⟨_, rfl, ?_, ?_⟩
    · rintro rfl; rfl
    · rintro rfl f hf
      simp only [put, if_true]
      rw [view_append, view_append, view_append, view_append, view_own, view_one, view_one, view_one]
      rw [enabled_critical hf]
      cases isEnabled f 0xffff warning <;> simp [Res.good]

theorem runTests_spec (log : Bool) (seed : Nat) (cat : String) : ∀ (ts : List (String × Test W)) (passed : Bool) (out : List Entry) (w : W),
    (∀ t ∈ ts, ∀ c w, (t.2 c w).1 ≠ .alien) → ∃ rs out' w', runTests log seed cat ts passed out w = some (passed && rs.all id, out', w') ∧ RanTests seed cat ts w rs w' ∧
      (log = false → out' = out) ∧ rs.length = ts.length ∧
      (log = true → ∀ f : Byte, 1 ≤ f.toNat → view f out' = ⟨(view f out).v ++ rs.zip (ts.map (·.1)), (view f out).c, (view f out).s, (view f out).n⟩) := by
  intro ts
  induction ts with
  | nil => intro passed out w _; exact ⟨[], out, w, by simp [runTests], .nil w, fun _ => rfl, rfl, by simp⟩
  | cons t ts ih =>
    intro passed out w ha
    have h1 := runTest_spec log seed cat t out w
    have hne := ha t (by simp) ⟨cat, t.1, seed⟩ w
    rcases ht : t.2 ⟨cat, t.1, seed⟩ w with ⟨r, w1, es⟩
    rw [ht] at h1 hne
    have h2 : ∃ out', runTest log seed cat t out w = some (r.good, out', w1) ∧ (log = false → out' = out) ∧
        (log = true → ∀ f : Byte, 1 ≤ f.toNat → view f out' = ⟨(view f out).v ++ [(r.good, t.1)], (view f out).c, (view f out).s, (view f out).n⟩) := by
      cases r with
      | alien => exact absurd rfl hne
      | returned b => exact h1
      | threw what => exact h1
    obtain ⟨out1, e1, l1, v1⟩ := h2
    obtain ⟨rs, out', w', e2, p2, l2, n2, v2⟩ := ih (passed && r.good) out1 w1 (fun t ht => ha t (by simp [ht]))
    refine ⟨r.good :: rs, out', w', ?_, .cons ht hne p2, fun h => (l2 h).trans (l1 h), by simp [n2], fun h f hf => ?_⟩
    · unfold runTests
      rw [e1]
      simp only [e2, List.all_cons, id, Bool.and_assoc]
    · rw [v2 h f hf, v1 h f hf]
      simp

theorem runCats_spec (log : Bool) (seed : Nat) : ∀ (cs : List (Cat W)) (passed : Bool) (out : List Entry) (w : W),
    (∀ c ∈ cs, ∀ t ∈ c.tests, ∀ x w, (t.2 x w).1 ≠ .alien) → ∃ rs out' w', runCats log seed cs passed out w = some (passed && rs.all (·.all id), out', w') ∧ Ran seed cs w rs w' ∧
      (log = false → out' = out) ∧
      (log = true → ∀ f : Byte, 1 ≤ f.toNat → view f out' = ⟨(view f out).v ++ rs.flatten.zip (names cs), (view f out).c ++ (rs.map fun r => r.all id).zip (cs.map (·.name)),
        (view f out).s, (view f out).n⟩) := by
  intro cs
  induction cs with
  | nil => intro passed out w _; exact ⟨[], out, w, by simp [runCats], .nil w, fun _ => rfl, by simp [names]⟩
  | cons c cs ih =>
    intro passed out w ha
    obtain ⟨r, out1, w1, e1, p1, l1, n1, v1⟩ := runTests_spec log seed c.name c.tests true (put log [⟨critical, .category c.name⟩] out) w (ha c (by simp))
    obtain ⟨rs, out', w', e2, p2, l2, v2⟩ := ih (passed && r.all id) (put log [⟨critical, .blank⟩] (put log [⟨critical, .categoryVerdict (r.all id) c.name⟩] out1)) w1
      (fun c hc => ha c (by simp [hc]))
    refine ⟨r :: rs, out', w', ?_, .cons p1 p2, fun h => ?_, fun h f hf => ?_⟩
    · unfold runCats
      rw [e1]
      simp only [Bool.true_and, e2, List.all_cons, Bool.and_assoc]
    · subst h
      rw [l2 rfl]
      show out1 = out
      rw [l1 rfl]; rfl
    · subst h
      rw [v2 rfl f hf]
      simp only [put, if_true]
      rw [view_append, view_append, v1 rfl f hf, view_one, view_one, enabled_critical hf]
      simp only [put, if_true]
      rw [view_append, view_one, enabled_critical hf]
      simp only [if_true, List.append_nil, names, List.flatMap_cons, List.flatten_cons, List.map_cons, List.zip_cons_cons, List.append_assoc, List.singleton_append]
      rw [List.zip_append (by simp [n1])]

theorem srand_gen (g : Gen σ) (clock seed : Nat) : (srand g clock seed).2 = g.srand (srand g clock seed).1 := by
  unfold srand; split <;> rfl

/-- `run` and what it shows. -/
theorem run_spec (g : Gen σ) (clock : Nat) (s : Suite (σ × ω)) (rest : ω) (ha : ∀ c ∈ s.cats, ∀ t ∈ c.tests, ∀ x w, (t.2 x w).1 ≠ .alien) :
    ∃ o, run g clock s rest = some o ∧ Reports g s rest o ∧ o.seed = (srand g clock s.seed).1 ∧
      (s.log = true → ∀ f : Byte, 1 ≤ f.toNat → seeds (shown f o.log) = if 2 ≤ f.toNat then [o.seed] else []) := by
  obtain ⟨rs, out', w', e, p, l, v⟩ := runCats_spec s.log (srand g clock s.seed).1 s.cats true
    (put s.log [⟨critical, .blank⟩, ⟨critical, .blank⟩, ⟨critical, .blank⟩] []) ((srand g clock s.seed).2, rest) ha
  have hw : ∀ f : Byte, isEnabled f 0xffff warning = decide (2 ≤ f.toNat) := by
    intro f
    unfold isEnabled isHigherOrEqual warning
    exact decide_eq_decide.2 UInt8.le_iff_toNat_le
  have hv : s.log = true → ∀ f : Byte, 1 ≤ f.toNat → view f
      (put s.log [⟨critical, .blank⟩, ⟨critical, .blank⟩, ⟨critical, .blank⟩] (put s.log [⟨critical, .summaryVerdict (rs.all (·.all id))⟩]
        (put s.log [⟨critical, .blank⟩, ⟨critical, .summary⟩, ⟨warning, .seed (srand g clock s.seed).1⟩] out'))) =
      ⟨rs.flatten.zip (names s.cats), (rs.map fun r => r.all id).zip (s.cats.map (·.name)), [rs.all (·.all id)],
        if 2 ≤ f.toNat then [(srand g clock s.seed).1] else []⟩ := by
    intro h f hf
    have h3 : ∀ a b c : Entry, [a, b, c] = [a] ++ ([b] ++ [c]) := fun _ _ _ => rfl
    rw [h]
    simp only [put, if_true]
    rw [view_append, view_append, view_append, v h f hf, h3, h3, h]
    simp only [put, if_true, List.nil_append]
    simp only [view_append, view_one, enabled_critical hf, hw f]
    by_cases h2 : 2 ≤ f.toNat <;> simp [h2]
  refine ⟨⟨rs.all (·.all id), put s.log [⟨critical, .blank⟩, ⟨critical, .blank⟩, ⟨critical, .blank⟩] (put s.log [⟨critical, .summaryVerdict (rs.all (·.all id))⟩]
        (put s.log [⟨critical, .blank⟩, ⟨critical, .summary⟩, ⟨warning, .seed (srand g clock s.seed).1⟩] out')), w', (srand g clock s.seed).1⟩, ?_, ⟨rs, ?_, ?_, ?_, ?_⟩, rfl, ?_⟩
  · unfold run
    simp only [e, Bool.true_and]
  · rw [← srand_gen]; exact p
  · unfold exitCode
    cases h : rs.all (·.all id)
    · simp only [Bool.false_eq_true, if_false]
      constructor
      · intro h; exact absurd h (by decide)
      · intro h2
        rw [List.all_eq_false] at h
        obtain ⟨r, hr, hx⟩ := h
        exact absurd (List.all_eq_true.2 (fun b hb => h2 r hr b hb)) hx
    · simp only [if_true, true_iff]
      intro r hr b hb
      exact List.all_eq_true.1 (List.all_eq_true.1 h r hr) b hb
  · intro h
    have := l h
    rw [h] at this ⊢
    simpa [put] using this
  · intro h f hf
    have hh := hv h f hf
    exact ⟨congrArg View.v hh, congrArg View.c hh, congrArg View.s hh⟩
  · intro h f hf
    exact congrArg View.n (hv h f hf)

/-! ### The properties -/

/-- The whole claim: `run` reports on all tests, whatever they do. -/
def C113Full : Prop := ∀ (σ ω : Type) (g : Gen σ) (clock : Nat) (s : Suite (σ × ω)) (rest : ω), ∃ o, run g clock s rest = some o ∧ Reports g s rest o

/-- C113, for tests that return or throw exceptions derived from `std::exception`. -/
theorem C113_reports_partial (g : Gen σ) (clock : Nat) (s : Suite (σ × ω)) (rest : ω) (ha : ∀ c ∈ s.cats, ∀ t ∈ c.tests, ∀ x w, (t.2 x w).1 ≠ .alien) :
    ∃ o, run g clock s rest = some o ∧ Reports g s rest o := by
  obtain ⟨o, h1, h2, _⟩ := run_spec g clock s rest ha
  exact ⟨o, h1, h2⟩

/-- Any other exception ends the process; whatever the tests before and after it do, nothing is returned. -/
theorem runTests_alien (log : Bool) (seed : Nat) (cat : String) (t : String × Test W) (h : ∀ x w, (t.2 x w).1 = .alien) (post : List (String × Test W)) :
    ∀ (pre : List (String × Test W)) (passed : Bool) (out : List Entry) (w : W), runTests log seed cat (pre ++ t :: post) passed out w = none := by
  intro pre
  induction pre with
  | nil =>
    intro passed out w
    simp only [List.nil_append]
    unfold runTests
    have h1 := runTest_spec log seed cat t out w
    have h2 := h ⟨cat, t.1, seed⟩ w
    rcases ht : t.2 ⟨cat, t.1, seed⟩ w with ⟨r, w1, es⟩
    rw [ht] at h1 h2
    subst h2
    rw [h1]
  | cons a pre ih =>
    intro passed out w
    rw [List.cons_append]
    unfold runTests
    cases runTest log seed cat a out w with
    | none => rfl
    | some x => exact ih _ _ _

theorem C113_violated_alien (g : Gen σ) (clock : Nat) (s : Suite (σ × ω)) (rest : ω) (c : Cat (σ × ω)) (hc : c ∈ s.cats) (t : String × Test (σ × ω)) (ht : t ∈ c.tests)
    (h : ∀ x w, (t.2 x w).1 = .alien) : run g clock s rest = none := by
  have hcs : ∀ (cs : List (Cat (σ × ω))), c ∈ cs → ∀ (seed : Nat) (passed : Bool) (out : List Entry) (w : σ × ω), runCats s.log seed cs passed out w = none := by
    intro cs
    induction cs with
    | nil => intro h; simp at h
    | cons a cs ih =>
      intro hm seed passed out w
      unfold runCats
      by_cases hac : c = a
      · subst hac
        obtain ⟨pre, post, hp⟩ := List.append_of_mem ht
        rw [hp, runTests_alien s.log seed c.name t h post pre]
      · have hm' : c ∈ cs := by
          rcases List.mem_cons.1 hm with h | h
          · exact absurd h hac
          · exact h
        cases runTests s.log seed a.name a.tests true (put s.log [⟨critical, .category a.name⟩] out) w with
        | none => rfl
        | some x => exact ih hm' _ _ _ _
  unfold run
  simp only [hcs s.cats hc]

/-- A generator that counts. -/
def counter : Gen Nat := ⟨id, fun n => (n, n + 1), 2147483647⟩

/-- A test that passes if the next random number is even. -/
def evenTest : Test (Nat × Unit) := fun _ w => (.returned ((counter.rand w.1).1 % 2 == 0), ((counter.rand w.1).2, w.2), [(3, "drawn")])

/-- A test that throws an exception. -/
def throwTest : Test (Nat × Unit) := fun _ w => (.threw "oops", w, [])

/-- A test that throws a number. -/
def alienTest : Test (Nat × Unit) := fun _ w => (.alien, w, [])

example : ∃ o, run counter 6 ⟨[⟨"a", [("x", evenTest), ("y", evenTest), ("z", throwTest)]⟩, ⟨"b", [("u", evenTest)]⟩], true, 0⟩ () = some o ∧
    exitCode o = 1 ∧ o.seed = 6 ∧ o.world.1 = 9 ∧ verdicts (shown 1 o.log) = [(true, "x"), (false, "y"), (false, "z"), (true, "u")] ∧
    categoryVerdicts (shown 1 o.log) = [(false, "a"), (true, "b")] := by
  refine ⟨_, rfl, ?_⟩
  decide

theorem C113_violated : ¬ C113Full := by
  intro h
  obtain ⟨o, h1, _⟩ := h Nat Unit counter 5 ⟨[⟨"a", [("x", evenTest), ("y", alienTest)]⟩], true, 0⟩ ()
  rw [C113_violated_alien counter 5 _ () ⟨"a", [("x", evenTest), ("y", alienTest)]⟩ (by simp) ("y", alienTest) (by simp) (fun _ _ => rfl)] at h1
  simp at h1

/-- The whole claim: a run can be repeated, at any time, with the seed it used. -/
def C114Full : Prop := ∀ (σ ω : Type) (g : Gen σ) (clock clock' : Nat) (s : Suite (σ × ω)) (rest : ω) (o : Out (σ × ω)),
  run g clock s rest = some o → run g clock' { s with seed := o.seed } rest = some o

/-- C114, for seeds other than 0: the run is the same at any time, in all its results and log entries; and so is
running the same suite object once more. -/
theorem C114_repeat_partial (g : Gen σ) (clock clock' : Nat) (s : Suite (σ × ω)) (rest : ω) (o : Out (σ × ω)) (h : run g clock s rest = some o) (h0 : o.seed ≠ 0) :
    run g clock' { s with seed := o.seed } rest = some o ∧ (s.seed ≠ 0 → o.seed = s.seed) := by
  have hs : o.seed = (srand g clock s.seed).1 := by
    unfold run at h
    simp only at h
    generalize runCats s.log _ s.cats true _ _ = x at h
    cases x with
    | none => simp at h
    | some x => simp only [Option.some.injEq] at h; rw [← h]
  have h1 : srand g clock' o.seed = srand g clock s.seed := by
    have h2 := srand_gen g clock s.seed
    unfold srand
    rw [if_neg h0]
    rw [← hs] at h2
    exact Prod.ext hs h2.symm
  constructor
  · rw [← h]
    unfold run
    simp only [h1]
  · intro h2
    rw [hs]; unfold srand; rw [if_neg h2]

example : ∃ o, run counter 6 ⟨[⟨"a", [("x", evenTest)]⟩], true, 0⟩ () = some o ∧ o.seed ≠ 0 ∧ o.passed = true := by
  refine ⟨_, rfl, ?_⟩
  decide

/-- Whenever the first random number is 0, the run cannot be repeated: the seed reported is 0, which asks for
another random seed. -/
theorem C114_violated_zero (g : Gen σ) (clock clock' : Nat) (s : Suite (σ × ω)) (rest : ω) (o : Out (σ × ω)) (hs : s.seed = 0) (h : run g clock s rest = some o)
    (h0 : (g.rand (g.srand (clock % g.max))).1 = 0) :
    o.seed = 0 ∧ ∀ o', run g clock' { s with seed := o.seed } rest = some o' → o'.seed = (g.rand (g.srand (clock' % g.max))).1 := by
  have key : ∀ (c : Nat) (s : Suite (σ × ω)) (o : Out (σ × ω)), run g c s rest = some o → o.seed = (srand g c s.seed).1 := by
    intro c s o h
    unfold run at h
    simp only at h
    generalize runCats s.log _ s.cats true _ _ = x at h
    cases x with
    | none => simp at h
    | some x => simp only [Option.some.injEq] at h; rw [← h]
  have e : o.seed = 0 := by
    rw [key _ _ _ h, hs]; unfold srand; simpa using h0
  refine ⟨e, fun o' h' => ?_⟩
  rw [key _ _ _ h']
  show (srand g clock' o.seed).1 = _
  rw [e]; unfold srand; simp

example : (counter.rand (counter.srand (2147483647 % counter.max))).1 = 0 ∧ (counter.rand (counter.srand (5 % counter.max))).1 = 5 := by decide

theorem C114_violated : ¬ C114Full := by
  intro h
  have h1 : run counter 0 ⟨[⟨"a", [("x", evenTest)]⟩], false, 0⟩ () = some ⟨true, [], (1, ()), 0⟩ := rfl
  have h2 : run counter 1 ⟨[⟨"a", [("x", evenTest)]⟩], false, 0⟩ () = some ⟨false, [], (2, ()), 1⟩ := rfl
  have := h Nat Unit counter 0 1 _ () _ h1
  rw [show ({ cats := [⟨"a", [("x", evenTest)]⟩], log := false, seed := 0 } : Suite (Nat × Unit)) = ⟨[⟨"a", [("x", evenTest)]⟩], false, 0⟩ from rfl] at this
  rw [h2] at this
  simp at this

/-- What the log says about the seed: the entry is there exactly once if the filter shows warnings.  The tests of
abc use a filter that shows critical entries only (`test/main.cpp` 43): with it no run shows its seed. -/
theorem C114_seed_shown (g : Gen σ) (clock : Nat) (s : Suite (σ × ω)) (rest : ω) (hl : s.log = true) (ha : ∀ c ∈ s.cats, ∀ t ∈ c.tests, ∀ x w, (t.2 x w).1 ≠ .alien) :
    ∃ o, run g clock s rest = some o ∧ (∀ f : Byte, 2 ≤ f.toNat → seeds (shown f o.log) = [o.seed]) ∧ seeds (shown critical o.log) = [] := by
  obtain ⟨o, h1, _, _, h2⟩ := run_spec g clock s rest ha
  refine ⟨o, h1, fun f hf => ?_, ?_⟩
  · rw [h2 hl f (by omega), if_pos hf]
  · rw [h2 hl critical (by decide), if_neg (by decide)]

example : ∀ c ∈ [(⟨"a", [("x", evenTest), ("z", throwTest)]⟩ : Cat (Nat × Unit))], ∀ t ∈ c.tests, ∀ x w, (t.2 x w).1 ≠ .alien := by
  intro c hc t ht x w
  simp only [List.mem_singleton] at hc
  subst hc
  rcases List.mem_cons.1 ht with rfl | ht
  · simp [evenTest]
  · simp only [List.mem_singleton] at ht
    subst ht
    simp [throwTest]

end Abc.Testing
