import Verif.Json.Read

/-!
# Where the reader stays inside its blocks, and where it returns
-/

namespace Abc.Json

open Abc.Ascii Abc.Stream Spec

/-- Not undefined behaviour, and `P` if it returned. -/
def Safe {α : Type} (P : α → Prop) : Res α → Prop
  | .ok a => P a
  | .ub => False
  | .running => True

theorem Safe.bind {α β : Type} {P : α → Prop} {Q : β → Prop} {r : Res α} {f : α → Res β} (h : Safe P r)
    (hf : ∀ a, P a → Safe Q (f a)) : Safe Q (r.bind f) := by
  cases r with
  | ok a => exact hf a h
  | ub => exact h
  | running => trivial

theorem Safe.mono {α : Type} {P Q : α → Prop} {r : Res α} (h : Safe P r) (hpq : ∀ a, P a → Q a) : Safe Q r := by
  cases r with
  | ok a => exact hpq a h
  | ub => exact h
  | running => trivial

/-- It returned (or its behaviour is undefined). -/
def Returned {α : Type} (r : Res α) : Prop := r ≠ .running

theorem Returned.bind {α β : Type} {r : Res α} {f : α → Res β} (h : Returned r)
    (hf : ∀ a, r = .ok a → Returned (f a)) : Returned (r.bind f) := by
  cases r with
  | ok a => exact hf a rfl
  | ub => simp [Returned]
  | running => exact absurd rfl h

theorem returned_ok {α : Type} (a : α) : Returned (.ok a) := by simp [Returned]

/-! ## `get_chars` and `skip_chars` from any state -/

theorem getCharsLoop_returned {valid pred : Byte → Bool} {off size : Nat} (fuel : Nat) :
    ∀ (s : In) (mem : List Byte) (n : Nat), s.meas < fuel →
      Returned (getCharsLoop valid pred off size fuel s mem n) ∧
      ∀ g, getCharsLoop valid pred off size fuel s mem n = .ok g → g.s.meas ≤ s.meas := by
  induction fuel with
  | zero => intro s mem n h; omega
  | succ f ih =>
    intro s mem n hf
    have hend : ∀ s' : In, s'.meas ≤ s.meas → Returned (getCharsEnd off s' mem n) ∧
        ∀ g, getCharsEnd off s' mem n = .ok g → g.s.meas ≤ s.meas := by
      intro s' hs
      unfold getCharsEnd wr
      split
      · refine ⟨returned_ok _, ?_⟩
        rintro g hg
        simp only [Res.ok_bind, Res.ok.injEq] at hg
        subst hg
        exact hs
      · exact ⟨by simp [Returned], by simp⟩
    unfold getCharsLoop
    split
    · rename_i hg
      have h1 := In.peekCharS_meas valid s
      split
      · split
        · refine hend _ ?_
          have h3 : ((s.peekCharS valid).setFail).meas ≤ (s.peekCharS valid).meas := by simp [In.meas]
          omega
        · have hlt := In.peek_get_meas valid hg
          unfold wr
          split
          · obtain ⟨h2, h3⟩ := ih (s.peekCharS valid).getS (mem.set (off + n) (s.peekCharS valid).getV) (n + 1) (by omega)
            exact ⟨h2, fun g hg => by have := h3 g hg; omega⟩
          · exact ⟨by simp [Returned], by simp⟩
      · exact hend _ h1
    · exact hend _ (Nat.le_refl _)

theorem getChars_returned {valid pred : Byte → Bool} {off size fuel : Nat} {s : In} {mem : List Byte} (h : s.meas < fuel) :
    Returned (getChars fuel valid pred s mem off size) ∧
      ∀ g, getChars fuel valid pred s mem off size = .ok g → g.s.meas ≤ s.meas :=
  getCharsLoop_returned fuel s mem 0 h

theorem meas_peekS (s : In) : s.peekS.meas ≤ s.meas := by
  have := In.peekCharS_meas valid s
  rwa [peekCharS_valid] at this

theorem meas_setBad (s : In) : s.setBad.meas ≤ s.meas := by simp [In.meas]

theorem wr_returned (mem : List Byte) (i : Nat) (c : Byte) : Returned (wr mem i c) := by
  unfold wr; split <;> simp [Returned]

theorem wrs_returned (w : List Byte) : ∀ (mem : List Byte) (i : Nat), Returned (wrs mem i w) := by
  induction w with
  | nil => intro mem i; exact returned_ok _
  | cons c w ih => intro mem i; exact (wr_returned _ _ _).bind fun m _ => ih m (i + 1)

/-! ## Returning: numbers -/

theorem numDigits_returned {fuel : Nat} {g : Got} (h : g.s.meas < fuel) :
    Returned (numDigits fuel g) ∧ ∀ x, numDigits fuel g = .ok x → x.s.meas ≤ g.s.meas := by
  obtain ⟨h1, h2⟩ := getChars_returned (valid := valid) (pred := isDigit) (off := g.n) (size := sub64 26 g.n) (mem := g.mem) h
  refine ⟨h1.bind fun a _ => returned_ok _, ?_⟩
  intro x hx
  unfold numDigits at hx
  cases hr : getChars fuel valid isDigit g.s g.mem g.n (sub64 26 g.n) with
  | ok y =>
    rw [hr] at hx
    simp only [Res.ok_bind, Res.ok.injEq] at hx
    subst hx
    exact h2 y hr
  | ub => rw [hr] at hx; simp at hx
  | running => rw [hr] at hx; simp at hx

theorem numSign_returned (g : Got) : Returned (numSign g) ∧ ∀ x, numSign g = .ok x → x.s.meas ≤ g.s.meas := by
  unfold numSign
  have h1 := meas_peekS g.s
  have h2 := In.getS_meas_le g.s.peekS
  split
  · unfold wr
    split
    · refine ⟨returned_ok _, ?_⟩
      rintro x hx
      simp only [Res.ok_bind, Res.ok.injEq] at hx
      subst hx
      dsimp only
      omega
    · exact ⟨by simp [Returned], by simp⟩
  · refine ⟨returned_ok _, ?_⟩
    rintro x hx
    simp only [Res.ok.injEq] at hx
    subst hx
    exact h1

theorem numFrac_returned {fuel : Nat} {g : Got} (h : g.s.meas < fuel) :
    Returned (numFrac fuel g) ∧ ∀ x, numFrac fuel g = .ok x → x.s.meas ≤ g.s.meas := by
  unfold numFrac
  have h1 := meas_peekS g.s
  have h2 := In.getS_meas_le g.s.peekS
  split
  · unfold wr
    split
    · simp only [Res.ok_bind]
      obtain ⟨h3, h4⟩ := numDigits_returned (fuel := fuel) (g := ⟨g.s.peekS.getS, g.mem.set g.n 46, g.n + 1⟩) (by dsimp only; omega)
      exact ⟨h3, fun x hx => by have := h4 x hx; dsimp only at this; omega⟩
    · exact ⟨by simp [Returned], by simp⟩
  · refine ⟨returned_ok _, ?_⟩
    rintro x hx
    simp only [Res.ok.injEq] at hx
    subst hx
    exact h1

theorem numExp_returned {fuel : Nat} {g : Got} (h : g.s.meas < fuel) :
    Returned (numExp fuel g) := by
  unfold numExp
  have h1 := meas_peekS g.s
  have h2 := In.getS_meas_le g.s.peekS
  split
  · refine (wr_returned _ _ _).bind fun m _ => ?_
    obtain ⟨h3, h4⟩ := numSign_returned ⟨g.s.peekS.getS, m, g.n + 1⟩
    refine h3.bind fun a ha => ?_
    have := h4 a ha
    dsimp only at this
    exact (numDigits_returned (by omega)).1
  · exact returned_ok _

theorem getNumber_returned {fuel : Nat} {s : In} (h : s.meas < fuel) : Returned (getNumber fuel s) := by
  unfold getNumber
  obtain ⟨h1, h2⟩ := numSign_returned ⟨s, List.replicate 26 0, 0⟩
  refine h1.bind fun a ha => ?_
  have ha := h2 a ha
  dsimp only at ha
  obtain ⟨h3, h4⟩ := numDigits_returned (fuel := fuel) (g := a) (by omega)
  refine h3.bind fun b hb => ?_
  have hb := h4 b hb
  obtain ⟨h5, h6⟩ := numFrac_returned (fuel := fuel) (g := b) (by omega)
  refine h5.bind fun c hc => ?_
  have hc := h6 c hc
  refine (numExp_returned (by omega)).bind fun d _ => ?_
  exact (wr_returned _ _ _).bind fun m _ => returned_ok _

/-! ## Returning: tokens -/

theorem getLiteral_meas (l : List Byte) : ∀ s : In, (getLiteral l s).meas ≤ s.meas := by
  induction l with
  | nil => intro s; exact Nat.le_refl _
  | cons c l ih =>
    intro s
    have h1 := In.getCharS_meas valid s
    rw [getLiteral]
    split
    · exact Nat.le_trans (meas_setBad _) h1
    · exact Nat.le_trans (ih _) h1

theorem bufBool_returned (b : Byte) (buf : Option (List Byte)) : Returned (bufBool b buf) := by
  cases buf with
  | none => exact returned_ok _
  | some mem => exact (wr_returned _ _ _).bind fun m _ => returned_ok _

theorem bufNumber_returned (atof : List Byte → List Byte) (d : List Byte) (buf : Option (List Byte)) :
    Returned (bufNumber atof d buf) := by
  cases buf with
  | none => exact returned_ok _
  | some mem => exact (wrs_returned _ _ _).bind fun m _ => returned_ok _

theorem bufItem_returned (i : Item) (buf : Option (List Byte)) : Returned (bufItem i buf) := by
  cases buf with
  | none => exact returned_ok _
  | some mem => exact (wrs_returned _ _ _).bind fun m _ => returned_ok _

theorem trailPart_returned {fuel : Nat} {p : Part} (h : p.s.meas < fuel) : Returned (trailPart fuel p) := by
  unfold trailPart
  split
  · obtain ⟨k, hk, _⟩ := skipChars_safe (valid := valid) (pred := jsonIsSpace) fuel p.s h
    rw [hk]
    simp only [Res.ok_bind]
    split
    · exact returned_ok _
    · split <;> exact returned_ok _
  · exact returned_ok _

/-- The string of this token (if it is a string) is read to its end. -/
def StringReturns (fuel size : Nat) (s : In) (buf : Option (List Byte)) : Prop :=
  ∃ x, tokString fuel size s buf = .ok x ∧ x.1.s.meas ≤ s.meas

theorem propPart_returned {fuel size : Nat} {ch : Byte} {s : In} {st : Jr} {buf : Option (List Byte)} (hf : s.meas < fuel)
    (hs : ch = 34 → StringReturns fuel size s buf) :
    Returned (propPart fuel size ch s st buf) ∧ ∀ p, propPart fuel size ch s st buf = .ok p → p.s.meas ≤ s.meas := by
  have hg := In.getS_meas_le s
  have hgb := meas_setBad s.getS
  have hb := meas_setBad s
  unfold propPart
  split
  · rename_i hc
    obtain ⟨x, hx, hm⟩ := hs hc
    rw [hx]
    simp only [Res.ok_bind]
    split
    · obtain ⟨k, hk, hk2⟩ := skipChars_safe (valid := valid) (pred := jsonIsSpace) fuel x.1.s (by omega)
      rw [hk]
      refine ⟨returned_ok _, ?_⟩
      rintro p hp
      simp only [Res.ok_bind, Res.ok.injEq] at hp
      subst hp
      dsimp only
      have h1 := meas_peekS k.s
      have h2 := In.getS_meas_le k.s.peekS
      have h3 := meas_setBad k.s.peekS
      split <;> omega
    · refine ⟨returned_ok _, ?_⟩
      rintro p hp
      simp only [Res.ok.injEq] at hp
      subst hp
      exact hm
  · split
    · split
      · refine ⟨returned_ok _, ?_⟩
        rintro p hp
        simp only [Res.ok.injEq] at hp
        subst hp
        exact hg
      · refine ⟨returned_ok _, ?_⟩
        rintro p hp
        simp only [Res.ok.injEq] at hp
        subst hp
        dsimp only
        omega
    · refine ⟨returned_ok _, ?_⟩
      rintro p hp
      simp only [Res.ok.injEq] at hp
      subst hp
      exact hb

theorem levelPart_meas {s : In} {st : Jr} {l : Option (List Bool)} {i : Item} {b : Option (List Byte)} {t : Bool} :
    (levelPart s st l i b t).s.meas ≤ s.meas := by
  unfold levelPart
  split
  · exact Nat.le_refl _
  · exact meas_setBad _

theorem getNumber_meas {fuel : Nat} {s : In} {g : Got} (h : s.meas < fuel) (hg : getNumber fuel s = .ok g) : g.s.meas ≤ s.meas := by
  unfold getNumber at hg
  obtain ⟨_, h2⟩ := numSign_returned ⟨s, List.replicate 26 0, 0⟩
  have bind_ok : ∀ {α β : Type} {r : Res α} {f : α → Res β} {b : β}, r.bind f = .ok b → ∃ a, r = .ok a ∧ f a = .ok b := by
    intro α β r f b h
    cases r with
    | ok a => exact ⟨a, rfl, h⟩
    | ub => cases h
    | running => cases h
  obtain ⟨a, ha, hg⟩ := bind_ok hg
  have ha := h2 a ha
  dsimp only at ha
  obtain ⟨b, hb, hg⟩ := bind_ok hg
  have hb := (numDigits_returned (fuel := fuel) (g := a) (by omega)).2 b hb
  obtain ⟨c, hc, hg⟩ := bind_ok hg
  have hc := (numFrac_returned (fuel := fuel) (g := b) (by omega)).2 c hc
  obtain ⟨d, hd, hg⟩ := bind_ok hg
  have hd : d.s.meas ≤ c.s.meas := by
    unfold numExp at hd
    have h1 := meas_peekS c.s
    have h2 := In.getS_meas_le c.s.peekS
    split at hd
    · obtain ⟨m, _, hd⟩ := bind_ok hd
      obtain ⟨e, he, hd⟩ := bind_ok hd
      have he := (numSign_returned _).2 e he
      dsimp only at he
      have := (numDigits_returned (fuel := fuel) (g := e) (by omega)).2 d hd
      omega
    · simp only [Res.ok.injEq] at hd
      subst hd
      exact h1
  obtain ⟨m, _, hg⟩ := bind_ok hg
  simp only [Res.ok.injEq] at hg
  subst hg
  dsimp only
  omega

theorem valuePart_returned {max : Nat} {atof : List Byte → List Byte} {fuel size : Nat} {ch : Byte} {s : In} {st : Jr}
    {buf : Option (List Byte)} (hf : s.meas < fuel) (hs : ch = 34 → StringReturns fuel size s buf) :
    Returned (valuePart max atof fuel size ch s st buf) ∧
      ∀ p, valuePart max atof fuel size ch s st buf = .ok p → p.s.meas ≤ s.meas := by
  have fin : ∀ (p : Part), p.s.meas ≤ s.meas → Returned (.ok p) ∧ ∀ q, Res.ok p = .ok q → q.s.meas ≤ s.meas := by
    intro p hp
    refine ⟨returned_ok _, ?_⟩
    rintro q hq
    simp only [Res.ok.injEq] at hq
    subst hq
    exact hp
  have fbuf : ∀ (r : Res (Option (List Byte))) (f : Option (List Byte) → Part), Returned r → (∀ b, (f b).s.meas ≤ s.meas) →
      Returned (r.bind fun b => .ok (f b)) ∧ ∀ q, (r.bind fun b => .ok (f b)) = .ok q → q.s.meas ≤ s.meas := by
    intro r f hr hfm
    cases r with
    | ok b => exact fin _ (hfm b)
    | ub => exact ⟨by simp [Returned], by simp⟩
    | running => exact absurd rfl hr
  have hg := In.getS_meas_le s
  unfold valuePart
  dsimp only
  split
  · exact fin _ (getLiteral_meas _ s)
  · split
    · split
      · exact fbuf _ _ (bufBool_returned _ _) fun b => getLiteral_meas _ s
      · exact fin _ (getLiteral_meas _ s)
    · split
      · split
        · exact fbuf _ _ (bufBool_returned _ _) fun b => getLiteral_meas _ s
        · exact fin _ (getLiteral_meas _ s)
      · split
        · cases hn : getNumber fuel s with
          | ok g => exact fbuf _ _ (bufNumber_returned _ _ _) fun b => getNumber_meas hf hn
          | ub => exact ⟨by simp [Returned], by simp⟩
          | running => exact absurd hn (getNumber_returned hf)
        · split
          · rename_i hc
            obtain ⟨x, hx, hm⟩ := hs hc
            rw [hx]
            exact fin _ hm
          · split
            · exact fin _ (Nat.le_trans levelPart_meas hg)
            · split
              · exact fin _ (Nat.le_trans levelPart_meas hg)
              · split
                · exact fin _ (Nat.le_trans levelPart_meas hg)
                · exact fin _ (meas_setBad s)

/-- A call returns when the string it meets (if it meets one) is read to its end. -/
theorem readToken_returned {max : Nat} {atof : List Byte → List Byte} {fuel size : Nat} {st : Jr} {buf : Option (List Byte)}
    (hf : st.s.meas < fuel)
    (hs : ∀ k, skipChars fuel valid jsonIsSpace st.s = .ok k → k.s.peekV = 34 → StringReturns fuel size k.s.peekS buf) :
    Returned (readToken max atof fuel st buf size) := by
  obtain ⟨k, hk, hkm⟩ := skipChars_safe (valid := valid) (pred := jsonIsSpace) fuel st.s hf
  have hp := meas_peekS k.s
  have hs := hs k hk
  unfold readToken
  rw [hk]
  simp only [Res.ok_bind]
  have key : Returned (if expectProperty st.expect st.levels then propPart fuel size k.s.peekV k.s.peekS st buf
      else valuePart max atof fuel size k.s.peekV k.s.peekS st buf) ∧
      ∀ p, (if expectProperty st.expect st.levels then propPart fuel size k.s.peekV k.s.peekS st buf
        else valuePart max atof fuel size k.s.peekV k.s.peekS st buf) = .ok p → p.s.meas ≤ k.s.peekS.meas := by
    split
    · exact propPart_returned (by omega) hs
    · exact valuePart_returned (by omega) hs
  refine key.1.bind fun p hpk => ?_
  have hpm := key.2 p hpk
  refine (trailPart_returned (by omega)).bind fun s _ => ?_
  exact (bufItem_returned _ _).bind fun b _ => returned_ok _

/-! ## Not returning: strings -/

theorem skipStrLoop_dead {fuel : Nat} (f : Nat) : ∀ (s : In) (n : Nat), s.good = false → skipStrLoop (fuel + 1) f s n = .running := by
  induction f with
  | zero => intro s n _; rfl
  | succ f ih =>
    intro s n hs
    rw [skipStrLoop, skipChars_notgood hs]
    have h1 : s.peekV = 255 := by simp [In.peekV, hs]
    simp only [Res.ok_bind, h1]
    rw [if_neg (by decide), if_neg (by decide)]
    exact ih _ _ (In.peekS_notgood hs)

theorem strLoop_dead {fuel size : Nat} (f : Nat) : ∀ (s : In) (mem : List Byte) (n : Nat), s.good = false → 8 + n < mem.length →
    strLoop (fuel + 1) size f s mem n = .running := by
  induction f with
  | zero => intro s mem n _ _; rfl
  | succ f ih =>
    intro s mem n hs hm
    rw [strLoop, getChars_notgood hs hm]
    have h1 : s.peekV = 255 := by simp [In.peekV, hs]
    simp only [Res.ok_bind, h1]
    rw [if_neg (by decide), if_neg (by decide)]
    exact ih _ _ _ (In.peekS_notgood hs) (by simpa using hm)

/-- When the string is not read to its end, the token is not. -/
theorem readToken_hangs {max : Nat} {atof : List Byte → List Byte} {fuel size g : Nat} {R : List Byte} {e : Bool} {ls : List Bool}
    {buf : Option (List Byte)} (h : tokString (fuel + 1) size (In.ofList (34 :: R)) buf = .running) :
    readToken max atof (fuel + 1) ⟨In.ofList (34 :: R), e, ls, g⟩ buf size = .running := by
  have h6 := skipSpaces_ok (fuel := fuel + 1) (r := R) (c := 34) ws_nil (by decide) (by simp)
  rw [List.nil_append] at h6
  rw [readToken]
  dsimp only
  rw [h6]
  simp only [Res.ok_bind, In.peekV_cons, In.peekS_cons]
  cases expectProperty e ls with
  | true => simp [propPart, h]
  | false => simp [valuePart, isDigit, isBetween, sc, h]

/-! ## Blocks -/

theorem suffix_mem {a b : List Byte} (h : a <:+ b) {c : Byte} (hc : c ∈ a) : c ∈ b := h.subset hc

theorem getS_suffix (s : In) : s.getS.rest <:+ s.rest := by
  unfold In.getS
  split
  · split
    · exact List.suffix_refl _
    · rename_i h; rw [h]; exact List.suffix_cons _ _
  · exact List.suffix_refl _

theorem getCharsLoop_suffix {pred : Byte → Bool} {off size : Nat} (fuel : Nat) :
    ∀ (s : In) (mem : List Byte) (n : Nat) (g : Got), getCharsLoop valid pred off size fuel s mem n = .ok g → g.s.rest <:+ s.rest := by
  induction fuel with
  | zero => intro s mem n g h; simp [getCharsLoop] at h
  | succ f ih =>
    intro s mem n g h
    have hend : ∀ s' : In, s'.rest = s.rest → getCharsEnd off s' mem n = .ok g → g.s.rest <:+ s.rest := by
      intro s' hs hg
      unfold getCharsEnd wr at hg
      split at hg
      · simp only [Res.ok_bind, Res.ok.injEq] at hg
        subst hg
        exact hs ▸ List.suffix_refl _
      · simp at hg
    unfold getCharsLoop at h
    rw [peekCharV_valid, peekCharS_valid] at h
    split at h
    · split at h
      · split at h
        · exact hend _ (by rw [In.setFail_rest, In.peekS_rest]) h
        · unfold wr at h
          split at h
          · simp only [Res.ok_bind] at h
            have h1 := ih _ _ _ _ h
            have h2 := getS_suffix s.peekS
            rw [In.peekS_rest] at h2
            exact h1.trans h2
          · simp at h
      · exact hend _ (In.peekS_rest s) h
    · exact hend _ rfl h

theorem getCharsLoop_block {pred : Byte → Bool} {off size : Nat} (h1 : 1 ≤ size) (h2 : size < 2 ^ 64) (fuel : Nat) :
    ∀ (s : In) (mem : List Byte) (n : Nat), off + size ≤ mem.length → n ≤ size - 1 →
      Safe (fun g => SameOutside mem g.mem (off + n) (off + size) ∧ g.n ≤ size - 1 ∧ n ≤ g.n)
        (getCharsLoop valid pred off size fuel s mem n) := by
  induction fuel with
  | zero => intro s mem n _ _; trivial
  | succ f ih =>
    intro s mem n hm hn
    have hend : ∀ s' : In, Safe (fun g => SameOutside mem g.mem (off + n) (off + size) ∧ g.n ≤ size - 1 ∧ n ≤ g.n)
        (getCharsEnd off s' mem n) := by
      intro s'
      rw [getCharsEnd, wr_ok (by omega)]
      exact ⟨SameOutside.set (by omega) (by omega), hn, Nat.le_refl _⟩
    unfold getCharsLoop
    split
    · split
      · rw [sub64_eq h1 h2]
        split
        · exact hend _
        · rw [wr_ok (by omega)]
          simp only [Res.ok_bind]
          refine (ih _ _ (n + 1) (by simpa using hm) (by omega)).mono ?_
          rintro g ⟨a, b, c⟩
          exact ⟨(SameOutside.set (by omega) (by omega)).trans (a.mono (by omega) (Nat.le_refl _)), b, by omega⟩
      · exact hend _
    · exact hend _

theorem Safe.and {α : Type} {P Q : α → Prop} {r : Res α} (h : Safe P r) (hq : ∀ a, r = .ok a → Q a) : Safe (fun a => P a ∧ Q a) r := by
  cases r with
  | ok a => exact ⟨h, hq a rfl⟩
  | ub => exact h
  | running => trivial

theorem peekV_mem {s : In} {c : Byte} (h : s.peekV = c) (hc : c ≠ 255) : c ∈ s.rest := by
  unfold In.peekV at h
  split at h
  · cases hr : s.rest with
    | nil => rw [hr] at h; exact absurd h.symm hc
    | cons d r => rw [hr] at h; simp only at h; simp [h]
  · exact absurd h.symm hc

theorem strLoop_block {fuel size : Nat} (h1 : 1 ≤ size) (h2 : size < 2 ^ 64) (f : Nat) :
    ∀ (s : In) (mem : List Byte) (n : Nat), (92 : Byte) ∉ s.rest → 8 + size ≤ mem.length → n ≤ size - 1 →
      Safe (fun g => SameOutside mem g.mem 8 (8 + size) ∧ g.n ≤ size - 1 ∧ g.s.rest <:+ s.rest) (strLoop fuel size f s mem n) := by
  induction f with
  | zero => intro s mem n _ _ _; trivial
  | succ f ih =>
    intro s mem n hb hm hn
    rw [strLoop, sub64_eq (by omega) h2]
    have hblk := getCharsLoop_block (pred := jsonIsStringContent) (off := 8 + n) (size := size - n) (by omega) (by omega) fuel s mem 0
      (by omega) (by omega)
    have hsuf := fun g h => getCharsLoop_suffix (pred := jsonIsStringContent) (off := 8 + n) (size := size - n) fuel s mem 0 g h
    refine (hblk.and hsuf).bind ?_
    rintro g ⟨⟨a, b, _⟩, c⟩
    have hb' : (92 : Byte) ∉ g.s.rest := fun h => hb (suffix_mem c h)
    have a' : SameOutside mem g.mem 8 (8 + size) := a.mono (by omega) (by omega)
    split
    · refine ⟨a', by dsimp only; omega, ?_⟩
      have h3 := getS_suffix g.s.peekS
      rw [In.peekS_rest] at h3
      exact h3.trans c
    · split
      · rename_i h
        exact absurd (peekV_mem h (by decide)) hb'
      · refine (ih g.s.peekS g.mem (n + g.n) (by rwa [In.peekS_rest]) (by rw [a.1]; omega) (by omega)).mono ?_
        rintro x ⟨x1, x2, x3⟩
        rw [In.peekS_rest] at x3
        exact ⟨a'.trans x1, x2, x3.trans c⟩

theorem getString_block {fuel size : Nat} {s : In} {mem : List Byte} (h1 : 1 ≤ size) (h2 : size < 2 ^ 64) (hb : (92 : Byte) ∉ s.rest)
    (hm : 8 + size ≤ mem.length) :
    Safe (fun g => SameOutside mem g.mem 8 (8 + size)) (getString fuel size s mem) := by
  unfold getString
  have h0 : Safe (fun g : Got => SameOutside mem g.mem 8 (8 + size) ∧ g.n ≤ size - 1)
      (if s.peekV = 34 then strLoop fuel size fuel s.peekS.getS mem 0 else .ok ⟨s.peekS, mem, 0⟩) := by
    split
    · have h3 := getS_suffix s.peekS
      rw [In.peekS_rest] at h3
      refine (strLoop_block h1 h2 fuel _ mem 0 (fun h => hb (suffix_mem h3 h)) hm (by omega)).mono ?_
      rintro g ⟨a, b, _⟩
      exact ⟨a, b⟩
    · exact ⟨SameOutside.refl _ _ _, by dsimp only; omega⟩
  refine h0.bind ?_
  rintro g ⟨a, b⟩
  rw [wr_ok (by rw [a.1]; omega)]
  exact a.trans (SameOutside.set (by omega) (by omega))

theorem skipCharsLoop_noub {pred : Byte → Bool} (fuel : Nat) : ∀ (s : In) (n : Nat),
    Safe (fun _ => True) (skipCharsLoop valid pred fuel s n) := by
  induction fuel with
  | zero => intro s n; trivial
  | succ f ih =>
    intro s n
    unfold skipCharsLoop
    split
    · split
      · exact ih _ _
      · trivial
    · trivial

theorem escaped_noub (fuel : Nat) (s : In) : Safe (fun _ => True) (escaped fuel s) := by
  unfold escaped
  split
  · dsimp only
    repeat' (first | exact (trivial : Safe (fun _ => True) (Res.ok _)) | split)
    refine (getCharsLoop_block (pred := isHex) (off := 0) (size := 5) (by decide) (by decide) fuel _ [0, 0, 0, 0, 0] 0
      (by simp) (by omega)).bind ?_
    intro g _
    repeat' (first | exact (trivial : Safe (fun _ => True) (Res.ok _)) | split)
  · trivial

theorem skipStrLoop_noub {fuel : Nat} (f : Nat) : ∀ (s : In) (n : Nat), Safe (fun _ => True) (skipStrLoop fuel f s n) := by
  induction f with
  | zero => intro s n; trivial
  | succ f ih =>
    intro s n
    rw [skipStrLoop]
    refine (skipCharsLoop_noub fuel s 0).bind fun k _ => ?_
    split
    · trivial
    · split
      · exact (escaped_noub _ _).bind fun e _ => ih _ _
      · exact ih _ _

/-! ### Numbers -/

/-- A character that can belong to a number. -/
def numChar (c : Byte) : Bool := isDigit c || c == 43 || c == 45 || c == 46 || c == 101 || c == 69

/-- How many characters from here on can belong to a number. -/
def run (r : List Byte) : Nat := (r.takeWhile numChar).length

/-- Characters collected, and characters that can still come: at most 25. -/
def Small (g : Got) : Prop := g.mem.length = 26 ∧ g.n ≤ 25 ∧ (g.s.good = true → g.n + run g.s.rest ≤ 25)

theorem run_cons {c : Byte} (h : numChar c = true) (r : List Byte) : run (c :: r) = run r + 1 := by simp [run, h]

theorem digit_numChar {c : Byte} (h : isDigit c = true) : numChar c = true := by simp [numChar, h]

/-- Taking a number character. -/
theorem take_run {s : In} {m : Nat} {c : Byte} (hp : s.peekV = c) (hc : numChar c = true) (h : s.good = true → m + run s.rest ≤ 25) :
    s.good = true ∧ s.peekS = s ∧ s.getS.good = true ∧ m + 1 + run s.getS.rest ≤ 25 := by
  cases hg : s.good with
  | false => rw [In.peekV, hg] at hp; simp at hp; subst hp; exact absurd hc (by decide)
  | true =>
    have h := h hg
    rw [In.eq_ofList hg] at hp h ⊢
    cases hr : s.rest with
    | nil => rw [hr] at hp; simp at hp; subst hp; exact absurd hc (by decide)
    | cons d r =>
      rw [hr] at hp h
      simp at hp
      subst hp
      simp only [In.ofList_rest] at h
      rw [run_cons hc] at h
      exact ⟨rfl, rfl, rfl, by simp only [In.getS_cons, In.ofList_rest]; omega⟩

theorem peekS_keeps {s : In} {m : Nat} (h : s.good = true → m + run s.rest ≤ 25) : s.peekS.good = true → m + run s.peekS.rest ≤ 25 := by
  intro hg
  have : s.good = true := by
    cases hs : s.good with
    | true => rfl
    | false => rw [In.peekS_notgood hs] at hg; simp at hg
  rw [In.peekS_rest]
  exact h this

theorem digitsLoop_small {off size : Nat} (ho : off + size = 26) (h1 : 1 ≤ size) (fuel : Nat) :
    ∀ (s : In) (mem : List Byte) (n : Nat), mem.length = 26 → n ≤ size - 1 → (s.good = true → off + n + run s.rest ≤ 25) →
      Safe (fun g => g.mem.length = 26 ∧ off + g.n ≤ 25 ∧ (g.s.good = true → off + g.n + run g.s.rest ≤ 25))
        (getCharsLoop valid isDigit off size fuel s mem n) := by
  induction fuel with
  | zero => intro s mem n _ _ _; trivial
  | succ f ih =>
    intro s mem n hm hn hr
    unfold getCharsLoop
    rw [peekCharV_valid, peekCharS_valid]
    split
    · split
      · rename_i hd
        obtain ⟨h3, h4, h5, h6⟩ := take_run rfl (digit_numChar hd) hr
        rw [sub64_eq h1 (by omega)]
        split
        · rw [getCharsEnd, wr_ok (by omega)]
          exact ⟨by simpa using hm, by dsimp only; omega, by simp⟩
        · rw [wr_ok (by omega), Res.ok_bind, h4]
          refine ih _ _ (n + 1) (by simpa using hm) (by omega) ?_
          intro _
          omega
      · rw [getCharsEnd, wr_ok (by omega)]
        exact ⟨by simpa using hm, by dsimp only; omega, peekS_keeps hr⟩
    · rw [getCharsEnd, wr_ok (by omega)]
      exact ⟨by simpa using hm, by dsimp only; omega, hr⟩

theorem numDigits_small {fuel : Nat} {g : Got} (h : Small g) : Safe Small (numDigits fuel g) := by
  obtain ⟨h1, h2, h3⟩ := h
  unfold numDigits
  rw [sub64_eq (by omega) (by decide)]
  refine (digitsLoop_small (off := g.n) (size := 26 - g.n) (by omega) (by omega) fuel g.s g.mem 0 h1 (by omega) (by simpa using h3)).bind ?_
  rintro x ⟨a, b, c⟩
  exact ⟨a, b, c⟩

/-- Storing the character at the front of the stream. -/
theorem wr_small {g : Got} {c : Byte} (hp : g.s.peekV = c) (hc : numChar c = true) (h : Small g) :
    g.n < g.mem.length ∧ Small ⟨g.s.peekS.getS, g.mem.set g.n c, g.n + 1⟩ := by
  obtain ⟨h1, h2, h3⟩ := h
  obtain ⟨h4, h5, h6, h7⟩ := take_run hp hc h3
  refine ⟨by omega, by simpa using h1, ?_, ?_⟩
  · dsimp only; omega
  · intro _; rw [h5]; exact h7

theorem peek_small {g : Got} (h : Small g) : Small ⟨g.s.peekS, g.mem, g.n⟩ := ⟨h.1, h.2.1, peekS_keeps h.2.2⟩

theorem numSign_small {g : Got} (h : Small g) : Safe Small (numSign g) := by
  unfold numSign
  split
  · rename_i hc
    obtain ⟨a, b⟩ := wr_small (c := g.s.peekV) rfl (by rcases hc with hc | hc <;> rw [hc] <;> decide) h
    rw [wr_ok a]
    exact b
  · exact peek_small h

theorem numFrac_small {fuel : Nat} {g : Got} (h : Small g) : Safe Small (numFrac fuel g) := by
  unfold numFrac
  split
  · rename_i hc
    obtain ⟨a, b⟩ := wr_small hc (by decide) h
    rw [wr_ok a, Res.ok_bind]
    exact numDigits_small b
  · exact peek_small h

theorem numExp_small {fuel : Nat} {g : Got} (h : Small g) : Safe Small (numExp fuel g) := by
  unfold numExp
  split
  · rename_i hc
    obtain ⟨a, b⟩ := wr_small (c := g.s.peekV) rfl (by rcases hc with hc | hc <;> rw [hc] <;> decide) h
    rw [wr_ok a, Res.ok_bind]
    exact (numSign_small b).bind fun x hx => numDigits_small hx
  · exact peek_small h

theorem getNumber_small {fuel : Nat} {s : In} (h : s.good = true → run s.rest ≤ 25) :
    Safe (fun _ => True) (getNumber fuel s) := by
  unfold getNumber
  refine (numSign_small (g := ⟨s, List.replicate 26 0, 0⟩) ⟨by simp, by simp, by simpa using h⟩).bind fun a ha => ?_
  refine (numDigits_small ha).bind fun b hb => ?_
  refine (numFrac_small hb).bind fun c hc => ?_
  refine (numExp_small hc).bind fun d hd => ?_
  rw [wr_ok (by have := hd.1; have := hd.2.1; omega)]
  trivial

/-! ### Tokens -/

/-- The buffer after the call: bytes from `hi` on are untouched. -/
def BufSame (hi : Nat) : Option (List Byte) → Option (List Byte) → Prop
  | none, b => b = none
  | some mem, some mem' => SameOutside mem mem' 0 hi
  | some _, none => False

theorem BufSame.refl (hi : Nat) (b : Option (List Byte)) : BufSame hi b b := by
  cases b with
  | none => rfl
  | some mem => exact SameOutside.refl _ _ _

theorem tokString_block {fuel size : Nat} {s : In} {buf : Option (List Byte)} (h1 : 16 ≤ size) (h2 : size < 2 ^ 64)
    (hb : (92 : Byte) ∉ s.rest) (hm : ∀ mem ∈ buf, size + 6 ≤ mem.length) :
    Safe (fun x => BufSame (size + 6) buf (tokBuf x)) (tokString fuel size s buf) := by
  cases buf with
  | none =>
    unfold tokString skipString
    refine Safe.bind (P := fun _ => True) ?_ ?_
    · split
      · exact skipStrLoop_noub _ _ _
      · trivial
    · intro k _
      simp [Safe, BufSame, tokBuf]
  | some mem =>
    have hm := hm mem rfl
    unfold tokString
    rw [sub64_eq (by omega) h2]
    refine (getString_block (by omega) (by omega) hb (by omega)).bind ?_
    intro g hg
    exact hg.mono (by omega) (by omega)

theorem bufBool_block {size : Nat} {b : Byte} {buf : Option (List Byte)} (h1 : 16 ≤ size) (hm : ∀ mem ∈ buf, size + 6 ≤ mem.length) :
    Safe (BufSame (size + 6) buf) (bufBool b buf) := by
  cases buf with
  | none => rfl
  | some mem =>
    have hm := hm mem rfl
    rw [bufBool, wr_ok (by omega)]
    exact SameOutside.set (by omega) (by omega)

theorem putMem_same {mem w : List Byte} {i hi : Nat} (h : i + w.length ≤ hi) (hm : hi ≤ mem.length) : SameOutside mem (putMem mem i w) 0 hi := by
  refine ⟨putMem_length (by omega), fun j hj => ?_⟩
  exact putMem_getElem?_out (by omega) (by omega)

theorem bufNumber_block {atof : List Byte → List Byte} (hat : ∀ x, (atof x).length = 8) {size : Nat} {d : List Byte} {buf : Option (List Byte)}
    (h1 : 16 ≤ size) (hm : ∀ mem ∈ buf, size + 6 ≤ mem.length) : Safe (BufSame (size + 6) buf) (bufNumber atof d buf) := by
  cases buf with
  | none => rfl
  | some mem =>
    have hm := hm mem rfl
    have h8 := hat (d.takeWhile (· ≠ 0))
    rw [bufNumber, wrs_ok _ _ _ (by omega)]
    exact putMem_same (by omega) hm

theorem skipCharsLoop_suffix {pred : Byte → Bool} (fuel : Nat) : ∀ (s : In) (n : Nat) (k : Skipped),
    skipCharsLoop valid pred fuel s n = .ok k → k.s.rest <:+ s.rest := by
  induction fuel with
  | zero => intro s n k h; simp [skipCharsLoop] at h
  | succ f ih =>
    intro s n k h
    unfold skipCharsLoop at h
    rw [peekCharV_valid, peekCharS_valid] at h
    split at h
    · split at h
      · have h1 := ih _ _ _ h
        have h2 := getS_suffix s.peekS
        rw [In.peekS_rest] at h2
        exact h1.trans h2
      · simp only [Res.ok.injEq] at h
        subst h
        exact In.peekS_rest s ▸ List.suffix_refl _
    · simp only [Res.ok.injEq] at h
      subst h
      exact List.suffix_refl _

theorem propPart_block {fuel size : Nat} {ch : Byte} {s : In} {st : Jr} {buf : Option (List Byte)} (h1 : 16 ≤ size) (h2 : size < 2 ^ 64)
    (hb : (92 : Byte) ∉ s.rest) (hm : ∀ mem ∈ buf, size + 6 ≤ mem.length) :
    Safe (fun p => BufSame (size + 6) buf p.buf) (propPart fuel size ch s st buf) := by
  unfold propPart
  split
  · refine (tokString_block h1 h2 hb hm).bind fun x hx => ?_
    split
    · exact (skipCharsLoop_noub _ _ _).bind fun k _ => hx
    · exact hx
  · split
    · split <;> exact BufSame.refl _ _
    · exact BufSame.refl _ _

theorem levelPart_buf {s : In} {st : Jr} {l : Option (List Bool)} {i : Item} {b : Option (List Byte)} {t : Bool} :
    (levelPart s st l i b t).buf = b := by unfold levelPart; split <;> rfl

theorem valuePart_block {max : Nat} {atof : List Byte → List Byte} (hat : ∀ x, (atof x).length = 8) {fuel size : Nat} {ch : Byte} {s : In}
    {st : Jr} {buf : Option (List Byte)} (h1 : 16 ≤ size) (h2 : size < 2 ^ 64)
    (hb : (92 : Byte) ∉ s.rest) (hr : s.good = true → run s.rest ≤ 25) (hm : ∀ mem ∈ buf, size + 6 ≤ mem.length) :
    Safe (fun p => BufSame (size + 6) buf p.buf) (valuePart max atof fuel size ch s st buf) := by
  have hl : ∀ (s' : In) l i t, Safe (fun p : Part => BufSame (size + 6) buf p.buf) (.ok (levelPart s' st l i buf t)) := by
    intro s' l i t
    show BufSame (size + 6) buf (levelPart s' st l i buf t).buf
    rw [levelPart_buf]
    exact BufSame.refl _ _
  unfold valuePart
  dsimp only
  split
  · exact BufSame.refl _ _
  · split
    · split
      · exact (bufBool_block h1 hm).bind fun b hb => hb
      · exact BufSame.refl _ _
    · split
      · split
        · exact (bufBool_block h1 hm).bind fun b hb => hb
        · exact BufSame.refl _ _
      · split
        · exact (getNumber_small hr).bind fun g _ => (bufNumber_block hat h1 hm).bind fun b hb => hb
        · split
          · exact (tokString_block h1 h2 hb hm).bind fun x hx => hx
          · split
            · exact hl _ _ _ _
            · split
              · exact hl _ _ _ _
              · split
                · exact hl _ _ _ _
                · exact BufSame.refl _ _

theorem trailPart_noub (fuel : Nat) (p : Part) : Safe (fun _ => True) (trailPart fuel p) := by
  unfold trailPart
  split
  · refine (skipCharsLoop_noub _ _ _).bind fun k _ => ?_
    repeat' (first | exact (trivial : Safe (fun _ => True) (Res.ok _)) | split)
  · trivial

theorem bufItem_block {size : Nat} {i : Item} {buf b : Option (List Byte)} (h1 : 16 ≤ size) (hm : ∀ mem ∈ buf, size + 6 ≤ mem.length)
    (h : BufSame (size + 6) buf b) : Safe (BufSame (size + 6) buf) (bufItem i b) := by
  cases buf with
  | none => simp only [BufSame] at h; subst h; rfl
  | some mem =>
    have hm := hm mem rfl
    cases b with
    | none => exact h.elim
    | some m =>
      have h2 := Item.bytes_length i
      have hl : m.length = mem.length := h.1
      rw [bufItem, wrs_ok _ _ _ (by omega)]
      exact SameOutside.trans h (putMem_same (by omega) (by omega))

theorem readToken_block {max : Nat} {atof : List Byte → List Byte} (hat : ∀ x, (atof x).length = 8) {fuel size : Nat} {st : Jr}
    {buf : Option (List Byte)} (h1 : 16 ≤ size) (h2 : size < 2 ^ 64) (hb : (92 : Byte) ∉ st.s.rest)
    (hr : ∀ r, r <:+ st.s.rest → run r ≤ 25) (hm : ∀ mem ∈ buf, size + 6 ≤ mem.length) :
    Safe (fun t => BufSame (size + 6) buf t.buf) (readToken max atof fuel st buf size) := by
  unfold readToken
  refine ((skipCharsLoop_noub (pred := jsonIsSpace) fuel st.s 0).and
    (fun k hk => skipCharsLoop_suffix fuel st.s 0 k hk)).bind ?_
  rintro k ⟨_, hk⟩
  have hb' : (92 : Byte) ∉ k.s.peekS.rest := by rw [In.peekS_rest]; exact fun h => hb (suffix_mem hk h)
  have hp : Safe (fun p : Part => BufSame (size + 6) buf p.buf)
      (if expectProperty st.expect st.levels then propPart fuel size k.s.peekV k.s.peekS st buf
        else valuePart max atof fuel size k.s.peekV k.s.peekS st buf) := by
    split
    · exact propPart_block h1 h2 hb' hm
    · refine valuePart_block hat h1 h2 hb' ?_ hm
      intro _
      rw [In.peekS_rest]
      exact hr _ hk
  refine hp.bind fun p hp => ?_
  refine (trailPart_noub fuel p).bind fun s _ => ?_
  exact (bufItem_block h1 hm hp).bind fun b hb => hb

end Abc.Json
