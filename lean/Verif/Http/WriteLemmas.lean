import Verif.Http.Spec
import Verif.Stream.Lemmas

/-!
# What the writer functions put on the wire
-/

namespace Abc.Http

open Abc.Ascii Abc.Stream

/-- The stream after accepting the bytes `w`. -/
def adv (o : Out) (w : List Byte) : Out := { o with out := o.out ++ w, room := o.room - w.length }

@[simp] theorem adv_out (o : Out) (w : List Byte) : (adv o w).out = o.out ++ w := rfl
@[simp] theorem adv_room (o : Out) (w : List Byte) : (adv o w).room = o.room - w.length := rfl
@[simp] theorem adv_good (o : Out) (w : List Byte) : (adv o w).good = o.good := rfl
theorem adv_nil (o : Out) : adv o [] = o := by simp [adv]
theorem adv_adv (o : Out) (w v : List Byte) : adv (adv o w) v = adv o (w ++ v) := by
  simp [adv, Nat.sub_sub]

theorem put_adv {o : Out} (hg : o.good = true) (hr : 1 ≤ o.room) (c : Byte) : o.put c = adv o [c] := by
  unfold Out.put
  rw [if_pos hg]
  obtain ⟨r, h⟩ : ∃ r, o.room = r + 1 := ⟨o.room - 1, by omega⟩
  simp [adv, h]

theorem putChar_adv {o : Out} (hg : o.good = true) (hr : 1 ≤ o.room) (c : Byte) :
    putChar o c = adv o [c] := by rw [putChar, if_pos hg, put_adv hg hr]

theorem putSpace_adv {o : Out} (hg : o.good = true) (hr : 1 ≤ o.room) : putSpace o = adv o [32] :=
  putChar_adv hg hr 32

theorem putCrlf_adv {o : Out} (hg : o.good = true) (hr : 2 ≤ o.room) : putCrlf o = adv o crlf := by
  rw [putCrlf, putChar_adv hg (by omega), putChar_adv (by simpa using hg) (by simp; omega), adv_adv]
  rfl

theorem putBytes_adv (b : List Byte) {o : Out} (hg : o.good = true) (hr : b.length ≤ o.room) :
    putBytes b o = ⟨adv o b, []⟩ := by
  induction b generalizing o with
  | nil => simp [putBytes, adv_nil]
  | cons c b ih =>
    simp only [List.length_cons] at hr
    rw [putBytes, if_pos hg, put_adv hg (by omega), ih (by simpa using hg) (by simp; omega), adv_adv]
    rfl

theorem putChars_adv {pred : Byte → Bool} (w x : List Byte) (hw : ∀ c ∈ w, pred c = true)
    (hx : ∀ c ∈ x.head?, pred c = false) {o : Out} (hg : o.good = true) (hr : w.length ≤ o.room) :
    putChars pred (w ++ x) o = ⟨adv o w, x⟩ := by
  induction w generalizing o with
  | nil =>
    cases x with
    | nil => simp [putChars, adv_nil]
    | cons c x =>
      have := hx c (by simp)
      simp [putChars, adv_nil, this]
  | cons c w ih =>
    simp only [List.length_cons] at hr
    have hc := hw c (by simp)
    rw [List.cons_append, putChars, if_pos (by simp [hg, hc]), put_adv hg (by omega),
      ih (fun d hd => hw d (by simp [hd])) (by simpa using hg) (by simp; omega), adv_adv]
    rfl

theorem putChars_all {pred : Byte → Bool} (w : List Byte) (hw : ∀ c ∈ w, pred c = true)
    {o : Out} (hg : o.good = true) (hr : w.length ≤ o.room) :
    putChars pred w o = ⟨adv o w, []⟩ := by
  have := putChars_adv w [] hw (by simp) hg hr
  simpa using this

/-! ## Whatever the bytes: growth by allowed characters only -/

/-- The stream grew by bytes satisfying `P`, and was good before if it is good now. -/
def Grew (P : Byte → Prop) (o o' : Out) (w : List Byte) : Prop :=
  o'.out = o.out ++ w ∧ (∀ c ∈ w, P c) ∧ (o'.good = true → o.good = true) ∧
    (o.good = false → w = [])

theorem Grew.refl (P : Byte → Prop) (o : Out) : Grew P o o [] := by simp [Grew]

theorem Grew.trans {P : Byte → Prop} {a b c : Out} {w v : List Byte} (h1 : Grew P a b w)
    (h2 : Grew P b c v) : Grew P a c (w ++ v) := by
  obtain ⟨a1, a2, a3, a4⟩ := h1
  obtain ⟨b1, b2, b3, b4⟩ := h2
  refine ⟨by rw [b1, a1, List.append_assoc], ?_, fun h => a3 (b3 h), fun h => ?_⟩
  · intro c hc
    rcases List.mem_append.1 hc with h | h
    · exact a2 c h
    · exact b2 c h
  · rw [a4 h, b4 (Bool.eq_false_iff.2 fun hb => by rw [a3 hb] at h; cases h)]; rfl

theorem Grew.mono {P Q : Byte → Prop} {a b : Out} {w : List Byte} (h : Grew P a b w)
    (hpq : ∀ c, P c → Q c) : Grew Q a b w :=
  ⟨h.1, fun c hc => hpq c (h.2.1 c hc), h.2.2⟩

theorem put_grew (P : Byte → Prop) (o : Out) (c : Byte) (hc : P c) :
    ∃ w, Grew P o (o.put c) w ∧ w <+: [c] ∧ ((o.put c).good = true → w = [c]) := by
  cases hg : o.good with
  | false =>
    rw [Out.put_notgood hg]
    exact ⟨[], Grew.refl P o, by simp, fun h => by simp [hg] at h⟩
  | true =>
    cases hr : o.room with
    | zero =>
      have : o.put c = { o with bad := true } := by simp [Out.put, hg, hr]
      rw [this]
      refine ⟨[], ⟨by simp, by simp, fun _ => hg, fun h => by simp [hg] at h⟩, by simp, ?_⟩
      intro h; simp [Out.good] at h
    | succ r =>
      rw [put_adv hg (by omega)]
      exact ⟨[c], ⟨rfl, by simpa using hc, fun _ => hg, fun h => by simp [hg] at h⟩, by simp, fun _ => rfl⟩

theorem putChar_grew (P : Byte → Prop) (o : Out) (c : Byte) (hc : P c) :
    ∃ w, Grew P o (putChar o c) w ∧ w <+: [c] ∧ ((putChar o c).good = true → w = [c]) := by
  have : putChar o c = o.put c := by
    unfold putChar; split
    · rfl
    · rename_i h; rw [Out.put_notgood (by simpa using h)]
  rw [this]; exact put_grew P o c hc

theorem putBytes_grew (b : List Byte) (o : Out) (P : Byte → Prop) (hP : ∀ c ∈ b, P c) :
    ∃ w, Grew P o (putBytes b o).o w ∧ w <+: b ∧ ((putBytes b o).o.good = true → w = b) := by
  induction b generalizing o with
  | nil => exact ⟨[], Grew.refl P o, by simp, fun _ => rfl⟩
  | cons c b ih =>
    rw [putBytes]
    split
    · rename_i hg
      obtain ⟨v, h1, h2, h3⟩ := put_grew P o c (hP c (by simp))
      obtain ⟨w, g1, g2, g3⟩ := ih (o.put c) (fun d hd => hP d (by simp [hd]))
      cases hpc : (o.put c).good with
      | true =>
        have hv := h3 hpc
        subst hv
        exact ⟨_, h1.trans g1, by simpa using g2, fun h => by rw [g3 h]; rfl⟩
      | false =>
        have hw : w = [] := g1.2.2.2 hpc
        subst hw
        refine ⟨v, by simpa using h1.trans g1, h2.trans (by simp), fun h => ?_⟩
        have := g1.2.2.1 h
        simp [hpc] at this
    · rename_i hg
      exact ⟨[], Grew.refl P o, by simp, fun h => absurd h hg⟩

/-- `put_chars` on anything: it writes a prefix made of accepted characters; if the stream is still
good it stopped at the first character not accepted. -/
theorem putChars_grew (pred : Byte → Bool) (b : List Byte) (o : Out) :
    ∃ w, Grew (fun c => pred c = true) o (putChars pred b o).o w ∧ w <+: b ∧
      ((putChars pred b o).o.good = true →
        w ++ (putChars pred b o).left = b ∧ ∀ c ∈ (putChars pred b o).left.head?, pred c = false) := by
  induction b generalizing o with
  | nil => exact ⟨[], Grew.refl _ o, by simp, fun _ => by simp [putChars]⟩
  | cons c b ih =>
    rw [putChars]
    split
    · rename_i hg
      simp only [Bool.and_eq_true] at hg
      obtain ⟨v, h1, h2, h3⟩ := put_grew (fun c => pred c = true) o c hg.2
      obtain ⟨w, g1, g2, g3⟩ := ih (o.put c)
      cases hpc : (o.put c).good with
      | true =>
        have hv := h3 hpc
        subst hv
        exact ⟨_, h1.trans g1, by simpa using g2, fun h => ⟨by simpa using (g3 h).1, (g3 h).2⟩⟩
      | false =>
        have hw : w = [] := g1.2.2.2 hpc
        subst hw
        refine ⟨v, by simpa using h1.trans g1, h2.trans (by simp), fun h => ?_⟩
        have := g1.2.2.1 h
        simp [hpc] at this
    · rename_i hg
      refine ⟨[], Grew.refl _ o, by simp, fun h => ?_⟩
      simp only [h, Bool.true_and] at hg
      simpa using hg

/-- Bytes that cannot end a line. -/
def NoBreak (c : Byte) : Prop := c ≠ 13 ∧ c ≠ 10

theorem noBreak_of_printable {c : Byte} (h : printable c = true) : NoBreak c := by
  constructor <;> rintro rfl <;> simp [printable] at h

theorem noBreak_of_token {c : Byte} (h : tokenChar c = true) : NoBreak c := by
  simp only [tokenChar, Bool.and_eq_true] at h
  exact noBreak_of_printable h.1

theorem noBreak_of_digit {c : Byte} (h : digit c = true) : NoBreak c := by
  constructor <;> rintro rfl <;> simp [digit] at h

theorem noBreak_of_blank {c : Byte} (h : blank c = true) : NoBreak c := by
  constructor <;> rintro rfl <;> simp [blank] at h

theorem putChars_noBreak {pred : Byte → Bool} (hp : ∀ c, pred c = true → NoBreak c) (b : List Byte)
    (o : Out) : ∃ w, Grew NoBreak o (putChars pred b o).o w := by
  obtain ⟨w, h, _⟩ := putChars_grew pred b o
  exact ⟨w, h.mono hp⟩

theorem setBad_grew (P : Byte → Prop) (o : Out) : Grew P o o.setBad [] :=
  ⟨by simp, by simp, fun h => by simp at h, fun _ => rfl⟩

theorem putCrlf_grew (o : Out) :
    ∃ t, t <+: crlf ∧ (putCrlf o).out = o.out ++ t ∧ ((putCrlf o).good = true → t = crlf ∧ o.good = true) ∧
      (o.good = false → t = []) := by
  obtain ⟨w, h1, h2, h3⟩ := putChar_grew (fun _ => True) o 13 trivial
  obtain ⟨v, g1, g2, g3⟩ := putChar_grew (fun _ => True) (putChar o 13) 10 trivial
  have ht := h1.trans g1
  cases hg : (putChar o 13).good with
  | true =>
    have := h3 hg; subst this
    refine ⟨[13] ++ v, by simpa [crlf] using g2, ht.1, fun h => ⟨by rw [g3 h]; rfl, ht.2.2.1 h⟩, ht.2.2.2⟩
  | false =>
    have hv : v = [] := g1.2.2.2 hg
    subst hv
    refine ⟨w, h2.trans (by simp [crlf]), by rw [List.append_nil] at ht; exact ht.1, fun h => ?_, h1.2.2.2⟩
    have := g1.2.2.1 h
    simp [hg] at this

theorem putSpace_grew (o : Out) : ∃ w, Grew NoBreak o (putSpace o) w := by
  obtain ⟨w, h, _⟩ := putChar_grew NoBreak o 32 (by unfold NoBreak; decide)
  exact ⟨w, h⟩

theorem putHvLoop_grew (f : Nat) (start : Bool) (b : List Byte) (o : Out) :
    ∃ w, Grew NoBreak o (putHvLoop f start b o) w := by
  induction f generalizing start b o with
  | zero => exact ⟨[], Grew.refl _ _⟩
  | succ f ih =>
    rw [putHvLoop]
    have h1 : ∃ w, Grew NoBreak o
        (if !start ∧ (skipHv b).length < b.length ∧ skipHv b ≠ [] then putSpace o else o) w := by
      split
      · exact putSpace_grew o
      · exact ⟨[], Grew.refl _ _⟩
    obtain ⟨w1, h1⟩ := h1
    dsimp only
    generalize (if !start ∧ (skipHv b).length < b.length ∧ skipHv b ≠ [] then putSpace o else o) = o1 at h1
    split
    · exact ⟨w1, h1⟩
    · rename_i c b' _
      split
      · obtain ⟨w2, h2⟩ := putChars_noBreak (pred := isAbcprint)
          (fun c hc => noBreak_of_printable (by rwa [isAbcprint_eq] at hc)) (c :: b') o1
        split
        · obtain ⟨w3, h3⟩ := ih false (putChars isAbcprint (c :: b') o1).left
            (putChars isAbcprint (c :: b') o1).o
          exact ⟨_, (h1.trans h2).trans h3⟩
        · exact ⟨_, h1.trans h2⟩
      · exact ⟨_, h1.trans (setBad_grew _ _)⟩

theorem putProtoDigits_grew (p : Put) : ∃ w, Grew NoBreak p.o (putProtoDigits p).o w := by
  obtain ⟨w, h⟩ := putChars_noBreak (pred := isDigit)
    (fun c hc => noBreak_of_digit (by rwa [isDigit_eq] at hc)) p.left p.o
  unfold putProtoDigits
  split
  · split
    · exact ⟨_, h.trans (setBad_grew _ _)⟩
    · exact ⟨_, h⟩
  · exact ⟨_, Grew.refl _ _⟩

theorem putProtoDot_grew (p : Put) : ∃ w, Grew NoBreak p.o (putProtoDot p).o w := by
  unfold putProtoDot
  split
  · split
    · exact ⟨_, Grew.refl _ _⟩
    · split
      · exact ⟨_, setBad_grew _ _⟩
      · obtain ⟨w, h, _⟩ := put_grew NoBreak p.o 46 (by unfold NoBreak; decide)
        exact ⟨w, h⟩
  · exact ⟨_, Grew.refl _ _⟩

theorem putProtocolBase_grew (b : List Byte) (o : Out) :
    ∃ w, Grew NoBreak o (putProtocolBase b o) w := by
  unfold putProtocolBase
  have h0 : ∃ w, Grew NoBreak o
      (if b.length < 5 ∨ areEqualIN (some b) (some [72, 84, 84, 80, 47, 0]) 5 ≠ some true
        then (⟨o.setBad, b⟩ : Put) else ⟨(putBytes [72, 84, 84, 80, 47] o).o, b.drop 5⟩).o w := by
    split
    · exact ⟨_, setBad_grew _ _⟩
    · obtain ⟨w, h, _⟩ := putBytes_grew [72, 84, 84, 80, 47] o NoBreak (by unfold NoBreak; decide)
      exact ⟨w, h⟩
  generalize (if b.length < 5 ∨ areEqualIN (some b) (some [72, 84, 84, 80, 47, 0]) 5 ≠ some true
        then (⟨o.setBad, b⟩ : Put) else ⟨(putBytes [72, 84, 84, 80, 47] o).o, b.drop 5⟩) = p at h0
  obtain ⟨w0, h0⟩ := h0
  obtain ⟨w1, h1⟩ := putProtoDigits_grew p
  obtain ⟨w2, h2⟩ := putProtoDot_grew (putProtoDigits p)
  obtain ⟨w3, h3⟩ := putProtoDigits_grew (putProtoDot (putProtoDigits p))
  have h := ((h0.trans h1).trans h2).trans h3
  dsimp only
  split
  · exact ⟨_, h.trans (setBad_grew _ _)⟩
  · exact ⟨_, h⟩

/-! ## Header values -/

/-- The bytes of a header value. -/
def valueChar (c : Byte) : Bool := printable c || blank c

theorem skipHv_cons (c : Byte) (b : List Byte) : skipHv (c :: b) =
    if isSpace c then skipHv b
    else if c = 13 then
      match b with
      | d :: x :: y :: b' => if d = 10 ∧ isSpace x then skipHv (y :: b') else c :: b
      | _ => c :: b
    else c :: b := by
  rw [skipHv.eq_def]; rfl

theorem skipHv_split (v : List Byte) (hv : ∀ c ∈ v, valueChar c = true) :
    ∃ sp, v = sp ++ skipHv v ∧ (∀ c ∈ sp, blank c = true) ∧
      (∀ c ∈ (skipHv v).head?, printable c = true ∧ blank c = false) := by
  induction v with
  | nil => exact ⟨[], by simp [skipHv]⟩
  | cons c v ih =>
    have hc := hv c (by simp)
    obtain ⟨sp, h1, h2, h3⟩ := ih (fun d hd => hv d (by simp [hd]))
    rw [skipHv_cons, isSpace_eq]
    by_cases hb : blank c = true
    · rw [if_pos hb]
      refine ⟨c :: sp, by rw [List.cons_append, ← h1], ?_, h3⟩
      intro d hd
      rcases List.mem_cons.1 hd with rfl | h
      · exact hb
      · exact h2 d h
    · have hb' : blank c = false := by simpa using hb
      have hp : printable c = true := by simpa [valueChar, hb'] using hc
      have h13 : c ≠ 13 := (noBreak_of_printable hp).1
      rw [if_neg hb, if_neg h13]
      exact ⟨[], by simp, by simp, by simp [hp, hb']⟩

theorem norm_blanks (st g : Bool) (sp v : List Byte) (h : ∀ c ∈ sp, blank c = true) :
    norm st g (sp ++ v) = norm st (g || !sp.isEmpty) v := by
  induction sp generalizing g with
  | nil => simp
  | cons c sp ih =>
    rw [List.cons_append, norm, if_pos (h c (by simp)), ih true (fun d hd => h d (by simp [hd]))]
    simp

theorem blank_of_printable {c : Byte} (h : printable c = true) : blank c = false := by
  cases hb : blank c with
  | false => rfl
  | true =>
    simp only [blank, decide_eq_true_eq] at hb
    rcases hb with rfl | rfl <;> simp [printable] at h

theorem norm_word (w v : List Byte) (h : ∀ c ∈ w, printable c = true) :
    norm true false (w ++ v) = w ++ norm true false v := by
  induction w with
  | nil => rfl
  | cons c w ih =>
    rw [List.cons_append, norm, if_neg (by simp [blank_of_printable (h c (by simp))]),
      ih (fun d hd => h d (by simp [hd]))]
    simp

/-- Splitting a value at the end of its first word. -/
theorem word_split (v : List Byte) (hv : ∀ c ∈ v, valueChar c = true) :
    ∃ w x, v = w ++ x ∧ (∀ c ∈ w, printable c = true) ∧ (∀ c ∈ x.head?, printable c = false) := by
  induction v with
  | nil => exact ⟨[], [], by simp⟩
  | cons c v ih =>
    obtain ⟨w, x, h1, h2, h3⟩ := ih (fun d hd => hv d (by simp [hd]))
    by_cases hp : printable c = true
    · refine ⟨c :: w, x, by rw [h1]; rfl, ?_, h3⟩
      intro d hd
      rcases List.mem_cons.1 hd with rfl | h
      · exact hp
      · exact h2 d h
    · exact ⟨[], c :: v, rfl, by simp, by simpa using hp⟩

theorem norm_length (st g : Bool) (v : List Byte) : (norm st g v).length ≤ v.length + (if g then 1 else 0) := by
  induction v generalizing st g with
  | nil => simp [norm]
  | cons c v ih =>
    rw [norm]
    split
    · have := ih st true
      simp only [if_true, List.length_cons] at this ⊢
      omega
    · have := ih true false
      simp only [List.length_append, List.length_cons]
      cases st <;> cases g <;> simp at this ⊢ <;> omega

/-- A value made of visible characters and blanks is written as its normal form. -/
theorem putHvLoop_adv (f : Nat) (start : Bool) (v : List Byte) (o : Out)
    (hv : ∀ c ∈ v, valueChar c = true) (hf : v.length < f) (hg : o.good = true)
    (hr : (norm (!start) false v).length ≤ o.room) :
    putHvLoop f start v o = adv o (norm (!start) false v) := by
  induction f generalizing start v o with
  | zero => omega
  | succ f ih =>
    obtain ⟨sp, h1, h2, h3⟩ := skipHv_split v hv
    rw [putHvLoop]
    generalize hl : skipHv v = left at h1 h3
    have hlen : left.length < v.length ↔ sp ≠ [] := by
      rw [h1]; cases sp <;> simp; omega
    have hn : norm (!start) false v = norm (!start) (!sp.isEmpty) left := by
      rw [h1, norm_blanks _ _ _ _ h2]; simp
    cases left with
    | nil =>
      dsimp only
      rw [hn]
      simp [norm, adv_nil]
    | cons c b' =>
      obtain ⟨hpc, hbc⟩ := h3 c (by simp)
      have hvl : ∀ d ∈ c :: b', valueChar d = true := fun d hd => hv d (by rw [h1]; exact List.mem_append_right _ hd)
      obtain ⟨w, x, e1, e2, e3⟩ := word_split (c :: b') hvl
      have hw : w ≠ [] := by
        rintro rfl
        rw [List.nil_append] at e1
        have := e3 c (by rw [← e1]; simp)
        rw [hpc] at this; cases this
      obtain ⟨w', rfl⟩ : ∃ w', w = c :: w' := by
        cases w with
        | nil => exact absurd rfl hw
        | cons a w' => simp only [List.cons_append, List.cons.injEq] at e1; exact ⟨w', by rw [e1.1]⟩
      have hnw : norm (!start) (!sp.isEmpty) (c :: b') =
          (if !start && !sp.isEmpty then [32] else []) ++ ((c :: w') ++ norm true false x) := by
        simp only [List.cons_append, List.cons.injEq, true_and] at e1
        rw [norm, if_neg (by simp [hbc]), e1, norm_word _ _ (fun d hd => e2 d (by simp [hd]))]
        simp
      rw [hn, hnw] at hr ⊢
      have hif : (if (!start : Bool) = true ∧ (c :: b').length < v.length ∧ (c :: b') ≠ [] then putSpace o else o) =
          adv o (if !start && !sp.isEmpty then [32] else []) := by
        cases start <;> cases sp
        · rw [if_neg (fun h => (hlen.1 h.2.1) rfl)]; simp [adv_nil]
        · rw [if_pos ⟨rfl, hlen.2 (by simp), by simp⟩]
          simp at hr ⊢
          exact putSpace_adv hg (by omega)
        · simp [adv_nil]
        · simp [adv_nil]
      dsimp only
      rw [hif, isAbcprint_eq, if_pos hpc, e1]
      simp only [List.length_append] at hr
      rw [putChars_adv (c :: w') x (fun d hd => by rw [isAbcprint_eq]; exact e2 d hd)
        (fun d hd => by rw [isAbcprint_eq]; exact e3 d hd) (by simpa using hg) (by simp at hr ⊢; omega)]
      rw [adv_adv]
      dsimp only
      by_cases hx : x = []
      · subst hx; simp [norm]
      · rw [if_pos ⟨by simpa using hg, hx⟩]
        have hlx : x.length < v.length := by
          rw [h1, e1]; simp; omega
        rw [ih false x _ (fun d hd => hvl d (by rw [e1]; exact List.mem_append_right _ hd)) (by omega)
          (by simpa using hg) (by simp at hr ⊢; omega), adv_adv]
        simp [List.append_assoc]

end Abc.Http
