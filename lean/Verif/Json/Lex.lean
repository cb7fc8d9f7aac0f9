import Verif.Json.Model
import Verif.Json.Spec
import Verif.Stream.Lemmas
import Verif.Ascii.Lemmas
import Mathlib.Tactic.Common
import Mathlib.Tactic.ClearExcept
import Mathlib.Data.List.Basic

/-!
# Reading strings, numbers and literals
-/

namespace Abc.Json

open Abc.Ascii Abc.Stream Spec

instance (c : Byte) : Decidable (IsWs c) := by unfold IsWs; infer_instance
instance (c : Byte) : Decidable (Digit c) := by unfold Digit; infer_instance
instance (c : Byte) : Decidable (Hexdig c) := by unfold Hexdig; infer_instance
instance (c : Byte) : Decidable (Plain c) := by unfold Plain; infer_instance

set_option maxRecDepth 10000 in
theorem jsonIsSpace_iff : ∀ c, jsonIsSpace c = true ↔ IsWs c := forall_byte (by decide)
set_option maxRecDepth 10000 in
theorem isDigit_iff : ∀ c, isDigit c = true ↔ Digit c := forall_byte (by decide)
set_option maxRecDepth 10000 in
theorem isHex_iff : ∀ c, isHex c = true ↔ Hexdig c := forall_byte (by decide)
theorem content_iff (c : Byte) : jsonIsStringContent c = true ↔ Plain c := by
  simp [jsonIsStringContent, Plain]

@[simp] theorem peekCharV_valid (s : In) : s.peekCharV valid = s.peekV := by simp [In.peekCharV, valid]
@[simp] theorem peekCharS_valid (s : In) : s.peekCharS valid = s.peekS := by simp [In.peekCharS, valid]

theorem wr_app (a v : List Byte) (c0 c : Byte) {i : Nat} (hi : i = a.length) :
    wr (a ++ c0 :: v) i c = .ok (a ++ c :: v) := by
  subst hi
  rw [wr_ok (by simp)]
  simp

/-! ## Escapes -/

set_option maxRecDepth 20000 in
theorem hexdig_val : ∀ a : Byte, Hexdig a → (hex a).toNat = hexVal a ∧ hexVal a < 16 := forall_byte (by decide)

theorem hex_pair {a b : Byte} (ha : Hexdig a) (hb : Hexdig b) :
    (hex a <<< 4) ||| hex b = UInt8.ofNat (16 * hexVal a + hexVal b) := by
  have h1 := hexdig_val a ha
  have h2 := hexdig_val b hb
  have e1 : hex a = UInt8.ofNat (hexVal a) := by rw [← h1.1]; simp
  have e2 : hex b = UInt8.ofNat (hexVal b) := by rw [← h2.1]; simp
  rw [e1, e2]
  obtain ⟨x, hx⟩ : ∃ x : Fin 16, hexVal a = x := ⟨⟨_, h1.2⟩, rfl⟩
  obtain ⟨y, hy⟩ : ∃ y : Fin 16, hexVal b = y := ⟨⟨_, h2.2⟩, rfl⟩
  rw [hx, hy]
  clear * -
  revert x y
  decide

/-- An escape, read in place. -/
theorem escaped_ok {fuel : Nat} {e : Es} {run R : List Byte} (he : e.Ok run) (hf : 5 < fuel)
    (hR : ∃ c R', R = c :: R' ∧ (c = 92 ∨ c = 34)) :
    escaped fuel (In.ofList (e.text ++ run ++ R)) = .ok ⟨In.ofList (run ++ R), e.val⟩ := by
  obtain ⟨c, R', rfl, hc⟩ := hR
  cases e with
  | simple d =>
    obtain ⟨x, hx, rfl⟩ := he
    simp only [Es.table, List.mem_cons, List.not_mem_nil, or_false] at hx
    rcases hx with rfl | rfl | rfl | rfl | rfl | rfl | rfl | rfl <;>
      simp [escaped, Es.text, Es.val, Es.table]
  | uni a b =>
    obtain ⟨ha, hb, hrun⟩ := he
    have hnx : isHex ((In.ofList (run ++ c :: R')).peekCharV valid) = false := by
      rw [peekCharV_valid]
      cases run with
      | nil =>
        simp only [List.nil_append, In.peekV_cons]
        rcases hc with rfl | rfl <;> decide
      | cons d run =>
        have := hrun d (by simp)
        simp only [List.cons_append, In.peekV_cons]
        rw [← isHex_iff] at this
        simpa using this
    have hps : (In.ofList (run ++ c :: R')).peekCharS valid = In.ofList (run ++ c :: R') := by
      rw [peekCharS_valid]
      cases run <;> rfl
    have := getChars_app (size := 5) (valid := valid) (pred := isHex) (a := []) (v := [0, 0, 0, 0, 0])
      (by decide) (by decide) [48, 48, a, b] (run ++ c :: R') hnx
      (by
        simp only [List.mem_cons, List.not_mem_nil, or_false, valid, true_and]
        rintro x (rfl | rfl | rfl | rfl)
        · decide
        · decide
        · rw [isHex_iff]; exact ha
        · rw [isHex_iff]; exact hb) fuel (by simp) (by simp; omega) (by simp)
    rw [hps] at this
    simp only [List.nil_append, List.length_nil, List.cons_append] at this
    simp [escaped, Es.text, Es.val, this, hex_pair ha hb]

/-! ## Strings -/

theorem tailText_cons (e : Es) (run : List Byte) (tail : List (Es × List Byte)) :
    tailText ((e, run) :: tail) = e.text ++ run ++ tailText tail := by simp [tailText]
theorem tailVal_cons (e : Es) (run : List Byte) (tail : List (Es × List Byte)) :
    tailVal ((e, run) :: tail) = e.val :: run ++ tailVal tail := by simp [tailVal]

theorem Es.text_cons (e : Es) : ∃ t, e.text = 92 :: t := by cases e <;> exact ⟨_, rfl⟩
theorem Es.text_length (e : Es) : 2 ≤ e.text.length := by cases e <;> simp [Es.text]

theorem tail_start (tail : List (Es × List Byte)) (r : List Byte) :
    ∃ c R', tailText tail ++ 34 :: r = c :: R' ∧ (c = 92 ∨ c = 34) := by
  cases tail with
  | nil => exact ⟨34, r, rfl, .inr rfl⟩
  | cons x tail =>
    obtain ⟨t, ht⟩ := Es.text_cons x.1
    refine ⟨92, t ++ x.2 ++ tailText tail ++ 34 :: r, ?_, .inl rfl⟩
    obtain ⟨e, run⟩ := x
    rw [tailText_cons, ht]
    simp

theorem tailOk_cons {e : Es} {run : List Byte} {tail : List (Es × List Byte)}
    (h : ∀ x ∈ (e, run) :: tail, x.1.Ok x.2 ∧ ∀ c ∈ x.2, Plain c) :
    e.Ok run ∧ (∀ c ∈ run, Plain c) ∧ ∀ x ∈ tail, x.1.Ok x.2 ∧ ∀ c ∈ x.2, Plain c :=
  ⟨(h (e, run) (by simp)).1, (h (e, run) (by simp)).2, fun x hx => h x (by simp [hx])⟩

theorem strLoop_ok {fuel size : Nat} (tail : List (Es × List Byte)) :
    ∀ (w : List Byte) (f : Nat) (a v r : List Byte) (n : Nat), (∀ c ∈ w, Plain c) →
      (∀ x ∈ tail, x.1.Ok x.2 ∧ ∀ c ∈ x.2, Plain c) → a.length = 8 + n →
      n + (w ++ tailVal tail).length + 1 ≤ size → size < 2 ^ 64 → (w ++ tailVal tail).length < v.length →
      (w ++ tailText tail).length < fuel → 5 < fuel → tail.length < f →
      ∃ v', strLoop fuel size f (In.ofList (w ++ tailText tail ++ 34 :: r)) (a ++ v) n =
        .ok ⟨In.ofList r, a ++ (w ++ tailVal tail) ++ 0 :: v', n + (w ++ tailVal tail).length⟩ ∧
        (a ++ (w ++ tailVal tail) ++ 0 :: v').length = (a ++ v).length := by
  induction tail with
  | nil =>
    intro w f a v r n hw _ ha hn hs hv hf _ hf'
    obtain ⟨f, rfl⟩ : ∃ g, f = g + 1 := ⟨f - 1, by omega⟩
    simp only [tailVal, tailText, List.flatMap_nil, List.append_nil] at *
    have := getChars_app (valid := valid) (pred := jsonIsStringContent) (a := a) (v := v) (size := size - n)
      (by omega) (by omega) w (34 :: r) (by simp [jsonIsStringContent])
      (fun c hc => ⟨rfl, (content_iff c).2 (hw c hc)⟩) fuel hv hf (by omega)
    rw [ha] at this
    refine ⟨v.drop (w.length + 1), ?_, by simp; omega⟩
    rw [strLoop, sub64_eq (by omega) hs, this]
    simp
  | cons x tail ih =>
    obtain ⟨e, run⟩ := x
    intro w f a v r n hw ht ha hn hs hv hf hf5 hf'
    obtain ⟨he, hrun, ht⟩ := tailOk_cons ht
    obtain ⟨f, rfl⟩ : ∃ g, f = g + 1 := ⟨f - 1, by simp at hf'; omega⟩
    rw [tailVal_cons] at *
    rw [tailText_cons] at *
    obtain ⟨t, het⟩ := Es.text_cons e
    have hel := Es.text_length e
    simp only [List.length_append, List.length_cons] at hn hv hf hf'
    have h1 := getChars_app (valid := valid) (pred := jsonIsStringContent) (a := a) (v := v) (size := size - n)
      (by omega) (by omega) w (e.text ++ run ++ (tailText tail ++ 34 :: r)) (by rw [het]; simp [jsonIsStringContent])
      (fun c hc => ⟨rfl, (content_iff c).2 (hw c hc)⟩) fuel (by omega) (by omega) (by omega)
    rw [ha] at h1
    have h2 := escaped_ok (R := tailText tail ++ 34 :: r) he hf5 (tail_start tail r)
    have hps : (In.ofList (e.text ++ run ++ (tailText tail ++ 34 :: r))).peekS =
        In.ofList (e.text ++ run ++ (tailText tail ++ 34 :: r)) := by rw [het]; rfl
    have hpv : (In.ofList (e.text ++ run ++ (tailText tail ++ 34 :: r))).peekV = 92 := by rw [het]; rfl
    obtain ⟨v', h3, h4⟩ := ih run f (a ++ w ++ [e.val]) (v.drop (w.length + 1)) r (n + w.length + 1) hrun ht
      (by simp; omega) (by simp; omega) hs (by simp; omega) (by simp; omega) hf5 (by omega)
    refine ⟨v', ?_, ?_⟩
    · rw [strLoop, sub64_eq (by omega) hs]
      rw [show w ++ (e.text ++ run ++ tailText tail) ++ 34 :: r = w ++ (e.text ++ run ++ (tailText tail ++ 34 :: r)) by simp]
      rw [h1]
      simp only [Res.ok_bind, peekCharS_valid, hps, hpv, h2]
      rw [if_neg (by decide), if_pos trivial]
      rw [show a ++ (w ++ 0 :: v.drop (w.length + 1)) = (a ++ w) ++ 0 :: v.drop (w.length + 1) by simp]
      rw [wr_app _ _ _ _ (by simp; omega)]
      simp only [Res.ok_bind]
      rw [show (a ++ w) ++ e.val :: v.drop (w.length + 1) = (a ++ w ++ [e.val]) ++ v.drop (w.length + 1) by simp]
      rw [show run ++ (tailText tail ++ 34 :: r) = run ++ tailText tail ++ 34 :: r by simp]
      rw [h3]
      simp; omega
    · simp at h4 ⊢; omega

theorem getString_ok {fuel size : Nat} {s : Str} {r pre v : List Byte} (hs : s.Ok) (hp : pre.length = 8)
    (hn : s.val.length + 1 ≤ size) (hsz : size < 2 ^ 64) (hv : s.val.length < v.length)
    (hf : s.text.length + 6 < fuel) :
    ∃ v', getString fuel size (In.ofList (34 :: (s.text ++ 34 :: r))) (pre ++ v) =
        .ok ⟨In.ofList r, pre ++ s.val ++ 0 :: v', s.val.length⟩ ∧
        (pre ++ s.val ++ 0 :: v').length = (pre ++ v).length := by
  have ht : s.tail.length ≤ (tailText s.tail).length := by
    generalize s.tail = t
    induction t with
    | nil => simp
    | cons x t ih =>
      obtain ⟨e, run⟩ := x
      have := Es.text_length e
      rw [tailText_cons]; simp; omega
  unfold Str.text at hf
  simp only [List.length_append] at hf
  obtain ⟨v', h1, h2⟩ := strLoop_ok (fuel := fuel) (size := size) s.tail s.head fuel pre v r 0 hs.1 hs.2 (by omega)
    (by have := hn; unfold Str.val at this; omega) hsz hv (by simp; omega) (by omega) (by omega)
  refine ⟨v', ?_, h2⟩
  rw [getString, In.peekV_cons, if_pos rfl, In.peekS_cons, In.getS_cons]
  unfold Str.text Str.val
  rw [h1]
  simp only [Res.ok_bind]
  rw [wr_app _ _ _ _ (by simp; omega)]
  simp

theorem skipStrLoop_ok {fuel : Nat} (tail : List (Es × List Byte)) :
    ∀ (w : List Byte) (f : Nat) (r : List Byte) (n : Nat), (∀ c ∈ w, Plain c) →
      (∀ x ∈ tail, x.1.Ok x.2 ∧ ∀ c ∈ x.2, Plain c) →
      (w ++ tailText tail).length < fuel → 5 < fuel → tail.length < f →
      ∃ n', skipStrLoop fuel f (In.ofList (w ++ tailText tail ++ 34 :: r)) n = .ok ⟨In.ofList r, n'⟩ := by
  induction tail with
  | nil =>
    intro w f r n hw _ hf _ hf'
    obtain ⟨f, rfl⟩ : ∃ g, f = g + 1 := ⟨f - 1, by omega⟩
    simp only [tailText, List.flatMap_nil, List.append_nil] at *
    have := skipChars_ok (valid := valid) (pred := jsonIsStringContent) w (34 :: r) (by simp [jsonIsStringContent])
      (fun c hc => ⟨rfl, (content_iff c).2 (hw c hc)⟩) fuel hf
    rw [skipStrLoop, this]
    simp
  | cons x tail ih =>
    obtain ⟨e, run⟩ := x
    intro w f r n hw ht hf hf5 hf'
    obtain ⟨he, hrun, ht⟩ := tailOk_cons ht
    obtain ⟨f, rfl⟩ : ∃ g, f = g + 1 := ⟨f - 1, by simp at hf'; omega⟩
    rw [tailText_cons] at *
    obtain ⟨t, het⟩ := Es.text_cons e
    have hel := Es.text_length e
    simp only [List.length_append, List.length_cons] at hf hf'
    have h1 := skipChars_ok (valid := valid) (pred := jsonIsStringContent)
      w (e.text ++ run ++ (tailText tail ++ 34 :: r)) (by rw [het]; simp [jsonIsStringContent])
      (fun c hc => ⟨rfl, (content_iff c).2 (hw c hc)⟩) fuel (by omega)
    have h2 := escaped_ok (R := tailText tail ++ 34 :: r) he hf5 (tail_start tail r)
    have hps : (In.ofList (e.text ++ run ++ (tailText tail ++ 34 :: r))).peekS =
        In.ofList (e.text ++ run ++ (tailText tail ++ 34 :: r)) := by rw [het]; rfl
    have hpv : (In.ofList (e.text ++ run ++ (tailText tail ++ 34 :: r))).peekV = 92 := by rw [het]; rfl
    obtain ⟨n', h3⟩ := ih run f r (n + w.length) hrun ht (by simp; omega) hf5 (by omega)
    refine ⟨n', ?_⟩
    rw [skipStrLoop]
    rw [show w ++ (e.text ++ run ++ tailText tail) ++ 34 :: r = w ++ (e.text ++ run ++ (tailText tail ++ 34 :: r)) by simp]
    rw [h1]
    simp only [Res.ok_bind, peekCharS_valid, hps, hpv, h2]
    rw [if_neg (by decide), if_pos trivial]
    rw [show run ++ (tailText tail ++ 34 :: r) = run ++ tailText tail ++ 34 :: r by simp, h3]

theorem skipString_ok {fuel : Nat} {s : Str} {r : List Byte} (hs : s.Ok) (hf : s.text.length + 6 < fuel) :
    ∃ n', skipString fuel (In.ofList (34 :: (s.text ++ 34 :: r))) = .ok ⟨In.ofList r, n'⟩ := by
  have ht : s.tail.length ≤ (tailText s.tail).length := by
    generalize s.tail = t
    induction t with
    | nil => simp
    | cons x t ih =>
      obtain ⟨e, run⟩ := x
      have := Es.text_length e
      rw [tailText_cons]; simp; omega
  unfold Str.text at hf
  simp only [List.length_append] at hf
  obtain ⟨n', h1⟩ := skipStrLoop_ok (fuel := fuel) s.tail s.head fuel r 0 hs.1 hs.2 (by simp; omega) (by omega) (by omega)
  refine ⟨n', ?_⟩
  rw [skipString, In.peekV_cons, if_pos rfl, In.peekS_cons, In.getS_cons]
  unfold Str.text
  rw [h1]

/-! ## Numbers -/

/-- The text after a number does not continue it. -/
def NumStop (r : List Byte) : Prop := ∃ c r', r = c :: r' ∧ ¬ Digit c ∧ c ≠ 46 ∧ c ≠ 101 ∧ c ≠ 69

theorem numDigits_ok {fuel : Nat} {d r a v : List Byte} (hd : ∀ c ∈ d, Digit c)
    (hr : ∃ c r', r = c :: r' ∧ ¬ Digit c) (hl : (a ++ v).length = 26) (hn : a.length + d.length ≤ 25)
    (hf : d.length < fuel) :
    ∃ v', numDigits fuel ⟨In.ofList (d ++ r), a ++ v, a.length⟩ =
      .ok ⟨In.ofList r, (a ++ d) ++ 0 :: v', (a ++ d).length⟩ ∧ ((a ++ d) ++ 0 :: v').length = 26 := by
  obtain ⟨c, r', rfl, hc⟩ := hr
  simp only [List.length_append] at hl
  refine ⟨v.drop (d.length + 1), ?_, by simp; omega⟩
  have := getChars_app (valid := valid) (pred := isDigit) (a := a) (v := v) (size := 26 - a.length)
      (by omega) (by omega) d (c :: r') (by rw [peekCharV_valid, In.peekV_cons]; rw [← isDigit_iff] at hc; simpa using hc)
      (fun c hc => ⟨rfl, (isDigit_iff c).2 (hd c hc)⟩) fuel (by omega) hf (by omega)
  rw [numDigits]
  dsimp only
  rw [sub64_eq (by omega) (by decide), this]
  simp

theorem wr_app' {a v : List Byte} (c : Byte) (hl : (a ++ v).length = 26) (hn : a.length ≤ 25) :
    wr (a ++ v) a.length c = .ok ((a ++ [c]) ++ v.drop 1) := by
  cases v with
  | nil => simp at hl; omega
  | cons x v => rw [wr_app _ _ _ _ rfl]; simp

theorem numSign_ok {o : Option Byte} {r a v : List Byte} (ho : ∀ c ∈ o, c = 43 ∨ c = 45)
    (hr : ∃ c r', r = c :: r' ∧ c ≠ 43 ∧ c ≠ 45) (hl : (a ++ v).length = 26) (hn : a.length ≤ 25) :
    ∃ v', numSign ⟨In.ofList (o.toList ++ r), a ++ v, a.length⟩ =
      .ok ⟨In.ofList r, (a ++ o.toList) ++ v', (a ++ o.toList).length⟩ ∧ ((a ++ o.toList) ++ v').length = 26 := by
  obtain ⟨c, r', rfl, hc1, hc2⟩ := hr
  cases o with
  | none =>
    refine ⟨v, ?_, by simpa using hl⟩
    simp [numSign, hc1, hc2]
  | some d =>
    have hd := ho d (by simp)
    refine ⟨v.drop 1, ?_, by simp at hl ⊢; omega⟩
    rw [numSign, if_pos (by simpa using hd)]
    simp only [Option.toList_some, List.cons_append, List.nil_append, In.peekV_cons, In.peekS_cons, In.getS_cons]
    rw [wr_app' d hl hn]
    simp

theorem numFrac_ok {fuel : Nat} {o : Option (List Byte)} {r a v : List Byte}
    (ho : ∀ d ∈ o, ∀ c ∈ d, Digit c) (hr : ∃ c r', r = c :: r' ∧ ¬ Digit c ∧ c ≠ 46) (hl : (a ++ v).length = 26)
    (hn : (a ++ fracText o).length ≤ 25)
    (hf : 26 < fuel) :
    ∃ v', numFrac fuel ⟨In.ofList (fracText o ++ r), a ++ v, a.length⟩ =
      .ok ⟨In.ofList r, (a ++ fracText o) ++ v',
        (a ++ fracText o).length⟩ ∧
      ((a ++ fracText o) ++ v').length = 26 := by
  obtain ⟨c, r', rfl, hc1, hc2⟩ := hr
  cases o with
  | none =>
    refine ⟨v, ?_, by simpa [fracText] using hl⟩
    simp [numFrac, fracText, hc2]
  | some d =>
    simp only [fracText, List.length_append, List.length_cons] at hn ⊢
    obtain ⟨v', h1, h2⟩ := numDigits_ok (fuel := fuel) (r := c :: r') (a := a ++ [46]) (v := v.drop 1)
      (ho d rfl) ⟨c, r', rfl, hc1⟩ (by simp at hl ⊢; omega) (by simp; omega) (by omega)
    refine ⟨0 :: v', ?_, by simp at h2 ⊢; omega⟩
    simp only [numFrac, List.cons_append, In.peekV_cons, In.peekS_cons, In.getS_cons, if_true]
    rw [wr_app' 46 hl (by omega)]
    simp only [Res.ok_bind]
    rw [show a.length + 1 = (a ++ [46]).length by simp, h1]
    simp

theorem numExp_ok {fuel : Nat} {o : Option (Byte × Option Byte × List Byte)} {r a v : List Byte}
    (ho : ∀ x ∈ o, (x.1 = 101 ∨ x.1 = 69) ∧ (∀ c ∈ x.2.1, c = 43 ∨ c = 45) ∧ x.2.2 ≠ [] ∧ ∀ c ∈ x.2.2, Digit c)
    (hr : NumStop r) (hl : (a ++ v).length = 26)
    (hn : (a ++ expText o).length ≤ 25)
    (hf : 26 < fuel) :
    ∃ v', numExp fuel ⟨In.ofList (expText o ++ r), a ++ v, a.length⟩ =
      .ok ⟨In.ofList r, (a ++ expText o) ++ v',
        (a ++ expText o).length⟩ ∧
      ((a ++ expText o) ++ v').length = 26 := by
  obtain ⟨c, r', rfl, hc1, hc2, hc3, hc4⟩ := hr
  cases o with
  | none =>
    refine ⟨v, ?_, by simpa [expText] using hl⟩
    simp [numExp, expText, hc3, hc4]
  | some x =>
    obtain ⟨e, s, d⟩ := x
    obtain ⟨he, hs, hd0, hd⟩ := ho _ rfl
    simp only at he hs hd0 hd
    simp only [expText, List.length_append, List.length_cons] at hn ⊢
    obtain ⟨d1, d', rfl⟩ := List.exists_cons_of_ne_nil hd0
    have hd1 := hd d1 (by simp)
    obtain ⟨v1, h1, h2⟩ := numSign_ok (o := s) (r := (d1 :: d') ++ c :: r') (a := a ++ [e]) (v := v.drop 1) hs
      ⟨d1, d' ++ c :: r', rfl, by rintro rfl; revert hd1; decide, by rintro rfl; revert hd1; decide⟩
      (by simp at hl ⊢; omega) (by simp; omega)
    obtain ⟨v', h3, h4⟩ := numDigits_ok (fuel := fuel) (d := d1 :: d') (r := c :: r') (a := a ++ [e] ++ s.toList) (v := v1)
      hd ⟨c, r', rfl, hc1⟩ h2 (by simp at hn ⊢; omega) (by omega)
    refine ⟨0 :: v', ?_, by simp at h4 ⊢; omega⟩
    rw [numExp, if_pos (by simpa using he)]
    simp only [List.cons_append, In.peekV_cons, In.peekS_cons, In.getS_cons]
    rw [wr_app' e hl (by omega)]
    simp only [Res.ok_bind]
    rw [show s.toList ++ d1 :: d' ++ c :: r' = s.toList ++ (d1 :: d' ++ c :: r') by simp,
      show a.length + 1 = (a ++ [e]).length by simp, h1]
    simp only [Res.ok_bind, List.cons_append] at h3 ⊢
    rw [h3]
    simp

/-- A number, read into `digits`. -/
theorem getNumber_ok {fuel : Nat} {n : Num} {r : List Byte} (hn : n.Ok) (hr : NumStop r) (hf : 26 < fuel) :
    ∃ v, getNumber fuel (In.ofList (n.text ++ r)) = .ok ⟨In.ofList r, n.text ++ 0 :: v, n.text.length⟩ := by
  obtain ⟨hsign, hint0, hint, hfrac, hexp, hlen⟩ := hn
  unfold Num.text at hlen ⊢
  simp only [List.length_append] at hlen
  obtain ⟨i1, i', hi⟩ := List.exists_cons_of_ne_nil hint0
  have hi1 : Digit i1 := hint i1 (by simp [hi])
  obtain ⟨v1, h1, l1⟩ := numSign_ok (o := n.sign) (a := []) (v := List.replicate 26 0)
    (r := n.int ++ (fracText n.frac ++
      (expText n.exp ++ r))) hsign
    ⟨i1, i' ++ (fracText n.frac ++
      (expText n.exp ++ r)), by rw [hi]; rfl,
      by rintro rfl; revert hi1; decide, by rintro rfl; revert hi1; decide⟩ (by simp) (by simp)
  have hex : ∃ c r', (expText n.exp ++ r) = c :: r' ∧
      ¬ Digit c ∧ c ≠ 46 := by
    cases hx : n.exp with
    | none => obtain ⟨c, r', rfl, a, b, _⟩ := hr; exact ⟨c, r', rfl, a, b⟩
    | some x =>
      obtain ⟨e, s, d⟩ := x
      refine ⟨e, s.toList ++ d ++ r, by simp [expText], ?_⟩
      rcases (hexp _ (by rw [hx]; rfl)).1 with h | h <;> simp only at h <;> subst h <;> decide
  have hfr : ∃ c r', fracText n.frac ++
      (expText n.exp ++ r) = c :: r' ∧ ¬ Digit c := by
    cases hx : n.frac with
    | none => obtain ⟨c, r', h, a, _⟩ := hex; exact ⟨c, r', by simpa [fracText] using h, a⟩
    | some d => exact ⟨46, _, rfl, by decide⟩
  obtain ⟨v2, h2, l2⟩ := numDigits_ok (fuel := fuel) (d := n.int) (a := [] ++ n.sign.toList) (v := v1) hint hfr l1
    (by simp; omega) (by omega)
  obtain ⟨v3, h3, l3⟩ := numFrac_ok (fuel := fuel) (o := n.frac) (a := [] ++ n.sign.toList ++ n.int) (v := 0 :: v2)
    (fun d hd => (hfrac d hd).2) hex l2 (by simp only [List.length_append, List.length_nil]; omega) hf
  obtain ⟨v4, h4, l4⟩ := numExp_ok (fuel := fuel) (o := n.exp)
    (a := [] ++ n.sign.toList ++ n.int ++ fracText n.frac) (v := v3)
    hexp hr l3 (by simp only [List.length_append, List.length_nil]; omega) hf
  refine ⟨v4.drop 1, ?_⟩
  unfold getNumber
  simp only [List.append_assoc, List.nil_append, List.length_nil] at h1 h2 h3 h4 l4 ⊢
  rw [h1]
  simp only [Res.ok_bind]
  rw [h2]
  simp only [Res.ok_bind]
  rw [h3]
  simp only [Res.ok_bind]
  rw [h4]
  simp only [Res.ok_bind]
  have := wr_app' (a := n.sign.toList ++ (n.int ++ (fracText n.frac ++
    expText n.exp))) (v := v4) 0 (by simpa using l4)
    (by simp only [List.length_append]; omega)
  simp only [List.append_assoc] at this
  rw [this]
  simp

theorem Num.text_ne_zero {n : Num} (hn : n.Ok) : ∀ c ∈ n.text, c ≠ 0 := by
  obtain ⟨hsign, _, hint, hfrac, hexp, _⟩ := hn
  have dz : ∀ c, Digit c → c ≠ 0 := by rintro c h rfl; revert h; decide
  intro c hc
  unfold Num.text at hc
  simp only [List.mem_append] at hc
  rcases hc with ((hc | hc) | hc) | hc
  · rcases hsign c (by simpa using hc) with rfl | rfl <;> decide
  · exact dz c (hint c hc)
  · cases hx : n.frac with
    | none => rw [hx] at hc; simp [fracText] at hc
    | some d =>
      rw [hx] at hc
      simp only [fracText, List.mem_cons] at hc
      rcases hc with rfl | hc
      · decide
      · exact dz c ((hfrac d hx).2 c hc)
  · cases hx : n.exp with
    | none => rw [hx] at hc; simp [expText] at hc
    | some x =>
      obtain ⟨e, s, d⟩ := x
      obtain ⟨he, hs, _, hd⟩ := hexp _ hx
      rw [hx] at hc
      simp only [expText, List.mem_cons, List.mem_append] at hc
      rcases hc with rfl | hc | hc
      · rcases he with h | h <;> simp only at h <;> subst h <;> decide
      · rcases hs c (by simpa using hc) with rfl | rfl <;> decide
      · exact dz c (hd c hc)

theorem Num.text_cons {n : Num} (hn : n.Ok) : ∃ c t, n.text = c :: t ∧ (Digit c ∨ c = 43 ∨ c = 45) := by
  obtain ⟨hsign, h0, hint, _⟩ := hn
  unfold Num.text
  cases hs : n.sign with
  | none =>
    obtain ⟨i1, i', hi⟩ := List.exists_cons_of_ne_nil h0
    rw [hi]
    exact ⟨i1, i' ++ fracText n.frac ++ expText n.exp, by simp, .inl (hint i1 (by simp [hi]))⟩
  | some c => exact ⟨c, n.int ++ fracText n.frac ++ expText n.exp, by simp, .inr (hsign c hs)⟩

theorem takeWhile_text {n : Num} (hn : n.Ok) (v : List Byte) :
    (n.text ++ 0 :: v).takeWhile (· ≠ 0) = n.text := by
  have := Num.text_ne_zero hn
  generalize n.text = t at *
  induction t with
  | nil => simp
  | cons c t ih =>
    have hc := this c (by simp)
    rw [List.cons_append, List.takeWhile_cons, if_pos (by simpa using hc), ih (fun d hd => this d (by simp [hd]))]

/-! ## Literals -/

theorem getLiteral_ok (l r : List Byte) : getLiteral l (In.ofList (l ++ r)) = In.ofList r := by
  induction l with
  | nil => rfl
  | cons c l ih =>
    simp [getLiteral, In.getCharS_cons (valid := valid) (c := c) (l ++ r) rfl, ih]

end Abc.Json
