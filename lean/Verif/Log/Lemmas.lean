import Verif.Log.Spec
import Verif.Ascii.Lemmas
import Mathlib.Tactic.Choose

namespace Abc.Log
open Abc.Ascii

theorem writeAt_length {buf w b : List Byte} {i : Nat} (h : writeAt buf i w = some b) : b.length = buf.length := by
  unfold writeAt at h
  split at h
  · simp_all
  · split at h
    · simp only [Option.some.injEq] at h; subst h; simp; omega
    · simp at h

theorem writeAt_some {buf w : List Byte} {i : Nat} (h : i + w.length ≤ buf.length) :
    ∃ b, writeAt buf i w = some b ∧ b.length = buf.length ∧
      b.take (i + w.length) = buf.take i ++ w := by
  by_cases hw : w = []
  · subst hw; exact ⟨buf, by simp [writeAt], rfl, by simp⟩
  · refine ⟨buf.take i ++ w ++ buf.drop (i + w.length), by simp [writeAt, hw, h], by simp; omega, ?_⟩
    rw [List.take_append_of_le_length (by simp; omega), List.take_of_length_le (by simp; omega)]

/-- The line holds `acc` as pending text. -/
def Holds (size : Nat) (l : Line) (acc : List Byte) : Prop :=
  l.buf.length = size + 2 ∧ l.pcount = acc.length ∧ l.buf.take acc.length = acc

theorem take_of_take {α} {b : List α} {n m : Nat} {x : List α} (h : b.take n = x) (hm : m ≤ n) : b.take m = x.take m := by
  rw [← h, List.take_take, Nat.min_eq_left hm]

theorem putAny_ok {size : Nat} {l : Line} {acc p : List Byte} (h : Holds size l acc)
    (hf : (acc ++ p).length < size) :
    ∃ l', putAny size p l = some l' ∧ Holds size l' (acc ++ p) ∧ l'.out = l.out := by
  obtain ⟨h1, h2, h3⟩ := h
  simp only [List.length_append] at hf
  have hr : room size l.pcount = size - acc.length := by unfold room; rw [h2, if_pos (by omega)]
  obtain ⟨b, hb1, hb2, hb3⟩ := writeAt_some (buf := l.buf) (i := l.pcount) (w := p ++ [0]) (by simp; omega)
  have ht : p.take (size - acc.length - 1) = p := List.take_of_length_le (by omega)
  refine ⟨⟨b, l.pcount + p.length, l.out⟩, ?_, ⟨by simp; omega, by simp [h2], ?_⟩, rfl⟩
  · unfold putAny
    dsimp only
    rw [hr, if_neg (by omega), ht, hb1]
  · have := take_of_take hb3 (m := (acc ++ p).length) (by simp; omega)
    rw [h2, h3] at this
    rw [this, ← List.append_assoc, List.take_left']; rfl

theorem get_ok {size : Nat} {l : Line} {acc : List Byte} (h : Holds size l acc) (hf : acc.length ≤ size) :
    ∃ l', get size l = some l' ∧ Holds size l' acc ∧ l'.out = l.out ∧ l'.buf.take (acc.length + 1) = acc ++ [0] := by
  obtain ⟨h1, h2, h3⟩ := h
  obtain ⟨b, hb1, hb2, hb3⟩ := writeAt_some (buf := l.buf) (i := l.pcount) (w := [0]) (by simp; omega)
  rw [h2, h3] at hb3
  refine ⟨⟨b, l.pcount, l.out⟩, ?_, ⟨by simp; omega, h2, ?_⟩, rfl, hb3⟩
  · unfold get; rw [if_pos (by omega), hb1]
  · have := take_of_take hb3 (m := acc.length) (by simp)
    rw [this]; simp

theorem flush_ok {size : Nat} {l : Line} {acc : List Byte} (h : Holds size l acc) (hf : acc.length ≤ size) (t : Bool) :
    ∃ l', flush t size l = some l' ∧ Holds size l' [] ∧ l'.out = if t then l.out ++ [acc ++ [10]] else l.out := by
  obtain ⟨h1, h2, h3⟩ := h
  obtain ⟨b, hb1, hb2, hb3⟩ := writeAt_some (buf := l.buf) (i := l.pcount) (w := [10, 0]) (by simp; omega)
  rw [h2, h3] at hb3
  have h4 := take_of_take hb3 (m := acc.length + 1) (by simp)
  have h5 : b.take (acc.length + 1) = acc ++ [10] := by
    rw [h4, show acc ++ [10, 0] = (acc ++ [10]) ++ [0] by simp, List.take_left' (by simp)]
  cases t
  · refine ⟨⟨b, 0, l.out⟩, ?_, ⟨by simp; omega, by simp, by simp⟩, by simp⟩
    unfold flush; rw [if_pos (by omega), hb1]; rfl
  · refine ⟨⟨b, 0, l.out ++ [acc ++ [10]]⟩, ?_, ⟨by simp; omega, by simp, by simp⟩, by simp⟩
    unfold flush; rw [if_pos (by omega), hb1]
    simp only [putLine, h2, if_true]
    rw [if_pos (by omega), h5]

theorem hexCell_length (d : List Byte) (o i : Nat) : (hexCell d o i).length = 3 := by
  unfold hexCell; split <;> rfl

theorem hexHalf_length (d : List Byte) (o i : Nat) : (hexHalf d o i).length = 25 := by
  simp [hexHalf, List.range, List.range.loop, hexCell_length]

theorem hexLine_length (d : List Byte) (o : Nat) : (hexLine d o).length = 72 := by
  simp [hexLine, hexHalf_length]

theorem putBinary_ok {size : Nat} {l : Line} {acc : List Byte} (h : Holds size l acc)
    (hf : acc.length < size) (d : List Byte) (o : Nat) :
    ∃ l' o' m, putBinary size d o l = some (l', o', m) ∧ Holds size l' (acc ++ dumpText size d o acc) ∧ l'.out = l.out ∧
      (dumpText size d o acc ≠ [] → o' = o + 16 ∧ m = decide (o + 16 ≤ d.length)) ∧
      (dumpText size d o acc = [] → o' = o ∧ m = false) ∧
      (acc ++ dumpText size d o acc).length < size := by
  have hh := h
  obtain ⟨h1, h2, h3⟩ := h
  have hr : room size l.pcount = size - acc.length := by unfold room; rw [h2, if_pos (by omega)]
  have hne : hexLine d o ≠ [] := by
    intro e; have := hexLine_length d o; rw [e] at this; simp at this
  unfold putBinary
  rw [hr]
  by_cases hc : acc.length + 72 < size ∧ o < d.length ∧ o % 16 = 0
  · have hd : dumpText size d o acc = hexLine d o := by simp [dumpText, hc]
    obtain ⟨b, hb1, hb2, hb3⟩ := writeAt_some (buf := l.buf) (i := l.pcount) (w := hexLine d o ++ [0])
      (by simp [hexLine_length]; omega)
    rw [if_neg (by omega), if_neg (by omega), if_neg (by omega), hb1, hd]
    refine ⟨_, _, _, rfl, ⟨by simp; omega, by simp [h2, hexLine_length], ?_⟩, rfl, fun _ => ⟨rfl, rfl⟩,
      fun e => absurd e hne, by simp [hexLine_length]; omega⟩
    have := take_of_take hb3 (m := (acc ++ hexLine d o).length) (by simp; omega)
    rw [h2, h3] at this
    simp only
    rw [this, ← List.append_assoc, List.take_left']
    rfl
  · have hd : dumpText size d o acc = [] := by simp only [dumpText, hc, if_false]
    rw [hd, List.append_nil]
    by_cases c1 : size - acc.length ≤ 72
    · rw [if_pos c1]; exact ⟨_, _, _, rfl, hh, rfl, fun e => absurd rfl e, fun _ => ⟨rfl, rfl⟩, hf⟩
    · rw [if_neg c1]
      by_cases c2 : d.length ≤ o
      · rw [if_pos c2]; exact ⟨_, _, _, rfl, hh, rfl, fun e => absurd rfl e, fun _ => ⟨rfl, rfl⟩, hf⟩
      · rw [if_neg c2, if_pos (by omega)]
        exact ⟨_, _, _, rfl, hh, rfl, fun e => absurd rfl e, fun _ => ⟨rfl, rfl⟩, hf⟩

theorem putAll_ok {size : Nat} (ps : List (List Byte)) : ∀ {l : Line} {acc : List Byte}, Holds size l acc →
    (acc ++ ps.flatten).length < size →
    ∃ l', putAll size ps l = some l' ∧ Holds size l' (acc ++ ps.flatten) ∧ l'.out = l.out := by
  induction ps with
  | nil => intro l acc h _; exact ⟨l, rfl, by simpa using h, rfl⟩
  | cons p ps ih =>
    intro l acc h hf
    have hf' : (acc ++ p).length < size := by simp at hf ⊢; omega
    obtain ⟨l1, e1, h1, o1⟩ := putAny_ok h hf'
    obtain ⟨l2, e2, h2, o2⟩ := ih h1 (by simpa using hf)
    refine ⟨l2, ?_, by simpa using h2, by rw [o2, o1]⟩
    simp only [putAll]; rw [e1]; exact e2

theorem step_ok {size : Nat} {l : Line} {a : Abs} {op : Op} (h : Holds size l a.pending) (ho : l.out = a.lines)
    (hf0 : a.pending.length < size) (hf : (specStep size a op).pending.length < size) :
    ∃ l', step true size op l = some l' ∧ Holds size l' (specStep size a op).pending ∧
      l'.out = (specStep size a op).lines := by
  cases op with
  | put p =>
    obtain ⟨l', e, h', o'⟩ := putAny_ok h hf
    exact ⟨l', e, h', by rw [o', ho]; rfl⟩
  | get =>
    obtain ⟨l', e, h', o', _⟩ := get_ok h (by omega)
    exact ⟨l', e, h', by rw [o', ho]; rfl⟩
  | flush =>
    obtain ⟨l', e, h', o'⟩ := flush_ok h (by omega) true
    exact ⟨l', e, h', by rw [o', ho]; rfl⟩
  | binary d o =>
    obtain ⟨l', o1, m, e, h', o', _⟩ := putBinary_ok h hf0 d o
    refine ⟨l', ?_, h', by rw [o', ho]; rfl⟩
    simp [step, e]

/-! Decoding -/

set_option maxRecDepth 10000 in
theorem hexDigit_value : ∀ n : Fin 256, hexValue (hexDigit n.val) = some (n.val % 16) ∧
    hexValue (hexDigit (n.val / 16)) = some (n.val / 16) := by decide

theorem hexDigit_value' (n : Nat) : hexValue (hexDigit n) = some (n % 16) := by
  have h := (hexDigit_value ⟨n % 16, by omega⟩).1
  have : hexDigit (n % 16) = hexDigit n := by unfold hexDigit; rw [Nat.mod_mod]
  simp only [this, Nat.mod_mod] at h; exact h

theorem readByte_hexLine (d : List Byte) (o : Nat) : ∀ i, i < 16 → readByte (hexLine d o) i = d[o + i]? := by
  have cell : ∀ s a b, (hexCell d o s)[0]? = some a → (hexCell d o s)[1]? = some b →
      (match hexValue a, hexValue b with
        | some x, some y => some (UInt8.ofNat (16 * x + y))
        | _, _ => none) = d[o + s]? := by
    intro s a b ha hb
    unfold hexCell at ha hb
    by_cases hs : o + s < d.length
    · rw [dif_pos hs] at ha hb
      simp only [List.getElem?_cons_zero, List.getElem?_cons_succ, Option.some.injEq] at ha hb
      subst ha hb
      have hv := hexDigit_value ⟨d[o + s].toNat, d[o + s].toNat_lt⟩
      simp only at hv
      rw [hv.1, hv.2]
      simp only
      rw [List.getElem?_eq_getElem hs]
      congr 1
      apply UInt8.toNat_inj.1
      have := d[o + s].toNat_lt
      simp; omega
    · rw [dif_neg hs] at ha hb
      simp only [List.getElem?_cons_zero, List.getElem?_cons_succ, Option.some.injEq] at ha hb
      subst ha hb
      rw [List.getElem?_eq_none (by omega)]
      rfl
  -- make the three characters of each cell explicit
  have ex : ∀ s, ∃ a b, hexCell d o s = [a, b, 32] ∧ (hexCell d o s)[0]? = some a ∧ (hexCell d o s)[1]? = some b := by
    intro s; unfold hexCell; split <;> exact ⟨_, _, rfl, rfl, rfl⟩
  choose A B hab hA hB using ex
  have hl : ∀ h, hexHalf d o h = 32 :: (List.range 8).flatMap (fun i => [A (h * 8 + i), B (h * 8 + i), 32]) := by
    intro h; unfold hexHalf; congr 1; congr 1; funext i; exact hab _
  intro i hi
  have hrow : (hexLine d o)[column i]? = some (A i) ∧ (hexLine d o)[column i + 1]? = some (B i) := by
    unfold hexLine
    rw [hl, hl]
    simp only [List.range, List.range.loop, List.flatMap_cons, List.flatMap_nil, List.map]
    have : i = 0 ∨ i = 1 ∨ i = 2 ∨ i = 3 ∨ i = 4 ∨ i = 5 ∨ i = 6 ∨ i = 7 ∨ i = 8 ∨ i = 9 ∨ i = 10 ∨ i = 11 ∨
        i = 12 ∨ i = 13 ∨ i = 14 ∨ i = 15 := by omega
    rcases this with h | h | h | h | h | h | h | h | h | h | h | h | h | h | h | h <;> subst h <;> exact ⟨rfl, rfl⟩
  unfold readByte
  rw [hrow.1, hrow.2]
  exact cell i _ _ (hA i) (hB i)

theorem filterMap_ext' {α β : Type} {f g : α → Option β} : ∀ {l : List α}, (∀ a ∈ l, f a = g a) → l.filterMap f = l.filterMap g
  | [], _ => rfl
  | a :: l, h => by
    rw [List.filterMap_cons, List.filterMap_cons, h a (by simp), filterMap_ext' (fun b hb => h b (by simp [hb]))]

theorem flatMap_ext' {α β : Type} {f g : α → List β} : ∀ {l : List α}, (∀ a ∈ l, f a = g a) → l.flatMap f = l.flatMap g
  | [], _ => rfl
  | a :: l, h => by
    rw [List.flatMap_cons, List.flatMap_cons, h a (by simp), flatMap_ext' (fun b hb => h b (by simp [hb]))]

theorem readLine_hexLine (d : List Byte) (o : Nat) : readLine (hexLine d o) = (d.drop o).take 16 := by
  unfold readLine
  have h1 : (List.range 16).filterMap (readByte (hexLine d o)) = (List.range 16).filterMap (fun i => (d.drop o)[i]?) := by
    apply filterMap_ext'
    intro i hi
    rw [readByte_hexLine d o i (by simpa using hi), List.getElem?_drop]
  rw [h1]
  generalize d.drop o = x
  have : ∀ (n : Nat) (x : List Byte), (List.range n).filterMap (fun i => x[i]?) = x.take n := by
    intro n
    induction n with
    | zero => intro x; simp
    | succ n ih =>
      intro x
      rw [List.range_succ, List.filterMap_append, ih]
      cases hx : x[n]? with
      | none => simp only [List.filterMap_cons, hx, List.filterMap_nil, List.append_nil]; rw [List.getElem?_eq_none_iff] at hx; rw [List.take_of_length_le hx, List.take_of_length_le (by omega)]
      | some a => simp [hx]; rw [List.take_add_one, hx]; simp
  exact this 16 x

theorem readOffset_hexLine (d : List Byte) (o : Nat) : readOffset (hexLine d o) = some (o % 65536) := by
  unfold hexLine readOffset
  simp only [List.cons_append, List.nil_append, hexDigit_value', Option.some.injEq]
  omega

end Abc.Log
