import Verif.Stream.Model
import Mathlib.Data.List.Basic
import Mathlib.Tactic.Common

/-!
# Facts about the stream primitives
-/

namespace Abc.Stream

open Abc.Ascii

theorem sub64_eq {a b : Nat} (h : b ≤ a) (ha : a < 2 ^ 64) : sub64 a b = a - b := by
  unfold sub64; omega

/-- Overwrite part of a block. -/
def putMem (mem : List Byte) (off : Nat) (w : List Byte) : List Byte :=
  mem.take off ++ w ++ mem.drop (off + w.length)

theorem putMem_nil (mem : List Byte) (off : Nat) : putMem mem off [] = mem := by simp [putMem]

theorem putMem_length {mem : List Byte} {off : Nat} {w : List Byte}
    (h : off + w.length ≤ mem.length) : (putMem mem off w).length = mem.length := by
  simp only [putMem, List.length_append, List.length_take, List.length_drop]
  omega

theorem putMem_set {mem : List Byte} {off : Nat} {w : List Byte} {c : Byte}
    (h : off + w.length < mem.length) :
    (putMem mem off w).set (off + w.length) c = putMem mem off (w ++ [c]) := by
  unfold putMem
  have h1 : (mem.take off ++ w).length = off + w.length := by simp; omega
  rw [List.set_append_right _ _ (by omega), h1, Nat.sub_self, List.drop_eq_getElem_cons h]
  simp [List.append_assoc, Nat.add_assoc]

theorem putMem_append {mem : List Byte} {off : Nat} {w v : List Byte}
    (h : off + w.length ≤ mem.length) :
    putMem (putMem mem off w) (off + w.length) v = putMem mem off (w ++ v) := by
  unfold putMem
  have h1 : (mem.take off ++ w).length = off + w.length := by simp; omega
  rw [List.take_append_of_le_length (by omega), List.take_of_length_le (by omega)]
  rw [List.drop_append, h1]
  rw [List.drop_of_length_le (by omega)]
  simp only [List.nil_append, List.drop_drop, List.length_append, List.append_assoc]
  congr 4; omega

/-- A NUL written after `w` may be overwritten. -/
theorem putMem_over {mem : List Byte} {off : Nat} {w : List Byte} {c : Byte} {v : List Byte}
    (hv : v ≠ []) (h : off + w.length < mem.length) :
    putMem (putMem mem off (w ++ [c])) (off + w.length) v = putMem mem off (w ++ v) := by
  unfold putMem
  have hv' : 1 ≤ v.length := by
    cases v with
    | nil => exact absurd rfl hv
    | cons a b => simp
  have h1 : (mem.take off ++ w).length = off + w.length := by simp; omega
  rw [← List.append_assoc, List.append_assoc _ [c]]
  rw [List.take_append_of_le_length (by omega), List.take_of_length_le (by omega)]
  rw [List.drop_append, h1, List.drop_of_length_le (by omega), List.drop_append]
  rw [List.drop_of_length_le (by simp; omega)]
  simp only [List.nil_append, List.drop_drop, List.length_append, List.append_assoc, List.length_cons, List.length_nil]
  congr 4; omega

theorem putMem_getElem?_out {mem : List Byte} {off : Nat} {w : List Byte} {i : Nat}
    (h : off + w.length ≤ mem.length) (hi : i < off ∨ off + w.length ≤ i) :
    (putMem mem off w)[i]? = mem[i]? := by
  unfold putMem
  rcases hi with hi | hi
  · rw [List.append_assoc, List.getElem?_append_left (by simp; omega)]
    rw [List.getElem?_take_of_lt hi]
  · rw [List.getElem?_append_right (by simp; omega)]
    rw [List.getElem?_drop]
    congr 1
    simp; omega

theorem putMem_getElem?_in {mem : List Byte} {off : Nat} {w : List Byte} {i : Nat}
    (h : off + w.length ≤ mem.length) (hi : i < w.length) :
    (putMem mem off w)[off + i]? = w[i]? := by
  unfold putMem
  rw [List.append_assoc, List.getElem?_append_right (by simp; omega), List.getElem?_append_left (by simp; omega)]
  congr 1; simp; omega

theorem wr_ok {mem : List Byte} {i : Nat} {c : Byte} (h : i < mem.length) :
    wr mem i c = .ok (mem.set i c) := by simp [wr, h]

theorem wr_putMem {mem : List Byte} {off : Nat} {w : List Byte} {c : Byte}
    (h : off + w.length < mem.length) :
    wr (putMem mem off w) (off + w.length) c = .ok (putMem mem off (w ++ [c])) := by
  rw [wr_ok (by rw [putMem_length (by omega)]; omega), putMem_set h]

namespace In

theorem good_iff (s : In) : s.good = true ↔ s.eof = false ∧ s.fail = false ∧ s.bad = false := by
  simp [good, and_assoc]

/-- A good stream holding these bytes. -/
def ofList (r : List Byte) : In := { rest := r }

@[simp] theorem ofList_rest (r : List Byte) : (ofList r).rest = r := rfl
@[simp] theorem ofList_good (r : List Byte) : (ofList r).good = true := rfl

theorem eq_ofList {s : In} (h : s.good = true) : s = ofList s.rest := by
  have h := (good_iff s).1 h
  cases s
  simp_all [ofList]

@[simp] theorem peekV_cons (c : Byte) (r : List Byte) : (ofList (c :: r)).peekV = c := rfl
@[simp] theorem peekS_cons (c : Byte) (r : List Byte) : (ofList (c :: r)).peekS = ofList (c :: r) := rfl
@[simp] theorem peekV_nil : (ofList []).peekV = 0xFF := rfl
@[simp] theorem peekS_nil : (ofList []).peekS = { rest := [], eof := true } := rfl
@[simp] theorem getV_cons (c : Byte) (r : List Byte) : (ofList (c :: r)).getV = c := rfl
@[simp] theorem getS_cons (c : Byte) (r : List Byte) : (ofList (c :: r)).getS = ofList r := rfl

theorem peekCharV_cons {valid : Byte → Bool} {c : Byte} (r : List Byte) (h : valid c = true) :
    (ofList (c :: r)).peekCharV valid = c := by simp [peekCharV, h]
theorem peekCharS_cons {valid : Byte → Bool} {c : Byte} (r : List Byte) (h : valid c = true) :
    (ofList (c :: r)).peekCharS valid = ofList (c :: r) := by simp [peekCharS, h]
theorem getCharS_cons {valid : Byte → Bool} {c : Byte} (r : List Byte) (h : valid c = true) :
    (ofList (c :: r)).getCharS valid = ofList r := by
  simp [getCharS, peekCharS_cons r h]

@[simp] theorem setFail_rest (s : In) : s.setFail.rest = s.rest := rfl
@[simp] theorem setBad_rest (s : In) : s.setBad.rest = s.rest := rfl
@[simp] theorem setFail_good (s : In) : s.setFail.good = false := by simp [good, setFail]
@[simp] theorem setBad_good (s : In) : s.setBad.good = false := by simp [good, setBad]

theorem peekS_rest (s : In) : s.peekS.rest = s.rest := by
  unfold peekS; split
  · split <;> simp_all
  · simp

theorem peekCharS_rest (valid : Byte → Bool) (s : In) : (s.peekCharS valid).rest = s.rest := by
  unfold peekCharS; split
  · exact peekS_rest s
  · simp [peekS_rest]

theorem peekS_notgood {s : In} (h : s.good = false) : s.peekS.good = false := by
  simp [peekS, h]

theorem peekCharS_notgood {s : In} (valid : Byte → Bool) (h : s.good = false) :
    (s.peekCharS valid).good = false := by
  unfold peekCharS; split
  · exact peekS_notgood h
  · simp

theorem getS_notgood {s : In} (h : s.good = false) : s.getS.good = false := by simp [getS, h]

/-- The progress measure of all the reading loops. -/
def meas (s : In) : Nat := s.rest.length + (if s.good then 1 else 0)

theorem peekS_cases (s : In) (h : s.good = true) :
    (∃ c r, s = ofList (c :: r) ∧ s.peekS = s) ∨ (s = ofList [] ∧ s.peekS.good = false) := by
  obtain ⟨r, hr⟩ : ∃ r, s = ofList r := ⟨_, eq_ofList h⟩
  subst hr
  cases r with
  | nil => right; exact ⟨rfl, rfl⟩
  | cons c r => left; exact ⟨c, r, rfl, rfl⟩

theorem peekCharS_meas (valid : Byte → Bool) (s : In) : (s.peekCharS valid).meas ≤ s.meas := by
  unfold meas
  rw [peekCharS_rest]
  cases hg : s.good with
  | true => split <;> simp
  | false => simp [peekCharS_notgood valid hg]

theorem getS_meas {s : In} (h : s.good = true) : s.getS.meas < s.meas := by
  rcases peekS_cases s h with ⟨c, r, rfl, _⟩ | ⟨rfl, _⟩
  · simp [meas]
  · decide

theorem getS_meas_le (s : In) : s.getS.meas ≤ s.meas := by
  cases h : s.good with
  | true => exact Nat.le_of_lt (getS_meas h)
  | false => simp [meas, getS, h]

theorem getCharS_meas (valid : Byte → Bool) (s : In) : (s.getCharS valid).meas ≤ s.meas := by
  unfold getCharS; split
  · exact Nat.le_trans (getS_meas_le _) (peekCharS_meas valid s)
  · exact peekCharS_meas valid s

/-- After peeking and getting on a good stream the measure drops. -/
theorem peek_get_meas (valid : Byte → Bool) {s : In} (h : s.good = true) :
    ((s.peekCharS valid).getS).meas < s.meas := by
  cases hg : (s.peekCharS valid).good with
  | true => exact Nat.lt_of_lt_of_le (getS_meas hg) (peekCharS_meas valid s)
  | false =>
    simp [meas, getS, hg, h, peekCharS_rest]

end In

/-- `get_chars` on a good stream that starts with the word `w` of accepted characters, when the word
fits and the next character (or the end of the input) is not accepted. -/
theorem getCharsLoop_fit {valid pred : Byte → Bool} {off size : Nat} {mem0 : List Byte}
    (h1 : 1 ≤ size) (h2 : size < 2 ^ 64) (r : List Byte)
    (hr : pred ((In.ofList r).peekCharV valid) = false) (w : List Byte)
    (hw : ∀ c ∈ w, valid c = true ∧ pred c = true) (u : List Byte) (fuel : Nat)
    (hm : off + (u.length + w.length) < mem0.length)
    (hf : w.length < fuel) (hl : u.length + w.length ≤ size - 1) :
    getCharsLoop valid pred off size fuel (In.ofList (w ++ r)) (putMem mem0 off u) u.length =
      .ok ⟨(In.ofList r).peekCharS valid, putMem mem0 off (u ++ w ++ [0]), u.length + w.length⟩ := by
  induction w generalizing u fuel with
  | nil =>
    obtain ⟨f, rfl⟩ : ∃ f, fuel = f + 1 := ⟨fuel - 1, by simp at hf; omega⟩
    simp only [List.nil_append, getCharsLoop, In.ofList_good, if_true, hr, Bool.false_eq_true, if_false,
      getCharsEnd]
    simp only [List.length_nil] at hm
    rw [wr_putMem (by omega)]
    simp
  | cons c w ih =>
    obtain ⟨f, rfl⟩ : ∃ f, fuel = f + 1 := ⟨fuel - 1, by omega⟩
    have hc := hw c (by simp)
    simp only [List.length_cons] at hl hf hm
    simp only [List.cons_append, getCharsLoop, In.ofList_good, if_true, In.peekCharV_cons _ hc.1, hc.2,
      In.peekCharS_cons _ hc.1, In.getV_cons, In.getS_cons]
    rw [sub64_eq h1 h2, if_neg (by omega), wr_putMem (by omega)]
    have := ih (fun d hd => hw d (by simp [hd])) (u ++ [c]) f (by simp; omega) (by omega) (by simp; omega)
    simp only [List.length_append, List.length_singleton] at this
    simp only [Res.ok_bind]
    rw [this]
    simp [List.append_assoc]; omega

/-- The same for the whole call; the block is split at the place where the word goes. -/
theorem getChars_app {valid pred : Byte → Bool} {size : Nat} {a v : List Byte}
    (h1 : 1 ≤ size) (h2 : size < 2 ^ 64) (w r : List Byte)
    (hr : pred ((In.ofList r).peekCharV valid) = false)
    (hw : ∀ c ∈ w, valid c = true ∧ pred c = true) (fuel : Nat)
    (hm : w.length < v.length) (hf : w.length < fuel) (hl : w.length ≤ size - 1) :
    getChars fuel valid pred (In.ofList (w ++ r)) (a ++ v) a.length size =
      .ok ⟨(In.ofList r).peekCharS valid, a ++ (w ++ 0 :: v.drop (w.length + 1)), w.length⟩ := by
  have := getCharsLoop_fit (mem0 := a ++ v) (off := a.length) h1 h2 r hr w hw [] fuel
    (by simp; omega) hf (by simpa using hl)
  simp only [putMem_nil, List.length_nil, Nat.zero_add, List.nil_append] at this
  rw [getChars, this]
  simp [putMem]

theorem getCharsLoop_ok {valid pred : Byte → Bool} {off size : Nat} {mem0 : List Byte}
    (h1 : 1 ≤ size) (h2 : size < 2 ^ 64) (hm : off + size ≤ mem0.length) (r : List Byte)
    (hr : pred ((In.ofList r).peekCharV valid) = false) (w : List Byte)
    (hw : ∀ c ∈ w, valid c = true ∧ pred c = true) (u : List Byte) (fuel : Nat)
    (hf : w.length < fuel) (hl : u.length + w.length ≤ size - 1) :
    getCharsLoop valid pred off size fuel (In.ofList (w ++ r)) (putMem mem0 off u) u.length =
      .ok ⟨(In.ofList r).peekCharS valid, putMem mem0 off (u ++ w ++ [0]), u.length + w.length⟩ :=
  getCharsLoop_fit h1 h2 r hr w hw u fuel (by omega) hf hl

theorem getChars_ok {valid pred : Byte → Bool} {off size : Nat} {mem : List Byte}
    (h1 : 1 ≤ size) (h2 : size < 2 ^ 64) (hm : off + size ≤ mem.length) (w r : List Byte)
    (hr : pred ((In.ofList r).peekCharV valid) = false)
    (hw : ∀ c ∈ w, valid c = true ∧ pred c = true) (fuel : Nat)
    (hf : w.length < fuel) (hl : w.length ≤ size - 1) :
    getChars fuel valid pred (In.ofList (w ++ r)) mem off size =
      .ok ⟨(In.ofList r).peekCharS valid, putMem mem off (w ++ [0]), w.length⟩ := by
  have := getCharsLoop_ok h1 h2 hm r hr w hw [] fuel hf (by simpa using hl)
  simpa [getChars, putMem_nil] using this

/-- `get_chars` when the word is longer than the buffer allows. -/
theorem getCharsLoop_over {valid pred : Byte → Bool} {off size : Nat} {mem0 : List Byte}
    (h1 : 1 ≤ size) (h2 : size < 2 ^ 64) (hm : off + size ≤ mem0.length) (c0 : Byte) (r : List Byte)
    (hc0 : valid c0 = true ∧ pred c0 = true) (w : List Byte)
    (hw : ∀ c ∈ w, valid c = true ∧ pred c = true) (u : List Byte) (fuel : Nat)
    (hf : w.length < fuel) (hl : u.length + w.length = size - 1) :
    getCharsLoop valid pred off size fuel (In.ofList (w ++ c0 :: r)) (putMem mem0 off u) u.length =
      .ok ⟨(In.ofList (c0 :: r)).setFail, putMem mem0 off (u ++ w ++ [0]), size - 1⟩ := by
  induction w generalizing u fuel with
  | nil =>
    obtain ⟨f, rfl⟩ : ∃ f, fuel = f + 1 := ⟨fuel - 1, by simp at hf; omega⟩
    simp only [List.length_nil, Nat.add_zero] at hl
    simp only [List.nil_append, getCharsLoop, In.ofList_good, if_true, In.peekCharV_cons _ hc0.1, hc0.2,
      In.peekCharS_cons _ hc0.1, getCharsEnd]
    rw [sub64_eq h1 h2, if_pos hl, wr_putMem (by omega), hl]
    simp
  | cons c w ih =>
    obtain ⟨f, rfl⟩ : ∃ f, fuel = f + 1 := ⟨fuel - 1, by omega⟩
    have hc := hw c (by simp)
    simp only [List.length_cons] at hl hf
    simp only [List.cons_append, getCharsLoop, In.ofList_good, if_true, In.peekCharV_cons _ hc.1, hc.2,
      In.peekCharS_cons _ hc.1, In.getV_cons, In.getS_cons]
    rw [sub64_eq h1 h2, if_neg (by omega), wr_putMem (by omega)]
    have := ih (fun d hd => hw d (by simp [hd])) (u ++ [c]) f (by omega) (by simp; omega)
    simp only [List.length_append, List.length_singleton] at this
    simp only [Res.ok_bind]
    rw [this]
    simp [List.append_assoc]

theorem getChars_over {valid pred : Byte → Bool} {off size : Nat} {mem : List Byte}
    (h1 : 1 ≤ size) (h2 : size < 2 ^ 64) (hm : off + size ≤ mem.length) (w : List Byte) (c0 : Byte)
    (r : List Byte) (hc0 : valid c0 = true ∧ pred c0 = true)
    (hw : ∀ c ∈ w, valid c = true ∧ pred c = true) (fuel : Nat)
    (hf : w.length < fuel) (hl : w.length = size - 1) :
    getChars fuel valid pred (In.ofList (w ++ c0 :: r)) mem off size =
      .ok ⟨(In.ofList (c0 :: r)).setFail, putMem mem off (w ++ [0]), size - 1⟩ := by
  have := getCharsLoop_over h1 h2 hm c0 r hc0 w hw [] fuel hf (by simpa using hl)
  simpa [getChars, putMem_nil] using this

theorem getChars_notgood {valid pred : Byte → Bool} {off size : Nat} {mem : List Byte} {s : In}
    (hs : s.good = false) (hm : off < mem.length) (fuel : Nat) :
    getChars (fuel + 1) valid pred s mem off size = .ok ⟨s, mem.set off 0, 0⟩ := by
  simp [getChars, getCharsLoop, hs, getCharsEnd, wr_ok hm]

/-- Bytes outside a window are untouched. -/
def SameOutside (mem mem' : List Byte) (lo hi : Nat) : Prop :=
  mem'.length = mem.length ∧ ∀ i : Nat, i < lo ∨ hi ≤ i → mem'[i]? = mem[i]?

theorem SameOutside.refl (mem : List Byte) (lo hi : Nat) : SameOutside mem mem lo hi :=
  ⟨rfl, fun _ _ => rfl⟩

theorem SameOutside.trans {a b c : List Byte} {lo hi : Nat} (h1 : SameOutside a b lo hi)
    (h2 : SameOutside b c lo hi) : SameOutside a c lo hi :=
  ⟨h2.1.trans h1.1, fun i hi' => (h2.2 i hi').trans (h1.2 i hi')⟩

theorem SameOutside.mono {a b : List Byte} {lo hi lo' hi' : Nat} (h : SameOutside a b lo hi)
    (h1 : lo' ≤ lo) (h2 : hi ≤ hi') : SameOutside a b lo' hi' :=
  ⟨h.1, fun i hi => h.2 i (by omega)⟩

theorem SameOutside.set {mem : List Byte} {lo hi i : Nat} {c : Byte} (h1 : lo ≤ i) (h2 : i < hi) :
    SameOutside mem (mem.set i c) lo hi := by
  refine ⟨by simp, fun j hj => ?_⟩
  rw [List.getElem?_set_ne (by omega)]

/-- `get_chars` from any stream state and any input: it returns, stays in its window, leaves a
terminator, and makes progress whenever it reports characters. -/
theorem getCharsLoop_safe {valid pred : Byte → Bool} {off size : Nat}
    (h1 : 1 ≤ size) (h2 : size < 2 ^ 64) (fuel : Nat) (s : In) (mem : List Byte) (n : Nat)
    (hm : off + size ≤ mem.length) (hn : n ≤ size - 1) (hf : s.meas < fuel) :
    ∃ g, getCharsLoop valid pred off size fuel s mem n = .ok g ∧
      SameOutside mem g.mem (off + n) (off + size) ∧ n ≤ g.n ∧ g.n ≤ size - 1 ∧
      g.mem[off + g.n]? = some 0 ∧ g.s.meas + (g.n - n) ≤ s.meas := by
  induction fuel generalizing s mem n with
  | zero => omega
  | succ f ih =>
    have hend : ∀ s' : In, s'.meas ≤ s.meas → ∃ g, getCharsEnd off s' mem n = .ok g ∧
      SameOutside mem g.mem (off + n) (off + size) ∧ n ≤ g.n ∧ g.n ≤ size - 1 ∧
      g.mem[off + g.n]? = some 0 ∧ g.s.meas + (g.n - n) ≤ s.meas := by
      intro s' hs'
      refine ⟨⟨s', mem.set (off + n) 0, n⟩, ?_, SameOutside.set (by omega) (by omega), Nat.le_refl _, hn, ?_, ?_⟩
      · simp [getCharsEnd, wr_ok (show off + n < mem.length by omega)]
      · simp [List.getElem?_set_self (show off + n < mem.length by omega)]
      · simpa using hs'
    unfold getCharsLoop
    split
    · rename_i hg
      split
      · rw [sub64_eq h1 h2]
        split
        · apply hend
          have := In.peekCharS_meas valid s
          have h3 : ((s.peekCharS valid).setFail).meas ≤ (s.peekCharS valid).meas := by
            simp [In.meas]
          omega
        · rename_i hne
          rw [wr_ok (show off + n < mem.length by omega), Res.ok_bind]
          have hlt := In.peek_get_meas valid hg
          obtain ⟨g, hg1, hg2, hg3, hg4, hg5, hg6⟩ :=
            ih (s.peekCharS valid).getS (mem.set (off + n) (s.peekCharS valid).getV) (n + 1)
              (by simpa using hm) (by omega) (by omega)
          refine ⟨g, hg1, ?_, by omega, hg4, hg5, by omega⟩
          exact (SameOutside.set (by omega) (by omega)).trans (hg2.mono (by omega) (Nat.le_refl _))
      · exact hend _ (In.peekCharS_meas valid s)
    · exact hend _ (Nat.le_refl _)

theorem getChars_safe {valid pred : Byte → Bool} {off size : Nat}
    (h1 : 1 ≤ size) (h2 : size < 2 ^ 64) (fuel : Nat) (s : In) (mem : List Byte)
    (hm : off + size ≤ mem.length) (hf : s.meas < fuel) :
    ∃ g, getChars fuel valid pred s mem off size = .ok g ∧
      SameOutside mem g.mem off (off + size) ∧ g.n ≤ size - 1 ∧
      g.mem[off + g.n]? = some 0 ∧ g.s.meas + g.n ≤ s.meas := by
  obtain ⟨g, a, b, _, d, e, f⟩ := getCharsLoop_safe (valid := valid) (pred := pred) h1 h2 fuel s mem 0 hm (by omega) hf
  exact ⟨g, a, by simpa using b, d, e, by simpa using f⟩

/-- `skip_chars` from any state. -/
theorem skipCharsLoop_safe {valid pred : Byte → Bool} (fuel : Nat) (s : In) (n : Nat)
    (hf : s.meas < fuel) :
    ∃ k, skipCharsLoop valid pred fuel s n = .ok k ∧ n ≤ k.n ∧ k.s.meas + (k.n - n) ≤ s.meas := by
  induction fuel generalizing s n with
  | zero => omega
  | succ f ih =>
    unfold skipCharsLoop
    split
    · rename_i hg
      split
      · have hlt := In.peek_get_meas valid hg
        obtain ⟨k, a, b, c⟩ := ih (s.peekCharS valid).getS (n + 1) (by omega)
        exact ⟨k, a, by omega, by omega⟩
      · exact ⟨_, rfl, Nat.le_refl _, by simpa using In.peekCharS_meas valid s⟩
    · exact ⟨_, rfl, Nat.le_refl _, by simp⟩

theorem skipChars_safe {valid pred : Byte → Bool} (fuel : Nat) (s : In) (hf : s.meas < fuel) :
    ∃ k, skipChars fuel valid pred s = .ok k ∧ k.s.meas + k.n ≤ s.meas := by
  obtain ⟨k, a, _, c⟩ := skipCharsLoop_safe (valid := valid) (pred := pred) fuel s 0 hf
  exact ⟨k, a, by simpa using c⟩

theorem skipCharsLoop_ok {valid pred : Byte → Bool} (r : List Byte)
    (hr : pred ((In.ofList r).peekCharV valid) = false) (w : List Byte)
    (hw : ∀ c ∈ w, valid c = true ∧ pred c = true) (n fuel : Nat) (hf : w.length < fuel) :
    skipCharsLoop valid pred fuel (In.ofList (w ++ r)) n =
      .ok ⟨(In.ofList r).peekCharS valid, n + w.length⟩ := by
  induction w generalizing n fuel with
  | nil =>
    obtain ⟨f, rfl⟩ : ∃ f, fuel = f + 1 := ⟨fuel - 1, by simp at hf; omega⟩
    simp [skipCharsLoop, hr]
  | cons c w ih =>
    obtain ⟨f, rfl⟩ : ∃ f, fuel = f + 1 := ⟨fuel - 1, by omega⟩
    have hc := hw c (by simp)
    simp only [List.length_cons] at hf
    simp only [List.cons_append, skipCharsLoop, In.ofList_good, if_true, In.peekCharV_cons _ hc.1, hc.2,
      In.peekCharS_cons _ hc.1, In.getS_cons]
    rw [ih (fun d hd => hw d (by simp [hd])) (n + 1) f (by omega)]
    simp; omega

theorem skipChars_ok {valid pred : Byte → Bool} (w r : List Byte)
    (hr : pred ((In.ofList r).peekCharV valid) = false)
    (hw : ∀ c ∈ w, valid c = true ∧ pred c = true) (fuel : Nat) (hf : w.length < fuel) :
    skipChars fuel valid pred (In.ofList (w ++ r)) =
      .ok ⟨(In.ofList r).peekCharS valid, w.length⟩ := by
  have := skipCharsLoop_ok r hr w hw 0 fuel hf
  simpa [skipChars] using this

theorem skipChars_notgood {valid pred : Byte → Bool} {s : In} (hs : s.good = false) (fuel : Nat) :
    skipChars (fuel + 1) valid pred s = .ok ⟨s, 0⟩ := by simp [skipChars, skipCharsLoop, hs]

namespace Out

theorem put_notgood {o : Out} (h : o.good = false) (c : Byte) : o.put c = o := by simp [put, h]

@[simp] theorem setBad_good (o : Out) : o.setBad.good = false := by simp [good, setBad]
@[simp] theorem setFail_good (o : Out) : o.setFail.good = false := by simp [good, setFail]
@[simp] theorem setBad_out (o : Out) : o.setBad.out = o.out := rfl
@[simp] theorem setFail_out (o : Out) : o.setFail.out = o.out := rfl

theorem put_good_before {o : Out} {c : Byte} (h : (o.put c).good = true) : o.good = true := by
  cases hg : o.good with
  | true => rfl
  | false => rw [put_notgood hg] at h; rw [hg] at h; exact h

theorem put_good_out {o : Out} {c : Byte} (h : (o.put c).good = true) :
    (o.put c).out = o.out ++ [c] := by
  have hg := put_good_before h
  unfold put at h ⊢
  rw [if_pos hg] at h ⊢
  cases hr : o.room with
  | zero => rw [hr] at h; simp [good] at h
  | succ r => rfl

end Out

end Abc.Stream
