import Verif.Http.WriteLemmas

/-!
# What the reader functions do on well-formed text
-/

namespace Abc.Http

open Abc.Ascii Abc.Stream

theorem ascii_of_printable {c : Byte} (h : printable c = true) : isAscii c = true := by
  rw [isAscii_eq]
  simp only [printable, decide_eq_true_eq] at h ⊢
  exact Nat.lt_of_le_of_lt h.2 (by decide)

theorem ascii_of_blank {c : Byte} (h : blank c = true) : isAscii c = true := by
  simp only [blank, decide_eq_true_eq] at h
  rcases h with rfl | rfl <;> decide

theorem printable_of_token {c : Byte} (h : tokenChar c = true) : printable c = true := by
  simp only [tokenChar, Bool.and_eq_true] at h; exact h.1

set_option maxRecDepth 10000 in
theorem printable_of_digit : ∀ c : Byte, digit c = true → printable c = true :=
  forall_byte (by decide)

theorem getWord {pred : Byte → Bool} {off size : Nat} {mem : List Byte} (h1 : 1 ≤ size)
    (h2 : size < 2 ^ 64) (hm : off + size ≤ mem.length) (w : List Byte) (c : Byte) (r : List Byte)
    (hc : isAscii c = true) (hpc : pred c = false)
    (hw : ∀ c ∈ w, isAscii c = true ∧ pred c = true) (fuel : Nat)
    (hf : w.length < fuel) (hl : w.length ≤ size - 1) :
    getChars fuel isAscii pred (In.ofList (w ++ c :: r)) mem off size =
      .ok ⟨In.ofList (c :: r), putMem mem off (w ++ [0]), w.length⟩ := by
  rw [getChars_ok h1 h2 hm w (c :: r) (by rw [In.peekCharV_cons _ hc, hpc]) hw fuel hf hl,
    In.peekCharS_cons _ hc]

theorem skipBlanks (sp : List Byte) (c : Byte) (r : List Byte) (hc : isAscii c = true)
    (hb : blank c = false) (hs : ∀ c ∈ sp, blank c = true) (fuel : Nat) (hf : sp.length < fuel) :
    skipSpaces fuel (In.ofList (sp ++ c :: r)) = .ok ⟨In.ofList (c :: r), sp.length⟩ := by
  rw [skipSpaces, skipChars_ok sp (c :: r) (by rw [In.peekCharV_cons _ hc, isSpace_eq, hb])
    (fun d hd => ⟨ascii_of_blank (hs d hd), by rw [isSpace_eq]; exact hs d hd⟩) fuel hf,
    In.peekCharS_cons _ hc]

theorem skipCrlf_ok (r : List Byte) : skipCrlf (In.ofList (13 :: 10 :: r)) = In.ofList r := by
  have h13 : isAscii 13 = true := by decide
  have h10 : isAscii 10 = true := by decide
  simp [skipCrlf, In.peekCharV_cons _ h13, In.getCharS_cons _ h13, In.peekCharV_cons _ h10,
    In.getCharS_cons _ h10]

/-! ## Header values: words separated by blanks, over several lines -/

/-- Blanks and a word. -/
abbrev Word := List Byte × List Byte

/-- The text of some words. -/
def encW (ws : List Word) : List Byte := (ws.map fun p => p.1 ++ p.2).flatten

/-- Append words with single spaces. -/
def joinW (acc : List Byte) : List Word → List Byte
  | [] => acc
  | p :: ws => joinW (if acc = [] then p.2 else acc ++ 32 :: p.2) ws

/-- Blanks then a non-empty visible word. -/
def WordOk (p : Word) : Prop :=
  (∀ c ∈ p.1, blank c = true) ∧ p.2 ≠ [] ∧ (∀ c ∈ p.2, printable c = true)

/-- Only the first word of a value may have no blanks before it. -/
def ChainOk (acc : List Byte) : List Word → Prop
  | [] => True
  | p :: ws => (acc = [] ∨ p.1 ≠ []) ∧ ∀ q ∈ ws, q.1 ≠ []

theorem encW_cons (p : Word) (ws : List Word) : encW (p :: ws) = p.1 ++ (p.2 ++ encW ws) := by
  simp [encW]

theorem joinW_length (acc : List Byte) (ws : List Word) : acc.length ≤ (joinW acc ws).length := by
  induction ws generalizing acc with
  | nil => simp [joinW]
  | cons p ws ih =>
    rw [joinW]
    refine Nat.le_trans ?_ (ih _)
    split
    · simp_all
    · simp

theorem putMem_take {mem : List Byte} {off : Nat} {w : List Byte}
    (h : off + w.length ≤ mem.length) : (putMem mem off w).take (off + w.length) = mem.take off ++ w := by
  unfold putMem
  rw [List.take_append_of_le_length (by simp; omega), List.take_of_length_le (by simp; omega)]

theorem putMem_same {mem : List Byte} {off : Nat} {w : List Byte} {lo hi : Nat}
    (h : off + w.length ≤ mem.length) (h1 : lo ≤ off) (h2 : off + w.length ≤ hi) :
    SameOutside mem (putMem mem off w) lo hi :=
  ⟨putMem_length h, fun i hi' => putMem_getElem?_out h (by omega)⟩

/-- What follows a word does not extend it. -/
theorem stop_head (ws : List Word) (tl r : List Byte) (hws : ∀ p ∈ ws, WordOk p)
    (hne : ∀ p ∈ ws, p.1 ≠ []) (htl : ∀ c ∈ tl, blank c = true) :
    ∃ c x, encW ws ++ (tl ++ 13 :: r) = c :: x ∧ isAscii c = true ∧ printable c = false := by
  have hb : ∀ c : Byte, blank c = true → isAscii c = true ∧ printable c = false := fun c hc =>
    ⟨ascii_of_blank hc, by
      cases hp : printable c with
      | false => rfl
      | true => rw [blank_of_printable hp] at hc; cases hc⟩
  cases ws with
  | nil =>
    cases tl with
    | nil => exact ⟨13, r, rfl, by decide, by decide⟩
    | cons c tl => exact ⟨c, tl ++ 13 :: r, rfl, hb c (htl c (by simp))⟩
  | cons p ws =>
    obtain ⟨sp, w⟩ := p
    cases sp with
    | nil => exact absurd rfl (hne ([], w) (by simp))
    | cons c sp =>
      exact ⟨c, sp ++ (w ++ encW ws) ++ (tl ++ 13 :: r), by rw [encW_cons]; rfl,
        hb c ((hws (c :: sp, w) (by simp)).1 c (by simp))⟩

theorem hvInner_ok {fuel size : Nat} (h2 : size < 2 ^ 64) (tl r : List Byte)
    (htl : ∀ c ∈ tl, blank c = true) (ws : List Word) (hws : ∀ p ∈ ws, WordOk p) (acc : List Byte)
    (hch : ChainOk acc ws) (mem : List Byte) (hm : size ≤ mem.length) (hacc : mem.take acc.length = acc)
    (hl : (joinW acc ws).length < size) (hf : (encW ws ++ tl).length < fuel) (f : Nat)
    (hff : ws.length < f) :
    ∃ mem', hvInner fuel size f (In.ofList (encW ws ++ (tl ++ 13 :: r))) mem acc.length =
        .ok ⟨In.ofList (13 :: r), mem', (joinW acc ws).length, false⟩ ∧
      SameOutside mem mem' 0 size ∧ mem'.take ((joinW acc ws).length + 1) = joinW acc ws ++ [0] := by
  induction ws generalizing acc mem f with
  | nil =>
    obtain ⟨f, rfl⟩ : ∃ g, f = g + 1 := ⟨f - 1, by simp at hff; omega⟩
    simp only [joinW] at hl ⊢
    have h13 : isAscii 13 = true := by decide
    have hp13 : isAbcprint 13 = false := by decide
    refine ⟨putMem mem acc.length ([] ++ [0]), ?_, putMem_same (by simp; omega) (by omega) (by simp; omega), ?_⟩
    · rw [hvInner]
      simp only [encW, List.map_nil, List.flatten_nil, List.nil_append] at hf ⊢
      rw [skipBlanks tl 13 r h13 (by decide) htl fuel (by simpa using hf), Res.ok_bind]
      have hsp : hvSpace size ⟨In.ofList (13 :: r), tl.length⟩ mem acc.length =
          .ok ⟨In.ofList (13 :: r), mem, acc.length, false⟩ := by
        simp only [hvSpace, In.peekCharV_cons _ h13, hp13, In.peekCharS_cons _ h13]
        split <;> simp
      rw [hsp, Res.ok_bind, if_neg (by simp)]
      dsimp only
      rw [sub64_eq (by omega) h2]
      have := getWord (pred := isAbcprint) (off := acc.length) (size := size - acc.length) (mem := mem) (by omega) (by omega) (by omega) [] 13 r h13 hp13 (by simp) fuel
        (by simp; omega) (by simp)
      rw [List.nil_append, List.nil_append] at this
      rw [this, Res.ok_bind]
      simp
    · have := putMem_take (mem := mem) (off := acc.length) (w := [] ++ [0]) (by simp; omega)
      rw [hacc] at this
      simpa using this
  | cons p ws ih =>
    obtain ⟨sp, w⟩ := p
    obtain ⟨f, rfl⟩ : ∃ g, f = g + 1 := ⟨f - 1, by simp at hff; omega⟩
    simp only [List.length_cons] at hff
    obtain ⟨hsp, hw, hwp⟩ := hws (sp, w) (by simp)
    dsimp only at hsp hw hwp
    obtain ⟨a, w', rfl⟩ : ∃ a w', w = a :: w' := by
      cases w with
      | nil => exact absurd rfl hw
      | cons a w' => exact ⟨a, w', rfl⟩
    have hap := hwp a (by simp)
    have haa := ascii_of_printable hap
    obtain ⟨c, x, hcx, hca, hcp⟩ := stop_head ws tl r (fun q hq => hws q (by simp [hq])) hch.2 htl
    have hlen : (encW ((sp, a :: w') :: ws) ++ tl).length = sp.length + (a :: w').length + (encW ws ++ tl).length := by
      rw [encW_cons]; simp; omega
    rw [hlen] at hf
    simp only [joinW] at hl ⊢
    have hjl := joinW_length (if acc = [] then a :: w' else acc ++ 32 :: a :: w') ws
    -- the space
    obtain ⟨mem1, u, e1, e2, e3, e4⟩ : ∃ mem1 u,
        hvSpace size ⟨In.ofList (a :: (w' ++ (encW ws ++ (tl ++ 13 :: r)))), sp.length⟩ mem acc.length =
          .ok ⟨In.ofList (a :: (w' ++ (encW ws ++ (tl ++ 13 :: r)))), mem1, u.length, false⟩ ∧
        SameOutside mem mem1 0 size ∧ mem1.take u.length = u ∧
        u ++ (a :: w') = (if acc = [] then a :: w' else acc ++ 32 :: a :: w') := by
      have hap' : isAbcprint a = true := by rw [isAbcprint_eq]; exact hap
      simp only [hvSpace, In.peekCharV_cons _ haa, hap', In.peekCharS_cons _ haa, if_true]
      by_cases hn : acc = []
      · subst hn
        exact ⟨mem, [], by simp, SameOutside.refl _ _ _, by simp, by simp⟩
      · have hl' := hl
        rw [if_neg hn] at hjl hl'
        simp only [List.length_append, List.length_cons] at hjl
        have hspne : sp ≠ [] := hch.1.resolve_left hn
        have hpos : acc.length > 0 ∧ sp.length > 0 :=
          ⟨List.length_pos_iff.2 hn, List.length_pos_iff.2 hspne⟩
        rw [if_pos hpos, sub64_eq (by omega) h2, if_neg (by omega), wr_ok (by omega), Res.ok_bind]
        refine ⟨mem.set acc.length 32, acc ++ [32], by simp, SameOutside.set (by omega) (by omega), ?_, by simp [hn]⟩
        have hlt : acc.length < mem.length := by omega
        have : mem.set acc.length 32 = putMem mem acc.length [32] := by
          have := putMem_set (mem := mem) (off := acc.length) (w := []) (c := 32) (by simpa using hlt)
          simpa [putMem_nil] using this
        rw [this]
        have h3 := putMem_take (mem := mem) (off := acc.length) (w := [32]) (by simp; omega)
        rw [hacc] at h3
        simpa using h3
    have hul : u.length + (a :: w').length ≤ size - 1 := by
      have := congrArg List.length e4
      rw [List.length_append] at this
      omega
    -- the word
    have hgw := getWord (pred := isAbcprint) (off := u.length) (size := size - u.length) (mem := mem1)
      (by omega) (by omega) (by rw [e2.1]; omega) (a :: w') c x hca (by rw [isAbcprint_eq]; exact hcp)
      (fun d hd => ⟨ascii_of_printable (hwp d hd), by rw [isAbcprint_eq]; exact hwp d hd⟩) fuel
      (by omega) (by omega)
    have htake : (putMem mem1 u.length (a :: w' ++ [0])).take (u ++ (a :: w')).length = u ++ (a :: w') := by
      have h3 := putMem_take (mem := mem1) (off := u.length) (w := a :: w' ++ [0])
        (by rw [e2.1]; simp at hul ⊢; omega)
      rw [e3] at h3
      have h4 := congrArg (List.take (u ++ (a :: w')).length) h3
      rw [List.take_take, Nat.min_eq_left (by simp)] at h4
      rw [h4, ← List.append_assoc, List.take_left']
      rfl
    have hmem2 : (putMem mem1 u.length (a :: w' ++ [0])).length = mem.length := by
      rw [putMem_length (by rw [e2.1]; simp at hul ⊢; omega), e2.1]
    have hne : u ++ (a :: w') ≠ [] := by simp
    rw [← e4] at hl hjl ⊢
    obtain ⟨mem', g1, g2, g3⟩ := ih (fun q hq => hws q (by simp [hq])) (u ++ (a :: w'))
      (by
        cases ws with
        | nil => trivial
        | cons q ws => exact ⟨Or.inr (hch.2 q (by simp)), fun q' hq' => hch.2 q' (by simp [hq'])⟩)
      (putMem mem1 u.length (a :: w' ++ [0])) (by rw [hmem2]; exact hm) htake hl (by omega) f (by omega)
    refine ⟨mem', ?_, ?_, g3⟩
    · rw [hvInner, encW_cons]
      simp only [List.append_assoc, List.cons_append]
      rw [skipBlanks sp a _ haa (blank_of_printable hap) hsp fuel (by omega), Res.ok_bind, e1, Res.ok_bind,
        if_neg (by simp)]
      dsimp only
      rw [sub64_eq (by omega) h2]
      rw [hcx]
      rw [show In.ofList (a :: (w' ++ c :: x)) = In.ofList (a :: w' ++ c :: x) from rfl, hgw, Res.ok_bind]
      dsimp only
      rw [if_pos ⟨by simp, by simp⟩]
      rw [hcx] at g1
      rw [List.length_append] at g1
      exact g1
    · exact (e2.trans (putMem_same (by rw [e2.1]; simp at hul ⊢; omega) (by omega) (by simp at hul ⊢; omega))).trans g2

/-- A line: words and trailing blanks. -/
abbrev Line := List Word × List Byte

/-- The text of some lines, each followed by CR LF. -/
def encL (ls : List Line) : List Byte := (ls.map fun l => encW l.1 ++ (l.2 ++ crlf)).flatten

/-- The words of some lines. -/
def wordsL (ls : List Line) : List Word := (ls.map fun l => l.1).flatten

theorem joinW_append (acc : List Byte) (a b : List Word) :
    joinW acc (a ++ b) = joinW (joinW acc a) b := by
  induction a generalizing acc with
  | nil => rfl
  | cons p a ih => simp only [List.cons_append, joinW]; rw [ih]

theorem encL_cons (l : Line) (ls : List Line) :
    encL (l :: ls) = encW l.1 ++ (l.2 ++ 13 :: 10 :: encL ls) := by
  simp [encL, crlf]

/-- A continuation line begins with a blank. -/
def Cont (l : Line) : Prop := (∀ p ∈ l.1, p.1 ≠ []) ∧ (l.1 = [] → l.2 ≠ [])

theorem hvOuter_ok {fuel size : Nat} (h2 : size < 2 ^ 64) (c : Byte) (r : List Byte)
    (hca : isAscii c = true) (hcb : blank c = false) (ls : List Line) (l : Line)
    (hok : ∀ k ∈ l :: ls, (∀ p ∈ k.1, WordOk p) ∧ (∀ c ∈ k.2, blank c = true))
    (hcont : ∀ k ∈ ls, Cont k) (acc : List Byte) (hch : ChainOk acc l.1) (mem : List Byte)
    (hm : size ≤ mem.length) (hacc : mem.take acc.length = acc)
    (hl : (joinW acc (wordsL (l :: ls))).length < size) (hf : (encL (l :: ls)).length < fuel) (f : Nat)
    (hff : ls.length < f) :
    ∃ mem', hvOuter fuel size f (In.ofList (encL (l :: ls) ++ c :: r)) mem acc.length =
        .ok ⟨In.ofList (c :: r), mem', (joinW acc (wordsL (l :: ls))).length, false⟩ ∧
      SameOutside mem mem' 0 size ∧
      mem'.take ((joinW acc (wordsL (l :: ls))).length + 1) = joinW acc (wordsL (l :: ls)) ++ [0] := by
  induction ls generalizing l acc mem f with
  | nil =>
    obtain ⟨f, rfl⟩ : ∃ g, f = g + 1 := ⟨f - 1, by simp at hff; omega⟩
    have hw : wordsL [l] = l.1 := by simp [wordsL]
    have he : encL [l] ++ c :: r = encW l.1 ++ (l.2 ++ 13 :: (10 :: c :: r)) := by simp [encL, crlf]
    have hfl : (encW l.1 ++ l.2).length < fuel := by
      rw [encL_cons] at hf; simp at hf ⊢; omega
    have hwl : l.1.length < fuel := by
      have : l.1.length ≤ (encW l.1).length := by
        have hk := (hok l (by simp)).1
        clear hok hch hl hf he hw hfl
        generalize l.1 = ws at hk
        induction ws with
        | nil => simp
        | cons p ws ih =>
          have := ih (fun q hq => hk q (by simp [hq]))
          have h3 := List.length_pos_iff.2 (hk p (by simp)).2.1
          rw [encW_cons]; simp; omega
      simp at hfl; omega
    rw [hw] at hl ⊢
    obtain ⟨mem', g1, g2, g3⟩ := hvInner_ok h2 l.2 (10 :: c :: r) (hok l (by simp)).2 l.1
      (hok l (by simp)).1 acc hch mem hm hacc hl hfl fuel hwl
    refine ⟨mem', ?_, g2, g3⟩
    rw [hvOuter, he, g1, Res.ok_bind, if_neg (by simp)]
    dsimp only
    rw [skipCrlf_ok, if_pos (by simp), In.peekCharV_cons _ hca, isSpace_eq, hcb,
      In.peekCharS_cons _ hca]
    simp
  | cons k ls ih =>
    obtain ⟨f, rfl⟩ : ∃ g, f = g + 1 := ⟨f - 1, by simp at hff; omega⟩
    simp only [List.length_cons] at hff
    have hw : wordsL (l :: k :: ls) = l.1 ++ wordsL (k :: ls) := by simp [wordsL]
    have he : encL (l :: k :: ls) ++ c :: r = encW l.1 ++ (l.2 ++ 13 :: (10 :: (encL (k :: ls) ++ c :: r))) := by
      rw [encL_cons]; simp
    have hfl : (encW l.1 ++ l.2).length < fuel := by
      rw [encL_cons] at hf; simp at hf ⊢; omega
    have hfk : (encL (k :: ls)).length < fuel := by
      rw [encL_cons] at hf; simp at hf ⊢; omega
    have hwl : l.1.length < fuel := by
      have : l.1.length ≤ (encW l.1).length := by
        have hk := (hok l (by simp)).1
        clear hok hch hl hf he hw hfl
        generalize l.1 = ws at hk
        induction ws with
        | nil => simp
        | cons p ws ih =>
          have := ih (fun q hq => hk q (by simp [hq]))
          have h3 := List.length_pos_iff.2 (hk p (by simp)).2.1
          rw [encW_cons]; simp; omega
      simp at hfl; omega
    rw [hw, joinW_append] at hl ⊢
    have hjl := joinW_length (joinW acc l.1) (wordsL (k :: ls))
    obtain ⟨mem1, g1, g2, g3⟩ := hvInner_ok h2 l.2 (10 :: (encL (k :: ls) ++ c :: r)) (hok l (by simp)).2 l.1
      (hok l (by simp)).1 acc hch mem hm hacc (by omega) hfl fuel hwl
    -- the continuation begins with a blank
    obtain ⟨b, y, hby, hbb⟩ : ∃ b y, encL (k :: ls) = b :: y ∧ blank b = true := by
      rw [encL_cons]
      obtain ⟨hk1, hk2⟩ := hcont k (by simp)
      obtain ⟨ko1, ko2⟩ := hok k (by simp)
      obtain ⟨kw, kt⟩ := k
      cases kw with
      | nil =>
        cases kt with
        | nil => exact absurd rfl (hk2 rfl)
        | cons b kt => exact ⟨b, _, rfl, ko2 b (by simp)⟩
      | cons p kw =>
        obtain ⟨sp, w⟩ := p
        cases sp with
        | nil => exact absurd rfl (hk1 ([], w) (by simp))
        | cons b sp =>
          rw [encW_cons]
          exact ⟨b, _, rfl, (ko1 (b :: sp, w) (by simp)).1 b (by simp)⟩
    have hch' : ChainOk (joinW acc l.1) k.1 := by
      obtain ⟨hk1, hk2⟩ := hcont k (by simp)
      cases hkk : k.1 with
      | nil => trivial
      | cons p kw =>
        rw [hkk] at hk1
        exact ⟨Or.inr (hk1 p (by simp)), fun q hq => hk1 q (by simp [hq])⟩
    have htake : mem1.take (joinW acc l.1).length = joinW acc l.1 := by
      have h4 := congrArg (List.take (joinW acc l.1).length) g3
      rw [List.take_take, Nat.min_eq_left (by simp), List.take_left'] at h4
      · exact h4
      · rfl
    obtain ⟨mem', k1, k2, k3⟩ := ih k (fun q hq => hok q (by simp at hq ⊢; tauto))
      (fun q hq => hcont q (by simp [hq])) (joinW acc l.1) hch' mem1 (by rw [g2.1]; exact hm) htake hl hfk f (by omega)
    refine ⟨mem', ?_, g2.trans k2, k3⟩
    rw [hvOuter, he, g1, Res.ok_bind, if_neg (by simp)]
    dsimp only
    rw [skipCrlf_ok, if_pos (by simp), hby]
    have hba := ascii_of_blank hbb
    rw [List.cons_append, In.peekCharV_cons _ hba, isSpace_eq, if_pos hbb, In.peekCharS_cons _ hba]
    rw [hby, List.cons_append] at k1
    exact k1

end Abc.Http
