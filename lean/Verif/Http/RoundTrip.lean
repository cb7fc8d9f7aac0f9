import Verif.Http.ReadLemmas
import Verif.Ascii.Props

/-!
# C10, C11: messages written by the library are read back by it
-/

namespace Abc.Http

open Abc.Ascii Abc.Stream

/-! ## Normal form and words -/

theorem norm_cons_word (st g : Bool) (a : Byte) (w x : List Byte) (ha : printable a = true)
    (hw : ∀ c ∈ w, printable c = true) :
    norm st g (a :: (w ++ x)) = (if st && g then [32] else []) ++ a :: (w ++ norm true false x) := by
  rw [norm, if_neg (by simp [blank_of_printable ha]), norm_word _ _ hw]

theorem joinW_norm (ws : List Word) (hws : ∀ p ∈ ws, WordOk p) (tl : List Byte)
    (htl : ∀ c ∈ tl, blank c = true) (acc : List Byte) (hch : ChainOk acc ws) :
    joinW acc ws = acc ++ norm (!acc.isEmpty) false (encW ws ++ tl) := by
  induction ws generalizing acc with
  | nil =>
    have := norm_blanks (!acc.isEmpty) false tl [] htl
    rw [List.append_nil] at this
    simp [joinW, encW, this, norm]
  | cons p ws ih =>
    obtain ⟨sp, w⟩ := p
    obtain ⟨hsp, hw, hwp⟩ := hws (sp, w) (by simp)
    dsimp only at hsp hw hwp
    obtain ⟨a, w', rfl⟩ : ∃ a w', w = a :: w' := by
      cases w with
      | nil => exact absurd rfl hw
      | cons a w' => exact ⟨a, w', rfl⟩
    rw [joinW, encW_cons, List.append_assoc, norm_blanks _ _ _ _ hsp]
    rw [List.append_assoc, List.cons_append,
      norm_cons_word _ _ a w' _ (hwp a (by simp)) (fun d hd => hwp d (by simp [hd]))]
    have hc' : ∀ b : List Byte, ChainOk b ws := by
      intro b
      cases ws with
      | nil => trivial
      | cons q ws => exact ⟨Or.inr (hch.2 q (by simp)), fun q' hq' => hch.2 q' (by simp [hq'])⟩
    rw [ih (fun q hq => hws q (by simp [hq])) _ (hc' _)]
    by_cases hn : acc = []
    · subst hn; simp
    · have := hch.1.resolve_left hn
      dsimp only at this
      have hne : (acc ++ 32 :: a :: w').isEmpty = false := by cases acc <;> rfl
      simp [hn, this, hne]

theorem value_words (n : Nat) (v : List Byte) (hn : v.length ≤ n) (hv : ∀ c ∈ v, valueChar c = true) :
    ∃ ws tl, v = encW ws ++ tl ∧ (∀ p ∈ ws, WordOk p) ∧ (∀ c ∈ tl, blank c = true) ∧ ChainOk [] ws ∧
      (∀ c ∈ v.head?, blank c = true → ∀ p ∈ ws, p.1 ≠ []) := by
  induction n generalizing v with
  | zero =>
    have : v = [] := List.length_eq_zero_iff.1 (by omega)
    subst this
    exact ⟨[], [], by simp [encW], by simp, by simp, trivial, by simp⟩
  | succ n ih =>
    obtain ⟨sp, h1, h2, h3⟩ := skipHv_split v hv
    generalize skipHv v = left at h1 h3
    cases left with
    | nil =>
      exact ⟨[], sp, by simpa [encW] using h1, by simp, h2, trivial, by simp⟩
    | cons c b =>
      have hvl : ∀ d ∈ c :: b, valueChar d = true := fun d hd => hv d (by rw [h1]; exact List.mem_append_right _ hd)
      obtain ⟨hpc, hbc⟩ := h3 c (by simp)
      obtain ⟨w, x, e1, e2, e3⟩ := word_split (c :: b) hvl
      have hw : w ≠ [] := by
        rintro rfl
        rw [List.nil_append] at e1
        have := e3 c (by rw [← e1]; simp)
        rw [hpc] at this; cases this
      have hwl := List.length_pos_iff.2 hw
      have hvx : ∀ d ∈ x, valueChar d = true := fun d hd => hvl d (by rw [e1]; exact List.mem_append_right _ hd)
      obtain ⟨ws, tl, g1, g2, g3, g4, g5⟩ := ih x (by rw [h1, e1] at hn; simp at hn; omega) hvx
      have hne : ∀ p ∈ ws, p.1 ≠ [] := by
        cases x with
        | nil =>
          intro p hp
          have h0 : encW ws = [] := by
            cases he : encW ws with
            | nil => rfl
            | cons a l => rw [he] at g1; simp at g1
          have := (g2 p hp).2.1
          have hlen : p.2.length ≤ (encW ws).length := by
            clear g1 g2 g4 g5 h0
            induction ws with
            | nil => simp at hp
            | cons q ws ih2 =>
              rw [encW_cons]
              rcases List.mem_cons.1 hp with rfl | hp
              · simp; omega
              · have := ih2 hp; simp; omega
          rw [h0] at hlen
          have := List.length_pos_iff.2 this
          simp at hlen; simp [hlen] at this
        | cons d x =>
          have hd := e3 d (by simp)
          have hdb : blank d = true := by
            have := hvx d (by simp)
            simpa [valueChar, hd] using this
          exact g5 d (by simp) hdb
      refine ⟨(sp, w) :: ws, tl, ?_, ?_, g3, ⟨Or.inl rfl, hne⟩, ?_⟩
      · rw [encW_cons, h1, e1, g1]; simp
      · intro p hp
        rcases List.mem_cons.1 hp with rfl | hp
        · exact ⟨h2, hw, e2⟩
        · exact g2 p hp
      · intro d hd hdb p hp
        rcases List.mem_cons.1 hp with rfl | hp
        · rintro h0
          dsimp only at h0
          rw [h0, List.nil_append] at h1
          rw [h1] at hd
          simp only [List.head?_cons, Option.mem_def, Option.some.injEq] at hd
          rw [← hd, hbc] at hdb
          cases hdb
        · exact hne p hp

/-- The normal form of a value consists of value characters. -/
theorem norm_chars (st g : Bool) (v : List Byte) (hv : ∀ c ∈ v, valueChar c = true) :
    ∀ c ∈ norm st g v, valueChar c = true := by
  induction v generalizing st g with
  | nil => simp [norm]
  | cons a v ih =>
    intro c hc
    rw [norm] at hc
    split at hc
    · exact ih st true (fun d hd => hv d (by simp [hd])) c hc
    · rcases List.mem_append.1 hc with h | h
      · split at h
        · simp only [List.mem_singleton] at h; subst h; decide
        · simp at h
      · rcases List.mem_cons.1 h with rfl | h
        · exact hv c (by simp)
        · exact ih true false (fun d hd => hv d (by simp [hd])) c h

/-- Normalising again changes nothing. -/
theorem norm_norm (st g : Bool) (v : List Byte) :
    norm st false (norm st g v) = norm st g v := by
  induction v generalizing st g with
  | nil => simp [norm]
  | cons a v ih =>
    rw [norm]
    split
    · exact ih st true
    · rename_i hb
      split
      · rename_i hs
        simp only [Bool.and_eq_true] at hs
        have h32 : blank 32 = true := by decide
        simp only [List.cons_append, List.nil_append, norm, h32, if_true, hb]
        simp [ih true false, hs.1]
      · simp only [List.nil_append, norm, hb]
        simp [ih true false]

/-! ## One call at a time -/

theorem cstr_of_take {mem w : List Byte} (h : mem.take (w.length + 1) = w ++ [0]) (hw : ∀ c ∈ w, c ≠ 0) :
    cstr mem = w := by
  rw [← List.take_append_drop (w.length + 1) mem, h]
  generalize mem.drop (w.length + 1) = d
  clear h
  unfold cstr
  induction w with
  | nil => simp
  | cons c w ih =>
    have := hw c (by simp)
    rw [List.cons_append, List.cons_append, List.takeWhile_cons_of_pos (by simpa using this),
      ih (fun d hd => hw d (by simp [hd]))]

theorem take_putMem0 {mem w : List Byte} (h : w.length + 1 ≤ mem.length) :
    (putMem mem 0 (w ++ [0])).take (w.length + 1) = w ++ [0] := by
  have := putMem_take (mem := mem) (off := 0) (w := w ++ [0]) (by simpa using h)
  simpa using this

theorem ne0_of_printable {c : Byte} (h : printable c = true) : c ≠ 0 := by
  rintro rfl; simp [printable] at h

theorem ne0_of_value {c : Byte} (h : valueChar c = true) : c ≠ 0 := by
  rintro rfl; simp [valueChar, printable, blank] at h

/-- What is read back for a call: the C string in the buffer, whose length is unchanged. -/
def Holds (mem mem' w : List Byte) : Prop := mem'.length = mem.length ∧ cstr mem' = w

theorem getMethod_ok {fuel : Nat} (m : List Byte) (hm : ∀ c ∈ m, tokenChar c = true) (c : Byte) (r : List Byte)
    (hca : isAscii c = true) (hcb : blank c = false) (mem : List Byte) (hl : m.length < mem.length)
    (h2 : mem.length < 2 ^ 64) (g : Nat) (hf : m.length + 2 ≤ fuel) :
    ∃ mem', getMethod fuel ⟨In.ofList (m ++ 32 :: c :: r), .method, g⟩ mem mem.length =
      .ok ⟨⟨In.ofList (c :: r), .resource, m.length⟩, mem', false⟩ ∧ Holds mem mem' m := by
  refine ⟨putMem mem 0 (m ++ [0]), ?_, putMem_length (by simp; omega), cstr_of_take (take_putMem0 hl)
    (fun c hc => ne0_of_printable (printable_of_token (hm c hc)))⟩
  rw [getMethod, if_neg (by simp)]
  dsimp only
  rw [getWord (by omega) h2 (by omega) m 32 (c :: r) (by decide) (by decide)
    (fun d hd => ⟨ascii_of_printable (printable_of_token (hm d hd)), by rw [httpIsToken_eq]; exact hm d hd⟩)
    fuel (by omega) (by omega), Res.ok_bind]
  have := skipBlanks [32] c r hca hcb (by simp [blank]) fuel (by simp; omega)
  rw [List.singleton_append] at this
  rw [this, Res.ok_bind]

theorem getResource_ok {fuel : Nat} (m : List Byte) (hm : ∀ c ∈ m, printable c = true) (c : Byte) (r : List Byte)
    (hca : isAscii c = true) (hcb : blank c = false) (mem : List Byte) (hl : m.length + 1 < mem.length)
    (h2 : mem.length < 2 ^ 64) (g : Nat) (hf : m.length + 2 ≤ fuel) :
    ∃ mem', getResource fuel ⟨In.ofList (m ++ 32 :: c :: r), .resource, g⟩ mem mem.length =
      .ok ⟨⟨In.ofList (c :: r), .protocol, m.length⟩, mem', false⟩ ∧ Holds mem mem' m ∧
      mem'.take (m.length + 2) = m ++ [0, 0] := by
  have hfin : wr (putMem mem 0 (m ++ [0])) (m.length + 1) 0 = .ok (putMem mem 0 (m ++ [0, 0])) := by
    have := wr_putMem (mem := mem) (off := 0) (w := m ++ [0]) (c := 0) (by simp; omega)
    simpa using this
  have htake : (putMem mem 0 (m ++ [0, 0])).take (m.length + 2) = m ++ [0, 0] := by
    have := putMem_take (mem := mem) (off := 0) (w := m ++ [0, 0]) (by simp; omega)
    simpa using this
  refine ⟨putMem mem 0 (m ++ [0, 0]), ?_, ⟨putMem_length (by simp; omega), cstr_of_take ?_
    (fun c hc => ne0_of_printable (hm c hc))⟩, htake⟩
  · rw [getResource, if_neg (by simp)]
    dsimp only
    rw [sub64_eq (by omega) h2, getWord (by omega) (by omega) (by omega) m 32 (c :: r) (by decide) (by decide)
      (fun d hd => ⟨ascii_of_printable (hm d hd), by rw [isAbcprint_eq]; exact hm d hd⟩)
      fuel (by omega) (by omega), Res.ok_bind]
    dsimp only
    rw [hfin, Res.ok_bind]
    have := skipBlanks [32] c r hca hcb (by simp [blank]) fuel (by simp; omega)
    rw [List.singleton_append] at this
    rw [this, Res.ok_bind]
  · have h4 := congrArg (List.take (m.length + 1)) htake
    rw [List.take_take, Nat.min_eq_left (by omega)] at h4
    rw [h4]
    have : m ++ [0, 0] = (m ++ [(0 : Byte)]) ++ [0] := by simp
    rw [this, List.take_left']
    simp

theorem protoPart_ok {fuel size : Nat} (ch : Byte) (hch : isAscii ch = true) (mem0 u ds : List Byte) (c : Byte)
    (r : List Byte) (t : List Byte) (ht : t.length ≤ 1)
    (hds : ∀ c ∈ ds, digit c = true) (hca : isAscii c = true) (hcd : digit c = false)
    (hm : size ≤ mem0.length) (h2 : size < 2 ^ 64) (hl : u.length + 1 + ds.length < size)
    (hf : ds.length < fuel) :
    protoPart fuel ch size (In.ofList (ch :: (ds ++ c :: r))) (putMem mem0 0 (u ++ t)) u.length =
      .ok ⟨In.ofList (c :: r), putMem mem0 0 (u ++ ch :: ds ++ [0]), u.length + 1 + ds.length⟩ := by
  have hput : (putMem mem0 0 (u ++ t)).set u.length ch = putMem mem0 0 (u ++ [ch]) := by
    match t, ht with
    | [], _ =>
      have := putMem_set (mem := mem0) (off := 0) (w := u) (c := ch) (by omega)
      simpa using this
    | [x], _ =>
      have h1 := putMem_set (mem := putMem mem0 0 (u ++ [x])) (off := u.length) (w := []) (c := ch)
        (by rw [putMem_length (by simp; omega)]; simp; omega)
      have h3 := putMem_over (mem := mem0) (off := 0) (w := u) (c := x) (v := [ch]) (by simp) (by omega)
      simp only [putMem_nil, List.length_nil, Nat.add_zero, List.nil_append, Nat.zero_add] at h1 h3
      rw [h1, h3]
  have hlen : (putMem mem0 0 (u ++ t)).length = mem0.length := putMem_length (by simp; omega)
  have hns : ¬ u.length = sub64 size 1 := by rw [sub64_eq (by omega) h2]; omega
  unfold protoPart
  simp only [if_neg hns, In.ofList_good, if_true, In.peekCharV_cons _ hch, In.getCharS_cons _ hch]
  rw [wr_ok (by rw [hlen]; omega), hput, Res.ok_bind, sub64_eq (by omega) h2]
  have hlen1 : (putMem mem0 0 (u ++ [ch])).length = mem0.length := putMem_length (by simp; omega)
  rw [getWord (by omega) (by omega) (by rw [hlen1]; omega) ds c r hca (by rw [isDigit_eq, hcd])
    (fun d hd => ⟨ascii_of_printable (printable_of_digit d (hds d hd)), by rw [isDigit_eq]; exact hds d hd⟩)
    fuel hf (by omega), Res.ok_bind]
  have := putMem_append (mem := mem0) (off := 0) (w := u ++ [ch]) (v := ds ++ [0]) (by simp; omega)
  simp only [List.length_append, List.length_cons, List.length_nil, Nat.zero_add] at this
  dsimp only
  rw [this]
  simp

/-- `HTTP/<major>.<minor>`. -/
def protocolText (maj min : List Byte) : List Byte := [72, 84, 84, 80, 47] ++ maj ++ 46 :: min

theorem http_prefix (d : List Byte) :
    areEqualIN (some [72, 84, 84, 80, 0]) (some ([72, 84, 84, 80] ++ d)) 4 = some true := by
  simp only [areEqualIN, areEqual, List.cons_append, areEqualLoop_cons, if_true]
  simp [areEqualLoop]

theorem protoHead_ok (s : In) (mem d : List Byte) (hm : mem = [72, 84, 84, 80] ++ d) :
    protoHead ⟨s, mem, 4⟩ = .ok s := by
  subst hm
  unfold protoHead
  rw [if_neg (by simp), http_prefix]
  rfl

theorem getProtocolBase_ok {fuel : Nat} (maj min : List Byte) (hmaj : ∀ c ∈ maj, digit c = true)
    (hmin : ∀ c ∈ min, digit c = true) (sp : List Byte) (hsp : ∀ c ∈ sp, blank c = true) (c : Byte) (r : List Byte)
    (hca : isAscii c = true) (hcb : blank c = false) (hcd : digit c = false ∨ sp ≠ []) (mem : List Byte)
    (hl : (protocolText maj min).length < mem.length) (h2 : mem.length < 2 ^ 64)
    (hf : (protocolText maj min).length + sp.length + 2 ≤ fuel) :
    getProtocolBase fuel (In.ofList (protocolText maj min ++ (sp ++ c :: r))) mem mem.length =
      .ok ⟨In.ofList (c :: r), putMem mem 0 (protocolText maj min ++ [0]), (protocolText maj min).length⟩ := by
  have htl : (protocolText maj min).length = 6 + maj.length + min.length := by
    simp [protocolText]; omega
  obtain ⟨c', x, hcx, hca', hcd'⟩ : ∃ c' x, sp ++ c :: r = c' :: x ∧ isAscii c' = true ∧ digit c' = false := by
    cases sp with
    | nil => exact ⟨c, r, rfl, hca, by simpa using hcd⟩
    | cons a sp =>
      refine ⟨a, sp ++ c :: r, rfl, ascii_of_blank (hsp a (by simp)), ?_⟩
      have := hsp a (by simp)
      simp only [blank, decide_eq_true_eq] at this
      rcases this with rfl | rfl <;> decide
  rw [getProtocolBase]
  have e1 : protocolText maj min ++ (sp ++ c :: r) =
      [72, 84, 84, 80] ++ 47 :: (maj ++ 46 :: (min ++ (sp ++ c :: r))) := by simp [protocolText]
  rw [e1, getWord (by omega) h2 (by omega) [72, 84, 84, 80] 47 _ (by decide) (by decide) (by decide) fuel
    (by simp; omega) (by simp; omega), Res.ok_bind]
  have e2 : protoHead ⟨In.ofList (47 :: (maj ++ 46 :: (min ++ (sp ++ c :: r)))),
      putMem mem 0 ([72, 84, 84, 80] ++ [0]), ([72, 84, 84, 80] : List Byte).length⟩ =
      .ok (In.ofList (47 :: (maj ++ 46 :: (min ++ (sp ++ c :: r))))) :=
    protoHead_ok _ _ ([0] ++ mem.drop 5) (by simp [putMem])
  rw [e2, Res.ok_bind]
  dsimp only
  have e3 := protoPart_ok (fuel := fuel) (size := mem.length) 47 (by decide) mem [72, 84, 84, 80] maj 46
    (min ++ (sp ++ c :: r)) [0] (by simp) hmaj (by decide) (by decide) (Nat.le_refl _) h2 (by simp; omega) (by omega)
  have e4 := protoPart_ok (fuel := fuel) (size := mem.length) 46 (by decide) mem ([72, 84, 84, 80] ++ 47 :: maj) min c'
    x [0] (by simp) hmin hca' hcd' (Nat.le_refl _) h2 (by simp; omega) (by omega)
  simp only [List.length_cons, List.length_nil, Nat.zero_add] at e3 ⊢
  rw [e3, Res.ok_bind]
  dsimp only
  simp only [List.length_append, List.length_cons, List.length_nil, Nat.zero_add] at e4
  rw [hcx]
  rw [show 3 + 1 + 1 + maj.length = 3 + 1 + (maj.length + 1) from by omega, e4, Res.ok_bind]
  dsimp only
  rw [← hcx, skipBlanks sp c r hca hcb hsp fuel (by omega), Res.ok_bind]
  have a1 : [72, 84, 84, 80] ++ 47 :: maj ++ 46 :: min ++ [0] = protocolText maj min ++ [0] := by
    simp [protocolText]
  have a2 : 3 + 1 + (maj.length + 1) + 1 + min.length = (protocolText maj min).length := by
    rw [htl]; omega
  rw [a1, a2]

end Abc.Http
