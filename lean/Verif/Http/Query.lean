import Verif.Http.Messages

/-!
# C15: query parameters
-/

namespace Abc.Http

open Abc.Ascii Abc.Stream

/-- Pieces with a separator between them. -/
def joinP (sep : Byte) : List (List Byte) → List Byte
  | [] => []
  | [p] => p
  | p :: q :: ps => p ++ sep :: joinP sep (q :: ps)

theorem findIdx?_append_cons (f : Byte → Bool) (w : List Byte) (c : Byte) (v : List Byte)
    (hw : ∀ x ∈ w, f x = false) (hc : f c = true) : (w ++ c :: v).findIdx? f = some w.length := by
  induction w with
  | nil => simp [List.findIdx?_cons, hc]
  | cons a w ih =>
    rw [List.cons_append, List.findIdx?_cons, hw a (by simp), ih (fun x hx => hw x (by simp [hx]))]
    simp

theorem strchr_found (u w v : List Byte) (c : Byte) (hw : ∀ x ∈ w, x ≠ c ∧ x ≠ 0) :
    strchr (u ++ (w ++ c :: v)) c u.length = .ok (some (u.length + w.length)) := by
  unfold strchr
  rw [List.drop_left, findIdx?_append_cons _ w c v (fun x hx => by simp [hw x hx]) (by simp)]
  dsimp only
  rw [List.getElem?_append_right (by omega), Nat.add_sub_cancel_left, List.getElem?_append_right (by omega)]
  simp

theorem strchr_null (u w v : List Byte) (c : Byte) (hc : c ≠ 0) (hw : ∀ x ∈ w, x ≠ c ∧ x ≠ 0) :
    strchr (u ++ (w ++ 0 :: v)) c u.length = .ok none := by
  unfold strchr
  rw [List.drop_left, findIdx?_append_cons _ w 0 v (fun x hx => by simp [hw x hx]) (by simp)]
  dsimp only
  rw [List.getElem?_append_right (by omega), Nat.add_sub_cancel_left, List.getElem?_append_right (by omega)]
  simp [Ne.symm hc]

theorem strlen_at (u w v : List Byte) (hw : ∀ x ∈ w, x ≠ 0) :
    strlen (u ++ (w ++ 0 :: v)) u.length = .ok w.length := by
  unfold strlen
  rw [List.drop_left, findIdx?_append_cons _ w 0 v (fun x hx => by simp [hw x hx]) (by simp)]

theorem splitLoop_pieces (size : Nat) (ps : List (List Byte)) (hps : ps ≠ [])
    (hlast : ∀ p ∈ ps.getLast?, p ≠ []) (hc : ∀ p ∈ ps, ∀ x ∈ p, x ≠ 38 ∧ x ≠ 0) (u v : List Byte) (sep : Byte) (f : Nat)
    (hf : ps.length < f) (hs : u.length + 1 + (joinP 38 ps).length ≤ size) :
    splitLoop size f (u ++ sep :: (joinP 38 ps ++ 0 :: v)) (some u.length) =
      .ok (u ++ 0 :: (joinP 0 ps ++ 0 :: v)) := by
  induction ps generalizing u sep f with
  | nil => exact absurd rfl hps
  | cons p ps ih =>
    obtain ⟨f, rfl⟩ : ∃ g, f = g + 1 := ⟨f - 1, by omega⟩
    rw [splitLoop.eq_def]
    dsimp only
    have hw : wr (u ++ sep :: (joinP 38 (p :: ps) ++ 0 :: v)) u.length 0 =
        .ok (u ++ 0 :: (joinP 38 (p :: ps) ++ 0 :: v)) := by
      rw [wr_ok (by simp)]; simp
    have hne : joinP 38 (p :: ps) ≠ [] ∧ ∀ x ∈ (joinP 38 (p :: ps)).head?, x ≠ 0 := by
      cases ps with
      | nil =>
        have hp := hlast p (by simp)
        cases p with
        | nil => exact absurd rfl hp
        | cons a p => exact ⟨by simp [joinP], by simpa [joinP] using (hc (a :: p) (by simp) a (by simp)).2⟩
      | cons q ps =>
        cases p with
        | nil => simp [joinP]
        | cons a p => exact ⟨by simp [joinP], by simpa [joinP] using (hc (a :: p) (by simp) a (by simp)).2⟩
    obtain ⟨a, t, ht, ha⟩ : ∃ a t, joinP 38 (p :: ps) = a :: t ∧ a ≠ 0 := by
      cases hj : joinP 38 (p :: ps) with
      | nil => exact absurd hj hne.1
      | cons a t => exact ⟨a, t, rfl, hne.2 a (by rw [hj]; simp)⟩
    have hlen := congrArg List.length ht
    simp only [List.length_cons] at hlen
    have hget : (u ++ 0 :: (joinP 38 (p :: ps) ++ 0 :: v))[u.length + 1]? = some a := by
      rw [List.getElem?_append_right (by omega), ht]; simp
    rw [if_pos (by omega), hw, Res.ok_bind, if_pos (by omega), hget]
    dsimp only
    rw [if_pos ha]
    have hpc := hc p (by simp)
    cases ps with
    | nil =>
      have := strchr_null (u ++ [0]) p v 38 (by decide) hpc
      simp only [List.length_append, List.length_cons, List.length_nil, List.append_assoc, List.cons_append,
        List.nil_append] at this
      simp only [joinP]
      rw [this, Res.ok_bind]
      obtain ⟨f, rfl⟩ : ∃ g, f = g + 1 := ⟨f - 1, by simp at hf; omega⟩
      rw [splitLoop]
    | cons q ps =>
      have := strchr_found (u ++ [0]) p (joinP 38 (q :: ps) ++ 0 :: v) 38 hpc
      simp only [List.length_append, List.length_cons, List.length_nil, List.append_assoc, List.cons_append,
        List.nil_append] at this
      simp only [joinP, List.append_assoc, List.cons_append] at this ⊢
      rw [this, Res.ok_bind]
      have := ih (by simp) (by simpa using hlast) (fun r hr => hc r (by simp [hr])) (u ++ 0 :: p) 38 f
        (by simp at hf ⊢; omega) (by simp [joinP] at hs ⊢; omega)
      simp only [List.length_append, List.length_cons, List.append_assoc, List.cons_append] at this
      rw [show u.length + (0 + 1) + p.length = u.length + (p.length + 1) by omega, this]

theorem joinP_length (s t : Byte) (ps : List (List Byte)) : (joinP s ps).length = (joinP t ps).length := by
  induction ps with
  | nil => rfl
  | cons p ps ih =>
    cases ps with
    | nil => rfl
    | cons q ps => simp only [joinP, List.length_append, List.length_cons]; rw [ih]

theorem paramAt_eq (u p v name : List Byte) (hn : ∀ x ∈ name, x ≠ 0) :
    paramAt (u ++ (p ++ 0 :: v)) u.length name = .ok ((name ++ [61]).isPrefixOf p) := by
  induction name generalizing u p with
  | nil =>
    rw [paramAt]
    cases p with
    | nil => simp
    | cons a p => simp [List.isPrefixOf, eq_comm]
  | cons a name ih =>
    rw [paramAt]
    have ha := hn a (by simp)
    cases p with
    | nil => simp [Ne.symm ha]
    | cons b p =>
      have := ih (u ++ [b]) p (fun x hx => hn x (by simp [hx]))
      simp only [List.length_append, List.length_cons, List.length_nil, List.append_assoc, List.cons_append,
        List.nil_append] at this
      simp only [List.cons_append, List.getElem?_append_right (Nat.le_refl _), Nat.sub_self,
        List.getElem?_cons_zero, List.isPrefixOf]
      by_cases hab : b = a
      · subst hab; rw [if_pos rfl, this]; simp
      · rw [if_neg hab]; simp [Ne.symm hab]

/-- The value of a parameter in a list of `name=value` pieces, the first one counts. -/
def lookup (name : List Byte) (ps : List (List Byte)) : Option (List Byte) :=
  (ps.find? fun p => (name ++ [61]).isPrefixOf p).map fun p => p.drop (name.length + 1)

theorem cstr_append (w v : List Byte) (hw : ∀ x ∈ w, x ≠ 0) : cstr (w ++ 0 :: v) = w := by
  unfold cstr
  rw [List.takeWhile_append_of_pos (by intro x hx; simpa using hw x hx)]
  simp

theorem paramLoop_pieces (size : Nat) (name : List Byte) (hn : ∀ x ∈ name, x ≠ 0) (ps : List (List Byte)) (hps : ps ≠ [])
    (hc : ∀ p ∈ ps, ∀ x ∈ p, x ≠ 0) (u v : List Byte) (f : Nat) (hf : ps.length < f)
    (hs : u.length + (joinP 0 ps).length + 1 < size) :
    ∃ r, paramLoop (u ++ (joinP 0 ps ++ 0 :: 0 :: v)) size name f u.length = .ok r ∧
      r.map (fun i => cstr ((u ++ (joinP 0 ps ++ 0 :: 0 :: v)).drop i)) =
        lookup name (ps.takeWhile (fun p => p ≠ [])) := by
  induction ps generalizing u f with
  | nil => exact absurd rfl hps
  | cons p ps ih =>
    obtain ⟨f, rfl⟩ : ∃ g, f = g + 1 := ⟨f - 1, by omega⟩
    obtain ⟨y, hy⟩ : ∃ y, joinP 0 (p :: ps) ++ 0 :: 0 :: v = p ++ 0 :: y := by
      cases ps with
      | nil => exact ⟨_, rfl⟩
      | cons q ps => exact ⟨_, by simp only [joinP, List.append_assoc, List.cons_append]; rfl⟩
    rw [paramLoop, hy, if_pos (by omega)]
    have hpc := hc p (by simp)
    cases p with
    | nil =>
      refine ⟨none, by simp, by simp [lookup]⟩
    | cons a t =>
      have hg : (u ++ (a :: t ++ 0 :: y))[u.length]? = some a := by simp
      rw [hg]
      dsimp only
      rw [if_pos (hpc a (by simp)), paramAt_eq u (a :: t) y name hn, Res.ok_bind]
      have htw : ((a :: t) :: ps).takeWhile (fun p => p ≠ []) = (a :: t) :: ps.takeWhile (fun p => p ≠ []) := by simp
      rw [htw]
      cases hb : (name ++ [61]).isPrefixOf (a :: t) with
      | true =>
        rw [if_pos rfl]
        refine ⟨_, rfl, ?_⟩
        have hpre := List.isPrefixOf_iff_prefix.1 hb
        have hle := hpre.length_le
        simp only [List.length_append, List.length_cons, List.length_nil] at hle
        simp only [lookup, List.find?_cons, hb, Option.map_some]
        rw [Nat.add_assoc, List.drop_append, List.drop_of_length_le (by omega), List.nil_append,
          Nat.add_sub_cancel_left, List.drop_append_of_le_length (by simpa using hle)]
        rw [cstr_append _ _ (fun x hx => hpc x (List.mem_of_mem_drop hx))]
      | false =>
        rw [if_neg (by simp), strlen_at u (a :: t) y hpc, Res.ok_bind]
        cases ps with
        | nil =>
          simp only [joinP] at hy hs
          obtain ⟨f, rfl⟩ : ∃ g, f = g + 1 := ⟨f - 1, by simp at hf; omega⟩
          rw [List.append_cancel_left_eq] at hy
          cases hy
          rw [paramLoop, if_pos (by omega)]
          refine ⟨none, ?_, by simp [lookup, hb]⟩
          have : (u ++ (a :: t ++ 0 :: 0 :: v))[u.length + (a :: t).length + 1]? = some 0 := by
            rw [List.getElem?_append_right (by omega), List.getElem?_append_right (by omega)]
            simp [Nat.add_assoc]
          rw [this]; simp
        | cons q ps =>
          have hy' : y = joinP 0 (q :: ps) ++ 0 :: 0 :: v := by
            simp only [joinP, List.append_assoc, List.cons_append] at hy
            simpa using hy.symm
          subst hy'
          have hlen : (joinP 0 ((a :: t) :: q :: ps)).length = (a :: t).length + 1 + (joinP 0 (q :: ps)).length := by
            simp only [joinP, List.length_append, List.length_cons]; omega
          obtain ⟨r, h1, h2⟩ := ih (by simp) (fun r hr => hc r (by simp [hr])) (u ++ (a :: t ++ [0])) f
            (by simp at hf ⊢; omega) (by simp at hlen hs ⊢; omega)
          have e : u ++ (a :: t ++ [0]) ++ (joinP 0 (q :: ps) ++ 0 :: 0 :: v) =
              u ++ (a :: t ++ 0 :: (joinP 0 (q :: ps) ++ 0 :: 0 :: v)) := by simp
          have e2 : (u ++ (a :: t ++ [0])).length = u.length + (a :: t).length + 1 := by simp; omega
          rw [e, e2] at h1
          rw [e] at h2
          refine ⟨r, h1, ?_⟩
          rw [h2]
          simp [lookup, hb]

/-- Split, then look a name up: the C string found, if any. -/
def queryParameter (fuel : Nat) (mem : List Byte) (size : Nat) (name : List Byte) : Res (Option (List Byte)) :=
  (splitResource fuel mem size).bind fun mem =>
  (getResourceParameter fuel mem size name).bind fun r => .ok (r.map fun i => cstr (mem.drop i))

/-- C15 in full: `path?p1&p2&...` in a buffer as `get_resource` leaves it (two NULs at the end). -/
def QueryExact : Prop :=
  ∀ (path : List Byte) (ps : List (List Byte)) (junk name : List Byte) (size fuel : Nat),
    (∀ x ∈ path, x ≠ 63 ∧ x ≠ 0) → ps ≠ [] → (∀ p ∈ ps, ∀ x ∈ p, x ≠ 38 ∧ x ≠ 0) → (∀ x ∈ name, x ≠ 0) →
    path.length + 1 + (joinP 38 ps).length + 2 ≤ size → size ≤ path.length + 1 + (joinP 38 ps).length + 2 + junk.length →
    size + 9 ≤ fuel →
    queryParameter fuel (path ++ 63 :: (joinP 38 ps ++ 0 :: 0 :: junk)) size name = .ok (lookup name ps)

/-- C15 does not hold: with an empty piece, `a?&b=1`, the parameters after it are not found. -/
theorem query_exact_violated : ¬ QueryExact := by
  intro h
  have := h [97] [[], [98, 61, 49]] [] [98] 8 17 (by decide) (by decide) (by decide) (by decide) (by decide) (by decide)
    (by decide)
  revert this; decide

/-- With an empty last piece (`/?`) the split runs on behind the resource, into whatever the buffer holds:
reading outside the buffer, or changing bytes behind the resource. -/
theorem query_overrun_violated :
    splitResource 9 [47, 63, 0, 0, 120] 5 = .ub ∧
    splitResource 9 [47, 63, 0, 0, 120, 38, 0] 7 = .ok [47, 0, 0, 0, 120, 0, 0] := by decide

/-- C15, what holds.  Whatever the path, the pieces (the last not empty), the bytes behind, and the name:
the lookup gives the value of the first piece `name=value` with exactly that name, among the pieces
before the first empty one; nothing when there is none. -/
theorem query_exact_partial (path : List Byte) (ps : List (List Byte)) (junk name : List Byte) (size fuel : Nat)
    (hpath : ∀ x ∈ path, x ≠ 63 ∧ x ≠ 0) (hps : ps ≠ []) (hlast : ∀ p ∈ ps.getLast?, p ≠ [])
    (hc : ∀ p ∈ ps, ∀ x ∈ p, x ≠ 38 ∧ x ≠ 0) (hn : ∀ x ∈ name, x ≠ 0)
    (hs : path.length + 1 + (joinP 38 ps).length + 2 ≤ size) (hf : ps.length < fuel) :
    queryParameter fuel (path ++ 63 :: (joinP 38 ps ++ 0 :: 0 :: junk)) size name =
      .ok (lookup name (ps.takeWhile (fun p => p ≠ []))) := by
  unfold queryParameter splitResource getResourceParameter
  have h1 := strchr_found [] path (joinP 38 ps ++ 0 :: 0 :: junk) 63 hpath
  simp only [List.nil_append, List.length_nil, Nat.zero_add] at h1
  rw [h1, Res.ok_bind, splitLoop_pieces size ps hps hlast hc path (0 :: junk) 63 fuel hf (by omega), Res.ok_bind]
  have h2 := strlen_at [] path (joinP 0 ps ++ 0 :: 0 :: junk) (fun x hx => (hpath x hx).2)
  simp only [List.nil_append, List.length_nil] at h2
  rw [h2, Res.ok_bind]
  obtain ⟨r, h3, h4⟩ := paramLoop_pieces size name hn ps hps (fun p hp x hx => (hc p hp x hx).2) (path ++ [0]) junk fuel hf
    (by rw [joinP_length 0 38]; simp; omega)
  simp only [List.length_append, List.length_cons, List.length_nil, List.append_assoc, List.cons_append,
    List.nil_append, Nat.zero_add] at h3 h4
  rw [h3, Res.ok_bind, h4]

/-- C15 when no piece is empty: exactly the first `name=value`. -/
theorem query_exact_nonempty_partial (path : List Byte) (ps : List (List Byte)) (junk name : List Byte) (size fuel : Nat)
    (hpath : ∀ x ∈ path, x ≠ 63 ∧ x ≠ 0) (hps : ps ≠ []) (hne : ∀ p ∈ ps, p ≠ [])
    (hc : ∀ p ∈ ps, ∀ x ∈ p, x ≠ 38 ∧ x ≠ 0) (hn : ∀ x ∈ name, x ≠ 0)
    (hs : path.length + 1 + (joinP 38 ps).length + 2 ≤ size) (hf : ps.length < fuel) :
    queryParameter fuel (path ++ 63 :: (joinP 38 ps ++ 0 :: 0 :: junk)) size name = .ok (lookup name ps) := by
  have : ps.takeWhile (fun p => p ≠ []) = ps := by
    clear hs hf hc hps
    induction ps with
    | nil => rfl
    | cons p ps ih =>
      rw [List.takeWhile_cons, if_pos (by simpa using hne p (by simp)), ih (fun q hq => hne q (by simp [hq]))]
  have h := query_exact_partial path ps junk name size fuel hpath hps
    (fun p hp => hne p (List.mem_of_mem_getLast? hp)) hc hn hs hf
  rwa [this] at h

/-- C15, end to end: a request line with a query is read with `get_resource`, then the parameter is looked
up in that buffer. -/
theorem received_query_partial (path : List Byte) (ps : List (List Byte)) (name : List Byte)
    (hw : ∀ c ∈ path ++ 63 :: joinP 38 ps, printable c = true)
    (hpath : ∀ x ∈ path, x ≠ 63) (hps : ps ≠ []) (hne : ∀ p ∈ ps, p ≠ []) (hc : ∀ p ∈ ps, ∀ x ∈ p, x ≠ 38 ∧ x ≠ 0)
    (hn : ∀ x ∈ name, x ≠ 0) (c : Byte) (r : List Byte) (hca : c < 128) (hcb : blank c = false) (mem : List Byte)
    (hl : (path ++ 63 :: joinP 38 ps).length + 1 < mem.length) (h2 : mem.length < 2 ^ 64) (g fuel : Nat)
    (hf : mem.length + ps.length + 2 ≤ fuel) :
    ∃ res, getResource fuel ⟨{ rest := path ++ 63 :: joinP 38 ps ++ 32 :: c :: r }, .resource, g⟩ mem mem.length = .ok res ∧
      res.st.s.good = true ∧ queryParameter fuel res.mem mem.length name = .ok (lookup name ps) := by
  obtain ⟨mem', h1, _, h3⟩ := getResource_ok (fuel := fuel) (path ++ 63 :: joinP 38 ps) hw c r
    (by rw [isAscii_eq]; simpa using hca) hcb mem hl h2 g (by omega)
  refine ⟨_, h1, rfl, ?_⟩
  have hm : mem' = path ++ 63 :: (joinP 38 ps ++ 0 :: 0 :: mem'.drop ((path ++ 63 :: joinP 38 ps).length + 2)) := by
    have := List.take_append_drop ((path ++ 63 :: joinP 38 ps).length + 2) mem'
    rw [h3] at this
    generalize mem'.drop ((path ++ 63 :: joinP 38 ps).length + 2) = d at this ⊢
    rw [← this]
    simp
  dsimp only
  rw [hm]
  refine query_exact_nonempty_partial path ps _ name mem.length fuel ?_ hps hne hc hn ?_ (by omega)
  · intro x hx
    exact ⟨hpath x hx, ne0_of_printable (hw x (by simp [hx]))⟩
  · simp at hl; omega

/-- C15, no query at all. -/
theorem query_absent (path junk name : List Byte) (size fuel : Nat) (hpath : ∀ x ∈ path, x ≠ 63 ∧ x ≠ 0)
    (hf : 1 ≤ fuel) : queryParameter fuel (path ++ 0 :: 0 :: junk) size name = .ok none := by
  obtain ⟨f, rfl⟩ : ∃ f, fuel = f + 1 := ⟨fuel - 1, by omega⟩
  unfold queryParameter splitResource getResourceParameter
  have h1 := strchr_null [] path (0 :: junk) 63 (by decide) hpath
  simp only [List.nil_append, List.length_nil] at h1
  rw [h1, Res.ok_bind, splitLoop, Res.ok_bind]
  have h2 := strlen_at [] path (0 :: junk) (fun x hx => (hpath x hx).2)
  simp only [List.nil_append, List.length_nil] at h2
  rw [h2, Res.ok_bind, paramLoop]
  have : (path ++ 0 :: 0 :: junk)[path.length + 1]? = some 0 := by
    rw [List.getElem?_append_right (by omega)]; simp
  rw [this]
  split <;> simp

/-- `a?nm=1&n=2&n=3`, looking up `n`: the longer name before it and the second value are not taken. -/
example : queryParameter 30 ([97] ++ 63 :: (joinP 38 [[110, 109, 61, 49], [110, 61, 50], [110, 61, 51]] ++ 0 :: 0 :: [9])) 17 [110] =
    .ok (some [50]) := by decide

end Abc.Http
