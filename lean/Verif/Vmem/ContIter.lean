import Verif.Vmem.ContErase
import Mathlib.Logic.Function.Iterate
import Mathlib.Data.List.Induction

/-! # Iterators of containers -/

namespace Abc.Vmem.Pages

variable {α : Type}

theorem at_begin {cap : Nat} {h : Heap α} {sid : Nat} {ps : List Nat} (c : Cont cap h sid ps) : At h ps (cbegin (h.states sid)) [] (contents h ps) := by
  unfold cbegin
  cases ps with
  | nil =>
    rw [if_pos (show (h.states sid).front = nil from c.own.front), show (h.states sid).back = ([] : List Nat).getLastD nil from c.own.back]
    exact At.fin
  | cons p ps =>
    have hf : (h.states sid).front = p := c.own.front
    rw [hf, if_neg (c.own.nn p (by simp)), contents_cons]
    exact at_at (as := []) (by have := (c.cnt p (by simp)).1; omega) (by simp) (by simp)

theorem at_end {cap : Nat} {h : Heap α} {sid : Nat} {ps : List Nat} (c : Cont cap h sid ps) : At h ps (cend (h.states sid)) (contents h ps) [] := by
  unfold cend
  rw [c.own.back]
  exact At.fin

/-- Two iterators at the same place are equal. -/
theorem at_unique {cap : Nat} {h : Heap α} {sid : Nat} {ps : List Nat} {i j : Itr} {u v u' v' : List α} (c : Cont cap h sid ps)
    (a : At h ps i u v) (b : At h ps j u' v') (hl : u.length = u'.length) : i = j := by
  have huv : u = u' ∧ v = v' := by
    have := a.contents.symm.trans b.contents
    exact List.append_inj this hl
  obtain ⟨rfl, rfl⟩ := huv
  have key : ∀ (as : List Nat) (p : Nat) (bs : List Nat) (k : Nat) (as' : List Nat) (p' : Nat) (bs' : List Nat) (k' : Nat),
      ps = as ++ p :: bs → ps = as' ++ p' :: bs' → k < (h.pages p).count →
      (contents h as).length + k = (contents h as').length + k' → ¬ ∃ t, as' = as ++ p :: t := by
    rintro as p bs k as' p' bs' k' - - hk hlen ⟨t, rfl⟩
    rw [contents_append, contents_cons] at hlen
    simp at hlen
    omega
  generalize hu : u = u0 at a
  generalize hv : v = v0 at a
  generalize hu2 : u = u2 at b
  generalize hv2 : v = v2 at b
  cases a with
  | item as p bs k e hk =>
    have hne : ∀ p' : Nat, p' = p → ∀ (k : Nat), k < (h.pages p').count → ∀ l, (pageItems (h.pages p')).drop k ++ l ≠ ([] : List α) := by
      intro p' _ k hk l hx
      have := congrArg List.length hx
      simp at this
      omega
    cases b with
    | item as' p' bs' k' e' hk' =>
      have hlen : (contents h as).length + k = (contents h as').length + k' := by
        have := congrArg List.length (hu.symm.trans hu2)
        simp at this
        omega
      have h12 : as ++ p :: bs = as' ++ p' :: bs' := e.symm.trans e'
      rcases List.append_eq_append_iff.1 h12 with ⟨t, h1, h2⟩ | ⟨t, h1, h2⟩
      · cases t with
        | nil =>
          simp at h1 h2
          obtain ⟨rfl, rfl⟩ := h2
          subst h1
          have : k = k' := by omega
          rw [this]
        | cons y t =>
          have hy : p = y := by simpa using congrArg List.head? h2
          subst hy
          exact absurd ⟨t, h1⟩ (key as p bs k as' p' bs' k' e e' hk hlen)
      · cases t with
        | nil =>
          simp at h1 h2
          obtain ⟨rfl, rfl⟩ := h2
          subst h1
          have : k = k' := by omega
          rw [this]
        | cons y t =>
          have hy : p' = y := by simpa using congrArg List.head? h2
          subst hy
          exact absurd ⟨t, h1⟩ (key as' p' bs' k' as p bs k e' e hk' hlen.symm)
    | fin => exact absurd (hv.symm.trans hv2) (hne p rfl k hk _)
  | fin =>
    cases b with
    | item as' p' bs' k' e' hk' =>
      have := congrArg List.length (hv.symm.trans hv2)
      simp at this
      omega
    | fin => rfl

theorem at_next {cap max : Nat} {held : List Nat} {h : Heap α} {sid : Nat} {ps : List Nat} {i : Itr} {u v : List α} {y : α} (c : Cont cap h sid ps)
    (hcap : cap < nilItem) (hm : held.length < max) (a : At h ps i u (y :: v)) : At h ps (cnext max held h sid i) (u ++ [y]) v := by
  generalize hv : y :: v = v0 at a
  cases a with
  | fin => cases hv
  | item as p bs k e hk =>
    subst e
    have own := c.own
    have hc := c.cnt p (by simp)
    have hdk : (pageItems (h.pages p)).drop k = (pageItems (h.pages p))[k]'(by simpa using hk) :: (pageItems (h.pages p)).drop (k + 1) :=
      (List.getElem_cons_drop (by simpa using hk)).symm
    rw [hdk, List.cons_append] at hv
    obtain ⟨hy, hv⟩ := List.cons.inj hv
    have htk : (pageItems (h.pages p)).take (k + 1) = (pageItems (h.pages p)).take k ++ [y] := by
      rw [hy, List.take_succ_eq_append_getElem (by simpa using hk)]
    unfold cnext
    rw [if_neg (by simp), if_neg (own.nn p (by simp)), canLock_of hm, if_neg (by decide)]
    simp only
    by_cases hlast : k < (h.pages p).count - 1
    · rw [if_pos hlast]
      refine at_at (by omega) ?_ hv
      rw [htk, List.append_assoc]
    · rw [if_neg hlast]
      have hnx := next_eq own
      have hd0 : (pageItems (h.pages p)).drop (k + 1) = [] := List.drop_of_length_le (by simp; omega)
      have ht0 : (pageItems (h.pages p)).take (k + 1) = pageItems (h.pages p) := List.take_of_length_le (by simp; omega)
      rw [hd0, List.nil_append] at hv
      have hu : contents h as ++ (pageItems (h.pages p)).take k ++ [y] = contents h (as ++ [p]) := by
        rw [List.append_assoc, ← htk, ht0, contents_append, contents_cons, contents_nil, List.append_nil]
      rw [hu, hv]
      cases bs with
      | nil =>
        rw [if_pos (show (h.pages p).next = nil from hnx), contents_nil]
        exact at_end c
      | cons b bs' =>
        have hb : (h.pages p).next = b := hnx
        rw [hb, if_neg (own.nn b (by simp)), show as ++ p :: b :: bs' = (as ++ [p]) ++ b :: bs' by simp]
        refine at_at (by have := (c.cnt b (by simp)).1; omega) (by simp) (by rw [contents_cons, List.drop_zero])

theorem next_end {cap max : Nat} {held : List Nat} {h : Heap α} {sid : Nat} {ps : List Nat} (c : Cont cap h sid ps) (hcap : cap < nilItem) (hm : held.length < max) :
    cnext max held h sid (cend (h.states sid)) = cend (h.states sid) := by
  have own := c.own
  unfold cnext
  rw [if_neg (by simp [cend])]
  by_cases hn : (cend (h.states sid)).page = nil
  · rw [if_pos hn]
  · rw [if_neg hn, canLock_of hm, if_neg (by decide)]
    have hbk : (cend (h.states sid)).page = ps.getLastD nil := own.back
    rcases List.eq_nil_or_concat ps with e | ⟨as, p, e⟩
    · rw [e] at hbk; exact absurd hbk hn
    · rw [List.concat_eq_append] at e
      subst e
      rw [getLastD_append nil nil (by simp)] at hbk
      have hp : (cend (h.states sid)).page = p := hbk
      rw [hp, if_neg, if_pos (show (h.pages p).next = nil from next_eq own)]
      have := (c.cnt p (by simp)).2
      show ¬ nilItem < _
      omega

/-- The iterator `n` steps behind the begin. -/
def itrAt (max : Nat) (held : List Nat) (h : Heap α) (sid n : Nat) : Itr := (cnext max held h sid)^[n] (cbegin (h.states sid))

theorem at_itr {cap max : Nat} {held : List Nat} {h : Heap α} {sid : Nat} {ps : List Nat} (c : Cont cap h sid ps)
    (hcap : cap < nilItem) (hm : held.length < max) (n : Nat) :
    At h ps (itrAt max held h sid n) ((contents h ps).take n) ((contents h ps).drop n) := by
  induction n with
  | zero => simpa [itrAt] using at_begin c
  | succ n ih =>
    unfold itrAt at ih ⊢
    rw [Function.iterate_succ_apply']
    by_cases hn : n < (contents h ps).length
    · rw [← List.getElem_cons_drop hn] at ih
      rw [List.take_succ_eq_append_getElem hn]
      exact at_next c hcap hm ih
    · rw [List.drop_of_length_le (by omega), List.take_of_length_le (by omega)] at ih ⊢
      have : (cnext max held h sid)^[n] (cbegin (h.states sid)) = cend (h.states sid) := at_unique c ih (at_end c) rfl
      rw [this, next_end c hcap hm]
      exact at_end c

theorem at_rend {cap max : Nat} {held : List Nat} {h : Heap α} {sid : Nat} {ps : List Nat} {u : List α} {y : α} (c : Cont cap h sid ps)
    (hm : held.length < max) (hc : contents h ps = u ++ [y]) : At h ps (crend max held h (h.states sid)) u [y] := by
  have own := c.own
  rcases List.eq_nil_or_concat ps with e | ⟨as, p, e⟩
  · rw [e] at hc; simp at hc
  · rw [List.concat_eq_append] at e
    subst e
    have hbk := own.back
    rw [getLastD_append nil nil (by simp)] at hbk
    have hp : (h.states sid).back = p := hbk
    have hcp := (c.cnt p (by simp)).1
    unfold crend
    rw [hp, if_neg (own.nn p (by simp)), canLock_of hm, if_neg (by decide)]
    have hne : pageItems (h.pages p) ≠ [] := by intro e; have := congrArg List.length e; simp at this; omega
    have hsplit : pageItems (h.pages p) = (pageItems (h.pages p)).take ((h.pages p).count - 1) ++ [(pageItems (h.pages p)).getLast hne] := by
      conv => lhs; rw [← List.dropLast_append_getLast hne]
      rw [List.dropLast_eq_take]; simp
    rw [contents_append, contents_cons, contents_nil, List.append_nil, hsplit, ← List.append_assoc] at hc
    obtain ⟨hu, hy⟩ := List.append_inj' hc rfl
    refine at_at (by omega) hu.symm ?_
    rw [← hy, contents_nil, List.append_nil]
    conv => rhs; rw [hsplit]
    rw [List.drop_left' (by simp)]

theorem crend_nil {cap max : Nat} {held : List Nat} {h : Heap α} {sid : Nat} {ps : List Nat} (c : Cont cap h sid ps)
    (hc : contents h ps = []) : crend max held h (h.states sid) = crbegin (h.states sid) := by
  have own := c.own
  have hps : ps = [] := by
    cases ps with
    | nil => rfl
    | cons p ps =>
      have := (c.cnt p (by simp)).1
      rw [contents_cons] at hc
      have := congrArg List.length hc
      simp at this
      omega
  rw [hps] at own
  unfold crend
  rw [if_pos (show (h.states sid).back = nil from own.back)]
  rfl

theorem at_prev {cap max : Nat} {held : List Nat} {h : Heap α} {sid : Nat} {ps : List Nat} {i : Itr} {u v : List α} {y : α} (c : Cont cap h sid ps)
    (hcap : cap < nilItem) (hm : held.length + 1 < max) (a : At h ps i (u ++ [y]) v) : At h ps (cprev max held h sid i) u (y :: v) := by
  generalize hu : u ++ [y] = u0 at a
  cases a with
  | fin =>
    unfold cprev
    rw [if_pos ⟨rfl, rfl⟩]
    exact at_rend c (by omega) hu.symm
  | item as p bs k e hk =>
    subst e
    have own := c.own
    have hc := c.cnt p (by simp)
    unfold cprev
    rw [if_neg (by simp), if_neg (own.nn p (by simp)), canLock_of (by omega), if_neg (by decide)]
    simp only
    by_cases h0 : 0 < k
    · rw [if_pos h0]
      have hk1 : k - 1 < (pageItems (h.pages p)).length := by simp; omega
      have htk : (pageItems (h.pages p)).take k = (pageItems (h.pages p)).take (k - 1) ++ [(pageItems (h.pages p))[k - 1]] := by
        rw [← List.take_succ_eq_append_getElem hk1]
        congr 1; omega
      rw [htk, ← List.append_assoc] at hu
      obtain ⟨hu, hy⟩ := List.append_inj' hu rfl
      refine at_at (by omega) hu ?_
      rw [← List.getElem_cons_drop hk1]
      have : k - 1 + 1 = k := by omega
      rw [this]
      simp at hy
      simp [hy]
    · rw [if_neg h0]
      have hk0 : k = 0 := by omega
      subst hk0
      have hpv := prev_eq own
      rw [List.take_zero, List.append_nil] at hu
      rcases List.eq_nil_or_concat as with e | ⟨as', n, e⟩
      · rw [e] at hu; simp at hu
      · rw [List.concat_eq_append] at e
        subst e
        rw [getLastD_append nil nil (by simp)] at hpv
        have hn : (h.pages p).prev = n := hpv
        have hcn := (c.cnt n (by simp)).1
        rw [hn, if_neg (own.nn n (by simp)), canLock_of (by simp; omega), if_neg (by decide)]
        have hne : pageItems (h.pages n) ≠ [] := by intro e; have := congrArg List.length e; simp at this; omega
        have hsplit : pageItems (h.pages n) = (pageItems (h.pages n)).take ((h.pages n).count - 1) ++ [(pageItems (h.pages n)).getLast hne] := by
          conv => lhs; rw [← List.dropLast_append_getLast hne]
          rw [List.dropLast_eq_take]; simp
        rw [contents_append, contents_cons, contents_nil, List.append_nil, hsplit, ← List.append_assoc] at hu
        obtain ⟨hu, hy⟩ := List.append_inj' hu rfl
        rw [show as' ++ [n] ++ p :: bs = as' ++ n :: (p :: bs) by simp]
        refine at_at (by omega) hu ?_
        have hd : (pageItems (h.pages n)).drop ((h.pages n).count - 1) = [(pageItems (h.pages n)).getLast hne] := by
          conv => lhs; rw [hsplit]
          rw [List.drop_left' (by simp)]
        simp at hy
        rw [hd, contents_cons, List.drop_zero, hy]
        simp

theorem prev_begin {cap max : Nat} {held : List Nat} {h : Heap α} {sid : Nat} {ps : List Nat} (c : Cont cap h sid ps) (hcap : cap < nilItem)
    (hm : held.length < max) : cprev max held h sid (cbegin (h.states sid)) = crbegin (h.states sid) := by
  have own := c.own
  cases ps with
  | nil =>
    have hf : (h.states sid).front = nil := own.front
    have hb : (h.states sid).back = nil := own.back
    unfold cprev cbegin
    rw [hf, if_pos rfl, if_pos ⟨rfl, rfl⟩]
    unfold crend
    rw [if_pos hb, hf]
    unfold crbegin
    rw [hf]
  | cons p ps =>
    have hf : (h.states sid).front = p := own.front
    unfold cprev cbegin
    rw [hf, if_neg (own.nn p (by simp)), if_neg (by simp), if_neg (own.nn p (by simp)), canLock_of hm, if_neg (by decide)]
    simp only
    rw [if_neg (by decide), if_pos (show (h.pages p).prev = nil from prev_eq (as := []) own)]

theorem next_rbegin {max : Nat} {held : List Nat} {h : Heap α} {sid : Nat} : cnext max held h sid (crbegin (h.states sid)) = cbegin (h.states sid) := by
  unfold cnext
  rw [if_pos ⟨rfl, rfl⟩]

theorem deref_at {cap max : Nat} {held : List Nat} {h : Heap α} {sid : Nat} {ps : List Nat} {i : Itr} {u v : List α} {y : α} (c : Cont cap h sid ps)
    (hcap : cap < nilItem) (hm : held.length < max) (a : At h ps i u (y :: v)) : deref max held h i = some y := by
  generalize hv : y :: v = v0 at a
  cases a with
  | fin => cases hv
  | item as p bs k e hk =>
    subst e
    have hc := c.cnt p (by simp)
    unfold deref
    rw [if_neg, canLock_of hm, if_neg (by decide)]
    · rw [← List.getElem_cons_drop (by simpa using hk), List.cons_append] at hv
      rw [(List.cons.inj hv).1]
      simp [pageItems]
    · rintro (h1 | h1)
      · exact c.own.nn p (by simp) h1
      · simp only at h1; omega

/-- The items seen when an iterator is dereferenced and advanced until it is the end. -/
def cwalk (max : Nat) (held : List Nat) (h : Heap α) (sid : Nat) : Nat → Itr → List (Option α)
  | 0, _ => []
  | n + 1, i => if i = cend (h.states sid) then [] else deref max held h i :: cwalk max held h sid n (cnext max held h sid i)

/-- The items seen when an iterator is dereferenced and moved back until it is the one before the begin. -/
def cwalkBack (max : Nat) (held : List Nat) (h : Heap α) (sid : Nat) : Nat → Itr → List (Option α)
  | 0, _ => []
  | n + 1, i => if i = crbegin (h.states sid) then [] else deref max held h i :: cwalkBack max held h sid n (cprev max held h sid i)

theorem cwalk_at {cap max : Nat} {held : List Nat} {h : Heap α} {sid : Nat} {ps : List Nat} (c : Cont cap h sid ps)
    (hcap : cap < nilItem) (hm : held.length < max) : ∀ (v u : List α) (i : Itr) (n : Nat), At h ps i u v → cwalk max held h sid (v.length + n) i = v.map some := by
  intro v
  induction v with
  | nil =>
    intro u i n a
    have : i = cend (h.states sid) := at_unique c a (at_end c) (by have := a.contents; rw [List.append_nil] at this; rw [this])
    cases n with
    | zero => rfl
    | succ n => show cwalk max held h sid (0 + n + 1) i = []; unfold cwalk; rw [if_pos this]
  | cons y v ih =>
    intro u i n a
    rw [show (y :: v).length + n = (v.length + n) + 1 by simp; omega]
    unfold cwalk
    rw [if_neg, deref_at c hcap hm a, ih _ _ n (at_next c hcap hm a), List.map_cons]
    intro e
    rw [e] at a
    have hl := (at_end c).contents
    have := (at_inv_fin a).2.2.2
    simp at this

theorem at_not_rbegin {h : Heap α} {ps : List Nat} {s : CState} {u v : List α} (a : At h ps (crbegin s) u v) : False := by
  generalize hi : crbegin s = i at a
  cases a with
  | item => exact absurd (congrArg Itr.edge hi) (by simp [crbegin])
  | fin => exact absurd (congrArg Itr.edge hi) (by simp [crbegin])

theorem cwalkBack_at {cap max : Nat} {held : List Nat} {h : Heap α} {sid : Nat} {ps : List Nat} (c : Cont cap h sid ps)
    (hcap : cap < nilItem) (hm : held.length + 1 < max) : ∀ (u : List α) (y : α) (v : List α) (i : Itr) (n : Nat), At h ps i u (y :: v) →
    cwalkBack max held h sid (u.length + 1 + n) i = some y :: u.reverse.map some := by
  intro u
  induction u using List.reverseRecOn with
  | nil =>
    intro y v i n a
    rw [show [].length + 1 + n = n + 1 by simp; omega]
    unfold cwalkBack
    rw [if_neg (fun e => at_not_rbegin (e ▸ a)), deref_at c hcap (by omega) a]
    have hi : i = cbegin (h.states sid) := at_unique c a (at_begin c) rfl
    rw [hi, prev_begin c hcap (by omega)]
    cases n with
    | zero => rfl
    | succ n => unfold cwalkBack; rw [if_pos rfl]; rfl
  | append_singleton u z ih =>
    intro y v i n a
    rw [show (u ++ [z]).length + 1 + n = (u.length + 1 + n) + 1 by simp; omega]
    unfold cwalkBack
    rw [if_neg (fun e => at_not_rbegin (e ▸ a)), deref_at c hcap (by omega) a, ih z (y :: v) _ n (at_prev c hcap hm a)]
    simp

end Abc.Vmem.Pages
