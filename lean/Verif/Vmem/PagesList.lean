import Verif.Vmem.PagesFree

/-! # Lists of linked pages -/

namespace Abc.Vmem.Pages

variable {α : Type}

/-- The pages `ps` are linked in this order, with `a` before the first and `b` behind the last. -/
def DL (h : Heap α) : Nat → List Nat → Nat → Prop
  | _, [], _ => True
  | a, p :: ps, b => (h.pages p).pos = p ∧ (h.pages p).prev = a ∧ (h.pages p).next = ps.headD b ∧ DL h p ps b

theorem headD_append (xs ys : List Nat) (b : Nat) : (xs ++ ys).headD b = xs.headD (ys.headD b) := by cases xs <;> rfl

theorem dl_append {h : Heap α} {ys : List Nat} {b : Nat} : ∀ {xs : List Nat} {a : Nat},
    DL h a (xs ++ ys) b ↔ DL h a xs (ys.headD b) ∧ DL h (xs.getLastD a) ys b := by
  intro xs
  induction xs with
  | nil => intro a; simp [DL]
  | cons x xs ih =>
    intro a
    rw [List.cons_append, DL, DL, ih, headD_append, List.getLastD_cons]
    constructor
    · rintro ⟨h1, h2, h3, h4, h5⟩; exact ⟨⟨h1, h2, h3, h4⟩, h5⟩
    · rintro ⟨⟨h1, h2, h3, h4⟩, h5⟩; exact ⟨h1, h2, h3, h4, h5⟩

/-- The links of a page are the same. -/
def SameLinks (h h' : Heap α) (q : Nat) : Prop :=
  (h'.pages q).pos = (h.pages q).pos ∧ (h'.pages q).prev = (h.pages q).prev ∧ (h'.pages q).next = (h.pages q).next

theorem SameLinks.of_eq {h h' : Heap α} {q : Nat} (e : h'.pages q = h.pages q) : SameLinks h h' q := by
  unfold SameLinks; rw [e]; exact ⟨rfl, rfl, rfl⟩

theorem dl_congr {h h' : Heap α} {b : Nat} : ∀ {xs : List Nat} {a : Nat}, DL h a xs b → (∀ q ∈ xs, SameLinks h h' q) → DL h' a xs b := by
  intro xs
  induction xs with
  | nil => intro a _ _; trivial
  | cons x xs ih =>
    intro a h1 h2
    obtain ⟨a1, a2, a3, a4⟩ := h1
    obtain ⟨b1, b2, b3⟩ := h2 x (by simp)
    exact ⟨b1.trans a1, b2.trans a2, b3.trans a3, ih a4 (fun q hq => h2 q (by simp [hq]))⟩

/-- State `sid` owns exactly the pages `ps`. -/
structure Own (h : Heap α) (sid : Nat) (ps : List Nat) : Prop where
  front : (h.states sid).front = ps.headD nil
  back : (h.states sid).back = ps.getLastD nil
  dl : DL h nil ps nil
  nodup : ps.Nodup
  nn : ∀ p ∈ ps, p ≠ nil

theorem own_congr {h h' : Heap α} {sid : Nat} {ps : List Nat} (o : Own h sid ps) (hs : h'.states sid = h.states sid)
    (hp : ∀ q ∈ ps, SameLinks h h' q) : Own h' sid ps :=
  ⟨by rw [hs]; exact o.front, by rw [hs]; exact o.back, dl_congr o.dl hp, o.nodup, o.nn⟩

theorem getLastD_mem {ps : List Nat} {d : Nat} (h : ps ≠ []) : ps.getLastD d ∈ ps := by
  rcases List.eq_nil_or_concat ps with e | ⟨l, a, e⟩
  · exact absurd e h
  · rw [e]; simp

theorem headD_mem {ps : List Nat} {d : Nat} (h : ps ≠ []) : ps.headD d ∈ ps := by
  cases ps with
  | nil => exact absurd rfl h
  | cons a l => simp

theorem getLastD_append {ys : List Nat} (d d' : Nat) (hy : ys ≠ []) (xs : List Nat) : (xs ++ ys).getLastD d = ys.getLastD d' := by
  rcases List.eq_nil_or_concat ys with e | ⟨l, a, e⟩
  · exact absurd e hy
  · rw [e, List.concat_eq_append, ← List.append_assoc]; simp

theorem own_empty {h : Heap α} {sid : Nat} (o : Own h sid []) : isEmpty (h.states sid) = true := isEmpty_true (Or.inl o.front)

theorem own_nonempty {h : Heap α} {sid : Nat} {ps : List Nat} (o : Own h sid ps) (hp : ps ≠ []) : isEmpty (h.states sid) = false := by
  apply isEmpty_false
  · rw [o.front]; exact o.nn _ (headD_mem hp)
  · rw [o.back]; exact o.nn _ (getLastD_mem hp)

/-- The iterator of the first page of a list, or the end. -/
def itrOf (bs : List Nat) : LItr := match bs with
  | [] => lend
  | b :: _ => ⟨b, .none⟩

/-- What changes when a page is inserted into a list. -/
structure InsFrame (h h' : Heap α) (sid n : Nat) (ps : List Nat) : Prop where
  data : SameData h h'
  pages : ∀ q, q ≠ n → q ∉ ps → h'.pages q = h.pages q
  states : ∀ t, t ≠ sid → h'.states t = h.states t
  total : (h'.states sid).total = (h.states sid).total
  len : h'.len = h.len
  bad : h'.bad = h.bad

/-- The previous page of the first of `bs`. -/
theorem dl_prev_head {h : Heap α} {as bs : List Nat} {b a e : Nat} (d : DL h a (as ++ b :: bs) e) : (h.pages b).prev = as.getLastD a := by
  obtain ⟨_, d2⟩ := dl_append.1 d
  exact d2.2.1

theorem initLinks_same {h : Heap α} {p q : Nat} (hq : q ≠ p) : (initLinks h p).pages q = h.pages q := by
  rw [initLinks_pages, if_neg hq]

theorem linsert_eq {max : Nat} {held : List Nat} {h g : Heap α} {sid n : Nat} {i : LItr}
    (e : insertNostate max held h sid i.page n (h.states sid).back = (g, true)) :
    linsert max held h sid i n = (g.setState sid (insertState (g.states sid) i n), ⟨n, .none⟩) := by
  unfold linsert
  rw [e]
  rfl

/-- `insert` puts the page between `as` and `bs`. -/
theorem linsert_spec {max : Nat} {held : List Nat} {h : Heap α} {sid n : Nat} {as bs : List Nat} (hm : held.length + 2 < max)
    (o : Own h sid (as ++ bs)) (hn : n ∉ as ++ bs) (hnn : n ≠ nil) :
    (linsert max held h sid (itrOf bs) n).2 = ⟨n, .none⟩ ∧ Own (linsert max held h sid (itrOf bs) n).1 sid (as ++ n :: bs) ∧
      InsFrame h (linsert max held h sid (itrOf bs) n).1 sid n (as ++ bs) := by
  have hnd : (as ++ n :: bs).Nodup := by
    have h1 := o.nodup
    rw [List.nodup_append] at h1 ⊢
    simp only [List.mem_append, not_or] at hn
    refine ⟨h1.1, List.nodup_cons.2 ⟨hn.2, h1.2.1⟩, ?_⟩
    intro x hx y hy
    rcases List.mem_cons.1 hy with e | hy
    · subst e; intro e'; subst e'; exact hn.1 hx
    · exact h1.2.2 x hx y hy
  have hnil : ∀ p ∈ as ++ n :: bs, p ≠ nil := by
    intro p hp
    rcases List.mem_append.1 hp with hp | hp
    · exact o.nn p (List.mem_append.2 (Or.inl hp))
    · rcases List.mem_cons.1 hp with e | hp
      · rw [e]; exact hnn
      · exact o.nn p (List.mem_append.2 (Or.inr hp))
  have hna : n ∉ as := fun hx => hn (List.mem_append.2 (Or.inl hx))
  have hnb : n ∉ bs := fun hx => hn (List.mem_append.2 (Or.inr hx))
  have hnd0 := o.nodup
  cases hbs : bs with
  | nil =>
    rw [hbs, List.append_nil] at o hn
    rw [show itrOf [] = lend from rfl]
    have hE : ∀ g : Heap α, (if isEmpty (h.states sid) then (initLinks h n, true) else (linkBack (initLinks h n) n (h.states sid).back, true)) = (g, true) →
        linsert max held h sid lend n = (g.setState sid (insertState (g.states sid) lend n), ⟨n, .none⟩) := by
      intro g hg
      exact linsert_eq (by rw [show lend.page = nil from rfl, insertNostate_end h sid n _ (by omega)]; exact hg)
    rcases List.eq_nil_or_concat as with ha | ⟨l, a, ha⟩
    · rw [ha] at o
      rw [hE _ (by rw [own_empty o, if_pos rfl])]
      refine ⟨rfl, ?_, ?_⟩
      · rw [ha]
        refine ⟨?_, ?_, ?_, by simp, by simpa using hnn⟩
        · rw [setState_same]; have := o.front; simp only [List.headD_nil] at this
          simp [insertState, this, initLinks]
        · rw [setState_same]; simp [insertState, lend]
        · simp only [List.nil_append, DL, setState_pages, initLinks_pages, if_true, List.headD_nil]
          exact ⟨trivial, trivial, trivial, trivial⟩
      · refine ⟨initLinks_sameData h n, fun q hq _ => ?_, fun t ht => by rw [setState_ne _ _ ht]; rfl, by rw [setState_same]; rfl, rfl, rfl⟩
        rw [setState_pages, initLinks_same hq]
    · have hane : as ≠ [] := by rw [ha]; simp
      rw [hE _ (by rw [own_nonempty o hane, if_neg (by decide)])]
      have hback : (h.states sid).back = a := by rw [o.back, ha]; simp
      have hfront : (h.states sid).front ≠ nil := by rw [o.front]; exact o.nn _ (headD_mem hane)
      rw [hback]
      have han : a ≠ n := by intro e; apply hna; rw [ha, ← e]; simp
      have hann : a ≠ nil := o.nn a (by rw [ha]; simp)
      have hpn : (linkBack (initLinks h n) n a).pages n = { h.pages n with pos := n, prev := a, next := nil } := by
        unfold linkBack; rw [mod_pages_same, mod_pages_ne _ _ han.symm, initLinks_pages, if_pos rfl]
      have hpa : (linkBack (initLinks h n) n a).pages a = { h.pages a with next := n } := by
        unfold linkBack; rw [mod_pages_ne _ _ han, mod_pages_same, initLinks_same han]
      have hst : (linkBack (initLinks h n) n a).states = h.states := rfl
      refine ⟨rfl, ⟨?_, ?_, ?_, by rw [hbs] at hnd; exact hnd, by rw [hbs] at hnil; exact hnil⟩, ?_⟩
      · rw [setState_same, hst]
        have e1 : (as ++ [n]).headD nil = as.headD nil := by cases as with
          | nil => exact absurd rfl hane
          | cons x xs => rfl
        rw [e1, ← o.front]
        simp [insertState, lend, hfront]
      · rw [setState_same, hst]
        simp [insertState, lend]
      · have d := o.dl
        rw [ha, List.concat_eq_append] at d ⊢
        rw [List.append_assoc, dl_append]
        rw [dl_append] at d
        obtain ⟨d1, d2⟩ := d
        constructor
        · refine dl_congr d1 (fun q hq => SameLinks.of_eq ?_)
          rw [setState_pages, linkBack_ne, initLinks_same]
          · intro e; apply hna; rw [ha, ← e]; simp [hq]
          · intro e; apply hna; rw [ha, ← e]; simp [hq]
          · intro e
            rw [hbs, ha, List.append_nil, List.concat_eq_append, List.nodup_append] at hnd0
            exact hnd0.2.2 q hq a (by simp) e
        · simp only [List.singleton_append, DL, setState_pages, hpn, hpa, List.headD_cons, List.headD_nil]
          simp only [DL] at d2
          exact ⟨d2.1, d2.2.1, trivial, trivial, trivial, trivial, trivial⟩
      · refine ⟨(initLinks_sameData h n).trans (linkBack_sameData _ _ _), fun q hq hqa => ?_, fun t ht => by rw [setState_ne _ _ ht]; rfl,
          by rw [setState_same]; rfl, rfl, rfl⟩
        rw [setState_pages, linkBack_ne hq, initLinks_same hq]
        intro e; apply hqa; rw [List.append_nil, ha, e]; simp
  | cons b bs' =>
    rw [hbs] at o hn
    have hne : as ++ b :: bs' ≠ [] := by simp
    have hbm : b ∈ as ++ b :: bs' := by simp
    have hbn : b ≠ n := by intro e; apply hn; rw [← e]; simp
    have hbnil : b ≠ nil := o.nn b hbm
    rw [show itrOf (b :: bs') = ⟨b, .none⟩ from rfl]
    have hprev0 : ((initLinks h n).pages b).prev = as.getLastD nil := by
      rw [initLinks_same hbn]; exact dl_prev_head o.dl
    have hE : insertNostate max held h sid b n (h.states sid).back =
        if as.getLastD nil = nil then (linkFront (initLinks h n) n b, true)
        else (linkBetween (initLinks h n) n (as.getLastD nil) b, true) := by
      unfold insertNostate
      rw [canLock_of (by omega), if_neg (by decide), own_nonempty o hne, if_neg (by decide), if_neg hbnil,
        canLock_of (by rw [List.length_cons]; omega), if_neg (by decide), hprev0, canLock_of (by simp only [List.length_cons]; omega),
        if_neg (by decide : ¬ (true = false))]
    have hfront : (h.states sid).front ≠ nil := by rw [o.front]; exact o.nn _ (headD_mem hne)
    have hback : (h.states sid).back ≠ nil := by rw [o.back]; exact o.nn _ (getLastD_mem hne)
    have hbk : (as ++ n :: b :: bs').getLastD nil = (as ++ b :: bs').getLastD nil := by
      simp
    rcases List.eq_nil_or_concat as with ha | ⟨l, a, ha⟩
    · subst ha
      rw [linsert_eq (hE.trans (by rw [List.getLastD_nil, if_pos rfl]))]
      have hpn : (linkFront (initLinks h n) n b).pages n = { h.pages n with pos := n, prev := nil, next := b } := by
        unfold linkFront; rw [mod_pages_ne _ _ hbn.symm, mod_pages_same, initLinks_pages, if_pos rfl]
      have hpb : (linkFront (initLinks h n) n b).pages b = { h.pages b with prev := n } := by
        unfold linkFront; rw [mod_pages_same, mod_pages_ne _ _ hbn, initLinks_same hbn]
      have hpo : ∀ q, q ≠ n → q ≠ b → (linkFront (initLinks h n) n b).pages q = h.pages q := by
        intro q h1 h2; unfold linkFront; rw [mod_pages_ne _ _ h2, mod_pages_ne _ _ h1, initLinks_same h1]
      have hst : (linkFront (initLinks h n) n b).states = h.states := rfl
      have hsd : SameData h (linkFront (initLinks h n) n b) := by
        unfold linkFront
        refine (initLinks_sameData h n).trans (SameData.trans (mod_sameData _ n _ ?_) (mod_sameData _ b _ ?_))
        · intro x; exact ⟨rfl, rfl⟩
        · intro x; exact ⟨rfl, rfl⟩
      refine ⟨rfl, ⟨?_, ?_, ?_, by rw [hbs] at hnd; exact hnd, by rw [hbs] at hnil; exact hnil⟩, ?_⟩
      · rw [setState_same, hst]
        have := o.front
        simp only [List.nil_append, List.headD_cons] at this ⊢
        simp [insertState, this]
      · rw [setState_same, hst, hbk, ← o.back]
        simp only [insertState]
        rw [if_neg (by intro hh; rcases hh with hh | hh; exacts [hback hh, by cases hh])]
      · have d := o.dl
        simp only [List.nil_append, DL] at d ⊢
        obtain ⟨d1, d2, d3, d4⟩ := d
        simp only [setState_pages, hpn, hpb, List.headD_cons]
        refine ⟨trivial, trivial, trivial, d1, trivial, d3, dl_congr d4 (fun q hq => SameLinks.of_eq ?_)⟩
        rw [setState_pages, hpo]
        · intro e; apply hn; rw [← e]; simp [hq]
        · intro e
          rw [hbs, List.nil_append, List.nodup_cons, ← e] at hnd0
          exact hnd0.1 hq
      · refine ⟨hsd, fun q h1 h2 => ?_, fun t ht => by rw [setState_ne _ _ ht]; rfl, by rw [setState_same]; rfl, rfl, rfl⟩
        rw [setState_pages, hpo q h1 (by intro e; apply h2; rw [e]; simp)]
    · have hlast : as.getLastD nil = a := by rw [ha]; simp
      have ham : a ∈ as := by rw [ha]; simp
      have hann : a ≠ nil := o.nn a (by simp [ham])
      have han : a ≠ n := by intro e; apply hna; rw [← e]; exact ham
      have hab : a ≠ b := by
        rw [hbs, List.nodup_append] at hnd0
        exact hnd0.2.2 a ham b (by simp)
      rw [linsert_eq (hE.trans (by rw [hlast, if_neg hann]))]
      have hpn : (linkBetween (initLinks h n) n a b).pages n = { h.pages n with pos := n, prev := a, next := b } := by
        unfold linkBetween; rw [mod_pages_ne _ _ hbn.symm, mod_pages_same, mod_pages_same, mod_pages_ne _ _ han.symm, initLinks_pages, if_pos rfl]
      have hpb : (linkBetween (initLinks h n) n a b).pages b = { h.pages b with prev := n } := by
        unfold linkBetween; rw [mod_pages_same, mod_pages_ne _ _ hbn, mod_pages_ne _ _ hbn, mod_pages_ne _ _ hab.symm, initLinks_same hbn]
      have hpa : (linkBetween (initLinks h n) n a b).pages a = { h.pages a with next := n } := by
        unfold linkBetween; rw [mod_pages_ne _ _ hab, mod_pages_ne _ _ han, mod_pages_ne _ _ han, mod_pages_same, initLinks_same han]
      have hpo : ∀ q, q ≠ n → q ≠ b → q ≠ a → (linkBetween (initLinks h n) n a b).pages q = h.pages q := by
        intro q h1 h2 h3; unfold linkBetween; rw [mod_pages_ne _ _ h2, mod_pages_ne _ _ h1, mod_pages_ne _ _ h1, mod_pages_ne _ _ h3, initLinks_same h1]
      have hst : (linkBetween (initLinks h n) n a b).states = h.states := rfl
      have hsd : SameData h (linkBetween (initLinks h n) n a b) := by
        unfold linkBetween
        refine (initLinks_sameData h n).trans (SameData.trans (SameData.trans (SameData.trans (mod_sameData _ a _ ?_) (mod_sameData _ n _ ?_)) (mod_sameData _ n _ ?_)) (mod_sameData _ b _ ?_))
        · intro x; exact ⟨rfl, rfl⟩
        · intro x; exact ⟨rfl, rfl⟩
        · intro x; exact ⟨rfl, rfl⟩
        · intro x; exact ⟨rfl, rfl⟩
      have hnd1 := hnd0
      rw [hbs, ha, List.concat_eq_append, List.append_assoc, List.nodup_append] at hnd1
      refine ⟨rfl, ⟨?_, ?_, ?_, by rw [hbs] at hnd; exact hnd, by rw [hbs] at hnil; exact hnil⟩, ?_⟩
      · rw [setState_same, hst]
        have e1 : (as ++ n :: b :: bs').headD nil = as.headD nil := by
          cases as with
          | nil => simp at ham
          | cons x xs => rfl
        have e2 : (as ++ b :: bs').headD nil = as.headD nil := by
          cases as with
          | nil => simp at ham
          | cons x xs => rfl
        have hf := o.front
        rw [e2] at hf
        rw [e1, ← hf]
        simp only [insertState]
        rw [if_neg]
        intro hh
        rcases hh with hh | hh
        · exact hfront hh
        · rw [hbs, List.nodup_append] at hnd0
          exact hnd0.2.2 _ (headD_mem (d := nil) (by intro e; rw [e] at ham; cases ham)) b (by simp) (hf ▸ hh)
      · rw [setState_same, hst, hbk, ← o.back]
        simp only [insertState]
        rw [if_neg (by intro hh; rcases hh with hh | hh; exacts [hback hh, by cases hh])]
      · have d := o.dl
        rw [ha, List.concat_eq_append, List.append_assoc, dl_append] at d ⊢
        obtain ⟨d1, d2⟩ := d
        constructor
        · refine dl_congr d1 (fun q hq => SameLinks.of_eq ?_)
          rw [setState_pages, hpo]
          · intro e; apply hna; rw [ha, ← e]; simp [hq]
          · exact hnd1.2.2 q hq b (by simp)
          · exact hnd1.2.2 q hq a (by simp)
        · simp only [List.singleton_append, DL, setState_pages, hpn, hpa, hpb, List.headD_cons] at d2 ⊢
          obtain ⟨c1, c2, c3, c4, c5, c6, c7⟩ := d2
          refine ⟨c1, c2, trivial, trivial, trivial, trivial, c4, trivial, c6, dl_congr c7 (fun q hq => SameLinks.of_eq ?_)⟩
          have hn2 := (List.nodup_cons.1 hnd1.2.1)
          have hn3 := (List.nodup_cons.1 hn2.2)
          rw [setState_pages, hpo]
          · intro e; apply hn; rw [← e]; simp [hq]
          · intro e; subst e; exact hn3.1 hq
          · intro e; subst e; exact hn2.1 (by simp [hq])
      · refine ⟨hsd, fun q h1 h2 => ?_, fun t ht => by rw [setState_ne _ _ ht]; rfl, by rw [setState_same]; rfl, rfl, rfl⟩
        rw [setState_pages, hpo q h1 (by intro e; apply h2; rw [e]; simp) (by intro e; apply h2; rw [e]; simp [ham])]

/-- `next` of a page of the list. -/
theorem lnext_spec {max : Nat} {held : List Nat} {h : Heap α} {sid p : Nat} {as bs : List Nat} (hm : held.length < max)
    (o : Own h sid (as ++ p :: bs)) : lnext max held h sid ⟨p, .none⟩ = itrOf bs := by
  have hp : p ≠ nil := o.nn p (by simp)
  have hback := o.back
  unfold lnext
  rw [if_neg (by unfold lend; intro e; exact hp (congrArg LItr.page e)), if_neg (by unfold lrbegin; intro e; exact hp (congrArg LItr.page e))]
  have hd := (dl_append.1 o.dl).2
  simp only [DL] at hd
  cases bs with
  | nil =>
    rw [lrend_eq (by rw [hback]; simpa using hp)]
    have : (h.states sid).back = p := by rw [hback]; simp
    rw [this, if_pos rfl]; rfl
  | cons b bs' =>
    have hlb : (as ++ p :: b :: bs').getLastD nil ∈ b :: bs' := by
      have : (as ++ p :: b :: bs').getLastD nil = (b :: bs').getLastD nil := by
        rw [show as ++ p :: b :: bs' = (as ++ [p]) ++ b :: bs' by simp]; exact getLastD_append _ _ (by simp) _
      rw [this]; exact getLastD_mem (by simp)
    have hbn : (h.states sid).back ≠ nil := by rw [hback]; exact o.nn _ (getLastD_mem (by simp))
    have hb : b ≠ nil := o.nn b (by simp)
    rw [lrend_eq hbn, if_neg, if_neg hp, canLock_of hm, if_neg (by decide)]
    · simp only [itrOf]
      rw [hd.2.2.1]
      simp [hb]
    · intro e
      have e1 : p = (h.states sid).back := congrArg LItr.page e
      have hnd := o.nodup
      rw [List.nodup_append] at hnd
      apply (List.nodup_cons.1 hnd.2.1).1
      rw [hback] at e1
      exact e1 ▸ hlb

/-- What changes when a page is removed from a list. -/
structure DelFrame (h h' : Heap α) (sid p : Nat) (ps fs : List Nat) : Prop where
  data : SameData h h'
  pages : ∀ q, q ≠ p → q ∉ ps → q ∉ fs → h'.pages q = h.pages q
  states : ∀ t, t ≠ sid → t ≠ 0 → h'.states t = h.states t
  total : (h'.states sid).total = (h.states sid).total
  len : h'.len = h.len
  bad : h'.bad = h.bad

/-- The heap in which the neighbours of `p` are linked to each other. -/
def unlinked (max : Nat) (held : List Nat) (h : Heap α) (p : Nat) : Heap α :=
  (unlinkNext max (p :: held) (unlinkPrev max (p :: held) h p).1 p).1

theorem unlinked_spec {max : Nat} {held : List Nat} {h : Heap α} {p : Nat} {as bs : List Nat} (hm : held.length + 1 < max)
    (d : DL h nil (as ++ p :: bs) nil) (hnd : (as ++ p :: bs).Nodup) (hnn : ∀ q ∈ as ++ p :: bs, q ≠ nil) :
    DL (unlinked max held h p) nil (as ++ bs) nil ∧ SameData h (unlinked max held h p) ∧
    (∀ q, q ∉ as ++ bs → (unlinked max held h p).pages q = h.pages q) ∧ (unlinked max held h p).states = h.states ∧
    (unlinked max held h p).len = h.len ∧ (unlinked max held h p).bad = h.bad ∧
    exportedBack (unlinkPrev max (p :: held) h p).1 p = if bs = [] then as.getLastD nil else nil := by
  have hp : p ≠ nil := hnn p (by simp)
  have hpv := dl_prev_head d
  have hnx : (h.pages p).next = bs.headD nil := ((dl_append.1 d).2).2.2.1
  have hnd1 := List.nodup_append.1 hnd
  have hpb : p ∉ bs := (List.nodup_cons.1 hnd1.2.1).1
  have hpa : p ∉ as := fun hx => hnd1.2.2 p hx p (by simp) rfl
  -- the first step
  have hl : (p :: held).length < max := by rw [List.length_cons]; exact hm
  have hs1 : ∀ g : Heap α, g = (unlinkPrev max (p :: held) h p).1 → g.states = h.states ∧ g.len = h.len ∧ g.bad = h.bad ∧ SameData h g ∧
      g.pages p = h.pages p ∧ (∀ q, q ≠ as.getLastD nil → g.pages q = h.pages q) ∧
      (∀ q, (g.pages q).pos = (h.pages q).pos ∧ (g.pages q).prev = (h.pages q).prev) ∧
      (as ≠ [] → (g.pages (as.getLastD nil)).next = bs.headD nil) ∧ (as = [] → g = h) := by
    intro g hg
    rw [unlinkPrev_eq hl, hpv] at hg
    simp only at hg
    rcases List.eq_nil_or_concat as with ha | ⟨l, a, ha⟩
    · rw [ha] at hg ⊢
      simp only [List.getLastD_nil, if_true] at hg
      subst hg
      exact ⟨rfl, rfl, rfl, SameData.refl _, rfl, fun _ _ => rfl, fun _ => ⟨rfl, rfl⟩, fun hh => absurd rfl hh, fun _ => rfl⟩
    · have hlast : as.getLastD nil = a := by rw [ha]; simp
      have ham : a ∈ as := by rw [ha]; simp
      have han : a ≠ nil := hnn a (by simp [ham])
      have hapn : p ≠ a := fun e => hpa (e ▸ ham)
      rw [hlast, if_neg han] at hg
      rw [hlast]
      subst hg
      refine ⟨rfl, rfl, rfl, mod_sameData _ _ _ (fun _ => ⟨rfl, rfl⟩), mod_pages_ne _ _ hapn, fun q hq => mod_pages_ne _ _ hq, ?_, ?_, ?_⟩
      · intro q; rw [mod_pages]; split
        · rename_i e; subst e; exact ⟨rfl, rfl⟩
        · exact ⟨rfl, rfl⟩
      · intro _; rw [mod_pages_same]; exact hnx
      · intro e; rw [e] at ham; cases ham
  unfold unlinked
  obtain ⟨g1, g2, g3, g4, g5, g6, g7, g8, g9⟩ := hs1 _ rfl
  generalize (unlinkPrev max (p :: held) h p).1 = g at *
  have hex : exportedBack g p = if bs = [] then as.getLastD nil else nil := by
    unfold exportedBack
    rw [g5, hnx, hpv]
    cases bs with
    | nil => simp
    | cons b bs' => rw [if_neg (show ¬ (b :: bs').headD nil = nil from hnn b (by simp)), if_neg (by simp)]
  have hs2 : ∀ k : Heap α, k = (unlinkNext max (p :: held) g p).1 → k.states = g.states ∧ k.len = g.len ∧ k.bad = g.bad ∧ SameData g k ∧
      (∀ q, q ≠ bs.headD nil → k.pages q = g.pages q) ∧
      (∀ q, (k.pages q).pos = (g.pages q).pos ∧ (k.pages q).next = (g.pages q).next) ∧
      (bs ≠ [] → (k.pages (bs.headD nil)).prev = as.getLastD nil) ∧ (bs = [] → k = g) := by
    intro k hk
    rw [unlinkNext_eq hl, g5, hnx, hpv] at hk
    simp only at hk
    cases bs with
    | nil =>
      simp only [List.headD_nil, if_true] at hk
      subst hk
      exact ⟨rfl, rfl, rfl, SameData.refl _, fun _ _ => rfl, fun _ => ⟨rfl, rfl⟩, fun hh => absurd rfl hh, fun _ => rfl⟩
    | cons b bs' =>
      rw [if_neg (show ¬ (b :: bs').headD nil = nil from hnn b (by simp))] at hk
      simp only [List.headD_cons] at hk ⊢
      subst hk
      refine ⟨rfl, rfl, rfl, mod_sameData _ _ _ (fun _ => ⟨rfl, rfl⟩), fun q hq => mod_pages_ne _ _ hq, ?_, ?_, by intro hh; simp at hh⟩
      · intro q; rw [mod_pages]; split
        · rename_i e; subst e; exact ⟨rfl, rfl⟩
        · exact ⟨rfl, rfl⟩
      · intro _; rw [mod_pages_same]
  obtain ⟨k1, k2, k3, k4, k5, k6, k7, k8⟩ := hs2 _ rfl
  generalize (unlinkNext max (p :: held) g p).1 = k at *
  refine ⟨?_, g4.trans k4, ?_, k1.trans g1, k2.trans g2, k3.trans g3, hex⟩
  · rw [dl_append] at d ⊢
    obtain ⟨d1, d2, d3, d4, d5⟩ := d
    constructor
    · rcases List.eq_nil_or_concat as with ha | ⟨l, a, ha⟩
      · rw [ha]; trivial
      · have hlast : as.getLastD nil = a := by rw [ha]; simp
        have hne : as ≠ [] := by rw [ha]; simp
        rw [hlast] at g6 g8
        rw [ha, List.concat_eq_append] at d1 hnd1 ⊢
        have hla := (List.nodup_append.1 hnd1.1).2.2
        have hbh : ∀ q ∈ l ++ [a], q ≠ bs.headD nil := by
          intro q hq
          cases bs with
          | nil => exact hnn q (by rw [ha, List.concat_eq_append]; exact List.mem_append.2 (Or.inl hq))
          | cons b bs' => exact hnd1.2.2 q hq b (by simp)
        rw [dl_append] at d1 ⊢
        refine ⟨dl_congr d1.1 (fun q hq => SameLinks.of_eq ?_), ?_⟩
        · rw [k5 q (hbh q (by simp [hq])), g6 q (hla q hq a (by simp))]
        · simp only [DL, List.headD_nil] at d1 ⊢
          rw [k5 a (hbh a (by simp)), (g7 a).1, (g7 a).2]
          exact ⟨d1.2.1, d1.2.2.1, g8 hne, trivial⟩
    · cases bs with
      | nil => trivial
      | cons b bs' =>
        simp only [DL, List.headD_cons] at d5 k5 k7 ⊢
        have hnb := List.nodup_cons.1 (List.nodup_cons.1 hnd1.2.1).2
        have hal : ∀ q ∈ b :: bs', q ≠ as.getLastD nil := by
          intro q hq e
          rcases List.eq_nil_or_concat as with ha | ⟨l, a, ha⟩
          · rw [ha] at e; exact hnn q (by simp at hq ⊢; tauto) e
          · rw [show as.getLastD nil = a by rw [ha]; simp] at e
            exact hnd1.2.2 a (by rw [ha]; simp) q (by simp at hq ⊢; tauto) e.symm
        refine ⟨by rw [(k6 b).1, (g7 b).1]; exact d5.1, k7 (by simp), by rw [(k6 b).2, g6 b (hal b (by simp))]; exact d5.2.2.1,
          dl_congr d5.2.2.2 (fun q hq => SameLinks.of_eq ?_)⟩
        rw [k5 q (by intro e; subst e; exact hnb.1 hq), g6 q (hal q (by simp [hq]))]
  · intro q hq
    simp only [List.mem_append, not_or] at hq
    have e1 : k.pages q = g.pages q := by
      by_cases hb : bs = []
      · rw [k8 hb]
      · exact k5 q (fun e => hq.2 (e ▸ headD_mem hb))
    have e2 : g.pages q = h.pages q := by
      by_cases ha : as = []
      · rw [g9 ha]
      · exact g6 q (fun e => hq.1 (e ▸ getLastD_mem ha))
    rw [e1, e2]

/-- `erase` takes the page out of the list and puts it into the list of free pages. -/
theorem lerase_spec {max : Nat} {held : List Nat} {h : Heap α} {sid p : Nat} {as bs fs : List Nat} (hm : held.length + 3 < max)
    (hs : sid ≠ 0) (o : Own h sid (as ++ p :: bs)) (hf : FreeOk h fs) (hd : ∀ q ∈ as ++ p :: bs, q ∉ fs) :
    (lerase max held h sid p).2 = itrOf bs ∧ Own (lerase max held h sid p).1 sid (as ++ bs) ∧
    DelFrame h (lerase max held h sid p).1 sid p (as ++ bs) fs ∧
    ((lerase max held h sid p).1.states 0).front ≠ nil ∧ ((lerase max held h sid p).1.states 0).back = p ∧
    (FreeList h fs → FreeList (lerase max held h sid p).1 (p :: fs)) := by
  have hp : p ≠ nil := o.nn p (by simp)
  have hl := lnext_spec (max := max) (held := held) (by omega) o
  obtain ⟨u1, u2, u3, u4, u5, u6, u7⟩ := unlinked_spec (max := max) (held := held) (by omega) o.dl o.nodup o.nn
  have he : lerase max held h sid p = ((pushFree max held (unlinked max held h p) p).setState sid
      (eraseState ((pushFree max held (unlinked max held h p) p).states sid) p (itrOf bs).page (if bs = [] then as.getLastD nil else nil)), itrOf bs) := by
    unfold lerase
    rw [hl, eraseNostate_eq (by omega) hp, u7]
    rfl
  rw [he]
  dsimp only
  generalize unlinked max held h p = u at *
  have hnd1 := List.nodup_append.1 o.nodup
  have hpb : p ∉ bs := (List.nodup_cons.1 hnd1.2.1).1
  have hpa : p ∉ as := fun hx => hnd1.2.2 p hx p (by simp) rfl
  have hpf : p ∉ fs := hd p (by simp)
  have hab : ∀ q ∈ as ++ bs, q ∈ as ++ p :: bs ∧ q ≠ p := by
    intro q hq
    rcases List.mem_append.1 hq with hq | hq
    · exact ⟨by simp [hq], fun e => hpa (e ▸ hq)⟩
    · exact ⟨by simp [hq], fun e => hpb (e ▸ hq)⟩
  have hfu : FreeOk u fs := by
    apply freeOk_congr hf (by rw [u4])
    intro q hq
    rw [u3 q (fun hx => hd q (hab q hx).1 hq)]
    exact ⟨rfl, rfl, rfl⟩
  have fr : FreeFrame u (pushFree max held u p) p fs := pushFree_frame (by omega) (fun he => Or.inr (back_mem hfu he))
  have hst := pushFree_eq (max := max) (held := held) u p (by omega)
  have hs0 : ((pushFree max held u p).states 0) = ⟨if (u.states 0).front = nil then p else (u.states 0).front, p, (u.states 0).total⟩ := by
    rw [hst, setState_same]
  refine ⟨rfl, ⟨?_, ?_, ?_, ?_, ?_⟩, ⟨u2.trans fr.data, ?_, ?_, ?_, by rw [setState_len, fr.len, u5], by rw [setState_bad, fr.bad, u6]⟩, ?_, ?_, ?_⟩
  · rw [setState_same, fr.states sid hs, u4]
    simp only [eraseState]
    have hf0 := o.front
    cases as with
    | nil =>
      simp only [List.nil_append, List.headD_cons] at hf0
      rw [hf0, if_pos rfl]
      cases bs <;> rfl
    | cons a as' =>
      simp only [List.cons_append, List.headD_cons] at hf0 ⊢
      rw [hf0, if_neg (fun e => hpa (by rw [e]; simp))]
  · rw [setState_same, fr.states sid hs, u4]
    simp only [eraseState]
    have hb0 := o.back
    cases bs with
    | nil =>
      rw [getLastD_append nil nil (by simp) as] at hb0
      simp only [List.getLastD_cons, List.getLastD_nil] at hb0
      rw [hb0, if_pos rfl, if_pos rfl, List.append_nil]
    | cons b bs' =>
      rw [show as ++ p :: b :: bs' = (as ++ [p]) ++ b :: bs' by simp, getLastD_append nil nil (by simp) (as ++ [p])] at hb0
      rw [hb0, getLastD_append nil nil (by simp) as, if_neg]
      intro e
      exact hpb (e ▸ getLastD_mem (by simp))
  · apply dl_congr u1
    intro q hq
    obtain ⟨h1, h2⟩ := hab q hq
    exact SameLinks.of_eq (by rw [setState_pages, fr.pages q h2 (hd q h1)])
  · have : (as ++ bs).Sublist (as ++ p :: bs) := List.Sublist.append (List.Sublist.refl _) (List.sublist_cons_self _ _)
    exact this.nodup o.nodup
  · intro q hq; exact o.nn q (hab q hq).1
  · intro q h1 h2 h3
    rw [setState_pages, fr.pages q h1 h3, u3 q h2]
  · intro t h1 h2
    rw [setState_ne _ _ h1, fr.states t h2, u4]
  · rw [setState_same, fr.states sid hs, u4]; rfl
  · rw [setState_ne _ _ hs.symm, hs0]
    simp only
    split
    · exact hp
    · assumption
  · rw [setState_ne _ _ hs.symm, hs0]
  · intro hfl
    have hflu : FreeList u fs := by
      cases hfl with
      | empty e => exact .empty (by rw [u4]; exact e)
      | chain c =>
        obtain ⟨r, e, _⟩ := chain_cons c
        have hm : (h.states 0).back ∈ fs := by rw [e]; simp
        have hq : ∀ q ∈ fs, u.pages q = h.pages q := fun q hq => u3 q (fun hx => hd q (hab q hx).1 hq)
        refine .chain ⟨by rw [u4]; exact c.front, c.ne, ?_, ?_, c.nodup⟩
        · rw [u4]; exact bchain_congr c.links (fun q h => by rw [hq q h]; exact ⟨rfl, rfl⟩)
        · rw [u4, hq _ hm]; exact c.next
    have := pushFree_list (max := max) (held := held) (by omega) hflu hp hpf
    cases this with
    | chain c =>
      refine .chain ⟨by rw [setState_ne _ _ hs.symm]; exact c.front, c.ne, ?_, ?_, c.nodup⟩
      · rw [setState_ne _ _ hs.symm]; exact bchain_congr c.links (fun q h => ⟨rfl, rfl⟩)
      · rw [setState_ne _ _ hs.symm]; exact c.next

end Abc.Vmem.Pages
