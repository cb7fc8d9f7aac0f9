import Verif.Vmem.ContProps

/-! # Iterators that stay valid while items are appended -/

namespace Abc.Vmem.Pages

variable {α : Type}

theorem dl_unique {h : Heap α} : ∀ {ps ps' : List Nat} {a a' : Nat}, DL h a ps nil → DL h a' ps' nil → (∀ p ∈ ps, p ≠ nil) → (∀ p ∈ ps', p ≠ nil) →
    ps.headD nil = ps'.headD nil → ps = ps' := by
  intro ps
  induction ps with
  | nil =>
    intro ps' a a' _ _ _ n' e
    cases ps' with
    | nil => rfl
    | cons q qs => exact absurd e.symm (n' q (by simp))
  | cons p ps ih =>
    intro ps' a a' d d' n n' e
    cases ps' with
    | nil => exact absurd e (n p (by simp))
    | cons q qs =>
      have e : p = q := e
      subst e
      rw [ih d.2.2.2 d'.2.2.2 (fun x hx => n x (by simp [hx])) (fun x hx => n' x (by simp [hx])) (d.2.2.1.symm.trans d'.2.2.1)]

/-- The pages of a container are determined by its state and the links. -/
theorem own_unique {h : Heap α} {sid : Nat} {ps ps' : List Nat} (o : Own h sid ps) (o' : Own h sid ps') : ps = ps' :=
  dl_unique o.dl o'.dl o.nn o'.nn (o.front.symm.trans o'.front)

/-- An iterator to an item stays if its page and the pages before keep their items, and something is appended to its page or behind. -/
theorem at_keep {h h' : Heap α} {as bs bs' : List Nat} {p k : Nat} {x : α} {z : List α} (hk : k < (h.pages p).count)
    (has : contents h' as = contents h as) (hp : pageItems (h'.pages p) = pageItems (h.pages p) ++ z)
    (hb : z ++ contents h' bs' = contents h bs ++ [x]) :
    At h' (as ++ p :: bs') ⟨p, k, .none⟩ (contents h as ++ (pageItems (h.pages p)).take k)
      (((pageItems (h.pages p)).drop k ++ contents h bs) ++ [x]) := by
  have hl := pageItems_length (h.pages p)
  have hl' := pageItems_length (h'.pages p)
  rw [hp, List.length_append] at hl'
  have a := At.item (h := h') (ps := as ++ p :: bs') as p bs' k rfl (by omega)
  rw [has, hp, List.take_append_of_le_length (by omega), List.drop_append_of_le_length (by omega), List.append_assoc _ z, hb, ← List.append_assoc] at a
  exact a

/-- `push_back` on a container that does not balance at its end, `container` 299-301: iterators to items stay. -/
theorem push_keeps {c : Cfg} {held : List Nat} {h : Heap α} {sid : Nat} {ps ps' fs : List Nat} {x : α} {r : Res α} (w : World c.cap h sid ps fs)
    (hm : held.length + 5 < c.max) (hlim : c.limit ≤ nil) (hlog : c.log = true) (hend : c.insEnd = false)
    (hr : insert2 c held h sid (cend (h.states sid)) x = some r) (hne : r.itr ≠ some (cend (r.heap.states sid))) (o' : Own r.heap sid ps')
    {i : Itr} {u v : List α} {y : α} (a : At h ps i u (y :: v)) : At r.heap ps' i u (y :: v ++ [x]) := by
  have own := w.cont.own
  generalize hv : y :: v = v0 at a
  cases a with
  | fin => cases hv
  | item as q bs k e hk =>
    have hps : ps ≠ [] := by rw [e]; simp
    obtain ⟨l, p, hl⟩ : ∃ l p, ps = l ++ [p] := by
      rcases List.eq_nil_or_concat ps with e | ⟨l, p, e⟩
      · exact absurd e hps
      · exact ⟨l, p, by simpa using e⟩
    have hback : (h.states sid).back = p := by rw [own.back, hl]; simp
    have hpn : p ≠ nil := own.nn p (by rw [hl]; simp)
    have hnext : (h.pages p).next = nil := by
      have := own.dl
      rw [hl, dl_append] at this
      exact this.2.2.2.1
    have hcnt := w.cont.cnt p (by rw [hl]; simp)
    have hf : (h.states sid).front ≠ nil := by rw [own.front]; exact own.nn _ (headD_mem hps)
    unfold insert2 at hr
    rw [if_neg (by simp [cend, hback, hpn]), if_neg (by simp [cend])] at hr
    unfold cinsertNostate at hr
    rw [if_neg (by simpa [cend, hback] using hpn), canLock_of (by omega), if_neg (by decide)] at hr
    simp only [cend, hback] at hr
    by_cases hfull : (h.pages p).count = c.cap
    · rw [if_pos hfull] at hr
      unfold insertWithOverflow at hr
      have hafter : (p = nil ∧ ps = []) ∨ (ps ≠ [] ∧ p = ps.getLastD nil) := Or.inr ⟨hps, by rw [hl]; simp⟩
      rcases insertPageAfter_spec (held := p :: held) w (by simp; omega) hlim hlog ps [] (by simp) p hafter with ⟨h1, _⟩ | ⟨h1, n, fs', e1, e2, e3, e4, e5, e6, e7, e8⟩
      · rw [h1] at hr
        simp only [Res.fail, Option.some.injEq] at hr
        rw [← hr] at hne
        exact absurd (by simp [cend, hback]) hne
      · have hsb : shouldBalanceInsert c h ⟨p, nilItem, .fin⟩ = false := by
          unfold shouldBalanceInsert
          rw [if_neg (by simp [nilItem]), if_pos ⟨hnext, rfl, rfl⟩, hend]
        rw [e1, hsb] at hr
        simp only [Bool.false_eq_true, if_false] at hr
        have hi : insertInto c h1 ⟨p, nilItem, .fin⟩ n x = insertWithCapacity c h1 n 0 x := by
          unfold insertInto
          rw [if_neg (by simp), if_neg (by simp), e4]
        rw [hi] at hr
        obtain ⟨g1, g2, g3, g4, g5, g6, g7, g8, g9⟩ := iwc_spec (c := c) (h := h1) (p := n) (item := 0) (k := 0) (x := x) (by simp [nilItem]) (Nat.zero_le _) (by rw [e4]; omega)
        have hn0 : pageItems (h1.pages n) = [] := by rw [← List.length_eq_zero_iff, pageItems_length, e4]
        rw [hn0] at g9
        simp only [List.take_nil, List.drop_nil, List.nil_append] at g9
        generalize hR : insertWithCapacity c h1 n 0 x = R at *
        rw [g1] at hr
        simp only [Option.some.injEq] at hr
        have hpages : ∀ q, q ≠ n → pageItems (R.heap.pages q) = pageItems (h.pages q) := by
          intro q hq
          rw [g7 q hq]
          exact pageItems_congr (e7 q hq).1 (fun j _ => by rw [(e7 q hq).2])
        have hf1 : (h1.states sid).front ≠ nil := by rw [e2.front]; exact e2.nn _ (headD_mem (by simp))
        have hb1 : (h1.states sid).back = n := by rw [e2.back]; simp
        have hown : Own r.heap sid (ps ++ [n]) := by
          rw [← hr]
          refine own_of_state e2 ?_ ?_ (fun q _ => g6 q)
          · simp only [setState_same, cinsertState, g3]; rw [if_neg hf1]
          · simp only [setState_same, cinsertState, g3]
            rw [hb1, if_neg e6]
            split <;> rfl
        rw [own_unique o' hown]
        have hrp : r.heap.pages = R.heap.pages := by rw [← hr]; rfl
        have hnot : ∀ q ∈ ps, q ≠ n := fun q hq he => e5 (he ▸ hq)
        have hc : ∀ xs : List Nat, (∀ q ∈ xs, q ∈ ps) → contents r.heap xs = contents h xs := by
          intro xs hx
          exact contents_congr (fun q hq => by rw [hrp]; exact hpages q (hnot q (hx q hq)))
        rw [e, List.append_assoc, List.cons_append]
        refine at_keep (z := []) hk (hc as (fun q hq => by rw [e]; simp [hq])) (by rw [hrp, hpages q (hnot q (by rw [e]; simp))]; simp) ?_
        rw [List.nil_append, contents_append, hc bs (fun q hq => by rw [e]; simp [hq]), contents_cons, hrp, g9]
        simp [contents]
    · rw [if_neg hfull] at hr
      obtain ⟨g1, g2, g3, g4, g5, g6, g7, g8, g9⟩ := iwc_spec (c := c) (h := h) (p := p) (item := nilItem) (k := (h.pages p).count) (x := x) (by simp) (Nat.le_refl _) (by omega)
      rw [List.take_of_length_le (Nat.le_of_eq (pageItems_length _)), List.drop_of_length_le (Nat.le_of_eq (pageItems_length _))] at g9
      generalize hR : insertWithCapacity c h p nilItem x = R at *
      rw [g1] at hr
      simp only [Option.some.injEq] at hr
      have hown : Own r.heap sid ps := by
        rw [← hr]
        refine own_of_state own ?_ ?_ (fun q _ => g6 q)
        · simp only [setState_same, cinsertState, g3]; rw [if_neg hf]
        · simp only [setState_same, cinsertState, g3, g2]
          rw [hback, if_neg hpn, if_neg (by simp [Lead.default])]
      rw [own_unique o' hown]
      have hrp : r.heap.pages = R.heap.pages := by rw [← hr]; rfl
      have hnd := own.nodup
      rw [hl] at hnd
      have hpl : p ∉ l := by
        have := List.nodup_append.1 hnd
        intro hx
        exact this.2.2 p hx p (by simp) rfl
      have hc : ∀ xs : List Nat, (∀ q ∈ xs, q ∈ l) → contents r.heap xs = contents h xs := by
        intro xs hx
        exact contents_congr (fun q hq => by rw [hrp, g7 q (fun he => hpl (he ▸ hx q hq))])
      rcases List.eq_nil_or_concat bs with eb | ⟨m, z, eb⟩
      · have hh : l = as ∧ p = q := by
          rw [hl, eb] at e
          have := List.append_inj' e rfl
          exact ⟨this.1, by simpa using this.2⟩
        rw [e, eb]
        obtain ⟨h1, h2⟩ := hh
        subst h1; subst h2
        exact at_keep (z := [x]) hk (hc l (fun q hq => hq)) (by rw [hrp, g9]) (by simp [contents])
      · rw [List.concat_eq_append] at eb
        have hh : l = as ++ q :: m ∧ p = z := by
          rw [hl, eb, ← List.cons_append, ← List.append_assoc] at e
          have := List.append_inj' e rfl
          exact ⟨this.1, by simpa using this.2⟩
        obtain ⟨h1, h2⟩ := hh
        subst h2
        rw [e]
        refine at_keep (z := []) hk (hc as (fun q hq => by rw [h1]; simp [hq])) ?_ ?_
        · rw [hrp, g7 q (fun he => hpl (by rw [h1]; simp [he]))]; simp
        · rw [eb, List.nil_append, contents_append, contents_append, hc m (fun q hq => by rw [h1]; simp [hq]), contents_cons, contents_cons, hrp, g9]
          simp [contents]

/-- The container of a call. -/
def COp.num : COp α → Nat
  | .insert k _ _ _ => k
  | .erase k _ _ => k
  | .push k _ _ => k
  | .pop k _ => k

/-- What a step of another container leaves. -/
theorem own_other {limit k j : Nat} {cfg : Nat → Cfg} {s : CSt α} {pss : Nat → List Nat} {fs fs' ps' : List Nat} {h' : Heap α} (v : CInv cfg s pss fs)
    (st : Step limit s.heap h' (j + 1) (pss j) ps' fs fs') (hk : j ≠ k) :
    Own h' (k + 1) (pss k) ∧ ∀ i u w, At s.heap (pss k) i u w → At h' (pss k) i u w := by
  have hp : ∀ q ∈ pss k, h'.pages q = s.heap.pages q := fun q hq =>
    st.pages q (v.sep k j (fun e => hk e.symm) q hq) (v.disj k q hq) (v.range k q hq).2
  refine ⟨own_congr (v.cont k).own (st.states (k + 1) (by omega) (by omega)) (fun q hq => SameLinks.of_eq (hp q hq)), ?_⟩
  intro i u w a
  have hc : ∀ xs : List Nat, (∀ q ∈ xs, q ∈ pss k) → contents h' xs = contents s.heap xs := fun xs hx =>
    contents_congr (fun q hq => by rw [hp q (hx q hq)])
  cases a with
  | item as p bs n e hn =>
    rw [← hc as (fun q hq => by rw [e]; simp [hq]), ← hc bs (fun q hq => by rw [e]; simp [hq]), ← hp p (by rw [e]; simp)]
    exact At.item as p bs n e (by rw [hp p (by rw [e]; simp)]; exact hn)
  | fin =>
    rw [← hc (pss k) (fun q hq => hq)]
    exact At.fin

theorem insertAt_other {cfg : Nat → Cfg} {max limit j k n : Nat} {held : List Nat} {s : CSt α} {pss : Nat → List Nat} {fs : List Nat} {i : Itr} {x : α}
    (ok : CfgOk cfg max limit) (v : CInv cfg s pss fs) (hm : held.length + 5 < max)
    {u w : List α} (a : At s.heap (pss j) i u w) (hpol : i.edge = .fin ∨ ListLike (cfg j)) (hk : j ≠ k) :
    (s.insertAt (cfg j) j held i n x).lists k = s.lists k ∧
    Own (s.insertAt (cfg j) j held i n x).heap (k + 1) (pss k) ∧
      ∀ i' u w, At s.heap (pss k) i' u w → At (s.insertAt (cfg j) j held i n x).heap (pss k) i' u w := by
  obtain ⟨r, hr, h⟩ := insert2_spec (x := x) (v.world j) a (by rw [ok.hmax]; exact hm) (by rw [ok.hlimit]; exact ok.lim) (ok.log j) (ok.cap j) (ok.cap2 j) hpol
  unfold CSt.insertAt
  rw [hr]
  simp only
  constructor
  · split
    · rfl
    · unfold setList; rw [if_neg (fun e => hk e.symm)]
  rcases h with ⟨h1, h2, h3⟩ | ⟨j', ps', fs', h1, h2, h3, h4, h5⟩
  · rw [h1]; exact ⟨(v.cont k).own, fun _ _ _ a => a⟩
  · exact own_other v h3 hk

theorem eraseAt_other {cfg : Nat → Cfg} {max limit j k n : Nat} {held : List Nat} {s : CSt α} {pss : Nat → List Nat} {fs : List Nat} {i : Itr}
    (ok : CfgOk cfg max limit) (v : CInv cfg s pss fs) (hm : held.length + 5 < max)
    {u w : List α} (a : At s.heap (pss j) i u w) (hk : j ≠ k) :
    (s.eraseAt (cfg j) j held i n).lists k = s.lists k ∧
    Own (s.eraseAt (cfg j) j held i n).heap (k + 1) (pss k) ∧
      ∀ i' u w, At s.heap (pss k) i' u w → At (s.eraseAt (cfg j) j held i n).heap (pss k) i' u w := by
  unfold CSt.eraseAt
  cases w with
  | nil =>
    have : erase2 (cfg j) held s.heap (j + 1) i = none := by
      have := at_unique (v.cont j) a (at_end (v.cont j)) (by rw [a.contents]; simp)
      rw [this]
      unfold erase2; simp [canDeref, cend]
    rw [this]
    exact ⟨rfl, (v.cont k).own, fun _ _ _ a => a⟩
  | cons y w =>
    obtain ⟨r, ps', fs', j', hr, er⟩ := erase2_spec (held := held) limit (v.world j) (by rw [ok.hmax]; exact hm) (ok.cap2 j) a
    rw [hr]
    refine ⟨?_, own_other v er.step hk⟩
    simp only [setList]; rw [if_neg (fun e => hk e.symm)]

/-- A call on another container leaves a container, its text and its iterators alone. -/
theorem step_other {cfg : Nat → Cfg} {max limit k : Nat} {s : CSt α} {pss : Nat → List Nat} {fs : List Nat} (ok : CfgOk cfg max limit)
    (v : CInv cfg s pss fs) {o : COp α} (ho : o.Ok cfg max) (hk : o.num ≠ k) :
    (s.step cfg o).lists k = s.lists k ∧ Own (s.step cfg o).heap (k + 1) (pss k) ∧
      ∀ i' u w, At s.heap (pss k) i' u w → At (s.step cfg o).heap (pss k) i' u w := by
  have h0 : 5 < max := by have := ho.1; omega
  cases o with
  | insert j held n x =>
    have hm : held.length + 5 < max := ho.1
    refine insertAt_other ok v hm ?_ (Or.inr (ho.2 j held n x rfl)) hk (u := (s.lists j).take n) (w := (s.lists j).drop n)
    rw [ok.hmax j]
    exact at_lists ok v (by omega) j n
  | erase j held n =>
    have hm : held.length + 5 < max := ho.1
    refine eraseAt_other ok v hm ?_ hk (u := (s.lists j).take n) (w := (s.lists j).drop n)
    rw [ok.hmax j]
    exact at_lists ok v (by omega) j n
  | push j held x =>
    exact insertAt_other ok v ho.1 (at_end (v.cont j)) (Or.inl rfl) hk
  | pop j held =>
    have hm : held.length + 5 < max := ho.1
    rcases List.eq_nil_or_concat (s.lists j) with e | ⟨u, y, e⟩
    · have : (s.step cfg (.pop j held)) = s := by
        show s.eraseAt _ _ _ _ _ = s
        unfold CSt.eraseAt
        rw [crend_nil (v.cont j) ((v.items j).trans e)]
        simp [erase2, canDeref, crbegin]
      rw [this]
      exact ⟨rfl, (v.cont k).own, fun _ _ _ a => a⟩
    · rw [List.concat_eq_append] at e
      have a := at_rend (held := held) (max := max) (v.cont j) (by omega) ((v.items j).trans e)
      rw [← ok.hmax j] at a
      exact eraseAt_other ok v hm a hk

theorem insertAt_len {cfg : Nat → Cfg} {max limit j n : Nat} {held : List Nat} {s : CSt α} {pss : Nat → List Nat} {fs : List Nat} {i : Itr} {x : α}
    (ok : CfgOk cfg max limit) (v : CInv cfg s pss fs) (hm : held.length + 5 < max)
    {u w : List α} (a : At s.heap (pss j) i u w) (hpol : i.edge = .fin ∨ ListLike (cfg j)) : s.heap.len ≤ (s.insertAt (cfg j) j held i n x).heap.len := by
  obtain ⟨r, hr, h⟩ := insert2_spec (x := x) (v.world j) a (by rw [ok.hmax]; exact hm) (by rw [ok.hlimit]; exact ok.lim) (ok.log j) (ok.cap j) (ok.cap2 j) hpol
  unfold CSt.insertAt
  rw [hr]
  simp only
  rcases h with ⟨h1, h2, h3⟩ | ⟨j', ps', fs', h1, h2, h3, h4, h5⟩
  · rw [h1]; exact Nat.le_refl _
  · exact h3.len

theorem eraseAt_len {cfg : Nat → Cfg} {max limit j n : Nat} {held : List Nat} {s : CSt α} {pss : Nat → List Nat} {fs : List Nat} {i : Itr}
    (ok : CfgOk cfg max limit) (v : CInv cfg s pss fs) (hm : held.length + 5 < max)
    {u w : List α} (a : At s.heap (pss j) i u w) : s.heap.len ≤ (s.eraseAt (cfg j) j held i n).heap.len := by
  unfold CSt.eraseAt
  cases w with
  | nil =>
    have : erase2 (cfg j) held s.heap (j + 1) i = none := by
      have := at_unique (v.cont j) a (at_end (v.cont j)) (by rw [a.contents]; simp)
      rw [this]
      unfold erase2; simp [canDeref, cend]
    rw [this]; exact Nat.le_refl _
  | cons y w =>
    obtain ⟨r, ps', fs', j', hr, er⟩ := erase2_spec (held := held) limit (v.world j) (by rw [ok.hmax]; exact hm) (ok.cap2 j) a
    rw [hr]
    exact er.step.len

/-- The file never shrinks. -/
theorem step_len {cfg : Nat → Cfg} {max limit : Nat} {s : CSt α} {pss : Nat → List Nat} {fs : List Nat} (ok : CfgOk cfg max limit)
    (v : CInv cfg s pss fs) {o : COp α} (ho : o.Ok cfg max) : s.heap.len ≤ (s.step cfg o).heap.len := by
  cases o with
  | insert j held n x =>
    have hm : held.length + 5 < max := ho.1
    refine insertAt_len ok v hm ?_ (Or.inr (ho.2 j held n x rfl)) (u := (s.lists j).take n) (w := (s.lists j).drop n)
    rw [ok.hmax j]
    exact at_lists ok v (by omega) j n
  | erase j held n =>
    have hm : held.length + 5 < max := ho.1
    refine eraseAt_len ok v hm ?_ (u := (s.lists j).take n) (w := (s.lists j).drop n)
    rw [ok.hmax j]
    exact at_lists ok v (by omega) j n
  | push j held x => exact insertAt_len ok v ho.1 (at_end (v.cont j)) (Or.inl rfl)
  | pop j held =>
    have hm : held.length + 5 < max := ho.1
    rcases List.eq_nil_or_concat (s.lists j) with e | ⟨u, y, e⟩
    · have : (s.step cfg (.pop j held)) = s := by
        show s.eraseAt _ _ _ _ _ = s
        unfold CSt.eraseAt
        rw [crend_nil (v.cont j) ((v.items j).trans e)]
        simp [erase2, canDeref, crbegin]
      rw [this]; exact Nat.le_refl _
    · rw [List.concat_eq_append] at e
      have a := at_rend (held := held) (max := max) (v.cont j) (by omega) ((v.items j).trans e)
      rw [← ok.hmax j] at a
      exact eraseAt_len ok v hm a

end Abc.Vmem.Pages
