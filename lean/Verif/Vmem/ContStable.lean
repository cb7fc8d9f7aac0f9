import Verif.Vmem.ContRange

/-! # Whether an iterator stays good while other items come and go

The items of a container lie on its pages without gaps, so an iterator (page and place on the page, `src/i/vmem_iterator.i.h`) is a
statement about where an item lies and not about the item. -/

namespace Abc.Vmem.Pages

variable {α : Type}

/-! ## Pages are only added behind, items only behind the last one -/

/-- From `h` to `h'` items of the pages `ps` are added only behind the last one. -/
def Ext (h h' : Heap α) (ps : List Nat) : Prop :=
  ∀ as p bs, ps = as ++ p :: bs → contents h' as = contents h as ∧ pageItems (h.pages p) <+: pageItems (h'.pages p)

theorem ext_of_eq {h h' : Heap α} {ps : List Nat} (e : ∀ q ∈ ps, pageItems (h'.pages q) = pageItems (h.pages q)) : Ext h h' ps := by
  rintro as p bs rfl
  refine ⟨contents_congr (fun q hq => e q (by simp [hq])), ?_⟩
  rw [e p (by simp)]
  exact List.prefix_rfl

theorem own_unique_aux {h : Heap α} : ∀ {xs ys : List Nat} {a b : Nat}, DL h a xs nil → DL h b ys nil → xs.headD nil = ys.headD nil →
    (∀ p ∈ xs, p ≠ nil) → (∀ p ∈ ys, p ≠ nil) → xs = ys := by
  intro xs
  induction xs with
  | nil =>
    intro ys a b _ _ e _ hy
    cases ys with
    | nil => rfl
    | cons y ys => exact absurd e.symm (hy y (by simp))
  | cons x xs ih =>
    intro ys a b d1 d2 e hx hy
    cases ys with
    | nil => exact absurd e (hx x (by simp))
    | cons y ys =>
      have e' : x = y := e
      subst e'
      rw [ih d1.2.2.2 d2.2.2.2 (d1.2.2.1.symm.trans d2.2.2.1) (fun p hp => hx p (by simp [hp])) (fun p hp => hy p (by simp [hp]))]

/-- The pages of a container are known from its state and the links. -/
theorem own_unique {h : Heap α} {sid : Nat} {xs ys : List Nat} (o1 : Own h sid xs) (o2 : Own h sid ys) : xs = ys :=
  own_unique_aux o1.dl o2.dl (o1.front.symm.trans o2.front) o1.nn o2.nn

/-- An iterator to an item, taken apart. -/
theorem at_parts {h : Heap α} {ps : List Nat} {i : Itr} {u v : List α} (a : At h ps i u v) (hv : v ≠ []) :
    ∃ as p bs k, i = ⟨p, k, .none⟩ ∧ ps = as ++ p :: bs ∧ k < (h.pages p).count ∧ u.length = (contents h as).length + k := by
  cases a with
  | fin => exact absurd rfl hv
  | item as p bs k e hk => exact ⟨as, p, bs, k, rfl, e, hk, by simp; omega⟩

theorem ext_itr {cap max : Nat} {held held' : List Nat} {h h' : Heap α} {sid n : Nat} {ps t : List Nat} (c : Cont cap h sid ps) (c' : Cont cap h' sid (ps ++ t))
    (e : Ext h h' ps) (hcap : cap < nilItem) (hm : held.length < max) (hm' : held'.length < max) (hn : n < (contents h ps).length) :
    itrAt max held' h' sid n = itrAt max held h sid n := by
  have a := at_itr c hcap hm n
  obtain ⟨as, p, bs, k, e1, e2, hk, hl⟩ := at_parts a (by simp; omega)
  rw [List.length_take, Nat.min_eq_left (by omega)] at hl
  obtain ⟨x1, x2⟩ := e as p bs e2
  have hk' : k < (h'.pages p).count := by
    have := x2.length_le
    simp at this; omega
  have b := At.item (h := h') (ps := ps ++ t) as p (bs ++ t) k (by rw [e2]; simp) hk'
  have b' := at_itr (max := max) (held := held') c' hcap hm' n
  rw [e1]
  refine at_unique c' b' b ?_
  have hc := congrArg List.length b.contents
  simp only [List.length_append, List.length_take, List.length_drop, pageItems_length] at hc ⊢
  rw [x1] at hc ⊢
  omega

theorem not_mem_front {as as' bs' : List Nat} {p p' : Nat} (hnd : (as ++ [p]).Nodup) (e : as ++ [p] = as' ++ p' :: bs') : p ∉ as' := by
  have h1 : (as ++ [p]).getLastD nil = (p' :: bs').getLastD nil := by rw [e, getLastD_append nil nil (by simp)]
  rw [getLastD_append nil nil (by simp)] at h1
  have h2 : p ∈ p' :: bs' := by
    have : p = (p' :: bs').getLastD nil := h1
    rw [this]; exact getLastD_mem (by simp)
  rw [e] at hnd
  exact fun hx => (List.nodup_append.1 hnd).2.2 p hx p h2 rfl

/-- Only the items of the last page change. -/
theorem ext_last {h h' : Heap α} {as : List Nat} {p : Nat} (hnd : (as ++ [p]).Nodup) (hq : ∀ q ∈ as, pageItems (h'.pages q) = pageItems (h.pages q))
    (hp : pageItems (h.pages p) <+: pageItems (h'.pages p)) : Ext h h' (as ++ [p]) := by
  intro as' p' bs' e
  have hx := not_mem_front hnd e
  have mem : ∀ q, q ∈ as' ++ p' :: bs' → q ≠ p → q ∈ as := by
    intro q h1 h2
    rw [← e] at h1
    simp at h1; tauto
  constructor
  · exact contents_congr (fun q hq' => hq q (mem q (by simp [hq']) (fun e => hx (e ▸ hq'))))
  · by_cases ep : p' = p
    · rw [ep]; exact hp
    · rw [hq p' (mem p' (by simp) ep)]
      exact List.prefix_rfl

/-! ## `push_back` and `pop_back` -/

theorem own_setState {h : Heap α} {sid : Nat} {ps : List Nat} {s : CState} (o : Own h sid ps) (hf : s.front = (h.states sid).front)
    (hb : s.back = (h.states sid).back) : Own (h.setState sid s) sid ps :=
  own_of_state o (by rw [setState_same]; exact hf) (by rw [setState_same]; exact hb) (fun q _ => ⟨rfl, rfl, rfl⟩)

theorem push_ext {c : Cfg} {held : List Nat} {h : Heap α} {sid : Nat} {as fs : List Nat} {p : Nat} {x : α} (w : World c.cap h sid (as ++ [p]) fs)
    (hm : held.length + 5 < c.max) (hlim : c.limit ≤ nil) (hlog : c.log = true) (hcap : 1 ≤ c.cap) (hpol : c.insEnd = false) :
    ∃ r t, insert2 c held h sid (cend (h.states sid)) x = some r ∧ Own r.heap sid (as ++ [p] ++ t) ∧ Ext h r.heap (as ++ [p]) := by
  have own := w.cont.own
  have hback : (h.states sid).back = p := by rw [own.back]; simp
  have hpn : p ≠ nil := own.nn p (by simp)
  have hne : isEmpty (h.states sid) = false := own_nonempty own (by simp)
  have hpa : p ∉ as := fun hx => (List.nodup_append.1 own.nodup).2.2 p hx p (by simp) rfl
  unfold insert2 cend
  rw [hback]
  rw [if_neg (by rintro ⟨e, _⟩; exact hpn e), if_neg (by rintro ⟨_, _, e⟩; exact e rfl)]
  simp only
  unfold cinsertNostate
  simp only
  rw [if_neg hpn, canLock_of (by omega), if_neg (by decide)]
  by_cases hfull : (h.pages p).count = c.cap
  · rw [if_pos hfull]
    unfold insertWithOverflow
    rcases insertPageAfter_spec (held := p :: held) w (by rw [List.length_cons]; omega) hlim hlog (as ++ [p]) [] (by simp) p (Or.inr ⟨by simp, by simp⟩) with ⟨h1, _⟩ | hok
    · simp only [h1]
      refine ⟨_, [], rfl, by rw [List.append_nil]; exact own, ext_of_eq (fun _ _ => rfl)⟩
    · obtain ⟨h1, n, fs', e1, own1, st1, hn0, hnew, hnn, hdat, htot⟩ := hok
      simp only [e1]
      have hnx : (h.pages p).next = nil := next_eq own
      have hsb : shouldBalanceInsert c h ⟨p, nilItem, .fin⟩ = false := by
        unfold shouldBalanceInsert
        rw [if_neg (by rintro ⟨_, e⟩; simp [nilItem] at e), if_pos ⟨hnx, rfl, rfl⟩, hpol]
      rw [hsb, if_neg (by decide)]
      unfold insertInto
      rw [if_neg (by rintro ⟨e, _⟩; exact e rfl), if_neg (by simp)]
      obtain ⟨r1, r2, r3, r4, r5, r6, r7, r8, r9⟩ := iwc_spec (c := c) (h := h1) (p := n) (item := (h1.pages n).count) (k := (h1.pages n).count) (x := x)
        (by rw [hn0, if_neg (by decide)]) (Nat.le_refl _) (by omega)
      generalize insertWithCapacity c h1 n (h1.pages n).count x = r at *
      simp only [r1]
      have own2 : Own r.heap sid (as ++ [p] ++ [n]) := own_data own1 (by rw [r3]) r6
      have hb2 : (r.heap.states sid).back ≠ p := by
        rw [own2.back, getLastD_append nil nil (by simp)]
        intro e
        exact hnew (by rw [show n = p from e]; simp)
      refine ⟨_, [n], rfl, ?_, ?_⟩
      · simp only
        rw [cinsertState_spec own2 (by simp) (Or.inr hb2)]
        exact own_setState own2 rfl rfl
      · apply ext_of_eq
        intro q hq
        have hqn : q ≠ n := fun e => hnew (e ▸ hq)
        show pageItems (r.heap.pages q) = _
        rw [r7 q hqn]
        exact pageItems_congr (hdat q hqn).1 (fun j _ => by rw [(hdat q hqn).2])
  · rw [if_neg hfull]
    have hle := (w.cont.cnt p (by simp)).2
    obtain ⟨r1, r2, r3, r4, r5, r6, r7, r8, r9⟩ := iwc_spec (c := c) (h := h) (p := p) (item := nilItem) (k := (h.pages p).count) (x := x)
        (if_pos rfl) (Nat.le_refl _) (by omega)
    generalize insertWithCapacity c h p nilItem x = r at *
    simp only [r1]
    have own2 : Own r.heap sid (as ++ [p]) := own_data own (by rw [r3]) r6
    refine ⟨_, [], rfl, ?_, ?_⟩
    · simp only [r2, List.append_nil]
      rw [cinsertState_spec (lead := Lead.default.page) own2 (by simp) (Or.inl rfl)]
      exact own_setState own2 rfl rfl
    · apply ext_last own.nodup
      · intro q hq
        show pageItems (r.heap.pages q) = _
        rw [r7 q (fun e => hpa (e ▸ hq))]
      · show _ <+: pageItems (r.heap.pages p)
        rw [r9, List.take_of_length_le (by simp)]
        exact List.prefix_append _ _

theorem pop_ext {c : Cfg} {held : List Nat} {h : Heap α} {sid : Nat} {as fs : List Nat} {p : Nat} (w : World c.cap h sid (as ++ [p]) fs)
    (hm : held.length + 5 < c.max) (hcap : c.cap < nilItem) (hpol : c.erEnd = false) :
    ∃ r ps' t, erase2 c held h sid (crend c.max held h (h.states sid)) = some r ∧ as ++ [p] = ps' ++ t ∧ Own r.heap sid ps' ∧ Ext r.heap h ps' := by
  have own := w.cont.own
  have hback : (h.states sid).back = p := by rw [own.back]; simp
  have hpn : p ≠ nil := own.nn p (by simp)
  have hpa : p ∉ as := fun hx => (List.nodup_append.1 own.nodup).2.2 p hx p (by simp) rfl
  have hcnt := w.cont.cnt p (by simp)
  have hnx : (h.pages p).next = nil := next_eq own
  unfold crend
  rw [hback, if_neg hpn, canLock_of (by omega), if_neg (by decide)]
  unfold erase2
  rw [show canDeref ⟨p, (h.pages p).count - 1, .none⟩ = true from by
    have : (h.pages p).count - 1 ≠ nilItem := by omega
    simp [canDeref, hpn, this], if_neg (by decide)]
  simp only
  unfold ceraseNostate
  simp only
  rw [canLock_of (by omega), if_neg (by decide)]
  by_cases hmany : 1 < (h.pages p).count
  · rw [if_pos hmany]
    have hsb : shouldBalanceErase c h ⟨p, (h.pages p).count - 1, .none⟩ = false := by
      unfold shouldBalanceErase
      rw [if_neg (by rintro ⟨_, e⟩; simp only at e; omega), if_pos ⟨hnx, rfl⟩, hpol]
    rw [hsb, Bool.false_and, if_neg (by decide)]
    unfold eraseFromMany
    simp only
    rw [if_neg (by omega)]
    refine ⟨_, as ++ [p], [], rfl, by simp, ?_, ?_⟩
    · exact own_setState (h := h.mod p (fun y => { y with count := y.count - 1 })) (own_data own rfl (mod_links (fun _ => ⟨rfl, rfl, rfl⟩))) rfl rfl
    · apply ext_last own.nodup
      · intro q hq
        show pageItems (h.pages q) = pageItems ((h.mod p (fun y => { y with count := y.count - 1 })).pages q)
        rw [mod_pages_ne _ _ (show q ≠ p from fun e => hpa (e ▸ hq))]
      · show pageItems ((h.mod p (fun y => { y with count := y.count - 1 })).pages p) <+: _
        rw [mod_pages_same]
        have : pageItems { h.pages p with count := (h.pages p).count - 1 } = (pageItems (h.pages p)).take ((h.pages p).count - 1) := by
          unfold pageItems
          rw [← List.map_take, List.take_range, Nat.min_eq_left (by omega)]
        rw [this]
        exact List.take_prefix _ _
  · rw [if_neg hmany]
    obtain ⟨e1, e2, e3, e4⟩ := erasePage_spec (c := c) (held := held) 0 (by omega) w.sid own w.free w.disj
    refine ⟨_, as, [p], rfl, rfl, ?_, ?_⟩
    · simp only
      exact own_setState (by simpa using e1) rfl rfl
    · apply ext_of_eq
      intro q _
      show pageItems (h.pages q) = pageItems ((erasePage c held h sid p).pages q)
      rw [items_sameData e2]

/-! ## The position of an item in the sequence -/

/-- Where the item at position `n` of container `k` is after a call, `none` if the call erases it; `len` and `len'` are the sizes before
and after the call (an insertion may fail). -/
def posAfter (k len len' n : Nat) : COp α → Option Nat
  | .insert k' _ m _ => if k' = k ∧ len < len' ∧ m ≤ n then some (n + 1) else some n
  | .erase k' _ m => if k' = k ∧ m = n then none else if k' = k ∧ m < n then some (n - 1) else some n
  | .push _ _ _ => some n
  | .pop k' _ => if k' = k ∧ n + 1 = len then none else some n

/-- The same after several calls. -/
def posRun (cfg : Nat → Cfg) (k : Nat) (s : CSt α) (n : Nat) : List (COp α) → Option Nat
  | [] => some n
  | o :: os => (posAfter k (s.lists k).length ((s.step cfg o).lists k).length n o).bind (fun n' => posRun cfg k (s.step cfg o) n' os)

/-- The calls that move no item of container `k`: all on other containers, `push_back` if the last page is not split, `pop_back` if the
last page is not merged. -/
def Gentle (cfg : Nat → Cfg) (k : Nat) : COp α → Prop
  | .insert k' _ _ _ => k' ≠ k
  | .erase k' _ _ => k' ≠ k
  | .push k' _ _ => k' ≠ k ∨ (cfg k).insEnd = false
  | .pop k' _ => k' ≠ k ∨ (cfg k).erEnd = false

def COp.cont : COp α → Nat
  | .insert k _ _ _ => k
  | .erase k _ _ => k
  | .push k _ _ => k
  | .pop k _ => k

/-- A call on another container changes neither the state nor the pages of container `k`. -/
theorem step_apart {cfg : Nat → Cfg} {max limit : Nat} {s : CSt α} {pss : Nat → List Nat} {fs : List Nat} (ok : CfgOk cfg max limit)
    (v : CInv cfg s pss fs) {o : COp α} (ho : o.Ok cfg max) {k : Nat} (hk : o.cont ≠ k) :
    (s.step cfg o).lists k = s.lists k ∧ (s.step cfg o).heap.states (k + 1) = s.heap.states (k + 1) ∧
      ∀ q ∈ pss k, (s.step cfg o).heap.pages q = s.heap.pages q := by
  have ins : ∀ (k' : Nat) (held : List Nat) (i : Itr) (n : Nat) (x : α), k' ≠ k → held.length + 5 < max →
      (∃ u w, At s.heap (pss k') i u w) → (i.edge = .fin ∨ ListLike (cfg k')) →
      (s.insertAt (cfg k') k' held i n x).lists k = s.lists k ∧ (s.insertAt (cfg k') k' held i n x).heap.states (k + 1) = s.heap.states (k + 1) ∧
      ∀ q ∈ pss k, (s.insertAt (cfg k') k' held i n x).heap.pages q = s.heap.pages q := by
    rintro k' held i n x hk' hm ⟨u, t, a⟩ hpol
    obtain ⟨r, hr, h⟩ := insert2_spec (x := x) (v.world k') a (by rw [ok.hmax]; exact hm) (by rw [ok.hlimit]; exact ok.lim) (ok.log k') (ok.cap k') (ok.cap2 k') hpol
    unfold CSt.insertAt
    rw [hr]
    simp only
    refine ⟨?_, ?_⟩
    · split
      · rfl
      · unfold setList; rw [if_neg (Ne.symm hk')]
    · rcases h with ⟨h1, _, _⟩ | ⟨j, ps', fs', _, _, h3, _, _⟩
      · rw [h1]; exact ⟨rfl, fun _ _ => rfl⟩
      · exact ⟨h3.states (k + 1) (by omega) (by omega), fun q hq => h3.pages q (v.sep k k' (Ne.symm hk') q hq) (v.disj k q hq) (v.range k q hq).2⟩
  have er : ∀ (k' : Nat) (held : List Nat) (i : Itr) (n : Nat), k' ≠ k → held.length + 5 < max →
      (canDeref i = false ∨ ∃ u y w, At s.heap (pss k') i u (y :: w)) →
      (s.eraseAt (cfg k') k' held i n).lists k = s.lists k ∧ (s.eraseAt (cfg k') k' held i n).heap.states (k + 1) = s.heap.states (k + 1) ∧
      ∀ q ∈ pss k, (s.eraseAt (cfg k') k' held i n).heap.pages q = s.heap.pages q := by
    rintro k' held i n hk' hm (hc | ⟨u, y, t, a⟩)
    · unfold CSt.eraseAt erase2
      rw [hc, if_pos rfl]
      exact ⟨rfl, rfl, fun _ _ => rfl⟩
    · obtain ⟨r, ps', fs', j, hr, e⟩ := erase2_spec (held := held) limit (v.world k') (by rw [ok.hmax]; exact hm) (ok.cap2 k') a
      unfold CSt.eraseAt
      rw [hr]
      simp only
      have h3 := e.step
      refine ⟨?_, h3.states (k + 1) (by omega) (by omega), fun q hq => h3.pages q (v.sep k k' (Ne.symm hk') q hq) (v.disj k q hq) (v.range k q hq).2⟩
      unfold setList; rw [if_neg (Ne.symm hk')]
  cases o with
  | insert k' held n x =>
    have hm : held.length + 5 < max := ho.1
    refine ins k' held _ n x hk hm ⟨(s.lists k').take n, (s.lists k').drop n, ?_⟩ (Or.inr (ho.2 k' held n x rfl))
    rw [ok.hmax k']
    exact at_lists ok v (by omega) k' n
  | push k' held x =>
    have hm : held.length + 5 < max := ho.1
    exact ins k' held _ _ x hk hm ⟨_, _, at_end (v.cont k')⟩ (Or.inl rfl)
  | erase k' held n =>
    have hm : held.length + 5 < max := ho.1
    refine er k' held _ n hk hm ?_
    have a := at_lists ok v (held := held) (by omega) k' n
    rw [ok.hmax k']
    by_cases hn : n < (s.lists k').length
    · right
      rw [← List.getElem_cons_drop hn] at a
      exact ⟨_, _, _, a⟩
    · left
      rw [List.drop_of_length_le (by omega), List.take_of_length_le (by omega)] at a
      have he := at_end (v.cont k')
      rw [v.items k'] at he
      rw [at_unique (v.cont k') a he rfl]
      simp [canDeref, cend]
  | pop k' held =>
    have hm : held.length + 5 < max := ho.1
    refine er k' held _ _ hk hm ?_
    rw [ok.hmax k']
    rcases List.eq_nil_or_concat (s.lists k') with e | ⟨u, y, e⟩
    · left
      rw [crend_nil (v.cont k') ((v.items k').trans e)]
      simp [canDeref, crbegin]
    · right
      rw [List.concat_eq_append] at e
      exact ⟨_, _, _, at_rend (held := held) (max := max) (v.cont k') (by omega) ((v.items k').trans e)⟩

/-- One call that moves no item. -/
theorem gentle_step {cfg : Nat → Cfg} {max limit : Nat} {s : CSt α} {pss pss' : Nat → List Nat} {fs fs' : List Nat} (ok : CfgOk cfg max limit)
    (v : CInv cfg s pss fs) {o : COp α} (ho : o.Ok cfg max) (v' : CInv cfg (s.step cfg o) pss' fs') {k n : Nat} (hg : Gentle cfg k o)
    (hn : n < (s.lists k).length) (hn' : n < ((s.step cfg o).lists k).length) {held held' : List Nat} (hm : held.length < max) (hm' : held'.length < max) :
    itrAt max held' (s.step cfg o).heap (k + 1) n = itrAt max held s.heap (k + 1) n := by
  have c := v.cont k
  have c' := v'.cont k
  have hi := v.items k
  have hi' := v'.items k
  by_cases hk : o.cont = k
  · have hps : pss k ≠ [] := by
      intro e
      rw [e] at hi
      rw [← hi] at hn
      simp [contents] at hn
    obtain ⟨as, p, e⟩ : ∃ as p, pss k = as ++ [p] := by
      rcases List.eq_nil_or_concat (pss k) with e | ⟨as, p, e⟩
      · exact absurd e hps
      · exact ⟨as, p, by rw [e, List.concat_eq_append]⟩
    have w := v.world k
    rw [e] at w
    cases o with
    | insert k' h' m x => exact absurd hk hg
    | erase k' h' m => exact absurd hk hg
    | push k' h' x =>
      have hk' : k' = k := hk
      subst hk'
      have hpol : (cfg k').insEnd = false := by rcases hg with h | h; exacts [absurd rfl h, h]
      have h5 : h'.length + 5 < max := ho.1
      obtain ⟨r, t, hr, o2, ex⟩ := push_ext (x := x) w (by rw [ok.hmax]; exact h5) (by rw [ok.hlimit]; exact ok.lim) (ok.log k') (ok.cap k') hpol
      have heq : (s.step cfg (.push k' h' x)).heap = r.heap := by
        show (s.insertAt _ _ _ _ _ _).heap = _
        unfold CSt.insertAt
        rw [hr]
      rw [heq] at c' ⊢
      have := own_unique c'.own o2
      rw [this, ← e] at c'
      rw [← e] at ex
      exact ext_itr c c' ex (ok.cap2 k') hm hm' (by rw [hi]; exact hn)
    | pop k' h' =>
      have hk' : k' = k := hk
      subst hk'
      have hpol : (cfg k').erEnd = false := by rcases hg with h | h; exacts [absurd rfl h, h]
      have h5 : h'.length + 5 < max := ho.1
      obtain ⟨r, ps', t, hr, e2, o2, ex⟩ := pop_ext (held := h') w (by rw [ok.hmax]; exact h5) (ok.cap2 k') hpol
      have heq : (s.step cfg (.pop k' h')).heap = r.heap := by
        show (s.eraseAt _ _ _ _ _).heap = _
        unfold CSt.eraseAt
        rw [hr]
      rw [heq] at c' hi' ⊢
      have := own_unique c'.own o2
      rw [this] at c' hi'
      rw [e, e2] at c
      exact (ext_itr c' c ex (ok.cap2 k') hm' hm (by rw [hi']; exact hn')).symm
  · obtain ⟨_, h2, h3⟩ := step_apart ok v ho hk
    have o2 : Own (s.step cfg o).heap (k + 1) (pss k) := own_congr c.own h2 (fun q hq => SameLinks.of_eq (h3 q hq))
    have := own_unique c'.own o2
    rw [this, ← List.append_nil (pss k)] at c'
    exact ext_itr c c' (ext_of_eq (fun q hq => by rw [h3 q hq])) (ok.cap2 k) hm hm' (by rw [hi]; exact hn)

theorem insert_get (l : List α) (x : α) {m n : Nat} (hn : n < l.length) : (l.take m ++ x :: l.drop m)[if m ≤ n then n + 1 else n]? = l[n]? := by
  by_cases h : m ≤ n
  · rw [if_pos h, List.getElem?_append_right (by simp; omega), List.length_take, Nat.min_eq_left (by omega), show n + 1 - m = (n - m) + 1 by omega,
      List.getElem?_cons_succ, List.getElem?_drop]
    congr 1; omega
  · rw [if_neg h, List.getElem?_append_left (by simp; omega), List.getElem?_take, if_pos (by omega)]

theorem erase_get (l : List α) {m n : Nat} (h : m ≠ n) : (l.eraseIdx m)[if m < n then n - 1 else n]? = l[n]? := by
  rw [List.getElem?_eraseIdx]
  by_cases h2 : m < n
  · rw [if_pos h2, if_neg (by omega)]
    congr 1; omega
  · rw [if_neg h2, if_pos (by omega)]

/-- The item is where `posAfter` says. -/
theorem pos_step {cfg : Nat → Cfg} {max limit : Nat} {s : CSt α} {pss : Nat → List Nat} {fs : List Nat} (ok : CfgOk cfg max limit)
    (v : CInv cfg s pss fs) {o : COp α} (ho : o.Ok cfg max) {k n n' : Nat} (hn : n < (s.lists k).length)
    (hp : posAfter k (s.lists k).length ((s.step cfg o).lists k).length n o = some n') :
    ((s.step cfg o).lists k)[n']? = (s.lists k)[n]? := by
  by_cases hk : o.cont = k
  · cases o with
    | insert k' held m x =>
      have hk' : k' = k := hk
      subst hk'
      unfold posAfter at hp
      simp only [true_and] at hp
      have hl : (s.step cfg (.insert k' held m x)).lists k' = s.lists k' ∨
          (s.step cfg (.insert k' held m x)).lists k' = (s.lists k').take m ++ x :: (s.lists k').drop m := by
        show (s.insertAt _ _ _ _ _ _).lists k' = _ ∨ (s.insertAt _ _ _ _ _ _).lists k' = _
        unfold CSt.insertAt
        split
        · exact Or.inl rfl
        · simp only
          split
          · exact Or.inl rfl
          · right; unfold setList; rw [if_pos rfl]
      rcases hl with hl | hl
      · rw [hl] at hp ⊢
        rw [if_neg (by omega)] at hp
        cases hp; rfl
      · rw [hl] at hp ⊢
        rw [← insert_get (s.lists k') x (m := m) hn]
        have hlen : (s.lists k').length < ((s.lists k').take m ++ x :: (s.lists k').drop m).length := by simp; omega
        by_cases h : m ≤ n
        · rw [if_pos ⟨hlen, h⟩] at hp; cases hp; rw [if_pos h]
        · rw [if_neg (by rintro ⟨_, h2⟩; exact h h2)] at hp; cases hp; rw [if_neg h]
    | push k' held x =>
      have hk' : k' = k := hk
      subst hk'
      have e : n' = n := by unfold posAfter at hp; cases hp; rfl
      subst e
      show ((s.insertAt _ _ _ _ _ _).lists k')[n']? = _
      unfold CSt.insertAt
      split
      · rfl
      · simp only
        split
        · rfl
        · unfold setList
          rw [if_pos rfl, List.take_length, List.getElem?_append_left hn]
    | erase k' held m =>
      have hk' : k' = k := hk
      subst hk'
      unfold posAfter at hp
      simp only [true_and] at hp
      have hm : held.length + 5 < max := ho.1
      have a := at_lists ok v (held := held) (by omega) k' m
      have hl : (s.step cfg (.erase k' held m)).lists k' = (s.lists k').eraseIdx m := by
        show (s.eraseAt _ _ _ _ _).lists k' = _
        unfold CSt.eraseAt
        by_cases h : m < (s.lists k').length
        · obtain ⟨r, _, _, _, hr, _⟩ := erase_inv ok v hm h a
          rw [ok.hmax, hr]
          simp [setList]
        · have e : erase2 (cfg k') held s.heap (k' + 1) (itrAt (cfg k').max held s.heap (k' + 1) m) = none := by
            rw [List.drop_of_length_le (by omega), List.take_of_length_le (by omega)] at a
            have he := at_end (v.cont k')
            rw [v.items k'] at he
            unfold erase2
            rw [ok.hmax, at_unique (v.cont k') a he rfl]
            simp [canDeref, cend]
          rw [e, List.eraseIdx_of_length_le (by omega)]
      rw [hl]
      by_cases h : m = n
      · rw [if_pos h] at hp; cases hp
      · rw [if_neg h] at hp
        rw [← erase_get (s.lists k') h]
        by_cases h2 : m < n
        · rw [if_pos h2] at hp; cases hp; rw [if_pos h2]
        · rw [if_neg h2] at hp; cases hp; rw [if_neg h2]
    | pop k' held =>
      have hk' : k' = k := hk
      subst hk'
      unfold posAfter at hp
      simp only [true_and] at hp
      have h : ¬ n + 1 = (s.lists k').length := by
        intro h; rw [if_pos h] at hp; cases hp
      rw [if_neg h] at hp
      cases hp
      show ((s.eraseAt _ _ _ _ _).lists k')[n]? = _
      unfold CSt.eraseAt
      split
      · rfl
      · simp only [setList, if_true]
        rw [List.getElem?_eraseIdx, if_pos (by omega)]
  · have e : n' = n := by
      cases o with
      | insert k' held m x => unfold posAfter at hp; simp only at hp; rw [if_neg (fun h => hk h.1)] at hp; cases hp; rfl
      | push k' held x => unfold posAfter at hp; cases hp; rfl
      | erase k' held m => unfold posAfter at hp; simp only at hp; rw [if_neg (fun h => hk h.1), if_neg (fun h => hk h.1)] at hp; cases hp; rfl
      | pop k' held => unfold posAfter at hp; simp only at hp; rw [if_neg (fun h => hk h.1)] at hp; cases hp; rfl
    rw [e, (step_apart ok v ho hk).1]

/-- A call that moves no item does not change positions. -/
theorem gentle_pos {cfg : Nat → Cfg} {k len len' n n' : Nat} {o : COp α} (hg : Gentle cfg k o) (hp : posAfter k len len' n o = some n') : n' = n := by
  cases o with
  | insert k' held m x => unfold posAfter at hp; simp only at hp; rw [if_neg (fun h => hg h.1)] at hp; cases hp; rfl
  | push k' held x => unfold posAfter at hp; cases hp; rfl
  | erase k' held m => unfold posAfter at hp; simp only at hp; rw [if_neg (fun h => hg h.1), if_neg (fun h => hg h.1)] at hp; cases hp; rfl
  | pop k' held =>
    unfold posAfter at hp
    simp only at hp
    split at hp
    · cases hp
    · cases hp; rfl

theorem gentle_run {cfg : Nat → Cfg} {max limit : Nat} (ok : CfgOk cfg max limit) {k n : Nat} {held held' : List Nat} (hm : held.length < max) (hm' : held'.length < max) :
    ∀ (os : List (COp α)) {s : CSt α} {pss : Nat → List Nat} {fs : List Nat} {n' : Nat}, CInv cfg s pss fs → s.heap.len ≤ limit →
    (∀ o ∈ os, o.Ok cfg max) → (∀ o ∈ os, Gentle cfg k o) → n < (s.lists k).length → posRun cfg k s n os = some n' →
    n' = n ∧ itrAt max held' (s.run cfg os).heap (k + 1) n = itrAt max held s.heap (k + 1) n ∧ ((s.run cfg os).lists k)[n]? = (s.lists k)[n]? := by
  intro os
  induction os with
  | nil =>
    intro s pss fs n' v _ _ _ hn hp
    cases hp
    refine ⟨rfl, ?_, rfl⟩
    have c' := v.cont k
    rw [← List.append_nil (pss k)] at c'
    exact ext_itr (v.cont k) c' (ext_of_eq (fun _ _ => rfl)) (ok.cap2 k) hm hm' (by rw [v.items k]; exact hn)
  | cons o os ih =>
    intro s pss fs n' v hl ho hg hn hp
    unfold posRun at hp
    obtain ⟨n1, hp1, hp2⟩ := Option.bind_eq_some_iff.1 hp
    have e := gentle_pos (hg o (by simp)) hp1
    have hi := pos_step ok v (ho o (by simp)) hn hp1
    rw [e] at hp2 hi
    have hn1 : n < ((s.step cfg o).lists k).length := by
      rw [List.getElem?_eq_getElem hn] at hi
      exact (List.getElem?_eq_some_iff.1 hi).1
    obtain ⟨hl', pss', fs', v'⟩ := cInv_step ok v hl (ho o (by simp))
    obtain ⟨h1, h2, h3⟩ := ih v' hl' (fun o' h => ho o' (by simp [h])) (fun o' h => hg o' (by simp [h])) hn1 hp2
    refine ⟨h1, ?_, h3.trans hi⟩
    show itrAt max held' ((s.step cfg o).run cfg os).heap (k + 1) n = _
    rw [h2]
    exact gentle_step ok v (ho o (by simp)) v' (hg o (by simp)) hn hn1 hm hm

/-! ## C124 -/

/-- C124, the part that holds.  After any calls `os` on any number of containers take the iterator to the item at position `n` of container
`k`.  Then let calls `os'` follow that do not erase the item and that are calls on other containers, `push_back` on container `k` if its
policy does not split the last page (`vmem_list`, `vmem_stack`), and `pop_back` on it if its policy does not merge the last page
(`vmem_stack`).  The old iterator is then still the one at that position, and the item it gives is the same. -/
theorem C124_iterator_partial {cfg : Nat → Cfg} {max limit : Nat} (ok : CfgOk cfg max limit) (h2 : 2 ≤ limit) (x0 : α) (os os' : List (COp α))
    (ho : ∀ o ∈ os ++ os', o.Ok cfg max) (k n n' : Nat) (held held' : List Nat) (hm : held.length < max) (hm' : held'.length < max)
    (hg : ∀ o ∈ os', Gentle cfg k o) :
    let s := (CSt.init x0).run cfg os
    let t := s.run cfg os'
    n < (s.lists k).length → posRun cfg k s n os' = some n' →
    itrAt max held' t.heap (k + 1) n' = itrAt max held s.heap (k + 1) n ∧
    deref max held' t.heap (itrAt max held s.heap (k + 1) n) = (s.lists k)[n]? := by
  obtain ⟨hl, pss, fs, v⟩ := reachable ok h2 x0 os (fun o h => ho o (by simp [h]))
  simp only
  generalize (CSt.init x0).run cfg os = s at *
  intro hn hp
  obtain ⟨h1, h2, h3⟩ := gentle_run ok hm hm' os' v hl (fun o h => ho o (by simp [h])) hg hn hp
  subst h1
  refine ⟨h2, ?_⟩
  obtain ⟨_, pss', fs', v'⟩ := cInv_run ok os' v hl (fun o h => ho o (by simp [h]))
  rw [← h2, ← h3]
  have hn1 : n' < ((s.run cfg os').lists k).length := by
    rw [List.getElem?_eq_getElem hn] at h3
    exact (List.getElem?_eq_some_iff.1 h3).1
  have a := at_lists ok v' (held := held') hm' k n'
  rw [← List.getElem_cons_drop hn1] at a
  rw [deref_at (v'.cont k) (ok.cap2 k) hm' a, List.getElem?_eq_getElem hn1]

/-- What `posRun` says is right for all calls: the item is at that position of the sequence. -/
theorem posRun_item {cfg : Nat → Cfg} {max limit : Nat} (ok : CfgOk cfg max limit) {k : Nat} :
    ∀ (os : List (COp α)) {s : CSt α} {pss : Nat → List Nat} {fs : List Nat} {n n' : Nat}, CInv cfg s pss fs → s.heap.len ≤ limit →
    (∀ o ∈ os, o.Ok cfg max) → n < (s.lists k).length → posRun cfg k s n os = some n' → ((s.run cfg os).lists k)[n']? = (s.lists k)[n]? := by
  intro os
  induction os with
  | nil => intro s pss fs n n' _ _ _ _ hp; cases hp; rfl
  | cons o os ih =>
    intro s pss fs n n' v hl ho hn hp
    unfold posRun at hp
    obtain ⟨n1, hp1, hp2⟩ := Option.bind_eq_some_iff.1 hp
    have hi := pos_step ok v (ho o (by simp)) hn hp1
    have hn1 : n1 < ((s.step cfg o).lists k).length := by
      rw [List.getElem?_eq_getElem hn] at hi
      exact (List.getElem?_eq_some_iff.1 hi).1
    obtain ⟨hl', pss', fs', v'⟩ := cInv_step ok v hl (ho o (by simp))
    exact (ih v' hl' (fun o' h => ho o' (by simp [h])) hn1 hp2).trans hi

/-- The whole claim, as for `std::list`: the iterator to an item of a `vmem_list` stays an iterator to that item, and `end()` stays `end()`,
whatever happens as long as the item is not erased. -/
def C124Full : Prop := ∀ (cap : Nat) (os os' : List (COp Nat)) (n : Nat), 2 ≤ cap → cap < nilItem →
  (∀ o ∈ os ++ os', o.Ok (fun _ => listCfg cap true) 16) →
  let s := (CSt.init 0).run (fun _ => listCfg cap true) os
  let t := s.run (fun _ => listCfg cap true) os'
  (∀ n', n < (s.lists 0).length → posRun (fun _ => listCfg cap true) 0 s n os' = some n' →
    itrAt 16 [] t.heap 1 n' = itrAt 16 [] s.heap 1 n ∧ deref 16 [] t.heap (itrAt 16 [] s.heap 1 n) = (s.lists 0)[n]?) ∧
  itrAt 16 [] t.heap 1 (t.lists 0).length = itrAt 16 [] s.heap 1 (s.lists 0).length

/-- What an iterator to the item at position `n` of a `vmem_list` of the items `0 … m - 1` is after the calls `os`: the new position of
the item, whether the iterator is the one at that position, the item it gives, and the item that it gives after `++`. -/
def stale (cap m n : Nat) (os : List (COp Nat)) : Option Nat × Bool × Option Nat × Option Nat :=
  let s := (CSt.init 0).run (fun _ => listCfg cap true) (pushed m)
  let t := s.run (fun _ => listCfg cap true) os
  let i := itrAt 16 [] s.heap 1 n
  let n' := posRun (fun _ => listCfg cap true) 0 s n os
  (n', decide (n'.map (itrAt 16 [] t.heap 1) = some i), deref 16 [] t.heap i, deref 16 [] t.heap (cnext 16 [] t.heap 1 i))

/-- It does not hold: `push_front` on a list of two items makes the iterator to the first item one to the new item. -/
theorem C124_violated : ¬ C124Full := by
  intro h
  have := ((h 4 (pushed 2) [.insert 0 [] 0 9] 0 (by decide) (by decide) (by
    intro o ho
    simp [pushed, List.range_succ] at ho
    rcases ho with rfl | rfl | rfl
    · exact ⟨by decide, by intro _ _ _ _ e; cases e⟩
    · exact ⟨by decide, by intro _ _ _ _ e; cases e⟩
    · exact ⟨by decide, by intro _ _ _ _ e; simp [ListLike, listCfg]⟩)).1 1 (by decide +kernel) (by decide +kernel)).2
  revert this
  decide +kernel

/-- How it goes wrong, in turn: an insertion before the item on its page (the iterator gives the item before it), an erasure before it (the
item behind it), a page that is split (the iterator gives what was left on the page, and `++` goes back to the item before), and `pop_back` of
a list whose last page is merged with the one before (the iterator gives what was left on the free page, and an item of another list
when that list gets the page; `++` is then `end()` although an item follows). -/
theorem C124_violated_ways :
    stale 4 3 1 [.insert 0 [] 0 9] = (some 2, false, some 0, some 1) ∧
    stale 4 3 1 [.erase 0 [] 0] = (some 0, false, some 2, none) ∧
    stale 4 4 3 [.insert 0 [] 0 9] = (some 4, false, some 3, some 2) ∧
    stale 4 7 4 [.erase 0 [] 0, .erase 0 [] 0, .pop 0 []] = (some 2, false, some 4, some 5) ∧
    stale 4 7 4 [.erase 0 [] 0, .erase 0 [] 0, .pop 0 [], .push 1 [] 50] = (some 2, false, some 50, none) ∧
    ((CSt.init 0).run (fun _ => listCfg 4 true) (pushed 7 ++ [.erase 0 [] 0, .erase 0 [] 0, .pop 0 []])).lists 0 = [2, 3, 4, 5] :=
  ⟨by decide +kernel, by decide +kernel, by decide +kernel, by decide +kernel, by decide +kernel, by decide +kernel⟩

/-- `end()` is not stable either: after a `push_back` that needs a new page the old `end()` is not refused, and an item inserted there does
not come to the end of the list. -/
theorem C124_violated_end :
    let s := (CSt.init 0).run (fun _ => listCfg 2 true) (pushed 2)
    let t := s.run (fun _ => listCfg 2 true) [.push 0 [] 2]
    (insert2 (listCfg 2 true) [] t.heap 1 (cend (s.heap.states 1)) 9).map (fun r => cwalk 16 [] r.heap 1 9 (cbegin (r.heap.states 1))) =
      some [some 0, some 1, some 9, some 2] := by
  decide +kernel

-- The theorem: `push_back` and `pop_back` on a stack of three pages and calls on another list, the item on the second page.
example : let cfg : Nat → Cfg := fun k => if k = 0 then stackCfg 2 else listCfg 3 true
    let s := (CSt.init 0).run cfg (pushed 5)
    let os' : List (COp Nat) := [.push 0 [] 5, .push 0 [] 6, .pop 0 [], .push 1 [] 10, .insert 1 [] 0 11, .pop 0 [], .pop 0 [], .erase 1 [] 0, .push 0 [] 7]
    (∀ o ∈ os', Gentle cfg 0 o) ∧ posRun cfg 0 s 3 os' = some 3 ∧ (s.run cfg os').lists 0 = [0, 1, 2, 3, 7] ∧
    deref 16 [] (s.run cfg os').heap (itrAt 16 [] s.heap 1 3) = some 3 := by
  refine ⟨?_, by decide +kernel, by decide +kernel, by decide +kernel⟩
  simp [Gentle, stackCfg]

end Abc.Vmem.Pages
