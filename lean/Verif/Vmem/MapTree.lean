import Verif.Vmem.MapInsert

/-! # The tree of a map: routing and lookup -/

namespace Abc.Vmem.Map

open Abc.Vmem.Pages

variable {K V : Type}

theorem scan_spec (f : Nat → Bool) : ∀ (n i : Nat), i ≤ scan f n i ∧ scan f n i ≤ i + n ∧ (∀ j, i ≤ j → j < scan f n i → f j = true) ∧
    (scan f n i < i + n → f (scan f n i) = false) := by
  intro n
  induction n with
  | zero => intro i; unfold scan; exact ⟨Nat.le_refl _, by omega, fun j h1 h2 => by omega, fun h => by omega⟩
  | succ n ih =>
    intro i
    unfold scan
    split
    · rename_i hf
      obtain ⟨a, b, c, d⟩ := ih (i + 1)
      refine ⟨by omega, by omega, ?_, fun h => d (by omega)⟩
      intro j h1 h2
      by_cases e : j = i
      · rw [e]; exact hf
      · exact c j (by omega) h2
    · rename_i hf
      refine ⟨Nat.le_refl _, by omega, fun j h1 h2 => by omega, fun _ => ?_⟩
      cases h : f i
      · rfl
      · exact absurd h hf

theorem scan_eq {f : Nat → Bool} {n i r : Nat} (h1 : i ≤ r) (h2 : r ≤ i + n) (h3 : ∀ j, i ≤ j → j < r → f j = true) (h4 : r < i + n → f r = false) :
    scan f n i = r := by
  obtain ⟨a, b, c, d⟩ := scan_spec f n i
  rcases Nat.lt_trichotomy (scan f n i) r with h | h | h
  · have := h3 _ a h; rw [d (by omega)] at this; cases this
  · exact h
  · have := c r h1 h; rw [h4 (by omega)] at this; cases this

/-- The first key of a page. -/
def fk (m : MCfg K V) (h : Heap (Cell K V)) (q : Nat) : K := leadKey m (some ((h.pages q).items 0))

/-- The item of a key page for a page below. -/
def sepf (m : MCfg K V) (h : Heap (Cell K V)) (q : Nat) : Cell K V := .sep (fk m h q) q

theorem pageItems_get {α : Type} {q : Page α} {i : Nat} (hi : i < q.count) : (pageItems q)[i]? = some (q.items i) := by
  simp [pageItems, List.getElem?_map, List.getElem?_range hi]

theorem pageItems_cons {α : Type} {q : Page α} (hi : 1 ≤ q.count) : ∃ r, pageItems q = q.items 0 :: r := by
  unfold pageItems
  obtain ⟨n, e⟩ : ∃ n, q.count = n + 1 := ⟨q.count - 1, by omega⟩
  rw [e, List.range_succ_eq_map]
  exact ⟨_, rfl⟩

variable [LinearOrder K]

/-- Pages with items in increasing order have increasing first keys. -/
theorem pages_sorted {m : MCfg K V} {h : Heap (Cell K V)} {ps : List Nat} (hc : ∀ p ∈ ps, 1 ≤ (h.pages p).count)
    (hs : (contents h ps).Pairwise (fun a b => leadKey m (some a) < leadKey m (some b))) : ps.Pairwise (fun a b => fk m h a < fk m h b) := by
  induction ps with
  | nil => exact List.Pairwise.nil
  | cons p ps ih =>
    rw [contents_cons, List.pairwise_append] at hs
    refine List.pairwise_cons.2 ⟨?_, ih (fun q hq => hc q (by simp [hq])) hs.2.1⟩
    intro q hq
    refine hs.2.2 _ (mem_pageItems (hc p (by simp))) _ ?_
    exact List.mem_flatMap.2 ⟨q, hq, mem_pageItems (hc q (by simp [hq]))⟩

/-- `p` is the page among `ps` in whose range `key` is. -/
def Routed (m : MCfg K V) (h : Heap (Cell K V)) (key : K) (ps : List Nat) (p : Nat) : Prop :=
  ∃ as bs, ps = as ++ p :: bs ∧ (as = [] ∨ fk m h p ≤ key) ∧ ∀ q bs', bs = q :: bs' → key < fk m h q

/-- One step down from the key page `P`. -/
theorem route_step {m : MCfg K V} {h : Heap (Cell K V)} {key : K} {ps cs : List Nat} {P : Nat} (hc : ∀ p ∈ ps, 1 ≤ (h.pages p).count)
    (hs : contents h ps = cs.map (sepf m h)) (hr : Routed m h key ps P) :
    ∃ i c, i < (h.pages P).count ∧ (h.pages P).items i = sepf m h c ∧ routeChild m h P key = c ∧ Routed m h key cs c := by
  obtain ⟨as, bs, rfl, h1, h2⟩ := hr
  have hP := hc P (by simp)
  rw [contents_append, contents_cons] at hs
  obtain ⟨ka, kr, e1, e2, e3⟩ := List.map_eq_append_iff.1 hs.symm
  obtain ⟨kp, kb, e4, e5, e6⟩ := List.map_eq_append_iff.1 e3
  have hlen : kp.length = (h.pages P).count := by have := congrArg List.length e5; simpa using this
  have hitem : ∀ i (hi : i < kp.length), (h.pages P).items i = sepf m h kp[i] := by
    intro i hi
    have h3 := pageItems_get (q := h.pages P) (i := i) (by omega)
    rw [← e5, List.getElem?_map, List.getElem?_eq_getElem hi] at h3
    exact (Option.some.inj h3).symm
  obtain ⟨s1, s2, s3, s4⟩ := scan_spec (fun i => decide (sepKey m ((h.pages P).items i) ≤ key)) ((h.pages P).count - 1) 1
  unfold routeChild
  simp only
  generalize hr : scan (fun i => decide (sepKey m ((h.pages P).items i) ≤ key)) ((h.pages P).count - 1) 1 = r at *
  have hrk : r - 1 < kp.length := by omega
  refine ⟨r - 1, kp[r - 1], by omega, hitem _ hrk, by rw [hitem _ hrk]; rfl, ka ++ kp.take (r - 1), kp.drop r ++ kb, ?_, ?_, ?_⟩
  · rw [e1, e4]
    have : kp = kp.take (r - 1) ++ kp[r - 1] :: kp.drop r := by
      have := List.take_append_drop (r - 1) kp
      rw [← List.getElem_cons_drop hrk, show r - 1 + 1 = r by omega] at this
      exact this.symm
    conv => lhs; rw [this]
    simp
  · by_cases hr1 : r = 1
    · by_cases ha : ka = []
      · left; rw [ha, hr1]; rfl
      · right
        have has : as ≠ [] := by
          intro e; rw [e, contents_nil] at e2
          exact ha (List.map_eq_nil_iff.1 e2)
        have hfP := h1.resolve_left has
        have h0 : fk m h P = fk m h kp[0] := by
          show leadKey m (some ((h.pages P).items 0)) = _
          rw [hitem 0 (by omega)]; rfl
        simp only [hr1, Nat.sub_self]
        rw [← h0]; exact hfP
    · right
      have := s3 (r - 1) (by omega) (by omega)
      simp only [decide_eq_true_eq] at this
      rw [hitem _ hrk] at this
      exact this
  · intro q bs' e
    by_cases hrc : r < kp.length
    · have := s4 (by omega)
      simp only [decide_eq_false_iff_not] at this
      rw [hitem _ hrc] at this
      rw [← List.getElem_cons_drop hrc, List.cons_append] at e
      rw [← (List.cons.inj e).1]
      exact lt_of_not_ge this
    · rw [List.drop_of_length_le (by omega), List.nil_append] at e
      cases hbs : bs with
      | nil => rw [hbs, contents_nil, e] at e6; cases e6
      | cons Q bs2 =>
        have hQ := h2 Q bs2 hbs
        rw [hbs, contents_cons, e] at e6
        obtain ⟨r', er⟩ := pageItems_cons (hc Q (by rw [hbs]; simp))
        rw [er, List.map_cons, List.cons_append] at e6
        have hq : (h.pages Q).items 0 = sepf m h q := (List.cons.inj e6).1.symm
        have : fk m h Q = fk m h q := by
          show leadKey m (some ((h.pages Q).items 0)) = _
          rw [hq]; rfl
        rw [← this]; exact hQ

/-- The bytes behind the items of a value page: zeros, or items with keys that are in the map or are `D`. -/
def Stale (D : K → Prop) (h : Heap (Cell K V)) (ps : List Nat) : Prop :=
  ∀ p ∈ ps, ∀ j, (h.pages p).count ≤ j → (h.pages p).items j = .zero ∨
    ∃ k v, (h.pages p).items j = .val k v ∧ (D k ∨ ∃ v', .val k v' ∈ contents h ps)

def cellOf (e : K × V) : Cell K V := .val e.1 e.2

omit [LinearOrder K] in
theorem leadKey_cellOf (m : MCfg K V) (e : K × V) : leadKey m (some (cellOf e)) = e.1 := rfl

omit [LinearOrder K] in
theorem valKey_cellOf (m : MCfg K V) (e : K × V) : valKey m (cellOf e) = e.1 := rfl

/-- What the search on the value page finds. -/
structure ValueFound (m : MCfg K V) (h : Heap (Cell K V)) (key : K) (as : List Nat) (p : Nat) (bs : List Nat) (L : List (K × V)) (i : Nat) (La Lb : List (K × V)) : Prop where
  le : i ≤ (h.pages p).count
  split : L = La ++ Lb
  before : contents h as ++ (pageItems (h.pages p)).take i = La.map cellOf
  after : (pageItems (h.pages p)).drop i ++ contents h bs = Lb.map cellOf
  less : ∀ e ∈ La, e.1 < key
  res : (valKey m ((h.pages p).items i) = key ∧ i < (h.pages p).count ∧ ∃ v Lb', Lb = (key, v) :: Lb' ∧ (h.pages p).items i = .val key v) ∨
    (valKey m ((h.pages p).items i) ≠ key ∧ ∀ e ∈ Lb, key < e.1)

theorem value_find {m : MCfg K V} {D : K → Prop} {h : Heap (Cell K V)} {key : K} {as bs : List Nat} {p : Nat} {L : List (K × V)}
    (hc : ∀ q ∈ as ++ p :: bs, 1 ≤ (h.pages q).count) (hs : contents h (as ++ p :: bs) = L.map cellOf)
    (hL : L.Pairwise (fun a b => a.1 < b.1)) (hst : Stale D h (as ++ p :: bs)) (hD : ¬ D key) (hz : ∀ e ∈ L, m.zeroKey ≤ e.1)
    (h1 : as = [] ∨ fk m h p ≤ key) (h2 : ∀ q bs', bs = q :: bs' → key < fk m h q) :
    ∃ La Lb, ValueFound m h key as p bs L (valuePos m (h.pages p) key) La Lb := by
  have hP := hc p (by simp)
  have hs' := hs
  rw [contents_append, contents_cons] at hs'
  obtain ⟨ka, kr, e1, e2, e3⟩ := List.map_eq_append_iff.1 hs'.symm
  obtain ⟨kp, kb, e4, e5, e6⟩ := List.map_eq_append_iff.1 e3
  have hlen : kp.length = (h.pages p).count := by have := congrArg List.length e5; simpa using this
  have hitem : ∀ i (hi : i < kp.length), (h.pages p).items i = cellOf kp[i] := by
    intro i hi
    have h3 := pageItems_get (q := h.pages p) (i := i) (by omega)
    rw [← e5, List.getElem?_map, List.getElem?_eq_getElem hi] at h3
    exact (Option.some.inj h3).symm
  obtain ⟨_, s2, s3, s4⟩ := scan_spec (fun i => decide (valKey m ((h.pages p).items i) < key)) (h.pages p).count 0
  unfold valuePos
  generalize scan (fun i => decide (valKey m ((h.pages p).items i) < key)) (h.pages p).count 0 = r at *
  rw [Nat.zero_add] at s2 s4
  have hL2 := hL
  rw [e1, e4, List.pairwise_append, List.pairwise_append] at hL2
  obtain ⟨pa, ⟨pp, pb, ppb⟩, papb⟩ := hL2
  -- keys before the page
  have fkp : fk m h p = (kp[0]'(by omega)).1 := by
    show leadKey m (some ((h.pages p).items 0)) = _
    rw [hitem 0 (by omega)]; rfl
  have hka : ∀ e ∈ ka, e.1 < key := by
    intro e he
    have has : as ≠ [] := by
      intro e'; rw [e', contents_nil] at e2
      rw [List.map_eq_nil_iff.1 e2] at he; cases he
    have hle := h1.resolve_left has
    rw [fkp] at hle
    exact lt_of_lt_of_le (papb e he _ (List.mem_append_left _ (List.getElem_mem _))) hle
  -- keys behind the page
  have hkb : ∀ e ∈ kb, key < e.1 := by
    intro e he
    cases hbs : bs with
    | nil => rw [hbs, contents_nil] at e6; rw [List.map_eq_nil_iff.1 e6] at he; cases he
    | cons Q bs2 =>
      have hQ := h2 Q bs2 hbs
      obtain ⟨r', er⟩ := pageItems_cons (hc Q (by rw [hbs]; simp))
      rw [hbs, contents_cons, er, List.cons_append] at e6
      cases kb with
      | nil => cases he
      | cons b kb2 =>
        rw [List.map_cons] at e6
        have hq : (h.pages Q).items 0 = cellOf b := (List.cons.inj e6).1.symm
        have hfq : fk m h Q = b.1 := by
          show leadKey m (some ((h.pages Q).items 0)) = _
          rw [hq]; rfl
        rw [hfq] at hQ
        rcases List.mem_cons.1 he with e' | e'
        · rw [e']; exact hQ
        · exact lt_trans hQ ((List.pairwise_cons.1 pb).1 e e')
  refine ⟨ka ++ kp.take r, kp.drop r ++ kb, by omega, ?_, ?_, ?_, ?_, ?_⟩
  · rw [e1, e4, List.append_assoc, ← List.append_assoc (kp.take r), List.take_append_drop]
  · rw [← e2, ← e5]; simp
  · rw [← e6, ← e5]; simp
  · intro e he
    rcases List.mem_append.1 he with he | he
    · exact hka e he
    · obtain ⟨j, hj, hje⟩ := List.getElem_of_mem he
      have hjr : j < r ∧ j < kp.length := by rw [List.length_take] at hj; omega
      have := s3 j (by omega) hjr.1
      simp only [decide_eq_true_eq] at this
      rw [hitem j hjr.2, valKey_cellOf] at this
      rw [← hje, List.getElem_take]; exact this
  · by_cases hrc : r < kp.length
    · have h5 := s4 (by omega)
      simp only [decide_eq_false_iff_not] at h5
      rw [hitem r hrc, valKey_cellOf] at h5
      rw [hitem r hrc, valKey_cellOf]
      have hd : kp.drop r = kp[r] :: kp.drop (r + 1) := (List.getElem_cons_drop hrc).symm
      by_cases hk : kp[r].1 = key
      · left
        refine ⟨hk, by omega, kp[r].2, kp.drop (r + 1) ++ kb, ?_, ?_⟩
        · rw [hd, ← hk]; rfl
        · rw [← hk]; rfl
      · right
        refine ⟨hk, ?_⟩
        have hlt : key < kp[r].1 := lt_of_le_of_ne (not_lt.1 h5) (Ne.symm hk)
        intro e he
        rcases List.mem_append.1 he with he | he
        · rw [hd] at he
          rcases List.mem_cons.1 he with e' | he
          · rw [e']; exact hlt
          · have hpd : (kp.drop r).Pairwise (fun a b => a.1 < b.1) := List.Pairwise.sublist (List.drop_sublist r kp) pp
            rw [hd] at hpd
            exact lt_trans hlt ((List.pairwise_cons.1 hpd).1 e he)
        · exact hkb e he
    · right
      have hr : r = (h.pages p).count := by omega
      have hempty : kp.drop r = [] := List.drop_of_length_le (by omega)
      refine ⟨?_, by rw [hempty]; exact hkb⟩
      rcases hst p (by simp) r (by omega) with hz0 | ⟨k, v, hv, hlive⟩
      · rw [hz0]
        show m.zeroKey ≠ key
        intro e
        have h5 := s3 0 (Nat.le_refl _) (by omega)
        simp only [decide_eq_true_eq] at h5
        rw [hitem 0 (by omega), valKey_cellOf, ← e] at h5
        have := hz kp[0] (by rw [e1, e4]; exact List.mem_append_right _ (List.mem_append_left _ (List.getElem_mem _)))
        exact absurd h5 (not_lt.2 this)
      · rw [hv]
        show k ≠ key
        intro e
        rcases hlive with hd | ⟨v', hmem⟩
        · exact hD (e ▸ hd)
        · rw [hs, e1, e4, List.map_append, List.map_append, List.mem_append, List.mem_append] at hmem
          rcases hmem with hmem | hmem | hmem
          · obtain ⟨e', he', hee⟩ := List.mem_map.1 hmem
            have : e'.1 = k := by injection hee
            exact absurd (hka e' he') (by rw [this, e]; exact lt_irrefl _)
          · obtain ⟨e', he', hee⟩ := List.mem_map.1 hmem
            have hk' : e'.1 = k := by injection hee
            obtain ⟨j, hj, hje⟩ := List.getElem_of_mem he'
            have h5 := s3 j (by omega) (by omega)
            simp only [decide_eq_true_eq] at h5
            rw [hitem j hj, valKey_cellOf, hje, hk', e] at h5
            exact lt_irrefl _ h5
          · obtain ⟨e', he', hee⟩ := List.mem_map.1 hmem
            have : e'.1 = k := by injection hee
            exact absurd (hkb e' he') (by rw [this, e]; exact lt_irrefl _)

end Abc.Vmem.Map
