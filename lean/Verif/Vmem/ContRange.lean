import Verif.Vmem.ContProps
import Verif.Vmem.MapBad

/-!
# Inserting and erasing ranges (C122, C123)

`vmem_container::insert(itr, first, last)` (`container` 385-400) and `vmem_container::erase(first, last)` (`container`
711-728).  Line numbers of `container` refer to `src/x/vmem_container.x.h`.
-/

namespace Abc.Vmem.Pages

variable {α : Type}

/-- `insert(itr, first, last)`, `container` 385-400, with the items between `first` and `last`: the heap, and whether no
exception was thrown.  `itr++` (391) comes before the item is inserted and uses the log; the loop is left when the iterator
that `insert` returns cannot be dereferenced.  The function returns the iterator it was given. -/
def insertRange (c : Cfg) (held : List Nat) (h : Heap α) (sid : Nat) (i : Itr) : List α → Heap α × Bool
  | [] => (h, true)
  | x :: xs =>
    match insert2 c held (h.check c.log) sid i x with
    | none => (h.check c.log, false)
    | some r => if r.itr.any canDeref then insertRange c held r.heap sid (cnext c.max held h sid i) xs else (r.heap, true)

/-- `erase(first, last)`, `container` 711-728: the heap and the returned iterator.  `none` if an exception is thrown or
if the loop has not ended after the given number of rounds. -/
def eraseRange (c : Cfg) (held : List Nat) : Nat → Heap α → Nat → Itr → Itr → Option (Heap α × Itr)
  | 0, _, _, _, _ => none
  | f + 1, h, sid, i, last =>
    if i = last then some (h, i)
    else if canDeref i = false then some (h, i)
    else
      match erase2 c held h sid i with
      | none => none
      | some r => eraseRange c held f r.heap sid (r.itr.getD i) last

/-! ## Insertion -/

/-- An iterator to an item a few places before on the same page. -/
theorem at_back {h : Heap α} {ps : List Nat} {p m d : Nat} {u v : List α} (a : At h ps ⟨p, m + d, .none⟩ u v) :
    d ≤ u.length ∧ At h ps ⟨p, m, .none⟩ (u.take (u.length - d)) (u.drop (u.length - d) ++ v) := by
  generalize hi : (⟨p, m + d, .none⟩ : Itr) = i at a
  cases a with
  | fin => exact absurd (congrArg Itr.edge hi) (by simp)
  | item as p2 bs k2 e hk =>
    have h1 : p = p2 := congrArg Itr.page hi
    have h2 : m + d = k2 := congrArg Itr.item hi
    subst h1 h2 e
    have hl : (contents h as ++ (pageItems (h.pages p)).take (m + d)).length = (contents h as).length + m + d := by
      simp; omega
    refine ⟨by omega, ?_⟩
    refine at_at (by omega) ?_ ?_
    · rw [hl, List.take_append, List.take_of_length_le (by omega), List.take_take]
      congr 2
      omega
    · rw [hl, List.drop_append, List.drop_of_length_le (by omega), List.nil_append, ← List.append_assoc]
      congr 1
      have e1 : (contents h as).length + m + d - d - (contents h as).length = m := by omega
      rw [e1]
      conv => rhs; rw [← List.take_append_drop (m + d) (pageItems (h.pages p))]
      rw [List.drop_append_of_le_length (by simp; omega)]

theorem at_deref {cap : Nat} {h : Heap α} {sid : Nat} {ps : List Nat} {i : Itr} {u v : List α} {y : α} (c : Cont cap h sid ps) (hcap : cap < nilItem)
    (a : At h ps i u (y :: v)) : canDeref i = true := by
  generalize hv : y :: v = v0 at a
  cases a with
  | fin => cases hv
  | item as p bs k e hk =>
    have h1 := c.own.nn p (by rw [e]; simp)
    have h2 := (c.cnt p (by rw [e]; simp)).2
    have h3 : k ≠ nilItem := by omega
    simp [canDeref, h1, h3]

theorem at_none {cap : Nat} {h : Heap α} {sid : Nat} {ps : List Nat} {p k : Nat} {u v : List α} (c : Cont cap h sid ps) (hcap : cap < nilItem)
    (a : At h ps ⟨p, k, .none⟩ u v) : k ≠ nilItem := by
  generalize hi : (⟨p, k, .none⟩ : Itr) = i at a
  cases a with
  | fin => exact absurd (congrArg Itr.edge hi) (by simp)
  | item as p2 bs k2 e hk =>
    have e1 : k = k2 := congrArg Itr.item hi
    have := (c.cnt p2 (by rw [e]; simp)).2
    omega

theorem at_shape {h : Heap α} {ps : List Nat} {i : Itr} {u v : List α} (a : At h ps i u v) (hfin : i.edge ≠ .fin) :
    i.page ∈ ps ∧ ∃ kk, i = ⟨i.page, kk, .none⟩ := by
  cases a with
  | fin => exact absurd rfl hfin
  | item as p bs kk e hk => exact ⟨by rw [e]; simp, kk, rfl⟩

/-- An insertion into a page with room: where the item goes, and what happens to the page and the state. -/
theorem insert2_room {c : Cfg} {held : List Nat} {h : Heap α} {sid : Nat} {ps fs : List Nat} {i : Itr} {u v : List α} {x : α}
    (w : World c.cap h sid ps fs) (a : At h ps i u v) (hm : held.length < c.max) (hne : ps ≠ []) (hroom : (h.pages i.page).count < c.cap) {r : Res α}
    (hr : insert2 c held h sid i x = some r) :
    r.itr = some ⟨i.page, if i.item = nilItem then (h.pages i.page).count else i.item, .none⟩ ∧
    (r.heap.pages i.page).count = (h.pages i.page).count + 1 ∧ (r.heap.states sid).back = (h.states sid).back := by
  have hp : i.page ∈ ps := by
    cases a with
    | item as p bs k e hk => rw [e]; simp
    | fin => exact getLastD_mem hne
  have hpn := w.cont.own.nn _ hp
  have hb : (h.states sid).back ≠ nil := by
    rw [w.cont.own.back]; exact w.cont.own.nn _ (getLastD_mem hne)
  unfold insert2 at hr
  split at hr
  · cases hr
  · split at hr
    · cases hr
    · unfold cinsertNostate at hr
      simp only [if_neg hpn, canLock_of hm] at hr
      rw [if_neg (by decide), if_neg (by omega)] at hr
      unfold insertWithCapacity at hr
      simp only [Option.some.injEq] at hr
      subst hr
      refine ⟨rfl, ?_, ?_⟩
      · simp [Heap.setState, Heap.check, Heap.mod]
      · simp [Heap.setState, Heap.check, Heap.mod, cinsertState, hb, Lead.default]

theorem insertRange_inv {cfg : Nat → Cfg} {max limit k : Nat} {held : List Nat} (ok : CfgOk cfg max limit) (hm : held.length + 5 < max) (hlist : ListLike (cfg k)) :
    ∀ (xs : List α) {n : Nat} {s : CSt α} {pss : Nat → List Nat} {fs : List Nat} {i : Itr}, CInv cfg s pss fs → n ≤ (s.lists k).length →
      At s.heap (pss k) i ((s.lists k).take n) ((s.lists k).drop n) →
      (xs.length ≤ 1 ∨ pss k ≠ [] ∧ (s.heap.pages i.page).count + xs.length ≤ (cfg k).cap + 1 ∧ (i.edge = .fin ∨ i.item + 1 < (s.heap.pages i.page).count)) →
      ∃ h' ys pss' fs', insertRange (cfg k) held s.heap (k + 1) i xs = (h', true) ∧
        CInv cfg ⟨h', setList s.lists k ((s.lists k).take n ++ ys ++ (s.lists k).drop n)⟩ pss' fs' ∧
        (ys = xs ∨ ∃ x, xs = ys ++ [x] ∧ limit ≤ h'.len) ∧
        (∀ kk, i = ⟨i.page, kk, .none⟩ → (s.heap.pages i.page).count + xs.length ≤ (cfg k).cap → xs ≠ [] → pss k ≠ [] →
          ys = xs ∧ At h' (pss' k) i ((s.lists k).take n) (xs ++ (s.lists k).drop n)) := by
  intro xs
  induction xs with
  | nil =>
    intro n s pss fs i v hn a _
    refine ⟨s.heap, [], pss, fs, rfl, ?_, Or.inl rfl, by simp⟩
    rw [List.append_nil, List.take_append_drop, setList_self]
    exact v
  | cons x xs ih =>
    intro n s pss fs i v hn a hroom
    have hmax := ok.hmax k
    have w := v.world k
    obtain ⟨r, hr, hcase⟩ := insert_inv (x := x) ok v hm hn a (Or.inr hlist)
    unfold insertRange
    rw [ok.log k, check_true, hr]
    simp only
    rcases hcase with ⟨h1, h2, h3⟩ | ⟨j, pss', fs', h1, h2, h3, h4, h5⟩
    · -- the file cannot grow
      have hfull : pss k ≠ [] → ¬ (s.heap.pages i.page).count < (cfg k).cap := by
        intro hne hlt
        have := (insert2_room w a (by omega) hne hlt hr).1
        rw [h2] at this
        simp [cend] at this
      rw [h2]
      have hx : xs = [] := by
        rcases hroom with hr1 | ⟨hne, hc, _⟩
        · simpa using hr1
        · have := hfull hne
          simp only [List.length_cons] at hc
          exact List.length_eq_zero_iff.1 (by omega)
      refine ⟨r.heap, [], pss, fs, by simp [canDeref, cend], ?_, Or.inr ⟨x, by simp [hx], by rw [h1]; exact h3⟩, ?_⟩
      · rw [List.append_nil, List.take_append_drop, setList_self, h1]
        exact v
      · intro kk hk hc _ hne
        simp only [List.length_cons] at hc
        exact absurd (by omega) (hfull hne)
    · have hd : r.itr.any canDeref = true := by
        rw [h1, Option.any_some]
        exact at_deref (h3.cont k) (ok.cap2 k) h5
      rw [if_pos hd]
      have hlen : ((s.lists k).take n).length = n := by simp; omega
      have hl' : setList s.lists k ((s.lists k).take n ++ x :: (s.lists k).drop n) k = (s.lists k).take n ++ x :: (s.lists k).drop n := by simp [setList]
      cases hxs : xs with
      | nil =>
        refine ⟨r.heap, [x], pss', fs', rfl, by rw [List.append_assoc]; exact h3, Or.inl rfl, ?_⟩
        intro kk hk hc _ hne
        simp only [List.length_cons, List.length_nil] at hc
        have := (insert2_room w a (by omega) hne (by omega) hr).1
        rw [h1] at this
        refine ⟨rfl, ?_⟩
        have hji : j = i := by
          rw [hk] at this
          simp only [Option.some.injEq] at this
          have hkn : kk ≠ nilItem := at_none w.cont (ok.cap2 k) (hk ▸ a)
          rw [if_neg hkn] at this
          rw [this]; exact hk.symm
        rw [← hji]
        simpa using h5
      | cons y ys =>
        rw [← hxs]
        have hlen2 : 1 ≤ xs.length := by rw [hxs]; simp
        obtain ⟨hne, hc, hpos⟩ : pss k ≠ [] ∧ (s.heap.pages i.page).count + (x :: xs).length ≤ (cfg k).cap + 1 ∧ (i.edge = .fin ∨ i.item + 1 < (s.heap.pages i.page).count) := by
          rcases hroom with hr1 | h
          · simp only [List.length_cons] at hr1; omega
          · exact h
        simp only [List.length_cons] at hc
        obtain ⟨q1, q2, q3⟩ := insert2_room w a (by omega) hne (by omega) hr
        rw [h1] at q1
        simp only [Option.some.injEq] at q1
        -- the next iterator
        have hne' : pss' k ≠ [] := by
          intro e
          have := h5.contents
          rw [e, contents_nil] at this
          simp at this
        have htk : ((s.lists k).take n ++ x :: (s.lists k).drop n).take (n + 1) = (s.lists k).take n ++ [x] := by
          rw [List.take_append, List.take_of_length_le (by omega), hlen, Nat.add_sub_cancel_left]; rfl
        have hdr : ((s.lists k).take n ++ x :: (s.lists k).drop n).drop (n + 1) = (s.lists k).drop n := by
          rw [List.drop_append, List.drop_of_length_le (by omega), hlen, Nat.add_sub_cancel_left]; rfl
        have next : At r.heap (pss' k) (cnext (cfg k).max held s.heap (k + 1) i) ((s.lists k).take n ++ [x]) ((s.lists k).drop n) ∧
            (cnext (cfg k).max held s.heap (k + 1) i).page = i.page ∧
            (i.edge = .fin ∧ (cnext (cfg k).max held s.heap (k + 1) i).edge = .fin ∨
              (∃ kk, i = ⟨i.page, kk, .none⟩ ∧ kk + 1 < (s.heap.pages i.page).count ∧ cnext (cfg k).max held s.heap (k + 1) i = ⟨i.page, kk + 1, .none⟩)) := by
          by_cases hfin : i.edge = .fin
          · obtain ⟨ip, ik, ie⟩ := i
            simp only at hfin
            subst hfin
            obtain ⟨e1, e2, e3, e4⟩ := at_inv_fin a
            have hi : (⟨ip, ik, .fin⟩ : Itr) = cend (s.heap.states (k + 1)) := by
              rw [e1, e2, cend, w.cont.own.back]
            rw [hi, next_end w.cont (ok.cap2 k) (by omega)]
            refine ⟨?_, rfl, Or.inl ⟨rfl, rfl⟩⟩
            have e5 := at_end (h3.cont k)
            have e6 : cend (r.heap.states (k + 1)) = cend (s.heap.states (k + 1)) := by unfold cend; rw [q3]
            simp only at e5
            rw [e6, h5.contents, e4] at e5
            rw [e4]
            exact e5
          · have hpos := hpos.resolve_left hfin
            obtain ⟨hmem, kk, hk⟩ := at_shape a hfin
            have hpn := w.cont.own.nn _ hmem
            have hkn : kk ≠ nilItem := at_none w.cont (ok.cap2 k) (hk ▸ a)
            have hpos' : kk + 1 < (s.heap.pages i.page).count := by rw [hk] at hpos; exact hpos
            have e1 : cnext (cfg k).max held s.heap (k + 1) i = ⟨i.page, kk + 1, .none⟩ := by
              rw [hk]
              unfold cnext
              rw [if_neg (by simp), if_neg (by simpa using hpn), canLock_of (by omega), if_neg (by decide), if_pos (by simp only; omega)]
            have e2 : j = ⟨i.page, kk, .none⟩ := by
              rw [q1, hk]
              simp only
              rw [if_neg hkn]
            have e3 := at_next (h3.cont k) (ok.cap2 k) (show held.length < max by omega) h5
            have e4 : cnext max held r.heap (k + 1) j = ⟨i.page, kk + 1, .none⟩ := by
              rw [e2]
              unfold cnext
              rw [if_neg (by simp), if_neg (by simpa using hpn), canLock_of (by omega), if_neg (by decide), if_pos (by simp only; omega)]
            simp only at e3
            rw [e4] at e3
            rw [e1]
            exact ⟨e3, rfl, Or.inr ⟨kk, hk, hpos', rfl⟩⟩
        obtain ⟨n1, n2, n3⟩ := next
        obtain ⟨h', ys', pss2, fs2, r1, r2, r3, r4⟩ := ih (n := n + 1) h3 (by show n + 1 ≤ (setList _ _ _ k).length; rw [hl']; simp; omega)
          (by show At r.heap (pss' k) _ ((setList _ _ _ k).take _) ((setList _ _ _ k).drop _); rw [hl', htk, hdr]; exact n1)
          (Or.inr ⟨hne', by rw [n2, q2]; omega, by
            rcases n3 with n3 | ⟨kk, _, n4, n5⟩
            · exact Or.inl n3.2
            · right; rw [n2, q2, n5]; simp only; omega⟩)
        simp only at r1
        refine ⟨h', x :: ys', pss2, fs2, r1, ?_, ?_, ?_⟩
        · have e1 : setList (setList s.lists k ((s.lists k).take n ++ x :: (s.lists k).drop n)) k = setList s.lists k := by
            funext l j; unfold setList; split <;> rfl
          simp only [hl', htk, hdr, e1] at r2
          simpa using r2
        · rcases r3 with r3 | ⟨z, r3, r5⟩
          · exact Or.inl (by rw [r3])
          · exact Or.inr ⟨z, by rw [r3]; rfl, r5⟩
        · intro kk hk hc2 _ _
          rcases n3 with n3 | ⟨kk2, n4, n5, n6⟩
          · rw [hk] at n3; exact absurd n3.1 (by simp)
          · obtain ⟨r5, r6⟩ := r4 (kk2 + 1) (by rw [n6]) (by rw [n2, q2]; simp only [List.length_cons] at hc2; omega) (by rw [hxs]; simp) hne'
            refine ⟨by rw [r5], ?_⟩
            simp only [n6, hl', htk, hdr] at r6
            have r7 := (at_back r6).2
            have hl3 : ((s.lists k).take n ++ [x]).length - 1 = n := by simp; omega
            rw [hl3, List.take_append_of_le_length (by omega), List.take_of_length_le (by omega), List.drop_append, List.drop_of_length_le (by omega), hlen, Nat.sub_self] at r7
            rw [n4]
            exact r7

/-- C122: after any history of calls on any number of containers in a pool, `insert(itr, first, last)` with `itr` at any
position `n` of a list, for any items.  If there is at most one item, or if the list is not empty, the page of `itr` has
room for all items but one and `itr` is `end()` or not at the last item of its page: no exception is thrown, no memory is
misused, the list reads as before with the items in order at `n` (the last item may be missing when the file cannot grow),
the other containers are unchanged; and if `itr` is at an item and the page has room for all items, the returned iterator,
which is `itr`, is the one at position `n` and gives the first of the new items.  Missing: the other
cases, in which the claim does not hold. -/
theorem C122_insert_range_partial {cfg : Nat → Cfg} {max limit : Nat} (ok : CfgOk cfg max limit) (h2 : 2 ≤ limit) (x0 : α) (os : List (COp α))
    (ho : ∀ o ∈ os, o.Ok cfg max) (k : Nat) (hk : ListLike (cfg k)) (held : List Nat) (hm : held.length + 5 < max) (n : Nat) (xs : List α) :
    let s := (CSt.init x0).run cfg os
    let i := itrAt max held s.heap (k + 1) n
    n ≤ (s.lists k).length →
    (xs.length ≤ 1 ∨ s.lists k ≠ [] ∧ (s.heap.pages i.page).count + xs.length ≤ (cfg k).cap + 1 ∧
      (n = (s.lists k).length ∨ i.item + 1 < (s.heap.pages i.page).count)) →
    ∃ h' ys, insertRange (cfg k) held s.heap (k + 1) i xs = (h', true) ∧ h'.bad = false ∧
      (ys = xs ∨ ∃ x, xs = ys ++ [x] ∧ limit ≤ h'.len) ∧
      Reads max h' k ((s.lists k).take n ++ ys ++ (s.lists k).drop n) ∧ (∀ k', k' ≠ k → Reads max h' k' (s.lists k')) ∧
      (n < (s.lists k).length → (s.heap.pages i.page).count + xs.length ≤ (cfg k).cap → xs ≠ [] →
        ys = xs ∧ ∀ held', held'.length < max → i = itrAt max held' h' (k + 1) n ∧ deref max held' h' i = xs.head?) := by
  obtain ⟨_, pss, fs, v⟩ := reachable ok h2 x0 os ho
  simp only
  generalize (CSt.init x0).run cfg os = s at *
  intro hn hroom
  have a := at_lists ok v (held := held) (by omega) k n
  generalize hi : itrAt max held s.heap (k + 1) n = i at *
  have hpn : s.lists k ≠ [] → pss k ≠ [] := by
    intro h e
    have := v.items k
    rw [e, contents_nil] at this
    exact h this.symm
  have hroom' : xs.length ≤ 1 ∨ pss k ≠ [] ∧ (s.heap.pages i.page).count + xs.length ≤ (cfg k).cap + 1 ∧ (i.edge = .fin ∨ i.item + 1 < (s.heap.pages i.page).count) := by
    rcases hroom with h | ⟨g1, g2, g3⟩
    · exact Or.inl h
    · refine Or.inr ⟨hpn g1, g2, ?_⟩
      rcases g3 with g3 | g3
      · left
        have e := at_unique (v.cont k) a (at_end (v.cont k)) (by rw [v.items k, g3]; simp)
        rw [e]; rfl
      · exact Or.inr g3
  obtain ⟨h', ys, pss', fs', r1, r2, r3, r4⟩ := insertRange_inv ok hm hk xs v hn a hroom'
  refine ⟨h', ys, r1, r2.bad, r3, ?_, ?_, ?_⟩
  · have := reads_of_inv ok r2 k
    simpa [setList] using this
  · intro k' hk'
    have := reads_of_inv ok r2 k'
    simpa [setList, hk'] using this
  · intro hlt hc hx
    have hfin : i.edge ≠ .fin := by
      intro e
      obtain ⟨ip, ik, ie⟩ := i
      simp only at e
      subst e
      have h4 := (at_inv_fin a).2.2.2
      rw [List.drop_eq_nil_iff] at h4
      omega
    obtain ⟨_, kk, hkk⟩ := at_shape a hfin
    obtain ⟨q1, q2⟩ := r4 kk hkk hc hx (hpn (by intro e; rw [e] at hlt; simp at hlt))
    refine ⟨q1, ?_⟩
    intro held' hm'
    constructor
    · refine at_unique (r2.cont k) q2 (at_lists ok r2 (held := held') hm' k n) ?_
      simp [setList]
      omega
    · cases xs with
      | nil => exact absurd rfl hx
      | cons x xs => exact deref_at (r2.cont k) (ok.cap2 k) hm' q2

/-- Container 0 with the items `0 … m - 1` pushed at the back. -/
def pushed (m : Nat) : List (COp Nat) := (List.range m).map (fun x => .push 0 [] x)

/-- What the list of `listCfg cap` with the items `0 … m - 1` looks like after `insert(itr, first, last)` at position `n`: whether
no exception was thrown, whether memory was misused, the size, the items from `begin()` (at most 30), and whether the returned
iterator is the one at position `n`. -/
def afterInsert (cap m n : Nat) (xs : List Nat) : Bool × Bool × Nat × List (Option Nat) × Bool :=
  let s := (CSt.init 0).run (fun _ => listCfg cap true) (pushed m)
  let r := insertRange (listCfg cap true) [] s.heap 1 (itrAt 16 [] s.heap 1 n) xs
  (r.2, r.1.bad, (r.1.states 1).total, cwalk 16 [] r.1 1 30 (cbegin (r.1.states 1)), decide (itrAt 16 [] s.heap 1 n = itrAt 16 [] r.1 1 n))

-- The cases of the theorem: in the middle of a page with room, at the end, one item into an empty list.
example : let s := (CSt.init 0).run (fun _ => listCfg 6 true) (pushed 3)
    (∀ o ∈ pushed 3, o.Ok (fun _ => listCfg 6 true) 16) ∧ ListLike (listCfg 6 true) ∧ s.lists 0 = [0, 1, 2] ∧
    (s.heap.pages (itrAt 16 [] s.heap 1 1).page).count + 3 ≤ 6 ∧ (itrAt 16 [] s.heap 1 1).item + 1 < (s.heap.pages (itrAt 16 [] s.heap 1 1).page).count := by
  refine ⟨?_, ?_, by decide, by decide +kernel, by decide +kernel⟩
  · intro o ho
    obtain ⟨x, _, rfl⟩ := List.mem_map.1 ho
    exact ok_of (by decide) (by simp [COp.held])
  · simp [ListLike, listCfg]
example : afterInsert 6 3 1 [7, 8, 9] = (true, false, 6, [some 0, some 7, some 8, some 9, some 1, some 2], true) := by decide +kernel
example : afterInsert 6 3 3 [7, 8, 9] = (true, false, 6, [some 0, some 1, some 2, some 7, some 8, some 9], false) := by decide +kernel
example : afterInsert 6 0 0 [7] = (true, false, 1, [some 7], false) := by decide +kernel

/-- The whole claim: while the file can grow, the items are inserted in order before `itr`. -/
def C122Full : Prop := ∀ (cap : Nat) (os : List (COp Nat)) (n : Nat) (xs : List Nat), 2 ≤ cap → cap < nilItem →
  (∀ o ∈ os, o.Ok (fun _ => listCfg cap true) 16) →
  let s := (CSt.init 0).run (fun _ => listCfg cap true) os
  n ≤ (s.lists 0).length →
  ∃ h', insertRange (listCfg cap true) [] s.heap 1 (itrAt 16 [] s.heap 1 n) xs = (h', true) ∧ h'.bad = false ∧
    (h'.len < 100 → Reads 16 h' 0 ((s.lists 0).take n ++ xs ++ (s.lists 0).drop n))

/-- It does not hold: into an empty list of at least two items only the first is inserted, then an exception is thrown. -/
theorem C122_violated : ¬ C122Full := by
  intro h
  obtain ⟨h', e, _⟩ := h 2 [] 0 [7, 8] (by decide) (by decide) (by simp) (by decide)
  have e1 := congrArg Prod.snd e
  simp only at e1
  revert e1
  decide +kernel

/-- The order is wrong when `itr` is at the last item of its page (also for `begin()` of a list of one item), at `end()` when the page
overflows before the last of the items is inserted, and in the middle of a page that is split. -/
theorem C122_violated_order :
    afterInsert 4 1 0 [7, 8] = (true, false, 3, [some 7, some 0, some 8], true) ∧
    afterInsert 4 4 4 [7, 8, 9] = (true, false, 7, [some 0, some 1, some 2, some 3, some 8, some 9, some 7], false) ∧
    afterInsert 4 4 1 [7, 8, 9] = (true, false, 7, [some 0, some 7, some 8, some 1, some 9, some 2, some 3], true) ∧
    afterInsert 4 4 3 [7, 8, 9] = (true, false, 7, [some 0, some 1, some 8, some 9, some 2, some 7, some 3], false) :=
  ⟨by decide +kernel, by decide +kernel, by decide +kernel, by decide +kernel⟩

/-- Memory is misused when the page of `itr` is split: the next item is inserted at a place beyond the number of items left on the page, and
the number of items to be moved wraps around. -/
theorem C122_violated_memory : (afterInsert 6 6 4 [7, 8]).2.1 = true ∧ (afterInsert 6 6 4 [7]).2.1 = false := by
  decide +kernel

/-- The returned iterator is `end()`, not the first of the items, when the items are inserted at `end()`: it can not be dereferenced, for
any list and any items. -/
theorem C122_violated_iterator {cfg : Nat → Cfg} {max limit : Nat} (ok : CfgOk cfg max limit) (h2 : 2 ≤ limit) (x0 : α) (os : List (COp α))
    (ho : ∀ o ∈ os, o.Ok cfg max) (k : Nat) (held : List Nat) (hm : held.length < max) :
    let s := (CSt.init x0).run cfg os
    canDeref (itrAt max held s.heap (k + 1) (s.lists k).length) = false := by
  obtain ⟨_, pss, fs, v⟩ := reachable ok h2 x0 os ho
  simp only
  generalize (CSt.init x0).run cfg os = s at *
  have a := at_lists ok v (held := held) hm k (s.lists k).length
  have e := at_unique (v.cont k) a (at_end (v.cont k)) (by rw [v.items k]; simp)
  rw [e]
  simp [canDeref, cend]

/-- Without a log memory is misused by every insertion of at least one item: `itr++` uses the log without a check
(`src/x/vmem_iterator.x.h` 168-179). -/
theorem C122_violated_log {c : Cfg} (hl : c.log = false) (held : List Nat) (h : Heap α) (sid : Nat) (i : Itr) (x : α) (xs : List α) :
    (insertRange c held h sid i (x :: xs)).1.bad = true := by
  have key : ∀ (xs : List α) (h : Heap α) (i : Itr), h.bad = true → (insertRange c held h sid i xs).1.bad = true := by
    intro xs
    induction xs with
    | nil => intro h i hb; exact hb
    | cons x xs ih =>
      intro h i hb
      unfold insertRange
      split
      · exact check_bad _ hb
      · rename_i r e
        have hr := insert2_bad (check_bad _ hb) e
        split
        · exact ih _ _ hr
        · exact hr
  have h1 : (h.check c.log).bad = true := by rw [hl]; simp [Heap.check]
  unfold insertRange
  split
  · exact h1
  · rename_i r e
    have hr := insert2_bad h1 e
    split
    · exact key _ _ _ hr
    · exact hr

-- A list without a log, with room on its page: everything else is as it should be.
example : let s := (CSt.init 0).run (fun _ => listCfg 6 false) (pushed 3)
    s.heap.bad = false ∧ (insertRange (listCfg 6 false) [] s.heap 1 (itrAt 16 [] s.heap 1 1) [7]).2 = true := by
  decide +kernel

/-! ## Erasure -/

/-- The first page stays and no page loses items. -/
def Grow (h h' : Heap α) (sid : Nat) : Prop := (h'.states sid).front = (h.states sid).front ∧ ∀ t, (h.pages t).count ≤ (h'.pages t).count

theorem merge_grow {c : Cfg} {held : List Nat} {h : Heap α} {sid p q : Nat} {as bs fs : List Nat} (hm : held.length + 4 < c.max)
    (w : World c.cap h sid (as ++ p :: q :: bs) fs) (hfit : (h.pages p).count + (h.pages q).count ≤ c.cap) :
    World c.cap (erasePage c held (appendItems h p q) sid q) sid (as ++ p :: bs) [q] ∧ Grow h (erasePage c held (appendItems h p q) sid q) sid := by
  obtain ⟨m1, m2, m3, m4, m5, m6⟩ := merge_spec (c := c) (held := held) 0 hm w hfit
  refine ⟨Step.world w m2 m1, ?_, ?_⟩
  · rw [m1.own.front, w.cont.own.front]
    cases as <;> rfl
  · intro t
    by_cases ht : t = p
    · rw [ht, m5]; omega
    · have := congrArg List.length (m6 t ht)
      simp at this
      omega

theorem balanceMerge_grow {c : Cfg} {held : List Nat} {g : Heap α} {sid p : Nat} {as bs fs : List Nat} {i : Itr}
    (w : World c.cap g sid (as ++ p :: bs) fs) (hm : held.length + 5 < c.max) : Grow g (balanceMerge c held g sid i p).heap sid := by
  have own := w.cont.own
  have stage : ∃ (r1 : Res α) (bs1 fs1 : List Nat), r1 = (if (g.pages p).next = nil then ⟨g, some i, .default, .default⟩ else mergeNext c (p :: held) g sid i p) ∧
      World c.cap r1.heap sid (as ++ p :: bs1) fs1 ∧ Grow g r1.heap sid := by
    have hnx := next_eq own
    cases hbs : bs with
    | nil =>
      rw [hbs] at hnx w
      refine ⟨_, [], fs, rfl, ?_⟩
      rw [if_pos (show (g.pages p).next = nil from hnx)]
      exact ⟨w, rfl, fun _ => Nat.le_refl _⟩
    | cons b bs' =>
      rw [hbs] at hnx w
      have hb : (g.pages p).next = b := hnx
      have hnn : (g.pages p).next ≠ nil := by rw [hnx]; exact own.nn b (by rw [hbs]; simp)
      by_cases hfit : (g.pages p).count + (g.pages b).count ≤ c.cap
      · obtain ⟨m1, m2⟩ := merge_grow (held := p :: held) (by simp; omega) w hfit
        refine ⟨_, bs', [b], rfl, ?_⟩
        rw [if_neg hnn]
        unfold mergeNext
        simp only
        rw [hb, canLock_of (by simp; omega), if_neg (by decide), if_pos hfit]
        exact ⟨m1, m2⟩
      · refine ⟨_, b :: bs', fs, rfl, ?_⟩
        rw [if_neg hnn]
        unfold mergeNext
        simp only
        rw [hb, canLock_of (by simp; omega), if_neg (by decide), if_neg hfit]
        exact ⟨w, rfl, fun _ => Nat.le_refl _⟩
  obtain ⟨r1, bs1, fs1, hr1, w1, g1⟩ := stage
  unfold balanceMerge
  simp only
  rw [← hr1]
  have hpv := prev_eq w1.cont.own
  rcases List.eq_nil_or_concat as with e | ⟨as0, n, e⟩
  · subst e
    rw [if_pos (show (r1.heap.pages p).prev = nil from hpv)]
    exact g1
  · rw [List.concat_eq_append] at e
    subst e
    rw [getLastD_append nil nil (by simp)] at hpv
    have hpn : (r1.heap.pages p).prev = n := hpv
    rw [if_neg (by rw [hpn]; exact own.nn n (by simp))]
    have hsh : (as0 ++ [n]) ++ p :: bs1 = as0 ++ n :: p :: bs1 := by simp
    rw [hsh] at w1
    unfold mergePrev
    simp only
    rw [hpn, canLock_of (by simp; omega), if_neg (by decide)]
    split
    · rename_i hfit
      obtain ⟨_, m2⟩ := merge_grow (held := n :: held) (by simp; omega) w1 (by omega)
      exact ⟨m2.1.trans g1.1, fun t => Nat.le_trans (g1.2 t) (m2.2 t)⟩
    · exact g1

/-- What an erasure does to the first page and to the number of items on the pages. -/
theorem erase2_grow {c : Cfg} {held : List Nat} {h : Heap α} {sid : Nat} {as bs fs : List Nat} {p k : Nat} {r : Res α}
    (w : World c.cap h sid (as ++ p :: bs) fs) (hm : held.length + 5 < c.max) (hk : k < (h.pages p).count)
    (hfr : as = [] → 1 < (h.pages p).count) (hr : erase2 c held h sid ⟨p, k, .none⟩ = some r) :
    (r.heap.states sid).front = (h.states sid).front ∧ ∀ t, (h.pages t).count ≤ (r.heap.pages t).count + (if t = p then 1 else 0) := by
  have key : ((ceraseNostate c held h sid ⟨p, k, .none⟩).heap.states sid).front = (h.states sid).front ∧
      ∀ t, (h.pages t).count ≤ ((ceraseNostate c held h sid ⟨p, k, .none⟩).heap.pages t).count + (if t = p then 1 else 0) := by
    unfold ceraseNostate
    simp only
    rw [canLock_of (by omega), if_neg (by decide)]
    by_cases hmany : 1 < (h.pages p).count
    · rw [if_pos hmany]
      obtain ⟨i1, h1, h2, h3, h4, h5, h6, _⟩ := eraseFromMany_spec 0 w hk hmany
      have w2 := Step.world w h3 h2
      have base : ∀ t, (h.pages t).count ≤ ((eraseFromMany h sid ⟨p, k, .none⟩).heap.pages t).count + (if t = p then 1 else 0) := by
        intro t
        by_cases ht : t = p
        · rw [ht, h5, if_pos rfl]; omega
        · rw [h6 t ht]; omega
      split
      · obtain ⟨b1, b2⟩ := balanceMerge_grow (held := held) (i := (eraseFromMany h sid ⟨p, k, .none⟩).itr.getD ⟨p, k, .none⟩) w2 hm
        simp only
        refine ⟨by rw [b1, h4], fun t => ?_⟩
        have := b2 t
        have := base t
        omega
      · exact ⟨by rw [h4], base⟩
    · rw [if_neg hmany]
      obtain ⟨e1, e2, _⟩ := erasePage_spec (c := c) (held := held) 0 (by omega) w.sid w.cont.own w.free w.disj
      simp only
      constructor
      · rw [e1.front, w.cont.own.front]
        cases as with
        | nil => exact absurd (hfr rfl) hmany
        | cons a as => rfl
      · intro t
        rw [(e2 t).1]; omega
  unfold erase2 at hr
  split at hr
  · cases hr
  · simp only at hr
    split at hr <;> (cases hr; simp only)
    · rw [setState_same]; exact key
    · exact key

theorem at_stop {h : Heap α} {ps : List Nat} {i : Itr} {u : List α} (a : At h ps i u []) : canDeref i = false := by
  generalize hv : ([] : List α) = v0 at a
  cases a with
  | fin => simp [canDeref]
  | item as p bs k e hk =>
    have := congrArg List.length hv
    simp at this
    omega

theorem eraseRange_stop {c : Cfg} {held : List Nat} {f : Nat} {h : Heap α} {sid : Nat} {i last : Itr} (hi : canDeref i = false) :
    eraseRange c held (f + 1) h sid i last = some (h, i) := by
  unfold eraseRange
  split
  · rfl
  · rfl

/-- An iterator on the first page, or at the first item of the second one. -/
theorem at_front {cap : Nat} {h : Heap α} {sid : Nat} {as bs : List Nat} {p k n : Nat} (c : Cont cap h sid (as ++ p :: bs))
    (hn : n = (contents h as).length + k) (hf : n ≤ (h.pages (h.states sid).front).count) :
    (as = [] ∧ k = n) ∨ ∃ a, as = [a] ∧ k = 0 := by
  cases as with
  | nil => left; simp at hn; exact ⟨rfl, hn.symm⟩
  | cons a as =>
    right
    rw [c.own.front] at hf
    simp only [List.cons_append, List.headD_cons] at hf
    rw [contents_cons] at hn
    simp only [List.length_append, pageItems_length] at hn
    cases as with
    | nil => exact ⟨a, rfl, by simp at hn; omega⟩
    | cons b as =>
      have := (c.cnt b (by simp)).1
      rw [contents_cons] at hn
      simp only [List.length_append, pageItems_length] at hn
      omega

theorem eraseRange_front {cfg : Nat → Cfg} {max limit k n : Nat} {held : List Nat} {last : Itr} (ok : CfgOk cfg max limit) (hm : held.length + 5 < max)
    (hlast : n < last.item) :
    ∀ (d : Nat) {s : CSt α} {pss : Nat → List Nat} {fs : List Nat} {i : Itr} (f : Nat), CInv cfg s pss fs → n + d = (s.lists k).length →
      At s.heap (pss k) i ((s.lists k).take n) ((s.lists k).drop n) → (0 < n → n ≤ (s.heap.pages (s.heap.states (k + 1)).front).count) → d < f →
      ∃ h' j pss' fs', eraseRange (cfg k) held f s.heap (k + 1) i last = some (h', j) ∧ canDeref j = false ∧
        CInv cfg ⟨h', setList s.lists k ((s.lists k).take n)⟩ pss' fs' := by
  intro d
  induction d with
  | zero =>
    intro s pss fs i f v hd a hf hfu
    obtain ⟨f, rfl⟩ : ∃ g, f = g + 1 := ⟨f - 1, by omega⟩
    rw [List.drop_of_length_le (by omega)] at a
    refine ⟨s.heap, i, pss, fs, eraseRange_stop (at_stop a), at_stop a, ?_⟩
    rw [List.take_of_length_le (by omega), setList_self]
    exact v
  | succ d ih =>
    intro s pss fs i f v hd a hf hfu
    obtain ⟨f, rfl⟩ : ∃ g, f = g + 1 := ⟨f - 1, by omega⟩
    have hlt : n < (s.lists k).length := by omega
    have w := v.world k
    have hmax := ok.hmax k
    obtain ⟨r, j, pss', fs', e1, e2, e3, e4, e5⟩ := erase_inv ok v hm hlt a
    have hder : canDeref i = true := by
      rw [← List.getElem_cons_drop hlt] at a
      exact at_deref w.cont (ok.cap2 k) a
    have hfin : i.edge ≠ .fin := by
      intro e
      unfold canDeref at hder
      rw [e] at hder
      simp at hder
    obtain ⟨hmem, kk, hi⟩ := at_shape a hfin
    obtain ⟨as, bs, hps⟩ := List.append_of_mem hmem
    generalize hp : i.page = p at *
    subst hi
    have a' := a
    rw [hps] at a' w
    obtain ⟨hk, hu, hv⟩ := at_inv w.cont.own.nodup a'
    have hnl : n = (contents s.heap as).length + kk := by
      have := congrArg List.length hu
      simp at this
      omega
    have shape : (as = [] ∧ kk = n) ∨ ∃ a, as = [a] ∧ kk = 0 := by
      by_cases h0 : 0 < n
      · exact at_front w.cont hnl (hf h0)
      · left
        cases as with
        | nil => exact ⟨rfl, by omega⟩
        | cons b as =>
          have := (w.cont.cnt b (by simp)).1
          rw [contents_cons] at hnl
          simp only [List.length_append, pageItems_length] at hnl
          omega
    have hne : (⟨p, kk, .none⟩ : Itr) ≠ last := by
      intro e
      rw [← e] at hlast
      rcases shape with ⟨_, e⟩ | ⟨_, _, e⟩ <;> simp only at hlast <;> omega
    have hgrow : 0 < n → n ≤ (r.heap.pages (r.heap.states (k + 1)).front).count := by
      intro h0
      have hg := erase2_grow w (by rw [hmax]; exact hm) hk (fun e => by
        rcases shape with ⟨_, e2⟩ | ⟨_, e2, _⟩
        · omega
        · rw [e] at e2; cases e2) e1
      rw [hg.1]
      have h1 := hg.2 (s.heap.states (k + 1)).front
      have h2 := hf h0
      rcases shape with ⟨e, e2⟩ | ⟨b, e, e2⟩
      · have hfp : (s.heap.states (k + 1)).front = p := by rw [w.cont.own.front, e]; rfl
        rw [hfp] at h1 h2 ⊢
        rw [if_pos rfl] at h1
        omega
      · have hfp : (s.heap.states (k + 1)).front ≠ p := by
          rw [w.cont.own.front, e]
          have hnd := w.cont.own.nodup
          rw [e] at hnd
          simp at hnd
          simpa using hnd.1.1
        rw [if_neg hfp] at h1
        omega
    unfold eraseRange
    rw [if_neg hne, hder, if_neg (by decide), e1]
    simp only
    rw [e2, Option.getD_some]
    have hl' : setList s.lists k ((s.lists k).eraseIdx n) k = (s.lists k).eraseIdx n := by simp [setList]
    have htk : ((s.lists k).eraseIdx n).take n = (s.lists k).take n := by
      rw [List.eraseIdx_eq_take_drop_succ, List.take_append_of_le_length (by simp; omega), List.take_take, Nat.min_self]
    have hdr : ((s.lists k).eraseIdx n).drop n = (s.lists k).drop (n + 1) := by
      have h1 : ((s.lists k).take n).length = n := by simp; omega
      rw [List.eraseIdx_eq_take_drop_succ, List.drop_append, List.drop_of_length_le (by omega), h1, Nat.sub_self]; rfl
    have e0 : setList (setList s.lists k ((s.lists k).eraseIdx n)) k = setList s.lists k := by
      funext l j; unfold setList; split <;> rfl
    have hlen : ((s.lists k).eraseIdx n).length = (s.lists k).length - 1 := by rw [List.length_eraseIdx, if_pos hlt]
    by_cases hg : ErGood (cfg k) s.heap ⟨p, kk, .none⟩
    · obtain ⟨h', j', pss2, fs2, q1, q2, q3⟩ := ih f e3 (by show n + d = (setList _ _ _ k).length; rw [hl', hlen]; omega)
        (by show At r.heap (pss' k) j ((setList _ _ _ k).take n) ((setList _ _ _ k).drop n); rw [hl', htk, hdr]; exact e5 hg) hgrow (by omega)
      simp only [hl', htk, e0] at q3
      exact ⟨h', j', pss2, fs2, q1, q2, q3⟩
    · -- the only item of the last page
      have hc1 : (s.heap.pages p).count = 1 := by
        by_contra hc
        apply hg
        left
        refine ⟨by show 1 < (s.heap.pages p).count; omega, ?_⟩
        rcases shape with ⟨e, _⟩ | ⟨_, _, e⟩
        · right; right; left
          have := prev_eq w.cont.own
          rw [e] at this
          exact this
        · left
          show kk + 1 < (s.heap.pages p).count
          omega
      have hnx : (s.heap.pages p).next = nil := by
        by_contra hc
        exact hg (Or.inr ⟨hc1, hc⟩)
      have hbs : bs = [] := by
        have := next_eq w.cont.own
        cases bs with
        | nil => rfl
        | cons b bs => rw [hnx] at this; exact absurd this.symm (w.cont.own.nn b (by simp))
      have hj : canDeref j = false := by
        have : r.itr = some (cend (s.heap.states (k + 1))) := by
          unfold erase2 at e1
          rw [hder, if_neg (by decide)] at e1
          unfold ceraseNostate at e1
          simp only at e1
          rw [canLock_of (by omega), if_neg (by decide), if_neg (by omega), if_pos hnx] at e1
          cases e1
          rfl
        rw [e2] at this
        rw [Option.some.inj this]
        simp [canDeref, cend]
      obtain ⟨f, rfl⟩ : ∃ g, f = g + 1 := ⟨f - 1, by omega⟩
      refine ⟨r.heap, j, pss', fs', eraseRange_stop hj, hj, ?_⟩
      have hl1 : (s.lists k).drop n = (s.lists k).drop n := rfl
      have hd1 : (s.lists k).length = n + 1 := by
        have := congrArg List.length hv
        rw [hbs] at this
        simp at this
        omega
      have : (s.lists k).eraseIdx n = (s.lists k).take n := by
        rw [List.eraseIdx_eq_take_drop_succ, List.drop_of_length_le (by omega), List.append_nil]
      rw [← this]
      exact e3

/-- Erasing an item of the first page when this page and the next one do not fit in one page. -/
theorem erase2_apart {c : Cfg} {held : List Nat} {h : Heap α} {sid : Nat} {p k : Nat} {r : Res α} (hm : held.length + 5 < c.max)
    (hp : (h.pages p).prev = nil) (hnn : (h.pages p).next ≠ nil) (hnp : (h.pages p).next ≠ p) (hk : k < (h.pages p).count)
    (hc : c.cap < k + (h.pages (h.pages p).next).count) (hr : erase2 c held h sid ⟨p, k, .none⟩ = some r) :
    r.itr = some (if k + 1 < (h.pages p).count then ⟨p, k, .none⟩ else ⟨(h.pages p).next, 0, .none⟩) ∧
    (1 < (h.pages p).count → (r.heap.states sid).front = (h.states sid).front ∧ (r.heap.pages p).count = (h.pages p).count - 1 ∧
      (r.heap.pages p).next = (h.pages p).next ∧ r.heap.pages (h.pages p).next = h.pages (h.pages p).next) := by
  have key : ((ceraseNostate c held h sid ⟨p, k, .none⟩).itr = some (if k + 1 < (h.pages p).count then ⟨p, k, .none⟩ else ⟨(h.pages p).next, 0, .none⟩)) ∧
      (1 < (h.pages p).count → (ceraseNostate c held h sid ⟨p, k, .none⟩).heap = (eraseFromMany h sid ⟨p, k, .none⟩).heap) := by
    unfold ceraseNostate
    simp only
    rw [canLock_of (by omega), if_neg (by decide)]
    by_cases hmany : 1 < (h.pages p).count
    · rw [if_pos hmany]
      have hit : (eraseFromMany h sid ⟨p, k, .none⟩).itr = some (if k + 1 < (h.pages p).count then ⟨p, k, .none⟩ else ⟨(h.pages p).next, 0, .none⟩) := by
        unfold eraseFromMany
        simp only
        by_cases hl : k < (h.pages p).count - 1
        · rw [if_pos hl, if_pos (show k + 1 < (h.pages p).count by omega)]
        · rw [if_neg hl, if_neg (show ¬ k + 1 < (h.pages p).count by omega), if_neg hnn]
      split
      · rw [hit, Option.getD_some]
        have hpg : ((eraseFromMany h sid ⟨p, k, .none⟩).heap.pages p).next = (h.pages p).next ∧ ((eraseFromMany h sid ⟨p, k, .none⟩).heap.pages p).prev = nil ∧
            ((eraseFromMany h sid ⟨p, k, .none⟩).heap.pages p).count = (h.pages p).count - 1 ∧
            (eraseFromMany h sid ⟨p, k, .none⟩).heap.pages (h.pages p).next = h.pages (h.pages p).next := by
          unfold eraseFromMany
          simp only
          split
          · exact ⟨by rw [mod_pages_same], by rw [mod_pages_same]; exact hp, by rw [mod_pages_same], by simp [Heap.mod, hnp]⟩
          · exact ⟨by rw [mod_pages_same], by rw [mod_pages_same]; exact hp, by rw [mod_pages_same], by simp [Heap.mod, hnp]⟩
        obtain ⟨g1, g2, g3, g4⟩ := hpg
        have hb : ∀ i, balanceMerge c held (eraseFromMany h sid ⟨p, k, .none⟩).heap sid i p = ⟨(eraseFromMany h sid ⟨p, k, .none⟩).heap, some i, .default, .default⟩ := by
          intro i
          have hmn : mergeNext c (p :: held) (eraseFromMany h sid ⟨p, k, .none⟩).heap sid i p = ⟨(eraseFromMany h sid ⟨p, k, .none⟩).heap, some i, .default, .default⟩ := by
            unfold mergeNext
            simp only
            rw [g1, canLock_of (by simp; omega), if_neg (by decide), g3, g4, if_neg (by omega)]
          unfold balanceMerge
          simp only
          rw [hmn, g1, if_neg hnn]
          simp only
          rw [g2, if_pos rfl]
        rw [hb]
        exact ⟨rfl, fun _ => rfl⟩
      · exact ⟨hit, fun _ => rfl⟩
    · rw [if_neg hmany, if_neg hnn, if_neg (by omega)]
      exact ⟨rfl, fun h => absurd h hmany⟩
  unfold erase2 at hr
  split at hr
  · cases hr
  · simp only at hr
    rw [key.1] at hr
    cases hr
    refine ⟨rfl, fun hmany => ?_⟩
    simp only
    rw [setState_same, key.2 hmany]
    unfold eraseFromMany
    simp only
    split
    · exact ⟨rfl, by simp [Heap.mod, Heap.setState], by simp [Heap.mod, Heap.setState], by simp [Heap.mod, Heap.setState, hnp]⟩
    · exact ⟨rfl, by simp [Heap.mod, Heap.setState], by simp [Heap.mod, Heap.setState], by simp [Heap.mod, Heap.setState, hnp]⟩

theorem eraseRange_page {cfg : Nat → Cfg} {max limit k n p b : Nat} {held : List Nat} (ok : CfgOk cfg max limit) (hm : held.length + 5 < max) :
    ∀ (d : Nat) {s : CSt α} {pss : Nat → List Nat} {fs : List Nat} (f : Nat), CInv cfg s pss fs → (s.heap.states (k + 1)).front = p → p ≠ nil →
      (s.heap.pages p).next = b → b ≠ nil → n + (d + 1) = (s.heap.pages p).count → (cfg k).cap < n + (s.heap.pages b).count → d + 1 < f →
      ∃ h' pss' fs', eraseRange (cfg k) held f s.heap (k + 1) ⟨p, n, .none⟩ ⟨b, 0, .none⟩ = some (h', ⟨b, 0, .none⟩) ∧
        CInv cfg ⟨h', setList s.lists k ((s.lists k).take n ++ (s.lists k).drop (n + (d + 1)))⟩ pss' fs' ∧
        At h' (pss' k) ⟨b, 0, .none⟩ ((s.lists k).take n) ((s.lists k).drop (n + (d + 1))) := by
  have base : ∀ {s : CSt α} {pss : Nat → List Nat} {fs : List Nat}, CInv cfg s pss fs → (s.heap.states (k + 1)).front = p → p ≠ nil →
      (s.heap.pages p).next = b → b ≠ nil → n < (s.heap.pages p).count → (cfg k).cap < n + (s.heap.pages b).count →
      ∃ r pss' fs', erase2 (cfg k) held s.heap (k + 1) ⟨p, n, .none⟩ = some r ∧
        r.itr = some (if n + 1 < (s.heap.pages p).count then ⟨p, n, .none⟩ else ⟨b, 0, .none⟩) ∧
        CInv cfg ⟨r.heap, setList s.lists k ((s.lists k).eraseIdx n)⟩ pss' fs' ∧
        At r.heap (pss' k) (if n + 1 < (s.heap.pages p).count then ⟨p, n, .none⟩ else ⟨b, 0, .none⟩) ((s.lists k).take n) ((s.lists k).drop (n + 1)) ∧
        n < (s.lists k).length ∧ canDeref ⟨p, n, .none⟩ = true ∧ p ≠ b ∧
        (1 < (s.heap.pages p).count → (r.heap.states (k + 1)).front = p ∧ (r.heap.pages p).count = (s.heap.pages p).count - 1 ∧
          (r.heap.pages p).next = b ∧ r.heap.pages b = s.heap.pages b) := by
    intro s pss fs v hfr hpn hnx hbn hd hc
    have w := v.world k
    have own := w.cont.own
    obtain ⟨bs, hps⟩ : ∃ bs, pss k = p :: b :: bs := by
      have h1 := own.front
      rw [hfr] at h1
      cases hq : pss k with
      | nil => rw [hq] at h1; exact absurd h1 hpn
      | cons p2 bs =>
        rw [hq] at h1 own
        have h1 : p = p2 := h1
        subst h1
        have h2 := next_eq (as := []) own
        rw [hnx] at h2
        cases bs with
        | nil => exact absurd h2 hbn
        | cons b2 bs => exact ⟨bs, by rw [show b = b2 from h2]⟩
    rw [hps] at w
    have own := w.cont.own
    have hpb : p ≠ b := by
      have := own.nodup
      simp at this
      exact this.1.1
    have hl : s.lists k = pageItems (s.heap.pages p) ++ contents s.heap (b :: bs) := by
      rw [← v.items k, hps, contents_cons]
    have a : At s.heap ([] ++ p :: (b :: bs)) ⟨p, n, .none⟩ ((s.lists k).take n) ((s.lists k).drop n) := by
      refine at_at hd ?_ ?_
      · rw [hl, List.take_append_of_le_length (by simp; omega)]; rfl
      · rw [hl, List.drop_append_of_le_length (by simp; omega)]
    have hlt : n < (s.lists k).length := by rw [hl]; simp; omega
    have hder : canDeref ⟨p, n, .none⟩ = true := by
      have h2 := (w.cont.cnt p (by simp)).2
      have h3 := ok.cap2 k
      have h4 : n ≠ nilItem := by omega
      simp [canDeref, hpn, h4]
    have hprev : (s.heap.pages p).prev = nil := prev_eq (as := []) own
    obtain ⟨r, j, pss', fs', e1, e2, e3, e4, e5⟩ := erase_inv ok v hm hlt (by rw [hps]; exact a)
    obtain ⟨q1, q2⟩ := erase2_apart (by rw [ok.hmax]; exact hm) hprev (by rw [hnx]; exact hbn) (by rw [hnx]; exact fun e => hpb e.symm) hd (by rw [hnx]; exact hc) e1
    rw [hnx] at q1 q2
    refine ⟨r, pss', fs', e1, q1, e3, ?_, hlt, hder, hpb, by rw [hfr] at q2; exact q2⟩
    rw [e2] at q1
    rw [← Option.some.inj q1]
    apply e5
    by_cases hmany : 1 < (s.heap.pages p).count
    · exact Or.inl ⟨hmany, Or.inr (Or.inr (Or.inl hprev))⟩
    · exact Or.inr ⟨by show (s.heap.pages p).count = 1; omega, by show (s.heap.pages p).next ≠ nil; rw [hnx]; exact hbn⟩
  intro d
  induction d with
  | zero =>
    intro s pss fs f v hfr hpn hnx hbn hd hc hfu
    obtain ⟨f, rfl⟩ : ∃ g, f = g + 2 := ⟨f - 2, by omega⟩
    obtain ⟨r, pss', fs', e1, e2, e3, e4, e5, e6, e7, e8⟩ := base v hfr hpn hnx hbn (by omega) hc
    rw [if_neg (by omega)] at e2 e4
    refine ⟨r.heap, pss', fs', ?_, ?_, e4⟩
    · unfold eraseRange
      rw [if_neg (by intro e; exact e7 (congrArg Itr.page e)), e6, if_neg (by decide), e1]
      simp only
      rw [e2, Option.getD_some]
      unfold eraseRange
      rw [if_pos rfl]
    · rw [← List.eraseIdx_eq_take_drop_succ]; exact e3
  | succ d ih =>
    intro s pss fs f v hfr hpn hnx hbn hd hc hfu
    obtain ⟨f, rfl⟩ : ∃ g, f = g + 1 := ⟨f - 1, by omega⟩
    obtain ⟨r, pss', fs', e1, e2, e3, e4, e5, e6, e7, e8⟩ := base v hfr hpn hnx hbn (by omega) hc
    obtain ⟨g1, g2, g3, g4⟩ := e8 (by omega)
    rw [if_pos (by omega)] at e2 e4
    have hl' : setList s.lists k ((s.lists k).eraseIdx n) k = (s.lists k).eraseIdx n := by simp [setList]
    have hn : ((s.lists k).take n).length = n := by simp; omega
    have htk : ((s.lists k).eraseIdx n).take n = (s.lists k).take n := by
      rw [List.eraseIdx_eq_take_drop_succ, List.take_append_of_le_length (by omega), List.take_take, Nat.min_self]
    have hdr : ((s.lists k).eraseIdx n).drop (n + (d + 1)) = (s.lists k).drop (n + (d + 1 + 1)) := by
      rw [List.eraseIdx_eq_take_drop_succ, List.drop_append, List.drop_of_length_le (by omega), hn, List.drop_drop, List.nil_append]
      congr 1
      omega
    have e0 : setList (setList s.lists k ((s.lists k).eraseIdx n)) k = setList s.lists k := by
      funext l j; unfold setList; split <;> rfl
    obtain ⟨h', pss2, fs2, q1, q2, q3⟩ := ih (s := ⟨r.heap, _⟩) f e3 g1 hpn g3 hbn (by show n + (d + 1) = (r.heap.pages p).count; rw [g2]; omega)
      (by show (cfg k).cap < n + (r.heap.pages b).count; rw [g4]; exact hc) (by omega)
    simp only [hl', htk, hdr, e0] at q2 q3
    refine ⟨h', pss2, fs2, ?_, q2, q3⟩
    unfold eraseRange
    rw [if_neg (by intro e; exact e7 (congrArg Itr.page e)), e6, if_neg (by decide), e1]
    simp only
    rw [e2, Option.getD_some]
    exact q1

theorem cont_front {cap : Nat} {h : Heap α} {sid : Nat} {ps : List Nat} (c : Cont cap h sid ps) (hne : contents h ps ≠ []) :
    ∃ bs, ps = (h.states sid).front :: bs ∧ (h.states sid).front ≠ nil ∧ (h.pages (h.states sid).front).count ≤ cap := by
  cases ps with
  | nil => exact absurd rfl hne
  | cons p bs =>
    have e : (h.states sid).front = p := c.own.front
    rw [e]
    exact ⟨bs, rfl, c.own.nn p (by simp), (c.cnt p (by simp)).2⟩

/-- The iterator at a position on the first page. -/
theorem itrAt_front {cfg : Nat → Cfg} {max limit k n : Nat} {held : List Nat} {s : CSt α} {pss : Nat → List Nat} {fs : List Nat} (ok : CfgOk cfg max limit)
    (v : CInv cfg s pss fs) (hm : held.length < max) (hn : n < (s.lists k).length) (hf : n < (s.heap.pages (s.heap.states (k + 1)).front).count) :
    itrAt max held s.heap (k + 1) n = ⟨(s.heap.states (k + 1)).front, n, .none⟩ := by
  have hne : contents s.heap (pss k) ≠ [] := by rw [v.items k]; intro e; rw [e] at hn; simp at hn
  obtain ⟨bs, hps, _, _⟩ := cont_front (v.cont k) hne
  have hl : s.lists k = pageItems (s.heap.pages (s.heap.states (k + 1)).front) ++ contents s.heap bs := by
    rw [← v.items k, hps, contents_cons]
  refine at_unique (v.cont k) (at_lists ok v hm k n) (u' := (s.lists k).take n) (v' := (s.lists k).drop n) ?_ rfl
  have : At s.heap ([] ++ (s.heap.states (k + 1)).front :: bs) ⟨(s.heap.states (k + 1)).front, n, .none⟩ ((s.lists k).take n) ((s.lists k).drop n) := by
    refine at_at hf ?_ ?_
    · rw [hl, List.take_append_of_le_length (by simp; omega)]; rfl
    · rw [hl, List.drop_append_of_le_length (by simp; omega)]
  rw [hps]
  exact this

/-- C123, `erase(first, end())`: after any history of calls, if `first` is `begin()`, another position of the first page or the position behind it, the
loop ends after at most one round per item and one more, no exception is thrown, no memory is misused, exactly the items before `first` are
left, with the right size, and the other containers are unchanged; the returned iterator can not be dereferenced.  In particular
`erase(begin(), end())` empties any container.  Missing: `first` on a later page, where the claim does not hold. -/
theorem C123_to_end_partial {cfg : Nat → Cfg} {max limit : Nat} (ok : CfgOk cfg max limit) (h2 : 2 ≤ limit) (x0 : α) (os : List (COp α))
    (ho : ∀ o ∈ os, o.Ok cfg max) (k : Nat) (held : List Nat) (hm : held.length + 5 < max) (n f : Nat) :
    let s := (CSt.init x0).run cfg os
    n ≤ (s.lists k).length → n = 0 ∨ n ≤ (s.heap.pages (s.heap.states (k + 1)).front).count → (s.lists k).length - n < f →
    ∃ h' j, eraseRange (cfg k) held f s.heap (k + 1) (itrAt max held s.heap (k + 1) n) (cend (s.heap.states (k + 1))) = some (h', j) ∧ h'.bad = false ∧
      canDeref j = false ∧ Reads max h' k ((s.lists k).take n) ∧ ∀ k', k' ≠ k → Reads max h' k' (s.lists k') := by
  obtain ⟨_, pss, fs, v⟩ := reachable ok h2 x0 os ho
  simp only
  generalize (CSt.init x0).run cfg os = s at *
  intro hn hf hfu
  have hlast : n < (cend (s.heap.states (k + 1))).item := by
    show n < nilItem
    have hcap := ok.cap2 k
    rcases Nat.eq_zero_or_pos n with e | e
    · rw [e]; decide
    · have hne : contents s.heap (pss k) ≠ [] := by rw [v.items k]; intro e; rw [e] at hn; simp at hn; omega
      obtain ⟨_, _, _, h3⟩ := cont_front (v.cont k) hne
      omega
  obtain ⟨h', j, pss', fs', r1, r2, r3⟩ := eraseRange_front (k := k) ok hm hlast ((s.lists k).length - n) f v (by omega) (at_lists ok v (held := held) (by omega) k n)
    (fun h0 => by omega) hfu
  refine ⟨h', j, r1, r3.bad, r2, ?_, ?_⟩
  · have := reads_of_inv ok r3 k
    simpa [setList] using this
  · intro k' hk'
    have := reads_of_inv ok r3 k'
    simpa [setList, hk'] using this

/-- C123, a range up to the end of the first page: if `last` is the first item of the second page and the items before `first` do not fit on one page
together with those of the second page, exactly the items of the range are erased, and the returned iterator is the one to
the item behind them. -/
theorem C123_page_partial {cfg : Nat → Cfg} {max limit : Nat} (ok : CfgOk cfg max limit) (h2 : 2 ≤ limit) (x0 : α) (os : List (COp α))
    (ho : ∀ o ∈ os, o.Ok cfg max) (k : Nat) (held : List Nat) (hm : held.length + 5 < max) (n m f : Nat) :
    let s := (CSt.init x0).run cfg os
    n < m → m < (s.lists k).length → m = (s.heap.pages (s.heap.states (k + 1)).front).count →
    (cfg k).cap < n + (s.heap.pages (itrAt max held s.heap (k + 1) m).page).count → m - n < f →
    ∃ h' j, eraseRange (cfg k) held f s.heap (k + 1) (itrAt max held s.heap (k + 1) n) (itrAt max held s.heap (k + 1) m) = some (h', j) ∧ h'.bad = false ∧
      Reads max h' k ((s.lists k).take n ++ (s.lists k).drop m) ∧ (∀ k', k' ≠ k → Reads max h' k' (s.lists k')) ∧
      ∀ held', held'.length < max → j = itrAt max held' h' (k + 1) n ∧ deref max held' h' j = (s.lists k)[m]? := by
  obtain ⟨_, pss, fs, v⟩ := reachable ok h2 x0 os ho
  simp only
  generalize (CSt.init x0).run cfg os = s at *
  intro hnm hml hmc hcap hfu
  have e1 := itrAt_front ok v (held := held) (by omega) (show n < (s.lists k).length by omega) (by omega)
  have hne : contents s.heap (pss k) ≠ [] := by rw [v.items k]; intro e; rw [e] at hml; simp at hml
  obtain ⟨bs, hps, hpn, _⟩ := cont_front (v.cont k) hne
  generalize hp : (s.heap.states (k + 1)).front = p at *
  have own := (v.cont k).own
  have c := v.cont k
  rw [hps] at own c
  obtain ⟨b, bs', rfl⟩ : ∃ b bs', bs = b :: bs' := by
    cases bs with
    | cons b bs' => exact ⟨b, bs', rfl⟩
    | nil =>
      have := congrArg List.length (v.items k)
      rw [hps] at this
      simp [contents_cons] at this
      omega
  have hnx : (s.heap.pages p).next = b := next_eq (as := []) own
  have hbn := own.nn b (by simp)
  have hl : s.lists k = pageItems (s.heap.pages p) ++ contents s.heap (b :: bs') := by rw [← v.items k, hps, contents_cons]
  have e2 : itrAt max held s.heap (k + 1) m = ⟨b, 0, .none⟩ := by
    refine at_unique (v.cont k) (at_lists ok v (by omega) k m) (u' := (s.lists k).take m) (v' := (s.lists k).drop m) ?_ rfl
    have : At s.heap ([p] ++ b :: bs') ⟨b, 0, .none⟩ ((s.lists k).take m) ((s.lists k).drop m) := by
      have := (c.cnt b (by simp)).1
      refine at_at (by omega) ?_ ?_
      · rw [hl, List.take_left' (by simp; omega), contents_cons, contents_nil]; simp
      · rw [hl, List.drop_left' (by simp; omega), contents_cons]; simp
    rw [hps]
    exact this
  rw [e2] at hcap ⊢
  rw [e1]
  obtain ⟨d, hd⟩ : ∃ d, m = n + (d + 1) := ⟨m - n - 1, by omega⟩
  obtain ⟨h', pss', fs', r1, r2, r3⟩ := eraseRange_page (k := k) (n := n) (held := held) ok hm d f v hp hpn hnx hbn (by omega) hcap (by omega)
  rw [← hd] at r2 r3
  refine ⟨h', _, r1, r2.bad, ?_, ?_, ?_⟩
  · have := reads_of_inv ok r2 k
    simpa [setList] using this
  · intro k' hk'
    have := reads_of_inv ok r2 k'
    simpa [setList, hk'] using this
  · intro held' hm'
    constructor
    · refine at_unique (r2.cont k) r3 (at_lists ok r2 (held := held') hm' k n) ?_
      simp [setList]
      omega
    · have : (s.lists k).drop m = (s.lists k)[m] :: (s.lists k).drop (m + 1) := (List.getElem_cons_drop hml).symm
      rw [this] at r3
      rw [List.getElem?_eq_getElem hml]
      exact deref_at (r2.cont k) (ok.cap2 k) hm' r3

/-- The violation of C123 for all histories: if `first` and `last` are on the first page, also the item at `last` and all items behind it are erased.  `erase`
returns the next iterator, which is equal to `first` as the items behind have moved up by one; the loop waits for `last`, which is then one place too far. -/
theorem C123_violated_rest {cfg : Nat → Cfg} {max limit : Nat} (ok : CfgOk cfg max limit) (h2 : 2 ≤ limit) (x0 : α) (os : List (COp α))
    (ho : ∀ o ∈ os, o.Ok cfg max) (k : Nat) (held : List Nat) (hm : held.length + 5 < max) (n m f : Nat) :
    let s := (CSt.init x0).run cfg os
    n < m → m < (s.lists k).length → m < (s.heap.pages (s.heap.states (k + 1)).front).count → (s.lists k).length - n < f →
    ∃ h' j, eraseRange (cfg k) held f s.heap (k + 1) (itrAt max held s.heap (k + 1) n) (itrAt max held s.heap (k + 1) m) = some (h', j) ∧ h'.bad = false ∧
      Reads max h' k ((s.lists k).take n) ∧ ∀ k', k' ≠ k → Reads max h' k' (s.lists k') := by
  obtain ⟨_, pss, fs, v⟩ := reachable ok h2 x0 os ho
  simp only
  generalize (CSt.init x0).run cfg os = s at *
  intro hnm hml hmc hfu
  have e2 := itrAt_front ok v (held := held) (by omega) hml hmc
  obtain ⟨h', j, pss', fs', r1, r2, r3⟩ := eraseRange_front (k := k) (n := n) (last := itrAt max held s.heap (k + 1) m) ok hm (by rw [e2]; exact hnm)
    ((s.lists k).length - n) f v (by omega) (at_lists ok v (held := held) (by omega) k n) (fun h0 => by omega) hfu
  refine ⟨h', j, r1, r3.bad, ?_, ?_⟩
  · have := reads_of_inv ok r3 k
    simpa [setList] using this
  · intro k' hk'
    have := reads_of_inv ok r3 k'
    simpa [setList, hk'] using this

/-- What is left of the list of `listCfg cap` after the calls `os` when the items from position `n` to position `m` are erased: `none` if the loop has not ended after 40
rounds or an exception was thrown, else whether memory was misused, the size, the items and whether the returned iterator is the one at `n`. -/
def afterErase (cap : Nat) (os : List (COp Nat)) (n m : Nat) : Option (Bool × Nat × List (Option Nat) × Bool) :=
  let s := (CSt.init 0).run (fun _ => listCfg cap true) os
  (eraseRange (listCfg cap true) [] 40 s.heap 1 (itrAt 16 [] s.heap 1 n) (itrAt 16 [] s.heap 1 m)).map fun (h, j) =>
    (h.bad, (h.states 1).total, cwalk 16 [] h 1 30 (cbegin (h.states 1)), decide (j = itrAt 16 [] h 1 n))

-- The cases of the theorems: everything, from the first page to the end, and to the begin of the second page.
example : let s := (CSt.init 0).run (fun _ => listCfg 4 true) (pushed 10)
    (∀ o ∈ pushed 10, o.Ok (fun _ => listCfg 4 true) 16) ∧ s.lists 0 = List.range 10 ∧ (s.heap.pages (s.heap.states 1).front).count = 4 ∧
    4 < 1 + (s.heap.pages (itrAt 16 [] s.heap 1 4).page).count := by
  refine ⟨?_, by decide +kernel, by decide +kernel, by decide +kernel⟩
  intro o ho
  obtain ⟨x, _, rfl⟩ := List.mem_map.1 ho
  exact ok_of (by decide) (by simp [COp.held])
example : afterErase 4 (pushed 6) 0 6 = some (false, 0, [], false) := by decide +kernel
example : afterErase 4 (pushed 6) 2 6 = some (false, 2, [some 0, some 1], true) := by decide +kernel
example : afterErase 4 (pushed 8) 1 4 = some (false, 5, [some 0, some 4, some 5, some 6, some 7], true) := by decide +kernel

/-- The whole claim: exactly the items from `first` up to `last` are erased. -/
def C123Full : Prop := ∀ (cap : Nat) (os : List (COp Nat)) (n m : Nat), 2 ≤ cap → cap < nilItem →
  (∀ o ∈ os, o.Ok (fun _ => listCfg cap true) 16) →
  let s := (CSt.init 0).run (fun _ => listCfg cap true) os
  n ≤ m → m ≤ (s.lists 0).length →
  ∃ f h' j, eraseRange (listCfg cap true) [] f s.heap 1 (itrAt 16 [] s.heap 1 n) (itrAt 16 [] s.heap 1 m) = some (h', j) ∧ h'.bad = false ∧
    Reads 16 h' 0 ((s.lists 0).take n ++ (s.lists 0).drop m)

theorem eraseRange_mono {c : Cfg} {held : List Nat} {sid : Nat} {last : Itr} {x : Heap α × Itr} : ∀ (f g : Nat) {h : Heap α} {i : Itr}, f ≤ g →
    eraseRange c held f h sid i last = some x → eraseRange c held g h sid i last = some x := by
  intro f
  induction f with
  | zero => intro g h i _ e; cases e
  | succ f ih =>
    intro g h i hg e
    obtain ⟨g, rfl⟩ : ∃ k, g = k + 1 := ⟨g - 1, by omega⟩
    unfold eraseRange at e ⊢
    split
    · rename_i h1; rw [if_pos h1] at e; exact e
    · rename_i h1
      rw [if_neg h1] at e
      split
      · rename_i h2; rw [if_pos h2] at e; exact e
      · rename_i h2
        rw [if_neg h2] at e
        cases hr : erase2 c held h sid i with
        | none => rw [hr] at e; cases e
        | some r => rw [hr] at e; exact ih g (by omega) e

/-- It does not hold: erasing the first of three items erases all of them. -/
theorem C123_violated : ¬ C123Full := by
  intro h
  have ho : ∀ o ∈ pushed 3, o.Ok (fun _ => listCfg 4 true) 16 := by
    intro o ho
    obtain ⟨x, _, rfl⟩ := List.mem_map.1 ho
    exact ok_of (by decide) (by simp [COp.held])
  have hl : ((CSt.init 0).run (fun _ => listCfg 4 true) (pushed 3)).lists 0 = [0, 1, 2] := by decide
  obtain ⟨f, h', j, e, _, hr⟩ := h 4 (pushed 3) 0 1 (by decide) (by decide) ho (by decide) (by rw [hl]; decide)
  obtain ⟨h2, j2, e2, _, hr2, _⟩ := C123_violated_rest (listCfg_ok (cap := 4) (by decide) (by decide)) (by decide) 0 (pushed 3) ho 0 [] (by decide) 0 1 4 (by decide)
    (by rw [hl]; decide) (by decide +kernel) (by rw [hl]; decide)
  have e3 := (eraseRange_mono f (f + 4) (by omega) e).symm.trans (eraseRange_mono 4 (f + 4) (by omega) e2)
  have e4 := congrArg Prod.fst (Option.some.inj e3)
  simp only at e4
  rw [e4] at hr
  have := hr.size.symm.trans hr2.size
  rw [hl] at this
  simp at this

/-- The first rounds of the loop of `erase(first, end())`. -/
def eraseRounds (c : Cfg) (held : List Nat) : Nat → Heap α → Nat → Itr → Option (Heap α × Itr)
  | 0, h, _, i => some (h, i)
  | f + 1, h, sid, i =>
    match erase2 c held h sid i with
    | none => none
    | some r => eraseRounds c held f r.heap sid (r.itr.getD i)

/-- A range that starts in the middle of the second page, up to `end()`.  Ten items are on pages of four, and the four last ones are to be erased.  After four rounds two of them are
still in the list, the size is wrong, and the loop goes on with an iterator to the page that was freed when the second page was merged with the third. -/
theorem C123_violated_later : let s := (CSt.init 0).run (fun _ => listCfg 4 true) (pushed 10)
    (eraseRounds (listCfg 4 true) [] 4 s.heap 1 (itrAt 16 [] s.heap 1 6)).map (fun (h, _) => ((h.states 1).total, cwalk 16 [] h 1 30 (cbegin (h.states 1)))) =
      some (6, [some 0, some 1, some 2, some 3, some 4, some 5, some 8, some 9]) ∧
    (eraseRounds (listCfg 4 true) [] 4 s.heap 1 (itrAt 16 [] s.heap 1 6)).all (fun (h, j) => canDeref j && decide (j.page = (h.states 0).back)) = true := by
  refine ⟨by decide +kernel, by decide +kernel⟩

end Abc.Vmem.Pages
