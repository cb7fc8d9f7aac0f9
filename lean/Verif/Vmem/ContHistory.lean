import Verif.Vmem.ContIter

/-! # Histories of operations on several containers in one pool -/

namespace Abc.Vmem.Pages

variable {α : Type}

/-- A call on container number `k`; `held` are the pages the client has locked at that time.  `insert` and
`erase` get the iterator that is `n` times `++` behind `begin()`; `push` and `pop` are `push_back` and
`pop_back` (`container` 299-307). -/
inductive COp (α : Type) where
  | insert (k : Nat) (held : List Nat) (n : Nat) (x : α)
  | erase (k : Nat) (held : List Nat) (n : Nat)
  | push (k : Nat) (held : List Nat) (x : α)
  | pop (k : Nat) (held : List Nat)

def COp.held : COp α → List Nat
  | .insert _ held _ _ => held
  | .erase _ held _ => held
  | .push _ held _ => held
  | .pop _ held => held

/-- The pool with the states of all containers, and beside it the sequences the containers stand for. -/
structure CSt (α : Type) where
  heap : Heap α
  lists : Nat → List α

def setList (l : Nat → List α) (k : Nat) (v : List α) : Nat → List α := fun j => if j = k then v else l j

/-- What an insertion does: nothing if an exception is thrown; the returned iterator tells whether the item was inserted. -/
def CSt.insertAt (c : Cfg) (s : CSt α) (k : Nat) (held : List Nat) (i : Itr) (n : Nat) (x : α) : CSt α :=
  match insert2 c held s.heap (k + 1) i x with
  | none => s
  | some r => ⟨r.heap, if r.itr = some (cend (r.heap.states (k + 1))) then s.lists else setList s.lists k ((s.lists k).take n ++ x :: (s.lists k).drop n)⟩

def CSt.eraseAt (c : Cfg) (s : CSt α) (k : Nat) (held : List Nat) (i : Itr) (n : Nat) : CSt α :=
  match erase2 c held s.heap (k + 1) i with
  | none => s
  | some r => ⟨r.heap, setList s.lists k ((s.lists k).eraseIdx n)⟩

/-- One call.  Container `k` is made with the parameters `cfg k` and has the state number `k + 1`. -/
def CSt.step (cfg : Nat → Cfg) (s : CSt α) : COp α → CSt α
  | .insert k held n x => s.insertAt (cfg k) k held (itrAt (cfg k).max held s.heap (k + 1) n) n x
  | .erase k held n => s.eraseAt (cfg k) k held (itrAt (cfg k).max held s.heap (k + 1) n) n
  | .push k held x => s.insertAt (cfg k) k held (cend (s.heap.states (k + 1))) (s.lists k).length x
  | .pop k held => s.eraseAt (cfg k) k held (crend (cfg k).max held s.heap (s.heap.states (k + 1))) ((s.lists k).length - 1)

def CSt.run (cfg : Nat → Cfg) (s : CSt α) (os : List (COp α)) : CSt α := os.foldl (fun s o => s.step cfg o) s

/-- A new pool with empty containers. -/
def CSt.init (x : α) : CSt α := ⟨Heap.init x, fun _ => []⟩

/-- The containers share a pool; there is a log; a page has room for an item. -/
structure CfgOk (cfg : Nat → Cfg) (max limit : Nat) : Prop where
  hmax : ∀ k, (cfg k).max = max
  hlimit : ∀ k, (cfg k).limit = limit
  lim : limit ≤ nil
  log : ∀ k, (cfg k).log = true
  cap : ∀ k, 1 ≤ (cfg k).cap
  cap2 : ∀ k, (cfg k).cap < nilItem

/-- The parameters of a `vmem_list` (and of the levels of a map) with room for two items on a page. -/
def ListLike (c : Cfg) : Prop := 2 ≤ c.cap ∧ c.insBegin = true ∧ c.insInner = true

def COp.Ok (cfg : Nat → Cfg) (max : Nat) (o : COp α) : Prop :=
  o.held.length + 5 < max ∧ ∀ k held n x, o = .insert k held n x → ListLike (cfg k)

/-- What holds in all reachable states. -/
structure CInv (cfg : Nat → Cfg) (s : CSt α) (pss : Nat → List Nat) (fs : List Nat) : Prop where
  cont : ∀ k, Cont (cfg k).cap s.heap (k + 1) (pss k)
  free : FreeOk s.heap fs
  disj : ∀ k, ∀ q ∈ pss k, q ∉ fs
  range : ∀ k, ∀ q ∈ pss k, 2 ≤ q ∧ q < s.heap.len
  frange : ∀ q ∈ fs, 2 ≤ q ∧ q < s.heap.len
  sep : ∀ j k, j ≠ k → ∀ q ∈ pss j, q ∉ pss k
  items : ∀ k, contents s.heap (pss k) = s.lists k
  total : ∀ k, (s.heap.states (k + 1)).total = (s.lists k).length
  len : 2 ≤ s.heap.len
  bad : s.heap.bad = false

theorem CInv.world {cfg : Nat → Cfg} {s : CSt α} {pss : Nat → List Nat} {fs : List Nat} (v : CInv cfg s pss fs) (k : Nat) :
    World (cfg k).cap s.heap (k + 1) (pss k) fs :=
  ⟨v.cont k, v.free, v.disj k, fun q hq => (v.range k q hq).2, fun q hq => (v.frange q hq).2, by omega⟩

/-- A step of container `k` keeps the invariant. -/
theorem CInv.step {cfg : Nat → Cfg} {s : CSt α} {pss : Nat → List Nat} {fs fs' ps' : List Nat} {k limit : Nat} {h' : Heap α} {l : List α} (v : CInv cfg s pss fs)
    (c : Cont (cfg k).cap h' (k + 1) ps') (st : Step limit s.heap h' (k + 1) (pss k) ps' fs fs') (hi : contents h' ps' = l)
    (ht : (h'.states (k + 1)).total = l.length) :
    CInv cfg ⟨h', setList s.lists k l⟩ (fun j => if j = k then ps' else pss j) fs' := by
  have other : ∀ j, j ≠ k → ∀ q ∈ pss j, h'.pages q = s.heap.pages q := by
    intro j hj q hq
    exact st.pages q (v.sep j k hj q hq) (v.disj j q hq) (v.range j q hq).2
  have hlen := st.len
  have newp : ∀ j, j ≠ k → ∀ q ∈ pss j, q ∉ ps' ∧ q ∉ fs' := by
    intro j hj q hq
    have h1 := v.sep j k hj q hq
    have h2 := v.disj j q hq
    have h3 := (v.range j q hq).2
    constructor
    · intro hx; rcases st.sub q hx with h | h | h
      · exact h1 h
      · exact h2 h
      · omega
    · intro hx; rcases st.fsub q hx with h | h | h
      · exact h2 h
      · exact h1 h
      · omega
  have hcl := v.len
  refine ⟨?_, st.free, ?_, ?_, ?_, ?_, ?_, ?_, ?_, ?_⟩
  · intro j
    by_cases hj : j = k
    · subst hj; rw [if_pos rfl]; exact c
    · rw [if_neg hj]
      refine ⟨own_congr (v.cont j).own (st.states (j + 1) (by omega) (by omega)) (fun q hq => SameLinks.of_eq (other j hj q hq)), ?_⟩
      intro q hq
      show 1 ≤ (h'.pages q).count ∧ _
      rw [other j hj q hq]
      exact (v.cont j).cnt q hq
  · intro j q hq
    by_cases hj : j = k
    · subst hj; rw [if_pos rfl] at hq; exact st.disj q hq
    · rw [if_neg hj] at hq; exact (newp j hj q hq).2
  · intro j q hq
    show 2 ≤ q ∧ q < h'.len
    by_cases hj : j = k
    · subst hj; rw [if_pos rfl] at hq
      rcases st.sub q hq with h | h | h
      · have := v.range j q h; omega
      · have := v.frange q h; omega
      · omega
    · rw [if_neg hj] at hq
      have := v.range j q hq; omega
  · intro q hq
    show 2 ≤ q ∧ q < h'.len
    rcases st.fsub q hq with h | h | h
    · have := v.frange q h; omega
    · have := v.range k q h; omega
    · omega
  · intro j j' hjj q hq
    by_cases hj : j = k
    · subst hj
      rw [if_pos rfl] at hq
      rw [if_neg (Ne.symm hjj)]
      intro hx
      exact (newp j' (Ne.symm hjj) q hx).1 hq
    · rw [if_neg hj] at hq
      by_cases hj' : j' = k
      · subst hj'; rw [if_pos rfl]; exact (newp j hj q hq).1
      · rw [if_neg hj']; exact v.sep j j' hjj q hq
  · intro j
    show contents h' _ = setList s.lists k l j
    unfold setList
    by_cases hj : j = k
    · subst hj; rw [if_pos rfl, if_pos rfl]; exact hi
    · rw [if_neg hj, if_neg hj, ← v.items j]
      exact contents_congr (fun q hq => by show pageItems (h'.pages q) = _; rw [other j hj q hq])
  · intro j
    unfold setList
    by_cases hj : j = k
    · subst hj; simp only [if_pos]; exact ht
    · simp only [if_neg hj]
      show (h'.states (j + 1)).total = _
      rw [st.states (j + 1) (by omega) (by omega)]; exact v.total j
  · show 2 ≤ h'.len; omega
  · exact st.bad.trans v.bad

theorem cInv_init (cfg : Nat → Cfg) (x : α) : CInv cfg (CSt.init x) (fun _ => []) [] where
  cont := fun _ => ⟨⟨rfl, rfl, trivial, List.nodup_nil, by simp⟩, by simp⟩
  free := (FreeList.ok (FreeList.empty rfl))
  disj := by simp
  range := by simp
  frange := by simp
  sep := by simp
  items := fun _ => rfl
  total := fun _ => rfl
  len := Nat.le_refl _
  bad := rfl

/-- What an insertion at the `n`-th place does. -/
structure InsertedAt (cfg : Nat → Cfg) (s : CSt α) (k : Nat) (l : List α) (i : Itr) (x : α) (n : Nat) (r : Res α) (j : Itr) (pss' : Nat → List Nat) (fs' : List Nat) : Prop where
  itr : r.itr = some j
  inv : CInv cfg ⟨r.heap, setList s.lists k l⟩ pss' fs'
  at_ : At r.heap (pss' k) j (l.take n) (l.drop n)

theorem insert_inv {cfg : Nat → Cfg} {max limit k n : Nat} {held : List Nat} {s : CSt α} {pss : Nat → List Nat} {fs : List Nat} {i : Itr} {x : α}
    (ok : CfgOk cfg max limit) (v : CInv cfg s pss fs) (hm : held.length + 5 < max) (hn : n ≤ (s.lists k).length)
    (a : At s.heap (pss k) i ((s.lists k).take n) ((s.lists k).drop n)) (hpol : i.edge = .fin ∨ ListLike (cfg k)) :
    ∃ r, insert2 (cfg k) held s.heap (k + 1) i x = some r ∧
      ((r.heap = s.heap ∧ r.itr = some (cend (s.heap.states (k + 1))) ∧ limit ≤ s.heap.len) ∨
       ∃ j pss' fs', r.itr = some j ∧ j ≠ cend (r.heap.states (k + 1)) ∧
        CInv cfg ⟨r.heap, setList s.lists k ((s.lists k).take n ++ x :: (s.lists k).drop n)⟩ pss' fs' ∧
        (s.heap.len ≤ limit → r.heap.len ≤ limit) ∧
        At r.heap (pss' k) j ((s.lists k).take n) (x :: (s.lists k).drop n)) := by
  have w := v.world k
  obtain ⟨r, hr, h⟩ := insert2_spec (x := x) w a (by rw [ok.hmax]; exact hm) (by rw [ok.hlimit]; exact ok.lim) (ok.log k) (ok.cap k) (ok.cap2 k) hpol
  refine ⟨r, hr, ?_⟩
  rcases h with ⟨h1, h2, h3⟩ | ⟨j, ps', fs', h1, h2, h3, h4, h5⟩
  · exact Or.inl ⟨h1, h2, by rw [← ok.hlimit k]; exact h3⟩
  · right
    refine ⟨j, _, fs', h1, ?_, CInv.step v h2 h3 h4.contents ?_, by have := h3.lim; rw [ok.hlimit k] at this; exact this, ?_⟩
    · intro e
      rw [e] at h4
      have := (at_inv_fin h4).2.2.2
      simp at this
    · rw [h5, v.total k]
      simp; omega
    · simp only [if_pos]
      exact h4

theorem erase_inv {cfg : Nat → Cfg} {max limit k n : Nat} {held : List Nat} {s : CSt α} {pss : Nat → List Nat} {fs : List Nat} {i : Itr}
    (ok : CfgOk cfg max limit) (v : CInv cfg s pss fs) (hm : held.length + 5 < max) (hn : n < (s.lists k).length)
    (a : At s.heap (pss k) i ((s.lists k).take n) ((s.lists k).drop n)) :
    ∃ r j pss' fs', erase2 (cfg k) held s.heap (k + 1) i = some r ∧ r.itr = some j ∧
        CInv cfg ⟨r.heap, setList s.lists k ((s.lists k).eraseIdx n)⟩ pss' fs' ∧
        (s.heap.len ≤ limit → r.heap.len ≤ limit) ∧
        (ErGood (cfg k) s.heap i → At r.heap (pss' k) j ((s.lists k).take n) ((s.lists k).drop (n + 1))) := by
  have w := v.world k
  rw [← List.getElem_cons_drop hn] at a
  obtain ⟨r, ps', fs', j, hr, er⟩ := erase2_spec (held := held) limit w (by rw [ok.hmax]; exact hm) (ok.cap2 k) a
  refine ⟨r, j, _, fs', hr, er.itr, CInv.step v er.cont er.step (by rw [er.items, List.eraseIdx_eq_take_drop_succ]) ?_, er.step.lim, ?_⟩
  · rw [er.total, v.total k, List.length_eraseIdx, if_pos hn]
  · simp only [if_pos]; exact er.at_

theorem setList_self (l : Nat → List α) (k : Nat) : setList l k (l k) = l := by
  funext j; unfold setList; split
  · rename_i e; rw [e]
  · rfl

theorem cInv_insertAt {cfg : Nat → Cfg} {max limit k n : Nat} {held : List Nat} {s : CSt α} {pss : Nat → List Nat} {fs : List Nat} {i : Itr} {x : α}
    (ok : CfgOk cfg max limit) (v : CInv cfg s pss fs) (hm : held.length + 5 < max)
    (a : At s.heap (pss k) i ((s.lists k).take n) ((s.lists k).drop n)) (hpol : i.edge = .fin ∨ ListLike (cfg k)) (hl : s.heap.len ≤ limit) :
    (s.insertAt (cfg k) k held i n x).heap.len ≤ limit ∧ ∃ pss' fs', CInv cfg (s.insertAt (cfg k) k held i n x) pss' fs' := by
  have key : ∃ m, m ≤ (s.lists k).length ∧ (s.lists k).take n = (s.lists k).take m ∧ (s.lists k).drop n = (s.lists k).drop m := by
    by_cases h : n ≤ (s.lists k).length
    · exact ⟨n, h, rfl, rfl⟩
    · exact ⟨_, Nat.le_refl _, by rw [List.take_of_length_le (by omega), List.take_length], by rw [List.drop_of_length_le (by omega), List.drop_length]⟩
  obtain ⟨m, hmn, e1, e2⟩ := key
  rw [e1, e2] at a
  obtain ⟨r, hr, h⟩ := insert_inv (x := x) ok v hm hmn a hpol
  unfold CSt.insertAt
  rw [hr]
  simp only
  rw [e1, e2]
  rcases h with ⟨h1, h2, h3⟩ | ⟨j, pss', fs', h1, h2, h3, h4, h5⟩
  · rw [h1, h2, if_pos rfl]
    exact ⟨hl, pss, fs, v⟩
  · rw [h1, if_neg (by simpa using h2)]
    exact ⟨h4 hl, pss', fs', h3⟩

theorem cInv_eraseAt {cfg : Nat → Cfg} {max limit k n : Nat} {held : List Nat} {s : CSt α} {pss : Nat → List Nat} {fs : List Nat} {i : Itr}
    (ok : CfgOk cfg max limit) (v : CInv cfg s pss fs) (hm : held.length + 5 < max)
    (a : n < (s.lists k).length → At s.heap (pss k) i ((s.lists k).take n) ((s.lists k).drop n))
    (b : ¬ n < (s.lists k).length → canDeref i = false) (hl : s.heap.len ≤ limit) :
    (s.eraseAt (cfg k) k held i n).heap.len ≤ limit ∧ ∃ pss' fs', CInv cfg (s.eraseAt (cfg k) k held i n) pss' fs' := by
  unfold CSt.eraseAt
  by_cases hn : n < (s.lists k).length
  · obtain ⟨r, j, pss', fs', hr, h1, h2, h3, h4⟩ := erase_inv ok v hm hn (a hn)
    rw [hr]
    exact ⟨h3 hl, pss', fs', h2⟩
  · have : erase2 (cfg k) held s.heap (k + 1) i = none := by
      unfold erase2; rw [b hn]; rfl
    rw [this]
    exact ⟨hl, pss, fs, v⟩

theorem at_lists {cfg : Nat → Cfg} {max limit : Nat} {s : CSt α} {pss : Nat → List Nat} {fs : List Nat} (ok : CfgOk cfg max limit) (v : CInv cfg s pss fs)
    {held : List Nat} (hm : held.length < max) (k n : Nat) :
    At s.heap (pss k) (itrAt max held s.heap (k + 1) n) ((s.lists k).take n) ((s.lists k).drop n) := by
  rw [← v.items k]
  exact at_itr (v.cont k) (ok.cap2 k) hm n

theorem cInv_step {cfg : Nat → Cfg} {max limit : Nat} {s : CSt α} {pss : Nat → List Nat} {fs : List Nat} (ok : CfgOk cfg max limit)
    (v : CInv cfg s pss fs) (hl : s.heap.len ≤ limit) {o : COp α} (ho : o.Ok cfg max) :
    (s.step cfg o).heap.len ≤ limit ∧ ∃ pss' fs', CInv cfg (s.step cfg o) pss' fs' := by
  cases o with
  | insert k held n x =>
    have hm : held.length + 5 < max := ho.1
    refine cInv_insertAt ok v hm ?_ (Or.inr (ho.2 k held n x rfl)) hl
    rw [ok.hmax k]
    exact at_lists ok v (by omega) k n
  | erase k held n =>
    have hm : held.length + 5 < max := ho.1
    refine cInv_eraseAt ok v hm (fun _ => by rw [ok.hmax k]; exact at_lists ok v (by omega) k n) (fun hn => ?_) hl
    have a := at_lists ok v (held := held) (by omega) k n
    rw [List.drop_of_length_le (by omega), List.take_of_length_le (by omega)] at a
    have he := at_end (v.cont k)
    rw [v.items k] at he
    rw [ok.hmax k, at_unique (v.cont k) a he rfl]
    simp [canDeref, cend]
  | push k held x =>
    have hm : held.length + 5 < max := ho.1
    refine cInv_insertAt ok v hm ?_ (Or.inl rfl) hl
    rw [List.take_length, List.drop_length, ← v.items k]
    exact at_end (v.cont k)
  | pop k held =>
    have hm : held.length + 5 < max := ho.1
    refine cInv_eraseAt ok v hm (fun hn => ?_) (fun hn => ?_) hl
    · rcases List.eq_nil_or_concat (s.lists k) with e | ⟨u, y, e⟩
      · rw [e] at hn; simp at hn
      · rw [List.concat_eq_append] at e
        have hc := (v.items k).trans e
        rw [ok.hmax k, e]
        have := at_rend (held := held) (max := max) (v.cont k) (by omega) hc
        simpa using this
    · have e : s.lists k = [] := by
        cases hx : s.lists k with
        | nil => rfl
        | cons y l => rw [hx] at hn; exact absurd (by simp) hn
      rw [crend_nil (v.cont k) ((v.items k).trans e)]
      simp [canDeref, crbegin]

theorem cInv_run {cfg : Nat → Cfg} {max limit : Nat} (ok : CfgOk cfg max limit) (os : List (COp α)) : ∀ {s : CSt α} {pss : Nat → List Nat} {fs : List Nat},
    CInv cfg s pss fs → s.heap.len ≤ limit → (∀ o ∈ os, o.Ok cfg max) → (s.run cfg os).heap.len ≤ limit ∧ ∃ pss' fs', CInv cfg (s.run cfg os) pss' fs' := by
  induction os with
  | nil => intro s pss fs v hl _; exact ⟨hl, pss, fs, v⟩
  | cons o os ih =>
    intro s pss fs v hl ho
    obtain ⟨h1, pss', fs', h2⟩ := cInv_step ok v hl (ho o (by simp))
    exact ih h2 h1 (fun o' h' => ho o' (by simp [h']))

end Abc.Vmem.Pages
