import Verif.Vmem.MapTree
import Verif.Vmem.MapMono

/-! # One insertion into one of the containers of a map -/

namespace Abc.Vmem.Map

open Abc.Vmem.Pages

variable {K V : Type}

/-- The configurations of the containers of a map: values, stack of levels, path, key levels. -/
def cfgs (m : MCfg K V) : Nat → Cfg
  | 0 => allCfg m m.capV
  | 1 => noneCfg m m.capS
  | 2 => noneCfg m m.capP
  | _ + 3 => allCfg m m.capK

/-- Container of level `j` of the tree: the values are level 0. -/
def idx (j : Nat) : Nat := if j = 0 then 0 else j + 2

theorem idx_inj {i j : Nat} (h : idx i = idx j) : i = j := by
  unfold idx at h
  split at h <;> split at h <;> omega

theorem idx_ne1 (j : Nat) : idx j ≠ 1 := by unfold idx; split <;> omega

theorem idx_ne2 (j : Nat) : idx j ≠ 2 := by unfold idx; split <;> omega

theorem cfgs_idx (m : MCfg K V) (j : Nat) : cfgs m (idx j) = allCfg m (if j = 0 then m.capV else m.capK) := by
  unfold idx
  by_cases h : j = 0
  · rw [if_pos h, if_pos h]; rfl
  · rw [if_neg h, if_neg h]
    obtain ⟨n, rfl⟩ : ∃ n, j = n + 1 := ⟨j - 1, by omega⟩
    rfl

/-- Items and count of a page are the same. -/
def Same (h h' : Heap (Cell K V)) (q : Nat) : Prop := (h'.pages q).count = (h.pages q).count ∧ (h'.pages q).items = (h.pages q).items

theorem Same.fk {m : MCfg K V} {h h' : Heap (Cell K V)} {q : Nat} (s : Same h h' q) : fk m h' q = fk m h q := by
  unfold Map.fk; rw [s.2]

theorem Same.pageItems {h h' : Heap (Cell K V)} {q : Nat} (s : Same h h' q) : pageItems (h'.pages q) = pageItems (h.pages q) := by
  unfold Pages.pageItems; rw [s.1, s.2]

theorem contents_same {h h' : Heap (Cell K V)} {ps : List Nat} (hs : ∀ q ∈ ps, Same h h' q) : contents h' ps = contents h ps := by
  unfold contents
  exact List.flatMap_congr (fun q hq => (hs q hq).pageItems)

/-- Pages that were never used are zeros. -/
def Fresh (h : Heap (Cell K V)) : Prop := ∀ q, h.len ≤ q → ∀ j, (h.pages q).items j = .zero

/-- The lists and pages of all containers after those of container `k` have changed. -/
def upd {β : Type} (f : Nat → β) (k : Nat) (b : β) : Nat → β := fun j => if j = k then b else f j

theorem upd_same {β : Type} (f : Nat → β) (k : Nat) (b : β) : upd f k b k = b := by simp [upd]

theorem upd_ne {β : Type} (f : Nat → β) {k j : Nat} (b : β) (h : j ≠ k) : upd f k b j = f j := by simp [upd, h]

/-- An insertion into container `k` at item `i` of the page `p`; `new` is the page that had to be added, if any. -/
structure InsOut (m : MCfg K V) (h : Heap (Cell K V)) (lists : Nat → List (Cell K V)) (pss : Nat → List Nat) (k : Nat) (as : List Nat) (p : Nat) (bs : List Nat)
    (i : Nat) (x : Cell K V) (r : Res (Cell K V)) (new : List Nat) : Prop where
  inv : CInv (cfgs m) ⟨r.heap, upd lists k ((contents h as ++ (pageItems (h.pages p)).take i) ++ x :: ((pageItems (h.pages p)).drop i ++ contents h bs))⟩
    (upd pss k (as ++ p :: (new ++ bs))) []
  fresh : Fresh r.heap
  first : ∀ q, q ∉ new → (r.heap.pages q).items 0 = (h.pages q).items 0
  out : ∀ n ∈ new, ∀ j, n ∉ pss j
  leads : (new = [] ∧ r.lead0 = .default ∧ r.lead1 = .default) ∨
    ∃ n, new = [n] ∧ r.lead0 = ⟨.insert, n, some ((r.heap.pages n).items 0), none⟩ ∧ r.lead1 = ⟨.original, p, some ((r.heap.pages p).items 0), none⟩
  other : ∀ q, q ≠ p → q ∉ new → Same h r.heap q
  stale : ∀ j, (r.heap.pages p).count ≤ j → ((h.pages p).count ≤ j ∧ (r.heap.pages p).items j = (h.pages p).items j) ∨
    ∃ n, new = [n] ∧ (r.heap.pages p).items j ∈ pageItems (r.heap.pages n)
  staleNew : ∀ n ∈ new, ∀ j, (r.heap.pages n).count ≤ j → (r.heap.pages n).items j = .zero
  itr : ∃ t k', r.itr = some ⟨t, k', .none⟩ ∧ (t = p ∨ t ∈ new) ∧ (r.heap.pages t).items k' = x ∧ k' < nilItem

theorem insOut {m : MCfg K V} {h : Heap (Cell K V)} {lists : Nat → List (Cell K V)} {pss : Nat → List Nat} {k p i cap : Nat} {as bs held : List Nat} {x : Cell K V}
    (v : CInv (cfgs m) ⟨h, lists⟩ pss []) (hf : Fresh h) (hc : cfgs m k = allCfg m cap) (hp : pss k = as ++ p :: bs) (hi : i ≤ (h.pages p).count) (hi1 : 1 ≤ i)
    (hcap : 2 ≤ cap ∧ cap < nilItem) (hmax : held.length + 5 < m.max) (hlog : m.log = true) (hlim : m.limit ≤ nil) :
    ∃ r, insert2 (allCfg m cap) held h (k + 1) ⟨p, i, .none⟩ x = some r ∧ ((m.limit ≤ h.len ∧ r.heap = h) ∨ ∃ new, InsOut m h lists pss k as p bs i x r new) := by
  have w : World (allCfg m cap).cap h (k + 1) (as ++ p :: bs) [] := by
    have := v.world k
    rw [hc, hp] at this
    exact this
  have hccap : (h.pages p).count ≤ cap := (w.cont.cnt p (by simp)).2
  obtain ⟨r, hr, hcase⟩ := insertPage_spec (c := allCfg m cap) (held := held) (x := x) w hi hmax hlim hlog hcap.1 hcap.2 rfl rfl (by simp)
  refine ⟨r, hr, ?_⟩
  have hold : contents h as ++ (pageItems (h.pages p) ++ contents h bs) = lists k := by
    have := v.items k
    rw [hp, contents_append, contents_cons] at this
    exact this
  have htot : (h.states (k + 1)).total = (lists k).length := v.total k
  have hlen : ((contents h as ++ (pageItems (h.pages p)).take i) ++ x :: ((pageItems (h.pages p)).drop i ++ contents h bs)).length = (lists k).length + 1 := by
    rw [← hold]
    simp only [List.length_append, List.length_cons, List.length_take, List.length_drop, pageItems_length]
    omega
  have hnd := (v.cont k).own.nodup
  rw [hp] at hnd
  have hpas : p ∉ as := fun hx => (List.nodup_append.1 hnd).2.2 p hx p (by simp) rfl
  have hpbs : p ∉ bs := (List.nodup_cons.1 (List.nodup_append.1 hnd).2.1).1
  rcases hcase with hfail | ho | ⟨n, t, k', ho⟩
  · exact Or.inl hfail
  · refine Or.inr ⟨[], ?_⟩
    have hdat : ∀ q, q ≠ p → Same h r.heap q := fun q hq => by unfold Same; rw [ho.other q hq]; exact ⟨rfl, rfl⟩
    refine ⟨?_, ?_, ?_, by simp, Or.inl ⟨rfl, ho.lead0, ho.lead1⟩, fun q hq _ => hdat q hq, ?_, by simp, ⟨p, i, ho.itr, Or.inl rfl, ?_, by omega⟩⟩
    · refine CInv.step v (k := k) (limit := m.limit) (by rw [hc]; exact ho.cont) (by rw [hp]; exact ho.step) ?_ ?_
      · rw [List.nil_append, contents_append, contents_cons]
        rw [contents_same (fun q hq => hdat q (fun e => hpas (e ▸ hq))), contents_same (fun q hq => hdat q (fun e => hpbs (e ▸ hq)))]
        have : pageItems (r.heap.pages p) = (pageItems (h.pages p)).take i ++ x :: (pageItems (h.pages p)).drop i := by
          have := shiftIn_items (h.pages p).count i x (h.pages p).items hi
          unfold pageItems
          rw [ho.count, ho.items]
          exact this
        rw [this]; simp
      · rw [ho.total, htot, hlen]
    · intro q hq j
      rw [ho.len] at hq
      have : q ≠ p := by
        have h3 := (v.range k p (by rw [hp]; simp)).2
        change p < h.len at h3
        omega
      rw [(hdat q this).2]; exact hf q hq j
    · intro q _
      by_cases e : q = p
      · rw [e, ho.items]; unfold shiftIn; rw [if_neg (by omega), if_neg (by omega)]
      · rw [(hdat q e).2]
    · intro j hj
      left
      rw [ho.count] at hj
      refine ⟨by omega, ?_⟩
      rw [ho.items]; unfold shiftIn; rw [if_neg (by omega), if_neg (by omega)]
    · rw [ho.items]; simp [shiftIn]
  · refine Or.inr ⟨[n], ?_⟩
    have hnlen : h.len ≤ n ∧ n < r.heap.len := by
      rcases ho.step.sub n (by simp) with h1 | h1 | h1
      · exact absurd h1 ho.new
      · cases h1
      · exact h1
    have hnout : ∀ j, n ∉ pss j := fun j hj => by have h3 := (v.range j n hj).2; change n < h.len at h3; omega
    refine ⟨?_, ?_, ?_, ?_, Or.inr ⟨n, rfl, ho.lead0, ho.lead1⟩, ?_, ?_, ?_, ⟨t, k', ho.itr, ?_, ho.here, ho.kn⟩⟩
    · refine CInv.step v (k := k) (limit := m.limit) (by rw [hc]; exact ho.cont) (by rw [hp]; exact ho.step) ?_ ?_
      · have hn : n ∉ as ++ p :: bs := ho.new
        rw [List.singleton_append, contents_append, contents_cons, contents_cons]
        rw [contents_same (fun q hq => ho.other q (fun e => hpas (e ▸ hq)) (fun e => hn (by rw [← e]; simp [hq]))),
          contents_same (fun q hq => ho.other q (fun e => hpbs (e ▸ hq)) (fun e => hn (by rw [← e]; simp [hq]))),
          ← List.append_assoc (pageItems (r.heap.pages p)), ho.join]
        simp
      · rw [ho.total, htot, hlen]
    · intro q hq j
      have h1 : q ≠ p := by
        have h3 := (v.range k p (by rw [hp]; simp)).2
        change p < h.len at h3
        have := ho.step.len
        omega
      have h2 : q ≠ n := by omega
      rw [(ho.other q h1 h2).2]
      exact hf q (Nat.le_trans ho.step.len hq) j
    · intro q hq
      have h2 : q ≠ n := by simpa using hq
      by_cases e : q = p
      · rw [e]; exact ho.first hi1
      · rw [(ho.other q e h2).2]
    · intro n' hn'; rw [List.mem_singleton] at hn'; rw [hn']; exact hnout
    · intro q h1 h2; exact ho.other q h1 (by simpa using h2)
    · intro j hj
      by_cases hjc : j < cap
      · right; exact ⟨n, rfl, ho.moved j hj hjc⟩
      · left
        have hcc := (w.cont.cnt p (by simp)).2
        exact ⟨Nat.le_trans hcc (by show cap ≤ j; omega), ho.behind j (by show cap ≤ j; omega)⟩
    · intro n' hn' j hj
      rw [List.mem_singleton] at hn'
      subst hn'
      rw [ho.behindN j hj]; exact hf _ hnlen.1 j
    · rcases ho.which with e | e
      · exact Or.inl e
      · exact Or.inr (by simp [e])

/-- `push_back` to a container that has at most one page, with room on it; `a` is that page. -/
structure PushOut (m : MCfg K V) (h : Heap (Cell K V)) (lists : Nat → List (Cell K V)) (pss : Nat → List Nat) (fs : List Nat) (k : Nat) (x : Cell K V) (r : Res (Cell K V)) (a : Nat) : Prop where
  inv : CInv (cfgs m) ⟨r.heap, upd lists k (lists k ++ [x])⟩ (upd pss k [a]) []
  fresh : Fresh r.heap
  other : ∀ q, q ≠ a → Same h r.heap q
  out : ∀ j, j ≠ k → a ∉ pss j
  itr : ∃ k', r.itr = some ⟨a, k', .none⟩ ∧ (r.heap.pages a).items k' = x ∧ k' < nilItem
  lead : r.lead0 = .default ∧ r.lead1 = .default
  firstNew : pss k = [] → (r.heap.pages a).items = shiftIn 0 0 x (h.pages a).items
  isNew : pss k = [] → a ∈ fs ∨ h.len ≤ a
  firstOld : pss k ≠ [] → (r.heap.pages a).items 0 = (h.pages a).items 0

theorem pushOut {m : MCfg K V} {h : Heap (Cell K V)} {lists : Nat → List (Cell K V)} {pss : Nat → List Nat} {fs : List Nat} {k : Nat} {e : Edge} {held : List Nat} {x : Cell K V}
    (v : CInv (cfgs m) ⟨h, lists⟩ pss fs) (hf : Fresh h) (hp : (pss k).length ≤ 1) (hfs : fs.length ≤ 1) (hfs2 : pss k ≠ [] → fs = [] ∧ e = .fin)
    (hroom : (lists k).length < (cfgs m k).cap) (hcap2 : (cfgs m k).cap < nilItem) (hmax : held.length + 5 < m.max) (hlog : m.log = true) (hlim : m.limit ≤ nil) :
    ∃ r, insert2 (cfgs m k) held h (k + 1) ⟨(h.states (k + 1)).back, nilItem, e⟩ x = some r ∧
      ((m.limit ≤ h.len ∧ r.heap = h ∧ pss k = []) ∨ ∃ a, PushOut m h lists pss fs k x r a) := by
  have w : World (cfgs m k).cap h (k + 1) (pss k) fs := v.world k
  have hcm : (cfgs m k).max = m.max ∧ (cfgs m k).limit = m.limit ∧ (cfgs m k).log = m.log := by
    unfold cfgs; split <;> exact ⟨rfl, rfl, rfl⟩
  have hi : contents h (pss k) = lists k := v.items k
  have htot : (h.states (k + 1)).total = (lists k).length := v.total k
  have hrange : ∀ j, ∀ q ∈ pss j, q < h.len := fun j q hq => (v.range j q hq).2
  have hfrange : ∀ q ∈ fs, q < h.len := fun q hq => (v.frange q hq).2
  cases hps : pss k with
  | nil =>
    rw [hps] at w hi
    rw [contents_nil] at hi
    have hback : (h.states (k + 1)).back = nil := w.cont.own.back
    rw [hback]
    obtain ⟨r, hr, ho⟩ := insertFirst_spec (c := cfgs m k) (held := held) (x := x) (e := e) w (by rw [hcm.1]; exact hmax) (by rw [hcm.2.1]; exact hlim)
      (by rw [hcm.2.2]; exact hlog) (by omega) hfs
    refine ⟨r, hr, ?_⟩
    rcases ho with ⟨h1, h2⟩ | ⟨n, ho⟩
    · left; rw [hcm.2.1] at h1; exact ⟨h1, h2, rfl⟩
    right
    have hn : n ∈ fs ∨ h.len ≤ n ∧ n < r.heap.len := by
      rcases ho.step.sub n (by simp) with h1 | h1
      · cases h1
      · exact h1
    have hnlt : n < r.heap.len := by
      rcases hn with h1 | h1
      · exact Nat.lt_of_lt_of_le (hfrange n h1) ho.step.len
      · exact h1.2
    refine ⟨n, ?_, ?_, ho.other, ?_, ⟨0, ho.itr, by rw [ho.items]; simp [shiftIn], by decide⟩, ⟨ho.lead0, ho.lead1⟩, fun _ => ho.items, fun _ => hn.imp id (fun h1 => h1.1), fun hne => absurd hps hne⟩
    · refine CInv.step v (k := k) (limit := (cfgs m k).limit) ho.cont (by rw [hps]; exact ho.step) ?_ ?_
      · rw [contents_cons, contents_nil, List.append_nil, ← hi, List.nil_append]
        unfold pageItems
        rw [ho.count, ho.items]
        simp [shiftIn]
      · rw [ho.total, htot, ← hi]; rfl
    · intro q hq j
      have : q ≠ n := by omega
      rw [(ho.other q this).2]; exact hf q (Nat.le_trans ho.step.len hq) j
    · intro j hj hn'
      rcases hn with h1 | h1
      · exact v.disj j n hn' h1
      · have := hrange j n hn'; omega
  | cons p ps =>
    have : ps = [] := by
      rw [hps, List.length_cons] at hp
      exact List.eq_nil_of_length_eq_zero (by omega)
    subst this
    obtain ⟨rfl, rfl⟩ := hfs2 (by rw [hps]; simp)
    rw [hps] at w hi
    rw [contents_cons, contents_nil, List.append_nil] at hi
    have hcnt : (h.pages p).count = (lists k).length := by rw [← hi, pageItems_length]
    have hback : (h.states (k + 1)).back = p := w.cont.own.back
    have hpn : p ≠ nil := w.cont.own.nn p (by simp)
    rw [hback, insert2_end hpn (by omega) hcap2]
    obtain ⟨r, hr, ho⟩ := insertRoom_spec (c := cfgs m k) (held := held) (as := []) (bs := []) (x := x) w (Nat.le_refl _) (by omega) (by rw [hcm.1]; omega) hcap2
    refine ⟨r, hr, Or.inr ⟨p, ?_, ?_, ?_, ?_, ⟨(h.pages p).count, ho.itr, by rw [ho.items]; simp [shiftIn], by omega⟩, ⟨ho.lead0, ho.lead1⟩, fun hne => by (rw [hps] at hne; cases hne), fun hne => by (rw [hps] at hne; cases hne), ?_⟩⟩
    · refine CInv.step v (k := k) (limit := (cfgs m k).limit) ho.cont (by rw [hps]; exact ho.step) ?_ ?_
      · rw [contents_cons, contents_nil, List.append_nil, ← hi]
        have := shiftIn_items (h.pages p).count (h.pages p).count x (h.pages p).items (Nat.le_refl _)
        unfold pageItems
        rw [ho.count, ho.items, this]
        rw [List.take_of_length_le (by simp), List.drop_of_length_le (by simp)]
      · rw [ho.total, htot]; simp
    · intro q hq j
      rw [ho.len] at hq
      have : q ≠ p := by have := hrange k p (by rw [hps]; simp); omega
      rw [ho.other q this]; exact hf q hq j
    · intro q hq; unfold Same; rw [ho.other q hq]; exact ⟨rfl, rfl⟩
    · intro j hj hn'; exact v.sep j k hj p hn' (by rw [hps]; simp)
    · intro _
      have := (w.cont.cnt p (by simp)).1
      rw [ho.items]; unfold shiftIn; rw [if_neg (by omega), if_neg (by omega)]

end Abc.Vmem.Map
