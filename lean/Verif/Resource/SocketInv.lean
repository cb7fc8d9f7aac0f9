import Verif.Resource.Sockets
import Mathlib.Data.List.Perm.Subperm

/-!
# Invariants of programs with sockets
-/

namespace Abc.Resource

/-- What the live objects hold. -/
def collect {α : Type} (f : Obj → Option α) (objs : List (Option Obj)) : List α :=
  objs.filterMap (fun x => x.bind f)

theorem collect_append {α : Type} (f : Obj → Option α) (objs : List (Option Obj)) (x : Obj) :
    collect f (objs ++ [some x]) = collect f objs ++ (f x).toList := by
  simp only [collect, List.filterMap_append]
  cases h : f x <;> simp [h]

theorem collect_split {α : Type} (f : Obj → Option α) : ∀ (objs : List (Option Obj)) (i : Nat)
    (x : Option Obj), objs[i]? = some x →
    (collect f objs).Perm ((x.bind f).toList ++ collect f (objs.set i none)) := by
  intro objs
  induction objs with
  | nil => intro i x h; simp at h
  | cons a t ih =>
    intro i x h
    cases i with
    | zero =>
      have ha : a = x := by simpa using h
      subst ha
      simp only [List.set_cons_zero, collect, List.filterMap_cons, Option.bind_none]
      cases h : a.bind f <;> simp
    | succ i =>
      have h' : t[i]? = some x := by simpa using h
      have := ih i x h'
      simp only [List.set_cons_succ]
      simp only [collect, List.filterMap_cons] at this ⊢
      cases hb : a.bind f with
      | none => simpa using this
      | some b =>
        simp only
        refine (List.Perm.cons b this).trans ?_
        exact List.perm_middle.symm

theorem collect_set {α : Type} (f : Obj → Option α) (objs : List (Option Obj)) (i : Nat)
    (y : Option Obj) (hi : i < objs.length) :
    (collect f (objs.set i y)).Perm ((y.bind f).toList ++ collect f (objs.set i none)) := by
  have h : (objs.set i y)[i]? = some y := by simp [hi]
  have := collect_split f (objs.set i y) i y h
  simpa using this

theorem World.get_some {w : World} {i : Nat} {x : Obj} (h : w.get i = some x) :
    w.objs[i]? = some (some x) ∧ i < w.objs.length := by
  unfold World.get at h
  cases hg : w.objs[i]? with
  | none => simp [hg] at h
  | some y =>
    rw [hg] at h
    have hy : y = some x := by simpa using h
    subst hy
    obtain ⟨hlt, _⟩ := List.getElem?_eq_some_iff.mp hg
    exact ⟨rfl, hlt⟩

theorem World.get_of {w : World} {i : Nat} {x : Obj} (h : w.objs[i]? = some (some x)) :
    w.get i = some x := by
  unfold World.get; rw [h]; rfl

/-- What the classes without TLS have no member for. -/
def Wf (x : Obj) : Prop :=
  match x.cls with
  | .tlsClient => True
  | .tlsServer => x.ssl = none
  | _ => x.ctx = none ∧ x.ssl = none

structure OInv (o : Ossl) (ctxs ssls lostCtx lostSsl : List Nat) : Prop where
  refs : o.refs.Perm (ctxs ++ (lostCtx ++ o.ssls.map Ssl.ctx))
  ids : (o.ssls.map Ssl.id).Perm (ssls ++ lostSsl)
  nodup : (o.ssls.map Ssl.id).Nodup
  old : ∀ r ∈ o.ssls, r.id < o.names
  bad : o.bad = false

namespace OInv

variable {o : Ossl} {cs ss lc ls : List Nat}

theorem init : OInv Ossl.init [] [] [] [] :=
  ⟨by simp [Ossl.init], by simp [Ossl.init], by simp [Ossl.init], by simp [Ossl.init], rfl⟩

theorem congr {cs' ss' lc' ls' : List Nat} (H : OInv o cs ss lc ls) (pc : cs.Perm cs')
    (ps : ss.Perm ss') (plc : lc.Perm lc') (pls : ls.Perm ls') : OInv o cs' ss' lc' ls' :=
  ⟨H.refs.trans (pc.append (plc.append_right _)), H.ids.trans (ps.append pls), H.nodup, H.old, H.bad⟩

theorem find_some (H : OInv o cs ss lc ls) {s : Nat} (hs : s ∈ ss) :
    ∃ r, o.find s = some r ∧ r ∈ o.ssls ∧ r.id = s := by
  have hm : s ∈ o.ssls.map Ssl.id := H.ids.mem_iff.mpr (List.mem_append_left _ hs)
  obtain ⟨r, hr, rfl⟩ := List.mem_map.mp hm
  cases hf : o.find r.id with
  | none =>
    have := List.find?_eq_none.mp hf r hr
    simp at this
  | some q =>
    have h1 := List.mem_of_find?_eq_some hf
    have h2 := List.find?_some hf
    exact ⟨q, rfl, h1, by simpa using h2⟩

theorem ctxNew_some (H : OInv o cs ss lc ls) {ok : Bool} {c : Nat} (h : (o.ctxNew ok).2 = some c) :
    OInv (o.ctxNew ok).1 (c :: cs) ss lc ls := by
  unfold Ossl.ctxNew at *
  cases ok with
  | false => cases h
  | true =>
    simp only [if_true] at h ⊢
    cases h
    exact ⟨List.Perm.cons _ H.refs, H.ids, H.nodup, fun r hr => Nat.lt_succ_of_lt (H.old r hr), H.bad⟩

theorem ctxNew_none {ok : Bool} (h : (o.ctxNew ok).2 = none) : (o.ctxNew ok).1 = o := by
  unfold Ossl.ctxNew at *
  cases ok with
  | false => rfl
  | true => cases h

theorem ctxFree {c : Nat} (H : OInv o (c :: cs) ss lc ls) : OInv (o.ctxFree c) cs ss lc ls := by
  have hm : c ∈ o.refs := H.refs.mem_iff.mpr (by simp)
  unfold Ossl.ctxFree
  rw [if_pos hm]
  refine ⟨?_, H.ids, H.nodup, H.old, H.bad⟩
  have := H.refs.erase c
  simpa using this

theorem sslNew_some {c : Option Nat} (H : OInv o cs ss lc ls) {ok : Bool} {s : Nat}
    (h : (o.sslNew c ok).2 = some s) : OInv (o.sslNew c ok).1 cs (s :: ss) lc ls ∧
      (o.sslNew c ok).1.ssls = ⟨s, c.getD 0, none, false⟩ :: o.ssls ∧ s = o.names := by
  unfold Ossl.sslNew at *
  cases c with
  | none => cases h
  | some c =>
    dsimp only at *
    by_cases hc : c ∈ o.refs
    · rw [if_pos hc] at *
      cases ok with
      | false => simp at h
      | true =>
        simp only [if_true] at *
        cases h
        refine ⟨⟨?_, ?_, ?_, ?_, H.bad⟩, rfl, rfl⟩
        · show (c :: o.refs).Perm (cs ++ (lc ++ (c :: o.ssls.map Ssl.ctx)))
          refine (List.Perm.cons c H.refs).trans ?_
          rw [← List.append_assoc, ← List.append_assoc]
          exact List.perm_middle.symm
        · exact List.Perm.cons _ H.ids
        · show (o.names :: o.ssls.map Ssl.id).Nodup
          refine List.nodup_cons.mpr ⟨?_, H.nodup⟩
          intro hm
          obtain ⟨r, hr, he⟩ := List.mem_map.mp hm
          have := H.old r hr
          omega
        · intro r hr
          show r.id < o.names + 1
          rcases List.mem_cons.mp hr with rfl | hr
          · exact Nat.lt_succ_self _
          · exact Nat.lt_succ_of_lt (H.old r hr)
    · rw [if_neg hc] at h; cases h

theorem sslNew_none {c : Option Nat} (H : OInv o cs ss lc ls) (hc : ∀ v, c = some v → v ∈ cs)
    {ok : Bool} (h : (o.sslNew c ok).2 = none) : (o.sslNew c ok).1 = o := by
  unfold Ossl.sslNew at *
  cases c with
  | none => rfl
  | some c =>
    dsimp only at *
    have hm : c ∈ o.refs := H.refs.mem_iff.mpr (List.mem_append_left _ (hc c rfl))
    rw [if_pos hm] at *
    cases ok with
    | false => rfl
    | true => simp at h

theorem modify {s : Nat} (H : OInv o cs ss lc ls) (hs : s ∈ ss) (f : Ssl → Ssl)
    (hid : ∀ r, (f r).id = r.id) (hctx : ∀ r, (f r).ctx = r.ctx) :
    OInv (o.modify s f) cs ss lc ls := by
  obtain ⟨r, hf, -, -⟩ := H.find_some hs
  unfold Ossl.modify
  rw [hf]
  have h1 : (o.ssls.map (fun r => if r.id = s then f r else r)).map Ssl.ctx = o.ssls.map Ssl.ctx := by
    rw [List.map_map]
    refine List.map_congr_left ?_
    intro q _
    simp only [Function.comp]
    split
    · exact hctx q
    · rfl
  have h2 : (o.ssls.map (fun r => if r.id = s then f r else r)).map Ssl.id = o.ssls.map Ssl.id := by
    rw [List.map_map]
    refine List.map_congr_left ?_
    intro q _
    simp only [Function.comp]
    split
    · exact hid q
    · rfl
  refine ⟨?_, ?_, ?_, ?_, H.bad⟩
  · show o.refs.Perm _
    dsimp only
    rw [h1]; exact H.refs
  · dsimp only; rw [h2]; exact H.ids
  · dsimp only; rw [h2]; exact H.nodup
  · intro q hq
    obtain ⟨q', hq', rfl⟩ := List.mem_map.mp hq
    show (if q'.id = s then f q' else q').id < o.names
    split
    · rw [hid]; exact H.old q' hq'
    · exact H.old q' hq'

theorem erase_map {l : List Ssl} (hn : (l.map Ssl.id).Nodup) {r : Ssl} (hr : r ∈ l) :
    l.Perm (r :: l.filter (fun q => q.id ≠ r.id)) := by
  induction l with
  | nil => cases hr
  | cons a t ih =>
    have hn' : a.id ∉ t.map Ssl.id ∧ (t.map Ssl.id).Nodup := List.nodup_cons.mp hn
    rcases List.mem_cons.mp hr with rfl | hr'
    · rw [List.filter_cons_of_neg (by simp)]
      have h2 : t.filter (fun q => q.id ≠ r.id) = t := by
        refine List.filter_eq_self.mpr ?_
        intro e he
        have : e.id ≠ r.id := fun hc => hn'.1 (List.mem_map.mpr ⟨e, he, hc⟩)
        simp [this]
      rw [h2]
    · have hne : a.id ≠ r.id := fun hc => hn'.1 (List.mem_map.mpr ⟨r, hr', hc.symm⟩)
      rw [List.filter_cons_of_pos (by simpa using hne)]
      exact (List.Perm.cons a (ih hn'.2 hr')).trans (List.Perm.swap _ _ _)

theorem sslFree {s : Nat} (H : OInv o cs (s :: ss) lc ls) : OInv (o.sslFree s) cs ss lc ls := by
  obtain ⟨r, hf, hr, rfl⟩ := H.find_some (List.mem_cons_self ..)
  have hp := erase_map H.nodup hr
  unfold Ossl.sslFree
  rw [hf]
  refine ⟨?_, ?_, ?_, ?_, H.bad⟩
  · dsimp only
    have h1 : o.refs.Perm (r.ctx :: (cs ++ (lc ++
        (o.ssls.filter (fun q => q.id ≠ r.id)).map Ssl.ctx))) := by
      refine H.refs.trans ?_
      have := hp.map Ssl.ctx
      refine ((this.append_left lc).append_left cs).trans ?_
      rw [List.map_cons, ← List.append_assoc, ← List.append_assoc]
      exact List.perm_middle
    have := h1.erase r.ctx
    simpa using this
  · dsimp only
    have := (hp.map Ssl.id).symm.trans H.ids
    rw [List.map_cons] at this
    exact List.Perm.cons_inv this
  · exact (List.filter_sublist.map _).nodup H.nodup
  · intro q hq
    exact H.old q (List.mem_of_mem_filter hq)

/-- Changing only `stray` keeps the rest. -/
theorem of_eq {o' : Ossl} (H : OInv o cs ss lc ls) (h1 : o'.refs = o.refs) (h2 : o'.ssls = o.ssls)
    (h3 : o'.names = o.names) (h4 : o'.bad = o.bad) : OInv o' cs ss lc ls :=
  ⟨by rw [h1, h2]; exact H.refs, by rw [h2]; exact H.ids, by rw [h2]; exact H.nodup,
    by rw [h2, h3]; exact H.old, by rw [h4]; exact H.bad⟩

theorem io {s : Nat} (H : OInv o cs ss lc ls) (hs : s ∈ ss) (k : Kernel) :
    OInv (o.io k s) cs ss lc ls ∧ (o.io k s).ssls = o.ssls := by
  obtain ⟨r, hf, -, -⟩ := H.find_some hs
  unfold Ossl.io
  rw [hf]
  dsimp only
  cases r.bio with
  | none => exact ⟨H, rfl⟩
  | some d =>
    dsimp only
    split
    · exact ⟨H, rfl⟩
    · exact ⟨H.of_eq rfl rfl rfl rfl, rfl⟩

theorem transfer {s : Nat} (H : OInv o cs ss lc ls) (hs : s ∈ ss) (k : Kernel) :
    OInv (o.transfer k s) cs ss lc ls ∧ (o.transfer k s).ssls = o.ssls := by
  obtain ⟨r, hf, -, -⟩ := H.find_some hs
  unfold Ossl.transfer
  rw [hf]
  dsimp only
  split
  · exact H.io hs k
  · exact ⟨H, rfl⟩

theorem setFd {s : Nat} (H : OInv o cs ss lc ls) (hs : s ∈ ss) (fd : Option Desc) (ok : Bool) :
    OInv (o.setFd s fd ok) cs ss lc ls := by
  unfold Ossl.setFd
  split
  · exact H.modify hs _ (fun _ => rfl) (fun _ => rfl)
  · exact H

theorem handshake {s : Nat} (H : OInv o cs ss lc ls) (hs : s ∈ ss) (k : Kernel) (ok : Bool) :
    OInv (o.handshake k s ok) cs ss lc ls := by
  unfold Ossl.handshake
  dsimp only
  split
  · exact (H.io hs k).1.modify hs _ (fun _ => rfl) (fun _ => rfl)
  · exact (H.io hs k).1

end OInv

/-! ## Descriptors of one object -/

section obj

variable {k : Kernel} {x : Obj} {R : List Desc}

/-- The object after a call: only the descriptor has changed. -/
def SameBut (x y : Obj) : Prop := y = { x with fd := y.fd }

theorem closeSock_inv (H : KInv k (x.fd.toList ++ R)) :
    KInv (closeSock k x).1 R ∧ (closeSock k x).2 = { x with fd := none } := by
  unfold closeSock
  cases h : x.fd with
  | none =>
    rw [h] at H
    refine ⟨H, ?_⟩
    cases x; simp_all
  | some d =>
    rw [h] at H
    dsimp only
    have hu : k.use d = k := H.use (by simp)
    rw [hu]
    exact ⟨KInv.close H, rfl⟩

theorem openSock_inv (H : KInv k (x.fd.toList ++ R)) (sock : Option Nat) :
    KInv (openSock k x sock).1 ((openSock k x sock).2.1.fd.toList ++ R) ∧
      SameBut x (openSock k x sock).2.1 ∧
      (openSock k x sock).2.2 = (openSock k x sock).2.1.fd.isSome := by
  obtain ⟨h1, h2⟩ := closeSock_inv H
  unfold openSock
  dsimp only
  cases hf : ((closeSock k x).1.fresh sock).2 with
  | none =>
    refine ⟨h1.fresh_none hf, ?_, rfl⟩
    rw [h2]; rfl
  | some d =>
    refine ⟨h1.fresh_some hf, ?_, rfl⟩
    rw [h2]; rfl

theorem tieAddrs_inv {d : Desc} {h : List Desc} (H : KInv k h) (hd : d ∈ h) :
    ∀ rs, (tieAddrs k d rs).1 = k := by
  intro rs
  induction rs with
  | nil => rfl
  | cons r rs ih =>
    unfold tieAddrs
    rw [H.use hd]
    cases r with
    | true => rfl
    | false => exact ih

theorem tieFail_inv (H : KInv k (x.fd.toList ++ R)) (tt : Tie) :
    KInv (tieFail k x tt).1 ((tieFail k x tt).2.1.fd.toList ++ R) ∧
      SameBut x (tieFail k x tt).2.1 := by
  cases tt with
  | connect => exact ⟨H, rfl⟩
  | bind =>
    obtain ⟨h1, h2⟩ := closeSock_inv H
    unfold tieFail
    dsimp only
    rw [h2]
    exact ⟨h1, rfl⟩

theorem tieOpen_inv (H : KInv k (x.fd.toList ++ R)) (tt : Tie) (hosts : Option (List Bool)) :
    KInv (tieOpen k x tt hosts).1 ((tieOpen k x tt hosts).2.1.fd.toList ++ R) ∧
      SameBut x (tieOpen k x tt hosts).2.1 := by
  unfold tieOpen
  cases hosts with
  | none => exact tieFail_inv H tt
  | some rs =>
    dsimp only
    cases h : x.fd with
    | none => dsimp only; exact ⟨by rw [h]; rw [h] at H; exact H, rfl⟩
    | some d =>
      dsimp only
      have he : (tieAddrs k d rs).1 = k := tieAddrs_inv H (by rw [h]; simp) rs
      split
      · rw [he]; exact ⟨H, rfl⟩
      · rw [he]; exact tieFail_inv H tt

theorem SameBut.trans {x y z : Obj} (h1 : SameBut x y) (h2 : SameBut y z) : SameBut x z := by
  unfold SameBut at *
  rw [h2, h1]

theorem tieHost_inv (H : KInv k (x.fd.toList ++ R)) (tt : Tie) (sock : Option Nat)
    (hosts : Option (List Bool)) :
    KInv (tieHost k x tt sock hosts).1 ((tieHost k x tt sock hosts).2.1.fd.toList ++ R) ∧
      SameBut x (tieHost k x tt sock hosts).2.1 := by
  unfold tieHost
  cases h : x.fd with
  | none =>
    dsimp only
    obtain ⟨h1, h2, -⟩ := openSock_inv H sock
    split
    · obtain ⟨h3, h4⟩ := tieOpen_inv h1 tt hosts
      exact ⟨h3, h2.trans h4⟩
    · exact ⟨h1, h2⟩
  | some d =>
    dsimp only
    cases tt with
    | bind => exact ⟨H, rfl⟩
    | connect => exact tieOpen_inv H .connect hosts

theorem tieAddress_inv (H : KInv k (x.fd.toList ++ R)) (sock : Option Nat) (r : Bool) :
    KInv (tieAddress k x sock r).1 ((tieAddress k x sock r).2.1.fd.toList ++ R) ∧
      SameBut x (tieAddress k x sock r).2.1 := by
  unfold tieAddress
  cases h : x.fd with
  | none =>
    dsimp only
    obtain ⟨h1, h2, h3⟩ := openSock_inv H sock
    cases hf : (openSock k x sock).2.1.fd with
    | none =>
      rw [hf] at h3
      rw [show (openSock k x sock).2.2 = false from h3]
      dsimp only
      exact ⟨h1, h2⟩
    | some d =>
      rw [hf] at h3
      rw [show (openSock k x sock).2.2 = true from h3]
      dsimp only
      have hu : (openSock k x sock).1.use d = (openSock k x sock).1 := h1.use (by rw [hf]; simp)
      rw [hu]
      exact ⟨h1, h2⟩
  | some d =>
    dsimp only
    have hu : k.use d = k := H.use (by rw [h]; simp)
    rw [hu]
    exact ⟨H, rfl⟩

theorem clientConnect_inv (H : KInv k (x.fd.toList ++ R)) (sock : Option Nat) (dst : Where) :
    KInv (clientConnect k x sock dst).1 ((clientConnect k x sock dst).2.1.fd.toList ++ R) ∧
      SameBut x (clientConnect k x sock dst).2.1 := by
  unfold clientConnect
  cases dst with
  | host hosts => exact tieHost_inv H _ sock hosts
  | address r => exact tieAddress_inv H sock r

theorem useFd_inv (H : KInv k (x.fd.toList ++ R)) : useFd k x = k := by
  unfold useFd
  cases h : x.fd with
  | none => rfl
  | some d => exact H.use (by rw [h]; simp)

end obj

end Abc.Resource
