import Verif.Resource.SocketInv

/-!
# Sockets: descriptors, TLS objects, connecting (C68, C69, C70)
-/

namespace Abc.Resource

structure WInv (w : World) (lc ls : List Nat) : Prop where
  k : KInv w.k (collect Obj.fd w.objs)
  o : OInv w.o (collect Obj.ctx w.objs) (collect Obj.ssl w.objs) lc ls
  wf : ∀ x, some x ∈ w.objs → Wf x

namespace WInv

variable {w : World} {lc ls : List Nat}

theorem init : WInv World.init [] [] :=
  ⟨KInv.init, OInv.init, by simp [World.init]⟩

theorem splitK (H : WInv w lc ls) {i : Nat} {x : Obj} (hg : w.get i = some x) :
    KInv w.k (x.fd.toList ++ collect Obj.fd (w.objs.set i none)) :=
  H.k.congr (by simpa using collect_split Obj.fd w.objs i (some x) (World.get_some hg).1)

theorem splitO (H : WInv w lc ls) {i : Nat} {x : Obj} (hg : w.get i = some x) :
    OInv w.o (x.ctx.toList ++ collect Obj.ctx (w.objs.set i none))
      (x.ssl.toList ++ collect Obj.ssl (w.objs.set i none)) lc ls :=
  H.o.congr (by simpa using collect_split Obj.ctx w.objs i (some x) (World.get_some hg).1)
    (by simpa using collect_split Obj.ssl w.objs i (some x) (World.get_some hg).1)
    (List.Perm.refl _) (List.Perm.refl _)

theorem wfGet (H : WInv w lc ls) {i : Nat} {x : Obj} (hg : w.get i = some x) : Wf x :=
  H.wf x (List.mem_of_getElem? (World.get_some hg).1)

/-- Puts an object back. -/
theorem put {lc' ls' : List Nat} (H : WInv w lc ls) {i : Nat} {x : Obj} (hg : w.get i = some x)
    {k : Kernel} {o : Ossl} {y : Option Obj}
    (hk : KInv k ((y.bind Obj.fd).toList ++ collect Obj.fd (w.objs.set i none)))
    (ho : OInv o ((y.bind Obj.ctx).toList ++ collect Obj.ctx (w.objs.set i none))
      ((y.bind Obj.ssl).toList ++ collect Obj.ssl (w.objs.set i none)) lc' ls')
    (hw : ∀ z, y = some z → Wf z) : WInv ⟨k, o, w.objs.set i y⟩ lc' ls' := by
  have hi := (World.get_some hg).2
  refine ⟨hk.congr (collect_set _ _ _ _ hi).symm, ho.congr (collect_set _ _ _ _ hi).symm
    (collect_set _ _ _ _ hi).symm (List.Perm.refl _) (List.Perm.refl _), ?_⟩
  intro z hz
  rcases List.mem_or_eq_of_mem_set hz with h | h
  · exact H.wf z h
  · exact hw z h.symm

/-- Adds an object. -/
theorem add {lc' ls' : List Nat} (H : WInv w lc ls) {k : Kernel} {o : Ossl} {x : Obj}
    (hk : KInv k (x.fd.toList ++ collect Obj.fd w.objs))
    (ho : OInv o (x.ctx.toList ++ collect Obj.ctx w.objs) (x.ssl.toList ++ collect Obj.ssl w.objs)
      lc' ls')
    (hw : Wf x) : WInv ⟨k, o, w.objs ++ [some x]⟩ lc' ls' := by
  refine ⟨?_, ?_, ?_⟩
  · rw [collect_append]; exact hk.congr List.perm_append_comm
  · rw [collect_append, collect_append]
    exact ho.congr List.perm_append_comm List.perm_append_comm (List.Perm.refl _) (List.Perm.refl _)
  · intro z hz
    rcases List.mem_append.mp hz with h | h
    · exact H.wf z h
    · have : z = x := by simpa using h
      rw [this]; exact hw

/-- Only kernel and OpenSSL change. -/
theorem same {lc' ls' : List Nat} (H : WInv w lc ls) {k : Kernel} {o : Ossl}
    (hk : KInv k (collect Obj.fd w.objs))
    (ho : OInv o (collect Obj.ctx w.objs) (collect Obj.ssl w.objs) lc' ls') :
    WInv ⟨k, o, w.objs⟩ lc' ls' := ⟨hk, ho, H.wf⟩

end WInv

theorem Wf.same {x y : Obj} (h : Wf x) (s : SameBut x y) : Wf y := by
  unfold SameBut at s
  rw [s]
  exact h

/-- The destructor of a whole object. -/
theorem destroyObj_inv {k : Kernel} {o : Ossl} {x : Obj} {R : List Desc} {C S lc ls : List Nat}
    (hk : KInv k (x.fd.toList ++ R)) (ho : OInv o (x.ctx.toList ++ C) (x.ssl.toList ++ S) lc ls)
    (hw : Wf x) : KInv (destroyObj k o x).1 R ∧ OInv (destroyObj k o x).2 C S lc ls := by
  refine ⟨(closeSock_inv hk).1, ?_⟩
  have hctx : ∀ o', OInv o' (x.ctx.toList ++ C) S lc ls →
      OInv (match x.ctx with | none => o' | some c => o'.ctxFree c) C S lc ls := by
    intro o' ho'
    cases h : x.ctx with
    | none => rw [h] at ho'; exact ho'
    | some c => rw [h] at ho'; exact ho'.ctxFree
  unfold destroyObj
  dsimp only
  unfold Wf at hw
  cases hc : x.cls with
  | tlsClient =>
    dsimp only
    unfold tlsClientDtor
    dsimp only
    cases hs : x.ssl with
    | none =>
      rw [hs] at ho
      exact hctx _ ho
    | some s =>
      rw [hs] at ho
      dsimp only
      have h1 := (ho.transfer (s := s) (by simp) k).1
      exact hctx _ (OInv.sslFree h1)
  | tlsServer =>
    rw [hc] at hw
    dsimp only at hw ⊢
    rw [hw] at ho
    exact hctx _ ho
  | udp => rw [hc] at hw; dsimp only at hw ⊢; rw [hw.1, hw.2] at ho; exact ho
  | tcpClient => rw [hc] at hw; dsimp only at hw ⊢; rw [hw.1, hw.2] at ho; exact ho
  | tcpServer => rw [hc] at hw; dsimp only at hw ⊢; rw [hw.1, hw.2] at ho; exact ho

theorem movedFrom_none {x : Obj} (hw : Wf x) :
    x.movedFrom.fd = none ∧ x.movedFrom.ctx = none ∧ x.movedFrom.ssl = none := by
  unfold Wf at hw
  unfold Obj.movedFrom
  cases hc : x.cls <;> simp_all

/-- What a TLS constructor that throws leaves behind, and which operations those are: the operation
has a context or an `SSL` allocated when the constructor throws. -/
def Op.ctorFails : Op → Bool
  | .newTlsClient _ ctx ssl => ctx && !ssl
  | .newTlsServer _ ctx cert key => ctx && !(cert && key)
  | .accept _ _ ssl setFd _ => ssl && !setFd
  | _ => false

theorem tlsAccept_inv {k : Kernel} {o : Ossl} {x : Obj} {d : Desc} {R : List Desc}
    {C S lc ls : List Nat} (hk : KInv k (d :: R)) (ho : OInv o C S lc ls)
    (hc : ∀ c, x.ctx = some c → c ∈ C) (ssl setFd shake : Bool) :
    ∃ lost, ((ssl && !setFd) = false → lost = []) ∧
      (match tlsAccept k o x d ssl setFd shake with
        | (k', o', none) => KInv k' R ∧ OInv o' C S lc (lost ++ ls)
        | (k', o', some y) => KInv k' (y.fd.toList ++ R) ∧
            OInv o' (y.ctx.toList ++ C) (y.ssl.toList ++ S) lc (lost ++ ls) ∧ Wf y) := by
  unfold tlsAccept
  dsimp only
  cases hn : (o.sslNew x.ctx ssl).2 with
  | none =>
    have h0 : o.sslNew x.ctx ssl = (o, none) := by
      rw [← hn]; exact Prod.ext (ho.sslNew_none hc hn) rfl
    rw [h0]
    exact ⟨[], fun _ => rfl, (closeSock_inv (x := ⟨.tlsClient, x.log, some d, none, none⟩) hk).1, ho⟩
  | some s =>
    obtain ⟨h1, -, -⟩ := ho.sslNew_some hn
    have h0 : o.sslNew x.ctx ssl = ((o.sslNew x.ctx ssl).1, some s) := by rw [← hn]
    generalize (o.sslNew x.ctx ssl).1 = o1 at h0 h1
    rw [h0]
    dsimp only
    have hssl : ssl = true := by
      cases ssl with
      | true => rfl
      | false =>
        exfalso
        unfold Ossl.sslNew at h0
        cases hx : x.ctx with
        | none => rw [hx] at h0; simp at h0
        | some c => rw [hx] at h0; dsimp only at h0; split at h0 <;> simp at h0
    have h2 := h1.setFd (s := s) (by simp) (some d) setFd
    cases setFd with
    | false =>
      simp only [Bool.false_eq_true, if_false]
      refine ⟨[s], by simp [hssl], (closeSock_inv
        (x := ⟨.tlsClient, x.log, some d, none, some s⟩) hk).1, ?_⟩
      have h3 : OInv (o1.setFd s (some d) false) C (s :: S) lc ls := h2
      exact ⟨h3.refs, h3.ids.trans List.perm_middle.symm, h3.nodup, h3.old, h3.bad⟩
    | true =>
      simp only [if_true]
      refine ⟨[], fun _ => rfl, ?_⟩
      have h3 := h2.handshake (s := s) (by simp) k shake
      cases shake with
      | true =>
        simp only [if_true]
        exact ⟨hk, h3, trivial⟩
      | false =>
        simp only [Bool.false_eq_true, if_false]
        exact destroyObj_inv (x := ⟨.tlsClient, x.log, some d, none, some s⟩) hk h3 trivial

theorem step_inv {w : World} {lc ls : List Nat} (H : WInv w lc ls) (op : Op) :
    ∃ lc' ls', WInv (step w op).1 (lc' ++ lc) (ls' ++ ls) ∧
      (op.ctorFails = false → lc' = [] ∧ ls' = []) := by
  have same : ∀ {w'}, WInv w' lc ls → ∃ lc' ls', WInv w' (lc' ++ lc) (ls' ++ ls) ∧
      (op.ctorFails = false → lc' = [] ∧ ls' = []) := fun h => ⟨[], [], h, fun _ => ⟨rfl, rfl⟩⟩
  cases op with
  | new cls log =>
    refine same ?_
    cases cls <;> dsimp only [step] <;> first
      | exact H
      | exact H.add H.k H.o ⟨rfl, rfl⟩
  | newTlsClient log ctx ssl =>
    dsimp only [step]
    cases hn : (w.o.ctxNew ctx).2 with
    | none =>
      rw [show w.o.ctxNew ctx = (w.o, none) from by
        rw [← hn]; exact Prod.ext (OInv.ctxNew_none hn) rfl]
      exact same H
    | some c =>
      have h1 := H.o.ctxNew_some hn
      have hctx : ctx = true := by
        cases ctx with
        | true => rfl
        | false => cases hn
      rw [show w.o.ctxNew ctx = ((w.o.ctxNew ctx).1, some c) from by rw [← hn]]
      generalize (w.o.ctxNew ctx).1 = o1 at h1 ⊢
      dsimp only
      cases hs : (o1.sslNew (some c) ssl).2 with
      | none =>
        rw [show o1.sslNew (some c) ssl = (o1, none) from by
          rw [← hs]; exact Prod.ext (h1.sslNew_none (by intro v hv; cases hv; simp) hs) rfl]
        dsimp only
        have hssl : ssl = false := by
          cases ssl with
          | false => rfl
          | true =>
            exfalso
            have hm : c ∈ o1.refs := h1.refs.mem_iff.mpr (by simp)
            unfold Ossl.sslNew at hs
            simp [hm] at hs
        refine ⟨[c], [], ⟨H.k, ?_, H.wf⟩, by simp [Op.ctorFails, hctx, hssl]⟩
        refine ⟨h1.refs.trans ?_, h1.ids, h1.nodup, h1.old, h1.bad⟩
        exact List.perm_middle.symm
      | some s =>
        obtain ⟨h2, -, -⟩ := h1.sslNew_some hs
        rw [show o1.sslNew (some c) ssl = ((o1.sslNew (some c) ssl).1, some s) from by rw [← hs]]
        generalize (o1.sslNew (some c) ssl).1 = o2 at h2 ⊢
        exact same (H.add H.k h2 trivial)
  | newTlsServer log ctx cert key =>
    dsimp only [step]
    cases hn : (w.o.ctxNew ctx).2 with
    | none =>
      rw [show w.o.ctxNew ctx = (w.o, none) from by
        rw [← hn]; exact Prod.ext (OInv.ctxNew_none hn) rfl]
      exact same H
    | some c =>
      have h1 := H.o.ctxNew_some hn
      have hctx : ctx = true := by
        cases ctx with
        | true => rfl
        | false => cases hn
      rw [show w.o.ctxNew ctx = ((w.o.ctxNew ctx).1, some c) from by rw [← hn]]
      generalize (w.o.ctxNew ctx).1 = o1 at h1 ⊢
      dsimp only
      by_cases hck : (cert && key) = true
      · rw [if_pos hck]
        exact same (H.add H.k h1 rfl)
      · rw [if_neg hck]
        refine ⟨[c], [], ⟨H.k, ?_, H.wf⟩, ?_⟩
        · exact ⟨h1.refs.trans List.perm_middle.symm, h1.ids, h1.nodup, h1.old, h1.bad⟩
        · intro hf
          simp only [Op.ctorFails, hctx, Bool.true_and, Bool.not_eq_false'] at hf
          exact absurd hf hck
  | move i =>
    dsimp only [step]
    cases hg : w.get i with
    | none => exact same H
    | some x =>
      dsimp only
      refine same ?_
      obtain ⟨m1, m2, m3⟩ := movedFrom_none (H.wfGet hg)
      have hp : WInv ⟨w.k, w.o, w.objs⟩ lc ls := H
      have hi := (World.get_some hg)
      have hw' : Wf x.movedFrom := by
        unfold Wf
        cases x.movedFrom.cls <;> simp [m2, m3]
      have hsplit : ∀ (α : Type) (f : Obj → Option α), f x.movedFrom = none →
          ((f x).toList ++ collect f (w.objs.set i (some x.movedFrom))).Perm (collect f w.objs) := by
        intro α f hf
        have h1 := collect_split f w.objs i (some x) hi.1
        have h2 := collect_set f w.objs i (some x.movedFrom) hi.2
        simp only [Option.bind_some, hf, Option.toList_none, List.nil_append] at h1 h2
        exact (h2.append_left _).trans h1.symm
      refine ⟨?_, ?_, ?_⟩
      · show KInv w.k (collect Obj.fd (w.objs.set i (some x.movedFrom) ++ [some x]))
        rw [collect_append]
        exact H.k.congr ((hsplit _ Obj.fd m1).symm.trans List.perm_append_comm)
      · show OInv w.o (collect Obj.ctx (w.objs.set i (some x.movedFrom) ++ [some x]))
          (collect Obj.ssl (w.objs.set i (some x.movedFrom) ++ [some x])) lc ls
        rw [collect_append, collect_append]
        exact H.o.congr ((hsplit _ Obj.ctx m2).symm.trans List.perm_append_comm)
          ((hsplit _ Obj.ssl m3).symm.trans List.perm_append_comm) (List.Perm.refl _)
          (List.Perm.refl _)
      · intro z hz
        rcases List.mem_append.mp hz with h | h
        · rcases List.mem_or_eq_of_mem_set h with h | h
          · exact H.wf z h
          · cases h; exact hw'
        · have : z = x := by simpa using h
          rw [this]; exact H.wfGet hg
  | destroy i =>
    dsimp only [step]
    cases hg : w.get i with
    | none => exact same H
    | some x =>
      dsimp only
      obtain ⟨h1, h2⟩ := destroyObj_inv (H.splitK hg) (H.splitO hg) (H.wfGet hg)
      exact same (H.put hg (y := none) h1 h2 (by simp))
  | close i =>
    dsimp only [step]
    cases hg : w.get i with
    | none => exact same H
    | some x =>
      dsimp only
      obtain ⟨h1, h2⟩ := closeSock_inv (H.splitK hg)
      rw [h2]
      have hO := H.splitO hg
      have hW := H.wfGet hg
      refine same (H.put hg (y := some { x with fd := none }) h1 hO ?_)
      intro z hz; cases hz; exact hW
  | bind i sock hosts =>
    dsimp only [step]
    cases hg : w.get i with
    | none => exact same H
    | some x =>
      dsimp only
      obtain ⟨h1, h2⟩ := tieHost_inv (H.splitK hg) .bind sock hosts
      have h2' := h2
      unfold SameBut at h2'
      have hO := H.splitO hg
      refine same (H.put hg (y := some _) h1 ?_ ?_)
      · simp only [Option.bind_some]
        rw [h2']
        exact hO
      · intro z hz; cases hz; exact (H.wfGet hg).same h2
  | connect i sock dst sh =>
    dsimp only [step]
    cases hg : w.get i with
    | none => exact same H
    | some x =>
      dsimp only
      by_cases hcl : x.cls.isClient = true
      · rw [if_pos hcl]
        obtain ⟨h1, h2⟩ := clientConnect_inv (H.splitK hg) sock dst
        have h2' := h2
        unfold SameBut at h2'
        generalize (clientConnect w.k x sock dst).1 = k1 at *
        generalize (clientConnect w.k x sock dst).2.1 = x1 at *
        generalize (clientConnect w.k x sock dst).2.2 = ok1 at *
        have hO : OInv w.o (x1.ctx.toList ++ collect Obj.ctx (w.objs.set i none))
            (x1.ssl.toList ++ collect Obj.ssl (w.objs.set i none)) lc ls := by
          have hO := H.splitO hg
          rw [h2']; exact hO
        have hput : WInv ⟨k1, w.o, w.objs.set i (some x1)⟩ lc ls :=
          H.put hg (y := some x1) h1 hO (by intro z hz; cases hz; exact (H.wfGet hg).same h2)
        split
        · unfold connectHandshake
          cases hfd : x1.fd with
          | none => exact same hput
          | some d =>
            dsimp only
            cases hss : x1.ssl with
            | none => exact same hput
            | some s =>
              dsimp only
              rw [hss] at hO
              have h3 := hO.setFd (s := s) (by simp) (some d) sh.setFd
              have putO : ∀ o', OInv o' (x1.ctx.toList ++ collect Obj.ctx (w.objs.set i none))
                  (x1.ssl.toList ++ collect Obj.ssl (w.objs.set i none)) lc ls →
                  WInv ⟨k1, o', w.objs.set i (some x1)⟩ lc ls := fun o' ho' =>
                H.put hg (y := some x1) h1 ho'
                  (by intro z hz; cases hz; exact (H.wfGet hg).same h2)
              cases hsf : sh.setFd with
              | false =>
                simp only [Bool.false_eq_true, if_false]
                exact same (putO _ (by rw [hss]; exact hO))
              | true =>
                simp only [if_true]
                cases x1.log with
                | false => exact same hput
                | true =>
                  simp only [if_true]
                  refine same (putO _ ?_)
                  rw [hss]
                  rw [hsf] at h3
                  exact h3.handshake (s := s) (by simp) k1 sh.connect
        · exact same hput
      · rw [if_neg hcl]; exact same H
  | listen i ok =>
    dsimp only [step]
    cases hg : w.get i with
    | none => exact same H
    | some x =>
      dsimp only
      split
      · exact same H
      · rw [useFd_inv (H.splitK hg)]; exact same H
  | accept i fd ssl setFd shake =>
    dsimp only [step]
    cases hg : w.get i with
    | none => exact same H
    | some x =>
      dsimp only
      split
      · exact same H
      · rw [useFd_inv (H.splitK hg)]
        generalize (if x.fd.isSome then fd else none) = a
        cases hf : (w.k.fresh a).2 with
        | none =>
          have h1 := H.k.fresh_none hf
          rw [show w.k.fresh a = ((w.k.fresh a).1, none) from by rw [← hf]]
          exact same (H.same h1 H.o)
        | some d =>
          have h1 := H.k.fresh_some hf
          rw [show w.k.fresh a = ((w.k.fresh a).1, some d) from by rw [← hf]]
          generalize (w.k.fresh a).1 = k1 at *
          dsimp only
          split
          · have hc : ∀ c, x.ctx = some c → c ∈ collect Obj.ctx w.objs := by
              intro c hc
              refine List.mem_filterMap.mpr ⟨some x, ?_, hc⟩
              exact List.mem_of_getElem? (World.get_some hg).1
            obtain ⟨lost, hl, hm⟩ := tlsAccept_inv (x := x) h1 H.o hc ssl setFd shake
            generalize tlsAccept k1 w.o x d ssl setFd shake = res at *
            obtain ⟨k2, o2, y⟩ := res
            cases y with
            | none => exact ⟨[], lost, H.same hm.1 hm.2, fun h => ⟨rfl, hl h⟩⟩
            | some y => exact ⟨[], lost, H.add hm.1 hm.2.1 hm.2.2, fun h => ⟨rfl, hl h⟩⟩
          · exact same (H.add h1 H.o ⟨rfl, rfl⟩)
  | transfer i address n =>
    dsimp only [step]
    cases hg : w.get i with
    | none => exact same H
    | some x =>
      dsimp only
      split
      · cases hfd : x.fd with
        | none => exact same H
        | some d =>
          dsimp only
          split
          · split
            · exact same H
            · cases hss : x.ssl with
              | none => exact same H
              | some s =>
                refine same (H.same H.k (H.o.transfer ?_ w.k).1)
                exact List.mem_filterMap.mpr ⟨some x, List.mem_of_getElem? (World.get_some hg).1, hss⟩
          · split
            · exact same H
            · have hu : w.k.use d = w.k := (H.splitK hg).use (by rw [hfd]; simp)
              rw [hu]; exact same H
      · exact same H

theorem run_inv {ops : List Op} : ∀ {w : World} {lc ls : List Nat}, WInv w lc ls →
    ∃ lc' ls', WInv (run w ops) lc' ls' ∧
      ((∀ op ∈ ops, op.ctorFails = false) → lc' = lc ∧ ls' = ls) := by
  induction ops with
  | nil => intro w lc ls H; exact ⟨lc, ls, H, fun _ => ⟨rfl, rfl⟩⟩
  | cons op ops ih =>
    intro w lc ls H
    obtain ⟨a, b, h1, h2⟩ := step_inv H op
    unfold run
    have hcont : ∃ lc' ls', WInv (run (step w op).1 ops) lc' ls' ∧
        ((∀ op' ∈ op :: ops, op'.ctorFails = false) → lc' = lc ∧ ls' = ls) := by
      obtain ⟨lc', ls', h3, h4⟩ := ih h1
      refine ⟨lc', ls', h3, fun hall => ?_⟩
      obtain ⟨e1, e2⟩ := h4 (fun op' ho => hall op' (List.mem_cons_of_mem _ ho))
      obtain ⟨e3, e4⟩ := h2 (hall op (List.mem_cons_self ..))
      rw [e1, e2, e3, e4]; exact ⟨rfl, rfl⟩
    have hstop : ∃ lc' ls', WInv (step w op).1 lc' ls' ∧
        ((∀ op' ∈ op :: ops, op'.ctorFails = false) → lc' = lc ∧ ls' = ls) := by
      refine ⟨_, _, h1, fun hall => ?_⟩
      obtain ⟨e3, e4⟩ := h2 (hall op (List.mem_cons_self ..))
      rw [e3, e4]; exact ⟨rfl, rfl⟩
    generalize step w op = p at *
    obtain ⟨w', out⟩ := p
    cases out <;> first | exact hcont | exact hstop

end Abc.Resource
