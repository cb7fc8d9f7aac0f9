import Verif.Resource.SocketProps

/-!
# What programs with sockets can rely on (C68, C69, C70)
-/

namespace Abc.Resource

/-! ## C68: descriptors -/

theorem World.mem_collect {w : World} {α : Type} {f : Obj → Option α} {d : α} :
    d ∈ collect f w.objs ↔ ∃ i x, w.get i = some x ∧ f x = some d := by
  constructor
  · intro h
    obtain ⟨y, hy, hf⟩ := List.mem_filterMap.mp h
    cases y with
    | none => cases hf
    | some x =>
      obtain ⟨i, hi⟩ := List.mem_iff_getElem?.mp hy
      exact ⟨i, x, World.get_of hi, hf⟩
  · rintro ⟨i, x, hg, hf⟩
    exact List.mem_filterMap.mpr ⟨some x, List.mem_of_getElem? (World.get_some hg).1, hf⟩

theorem World.get_put {w : World} {i j : Nat} {y : Option Obj} {z : Obj}
    (h : (w.put i y).get j = some z) : (j = i ∧ y = some z) ∨ (j ≠ i ∧ w.get j = some z) := by
  have h1 := (World.get_some h).1
  have hl : j < w.objs.length := by
    have := (World.get_some h).2
    simpa [World.put] using this
  unfold World.put at h1
  dsimp only at h1
  by_cases hji : j = i
  · subst hji
    left
    rw [List.getElem?_set_self hl] at h1
    exact ⟨rfl, by simpa using h1⟩
  · right
    rw [List.getElem?_set_ne (fun h => hji h.symm)] at h1
    exact ⟨hji, World.get_of h1⟩

theorem World.get_add {w : World} {j : Nat} {x z : Obj} (h : (w.add x).get j = some z) :
    w.get j = some z ∨ (z = x ∧ j = w.objs.length) := by
  have h1 := (World.get_some h).1
  unfold World.add at h1
  dsimp only at h1
  by_cases hj : j < w.objs.length
  · left
    rw [List.getElem?_append_left hj] at h1
    exact World.get_of h1
  · right
    rw [List.getElem?_append_right (by omega)] at h1
    have hj0 : j - w.objs.length = 0 := by
      cases hd : j - w.objs.length with
      | zero => rfl
      | succ n => rw [hd] at h1; simp at h1
    rw [hj0] at h1
    have : x = z := by simpa using h1
    exact ⟨this.symm, by omega⟩

/-- Two objects never hold the same thing if what is held has no duplicates. -/
theorem collect_index {w : World} {α : Type} {f : Obj → Option α} {d : α}
    (hn : (collect f w.objs).Nodup) {i j : Nat} {x y : Obj} (hi : w.get i = some x)
    (hj : w.get j = some y) (hx : f x = some d) (hy : f y = some d) : i = j := by
  by_contra hij
  have hp := collect_split f w.objs i (some x) (World.get_some hi).1
  have hnd := hp.nodup_iff.mp hn
  have hj' : (w.put i none).objs[j]? = some (some y) := by
    unfold World.put
    dsimp only
    rw [List.getElem?_set_ne hij]
    exact (World.get_some hj).1
  have hmem : d ∈ collect f (w.objs.set i none) :=
    World.mem_collect (w := w.put i none) |>.mpr ⟨j, y, World.get_of hj', hy⟩
  simp only [Option.bind_some, hx, Option.toList_some, List.singleton_append] at hnd
  exact (List.nodup_cons.mp hnd).1 hmem

/-- **C68.**  In every program, whatever the operating system and OpenSSL answer: no call is made on a
descriptor whose opening is over; what an object holds is open; no two objects hold the same number;
every descriptor that was opened is either held by exactly one object and not closed yet, or has been
closed exactly once; and a program whose objects are all gone has nothing open. -/
def C68Full : Prop := ∀ ops : List Op,
  let w := run World.init ops
  w.k.wrong = [] ∧
  (∀ i x d, w.get i = some x → x.fd = some d → d ∈ w.k.table) ∧
  (∀ i j x y d e, w.get i = some x → w.get j = some y → x.fd = some d → y.fd = some e →
    d.num = e.num → i = j) ∧
  (∀ d ∈ w.k.opened,
    ((∃ i x, w.get i = some x ∧ x.fd = some d) ∧ w.k.closed.count d = 0) ∨
    ((¬ ∃ i x, w.get i = some x ∧ x.fd = some d) ∧ w.k.closed.count d = 1)) ∧
  ((∀ i, w.get i = none) → w.k.table = [] ∧ ∀ d ∈ w.k.opened, w.k.closed.count d = 1)

theorem C68_descriptors : C68Full := by
  intro ops w
  obtain ⟨lc, ls, H, -⟩ := run_inv (ops := ops) WInv.init
  have H : WInv w lc ls := H
  have hone : ∀ d ∈ w.k.opened,
    ((∃ i x, w.get i = some x ∧ x.fd = some d) ∧ w.k.closed.count d = 0) ∨
    ((¬ ∃ i x, w.get i = some x ∧ x.fd = some d) ∧ w.k.closed.count d = 1) := by
    intro d hd
    rcases H.k.once hd with ⟨h, hc⟩ | ⟨h, hc⟩
    · exact Or.inl ⟨World.mem_collect.mp h, hc⟩
    · exact Or.inr ⟨fun hx => h (World.mem_collect.mpr hx), hc⟩
  have htab : ∀ i x d, w.get i = some x → x.fd = some d → d ∈ w.k.table := by
    intro i x d hg hx
    exact H.k.perm.mem_iff.mp (World.mem_collect.mpr ⟨i, x, hg, hx⟩)
  refine ⟨H.k.wrong, htab, ?_, hone, ?_⟩
  · intro i j x y d e hi hj hx hy hde
    have hd := htab i x d hi hx
    have he := htab j y e hj hy
    have hde' : d = e := List.inj_on_of_nodup_map H.k.nums hd he hde
    subst hde'
    have hn : (collect Obj.fd w.objs).Nodup :=
      H.k.perm.nodup_iff.mpr (List.Nodup.of_map _ H.k.nums)
    exact collect_index hn hi hj hx hy
  · intro hall
    have hempty : w.k.table = [] := by
      refine List.eq_nil_iff_forall_not_mem.mpr ?_
      intro d hd
      obtain ⟨i, x, hg, -⟩ := World.mem_collect.mp (H.k.perm.mem_iff.mpr hd)
      rw [hall i] at hg; cases hg
    refine ⟨hempty, ?_⟩
    intro d hd
    rcases hone d hd with ⟨⟨i, x, hg, -⟩, -⟩ | ⟨-, hc⟩
    · rw [hall i] at hg; cases hg
    · exact hc

/-- A program with a server, an accepted connection that is moved, a client, and destructors in an
unhelpful order.  Numbers are handed out again after they were closed. -/
def demoSockets : List Op :=
  [.new .tcpServer true, .bind 0 (some 3) (some [false, true]), .listen 0 true,
   .accept 0 (some 4) false false false, .move 1, .new .tcpClient false,
   .connect 3 (some 5) (.host (some [true])) ⟨false, false⟩, .transfer 2 false (some 10),
   .destroy 2, .connect 1 (some 4) (.address true) ⟨false, false⟩, .destroy 0, .destroy 1, .destroy 3]

example : (run World.init (demoSockets.take 10)).k.table.map Desc.num = [4, 5, 3] ∧
    (run World.init demoSockets).k.table = [] ∧
    (run World.init demoSockets).k.opened.length = 4 ∧
    (∀ i, (run World.init demoSockets).get i = none) := by
  refine ⟨by decide +kernel, by decide +kernel, by decide +kernel, ?_⟩
  have h : (run World.init demoSockets).objs = [none, none, none, none] := by decide +kernel
  intro i
  unfold World.get
  rw [h]
  rcases i with _ | _ | _ | _ | i <;> rfl

/-- What `bind` does to a socket, in every program: on an open socket it throws and nothing changes;
on a closed one it either returns with the socket open, or throws with the socket closed. -/
theorem C68_bind (ops : List Op) (i : Nat) (x : Obj) (sock : Option Nat)
    (hosts : Option (List Bool)) (hg : (run World.init ops).get i = some x) :
    let w := run World.init ops
    let r := step w (.bind i sock hosts)
    (x.fd ≠ none → r.2 = .thrown ∧ r.1.get i = some x ∧ r.1.k = w.k) ∧
    (x.fd = none → ∃ y, r.1.get i = some y ∧ y.cls = x.cls ∧
      ((r.2 = .done ∧ ∃ d, y.fd = some d ∧ some d.num = sock ∧ ∃ rs, hosts = some rs ∧ true ∈ rs) ∨
       (r.2 = .thrown ∧ y.fd = none ∧
        (sock = none ∨ (∃ d ∈ w.k.table, some d.num = sock) ∨ ∀ rs, hosts = some rs → true ∉ rs)))) := by
  intro w r
  obtain ⟨lc, ls, H, -⟩ := run_inv (ops := ops) WInv.init
  have H : WInv w lc ls := H
  have hg : w.get i = some x := hg
  have hi := (World.get_some hg).2
  have hput : ∀ (k : Kernel) (y : Obj), ({ w with k := k }.put i (some y)).get i = some y := by
    intro k y
    refine World.get_of ?_
    unfold World.put
    dsimp only
    rw [List.getElem?_set_self hi]
  have hr : r = ({ w with k := (tieHost w.k x .bind sock hosts).1 }.put i
      (some (tieHost w.k x .bind sock hosts).2.1), thrownIf (tieHost w.k x .bind sock hosts).2.2) := by
    show step w (.bind i sock hosts) = _
    dsimp only [step]
    rw [hg]
  constructor
  · intro hfd
    obtain ⟨d, hd⟩ := Option.ne_none_iff_exists'.mp hfd
    have ht : tieHost w.k x .bind sock hosts = (w.k, x, false) := by
      unfold tieHost; rw [hd]
    rw [hr, ht]
    exact ⟨rfl, hput _ _, rfl⟩
  · intro hfd
    have hc : closeSock w.k x = (w.k, x) := by unfold closeSock; rw [hfd]
    refine ⟨(tieHost w.k x .bind sock hosts).2.1, by rw [hr]; exact hput _ _, ?_, ?_⟩
    · have := (tieHost_inv (H.splitK hg) .bind sock hosts).2
      unfold SameBut at this
      rw [this]
    · rw [hr]
      dsimp only
      unfold tieHost
      rw [hfd]
      dsimp only
      obtain ⟨k', fd', hp⟩ : ∃ k' fd', w.k.fresh sock = (k', fd') := ⟨_, _, rfl⟩
      have hf : (w.k.fresh sock).2 = fd' := by rw [hp]
      have hk1 : (w.k.fresh sock).1 = k' := by rw [hp]
      have hopen : openSock w.k x sock = (k', { x with fd := fd' }, fd'.isSome) := by
        unfold openSock
        rw [hc]
        dsimp only
        rw [hp]
      rw [hopen]
      dsimp only
      cases fd' with
      | none =>
        right
        simp only [Option.isSome_none, Bool.false_eq_true, if_false]
        refine ⟨rfl, trivial, ?_⟩
        unfold Kernel.fresh at hf
        cases sock with
        | none => exact Or.inl rfl
        | some n =>
          dsimp only at hf
          split at hf
          · rename_i hany
            obtain ⟨d, hd, hn⟩ := List.any_eq_true.mp hany
            exact Or.inr (Or.inl ⟨d, hd, by simpa using hn⟩)
          · cases hf
      | some d =>
        have hk' : KInv k' (d :: collect Obj.fd w.objs) := by
          rw [← hk1]; exact H.k.fresh_some hf
        have hnum : some d.num = sock := by
          unfold Kernel.fresh at hf
          cases sock with
          | none => cases hf
          | some n =>
            dsimp only at hf
            split at hf
            · cases hf
            · cases hf; rfl
        simp only [Option.isSome_some, if_true]
        have haddr : ∀ rs, (tieAddrs k' d rs).2 = true ↔ true ∈ rs := by
          intro rs
          induction rs with
          | nil => simp [tieAddrs]
          | cons b rs ih =>
            unfold tieAddrs
            rw [hk'.use (List.mem_cons_self ..)]
            cases b with
            | true => simp
            | false => simpa using ih
        unfold tieOpen
        cases hosts with
        | none =>
          right
          exact ⟨rfl, rfl, Or.inr (Or.inr (by simp))⟩
        | some rs =>
          dsimp only
          by_cases ht : (tieAddrs k' d rs).2 = true
          · left
            rw [if_pos ht]
            exact ⟨rfl, d, rfl, hnum, rs, rfl, (haddr rs).mp ht⟩
          · right
            rw [if_neg ht]
            refine ⟨rfl, rfl, Or.inr (Or.inr ?_)⟩
            intro rs' hrs
            cases hrs
            exact fun hm => ht ((haddr rs).mpr hm)

/-! ## C69: TLS objects -/

/-- **C69, as stated.**  In every program: nothing of OpenSSL is released twice or used after its
release; TLS calls only ever go to a descriptor the object itself opened and has not closed; and when
all objects are gone every `SSL` and every `SSL_CTX` has been released. -/
def C69Full : Prop := ∀ ops : List Op,
  let w := run World.init ops
  w.o.bad = false ∧ w.o.stray = [] ∧
    ((∀ i, w.get i = none) → w.o.refs = [] ∧ w.o.ssls = [])

/-- A server constructed with a certificate file that does not exist: the constructor throws, and the
context stays. -/
theorem C69_violated_leak : ¬ C69Full := by
  intro h
  have h1 := (h [.newTlsServer true true false true]).2.2
    (by
      intro i
      have ho : (run World.init [.newTlsServer true true false true]).objs = [] := by decide +kernel
      unfold World.get; rw [ho]; rfl)
  revert h1
  decide +kernel

/-- The program of `C69_violated_stray`. -/
def demoStray : List Op :=
  [.newTlsClient true true true,
   .connect 0 (some 5) (.host (some [true])) ⟨true, true⟩,
   .close 0,
   .new .tcpClient true, .connect 1 (some 5) (.address true) ⟨false, false⟩,
   .destroy 0]

/-- A connected TLS client is closed, a plain client gets the same number, and the TLS client is
destroyed: `SSL_shutdown` writes into the connection of the plain client. -/
theorem C69_violated_stray : ¬ C69Full ∧
    ∃ d e x, (run World.init demoStray).o.stray = [d] ∧ (run World.init demoStray).get 1 = some x ∧
      x.cls = .tcpClient ∧ x.fd = some e ∧ e ≠ d ∧ e.num = d.num := by
  refine ⟨?_, ⟨5, 0⟩, ⟨5, 1⟩, ⟨.tcpClient, true, some ⟨5, 1⟩, none, none⟩, ?_⟩
  · intro h
    have := (h demoStray).2.1
    revert this
    decide +kernel
  · decide +kernel

/-- The operation is not `close` on a TLS client. -/
def Tame (w : World) : Op → Prop
  | .close i => ∀ x, w.get i = some x → x.cls ≠ .tlsClient
  | _ => True

/-- No operation of the program is `close` on a TLS client (destroying and moving it is allowed, and so
is closing any other socket). -/
def TameRun (w : World) : List Op → Prop
  | [] => True
  | op :: ops => Tame w op ∧ TameRun (step w op).1 ops

structure BInv (w : World) : Prop where
  bio : ∀ j x s d, w.get j = some x → x.ssl = some s → ∀ r ∈ w.o.ssls, r.id = s →
    r.bio = some d → x.fd = some d
  stray : w.o.stray = []

/-- Nothing happened to the `SSL`s, and objects kept their descriptors. -/
theorem BInv.of {w w' : World} (B : BInv w) (hs : w'.o.stray = [])
    (ho : ∀ r ∈ w'.o.ssls, r ∈ w.o.ssls)
    (hx : ∀ j z, w'.get j = some z → z.ssl = none ∨ ∃ i x, w.get i = some x ∧ x.ssl = z.ssl ∧
      ∀ d, x.fd = some d → z.fd = some d) : BInv w' := by
  refine ⟨?_, hs⟩
  intro j z s d hz hzs r hr hid hb
  rcases hx j z hz with h | ⟨i, x, hg, he, hd⟩
  · rw [h] at hzs; cases hzs
  · exact hd d (B.bio i x s d hg (he.trans hzs) r (ho r hr) hid hb)

theorem find_spec {o : Ossl} {s : Nat} {r : Ssl} (h : o.find s = some r) :
    r ∈ o.ssls ∧ r.id = s :=
  ⟨List.mem_of_find?_eq_some h, by simpa using List.find?_some h⟩

theorem io_stray {o : Ossl} {k : Kernel} {s : Nat}
    (h : ∀ r ∈ o.ssls, r.id = s → ∀ d, r.bio = some d → d ∈ k.table) :
    (o.io k s).stray = o.stray ∧ (o.io k s).ssls = o.ssls := by
  unfold Ossl.io
  cases hf : o.find s with
  | none => exact ⟨rfl, rfl⟩
  | some r =>
    obtain ⟨h1, h2⟩ := find_spec hf
    dsimp only
    cases hb : r.bio with
    | none => exact ⟨rfl, rfl⟩
    | some d =>
      dsimp only
      rw [if_pos (h r h1 h2 d hb)]
      exact ⟨rfl, rfl⟩

theorem transfer_stray {o : Ossl} {k : Kernel} {s : Nat}
    (h : ∀ r ∈ o.ssls, r.id = s → ∀ d, r.bio = some d → d ∈ k.table) :
    (o.transfer k s).stray = o.stray ∧ (o.transfer k s).ssls = o.ssls := by
  unfold Ossl.transfer
  cases hf : o.find s with
  | none => exact ⟨rfl, rfl⟩
  | some r =>
    dsimp only
    split
    · exact io_stray h
    · exact ⟨rfl, rfl⟩

theorem modify_mem {o : Ossl} {s : Nat} {f : Ssl → Ssl} {r' : Ssl} (h : r' ∈ (o.modify s f).ssls) :
    (r' ∈ o.ssls ∧ r'.id ≠ s) ∨ ∃ r ∈ o.ssls, r.id = s ∧ r' = f r := by
  unfold Ossl.modify at h
  cases hf : o.find s with
  | none =>
    rw [hf] at h
    left
    refine ⟨h, ?_⟩
    have := List.find?_eq_none.mp hf r' h
    simpa using this
  | some q =>
    rw [hf] at h
    obtain ⟨r, hr, he⟩ := List.mem_map.mp h
    by_cases hid : r.id = s
    · rw [if_pos hid] at he
      exact Or.inr ⟨r, hr, hid, he.symm⟩
    · rw [if_neg hid] at he
      subst he
      exact Or.inl ⟨hr, hid⟩

theorem modify_stray {o : Ossl} {s : Nat} {f : Ssl → Ssl} : (o.modify s f).stray = o.stray := by
  unfold Ossl.modify
  cases o.find s <;> rfl

theorem setFd_mem {o : Ossl} {s : Nat} {fd : Option Desc} {ok : Bool} {r' : Ssl}
    (h : r' ∈ (o.setFd s fd ok).ssls) :
    (r' ∈ o.ssls ∧ (r'.id ≠ s ∨ ok = false)) ∨ (r'.id = s ∧ r'.bio = fd ∧ ok = true) := by
  unfold Ossl.setFd at h
  cases ok with
  | false => exact Or.inl ⟨h, Or.inr rfl⟩
  | true =>
    simp only [if_true] at h
    rcases modify_mem h with ⟨h1, h2⟩ | ⟨r, hr, hid, he⟩
    · exact Or.inl ⟨h1, Or.inl h2⟩
    · exact Or.inr ⟨by rw [he]; exact hid, by rw [he], rfl⟩

theorem setFd_stray {o : Ossl} {s : Nat} {fd : Option Desc} {ok : Bool} :
    (o.setFd s fd ok).stray = o.stray := by
  unfold Ossl.setFd
  split
  · exact modify_stray
  · rfl

/-- After a handshake every `SSL` has the descriptor it had before. -/
theorem handshake_mem {o : Ossl} {k : Kernel} {s : Nat} {ok : Bool}
    (h : ∀ r ∈ o.ssls, r.id = s → ∀ d, r.bio = some d → d ∈ k.table) :
    (o.handshake k s ok).stray = o.stray ∧
      ∀ r' ∈ (o.handshake k s ok).ssls, ∃ r ∈ o.ssls, r.id = r'.id ∧ r.bio = r'.bio := by
  obtain ⟨h1, h2⟩ := io_stray h
  unfold Ossl.handshake
  dsimp only
  cases ok with
  | false =>
    simp only [Bool.false_eq_true, if_false]
    refine ⟨h1, ?_⟩
    intro r' hr'
    rw [h2] at hr'
    exact ⟨r', hr', rfl, rfl⟩
  | true =>
    simp only [if_true]
    refine ⟨modify_stray.trans h1, ?_⟩
    intro r' hr'
    rcases modify_mem hr' with ⟨h3, -⟩ | ⟨r, hr, hid, he⟩
    · rw [h2] at h3; exact ⟨r', h3, rfl, rfl⟩
    · rw [h2] at hr
      exact ⟨r, hr, by rw [he], by rw [he]⟩

theorem sslFree_mem {o : Ossl} {s : Nat} {r : Ssl} (h : r ∈ (o.sslFree s).ssls) : r ∈ o.ssls := by
  unfold Ossl.sslFree at h
  cases hf : o.find s with
  | none => rw [hf] at h; exact h
  | some q => rw [hf] at h; exact List.mem_of_mem_filter h

theorem sslFree_stray {o : Ossl} {s : Nat} : (o.sslFree s).stray = o.stray := by
  unfold Ossl.sslFree
  cases o.find s <;> rfl

theorem ctxFree_same {o : Ossl} {c : Nat} :
    (o.ctxFree c).stray = o.stray ∧ (o.ctxFree c).ssls = o.ssls := by
  unfold Ossl.ctxFree
  split <;> exact ⟨rfl, rfl⟩

/-- Destroying an object whose `SSL` has the descriptor of the object. -/
theorem destroyObj_bio {k : Kernel} {o : Ossl} {x : Obj}
    (h : ∀ s, x.ssl = some s → ∀ r ∈ o.ssls, r.id = s → ∀ d, r.bio = some d → d ∈ k.table) :
    (destroyObj k o x).2.stray = o.stray ∧ ∀ r ∈ (destroyObj k o x).2.ssls, r ∈ o.ssls := by
  have hctx : ∀ o' : Ossl, o'.stray = o.stray → (∀ r ∈ o'.ssls, r ∈ o.ssls) →
      (match x.ctx with | none => o' | some c => o'.ctxFree c).stray = o.stray ∧
      ∀ r ∈ (match x.ctx with | none => o' | some c => o'.ctxFree c).ssls, r ∈ o.ssls := by
    intro o' h1 h2
    cases x.ctx with
    | none => exact ⟨h1, h2⟩
    | some c =>
      dsimp only
      rw [ctxFree_same.1, ctxFree_same.2]
      exact ⟨h1, h2⟩
  unfold destroyObj
  dsimp only
  cases hc : x.cls with
  | tlsClient =>
    dsimp only
    unfold tlsClientDtor
    dsimp only
    cases hs : x.ssl with
    | none => exact hctx o rfl (fun _ h => h)
    | some s =>
      dsimp only
      obtain ⟨h1, h2⟩ := transfer_stray (h s hs)
      refine hctx _ (sslFree_stray.trans h1) ?_
      intro r hr
      have := sslFree_mem hr
      rw [h2] at this
      exact this
  | tlsServer => exact hctx o rfl (fun _ h => h)
  | udp => exact ⟨rfl, fun _ h => h⟩
  | tcpClient => exact ⟨rfl, fun _ h => h⟩
  | tcpServer => exact ⟨rfl, fun _ h => h⟩

/-- An open socket keeps its descriptor in `tie`. -/
theorem tieOpen_keeps {k : Kernel} {x : Obj} {hosts : Option (List Bool)} :
    (tieOpen k x .connect hosts).2.1 = x := by
  unfold tieOpen
  cases hosts with
  | none => rfl
  | some rs =>
    dsimp only
    cases x.fd with
    | none => rfl
    | some d => dsimp only; split <;> rfl

theorem tieHost_keeps {k : Kernel} {x : Obj} {tt : Tie} {sock : Option Nat}
    {hosts : Option (List Bool)} {d : Desc} (h : x.fd = some d) :
    (tieHost k x tt sock hosts).2.1 = x := by
  unfold tieHost
  rw [h]
  cases tt with
  | bind => rfl
  | connect => exact tieOpen_keeps

theorem clientConnect_keeps {k : Kernel} {x : Obj} {sock : Option Nat} {dst : Where} {d : Desc}
    (h : x.fd = some d) : (clientConnect k x sock dst).2.1 = x := by
  unfold clientConnect
  cases dst with
  | host hosts => exact tieHost_keeps h
  | address r => dsimp only; unfold tieAddress; rw [h]

theorem tlsAccept_bio {k : Kernel} {o : Ossl} {x : Obj} {d : Desc} {C S lc ls : List Nat}
    (ho : OInv o C S lc ls) (hc : ∀ c, x.ctx = some c → c ∈ C) (hd : d ∈ k.table)
    (ssl setFd shake : Bool) :
    (tlsAccept k o x d ssl setFd shake).2.1.stray = o.stray ∧
      (∀ r ∈ (tlsAccept k o x d ssl setFd shake).2.1.ssls,
        (∃ q ∈ o.ssls, q.id = r.id ∧ q.bio = r.bio) ∨
        (r.id = o.names ∧ (r.bio = none ∨ r.bio = some d))) ∧
      (∀ y, (tlsAccept k o x d ssl setFd shake).2.2 = some y →
        y.fd = some d ∧ y.ssl = some o.names) := by
  unfold tlsAccept
  dsimp only
  cases hn : (o.sslNew x.ctx ssl).2 with
  | none =>
    have h0 : o.sslNew x.ctx ssl = (o, none) := by
      rw [← hn]; exact Prod.ext (ho.sslNew_none hc hn) rfl
    rw [h0]
    exact ⟨rfl, fun r hr => Or.inl ⟨r, hr, rfl, rfl⟩, by simp⟩
  | some s =>
    obtain ⟨h1, h2, h3⟩ := ho.sslNew_some hn
    have hst : (o.sslNew x.ctx ssl).1.stray = o.stray := by
      unfold Ossl.sslNew
      cases x.ctx with
      | none => rfl
      | some c =>
        dsimp only
        split
        · split <;> rfl
        · rfl
    rw [show o.sslNew x.ctx ssl = ((o.sslNew x.ctx ssl).1, some s) from by rw [← hn]]
    generalize (o.sslNew x.ctx ssl).1 = o1 at *
    dsimp only
    have hfresh : ∀ r ∈ o.ssls, r.id ≠ s := by
      intro r hr he
      have := ho.old r hr
      omega
    have hset : ∀ ok, ∀ r ∈ (o1.setFd s (some d) ok).ssls,
        (∃ q ∈ o.ssls, q.id = r.id ∧ q.bio = r.bio) ∨
        (r.id = o.names ∧ (r.bio = none ∨ r.bio = some d)) := by
      intro ok r hr
      rcases setFd_mem hr with ⟨h4, -⟩ | ⟨h4, h5, -⟩
      · rw [h2] at h4
        rcases List.mem_cons.mp h4 with rfl | h4
        · exact Or.inr ⟨h3, Or.inl rfl⟩
        · exact Or.inl ⟨r, h4, rfl, rfl⟩
      · exact Or.inr ⟨h4.trans h3, Or.inr h5⟩
    cases setFd with
    | false =>
      simp only [Bool.false_eq_true, if_false]
      exact ⟨setFd_stray.trans hst, hset false, by simp⟩
    | true =>
      simp only [if_true]
      have htab : ∀ r ∈ (o1.setFd s (some d) true).ssls, r.id = s → ∀ e, r.bio = some e →
          e ∈ k.table := by
        intro r hr hid e he
        rcases setFd_mem hr with ⟨h4, h5⟩ | ⟨-, h5, -⟩
        · rcases h5 with h5 | h5
          · exact absurd hid h5
          · cases h5
        · rw [h5] at he; cases he; exact hd
      obtain ⟨h5, h6⟩ := handshake_mem (ok := shake) htab
      have h7 : ∀ r ∈ ((o1.setFd s (some d) true).handshake k s shake).ssls,
          (∃ q ∈ o.ssls, q.id = r.id ∧ q.bio = r.bio) ∨
          (r.id = o.names ∧ (r.bio = none ∨ r.bio = some d)) := by
        intro r hr
        obtain ⟨q, hq, e1, e2⟩ := h6 r hr
        rw [← e1, ← e2]
        exact hset true q hq
      cases shake with
      | true =>
        simp only [if_true]
        refine ⟨h5.trans (setFd_stray.trans hst), h7, ?_⟩
        intro y hy
        cases hy
        exact ⟨rfl, by rw [h3]⟩
      | false =>
        simp only [Bool.false_eq_true, if_false]
        have hb : ∀ s', (some s : Option Nat) = some s' →
            ∀ r ∈ ((o1.setFd s (some d) true).handshake k s false).ssls, r.id = s' →
            ∀ e, r.bio = some e → e ∈ k.table := by
          intro s' hs' r hr hid e he
          cases hs'
          obtain ⟨q, hq, e1, e2⟩ := h6 r hr
          exact htab q hq (e1.trans hid) e (e2.trans he)
        obtain ⟨h8, h9⟩ := destroyObj_bio
          (x := ⟨.tlsClient, x.log, some d, none, some s⟩) hb
        exact ⟨h8.trans (h5.trans (setFd_stray.trans hst)), fun r hr => h7 r (h9 r hr), by simp⟩

theorem step_bio {w : World} {lc ls : List Nat} (H : WInv w lc ls) (B : BInv w) (op : Op)
    (ht : Tame w op) : BInv (step w op).1 := by
  have htab : ∀ j x d, w.get j = some x → x.fd = some d → d ∈ w.k.table := by
    intro j x d hg hx
    exact H.k.perm.mem_iff.mp (World.mem_collect.mpr ⟨j, x, hg, hx⟩)
  have keep : ∀ j z, w.get j = some z → z.ssl = none ∨ ∃ i x, w.get i = some x ∧ x.ssl = z.ssl ∧
      ∀ d, x.fd = some d → z.fd = some d := fun j z h => Or.inr ⟨j, z, h, rfl, fun _ h => h⟩
  have sameObjs : ∀ (k : Kernel) (o : Ossl), o.stray = [] → (∀ r ∈ o.ssls, r ∈ w.o.ssls) →
      BInv ⟨k, o, w.objs⟩ := fun k o h1 h2 => B.of h1 h2 keep
  cases op with
  | new cls log =>
    cases cls <;> dsimp only [step] <;> first
      | exact B
      | (refine B.of B.stray (fun _ h => h) ?_
         intro j z hz
         rcases World.get_add hz with h | ⟨rfl, -⟩
         · exact keep j z h
         · exact Or.inl rfl)
  | newTlsClient log ctx ssl =>
    dsimp only [step]
    cases hn : (w.o.ctxNew ctx).2 with
    | none =>
      rw [show w.o.ctxNew ctx = (w.o, none) from by
        rw [← hn]; exact Prod.ext (OInv.ctxNew_none hn) rfl]
      exact B
    | some c =>
      have h1 := H.o.ctxNew_some hn
      have hs1 : (w.o.ctxNew ctx).1.stray = w.o.stray ∧ (w.o.ctxNew ctx).1.ssls = w.o.ssls := by
        unfold Ossl.ctxNew
        split <;> exact ⟨rfl, rfl⟩
      rw [show w.o.ctxNew ctx = ((w.o.ctxNew ctx).1, some c) from by rw [← hn]]
      generalize (w.o.ctxNew ctx).1 = o1 at h1 hs1 ⊢
      dsimp only
      cases hs : (o1.sslNew (some c) ssl).2 with
      | none =>
        rw [show o1.sslNew (some c) ssl = (o1, none) from by
          rw [← hs]; exact Prod.ext (h1.sslNew_none (by intro v hv; cases hv; simp) hs) rfl]
        exact sameObjs _ _ (hs1.1.trans B.stray) (by intro r hr; rw [hs1.2] at hr; exact hr)
      | some s =>
        obtain ⟨h2, h3, h4⟩ := h1.sslNew_some hs
        have hs2 : (o1.sslNew (some c) ssl).1.stray = o1.stray := by
          unfold Ossl.sslNew
          dsimp only
          split
          · split <;> rfl
          · rfl
        rw [show o1.sslNew (some c) ssl = ((o1.sslNew (some c) ssl).1, some s) from by rw [← hs]]
        generalize (o1.sslNew (some c) ssl).1 = o2 at *
        refine ⟨?_, hs2.trans (hs1.1.trans B.stray)⟩
        intro j z s' d hz hzs r hr hid hb
        have hr : r ∈ o2.ssls := hr
        rw [h3, hs1.2] at hr
        rcases List.mem_cons.mp hr with rfl | hr
        · cases hb
        · rcases World.get_add hz with h | ⟨rfl, -⟩
          · exact B.bio j z s' d h hzs r hr hid hb
          · cases hzs
            have := h1.old r (by rw [hs1.2]; exact hr)
            omega
  | newTlsServer log ctx cert key =>
    dsimp only [step]
    have hs1 : (w.o.ctxNew ctx).1.stray = w.o.stray ∧ (w.o.ctxNew ctx).1.ssls = w.o.ssls := by
      unfold Ossl.ctxNew
      split <;> exact ⟨rfl, rfl⟩
    cases hn : (w.o.ctxNew ctx).2 with
    | none =>
      rw [show w.o.ctxNew ctx = (w.o, none) from by
        rw [← hn]; exact Prod.ext (OInv.ctxNew_none hn) rfl]
      exact B
    | some c =>
      rw [show w.o.ctxNew ctx = ((w.o.ctxNew ctx).1, some c) from by rw [← hn]]
      generalize (w.o.ctxNew ctx).1 = o1 at hs1 ⊢
      dsimp only
      split
      · refine B.of (hs1.1.trans B.stray) (by
          intro r hr
          have hr : r ∈ o1.ssls := hr
          rw [hs1.2] at hr; exact hr) ?_
        intro j z hz
        rcases World.get_add hz with h | ⟨rfl, -⟩
        · exact keep j z h
        · exact Or.inl rfl
      · exact sameObjs _ _ (hs1.1.trans B.stray) (by intro r hr; rw [hs1.2] at hr; exact hr)
  | move i =>
    dsimp only [step]
    cases hg : w.get i with
    | none => exact B
    | some x =>
      dsimp only
      refine B.of B.stray (fun _ h => h) ?_
      intro j z hz
      rcases World.get_add hz with h | ⟨rfl, -⟩
      · rcases World.get_put h with ⟨-, h⟩ | ⟨-, h⟩
        · cases h
          exact Or.inl (movedFrom_none (H.wfGet hg)).2.2
        · exact keep j z h
      · exact keep i z hg
  | destroy i =>
    dsimp only [step]
    cases hg : w.get i with
    | none => exact B
    | some x =>
      dsimp only
      obtain ⟨h1, h2⟩ := destroyObj_bio (k := w.k) (o := w.o) (x := x) (by
        intro s hs r hr hid d hb
        exact htab i x d hg (B.bio i x s d hg hs r hr hid hb))
      refine B.of (h1.trans B.stray) h2 ?_
      intro j z hz
      rcases World.get_put hz with ⟨-, h⟩ | ⟨-, h⟩
      · cases h
      · exact keep j z h
  | close i =>
    dsimp only [step]
    cases hg : w.get i with
    | none => exact B
    | some x =>
      dsimp only
      have hx : (closeSock w.k x).2 = { x with fd := none } := (closeSock_inv (H.splitK hg)).2
      rw [hx]
      refine B.of B.stray (fun _ h => h) ?_
      intro j z hz
      rcases World.get_put hz with ⟨-, h⟩ | ⟨-, h⟩
      · cases h
        left
        have hw := H.wfGet hg
        have hc := ht x hg
        unfold Wf at hw
        dsimp only
        cases hcl : x.cls <;> rw [hcl] at hw hc
        · exact hw.2
        · exact hw.2
        · exact hw.2
        · exact absurd rfl hc
        · exact hw
      · exact keep j z h
  | bind i sock hosts =>
    dsimp only [step]
    cases hg : w.get i with
    | none => exact B
    | some x =>
      dsimp only
      have h2 := (tieHost_inv (H.splitK hg) .bind sock hosts).2
      unfold SameBut at h2
      refine B.of B.stray (fun _ h => h) ?_
      intro j z hz
      rcases World.get_put hz with ⟨-, h⟩ | ⟨-, h⟩
      · have h : (tieHost w.k x .bind sock hosts).2.1 = z := by simpa using h
        subst h
        refine Or.inr ⟨i, x, hg, by rw [h2], ?_⟩
        intro d hd
        rw [tieHost_keeps hd]; exact hd
      · exact keep j z h
  | connect i sock dst sh =>
    dsimp only [step]
    cases hg : w.get i with
    | none => exact B
    | some x =>
      dsimp only
      by_cases hcl : x.cls.isClient = true
      · rw [if_pos hcl]
        obtain ⟨h1, h2⟩ := clientConnect_inv (H.splitK hg) sock dst
        have hkeep : ∀ d, x.fd = some d → (clientConnect w.k x sock dst).2.1.fd = some d := by
          intro d hd
          rw [clientConnect_keeps hd]; exact hd
        have h2' := h2
        unfold SameBut at h2'
        generalize (clientConnect w.k x sock dst).1 = k1 at *
        generalize (clientConnect w.k x sock dst).2.1 = x1 at *
        generalize (clientConnect w.k x sock dst).2.2 = ok1 at *
        have hssl : x.ssl = x1.ssl := by rw [h2']
        have hput : BInv ⟨k1, w.o, w.objs.set i (some x1)⟩ := by
          refine B.of B.stray (fun _ h => h) ?_
          intro j z hz
          rcases World.get_put (w := w) hz with ⟨-, h⟩ | ⟨-, h⟩
          · cases h
            exact Or.inr ⟨i, x, hg, hssl, hkeep⟩
          · exact keep j z h
        split
        · unfold connectHandshake
          cases hfd : x1.fd with
          | none => exact hput
          | some d =>
            dsimp only
            cases hss : x1.ssl with
            | none => exact hput
            | some s =>
              dsimp only
              cases hsf : sh.setFd with
              | false =>
                simp only [Bool.false_eq_true, if_false]
                exact hput
              | true =>
                simp only [if_true]
                cases x1.log with
                | false => exact hput
                | true =>
                  simp only [if_true]
                  have hd : d ∈ k1.table := h1.perm.mem_iff.mp (by rw [hfd]; simp)
                  have ht1 : ∀ r ∈ (w.o.setFd s (some d) true).ssls, r.id = s → ∀ e,
                      r.bio = some e → e ∈ k1.table := by
                    intro r hr hid e he
                    rcases setFd_mem hr with ⟨h4, h5⟩ | ⟨-, h5, -⟩
                    · rcases h5 with h5 | h5
                      · exact absurd hid h5
                      · cases h5
                    · rw [h5] at he; cases he; exact hd
                  obtain ⟨h5, h6⟩ := handshake_mem (k := k1) (ok := sh.connect) ht1
                  refine ⟨?_, h5.trans (setFd_stray.trans B.stray)⟩
                  intro j z s' e hz hzs r hr hid hb
                  obtain ⟨q, hq, e1, e2⟩ := h6 r hr
                  rcases World.get_put (w := w) hz with ⟨-, h⟩ | ⟨hji, h⟩
                  · cases h
                    rw [hss] at hzs
                    cases hzs
                    rcases setFd_mem hq with ⟨-, h8⟩ | ⟨-, h8, -⟩
                    · rcases h8 with h8 | h8
                      · exact absurd (e1.trans hid) h8
                      · cases h8
                    · rw [hfd, ← hb, ← e2, h8]
                  · have hne : s' ≠ s := by
                      intro hcon
                      subst hcon
                      have hn : (collect Obj.ssl w.objs).Nodup :=
                        (List.nodup_append.mp (H.o.ids.nodup_iff.mp H.o.nodup)).1
                      exact hji (collect_index hn h hg hzs (hssl.trans hss))
                    rcases setFd_mem hq with ⟨h7, -⟩ | ⟨h7, -, -⟩
                    · exact B.bio j z s' e h hzs q h7 (e1.trans hid) (e2.trans hb)
                    · exact absurd ((e1.trans hid).symm.trans h7) hne
        · exact hput
      · rw [if_neg hcl]; exact B
  | listen i ok =>
    dsimp only [step]
    cases hg : w.get i with
    | none => exact B
    | some x =>
      dsimp only
      split
      · exact B
      · exact sameObjs _ _ B.stray (fun _ h => h)
  | accept i fd ssl setFd shake =>
    dsimp only [step]
    cases hg : w.get i with
    | none => exact B
    | some x =>
      dsimp only
      split
      · exact B
      · rw [useFd_inv (H.splitK hg)]
        generalize (if x.fd.isSome then fd else none) = a
        cases hf : (w.k.fresh a).2 with
        | none =>
          rw [show w.k.fresh a = ((w.k.fresh a).1, none) from by rw [← hf]]
          exact sameObjs _ _ B.stray (fun _ h => h)
        | some d =>
          have h1 := H.k.fresh_some hf
          rw [show w.k.fresh a = ((w.k.fresh a).1, some d) from by rw [← hf]]
          generalize (w.k.fresh a).1 = k1 at *
          dsimp only
          split
          · have hc : ∀ c, x.ctx = some c → c ∈ collect Obj.ctx w.objs := by
              intro c hc
              exact World.mem_collect.mpr ⟨i, x, hg, hc⟩
            have hd : d ∈ k1.table := h1.perm.mem_iff.mp (by simp)
            obtain ⟨t1, t2, t3⟩ := tlsAccept_bio (x := x) H.o hc hd ssl setFd shake
            generalize tlsAccept k1 w.o x d ssl setFd shake = res at *
            obtain ⟨k2, o2, y⟩ := res
            have hold : ∀ j z s' e, w.get j = some z → z.ssl = some s' → ∀ r ∈ o2.ssls,
                r.id = s' → r.bio = some e → z.fd = some e := by
              intro j z s' e hz hzs r hr hid hb
              rcases t2 r hr with ⟨q, hq, e1, e2⟩ | ⟨e1, -⟩
              · exact B.bio j z s' e hz hzs q hq (e1.trans hid) (e2.trans hb)
              · exfalso
                obtain ⟨q, -, hq, hqid⟩ := H.o.find_some (World.mem_collect.mpr ⟨j, z, hz, hzs⟩)
                have := H.o.old q hq
                omega
            cases y with
            | none => exact ⟨hold, t1.trans B.stray⟩
            | some y =>
              refine ⟨?_, t1.trans B.stray⟩
              intro j z s' e hz hzs r hr hid hb
              rcases World.get_add hz with h | ⟨rfl, -⟩
              · exact hold j z s' e h hzs r hr hid hb
              · obtain ⟨t4, t5⟩ := t3 z rfl
                rw [t5] at hzs
                cases hzs
                rcases t2 r hr with ⟨q, hq, e1, -⟩ | ⟨-, h | h⟩
                · have := H.o.old q hq
                  omega
                · rw [h] at hb; cases hb
                · rw [t4, ← h, hb]
          · refine B.of B.stray (fun _ h => h) ?_
            intro j z hz
            rcases World.get_add hz with h | ⟨rfl, -⟩
            · exact keep j z h
            · exact Or.inl rfl
  | transfer i address n =>
    dsimp only [step]
    cases hg : w.get i with
    | none => exact B
    | some x =>
      dsimp only
      split
      · cases hfd : x.fd with
        | none => exact B
        | some d =>
          dsimp only
          split
          · split
            · exact B
            · cases hss : x.ssl with
              | none => exact B
              | some s =>
                obtain ⟨h1, h2⟩ := transfer_stray (o := w.o) (k := w.k) (s := s) (by
                  intro r hr hid e he
                  exact htab i x e hg (B.bio i x s e hg hss r hr hid he))
                exact sameObjs _ _ (h1.trans B.stray) (by intro r hr; rw [h2] at hr; exact hr)
          · split
            · exact B
            · exact sameObjs _ _ B.stray (fun _ h => h)
      · exact B

theorem run_bio {ops : List Op} : ∀ {w : World} {lc ls : List Nat}, WInv w lc ls → BInv w →
    TameRun w ops → BInv (run w ops) := by
  induction ops with
  | nil => intro w lc ls _ B _; exact B
  | cons op ops ih =>
    intro w lc ls H B ht
    obtain ⟨lc', ls', h1, -⟩ := step_inv H op
    have hB := step_bio H B op ht.1
    have hnext : BInv (run (step w op).1 ops) := ih h1 hB ht.2
    unfold run
    generalize step w op = p at *
    obtain ⟨w', out⟩ := p
    cases out <;> first | exact hnext | exact hB

/-- **C69, proved part.**  In every program nothing of OpenSSL is released twice or used after its
release.  In a program without a call of `close` on a TLS client, TLS calls only go to descriptors
the object has open.  In a program where no constructor throws after it has allocated something, all
`SSL` and `SSL_CTX` are released once the objects are gone.

Missing, because the code is otherwise: the second without its hypothesis (`C69_violated_stray`), and
the third without its (`C69_violated_leak`). -/
theorem C69_tls_partial (ops : List Op) :
    let w := run World.init ops
    w.o.bad = false ∧
    (TameRun World.init ops → w.o.stray = []) ∧
    ((∀ op ∈ ops, op.ctorFails = false) → (∀ i, w.get i = none) → w.o.refs = [] ∧ w.o.ssls = []) := by
  intro w
  obtain ⟨lc, ls, H, hl⟩ := run_inv (ops := ops) WInv.init
  have H : WInv w lc ls := H
  refine ⟨H.o.bad, ?_, ?_⟩
  · intro ht
    refine (run_bio WInv.init ⟨?_, rfl⟩ ht).stray
    intro j x s d _ _ r hr
    cases hr
  · intro hf hall
    obtain ⟨e1, e2⟩ := hl hf
    subst e1 e2
    have hnil : ∀ (α : Type) (f : Obj → Option α), collect f w.objs = [] := by
      intro α f
      refine List.eq_nil_iff_forall_not_mem.mpr ?_
      intro d hd
      obtain ⟨i, x, hg, -⟩ := World.mem_collect.mp hd
      rw [hall i] at hg; cases hg
    have hids := H.o.ids
    rw [hnil] at hids
    have h1 : w.o.ssls = [] := by
      have : w.o.ssls.map Ssl.id = [] := hids.eq_nil
      simpa using this
    have hrefs := H.o.refs
    rw [hnil, h1] at hrefs
    exact ⟨hrefs.eq_nil, h1⟩

/-- A TLS server accepts a connection and goes away before it; a client connects and is moved. -/
def demoTls : List Op :=
  [.newTlsServer true true true true, .bind 0 (some 3) (some [true]), .listen 0 true,
   .accept 0 (some 4) true true true, .newTlsClient true true true,
   .connect 2 (some 5) (.host (some [false, true])) ⟨true, true⟩, .accept 0 (some 6) true true false,
   .destroy 0, .transfer 1 false (some 7), .move 2, .transfer 3 false (some 9), .destroy 1,
   .destroy 2, .destroy 3]

example : TameRun World.init demoTls ∧ (∀ op ∈ demoTls, op.ctorFails = false) ∧
    (run World.init (demoTls.take 11)).o.ssls.length = 2 ∧
    (run World.init (demoTls.take 11)).o.refs.length = 3 ∧
    (run World.init demoTls).o.refs = [] := by
  refine ⟨?_, by decide +kernel, by decide +kernel, by decide +kernel, by decide +kernel⟩
  simp only [demoTls, TameRun, Tame, and_self]

/-! ## C70: connecting without a log -/

/-- **C70, as stated.**  `connect` of a TLS client is never undefined behaviour, in particular not if
the client was constructed with `nullptr` for its log. -/
def C70Full : Prop := ∀ (ops : List Op) (i : Nat) (sock : Option Nat) (dst : Where) (sh : Shake),
  (step (run World.init ops) (.connect i sock dst sh)).2 ≠ .ub

/-- Without a log every `connect` that reaches its peer is undefined behaviour, whatever the handshake
would have brought. -/
theorem C70_violated : ¬ C70Full ∧
    ∀ (n : Nat) (connect : Bool) (rs : List Bool), true ∈ rs →
      (step (run World.init [.newTlsClient false true true])
        (.connect 0 (some n) (.host (some rs)) ⟨true, connect⟩)).2 = .ub := by
  have key : ∀ (n : Nat) (connect : Bool) (rs : List Bool), true ∈ rs →
      (step (run World.init [.newTlsClient false true true])
        (.connect 0 (some n) (.host (some rs)) ⟨true, connect⟩)).2 = .ub := by
    intro n connect rs hrs
    have haddr : ∀ (k : Kernel) (d : Desc), d ∈ k.table → ∀ rs, true ∈ rs →
        tieAddrs k d rs = (k, true) := by
      intro k d hd rs
      induction rs with
      | nil => intro h; cases h
      | cons b rs ih =>
        intro h
        unfold tieAddrs
        have hu : k.use d = k := by unfold Kernel.use; rw [if_pos hd]
        rw [hu]
        cases b with
        | true => rfl
        | false => exact ih (by simpa using h)
    have hw : run World.init [.newTlsClient false true true] =
        ⟨Kernel.init, ⟨[0, 0], [⟨1, 0, none, false⟩], 2, false, []⟩,
          [some ⟨.tlsClient, false, none, some 0, some 1⟩]⟩ := by decide +kernel
    rw [hw]
    have hk := haddr ⟨[⟨n, 0⟩], 1, [⟨n, 0⟩], [], []⟩ ⟨n, 0⟩ (by simp) rs hrs
    have hc : clientConnect Kernel.init ⟨.tlsClient, false, none, some 0, some 1⟩ (some n)
        (.host (some rs)) =
        (⟨[⟨n, 0⟩], 1, [⟨n, 0⟩], [], []⟩,
          ⟨.tlsClient, false, some ⟨n, 0⟩, some 0, some 1⟩, true) := by
      show (let (k, done) := tieAddrs ⟨[⟨n, 0⟩], 1, [⟨n, 0⟩], [], []⟩ ⟨n, 0⟩ rs
        if done then (k, (⟨.tlsClient, false, some ⟨n, 0⟩, some 0, some 1⟩ : Obj), true)
        else tieFail k ⟨.tlsClient, false, some ⟨n, 0⟩, some 0, some 1⟩ .connect) = _
      rw [hk]
      rfl
    simp only [step, World.get, List.getElem?_cons_zero, Cls.isClient, Option.getD_some]
    simp only [hc]
    rfl
  exact ⟨fun h => h [.newTlsClient false true true] 0 (some 5) (.host (some [true])) ⟨true, true⟩
    (key 5 true [true] (by simp)), key⟩

/-- **C70, proved part.**  In every program, `connect` of a TLS client that has a log is defined.  If
it returns, the socket is open, and its `SSL` speaks through that descriptor with the handshake done.
Missing: clients without a log (`C70_violated`). -/
theorem C70_connect_partial (ops : List Op) (i : Nat) (x : Obj) (sock : Option Nat) (dst : Where)
    (sh : Shake) (hg : (run World.init ops).get i = some x) (hc : x.cls = .tlsClient)
    (hlog : x.log = true) :
    let r := step (run World.init ops) (.connect i sock dst sh)
    r.2 ≠ .ub ∧
    (r.2 = .done → ∃ y d s q, r.1.get i = some y ∧ y.fd = some d ∧ d ∈ r.1.k.table ∧
      y.ssl = some s ∧ q ∈ r.1.o.ssls ∧ q.id = s ∧ q.bio = some d ∧ q.ready = true) := by
  intro r
  obtain ⟨lc, ls, H, -⟩ := run_inv (ops := ops) WInv.init
  have hr : step (run World.init ops) (.connect i sock dst sh) = r := rfl
  clear_value r
  generalize run World.init ops = w at *
  have hi := (World.get_some hg).2
  have hput : ∀ (k : Kernel) (o : Ossl) (y : Obj),
      (⟨k, o, w.objs.set i (some y)⟩ : World).get i = some y := by
    intro k o y
    refine World.get_of ?_
    dsimp only
    rw [List.getElem?_set_self hi]
  obtain ⟨h1, h2⟩ := clientConnect_inv (H.splitK hg) sock dst
  unfold SameBut at h2
  dsimp only [step] at hr
  rw [hg] at hr
  dsimp only at hr
  rw [if_pos (by rw [hc]; rfl)] at hr
  generalize (clientConnect w.k x sock dst).1 = k1 at *
  generalize (clientConnect w.k x sock dst).2.1 = x1 at *
  generalize (clientConnect w.k x sock dst).2.2 = ok1 at *
  have hx1 : x1.cls = .tlsClient ∧ x1.log = true := by rw [h2]; exact ⟨hc, hlog⟩
  have hO : OInv w.o (x1.ctx.toList ++ collect Obj.ctx (w.objs.set i none))
      (x1.ssl.toList ++ collect Obj.ssl (w.objs.set i none)) lc ls := by
    have hO := H.splitO hg
    rw [h2]; exact hO
  split at hr
  · unfold connectHandshake at hr
    cases hfd : x1.fd with
    | none =>
      rw [hfd] at hr
      subst hr
      exact ⟨by simp [thrownIf], by simp [thrownIf]⟩
    | some d =>
      rw [hfd] at hr
      dsimp only at hr
      cases hss : x1.ssl with
      | none =>
        rw [hss] at hr
        subst hr
        exact ⟨by simp [thrownIf], by simp [thrownIf]⟩
      | some s =>
        rw [hss] at hr
        dsimp only at hr
        cases hsf : sh.setFd with
        | false =>
          rw [hsf] at hr
          simp only [Bool.false_eq_true, if_false] at hr
          subst hr
          exact ⟨by simp [thrownIf], by simp [thrownIf]⟩
        | true =>
          rw [hsf, hx1.2] at hr
          simp only [if_true] at hr
          subst hr
          dsimp only
          refine ⟨by unfold thrownIf; split <;> simp, ?_⟩
          intro hdone
          have hsc : sh.connect = true := by
            unfold thrownIf at hdone
            by_contra hn
            rw [if_neg hn] at hdone
            cases hdone
          have hd : d ∈ k1.table := h1.perm.mem_iff.mp (by rw [hfd]; simp)
          rw [hss] at hO
          obtain ⟨q, hq, hqm, hqid⟩ := hO.find_some (s := s) (by simp)
          have hb1 : (⟨q.id, q.ctx, some d, q.ready⟩ : Ssl) ∈ (w.o.setFd s (some d) true).ssls := by
            unfold Ossl.setFd Ossl.modify
            rw [hq]
            simp only [if_true]
            refine List.mem_map.mpr ⟨q, hqm, ?_⟩
            rw [if_pos hqid]
          have hO1 := hO.setFd (s := s) (by simp) (some d) true
          have hb2 : (⟨q.id, q.ctx, some d, true⟩ : Ssl) ∈
              ((w.o.setFd s (some d) true).handshake k1 s true).ssls := by
            unfold Ossl.handshake
            simp only [if_true]
            obtain ⟨hO2, hs2⟩ := hO1.io (s := s) (by simp) k1
            obtain ⟨q2, hq2, -, -⟩ := hO2.find_some (s := s) (by simp)
            unfold Ossl.modify
            rw [hq2]
            dsimp only
            refine List.mem_map.mpr ⟨⟨q.id, q.ctx, some d, q.ready⟩, by rw [hs2]; exact hb1, ?_⟩
            rw [if_pos hqid]
          refine ⟨x1, d, s, ⟨q.id, q.ctx, some d, true⟩, hput _ _ _, hfd, hd, hss, ?_, hqid, rfl, rfl⟩
          rw [hsc]
          exact hb2
  · rename_i hno
    subst hr
    have hok : ok1 = false := by
      cases ok1 with
      | false => rfl
      | true => exact absurd ⟨hx1.1, rfl⟩ hno
    rw [hok]
    exact ⟨by simp [thrownIf], by simp [thrownIf]⟩

/-- A client with a log that connects. -/
example : (run World.init (demoTls.take 5)).get 2 = some ⟨.tlsClient, true, none, some 2, some 3⟩ ∧
    (step (run World.init (demoTls.take 5))
      (.connect 2 (some 5) (.host (some [false, true])) ⟨true, true⟩)).2 = .done := by
  decide +kernel

end Abc.Resource
