import Verif.Ascii.Model
import Mathlib.Tactic.ByContra

/-!
# The threads of `samples/tls/main.cpp`

A server thread and a client thread in one process exchange two texts over a TLS connection; each text is sent as two bytes with its length
and then the text.  The client is to begin when the server listens; the server tells so with a condition variable.
-/

namespace Abc.TlsSample

open Abc.Ascii

/-- Where the server is, `samples/tls/main.cpp` 39-68. -/
inductive S where
  | listen | notify | accept | sendLen | sendText | recvLen | recvText | done
deriving DecidableEq, Repr

/-- Where the client is, `samples/tls/main.cpp` 71-99: `lock` is 77, `wait` the call in 78 and `waiting` inside of it; `connect` and
`handshake` are 82. -/
inductive C where
  | lock | wait | waiting | connect | handshake | recvLen | recvText | sendLen | sendText | done
deriving DecidableEq, Repr

/-- How far the server is. -/
def S.num : S → Nat
  | .listen => 0 | .notify => 1 | .accept => 2 | .sendLen => 3 | .sendText => 4 | .recvLen => 5 | .recvText => 6 | .done => 7

/-- How far the client is. -/
def C.num : C → Nat
  | .lock => 0 | .wait => 1 | .waiting => 2 | .connect => 3 | .handshake => 4 | .recvLen => 5 | .recvText => 6 | .sendLen => 7 | .sendText => 8 | .done => 9

/-- Both threads, the records on their way, the variables `len` and `message` of both threads, and whether the process has ended with an
exception or undefined behaviour.  `lost`: the notification came when nobody waited (kept for the statements only). -/
structure St where
  s : S
  c : C
  toC : List (List Byte)
  toS : List (List Byte)
  lenS : Nat
  lenC : Nat
  gotS : Option (List Byte)
  gotC : Option (List Byte)
  lost : Bool
  failed : Bool
deriving DecidableEq

/-- The two threads have just been started, `samples/tls/main.cpp` 151-152. -/
def St.init : St := ⟨.listen, .lock, [], [], 0, 0, none, none, false, false⟩

/-- The two bytes sent for a length, `samples/tls/main.cpp` 56 and 94 (little endian). -/
def lenBytes (n : Nat) : List Byte := [UInt8.ofNat n, UInt8.ofNat (n / 256)]

/-- `len` after at most two bytes were received into it; it was 0. -/
def lenOf (l : List Byte) : Nat := (l.getD 0 0).toNat + 256 * (l.getD 1 0).toNat

/-- `receive`, `src/openssl_socket.h` 211-246: one call of `SSL_read`, which gives at most what is left of one record.  `none`: no
record yet. -/
def receive (q : List (List Byte)) (n : Nat) : Option (List Byte × List (List Byte)) :=
  match q with
  | [] => none
  | r :: q => some (r.take n, if r.drop n = [] then q else r.drop n :: q)

/-- The next step of the server, `samples/tls/main.cpp` 39-68, with the text `hello`; `none`: it is blocked, or at the end.  A `message` has
101 bytes. -/
def serverStep (hello : List Byte) (t : St) : Option St :=
  match t.s with
  | .listen => some { t with s := .notify }
  | .notify => if t.c = .waiting then some { t with s := .accept, c := .connect } else some { t with s := .accept, lost := true }
  | .accept => if t.c.num ≥ 4 then some { t with s := .sendLen } else none
  | .sendLen => some { t with s := .sendText, toC := t.toC ++ [lenBytes hello.length] }
  | .sendText => some { t with s := .recvLen, toC := t.toC ++ [hello] }
  | .recvLen => (receive t.toS 2).map fun r => { t with s := .recvText, lenS := lenOf r.1, toS := r.2 }
  | .recvText => (receive t.toS t.lenS).map fun r =>
      if t.lenS > 101 then { t with failed := true } else { t with s := .done, gotS := some r.1, toS := r.2 }
  | .done => none

/-- The next step of the client, `samples/tls/main.cpp` 71-99, with the text `hi`.  `connect` throws if nobody listens, and nobody catches
it.  The handshake is done when the server has accepted. -/
def clientStep (hi : List Byte) (t : St) : Option St :=
  match t.c with
  | .lock => some { t with c := .wait }
  | .wait => some { t with c := .waiting }
  | .waiting => none
  | .connect => if t.s.num ≥ 1 then some { t with c := .handshake } else some { t with failed := true }
  | .handshake => if t.s.num ≥ 3 then some { t with c := .recvLen } else none
  | .recvLen => (receive t.toC 2).map fun r => { t with c := .recvText, lenC := lenOf r.1, toC := r.2 }
  | .recvText => (receive t.toC t.lenC).map fun r =>
      if t.lenC > 101 then { t with failed := true } else { t with c := .sendLen, gotC := some r.1, toC := r.2 }
  | .sendLen => some { t with c := .sendText, toS := t.toS ++ [lenBytes hi.length] }
  | .sendText => some { t with c := .done, toS := t.toS ++ [hi] }
  | .done => none

/-- Who goes next; `spurious`: the wait ends although nobody notified, as the standard allows. -/
inductive Ev where
  | server | client | spurious
deriving DecidableEq

/-- One step of the process.  Nothing happens if the thread is blocked or the process has ended. -/
def step (hello hi : List Byte) (t : St) (e : Ev) : St :=
  if t.failed then t
  else match e with
    | .server => (serverStep hello t).getD t
    | .client => (clientStep hi t).getD t
    | .spurious => if t.c = .waiting then { t with c := .connect } else t

/-- A run of the program. -/
def run (hello hi : List Byte) (es : List Ev) : St := es.foldl (step hello hi) St.init

/-- Nobody can go on. -/
def Rest (hello hi : List Byte) (t : St) : Prop := serverStep hello t = none ∧ clientStep hi t = none

/-- Texts as the sample sends them: not empty, and with room in `message`. -/
def Text (l : List Byte) : Prop := 0 < l.length ∧ l.length ≤ 100

theorem lenOf_lenBytes {n : Nat} (h : n ≤ 100) : lenOf (lenBytes n) = n := by
  unfold lenOf lenBytes
  simp [UInt8.toNat_ofNat']
  omega

theorem receive_nil (n : Nat) : receive [] n = none := rfl

theorem receive_len (n : Nat) (q : List (List Byte)) : receive (lenBytes n :: q) 2 = some (lenBytes n, q) := by
  unfold receive lenBytes; simp

theorem receive_text (l : List Byte) (q : List (List Byte)) : receive (l :: q) l.length = some (l, q) := by
  unfold receive; simp

/-- What holds as long as no wait ends by itself. -/
structure Inv (hello hi : List Byte) (t : St) : Prop where
  failed : t.failed = false
  lost : t.lost = true → t.s.num = 2 ∧ t.c.num ≤ 2
  begun : t.lost = false → (2 ≤ t.s.num ↔ 3 ≤ t.c.num)
  acc : 3 ≤ t.s.num → 4 ≤ t.c.num
  hand : 5 ≤ t.c.num → 3 ≤ t.s.num
  toC : t.toC = (if 4 ≤ t.s.num ∧ t.c.num ≤ 5 then [lenBytes hello.length] else []) ++ (if 5 ≤ t.s.num ∧ t.c.num ≤ 6 then [hello] else [])
  lenC : 6 ≤ t.c.num → 4 ≤ t.s.num ∧ t.lenC = hello.length
  gotC : 7 ≤ t.c.num → 5 ≤ t.s.num ∧ t.gotC = some hello
  toS : t.toS = (if 8 ≤ t.c.num ∧ t.s.num ≤ 5 then [lenBytes hi.length] else []) ++ (if 9 ≤ t.c.num ∧ t.s.num ≤ 6 then [hi] else [])
  lenS : 6 ≤ t.s.num → 8 ≤ t.c.num ∧ t.lenS = hi.length
  gotS : 7 ≤ t.s.num → 9 ≤ t.c.num ∧ t.gotS = some hi
  noC : t.c.num < 7 → t.gotC = none
  noS : t.s.num < 7 → t.gotS = none

theorem inv_init (hello hi : List Byte) : Inv hello hi St.init := by
  constructor <;> simp [St.init, S.num, C.num]

theorem inv_server {hello hi : List Byte} (hh : Text hi) {t t' : St} (v : Inv hello hi t) (e : serverStep hello t = some t') :
    Inv hello hi t' ∧ t.s.num + t.c.num < t'.s.num + t'.c.num := by
  obtain ⟨v1, v2, v3, v4, v5, v6, v7, v8, v9, v10, v11, v12, v13⟩ := v
  obtain ⟨s, c, toC, toS, lenS, lenC, gotS, gotC, lost, failed⟩ := t
  have := hh.2
  cases s <;> cases c <;> cases lost <;>
    simp_all [serverStep, S.num, C.num, receive_len, receive_text, receive_nil] <;>
    (first | (obtain ⟨_, _, ⟨rfl, rfl⟩, h⟩ := e; (try rw [if_neg (by omega)] at h); subst h) | subst e) <;> refine ⟨?_, by simp [S.num, C.num]⟩ <;> constructor <;> simp_all [S.num, C.num, lenOf_lenBytes]

theorem inv_client {hello hi : List Byte} (hh : Text hello) {t t' : St} (v : Inv hello hi t) (e : clientStep hi t = some t') :
    Inv hello hi t' ∧ t.s.num + t.c.num < t'.s.num + t'.c.num := by
  obtain ⟨v1, v2, v3, v4, v5, v6, v7, v8, v9, v10, v11, v12, v13⟩ := v
  obtain ⟨s, c, toC, toS, lenS, lenC, gotS, gotC, lost, failed⟩ := t
  have := hh.2
  cases s <;> cases c <;> cases lost <;>
    simp_all [clientStep, S.num, C.num, receive_len, receive_text, receive_nil] <;>
    (first | (obtain ⟨_, _, ⟨rfl, rfl⟩, h⟩ := e; (try rw [if_neg (by omega)] at h); subst h) | subst e) <;> refine ⟨?_, by simp [S.num, C.num]⟩ <;> constructor <;> simp_all [S.num, C.num, lenOf_lenBytes]

theorem inv_step {hello hi : List Byte} (h1 : Text hello) (h2 : Text hi) {t : St} (v : Inv hello hi t) {e : Ev} (he : e ≠ .spurious) :
    Inv hello hi (step hello hi t e) := by
  unfold step
  rw [if_neg (by rw [v.failed]; decide)]
  cases e with
  | server =>
    cases h : serverStep hello t with
    | none => exact v
    | some t' => exact (inv_server h2 v h).1
  | client =>
    cases h : clientStep hi t with
    | none => exact v
    | some t' => exact (inv_client h1 v h).1
  | spurious => exact absurd rfl he

theorem inv_foldl {hello hi : List Byte} (h1 : Text hello) (h2 : Text hi) : ∀ (es : List Ev) {t : St}, Inv hello hi t → Ev.spurious ∉ es →
    Inv hello hi (es.foldl (step hello hi) t) := by
  intro es
  induction es with
  | nil => intro t v _; exact v
  | cons e es ih => intro t v he; exact ih (inv_step h1 h2 v (by rintro rfl; simp at he)) (by simp at he; exact he.2)

theorem inv_run {hello hi : List Byte} (h1 : Text hello) (h2 : Text hi) {es : List Ev} (he : Ev.spurious ∉ es) : Inv hello hi (run hello hi es) :=
  inv_foldl h1 h2 es (inv_init hello hi) he

/-- When nobody can go on, the exchange is done, or the notification came too early. -/
theorem rest_cases {hello hi : List Byte} {t : St} (v : Inv hello hi t) (hr : Rest hello hi t) :
    (t.lost = false ∧ t.s = .done ∧ t.c = .done) ∨ (t.lost = true ∧ t.s = .accept ∧ t.c = .waiting) := by
  obtain ⟨v1, v2, v3, v4, v5, v6, v7, v8, v9, v10, v11, v12, v13⟩ := v
  obtain ⟨s, c, toC, toS, lenS, lenC, gotS, gotC, lost, failed⟩ := t
  obtain ⟨r1, r2⟩ := hr
  cases s <;> cases c <;> cases lost <;> simp_all [serverStep, clientStep, S.num, C.num, receive_len, receive_text, receive_nil]

/-- **C127**, the full statement: in every run in which the threads go on until none of them can, each thread gets the text of the other, and
the process ends without exception or undefined behaviour. -/
def C127Full : Prop := ∀ (hello hi : List Byte), Text hello → Text hi → ∀ es : List Ev,
  (run hello hi es).failed = false ∧ (Rest hello hi (run hello hi es) → (run hello hi es).gotC = some hello ∧ (run hello hi es).gotS = some hi)

/-- **C127**, proved part: it holds in every run in which the client already waits when it is notified, and no wait ends by itself; nothing a
thread has received is ever wrong.  Missing: `C127_violated_lost`, `C127_violated_spurious`. -/
theorem C127_exchange_partial (hello hi : List Byte) (h1 : Text hello) (h2 : Text hi) (es : List Ev) (he : Ev.spurious ∉ es) :
    (run hello hi es).failed = false ∧
    ((run hello hi es).c.num ≥ 7 → (run hello hi es).gotC = some hello) ∧ ((run hello hi es).s.num ≥ 7 → (run hello hi es).gotS = some hi) ∧
    (Rest hello hi (run hello hi es) → (run hello hi es).lost = false →
      (run hello hi es).s = .done ∧ (run hello hi es).c = .done ∧ (run hello hi es).gotC = some hello ∧ (run hello hi es).gotS = some hi) := by
  have v := inv_run h1 h2 he
  refine ⟨v.failed, fun h => (v.gotC h).2, fun h => (v.gotS h).2, fun hr hl => ?_⟩
  rcases rest_cases v hr with ⟨_, r1, r2⟩ | ⟨r, _⟩
  · exact ⟨r1, r2, (v.gotC (by rw [r2]; decide)).2, (v.gotS (by rw [r1]; decide)).2⟩
  · rw [hl] at r; cases r

/-- **C127**, the threads do come to rest: no run has more than 16 steps that do something, counted by `num`. -/
theorem C127_ends_partial (hello hi : List Byte) (h1 : Text hello) (h2 : Text hi) (es : List Ev) (he : Ev.spurious ∉ es) (e : Ev) (h : e ≠ .spurious) :
    let t := run hello hi es
    let t' := run hello hi (es ++ [e])
    (t' = t ∨ t.s.num + t.c.num < t'.s.num + t'.c.num) ∧ t'.s.num + t'.c.num ≤ 16 := by
  have v := inv_run h1 h2 he
  have e1 : run hello hi (es ++ [e]) = step hello hi (run hello hi es) e := by simp [run]
  have bound : ∀ t : St, t.s.num + t.c.num ≤ 16 := by
    intro t
    have : t.s.num ≤ 7 := by cases t.s <;> decide
    have : t.c.num ≤ 9 := by cases t.c <;> decide
    omega
  refine ⟨?_, bound _⟩
  rw [e1]
  unfold step
  rw [if_neg (by rw [v.failed]; decide)]
  cases e with
  | server =>
    dsimp only
    cases hs : serverStep hello (run hello hi es) with
    | none => exact Or.inl rfl
    | some t' => exact Or.inr (inv_server h2 v hs).2
  | client =>
    dsimp only
    cases hs : clientStep hi (run hello hi es) with
    | none => exact Or.inl rfl
    | some t' => exact Or.inr (inv_client h1 v hs).2
  | spurious => exact absurd rfl h

theorem lost_step (hello hi : List Byte) {t : St} (h : t.lost = true) (e : Ev) : (step hello hi t e).lost = true := by
  obtain ⟨s, c, toC, toS, lenS, lenC, gotS, gotC, lost, failed⟩ := t
  unfold step
  split
  · exact h
  · cases e with
    | server =>
      cases s <;> simp_all [serverStep] <;> (try split) <;> (try rfl) <;> (cases receive toS _ <;> (try rfl))
    | client =>
      cases c <;> simp_all [clientStep] <;> (try split) <;> (try rfl) <;> (cases receive toC _ <;> (try rfl))
    | spurious => dsimp only; split <;> exact h

theorem lost_foldl (hello hi : List Byte) : ∀ (es : List Ev) {t : St}, t.lost = true → (es.foldl (step hello hi) t).lost = true := by
  intro es
  induction es with
  | nil => intro t h; exact h
  | cons e es ih => intro t h; exact ih (lost_step hello hi h e)

/-- If the server notifies before the client waits, both threads wait for ever, in every continuation: the server for a connection, the
client for a notification. -/
theorem C127_violated_lost (hello hi : List Byte) (h1 : Text hello) (h2 : Text hi) (es es' : List Ev) (he : Ev.spurious ∉ es) (he' : Ev.spurious ∉ es')
    (h : (run hello hi es).s = .notify) (hc : (run hello hi es).c ≠ .waiting) :
    let t := run hello hi (es ++ .server :: es')
    t.s = .accept ∧ t.c.num ≤ 2 ∧ t.gotC = none ∧ t.gotS = none := by
  have v := inv_run h1 h2 he
  intro t
  have e1 : t = es'.foldl (step hello hi) (step hello hi (run hello hi es) .server) := by simp [t, run]
  have e2 : step hello hi (run hello hi es) .server = { run hello hi es with s := .accept, lost := true } := by
    unfold step serverStep
    rw [if_neg (by rw [v.failed]; decide), h]
    dsimp only
    rw [if_neg hc]; rfl
  have v2 : Inv hello hi { run hello hi es with s := .accept, lost := true } := by rw [← e2]; exact inv_step h1 h2 v (by decide)
  have v3 := inv_foldl h1 h2 es' v2 he'
  have l3 := lost_foldl hello hi es' (t := { run hello hi es with s := .accept, lost := true }) rfl
  rw [← e2, ← e1] at v3 l3
  obtain ⟨n1, n2⟩ := v3.lost l3
  refine ⟨?_, n2, v3.noC (by omega), v3.noS (by omega)⟩
  revert n1
  cases t.s <;> simp [S.num]

/-- A wait that ends by itself: the client connects before the server listens, and the exception ends the process. -/
theorem C127_violated_spurious (hello hi : List Byte) : (run hello hi [.client, .client, .spurious, .client]).failed = true := rfl

/-- The texts of the sample, `samples/tls/main.cpp` 54 and 92. -/
def helloText : List Byte := ">>> Welcome to abc!\n".toList.map (fun c => UInt8.ofNat c.toNat)
@[inherit_doc helloText] def hiText : List Byte := "<<< Thanks.".toList.map (fun c => UInt8.ofNat c.toNat)

theorem texts : Text helloText ∧ Text hiText := by
  unfold Text helloText hiText; decide

/-- A run in which everything goes well, and one in which the server is faster. -/
def goodRun : List Ev := [.client, .client, .server, .server, .client, .server, .client, .server, .client, .server, .client, .client, .server, .client, .server, .server]
@[inherit_doc goodRun] def lateRun : List Ev := [.server, .server, .client, .client, .server, .client]

example : Ev.spurious ∉ goodRun ∧ (run helloText hiText goodRun).lost = false ∧ serverStep helloText (run helloText hiText goodRun) = none ∧
    clientStep hiText (run helloText hiText goodRun) = none ∧ (run helloText hiText goodRun).gotC = some helloText ∧ (run helloText hiText goodRun).gotS = some hiText := by
  decide +kernel

example : (run helloText hiText [.server]).s = .notify ∧ (run helloText hiText [.server]).c ≠ .waiting ∧ lateRun = [.server] ++ .server :: lateRun.drop 2 := by
  decide +kernel

theorem C127_violated : ¬ C127Full := by
  intro h
  have r := (h helloText hiText texts.1 texts.2 lateRun).2 (by constructor <;> decide +kernel)
  exact absurd r.1 (by decide +kernel)

end Abc.TlsSample
