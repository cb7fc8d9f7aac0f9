import Verif.Samples.ShortInput
import Verif.Samples.Connect4WireTotal

/-!
# Short hostile input to the connect-four server

What does not depend on the board is that of `Verif/Samples/ShortInput.lean`.
-/

namespace Abc.Connect4Wire

open Abc.Ascii Abc.Stream Abc.Http Abc.Wire
open Abc.Json hiding Returned Safe
open Abc.ShortInput
open Abc.Endpoint (Config str mem)
open Abc.GameServer (Id PType)
open Abc.GameWire hiding BodyText Small Asks Describes Event.Asks Event.Any demoEvent Event play Shows Safe AllSafe Tells Done moveText moveValue moveElems Cells
open Abc.Connect4Server (Server Req Resp Inv Answer Follows Trace)
open Abc.Connect4 (Pid Move OnBoard Side)

theorem expectNum_short {c : Ctx} (hc : CtxOk c) {cell : List Byte → Option Nat} {t : Tok} {n : Nat} (h : Holds t.st (Tok.block t) n) (hn : n ≤ 1031) :
    Json.Safe (fun x => ∀ y ∈ x, Holds y.1.st (Tok.block y.1) n) (expectNum c cell t) := by
  unfold expectNum
  refine (getTok_short hc h hn).bind ?_
  rintro t' ⟨k1, -⟩
  split
  · intro y hy; cases hy
  · split
    · intro y hy; cases hy
    · intro y hy; cases hy; exact k1

theorem moveBody_short {c : Ctx4} (hc : CtxOk c.toCtx) {body : List Byte} (h : Mild body) : Json.Safe (fun _ => True) (moveBody c body) := by
  have hs := h.short
  have hn : body.length ≤ 1031 := by omega
  unfold moveBody
  refine (getTok_short hc (first_holds hc h) hn).bind ?_
  rintro t ⟨k1, -⟩
  split
  · trivial
  refine (expectName_short hc k1 hn _).bind fun x hx => ?_
  cases x with
  | none => trivial
  | some t1 =>
    refine (expectNum_short hc (hx _ rfl) hn).bind fun x2 hx2 => ?_
    match x2 with
    | none => trivial
    | some (t2, row) =>
      refine (expectName_short hc (hx2 _ rfl) hn _).bind fun x3 hx3 => ?_
      cases x3 with
      | none => trivial
      | some t3 =>
        refine (expectNum_short hc (hx3 _ rfl) hn).bind fun x4 hx4 => ?_
        match x4 with
        | none => trivial
        | some (t4, col) => trivial

theorem create_short {t : Trace} {srv : Server} (hi : Inv srv t) {c : Ctx4} (hc : Ctx4Ok c) (d : Draw) {st : Rd} {m : List Byte} (h0 : (0 : Byte) ∉ m)
    (hl : m.length ≤ 32) (hn : st.next = .headerName) (hs : Mild st.s.rest) (hf : st.s.rest.length + 1 < c.fuel)
    (hb : m.map lower = str "post" → ∀ st', headerLoop c.fuel c.fuel false st c.header = .ok (.json st') → st'.s.rest.length ≤ 63) :
    Json.Safe Sent (createGame c srv d st m) := by
  unfold createGame
  refine whenPost_short hc.base _ st h0 hl fun hm => whenJson_short hc.base _ hn hs.short hf fun st' h1 h2 => ?_
  refine ((playersBody_short hc.base (hs.suffix h2) (hb hm st' h1)).and (Q := fun x => playersBody c.toCtx st'.s.rest = .ok x) fun x e => e).bind ?_
  rintro x ⟨-, hx⟩
  cases x with
  | error msg => exact safe_returned (replies_bad hc.base srv msg (playersBody_error hx) st'.s).returned
  | ok v =>
    obtain ⟨tx, to_⟩ := v
    dsimp only
    have hans := Connect4Server.answer_create hi tx to_ d.game d.x d.o
    generalize Connect4Server.create srv tx to_ d.game d.x d.o = res at hans
    obtain ⟨srv', a⟩ := res
    dsimp only at hans
    rcases small_of_answer hi.reach hans.2 (by simp) with hs | ⟨n, rfl⟩
    · cases a <;> first | exact hs.elim | exact safe_returned (replies_succeed hc srv' hs st'.s).returned
    · exact safe_returned (replies_refuse hc.base srv' 503 _ (by decide) (by decide +kernel) (by decide +kernel) st'.s).returned

theorem move_short {t : Trace} {srv : Server} (hi : Inv srv t) {c : Ctx4} (hc : Ctx4Ok c) {st : Rd} {m : List Byte} (h0 : (0 : Byte) ∉ m)
    (hl : m.length ≤ 32) (hn : st.next = .headerName) (hs : Mild st.s.rest) (hf : st.s.rest.length + 1 < c.fuel) (g p : Nat) (w : List Byte) :
    Json.Safe Sent (acceptMove c srv st m g p w) := by
  unfold acceptMove
  have hw : ∃ x, areEqualI (mem w) (mem (str "moves")) = some x := equal_defined false sizeMax (by simp) (by simp)
  obtain ⟨x, hx⟩ := hw
  rw [hx]
  cases x with
  | false => exact safe_returned (replies_bad hc.base srv badResource (by decide +kernel) _).returned
  | true =>
    refine whenPost_short hc.base _ st h0 hl fun _ => whenJson_short hc.base _ hn hs.short hf fun st' _ h2 => ?_
    split
    · exact safe_returned (replies_bad hc.base srv badResource (by decide +kernel) st'.s).returned
    rename_i h0
    refine ((moveBody_short hc.base (hs.suffix h2)).and (Q := fun x => moveBody c st'.s.rest = .ok x) fun x e => e).bind ?_
    rintro x ⟨-, hx⟩
    cases x with
    | none => exact safe_returned (replies_bad hc.base srv _ (by decide +kernel) st'.s).returned
    | some mv =>
      dsimp only
      obtain ⟨srv', a, hmv, hinv, hans⟩ := Connect4Server.answer_move hi (BitVec.ofNat 32 g) (BitVec.ofNat 32 p) mv
      have hob := moveBody_board hc.row hc.col hx
      rw [hmv]
      rcases small_of_answer hi.reach hans (by simp) with hs | ⟨n, rfl⟩
      · cases a <;> first | exact hs.elim | exact safe_returned (replies_succeed hc srv' hs st'.s).returned
      · have hn : n = 403 ∨ n = 404 := by
          cases hans with
          | moveBad h =>
            exfalso
            rcases h with h | h | h
            · exact h0 (.inl h)
            · exact h0 (.inr h)
            · exact h hob
          | moveUnknown => simp
          | moveRefused => simp
        rcases hn with rfl | rfl
        · exact safe_returned (replies_refuse hc.base srv' 403 _ (by decide) (by decide +kernel) (by decide +kernel) st'.s).returned
        · exact safe_returned (replies_refuse hc.base srv' 404 _ (by decide) (by decide +kernel) (by split <;> decide +kernel) st'.s).returned

/-- C109 and C100: the same for the game, in any state that can be reached.  The body of a request for a new game has to be shorter than 64 bytes: the
names of the players are copied into arrays of 65. -/
theorem C109_short_partial {cfg : Config} (hcfg : ConfigOk cfg) {stat : List Byte → Option Nat} {content : List Byte → List Byte} {c : Ctx4}
    (hc : Ctx4Ok c) (he : Env stat content c.room) {bytes mm mp mc : List Byte} (hmm : mm.length = 33) (hmp : mp.length = 2049) (hmc : mc.length = 17)
    (hf : bytes.length + 2 < c.fuel) (hb : Mild bytes) {srv : Server} {t : Trace} (hi : Inv srv t) (d : Draw)
    (hp : ∀ l st, requestLine cfg c.fuel mm mp mc bytes = .ok (some l) → l.method.map lower = str "post" → l.resource.map lower = str "/games" →
      headerLoop c.fuel c.fuel false l.st c.header = .ok (.json st) → st.s.rest.length ≤ 63) :
    Connect4Wire.serve cfg stat content c mm mp mc false srv d bytes = .running ∨
    ∃ srv' out sd, Connect4Wire.serve cfg stat content c mm mp mc false srv d bytes = .ok (srv', .sent out sd) ∧ (out = [] ∨ Complete out) := by
  refine safe_cases (serveWith_short hcfg he hmm hmp hmc hf _ _ fun l hl l1 l2 l3 l4 l5 l6 => ?_)
  have l7 := l6.length_le
  by_cases hg : Endpoint.startsWithI (str "/games") l.resource
  · have hpre : (l.resource.take 6).map lower = str "/games" := by
      obtain ⟨x, hx⟩ := hg
      rw [List.map_take, ← hx, List.take_append_of_le_length (by decide)]
      decide
    rw [games_handler srv d l.st l.method (tail := l.resource.drop 6) hpre (by simp) l3 l4]
    split
    · rename_i hd
      have hr : l.resource.map lower = str "/games" := by
        rw [← hpre, List.take_of_length_le (List.drop_eq_nil_iff.1 hd)]
      exact create_short hi hc d l1 l2 l5 (hb.suffix l6) (by omega) fun hm st' hst => hp l st' hl hm hr hst
    · split
      · exact move_short hi hc l1 l2 l5 (hb.suffix l6) (by omega) _ _ _
      · exact safe_returned (replies_claim hi hc l.st l1 l2 _ _).returned
      · exact safe_returned (replies_moves hi hc l.st l1 l2 _ _).returned
      · exact ⟨[], false, rfl, .inl rfl⟩
  · exact safe_returned (Connect4Wire.replies_other hc srv d l.st l1 l2 l3 l4 hg).returned

/-! ## Without quotation marks -/

theorem moveBody_quiet {c : Ctx4} (hc : Ctx4Ok c) {body : List Byte} (h : Calm body) (hf : body.length + 1 < c.fuel) : moveBody c body = .ok none := by
  obtain ⟨t, e, t2, e2, hp⟩ := first_quiet hc.base h hf
  unfold moveBody expectName
  rw [e, Res.ok_bind]
  split
  · rfl
  · rw [e2, Res.ok_bind, if_pos hp]; rfl

/-- C109 and C100: the same for the game, in any state that can be reached. -/
theorem C109_quiet_partial {cfg : Config} (hcfg : ConfigOk cfg) {stat : List Byte → Option Nat} {content : List Byte → List Byte} {c : Ctx4}
    (hc : Ctx4Ok c) (he : Env stat content c.room) {bytes mm mp mc : List Byte} (hmm : mm.length = 33) (hmp : mp.length = 2049) (hmc : mc.length = 17)
    (hf : bytes.length + 2 < c.fuel) (hb : Calm bytes) {srv : Connect4Server.Server} {t : Connect4Server.Trace} (hi : Connect4Server.Inv srv t) (d : Draw) :
    ∃ srv' out sd, Connect4Wire.serve cfg stat content c mm mp mc false srv d bytes = .ok (srv', .sent out sd) ∧ (out = [] ∨ Complete out) := by
  refine serveWith_quiet hcfg he hmm hmp hmc hf _ _ fun l l1 l2 l3 l4 l5 l6 => ?_
  have l7 := l6.length_le
  have hb' := hb.suffix l6
  by_cases hg : Endpoint.startsWithI (str "/games") l.resource
  · have hpre : (l.resource.take 6).map lower = str "/games" := by
      obtain ⟨x, hx⟩ := hg
      rw [List.map_take, ← hx, List.take_append_of_le_length (by decide)]
      decide
    rw [games_handler srv d l.st l.method (tail := l.resource.drop 6) hpre (by simp) l3 l4]
    split
    · unfold createGame
      refine whenPost_quiet hc.base _ l.st l1 l2 (whenJson_quiet hc.base _ l5 hb'.short (by omega) fun st' h2 => ?_)
      have := h2.length_le
      obtain ⟨msg, hx⟩ := playersBody_quiet hc.base (hb'.suffix h2) (by omega)
      rw [hx]
      exact (replies_bad hc.base srv msg (playersBody_error hx) st'.s).returned
    · split
      · rename_i g p w _
        unfold acceptMove
        have hw : ∃ x, areEqualI (mem w) (mem (str "moves")) = some x := equal_defined false sizeMax (by simp) (by simp)
        obtain ⟨x, hx⟩ := hw
        rw [hx]
        cases x with
        | false => exact (replies_bad hc.base srv badResource (by decide +kernel) _).returned
        | true =>
          refine whenPost_quiet hc.base _ l.st l1 l2 (whenJson_quiet hc.base _ l5 hb'.short (by omega) fun st' h2 => ?_)
          have := h2.length_le
          split
          · exact (replies_bad hc.base srv badResource (by decide +kernel) st'.s).returned
          · rw [moveBody_quiet hc (hb'.suffix h2) (by omega)]
            exact (replies_bad hc.base srv _ (by decide +kernel) st'.s).returned
      · exact (replies_claim hi hc l.st l1 l2 _ _).returned
      · exact (replies_moves hi hc l.st l1 l2 _ _).returned
      · exact ⟨srv, [], false, rfl, .inl rfl⟩
  · exact (Connect4Wire.replies_other hc srv d l.st l1 l2 l3 l4 hg).returned

/-! ## Instances -/

section Instances
open Abc.CarWire (demo_env)

/-- C100, the game: here the headers are not even accepted. -/
example : Connect4Wire.serve demoCfg (fun _ => none) (fun _ => []) demoCtx4 (List.replicate 33 7) (List.replicate 2049 7) (List.replicate 17 7) false {} ⟨3, 8, 7⟩
      (hostile "POST /games HTTP/1.1") = .running ∨
    ∃ srv' out sd, Connect4Wire.serve demoCfg (fun _ => none) (fun _ => []) demoCtx4 (List.replicate 33 7) (List.replicate 2049 7) (List.replicate 17 7) false {} ⟨3, 8, 7⟩
      (hostile "POST /games HTTP/1.1") = .ok (srv', .sent out sd) ∧ (out = [] ∨ Complete out) := by
  refine C109_short_partial demoCfg_ok demoCtx4_ok demo_env (by rw [List.length_replicate]) (by rw [List.length_replicate]) (by rw [List.length_replicate])
    (by decide +kernel) hostile_games Connect4Server.inv_init _ ?_
  intro l st hl _ _ hst
  have : (match requestLine demoCfg demoCtx4.fuel (List.replicate 33 7) (List.replicate 2049 7) (List.replicate 17 7) (hostile "POST /games HTTP/1.1") with
    | .ok (some l) => (match headerLoop demoCtx4.fuel demoCtx4.fuel false l.st demoCtx4.header with
      | .ok (.json st) => decide (st.s.rest.length ≤ 63) | _ => true) | _ => true) = true := by decide +kernel
  rw [hl] at this
  dsimp only at this
  rw [hst] at this
  exact of_decide_eq_true this

/-- C100, the game, without quotation marks. -/
example : ∃ srv' out sd, Connect4Wire.serve demoCfg (fun _ => none) (fun _ => []) demoCtx4 (List.replicate 33 7) (List.replicate 2049 7) (List.replicate 17 7) false {}
      ⟨3, 8, 7⟩ (quiet "POST /games HTTP/1.1") = .ok (srv', .sent out sd) ∧ (out = [] ∨ Complete out) :=
  C109_quiet_partial demoCfg_ok demoCtx4_ok demo_env (by rw [List.length_replicate]) (by rw [List.length_replicate]) (by rw [List.length_replicate])
    (by decide +kernel) quiet_games Connect4Server.inv_init _


end Instances

end Abc.Connect4Wire
