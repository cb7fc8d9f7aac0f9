import Verif.Smbus.Model
import Mathlib.Tactic.Common

/-!
# C38, C54, C55: SMBus transfers
-/

namespace Abc.Smbus

open Abc.Ascii

variable {σ : Type}

/-- One call of a transfer function by the user. -/
inductive Call where
  | putNodata (t : Target) (reg : Byte)
  | putByte (t : Target) (reg byte : Byte)
  | putWord (t : Target) (reg : Byte) (word : UInt16)
  | putBlock (t : Target) (reg : Byte) (bytes : List Byte)
  | getNoreg (t : Target)
  | getByte (t : Target) (reg : Byte)
  | getWord (t : Target) (reg : Byte)
  | getBlock (t : Target) (reg : Byte) (size : Nat)

/-- The target of a call. -/
def Call.target : Call → Target
  | .putNodata t _ | .putByte t _ _ | .putWord t _ _ | .putBlock t _ _ | .getNoreg t | .getByte t _ | .getWord t _ | .getBlock t _ _ => t

/-- Making the call: the bus afterwards and the returned `bool`. -/
def Call.run (io : σ → Req → σ × Outcome) (b : Bus σ) : Call → Option (Bus σ × Bool)
  | .putNodata t r => some (Smbus.putNodata io b t r)
  | .putByte t r v => some (Smbus.putByte io b t r v)
  | .putWord t r v => some (Smbus.putWord io b t r v)
  | .putBlock t r v => Smbus.putBlock io b t r v
  | .getNoreg t => some ((Smbus.getNoreg io b t).1, (Smbus.getNoreg io b t).2.isSome)
  | .getByte t r => some ((Smbus.getByte io b t r).1, (Smbus.getByte io b t r).2.isSome)
  | .getWord t r => some ((Smbus.getWord io b t r).1, (Smbus.getWord io b t r).2.isSome)
  | .getBlock t r n => (Smbus.getBlock io b t r n).map (fun x => (x.1, x.2.isSome))

/-- The message a call is to send, independent of the code: direction, register, protocol kind and
leading data bytes. -/
def Call.Expected : Call → Msg → Prop
  | .putNodata _ r, m => m.read = false ∧ m.reg = r ∧ m.kind = 1
  | .putByte _ r v, m => m.read = false ∧ m.reg = r ∧ m.kind = 2 ∧ [v] <+: m.data
  | .putWord t r w, m => m.read = false ∧ m.reg = r ∧ m.kind = 3 ∧
      (if t.swap then [UInt8.ofNat (w.toNat / 256), UInt8.ofNat (w.toNat % 256)] else [UInt8.ofNat (w.toNat % 256), UInt8.ofNat (w.toNat / 256)]) <+: m.data
  | .putBlock _ r l, m => m.read = false ∧ m.reg = r ∧ m.kind = 5 ∧ (UInt8.ofNat l.length :: l) <+: m.data ∧ l.length ≤ 32
  | .getNoreg _, m => m.read = true ∧ m.kind = 1
  | .getByte _ r, m => m.read = true ∧ m.reg = r ∧ m.kind = 2
  | .getWord _ r, m => m.read = true ∧ m.reg = r ∧ m.kind = 3
  | .getBlock _ r _, m => m.read = true ∧ m.reg = r ∧ m.kind = 5

/-- The mutex of `safe_ioctl` can always be locked. -/
def Lockable (io : σ → Req → σ × Outcome) : Prop := ∀ s r, (io s r).2 ≠ .threw

/-- A bus as the constructor leaves it (`_addr` 0, kernel address 0), with a log. -/
def fresh (s : σ) : Bus σ := ⟨0, true, s, 0, []⟩

private def Inv (b : Bus σ) : Prop := b.log = true ∧ b.kernelAddr = b.addr

private theorem code_cases (o : Outcome) (h : o ≠ .threw) : o.code = 0 ∧ (∃ d, o = .ok d) ∨ o.code = -1 ∧ o = .failed := by
  cases o with
  | ok d => exact Or.inl ⟨rfl, d, rfl⟩
  | failed => exact Or.inr ⟨rfl, rfl⟩
  | threw => exact absurd rfl h

private theorem ensure_spec {io : σ → Req → σ × Outcome} (hl : Lockable io) {b : Bus σ} (hb : Inv b) (addr : Nat) :
    Inv (ensureAddress io b addr).1 ∧ (ensureAddress io b addr).1.done = b.done ∧
      ((ensureAddress io b addr).2 = true → (ensureAddress io b addr).1.kernelAddr = addr) := by
  obtain ⟨h1, h2⟩ := hb
  unfold ensureAddress
  by_cases ha : b.addr = addr
  · rw [if_pos ⟨ha, h1⟩]; exact ⟨⟨h1, h2⟩, rfl, fun _ => by rw [h2, ha]⟩
  · rw [if_neg (fun h => ha h.1)]
    simp only [ioctlAddress]
    rcases code_cases _ (hl b.env (.setAddress addr)) with ⟨hc, _⟩ | ⟨hc, _⟩
    · simp [hc, Inv, h1]
    · simp [hc, Inv, h1, h2]

private theorem ioctl_spec {io : σ → Req → σ × Outcome} (hl : Lockable io) {b : Bus σ} (hb : Inv b) (m : Msg) :
    Inv (ioctlTransfer io b m).1 ∧
      ((ioctlTransfer io b m).2.1 = 0 ∧ (ioctlTransfer io b m).1.done = b.done ++ [(b.kernelAddr, m)] ∨
       (ioctlTransfer io b m).2.1 = -1 ∧ (ioctlTransfer io b m).1.done = b.done) := by
  obtain ⟨h1, h2⟩ := hb
  unfold ioctlTransfer
  have hne := hl b.env (.transfer m)
  cases ho : (io b.env (.transfer m)).2 with
  | ok d => simp [ho, Inv, h1, h2]
  | failed => simp [ho, Inv, h1, h2, Outcome.code]
  | threw => exact absurd ho hne

private theorem transfer_spec {io : σ → Req → σ × Outcome} (hl : Lockable io) {b : Bus σ} (hb : Inv b) (t : Target) (m : Msg) :
    Inv (transfer io b t m).1 ∧
      ((transfer io b t m).2.isSome = true ∧ (transfer io b t m).1.done = b.done ++ [(t.address, m)] ∨
       (transfer io b t m).2 = none ∧ (transfer io b t m).1.done = b.done) := by
  obtain ⟨e1, e2, e3⟩ := ensure_spec hl hb t.address
  unfold transfer
  cases hr : (ensureAddress io b t.address).2 with
  | false => simp only; rw [if_pos ⟨hr, hb.1⟩]; exact ⟨e1, Or.inr ⟨rfl, e2⟩⟩
  | true =>
    simp only
    rw [if_neg (by simp [hr])]
    obtain ⟨i1, i2⟩ := ioctl_spec hl e1 m
    rcases i2 with ⟨c, d⟩ | ⟨c, d⟩
    · rw [if_neg (by rw [c]; simp)]
      exact ⟨i1, Or.inl ⟨rfl, by rw [d, e2, e3 hr]⟩⟩
    · rw [if_pos ⟨by rw [c]; decide, hb.1⟩]
      exact ⟨i1, Or.inr ⟨rfl, by rw [d, e2]⟩⟩

private theorem block_prefix (l : List Byte) : l <+: block l := List.prefix_append _ _

private theorem word_bytes (w : UInt16) : wordBytes w = [UInt8.ofNat (w.toNat % 256), UInt8.ofNat (w.toNat / 256)] := by
  unfold wordBytes
  have h1 : w.toUInt8 = UInt8.ofNat (w.toNat % 256) := by
    apply UInt8.toNat.inj; simp [UInt8.toNat_ofNat']
  have h2 : (w >>> 8).toUInt8 = UInt8.ofNat (w.toNat / 256) := by
    apply UInt8.toNat.inj
    simp [UInt16.toNat_shiftRight, Nat.shiftRight_eq_div_pow]
  rw [h1, h2]

theorem swap_toNat (w : UInt16) : (swapBytes w).toNat = w.toNat % 256 * 256 + w.toNat / 256 := by
  have hw := w.toNat_lt
  unfold swapBytes
  simp only [UInt16.toNat_or, UInt16.toNat_shiftLeft, UInt16.toNat_and, UInt16.toNat_shiftRight]
  have e1 : (0x00ff : UInt16).toNat = 2 ^ 8 - 1 := rfl
  have e2 : (8 : UInt16).toNat % 16 = 8 := rfl
  rw [e1, e2, Nat.and_two_pow_sub_one_eq_mod, Nat.and_two_pow_sub_one_eq_mod, Nat.shiftRight_eq_div_pow]
  rw [Nat.shiftLeft_eq, Nat.mod_eq_of_lt (a := w.toNat % 2 ^ 8 * 2 ^ 8) (by omega)]
  rw [← Nat.shiftLeft_eq, ← Nat.shiftLeft_add_eq_or_of_lt (by omega), Nat.shiftLeft_eq]
  omega

private theorem swap_swap (w : UInt16) : swapBytes (swapBytes w) = w := by
  apply UInt16.toNat.inj
  rw [swap_toNat, swap_toNat]
  have := w.toNat_lt
  omega

private theorem word_wordBytes (w : UInt16) (rest : List Byte) : wordOf (wordBytes w ++ rest) = w := by
  apply UInt16.toNat.inj
  have hw := w.toNat_lt
  unfold wordOf
  rw [word_bytes]
  simp only [List.cons_append, List.getD_cons_zero, List.getD_cons_succ, UInt16.toNat_or, UInt16.toNat_shiftLeft, UInt8.toNat_toUInt16,
    UInt8.toNat_ofNat']
  have e2 : (8 : UInt16).toNat % 16 = 8 := rfl
  rw [e2, Nat.shiftLeft_eq, Nat.mod_eq_of_lt (a := w.toNat / 256 % 2 ^ 8 * 2 ^ 8) (by omega)]
  rw [Nat.or_comm, ← Nat.shiftLeft_eq, ← Nat.shiftLeft_add_eq_or_of_lt (by omega), Nat.shiftLeft_eq]
  omega

/-- What one call does, on a bus with a log whose kernel address is the one the object remembers. -/
private theorem call_spec {io : σ → Req → σ × Outcome} (hl : Lockable io) {b : Bus σ} (hb : Inv b) (c : Call) {b' : Bus σ} {ok : Bool}
    (h : c.run io b = some (b', ok)) :
    Inv b' ∧ (ok = true → ∃ m, b'.done = b.done ++ [(c.target.address, m)] ∧ c.Expected m) ∧
      (b'.done = b.done ∨ ∃ m, b'.done = b.done ++ [(c.target.address, m)] ∧ c.Expected m) := by
  have simple : ∀ (t : Target) (m : Msg) (ok : Bool) (b' : Bus σ), b' = (transfer io b t m).1 → ok = (transfer io b t m).2.isSome → ∀ P : Msg → Prop, P m →
      Inv b' ∧ (ok = true → ∃ m, b'.done = b.done ++ [(t.address, m)] ∧ P m) ∧
      (b'.done = b.done ∨ ∃ m, b'.done = b.done ++ [(t.address, m)] ∧ P m) := by
    intro t m ok b' e1 e2 P hP
    obtain ⟨i, d⟩ := transfer_spec hl hb t m
    subst e1 e2
    refine ⟨i, fun ho => ?_, ?_⟩
    · rcases d with ⟨_, d⟩ | ⟨n, _⟩
      · exact ⟨m, d, hP⟩
      · rw [n] at ho; simp at ho
    · rcases d with ⟨_, d⟩ | ⟨_, d⟩
      · exact Or.inr ⟨m, d, hP⟩
      · exact Or.inl d
  cases c with
  | putNodata t r =>
    simp only [Call.run, Smbus.putNodata, Option.some.injEq, Prod.mk.injEq] at h
    exact simple t _ ok b' h.1.symm h.2.symm _ ⟨rfl, rfl, rfl⟩
  | putByte t r v =>
    simp only [Call.run, Smbus.putByte, Option.some.injEq, Prod.mk.injEq] at h
    exact simple t _ ok b' h.1.symm h.2.symm _ ⟨rfl, rfl, rfl, block_prefix _⟩
  | putWord t r w =>
    simp only [Call.run, Smbus.putWord, Option.some.injEq, Prod.mk.injEq] at h
    refine simple t _ ok b' h.1.symm h.2.symm _ ⟨rfl, rfl, rfl, ?_⟩
    have hw := w.toNat_lt
    cases t.swap with
    | false => simp only [Bool.false_eq_true, if_false]; rw [word_bytes]; exact block_prefix _
    | true =>
      simp only [if_true]
      have : wordBytes (swapBytes w) = [UInt8.ofNat (w.toNat / 256), UInt8.ofNat (w.toNat % 256)] := by
        rw [word_bytes, swap_toNat]
        have h1 : (w.toNat % 256 * 256 + w.toNat / 256) % 256 = w.toNat / 256 := by omega
        have h2 : (w.toNat % 256 * 256 + w.toNat / 256) / 256 = w.toNat % 256 := by omega
        rw [h1, h2]
      rw [this]; exact block_prefix _
  | getNoreg t =>
    simp only [Call.run, Smbus.getNoreg, Option.some.injEq, Prod.mk.injEq, Option.isSome_map] at h
    exact simple t _ ok b' h.1.symm h.2.symm _ ⟨rfl, rfl⟩
  | getByte t r =>
    simp only [Call.run, Smbus.getByte, Option.some.injEq, Prod.mk.injEq, Option.isSome_map] at h
    exact simple t _ ok b' h.1.symm h.2.symm _ ⟨rfl, rfl, rfl⟩
  | getWord t r =>
    simp only [Call.run, Smbus.getWord, Option.some.injEq, Prod.mk.injEq, Option.isSome_map] at h
    exact simple t _ ok b' h.1.symm h.2.symm _ ⟨rfl, rfl, rfl⟩
  | getBlock t r n =>
    simp only [Call.run, Smbus.getBlock] at h
    obtain ⟨i, d⟩ := transfer_spec hl hb t ⟨true, r, kindBlockData, block [UInt8.ofNat n]⟩
    have hE : (Call.getBlock t r n).Expected ⟨true, r, kindBlockData, block [UInt8.ofNat n]⟩ := ⟨rfl, rfl, rfl⟩
    cases hr : (transfer io b t ⟨true, r, kindBlockData, block [UInt8.ofNat n]⟩).2 with
    | none =>
      rw [hr] at h d
      simp only [Option.map_some, Option.isSome_none, Option.some.injEq, Prod.mk.injEq] at h
      obtain ⟨rfl, rfl⟩ := h
      rcases d with ⟨x, _⟩ | ⟨_, d⟩
      · simp at x
      · exact ⟨i, by simp, Or.inl d⟩
    | some dt =>
      rw [hr] at h d
      rcases d with ⟨_, d⟩ | ⟨x, _⟩
      · have fin : ∀ ok' : Bool, b' = (transfer io b t ⟨true, r, kindBlockData, block [UInt8.ofNat n]⟩).1 →
            Inv b' ∧ (ok' = true → ∃ m, b'.done = b.done ++ [(t.address, m)] ∧ (Call.getBlock t r n).Expected m) ∧
            (b'.done = b.done ∨ ∃ m, b'.done = b.done ++ [(t.address, m)] ∧ (Call.getBlock t r n).Expected m) := by
          intro ok' e; subst e
          exact ⟨i, fun _ => ⟨_, d, hE⟩, Or.inr ⟨_, d, hE⟩⟩
        simp only at h
        split at h
        · simp only [Option.map_some, Option.some.injEq, Prod.mk.injEq] at h
          exact fin ok h.1.symm
        · split at h
          · simp at h
          · simp only [Option.map_some, Option.some.injEq, Prod.mk.injEq] at h
            exact fin ok h.1.symm
      · simp at x
  | putBlock t r l =>
    simp only [Call.run, Smbus.putBlock] at h
    obtain ⟨e1, e2, e3⟩ := ensure_spec hl hb t.address
    by_cases hlen : l.length > blockMax
    · rw [if_pos ⟨hlen, hb.1⟩] at h
      simp only [Option.some.injEq, Prod.mk.injEq] at h
      obtain ⟨rfl, rfl⟩ := h
      exact ⟨hb, by simp, Or.inl rfl⟩
    · rw [if_neg (fun h => hlen h.1)] at h
      cases hr : (ensureAddress io b t.address).2 with
      | false =>
        rw [if_pos ⟨hr, hb.1⟩] at h
        simp only [Option.some.injEq, Prod.mk.injEq] at h
        obtain ⟨rfl, rfl⟩ := h
        exact ⟨e1, by simp, Or.inl e2⟩
      | true =>
        rw [if_neg (by simp [hr]), if_neg (by omega)] at h
        have hE : (Call.putBlock t r l).Expected ⟨false, r, kindBlockData, block (UInt8.ofNat l.length :: l)⟩ :=
          ⟨rfl, rfl, rfl, block_prefix _, by simpa [blockMax] using hlen⟩
        obtain ⟨i1, i2⟩ := ioctl_spec hl e1 ⟨false, r, kindBlockData, block (UInt8.ofNat l.length :: l)⟩
        rcases i2 with ⟨c, d⟩ | ⟨c, d⟩
        · rw [if_neg (by rw [c]; simp)] at h
          simp only [Option.some.injEq, Prod.mk.injEq] at h
          obtain ⟨rfl, rfl⟩ := h
          rw [e2, e3 hr] at d
          exact ⟨i1, fun _ => ⟨_, d, hE⟩, Or.inr ⟨_, d, hE⟩⟩
        · rw [if_pos ⟨by rw [c]; decide, hb.1⟩] at h
          simp only [Option.some.injEq, Prod.mk.injEq] at h
          obtain ⟨rfl, rfl⟩ := h
          exact ⟨i1, by simp, Or.inl (by rw [d, e2])⟩

/-- A sequence of calls by one thread. -/
inductive Calls (io : σ → Req → σ × Outcome) : Bus σ → List (Call × Bool) → Bus σ → Prop
  | nil (b : Bus σ) : Calls io b [] b
  | cons {b b' b'' : Bus σ} {c : Call} {ok : Bool} {l : List (Call × Bool)} :
      c.run io b = some (b', ok) → Calls io b' l b'' → Calls io b ((c, ok) :: l) b''

private theorem calls_inv {io : σ → Req → σ × Outcome} (hl : Lockable io) {b b' : Bus σ} {l : List (Call × Bool)} (h : Calls io b l b') (hb : Inv b) : Inv b' := by
  induction h with
  | nil _ => exact hb
  | cons h _ ih => exact ih (call_spec hl hb _ h).1

/-- C38 on a bus with a log (and as long as the mutex can be locked): after any sequence of calls to any
targets with any outcomes of the I/O, a call that returns `true` has made exactly one transfer, to its
target's address, of the right kind with the given register and data, and a block is at most 32 bytes;
a call that returns `false` made at most that transfer.
Missing: a bus without a log (`no_log_violated`, `no_log_violated_overflow`) and failures of the mutex
(`lock_violated`). -/
theorem transfer_partial (io : σ → Req → σ × Outcome) (hl : Lockable io) (s : σ) (before : List (Call × Bool)) (b b' : Bus σ)
    (hb : Calls io (fresh s) before b) (c : Call) (ok : Bool) (h : c.run io b = some (b', ok)) :
    (ok = true → ∃ m, b'.done = b.done ++ [(c.target.address, m)] ∧ c.Expected m) ∧
      (b'.done = b.done ∨ ∃ m, b'.done = b.done ++ [(c.target.address, m)] ∧ c.Expected m) := by
  have := calls_inv hl hb (⟨rfl, rfl⟩ : Inv (fresh s))
  exact (call_spec hl this c h).2

/-- A device that fails the first transfer and accepts the rest. -/
private def flaky (n : Nat) (r : Req) : Nat × Outcome :=
  match r with
  | .setAddress _ => (n, .ok [])
  | .transfer m => (n + 1, if n = 0 then .failed else .ok m.data)

example : Lockable flaky ∧ ∃ b1 b2 m, (Call.putByte ⟨0x40, false⟩ 7 9).run flaky (fresh 0) = some (b1, false) ∧
    (Call.putWord ⟨0x41, true⟩ 8 0x1234).run flaky b1 = some (b2, true) ∧ b2.done = [(0x41, m)] := by
  refine ⟨?_, _, _, _, rfl, rfl, rfl⟩
  intro s r
  cases r with
  | setAddress a => simp [flaky]
  | transfer m => by_cases h : s = 0 <;> simp [flaky, h]

/-- C38 is violated without a log: every transfer that fails reports success. -/
theorem no_log_violated (t : Target) (reg byte : Byte) (s : σ) :
    ∃ b, (Call.putByte t reg byte).run (fun s _ => (s, Outcome.failed)) (⟨0, false, s, 0, []⟩ : Bus σ) = some (b, true) ∧ b.done = [] := by
  refine ⟨⟨t.address, false, s, 0, []⟩, ?_, rfl⟩
  simp [Call.run, Smbus.putByte, transfer, ensureAddress, ioctlAddress, ioctlTransfer, Outcome.code]

/-- C38 is violated without a log: a block of more than 33 bytes is copied past the end of the buffer,
whatever the device does. -/
theorem no_log_violated_overflow (io : σ → Req → σ × Outcome) (b : Bus σ) (hb : b.log = false) (t : Target) (reg : Byte) (bytes : List Byte)
    (h : 33 < bytes.length) : (Call.putBlock t reg bytes).run io b = none := by
  simp only [Call.run, Smbus.putBlock, hb, Bool.false_eq_true, and_false, if_false, blockMax]
  rw [if_pos (by omega)]

example : 33 < (List.replicate 40 (1 : Byte)).length := by decide

/-- C38 is violated also with a log: when the mutex cannot be locked, nothing is transferred and success
is reported (`ENOLCK` is positive). -/
theorem lock_violated (t : Target) (reg byte : Byte) (s : σ) :
    ∃ b, (Call.putByte t reg byte).run (fun s _ => (s, Outcome.threw)) (fresh s) = some (b, true) ∧ b.done = [] := by
  refine ⟨⟨t.address, true, s, 0, []⟩, ?_, rfl⟩
  by_cases h : 0 = t.address
  · simp [Call.run, Smbus.putByte, transfer, ensureAddress, ioctlTransfer, fresh, Outcome.code, ← h]
  · simp [Call.run, Smbus.putByte, transfer, ensureAddress, ioctlAddress, ioctlTransfer, fresh, Outcome.code, h]

/-- A bus driver as the kernel specifies it: the union it fills has 34 bytes, and the length of a
block read is at most 32. -/
def Driver (io : σ → Req → σ × Outcome) : Prop :=
  ∀ s m d, (io s (.transfer m)).2 = .ok d →
    d.length = 34 ∧ (m.read = true → m.kind = 5 → (d.getD 0 0).toNat ≤ 32)

private theorem transfer_reply {io : σ → Req → σ × Outcome} {b : Bus σ} (hb : b.log = true) (hl : Lockable io) {t : Target}
    {m : Msg} {d : List Byte} (h : (transfer io b t m).2 = some d) : ∃ s, (io s (.transfer m)).2 = .ok d := by
  unfold transfer at h
  simp only at h
  split at h
  · cases h
  · unfold ioctlTransfer at h
    refine ⟨(ensureAddress io b t.address).1.env, ?_⟩
    cases ho : (io (ensureAddress io b t.address).1.env (.transfer m)).2 with
    | ok d' =>
      simp only [ho] at h
      split at h
      · cases h
      · rw [Option.some.injEq] at h; rw [h]
    | failed =>
      simp only [ho] at h
      rw [if_pos ⟨by decide, hb⟩] at h
      cases h
    | threw => exact absurd ho (hl _ _)

/-- C38: on a bus with a log no call, after any sequence of calls, copies more than the caller's block or
the driver's data have; a block that is read is one the driver delivered, whole, and fits into the
caller's block.
Missing: a bus without a log (`no_log_violated_overflow`). -/
theorem no_overrun_partial (io : σ → Req → σ × Outcome) (hl : Lockable io) (hk : Driver io) (s : σ) (before : List (Call × Bool)) (b : Bus σ)
    (hb : Calls io (fresh s) before b) (c : Call) : (∃ r, c.run io b = some r) ∧
    ∀ t reg size b' bytes, getBlock io b t reg size = some (b', some bytes) →
      bytes.length ≤ size ∧ ∃ s m d, (io s (.transfer m)).2 = .ok d ∧ m.read = true ∧ m.reg = reg ∧ m.kind = 5 ∧
        (UInt8.ofNat bytes.length :: bytes) <+: d := by
  have hinv := calls_inv hl hb (⟨rfl, rfl⟩ : Inv (fresh s))
  have hget : ∀ t reg size, (∃ r, getBlock io b t reg size = some r) ∧
      ∀ b' bytes, getBlock io b t reg size = some (b', some bytes) →
      bytes.length ≤ size ∧ ∃ s m d, (io s (.transfer m)).2 = .ok d ∧ m.read = true ∧ m.reg = reg ∧ m.kind = 5 ∧
        (UInt8.ofNat bytes.length :: bytes) <+: d := by
    intro t reg size
    unfold getBlock
    cases hr : (transfer io b t ⟨true, reg, kindBlockData, block [UInt8.ofNat size]⟩).2 with
    | none => simp only [hr]; exact ⟨⟨_, rfl⟩, fun _ _ h => by cases h⟩
    | some d =>
      obtain ⟨s', hs'⟩ := transfer_reply hinv.1 hl hr
      obtain ⟨h34, h32⟩ := hk _ _ _ hs'
      have h32 := h32 rfl rfl
      simp only [hr]
      by_cases hn : (d.getD 0 0).toNat > size
      · rw [if_pos ⟨hn, hinv.1⟩]; exact ⟨⟨_, rfl⟩, fun _ _ h => by cases h⟩
      · rw [if_neg (fun e => hn e.1), if_neg (by omega)]
        refine ⟨⟨_, rfl⟩, fun b' bytes h => ?_⟩
        simp only [Option.some.injEq, Prod.mk.injEq] at h
        obtain ⟨_, rfl⟩ := h
        have hlen : ((d.drop 1).take (d.getD 0 0).toNat).length = (d.getD 0 0).toNat := by
          rw [List.length_take, List.length_drop]; omega
        rw [hlen]
        refine ⟨by omega, s', _, d, hs', rfl, rfl, rfl, ?_⟩
        cases d with
        | nil => simp at h34
        | cons x d =>
          simp only [List.getD_cons_zero, UInt8.ofNat_toNat, List.drop_one, List.tail_cons]
          exact List.cons_prefix_cons.2 ⟨rfl, List.take_prefix _ _⟩
  refine ⟨?_, fun t reg size b' bytes h => (hget t reg size).2 b' bytes h⟩
  cases c with
  | getBlock t r n =>
    obtain ⟨x, hx⟩ := (hget t r n).1
    exact ⟨_, by simp only [Call.run]; rw [hx]; rfl⟩
  | putBlock t r l =>
    simp only [Call.run, Smbus.putBlock]
    by_cases hlen : l.length > blockMax
    · rw [if_pos ⟨hlen, hinv.1⟩]; exact ⟨_, rfl⟩
    · rw [if_neg (fun h => hlen h.1)]
      split
      · exact ⟨_, rfl⟩
      · rw [if_neg (by omega)]
        split <;> exact ⟨_, rfl⟩
  | _ => exact ⟨_, rfl⟩

/-- A device that answers the transfers with the given replies, in order. -/
def replying (s : List (List Byte)) (r : Req) : List (List Byte) × Outcome :=
  match r, s with
  | .setAddress _, s => (s, .ok [])
  | .transfer _, d :: s => (s, .ok d)
  | .transfer _, [] => ([], .failed)

/-- C38 for the values read: the byte, the word in the target's byte order, the two bytes of two plain
reads, the block with its length; for every bus state and log. -/
theorem values_read (b : Bus (List (List Byte))) (t : Target) (reg x y : Byte) (l l' : List Byte) (rest : List (List Byte)) :
    (b.env = (x :: l) :: rest → (getByte replying b t reg).2 = some x ∧ (getNoreg replying b t).2 = some x) ∧
    (b.env = (x :: y :: l) :: rest →
      (getWord replying b t reg).2.map (·.toNat) = some (if t.swap then x.toNat * 256 + y.toNat else y.toNat * 256 + x.toNat)) ∧
    (b.env = (x :: l) :: (y :: l') :: rest →
      (getNoreg2 replying b t).2.map (·.toNat) = some (if t.swap then x.toNat * 256 + y.toNat else y.toNat * 256 + x.toNat)) ∧
    (∀ size, b.env = (x :: l) :: rest → x.toNat ≤ size → x.toNat ≤ l.length →
      ∃ b', getBlock replying b t reg size = some (b', some (l.take x.toNat))) := by
  have he : ∀ b : Bus (List (List Byte)), ∃ a k, ensureAddress replying b t.address = (⟨a, b.log, b.env, k, b.done⟩, true) := by
    intro b
    unfold ensureAddress
    split
    · exact ⟨_, _, rfl⟩
    · simp only [ioctlAddress, replying, Outcome.code]
      rw [if_neg (by simp)]
      exact ⟨_, _, rfl⟩
  have ht : ∀ (b : Bus (List (List Byte))) (m : Msg) d rest, b.env = d :: rest →
      (transfer replying b t m).1.env = rest ∧ (transfer replying b t m).2 = some d := by
    intro b m d rest hd
    obtain ⟨a, k, h⟩ := he b
    unfold transfer
    rw [h]
    simp [ioctlTransfer, replying, hd]
  have hor : ∀ p q : Byte, ((p.toUInt16 <<< 8) ||| q.toUInt16).toNat = p.toNat * 256 + q.toNat := by
    intro p q
    have hp := p.toNat_lt
    have hq := q.toNat_lt
    simp only [UInt16.toNat_or, UInt16.toNat_shiftLeft, UInt8.toNat_toUInt16]
    have e2 : (8 : UInt16).toNat % 16 = 8 := rfl
    rw [e2, Nat.shiftLeft_eq, Nat.mod_eq_of_lt (a := p.toNat * 2 ^ 8) (by omega), ← Nat.shiftLeft_eq,
      ← Nat.shiftLeft_add_eq_or_of_lt (by omega), Nat.shiftLeft_eq]
  refine ⟨fun h => ?_, fun h => ?_, fun h => ?_, fun size h h1 h2 => ?_⟩
  · unfold getByte getNoreg
    simp only [(ht b _ _ _ h).2]
    exact ⟨rfl, rfl⟩
  · unfold getWord
    simp only [(ht b _ _ _ h).2, Option.map_some, Option.some.injEq]
    have hw : (wordOf (x :: y :: l)).toNat = y.toNat * 256 + x.toNat := by
      unfold wordOf
      simp only [List.getD_cons_zero, List.getD_cons_succ]
      rw [UInt16.or_comm]
      exact hor y x
    have hx := x.toNat_lt
    have hy := y.toNat_lt
    cases t.swap
    · simp only [Bool.false_eq_true, if_false]; exact hw
    · simp only [if_true]; rw [swap_toNat, hw]; omega
  · have h0 := ht b ⟨true, 0, kindByte, block []⟩ _ _ h
    have h1 := ht _ ⟨true, 0, kindByte, block []⟩ _ _ h0.1
    unfold getNoreg2 getNoreg
    simp only [h0.2, h1.2, Option.map_some, List.getD_cons_zero, Option.some.injEq]
    cases t.swap
    · simp only [Bool.false_eq_true, if_false]; exact hor y x
    · simp only [if_true]; exact hor x y
  · unfold getBlock
    simp only [(ht b _ _ _ h).2, List.getD_cons_zero]
    rw [if_neg (by omega), if_neg (by simp only [List.length_cons]; omega)]
    exact ⟨_, rfl⟩

example : (getNoreg2 replying ⟨0, true, [[0x12], [0x34]], 0, []⟩ ⟨0x40, true⟩).2 = some 0x1234 ∧
    (getNoreg2 replying ⟨0, true, [[0x12], [0x34]], 0, []⟩ ⟨0x40, false⟩).2 = some 0x3412 := by decide

/-! ## C54: words -/

/-- A device register file: writing a word and reading it back through the same bus gives the word that
was written, whether or not the target swaps bytes. -/
def registerFile (s : Byte → List Byte) (r : Req) : (Byte → List Byte) × Outcome :=
  match r with
  | .setAddress _ => (s, .ok [])
  | .transfer m => if m.read then (s, .ok (s m.reg)) else (fun x => if x = m.reg then m.data else s x, .ok m.data)

/-- C54: write then read gives back the word, for every word, register, byte order and log. -/
theorem word_roundtrip (b : Bus (Byte → List Byte)) (t : Target) (reg : Byte) (w : UInt16) :
    (putWord registerFile b t reg w).2 = true ∧ (getWord registerFile (putWord registerFile b t reg w).1 t reg).2 = some w := by
  have he : ∀ b : Bus (Byte → List Byte), ∃ a k, ensureAddress registerFile b t.address = (⟨a, b.log, b.env, k, b.done⟩, true) := by
    intro b
    unfold ensureAddress
    split
    · exact ⟨_, _, rfl⟩
    · simp only [ioctlAddress, registerFile, Outcome.code]
      rw [if_neg (by simp)]
      exact ⟨_, _, rfl⟩
  have ht : ∀ (b : Bus (Byte → List Byte)) (m : Msg), (transfer registerFile b t m).1.env = (registerFile b.env (.transfer m)).1 ∧
      (transfer registerFile b t m).2 = some (if m.read then b.env m.reg else m.data) := by
    intro b m
    obtain ⟨a, k, h⟩ := he b
    unfold transfer
    rw [h]
    simp only [Bool.true_eq_false, false_and, if_false, ioctlTransfer, registerFile]
    cases m.read <;> simp
  unfold putWord getWord
  simp only
  obtain ⟨h1, h2⟩ := ht b ⟨false, reg, kindWordData, block (wordBytes (if t.swap then swapBytes w else w))⟩
  obtain ⟨_, h3⟩ := ht (transfer registerFile b t ⟨false, reg, kindWordData, block (wordBytes (if t.swap then swapBytes w else w))⟩).1
    ⟨true, reg, kindWordData, block []⟩
  rw [h2, h3, h1]
  refine ⟨rfl, ?_⟩
  simp only [registerFile, Bool.false_eq_true, if_false, if_true, Option.map_some, Option.some.injEq]
  unfold block
  rw [word_wordBytes]
  cases t.swap
  · simp
  · simp only [if_true]; exact swap_swap w

example : (getWord registerFile (putWord registerFile ⟨0, true, fun _ => [], 0, []⟩ ⟨0x40, true⟩ 3 0xABCD).1 ⟨0x40, true⟩ 3).2 = some 0xABCD ∧
    (putWord registerFile ⟨0, true, fun _ => [], 0, []⟩ ⟨0x40, true⟩ 3 0xABCD).1.env 3 = block [0xAB, 0xCD] := by decide

/-! ## C55: several threads -/

/-- The two steps of a call, each of which holds the mutex only for itself. -/
inductive Half where
  | ensure (t : Target)
  | send (m : Msg)

/-- Running a step of some thread. -/
def halfStep (io : σ → Req → σ × Outcome) (b : Bus σ) : Half → Bus σ
  | .ensure t => (ensureAddress io b t.address).1
  | .send m => (ioctlTransfer io b m).1

/-- The steps of `transfer`, run without interruption, are `transfer` (when everything succeeds). -/
theorem halves_transfer (io : σ → Req → σ × Outcome) (b : Bus σ) (t : Target) (m : Msg) (h : (transfer io b t m).2.isSome = true) :
    (transfer io b t m).1 = [Half.ensure t, Half.send m].foldl (halfStep io) b := by
  unfold transfer at h ⊢
  simp only [List.foldl_cons, List.foldl_nil, halfStep]
  split
  · rename_i hc; simp [hc] at h
  · split <;> rfl

/-- C55 is violated: two threads using one bus for different targets, all I/O succeeding; the first
thread's message goes to the second thread's target. -/
theorem threads_violated (s : σ) (t1 t2 : Target) (m1 m2 : Msg) (hne : t1.address ≠ t2.address) (h2 : t2.address ≠ 0) :
    ∃ schedule : List Half,
      List.Perm schedule [.ensure t1, .send m1, .ensure t2, .send m2] ∧
      (schedule.foldl (halfStep (fun s _ => (s, Outcome.ok []))) (fresh s)).done = [(t2.address, m1), (t2.address, m2)] := by
  refine ⟨[.ensure t1, .ensure t2, .send m1, .send m2], ?_, ?_⟩
  · exact List.Perm.cons _ (List.Perm.swap _ _ _)
  · by_cases h0 : t1.address = 0
    · simp [halfStep, ensureAddress, ioctlAddress, ioctlTransfer, fresh, Outcome.code, h0, Ne.symm h2]
    · simp [halfStep, ensureAddress, ioctlAddress, ioctlTransfer, fresh, Outcome.code, Ne.symm h0, hne]

example : (⟨0x40, false⟩ : Target).address ≠ (⟨0x41, false⟩ : Target).address := by decide

end Abc.Smbus
