import Verif.Smbus.Props
import Mathlib.Tactic.ByContra

/-!
# The grayscale sensor (`src/x/gpio_smbus_grayscale.x.h`)

The class is modelled on top of `gpio_smbus` (`Verif/Smbus/Model.lean`).  The sensor is a converter on a hat: a word written to a register
starts a conversion of that channel, and plain reads deliver the result, high byte first.
-/

namespace Abc.Gpio.Grayscale

open Abc.Ascii Abc.Smbus

section
variable {σ : Type} (io : σ → Req → σ × Outcome)

/-- One channel of `get_values`, `gpio_smbus_grayscale.x.h` 61-62 (and 64-65, 67-68): neither result is looked at; `get_noreg_2` leaves
`old` alone if it returns `false`. -/
def readOne (t : Target) (reg : Byte) (b : Bus σ) (old : UInt16) : Bus σ × UInt16 :=
  let b1 := (putWord io b t reg 0).1
  let r := getNoreg2 io b1 t
  (r.1, r.2.getD old)

/-- The three references of `get_values`. -/
structure Vals where
  left : UInt16
  center : UInt16
  right : UInt16
deriving DecidableEq, Repr

/-- `get_values`, `gpio_smbus_grayscale.x.h` 57-69, with the three registers given to the constructor (34-54; a null bus makes that throw and
is not modelled). -/
def getValues (t : Target) (regs : Byte × Byte × Byte) (b : Bus σ) (v : Vals) : Bus σ × Vals :=
  let l := readOne io t regs.1 b v.left
  let c := readOne io t regs.2.1 l.1 v.center
  let r := readOne io t regs.2.2 c.1 v.right
  (r.1, ⟨l.2, c.2, r.2⟩)

end

/-! ## The hat -/

/-- The world: the address of the hat, whether the `n`-th request succeeds, what a channel would deliver if it were converted at the
moment of the `n`-th request, which register of the hat is written by another thread just before the `n`-th request, and what other
devices answer. -/
structure World where
  hat : Nat
  ok : Nat → Bool
  gray : Nat → Byte → UInt16
  foreign : Nat → Option Byte
  other : Nat → List Byte

/-- The bus and the hat: number of requests so far, the address selected, the last conversion, and whether its low byte is next. -/
structure Dev where
  n : Nat
  addr : Nat
  conv : UInt16
  low : Bool

/-- What other threads did just before a request. -/
def turn (w : World) (d : Dev) : Dev :=
  match w.foreign d.n with
  | some r => { d with conv := w.gray d.n r, low := false }
  | none => d

/-- The answers to the requests.  A request that fails does not reach the hat. -/
def answer (w : World) (d : Dev) (r : Req) : Dev × Outcome :=
  let e := turn w d
  let e' := { e with n := e.n + 1 }
  if w.ok d.n = false then (e', .failed)
  else match r with
    | .setAddress a => ({ e' with addr := a }, .ok [])
    | .transfer m =>
      if e.addr ≠ w.hat then (e', .ok (w.other d.n))
      else if m.read then ({ e' with low := !e.low }, .ok (block [if e.low then e.conv.toUInt8 else (e.conv >>> 8).toUInt8]))
      else ({ e' with conv := w.gray d.n m.reg, low := false }, .ok m.data)

/-- Nothing happened yet. -/
def Dev.init : Dev := ⟨0, 0, 0, false⟩

/-- A bus with a log, after any earlier transfers to any devices. -/
def after (w : World) (hist : List (Target × Msg)) : Bus Dev :=
  hist.foldl (fun b p => (transfer (answer w) b p.1 p.2).1) (fresh Dev.init)

/-- The object and the kernel agree on the address. -/
structure Tuned (b : Bus Dev) : Prop where
  log : b.log = true
  addr : b.addr = b.env.addr

theorem turn_n (w : World) (d : Dev) : (turn w d).n = d.n := by
  unfold turn; split <;> rfl
theorem turn_addr (w : World) (d : Dev) : (turn w d).addr = d.addr := by
  unfold turn; split <;> rfl

theorem answer_n (w : World) (d : Dev) (r : Req) : (answer w d r).1.n = d.n + 1 := by
  unfold answer
  dsimp only
  split
  · simp [turn_n]
  · cases r with
    | setAddress a => simp [turn_n]
    | transfer m => dsimp only; split <;> (try split) <;> simp [turn_n]

theorem answer_addr (w : World) (d : Dev) (m : Msg) : (answer w d (.transfer m)).1.addr = d.addr := by
  unfold answer
  dsimp only
  split
  · simp [turn_addr]
  · split <;> (try split) <;> simp [turn_addr]

theorem answer_set (w : World) (d : Dev) (a : Nat) : ((answer w d (.setAddress a)).2.code = 0 ∧ (answer w d (.setAddress a)).1.addr = a ∧ w.ok d.n = true) ∨
    ((answer w d (.setAddress a)).2.code = -1 ∧ (answer w d (.setAddress a)).1.addr = d.addr ∧ w.ok d.n = false) := by
  unfold answer
  dsimp only
  split
  · rename_i h; exact Or.inr ⟨rfl, turn_addr w d, h⟩
  · rename_i h; exact Or.inl ⟨rfl, rfl, by simpa using h⟩

/-- No other thread uses the hat from one moment to another. -/
def Quiet (w : World) (n n' : Nat) : Prop := ∀ m, n ≤ m → m < n' → w.foreign m = none

theorem answer_set_same (w : World) (d : Dev) (a : Nat) (h : w.foreign d.n = none) :
    (answer w d (.setAddress a)).1.conv = d.conv ∧ (answer w d (.setAddress a)).1.low = d.low := by
  unfold answer turn
  rw [h]
  dsimp only
  split <;> exact ⟨rfl, rfl⟩

/-- A transfer on a bus with a log fails, or reaches the device with the address of the target. -/
theorem transfer_cases (w : World) {b : Bus Dev} (v : Tuned b) (t : Target) (m : Msg) :
    Tuned (transfer (answer w) b t m).1 ∧ b.env.n < (transfer (answer w) b t m).1.env.n ∧
    (((transfer (answer w) b t m).2 = none ∧ ∃ k, b.env.n ≤ k ∧ k < (transfer (answer w) b t m).1.env.n ∧ w.ok k = false) ∨
     ∃ (d : Dev) (data : List Byte), d.addr = t.address ∧ b.env.n ≤ d.n ∧ d.n + 1 = (transfer (answer w) b t m).1.env.n ∧ w.ok d.n = true ∧
       (Quiet w b.env.n d.n → d.conv = b.env.conv ∧ d.low = b.env.low) ∧
       (transfer (answer w) b t m).1.env = (answer w d (.transfer m)).1 ∧ (answer w d (.transfer m)).2 = .ok data ∧ (transfer (answer w) b t m).2 = some data) := by
  have go : ∀ b' : Bus Dev, b'.log = true → b'.addr = b'.env.addr →
      ((ioctlTransfer (answer w) b' m).1.log = true ∧ (ioctlTransfer (answer w) b' m).1.addr = (ioctlTransfer (answer w) b' m).1.env.addr) ∧
      (ioctlTransfer (answer w) b' m).1.env = (answer w b'.env (.transfer m)).1 ∧
      (((ioctlTransfer (answer w) b' m).2.1 = -1 ∧ w.ok b'.env.n = false) ∨
       ((ioctlTransfer (answer w) b' m).2.1 = 0 ∧ w.ok b'.env.n = true ∧ (answer w b'.env (.transfer m)).2 = .ok (ioctlTransfer (answer w) b' m).2.2)) := by
    intro b' h1 h2
    unfold ioctlTransfer
    dsimp only
    have ha := answer_addr w b'.env m
    cases hk : w.ok b'.env.n with
    | false =>
      have e : (answer w b'.env (.transfer m)).2 = .failed := by unfold answer; simp [hk]
      rw [e]
      exact ⟨⟨h1, by dsimp only; rw [ha]; exact h2⟩, rfl, Or.inl ⟨rfl, rfl⟩⟩
    | true =>
      have e : ∃ data, (answer w b'.env (.transfer m)).2 = .ok data := by
        unfold answer
        dsimp only
        rw [if_neg (by simp [hk])]
        split
        · exact ⟨_, rfl⟩
        · split <;> exact ⟨_, rfl⟩
      obtain ⟨data, e⟩ := e
      rw [e]
      exact ⟨⟨h1, by dsimp only; rw [ha]; exact h2⟩, rfl, Or.inr ⟨rfl, rfl, rfl⟩⟩
  unfold transfer
  dsimp only
  by_cases ha : b.addr = t.address
  · have e : ensureAddress (answer w) b t.address = (b, true) := by
      unfold ensureAddress; rw [if_pos ⟨ha, v.log⟩]
    rw [e]
    dsimp only
    rw [if_neg (by simp)]
    obtain ⟨⟨g1, g2⟩, g3, g4⟩ := go b v.log v.addr
    rcases g4 with ⟨g4, g5⟩ | ⟨g4, g5, g6⟩
    · rw [if_pos ⟨by rw [g4]; decide, v.log⟩]
      refine ⟨⟨g1, g2⟩, by dsimp only; rw [g3, answer_n]; omega, Or.inl ⟨rfl, b.env.n, Nat.le_refl _, by dsimp only; rw [g3, answer_n]; omega, g5⟩⟩
    · rw [if_neg (by rw [g4]; simp)]
      refine ⟨⟨g1, g2⟩, by dsimp only; rw [g3, answer_n]; omega, Or.inr ⟨b.env, _, by rw [← v.addr]; exact ha, Nat.le_refl _, by dsimp only; rw [g3, answer_n], g5,
        fun _ => ⟨rfl, rfl⟩, g3, g6, rfl⟩⟩
  · have hn := answer_n w b.env (.setAddress t.address)
    have e : ensureAddress (answer w) b t.address =
        if (answer w b.env (.setAddress t.address)).2.code < 0 ∧ b.log = true then ((ioctlAddress (answer w) b t.address).1, false)
        else ({ (ioctlAddress (answer w) b t.address).1 with addr := t.address }, true) := by
      unfold ensureAddress; rw [if_neg (fun h => ha h.1)]; rfl
    rcases answer_set w b.env t.address with ⟨s1, s2, s3⟩ | ⟨s1, s2, s3⟩
    · rw [if_neg (by rw [s1]; simp)] at e
      rw [e]
      dsimp only
      rw [if_neg (by simp)]
      obtain ⟨⟨g1, g2⟩, g3, g4⟩ := go { (ioctlAddress (answer w) b t.address).1 with addr := t.address } v.log s2.symm
      have hn' : ({ (ioctlAddress (answer w) b t.address).1 with addr := t.address } : Bus Dev).env.n = b.env.n + 1 := hn
      rcases g4 with ⟨g4, g5⟩ | ⟨g4, g5, g6⟩
      · rw [if_pos ⟨by rw [g4]; decide, v.log⟩]
        refine ⟨⟨g1, g2⟩, ?_, Or.inl ⟨rfl, b.env.n + 1, by omega, ?_, by rw [← hn']; exact g5⟩⟩
        · dsimp only; rw [g3, answer_n, hn']; omega
        · dsimp only; rw [g3, answer_n, hn']; omega
      · rw [if_neg (by rw [g4]; simp)]
        refine ⟨⟨g1, g2⟩, ?_, Or.inr ⟨_, _, s2, by rw [hn]; omega, ?_, by rw [hn'] at g5; rw [hn]; exact g5, ?_, g3, g6, rfl⟩⟩
        · dsimp only; rw [g3, answer_n, hn']; omega
        · dsimp only; rw [g3, answer_n, answer_n, hn']
        · intro q
          exact answer_set_same w b.env _ (q _ (Nat.le_refl _) (by rw [hn]; omega))
    · rw [if_pos ⟨by rw [s1]; decide, v.log⟩] at e
      rw [e]
      dsimp only
      rw [if_pos ⟨rfl, v.log⟩]
      refine ⟨⟨v.log, v.addr.trans s2.symm⟩, ?_, Or.inl ⟨rfl, b.env.n, Nat.le_refl _, ?_, s3⟩⟩
      · show b.env.n < (answer w b.env (.setAddress t.address)).1.n
        omega
      · show b.env.n < (answer w b.env (.setAddress t.address)).1.n
        omega

theorem tuned_after (w : World) (hist : List (Target × Msg)) : Tuned (after w hist) := by
  have go : ∀ (hist : List (Target × Msg)) (b : Bus Dev), Tuned b → Tuned (hist.foldl (fun b p => (transfer (answer w) b p.1 p.2).1) b) := by
    intro hist
    induction hist with
    | nil => intro b v; exact v
    | cons p ps ih => intro b v; exact ih _ (transfer_cases w v p.1 p.2).1
  exact go hist _ ⟨rfl, rfl⟩

/-- The two bytes of a word. -/
theorem join (x : UInt16) : ((x >>> 8).toUInt8.toUInt16 <<< 8) ||| x.toUInt8.toUInt16 = x := by
  apply UInt16.toNat.inj
  have hx := x.toNat_lt
  simp only [UInt16.toNat_or, UInt16.toNat_shiftLeft, UInt8.toNat_toUInt16, UInt16.toNat_toUInt8, UInt16.toNat_shiftRight]
  have e2 : (8 : UInt16).toNat % 16 = 8 := rfl
  rw [e2, Nat.shiftRight_eq_div_pow, Nat.shiftLeft_eq, Nat.mod_eq_of_lt (a := x.toNat / 2 ^ 8 % 2 ^ 8 * 2 ^ 8) (by omega), ← Nat.shiftLeft_eq,
    ← Nat.shiftLeft_add_eq_or_of_lt (by omega), Nat.shiftLeft_eq]
  omega

theorem quiet_mono {w : World} {a b c d : Nat} (q : Quiet w a d) (h1 : a ≤ b) (h2 : c ≤ d) : Quiet w b c :=
  fun m h3 h4 => q m (by omega) (by omega)

/-- A failing request does not reach the hat. -/
theorem answer_lost (w : World) (d : Dev) (r : Req) (q : w.foreign d.n = none) (h : w.ok d.n = false) :
    answer w d r = ({ d with n := d.n + 1 }, .failed) := by
  unfold answer turn; simp [h, q]

theorem answer_read (w : World) (d : Dev) (m : Msg) (q : w.foreign d.n = none) (h : w.ok d.n = true) (ha : d.addr = w.hat) (hm : m.read = true) :
    answer w d (.transfer m) = ({ d with n := d.n + 1, low := !d.low }, .ok (block [if d.low then d.conv.toUInt8 else (d.conv >>> 8).toUInt8])) := by
  unfold answer turn; simp [h, q, ha, hm]

theorem answer_write (w : World) (d : Dev) (m : Msg) (h : w.ok d.n = true) (ha : d.addr = w.hat) (hm : m.read = false) :
    answer w d (.transfer m) = (⟨d.n + 1, d.addr, w.gray d.n m.reg, false⟩, .ok m.data) := by
  unfold answer; simp [h, turn_addr, turn_n, ha, hm]

/-- A plain read from the hat. -/
theorem read_cases (w : World) {b : Bus Dev} (v : Tuned b) (q : Quiet w b.env.n (getNoreg (answer w) b ⟨w.hat, true⟩).1.env.n) :
    Tuned (getNoreg (answer w) b ⟨w.hat, true⟩).1 ∧ b.env.n < (getNoreg (answer w) b ⟨w.hat, true⟩).1.env.n ∧
    (((getNoreg (answer w) b ⟨w.hat, true⟩).2 = none ∧ ∃ k, b.env.n ≤ k ∧ k < (getNoreg (answer w) b ⟨w.hat, true⟩).1.env.n ∧ w.ok k = false) ∨
     ((getNoreg (answer w) b ⟨w.hat, true⟩).1.env.conv = b.env.conv ∧ (getNoreg (answer w) b ⟨w.hat, true⟩).1.env.low = !b.env.low ∧
      (getNoreg (answer w) b ⟨w.hat, true⟩).2 = some (if b.env.low then b.env.conv.toUInt8 else (b.env.conv >>> 8).toUInt8))) := by
  obtain ⟨h1, h2, h3⟩ := transfer_cases w v ⟨w.hat, true⟩ ⟨true, 0, kindByte, block []⟩
  unfold getNoreg at q ⊢
  dsimp only at q ⊢
  refine ⟨h1, h2, ?_⟩
  rcases h3 with ⟨h3, k⟩ | ⟨d, data, k1, k2, k3, k4, k5, k6, k7, k8⟩
  · rw [h3]; exact Or.inl ⟨rfl, k⟩
  · right
    obtain ⟨c1, c2⟩ := k5 (quiet_mono q (Nat.le_refl _) (by omega))
    rw [answer_read w d _ (q d.n k2 (by omega)) k4 k1 rfl] at k6 k7
    cases k7
    rw [k8, k6, ← c1, ← c2]
    exact ⟨rfl, rfl, rfl⟩

/-- Reading both bytes from the beginning. -/
theorem read2_cases (w : World) {b : Bus Dev} (v : Tuned b) (hl : b.env.low = false) (q : Quiet w b.env.n (getNoreg2 (answer w) b ⟨w.hat, true⟩).1.env.n) :
    Tuned (getNoreg2 (answer w) b ⟨w.hat, true⟩).1 ∧ b.env.n < (getNoreg2 (answer w) b ⟨w.hat, true⟩).1.env.n ∧
    (((getNoreg2 (answer w) b ⟨w.hat, true⟩).2 = none ∧ ∃ k, b.env.n ≤ k ∧ k < (getNoreg2 (answer w) b ⟨w.hat, true⟩).1.env.n ∧ w.ok k = false) ∨
     (getNoreg2 (answer w) b ⟨w.hat, true⟩).2 = some b.env.conv) := by
  have n1 : (getNoreg (answer w) b ⟨w.hat, true⟩).1.env.n ≤ (getNoreg2 (answer w) b ⟨w.hat, true⟩).1.env.n := by
    have v1 := (transfer_cases w v ⟨w.hat, true⟩ ⟨true, 0, kindByte, block []⟩).1
    have a := (transfer_cases w v1 ⟨w.hat, true⟩ ⟨true, 0, kindByte, block []⟩).2.1
    unfold getNoreg2
    dsimp only
    split
    · exact Nat.le_refl _
    · split <;> exact Nat.le_of_lt a
  obtain ⟨v1, h1, h2⟩ := read_cases w v (quiet_mono q (Nat.le_refl _) n1)
  rcases h2 with ⟨h2, k, k1, k2, k3⟩ | ⟨h2, h3, h4⟩
  · have e : getNoreg2 (answer w) b ⟨w.hat, true⟩ = ((getNoreg (answer w) b ⟨w.hat, true⟩).1, none) := by
      unfold getNoreg2; dsimp only; rw [h2]
    rw [e]
    exact ⟨v1, h1, Or.inl ⟨rfl, k, k1, k2, k3⟩⟩
  · have e : (getNoreg2 (answer w) b ⟨w.hat, true⟩).1 = (getNoreg (answer w) (getNoreg (answer w) b ⟨w.hat, true⟩).1 ⟨w.hat, true⟩).1 := by
      unfold getNoreg2; dsimp only; rw [h4]; dsimp only; split <;> rfl
    obtain ⟨v2, g1, g2⟩ := read_cases w v1 (quiet_mono q (Nat.le_of_lt h1) (by rw [e]; exact Nat.le_refl _))
    rw [e]
    refine ⟨v2, by omega, ?_⟩
    rcases g2 with ⟨g2, k, k1, k2, k3⟩ | ⟨g2, g3, g4⟩
    · left
      refine ⟨?_, k, by omega, k2, k3⟩
      unfold getNoreg2; dsimp only; rw [h4]; dsimp only; rw [g2]
    · right
      unfold getNoreg2; dsimp only; rw [h4]; dsimp only; rw [g4]
      dsimp only
      rw [h2, h3, hl]
      simp only [Bool.not_false, if_true, Bool.false_eq_true, if_false, join]

/-- A word is written to the hat. -/
theorem put_cases (w : World) {b : Bus Dev} (v : Tuned b) (reg : Byte) :
    Tuned (putWord (answer w) b ⟨w.hat, true⟩ reg 0).1 ∧ b.env.n < (putWord (answer w) b ⟨w.hat, true⟩ reg 0).1.env.n ∧
    (((putWord (answer w) b ⟨w.hat, true⟩ reg 0).2 = false ∧ ∃ k, b.env.n ≤ k ∧ k < (putWord (answer w) b ⟨w.hat, true⟩ reg 0).1.env.n ∧ w.ok k = false) ∨
     ((putWord (answer w) b ⟨w.hat, true⟩ reg 0).1.env.low = false ∧ ∃ n, b.env.n ≤ n ∧ n < (putWord (answer w) b ⟨w.hat, true⟩ reg 0).1.env.n ∧
       (putWord (answer w) b ⟨w.hat, true⟩ reg 0).1.env.conv = w.gray n reg)) := by
  obtain ⟨h1, h2, h3⟩ := transfer_cases w v ⟨w.hat, true⟩ ⟨false, reg, kindWordData, block (wordBytes (if (⟨w.hat, true⟩ : Target).swap then swapBytes 0 else 0))⟩
  unfold putWord
  dsimp only
  refine ⟨h1, h2, ?_⟩
  rcases h3 with ⟨h3, k⟩ | ⟨d, data, k1, k2, k3, k4, k5, k6, k7, k8⟩
  · left; exact ⟨by rw [h3]; rfl, k⟩
  · right
    rw [answer_write w d _ k4 k1 rfl] at k6
    exact ⟨by rw [k6], d.n, k2, Nat.lt_of_lt_of_eq (Nat.lt_succ_self _) k3, by rw [k6]⟩

/-- One channel: unchanged, or converted during the call. -/
theorem one_cases (w : World) {b : Bus Dev} (v : Tuned b) (reg : Byte) (old : UInt16) (q : Quiet w b.env.n (readOne (answer w) ⟨w.hat, true⟩ reg b old).1.env.n) :
    Tuned (readOne (answer w) ⟨w.hat, true⟩ reg b old).1 ∧ b.env.n < (readOne (answer w) ⟨w.hat, true⟩ reg b old).1.env.n ∧
    ((putWord (answer w) b ⟨w.hat, true⟩ reg 0).2 = true →
      ((readOne (answer w) ⟨w.hat, true⟩ reg b old).2 = old ∧ ∃ k, b.env.n ≤ k ∧ k < (readOne (answer w) ⟨w.hat, true⟩ reg b old).1.env.n ∧ w.ok k = false) ∨
      ∃ n, b.env.n ≤ n ∧ n < (readOne (answer w) ⟨w.hat, true⟩ reg b old).1.env.n ∧ (readOne (answer w) ⟨w.hat, true⟩ reg b old).2 = w.gray n reg) ∧
    ((∀ k, b.env.n ≤ k → k < (readOne (answer w) ⟨w.hat, true⟩ reg b old).1.env.n → w.ok k = true) → (putWord (answer w) b ⟨w.hat, true⟩ reg 0).2 = true) := by
  obtain ⟨v1, h1, -⟩ := transfer_cases w v ⟨w.hat, true⟩ ⟨false, reg, kindWordData, block (wordBytes (if (⟨w.hat, true⟩ : Target).swap then swapBytes 0 else 0))⟩
  obtain ⟨v2, h2, -⟩ := transfer_cases w v1 ⟨w.hat, true⟩ ⟨true, 0, kindByte, block []⟩
  obtain ⟨v3, h3, -⟩ := transfer_cases w v2 ⟨w.hat, true⟩ ⟨true, 0, kindByte, block []⟩
  have e1 : Tuned (readOne (answer w) ⟨w.hat, true⟩ reg b old).1 ∧ (putWord (answer w) b ⟨w.hat, true⟩ reg 0).1.env.n < (readOne (answer w) ⟨w.hat, true⟩ reg b old).1.env.n := by
    unfold readOne getNoreg2
    dsimp only
    split
    · exact ⟨v2, h2⟩
    · split
      · exact ⟨v3, Nat.lt_trans h2 h3⟩
      · exact ⟨v3, Nat.lt_trans h2 h3⟩
  obtain ⟨p1, p2, p3⟩ := put_cases w v reg
  refine ⟨e1.1, Nat.lt_trans p2 e1.2, ?_, ?_⟩
  · intro hp
    rcases p3 with ⟨p3, -⟩ | ⟨p3, n, p4, p5, p6⟩
    · rw [hp] at p3; cases p3
    · obtain ⟨-, -, r3⟩ := read2_cases w p1 p3 (quiet_mono q (Nat.le_of_lt p2) (Nat.le_refl _))
      rcases r3 with ⟨r3, k, k1, k2, k3⟩ | r3
      · left
        refine ⟨?_, k, by omega, k2, k3⟩
        unfold readOne; dsimp only; rw [r3]; rfl
      · right
        refine ⟨n, p4, Nat.lt_trans p5 e1.2, ?_⟩
        unfold readOne; dsimp only; rw [r3, p6]; rfl
  · intro hk
    rcases p3 with ⟨-, k, k1, k2, k3⟩ | ⟨p3, n, p4, p5, p6⟩
    · rw [hk k k1 (Nat.lt_trans k2 e1.2)] at k3; cases k3
    · by_contra hp
      have := transfer_cases w v ⟨w.hat, true⟩ ⟨false, reg, kindWordData, block (wordBytes (if (⟨w.hat, true⟩ : Target).swap then swapBytes 0 else 0))⟩
      rcases this.2.2 with ⟨-, k, k1, k2, k3⟩ | ⟨d, data, -, -, -, -, -, -, -, k8⟩
      · rw [hk k k1 (Nat.lt_trans k2 e1.2)] at k3; cases k3
      · apply hp
        unfold putWord
        dsimp only
        rw [k8]; rfl

/-- What the call says about a channel is right: the variable is as it was, or shows what the channel delivered at some moment of the
call. -/
def Honest (w : World) (n n' : Nat) (reg : Byte) (old new : UInt16) : Prop := new = old ∨ ∃ m, n ≤ m ∧ m < n' ∧ new = w.gray m reg

theorem one_mono (w : World) {b : Bus Dev} (v : Tuned b) (reg : Byte) (old : UInt16) : Tuned (readOne (answer w) ⟨w.hat, true⟩ reg b old).1 ∧
    b.env.n < (readOne (answer w) ⟨w.hat, true⟩ reg b old).1.env.n := by
  obtain ⟨v1, h1, -⟩ := transfer_cases w v ⟨w.hat, true⟩ ⟨false, reg, kindWordData, block (wordBytes (if (⟨w.hat, true⟩ : Target).swap then swapBytes 0 else 0))⟩
  obtain ⟨v2, h2, -⟩ := transfer_cases w v1 ⟨w.hat, true⟩ ⟨true, 0, kindByte, block []⟩
  obtain ⟨v3, h3, -⟩ := transfer_cases w v2 ⟨w.hat, true⟩ ⟨true, 0, kindByte, block []⟩
  unfold readOne getNoreg2
  dsimp only
  split
  · exact ⟨v2, Nat.lt_trans h1 h2⟩
  · split <;> exact ⟨v3, Nat.lt_trans h1 (Nat.lt_trans h2 h3)⟩

theorem values_cases (w : World) {b b1 b2 b3 : Bus Dev} {r1 r2 r3 : Byte} {u1 u2 u3 x1 x2 x3 : UInt16} (t : Tuned b)
    (e1 : readOne (answer w) ⟨w.hat, true⟩ r1 b u1 = (b1, x1)) (e2 : readOne (answer w) ⟨w.hat, true⟩ r2 b1 u2 = (b2, x2))
    (e3 : readOne (answer w) ⟨w.hat, true⟩ r3 b2 u3 = (b3, x3)) (q : Quiet w b.env.n b3.env.n) :
    ((putWord (answer w) b ⟨w.hat, true⟩ r1 0).2 = true → (putWord (answer w) b1 ⟨w.hat, true⟩ r2 0).2 = true →
      (putWord (answer w) b2 ⟨w.hat, true⟩ r3 0).2 = true →
      Honest w b.env.n b3.env.n r1 u1 x1 ∧ Honest w b.env.n b3.env.n r2 u2 x2 ∧ Honest w b.env.n b3.env.n r3 u3 x3) ∧
    ((∀ n, b.env.n ≤ n → n < b3.env.n → w.ok n = true) →
      ∃ n1 n2 n3, b.env.n ≤ n1 ∧ n1 < n2 ∧ n2 < n3 ∧ n3 < b3.env.n ∧ x1 = w.gray n1 r1 ∧ x2 = w.gray n2 r2 ∧ x3 = w.gray n3 r3) := by
  have m1 := one_mono w t r1 u1
  rw [e1] at m1
  have m2 := one_mono w m1.1 r2 u2
  rw [e2] at m2
  have m3 := one_mono w m2.1 r3 u3
  rw [e3] at m3
  dsimp only at m1 m2 m3
  have l1 := m1.2
  have l2 := m2.2
  have l3 := m3.2
  have a := one_cases w t r1 u1 (by rw [e1]; exact quiet_mono q (Nat.le_refl _) (by dsimp only; omega))
  have c := one_cases w m1.1 r2 u2 (by rw [e2]; exact quiet_mono q (by omega) (by dsimp only; omega))
  have d := one_cases w m2.1 r3 u3 (by rw [e3]; exact quiet_mono q (by omega) (by dsimp only; omega))
  rw [e1] at a
  rw [e2] at c
  rw [e3] at d
  obtain ⟨-, -, a3, a4⟩ := a
  obtain ⟨-, -, c3, c4⟩ := c
  obtain ⟨-, -, d3, d4⟩ := d
  dsimp only at a3 a4 c3 c4 d3 d4
  constructor
  · intro p1 p2 p3
    refine ⟨?_, ?_, ?_⟩
    · rcases a3 p1 with ⟨x, -⟩ | ⟨n, y1, y2, y3⟩
      · exact Or.inl x
      · exact Or.inr ⟨n, y1, by omega, y3⟩
    · rcases c3 p2 with ⟨x, -⟩ | ⟨n, y1, y2, y3⟩
      · exact Or.inl x
      · exact Or.inr ⟨n, by omega, by omega, y3⟩
    · rcases d3 p3 with ⟨x, -⟩ | ⟨n, y1, y2, y3⟩
      · exact Or.inl x
      · exact Or.inr ⟨n, by omega, by omega, y3⟩
  · intro hk
    rcases a3 (a4 fun k h1 h2 => hk k h1 (by omega)) with ⟨-, k, k1, k2, k3⟩ | ⟨n1, y1, y2, y3⟩
    · rw [hk k k1 (by omega)] at k3; cases k3
    rcases c3 (c4 fun k h1 h2 => hk k (by omega) (by omega)) with ⟨-, k, k1, k2, k3⟩ | ⟨n2, z1, z2, z3⟩
    · rw [hk k (by omega) (by omega)] at k3; cases k3
    rcases d3 (d4 fun k h1 h2 => hk k (by omega) (by omega)) with ⟨-, k, k1, k2, k3⟩ | ⟨n3, t1, t2, t3⟩
    · rw [hk k (by omega) (by omega)] at k3; cases k3
    exact ⟨n1, n2, n3, y1, by omega, by omega, by omega, y3, z3, t3⟩

/-- **C126**, the full statement: whatever happened on the bus before and whichever requests fail, each of the three variables is as it was
or shows its own channel. -/
def C126Full : Prop := ∀ (w : World) (hist : List (Target × Msg)) (regs : Byte × Byte × Byte) (v : Vals),
  let r := getValues (answer w) ⟨w.hat, true⟩ regs (after w hist) v
  Honest w (after w hist).env.n r.1.env.n regs.1 v.left r.2.left ∧ Honest w (after w hist).env.n r.1.env.n regs.2.1 v.center r.2.center ∧
    Honest w (after w hist).env.n r.1.env.n regs.2.2 v.right r.2.right

/-- **C126**, proved part: it holds, for a bus with a log, if no other thread uses the hat during the call and the three requests that choose
a channel succeed; the requests that read may fail.  If no request fails, all three variables show their channels, left before center
before right.  Missing: `C126_violated_stale`, `C126_violated_swapped`, `C126_violated_threads`, `C126_violated_log`. -/
theorem C126_reading_partial (w : World) (hist : List (Target × Msg)) (regs : Byte × Byte × Byte) (v : Vals)
    (b1 b2 b3 : Bus Dev) (x1 x2 x3 : UInt16) (e1 : readOne (answer w) ⟨w.hat, true⟩ regs.1 (after w hist) v.left = (b1, x1))
    (e2 : readOne (answer w) ⟨w.hat, true⟩ regs.2.1 b1 v.center = (b2, x2)) (e3 : readOne (answer w) ⟨w.hat, true⟩ regs.2.2 b2 v.right = (b3, x3))
    (q : ∀ n, (after w hist).env.n ≤ n → n < b3.env.n → w.foreign n = none) :
    getValues (answer w) ⟨w.hat, true⟩ regs (after w hist) v = (b3, ⟨x1, x2, x3⟩) ∧
    ((putWord (answer w) (after w hist) ⟨w.hat, true⟩ regs.1 0).2 = true → (putWord (answer w) b1 ⟨w.hat, true⟩ regs.2.1 0).2 = true →
      (putWord (answer w) b2 ⟨w.hat, true⟩ regs.2.2 0).2 = true →
      Honest w (after w hist).env.n b3.env.n regs.1 v.left x1 ∧ Honest w (after w hist).env.n b3.env.n regs.2.1 v.center x2 ∧
        Honest w (after w hist).env.n b3.env.n regs.2.2 v.right x3) ∧
    ((∀ n, (after w hist).env.n ≤ n → n < b3.env.n → w.ok n = true) →
      ∃ n1 n2 n3, (after w hist).env.n ≤ n1 ∧ n1 < n2 ∧ n2 < n3 ∧ n3 < b3.env.n ∧
        x1 = w.gray n1 regs.1 ∧ x2 = w.gray n2 regs.2.1 ∧ x3 = w.gray n3 regs.2.2) := by
  refine ⟨?_, values_cases w (tuned_after w hist) e1 e2 e3 q⟩
  unfold getValues
  dsimp only
  rw [e1]
  dsimp only
  rw [e2]
  dsimp only
  rw [e3]

/-! ## What goes wrong -/

/-- A request on a bus that already has the address of the hat. -/
theorem transfer_hat (w : World) {b : Bus Dev} (v : Tuned b) (h : b.addr = w.hat) (m : Msg) :
    (transfer (answer w) b ⟨w.hat, true⟩ m).1.env = (answer w b.env (.transfer m)).1 ∧ Tuned (transfer (answer w) b ⟨w.hat, true⟩ m).1 ∧
    (transfer (answer w) b ⟨w.hat, true⟩ m).1.addr = w.hat ∧
    (transfer (answer w) b ⟨w.hat, true⟩ m).2 = (match (answer w b.env (.transfer m)).2 with | .ok data => some data | _ => none) := by
  have e : ensureAddress (answer w) b w.hat = (b, true) := by
    unfold ensureAddress; rw [if_pos ⟨h, v.log⟩]
  have ha := answer_addr w b.env m
  cases hk : w.ok b.env.n with
  | false =>
    have e2 : (answer w b.env (.transfer m)).2 = .failed := by unfold answer; simp [hk]
    unfold transfer
    dsimp only
    rw [e]
    dsimp only
    rw [if_neg (by simp)]
    have e3 : ioctlTransfer (answer w) b m = ({ b with env := (answer w b.env (.transfer m)).1 }, -1, m.data) := by
      unfold ioctlTransfer; dsimp only; rw [e2]; rfl
    rw [e3, e2]
    dsimp only
    rw [if_pos ⟨by decide, v.log⟩]
    exact ⟨rfl, ⟨v.log, v.addr.trans ha.symm⟩, h, rfl⟩
  | true =>
    have e2 : ∃ data, (answer w b.env (.transfer m)).2 = .ok data := by
      unfold answer
      dsimp only
      rw [if_neg (by simp [hk])]
      split
      · exact ⟨_, rfl⟩
      · split <;> exact ⟨_, rfl⟩
    obtain ⟨data, e2⟩ := e2
    unfold transfer
    dsimp only
    rw [e]
    dsimp only
    rw [if_neg (by simp)]
    have e3 : ioctlTransfer (answer w) b m = ({ b with env := (answer w b.env (.transfer m)).1, done := b.done ++ [(b.kernelAddr, m)] }, 0, data) := by
      unfold ioctlTransfer; dsimp only; rw [e2]
    rw [e3, e2]
    dsimp only
    rw [if_neg (by simp)]
    exact ⟨rfl, ⟨v.log, v.addr.trans ha.symm⟩, h, rfl⟩

/-- The bus has the address of the hat and its hat is in state `d`. -/
structure On (w : World) (b : Bus Dev) (d : Dev) : Prop where
  tuned : Tuned b
  addr : b.addr = w.hat
  env : b.env = d

theorem On.hat {w : World} {b : Bus Dev} {d : Dev} (o : On w b d) : d.addr = w.hat := by
  rw [← o.env, ← o.tuned.addr, o.addr]

theorem put_on {w : World} {b : Bus Dev} {d : Dev} (o : On w b d) (reg : Byte) (q : w.foreign d.n = none) :
    (w.ok d.n = true → On w (putWord (answer w) b ⟨w.hat, true⟩ reg 0).1 ⟨d.n + 1, d.addr, w.gray d.n reg, false⟩) ∧
    (w.ok d.n = false → On w (putWord (answer w) b ⟨w.hat, true⟩ reg 0).1 { d with n := d.n + 1 }) := by
  obtain ⟨t1, t2, t3, -⟩ := transfer_hat w o.tuned o.addr ⟨false, reg, kindWordData, block (wordBytes (if (⟨w.hat, true⟩ : Target).swap then swapBytes 0 else 0))⟩
  rw [o.env] at t1
  constructor
  · intro h
    rw [answer_write w d _ h o.hat rfl] at t1
    exact ⟨t2, t3, t1⟩
  · intro h
    rw [answer_lost w d _ q h] at t1
    exact ⟨t2, t3, t1⟩

theorem read_on {w : World} {b : Bus Dev} {d : Dev} (o : On w b d) (q : w.foreign d.n = none) :
    (w.ok d.n = true → On w (getNoreg (answer w) b ⟨w.hat, true⟩).1 { d with n := d.n + 1, low := !d.low } ∧
      (getNoreg (answer w) b ⟨w.hat, true⟩).2 = some (if d.low then d.conv.toUInt8 else (d.conv >>> 8).toUInt8)) ∧
    (w.ok d.n = false → On w (getNoreg (answer w) b ⟨w.hat, true⟩).1 { d with n := d.n + 1 } ∧ (getNoreg (answer w) b ⟨w.hat, true⟩).2 = none) := by
  obtain ⟨t1, t2, t3, t4⟩ := transfer_hat w o.tuned o.addr ⟨true, 0, kindByte, block []⟩
  rw [o.env] at t1 t4
  unfold getNoreg
  dsimp only
  constructor
  · intro h
    rw [answer_read w d _ q h o.hat rfl] at t1 t4
    exact ⟨⟨t2, t3, t1⟩, by rw [t4]; rfl⟩
  · intro h
    rw [answer_lost w d _ q h] at t1 t4
    exact ⟨⟨t2, t3, t1⟩, by rw [t4]; rfl⟩

/-- Both bytes are read, whichever is first. -/
theorem read2_on {w : World} {b : Bus Dev} {d : Dev} (o : On w b d) (q0 : w.foreign d.n = none) (q1 : w.foreign (d.n + 1) = none) (h0 : w.ok d.n = true)
    (h1 : w.ok (d.n + 1) = true) :
    (getNoreg2 (answer w) b ⟨w.hat, true⟩).2 = some (if d.low then (d.conv.toUInt8.toUInt16 <<< 8) ||| (d.conv >>> 8).toUInt8.toUInt16 else d.conv) ∧
    On w (getNoreg2 (answer w) b ⟨w.hat, true⟩).1 { d with n := d.n + 2 } := by
  obtain ⟨o1, e1⟩ := (read_on o q0).1 h0
  obtain ⟨o2, e2⟩ := (read_on o1 q1).1 h1
  unfold getNoreg2
  dsimp only
  rw [e1]
  dsimp only
  rw [e2]
  dsimp only
  constructor
  · cases d.low
    · simp only [Bool.not_false, if_true, Bool.false_eq_true, if_false, join]
    · simp only [Bool.not_true, if_true, Bool.false_eq_true, if_false]
  · have : ({ d with n := d.n + 2 } : Dev) = ⟨d.n + 1 + 1, d.addr, d.conv, !(!d.low)⟩ := by simp
    rw [this]; exact o2

/-- The request that chooses the center channel fails and all others succeed: the variable for the center shows the left channel.  For every
world, every bus that last spoke to the hat, and whatever the center would have delivered. -/
theorem C126_violated_stale (w : World) {b : Bus Dev} (t : Tuned b) (ha : b.addr = w.hat) (regs : Byte × Byte × Byte) (v : Vals)
    (q : ∀ k, k < 6 → w.foreign (b.env.n + k) = none) (h : ∀ k, k < 6 → w.ok (b.env.n + k) = (k != 3)) :
    (getValues (answer w) ⟨w.hat, true⟩ regs b v).2.left = w.gray b.env.n regs.1 ∧
    (getValues (answer w) ⟨w.hat, true⟩ regs b v).2.center = w.gray b.env.n regs.1 := by
  have o : On w b b.env := ⟨t, ha, rfl⟩
  have o1 := (put_on o regs.1 (q 0 (by decide))).1 (h 0 (by decide))
  obtain ⟨e1, o2⟩ := read2_on o1 (q 1 (by decide)) (q 2 (by decide)) (h 1 (by decide)) (h 2 (by decide))
  have o3 := (put_on o2 regs.2.1 (q 3 (by decide))).2 (h 3 (by decide))
  obtain ⟨e2, o4⟩ := read2_on o3 (q 4 (by decide)) (q 5 (by decide)) (h 4 (by decide)) (h 5 (by decide))
  unfold getValues
  dsimp only
  constructor
  · unfold readOne; dsimp only; rw [e1]; rfl
  · unfold readOne
    dsimp only
    rw [e2]
    rfl

/-- The second byte of the left channel is not read and the center is not chosen: the variable for the center shows the two bytes of the
left channel in the wrong order. -/
theorem C126_violated_swapped (w : World) {b : Bus Dev} (t : Tuned b) (ha : b.addr = w.hat) (regs : Byte × Byte × Byte) (v : Vals)
    (q : ∀ k, k < 6 → w.foreign (b.env.n + k) = none) (h : ∀ k, k < 6 → w.ok (b.env.n + k) = (k != 2 && k != 3)) :
    (getValues (answer w) ⟨w.hat, true⟩ regs b v).2.left = v.left ∧
    (getValues (answer w) ⟨w.hat, true⟩ regs b v).2.center =
      ((w.gray b.env.n regs.1).toUInt8.toUInt16 <<< 8) ||| (w.gray b.env.n regs.1 >>> 8).toUInt8.toUInt16 := by
  have o : On w b b.env := ⟨t, ha, rfl⟩
  have o1 := (put_on o regs.1 (q 0 (by decide))).1 (h 0 (by decide))
  obtain ⟨o2, e2⟩ := (read_on o1 (q 1 (by decide))).1 (h 1 (by decide))
  obtain ⟨o3, e3⟩ := (read_on o2 (q 2 (by decide))).2 (h 2 (by decide))
  have g : getNoreg2 (answer w) (putWord (answer w) b ⟨w.hat, true⟩ regs.1 0).1 ⟨w.hat, true⟩ =
      ((getNoreg (answer w) (getNoreg (answer w) (putWord (answer w) b ⟨w.hat, true⟩ regs.1 0).1 ⟨w.hat, true⟩).1 ⟨w.hat, true⟩).1, none) := by
    unfold getNoreg2; dsimp only; rw [e2]; dsimp only; rw [e3]
  have o4 := (put_on o3 regs.2.1 (q 3 (by decide))).2 (h 3 (by decide))
  obtain ⟨e5, -⟩ := read2_on o4 (q 4 (by decide)) (q 5 (by decide)) (h 4 (by decide)) (h 5 (by decide))
  unfold getValues
  dsimp only
  have l : readOne (answer w) ⟨w.hat, true⟩ regs.1 b v.left =
      ((getNoreg (answer w) (getNoreg (answer w) (putWord (answer w) b ⟨w.hat, true⟩ regs.1 0).1 ⟨w.hat, true⟩).1 ⟨w.hat, true⟩).1, v.left) := by
    unfold readOne; dsimp only; rw [g]; rfl
  rw [l]
  dsimp only
  constructor
  · rfl
  · unfold readOne
    dsimp only
    rw [e5]
    rfl

/-- Another thread writes to a register of the hat (as every command to a motor or servo does) between the choice of the left channel
and the first byte: the variable for the left channel shows that register.  No request fails. -/
theorem C126_violated_threads (w : World) {b : Bus Dev} (t : Tuned b) (ha : b.addr = w.hat) (regs : Byte × Byte × Byte) (v : Vals) (reg : Byte)
    (q0 : w.foreign b.env.n = none) (q1 : w.foreign (b.env.n + 1) = some reg) (q2 : w.foreign (b.env.n + 2) = none)
    (h : ∀ k, k < 3 → w.ok (b.env.n + k) = true) :
    (getValues (answer w) ⟨w.hat, true⟩ regs b v).2.left = w.gray (b.env.n + 1) reg := by
  have o : On w b b.env := ⟨t, ha, rfl⟩
  have o1 := (put_on o regs.1 q0).1 (h 0 (by decide))
  obtain ⟨t1, t2, t3, t4⟩ := transfer_hat w o1.tuned o1.addr ⟨true, 0, kindByte, block []⟩
  rw [o1.env] at t1 t4
  have e : answer w ⟨b.env.n + 1, b.env.addr, w.gray b.env.n regs.1, false⟩ (.transfer ⟨true, 0, kindByte, block []⟩) =
      (⟨b.env.n + 1 + 1, b.env.addr, w.gray (b.env.n + 1) reg, true⟩, .ok (block [(w.gray (b.env.n + 1) reg >>> 8).toUInt8])) := by
    unfold answer turn; simp [q1, h 1 (by decide), o.hat]
  rw [e] at t1 t4
  have o2 : On w (getNoreg (answer w) (putWord (answer w) b ⟨w.hat, true⟩ regs.1 0).1 ⟨w.hat, true⟩).1
    ⟨b.env.n + 1 + 1, b.env.addr, w.gray (b.env.n + 1) reg, true⟩ := ⟨t2, t3, t1⟩
  obtain ⟨-, e3⟩ := (read_on o2 q2).1 (h 2 (by decide))
  have e2 : (getNoreg (answer w) (putWord (answer w) b ⟨w.hat, true⟩ regs.1 0).1 ⟨w.hat, true⟩).2 = some (w.gray (b.env.n + 1) reg >>> 8).toUInt8 := by
    unfold getNoreg; dsimp only; rw [t4]; rfl
  unfold getValues readOne getNoreg2
  dsimp only
  rw [e2]
  dsimp only
  rw [e3]
  simp only [if_true, Option.getD_some, join]

/-- A world in which the channels deliver different values. -/
def demo (ok : Nat → Bool) (foreign : Nat → Option Byte) : World :=
  ⟨0x14, ok, fun n r => 256 * r.toUInt16 + UInt16.ofNat n, foreign, fun _ => []⟩

/-- An earlier request to the hat. -/
def demoHist : List (Target × Msg) := [(⟨0x68, true⟩, ⟨false, 0x6b, 2, block [0]⟩), (⟨0x14, true⟩, ⟨false, 0x20, 3, block [1, 2]⟩)]

/-- A case of `C126_reading_partial`, with a reading that fails. -/
example : let w := demo (fun n => n != 8) (fun _ => none)
    (getValues (answer w) ⟨0x14, true⟩ (0x12, 0x11, 0x10) (after w demoHist) ⟨7, 8, 9⟩).2 = ⟨0x1204, 8, 0x1009⟩ := by decide +kernel

example : let w := demo (fun n => n != 8) (fun _ => none)
    (∀ n, w.foreign n = none) ∧ (putWord (answer w) (after w demoHist) ⟨0x14, true⟩ 0x12 0).2 = true ∧
    (putWord (answer w) (readOne (answer w) ⟨0x14, true⟩ 0x12 (after w demoHist) 7).1 ⟨0x14, true⟩ 0x11 0).2 = true ∧
    (putWord (answer w) (readOne (answer w) ⟨0x14, true⟩ 0x11 (readOne (answer w) ⟨0x14, true⟩ 0x12 (after w demoHist) 7).1 8).1 ⟨0x14, true⟩ 0x10 0).2 = true :=
  ⟨fun _ => rfl, by decide +kernel, by decide +kernel, by decide +kernel⟩

example : let w := demo (fun _ => true) (fun _ => none)
    (getValues (answer w) ⟨0x14, true⟩ (0x12, 0x11, 0x10) (after w demoHist) ⟨7, 8, 9⟩).2 = ⟨0x1204, 0x1107, 0x100a⟩ := by decide +kernel

/-- Cases of the violations. -/
example : (after (demo (fun n => n != 7) (fun _ => none)) demoHist).env.n = 4 ∧ (after (demo (fun n => n != 7) (fun _ => none)) demoHist).addr = 0x14 ∧
    (∀ k, k < 6 → (demo (fun n => n != 7) (fun _ => none)).ok (4 + k) = (k != 3)) ∧
    (∀ k, k < 6 → (demo (fun n => n != 6 && n != 7) (fun _ => none)).ok (4 + k) = (k != 2 && k != 3)) := by decide +kernel

/-- The motors at register `0x20` are set while the left channel is read. -/
example : let w := demo (fun _ => true) (fun n => if n = 5 then some 0x20 else none)
    (getValues (answer w) ⟨0x14, true⟩ (0x12, 0x11, 0x10) (after w demoHist) ⟨7, 8, 9⟩).2 = ⟨0x2005, 0x1107, 0x100a⟩ := by decide +kernel

theorem C126_violated : ¬ C126Full := by
  intro h
  have r := (h (demo (fun n => n != 7) (fun _ => none)) demoHist (0x12, 0x11, 0x10) ⟨7, 8, 9⟩).2.1
  have e : (getValues (answer (demo (fun n => n != 7) (fun _ => none))) ⟨(demo (fun n => n != 7) (fun _ => none)).hat, true⟩ (0x12, 0x11, 0x10)
      (after (demo (fun n => n != 7) (fun _ => none)) demoHist) ⟨7, 8, 9⟩).2.center = 0x1204 := by decide +kernel
  have e2 : (getValues (answer (demo (fun n => n != 7) (fun _ => none))) ⟨(demo (fun n => n != 7) (fun _ => none)).hat, true⟩ (0x12, 0x11, 0x10)
      (after (demo (fun n => n != 7) (fun _ => none)) demoHist) ⟨7, 8, 9⟩).1.env.n = 13 := by decide +kernel
  rw [e, e2] at r
  rcases r with r | ⟨m, -, m2, m3⟩
  · exact absurd r (by decide)
  · have : ∀ m, m < 13 → (0x1204 : UInt16) ≠ (demo (fun n => n != 7) (fun _ => none)).gray m 0x11 := by decide +kernel
    exact this m m2 m3

/-- Without a log a byte that is not read counts as 0, and the channel shows its high byte as the low one. -/
theorem C126_violated_log : let w := demo (fun n => n != 3) (fun _ => none)
    (getValues (answer w) ⟨0x14, true⟩ (0x12, 0x11, 0x10) ⟨0, false, Dev.init, 0, []⟩ ⟨7, 8, 9⟩).2.left = 0x12 ∧ w.gray 1 0x12 = 0x1201 := by decide +kernel

end Abc.Gpio.Grayscale
