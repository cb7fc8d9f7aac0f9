import Verif.Gpio.Motion
import Verif.Smbus.Props
import Mathlib.Tactic.ByContra
import Mathlib.Data.Rat.Floor

/-!
# Readings (C75) and calibration (C74) of the motion sensor
-/

namespace Abc.Gpio.Motion

open Abc.Ascii Abc.Smbus

/-! ## Transfers that succeed -/

/-- All requests succeed. -/
def World.Fine (w : World) : Prop := ∀ n, w.ok n = true

theorem transfer_fine {w : World} (hw : w.Fine) (b : Bus Dev) (t : Target) (m : Msg) :
    ∃ d : Dev, (d.regs = b.env.regs ∧ b.env.n ≤ d.n ∧ d.n ≤ b.env.n + 1) ∧
      (transfer (answer w) b t m).1.env = (answer w d (.transfer m)).1 ∧
      ∃ data, (answer w d (.transfer m)).2 = .ok data ∧ (transfer (answer w) b t m).2 = some data := by
  have hok : ∀ d : Dev, ∃ data, (answer w d (.transfer m)).2 = .ok data := by
    intro d
    unfold answer
    dsimp only
    rw [if_neg (by rw [hw]; decide)]
    split
    · exact ⟨_, rfl⟩
    · exact ⟨_, rfl⟩
  have hgo : ∀ b' : Bus Dev, (if (ioctlTransfer (answer w) b' m).2.1 < 0 ∧ b.log = true then
        ((ioctlTransfer (answer w) b' m).1, none)
      else ((ioctlTransfer (answer w) b' m).1, some (ioctlTransfer (answer w) b' m).2.2)) =
      ((ioctlTransfer (answer w) b' m).1, some (ioctlTransfer (answer w) b' m).2.2) ∧
      (ioctlTransfer (answer w) b' m).1.env = (answer w b'.env (.transfer m)).1 ∧
      ∃ data, (answer w b'.env (.transfer m)).2 = .ok data ∧
        (ioctlTransfer (answer w) b' m).2.2 = data := by
    intro b'
    obtain ⟨data, hd⟩ := hok b'.env
    have e : ioctlTransfer (answer w) b' m = ({ b' with
        env := (answer w b'.env (.transfer m)).1, done := b'.done ++ [(b'.kernelAddr, m)] }, 0, data) := by
      unfold ioctlTransfer
      dsimp only
      rw [hd]
    rw [e]
    refine ⟨?_, rfl, data, hd, rfl⟩
    rw [if_neg]
    rintro ⟨h, -⟩
    exact absurd (show (0 : Int) < 0 from h) (by decide)
  unfold transfer
  dsimp only
  by_cases h : b.addr = t.address ∧ b.log = true
  · have e : ensureAddress (answer w) b t.address = (b, true) := by
      unfold ensureAddress; rw [if_pos h]
    rw [e]
    dsimp only
    rw [if_neg (by rintro ⟨h, -⟩; cases h)]
    obtain ⟨h1, h2, data, h3, h4⟩ := hgo b
    rw [h1]
    exact ⟨b.env, ⟨rfl, by omega, by omega⟩, h2, data, h3, by rw [h4]⟩
  · have e : ∃ b', ensureAddress (answer w) b t.address = (b', true) ∧
        b'.env = { b.env with n := b.env.n + 1 } := by
      unfold ensureAddress
      rw [if_neg h]
      dsimp only
      have hc : (ioctlAddress (answer w) b t.address).2 = 0 := by
        unfold ioctlAddress answer
        dsimp only
        rw [if_pos (hw _)]; rfl
      rw [if_neg (by rw [hc]; rintro ⟨h, -⟩; exact absurd h (by decide))]
      refine ⟨_, rfl, rfl⟩
    obtain ⟨b', e1, e2⟩ := e
    rw [e1]
    dsimp only
    rw [if_neg (by rintro ⟨h, -⟩; cases h)]
    obtain ⟨h1, h2, data, h3, h4⟩ := hgo b'
    rw [h1]
    exact ⟨b'.env, ⟨by rw [e2], by rw [e2]; dsimp only; omega, by rw [e2]⟩, h2, data, h3, by rw [h4]⟩

theorem bytes_swap (k : Nat) (hk : k < 65536) :
    (k % 256 * 256 + k / 256) % 256 * 256 + (k % 256 * 256 + k / 256) / 256 = k := by
  have h1 : k / 256 < 256 := by omega
  have h2 : k % 256 < 256 := by omega
  have h3 : 256 * (k / 256) + k % 256 = k := Nat.div_add_mod k 256
  generalize k / 256 = q at *
  generalize k % 256 = r at *
  have h4 : (r * 256 + q) % 256 = q := by omega
  have h5 : (r * 256 + q) / 256 = r := by omega
  rw [h4, h5, Nat.mul_comm]
  exact h3

theorem word_wire (n : Int) (rest : List Byte) :
    (swapBytes (wordOf (wireBytes n ++ rest))).toNat = (n % 65536).toNat := by
  have hk : (n % 65536).toNat < 65536 := by omega
  rw [swap_toNat]
  unfold wordOf wireBytes
  generalize (n % 65536).toNat = k at hk
  simp only [List.cons_append, List.getD_cons_zero, List.getD_cons_succ, UInt16.toNat_or,
    UInt16.toNat_shiftLeft, UInt8.toNat_toUInt16, UInt8.toNat_ofNat']
  have e2 : (8 : UInt16).toNat % 16 = 8 := rfl
  rw [e2, Nat.shiftLeft_eq, Nat.mod_eq_of_lt (a := k % 256 % 2 ^ 8 * 2 ^ 8) (by omega)]
  rw [Nat.or_comm, ← Nat.shiftLeft_eq, ← Nat.shiftLeft_add_eq_or_of_lt (by omega), Nat.shiftLeft_eq]
  have e : k % 256 % 2 ^ 8 * 2 ^ 8 + k / 256 % 2 ^ 8 = k % 256 * 256 + k / 256 := by omega
  have e4 := bytes_swap k hk
  rw [← e] at e4
  exact e4

theorem raw_range (w : World) (d : Dev) (c : Channel) : -32768 ≤ raw w d c ∧ raw w d c ≤ 32767 := by
  unfold raw
  split
  · omega
  · unfold clamp; omega

theorem find_reg (c : Channel) : channels.find? (fun c' => c'.reg == c.reg) = some c := by
  cases c <;> decide

/-- The device between two requests. -/
def Between (b b' : Bus Dev) (d : Dev) : Prop :=
  d.regs = b.env.regs ∧ b.env.n ≤ d.n ∧ d.n < b'.env.n

theorem getWord_fine {w : World} (hw : w.Fine) (b : Bus Dev) (a : Nat) (c : Channel) :
    ∃ (d : Dev) (wd : UInt16), (getWord (answer w) b ⟨a, true⟩ c.reg).2 = some wd ∧
      i16 wd.toNat = raw w d c ∧
      (getWord (answer w) b ⟨a, true⟩ c.reg).1.env.regs = b.env.regs ∧
      Between b (getWord (answer w) b ⟨a, true⟩ c.reg).1 d := by
  obtain ⟨d, ⟨h1, h2, h3⟩, h4, data, h5, h6⟩ :=
    transfer_fine hw b ⟨a, true⟩ ⟨true, c.reg, kindWordData, block []⟩
  have e : answer w d (.transfer ⟨true, c.reg, kindWordData, block []⟩) =
      ({ d with n := d.n + 1 }, .ok (block (wireBytes (raw w d c)))) := by
    unfold answer
    dsimp only
    rw [if_neg (by rw [hw]; decide), if_pos rfl, find_reg]
  rw [e] at h4 h5
  cases h5
  unfold getWord
  dsimp only
  rw [h6]
  refine ⟨d, swapBytes (wordOf (block (wireBytes (raw w d c)))), rfl, ?_, ?_, ?_⟩
  · unfold block
    rw [word_wire]
    have := raw_range w d c
    unfold i16
    omega
  · rw [h4]; exact h1
  · refine ⟨h1, h2, ?_⟩
    rw [h4]
    exact Nat.lt_succ_self _

theorem readFrom_fine {w : World} (hw : w.Fine) (a : Nat) (mask : Nat) : ∀ (cs : List Channel)
    (b : Bus Dev) (temp : Option UInt16) (m : Meas), cs.Nodup →
    ∃ m', (readFrom (answer w) ⟨a, true⟩ mask cs b temp m).2 = some m' ∧
      (readFrom (answer w) ⟨a, true⟩ mask cs b temp m).1.env.regs = b.env.regs ∧
      b.env.n ≤ (readFrom (answer w) ⟨a, true⟩ mask cs b temp m).1.env.n ∧
      (∀ c, c ∈ cs → mask &&& c.bit ≠ 0 → ∃ d,
        Between b (readFrom (answer w) ⟨a, true⟩ mask cs b temp m).1 d ∧ m' c = raw w d c) ∧
      (∀ c, c ∉ cs ∨ mask &&& c.bit = 0 → m' c = m c) := by
  intro cs
  induction cs with
  | nil =>
    intro b temp m _
    exact ⟨m, rfl, rfl, le_refl _, by simp, by simp⟩
  | cons c cs ih =>
    intro b temp m hnd
    obtain ⟨hc, hnd⟩ := List.nodup_cons.mp hnd
    unfold readFrom
    by_cases hb : mask &&& c.bit = 0
    · rw [if_pos hb]
      obtain ⟨m', h1, h2, h3, h4, h5⟩ := ih b temp m hnd
      refine ⟨m', h1, h2, h3, ?_, ?_⟩
      · intro c' hc' hm
        rcases List.mem_cons.mp hc' with rfl | hc'
        · exact absurd hb hm
        · exact h4 c' hc' hm
      · intro c' hc'
        apply h5
        rcases hc' with hc' | hc'
        · exact Or.inl (fun h => hc' (List.mem_cons_of_mem _ h))
        · exact Or.inr hc'
    · rw [if_neg hb]
      dsimp only
      obtain ⟨d, wd, g1, g2, g3, g4⟩ := getWord_fine hw b a c
      rw [g1]
      rw [show (some wd <|> temp) = some wd from rfl]
      dsimp only
      obtain ⟨m', h1, h2, h3, h4, h5⟩ := ih (getWord (answer w) b ⟨a, true⟩ c.reg).1 (some wd)
        (fun c' => if c' = c then i16 wd.toNat else m c') hnd
      refine ⟨m', h1, h2.trans g3, ?_, ?_, ?_⟩
      · have := g4.2.1
        have := g4.2.2
        omega
      · intro c' hc' hm
        rcases List.mem_cons.mp hc' with rfl | hc'
        · refine ⟨d, ⟨g4.1, g4.2.1, lt_of_lt_of_le g4.2.2 h3⟩, ?_⟩
          rw [h5 c' (Or.inl hc), if_pos rfl, g2]
        · obtain ⟨d', ⟨k1, k2, k3⟩, k4⟩ := h4 c' hc' hm
          refine ⟨d', ⟨k1.trans g3, ?_, k3⟩, k4⟩
          have := g4.2.1
          have := g4.2.2
          omega
      · intro c' hc'
        have hne : c' ≠ c := by
          rintro rfl
          rcases hc' with hc' | hc'
          · exact hc' (List.mem_cons_self ..)
          · exact hb hc'
        rw [h5 c' (by
          rcases hc' with hc' | hc'
          · exact Or.inl (fun h => hc' (List.mem_cons_of_mem _ h))
          · exact Or.inr hc'), if_neg hne]

theorem mem_channels (c : Channel) : c ∈ channels := by cases c <;> decide

theorem getMeasurements_fine {w : World} (hw : w.Fine) (a : Nat) (mask : Nat) (b : Bus Dev) :
    ∃ m', (getMeasurements (answer w) ⟨a, true⟩ mask b).2 = some m' ∧
      (getMeasurements (answer w) ⟨a, true⟩ mask b).1.env.regs = b.env.regs ∧
      b.env.n ≤ (getMeasurements (answer w) ⟨a, true⟩ mask b).1.env.n ∧
      (∀ c, mask &&& c.bit ≠ 0 → ∃ d,
        Between b (getMeasurements (answer w) ⟨a, true⟩ mask b).1 d ∧ m' c = raw w d c) ∧
      (∀ c, mask &&& c.bit = 0 → m' c = 0) := by
  obtain ⟨m', h1, h2, h3, h4, h5⟩ := readFrom_fine hw a mask channels b none (fun _ => 0) (by decide)
  exact ⟨m', h1, h2, h3, fun c => h4 c (mem_channels c), fun c hc => h5 c (Or.inr hc)⟩

/-! ## The constructor -/

/-- The sensor is awake and has the ranges that the class assumes. -/
def Ready (d : Dev) : Prop :=
  d.regs regPwrMgmt1 = 0 ∧ d.regs regConfigAccel = 0x18 ∧ d.regs regConfigGyro = 0x18

theorem putByte_fine {w : World} (hw : w.Fine) (b : Bus Dev) (t : Target) (reg byte : Byte) :
    (putByte (answer w) b t reg byte).1.env.regs = fun r => if r = reg then byte else b.env.regs r := by
  obtain ⟨d, ⟨h1, -, -⟩, h4, -⟩ := transfer_fine hw b t ⟨false, reg, kindByteData, block [byte]⟩
  unfold putByte
  dsimp only
  rw [h4]
  unfold answer
  dsimp only
  rw [if_neg (by rw [hw]; decide), if_neg (by decide), ← h1]
  rfl

theorem construct_ready {w : World} (hw : w.Fine) (log : Bool) (b : Bus Dev) :
    Ready (construct (answer w) log b).1.env := by
  unfold Ready construct
  dsimp only
  refine ⟨?_, ?_, ?_⟩ <;> simp only [putByte_fine hw] <;> rfl

/-! ## Accuracy of one reading -/

/-- The range of a channel: 16 g, 2000 degrees per second, and what the output of the thermometer can
hold. -/
def Within (c : Channel) (x : ℚ) : Prop :=
  match c with
  | .accelX | .accelY | .accelZ => |x| ≤ 16
  | .gyroX | .gyroY | .gyroZ => |x| ≤ 2000
  | .temperature => |x - 3653 / 100| ≤ 96

/-- The accuracy of a reading: 0.001 g, 0.125 degrees per second, 0.003 degrees Celsius. -/
def res : Channel → ℚ
  | .accelX | .accelY | .accelZ => 1 / 1000
  | .gyroX | .gyroY | .gyroZ => 1 / 8
  | .temperature => 3 / 1000

/-- The quantity that a calibration stands for: 16 g or 2000 degrees per second are 32767; the
temperature is not calibrated. -/
def offset (c : Channel) (k : Int) : ℚ :=
  match c with
  | .accelX | .accelY | .accelZ => k * 16 / 32767
  | .gyroX | .gyroY | .gyroZ => k * 2000 / 32767
  | .temperature => 0

theorem clamp_near {n : Int} {q : ℚ} (h : |(n : ℚ) - q| ≤ 1) (hq : |q| ≤ 32768) :
    |(clamp n : ℚ) - q| ≤ 1 := by
  rw [abs_le] at *
  obtain ⟨h1, h2⟩ := h
  obtain ⟨h3, h4⟩ := hq
  unfold clamp
  rcases le_or_gt n (-32768) with hn | hn
  · rw [show max (-32768) (min 32767 n) = -32768 by omega]
    have : (n : ℚ) ≤ -32768 := by exact_mod_cast hn
    push_cast
    constructor <;> linarith
  · rcases le_or_gt 32767 n with hn' | hn'
    · rw [show max (-32768) (min 32767 n) = 32767 by omega]
      have : (32767 : ℚ) ≤ n := by exact_mod_cast hn'
      push_cast
      constructor <;> linarith
    · rw [show max (-32768) (min 32767 n) = n by omega]
      constructor <;> linarith

theorem ready_raw {w : World} {d : Dev} (hd : Ready d) (c : Channel) :
    raw w d c = clamp (w.adc d.n (steps d.regs c (w.phys d.n c))) := by
  unfold raw
  rw [hd.1, if_neg (by decide)]

/-- What the steps of a channel are for a sensor that is ready. -/
theorem ready_steps {d : Dev} (hd : Ready d) (c : Channel) (x : ℚ) :
    steps d.regs c x = if c = .temperature then (x - 3653 / 100) * 340 else x * 32768 / c.max := by
  obtain ⟨-, h2, h3⟩ := hd
  unfold steps fullScale Channel.max
  rw [h2, h3]
  have e : (0x18 : Byte).toNat / 8 % 4 = 3 := rfl
  rw [e]
  cases c <;> simp only [reduceCtorEq, if_false, if_true] <;> norm_num

theorem raw_near {w : World} {d : Dev} (hd : Ready d) {c : Channel} (hx : Within c (w.phys d.n c)) :
    |(raw w d c : ℚ) - steps d.regs c (w.phys d.n c)| ≤ 1 := by
  rw [ready_raw hd]
  refine clamp_near (w.near _ _) ?_
  rw [ready_steps hd]
  generalize w.phys d.n c = x at hx
  unfold Within at hx
  cases c <;> simp only [reduceCtorEq, if_false, if_true, Channel.max] at hx ⊢ <;>
    rw [abs_le] at * <;> push_cast <;> constructor <;> linarith

theorem reading_near {w : World} {d : Dev} (hd : Ready d) {c : Channel} (hx : Within c (w.phys d.n c))
    {mask : Nat} (hm : mask &&& c.bit ≠ 0) {meas calib : Meas} (hr : meas c = raw w d c) :
    |valuesOf mask meas calib c - (w.phys d.n c - offset c (calib c))| ≤ res c := by
  have hn := raw_near hd hx
  rw [ready_steps hd] at hn
  unfold valuesOf
  rw [if_neg hm, hr]
  generalize (w.phys d.n c) = x at *
  generalize raw w d c = r at *
  generalize calib c = k at *
  unfold Within at hx
  unfold valueOf offset res
  cases c <;> simp only [reduceCtorEq, if_false, if_true, Channel.max] at hn hx ⊢ <;>
    rw [abs_le] at * <;> push_cast at hn ⊢ <;> constructor <;> linarith

/-! ## Histories -/

/-- The calls that talk to the sensor. -/
inductive Op where
  | values (mask : Nat)
  | calibrate (mask : Nat)

/-- The effect of a list of calls on bus and object; `none` is undefined behaviour. -/
def runOps {σ : Type} (io : σ → Req → σ × Outcome) : List Op → Bus σ × Obj → Option (Bus σ × Obj)
  | [], s => some s
  | .values mask :: ops, (b, m) =>
    let r := getValues io m mask b
    match r.2 with
    | none => none
    | some _ => runOps io ops (r.1, m)
  | .calibrate mask :: ops, (b, m) =>
    let r := calibrate io m mask b
    match r.2 with
    | none => none
    | some m' => runOps io ops (r.1, m')

theorem i16_add (a b : Int) : i16 (i16 a + b) = i16 (a + b) := by unfold i16; omega

theorem i16_id {a : Int} (h : -32768 ≤ a) (h' : a ≤ 32767) : i16 a = a := by unfold i16; omega

theorem mask_temp (mask : Nat) {c : Channel} (hc : c ≠ .temperature) :
    (mask &&& 0xffbf) &&& c.bit = mask &&& c.bit := by
  rw [Nat.and_assoc]
  congr 1
  cases c <;> first | rfl | exact absurd rfl hc

theorem calLoop_fine {w : World} (hw : w.Fine) (a mask : Nat) : ∀ (left : Nat) (b : Bus Dev)
    (acc : Meas), (∀ c, i16 (acc c) = acc c) →
    ∃ acc', (calLoop (answer w) ⟨a, true⟩ mask true left b acc).2 = some acc' ∧
      (calLoop (answer w) ⟨a, true⟩ mask true left b acc).1.env.regs = b.env.regs ∧
      b.env.n ≤ (calLoop (answer w) ⟨a, true⟩ mask true left b acc).1.env.n ∧
      (∀ c, c ≠ .temperature → mask &&& c.bit ≠ 0 → ∃ l : List Dev, l.length = min left 20 ∧
        (∀ d, d ∈ l → Between b (calLoop (answer w) ⟨a, true⟩ mask true left b acc).1 d) ∧
        acc' c = i16 (acc c + (l.map (raw w · c)).sum)) ∧
      (∀ c, c ≠ .temperature → mask &&& c.bit = 0 → acc' c = acc c) := by
  intro left
  induction left with
  | zero =>
    intro b acc hacc
    refine ⟨acc, rfl, rfl, le_refl _, fun c _ _ => ⟨[], rfl, by simp, ?_⟩, fun c _ _ => rfl⟩
    rw [List.map_nil, List.sum_nil, Int.add_zero, hacc]
  | succ left ih =>
    intro b acc hacc
    obtain ⟨m', h1, h2, h3, h4, h5⟩ := getMeasurements_fine hw a (mask &&& 0xffbf) b
    unfold calLoop
    dsimp only
    rw [h1]
    dsimp only
    by_cases hl : left + 1 > 20
    · rw [if_pos hl]
      obtain ⟨acc', g1, g2, g3, g4, g5⟩ := ih (getMeasurements (answer w) ⟨a, true⟩
        (mask &&& 0xffbf) b).1 acc hacc
      refine ⟨acc', g1, g2.trans h2, le_trans h3 g3, ?_, g5⟩
      intro c hc hm
      obtain ⟨l, k1, k2, k3⟩ := g4 c hc hm
      refine ⟨l, by omega, ?_, k3⟩
      intro d hd
      obtain ⟨e1, e2, e3⟩ := k2 d hd
      exact ⟨e1.trans h2, le_trans h3 e2, e3⟩
    · rw [if_neg hl, if_neg (by decide)]
      obtain ⟨acc', g1, g2, g3, g4, g5⟩ := ih (getMeasurements (answer w) ⟨a, true⟩
        (mask &&& 0xffbf) b).1 (fun c => if c = .temperature then acc c else i16 (acc c + m' c)) (by
          intro c
          split
          · exact hacc c
          · unfold i16; omega)
      refine ⟨acc', g1, g2.trans h2, le_trans h3 g3, ?_, ?_⟩
      · intro c hc hm
        obtain ⟨l, k1, k2, k3⟩ := g4 c hc hm
        obtain ⟨d, ⟨e1, e2, e3⟩, e4⟩ := h4 c (by rw [mask_temp mask hc]; exact hm)
        refine ⟨d :: l, by rw [List.length_cons]; omega, ?_, ?_⟩
        · intro d' hd'
          rcases List.mem_cons.mp hd' with rfl | hd'
          · exact ⟨e1, e2, lt_of_lt_of_le e3 g3⟩
          · obtain ⟨e1, e2, e3⟩ := k2 d' hd'
            exact ⟨e1.trans h2, le_trans h3 e2, e3⟩
        · rw [k3, if_neg hc, i16_add, List.map_cons, List.sum_cons, e4, Int.add_assoc]
      · intro c hc hm
        rw [g5 c hc hm, if_neg hc, h5 c (by rw [mask_temp mask hc]; exact hm), Int.add_zero, hacc]

theorem calibrate_fine {w : World} (hw : w.Fine) {a mask : Nat} {calib : Meas} (b : Bus Dev) :
    ∃ calib', (calibrate (answer w) ⟨⟨a, true⟩, calib, true⟩ mask b).2 = some ⟨⟨a, true⟩, calib', true⟩ ∧
      (calibrate (answer w) ⟨⟨a, true⟩, calib, true⟩ mask b).1.env.regs = b.env.regs ∧
      b.env.n ≤ (calibrate (answer w) ⟨⟨a, true⟩, calib, true⟩ mask b).1.env.n ∧
      (∀ c, c ≠ .temperature → mask &&& c.bit ≠ 0 → ∃ l : List Dev, l.length = 20 ∧
        (∀ d, d ∈ l → Between b (calibrate (answer w) ⟨⟨a, true⟩, calib, true⟩ mask b).1 d) ∧
        calib' c = (i16 (l.map (raw w · c)).sum).tdiv 20) ∧
      (∀ c, c ≠ .temperature → mask &&& c.bit = 0 → calib' c = 0) := by
  obtain ⟨acc', g1, g2, g3, g4, g5⟩ := calLoop_fine hw a mask 25 b (fun _ => 0) (fun _ => rfl)
  unfold calibrate
  dsimp only
  rw [g1]
  refine ⟨_, rfl, g2, g3, ?_, ?_⟩
  · intro c hc hm
    obtain ⟨l, k1, k2, k3⟩ := g4 c hc hm
    refine ⟨l, k1, k2, ?_⟩
    rw [if_neg hc, k3, Int.zero_add]
  · intro c hc hm
    rw [if_neg hc, g5 c hc hm]
    rfl

theorem calLoop_nolog {σ : Type} (io : σ → Req → σ × Outcome) (t : Target) (mask : Nat) :
    ∀ (left : Nat) (b : Bus σ) (acc : Meas), (calLoop io t mask false (left + 1) b acc).2 = none := by
  intro left
  induction left with
  | zero =>
    intro b acc
    unfold calLoop
    dsimp only
    split
    · rfl
    · rw [if_neg (by omega), if_pos rfl]
  | succ left ih =>
    intro b acc
    rw [calLoop]
    split
    · rfl
    · split
      · exact ih _ _
      · rw [if_pos rfl]

/-- Calls do not change the configuration of the sensor. -/
theorem runOps_fine {w : World} (hw : w.Fine) {a : Nat} : ∀ (ops : List Op) {b b' : Bus Dev}
    {m m' : Obj}, m.target = ⟨a, true⟩ → runOps (answer w) ops (b, m) = some (b', m') →
    m'.target = ⟨a, true⟩ ∧ m'.log = m.log ∧ b'.env.regs = b.env.regs ∧ b.env.n ≤ b'.env.n ∧
    ((∀ mask, Op.calibrate mask ∉ ops) → m'.calib = m.calib) := by
  intro ops
  induction ops with
  | nil =>
    intro b b' m m' hm h
    cases h
    exact ⟨hm, rfl, rfl, le_refl _, fun _ => rfl⟩
  | cons op ops ih =>
    intro b b' m m' hm h
    obtain ⟨t, calib, log⟩ := m
    cases hm
    cases op with
    | values mask =>
      obtain ⟨meas, h1, h2, h3, -, -⟩ := getMeasurements_fine hw a mask b
      have e : runOps (answer w) (.values mask :: ops) (b, ⟨⟨a, true⟩, calib, log⟩) =
          runOps (answer w) ops ((getMeasurements (answer w) ⟨a, true⟩ mask b).1,
            ⟨⟨a, true⟩, calib, log⟩) := by
        rw [runOps]
        unfold getValues
        dsimp only
        rw [h1]
      rw [e] at h
      obtain ⟨k1, k2, k3, k4, k5⟩ := ih rfl h
      refine ⟨k1, k2, k3.trans h2, le_trans h3 k4, ?_⟩
      intro hc
      exact k5 (fun mask h => hc mask (List.mem_cons_of_mem _ h))
    | calibrate mask =>
      cases log with
      | false =>
        exfalso
        rw [runOps] at h
        unfold calibrate at h
        dsimp only at h
        rw [calLoop_nolog] at h
        cases h
      | true =>
        obtain ⟨calib', g1, g2, g3, -, -⟩ := calibrate_fine hw (a := a) (mask := mask) (calib := calib) b
        rw [runOps] at h
        rw [g1] at h
        obtain ⟨k1, k2, k3, k4, -⟩ := ih rfl h
        refine ⟨k1, k2, k3.trans g2, le_trans g3 k4, ?_⟩
        intro hc
        exact absurd (List.mem_cons_self ..) (hc mask)

theorem getValues_fine {w : World} (hw : w.Fine) {a : Nat} {m : Obj} (hm : m.target = ⟨a, true⟩)
    {b : Bus Dev} (hr : Ready b.env) (mask : Nat) :
    ∃ v, (getValues (answer w) m mask b).2 = some v ∧
      ∀ c, (mask &&& c.bit = 0 → v c = 0) ∧ (mask &&& c.bit ≠ 0 →
        ∃ n, b.env.n ≤ n ∧ n < (getValues (answer w) m mask b).1.env.n ∧
          (Within c (w.phys n c) → |v c - (w.phys n c - offset c (m.calib c))| ≤ res c)) := by
  obtain ⟨meas, h1, h2, h3, h4, h5⟩ := getMeasurements_fine hw a mask b
  unfold getValues
  rw [hm]
  dsimp only
  rw [h1]
  refine ⟨_, rfl, ?_⟩
  intro c
  refine ⟨?_, ?_⟩
  · intro hc
    unfold valuesOf
    rw [if_pos hc]
  · intro hc
    obtain ⟨d, ⟨e1, e2, e3⟩, e4⟩ := h4 c hc
    refine ⟨d.n, e2, e3, ?_⟩
    intro hx
    have hd : Ready d := by unfold Ready; rw [e1]; exact hr
    exact reading_near hd hx hc e4

/-! ## C75: each channel reports what it measures -/

/-- **C75**, in full: after any calls, `get_values` reports for every channel asked for, up to its
accuracy, the quantity on that channel at some moment of the call, minus the calibration, and zero for
the other channels. -/
def C75Full : Prop := ∀ (w : World) (log : Bool) (b0 b : Bus Dev) (ops : List Op) (m : Obj),
  b0.log = true →
  runOps (answer w) ops (construct (answer w) log b0) = some (b, m) →
  ∀ mask, ∃ v, (getValues (answer w) m mask b).2 = some v ∧
    ∀ c, (mask &&& c.bit = 0 → v c = 0) ∧ (mask &&& c.bit ≠ 0 →
      ∃ n, b.env.n ≤ n ∧ n < (getValues (answer w) m mask b).1.env.n ∧
        (Within c (w.phys n c) → |v c - (w.phys n c - offset c (m.calib c))| ≤ res c))

/-- **C75**, proved part: it holds if no request to the bus fails, whether or not the bus has a log.
Missing: failing requests, see `C75_violated_stale`, `C75_violated_undefined` and
`C75_violated_asleep`. -/
theorem C75_reading_partial (w : World) (hw : w.Fine) (log : Bool) (b0 b : Bus Dev) (ops : List Op)
    (m : Obj) (h : runOps (answer w) ops (construct (answer w) log b0) = some (b, m)) (mask : Nat) :
    ∃ v, (getValues (answer w) m mask b).2 = some v ∧
      ∀ c, (mask &&& c.bit = 0 → v c = 0) ∧ (mask &&& c.bit ≠ 0 →
        ∃ n, b.env.n ≤ n ∧ n < (getValues (answer w) m mask b).1.env.n ∧
          (Within c (w.phys n c) → |v c - (w.phys n c - offset c (m.calib c))| ≤ res c)) := by
  have hr := construct_ready hw log b0
  have h' : runOps (answer w) ops ((construct (answer w) log b0).1,
      (construct (answer w) log b0).2) = some (b, m) := h
  obtain ⟨k1, -, k3, -, -⟩ := runOps_fine hw (a := 0x68) ops rfl h'
  refine getValues_fine hw k1 ?_ mask
  unfold Ready
  rw [k3]
  exact hr

/-! ## C74: calibration -/

/-- How far a calibrated reading may be off: 0.0025 g, 0.32 degrees per second. -/
def tol : Channel → ℚ
  | .accelX | .accelY | .accelZ => 1 / 400
  | _ => 8 / 25

/-- A call does not calibrate the channel. -/
def Op.Spares (c : Channel) : Op → Prop
  | .values _ => True
  | .calibrate mask => mask &&& c.bit = 0

/-- **C74**, in full: if a channel keeps one value while `calibrate` is called for it, `get_values`
reports from then on the difference to that value, whatever calls are made before, and afterwards until
the channel is calibrated again. -/
def C74Full : Prop := ∀ (w : World) (_ : w.Fine) (log : Bool) (b0 b1 : Bus Dev) (ops : List Op) (m1 : Obj)
  (mask : Nat) (c : Channel) (x : ℚ),
  runOps (answer w) ops (construct (answer w) log b0) = some (b1, m1) →
  c ≠ .temperature → mask &&& c.bit ≠ 0 → Within c x →
  (∀ n, b1.env.n ≤ n → n < (calibrate (answer w) m1 mask b1).1.env.n → w.phys n c = x) →
  ∃ m2, (calibrate (answer w) m1 mask b1).2 = some m2 ∧
    ∀ (ops' : List Op) (b3 : Bus Dev) (m3 : Obj), (∀ op, op ∈ ops' → op.Spares c) →
      runOps (answer w) ops' ((calibrate (answer w) m1 mask b1).1, m2) = some (b3, m3) →
      ∀ mask', mask' &&& c.bit ≠ 0 → ∃ v, (getValues (answer w) m3 mask' b3).2 = some v ∧
        ∃ n, b3.env.n ≤ n ∧ n < (getValues (answer w) m3 mask' b3).1.env.n ∧
          (Within c (w.phys n c) → |v c - (w.phys n c - x)| ≤ tol c)

theorem sum_near {X : ℚ} : ∀ {l : List Int}, (∀ r, r ∈ l → |(r : ℚ) - X| ≤ 1) →
    |((l.sum : Int) : ℚ) - l.length * X| ≤ l.length := by
  intro l
  induction l with
  | nil => intro _; norm_num
  | cons r l ih =>
    intro h
    have h1 := h r (List.mem_cons_self ..)
    have h2 := ih (fun r hr => h r (List.mem_cons_of_mem _ hr))
    rw [List.sum_cons, List.length_cons]
    rw [abs_le] at *
    push_cast
    constructor <;> nlinarith

theorem tdiv_near (s : Int) : |((s.tdiv 20 : Int) : ℚ) - s / 20| ≤ 1 := by
  have g1 := Int.mul_tdiv_add_tmod s 20
  have g2 := Int.tmod_lt_of_pos s (b := 20) (by decide)
  have g3 := Int.lt_tmod_of_pos s (b := 20) (by decide)
  have h1 : -20 < s - 20 * s.tdiv 20 ∧ s - 20 * s.tdiv 20 < 20 := by omega
  have h2 : (-20 : ℚ) < s - 20 * (s.tdiv 20 : Int) := by exact_mod_cast h1.1
  have h3 : (s : ℚ) - 20 * (s.tdiv 20 : Int) < 20 := by exact_mod_cast h1.2
  rw [abs_le]
  constructor <;> linarith

/-- What calibration yields for a channel that keeps its value, when the sum of the readings is off by
`k` turns of 16 bits. -/
theorem still_calib {w : World} {c : Channel} (hc : c ≠ .temperature) {x : ℚ} (hx : Within c x)
    {l : List Dev} (hl : l.length = 20) (hd : ∀ d, d ∈ l → Ready d ∧ w.phys d.n c = x) (k : Int)
    (h1 : -32748 ≤ 20 * (x * 32768 / c.max) - 65536 * k)
    (h2 : 20 * (x * 32768 / c.max) - 65536 * k ≤ 32747) :
    |(((i16 (l.map (raw w · c)).sum).tdiv 20 : Int) : ℚ) - (x * 32768 / c.max - 16384 * k / 5)| ≤ 2 := by
  have hs := sum_near (X := x * 32768 / c.max) (l := l.map (raw w · c)) (by
    intro r hr
    obtain ⟨d, hd1, rfl⟩ := List.mem_map.mp hr
    obtain ⟨e1, e2⟩ := hd d hd1
    have := raw_near (w := w) e1 (c := c) (by rw [e2]; exact hx)
    rw [ready_steps e1, if_neg hc, e2] at this
    exact this)
  rw [List.length_map, hl] at hs
  generalize (l.map (raw w · c)).sum = S at *
  have e : i16 S = S - 65536 * k := by
    rw [abs_le] at hs
    push_cast at hs
    have g1 : ((-32768 : Int) : ℚ) ≤ ((S - 65536 * k : Int) : ℚ) := by push_cast; linarith [hs.1]
    have g2 : ((S - 65536 * k : Int) : ℚ) ≤ ((32767 : Int) : ℚ) := by push_cast; linarith [hs.2]
    have g1 := Int.cast_le.mp g1
    have g2 := Int.cast_le.mp g2
    unfold i16
    omega
  rw [e]
  have ht := tdiv_near (S - 65536 * k)
  rw [abs_le] at *
  push_cast at *
  constructor <;> linarith

theorem still_offset {c : Channel} (hc : c ≠ .temperature) {x : ℚ} (hx : Within c x)
    {q : Int} {k : ℚ} (h : |(q : ℚ) - (x * 32768 / c.max - 16384 * k / 5)| ≤ 2) {y v : ℚ}
    (hv : |v - (y - offset c q)| ≤ res c) :
    |v - (y - x + k * 16384 / 5 * c.max / 32767)| ≤ tol c := by
  unfold Within at hx
  unfold offset res at hv
  unfold tol
  cases c <;> simp only [Channel.max] at h hx hv ⊢ <;>
    first
    | exact absurd rfl hc
    | (rw [abs_le] at *
       push_cast at h ⊢
       constructor <;> linarith)

/-- Common part of `C74_calibration_partial` and `C74_violated_turns`. -/
theorem calibrated {w : World} (hw : w.Fine) {b0 b1 : Bus Dev} {ops : List Op} {m1 : Obj}
    {mask : Nat} {c : Channel} {x : ℚ}
    (h : runOps (answer w) ops (construct (answer w) true b0) = some (b1, m1))
    (hc : c ≠ .temperature) (hm : mask &&& c.bit ≠ 0) (hx : Within c x)
    (hstill : ∀ n, b1.env.n ≤ n → n < (calibrate (answer w) m1 mask b1).1.env.n → w.phys n c = x)
    (k : Int) (h1 : -32748 ≤ 20 * (x * 32768 / c.max) - 65536 * k)
    (h2 : 20 * (x * 32768 / c.max) - 65536 * k ≤ 32747) :
    ∃ m2, (calibrate (answer w) m1 mask b1).2 = some m2 ∧
      ∀ (ops' : List Op) (b3 : Bus Dev) (m3 : Obj), (∀ mask, Op.calibrate mask ∉ ops') →
        runOps (answer w) ops' ((calibrate (answer w) m1 mask b1).1, m2) = some (b3, m3) →
        ∀ mask', mask' &&& c.bit ≠ 0 → ∃ v, (getValues (answer w) m3 mask' b3).2 = some v ∧
          ∃ n, b3.env.n ≤ n ∧ n < (getValues (answer w) m3 mask' b3).1.env.n ∧
            (Within c (w.phys n c) →
              |v c - (w.phys n c - x + k * 16384 / 5 * c.max / 32767)| ≤ tol c) := by
  have hr := construct_ready hw true b0
  have h' : runOps (answer w) ops ((construct (answer w) true b0).1,
      (construct (answer w) true b0).2) = some (b1, m1) := h
  obtain ⟨k1, k2, k3, -, -⟩ := runOps_fine hw (a := 0x68) ops rfl h'
  have hr1 : Ready b1.env := by unfold Ready; rw [k3]; exact hr
  obtain ⟨t, calib, log⟩ := m1
  cases k1
  have k2 : log = true := k2
  subst k2
  obtain ⟨calib', g1, g2, -, g4, -⟩ := calibrate_fine hw (a := 0x68) (mask := mask) (calib := calib) b1
  refine ⟨_, g1, ?_⟩
  intro ops' b3 m3 hops h3 mask' hm'
  obtain ⟨j1, -, j3, -, j5⟩ := runOps_fine hw (a := 0x68) ops' rfl h3
  have hr3 : Ready b3.env := by unfold Ready; rw [j3, g2]; exact hr1
  obtain ⟨v, e1, e2⟩ := getValues_fine hw j1 hr3 mask'
  refine ⟨v, e1, ?_⟩
  obtain ⟨n, f1, f2, f3⟩ := (e2 c).2 hm'
  refine ⟨n, f1, f2, ?_⟩
  intro hin
  have f4 := f3 hin
  rw [j5 hops] at f4
  obtain ⟨l, l1, l2, l3⟩ := g4 c hc hm
  have := still_calib (w := w) hc hx l1 (by
    intro d hd
    obtain ⟨p1, p2, p3⟩ := l2 d hd
    exact ⟨by unfold Ready; rw [p1]; exact hr1, hstill d.n p2 p3⟩) k h1 h2
  rw [← l3] at this
  exact still_offset hc hx this f4

/-- At most 0.79 g, or 99 degrees per second. -/
def Small (c : Channel) (x : ℚ) : Prop :=
  match c with
  | .accelX | .accelY | .accelZ => |x| ≤ 79 / 100
  | _ => |x| ≤ 99

/-- **C74**, proved part: for an object with a log, on a channel that keeps a value of at most 0.79 g or
99 degrees per second, as long as `calibrate` is not called again.  Missing: larger values, see
`C74_violated_turns`; no log, see `C74_violated_log`; calibrating other channels, see
`C74_violated_mask`. -/
theorem C74_calibration_partial (w : World) (hw : w.Fine) (b0 b1 : Bus Dev) (ops : List Op) (m1 : Obj)
    (mask : Nat) (c : Channel) (x : ℚ)
    (h : runOps (answer w) ops (construct (answer w) true b0) = some (b1, m1))
    (hc : c ≠ .temperature) (hm : mask &&& c.bit ≠ 0) (hx : Small c x)
    (hstill : ∀ n, b1.env.n ≤ n → n < (calibrate (answer w) m1 mask b1).1.env.n → w.phys n c = x) :
    ∃ m2, (calibrate (answer w) m1 mask b1).2 = some m2 ∧
      ∀ (ops' : List Op) (b3 : Bus Dev) (m3 : Obj), (∀ mask, Op.calibrate mask ∉ ops') →
        runOps (answer w) ops' ((calibrate (answer w) m1 mask b1).1, m2) = some (b3, m3) →
        ∀ mask', mask' &&& c.bit ≠ 0 → ∃ v, (getValues (answer w) m3 mask' b3).2 = some v ∧
          ∃ n, b3.env.n ≤ n ∧ n < (getValues (answer w) m3 mask' b3).1.env.n ∧
            (Within c (w.phys n c) → |v c - (w.phys n c - x)| ≤ tol c) := by
  have hw' : Within c x := by
    unfold Small at hx
    unfold Within
    cases c <;> first | exact absurd rfl hc | exact le_trans hx (by norm_num)
  have hk : -32748 ≤ 20 * (x * 32768 / c.max) - 65536 * ((0 : Int) : ℚ) ∧
      20 * (x * 32768 / c.max) - 65536 * ((0 : Int) : ℚ) ≤ 32747 := by
    unfold Small at hx
    cases c <;> simp only [Channel.max] at hx ⊢ <;> rw [abs_le] at hx <;> push_cast <;>
      constructor <;> linarith
  obtain ⟨m2, g1, g2⟩ := calibrated hw h hc hm hw' hstill 0 hk.1 hk.2
  refine ⟨m2, g1, ?_⟩
  intro ops' b3 m3 h1 h2 mask' h3
  obtain ⟨v, e1, n, e2, e3, e4⟩ := g2 ops' b3 m3 h1 h2 mask' h3
  refine ⟨v, e1, n, e2, e3, ?_⟩
  intro h4
  have := e4 h4
  push_cast at this
  rw [zero_mul, zero_div, zero_mul, zero_div, add_zero] at this
  exact this

/-- The sum of the 20 readings is kept in 16 bits.  An acceleration between 0.81 g and 2.3 g, such as
gravity on the vertical axis of a level object, makes it turn over: all later values are 1.6 g too
large. -/
theorem C74_violated_turns (w : World) (hw : w.Fine) (b0 b1 : Bus Dev) (ops : List Op) (m1 : Obj)
    (mask : Nat) (c : Channel) (x : ℚ)
    (h : runOps (answer w) ops (construct (answer w) true b0) = some (b1, m1))
    (hc : c = .accelX ∨ c = .accelY ∨ c = .accelZ) (hm : mask &&& c.bit ≠ 0)
    (hx : 81 / 100 ≤ x) (hx' : x ≤ 23 / 10)
    (hstill : ∀ n, b1.env.n ≤ n → n < (calibrate (answer w) m1 mask b1).1.env.n → w.phys n c = x) :
    ∃ m2, (calibrate (answer w) m1 mask b1).2 = some m2 ∧
      ∀ (ops' : List Op) (b3 : Bus Dev) (m3 : Obj), (∀ mask, Op.calibrate mask ∉ ops') →
        runOps (answer w) ops' ((calibrate (answer w) m1 mask b1).1, m2) = some (b3, m3) →
        ∀ mask', mask' &&& c.bit ≠ 0 → ∃ v, (getValues (answer w) m3 mask' b3).2 = some v ∧
          ∃ n, b3.env.n ≤ n ∧ n < (getValues (answer w) m3 mask' b3).1.env.n ∧
            (Within c (w.phys n c) → |v c - (w.phys n c - x + 16 / 10)| ≤ 3 / 1000) := by
  have hmax : (c.max : ℚ) = 16 := by rcases hc with rfl | rfl | rfl <;> rfl
  have htol : tol c = 1 / 400 := by rcases hc with rfl | rfl | rfl <;> rfl
  have hne : c ≠ .temperature := by rcases hc with rfl | rfl | rfl <;> decide
  have hw' : Within c x := by
    have : |x| ≤ 16 := by rw [abs_le]; constructor <;> linarith
    rcases hc with rfl | rfl | rfl <;> exact this
  have hk : -32748 ≤ 20 * (x * 32768 / c.max) - 65536 * ((1 : Int) : ℚ) ∧
      20 * (x * 32768 / c.max) - 65536 * ((1 : Int) : ℚ) ≤ 32747 := by
    rw [hmax]
    push_cast
    constructor <;> linarith
  obtain ⟨m2, g1, g2⟩ := calibrated hw h hne hm hw' hstill 1 hk.1 hk.2
  refine ⟨m2, g1, ?_⟩
  intro ops' b3 m3 h1 h2 mask' h3
  obtain ⟨v, e1, n, e2, e3, e4⟩ := g2 ops' b3 m3 h1 h2 mask' h3
  refine ⟨v, e1, n, e2, e3, ?_⟩
  intro h4
  have := e4 h4
  rw [hmax, htol] at this
  push_cast at this
  rw [abs_le] at *
  constructor <;> linarith

/-- Without a log, `calibrate` is undefined, whatever the bus does. -/
theorem C74_violated_log {σ : Type} (io : σ → Req → σ × Outcome) (m : Obj) (hm : m.log = false)
    (mask : Nat) (b : Bus σ) : (calibrate io m mask b).2 = none := by
  unfold calibrate
  dsimp only
  rw [hm, calLoop_nolog]

/-- Calibrating other channels forgets the calibration of a channel. -/
theorem C74_violated_mask (w : World) (hw : w.Fine) (b b' : Bus Dev) (a mask : Nat) (calib : Meas)
    (m' : Obj) (c : Channel) (hc : c ≠ .temperature) (hm : mask &&& c.bit = 0)
    (h : calibrate (answer w) ⟨⟨a, true⟩, calib, true⟩ mask b = (b', some m')) : m'.calib c = 0 := by
  obtain ⟨calib', g1, -, -, -, g5⟩ := calibrate_fine hw (a := a) (mask := mask) (calib := calib) b
  rw [h] at g1
  cases g1
  exact g5 c hc hm

/-- A level object at rest at 25 degrees: 1 g on the vertical axis. -/
def level (ok : Nat → Bool) : World where
  ok := ok
  phys := fun _ c => match c with
    | .accelZ => 1
    | .temperature => 25
    | _ => 0
  adc := fun _ q => ⌊q⌋
  near := by
    intro n q
    have h1 := Int.floor_le q
    have h2 := Int.lt_floor_add_one q
    rw [abs_le]
    constructor <;> linarith

/-- A bus with a log and the sensor after power-up. -/
def bus0 : Bus Dev := ⟨0, true, powerUp, 0, []⟩

/-- `C74_violated_turns` refutes C74. -/
theorem C74_violated : ¬ C74Full := by
  intro hfull
  have hw : (level (fun _ => true)).Fine := fun _ => rfl
  have hrun : runOps (answer (level (fun _ => true))) []
      (construct (answer (level (fun _ => true))) true bus0) =
      some (construct (answer (level (fun _ => true))) true bus0) := rfl
  have h1 := hfull _ hw true bus0 _ [] _ 4 .accelZ 1 hrun (by decide) (by decide)
    (by show |(1 : ℚ)| ≤ 16; norm_num) (fun _ _ _ => rfl)
  have h2 := C74_violated_turns _ hw bus0 _ [] _ 4 .accelZ 1 hrun (by decide) (by decide)
    (by norm_num) (by norm_num) (fun _ _ _ => rfl)
  obtain ⟨m2, e1, e2⟩ := h1
  obtain ⟨m2', f1, f2⟩ := h2
  rw [e1] at f1
  cases f1
  obtain ⟨v, g1, n, -, -, g4⟩ := e2 [] _ _ (by intro op h; cases h) rfl 4 (by decide)
  obtain ⟨v', k1, n', -, -, k4⟩ := f2 [] _ _ (by intro op h; cases h) rfl 4 (by decide)
  rw [g1] at k1
  cases k1
  have hin : |(1 : ℚ)| ≤ 16 := by norm_num
  have g5 : |v .accelZ - (1 - 1)| ≤ 1 / 400 := g4 hin
  have k5 : |v .accelZ - (1 - 1 + 16 / 10)| ≤ 3 / 1000 := k4 hin
  rw [abs_le] at g5 k5
  linarith [g5.2, k5.1]

/-- A case of `C74_calibration_partial`: the gyroscope of a level object. -/
example : ∃ m2, (calibrate (answer (level fun _ => true))
      (construct (answer (level fun _ => true)) true bus0).2 0x21
      (construct (answer (level fun _ => true)) true bus0).1).2 = some m2 ∧
    ∃ v, (getValues (answer (level fun _ => true)) m2 0x20
      (calibrate (answer (level fun _ => true)) (construct (answer (level fun _ => true)) true bus0).2
        0x21 (construct (answer (level fun _ => true)) true bus0).1).1).2 = some v ∧
      |v .gyroZ| ≤ 8 / 25 := by
  obtain ⟨m2, h1, h2⟩ := C74_calibration_partial (level fun _ => true) (fun _ => rfl) bus0 _ [] _ 0x21
    .gyroZ 0 rfl (by decide) (by decide) (by show |(0 : ℚ)| ≤ 99; norm_num) (fun _ _ _ => rfl)
  refine ⟨m2, h1, ?_⟩
  obtain ⟨v, h3, n, -, -, h4⟩ := h2 [] _ _ (by intro mask h; cases h) rfl 0x20 (by decide)
  refine ⟨v, h3, ?_⟩
  have h5 : |v .gyroZ - (0 - 0)| ≤ 8 / 25 := h4 (by show |(0 : ℚ)| ≤ 2000; norm_num)
  rwa [sub_zero, sub_zero] at h5

/-! ## Failing requests -/

/-- If the word of `accel_x` is read and that of `gyro_z` is not, `get_measurements` reports the
acceleration as the rotation.  (The motion tracker asks for these two channels.) -/
theorem C75_violated_stale {σ : Type} (io : σ → Req → σ × Outcome) (t : Target) (b b1 b2 : Bus σ)
    (w : UInt16) (h1 : getWord io b t Channel.accelX.reg = (b1, some w))
    (h2 : getWord io b1 t Channel.gyroZ.reg = (b2, none)) :
    ∃ m, getMeasurements io t 0x21 b = (b2, some m) ∧ m .accelX = i16 w.toNat ∧
      m .gyroZ = i16 w.toNat := by
  refine ⟨fun c' => if c' = .gyroZ then i16 w.toNat else if c' = .accelX then i16 w.toNat else 0,
    ?_, rfl, rfl⟩
  unfold getMeasurements channels
  simp only [readFrom, Channel.bit, h1, h2]
  rfl

/-- If the first word is not read, an uninitialised variable is used. -/
theorem C75_violated_undefined {σ : Type} (io : σ → Req → σ × Outcome) (t : Target) (b b1 : Bus σ)
    (h1 : getWord io b t Channel.accelX.reg = (b1, none)) :
    getMeasurements io t 0x21 b = (b1, none) := by
  unfold getMeasurements channels
  simp only [readFrom, Channel.bit, h1]
  rfl

/-- If the first request of the constructor fails, which is not noticed, the sensor stays asleep and the
object reports 0 g on the vertical axis. -/
theorem C75_violated_asleep :
    let w := level (fun n => n != 1)
    ∃ v, (getValues (answer w) (construct (answer w) true bus0).2 0x04
      (construct (answer w) true bus0).1).2 = some v ∧ v .accelZ = 0 := by
  refine ⟨_, rfl, ?_⟩
  decide +kernel

/-- C75 does not hold. -/
theorem C75_violated : ¬ C75Full := by
  intro hfull
  obtain ⟨v, h1, h2⟩ := C75_violated_asleep
  obtain ⟨v', h3, h4⟩ := hfull (level (fun n => n != 1)) true bus0 _ [] _ rfl rfl 0x04
  have e : some v = some v' := h1.symm.trans h3
  cases e
  obtain ⟨n, -, -, h5⟩ := (h4 .accelZ).2 (by decide)
  have h6 : |v .accelZ - (1 - ((0 : Int) : ℚ) * 16 / 32767)| ≤ 1 / 1000 := h5 (by show |(1 : ℚ)| ≤ 16; norm_num)
  rw [h2, abs_le] at h6
  norm_num at h6

/-- A case of `C75_reading_partial`: the temperature and the vertical axis of a level object. -/
example : ∃ v, (getValues (answer (level fun _ => true)) (construct (answer (level fun _ => true)) false
      bus0).2 0x44 (construct (answer (level fun _ => true)) false bus0).1).2 = some v ∧
    |v .accelZ - 1| ≤ 1 / 1000 ∧ |v .temperature - 25| ≤ 3 / 1000 ∧ v .gyroX = 0 := by
  obtain ⟨v, h1, h2⟩ := C75_reading_partial (level fun _ => true) (fun _ => rfl) false bus0 _ [] _ rfl
    0x44
  refine ⟨v, h1, ?_, ?_, (h2 .gyroX).1 (by decide)⟩
  · obtain ⟨n, -, -, h⟩ := (h2 .accelZ).2 (by decide)
    have h : |v .accelZ - (1 - ((0 : Int) : ℚ) * 16 / 32767)| ≤ 1 / 1000 :=
      h (by show |(1 : ℚ)| ≤ 16; norm_num)
    have e : (1 : ℚ) - ((0 : Int) : ℚ) * 16 / 32767 = 1 := by norm_num
    rwa [e] at h
  · obtain ⟨n, -, -, h⟩ := (h2 .temperature).2 (by decide)
    have h : |v .temperature - (25 - 0)| ≤ 3 / 1000 :=
      h (by show |(25 : ℚ) - 3653 / 100| ≤ 96; rw [abs_le]; constructor <;> norm_num)
    rwa [sub_zero] at h

/-- A case of `C75_violated_stale`: the second request after construction fails; 0.5 g become 63 degrees
per second. -/
example :
    let w : World := { level (fun n => n != 6) with phys := fun _ c => if c = .accelX then 1 / 2 else 0 }
    ((getValues (answer w) (construct (answer w) true bus0).2 0x21
      (construct (answer w) true bus0).1).2.map fun v => ⌊v .gyroZ⌋) = some 62 := by
  decide +kernel

end Abc.Gpio.Motion
