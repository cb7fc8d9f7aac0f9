import Mathlib.Analysis.SpecialFunctions.Trigonometric.Bounds
import Mathlib.Analysis.SpecialFunctions.Trigonometric.Deriv
import Mathlib.Analysis.Calculus.MeanValue
import Mathlib.Analysis.Real.Pi.Bounds
import Mathlib.Tactic.Linarith
import Mathlib.Tactic.FieldSimp
import Mathlib.Tactic.Ring

/-!
# Dead reckoning of `gpio_smbus_motion_tracker` (C76)

`src/x/gpio_smbus_motion_tracker.x.h` 217-270.  `double` is modelled by the real numbers: rounding is
not modelled.  The threads are in `Verif/Gpio/Threads.lean`; here the worker runs undisturbed.
-/

namespace Abc.Gpio.Tracker

noncomputable section

/-- `gpio_smbus_motion_const`, `gpio_smbus_motion.i.h` 107-117. -/
def constG : ℝ := 9.80665
@[inherit_doc constG] def constPi : ℝ := 3.14159265

/-- `deg_to_rad`, 281-284. -/
def degToRad (deg : ℝ) : ℝ := constPi * deg / 180

/-- `_depth`, `_width`, `_direction`, `_speed`. -/
structure Pose where
  depth : ℝ
  width : ℝ
  direction : ℝ
  speed : ℝ

/-- What one pass through 217-224 obtains: the time (nanoseconds of the steady clock), the acceleration
in the unit of the distance scale, and the rotation in degrees per second. -/
structure Sample where
  t : Int
  accel : ℝ
  gyro : ℝ

/-- `curr_accel`, 220: the acceleration in g is turned into the distance scale `num / den`. -/
def currAccel (num den : ℕ) (accelX : ℝ) : ℝ := (accelX * constG * den) / num

/-- `sec`, 237-238: `duration_cast` to microseconds drops the fraction. -/
def seconds (p q : Sample) : ℝ := (((q.t - p.t).tdiv 1000 : Int) : ℝ) / 1000000 * 1

/-- 237-265: from the previous to the current sample. -/
def stepPose (x : Pose) (p q : Sample) : Pose :=
  let sec := seconds p q
  let accelAccel := (q.accel - p.accel) / sec
  let distance := x.speed * sec + p.accel * sec * sec / 2 + accelAccel * sec * sec * sec / 6
  let gyroAccel := (q.gyro - p.gyro) / sec
  let gyro := p.gyro * sec + gyroAccel * sec * sec / 2
  let directionRad := degToRad x.direction
  let speed := x.speed + p.accel * sec + accelAccel * sec * sec / 2
  if |gyro| < 0.000001 then
    { depth := x.depth + distance * Real.cos directionRad
      width := x.width + distance * Real.sin directionRad
      direction := x.direction
      speed := speed }
  else
    let gyroRad := degToRad gyro
    let radius := distance / gyroRad
    let straightDepth := radius * Real.sin gyroRad
    let straightWidth := radius * (1 - Real.cos gyroRad)
    { depth := x.depth + straightDepth * Real.cos directionRad - straightWidth * Real.sin directionRad
      width := x.width + straightDepth * Real.sin directionRad + straightWidth * Real.cos directionRad
      direction := x.direction + gyro
      speed := speed }

/-- The following passes of the loop, 166-273, while `run` stays set. -/
def track (x : Pose) (p : Sample) : List Sample → Pose
  | [] => x
  | q :: l => track (stepPose x p q) q l

/-- From a start on: `prev_time_point` is zero, so the first sample is only remembered (212, 232). -/
def tracked (x : Pose) : List Sample → Pose
  | [] => x
  | p :: l => track x p l

/-! ## The true motion -/

/-- A time of the steady clock in seconds. -/
def clock (t : Int) : ℝ := (t : ℝ) / 1000000000

/-- A motion in the plane: speed `v` with derivative `a`, heading `θ` (degrees) with derivative `ω`, and
the position, which changes along the heading. -/
structure Motion where
  v : ℝ → ℝ
  a : ℝ → ℝ
  θ : ℝ → ℝ
  ω : ℝ → ℝ
  X : ℝ → ℝ
  Y : ℝ → ℝ
  dv : ∀ x, HasDerivAt v (a x) x
  dθ : ∀ x, HasDerivAt θ (ω x) x
  dX : ∀ x, HasDerivAt X (v x * Real.cos (Real.pi * θ x / 180)) x
  dY : ∀ x, HasDerivAt Y (v x * Real.sin (Real.pi * θ x / 180)) x

/-- Limits: of speed, acceleration, rotation and heading; how much acceleration and rotation change
within a sampling interval; errors of their readings; the longest sampling interval in seconds. -/
structure Limits where
  V : ℝ
  A : ℝ
  W : ℝ
  Θ : ℝ
  α : ℝ
  β : ℝ
  εa : ℝ
  εω : ℝ
  H : ℝ

/-- A motion keeps within the limits from time `b` to time `e`. -/
structure Motion.Keeps (m : Motion) (L : Limits) (b e : ℝ) : Prop where
  v : ∀ x, b ≤ x → x ≤ e → |m.v x| ≤ L.V
  a : ∀ x, b ≤ x → x ≤ e → |m.a x| ≤ L.A
  ω : ∀ x, b ≤ x → x ≤ e → |m.ω x| ≤ L.W
  θ : ∀ x, b ≤ x → x ≤ e → |m.θ x| ≤ L.Θ
  α : ∀ x y, b ≤ x → x ≤ e → b ≤ y → y ≤ e → |x - y| ≤ L.H → |m.a x - m.a y| ≤ L.α
  β : ∀ x y, b ≤ x → x ≤ e → b ≤ y → y ≤ e → |x - y| ≤ L.H → |m.ω x - m.ω y| ≤ L.β

/-- A sample shows the motion up to the errors. -/
def Shows (m : Motion) (L : Limits) (s : Sample) : Prop :=
  |s.accel - m.a (clock s.t)| ≤ L.εa ∧ |s.gyro - m.ω (clock s.t)| ≤ L.εω

/-- Consecutive samples are at least a millisecond apart (272) and not more than the limit. -/
def Spaced (L : Limits) (p q : Sample) : Prop :=
  1000000 ≤ q.t - p.t ∧ clock q.t - clock p.t ≤ L.H

/-- All samples show the motion and are properly spaced. -/
def Good (m : Motion) (L : Limits) (p : Sample) : List Sample → Prop
  | [] => Shows m L p
  | q :: l => Shows m L p ∧ Spaced L p q ∧ Good m L q l

/-- The last sample. -/
def lastOf (p : Sample) : List Sample → Sample
  | [] => p
  | q :: l => lastOf q l

/-- Error of the speed per second. -/
def Limits.rateV (L : Limits) : ℝ := L.α + L.εa + L.A / 1000

/-- Error of the direction per second: 0.001 of it is the dead band of 248. -/
def Limits.rateθ (L : Limits) : ℝ := L.β + L.εω + L.W / 1000 + 1 / 1000

/-- Error of the position per second, when speed and direction are known up to `Sv` and `Sθ`. -/
def Limits.rateX (L : Limits) (Sv Sθ : ℝ) : ℝ :=
  Sv + L.V / 1000 + (L.A + L.εa) * L.H / 2
    + L.V * (7 / 400 * Sθ + 3 / 100000000000 * L.Θ)
    + (L.V + Sv + (L.A + L.εa) * L.H / 2) * (7 / 400 * (L.W + L.εω) * L.H)
    + (L.A + 7 / 400 * L.V * L.W) * L.H

/-! ## One step -/

theorem seconds_spec {L : Limits} {p q : Sample} (h : Spaced L p q) :
    0 < seconds p q ∧ seconds p q ≤ clock q.t - clock p.t ∧
      clock q.t - clock p.t - seconds p q ≤ (clock q.t - clock p.t) / 1000 ∧
      1 / 1000 ≤ clock q.t - clock p.t := by
  obtain ⟨h1, -⟩ := h
  unfold seconds clock
  have e : (q.t : ℝ) / 1000000000 - (p.t : ℝ) / 1000000000 = ((q.t - p.t : Int) : ℝ) / 1000000000 := by
    push_cast; ring
  rw [e]
  generalize q.t - p.t = n at *
  have hk : n.tdiv 1000 = n / 1000 := Int.tdiv_eq_ediv_of_nonneg (by omega)
  rw [hk]
  have g1 : 1000 * (n / 1000) ≤ n := by omega
  have g2 : n < 1000 * (n / 1000) + 1000 := by omega
  have g3 : 1000 ≤ n / 1000 := by omega
  generalize n / 1000 = k at *
  have r1 : (1000 : ℝ) * k ≤ n := by exact_mod_cast g1
  have r2 : (n : ℝ) < 1000 * k + 1000 := by exact_mod_cast g2
  have r3 : (1000 : ℝ) ≤ k := by exact_mod_cast g3
  have r4 : (1000000 : ℝ) ≤ n := by exact_mod_cast h1
  refine ⟨?_, ?_, ?_, ?_⟩ <;> linarith

/-- Mean value theorem in the form used here. -/
theorem mean_value {f f' : ℝ → ℝ} (hf : ∀ x, HasDerivAt f (f' x) x) {x y : ℝ} (h : x < y) :
    ∃ z, x < z ∧ z < y ∧ f y - f x = f' z * (y - x) := by
  obtain ⟨z, hz, e⟩ := exists_hasDerivAt_eq_slope f f' h
    (fun x _ => (hf x).continuousAt.continuousWithinAt) (fun x _ => hf x)
  refine ⟨z, hz.1, hz.2, ?_⟩
  rw [e]
  have : y - x ≠ 0 := by linarith
  field_simp

/-- Integrating linearly between two readings `r0`, `r1` of a derivative, with time `k` for `h`. -/
theorem integrate {f f' : ℝ → ℝ} (hf : ∀ x, HasDerivAt f (f' x) x) {x y k H M α ε r0 r1 : ℝ}
    (hxy : x < y) (hH : y - x ≤ H) (hk : 0 < k) (hk1 : k ≤ y - x)
    (hk2 : y - x - k ≤ (y - x) / 1000) (hM : ∀ z, x ≤ z → z ≤ y → |f' z| ≤ M)
    (hα : ∀ z z', x ≤ z → z ≤ y → x ≤ z' → z' ≤ y → |z - z'| ≤ H → |f' z - f' z'| ≤ α) (h0 : |r0 - f' x| ≤ ε) (h1 : |r1 - f' y| ≤ ε) :
    |r0 * k + (r1 - r0) / k * k * k / 2 - (f y - f x)| ≤ (y - x) * (α + ε + M / 1000) := by
  obtain ⟨z, z1, z2, e⟩ := mean_value hf hxy
  rw [e]
  have e1 : r0 * k + (r1 - r0) / k * k * k / 2 = (r0 + r1) / 2 * k := by field_simp; ring
  rw [e1]
  have a0 := hα x z (le_refl _) (by linarith) (by linarith) (by linarith)
    (by rw [abs_le]; constructor <;> linarith)
  have a1 := hα y z (by linarith) (le_refl _) (by linarith) (by linarith)
    (by rw [abs_le]; constructor <;> linarith)
  have m := hM z (by linarith) (by linarith)
  generalize f' z = c at *
  have hd : |(r0 + r1) / 2 - c| ≤ α + ε := by
    rw [abs_le] at *
    constructor <;> linarith
  have e2 : (r0 + r1) / 2 * k - c * (y - x) = ((r0 + r1) / 2 - c) * k - c * (y - x - k) := by ring
  rw [e2]
  have hae : 0 ≤ α + ε := le_trans (abs_nonneg _) hd
  calc |((r0 + r1) / 2 - c) * k - c * (y - x - k)|
      ≤ |((r0 + r1) / 2 - c) * k| + |c * (y - x - k)| := abs_sub _ _
    _ = |(r0 + r1) / 2 - c| * k + |c| * (y - x - k) := by
        rw [abs_mul, abs_mul, abs_of_pos hk, abs_of_nonneg (by linarith : (0:ℝ) ≤ y - x - k)]
    _ ≤ (α + ε) * (y - x) + M * ((y - x) / 1000) := by
        have t1 : |(r0 + r1) / 2 - c| * k ≤ (α + ε) * (y - x) :=
          mul_le_mul hd hk1 (le_of_lt hk) hae
        have t2 : |c| * (y - x - k) ≤ M * ((y - x) / 1000) :=
          mul_le_mul m hk2 (by linarith) (le_trans (abs_nonneg _) m)
        linarith
    _ = (y - x) * (α + ε + M / 1000) := by ring

theorem abs_six (a b c d e f : ℝ) :
    |a + b + c - d + e + f| ≤ |a| + |b| + |c| + |d| + |e| + |f| :=
  le_trans (abs_add_le _ _) (add_le_add_left (le_trans (abs_add_le _ _) (add_le_add_left
    (le_trans (abs_sub _ _) (add_le_add_left (abs_add_three _ _ _) _)) _)) _)

/-- The change of a coordinate in one step: `Δ` by the code, where `c` is the cosine or sine of its
direction; `g` is the true one. -/
theorem position {v a F g : ℝ → ℝ} (dv : ∀ x, HasDerivAt v (a x) x)
    (dF : ∀ x, HasDerivAt F (v x * g x) x) {x y k H V A G Φ ε r0 r1 sp Sv c δ Δ D : ℝ}
    (hxy : x < y) (hH : y - x ≤ H) (hk : 0 < k) (hk1 : k ≤ y - x)
    (hk2 : y - x - k ≤ (y - x) / 1000) (hV : ∀ z, x ≤ z → z ≤ y → |v z| ≤ V)
    (hA : ∀ z, x ≤ z → z ≤ y → |a z| ≤ A)
    (hg : ∀ x, |g x| ≤ 1) (hG : ∀ z, x ≤ z → z ≤ y → |g x - g z| ≤ G * |x - z|)
    (h0 : |r0 - a x| ≤ ε) (h1 : |r1 - a y| ≤ ε) (hs : |sp - v x| ≤ Sv) (hc : |c| ≤ 1)
    (hδ : |c - g x| ≤ δ) (hD : D = sp * k + r0 * k * k / 2 + (r1 - r0) / k * k * k * k / 6)
    (hΔ : |Δ - D * c| ≤ |D| * Φ) (hΦ : 0 ≤ Φ) :
    |Δ - (F y - F x)| ≤ (y - x) * (Sv + V / 1000 + (A + ε) * H / 2 + V * δ
      + (V + Sv + (A + ε) * H / 2) * Φ + (A + V * G) * H) := by
  obtain ⟨z, z1, z2, e⟩ := mean_value dF hxy
  obtain ⟨z', z1', z2', e'⟩ := mean_value dv z1
  rw [e]
  set h := y - x with hh
  have hh0 : 0 < h := by linarith
  have hA0 : 0 ≤ A := le_trans (abs_nonneg _) (hA x (le_refl _) (by linarith))
  have hV0 : 0 ≤ V := le_trans (abs_nonneg _) (hV x (le_refl _) (by linarith))
  have hε0 : 0 ≤ ε := le_trans (abs_nonneg _) h0
  have hS0 : 0 ≤ Sv := le_trans (abs_nonneg _) hs
  have hG0 : 0 ≤ G := by
    have := le_trans (abs_nonneg _) (hG y (by linarith) (le_refl _))
    have hp : 0 < |x - y| := abs_pos.mpr (by linarith)
    by_contra hc
    have : G * |x - y| < 0 := mul_neg_of_neg_of_pos (by linarith) hp
    linarith
  have eD : D - sp * k = (r0 / 3 + r1 / 6) * k * k := by rw [hD]; field_simp; ring
  have hr : |r0 / 3 + r1 / 6| ≤ (A + ε) / 2 := by
    have := hA x (le_refl _) (by linarith)
    have := hA y (by linarith) (le_refl _)
    rw [abs_le] at *
    constructor <;> linarith
  have hkH : k * k ≤ h * H := mul_le_mul hk1 (by linarith) (le_of_lt hk) (le_of_lt hh0)
  have bD : |D - sp * k| ≤ h * ((A + ε) * H / 2) := by
    rw [eD, mul_assoc, abs_mul, abs_of_pos (mul_pos hk hk)]
    calc |r0 / 3 + r1 / 6| * (k * k) ≤ (A + ε) / 2 * (h * H) :=
          mul_le_mul hr hkH (le_of_lt (mul_pos hk hk)) (by linarith)
      _ = _ := by ring
  have bs : |sp| ≤ V + Sv := by
    have := hV x (le_refl _) (by linarith)
    rw [abs_le] at *
    constructor <;> linarith
  have bD' : |D| ≤ h * (V + Sv + (A + ε) * H / 2) := by
    have t1 : |sp * k| ≤ h * (V + Sv) := by
      rw [abs_mul, abs_of_pos hk, mul_comm]
      exact mul_le_mul hk1 bs (abs_nonneg _) (le_of_lt hh0)
    have t2 : |D| ≤ |D - sp * k| + |sp * k| := by
      have := abs_add_le (D - sp * k) (sp * k)
      rwa [sub_add_cancel] at this
    linarith
  have b1 : |Δ - D * c| ≤ h * ((V + Sv + (A + ε) * H / 2) * Φ) := by
    refine le_trans hΔ ?_
    rw [← mul_assoc]
    exact mul_le_mul_of_nonneg_right bD' hΦ
  have b2 : |(D - sp * k) * c| ≤ h * ((A + ε) * H / 2) := by
    rw [abs_mul]
    exact le_trans (mul_le_of_le_one_right (abs_nonneg _) hc) bD
  have b3 : |(sp - v x) * k * c| ≤ h * Sv := by
    rw [abs_mul]
    refine le_trans (mul_le_of_le_one_right (abs_nonneg _) hc) ?_
    rw [abs_mul, abs_of_pos hk, mul_comm]
    exact mul_le_mul hk1 hs (abs_nonneg _) (le_of_lt hh0)
  have b4 : |v x * (h - k) * c| ≤ h * (V / 1000) := by
    rw [abs_mul]
    refine le_trans (mul_le_of_le_one_right (abs_nonneg _) hc) ?_
    rw [abs_mul, abs_of_nonneg (by linarith : 0 ≤ h - k)]
    calc |v x| * (h - k) ≤ V * (h / 1000) :=
          mul_le_mul (hV x (le_refl _) (by linarith)) hk2 (by linarith) hV0
      _ = _ := by ring
  have b5 : |v x * h * (c - g x)| ≤ h * (V * δ) := by
    rw [abs_mul, abs_mul, abs_of_pos hh0]
    calc |v x| * h * |c - g x| ≤ V * h * δ :=
          mul_le_mul (mul_le_mul_of_nonneg_right (hV x (le_refl _) (by linarith)) (le_of_lt hh0)) hδ (abs_nonneg _)
            (mul_nonneg hV0 (le_of_lt hh0))
      _ = _ := by ring
  have b6 : |h * (v x * g x - v z * g z)| ≤ h * ((A + V * G) * H) := by
    rw [abs_mul, abs_of_pos hh0]
    refine mul_le_mul_of_nonneg_left ?_ (le_of_lt hh0)
    have e1 : v x * g x - v z * g z = -(v z - v x) * g x + v z * (g x - g z) := by ring
    rw [e1]
    have t1 : |-(v z - v x) * g x| ≤ A * H := by
      rw [abs_mul]
      refine le_trans (mul_le_of_le_one_right (abs_nonneg _) (hg x)) ?_
      rw [abs_neg, e', abs_mul, abs_of_pos (by linarith : 0 < z - x)]
      exact mul_le_mul (hA _ (by linarith) (by linarith)) (by linarith) (by linarith) hA0
    have t2 : |v z * (g x - g z)| ≤ V * G * H := by
      rw [abs_mul, mul_assoc]
      refine mul_le_mul (hV z (by linarith) (by linarith)) ?_ (abs_nonneg _) hV0
      refine le_trans (hG z (by linarith) (by linarith)) (mul_le_mul_of_nonneg_left ?_ hG0)
      rw [abs_le]
      constructor <;> linarith
    calc _ ≤ |-(v z - v x) * g x| + |v z * (g x - g z)| := abs_add_le _ _
      _ ≤ A * H + V * G * H := add_le_add t1 t2
      _ = _ := by ring
  have e2 : Δ - v z * g z * h = (Δ - D * c) + (D - sp * k) * c + (sp - v x) * k * c
      - v x * (h - k) * c + v x * h * (c - g x) + h * (v x * g x - v z * g z) := by ring
  rw [e2]
  refine le_trans (abs_six _ _ _ _ _ _) ?_
  have e3 : h * (Sv + V / 1000 + (A + ε) * H / 2 + V * δ + (V + Sv + (A + ε) * H / 2) * Φ
      + (A + V * G) * H) = h * ((V + Sv + (A + ε) * H / 2) * Φ) + h * ((A + ε) * H / 2) + h * Sv
      + h * (V / 1000) + h * (V * δ) + h * ((A + V * G) * H) := by ring
  rw [e3]
  exact add_le_add (add_le_add (add_le_add (add_le_add (add_le_add b1 b2) b3) b4) b5) b6

theorem pi_gap : |constPi - Real.pi| / 180 ≤ 3 / 100000000000 := by
  have h1 := Real.pi_gt_d20
  have h2 := Real.pi_lt_d20
  have : |constPi - Real.pi| ≤ 4 / 1000000000 := by
    unfold constPi
    rw [abs_le]
    norm_num at h1 h2 ⊢
    constructor <;> linarith
  linarith

theorem angle_gap {d θ Sθ Θ : ℝ} (h : |d - θ| ≤ Sθ) (hθ : |θ| ≤ Θ) :
    |degToRad d - Real.pi * θ / 180| ≤ 7 / 400 * Sθ + 3 / 100000000000 * Θ := by
  unfold degToRad
  have e : constPi * d / 180 - Real.pi * θ / 180 =
      constPi / 180 * (d - θ) + (constPi - Real.pi) / 180 * θ := by ring
  rw [e]
  refine le_trans (abs_add_le _ _) (add_le_add ?_ ?_)
  · rw [abs_mul]
    refine mul_le_mul ?_ h (abs_nonneg _) (by norm_num)
    unfold constPi
    rw [abs_of_pos (by norm_num)]
    norm_num
  · rw [abs_mul, abs_div, abs_of_pos (by norm_num : (0:ℝ) < 180)]
    exact mul_le_mul pi_gap hθ (abs_nonneg _) (by norm_num)

theorem trig_var {m : Motion} {L : Limits} {b e : ℝ} (hm : m.Keeps L b e) (x y : ℝ) (hx : b ≤ x)
    (hxy : x ≤ y) (hy : y ≤ e) :
    |Real.pi * m.θ x / 180 - Real.pi * m.θ y / 180| ≤ 7 / 400 * L.W * |x - y| := by
  have hW : |m.θ x - m.θ y| ≤ L.W * |x - y| := by
    rcases lt_or_eq_of_le hxy with h | rfl
    · obtain ⟨z, z1, z2, e⟩ := mean_value m.dθ h
      rw [abs_sub_comm, e, abs_mul, abs_sub_comm x y]
      exact mul_le_mul_of_nonneg_right (hm.ω z (by linarith) (by linarith)) (abs_nonneg _)
    · simp
  have e : Real.pi * m.θ x / 180 - Real.pi * m.θ y / 180 = Real.pi / 180 * (m.θ x - m.θ y) := by ring
  rw [e, abs_mul, mul_assoc]
  have h2 := Real.pi_lt_d4
  refine mul_le_mul ?_ hW (abs_nonneg _) (by norm_num)
  rw [abs_of_pos (by positivity)]
  norm_num at h2
  linarith

/-- The mean value theorem in either direction. -/
theorem mean_value' {f f' : ℝ → ℝ} (hf : ∀ x, HasDerivAt f (f' x) x) {x y : ℝ} (h : x ≠ y) :
    ∃ z, |z - x| ≤ |y - x| ∧ f y - f x = f' z * (y - x) := by
  rcases lt_or_gt_of_ne h with h | h
  · obtain ⟨z, z1, z2, e⟩ := mean_value hf h
    refine ⟨z, ?_, e⟩
    rw [abs_of_pos (by linarith), abs_of_pos (by linarith)]
    linarith
  · obtain ⟨z, z1, z2, e⟩ := mean_value hf h
    refine ⟨z, ?_, by linarith⟩
    rw [abs_of_neg (by linarith), abs_of_neg (by linarith)]
    linarith

/-- A chord of an arc against the tangent. -/
theorem chord_depth {ψ φ D : ℝ} (hφ : φ ≠ 0) :
    |D / φ * Real.sin φ * Real.cos ψ - D / φ * (1 - Real.cos φ) * Real.sin ψ - D * Real.cos ψ| ≤
      |D| * |φ| := by
  obtain ⟨z, h1, h2⟩ := mean_value' (fun x => Real.hasDerivAt_sin x) (x := ψ) (y := ψ + φ)
    (by intro h; apply hφ; linarith)
  rw [add_sub_cancel_left] at h1 h2
  have e : D / φ * Real.sin φ * Real.cos ψ - D / φ * (1 - Real.cos φ) * Real.sin ψ - D * Real.cos ψ =
      D * (Real.cos z - Real.cos ψ) := by
    rw [Real.sin_add] at h2
    field_simp
    linear_combination D * h2
  rw [e, abs_mul]
  exact mul_le_mul_of_nonneg_left (le_trans (Real.abs_cos_sub_cos_le _ _) h1) (abs_nonneg _)

@[inherit_doc chord_depth]
theorem chord_width {ψ φ D : ℝ} (hφ : φ ≠ 0) :
    |D / φ * Real.sin φ * Real.sin ψ + D / φ * (1 - Real.cos φ) * Real.cos ψ - D * Real.sin ψ| ≤
      |D| * |φ| := by
  obtain ⟨z, h1, h2⟩ := mean_value' (fun x => Real.hasDerivAt_cos x) (x := ψ) (y := ψ + φ)
    (by intro h; apply hφ; linarith)
  rw [add_sub_cancel_left] at h1 h2
  have e : D / φ * Real.sin φ * Real.sin ψ + D / φ * (1 - Real.cos φ) * Real.cos ψ - D * Real.sin ψ =
      D * (Real.sin z - Real.sin ψ) := by
    rw [Real.cos_add] at h2
    field_simp
    linear_combination -D * h2
  rw [e, abs_mul]
  exact mul_le_mul_of_nonneg_left (le_trans (Real.abs_sin_sub_sin_le _ _) h1) (abs_nonneg _)

/-- One step: the errors grow at most by their rates. -/
theorem step_bound {m : Motion} {L : Limits} {b e : ℝ} (hm : m.Keeps L b e) {p q : Sample}
    (hb : b ≤ clock p.t) (he : clock q.t ≤ e) (hp : Shows m L p)
    (hq : Shows m L q) (hs : Spaced L p q) {x : Pose} {Sv Sθ : ℝ}
    (hSv : |x.speed - m.v (clock p.t)| ≤ Sv) (hSθ : |x.direction - m.θ (clock p.t)| ≤ Sθ) :
    |(stepPose x p q).speed - m.v (clock q.t)| ≤
      |x.speed - m.v (clock p.t)| + (clock q.t - clock p.t) * L.rateV ∧
    |(stepPose x p q).direction - m.θ (clock q.t)| ≤
      |x.direction - m.θ (clock p.t)| + (clock q.t - clock p.t) * L.rateθ ∧
    |(stepPose x p q).depth - m.X (clock q.t)| ≤
      |x.depth - m.X (clock p.t)| + (clock q.t - clock p.t) * L.rateX Sv Sθ ∧
    |(stepPose x p q).width - m.Y (clock q.t)| ≤
      |x.width - m.Y (clock p.t)| + (clock q.t - clock p.t) * L.rateX Sv Sθ := by
  obtain ⟨k1, k2, k3, k4⟩ := seconds_spec hs
  obtain ⟨-, hH⟩ := hs
  obtain ⟨hp1, hp2⟩ := hp
  obtain ⟨hq1, hq2⟩ := hq
  generalize hk : seconds p q = k at *
  generalize clock p.t = x0 at *
  generalize clock q.t = x1 at *
  have hx : x0 < x1 := by linarith
  have iv := integrate m.dv hx hH k1 k2 k3 (fun z h1 h2 => hm.a z (by linarith) (by linarith))
    (fun z z' h1 h2 h3 h4 => hm.α z z' (by linarith) (by linarith) (by linarith) (by linarith)) hp1 hq1
  have iω := integrate m.dθ hx hH k1 k2 k3 (fun z h1 h2 => hm.ω z (by linarith) (by linarith))
    (fun z z' h1 h2 h3 h4 => hm.β z z' (by linarith) (by linarith) (by linarith) (by linarith)) hp2 hq2
  have hδ := angle_gap hSθ (hm.θ x0 hb (by linarith))
  have hδc := le_trans (Real.abs_cos_sub_cos_le _ _) hδ
  have hδs := le_trans (Real.abs_sin_sub_sin_le _ _) hδ
  have hεω : 0 ≤ L.εω := le_trans (abs_nonneg _) hp2
  have hW : 0 ≤ L.W := le_trans (abs_nonneg _) (hm.ω x0 hb (by linarith))
  -- the rotation of the step
  have hrot : |p.gyro * k + (q.gyro - p.gyro) / k * k * k / 2| ≤ (L.W + L.εω) * L.H := by
    have e : p.gyro * k + (q.gyro - p.gyro) / k * k * k / 2 = (p.gyro + q.gyro) / 2 * k := by
      field_simp; ring
    rw [e, abs_mul, abs_of_pos k1]
    have : |(p.gyro + q.gyro) / 2| ≤ L.W + L.εω := by
      have := hm.ω x0 hb (by linarith)
      have := hm.ω x1 (by linarith) he
      rw [abs_le] at *
      constructor <;> linarith
    exact mul_le_mul this (by linarith) (le_of_lt k1) (by linarith)
  have hΦ : |degToRad (p.gyro * k + (q.gyro - p.gyro) / k * k * k / 2)| ≤
      7 / 400 * (L.W + L.εω) * L.H := by
    unfold degToRad
    rw [abs_div, abs_mul, abs_of_pos (by norm_num : (0:ℝ) < 180)]
    have hc : |constPi| ≤ 63 / 20 := by
      unfold constPi
      rw [abs_of_pos (by norm_num)]; norm_num
    have := mul_le_mul hc hrot (abs_nonneg _) (by norm_num)
    have e : 7 / 400 * (L.W + L.εω) * L.H = 63 / 20 * ((L.W + L.εω) * L.H) / 180 := by ring
    rw [e]
    exact div_le_div_of_nonneg_right this (by norm_num)
  have hΦ0 := le_trans (abs_nonneg _) hΦ
  have pX : ∀ Δ, |Δ - (x.speed * k + p.accel * k * k / 2 + (q.accel - p.accel) / k * k * k * k / 6) *
      Real.cos (degToRad x.direction)| ≤
      |x.speed * k + p.accel * k * k / 2 + (q.accel - p.accel) / k * k * k * k / 6| *
        (7 / 400 * (L.W + L.εω) * L.H) →
      |x.depth + Δ - m.X x1| ≤ |x.depth - m.X x0| + (x1 - x0) * L.rateX Sv Sθ := by
    intro Δ hΔ
    have := position m.dv m.dX (c := Real.cos (degToRad x.direction)) hx hH k1 k2 k3
      (fun z h1 h2 => hm.v z (by linarith) (by linarith))
      (fun z h1 h2 => hm.a z (by linarith) (by linarith))
      (fun x => Real.abs_cos_le_one _)
      (fun z h1 h2 => le_trans (Real.abs_cos_sub_cos_le _ _) (trig_var hm _ z hb h1 (by linarith))) hp1 hq1 hSv
      (Real.abs_cos_le_one _) hδc rfl hΔ hΦ0
    have e : x.depth + Δ - m.X x1 = (x.depth - m.X x0) + (Δ - (m.X x1 - m.X x0)) := by ring
    rw [e]
    refine le_trans (abs_add_le _ _) (add_le_add_right (le_trans this (le_of_eq ?_)) _)
    unfold Limits.rateX
    ring
  have pY : ∀ Δ, |Δ - (x.speed * k + p.accel * k * k / 2 + (q.accel - p.accel) / k * k * k * k / 6) *
      Real.sin (degToRad x.direction)| ≤
      |x.speed * k + p.accel * k * k / 2 + (q.accel - p.accel) / k * k * k * k / 6| *
        (7 / 400 * (L.W + L.εω) * L.H) →
      |x.width + Δ - m.Y x1| ≤ |x.width - m.Y x0| + (x1 - x0) * L.rateX Sv Sθ := by
    intro Δ hΔ
    have := position m.dv m.dY (c := Real.sin (degToRad x.direction)) hx hH k1 k2 k3
      (fun z h1 h2 => hm.v z (by linarith) (by linarith))
      (fun z h1 h2 => hm.a z (by linarith) (by linarith))
      (fun x => Real.abs_sin_le_one _)
      (fun z h1 h2 => le_trans (Real.abs_sin_sub_sin_le _ _) (trig_var hm _ z hb h1 (by linarith))) hp1 hq1 hSv
      (Real.abs_sin_le_one _) hδs rfl hΔ hΦ0
    have e : x.width + Δ - m.Y x1 = (x.width - m.Y x0) + (Δ - (m.Y x1 - m.Y x0)) := by ring
    rw [e]
    refine le_trans (abs_add_le _ _) (add_le_add_right (le_trans this (le_of_eq ?_)) _)
    unfold Limits.rateX
    ring
  have pv : |x.speed + p.accel * k + (q.accel - p.accel) / k * k * k / 2 - m.v x1| ≤
      |x.speed - m.v x0| + (x1 - x0) * L.rateV := by
    have e : x.speed + p.accel * k + (q.accel - p.accel) / k * k * k / 2 - m.v x1 =
      (x.speed - m.v x0) + (p.accel * k + (q.accel - p.accel) / k * k * k / 2 - (m.v x1 - m.v x0)) := by
      ring
    rw [e]
    exact le_trans (abs_add_le _ _) (add_le_add_right iv _)
  generalize hrotv : p.gyro * k + (q.gyro - p.gyro) / k * k * k / 2 = rot at *
  unfold stepPose
  dsimp only
  rw [hk, hrotv]
  by_cases hs : |rot| < 0.000001
  · rw [if_pos hs]
    refine ⟨pv, ?_, ?_, ?_⟩
    · have e : x.direction - m.θ x1 = (x.direction - m.θ x0) + ((rot - (m.θ x1 - m.θ x0)) - rot) := by
        ring
      have : |rot - (m.θ x1 - m.θ x0) - rot| ≤ (x1 - x0) * L.rateθ := by
        refine le_trans (abs_sub _ _) ?_
        unfold Limits.rateθ
        have : (x1 - x0) * (L.β + L.εω + L.W / 1000 + 1 / 1000) =
          (x1 - x0) * (L.β + L.εω + L.W / 1000) + (x1 - x0) * (1 / 1000) := by ring
        rw [this]
        refine add_le_add iω ?_
        norm_num at hs
        linarith
      rw [e]
      exact le_trans (abs_add_le _ _) (add_le_add_right this _)
    · refine pX _ ?_
      rw [sub_self, abs_zero]
      positivity
    · refine pY _ ?_
      rw [sub_self, abs_zero]
      positivity
  · rw [if_neg hs]
    have hφ : degToRad rot ≠ 0 := by
      unfold degToRad constPi
      intro h
      apply hs
      have : rot = 0 := by linarith
      rw [this, abs_zero]
      norm_num
    refine ⟨pv, ?_, ?_, ?_⟩
    · have e : x.direction + rot - m.θ x1 = (x.direction - m.θ x0) + (rot - (m.θ x1 - m.θ x0)) := by
        ring
      have hr : (x1 - x0) * (L.β + L.εω + L.W / 1000) ≤ (x1 - x0) * L.rateθ := by
        refine mul_le_mul_of_nonneg_left ?_ (by linarith)
        unfold Limits.rateθ
        linarith
      show |x.direction + rot - m.θ x1| ≤ _
      rw [e]
      exact le_trans (abs_add_le _ _) (add_le_add_right (le_trans iω hr) _)
    · have := pX _ (le_trans (chord_depth (ψ := degToRad x.direction) hφ)
        (mul_le_mul_of_nonneg_left hΦ (abs_nonneg _)))
      rw [← add_sub_assoc] at this
      exact this
    · have := pY _ (le_trans (chord_width (ψ := degToRad x.direction) hφ)
        (mul_le_mul_of_nonneg_left hΦ (abs_nonneg _)))
      rw [← add_assoc] at this
      exact this

theorem last_after {m : Motion} {L : Limits} : ∀ (l : List Sample) (q : Sample), Good m L q l →
    0 ≤ clock (lastOf q l).t - clock q.t := by
  intro l
  induction l with
  | nil => intro q _; unfold lastOf; linarith
  | cons q' l ih =>
    intro q hg
    have h1 := (seconds_spec hg.2.1).2.2.2
    have h2 := ih q' hg.2.2
    unfold lastOf
    linarith

theorem track_bound {m : Motion} {L : Limits} {b e : ℝ} (hm : m.Keeps L b e) {T : ℝ} :
    ∀ (l : List Sample) {p : Sample} {x : Pose} {τ : ℝ}, Good m L p l → b ≤ clock p.t →
    clock (lastOf p l).t ≤ e → 0 ≤ τ →
    τ + (clock (lastOf p l).t - clock p.t) ≤ T →
    |x.speed - m.v (clock p.t)| ≤ τ * L.rateV → |x.direction - m.θ (clock p.t)| ≤ τ * L.rateθ →
    |x.depth - m.X (clock p.t)| ≤ τ * L.rateX (T * L.rateV) (T * L.rateθ) →
    |x.width - m.Y (clock p.t)| ≤ τ * L.rateX (T * L.rateV) (T * L.rateθ) →
    0 ≤ L.rateV → 0 ≤ L.rateθ →
    |(track x p l).speed - m.v (clock (lastOf p l).t)| ≤
      (τ + (clock (lastOf p l).t - clock p.t)) * L.rateV ∧
    |(track x p l).direction - m.θ (clock (lastOf p l).t)| ≤
      (τ + (clock (lastOf p l).t - clock p.t)) * L.rateθ ∧
    |(track x p l).depth - m.X (clock (lastOf p l).t)| ≤
      (τ + (clock (lastOf p l).t - clock p.t)) * L.rateX (T * L.rateV) (T * L.rateθ) ∧
    |(track x p l).width - m.Y (clock (lastOf p l).t)| ≤
      (τ + (clock (lastOf p l).t - clock p.t)) * L.rateX (T * L.rateV) (T * L.rateθ) := by
  intro l
  induction l with
  | nil =>
    intro p x τ hg hb he hτ hT h1 h2 h3 h4 _ _
    unfold track lastOf
    rw [sub_self, add_zero]
    exact ⟨h1, h2, h3, h4⟩
  | cons q l ih =>
    intro p x τ hg hb he hτ hT h1 h2 h3 h4 r1 r2
    obtain ⟨hp, hs, hg⟩ := hg
    have hq : Shows m L q := by
      cases l with
      | nil => exact hg
      | cons _ _ => exact hg.1
    have hpq : 0 ≤ clock q.t - clock p.t := by
      have := (seconds_spec hs).2.2.2
      linarith
    have hl := last_after l q hg
    have el : lastOf p (q :: l) = lastOf q l := rfl
    rw [el] at hT he ⊢
    have hτT : τ ≤ T := by linarith
    obtain ⟨b1, b2, b3, b4⟩ := step_bound hm hb (by linarith) hp hq hs
      (le_trans h1 (mul_le_mul_of_nonneg_right hτT r1))
      (le_trans h2 (mul_le_mul_of_nonneg_right hτT r2))
    obtain ⟨c1, c2, c3, c4⟩ := ih (p := q) (x := stepPose x p q) (τ := τ + (clock q.t - clock p.t)) hg
      (by linarith) he (by linarith) (by linarith)
      (by rw [add_mul]; exact le_trans b1 (add_le_add_left h1 _))
      (by rw [add_mul]; exact le_trans b2 (add_le_add_left h2 _))
      (by rw [add_mul]; exact le_trans b3 (add_le_add_left h3 _))
      (by rw [add_mul]; exact le_trans b4 (add_le_add_left h4 _)) r1 r2
    have e2 : τ + (clock q.t - clock p.t) + (clock (lastOf q l).t - clock q.t) =
        τ + (clock (lastOf q l).t - clock p.t) := by ring
    rw [e2] at c1 c2 c3 c4
    exact ⟨c1, c2, c3, c4⟩

/-- **C76.**  For every motion within given limits and every samples that show it up to given errors, at
least a millisecond apart: when the tracker starts from the true pose, then after `T` seconds

1. its speed is off by at most `T` times (change of the acceleration within an interval + error of its
   reading + 0.1 % of the acceleration),
2. its direction by at most `T` times (change of the rotation within an interval + error of its reading
   + 0.1 % of the rotation + 0.001 degrees per second),
3. its position, in each coordinate, by at most `T` times `rateX`: the error of the speed, the speed
   times the error of the direction in radians, 0.1 % of the speed, and terms proportional to the
   length of the interval. -/
theorem C76_tracking (m : Motion) (L : Limits) (x : Pose) (p : Sample) (l : List Sample)
    (hm : m.Keeps L (clock p.t) (clock (lastOf p l).t)) (hg : Good m L p l)
    (hv : x.speed = m.v (clock p.t)) (hθ : x.direction = m.θ (clock p.t)) (hX : x.depth = m.X (clock p.t))
    (hY : x.width = m.Y (clock p.t)) :
    let T := clock (lastOf p l).t - clock p.t
    let now := clock (lastOf p l).t
    let r := tracked x (p :: l)
    |r.speed - m.v now| ≤ T * (L.α + L.εa + L.A / 1000) ∧
    |r.direction - m.θ now| ≤ T * (L.β + L.εω + L.W / 1000 + 1 / 1000) ∧
    |r.depth - m.X now| ≤ T * L.rateX (T * L.rateV) (T * L.rateθ) ∧
    |r.width - m.Y now| ≤ T * L.rateX (T * L.rateV) (T * L.rateθ) := by
  intro T now r
  have hp : Shows m L p := by
    cases l with
    | nil => exact hg
    | cons _ _ => exact hg.1
  have hl : clock p.t ≤ clock (lastOf p l).t := by
    have := last_after l p hg
    linarith
  have hα : 0 ≤ L.α ∧ 0 ≤ L.β ∨ L.H < 0 := by
    rcases lt_or_ge L.H 0 with h | h
    · exact Or.inr h
    · left
      constructor
      · have := hm.α _ _ (le_refl _) hl (le_refl _) hl (by rw [sub_self, abs_zero]; exact h)
        exact le_trans (abs_nonneg _) this
      · have := hm.β _ _ (le_refl _) hl (le_refl _) hl (by rw [sub_self, abs_zero]; exact h)
        exact le_trans (abs_nonneg _) this
  have h1 : 0 ≤ L.εa := le_trans (abs_nonneg _) hp.1
  have h2 : 0 ≤ L.εω := le_trans (abs_nonneg _) hp.2
  have h3 : 0 ≤ L.A := le_trans (abs_nonneg _) (hm.a _ (le_refl _) hl)
  have h4 : 0 ≤ L.W := le_trans (abs_nonneg _) (hm.ω _ (le_refl _) hl)
  rcases hα with ⟨hα, hβ⟩ | hH
  · have := track_bound hm (T := T) l (p := p) (x := x) (τ := 0) hg (le_refl _) (le_refl _) (le_refl _)
      (by linarith)
      (by rw [hv, sub_self, abs_zero, zero_mul]) (by rw [hθ, sub_self, abs_zero, zero_mul])
      (by rw [hX, sub_self, abs_zero, zero_mul]) (by rw [hY, sub_self, abs_zero, zero_mul])
      (by unfold Limits.rateV; linarith) (by unfold Limits.rateθ; linarith)
    rw [zero_add] at this
    exact this
  · cases l with
    | nil =>
      have e : T = 0 := sub_self _
      have e2 : r = x := rfl
      have e3 : now = clock p.t := rfl
      rw [e, e2, e3, hv, hθ, hX, hY]
      simp
    | cons q l =>
      exfalso
      have h5 := (seconds_spec hg.2.1).2.2.2
      have h6 := hg.2.1.2
      linarith

/-- The hypotheses can be met: a car on a circle, a quarter of a turn per second, sampled every two
milliseconds. -/
def circling : Motion where
  v := fun _ => 1
  a := fun _ => 0
  θ := fun x => 90 * x
  ω := fun _ => 90
  X := fun x => 2 / Real.pi * Real.sin (Real.pi / 2 * x)
  Y := fun x => - (2 / Real.pi) * Real.cos (Real.pi / 2 * x)
  dv := fun x => hasDerivAt_const x 1
  dθ := fun x => by simpa using (hasDerivAt_id x).const_mul 90
  dX := fun x => by
    have h : HasDerivAt (fun x : ℝ => Real.pi / 2 * x) (Real.pi / 2) x := by
      simpa using (hasDerivAt_id x).const_mul (Real.pi / 2)
    have := h.sin.const_mul (2 / Real.pi)
    have e : Real.pi * (90 * x) / 180 = Real.pi / 2 * x := by ring
    rw [e]
    have e2 : 2 / Real.pi * (Real.cos (Real.pi / 2 * x) * (Real.pi / 2)) = 1 * Real.cos (Real.pi / 2 * x) := by
      have := Real.pi_ne_zero
      field_simp
    rw [← e2]
    exact this
  dY := fun x => by
    have h : HasDerivAt (fun x : ℝ => Real.pi / 2 * x) (Real.pi / 2) x := by
      simpa using (hasDerivAt_id x).const_mul (Real.pi / 2)
    have := h.cos.const_mul (-(2 / Real.pi))
    have e : Real.pi * (90 * x) / 180 = Real.pi / 2 * x := by ring
    rw [e]
    have e2 : -(2 / Real.pi) * (-Real.sin (Real.pi / 2 * x) * (Real.pi / 2)) =
        1 * Real.sin (Real.pi / 2 * x) := by
      have := Real.pi_ne_zero
      field_simp
    rw [← e2]
    exact this

@[inherit_doc circling] def circlingLimits : Limits where
  V := 1
  A := 0
  W := 90
  Θ := 1
  α := 0
  β := 0
  εa := 0
  εω := 0
  H := 2 / 1000

example :
    let p : Sample := ⟨0, 0, 90⟩
    let l : List Sample := [⟨2000000, 0, 90⟩, ⟨4000000, 0, 90⟩]
    circling.Keeps circlingLimits (clock p.t) (clock (lastOf p l).t) ∧ Good circling circlingLimits p l := by
  refine ⟨⟨?_, ?_, ?_, ?_, ?_, ?_⟩, ?_⟩ <;>
    simp [circling, circlingLimits, clock, lastOf, Good, Shows, Spaced]
  · intro x h1 h2
    rw [abs_of_nonneg h1]
    linarith
  · norm_num

/-! ## Motions that are followed exactly

With exact readings taken whole microseconds apart there is no error (other than that of the code's
`pi`) on a straight line with a linearly changing acceleration, nor on a circle. -/

/-- Samples at least a millisecond and whole microseconds apart, which all fulfil `P`. -/
def Even (P : Sample → Prop) (p : Sample) : List Sample → Prop
  | [] => P p
  | q :: l => P p ∧ 1000000 ≤ q.t - p.t ∧ 1000 ∣ q.t - p.t ∧ Even P q l

theorem seconds_even {p q : Sample} (h : 1000 ∣ q.t - p.t) : seconds p q = clock q.t - clock p.t := by
  obtain ⟨k, hk⟩ := h
  unfold seconds clock
  have e : (q.t : ℝ) - p.t = 1000 * k := by exact_mod_cast hk
  rw [hk, Int.mul_tdiv_cancel_left k (by decide)]
  field_simp
  linarith

theorem even_head {P : Sample → Prop} {p : Sample} {l : List Sample} (h : Even P p l) : P p := by
  cases l with
  | nil => exact h
  | cons _ _ => exact h.1

theorem track_even {P : Sample → Prop} {f : ℝ → Pose}
    (hf : ∀ p q : Sample, P p → P q → 1000000 ≤ q.t - p.t → 1000 ∣ q.t - p.t →
      stepPose (f (clock p.t)) p q = f (clock q.t)) :
    ∀ (l : List Sample) (p : Sample), Even P p l → track (f (clock p.t)) p l = f (clock (lastOf p l).t) := by
  intro l
  induction l with
  | nil => intro p _; rfl
  | cons q l ih =>
    intro p h
    obtain ⟨h1, h2, h3, h4⟩ := h
    unfold track lastOf
    rw [hf p q h1 (even_head h4) h2 h3]
    exact ih q h4

/-- C76, on a straight line with acceleration `a + j x` at time `x`. -/
theorem C76_straight (v a j X Y θ : ℝ) (p : Sample) (l : List Sample)
    (h : Even (fun s => s.accel = a + j * clock s.t ∧ s.gyro = 0) p l) :
    let way : ℝ → ℝ := fun x => v * x + a * x ^ 2 / 2 + j * x ^ 3 / 6
    let pose : ℝ → Pose := fun x =>
      { depth := X + way x * Real.cos (constPi * θ / 180)
        width := Y + way x * Real.sin (constPi * θ / 180)
        direction := θ
        speed := v + a * x + j * x ^ 2 / 2 }
    tracked (pose (clock p.t)) (p :: l) = pose (clock (lastOf p l).t) := by
  intro way pose
  refine track_even (f := pose) (fun p q hp hq h1 h2 => ?_) l p h
  have hs := seconds_even h2
  have hpos : 0 < clock q.t - clock p.t := by
    unfold clock
    have : (1000000 : ℝ) ≤ q.t - p.t := by exact_mod_cast h1
    linarith
  simp only [stepPose, hs, hp.1, hp.2, hq.1, hq.2, pose, way, degToRad]
  generalize clock p.t = x0 at *
  generalize clock q.t = x1 at *
  have hne : x1 - x0 ≠ 0 := ne_of_gt hpos
  simp only [sub_self, zero_div, zero_mul, add_zero, abs_zero]
  rw [if_pos (by norm_num)]
  have e1 : (a + j * x1 - (a + j * x0)) / (x1 - x0) = j := by
    rw [div_eq_iff hne]; ring
  rw [e1]
  congr 1 <;> ring

/-- C76, on a circle at speed `v` and `w` degrees per second. -/
theorem C76_circle (v w X Y θ : ℝ) (hw : 1 / 1000 ≤ |w|) (p : Sample) (l : List Sample)
    (h : Even (fun s => s.accel = 0 ∧ s.gyro = w) p l) :
    let radius := v / (constPi * w / 180)
    let pose : ℝ → Pose := fun x =>
      { depth := X + radius * Real.sin (constPi * (θ + w * x) / 180)
        width := Y - radius * Real.cos (constPi * (θ + w * x) / 180)
        direction := θ + w * x
        speed := v }
    tracked (pose (clock p.t)) (p :: l) = pose (clock (lastOf p l).t) := by
  intro radius pose
  refine track_even (f := pose) (fun p q hp hq h1 h2 => ?_) l p h
  have hs := seconds_even h2
  have hpos : 1 / 1000 ≤ clock q.t - clock p.t := by
    unfold clock
    have : (1000000 : ℝ) ≤ q.t - p.t := by exact_mod_cast h1
    linarith
  simp only [stepPose, hs, hp.1, hp.2, hq.1, hq.2, pose, radius, degToRad]
  generalize clock p.t = x0 at *
  generalize clock q.t = x1 at *
  have hne : x1 - x0 ≠ 0 := by intro e; rw [e] at hpos; norm_num at hpos
  have hw0 : w ≠ 0 := by intro e; rw [e] at hw; norm_num at hw
  have hc : constPi ≠ 0 := by unfold constPi; norm_num
  simp only [sub_self, zero_div, zero_mul, add_zero]
  rw [if_neg (by
    rw [abs_mul, abs_of_nonneg (a := x1 - x0) (by linarith), not_lt]
    calc (0.000001 : ℝ) = 1 / 1000 * (1 / 1000) := by norm_num
      _ ≤ |w| * (x1 - x0) := mul_le_mul hw hpos (by norm_num) (abs_nonneg _))]
  have e : constPi * (θ + w * x1) / 180 =
      constPi * (θ + w * x0) / 180 + constPi * (w * (x1 - x0)) / 180 := by ring
  have e2 : v * (x1 - x0) / (constPi * (w * (x1 - x0)) / 180) = v / (constPi * w / 180) := by
    field_simp
  rw [e, Real.sin_add, Real.cos_add, e2]
  congr 1 <;> ring

/-- C76, units: with the scale `num / den` metres, an acceleration of `g` times `accelX` is
`9.80665 * accelX` metres per second squared. -/
theorem C76_unit (num den : ℕ) (hn : num ≠ 0) (hd : den ≠ 0) (accelX : ℝ) :
    currAccel num den accelX * ((num : ℝ) / den) = 9.80665 * accelX := by
  unfold currAccel constG
  have h1 : (num : ℝ) ≠ 0 := by exact_mod_cast hn
  have h2 : (den : ℝ) ≠ 0 := by exact_mod_cast hd
  field_simp

/-- C76, at rest: a car that stands still stays where it is, however long. -/
theorem C76_rest (x : Pose) (hx : x.speed = 0) (l : List Sample)
    (h : ∀ s ∈ l, s.accel = 0 ∧ s.gyro = 0) : tracked x l = x := by
  cases l with
  | nil => rfl
  | cons p l =>
    show track x p l = x
    induction l generalizing p with
    | nil => rfl
    | cons q l ih =>
      have hp := h p (by simp)
      have hq := h q (by simp)
      have e : stepPose x p q = x := by
        simp only [stepPose, hp.1, hp.2, hq.1, hq.2, hx]
        simp
        rw [← hx]
      show track (stepPose x p q) q l = x
      rw [e]
      exact ih q (fun s hs => h s (by simp at hs ⊢; tauto))

example : Even (fun s => s.accel = 1 + 2 * clock s.t ∧ s.gyro = 0) ⟨0, 1, 0⟩
    [⟨500000000, 2, 0⟩, ⟨1000000000, 3, 0⟩] := by
  simp [Even, clock]
  norm_num

example : Even (fun s => s.accel = 0 ∧ s.gyro = 45) ⟨0, 0, 45⟩ [⟨1001000, 0, 45⟩, ⟨3000000, 0, 45⟩] := by
  simp [Even]

end

end Abc.Gpio.Tracker
