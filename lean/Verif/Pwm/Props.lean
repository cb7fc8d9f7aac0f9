import Verif.Pwm.Model

/-!
# C36 and C37: PWM register values and pulse timing
-/

namespace Abc.Pwm

theorem bitCount_bounds (p : Nat) (hp : p ≠ 0) :
    1 ≤ autoreloadBitCount p ∧ 4 ^ (autoreloadBitCount p - 1) ≤ p ∧ p < 4 ^ autoreloadBitCount p := by
  induction p using Nat.strongRecOn with
  | _ p ih =>
    unfold autoreloadBitCount
    rw [dif_neg hp]
    by_cases h : p / 4 = 0
    · have h0 : autoreloadBitCount 0 = 0 := by unfold autoreloadBitCount; simp
      rw [h, h0]; simp; omega
    · obtain ⟨h1, h2, h3⟩ := ih (p / 4) (by omega) h
      obtain ⟨k, hk⟩ : ∃ k, autoreloadBitCount (p / 4) = k + 1 := ⟨autoreloadBitCount (p / 4) - 1, by omega⟩
      rw [hk] at h2 h3 ⊢
      refine ⟨by omega, ?_, ?_⟩
      · simp only [Nat.add_sub_cancel] at h2 ⊢; rw [Nat.pow_succ]; omega
      · rw [Nat.pow_succ] at h3 ⊢; rw [Nat.pow_succ] ; omega

/-- Below 2^18 ticks per pulse the autoreload value is zero. -/
theorem autoreload_small (p : Nat) (h : p < 262144) : autoreloadFromPeriod p = 0 := by
  unfold autoreloadFromPeriod
  by_cases hp : p = 0
  · subst hp; unfold autoreloadBitCount; decide
  obtain ⟨h1, h2, h3⟩ := bitCount_bounds p hp
  have : autoreloadBitCount p ≤ 9 := by
    apply Nat.le_of_not_lt
    intro hlt
    have : 4 ^ 9 ≤ 4 ^ (autoreloadBitCount p - 1) := Nat.pow_le_pow_right (by omega) (by omega)
    omega
  have h9 : 2 ^ autoreloadBitCount p ≤ 2 ^ 9 := Nat.pow_le_pow_right (by omega) this
  omega

/-- The possible values for periods below 2^32. -/
theorem autoreload_table (p : Nat) (h : 262144 ≤ p) (h' : p < 2 ^ 32) :
    (p < 1048576 ∧ autoreloadFromPeriod p = 1000) ∨
    (1048576 ≤ p ∧ p < 4194304 ∧ autoreloadFromPeriod p = 2000) ∨
    (4194304 ≤ p ∧ p < 16777216 ∧ autoreloadFromPeriod p = 4000) ∨
    (16777216 ≤ p ∧ p < 67108864 ∧ autoreloadFromPeriod p = 8000) ∨
    (67108864 ≤ p ∧ p < 268435456 ∧ autoreloadFromPeriod p = 16000) ∨
    (268435456 ≤ p ∧ p < 1073741824 ∧ autoreloadFromPeriod p = 32000) ∨
    (1073741824 ≤ p ∧ autoreloadFromPeriod p = 65000) := by
  obtain ⟨h1, h2, h3⟩ := bitCount_bounds p (by omega)
  have hlo : 10 ≤ autoreloadBitCount p := by
    apply Nat.le_of_not_lt
    intro hlt
    have : 4 ^ autoreloadBitCount p ≤ 4 ^ 9 := Nat.pow_le_pow_right (by omega) (by omega)
    omega
  have hhi : autoreloadBitCount p ≤ 16 := by
    apply Nat.le_of_not_lt
    intro hlt
    have : 4 ^ 16 ≤ 4 ^ (autoreloadBitCount p - 1) := Nat.pow_le_pow_right (by omega) (by omega)
    omega
  have hc : autoreloadBitCount p = 10 ∨ autoreloadBitCount p = 11 ∨ autoreloadBitCount p = 12 ∨
      autoreloadBitCount p = 13 ∨ autoreloadBitCount p = 14 ∨ autoreloadBitCount p = 15 ∨
      autoreloadBitCount p = 16 := by omega
  unfold autoreloadFromPeriod
  rcases hc with hc | hc | hc | hc | hc | hc | hc <;> rw [hc] at h2 h3 ⊢ <;> simp at h2 h3 ⊢ <;> omega

/-- C36, the part that holds: when the clock gives at least 2^18 and less than 65537·65000 ticks per
pulse, and no pulse limits are given, the constructor performs no division by zero; the words
written to the autoreload and prescaler registers are exactly `autoreload - 1` and `prescaler - 1`
(nothing is cut off); the programmed pulse lasts at most the requested one and misses it by less
than one prescaler step per tick; the pulse word is within `0 … autoreload`, grows with the duty
cycle, is 0 for 0% and the full `autoreload` from 100% on.
Missing: smaller periods divide by zero (`registers_violated_division_by_zero`), larger periods do
not fit the registers (`registers_violated_truncation`). -/
theorem registers_partial (clock frequency : Nat) (hf : frequency ≠ 0)
    (hlo : 262144 ≤ clock / frequency) (hhi : clock / frequency < 65537 * 65000) :
    ∃ s, construct clock frequency 0 0 = some s ∧
      s.regAutoreload + 1 = s.autoreload ∧ s.regPrescaler + 1 = s.prescaler ∧
      s.autoreload * s.prescaler ≤ clock / frequency ∧
      clock / frequency < s.autoreload * (s.prescaler + 1) ∧
      1000 ≤ s.autoreload ∧
      (∀ d, regPwm s d ≤ s.autoreload ∧ regPwm s d = captureCompare s d) ∧
      (∀ d e, d ≤ e → regPwm s d ≤ regPwm s e) ∧
      regPwm s 0 = 0 ∧ (∀ d, 100 ≤ d → regPwm s d = s.autoreload) := by
  generalize hp : clock / frequency = p at *
  have ht := autoreload_table p hlo (by omega)
  generalize ha : autoreloadFromPeriod p = a at *
  have ha0 : a ≠ 0 := by omega
  have hal : 1000 ≤ a ∧ a ≤ 65000 := by omega
  have hq : p / a ≠ 0 := by
    have : 1 ≤ p / a := (Nat.le_div_iff_mul_le (by omega)).2 (by omega)
    omega
  have hq' : p / a < 65537 := by
    rcases ht with ⟨h1, h2⟩ | ⟨h1, h1', h2⟩ | ⟨h1, h1', h2⟩ | ⟨h1, h1', h2⟩ | ⟨h1, h1', h2⟩ | ⟨h1, h1', h2⟩ | ⟨h1, h2⟩ <;>
      subst h2 <;> omega
  have hcc : ∀ d, captureCompare ⟨0, a, p, a, p / a, a - 1, p / a - 1⟩ d =
      if d ≥ 100 then a else d * a / 100 := by
    intro d
    unfold captureCompare sub64 u64
    simp only
    by_cases h : d > 100
    · simp [h]; omega
    · rw [if_neg h]
      by_cases h0 : d = 0
      · simp [h0]
      · rw [if_neg h0]
        by_cases h100 : d = 100
        · simp [h100]
        · rw [if_neg h100, if_neg (by omega)]
          have e1 : (a + 2 ^ 64 - 0) % 2 ^ 64 = a := by omega
          have e2 : d * a ≤ 100 * 65000 := Nat.mul_le_mul (by omega) hal.2
          rw [e1]; omega
  have hle : ∀ d, d < 100 → d * a / 100 ≤ a := by
    intro d hd
    have : d * a ≤ 100 * a := Nat.mul_le_mul_right _ (by omega)
    omega
  have hreg : ∀ d, regPwm ⟨0, a, p, a, p / a, a - 1, p / a - 1⟩ d = if d ≥ 100 then a else d * a / 100 := by
    intro d
    unfold regPwm u16
    rw [hcc d]
    split
    · omega
    · have := hle d (by omega); omega
  refine ⟨⟨0, a, p, a, p / a, a - 1, p / a - 1⟩, ?_, ?_, ?_, ?_, ?_, ?_, ?_, ?_, ?_, ?_⟩
  · unfold construct
    have e1 : u16 (sub64 a 1) = a - 1 := by unfold u16 sub64; omega
    have e2 : u16 (sub64 (p / a) 1) = p / a - 1 := by
      generalize p / a = q at *
      unfold u16 sub64; omega
    simp [finish, hf, hp, ha, ha0, e1, e2]
  · simp only; omega
  · simp only; generalize p / a = q at *; omega
  · simp only; exact Nat.mul_div_le p a
  · simp only; rw [Nat.mul_add, Nat.mul_one]; have := Nat.div_add_mod p a; have := Nat.mod_lt p (y := a) (by omega); omega
  · exact hal.1
  · intro d
    constructor
    · rw [hreg d]; simp only; split
      · omega
      · exact hle d (by omega)
    · rw [hreg d, hcc d]
  · intro d e hde
    rw [hreg d, hreg e]
    by_cases h1 : d ≥ 100
    · rw [if_pos h1, if_pos (by omega)]; omega
    · rw [if_neg h1]
      split
      · exact hle d (by omega)
      · exact Nat.div_le_div_right (Nat.mul_le_mul_right _ hde)
  · rw [hreg 0]; simp
  · intro d hd; rw [hreg d, if_pos hd]

/-- Instance: the 72 MHz board of the samples at 50 Hz. -/
example : (50 : Nat) ≠ 0 ∧ 262144 ≤ 72000000 / 50 ∧ 72000000 / 50 < 65537 * 65000 := by decide

/-- C36 is violated: for every clock and every non-zero frequency with fewer than 2^18 clock ticks
per pulse, the constructor divides by zero, whatever the pulse limits. -/
theorem registers_violated_division_by_zero (clock frequency minUs maxUs : Nat)
    (h : clock / frequency < 262144) : construct clock frequency minUs maxUs = none := by
  unfold construct
  by_cases hf : frequency = 0
  · simp [hf]
  · simp [autoreload_small _ h]

/-- Instance: 72 MHz at 300 Hz. -/
example : 72000000 / 300 < 262144 := by decide

/-- C36 is violated at the other end: the prescaler does not fit its 16-bit register. -/
theorem registers_violated_truncation :
    ∃ s, construct 4294000000 1 0 0 = some s ∧ s.regPrescaler + 1 ≠ s.prescaler := by
  have key : ∀ p, p = 4294000000 →
      ∃ s, construct p 1 0 0 = some s ∧ s.regPrescaler + 1 ≠ s.prescaler := by
    intro p hp
    have ht := autoreload_table p (by omega) (by omega)
    have ha : autoreloadFromPeriod p = 65000 := by omega
    have hq : p / 65000 = 66061 := by omega
    refine ⟨⟨0, 65000, p, 65000, 66061, 64999, 524⟩, ?_, by simp⟩
    simp [construct, finish, ha, hq, u16, sub64]
  exact key _ rfl

/-- C36 with pulse limits (servo): if the limits are ordered, at most one pulse long, and the
products do not overflow 64 bits, then for every duty cycle strictly between 0% and 100% the pulse
value lies between the two scaled limits and grows with the duty cycle. -/
theorem servo_pulse_partial (clock frequency minUs maxUs : Nat) (s : State)
    (hs : construct clock frequency minUs maxUs = some s) (hmm : minUs ≤ maxUs)
    (hov : maxUs * clock < 2 ^ 64 / 100) (hmax : maxUs * clock / 1000000 ≠ 0) :
    s.minPulseWidth = minUs * clock / 1000000 / s.prescaler ∧
    s.maxPulseWidth = maxUs * clock / 1000000 / s.prescaler ∧
    (∀ d, 0 < d → d < 100 → s.minPulseWidth ≤ captureCompare s d ∧ captureCompare s d ≤ s.maxPulseWidth) ∧
    (∀ d e, 0 < d → d ≤ e → e < 100 → captureCompare s d ≤ captureCompare s e) := by
  have hmin : minUs * clock ≤ maxUs * clock := Nat.mul_le_mul_right _ hmm
  have hm0 : maxUs ≠ 0 := by intro h; subst h; simp at hmax
  have e1 : u64 (minUs * clock) = minUs * clock := by unfold u64; omega
  have e2 : u64 (maxUs * clock) = maxUs * clock := by unfold u64; omega
  unfold construct at hs
  simp only [ne_eq, hm0, not_false_eq_true, if_true, e1, e2] at hs
  by_cases hf : frequency = 0
  · simp [hf] at hs
  by_cases ha : autoreloadFromPeriod (clock / frequency) = 0
  · simp [hf, ha] at hs
  by_cases hp : clock / frequency / autoreloadFromPeriod (clock / frequency) = 0
  · simp [hf, ha, hmax, hp] at hs
  simp only [hf, ha, hmax, hp, if_false, Option.some.injEq, finish] at hs
  subst hs
  simp only [true_and]
  clear hmax ha hp e1 e2
  generalize hq : clock / frequency / autoreloadFromPeriod (clock / frequency) = q at *
  generalize hA : minUs * clock / 1000000 / q = A
  generalize hB : maxUs * clock / 1000000 / q = B
  have hAB : A ≤ B := by
    rw [← hA, ← hB]
    exact Nat.div_le_div_right (Nat.div_le_div_right hmin)
  have hBs : B ≤ maxUs * clock := by
    rw [← hB]
    exact Nat.le_trans (Nat.div_le_self _ _) (Nat.div_le_self _ _)
  have hsub : sub64 B A = B - A := by unfold sub64; omega
  have hval : ∀ r1 r2 r3 r4 r5 d, 0 < d → d < 100 → captureCompare ⟨A, B, r1, r2, r3, r4, r5⟩ d = A + d * (B - A) / 100 := by
    intro r1 r2 r3 r4 r5 d h0 h1
    have hb : d * (B - A) ≤ 100 * (B - A) := Nat.mul_le_mul_right _ (by omega)
    unfold captureCompare
    have hdd : (if d > 100 then 100 else d) = d := if_neg (by omega)
    simp only [hsub, hdd]
    rw [if_neg (by omega), if_neg (by omega)]
    unfold u64
    omega
  constructor
  · intro d h0 h1
    rw [hval _ _ _ _ _ d h0 h1]
    have hb : d * (B - A) ≤ 100 * (B - A) := Nat.mul_le_mul_right _ (by omega)
    omega
  · intro d e h0 h1 h2
    rw [hval _ _ _ _ _ d h0 (by omega), hval _ _ _ _ _ e (by omega) h2]
    have := Nat.div_le_div_right (c := 100) (Nat.mul_le_mul_right (B - A) h1)
    omega

/-- Instance: servo of the samples, 500–2500 µs at 50 Hz on a 72 MHz clock. -/
example : (construct 72000000 50 500 2500).isSome ∧ (500 : Nat) ≤ 2500 ∧
    2500 * 72000000 < 2 ^ 64 / 100 ∧ 2500 * 72000000 / 1000000 ≠ 0 := by
  refine ⟨?_, by decide, by decide, by decide⟩
  have key : ∀ p, p = 1440000 → (construct (50 * p) 50 500 2500).isSome := by
    intro p hp
    have ht := autoreload_table p (by omega) (by omega)
    have ha : autoreloadFromPeriod p = 2000 := by omega
    have h1 : 50 * p / 50 = p := by omega
    have h2 : p / 2000 = 720 := by omega
    have h3 : u64 (2500 * (50 * p)) / 1000000 = 180000 := by subst hp; decide
    simp [construct, finish, h1, ha, h2, h3]
  exact key 1440000 rfl

/-! ## C37: software PWM -/

/-- C37.  For every accepted pulse width range and frequency and after any sequence of duty cycle
requests: the duty cycle in force is the last request clamped to 100, each pulse has non-negative
high and low times that add up to the period, and the high time stays between the limits. -/
theorem emulator_pulse (minUs maxUs frequency : Nat) (e : Emulator) (reqs : List Nat)
    (h : Emulator.construct minUs maxUs frequency = some (some e)) :
    let e' := reqs.foldl Emulator.setDutyCycle e
    e'.dutyCycle = min (reqs.getLastD 0) 100 ∧
    0 ≤ e'.pulse.1 ∧ 0 ≤ e'.pulse.2 ∧ e'.pulse.1 + e'.pulse.2 = (1000000 / frequency : Nat) ∧
    (0 < e'.dutyCycle → e'.dutyCycle < 100 → minUs ≤ e'.pulse.1 ∧ e'.pulse.1 ≤ maxUs) := by
  have hinv : ∀ (l : List Nat) (e : Emulator), e.dutyCycle ≤ 100 →
      (l.foldl Emulator.setDutyCycle e).dutyCycle = min (l.getLastD e.dutyCycle) 100 ∧
      (l.foldl Emulator.setDutyCycle e).minPulseWidth = e.minPulseWidth ∧
      (l.foldl Emulator.setDutyCycle e).maxPulseWidth = e.maxPulseWidth ∧
      (l.foldl Emulator.setDutyCycle e).period = e.period := by
    intro l
    induction l with
    | nil => intro e he; simp; omega
    | cons a l ih =>
      intro e he
      have h1 : (e.setDutyCycle a).dutyCycle = min a 100 := by
        unfold Emulator.setDutyCycle
        split
        · omega
        · simp only; split <;> omega
      have h2 : (e.setDutyCycle a).minPulseWidth = e.minPulseWidth ∧
          (e.setDutyCycle a).maxPulseWidth = e.maxPulseWidth ∧ (e.setDutyCycle a).period = e.period := by
        unfold Emulator.setDutyCycle; split <;> simp
      obtain ⟨i1, i2, i3, i4⟩ := ih (e.setDutyCycle a) (by omega)
      simp only [List.foldl_cons]
      refine ⟨?_, by omega, by omega, by omega⟩
      rw [i1, h1]
      cases l with
      | nil => simp
      | cons b l => simp only [List.getLastD_cons]
  unfold Emulator.construct at h
  by_cases hf : frequency = 0
  · simp [hf] at h
  simp only [hf, if_false] at h
  by_cases h1 : minUs > maxUs
  · simp [h1] at h
  by_cases h2 : maxUs > 1000000 / frequency
  · simp [h1, h2] at h
  rw [if_neg h1, if_neg h2] at h
  simp only [Option.some.injEq] at h
  subst h
  obtain ⟨i1, i2, i3, i4⟩ := hinv reqs ⟨minUs, maxUs, 1000000 / frequency, 0⟩ (by simp)
  generalize 1000000 / frequency = T at *
  generalize reqs.foldl Emulator.setDutyCycle ⟨minUs, maxUs, T, 0⟩ = e' at *
  simp only at i1 i2 i3 i4 ⊢
  refine ⟨i1, ?_⟩
  unfold Emulator.pulse
  rw [i2, i3, i4]
  by_cases d0 : e'.dutyCycle = 0
  · simp [d0]
  by_cases d1 : e'.dutyCycle = 100
  · simp [d1]
  have hd : e'.dutyCycle < 100 := by omega
  rw [if_neg d0, if_neg d1]
  simp only
  have hsub : ((e'.dutyCycle : Int) * ((maxUs : Int) - minUs)) = ((e'.dutyCycle * (maxUs - minUs) : Nat) : Int) := by
    rw [Int.natCast_mul, Int.natCast_sub (by omega)]
  rw [hsub, Int.tdiv_eq_ediv_of_nonneg (by omega)]
  have hb : e'.dutyCycle * (maxUs - minUs) ≤ 100 * (maxUs - minUs) := Nat.mul_le_mul_right _ (by omega)
  generalize e'.dutyCycle * (maxUs - minUs) = w at *
  omega

/-- Instance with a clamped request and a real pulse. -/
example : ∃ e, Emulator.construct 500 2500 50 = some (some e) ∧
    ([7, 130, 30].foldl Emulator.setDutyCycle e).pulse = (1100, 18900) := ⟨_, rfl, by decide⟩

end Abc.Pwm
