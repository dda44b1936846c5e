import Verif.Props.Launcher
import Verif.Props.Scri
/-
C117: the number of steps the launcher asks for.
-/
namespace SFK
open Scalar CR Launcher

/-- C117: In exact arithmetic, a run that is to last `N` time steps takes `N` steps, and if it is to be saved `num_saved_times` times and `N` is a
multiple of that number, the save interval is the quotient. -/
theorem C117_whole_number_of_steps {S : Settings ℝ} (h : S.Sensible) {N : ℕ} (hN : S.evolve_time * S.mass = N * S.step) :
    (paramsOf S).nt = N ∧ ∀ k, 1 ≤ k → 1 ≤ S.num_saved_times → N = S.num_saved_times * k → (paramsOf S).t_step_save = k := by
  have hp := h.step_pos
  have h1 : (paramsOf S).nt = N := by
    rw [h.nt, hN, mul_div_assoc, div_self hp.ne', mul_one, Nat.floor_natCast]
  refine ⟨h1, fun k hk hn hNk => ?_⟩
  have h2 : (paramsOf S).t_step_save = tStepSave (paramsOf S).nt S.num_saved_times := rfl
  rw [h2, h1, hNk]
  unfold tStepSave
  rw [Nat.mul_div_cancel_left _ hn]
  dsimp only
  rw [if_neg (by omega)]

section
variable {φ : Format}

/-- C117: In every floating-point format the steps written add up to `evolve_time*mass`, up to less than one step and a rounding error
`eps(2 + 3 evolve_time mass + dt)`, `dt` being the time step written; if the rounding error is less than a step, the number of steps is that of exact
arithmetic (with that time step) up to one.  `toInt` is python's `int`. -/
theorem C117_number_of_steps_in_floating_point_partial {S : Settings φ.T} {toInt : φ.T → ℕ}
    (hInt : ∀ a x, φ.val a = some x → -1 < x → toInt a = ⌊x⌋₊) {T M d : ℝ} (hT : φ.val S.evolve_time = some T) (hM : φ.val S.mass = some M)
    (hd : φ.val (Launcher.params toInt S).dt = some d) (hd0 : 0 < d) (hTM : φ.eps * (1 + T * M) ≤ T * M) (he : φ.eps < 1)
    (hO : 1 + 2 * (T * M) ≤ φ.Omega) (hO' : (1 + 2 * (T * M)) / d ≤ φ.Omega) :
    (Launcher.params toInt S).nt * d ≤ T * M + φ.eps * (2 + 3 * (T * M) + d) ∧
    T * M - φ.eps * (2 + 3 * (T * M) + d) < ((Launcher.params toInt S).nt + 1) * d ∧
    (φ.eps * (2 + 3 * (T * M) + d) ≤ d →
      (Launcher.params toInt S).nt ≤ ⌊T * M / d⌋₊ + 1 ∧ ⌊T * M / d⌋₊ ≤ (Launcher.params toInt S).nt + 1) := by
  have e0 := φ.eps_nonneg
  obtain ⟨X, hX⟩ : ∃ X, X = T * M := ⟨_, rfl⟩
  obtain ⟨e, hee⟩ : ∃ e, e = φ.eps := ⟨_, rfl⟩
  rw [← hX] at hTM hO hO' ⊢
  rw [← hee] at e0 hTM he ⊢
  have hX0 : 0 ≤ X := by
    by_contra hh
    push Not at hh
    have : e * X ≥ X := by nlinarith
    nlinarith
  obtain ⟨p, hp, hp'⟩ := φ.faithful.mul _ _ _ _ hT hM (by rw [← hX, abs_of_nonneg hX0]; linarith)
  rw [← hX, ← hee, abs_of_nonneg hX0] at hp'
  have hpb := abs_le.mp hp'
  have heX : e * (1 + X) ≤ 1 + X := by nlinarith
  have hp0 : 0 ≤ p := by linarith
  have hp1 : p ≤ 1 + 2 * X := by linarith
  have hpd : 0 ≤ p / d := div_nonneg hp0 hd0.le
  obtain ⟨q, hq, hq'⟩ := φ.faithful.div _ _ _ _ hp hd hd0.ne' (by
    rw [abs_of_nonneg hpd]
    exact (div_le_div_of_nonneg_right hp1 hd0.le).trans hO')
  rw [← hee, abs_of_nonneg hpd] at hq'
  have hqb := abs_le.mp hq'
  have hq1 : -1 < q := by nlinarith
  have hnt : (Launcher.params toInt S).nt = ⌊q⌋₊ := hInt _ _ hq hq1
  rw [hnt]
  have hpq : p / d * d = p := div_mul_cancel₀ _ hd0.ne'
  have k1 : q * d ≤ p + e * (d + p) := by
    have : q * d ≤ (p / d + e * (1 + p / d)) * d := mul_le_mul_of_nonneg_right (by linarith) hd0.le
    calc q * d ≤ (p / d + e * (1 + p / d)) * d := this
      _ = p / d * d + e * (d + p / d * d) := by ring
      _ = p + e * (d + p) := by rw [hpq]
  have k2 : p - e * (d + p) ≤ q * d := by
    have : (p / d - e * (1 + p / d)) * d ≤ q * d := mul_le_mul_of_nonneg_right (by linarith) hd0.le
    calc p - e * (d + p) = p / d * d - e * (d + p / d * d) := by rw [hpq]
      _ = (p / d - e * (1 + p / d)) * d := by ring
      _ ≤ _ := this
  have k3 : e * (d + p) ≤ e * (d + (1 + 2 * X)) := mul_le_mul_of_nonneg_left (by linarith) e0
  obtain ⟨D, hD⟩ : ∃ D, D = e * (2 + 3 * X + d) := ⟨_, rfl⟩
  have hDe : e * (1 + X) + e * (d + (1 + 2 * X)) = D := by rw [hD]; ring
  have hD0 : 0 ≤ D := by rw [hD]; positivity
  rw [← hD]
  have u1 : (⌊q⌋₊ : ℝ) * d ≤ X + D := by
    rcases le_total 0 q with h | h
    · have : (⌊q⌋₊ : ℝ) * d ≤ q * d := mul_le_mul_of_nonneg_right (Nat.floor_le h) hd0.le
      linarith
    · rw [Nat.floor_of_nonpos h, Nat.cast_zero, zero_mul]
      linarith
  have u2 : X - D < ((⌊q⌋₊ : ℝ) + 1) * d := by
    have : q * d < ((⌊q⌋₊ : ℝ) + 1) * d := mul_lt_mul_of_pos_right (Nat.lt_floor_add_one q) hd0
    linarith
  refine ⟨u1, u2, fun hDd => ?_⟩
  have hXd : X / d * d = X := div_mul_cancel₀ _ hd0.ne'
  have hXd0 : 0 ≤ X / d := div_nonneg hX0 hd0.le
  have f1 := Nat.floor_le hXd0
  have f2 := Nat.lt_floor_add_one (X / d)
  constructor
  · have : (⌊q⌋₊ : ℝ) < ⌊X / d⌋₊ + 1 + 1 := by
      by_contra hh
      push Not at hh
      have h1 : (X / d + 1) * d < (⌊q⌋₊ : ℝ) * d := mul_lt_mul_of_pos_right (by linarith) hd0
      rw [add_mul, hXd] at h1
      linarith
    have : ⌊q⌋₊ < ⌊X / d⌋₊ + 1 + 1 := by exact_mod_cast this
    omega
  · have : (⌊X / d⌋₊ : ℝ) < ⌊q⌋₊ + 1 + 1 := by
      by_contra hh
      push Not at hh
      have h1 : ((⌊q⌋₊ : ℝ) + 1 + 1) * d ≤ X / d * d := mul_le_mul_of_nonneg_right (by linarith) hd0.le
      rw [add_mul _ 1 d, hXd] at h1
      linarith
    have : ⌊X / d⌋₊ < ⌊q⌋₊ + 1 + 1 := by exact_mod_cast this
    omega

end

/-- A black hole of mass 1 without spin, to be evolved to the time 100 on 76 radial points with Courant number 1/4, saved 100 times: the template's
settings otherwise. -/
noncomputable def shortS : Settings ℝ :=
  { templateS with mass := 1, spin := 0, evolve_time := 100, cfl := 1 / 4, num_saved_times := 100, nx := 76, nlat := 8, nphi := 16 }

theorem short_sensible : shortS.Sensible := by
  constructor <;> simp only [shortS, templateS]
  · norm_num
  · norm_num
  · refine ⟨Or.inr ?_, Or.inl ?_⟩ <;> norm_num
  · norm_num
  · norm_num
  · norm_num
  · norm_num
  · norm_num

theorem short_step : shortS.step = 1 / 300 := by
  unfold Settings.step
  show (if templateS.use_cheb then _ else _) = _
  simp only [shortS, templateS]
  norm_num

/-- a real number as a binary64 number (used for numbers that are exact in binary64) -/
noncomputable def num64 (x : ℝ) : binary64.T := fin x

/-- the launcher's arithmetic on these settings in binary64 -/
theorem short_binary64 : binary64.val (Launcher.params (α := binary64.T) intCR (shortS.map fin)).dt = some (7686143364045647 / 2 ^ 61) ∧
    (Launcher.params (α := binary64.T) intCR (shortS.map fin)).nt = 29999 := by
  have c : ∀ k : ℕ, k ≤ 2 ^ 53 - 1 → ∀ x : ℝ, (k : ℝ) = x → binary64.val (Scalar.lit (k : ℚ) : binary64.T) = some x := by
    intro k hk x hx
    rw [binary64_counts k hk, hx]
  have h1 : binary64.val (1 : binary64.T) = some 1 := c 1 (by norm_num) 1 (by norm_num)
  have h6 : binary64.val (6 : binary64.T) = some 6 := c 6 (by norm_num) 6 (by norm_num)
  have h16 : binary64.val (dbl 16 : binary64.T) = some 16 := c 16 (by norm_num) 16 (by norm_num)
  have h76 : binary64.val (dbl 76 : binary64.T) = some 76 := c 76 (by norm_num) 76 (by norm_num)
  have hcfl : binary64.val (num64 (1 / 4)) = some (1 / 4) := rfl
  have h100 : binary64.val (num64 100) = some 100 := rfl
  have hm1 : binary64.val (num64 1) = some 1 := rfl
  have s1 := sub64 h76 h1 (by norm_num [abs_of_pos])
  rw [rnd64 6 (75 * 2 ^ 46) (by norm_num [abs_of_pos]) (by norm_num [abs_of_pos]) (by norm_num) (by norm_num)] at s1
  have s2 := div64 hcfl s1 (by norm_num) (by norm_num [abs_of_pos])
  rw [rnd64 (-9) 7686143364045647 (by norm_num [abs_of_pos]) (by norm_num [abs_of_pos]) (by norm_num) (by norm_num [abs_lt])] at s2
  have s3 : binary64.val (pown (dbl 16 : binary64.T) 2) = some 256 := by
    rw [show (dbl 16 : binary64.T) = fin 16 from toReal_iff.mp h16]
    show CR.toReal? (store (rndBin 53 1074) ((2 - 2⁻¹ ^ 52) * 2 ^ 1023) ((16 : ℝ) ^ 2)) = _
    rw [store64 (by norm_num [abs_of_pos]), rnd64 8 (2 ^ 52) (by norm_num [abs_of_pos]) (by norm_num [abs_of_pos]) (by norm_num) (by norm_num)]
    norm_num
  have s4 := div64 h1 s3 (by norm_num) (by norm_num [abs_of_pos])
  rw [rnd64 (-8) (2 ^ 52) (by norm_num [abs_of_pos]) (by norm_num [abs_of_pos]) (by norm_num) (by norm_num)] at s4
  have s5 := mul64 h6 s4 (by norm_num [abs_of_pos])
  rw [rnd64 (-6) (6755399441055744) (by norm_num [abs_of_pos]) (by norm_num [abs_of_pos]) (by norm_num) (by norm_num)] at s5
  have hlt := (binary64.faithful.lt _ _ _ _ s2 s5).mpr (by norm_num)
  have hdt : Launcher.timeStep (α := binary64.T) false (num64 (1 / 4)) 76 8 16 = num64 (1 / 4) / (dbl 76 - 1) := by
    unfold Launcher.timeStep
    rw [if_neg (by simp)]
    exact if_pos hlt
  have s6 := mul64 h100 hm1 (by norm_num [abs_of_pos])
  rw [rnd64 6 (100 * 2 ^ 46) (by norm_num [abs_of_pos]) (by norm_num [abs_of_pos]) (by norm_num) (by norm_num)] at s6
  have s7 := div64 s6 s2 (by norm_num) (by norm_num [abs_of_pos])
  rw [rnd64 14 8246337208319999 (by norm_num [abs_of_pos]) (by norm_num [abs_of_pos]) (by norm_num) (by norm_num [abs_lt])] at s7
  constructor
  · show binary64.val (Launcher.timeStep (α := binary64.T) false (num64 (1 / 4)) 76 8 16) = _
    rw [hdt, s2]
    norm_num
  · show intCR (num64 100 * num64 1 / Launcher.timeStep (α := binary64.T) false (num64 (1 / 4)) 76 8 16) = _
    rw [hdt, show num64 100 * num64 1 / (num64 (1 / 4) / (dbl 76 - 1)) = fin _ from toReal_iff.mp s7]
    show ⌊_⌋₊ = 29999
    rw [Nat.floor_eq_iff (by norm_num)]
    norm_num

/-- C117 (negation): In binary64 the run is one step short.  The settings ask for 30000 steps (300 between two saves); the launcher writes 29999 steps and a save
interval of 299, so that the saved times are multiples of 299 steps and not of 300. -/
theorem C117_one_step_short_in_binary64 : shortS.Sensible ∧ shortS.evolve_time * shortS.mass = (30000 : ℕ) * shortS.step ∧
    (paramsOf shortS).nt = 30000 ∧ (paramsOf shortS).t_step_save = 300 ∧
    (Launcher.params (α := binary64.T) intCR (shortS.map fin)).nt = 29999 ∧
    (Launcher.params (α := binary64.T) intCR (shortS.map fin)).t_step_save = 299 := by
  have hN : shortS.evolve_time * shortS.mass = (30000 : ℕ) * shortS.step := by
    rw [short_step]
    simp only [shortS]
    norm_num
  obtain ⟨h1, h2⟩ := C117_whole_number_of_steps short_sensible hN
  refine ⟨short_sensible, hN, h1, h2 300 (by norm_num) (by simp [shortS]) (by simp [shortS]), short_binary64.2, ?_⟩
  show tStepSave (Launcher.params (α := binary64.T) intCR (shortS.map fin)).nt 100 = 299
  rw [short_binary64.2]
  rfl

/-- Non-vacuity: the witness above meets the hypotheses of both positive theorems; in particular its rounding error is less than a step. -/
example : ∃ (S : Settings binary64.T) (T M d : ℝ), (∀ a x, binary64.val a = some x → -1 < x → intCR a = ⌊x⌋₊) ∧ binary64.val S.evolve_time = some T ∧
    binary64.val S.mass = some M ∧ binary64.val (Launcher.params (α := binary64.T) intCR S).dt = some d ∧ 0 < d ∧ binary64.eps * (1 + T * M) ≤ T * M ∧
    binary64.eps < 1 ∧ 1 + 2 * (T * M) ≤ binary64.Omega ∧ (1 + 2 * (T * M)) / d ≤ binary64.Omega ∧ binary64.eps * (2 + 3 * (T * M) + d) ≤ d := by
  have hE : binary64.eps = 2⁻¹ ^ 53 := rfl
  have hO : ∀ x : ℝ, 0 ≤ x → x ≤ 2 ^ 100 → x ≤ binary64.Omega := by
    intro x h0 h
    have := range64 (x := x) (by rw [abs_of_nonneg h0]; exact h)
    rw [abs_of_nonneg h0] at this
    exact this
  refine ⟨shortS.map fin, 100, 1, _, ?_, rfl, rfl, short_binary64.1, by norm_num, ?_, ?_, hO _ (by norm_num) (by norm_num), hO _ (by norm_num) (by norm_num), ?_⟩
  · intro a x ha _
    rw [show a = fin x from toReal_iff.mp ha]
    rfl
  all_goals
    rw [hE]
    norm_num

end SFK
