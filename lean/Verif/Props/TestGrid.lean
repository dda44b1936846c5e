import Verif.Model.TestGrid
import Verif.Spec.TestGrid
import Verif.Lemmas.Env
import Mathlib.Analysis.SpecialFunctions.Trigonometric.Deriv
import Mathlib.Analysis.Calculus.Deriv.Inv
/-
C102: the tests of the grid (Test/test_grid.cpp): their reference values, and that they run to completion.
-/
namespace SFK
open Scalar CR
open TestGrid

section real
variable {rl ru r θ φ : ℝ}

theorem bumpT_in (h1 : rl < r) (h2 : r < ru) : bumpT rl ru r = Real.exp (-(ru - rl) / (r - rl)) * Real.exp (-2 * (ru - rl) / (ru - r)) := if_pos ⟨h1, h2⟩
theorem bumpT_out (h : ¬ (rl < r ∧ r < ru)) : bumpT rl ru r = 0 := if_neg h

theorem bumpT_nonneg : 0 ≤ bumpT rl ru r := by
  unfold bumpT
  split_ifs
  · positivity
  · exact le_rfl

theorem bumpT_le_one : bumpT rl ru r ≤ 1 := by
  unfold bumpT
  split_ifs with h
  · have h1 : (-(ru - rl) / (r - rl)) ≤ 0 := by
      apply div_nonpos_of_nonpos_of_nonneg <;> linarith [h.1, h.2]
    have h2 : (-2 * (ru - rl) / (ru - r)) ≤ 0 := by
      apply div_nonpos_of_nonpos_of_nonneg <;> linarith [h.1, h.2]
    have e1 := Real.exp_le_one_iff.mpr h1
    have e2 := Real.exp_le_one_iff.mpr h2
    have p1 := Real.exp_pos (-(ru - rl) / (r - rl))
    have p2 := Real.exp_pos (-2 * (ru - rl) / (ru - r))
    nlinarith
  · norm_num

/-- the derivative of the radial profile -/
noncomputable def dradT (rl ru r : ℝ) : ℝ :=
  (4 * ((r - rl) / (ru - rl)) ^ 3 * ((ru - r) / (ru - rl)) ^ 4 - 4 * ((r - rl) / (ru - rl)) ^ 4 * ((ru - r) / (ru - rl)) ^ 3
    + ((r - rl) / (ru - rl)) ^ 2 * ((ru - r) / (ru - rl)) ^ 4 - 2 * ((r - rl) / (ru - rl)) ^ 4 * ((ru - r) / (ru - rl)) ^ 2)
    * (10 * bumpT rl ru r / (ru - rl))

theorem hasDerivAt_radT (hw : rl < ru) (r : ℝ) : HasDerivAt (radT rl ru) (dradT rl ru r) r := by
  have hw0 : ru - rl ≠ 0 := by linarith
  have hx : HasDerivAt (fun t : ℝ => (t - rl) / (ru - rl)) (1 / (ru - rl)) r := ((hasDerivAt_id r).sub_const rl).div_const _
  have hy : HasDerivAt (fun t : ℝ => (ru - t) / (ru - rl)) (-1 / (ru - rl)) r := ((hasDerivAt_id r).const_sub ru).div_const _
  by_cases h : rl < r ∧ r < ru
  · have a0 : r - rl ≠ 0 := by linarith [h.1]
    have b0 : ru - r ≠ 0 := by linarith [h.2]
    have ha : HasDerivAt (fun t : ℝ => -(ru - rl) / (t - rl)) (((ru - rl)) / (r - rl) ^ 2) r :=
      ((hasDerivAt_const r (-(ru - rl))).div ((hasDerivAt_id r).sub_const rl) a0).congr_deriv (by simp)
    have hb : HasDerivAt (fun t : ℝ => -2 * (ru - rl) / (ru - t)) (-2 * (ru - rl) / (ru - r) ^ 2) r :=
      ((hasDerivAt_const r (-2 * (ru - rl))).div ((hasDerivAt_id r).const_sub ru) b0).congr_deriv (by simp)
    have hall := ((hx.pow 4).mul (hy.pow 4)).mul ((ha.exp.mul hb.exp).const_mul 10)
    have hd := hall.congr_of_eventuallyEq (f₁ := radT rl ru) (by
      have h1 := (isOpen_Ioo (a := rl) (b := ru)).mem_nhds ⟨h.1, h.2⟩
      filter_upwards [h1] with t ht
      simp only [radT, bumpT_in ht.1 ht.2, Pi.mul_apply, Pi.pow_apply])
    refine hd.congr_deriv ?_
    simp only [dradT, bumpT_in h.1 h.2, Pi.mul_apply, Pi.pow_apply]
    generalize Real.exp (-(ru - rl) / (r - rl)) = E1
    generalize Real.exp (-2 * (ru - rl) / (ru - r)) = E2
    generalize ru - rl = w at *
    generalize r - rl = a at *
    generalize ru - r = b at *
    clear hall hd ha hb hx hy
    push_cast
    field_simp
    ring
  · have hd0 : dradT rl ru r = 0 := by rw [dradT, bumpT_out h]; ring
    have hf0 : radT rl ru r = 0 := by rw [radT, bumpT_out h]; ring
    rw [hd0]
    by_cases he : r = rl ∨ r = ru
    · have hp : HasDerivAt (fun t : ℝ => ((t - rl) / (ru - rl)) ^ 4 * ((ru - t) / (ru - rl)) ^ 4) 0 r := by
        refine ((hx.pow 4).mul (hy.pow 4)).congr_deriv ?_
        rcases he with e | e <;> rw [e] <;> simp
      have hp0 : ((r - rl) / (ru - rl)) ^ 4 * ((ru - r) / (ru - rl)) ^ 4 = 0 := by
        rcases he with e | e <;> rw [e] <;> simp
      rw [hasDerivAt_iff_isLittleO] at hp ⊢
      refine Asymptotics.IsBigO.trans_isLittleO (Asymptotics.IsBigO.of_bound 10 (Filter.Eventually.of_forall fun t => ?_)) hp
      rw [hf0, hp0, smul_zero, sub_zero, sub_zero, sub_zero, sub_zero, radT, norm_mul, Real.norm_eq_abs (10 * _),
        abs_of_nonneg (by have := bumpT_nonneg (rl := rl) (ru := ru) (r := t); linarith)]
      have h1 := bumpT_le_one (rl := rl) (ru := ru) (r := t)
      rw [mul_comm]
      exact mul_le_mul_of_nonneg_right (by linarith) (norm_nonneg _)
    · have : ∀ᶠ t in nhds r, radT rl ru t = 0 := by
        have : ∀ᶠ t in nhds r, ¬ (rl < t ∧ t < ru) := by
          by_cases hl : r < rl
          · filter_upwards [isOpen_Iio.mem_nhds hl] with t ht h
            exact absurd h.1 (not_lt.mpr (le_of_lt ht))
          · have hl' : ru < r := by
              rcases not_and_or.mp h with h | h
              · exact absurd (le_antisymm (not_lt.mp h) (not_lt.mp hl)) (fun e => he (Or.inl e))
              · exact lt_of_le_of_ne (not_lt.mp h) (fun e => he (Or.inr e.symm))
            filter_upwards [isOpen_Ioi.mem_nhds hl'] with t ht h
            exact absurd h.2 (not_lt.mpr (le_of_lt ht))
        filter_upwards [this] with t ht
        rw [radT, bumpT_out ht]; ring
      exact (hasDerivAt_const r (0 : ℝ)).congr_of_eventuallyEq this

theorem one_add_cos_ne (φ : ℝ) : 1 + Real.cos φ ^ 2 ≠ 0 := by positivity

theorem dTh_testT (θ φ : ℝ) : dTh (testT rl ru r) θ φ = radT rl ru r * (2 * Real.sin θ * Real.cos θ / (1 + Real.cos φ ^ 2)) := by
  unfold dTh
  refine HasDerivAt.deriv ?_
  have h := ((((Real.hasDerivAt_sin θ).pow 2).div_const (1 + Real.cos φ ^ 2)).const_add 1).const_mul (radT rl ru r)
  refine HasDerivAt.congr_deriv (f := fun t => testT rl ru r t φ) h ?_
  norm_num

theorem hasDerivAt_inv_cos (φ : ℝ) : HasDerivAt (fun t : ℝ => 1 / (1 + Real.cos t ^ 2)) (Real.sin (2 * φ) / (1 + Real.cos φ ^ 2) ^ 2) φ := by
  have h := (hasDerivAt_const φ (1 : ℝ)).div (((Real.hasDerivAt_cos φ).pow 2).const_add 1) (one_add_cos_ne φ)
  refine h.congr_deriv ?_
  rw [Real.sin_two_mul]
  norm_num
  ring

theorem dPh_testT (θ φ : ℝ) : dPh (testT rl ru r) θ φ = radT rl ru r * (Real.sin θ ^ 2 * Real.sin (2 * φ) / (1 + Real.cos φ ^ 2) ^ 2) := by
  unfold dPh
  refine HasDerivAt.deriv ?_
  have h := (((hasDerivAt_inv_cos φ).const_mul (Real.sin θ ^ 2)).const_add 1).const_mul (radT rl ru r)
  have e : (fun t => testT rl ru r θ t) = fun y => radT rl ru r * (1 + Real.sin θ ^ 2 * (1 / (1 + Real.cos y ^ 2))) := by
    funext y
    unfold testT angT
    ring
  rw [e]
  exact h.congr_deriv (by ring)

theorem lapS2_testT (hs : Real.sin θ ≠ 0) (φ : ℝ) : lapS2 (testT rl ru r) θ φ = radT rl ru r
    * ((31 + 57 * Real.cos (2 * θ) + 72 * Real.cos θ ^ 2 * Real.cos (2 * φ) - 6 * Real.cos (4 * φ) * Real.sin θ ^ 2) / (3 + Real.cos (2 * φ)) ^ 3) := by
  unfold lapS2
  have e1 : (fun t => Real.sin t * dTh (testT rl ru r) t φ) = fun t => radT rl ru r * 2 / (1 + Real.cos φ ^ 2) * (Real.sin t ^ 2 * Real.cos t) := by
    funext t
    rw [dTh_testT]
    ring
  have d1 : deriv (fun t => Real.sin t * dTh (testT rl ru r) t φ) θ
      = radT rl ru r * 2 / (1 + Real.cos φ ^ 2) * (2 * Real.sin θ * Real.cos θ ^ 2 - Real.sin θ ^ 3) := by
    rw [e1]
    refine HasDerivAt.deriv ?_
    refine ((((Real.hasDerivAt_sin θ).pow 2).mul (Real.hasDerivAt_cos θ)).const_mul _).congr_deriv ?_
    simp only [Pi.pow_apply]
    norm_num
    left
    ring
  have e2 : (fun t => dPh (testT rl ru r) θ t) = fun t => radT rl ru r * Real.sin θ ^ 2 * (Real.sin (2 * t) / (1 + Real.cos t ^ 2) ^ 2) := by
    funext t
    rw [dPh_testT]
    ring
  have d2 : dPh (dPh (testT rl ru r)) θ φ = radT rl ru r * Real.sin θ ^ 2 * ((2 * Real.cos (2 * φ) * (1 + Real.cos φ ^ 2) ^ 2
      + 2 * Real.sin (2 * φ) ^ 2 * (1 + Real.cos φ ^ 2)) / (1 + Real.cos φ ^ 2) ^ 4) := by
    rw [dPh, e2]
    refine HasDerivAt.deriv ?_
    have hsin : HasDerivAt (fun t : ℝ => Real.sin (2 * t)) (2 * Real.cos (2 * φ)) φ := by
      have := ((hasDerivAt_id φ).const_mul (2 : ℝ)).sin
      refine this.congr_deriv ?_
      simp [mul_comm]
    have hden := (((Real.hasDerivAt_cos φ).pow 2).const_add 1).pow 2
    refine ((hsin.div hden (pow_ne_zero 2 (one_add_cos_ne φ))).const_mul _).congr_deriv ?_
    simp only [Pi.pow_apply]
    rw [Real.sin_two_mul]
    norm_num
    left
    rw [← pow_mul]
    congr 1
    ring
  have h2 : Real.cos (2 * θ) = 1 - 2 * Real.sin θ ^ 2 := by rw [Real.cos_two_mul, Real.cos_sq']; ring
  have h3 : Real.cos θ ^ 2 = 1 - Real.sin θ ^ 2 := Real.cos_sq' θ
  have h4 : Real.cos (2 * φ) = 2 * Real.cos φ ^ 2 - 1 := Real.cos_two_mul φ
  have h5 : Real.cos (4 * φ) = 2 * (2 * Real.cos φ ^ 2 - 1) ^ 2 - 1 := by
    rw [show (4 : ℝ) * φ = 2 * (2 * φ) by ring, Real.cos_two_mul, h4]
  have h6 : Real.sin (2 * φ) ^ 2 = 1 - (2 * Real.cos φ ^ 2 - 1) ^ 2 := by rw [Real.sin_sq, h4]
  rw [d1, d2, h2, h3, h5, h6, h4]
  have hc : 0 ≤ Real.cos φ ^ 2 := sq_nonneg _
  generalize Real.cos φ ^ 2 = c at *
  generalize Real.sin θ = s at *
  generalize radT rl ru r = R at *
  have hc1 : 1 + c ≠ 0 := by linarith
  have hc3 : 3 + (2 * c - 1) = 2 * (1 + c) := by ring
  rw [hc3]
  field_simp
  ring

theorem gradSq_testT (hs : Real.sin θ ≠ 0) (φ : ℝ) : gradSq (testT rl ru r) θ φ = radT rl ru r ^ 2 * (Real.sin θ ^ 2
    * (Real.cos θ ^ 2 * (3 + Real.cos (2 * φ)) ^ 2 + Real.sin (2 * φ) ^ 2) / (1 + Real.cos φ ^ 2) ^ 4) := by
  unfold gradSq
  rw [dTh_testT, dPh_testT, Real.cos_two_mul φ]
  have := one_add_cos_ne φ
  generalize Real.sin (2 * φ) = S
  generalize Real.cos θ = C
  generalize Real.sin θ = s at *
  generalize radT rl ru r = R at *
  generalize Real.cos φ = c at *
  field_simp
  ring

/-- the radial profile never reaches one -/
theorem radT_lt_one (hw : rl < ru) (r : ℝ) : radT rl ru r < 1 := by
  by_cases h : rl < r ∧ r < ru
  · have hb := bumpT_le_one (rl := rl) (ru := ru) (r := r)
    have hb0 := bumpT_nonneg (rl := rl) (ru := ru) (r := r)
    have hxy : ((r - rl) / (ru - rl)) * ((ru - r) / (ru - rl)) ≤ 1 / 4 := by
      have e : (ru - r) / (ru - rl) = 1 - (r - rl) / (ru - rl) := by
        rw [eq_sub_iff_add_eq, ← add_div, show ru - r + (r - rl) = ru - rl by ring, div_self (by linarith)]
      rw [e]
      nlinarith [sq_nonneg ((r - rl) / (ru - rl) - 1 / 2)]
    have hx : 0 ≤ ((r - rl) / (ru - rl)) * ((ru - r) / (ru - rl)) :=
      mul_nonneg (div_nonneg (by linarith [h.1]) (by linarith)) (div_nonneg (by linarith [h.2]) (by linarith))
    unfold radT
    rw [← mul_pow]
    have h4 := pow_le_pow_left₀ hx hxy 4
    calc _ ≤ (1 / 4 : ℝ) ^ 4 * (10 * 1) := mul_le_mul h4 (by linarith) (by linarith) (by norm_num)
      _ < 1 := by norm_num
  · rw [radT, bumpT_out h]; norm_num

theorem radT_pos (h1 : rl < r) (h2 : r < ru) : 0 < radT rl ru r := by
  unfold radT
  rw [bumpT_in h1 h2]
  have : 0 < r - rl := by linarith
  have : 0 < ru - r := by linarith
  have : 0 < ru - rl := by linarith
  positivity

end real

section cr
variable {rl ru r θ φ : ℝ}

theorem bump_cr (hw : rl < ru) : bump (fin 10) (fin rl) (fin ru) (fin r) = fin (10 * bumpT rl ru r) := by
  unfold bump
  by_cases h : rl < r ∧ r < ru
  · have a0 : r - rl ≠ 0 := by linarith [h.1]
    have b0 : ru - r ≠ 0 := by linarith [h.2]
    rw [if_pos (by simp [h.1, h.2]), bumpT_in h.1 h.2]
    simp only [fin_sub, fin_ofNat', fin_ofNat_one, fin_neg, fin_mul, fin_div _ _ a0, fin_div _ _ b0, fin_exp, fin_inj]
    norm_num
    ring
  · rw [if_neg (by simpa [and_comm] using h), bumpT_out h]
    simp

theorem rval_cr (hw : rl < ru) : rval 4 (fin rl) (fin ru) (fin r) (bump 10 (fin rl) (fin ru) (fin r)) = fin (radT rl ru r) := by
  unfold rval radT
  have hw0 : ru - rl ≠ 0 := by linarith
  rw [show (10 : CR) = fin 10 by simp, bump_cr hw]
  simp only [fin_sub, fin_div _ _ hw0, fin_pown, fin_mul]

theorem der_rval_cr (hw : rl < ru) : der_rval (fin rl) (fin ru) (fin r) (bump 10 (fin rl) (fin ru) (fin r)) = fin (dradT rl ru r) := by
  unfold der_rval dradT
  have hw0 : ru - rl ≠ 0 := by linarith
  rw [show (10 : CR) = fin 10 by simp, bump_cr hw]
  simp only [fin_sub, fin_div _ _ hw0, fin_pown, fin_mul, fin_ofNat', fin_add]

theorem ang_cr : ang (fin θ) (fin φ) = fin (angT θ φ) := by
  unfold ang angT
  simp only [fin_sin, fin_cos, fin_pown, fin_ofNat_one, fin_add, fin_div _ _ (one_add_cos_ne φ)]

/-- **C102**: the values against which the grid test compares are the exact derivatives of the function it samples: at every radius (also at and
outside the ends of the bump) the radial derivative, the azimuthal derivative and, off the axis, the Laplacian on the sphere. -/
theorem C102_references (hw : rl < ru) (r θ φ : ℝ) :
    vF (fin rl) (fin ru) (fin r) (fin θ) (fin φ) = fin (testT rl ru r θ φ) ∧
    drF (fin rl) (fin ru) (fin r) (fin θ) (fin φ) = fin (deriv (fun t => testT rl ru t θ φ) r) ∧
    DifferentiableAt ℝ (fun t => testT rl ru t θ φ) r ∧
    dphiF (fin rl) (fin ru) (fin r) (fin θ) (fin φ) = fin (dPh (testT rl ru r) θ φ) ∧
    (Real.sin θ ≠ 0 → lapF (fin rl) (fin ru) (fin r) (fin θ) (fin φ) = fin (lapS2 (testT rl ru r) θ φ)) := by
  have hd : HasDerivAt (fun t => testT rl ru t θ φ) (dradT rl ru r * angT θ φ) r := (hasDerivAt_radT hw r).mul_const _
  have c3 : 3 + Real.cos (2 * φ) ≠ 0 := by linarith [Real.neg_one_le_cos (2 * φ)]
  refine ⟨?_, ?_, hd.differentiableAt, ?_, fun hs => ?_⟩
  · unfold vF testT
    rw [rval_cr hw, ang_cr, fin_mul]
  · unfold drF
    rw [der_rval_cr hw, ang_cr, fin_mul, hd.deriv]
  · unfold dphiF
    rw [rval_cr hw, dPh_testT]
    simp only [fin_sin, fin_cos, fin_pown, fin_ofNat_one, fin_ofNat', fin_add, fin_mul]
    rw [fin_div _ _ (pow_ne_zero 2 (one_add_cos_ne φ)), fin_mul]
  · unfold lapF
    rw [rval_cr hw, lapS2_testT hs]
    simp only [fin_sin, fin_cos, fin_pown, fin_ofNat', fin_add, fin_sub, fin_mul]
    norm_num
    rw [fin_div _ _ (pow_ne_zero 3 c3), fin_inj]
    ring

/-- The reference of the squared gradient is `testT`'s radial factor times the angular part, not its square times the angular part ... -/
theorem xF_cr (hw : rl < ru) (r θ φ : ℝ) : xF (fin rl) (fin ru) (fin r) (fin θ) (fin φ) = fin (radT rl ru r * (Real.sin θ ^ 2
    * (Real.cos θ ^ 2 * (3 + Real.cos (2 * φ)) ^ 2 + Real.sin (2 * φ) ^ 2) / (1 + Real.cos φ ^ 2) ^ 4)) := by
  unfold xF
  rw [rval_cr hw]
  simp only [fin_sin, fin_cos, fin_pown, fin_ofNat', fin_ofNat_one, fin_add, fin_mul]
  rw [fin_div _ _ (pow_ne_zero 4 (one_add_cos_ne φ)), fin_inj]
  ring

/-- **C102**: ... so the reference of the squared gradient is wrong (too large) wherever it is not zero. -/
theorem C102_gradient_reference_wrong (hw : rl < ru) (hs : Real.sin θ ≠ 0) :
    ∃ q, xF (fin rl) (fin ru) (fin r) (fin θ) (fin φ) = fin q ∧ gradSq (testT rl ru r) θ φ ≤ q ∧
      (gradSq (testT rl ru r) θ φ = q ↔ q = 0) := by
  refine ⟨_, xF_cr hw r θ φ, ?_⟩
  rw [gradSq_testT hs]
  have hA : 0 ≤ Real.sin θ ^ 2 * (Real.cos θ ^ 2 * (3 + Real.cos (2 * φ)) ^ 2 + Real.sin (2 * φ) ^ 2) / (1 + Real.cos φ ^ 2) ^ 4 := by positivity
  generalize Real.sin θ ^ 2 * (Real.cos θ ^ 2 * (3 + Real.cos (2 * φ)) ^ 2 + Real.sin (2 * φ) ^ 2) / (1 + Real.cos φ ^ 2) ^ 4 = A at *
  have h1 := radT_lt_one hw r
  have h0 : 0 ≤ radT rl ru r := by
    by_cases h : rl < r ∧ r < ru
    · exact (radT_pos h.1 h.2).le
    · rw [radT, bumpT_out h]; norm_num
  generalize radT rl ru r = R at *
  refine ⟨mul_le_mul_of_nonneg_right (by nlinarith) hA, ⟨fun e => ?_, fun e => ?_⟩⟩
  · rcases mul_eq_zero.mp (show (R * A) * (1 - R) = 0 by linear_combination -e) with h | h
    · exact h
    · linarith
  · rw [e]
    rcases mul_eq_zero.mp e with h | h <;> rw [h] <;> ring

/-- **C102**: ... e.g. at every point of the bump with `cos θ ≠ 0` off the axis the true value is strictly below the reference. -/
theorem C102_gradient_reference_strict (h1 : rl < r) (h2 : r < ru) (hs : Real.sin θ ≠ 0) (hc : Real.cos θ ≠ 0) :
    ∃ q, xF (fin rl) (fin ru) (fin r) (fin θ) (fin φ) = fin q ∧ gradSq (testT rl ru r) θ φ < q := by
  obtain ⟨q, a, b, c⟩ := C102_gradient_reference_wrong (r := r) (φ := φ) (h1.trans h2) hs
  refine ⟨q, a, lt_of_le_of_ne b fun e => ?_⟩
  have hq := c.mp e
  rw [xF_cr (h1.trans h2), fin_inj] at a
  have hR := radT_pos h1 h2
  have c3 : 0 < 3 + Real.cos (2 * φ) := by linarith [Real.neg_one_le_cos (2 * φ)]
  have hp : 0 < radT rl ru r * (Real.sin θ ^ 2 * (Real.cos θ ^ 2 * (3 + Real.cos (2 * φ)) ^ 2 + Real.sin (2 * φ) ^ 2) / (1 + Real.cos φ ^ 2) ^ 4) := by
    have : 0 < Real.sin θ ^ 2 := by positivity
    have : 0 < Real.cos θ ^ 2 := by positivity
    positivity
  linarith

/-- the grid test's own radii: `rl = 1.9`, `ru = 5.5`; a point of the bump off the axis and off the equator -/
example : (1.9 : ℝ) < 3 ∧ (3 : ℝ) < 5.5 ∧ Real.sin (Real.pi / 4) ≠ 0 ∧ Real.cos (Real.pi / 4) ≠ 0 := by
  rw [Real.sin_pi_div_four, Real.cos_pi_div_four]
  norm_num

end cr

section run
variable {α : Type} [Scalar α] {E : Env α} {nx nl nm nlat nphi : ℕ}

/-- reference values of the test: a function of radius, polar angle and azimuth at every point of the grid, in the grid's order -/
def sampled (g : Grid α) (F : α → α → α → α) : List α := g.R_th_ph.map fun q => F (Grid.R_to_r g.cl q.x0) q.x1 q.x2

/-- the mean of the absolute differences of two vectors -/
def meanDiff (a b : List α) : α := (List.zipWith (fun x y => fabs (x - y)) a b).foldl (· + ·) 0 / dbl a.length

theorem fillG_eq {g : Grid α} (h : g.Wf) {n : ℕ} (hn : n = g.d.total) (F : α → α → α → α) :
    fillG g n (fun _ => F) = .ok (sampled g F) := by
  subst hn
  have hl : g.R_th_ph.length = g.d.total := by rw [h.R_th_ph]; simp
  rw [fillG, forRange_fill (fun i => F (Grid.R_to_r g.cl (gv g.R_th_ph i).x0) (gv g.R_th_ph i).x1 (gv g.R_th_ph i).x2) (by simp)
    (fun i w hi hw _ => by rw [rd_ok (by omega), ok_bind])]
  congr 1
  refine list_ext_gv (by simp [sampled, hl]) fun k hk => ?_
  rw [tab_length] at hk
  rw [gv_tab hk]
  unfold sampled gv
  simp [hl, hk]

theorem sampled_length {g : Grid α} (h : g.Wf) (F : α → α → α → α) : (sampled g F).length = g.d.total := by
  unfold sampled
  rw [List.length_map, h.R_th_ph]; simp

theorem fillG_ok {g : Grid α} (h : g.Wf) {n : ℕ} (hn : n = g.d.total) (F : ℕ → α → α → α → α) :
    ∃ w, fillG g n F = .ok w ∧ w.length = g.d.total := by
  subst hn
  have hl : g.R_th_ph.length = g.d.total := by rw [h.R_th_ph]; simp
  refine ⟨_, forRange_fill (fun i => F i (Grid.R_to_r g.cl (gv g.R_th_ph i).x0) (gv g.R_th_ph i).x1 (gv g.R_th_ph i).x2) (by simp)
    (fun i w hi hw _ => by rw [rd_ok (by omega), ok_bind]), by simp⟩

theorem norm1_eq {n : ℕ} {a b : List α} (ha : a.length = n) (hb : b.length = n) : norm1 n a b = .ok (meanDiff a b) := by
  unfold norm1
  have key := forRange_closed (s := (0 : α)) (lo := 0) (hi := n) (b := fun i t => do
    let x ← rd a i
    let y ← rd b i
    .ok (t + fabs (x - y))) (fun k => (List.range k).foldl (fun t i => t + fabs (gv a i - gv b i)) 0) (Nat.zero_le _) rfl (fun k _ hk => by
    rw [rd_ok (by omega), ok_bind, rd_ok (by omega), ok_bind, List.range_succ, List.foldl_append]; rfl)
  rw [key, ok_bind]
  unfold meanDiff
  rw [ha]
  have e : List.zipWith (fun x y : α => fabs (x - y)) a b = (List.range n).map fun i => fabs (gv a i - gv b i) := by
    refine List.ext_getElem (by simp [ha, hb]) fun i h1 h2 => ?_
    have h3 : i < n := by simpa using h2
    simp only [List.getElem_zipWith, List.getElem_map, List.getElem_range]
    unfold gv
    simp [ha, hb, h3]
  rw [e, List.foldl_map]

/-- **C102**: what the grid test compares. Its five numbers are the mean absolute differences, over all points of the grid, between the reference and
what the grid computes from the sampled function: radial derivative, second radial derivative (against the computed derivative of the reference
derivative), azimuthal derivative, squared gradient, Laplacian.  Every operator succeeds. In any build, any arithmetic. -/
theorem C102_norms (hE : E.Sized nx nl nm nlat nphi) (hz : Sizes E.useCheb nx nl nlat nphi) (J : Junk (Cx α)) (Rmin Rmax : α) {rl ru : α}
    (hl : rl = lit (1 / 10) * (Rmax - Rmin) + Rmin) (hu : ru = lit (1 / 2) * (Rmax - Rmin) + Rmin) :
    ∃ g, Grid.ctor E Rmax Rmin Rmax nx nl nm nlat nphi = .ok g ∧ ∃ dr ddr d2r dph gr lap,
      g.set_partial_r (sampled g (vF rl ru)) (List.replicate (nx * nlat * nphi) 0) = .ok dr ∧
      g.set_partial_r (sampled g (drF rl ru)) (List.replicate (nx * nlat * nphi) 0) = .ok ddr ∧
      g.set_partial2_r (sampled g (vF rl ru)) (List.replicate (nx * nlat * nphi) 0) = .ok d2r ∧
      g.set_partial_phi (J.sub 0) (sampled g (vF rl ru)) (List.replicate (nx * nlat * nphi) 0) = .ok dph ∧
      g.set_sphereX (J.sub 1) (sampled g (vF rl ru)) (List.replicate (nx * nlat * nphi) 0) = .ok gr ∧
      g.set_spherical_lap (J.sub 2) (sampled g (vF rl ru)) (List.replicate (nx * nlat * nphi) 0) = .ok lap ∧
      get_norm_diff E J nx nl nm nlat nphi Rmin Rmax = .ok [meanDiff (sampled g (drF rl ru)) dr, meanDiff ddr d2r,
        meanDiff (sampled g (dphiF rl ru)) dph, meanDiff (sampled g (xF rl ru)) gr, meanDiff (sampled g (lapF rl ru)) lap] := by
  obtain ⟨g, hg, hw, hd, _⟩ := Grid.ctor_wf hE hz Rmax Rmin Rmax
  have ht : nx * nlat * nphi = g.d.total := by rw [hd]; rfl
  have hn : umul (umul nx nlat) nphi = g.d.total := by
    have h := hw.nTot_eq
    unfold Grid.nTot at h
    rw [hd] at h ⊢
    exact h
  have hz0 : (List.replicate g.d.total (0 : α)).length = g.d.total := by simp
  rw [ht]
  refine ⟨g, hg, _, _, _, _, _, _, hw.set_partial_r_eq (sampled_length hw _) hz0, hw.set_partial_r_eq (sampled_length hw _) hz0,
    hw.set_partial2_r_eq (sampled_length hw _) hz0, hw.set_partial_phi_eq _ (sampled_length hw _) hz0,
    hw.set_sphereX_junk_eq _ (sampled_length hw _) hz0, hw.set_spherical_lap_eq _ (sampled_length hw _) hz0, ?_⟩
  unfold get_norm_diff
  dsimp only
  rw [hg, ok_bind, hn, ← hl, ← hu, fillG_eq hw rfl, ok_bind, fillG_eq hw rfl, ok_bind, fillG_eq hw rfl, ok_bind, fillG_eq hw rfl, ok_bind,
    fillG_eq hw rfl, ok_bind, hw.set_partial_r_eq (sampled_length hw _) hz0, ok_bind, hw.set_partial_r_eq (sampled_length hw _) hz0, ok_bind,
    hw.set_partial2_r_eq (sampled_length hw _) hz0, ok_bind, hw.set_partial_phi_eq _ (sampled_length hw _) hz0, ok_bind,
    hw.set_sphereX_junk_eq _ (sampled_length hw _) hz0, ok_bind, hw.set_spherical_lap_eq _ (sampled_length hw _) hz0, ok_bind,
    norm1_eq (sampled_length hw _) (Grid.prP_length _), ok_bind, norm1_eq (Grid.prP_length _) (Grid.p2rP_length _), ok_bind,
    norm1_eq (sampled_length hw _) (Grid.pphiP_length _), ok_bind, norm1_eq (sampled_length hw _) (Grid.psphXJ_length _ _), ok_bind,
    norm1_eq (sampled_length hw _) (Grid.plapP_length _), ok_bind]

/-- the total variation of a grid function: the sum, over all points but the last of each direction, of the length of the vector of the
differences to the next point in each direction -/
def variation3 (d : Dims) (v : List α) : α :=
  (List.range (d.nx - 1)).foldl (fun s ix => (List.range (d.nlat - 1)).foldl (fun s it => (List.range (d.nphi - 1)).foldl (fun s ip =>
    s + rt (pown (d.at3 v (ix + 1) it ip - d.at3 v ix it ip) 2 + pown (d.at3 v ix (it + 1) ip - d.at3 v ix it ip) 2
      + pown (d.at3 v ix it (ip + 1) - d.at3 v ix it ip) 2)) s) s) 0

theorem forRange_foldl {σ : Type} {b : ℕ → σ → Exec σ} {h : σ → ℕ → σ} (n : ℕ) (s : σ) (hb : ∀ i, i < n → ∀ t, b i t = .ok (h t i)) :
    forRange 0 n s b = .ok ((List.range n).foldl h s) := by
  have key := forRange_closed (s := s) (lo := 0) (hi := n) (b := b) (fun k => (List.range k).foldl h s) (Nat.zero_le _) rfl (fun k _ hk => by
    rw [hb k hk, List.range_succ, List.foldl_append]; rfl)
  exact key

theorem tv3_eq {g : Grid α} (hw : g.Wf) (h1 : usub nx 1 = g.d.nx - 1) (h2 : usub nlat 1 = g.d.nlat - 1) (h3 : usub nphi 1 = g.d.nphi - 1)
    {v : List α} (hv : v.length = g.d.total) : tv3 g nx nlat nphi v = .ok (variation3 g.d v) := by
  have hrd : ∀ {ix it ip : ℕ}, ix < g.d.nx → it < g.d.nlat → ip < g.d.nphi → rd v (g.d.indx_R_th_ph ix it ip) = .ok (g.d.at3 v ix it ip) :=
    fun a b c => hw.ok.rd3 hv ⟨a, b, c⟩
  unfold tv3 variation3
  rw [h1, h2, h3]
  refine forRange_foldl _ _ fun ix hx t => forRange_foldl _ _ fun it ht t => forRange_foldl _ _ fun ip hp t => ?_
  rw [hrd (by omega) (by omega) (by omega), ok_bind, hrd (by omega) (by omega) (by omega), ok_bind,
    hrd (by omega) (by omega) (by omega), ok_bind, hrd (by omega) (by omega) (by omega), ok_bind]

/-- **C102**: the two numbers of the total-variation test are the total variation of the sampled noisy function and that of the filtered one; the
filter and the accesses succeed.  In any build, any arithmetic. -/
theorem C102_variations (hE : E.Sized nx nl nm nlat nphi) (hz : Sizes E.useCheb nx nl nlat nphi) (h1 : usub nx 1 = nx - 1)
    (h2 : usub nlat 1 = nlat - 1) (h3 : usub nphi 1 = nphi - 1) (J : Junk (Cx α)) (noise : ℕ → α) (Rmin Rmax : α) {rl ru : α}
    (hl : rl = lit (1 / 10) * (Rmax - Rmin) + Rmin) (hu : ru = lit (1 / 2) * (Rmax - Rmin) + Rmin) :
    ∃ g v w, Grid.ctor E Rmax Rmin Rmax nx nl nm nlat nphi = .ok g ∧ v.length = nx * nlat * nphi ∧
      (∀ i, i < nx * nlat * nphi → gv v i = rval 2 rl ru (Grid.R_to_r g.cl (gv g.R_th_ph i).x0) (bump 1 rl ru (Grid.R_to_r g.cl (gv g.R_th_ph i).x0))
        * ang (gv g.R_th_ph i).x1 (gv g.R_th_ph i).x2 * (1 + noise i)) ∧ g.filter J v = .ok w ∧
      get_total_variation E J noise nx nl nm nlat nphi Rmin Rmax = .ok [variation3 g.d v, variation3 g.d w] := by
  obtain ⟨g, hg, hw, hd, _⟩ := Grid.ctor_wf hE hz Rmax Rmin Rmax
  have ht : nx * nlat * nphi = g.d.total := by rw [hd]; rfl
  have hn : umul (umul nx nlat) nphi = g.d.total := by
    have h := hw.nTot_eq
    unfold Grid.nTot at h
    rw [hd] at h ⊢
    exact h
  have e1 : usub nx 1 = g.d.nx - 1 := by rw [hd]; exact h1
  have e2 : usub nlat 1 = g.d.nlat - 1 := by rw [hd]; exact h2
  have e3 : usub nphi 1 = g.d.nphi - 1 := by rw [hd]; exact h3
  have hR : g.R_th_ph.length = g.d.total := by rw [hw.R_th_ph]; simp
  obtain ⟨v, hvd⟩ : ∃ v : List α, v = tab g.d.total fun i => rval 2 rl ru (Grid.R_to_r g.cl (gv g.R_th_ph i).x0)
    (bump 1 rl ru (Grid.R_to_r g.cl (gv g.R_th_ph i).x0)) * ang (gv g.R_th_ph i).x1 (gv g.R_th_ph i).x2 * (1 + noise i) := ⟨_, rfl⟩
  have v1 : fillG g g.d.total (fun i r th ph => rval 2 rl ru r (bump 1 rl ru r) * ang th ph * (1 + noise i)) = .ok v := by
    rw [hvd]
    exact forRange_fill (fun i => rval 2 rl ru (Grid.R_to_r g.cl (gv g.R_th_ph i).x0)
      (bump 1 rl ru (Grid.R_to_r g.cl (gv g.R_th_ph i).x0)) * ang (gv g.R_th_ph i).x1 (gv g.R_th_ph i).x2 * (1 + noise i)) (by simp)
      (fun i w hi hw _ => by rw [rd_ok (by omega), ok_bind])
  have v2 : v.length = g.d.total := by rw [hvd]; simp
  refine ⟨g, v, _, hg, by rw [ht]; exact v2, fun i hi => by rw [hvd, gv_tab (by rw [← ht]; exact hi)], hw.filter_eq J v2, ?_⟩
  unfold get_total_variation
  dsimp only
  rw [hg, ok_bind, hn, ← hl, ← hu, v1, ok_bind, hw.filter_eq J v2, ok_bind, tv3_eq hw e1 e2 e3 v2, ok_bind,
    tv3_eq hw e1 e2 e3 (Grid.filtP_length (g := g) v), ok_bind]

theorem test_dr_dphi_lap_eq {J : Junk (Cx α)} {a₁ b₁ c₁ d₁ e₁ a₂ b₂ c₂ d₂ e₂ a₃ b₃ c₃ d₃ e₃ : α}
    (q1 : get_norm_diff E (J.sub 0) 48 20 16 42 42 1 10 = .ok [a₁, b₁, c₁, d₁, e₁])
    (q2 : get_norm_diff E (J.sub 1) 64 20 16 42 42 1 10 = .ok [a₂, b₂, c₂, d₂, e₂])
    (q3 : get_norm_diff E (J.sub 2) 48 40 32 84 84 1 10 = .ok [a₃, b₃, c₃, d₃, e₃]) :
    test_dr_dphi_lap E J = .ok (lt a₂ a₁ && lt b₂ b₁ && lt c₃ c₁ && lt d₃ d₁ && lt e₃ e₁) := by
  unfold test_dr_dphi_lap
  rw [q1, ok_bind, q2, ok_bind, q3, ok_bind]
  rfl

theorem test_tvd_eq {J : Junk (Cx α)} {noise : ℕ → ℕ → α} {a₁ b₁ a₂ b₂ : α}
    (q1 : get_total_variation E (J.sub 0) (noise 0) 96 16 14 34 34 1 100 = .ok [a₁, b₁])
    (q2 : get_total_variation E (J.sub 1) (noise 1) 128 24 20 50 50 1 100 = .ok [a₂, b₂]) :
    test_tvd E J noise = .ok (lt b₁ a₁ && lt b₂ a₂) := by
  unfold test_tvd
  rw [q1, ok_bind, q2, ok_bind]
  rfl

/-- **C102**: the derivative test of the grid runs to a verdict (no assertion of the code fails and no access is out of bounds, in any build, with
any arithmetic and uninitialised memory), and passes exactly if all five comparisons of the means hold: the radial ones at 48 against 64 radial points,
the angular ones at degree 20 against degree 40. -/
theorem C102_completes (h1 : E.Sized 48 20 16 42 42) (h2 : E.Sized 64 20 16 42 42) (h3 : E.Sized 48 40 32 84 84) (J : Junk (Cx α)) :
    ∃ a₁ b₁ c₁ d₁ e₁ a₂ b₂ c₂ d₂ e₂ a₃ b₃ c₃ d₃ e₃ verdict, get_norm_diff E (J.sub 0) 48 20 16 42 42 1 10 = .ok [a₁, b₁, c₁, d₁, e₁] ∧
      get_norm_diff E (J.sub 1) 64 20 16 42 42 1 10 = .ok [a₂, b₂, c₂, d₂, e₂] ∧ get_norm_diff E (J.sub 2) 48 40 32 84 84 1 10 = .ok [a₃, b₃, c₃, d₃, e₃] ∧
      test_dr_dphi_lap E J = .ok verdict ∧
      (verdict = true ↔ lt a₂ a₁ = true ∧ lt b₂ b₁ = true ∧ lt c₃ c₁ = true ∧ lt d₃ d₁ = true ∧ lt e₃ e₁ = true) := by
  have hm : ∀ k : ℕ, 8 ≤ k → (if E.useCheb then 2 else 8) ≤ k := fun k hk => by split <;> omega
  have z1 : Sizes E.useCheb 48 20 42 42 := ⟨hm _ (by norm_num), by norm_num, by norm_num, by decide, by decide, by norm_num⟩
  have z2 : Sizes E.useCheb 64 20 42 42 := ⟨hm _ (by norm_num), by norm_num, by norm_num, by decide, by decide, by norm_num⟩
  have z3 : Sizes E.useCheb 48 40 84 84 := ⟨hm _ (by norm_num), by norm_num, by norm_num, by decide, by decide, by norm_num⟩
  obtain ⟨g1, _, _, _, _, _, _, _, _, _, _, _, _, _, q1⟩ := C102_norms h1 z1 (J.sub 0) 1 10 rfl rfl
  obtain ⟨g2, _, _, _, _, _, _, _, _, _, _, _, _, _, q2⟩ := C102_norms h2 z2 (J.sub 1) 1 10 rfl rfl
  obtain ⟨g3, _, _, _, _, _, _, _, _, _, _, _, _, _, q3⟩ := C102_norms h3 z3 (J.sub 2) 1 10 rfl rfl
  refine ⟨_, _, _, _, _, _, _, _, _, _, _, _, _, _, _, _, q1, q2, q3, test_dr_dphi_lap_eq q1 q2 q3, ?_⟩
  simp only [Bool.and_eq_true, and_assoc]

/-- **C102**: so does the total-variation test, for all random numbers; it passes exactly if the filter lowers the total variation in both of its
configurations. -/
theorem C102_tvd_completes (h1 : E.Sized 96 16 14 34 34) (h2 : E.Sized 128 24 20 50 50) (J : Junk (Cx α)) (noise : ℕ → ℕ → α) :
    ∃ a₁ b₁ a₂ b₂ verdict, get_total_variation E (J.sub 0) (noise 0) 96 16 14 34 34 1 100 = .ok [a₁, b₁] ∧
      get_total_variation E (J.sub 1) (noise 1) 128 24 20 50 50 1 100 = .ok [a₂, b₂] ∧ test_tvd E J noise = .ok verdict ∧
      (verdict = true ↔ lt b₁ a₁ = true ∧ lt b₂ a₂ = true) := by
  have hm : ∀ k : ℕ, 8 ≤ k → (if E.useCheb then 2 else 8) ≤ k := fun k hk => by split <;> omega
  have z1 : Sizes E.useCheb 96 16 34 34 := ⟨hm _ (by norm_num), by norm_num, by norm_num, by decide, by decide, by norm_num⟩
  have z2 : Sizes E.useCheb 128 24 50 50 := ⟨hm _ (by norm_num), by norm_num, by norm_num, by decide, by decide, by norm_num⟩
  obtain ⟨g1, v1, w1, _, _, _, _, q1⟩ := C102_variations h1 z1 (by decide) (by decide) (by decide) (J.sub 0) (noise 0) 1 100 rfl rfl
  obtain ⟨g2, v2, w2, _, _, _, _, q2⟩ := C102_variations h2 z2 (by decide) (by decide) (by decide) (J.sub 1) (noise 1) 1 100 rfl rfl
  refine ⟨_, _, _, _, _, q1, q2, test_tvd_eq q1 q2, ?_⟩
  simp only [Bool.and_eq_true]

/-- libraries for all sizes of the tests at once exist -/
example (contig ndebug useCheb : Bool) : ∃ E : Env CR, E.contig = contig ∧ E.ndebug = ndebug ∧ E.useCheb = useCheb ∧ E.Sized 48 20 16 42 42 ∧
    E.Sized 64 20 16 42 42 ∧ E.Sized 48 40 32 84 84 ∧ E.Sized 96 16 14 34 34 ∧ E.Sized 128 24 20 50 50 := by
  obtain ⟨E1, _, _, _, _, _, h1⟩ := exists_env contig ndebug useCheb (nx := 48) (nl := 20) (nm := 16) (nlat := 42) (nphi := 42) (by norm_num)
    (by norm_num) (by norm_num)
  obtain ⟨E2, _, _, _, _, _, h2⟩ := exists_env contig ndebug useCheb (nx := 48) (nl := 40) (nm := 32) (nlat := 84) (nphi := 84) (by norm_num)
    (by norm_num) (by norm_num)
  obtain ⟨E3, _, _, _, _, _, h3⟩ := exists_env contig ndebug useCheb (nx := 96) (nl := 16) (nm := 14) (nlat := 34) (nphi := 34) (by norm_num)
    (by norm_num) (by norm_num)
  obtain ⟨E4, _, _, _, _, _, h4⟩ := exists_env contig ndebug useCheb (nx := 128) (nl := 24) (nm := 20) (nlat := 50) (nphi := 50) (by norm_num)
    (by norm_num) (by norm_num)
  refine ⟨⟨contig, ndebug, useCheb, fun nl nm nlat nphi => if nl = 20 then E1.sht nl nm nlat nphi else if nl = 40 then E2.sht nl nm nlat nphi
    else if nl = 16 then E3.sht nl nm nlat nphi else E4.sht nl nm nlat nphi, fun nl nm nlat nphi => if nl = 20 then E1.nspatAlloc nl nm nlat nphi
    else if nl = 40 then E2.nspatAlloc nl nm nlat nphi else if nl = 16 then E3.nspatAlloc nl nm nlat nphi else E4.nspatAlloc nl nm nlat nphi,
    fun _ v => v, fun _ => true⟩, rfl, rfl, rfl, ⟨h1.sized.api, h1.sized.alloc, rfl, fun _ h => h⟩, ⟨h1.sized.api, h1.sized.alloc, rfl, fun _ h => h⟩,
    ⟨h2.sized.api, h2.sized.alloc, rfl, fun _ h => h⟩, ⟨h3.sized.api, h3.sized.alloc, rfl, fun _ h => h⟩,
    ⟨h4.sized.api, h4.sized.alloc, rfl, fun _ h => h⟩⟩

end run
end SFK
