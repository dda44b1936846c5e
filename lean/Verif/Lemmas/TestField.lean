import Verif.Lemmas.Harmonics
import Verif.Lemmas.HarmonicFields
import Verif.Lemmas.SphereInstance
import Mathlib.Tactic.SplitIfs
/-
The functions of the unit tests of the sphere in terms of spherical harmonics.
-/
namespace SFK
open Polynomial

theorem legP_zero : legP 0 = 1 := by simp [legP]

theorem legP_one : legP 1 = X := by
  simp only [legP, pow_one, Nat.factorial_one, Function.iterate_one, derivative_sub, derivative_X_pow, derivative_one]
  rw [sub_zero, ← mul_assoc, ← C_mul]
  norm_num

theorem legP_two : legP 2 = C (3 / 2) * X ^ 2 - C (1 / 2) := by
  have h : derivative^[2] ((X ^ 2 - 1 : ℝ[X]) ^ 2) = C 12 * X ^ 2 - C 4 := by
    have e : ((X ^ 2 - 1 : ℝ[X]) ^ 2) = X ^ 4 - C 2 * X ^ 2 + 1 := by
      rw [show (C 2 : ℝ[X]) = 2 from map_ofNat C 2]; ring
    rw [e, Function.iterate_succ, Function.iterate_one, Function.comp_apply]
    simp only [derivative_add, derivative_sub, derivative_X_pow, derivative_C_mul, derivative_one]
    simp only [derivative_add, derivative_sub, derivative_X_pow, derivative_C_mul, derivative_mul, derivative_zero, derivative_C]
    simp only [map_natCast, show (C 12 : ℝ[X]) = 12 from map_ofNat C 12, show (C 4 : ℝ[X]) = 4 from map_ofNat C 4, show (C 2 : ℝ[X]) = 2 from map_ofNat C 2]
    norm_num
    ring
  rw [legP, h]
  rw [mul_sub, ← mul_assoc, ← C_mul, ← C_mul]
  norm_num [Nat.factorial]

/-- coefficients of `1+sin²θ cos²φ` -/
noncomputable def bumpC (l m : ℕ) : ℂ :=
  if l = 0 ∧ m = 0 then ((4 / 3 / nrmY 0 0 : ℝ) : ℂ) else if l = 2 ∧ m = 0 then ((-(1 / 3) / nrmY 2 0 : ℝ) : ℂ)
  else if l = 2 ∧ m = 2 then ((1 / 12 / nrmY 2 2 : ℝ) : ℂ) else 0

theorem bumpC_real (l : ℕ) : (bumpC l 0).im = 0 := by
  unfold bumpC
  split_ifs <;> simp

theorem bumpC_hi {l m : ℕ} (h : 2 < l) : bumpC l m = 0 := by
  unfold bumpC
  rw [if_neg (by omega), if_neg (by omega), if_neg (by omega)]

theorem ThN_00 (θ : ℝ) : ThN 0 0 θ = nrmY 0 0 := by
  unfold ThN; simp [legP_zero]

theorem ThN_10 (θ : ℝ) : ThN 1 0 θ = nrmY 1 0 * Real.cos θ := by
  unfold ThN; simp [legP_one]

theorem ThN_11 (θ : ℝ) : ThN 1 1 θ = -nrmY 1 1 * Real.sin θ := by
  unfold ThN; simp [legP_one]

theorem ThN_20 (θ : ℝ) : ThN 2 0 θ = nrmY 2 0 * (3 / 2 * Real.cos θ ^ 2 - 1 / 2) := by
  unfold ThN; simp [legP_two]

theorem ThN_22 (θ : ℝ) : ThN 2 2 θ = nrmY 2 2 * 3 * Real.sin θ ^ 2 := by
  unfold ThN
  have : derivative^[2] (legP 2) = C 3 := by
    rw [legP_two, Function.iterate_succ, Function.iterate_one, Function.comp_apply]
    simp only [derivative_sub, derivative_X_pow, derivative_C_mul, derivative_C]
    simp only [derivative_sub, derivative_X_pow, derivative_C_mul, derivative_mul, derivative_C, derivative_zero]
    norm_num
    rw [← C_mul]
    norm_num
  rw [this, eval_C]
  ring

theorem Ylm_re (l m : ℕ) (θ φ : ℝ) (z : ℝ) : ((z : ℂ) * Ylm l m θ φ).re = z * ThN l m θ * Real.cos (m * φ) := by
  unfold Ylm
  rw [ThZ_nat, ← mul_assoc, ← Complex.ofReal_mul, Complex.re_ofReal_mul,
    show Complex.I * ((m : ℤ) : ℂ) * (φ : ℂ) = ((m * φ : ℝ) : ℂ) * Complex.I by push_cast; ring, Complex.exp_ofReal_mul_I_re]

theorem fieldR_bump {L M : ℕ} (hL : 2 ≤ L) (hM : 2 ≤ M) (θ φ : ℝ) :
    fieldR L M bumpC θ φ = 1 + Real.sin θ ^ 2 * Real.cos φ ^ 2 := by
  unfold fieldR
  have hsub : (Finset.range 3) ⊆ Finset.range (L + 1) := Finset.range_subset_range.mpr (by omega)
  rw [← Finset.sum_subset hsub]
  · rw [Finset.sum_range_succ, Finset.sum_range_succ, Finset.sum_range_succ, Finset.sum_range_zero]
    have s0 : (∑ m ∈ Finset.Icc 1 (min 0 M), bumpC 0 m * Ylm 0 m θ φ) = 0 := by simp
    have s1 : (∑ m ∈ Finset.Icc 1 (min 1 M), bumpC 1 m * Ylm 1 m θ φ) = 0 := by
      apply Finset.sum_eq_zero
      intro m _
      unfold bumpC
      rw [if_neg (by omega), if_neg (by omega), if_neg (by omega), zero_mul]
    have s2 : (∑ m ∈ Finset.Icc 1 (min 2 M), bumpC 2 m * Ylm 2 m θ φ) = ((1 / 12 / nrmY 2 2 : ℝ) : ℂ) * Ylm 2 ((2 : ℕ) : ℤ) θ φ := by
      rw [Nat.min_eq_left hM, Finset.sum_eq_single 2]
      · unfold bumpC
        rw [if_neg (by omega), if_neg (by omega), if_pos (by omega)]
      · intro m hm h2
        unfold bumpC
        rw [Finset.mem_Icc] at hm
        rw [if_neg (by omega), if_neg (by omega), if_neg (by omega), zero_mul]
      · intro h; exact absurd (Finset.mem_Icc.mpr ⟨by omega, by omega⟩) h
    rw [s0, s1, s2, Ylm_re]
    have c0 : (bumpC 0 0).re = 4 / 3 / nrmY 0 0 := by
      unfold bumpC; rw [if_pos (by omega)]; exact Complex.ofReal_re _
    have c1 : (bumpC 1 0).re = 0 := by
      unfold bumpC; rw [if_neg (by omega), if_neg (by omega), if_neg (by omega)]; rfl
    have c2 : (bumpC 2 0).re = -(1 / 3) / nrmY 2 0 := by
      unfold bumpC; rw [if_neg (by omega), if_pos (by omega)]; exact Complex.ofReal_re _
    rw [c0, c1, c2, ThN_00, ThN_20, ThN_22]
    have n0 := (nrmY_pos 0 0).ne'
    have n1 := (nrmY_pos 2 0).ne'
    have n2 := (nrmY_pos 2 2).ne'
    have hc : Real.cos (((2 : ℕ) : ℝ) * φ) = 2 * Real.cos φ ^ 2 - 1 := by
      rw [← Real.cos_two_mul]; norm_num
    rw [hc]
    have hs := Real.sin_sq_add_cos_sq θ
    rw [Complex.zero_re]
    have e : 4 / 3 / nrmY 0 0 * nrmY 0 0 = 4 / 3 := by field_simp
    have e2 : -(1 / 3) / nrmY 2 0 * (nrmY 2 0 * (3 / 2 * Real.cos θ ^ 2 - 1 / 2)) = -(1 / 3) * (3 / 2 * Real.cos θ ^ 2 - 1 / 2) := by field_simp
    have e3 : 1 / 12 / nrmY 2 2 * (nrmY 2 2 * 3 * Real.sin θ ^ 2) = 1 / 4 * Real.sin θ ^ 2 := by field_simp; ring
    rw [e, e2, e3]
    have hc2 : Real.cos θ ^ 2 = 1 - Real.sin θ ^ 2 := by linarith
    rw [hc2]
    ring
  · intro l _ hl
    rw [Finset.mem_range] at hl
    rw [bumpC_hi (by omega), Finset.sum_eq_zero]
    · simp
    · intro m _
      rw [bumpC_hi (by omega), zero_mul]

/-- `Y_{1,0}` is `sqrt(3/(4π)) cos θ` and so on -/
theorem nrmY_00 : nrmY 0 0 = Real.sqrt (1 / (4 * Real.pi)) := by
  unfold nrmY; norm_num
theorem nrmY_10 : nrmY 1 0 = Real.sqrt (3 / (4 * Real.pi)) := by
  unfold nrmY; norm_num
theorem nrmY_11 : nrmY 1 1 = Real.sqrt (3 / (8 * Real.pi)) := by
  unfold nrmY
  congr 1
  norm_num [Nat.factorial]
  field_simp
  norm_num

end SFK
