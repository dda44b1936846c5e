import Verif.Spec.Harmonics
import Mathlib.Analysis.SpecialFunctions.Trigonometric.Deriv
import Mathlib.Analysis.SpecialFunctions.ExpDeriv
import Mathlib.Analysis.Calculus.Deriv.Polynomial
import Mathlib.Analysis.Calculus.Deriv.Pow
import Mathlib.Analysis.Complex.RealDeriv
import Mathlib.Tactic.ComputeDegree
import Mathlib.Tactic.FieldSimp
import Mathlib.Tactic.LinearCombination
import Mathlib.Tactic.Positivity
/-
Legendre's equation and the angular-momentum ladder for the harmonics of Spec/Harmonics.lean.
-/
namespace SFK
open Polynomial

/-- `k` times differentiated `(x²-1)w' = 2l x w` for `w=(x²-1)^l`. -/
theorem rodrigues_rec (l k : ℕ) :
    (X ^ 2 - 1) * derivative^[k + 2] ((X ^ 2 - 1 : ℝ[X]) ^ l)
      + C (2 * ((k : ℝ) + 1) - 2 * l) * X * derivative^[k + 1] ((X ^ 2 - 1 : ℝ[X]) ^ l)
      + C (((k : ℝ) + 1) * (k - 2 * l)) * derivative^[k] ((X ^ 2 - 1 : ℝ[X]) ^ l) = 0 := by
  set w : ℝ[X] := (X ^ 2 - 1) ^ l with hw
  have h0 : (X ^ 2 - 1) * derivative w = C (2 * (l : ℝ)) * X * w := by
    rw [hw]
    cases l with
    | zero => simp
    | succ l =>
      rw [derivative_pow_succ]
      simp only [derivative_sub, derivative_X_pow, derivative_one, map_mul, map_natCast, map_add, map_ofNat]
      simp
      ring
  induction k with
  | zero =>
    have := congrArg derivative h0
    simp only [derivative_mul, derivative_sub, derivative_X_pow, derivative_one, derivative_C, derivative_X] at this
    simp only [Function.iterate_succ, Function.iterate_zero, Function.comp, id, Nat.cast_zero, map_sub, map_mul,
      map_one, map_ofNat, map_zero, map_natCast, zero_add] at this ⊢
    simp at this ⊢
    linear_combination this
  | succ k ih =>
    have := congrArg derivative ih
    simp only [derivative_add, derivative_mul, derivative_sub, derivative_X_pow, derivative_one, derivative_C,
      derivative_X, ← Function.iterate_succ_apply'] at this
    simp only [map_sub, map_mul, map_add, map_one, map_ofNat, map_natCast, Nat.cast_add, Nat.cast_one] at this ⊢
    simp at this ⊢
    linear_combination this

/-- Legendre's equation differentiated `m` times. -/
theorem legendre_ode (l m : ℕ) :
    (X ^ 2 - 1) * derivative^[m + 2] (legP l) + C (2 * ((m : ℝ) + 1)) * X * derivative^[m + 1] (legP l)
      + C (((m : ℝ) + 1 + l) * (m - l)) * derivative^[m] (legP l) = 0 := by
  unfold legP
  simp only [iterate_derivative_C_mul, ← Function.iterate_add_apply]
  have := rodrigues_rec l (m + l)
  have e1 : m + 2 + l = m + l + 2 := by omega
  have e2 : m + 1 + l = m + l + 1 := by omega
  rw [e1, e2]
  set a := derivative^[m + l + 2] ((X ^ 2 - 1 : ℝ[X]) ^ l)
  set b := derivative^[m + l + 1] ((X ^ 2 - 1 : ℝ[X]) ^ l)
  set d := derivative^[m + l] ((X ^ 2 - 1 : ℝ[X]) ^ l)
  simp only [map_sub, map_mul, map_add, map_one, map_ofNat, map_natCast, Nat.cast_add] at this ⊢
  linear_combination (C (1 / (2 ^ l * (l.factorial : ℝ)))) * this

theorem legendre_ode_eval (l m : ℕ) (x : ℝ) :
    (x ^ 2 - 1) * (derivative^[m + 2] (legP l)).eval x + 2 * ((m : ℝ) + 1) * x * (derivative^[m + 1] (legP l)).eval x
      + (((m : ℝ) + 1 + l) * (m - l)) * (derivative^[m] (legP l)).eval x = 0 := by
  have := congrArg (Polynomial.eval x) (legendre_ode l m)
  simpa using this

theorem legP_natDegree_le (l : ℕ) : (legP l).natDegree ≤ l := by
  unfold legP
  refine (natDegree_C_mul_le _ _).trans ((natDegree_iterate_derivative _ _).trans ?_)
  have : ((X ^ 2 - 1 : ℝ[X]) ^ l).natDegree ≤ l * 2 := by
    refine natDegree_pow_le.trans (Nat.mul_le_mul_left _ ?_)
    compute_degree
  omega

theorem legP_top (l : ℕ) : derivative^[l + 1] (legP l) = 0 :=
  iterate_derivative_eq_zero (Nat.lt_succ_of_le (legP_natDegree_le l))

theorem nrmY_succ {l m : ℕ} (h : m < l) :
    Real.sqrt (((l : ℝ) - m) * (l + m + 1)) * nrmY l (m + 1) = nrmY l m := by
  unfold nrmY
  have h1 : (0 : ℝ) < (l : ℝ) - m := by
    have : (m : ℝ) < l := by exact_mod_cast h
    linarith
  rw [← Real.sqrt_mul (by positivity)]
  congr 1
  have e1 : (l - m).factorial = (l - m) * (l - (m + 1)).factorial := by
    have : l - m = (l - (m + 1)) + 1 := by omega
    rw [this, Nat.factorial_succ]
  have e2 : (l + (m + 1)).factorial = (l + m + 1) * (l + m).factorial := by
    rw [← add_assoc, Nat.factorial_succ]
  rw [e1, e2]
  push_cast [Nat.cast_sub h.le]
  have h2 : ((l + m).factorial : ℝ) ≠ 0 := by positivity
  have h3 : ((l : ℝ) + m + 1) ≠ 0 := by positivity
  field_simp

/-- raising, `m≥0` -/
theorem ThN_deriv_up (l m : ℕ) (hm : m ≤ l) {θ : ℝ} (hs : Real.sin θ ≠ 0) :
    HasDerivAt (ThN l m) (m * (Real.cos θ / Real.sin θ) * ThN l m θ
      + Real.sqrt (((l : ℝ) - m) * (l + m + 1)) * ThN l (m + 1) θ) θ := by
  have hp := ((derivative^[m] (legP l)).hasDerivAt (Real.cos θ)).comp θ (Real.hasDerivAt_cos θ)
  have hsin := (Real.hasDerivAt_sin θ).pow m
  have h := ((hsin.const_mul ((-1) ^ m * nrmY l m)).mul hp)
  have hN : nrmY l m * (derivative^[m + 1] (legP l)).eval (Real.cos θ)
      = Real.sqrt (((l : ℝ) - m) * (l + m + 1)) * nrmY l (m + 1) * (derivative^[m + 1] (legP l)).eval (Real.cos θ) := by
    rcases Nat.lt_or_ge m l with hlt | hge
    · rw [nrmY_succ hlt]
    · have : m = l := le_antisymm hm hge
      subst this
      rw [legP_top]; simp
  refine h.congr_deriv ?_
  rw [← Function.iterate_succ_apply' (f := derivative)]
  unfold ThN
  simp only [Function.comp, Pi.pow_apply]
  have e : (m : ℝ) * Real.sin θ ^ (m - 1) * Real.cos θ = m * (Real.cos θ / Real.sin θ) * Real.sin θ ^ m := by
    cases m with
    | zero => simp
    | succ k => rw [Nat.add_sub_cancel, pow_succ]; field_simp
  rw [e, pow_succ (-1 : ℝ) m, pow_succ (Real.sin θ) m]
  linear_combination (-((-1) ^ m * Real.sin θ ^ m * Real.sin θ)) * hN

/-- lowering, `m≥1` -/
theorem ThN_deriv_down (l m : ℕ) (hm : m + 1 ≤ l) {θ : ℝ} (hs : Real.sin θ ≠ 0) :
    HasDerivAt (ThN l (m + 1)) (-(((m : ℝ) + 1) * (Real.cos θ / Real.sin θ) * ThN l (m + 1) θ)
      - Real.sqrt (((l : ℝ) - m) * (l + m + 1)) * ThN l m θ) θ := by
  have hp := ((derivative^[m + 1] (legP l)).hasDerivAt (Real.cos θ)).comp θ (Real.hasDerivAt_cos θ)
  have hsin := (Real.hasDerivAt_sin θ).pow (m + 1)
  have h := ((hsin.const_mul ((-1) ^ (m + 1) * nrmY l (m + 1))).mul hp)
  have h1 : (0 : ℝ) ≤ ((l : ℝ) - m) * (l + m + 1) := by
    have : (m : ℝ) + 1 ≤ l := by exact_mod_cast hm
    apply mul_nonneg
    · linarith
    · positivity
  have hN : Real.sqrt (((l : ℝ) - m) * (l + m + 1)) * nrmY l m
      = (((l : ℝ) - m) * (l + m + 1)) * nrmY l (m + 1) := by
    rw [← nrmY_succ (by omega : m < l), ← mul_assoc, Real.mul_self_sqrt h1]
  refine h.congr_deriv ?_
  rw [← Function.iterate_succ_apply' (f := derivative)]
  unfold ThN
  simp only [Function.comp, Pi.pow_apply, Nat.add_sub_cancel, Nat.cast_add, Nat.cast_one]
  have ho := legendre_ode_eval l m (Real.cos θ)
  have hsc : Real.cos θ ^ 2 - 1 = -(Real.sin θ ^ 2) := by have := Real.sin_sq_add_cos_sq θ; linarith
  rw [hsc] at ho
  have e3 : (m + 1).succ = m + 2 := rfl
  rw [e3]
  rw [pow_succ (-1 : ℝ) m, pow_succ (Real.sin θ) m]
  field_simp
  linear_combination ((derivative^[m] (legP l)).eval (Real.cos θ)) * hN - nrmY l (m + 1) * ho

theorem ThZ_nat (l m : ℕ) : ThZ l (m : ℤ) = ThN l m := by
  funext θ; unfold ThZ; rw [if_pos (by omega)]; simp

theorem ThZ_neg (l m : ℕ) : ThZ l (-(m : ℤ)) = fun θ => (-1) ^ m * ThN l m θ := by
  funext θ
  unfold ThZ
  by_cases h : m = 0
  · subst h; simp
  · rw [if_neg (by omega)]; simp

/-- the two ladder relations for every order, `-l≤m≤l` -/
theorem ThZ_deriv (l : ℕ) (m : ℤ) (h1 : -(l : ℤ) ≤ m) (h2 : m ≤ l) {θ : ℝ} (hs : Real.sin θ ≠ 0) :
    ∃ d, HasDerivAt (ThZ l m) d θ ∧
      d - m * (Real.cos θ / Real.sin θ) * ThZ l m θ
        = (if m = l then 0 else Real.sqrt (((l : ℝ) - m) * (l + m + 1)) * ThZ l (m + 1) θ) ∧
      -d - m * (Real.cos θ / Real.sin θ) * ThZ l m θ
        = (if m = -l then 0 else Real.sqrt (((l : ℝ) + m) * (l - m + 1)) * ThZ l (m - 1) θ) := by
  have up : ∀ k : ℕ, k ≤ l → HasDerivAt (ThN l k) (k * (Real.cos θ / Real.sin θ) * ThN l k θ
      + Real.sqrt (((l : ℝ) - k) * (l + k + 1)) * ThN l (k + 1) θ) θ := fun k hk => ThN_deriv_up l k hk hs
  have down : ∀ k : ℕ, k + 1 ≤ l → HasDerivAt (ThN l (k + 1)) (-(((k : ℝ) + 1) * (Real.cos θ / Real.sin θ) * ThN l (k + 1) θ)
      - Real.sqrt (((l : ℝ) - k) * (l + k + 1)) * ThN l k θ) θ := fun k hk => ThN_deriv_down l k hk hs
  have hsq0 : Real.sqrt (((l : ℝ) - l) * (l + l + 1)) = 0 := by simp
  rcases le_or_gt 0 m with hm | hm
  · obtain ⟨k, rfl⟩ := Int.eq_ofNat_of_zero_le hm
    have hk : k ≤ l := by exact_mod_cast h2
    rw [ThZ_nat]
    refine ⟨_, up k hk, ?_, ?_⟩
    · have e : ((k : ℤ) + 1) = ((k + 1 : ℕ) : ℤ) := by push_cast; ring
      rw [e, ThZ_nat]
      split_ifs with hkl
      · have : k = l := by exact_mod_cast hkl
        subst this
        rw [hsq0]; push_cast; ring
      · push_cast; ring
    · cases k with
      | zero =>
        have e : ((0 : ℕ) : ℤ) - 1 = -((1 : ℕ) : ℤ) := by norm_num
        rw [e, ThZ_neg]
        split_ifs with h0
        · have : l = 0 := by push_cast at h0; omega
          subst this
          simp
        · simp
      | succ k =>
        have e : ((k + 1 : ℕ) : ℤ) - 1 = (k : ℤ) := by push_cast; ring
        rw [e, ThZ_nat, if_neg (by push_cast; omega)]
        have := (up (k + 1) hk).unique (down k hk)
        rw [this]
        have e2 : ((l : ℝ) + ((k + 1 : ℕ) : ℤ)) * (l - ((k + 1 : ℕ) : ℤ) + 1) = ((l : ℝ) - k) * (l + k + 1) := by
          push_cast; ring
        rw [e2]
        push_cast; ring
  · obtain ⟨k, hk0⟩ : ∃ k : ℕ, m = -((k + 1 : ℕ) : ℤ) := ⟨(-m - 1).toNat, by omega⟩
    subst hk0
    have hk : k + 1 ≤ l := by omega
    rw [ThZ_neg]
    refine ⟨_, (up (k + 1) hk).const_mul _, ?_, ?_⟩
    · have e : -((k + 1 : ℕ) : ℤ) + 1 = -(k : ℤ) := by push_cast; ring
      rw [e, ThZ_neg, if_neg (by omega)]
      have := (up (k + 1) hk).unique (down k hk)
      rw [this]
      have e2 : ((l : ℝ) - ((-((k + 1 : ℕ) : ℤ) : ℤ) : ℝ)) * (l + ((-((k + 1 : ℕ) : ℤ) : ℤ) : ℝ) + 1)
          = ((l : ℝ) - k) * (l + k + 1) := by
        push_cast; ring
      rw [e2, pow_succ]
      push_cast; ring
    · have e : -((k + 1 : ℕ) : ℤ) - 1 = -((k + 1 + 1 : ℕ) : ℤ) := by push_cast; ring
      rw [e, ThZ_neg]
      have e2 : ((l : ℝ) + ((-((k + 1 : ℕ) : ℤ) : ℤ) : ℝ)) * (l - ((-((k + 1 : ℕ) : ℤ) : ℤ) : ℝ) + 1)
          = ((l : ℝ) - (k + 1 : ℕ)) * (l + (k + 1 : ℕ) + 1) := by
        push_cast; ring
      rw [e2]
      split_ifs with hkl
      · have : l = k + 1 := by omega
        subst this
        rw [hsq0]; push_cast; ring
      · rw [pow_succ _ (k + 1)]
        push_cast; ring

end SFK
