import Mathlib.Analysis.Fourier.AddCircle
import Mathlib.Analysis.PSeries
import Mathlib.Analysis.Calculus.ContDiff.Operations
import Mathlib.Analysis.SpecialFunctions.Trigonometric.Deriv
import Mathlib.Analysis.SpecialFunctions.Trigonometric.DerivHyp
/-
Smooth functions on an interval have rapidly decreasing Chebyshev coefficients: the cosine series of `θ ↦ f(m + h cos θ)`.
-/
namespace SFK.Four
open Real

theorem twoPi : (0 : ℝ) < 2 * π := by positivity

/-- The Fourier coefficients of a periodic function with `m` continuous derivatives are `O(|n|^-m)`. -/
theorem coef_decay : ∀ (m : ℕ) (g : ℝ → ℂ), ContDiff ℝ m g → Function.Periodic g (2 * π) →
    ∃ C, 0 ≤ C ∧ ∀ n : ℤ, n ≠ 0 → ‖fourierCoeffOn twoPi g n‖ ≤ C / |(n : ℝ)| ^ m
  | 0, g, hg, _ => by
    have hc : Continuous g := hg.continuous
    obtain ⟨B, hB⟩ := (isCompact_Icc (a := (0 : ℝ)) (b := 2 * π)).exists_bound_of_continuousOn hc.continuousOn
    have hB0 : 0 ≤ B := (norm_nonneg _).trans (hB 0 ⟨le_refl _, twoPi.le⟩)
    refine ⟨B, hB0, fun n _ => ?_⟩
    rw [fourierCoeffOn_eq_integral, pow_zero, div_one, norm_smul]
    have h1 : ‖∫ x in (0 : ℝ)..(2 * π), (fourier (-n) (x : AddCircle (2 * π - 0)) : ℂ) • g x‖ ≤ B * |2 * π - 0| := by
      refine intervalIntegral.norm_integral_le_of_norm_le_const fun x hx => ?_
      rw [Set.uIoc_of_le twoPi.le] at hx
      rw [norm_smul]
      have : ‖(fourier (-n) (x : AddCircle (2 * π - 0)) : ℂ)‖ = 1 := Circle.norm_coe _
      rw [this, one_mul]
      exact hB x ⟨hx.1.le, hx.2⟩
    have h2 : |2 * π - 0| = 2 * π := by rw [sub_zero, abs_of_pos twoPi]
    have h3 : ‖(1 / (2 * π - 0) : ℝ)‖ = 1 / (2 * π) := by rw [sub_zero, Real.norm_of_nonneg (by positivity)]
    rw [h3]
    rw [h2] at h1
    calc 1 / (2 * π) * _ ≤ 1 / (2 * π) * (B * (2 * π)) := mul_le_mul_of_nonneg_left h1 (by positivity)
      _ = B := by field_simp
  | m + 1, g, hg, hp => by
    have hd : Differentiable ℝ g := hg.differentiable (by simp)
    have hg' : ContDiff ℝ m (deriv g) := by
      have := contDiff_succ_iff_deriv.mp (by exact_mod_cast hg : ContDiff ℝ ((m : WithTop ℕ∞) + 1) g)
      exact this.2.2
    have hp' : Function.Periodic (deriv g) (2 * π) := by
      intro x
      have : (fun y => g (y + 2 * π)) = g := funext hp
      rw [← deriv_comp_add_const, this]
    obtain ⟨C, hC, h⟩ := coef_decay m (deriv g) hg' hp'
    refine ⟨C, hC, fun n hn => ?_⟩
    rw [fourierCoeffOn_of_hasDerivAt twoPi hn (fun x _ => (hd x).hasDerivAt) (hg'.continuous.intervalIntegrable _ _)]
    have e : g (2 * π) - g 0 = 0 := by
      have := hp 0
      rw [zero_add] at this
      rw [this, sub_self]
    rw [e, mul_zero, zero_sub, norm_mul, norm_neg, norm_mul, pow_succ]
    have n0 : (0 : ℝ) < |(n : ℝ)| := abs_pos.mpr (by exact_mod_cast hn)
    have e2 : ‖(1 / (-2 * (π : ℂ) * Complex.I * n) : ℂ)‖ = 1 / (2 * π * |(n : ℝ)|) := by
      rw [norm_div, norm_one, norm_mul, norm_mul, norm_mul, Complex.norm_I, norm_neg, Complex.norm_real, Real.norm_of_nonneg pi_pos.le]
      simp
    have e3 : ‖((2 * π : ℝ) : ℂ) - ((0 : ℝ) : ℂ)‖ = 2 * π := by
      rw [Complex.ofReal_zero, sub_zero, Complex.norm_real, Real.norm_of_nonneg twoPi.le]
    have := h n hn
    rw [e2, e3]
    calc 1 / (2 * π * |(n : ℝ)|) * (2 * π * _) = ‖fourierCoeffOn twoPi (deriv g) n‖ / |(n : ℝ)| := by field_simp
      _ ≤ C / |(n : ℝ)| ^ m / |(n : ℝ)| := by gcongr
      _ = _ := by rw [div_div]

theorem hasSum_fourier (g : ℝ → ℂ) (hg : ContDiff ℝ 2 g) (hp : Function.Periodic g (2 * π)) (θ : ℝ) :
    HasSum (fun n : ℤ => fourierCoeffOn twoPi g n * Complex.exp (Complex.I * n * θ)) (g θ) := by
  have : Fact (0 < 2 * π - 0) := ⟨by rw [sub_zero]; exact twoPi⟩
  have hp' : Function.Periodic g (2 * π - 0) := by rw [sub_zero]; exact hp
  let f : C(AddCircle (2 * π - 0), ℂ) := ⟨hp'.lift, continuous_coinduced_dom.mpr (by
    show Continuous fun x : ℝ => hp'.lift (x : AddCircle (2 * π - 0))
    simp only [Function.Periodic.lift_coe]
    exact hg.continuous)⟩
  have hc : ∀ n, fourierCoeff f n = fourierCoeffOn twoPi g n := by
    intro n
    rw [fourierCoeff_eq_intervalIntegral _ n 0, fourierCoeffOn_eq_integral]
    simp only [zero_add]
    have : ∀ x : ℝ, f (x : AddCircle (2 * π - 0)) = g x := fun x => hp'.lift_coe x
    simp only [this, sub_zero]
  obtain ⟨C, hC, h⟩ := coef_decay 2 g hg hp
  have hs : Summable (fourierCoeff f) := by
    have hb : Summable fun n : ℤ => C * (1 / |(n : ℝ)| ^ 2) := by
      have := (summable_one_div_int_pow (p := 2)).mpr (by norm_num)
      refine (this.mul_left C).congr fun n => ?_
      rw [sq_abs]
    refine Summable.of_norm_bounded_eventually hb ?_
    have : {n : ℤ | ¬ ‖fourierCoeff f n‖ ≤ C * (1 / |(n : ℝ)| ^ 2)} ⊆ {0} := by
      intro n hn
      by_contra h0
      apply hn
      rw [hc, mul_one_div]
      exact h n h0
    exact (Set.finite_singleton 0).subset this
  have := has_pointwise_sum_fourier_series_of_summable hs (θ : AddCircle (2 * π - 0))
  rw [show f (θ : AddCircle (2 * π - 0)) = g θ from hp'.lift_coe θ] at this
  refine this.congr_fun ?_ |> id
  intro n
  rw [hc, fourier_coe_apply, smul_eq_mul]
  congr 2
  have : (π : ℂ) ≠ 0 := by exact_mod_cast pi_ne_zero
  push_cast
  field_simp
  ring

/-- The cosine series of a smooth function of `cos θ`: coefficients `O(k^-(s+2))`. -/
theorem cos_series {f : ℝ → ℝ} {s : ℕ} (hf : ContDiff ℝ (s + 2 : ℕ) f) (c h : ℝ) :
    ∃ (a : ℕ → ℝ) (C : ℝ), 0 ≤ C ∧ (∀ k, |a k| ≤ C / ((k : ℝ) + 1) ^ (s + 2)) ∧
      ∀ θ, HasSum (fun k : ℕ => a k * Real.cos (k * θ)) (f (c + h * Real.cos θ)) := by
  obtain ⟨g, hg⟩ : ∃ g : ℝ → ℂ, g = fun θ => ((f (c + h * Real.cos θ) : ℝ) : ℂ) := ⟨_, rfl⟩
  have gs : ContDiff ℝ (s + 2 : ℕ) g := by
    rw [hg]
    exact Complex.ofRealCLM.contDiff.comp (hf.comp (contDiff_const.add (contDiff_const.mul Real.contDiff_cos)))
  have gp : Function.Periodic g (2 * π) := by intro x; simp [hg]
  have ge : ∀ θ, g (-θ) = g θ := by intro θ; simp [hg]
  obtain ⟨C, hC, hd⟩ := coef_decay (s + 2) g gs gp
  obtain ⟨F, hF⟩ : ∃ F : ℤ → ℝ, F = fun n => (fourierCoeffOn twoPi g n).re := ⟨_, rfl⟩
  have sum : ∀ θ, HasSum (fun n : ℤ => F n * Real.cos (n * θ)) (f (c + h * Real.cos θ)) := by
    intro θ
    have h1 := hasSum_fourier g (gs.of_le (by norm_cast; omega)) gp θ
    have h2 := hasSum_fourier g (gs.of_le (by norm_cast; omega)) gp (-θ)
    rw [ge] at h2
    have h3 := Complex.hasSum_re ((h1.add h2).mul_left (1 / 2 : ℂ))
    have e : (1 / 2 * (g θ + g θ)).re = f (c + h * Real.cos θ) := by
      rw [hg]
      beta_reduce
      rw [← two_mul, ← mul_assoc]
      norm_num
    rw [e] at h3
    refine h3.congr_fun ?_ |> id
    intro n
    rw [← mul_add]
    have : Complex.exp (Complex.I * n * θ) + Complex.exp (Complex.I * n * ((-θ : ℝ) : ℂ)) = 2 * ((Real.cos (n * θ) : ℝ) : ℂ) := by
      rw [Complex.ofReal_cos, Complex.cos]
      push_cast
      rw [show Complex.I * n * θ = n * θ * Complex.I by ring, show Complex.I * n * -θ = -(n * θ) * Complex.I by ring]
      ring
    have h12 : (1 / 2 : ℂ) * (fourierCoeffOn twoPi g n * (2 * ((Real.cos (n * θ) : ℝ) : ℂ))) =
        fourierCoeffOn twoPi g n * ((Real.cos (n * θ) : ℝ) : ℂ) := by ring
    rw [this, h12, hF, Complex.re_mul_ofReal]
  obtain ⟨C', hC'⟩ : ∃ C', C' = 2 ^ (s + 2) * (2 * C) + |F 0| := ⟨_, rfl⟩
  refine ⟨fun k => F k + F (-k) - (if k = 0 then F 0 else 0), C', by rw [hC']; positivity, ?_, ?_⟩
  · intro k
    by_cases hk : k = 0
    · subst hk
      simp only [Nat.cast_zero, neg_zero, if_true, add_sub_cancel_right, zero_add, one_pow, div_one]
      rw [hC']
      have : 0 ≤ 2 ^ (s + 2) * (2 * C) := by positivity
      linarith
    · beta_reduce
      rw [if_neg hk, sub_zero]
      have hz : (k : ℤ) ≠ 0 := by exact_mod_cast hk
      have b : ∀ n : ℤ, n ≠ 0 → |F n| ≤ C / |(n : ℝ)| ^ (s + 2) := fun n hn => by
        rw [hF]; exact (Complex.abs_re_le_norm _).trans (hd n hn)
      have b1 := b k hz
      have b2 := b (-k) (neg_ne_zero.mpr hz)
      push_cast at b1 b2
      rw [abs_neg] at b2
      rw [Nat.abs_cast] at b1 b2
      have k1 : (1 : ℝ) ≤ k := by exact_mod_cast Nat.one_le_iff_ne_zero.mpr hk
      have e : C / (k : ℝ) ^ (s + 2) ≤ 2 ^ (s + 2) * C / ((k : ℝ) + 1) ^ (s + 2) := by
        rw [div_le_div_iff₀ (by positivity) (by positivity), mul_comm (2 ^ (s + 2)) C, mul_assoc, ← mul_pow]
        exact mul_le_mul_of_nonneg_left (pow_le_pow_left₀ (by positivity) (by linarith) _) hC
      refine (abs_add_le _ _).trans ((add_le_add (b1.trans e) (b2.trans e)).trans ?_)
      rw [← add_div]
      refine div_le_div_of_nonneg_right ?_ (by positivity)
      rw [hC']
      have := abs_nonneg (F 0)
      linarith
  · intro θ
    have h1 := (sum θ).nat_add_neg
    have h2 := h1.sub (hasSum_ite_eq (0 : ℕ) (F 0))
    simp only [Int.cast_zero, zero_mul, Real.cos_zero, mul_one, add_sub_cancel_right] at h2
    refine h2.congr_fun ?_ |> id
    intro k
    push_cast
    rw [neg_mul, Real.cos_neg, sub_mul, add_mul]
    by_cases hk : k = 0
    · subst hk; simp
    · simp [hk]

theorem sum_sq : ∃ S : ℝ, 0 ≤ S ∧ HasSum (fun k : ℕ => 1 / ((k : ℝ) + 1) ^ 2) S := by
  have h : Summable fun k : ℕ => 1 / ((k : ℝ) + 1) ^ 2 := by
    have := (summable_nat_add_iff 1).mpr ((Real.summable_one_div_nat_pow (p := 2)).mpr (by norm_num))
    refine this.congr fun k => ?_
    push_cast
    rfl
  exact ⟨_, tsum_nonneg fun k => by positivity, h.hasSum⟩

/-- The error of the truncated series. -/
theorem cos_approx {f : ℝ → ℝ} {s : ℕ} (hf : ContDiff ℝ (s + 2 : ℕ) f) (c h : ℝ) :
    ∃ (a : ℕ → ℝ) (C : ℝ), 0 ≤ C ∧ (∀ k, |a k| ≤ C / ((k : ℝ) + 1) ^ (s + 2)) ∧
      ∀ (N : ℕ) θ, |f (c + h * Real.cos θ) - ∑ k ∈ Finset.range N, a k * Real.cos (k * θ)| ≤ C / ((N : ℝ) + 1) ^ s := by
  obtain ⟨a, C, hC, ha, hs⟩ := cos_series hf c h
  obtain ⟨S, hS0, hS⟩ := sum_sq
  refine ⟨a, C * (S + 1), by positivity, fun k => (ha k).trans ?_, fun N θ => ?_⟩
  · gcongr
    exact le_mul_of_one_le_right hC (by linarith)
  · have h1 := (hasSum_nat_add_iff' N).mpr (hs θ)
    rw [← Real.norm_eq_abs]
    have hb : Summable fun k : ℕ => C / ((N : ℝ) + 1) ^ s * (1 / ((k : ℝ) + 1) ^ 2) := hS.summable.mul_left _
    have hle : ∀ k : ℕ, ‖a (k + N) * Real.cos (((k + N : ℕ) : ℝ) * θ)‖ ≤ C / ((N : ℝ) + 1) ^ s * (1 / ((k : ℝ) + 1) ^ 2) := by
      intro k
      rw [norm_mul, Real.norm_eq_abs, Real.norm_eq_abs]
      refine (mul_le_of_le_one_right (abs_nonneg _) (Real.abs_cos_le_one _)).trans ((ha _).trans ?_)
      rw [div_mul_div_comm, mul_one, pow_add]
      push_cast
      gcongr <;> linarith [(Nat.cast_nonneg N : (0 : ℝ) ≤ N), (Nat.cast_nonneg k : (0 : ℝ) ≤ k)]
    have := tsum_of_norm_bounded (hS.mul_left (C / ((N : ℝ) + 1) ^ s)) hle
    rw [h1.tsum_eq] at this
    refine this.trans ?_
    rw [div_mul_eq_mul_div]
    gcongr
    linarith

end SFK.Four
