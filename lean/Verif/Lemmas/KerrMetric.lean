import Verif.Spec.KerrMetric
import Mathlib.Analysis.Calculus.FDeriv.Symmetric
import Mathlib.Analysis.Calculus.Deriv.Pi
import Mathlib.Analysis.Calculus.ContDiff.Basic
import Mathlib.Analysis.Calculus.ContDiff.Operations
import Mathlib.Analysis.SpecialFunctions.Trigonometric.Deriv
import Mathlib.LinearAlgebra.Matrix.Determinant.Basic
import Mathlib.Tactic.FieldSimp
import Mathlib.Tactic.Ring
import Mathlib.Tactic.FinCases
import Mathlib.Tactic.LinearCombination
/-
Inverse, determinant and Laplace-Beltrami operator of the Kerr metric.
-/
namespace SFK.Kerr
open Real

/-! ### algebra -/

/-- the inverse metric -/
noncomputable def invMetric (M a : ℝ) (x : Pt) : Matrix (Fin 4) (Fin 4) ℝ :=
  let r := x 1
  let S := Sig a (x 1) (x 2)
  !![-(1 + 2 * M * r / S), 2 * M * r / S, 0, 0;
     2 * M * r / S, Del M a r / S, 0, a / S;
     0, 0, 1 / S, 0;
     0, a / S, 0, 1 / (S * sin (x 2) ^ 2)]

theorem cos_sq_eq (θ : ℝ) : cos θ ^ 2 = 1 - sin θ ^ 2 := by have := sin_sq_add_cos_sq θ; linarith

theorem metric_mul_inv {M a : ℝ} {x : Pt} (hS : Sig a (x 1) (x 2) ≠ 0) (hs : sin (x 2) ≠ 0) :
    metric M a x * invMetric M a x = 1 := by
  have hS' : Sig a (x 1) (x 2) = x 1 ^ 2 + a ^ 2 * (1 - sin (x 2) ^ 2) := by unfold Sig; rw [cos_sq_eq]
  unfold metric invMetric Del
  generalize hSS : Sig a (x 1) (x 2) = S at *
  generalize hss : sin (x 2) = s at *
  generalize x 1 = r at *
  have e : r ^ 2 = S - a ^ 2 * (1 - s ^ 2) := by linarith
  have e3 : r ^ 3 = r * (S - a ^ 2 * (1 - s ^ 2)) := by rw [← e]; ring
  ext i j
  fin_cases i <;> fin_cases j <;> simp [Matrix.mul_apply, Fin.sum_univ_succ] <;> field_simp <;> (try ring_nf) <;> (try simp only [e, e3]) <;> (try ring)

theorem metric_det {M a : ℝ} {x : Pt} (hS : Sig a (x 1) (x 2) ≠ 0) :
    (metric M a x).det = -(Sig a (x 1) (x 2) * sin (x 2)) ^ 2 := by
  have hS' : Sig a (x 1) (x 2) = x 1 ^ 2 + a ^ 2 * (1 - sin (x 2) ^ 2) := by unfold Sig; rw [cos_sq_eq]
  unfold metric
  generalize hSS : Sig a (x 1) (x 2) = S at *
  generalize hss : sin (x 2) = s at *
  generalize x 1 = r at *
  have e : r ^ 2 = S - a ^ 2 * (1 - s ^ 2) := by linarith
  simp [Matrix.det_succ_row_zero, Fin.sum_univ_succ, Fin.succAbove]
  field_simp
  linear_combination (-(s ^ 2 * S ^ 3)) * e

theorem metric_inv {M a : ℝ} {x : Pt} (hS : Sig a (x 1) (x 2) ≠ 0) (hs : sin (x 2) ≠ 0) : (metric M a x)⁻¹ = invMetric M a x :=
  Matrix.inv_eq_right_inv (metric_mul_inv hS hs)

theorem metric_vol {M a : ℝ} {x : Pt} (hS : 0 < Sig a (x 1) (x 2)) (hs : 0 < sin (x 2)) :
    vol (metric M a) x = Sig a (x 1) (x 2) * sin (x 2) := by
  unfold vol
  rw [metric_det hS.ne', abs_neg, abs_of_nonneg (sq_nonneg _), sqrt_sq (by positivity)]

theorem Sig_pos' {a r θ : ℝ} (hr : 0 < r) : 0 < Sig a r θ := by unfold Sig; positivity

/-! ### partial derivatives -/

theorem hasDerivAt_line {f : Pt → ℝ} {x : Pt} (hf : DifferentiableAt ℝ f x) (μ : Fin 4) :
    HasDerivAt (fun t => f (Function.update x μ t)) (fderiv ℝ f x (Pi.single μ 1)) (x μ) := by
  have h1 := hasDerivAt_update x μ (x μ)
  have h2 : HasFDerivAt f (fderiv ℝ f x) (Function.update x μ (x μ)) := by
    rw [Function.update_eq_self]; exact hf.hasFDerivAt
  exact h2.comp_hasDerivAt (x μ) h1

theorem pd_eq {f : Pt → ℝ} {x : Pt} (hf : DifferentiableAt ℝ f x) (μ : Fin 4) : pd μ f x = fderiv ℝ f x (Pi.single μ 1) :=
  (hasDerivAt_line hf μ).deriv

theorem hasDerivAt_pd {f : Pt → ℝ} {x : Pt} (hf : DifferentiableAt ℝ f x) (μ : Fin 4) :
    HasDerivAt (fun t => f (Function.update x μ t)) (pd μ f x) (x μ) := by
  rw [pd_eq hf]; exact hasDerivAt_line hf μ

theorem pd_ev {ψ : Pt → ℝ} {x : Pt} (h : ContDiffAt ℝ 2 ψ x) (μ : Fin 4) :
    pd μ ψ =ᶠ[nhds x] fun x => fderiv ℝ ψ x (Pi.single μ 1) := by
  filter_upwards [h.eventually (by simp)] with y hy
  exact pd_eq (hy.differentiableAt (by norm_num)) μ

theorem contDiffAt_pd {ψ : Pt → ℝ} {x : Pt} (h : ContDiffAt ℝ 2 ψ x) (μ : Fin 4) : ContDiffAt ℝ 1 (pd μ ψ) x :=
  ((h.fderiv_right (m := 1) (by norm_num)).clm_apply contDiffAt_const).congr_of_eventuallyEq (pd_ev h μ)

theorem diff_pd {ψ : Pt → ℝ} {x : Pt} (h : ContDiffAt ℝ 2 ψ x) (μ : Fin 4) : DifferentiableAt ℝ (pd μ ψ) x :=
  (contDiffAt_pd h μ).differentiableAt (by norm_num)

theorem pd_comm {ψ : Pt → ℝ} {x : Pt} (h : ContDiffAt ℝ 2 ψ x) (μ ν : Fin 4) : pd μ (pd ν ψ) x = pd ν (pd μ ψ) x := by
  have key : ∀ μ ν, pd μ (pd ν ψ) x = fderiv ℝ (fderiv ℝ ψ) x (Pi.single μ 1) (Pi.single ν 1) := by
    intro μ ν
    have h1 : ContDiffAt ℝ 1 (fderiv ℝ ψ) x := h.fderiv_right (m := 1) (by norm_num)
    have h2 : DifferentiableAt ℝ (fderiv ℝ ψ) x := h1.differentiableAt (by norm_num)
    rw [pd_eq (diff_pd h ν), (pd_ev h ν).fderiv_eq]
    rw [fderiv_clm_apply h2 (differentiableAt_const _)]
    simp
  rw [key, key]
  exact (h.isSymmSndFDerivAt (by simp)).eq _ _

/-! ### the wave operator -/

theorem pd_of {F : Pt → ℝ} {x : Pt} {μ : Fin 4} {G : ℝ → ℝ} {D : ℝ} (h : (fun t => F (Function.update x μ t)) =ᶠ[nhds (x μ)] G)
    (hG : HasDerivAt G D (x μ)) : pd μ F x = D := by
  unfold pd
  rw [h.deriv_eq]
  exact hG.deriv

/-- the flux `|g|^{1/2} g^{μν} ∂_νψ` -/
theorem flux_eq {M a : ℝ} {ψ : Pt → ℝ} {y : Pt} (hS : 0 < Sig a (y 1) (y 2)) (hs : 0 < sin (y 2)) (μ : Fin 4) :
    vol (metric M a) y * ∑ ν, (metric M a y)⁻¹ μ ν * pd ν ψ y =
      ![sin (y 2) * (-(Sig a (y 1) (y 2) + 2 * M * y 1)) * pd 0 ψ y + 2 * M * y 1 * sin (y 2) * pd 1 ψ y,
        sin (y 2) * (2 * M * y 1 * pd 0 ψ y + Del M a (y 1) * pd 1 ψ y + a * pd 3 ψ y),
        sin (y 2) * pd 2 ψ y,
        sin (y 2) * a * pd 1 ψ y + pd 3 ψ y / sin (y 2)] μ := by
  rw [metric_vol hS hs, metric_inv hS.ne' hs.ne']
  unfold invMetric
  have h1 := hS.ne'
  have h2 := hs.ne'
  generalize Sig a (y 1) (y 2) = S at *
  generalize sin (y 2) = s at *
  generalize Del M a (y 1) = D at *
  fin_cases μ <;> simp [Fin.sum_univ_succ] <;> field_simp <;> ring

theorem lap_eq {ψ : Pt → ℝ} {x : Pt} (h : ContDiffAt ℝ 2 ψ x) : lapS2 (fun θ φ => ψ ![x 0, x 1, θ, φ]) (x 2) (x 3) =
    (cos (x 2) * pd 2 ψ x + sin (x 2) * pd 2 (pd 2 ψ) x) / sin (x 2) + pd 3 (pd 3 ψ) x / sin (x 2) ^ 2 := by
  have hx : ∀ t, ![x 0, x 1, t, x 3] = Function.update x 2 t := by
    intro t; funext i; fin_cases i <;> simp [Function.update]
  have hy : ∀ t, ![x 0, x 1, x 2, t] = Function.update x 3 t := by
    intro t; funext i; fin_cases i <;> simp [Function.update]
  have e1 : ∀ t, dTh (fun θ φ => ψ ![x 0, x 1, θ, φ]) t (x 3) = pd 2 ψ (Function.update x 2 t) := by
    intro t
    unfold dTh pd
    rw [Function.update_self]
    congr 1
    funext u
    beta_reduce
    rw [hx, Function.update_idem]
  have e2 : ∀ t, dPh (fun θ φ => ψ ![x 0, x 1, θ, φ]) (x 2) t = pd 3 ψ (Function.update x 3 t) := by
    intro t
    unfold dPh pd
    rw [Function.update_self]
    congr 1
    funext u
    beta_reduce
    rw [hy, Function.update_idem]
  unfold lapS2
  have d1 : deriv (fun t => sin t * dTh (fun θ φ => ψ ![x 0, x 1, θ, φ]) t (x 3)) (x 2) =
      cos (x 2) * pd 2 ψ x + sin (x 2) * pd 2 (pd 2 ψ) x := by
    simp only [e1]
    have h1 := hasDerivAt_pd (diff_pd h 2) 2
    have h2 := (hasDerivAt_sin (x 2)).mul h1
    rw [Function.update_eq_self] at h2
    exact h2.deriv
  have d2 : dPh (dPh (fun θ φ => ψ ![x 0, x 1, θ, φ])) (x 2) (x 3) = pd 3 (pd 3 ψ) x := by
    unfold dPh at e2 ⊢
    simp only [e2]
    rfl
  rw [d1, d2]

theorem grad_eq (ψ : Pt → ℝ) (x : Pt) : gradSq (fun θ φ => ψ ![x 0, x 1, θ, φ]) (x 2) (x 3) =
    pd 2 ψ x ^ 2 + pd 3 ψ x ^ 2 / sin (x 2) ^ 2 := by
  have hx : ∀ t, ![x 0, x 1, t, x 3] = Function.update x 2 t := by
    intro t; funext i; fin_cases i <;> simp [Function.update]
  have hy : ∀ t, ![x 0, x 1, x 2, t] = Function.update x 3 t := by
    intro t; funext i; fin_cases i <;> simp [Function.update]
  unfold gradSq dTh dPh pd
  simp only [hx, hy]

theorem boxG_eq {M a : ℝ} {ψ : Pt → ℝ} {x : Pt} (h : ContDiffAt ℝ 2 ψ x) (hr : 0 < x 1) (hs : 0 < sin (x 2)) :
    boxG (metric M a) ψ x = box M a (x 1) (x 2) (jetOf ψ x) := by
  have hS := Sig_pos' (a := a) (θ := x 2) hr
  have hd : ∀ μ ν, HasDerivAt (fun t => pd ν ψ (Function.update x μ t)) (pd μ (pd ν ψ) x) (x μ) := fun μ ν =>
    hasDerivAt_pd (diff_pd h ν) μ
  have hu : ∀ μ, Function.update x μ (x μ) = x := fun μ => Function.update_eq_self μ x
  -- the four divergences
  have p0 : pd 0 (fun y => vol (metric M a) y * ∑ ν, (metric M a y)⁻¹ 0 ν * pd ν ψ y) x =
      sin (x 2) * (-(Sig a (x 1) (x 2) + 2 * M * x 1)) * pd 0 (pd 0 ψ) x + 2 * M * x 1 * sin (x 2) * pd 0 (pd 1 ψ) x := by
    refine pd_of (G := fun t => sin (x 2) * (-(Sig a (x 1) (x 2) + 2 * M * x 1)) * pd 0 ψ (Function.update x 0 t) +
      2 * M * x 1 * sin (x 2) * pd 1 ψ (Function.update x 0 t)) (Filter.Eventually.of_forall fun t => ?_)
      (((hd 0 0).const_mul _).add ((hd 0 1).const_mul _))
    beta_reduce
    rw [flux_eq (by simpa using hS) (by simpa using hs)]
    simp
  have p3 : pd 3 (fun y => vol (metric M a) y * ∑ ν, (metric M a y)⁻¹ 3 ν * pd ν ψ y) x =
      sin (x 2) * a * pd 3 (pd 1 ψ) x + pd 3 (pd 3 ψ) x / sin (x 2) := by
    refine pd_of (G := fun t => sin (x 2) * a * pd 1 ψ (Function.update x 3 t) + pd 3 ψ (Function.update x 3 t) / sin (x 2))
      (Filter.Eventually.of_forall fun t => ?_) (((hd 3 1).const_mul _).add ((hd 3 3).div_const _))
    beta_reduce
    rw [flux_eq (by simpa using hS) (by simpa using hs)]
    simp
  have p2 : pd 2 (fun y => vol (metric M a) y * ∑ ν, (metric M a y)⁻¹ 2 ν * pd ν ψ y) x =
      cos (x 2) * pd 2 ψ x + sin (x 2) * pd 2 (pd 2 ψ) x := by
    have h2 := (hasDerivAt_sin (x 2)).mul (hd 2 2)
    rw [hu] at h2
    refine pd_of (G := sin * fun t => pd 2 ψ (Function.update x 2 t)) ?_ h2
    filter_upwards [(continuous_sin.tendsto (x 2)).eventually (lt_mem_nhds hs)] with t ht
    rw [flux_eq (by simpa using Sig_pos' hr) (by simpa using ht)]
    simp
  have p1 : pd 1 (fun y => vol (metric M a) y * ∑ ν, (metric M a y)⁻¹ 1 ν * pd ν ψ y) x =
      sin (x 2) * (2 * M * pd 0 ψ x + 2 * M * x 1 * pd 1 (pd 0 ψ) x + (2 * x 1 - 2 * M) * pd 1 ψ x + Del M a (x 1) * pd 1 (pd 1 ψ) x
        + a * pd 1 (pd 3 ψ) x) := by
    have hD : HasDerivAt (fun t => Del M a t) (2 * x 1 - 2 * M) (x 1) := by
      unfold Del
      have := (((hasDerivAt_id (x 1)).pow 2).sub ((hasDerivAt_id (x 1)).const_mul (2 * M))).add_const (a ^ 2)
      refine this.congr_deriv ?_
      simp
    have h2 := (((((hasDerivAt_id (x 1)).const_mul (2 * M)).mul (hd 1 0)).add (hD.mul (hd 1 1))).add ((hd 1 3).const_mul a)).const_mul (sin (x 2))
    refine (pd_of (G := fun t => sin (x 2) * ((fun y => 2 * M * id y) * (fun t => pd 0 ψ (Function.update x 1 t)) +
      (fun t => Del M a t) * (fun t => pd 1 ψ (Function.update x 1 t)) + fun y => a * pd 3 ψ (Function.update x 1 y)) t) ?_ h2).trans ?_
    · filter_upwards [lt_mem_nhds hr] with t ht
      rw [flux_eq (by simpa using Sig_pos' ht) (by simpa using hs)]
      simp
    · simp only [hu, id]
      ring
  unfold boxG
  rw [Fin.sum_univ_four, p0, p1, p2, p3, metric_vol hS hs]
  unfold box jetOf
  dsimp only
  rw [lap_eq h, pd_comm h 0 1, pd_comm h 3 1]
  have h1 := hS.ne'
  have h2 := hs.ne'
  generalize Sig a (x 1) (x 2) = S at *
  generalize sin (x 2) = s at *
  generalize Del M a (x 1) = D at *
  field_simp
  ring

theorem gradG_eq {M a : ℝ} {ψ : Pt → ℝ} {x : Pt} (hr : 0 < x 1) (hs : sin (x 2) ≠ 0) :
    gradG (metric M a) ψ x = grad2 M a (x 1) (x 2) (jetOf ψ x) := by
  have hS := Sig_pos' (a := a) (θ := x 2) hr
  unfold gradG grad2 jetOf
  dsimp only
  rw [metric_inv hS.ne' hs, grad_eq]
  unfold invMetric
  have h1 := hS.ne'
  generalize Sig a (x 1) (x 2) = S at *
  generalize sin (x 2) = s at *
  generalize Del M a (x 1) = D at *
  simp [Fin.sum_univ_succ]
  field_simp
  ring

/-! ### the line element and the density -/

theorem line2_boyerLindquist {M a : ℝ} {x : Pt} (hr : 0 < x 1) (hD : Del M a (x 1) ≠ 0) (dv dr dθ dφ : ℝ) :
    line2 (metric M a x) ![dv, dr, dθ, dφ] =
      boyerLindquist M a (x 1) (x 2) (dv - 2 * M * x 1 / Del M a (x 1) * dr) dr dθ (dφ - a / Del M a (x 1) * dr) := by
  have hS := Sig_pos' (a := a) (θ := x 2) hr
  have hS' : Sig a (x 1) (x 2) = x 1 ^ 2 + a ^ 2 * (1 - sin (x 2) ^ 2) := by unfold Sig; rw [cos_sq_eq]
  have hD' : Del M a (x 1) = x 1 ^ 2 - 2 * M * x 1 + a ^ 2 := rfl
  have h1 := hS.ne'
  unfold line2 boyerLindquist metric
  generalize Sig a (x 1) (x 2) = S at *
  generalize sin (x 2) = s at *
  generalize Del M a (x 1) = D at *
  generalize x 1 = r at *
  simp [Fin.sum_univ_succ]
  field_simp
  subst hS' hD'
  ring

/-- the contraction in closed form: the sign of the mixed term is minus -/
theorem density_eq (k V : ℝ → ℝ) {M a : ℝ} (hM : 0 ≤ M) {ψ : Pt → ℝ} {x : Pt} (hr : 0 < x 1) (hs : sin (x 2) ≠ 0) :
    density k V (metric M a) ψ x = k (ψ x) * (1 / 2) * rhoBracket M a (x 1) (x 2) { jetOf ψ x with v := -(jetOf ψ x).v } + V (ψ x) := by
  have hS := Sig_pos' (a := a) (θ := x 2) hr
  have hS' : Sig a (x 1) (x 2) = x 1 ^ 2 + a ^ 2 * (1 - sin (x 2) ^ 2) := by unfold Sig; rw [cos_sq_eq]
  have hD' : Del M a (x 1) = x 1 ^ 2 - 2 * M * x 1 + a ^ 2 := rfl
  have hN : 0 < 1 + 2 * M * x 1 / Sig a (x 1) (x 2) := by positivity
  have hNS : 0 < Sig a (x 1) (x 2) + 2 * M * x 1 := by positivity
  obtain ⟨N, hNdef⟩ : ∃ N, N = 1 + 2 * M * x 1 / Sig a (x 1) (x 2) := ⟨_, rfl⟩
  obtain ⟨q, hq⟩ : ∃ q, q = (Real.sqrt N)⁻¹ := ⟨_, rfl⟩
  have hq2 : q ^ 2 = N⁻¹ := by
    rw [hq, inv_pow, Real.sq_sqrt (by rw [hNdef]; exact hN.le)]
  have n0 : normal (metric M a) x 0 = N * q := by
    unfold normal
    rw [metric_inv hS.ne' hs]
    simp only [invMetric, Matrix.of_apply, Matrix.cons_val', Matrix.cons_val_zero, Matrix.cons_val_fin_one]
    rw [← hNdef, abs_neg, abs_of_pos (by rw [hNdef]; exact hN), ← hq]; ring
  have n1 : normal (metric M a) x 1 = -((N - 1) * q) := by
    unfold normal
    rw [metric_inv hS.ne' hs]
    simp only [invMetric, Matrix.of_apply, Matrix.cons_val', Matrix.cons_val_zero, Matrix.cons_val_fin_one, Matrix.cons_val_one]
    rw [← hNdef, abs_neg, abs_of_pos (by rw [hNdef]; exact hN), ← hq, hNdef]; ring
  have n2 : normal (metric M a) x 2 = 0 := by
    unfold normal
    rw [metric_inv hS.ne' hs]
    simp [invMetric]
  have n3 : normal (metric M a) x 3 = 0 := by
    unfold normal
    rw [metric_inv hS.ne' hs]
    simp [invMetric]
  have hN0 : N ≠ 0 := by rw [hNdef]; exact hN.ne'
  have expand : density k V (metric M a) ψ x = N ^ 2 * q ^ 2 * stress k V (metric M a) ψ x 0 0
      - N * (N - 1) * q ^ 2 * (stress k V (metric M a) ψ x 0 1 + stress k V (metric M a) ψ x 1 0)
      + (N - 1) ^ 2 * q ^ 2 * stress k V (metric M a) ψ x 1 1 := by
    unfold density
    simp only [Fin.sum_univ_four, n0, n1, n2, n3]
    ring
  rw [expand, hq2]
  unfold stress
  rw [gradG_eq hr hs]
  have g00 : metric M a x 0 0 = N - 2 := by rw [hNdef]; simp [metric]; ring
  have g01 : metric M a x 0 1 = N - 1 := by rw [hNdef]; simp [metric]
  have g10 : metric M a x 1 0 = N - 1 := by rw [hNdef]; simp [metric]
  have g11 : metric M a x 1 1 = N := by rw [hNdef]; simp [metric]
  rw [g00, g01, g10, g11]
  unfold rhoBracket grad2 jetOf
  dsimp only
  generalize gradSq (fun θ φ => ψ ![x 0, x 1, θ, φ]) (x 2) (x 3) = G
  generalize pd 0 ψ x = pv
  generalize pd 1 ψ x = pr
  generalize pd 3 ψ x = pp
  generalize k (ψ x) = K
  generalize V (ψ x) = U
  have h1 := hS.ne'
  generalize hSS : Sig a (x 1) (x 2) = S at *
  generalize sin (x 2) = s at *
  generalize Del M a (x 1) = D at *
  generalize x 1 = r at *
  have hNS' : 2 * M * r + S ≠ 0 := by linarith
  have e1 : N * S = S + 2 * M * r := by rw [hNdef]; field_simp
  subst hNdef
  subst hD'
  have hN1 : S + 2 * M * r ≠ 0 := hNS.ne'
  field_simp
  ring

end SFK.Kerr
