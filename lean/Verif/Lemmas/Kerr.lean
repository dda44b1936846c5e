import Verif.Spec.Kerr
import Verif.Spec.Env
import Verif.Model.ScalarEom
import Mathlib.Tactic.FieldSimp
import Mathlib.Tactic.Ring
import Mathlib.Tactic.Linarith
import Mathlib.Tactic.Positivity
/-
The background coefficients in exact arithmetic.
-/
namespace SFK
open Scalar CR Kerr

theorem sqrt_facts {M a : ℝ} (ha : |a| ≤ M) : 0 ≤ M ^ 2 - a ^ 2 ∧ Real.sqrt (M ^ 2 - a ^ 2) ^ 2 = M ^ 2 - a ^ 2 := by
  have h0 : 0 ≤ M := (abs_nonneg a).trans ha
  have : a ^ 2 ≤ M ^ 2 := by rw [← sq_abs a]; exact pow_le_pow_left₀ (abs_nonneg a) ha 2
  exact ⟨by linarith, Real.sq_sqrt (by linarith)⟩

theorem rPlus_pos {M a : ℝ} (hM : 0 < M) : 0 < rPlus M a := by
  unfold rPlus
  have := Real.sqrt_nonneg (M ^ 2 - a ^ 2)
  linarith

theorem kerrRp_eq {M a : ℝ} (hM : 0 < M) (ha : |a| ≤ M) (hn : NoRound M a) : kerrRp (fin M) (fin a) = fin (rPlus M a) := by
  obtain ⟨h0, h1⟩ := sqrt_facts ha
  unfold kerrRp rPlus
  simp only [fin_fabs, fin_sub, fin_tenth, fin_lt, fin_ofNat', fin_mul, fin_add]
  by_cases hx : M = |a|
  · have : abs (M - |a|) < 1 / 10 ^ 16 := by rw [hx, sub_self, abs_zero]; positivity
    rw [if_pos this]
    have : M ^ 2 - a ^ 2 = 0 := by rw [hx, sq_abs]; ring
    rw [this]; simp
  · have h2 : 1 / 10 ^ 16 ≤ abs (M - |a|) := hn.1.resolve_left hx
    rw [if_neg (not_lt.mpr h2)]
    by_cases hz : a = 0
    · subst hz
      rw [if_pos (by rw [abs_zero]; positivity)]
      simp [Real.sqrt_sq hM.le]
      ring
    · rw [if_neg (not_lt.mpr (hn.2.resolve_left hz)), fin_rt _ (by nlinarith)]
      simp only [fin_add, fin_inj]
      congr 2
      ring

theorem kerrRm_eq {M a : ℝ} (hM : 0 < M) (ha : |a| ≤ M) (hn : NoRound M a) :
    kerrRm (fin M) (fin a) = fin (M - Real.sqrt (M ^ 2 - a ^ 2)) := by
  obtain ⟨h0, h1⟩ := sqrt_facts ha
  unfold kerrRm
  rw [kerrRp_eq hM ha hn]
  simp only [fin_fabs, fin_sub, fin_tenth, fin_lt, fin_pown]
  have hp := rPlus_pos (a := a) hM
  by_cases hx : M = |a|
  · have : abs (M - |a|) < 1 / 10 ^ 16 := by rw [hx, sub_self, abs_zero]; positivity
    rw [if_pos this]
    have : M ^ 2 - a ^ 2 = 0 := by rw [hx, sq_abs]; ring
    rw [this]; simp
  · rw [if_neg (not_lt.mpr (hn.1.resolve_left hx)), fin_div _ _ hp.ne', fin_inj, div_eq_iff hp.ne']
    unfold rPlus
    nlinarith

/-- `Σ/r²` and `Δ/r²` as functions of `u=1/r` -/
noncomputable def Su (a u θ : ℝ) : ℝ := 1 + u ^ 2 * a ^ 2 * Real.cos θ ^ 2
def Du (M a u : ℝ) : ℝ := 1 - 2 * M * u + a ^ 2 * u ^ 2

theorem Su_pos (a u θ : ℝ) : 0 < Su a u θ := by unfold Su; positivity

/-- the coefficients in exact arithmetic -/
noncomputable def coefR (M a u θ : ℝ) : Coef CR :=
  let S := Su a u θ
  let q := 1 / (1 + 2 * M * u / S)
  { pre := fin q
    p_p := fin (2 * M * u ^ 2 / S * q)
    p_dr_f := fin (2 * (u - M * u ^ 2) / S * q)
    p_dr_p := fin (4 * M * u / S * q)
    p_dr_dr_f := fin (Du M a u / S * q)
    p_dphi_dr_f := fin (2 * a * u ^ 2 / S * q)
    p_lap_f := fin (u ^ 2 / S * q)
    p_p_p := fin (-(1 + 2 * M * u / S) * q)
    p_p_dr_f := fin (4 * M * u / S * q)
    p_dr_f_dr_f := fin (Du M a u / S * q)
    p_dr_f_dphi_f := fin (2 * a * u ^ 2 / S * q)
    p_sphereX_f := fin (u ^ 2 / S * q)
    rho_vv := fin (1 / 2 * (1 + 2 * M * u / S))
    rho_vr := fin (2 * M * u / S)
    rho_rr := fin (1 / 2 * ((1 + 2 * M * u + (a * u) ^ 2) / S - 4 * M * u / (2 * M * u + S)))
    rho_rphi := fin (a * u ^ 2 / S)
    rho_sphereX := fin (1 / 2 * u ^ 2 / S) }

theorem coefOf_eq {M a : ℝ} (hM : 0 < M) (ha : |a| ≤ M) (hn : NoRound M a) {u : ℝ} (hu : 0 ≤ u) (θ : ℝ) :
    coefOf (fin M) (fin a) (fin u) (fin θ) = coefR M a u θ := by
  obtain ⟨h0, h1⟩ := sqrt_facts ha
  have hS := Su_pos a u θ
  have h2 : 0 < 1 + 2 * M * u / Su a u θ := by positivity
  have h3 : 0 < 2 * M * u + Su a u θ := by positivity
  have hSe : (1 : ℝ) + u ^ 2 * a ^ 2 * Real.cos θ ^ 2 = Su a u θ := rfl
  unfold coefOf coefR
  rw [kerrRp_eq hM ha hn, kerrRm_eq hM ha hn]
  have hD : (1 - rPlus M a * u) * (1 - (M - Real.sqrt (M ^ 2 - a ^ 2)) * u) = Du M a u := by
    unfold Du rPlus
    linear_combination (-(u ^ 2)) * h1
  simp only [fin_ofNat_one, fin_ofNat', fin_pown, fin_cos, fin_mul, fin_add, fin_sub, hSe, hD, fin_lit, fin_neg,
    fin_div _ _ hS.ne', fin_div _ _ h2.ne', fin_div _ _ h3.ne']
  norm_num

/-- the coefficient arrays of the object for a point with `R` away from infinity by more than `1e-16` -/
theorem invR_eq {L R : ℝ} (hL : 0 < L) (h0 : 0 < R) (h1 : R < L) (hc : 1 / 10 ^ 16 < L - R) :
    invR (fin L) (fin L) (fin R) = fin (1 / physR L R) := by
  have h3 : 1 / 10 ^ 16 < |R - L| := by rw [abs_sub_comm, abs_of_pos (by linarith)]; exact hc
  have h4 : 1 - R / L ≠ 0 := by
    have : 0 < 1 - R / L := by rw [sub_pos, div_lt_one hL]; exact h1
    exact this.ne'
  unfold invR Grid.R_to_r
  simp only [fin_sub, fin_fabs, fin_tenth, fin_lt]
  rw [if_neg (by linarith), if_pos h3]
  simp only [fin_ofNat_one, fin_div _ _ hL.ne', fin_sub, fin_div _ _ h4]
  rw [fin_div]
  · rfl
  · exact div_ne_zero h0.ne' h4

theorem invR_inf (L : ℝ) : invR (fin L) (fin L) (fin L) = fin 0 := by
  unfold invR
  simp only [fin_sub, fin_fabs, fin_tenth, fin_lt, sub_self, abs_zero]
  rw [if_pos (by positivity)]
  simp

end SFK
