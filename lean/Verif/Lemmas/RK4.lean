import Mathlib.Analysis.Analytic.Basic
import Mathlib.Analysis.Calculus.FDeriv.Analytic
import Mathlib.Analysis.Calculus.MeanValue
import Mathlib.Analysis.Calculus.Deriv.Pow
import Mathlib.Analysis.Calculus.Deriv.Mul
import Mathlib.Analysis.Calculus.Deriv.Add
import Mathlib.Tactic.Module
import Mathlib.Tactic.Ring
import Mathlib.Tactic.Linarith
/-
The classical four-stage Runge-Kutta step has local error of fifth order for analytic right-hand sides (general mathematics, nothing
about the modelled code).
-/
namespace SFK
open Asymptotics Filter Topology

variable {V : Type*} [NormedAddCommGroup V] [NormedSpace ℝ V]

/-- One step of the classical Runge-Kutta method for `u' = F(u)`. -/
noncomputable def rk4 (F : V → V) (h : ℝ) (u : V) : V :=
  let k1 := F u
  let k2 := F (u + (h / 2) • k1)
  let k3 := F (u + (h / 2) • k2)
  let k4 := F (u + h • k3)
  u + (h / 6) • (k1 + (2:ℝ) • k2 + (2:ℝ) • k3 + k4)

/-! ### multilinear bookkeeping -/

section multi
variable (p : FormalMultilinearSeries ℝ V V)

/-- linear, bilinear and cubic part of a power series -/
noncomputable def fA (v : V) : V := p 1 (Fin.cons v Fin.elim0)
noncomputable def fB (v w : V) : V := p 2 (Fin.cons v (Fin.cons w Fin.elim0))
noncomputable def fT (v : V) : V := p 3 fun _ => v

theorem fA_add (v w : V) : fA p (v + w) = fA p v + fA p w := (p 1).cons_add _ v w
theorem fA_smul (c : ℝ) (v : V) : fA p (c • v) = c • fA p v := (p 1).cons_smul _ c v
theorem fB_add_left (v w z : V) : fB p (v + w) z = fB p v z + fB p w z := (p 2).cons_add _ v w
theorem fB_smul_left (c : ℝ) (v z : V) : fB p (c • v) z = c • fB p v z := (p 2).cons_smul _ c v
theorem fB_add_right (v w z : V) : fB p z (v + w) = fB p z v + fB p z w := ((p 2).curryLeft z).cons_add Fin.elim0 v w
theorem fB_smul_right (c : ℝ) (v z : V) : fB p z (c • v) = c • fB p z v := ((p 2).curryLeft z).cons_smul Fin.elim0 c v
theorem fT_smul (c : ℝ) (v : V) : fT p (c • v) = c ^ 3 • fT p v := by
  have := (p 3).map_smul_univ (fun _ => c) fun _ => v
  simpa [fT] using this

theorem fA_zero : fA p 0 = 0 := by simpa using fA_smul p 0 0
theorem fB_zero_left (z : V) : fB p 0 z = 0 := by simpa using fB_smul_left p 0 0 z
theorem fB_zero_right (z : V) : fB p z 0 = 0 := by simpa using fB_smul_right p 0 0 z
theorem fT_zero : fT p 0 = 0 := by simpa using fT_smul p 0 0

theorem continuous_fB : Continuous fun x : V × V => fB p x.1 x.2 := by
  unfold fB
  refine (p 2).cont.comp (continuous_pi fun i => ?_)
  refine Fin.cases ?_ (fun j => ?_) i
  · exact continuous_fst
  · refine Fin.cases ?_ (fun k => k.elim0) j
    exact continuous_snd

theorem partialSum_four (y : V) : p.partialSum 4 y = p 0 0 + fA p y + fB p y y + fT p y := by
  unfold FormalMultilinearSeries.partialSum fA fB fT
  simp only [Finset.sum_range_succ, Finset.sum_range_zero, zero_add]
  congr 3
  · congr 1
    exact funext fun i => i.elim0
  · congr 1
    funext i
    rw [Subsingleton.elim i 0]
    rfl
  · congr 1
    funext i
    fin_cases i <;> rfl

end multi

/-! ### orders -/

theorem bigO_smul {R : ℝ → V} (hR : ContinuousAt R 0) (n : ℕ) : (fun h : ℝ => h ^ n • R h) =O[𝓝 0] fun h => h ^ n := by
  have h1 : R =O[𝓝 0] fun _ => (1 : ℝ) := hR.isBigO_one ℝ
  have := (isBigO_refl (fun h : ℝ => h ^ n) (𝓝 0)).smul h1
  simpa using this

theorem bigO_mono {R : ℝ → V} {m n : ℕ} (hmn : m ≤ n) (h : R =O[𝓝 0] fun h : ℝ => h ^ n) : R =O[𝓝 0] fun h : ℝ => h ^ m := by
  refine h.trans ?_
  obtain ⟨k, rfl⟩ := Nat.exists_eq_add_of_le hmn
  have := bigO_smul (V := ℝ) (R := fun h => h ^ k) (continuous_pow k).continuousAt m
  simpa [pow_add] using this

/-- the expansion of `F` along a cubic curve -/
noncomputable def fE (p : FormalMultilinearSeries ℝ V V) (α β γ : V) (h : ℝ) : V :=
  p 0 0 + h • fA p α + h ^ 2 • (fA p β + fB p α α) + h ^ 3 • (fA p γ + fB p α β + fB p β α + fT p α)

theorem expand_poly {F : V → V} {p : FormalMultilinearSeries ℝ V V} {u0 : V} (hp : HasFPowerSeriesAt F p u0) (α β γ : V) :
    (fun h : ℝ => F (u0 + (h • α + h ^ 2 • β + h ^ 3 • γ)) - fE p α β γ h) =O[𝓝 0] fun h => h ^ 4 := by
  let S1 : ℝ → V := fun h => β + h • γ
  let S : ℝ → V := fun h => α + h • S1 h
  have hS1 : Continuous S1 := by fun_prop
  have hS : Continuous S := by fun_prop
  have hP : ∀ h : ℝ, h • α + h ^ 2 • β + h ^ 3 • γ = h • S h := fun h => by simp only [S, S1]; module
  have hto : Tendsto (fun h : ℝ => h • S h) (𝓝 0) (𝓝 0) := by
    have : Continuous fun h : ℝ => h • S h := by fun_prop
    simpa using this.tendsto 0
  have t1 : (fun h : ℝ => F (u0 + h • S h) - p.partialSum 4 (h • S h)) =O[𝓝 0] fun h => h ^ 4 := by
    have h1 := (hp.isBigO_sub_partialSum_pow 4).comp_tendsto hto
    refine h1.trans ?_
    have h2 := bigO_smul hS.continuousAt 1
    have h3 := h2.norm_left.pow 4
    simp only [pow_one] at h3
    exact h3
  have t2 : (fun h : ℝ => p.partialSum 4 (h • S h) - fE p α β γ h) =O[𝓝 0] fun h => h ^ 4 := by
    have c1 : ∀ h : ℝ, p.partialSum 4 (h • S h) - fE p α β γ h =
        h ^ 4 • (fB p α γ + fB p γ α + fB p (S1 h) (S1 h)) + h ^ 3 • (fT p (S h) - fT p α) := by
      intro h
      rw [partialSum_four, fA_smul, fB_smul_left, fB_smul_right, fT_smul]
      have e1 : fA p (S h) = fA p α + h • fA p β + h ^ 2 • fA p γ := by
        simp only [S, S1, fA_add, fA_smul]; module
      have e2 : fB p (S h) (S h) = fB p α α + h • (fB p α β + fB p β α) + h ^ 2 • (fB p α γ + fB p γ α + fB p (S1 h) (S1 h)) := by
        simp only [S, fB_add_left, fB_add_right, fB_smul_left, fB_smul_right]
        have e3 : fB p α (S1 h) = fB p α β + h • fB p α γ := by simp only [S1, fB_add_right, fB_smul_right]
        have e4 : fB p (S1 h) α = fB p β α + h • fB p γ α := by simp only [S1, fB_add_left, fB_smul_left]
        rw [e3, e4]
        module
      rw [e1, e2]
      unfold fE
      module
    simp only [c1]
    refine IsBigO.add (bigO_smul ?_ 4) ?_
    · have := (continuous_fB p).comp (hS1.prodMk hS1)
      exact (continuous_const.add this).continuousAt
    · -- the cubic term changes by `O(h)`
      have d : DifferentiableAt ℝ (fun h => fT p (S h)) 0 := by
        unfold fT
        have hs : DifferentiableAt ℝ S 0 := by
          simp only [S, S1]
          fun_prop
        have := ((p 3).hasFDerivAt (fun _ => S 0)).differentiableAt
        exact DifferentiableAt.comp (0:ℝ) (f := fun h => fun _ : Fin 3 => S h) this (differentiableAt_pi.mpr fun _ => hs)
      have h1 := d.isBigO_sub
      have e0 : S 0 = α := by simp [S]
      simp only [e0, sub_zero] at h1
      have h2 := (isBigO_refl (fun h : ℝ => h ^ 3) (𝓝 0)).smul h1
      refine h2.congr_right fun h => ?_
      simp [pow_succ]
  refine (t1.add t2).congr_left fun h => ?_
  rw [hP]
  module

/-- the expansion of `F` along a curve known up to `O(h^n)` -/
theorem expand {F : V → V} {p : FormalMultilinearSeries ℝ V V} {u0 : V} (hp : HasFPowerSeriesAt F p u0) {α β γ : V} {w : ℝ → V} {n : ℕ}
    (h1 : 1 ≤ n) (h4 : n ≤ 4) (hw : (fun h : ℝ => w h - (h • α + h ^ 2 • β + h ^ 3 • γ)) =O[𝓝 0] fun h => h ^ n) :
    (fun h : ℝ => F (u0 + w h) - fE p α β γ h) =O[𝓝 0] fun h => h ^ n := by
  let P : ℝ → V := fun h => h • α + h ^ 2 • β + h ^ 3 • γ
  have hP : Continuous P := by fun_prop
  have hP0 : Tendsto P (𝓝 0) (𝓝 0) := by simpa [P] using hP.tendsto 0
  have hn : Tendsto (fun h : ℝ => h ^ n) (𝓝 0) (𝓝 0) := by
    have := (continuous_pow n).tendsto (0:ℝ)
    rwa [zero_pow (by omega)] at this
  have hw0 : Tendsto w (𝓝 0) (𝓝 0) := by
    have := (hw.trans_tendsto hn).add hP0
    simpa [P] using this
  have hst := hp.analyticAt.hasStrictFDerivAt.isBigO_sub
  have hto : Tendsto (fun h => (u0 + w h, u0 + P h)) (𝓝 0) (𝓝 (u0, u0)) := by
    have := ((tendsto_const_nhds (x := u0)).add hw0).prodMk_nhds ((tendsto_const_nhds (x := u0)).add hP0)
    simpa using this
  have t1 := (hst.comp_tendsto hto)
  have t2 : (fun h : ℝ => F (u0 + w h) - F (u0 + P h)) =O[𝓝 0] fun h => h ^ n := by
    refine IsBigO.trans (g := fun h => w h - P h) ?_ hw
    refine t1.congr_right fun h => ?_
    simp
  refine (t2.add (bigO_mono h4 (expand_poly hp α β γ))).congr_left fun h => ?_
  simp [P]

/-! ### the exact solution -/

theorem bigO_integrate {g g' : ℝ → V} (hg : ∀ᶠ t in 𝓝 (0:ℝ), HasDerivAt g (g' t) t) (h0 : g 0 = 0) {n : ℕ}
    (h : g' =O[𝓝 0] fun t : ℝ => t ^ n) : g =O[𝓝 0] fun t : ℝ => t ^ (n + 1) := by
  obtain ⟨C, hC⟩ := h.bound
  obtain ⟨ε, hε, hb⟩ := Metric.eventually_nhds_iff.mp (hg.and hC)
  refine IsBigO.of_bound C ?_
  rw [Metric.eventually_nhds_iff]
  refine ⟨ε, hε, fun t ht => ?_⟩
  rw [Real.dist_0_eq_abs] at ht
  have key := Convex.norm_image_sub_le_of_norm_hasDerivWithin_le (f := g) (f' := g') (s := Metric.closedBall (0:ℝ) |t|) (C := C * |t| ^ n)
    (x := 0) (y := t)
    (fun s hs => (hb (y := s) (by
      rw [Metric.mem_closedBall, Real.dist_0_eq_abs] at hs
      rw [Real.dist_0_eq_abs]; linarith)).1.hasDerivWithinAt)
    (fun s hs => by
      rw [Metric.mem_closedBall, Real.dist_0_eq_abs] at hs
      have := (hb (y := s) (by rw [Real.dist_0_eq_abs]; linarith)).2
      rw [norm_pow, Real.norm_eq_abs] at this
      have hC0 : 0 ≤ C * |t| ^ n ∨ C < 0 := by
        rcases le_or_gt 0 C with h | h
        · left; positivity
        · right; exact h
      rcases le_or_gt 0 C with h | h
      · exact this.trans (mul_le_mul_of_nonneg_left (pow_le_pow_left₀ (abs_nonneg s) hs n) h)
      · have a : 0 ≤ C * |s| ^ n := (norm_nonneg _).trans this
        have b : |s| ^ n ≤ 0 := by
          by_contra hh
          push Not at hh
          nlinarith
        have c : |s| ^ n = 0 := le_antisymm b (by positivity)
        have d := (hb (y := t) (by rw [Real.dist_0_eq_abs]; linarith)).2
        rw [norm_pow, Real.norm_eq_abs] at d
        rw [c, mul_zero] at this
        refine this.trans ((norm_nonneg _).trans d))
    (convex_closedBall _ _) (by simp) (by simp)
  rw [h0, sub_zero, sub_zero, Real.norm_eq_abs] at key
  rw [norm_pow, Real.norm_eq_abs, pow_succ, ← mul_assoc]
  exact key

theorem hasDerivAt_poly (a b c d : V) (t : ℝ) : HasDerivAt (fun h : ℝ => h • a + h ^ 2 • b + h ^ 3 • c + h ^ 4 • d)
    (a + t • ((2:ℝ) • b) + t ^ 2 • ((3:ℝ) • c) + t ^ 3 • ((4:ℝ) • d)) t := by
  have h1 := (((hasDerivAt_id t).smul_const a).add ((hasDerivAt_pow 2 t).smul_const b)).add ((hasDerivAt_pow 3 t).smul_const c) |>.add
    ((hasDerivAt_pow 4 t).smul_const d)
  refine (h1.congr_deriv ?_)
  simp
  module

theorem solution_step {F : V → V} {p : FormalMultilinearSeries ℝ V V} {u0 : V} (hp : HasFPowerSeriesAt F p u0) {u : ℝ → V} (hu0 : u 0 = u0)
    (hu : ∀ᶠ t in 𝓝 (0:ℝ), HasDerivAt u (F (u t)) t) {α β γ a b c d : V} {n : ℕ} (h1 : 1 ≤ n) (h4 : n ≤ 4)
    (hw : (fun h : ℝ => u h - u0 - (h • α + h ^ 2 • β + h ^ 3 • γ)) =O[𝓝 0] fun h => h ^ n)
    (he : (fun h : ℝ => fE p α β γ h - (a + h • ((2:ℝ) • b) + h ^ 2 • ((3:ℝ) • c) + h ^ 3 • ((4:ℝ) • d))) =O[𝓝 0] fun h => h ^ n) :
    (fun h : ℝ => u h - u0 - (h • a + h ^ 2 • b + h ^ 3 • c + h ^ 4 • d)) =O[𝓝 0] fun h => h ^ (n + 1) := by
  have t1 := expand hp h1 h4 hw
  refine bigO_integrate (g' := fun t => F (u t) - (a + t • ((2:ℝ) • b) + t ^ 2 • ((3:ℝ) • c) + t ^ 3 • ((4:ℝ) • d))) ?_ (by simp [hu0]) ?_
  · filter_upwards [hu] with t ht
    exact (ht.sub_const u0).sub (hasDerivAt_poly a b c d t)
  · refine (t1.add he).congr_left fun h => ?_
    simp

theorem solution_expansion {F : V → V} {p : FormalMultilinearSeries ℝ V V} {u0 : V} (hp : HasFPowerSeriesAt F p u0) {u : ℝ → V} (hu0 : u 0 = u0)
    (hu : ∀ᶠ t in 𝓝 (0:ℝ), HasDerivAt u (F (u t)) t) :
    (fun h : ℝ => u h - u0 - (h • F u0 + h ^ 2 • ((1/2:ℝ) • fA p (F u0)) + h ^ 3 • ((1/6:ℝ) • fA p (fA p (F u0)) + (1/3:ℝ) • fB p (F u0) (F u0))
      + h ^ 4 • ((1/24:ℝ) • fA p (fA p (fA p (F u0))) + (1/12:ℝ) • fA p (fB p (F u0) (F u0)) +
        (1/8:ℝ) • (fB p (F u0) (fA p (F u0)) + fB p (fA p (F u0)) (F u0)) + (1/4:ℝ) • fT p (F u0)))) =O[𝓝 0] fun h => h ^ 5 := by
  have h0 : p 0 0 = F u0 := hp.coeff_zero 0
  have bo : ∀ (R : ℝ → V) (n : ℕ), Continuous R → (fun h : ℝ => h ^ n • R h) =O[𝓝 0] fun h => h ^ n := fun R n hR => bigO_smul hR.continuousAt n
  have s1 : (fun h : ℝ => u h - u0 - (h • (0:V) + h ^ 2 • (0:V) + h ^ 3 • (0:V))) =O[𝓝 0] fun h => h ^ 1 := by
    have := (hu.self_of_nhds).isBigO_sub
    simpa [hu0] using this
  have s2 := solution_step hp hu0 hu (a := F u0) (b := 0) (c := 0) (d := 0) le_rfl (by omega) s1 (by
    refine (bo (fun _ => 0) 1 continuous_const).congr_left fun h => ?_
    simp only [fE, h0, fA_zero, fB_zero_left, fT_zero]
    simp)
  have s2' : (fun h : ℝ => u h - u0 - (h • F u0 + h ^ 2 • (0:V) + h ^ 3 • (0:V))) =O[𝓝 0] fun h => h ^ 2 := by simpa using s2
  have s3 := solution_step hp hu0 hu (a := F u0) (b := (1/2:ℝ) • fA p (F u0)) (c := 0) (d := 0) (by omega) (by omega) s2' (by
    refine (bo (fun h => fB p (F u0) (F u0) + h • fT p (F u0)) 2 (by fun_prop)).congr_left fun h => ?_
    simp only [fE, h0, fA_zero, fB_zero_left, fB_zero_right]
    module)
  have s3' : (fun h : ℝ => u h - u0 - (h • F u0 + h ^ 2 • ((1/2:ℝ) • fA p (F u0)) + h ^ 3 • (0:V))) =O[𝓝 0] fun h => h ^ 3 := by simpa using s3
  have s4 := solution_step hp hu0 hu (a := F u0) (b := (1/2:ℝ) • fA p (F u0))
    (c := (1/6:ℝ) • fA p (fA p (F u0)) + (1/3:ℝ) • fB p (F u0) (F u0)) (d := 0) (by omega) (by omega) s3' (by
    refine (bo (fun h => (1/2:ℝ) • fB p (F u0) (fA p (F u0)) + (1/2:ℝ) • fB p (fA p (F u0)) (F u0) + fT p (F u0)) 3 (by fun_prop)).congr_left fun h => ?_
    simp only [fE, h0, fA_zero, fA_smul, fB_smul_left, fB_smul_right]
    module)
  have s4' : (fun h : ℝ => u h - u0 - (h • F u0 + h ^ 2 • ((1/2:ℝ) • fA p (F u0)) + h ^ 3 • ((1/6:ℝ) • fA p (fA p (F u0)) +
      (1/3:ℝ) • fB p (F u0) (F u0)))) =O[𝓝 0] fun h => h ^ 4 := by simpa using s4
  refine solution_step hp hu0 hu (by omega) (by omega) s4' ?_
  refine (bo (fun h => 0) 4 continuous_const).congr_left fun h => ?_
  simp only [fE, h0, fA_add, fA_smul, fB_smul_left, fB_smul_right]
  module

/-! ### the Runge-Kutta step -/

theorem rk4_expansion {F : V → V} {p : FormalMultilinearSeries ℝ V V} {u0 : V} (hp : HasFPowerSeriesAt F p u0) :
    (fun h : ℝ => rk4 F h u0 - u0 - (h • F u0 + h ^ 2 • ((1/2:ℝ) • fA p (F u0)) + h ^ 3 • ((1/6:ℝ) • fA p (fA p (F u0)) + (1/3:ℝ) • fB p (F u0) (F u0))
      + h ^ 4 • ((1/24:ℝ) • fA p (fA p (fA p (F u0))) + (1/12:ℝ) • fA p (fB p (F u0) (F u0)) +
        (1/8:ℝ) • (fB p (F u0) (fA p (F u0)) + fB p (fA p (F u0)) (F u0)) + (1/4:ℝ) • fT p (F u0)))) =O[𝓝 0] fun h => h ^ 5 := by
  have h0 : p 0 0 = F u0 := hp.coeff_zero 0
  have ho : ∀ (R : ℝ → V), R =O[𝓝 0] (fun h : ℝ => h ^ 4) → (fun h : ℝ => h • R h) =O[𝓝 0] fun h => h ^ 5 := fun R hR => by
    refine ((isBigO_refl (fun h : ℝ => h) (𝓝 0)).smul hR).congr_right fun h => ?_
    simp only [smul_eq_mul]; ring
  -- stage: `w = (s h) k`
  have stage : ∀ (k : ℝ → V) (s : ℝ) (c0 c1 c2 c3 : V), (fun h : ℝ => k h - (c0 + h • c1 + h ^ 2 • c2 + h ^ 3 • c3)) =O[𝓝 0] (fun h => h ^ 4) →
      (fun h : ℝ => F (u0 + (s * h) • k h) - fE p (s • c0) (s • c1) (s • c2) h) =O[𝓝 0] fun h => h ^ 4 := by
    intro k s c0 c1 c2 c3 hk
    refine expand hp (by omega) le_rfl ?_
    have a := bigO_mono (show 4 ≤ 5 by omega) ((ho _ hk).const_smul_left s)
    have b := bigO_smul (V := V) (R := fun _ => s • c3) continuousAt_const 4
    refine (a.add b).congr_left fun h => ?_
    simp only [Pi.smul_apply]
    module
  obtain ⟨a0, ha0⟩ : ∃ a0, a0 = F u0 := ⟨_, rfl⟩
  rw [← ha0] at h0 ⊢
  let k1 : ℝ → V := fun _ => a0
  let k2 : ℝ → V := fun h => F (u0 + (1/2 * h) • k1 h)
  let k3 : ℝ → V := fun h => F (u0 + (1/2 * h) • k2 h)
  let k4 : ℝ → V := fun h => F (u0 + (1 * h) • k3 h)
  have e1 : (fun h : ℝ => k1 h - (a0 + h • (0:V) + h ^ 2 • (0:V) + h ^ 3 • (0:V))) =O[𝓝 0] (fun h => h ^ 4) := by
    refine (isBigO_zero (fun h : ℝ => h ^ 4) (𝓝 0)).congr_left fun h => ?_
    simp [k1]
  have e2 : (fun h : ℝ => k2 h - (a0 + h • ((1/2:ℝ) • fA p a0) + h ^ 2 • ((1/4:ℝ) • fB p a0 a0) + h ^ 3 • ((1/8:ℝ) • fT p a0))) =O[𝓝 0] (fun h => h ^ 4) := by
    refine (stage k1 (1/2) _ _ _ _ e1).congr_left fun h => ?_
    simp only [fE, h0, smul_zero, fA_zero, fB_zero_left, fB_zero_right, fA_smul, fB_smul_left, fB_smul_right, fT_smul, k2]
    module
  have e3 : (fun h : ℝ => k3 h - (a0 + h • ((1/2:ℝ) • fA p a0) + h ^ 2 • ((1/4:ℝ) • fA p (fA p a0) + (1/4:ℝ) • fB p a0 a0) +
      h ^ 3 • ((1/8:ℝ) • fA p (fB p a0 a0) + (1/8:ℝ) • (fB p a0 (fA p a0) + fB p (fA p a0) a0) + (1/8:ℝ) • fT p a0))) =O[𝓝 0] (fun h => h ^ 4) := by
    refine (stage k2 (1/2) _ _ _ _ e2).congr_left fun h => ?_
    simp only [fE, h0, fA_smul, fB_smul_left, fB_smul_right, fT_smul, k3]
    module
  have e4 : (fun h : ℝ => k4 h - (a0 + h • fA p a0 + h ^ 2 • ((1/2:ℝ) • fA p (fA p a0) + fB p a0 a0) +
      h ^ 3 • ((1/4:ℝ) • fA p (fA p (fA p a0)) + (1/4:ℝ) • fA p (fB p a0 a0) + (1/2:ℝ) • (fB p a0 (fA p a0) + fB p (fA p a0) a0) + fT p a0))) =O[𝓝 0]
        (fun h => h ^ 4) := by
    refine (stage k3 1 _ _ _ _ e3).congr_left fun h => ?_
    simp only [fE, h0, fA_add, fA_smul, fB_smul_left, fB_smul_right, fT_smul, k4]
    module
  have tot := (((ho _ e1).const_smul_left (1/6:ℝ)).add ((ho _ e2).const_smul_left (1/3:ℝ))).add ((ho _ e3).const_smul_left (1/3:ℝ)) |>.add
    ((ho _ e4).const_smul_left (1/6:ℝ))
  refine tot.congr_left fun h => ?_
  have r : rk4 F h u0 = u0 + (h / 6) • (k1 h + (2:ℝ) • k2 h + (2:ℝ) • k3 h + k4 h) := by
    unfold rk4
    simp only [k1, k2, k3, k4, one_mul, ← ha0, show (1/2 : ℝ) * h = h / 2 by ring]
  rw [r]
  simp only [Pi.smul_apply]
  module

/-- local error of fifth order -/
theorem rk4_local_error {F : V → V} {u0 : V} (hF : AnalyticAt ℝ F u0) {u : ℝ → V} (hu0 : u 0 = u0)
    (hu : ∀ᶠ t in 𝓝 (0:ℝ), HasDerivAt u (F (u t)) t) : (fun h : ℝ => rk4 F h u0 - u h) =O[𝓝 0] fun h => h ^ 5 := by
  obtain ⟨p, hp⟩ := hF
  refine ((rk4_expansion hp).sub (solution_expansion hp hu0 hu)).congr_left fun h => ?_
  abel

end SFK
