import Verif.Lemmas.RK4
import Mathlib.Analysis.Analytic.Constructions
import Mathlib.Analysis.Analytic.Linear
import Mathlib.Analysis.Calculus.ContDiff.RCLike
import Mathlib.Analysis.ODE.ExistUnique
import Mathlib.Topology.MetricSpace.Lipschitz
import Mathlib.Analysis.SpecialFunctions.Exp
/-
Global convergence of the classical Runge-Kutta method for analytic right-hand sides (general mathematics, nothing about the modelled
code).
-/
namespace SFK
open Asymptotics Filter Topology Set

variable {V : Type*} [NormedAddCommGroup V] [NormedSpace ℝ V]

/-! ### one variable -/

/-- Five vanishing derivatives and a bound on the fifth. -/
theorem taylor_step {g g' : ℝ → V} {δ M : ℝ} {n : ℕ} (hM : 0 ≤ M) (h0 : g 0 = 0)
    (hg : ∀ σ ∈ Icc 0 δ, HasDerivWithinAt g (g' σ) (Icc 0 δ) σ) (hb : ∀ σ ∈ Icc 0 δ, ‖g' σ‖ ≤ M * σ ^ n) :
    ∀ σ ∈ Icc 0 δ, ‖g σ‖ ≤ M * σ ^ (n + 1) := by
  intro σ hσ
  have hsub : Icc 0 σ ⊆ Icc 0 δ := Icc_subset_Icc_right hσ.2
  have key := Convex.norm_image_sub_le_of_norm_hasDerivWithin_le (f := g) (f' := g') (s := Icc 0 σ) (C := M * σ ^ n) (x := 0) (y := σ)
    (fun s hs => (hg s (hsub hs)).mono hsub)
    (fun s hs => (hb s (hsub hs)).trans (mul_le_mul_of_nonneg_left (pow_le_pow_left₀ hs.1 hs.2 n) hM))
    (convex_Icc _ _) ⟨le_rfl, hσ.1⟩ ⟨hσ.1, le_rfl⟩
  rw [h0, sub_zero, sub_zero, Real.norm_eq_abs, abs_of_nonneg hσ.1] at key
  rw [pow_succ, ← mul_assoc]
  exact key

theorem taylor_five {φ : ℕ → ℝ → V} {δ M : ℝ} (hM : 0 ≤ M) (h0 : ∀ k, k < 5 → φ k 0 = 0)
    (hg : ∀ k, k < 5 → ∀ σ ∈ Icc 0 δ, HasDerivWithinAt (φ k) (φ (k + 1) σ) (Icc 0 δ) σ) (hb : ∀ σ ∈ Icc 0 δ, ‖φ 5 σ‖ ≤ M) :
    ∀ σ ∈ Icc 0 δ, ‖φ 0 σ‖ ≤ M * σ ^ 5 := by
  have a4 := taylor_step (n := 0) hM (h0 4 (by norm_num)) (hg 4 (by norm_num)) (fun σ hσ => by simpa using hb σ hσ)
  have a3 := taylor_step (n := 1) hM (h0 3 (by norm_num)) (hg 3 (by norm_num)) a4
  have a2 := taylor_step (n := 2) hM (h0 2 (by norm_num)) (hg 2 (by norm_num)) a3
  have a1 := taylor_step (n := 3) hM (h0 1 (by norm_num)) (hg 1 (by norm_num)) a2
  exact taylor_step (n := 4) hM (h0 0 (by norm_num)) (hg 0 (by norm_num)) a1

/-- A function of order `t^5` has vanishing derivatives up to the fourth. -/
theorem derivs_vanish {φ : ℕ → ℝ → V} (hg : ∀ k, k < 5 → ∀ᶠ t in 𝓝 (0:ℝ), HasDerivAt (φ k) (φ (k + 1) t) t)
    (h5 : φ 0 =O[𝓝 0] fun t : ℝ => t ^ 5) : ∀ k, k < 5 → φ k 0 = 0 := by
  intro k
  induction k using Nat.strong_induction_on with
  | _ j ih =>
    intro hj
    have hz : ∀ i, i < j → φ i 0 = 0 := fun i hi => ih i hi (by omega)
    obtain ⟨c, hc⟩ : ∃ c, c = φ j 0 := ⟨_, rfl⟩
    have key : ∀ i, i ≤ j → (fun t : ℝ => φ (j - i) t - (t ^ i / (i.factorial : ℝ)) • c) =O[𝓝 0] fun t : ℝ => t ^ (i + 1) := by
      intro i
      induction i with
      | zero =>
        intro _
        have := (hg j hj).self_of_nhds.isBigO_sub
        simpa [hc] using this
      | succ i ihi =>
        intro hi
        have h1 := ihi (by omega)
        obtain ⟨m, hm⟩ : ∃ m, m = j - (i + 1) := ⟨_, rfl⟩
        have hm1 : j - i = m + 1 := by omega
        rw [hm1] at h1
        rw [← hm]
        refine bigO_integrate ?_ ?_ h1
        · filter_upwards [hg m (by omega)] with t ht
          refine ht.sub ?_
          have hp := (hasDerivAt_pow (i + 1) t).div_const (((i + 1).factorial : ℕ) : ℝ)
          have e : ((i + 1 : ℕ) : ℝ) * t ^ (i + 1 - 1) / (((i + 1).factorial : ℕ) : ℝ) = t ^ i / (i.factorial : ℝ) := by
            rw [Nat.factorial_succ, Nat.add_sub_cancel]
            push_cast
            have : (i.factorial : ℝ) ≠ 0 := by exact_mod_cast i.factorial_ne_zero
            have : ((i : ℝ) + 1) ≠ 0 := by positivity
            field_simp
          rw [e] at hp
          exact hp.smul_const c
        · rw [hz m (by omega)]; simp
    have h1 := key j le_rfl
    rw [Nat.sub_self] at h1
    have h2 : φ 0 =O[𝓝 0] fun t : ℝ => t ^ (j + 1) := bigO_mono (by omega) h5
    have h3 : (fun t : ℝ => (t ^ j / (j.factorial : ℝ)) • c) =O[𝓝 0] fun t : ℝ => t ^ (j + 1) := by
      refine (h2.sub h1).congr_left fun t => ?_
      simp
    rw [← hc]
    by_contra hne
    obtain ⟨C, hC⟩ := h3.bound
    obtain ⟨ε, hε, hb⟩ := Metric.eventually_nhds_iff.mp hC
    have hcn : 0 < ‖c‖ := norm_pos_iff.mpr hne
    have hf : (0 : ℝ) < j.factorial := by exact_mod_cast j.factorial_pos
    -- take `t` small
    obtain ⟨D, hD⟩ : ∃ D, D = ‖c‖ / j.factorial := ⟨_, rfl⟩
    have hDp : 0 < D := by rw [hD]; positivity
    have hall : ∀ t : ℝ, 0 < t → t < ε → D ≤ C * t := by
      intro t ht hte
      have := hb (y := t) (by rw [Real.dist_0_eq_abs, abs_of_pos ht]; exact hte)
      rw [norm_smul, Real.norm_eq_abs, abs_of_pos (by positivity), norm_pow, Real.norm_eq_abs, abs_of_pos ht, pow_succ] at this
      have htj : 0 < t ^ j := by positivity
      have e1 : t ^ j / (j.factorial : ℝ) * ‖c‖ = t ^ j * D := by rw [hD]; ring
      rw [e1] at this
      have : t ^ j * D ≤ t ^ j * (C * t) := by linarith
      exact le_of_mul_le_mul_left this htj
    have hlim : Tendsto (fun t : ℝ => C * t) (𝓝[>] 0) (𝓝 0) := by
      have : Tendsto (fun t : ℝ => C * t) (𝓝 0) (𝓝 (C * 0)) := (continuous_const.mul continuous_id).tendsto 0
      rw [mul_zero] at this
      exact this.mono_left nhdsWithin_le_nhds
    have : D ≤ 0 := by
      refine ge_of_tendsto hlim ?_
      filter_upwards [Ioo_mem_nhdsGT hε] with t ht
      exact hall t ht.1 ht.2
    linarith

/-! ### derivatives along the solution and along the step -/

/-- derivatives along solutions of `u' = G u`: the `k`-th derivative of `u` is `lie G k u` -/
noncomputable def lie (G : V → V) : ℕ → V → V
  | 0 => fun s => s
  | k + 1 => fun s => fderiv ℝ (lie G k) s (G s)

/-- derivatives in the first variable -/
noncomputable def dfst (f : ℝ × V → V) : ℕ → ℝ × V → V
  | 0 => f
  | k + 1 => fun z => fderiv ℝ (dfst f k) z (1, 0)

theorem clm_apply_analytic {X A B : Type*} [NormedAddCommGroup X] [NormedSpace ℝ X] [NormedAddCommGroup A] [NormedSpace ℝ A]
    [NormedAddCommGroup B] [NormedSpace ℝ B] {c : X → A →L[ℝ] B} {y : X → A} {z : X} (hc : AnalyticAt ℝ c z) (hy : AnalyticAt ℝ y z) :
    AnalyticAt ℝ (fun x => c x (y x)) z := by
  have h1 := (ContinuousLinearMap.id ℝ (A →L[ℝ] B)).analyticAt_bilinear (c z, y z)
  exact AnalyticAt.comp (g := fun p : (A →L[ℝ] B) × A => (ContinuousLinearMap.id ℝ (A →L[ℝ] B)) p.1 p.2) (f := fun x => (c x, y x)) h1 (hc.prod hy)

variable [CompleteSpace V]

theorem lie_analytic {G : V → V} {s : V} (hG : AnalyticAt ℝ G s) (k : ℕ) : AnalyticAt ℝ (lie G k) s := by
  induction k with
  | zero => exact analyticAt_id
  | succ k ih => exact clm_apply_analytic ih.fderiv hG

theorem lie_hasDerivAt {G : V → V} {u : ℝ → V} {t : ℝ} (hG : AnalyticAt ℝ G (u t)) (hu : HasDerivAt u (G (u t)) t) (k : ℕ) :
    HasDerivAt (fun t => lie G k (u t)) (lie G (k + 1) (u t)) t :=
  ((lie_analytic hG k).differentiableAt.hasFDerivAt).comp_hasDerivAt t hu

theorem dfst_analytic {f : ℝ × V → V} {z : ℝ × V} (hf : AnalyticAt ℝ f z) (k : ℕ) : AnalyticAt ℝ (dfst f k) z := by
  induction k with
  | zero => exact hf
  | succ k ih => exact clm_apply_analytic ih.fderiv analyticAt_const

theorem dfst_hasDerivAt {f : ℝ × V → V} {t : ℝ} {s : V} (hf : AnalyticAt ℝ f (t, s)) (k : ℕ) :
    HasDerivAt (fun t => dfst f k (t, s)) (dfst f (k + 1) (t, s)) t :=
  ((dfst_analytic hf k).differentiableAt.hasFDerivAt).comp_hasDerivAt t ((hasDerivAt_id t).prodMk (hasDerivAt_const t s))

/-! ### the step as a function of step size and state -/

/-- the states at which a step evaluates the right-hand side -/
noncomputable def stages (G : V → V) (τ : ℝ) (s : V) : List V :=
  [s, s + (τ / 2) • G s, s + (τ / 2) • G (s + (τ / 2) • G s), s + τ • G (s + (τ / 2) • G (s + (τ / 2) • G s))]

/-- the mean slope of a step -/
noncomputable def slope (G : V → V) (z : ℝ × V) : V :=
  (1 / 6 : ℝ) • (G z.2 + (2:ℝ) • G (z.2 + (z.1 / 2) • G z.2) + (2:ℝ) • G (z.2 + (z.1 / 2) • G (z.2 + (z.1 / 2) • G z.2))
    + G (z.2 + z.1 • G (z.2 + (z.1 / 2) • G (z.2 + (z.1 / 2) • G z.2))))

omit [CompleteSpace V] in
theorem rk4_slope (G : V → V) (τ : ℝ) (s : V) : rk4 G τ s = s + τ • slope G (τ, s) := by
  unfold rk4 slope
  dsimp only
  rw [smul_smul]
  congr 2
  ring

section
variable {G : V → V} {s0 : V} (hG : AnalyticAt ℝ G s0)
include hG

theorem stage_analytic : AnalyticAt ℝ (fun z : ℝ × V => z.2 + (z.1 / 2) • G z.2) (0, s0) ∧
    AnalyticAt ℝ (fun z : ℝ × V => z.2 + (z.1 / 2) • G (z.2 + (z.1 / 2) • G z.2)) (0, s0) ∧
    AnalyticAt ℝ (fun z : ℝ × V => z.2 + z.1 • G (z.2 + (z.1 / 2) • G (z.2 + (z.1 / 2) • G z.2))) (0, s0) := by
  have f1 : AnalyticAt ℝ (fun z : ℝ × V => z.1) ((0 : ℝ), s0) := analyticAt_fst
  have f2 : AnalyticAt ℝ (fun z : ℝ × V => z.2) ((0 : ℝ), s0) := analyticAt_snd
  have f3 : AnalyticAt ℝ (fun z : ℝ × V => z.1 / 2) ((0 : ℝ), s0) := f1.div analyticAt_const (by norm_num)
  have g0 : AnalyticAt ℝ (fun z : ℝ × V => G z.2) ((0 : ℝ), s0) := AnalyticAt.comp (g := G) (f := fun z : ℝ × V => z.2) hG f2
  have a1 : AnalyticAt ℝ (fun z : ℝ × V => z.2 + (z.1 / 2) • G z.2) (0, s0) := f2.add (f3.smul g0)
  have g1 : AnalyticAt ℝ (fun z : ℝ × V => G (z.2 + (z.1 / 2) • G z.2)) ((0 : ℝ), s0) :=
    AnalyticAt.comp (g := G) (f := fun z : ℝ × V => z.2 + (z.1 / 2) • G z.2) (by simpa using hG) a1
  have a2 : AnalyticAt ℝ (fun z : ℝ × V => z.2 + (z.1 / 2) • G (z.2 + (z.1 / 2) • G z.2)) (0, s0) := f2.add (f3.smul g1)
  have g2 : AnalyticAt ℝ (fun z : ℝ × V => G (z.2 + (z.1 / 2) • G (z.2 + (z.1 / 2) • G z.2))) ((0 : ℝ), s0) :=
    AnalyticAt.comp (g := G) (f := fun z : ℝ × V => z.2 + (z.1 / 2) • G (z.2 + (z.1 / 2) • G z.2)) (by simpa using hG) a2
  exact ⟨a1, a2, f2.add (f1.smul g2)⟩

theorem slope_analytic : AnalyticAt ℝ (slope G) (0, s0) := by
  obtain ⟨a1, a2, a3⟩ := stage_analytic hG
  have f2 : AnalyticAt ℝ (fun z : ℝ × V => z.2) ((0 : ℝ), s0) := analyticAt_snd
  have g0 : AnalyticAt ℝ (fun z : ℝ × V => G z.2) ((0 : ℝ), s0) := AnalyticAt.comp (g := G) (f := fun z : ℝ × V => z.2) hG f2
  have g1 : AnalyticAt ℝ (fun z : ℝ × V => G (z.2 + (z.1 / 2) • G z.2)) ((0 : ℝ), s0) :=
    AnalyticAt.comp (g := G) (f := fun z : ℝ × V => z.2 + (z.1 / 2) • G z.2) (by simpa using hG) a1
  have g2 : AnalyticAt ℝ (fun z : ℝ × V => G (z.2 + (z.1 / 2) • G (z.2 + (z.1 / 2) • G z.2))) ((0 : ℝ), s0) :=
    AnalyticAt.comp (g := G) (f := fun z : ℝ × V => z.2 + (z.1 / 2) • G (z.2 + (z.1 / 2) • G z.2)) (by simpa using hG) a2
  have g3 : AnalyticAt ℝ (fun z : ℝ × V => G (z.2 + z.1 • G (z.2 + (z.1 / 2) • G (z.2 + (z.1 / 2) • G z.2)))) ((0 : ℝ), s0) :=
    AnalyticAt.comp (g := G) (f := fun z : ℝ × V => z.2 + z.1 • G (z.2 + (z.1 / 2) • G (z.2 + (z.1 / 2) • G z.2))) (by simpa using hG) a3
  have c2 : AnalyticAt ℝ (fun _ : ℝ × V => (2:ℝ)) ((0 : ℝ), s0) := analyticAt_const
  have c6 : AnalyticAt ℝ (fun _ : ℝ × V => (1 / 6:ℝ)) ((0 : ℝ), s0) := analyticAt_const
  exact c6.smul (((g0.add (c2.smul g1)).add (c2.smul g2)).add g3)

theorem rk4_analytic : AnalyticAt ℝ (fun z : ℝ × V => rk4 G z.1 z.2) (0, s0) := by
  simp only [rk4_slope]
  exact analyticAt_snd.add (analyticAt_fst.smul (slope_analytic hG))

theorem stages_eventually {W : Set V} (hW : W ∈ 𝓝 s0) : ∀ᶠ z : ℝ × V in 𝓝 (0, s0), ∀ r ∈ stages G z.1 z.2, r ∈ W := by
  obtain ⟨a1, a2, a3⟩ := stage_analytic hG
  have c0 : ContinuousAt (fun z : ℝ × V => z.2) ((0 : ℝ), s0) := continuousAt_snd
  have v0 := c0.eventually (p := (· ∈ W)) hW
  have v1 := a1.continuousAt.eventually (p := (· ∈ W)) (by beta_reduce; simpa using hW)
  have v2 := a2.continuousAt.eventually (p := (· ∈ W)) (by beta_reduce; simpa using hW)
  have v3 := a3.continuousAt.eventually (p := (· ∈ W)) (by beta_reduce; simpa using hW)
  filter_upwards [v0, v1, v2, v3] with z w0 w1 w2 w3
  simp only [stages, List.mem_cons, List.not_mem_nil, or_false, forall_eq_or_imp, forall_eq]
  exact ⟨w0, w1, w2, w3⟩

end

/-- the order conditions: the step has the derivatives of the solution up to the fourth -/
theorem order_conditions {G : V → V} {s : V} (hG : AnalyticAt ℝ G s) (k : ℕ) (hk : k < 5) :
    dfst (fun z : ℝ × V => rk4 G z.1 z.2) k (0, s) = lie G k s := by
  obtain ⟨w, hw0, ε, hε, hw⟩ := ContDiffAt.exists_forall_mem_closedBall_exists_eq_forall_mem_Ioo_hasDerivAt₀ hG.contDiffAt 0
  have hode : ∀ᶠ t in 𝓝 (0:ℝ), HasDerivAt w (G (w t)) t := by
    filter_upwards [Ioo_mem_nhds (show (0:ℝ) - ε < 0 by linarith) (show 0 < (0:ℝ) + ε by linarith)] with t ht
    exact hw t ht
  have hcw : ContinuousAt w 0 := hode.self_of_nhds.continuousAt
  have hGe : ∀ᶠ t in 𝓝 (0:ℝ), AnalyticAt ℝ G (w t) := hcw.eventually (p := fun s => AnalyticAt ℝ G s) (by rw [hw0]; exact hG.eventually_analyticAt)
  have hc : ContinuousAt (fun t : ℝ => (t, s)) 0 := by fun_prop
  have hRe : ∀ᶠ t in 𝓝 (0:ℝ), AnalyticAt ℝ (fun z : ℝ × V => rk4 G z.1 z.2) (t, s) :=
    hc.eventually (p := fun z => AnalyticAt ℝ (fun z : ℝ × V => rk4 G z.1 z.2) z) (rk4_analytic hG).eventually_analyticAt
  have := derivs_vanish (φ := fun k t => dfst (fun z : ℝ × V => rk4 G z.1 z.2) k (t, s) - lie G k (w t))
    (fun k _ => by
      filter_upwards [hode, hGe, hRe] with t h1 h2 h3
      exact (dfst_hasDerivAt h3 k).sub (lie_hasDerivAt h2 h1 k))
    (rk4_local_error hG hw0 hode) k hk
  beta_reduce at this
  rw [hw0, sub_eq_zero] at this
  exact this

/-! ### uniformity along a compact piece of trajectory -/

omit [NormedSpace ℝ V] [CompleteSpace V] in
/-- A property that holds near every point of a compact piece of curve, and gets weaker as its parameter decreases, holds with one
parameter along the whole piece. -/
theorem uniform_along {u : ℝ → V} {T : ℝ} (hu : ContinuousOn u (Icc 0 T)) {Q : V → ℝ → Prop}
    (hQ : ∀ s ε ε', 0 < ε' → ε' ≤ ε → Q s ε → Q s ε') (h : ∀ t ∈ Icc 0 T, ∃ ε, 0 < ε ∧ ∀ s, dist s (u t) < ε → Q s ε) :
    ∃ ε, 0 < ε ∧ ∀ t ∈ Icc 0 T, ∀ s, dist s (u t) < ε → Q s ε := by
  refine IsCompact.induction_on (isCompact_Icc (a := (0:ℝ)) (b := T)) (p := fun S => ∃ ε, 0 < ε ∧ ∀ t ∈ S, ∀ s, dist s (u t) < ε → Q s ε) ?_ ?_ ?_ ?_
  · exact ⟨1, one_pos, fun t ht => absurd ht (notMem_empty t)⟩
  · rintro S S' hS ⟨ε, hε, hh⟩
    exact ⟨ε, hε, fun t ht => hh t (hS ht)⟩
  · rintro S S' ⟨ε, hε, hh⟩ ⟨ε', hε', hh'⟩
    refine ⟨min ε ε', lt_min hε hε', fun t ht s hs => ?_⟩
    rcases ht with ht | ht
    · exact hQ s ε _ (lt_min hε hε') (min_le_left _ _) (hh t ht s (hs.trans_le (min_le_left _ _)))
    · exact hQ s ε' _ (lt_min hε hε') (min_le_right _ _) (hh' t ht s (hs.trans_le (min_le_right _ _)))
  · intro t0 ht0
    obtain ⟨ε, hε, hh⟩ := h t0 ht0
    refine ⟨{t | t ∈ Icc 0 T ∧ dist (u t) (u t0) < ε / 2}, ?_, ε / 2, by linarith, fun t ht s hs => ?_⟩
    · have := Metric.continuousWithinAt_iff.mp (hu t0 ht0) (ε / 2) (by linarith)
      obtain ⟨δ, hδ, hd⟩ := this
      rw [Metric.mem_nhdsWithin_iff]
      exact ⟨δ, hδ, fun t ht => ⟨ht.2, hd ht.2 ht.1⟩⟩
    · have : dist s (u t0) < ε := lt_of_le_of_lt (dist_triangle s (u t) (u t0)) (by linarith [ht.2])
      exact hQ s ε _ (by linarith) (by linarith) (hh s this)

/-- what is used of the step at a state -/
structure StepOk (G : V → V) (W : Set V) (s : V) (ε : ℝ) : Prop where
  ana : AnalyticAt ℝ G s
  stg : ∀ τ, 0 ≤ τ → τ < ε → ∀ r ∈ stages G τ s, r ∈ W
  rk : ∀ τ, 0 ≤ τ → τ < ε → AnalyticAt ℝ (fun z : ℝ × V => rk4 G z.1 z.2) (τ, s)
  b5 : ∀ τ, 0 ≤ τ → τ < ε → ‖dfst (fun z : ℝ × V => rk4 G z.1 z.2) 5 (τ, s)‖ ≤ 1 / ε
  l5 : ‖lie G 5 s‖ ≤ 1 / ε
  g0 : ‖G s‖ ≤ 1 / ε
  lip : ∀ s', dist s' s < ε → ∀ τ, 0 ≤ τ → τ < ε → ‖slope G (τ, s') - slope G (τ, s)‖ ≤ 1 / ε * ‖s' - s‖

theorem stepOk_along {G : V → V} {u : ℝ → V} {T : ℝ} (hu : ContinuousOn u (Icc 0 T)) (hG : ∀ t ∈ Icc 0 T, AnalyticAt ℝ G (u t)) {W : Set V}
    (hW : ∀ t ∈ Icc 0 T, W ∈ 𝓝 (u t)) : ∃ ε, 0 < ε ∧ ∀ t ∈ Icc 0 T, ∀ s, dist s (u t) < ε → StepOk G W s ε := by
  refine uniform_along hu (Q := fun s ε => StepOk G W s ε) ?_ ?_
  · intro s ε ε' h0 hle h
    have hi : 1 / ε ≤ 1 / ε' := one_div_le_one_div_of_le h0 hle
    exact ⟨h.ana, fun τ a b => h.stg τ a (b.trans_le hle), fun τ a b => h.rk τ a (b.trans_le hle),
      fun τ a b => (h.b5 τ a (b.trans_le hle)).trans hi, h.l5.trans hi, h.g0.trans hi, fun s' hs' τ a b =>
        (h.lip s' (hs'.trans_le hle) τ a (b.trans_le hle)).trans (mul_le_mul_of_nonneg_right hi (norm_nonneg _))⟩
  · intro t ht
    obtain ⟨s0, hs0⟩ : ∃ s0, s0 = u t := ⟨_, rfl⟩
    have hGt : AnalyticAt ℝ G s0 := by rw [hs0]; exact hG t ht
    have hWt : W ∈ 𝓝 s0 := by rw [hs0]; exact hW t ht
    rw [← hs0]
    have e1 := hGt.eventually_analyticAt
    have e2 := stages_eventually hGt hWt
    have e3 := (rk4_analytic hGt).eventually_analyticAt
    have c4 := (dfst_analytic (rk4_analytic hGt) 5).continuousAt.norm
    have c5 := (lie_analytic hGt 5).continuousAt.norm
    have c6 := hGt.continuousAt.norm
    obtain ⟨B, hB⟩ : ∃ B, B = 1 + ‖dfst (fun z : ℝ × V => rk4 G z.1 z.2) 5 (0, s0)‖ + ‖lie G 5 s0‖ + ‖G s0‖ := ⟨_, rfl⟩
    have n1 := norm_nonneg (dfst (fun z : ℝ × V => rk4 G z.1 z.2) 5 (0, s0))
    have n2 := norm_nonneg (lie G 5 s0)
    have n3 := norm_nonneg (G s0)
    have e4 := c4.eventually (gt_mem_nhds (show ‖dfst (fun z : ℝ × V => rk4 G z.1 z.2) 5 (0, s0)‖ < B by rw [hB]; linarith))
    have e5 := c5.eventually (gt_mem_nhds (show ‖lie G 5 s0‖ < B by rw [hB]; linarith))
    have e6 := c6.eventually (gt_mem_nhds (show ‖G s0‖ < B by rw [hB]; linarith))
    obtain ⟨L, U, hU, hL⟩ := ((slope_analytic hGt).contDiffAt (n := 1)).exists_lipschitzOnWith
    obtain ⟨d1, p1, q1⟩ := Metric.eventually_nhds_iff.mp ((e1.and e5).and e6)
    obtain ⟨d2, p2, q2⟩ := Metric.eventually_nhds_iff.mp ((e2.and e3).and e4)
    obtain ⟨d3, p3, q3⟩ := Metric.mem_nhds_iff.mp hU
    have hB1 : 1 ≤ B := by rw [hB]; linarith
    have hL0 : (0 : ℝ) ≤ L := L.coe_nonneg
    obtain ⟨ε, hε⟩ : ∃ ε, ε = min (min d1 d2) (min (d3 / 2) (1 / (B + L))) := ⟨_, rfl⟩
    have hBL : 0 < B + L := by linarith
    have ε0 : 0 < ε := by rw [hε]; exact lt_min (lt_min p1 p2) (lt_min (by linarith) (by positivity))
    have l1 : ε ≤ d1 := by rw [hε]; exact (min_le_left _ _).trans (min_le_left _ _)
    have l2 : ε ≤ d2 := by rw [hε]; exact (min_le_left _ _).trans (min_le_right _ _)
    have l3 : ε ≤ d3 / 2 := by rw [hε]; exact (min_le_right _ _).trans (min_le_left _ _)
    have l4 : B + L ≤ 1 / ε := by
      have : ε ≤ 1 / (B + L) := by rw [hε]; exact (min_le_right _ _).trans (min_le_right _ _)
      rw [le_div_iff₀ hBL] at this
      rw [le_div_iff₀ ε0]; linarith
    refine ⟨ε, ε0, fun s hs => ?_⟩
    have hz : ∀ τ : ℝ, 0 ≤ τ → τ < ε → ∀ r : V, dist r s0 < ε + ε → dist ((τ, r) : ℝ × V) (0, s0) < ε + ε := by
      intro τ a b r hr
      rw [Prod.dist_eq, max_lt_iff]
      refine ⟨?_, hr⟩
      rw [Real.dist_0_eq_abs, abs_of_nonneg a]; linarith
    have hz' : ∀ τ : ℝ, 0 ≤ τ → τ < ε → dist ((τ, s) : ℝ × V) (0, s0) < d2 := by
      intro τ a b
      rw [Prod.dist_eq, max_lt_iff]
      refine ⟨?_, hs.trans_le l2⟩
      rw [Real.dist_0_eq_abs, abs_of_nonneg a]; linarith
    obtain ⟨⟨r1, r2⟩, r3⟩ := q1 (hs.trans_le l1)
    refine ⟨r1, fun τ a b => (q2 (hz' τ a b)).1.1, fun τ a b => (q2 (hz' τ a b)).1.2, fun τ a b => ?_, ?_, ?_, fun s' hs' τ a b => ?_⟩
    · have := (q2 (hz' τ a b)).2
      linarith
    · linarith
    · linarith
    · have m1 : ((τ, s') : ℝ × V) ∈ U := q3 (lt_of_lt_of_le (hz τ a b s' (lt_of_le_of_lt (dist_triangle _ s _) (by linarith))) (by linarith))
      have m2 : ((τ, s) : ℝ × V) ∈ U := q3 (lt_of_lt_of_le (hz τ a b s (by linarith)) (by linarith))
      have := hL.dist_le_mul _ m1 _ m2
      rw [dist_eq_norm, Prod.dist_eq, dist_self, max_eq_right dist_nonneg, dist_eq_norm] at this
      exact this.trans (mul_le_mul_of_nonneg_right (by linarith) (norm_nonneg _))

/-- the local error, uniformly along the trajectory -/
theorem local_error_uniform {G : V → V} {W : Set V} {u : ℝ → V} {T ε : ℝ} (hε : 0 < ε)
    (hu : ∀ t ∈ Icc 0 T, HasDerivAt u (G (u t)) t) (hok : ∀ t ∈ Icc 0 T, StepOk G W (u t) ε) {t τ : ℝ} (h0 : 0 ≤ τ) (hτ : τ < ε)
    (ht : 0 ≤ t) (htT : t + τ ≤ T) : ‖rk4 G τ (u t) - u (t + τ)‖ ≤ 2 / ε * τ ^ 5 := by
  have hin : ∀ σ ∈ Icc 0 τ, t + σ ∈ Icc 0 T := fun σ hσ => ⟨by linarith [hσ.1], by linarith [hσ.2]⟩
  have ht' : t ∈ Icc 0 T := ⟨ht, by linarith⟩
  have ok := hok t ht'
  refine taylor_five (φ := fun k σ => dfst (fun z : ℝ × V => rk4 G z.1 z.2) k (σ, u t) - lie G k (u (t + σ))) (by positivity) ?_ ?_ ?_ τ ⟨h0, le_rfl⟩
  · intro k hk
    beta_reduce
    rw [order_conditions ok.ana k hk, add_zero, sub_self]
  · intro k _ σ hσ
    have d1 := dfst_hasDerivAt (ok.rk σ hσ.1 (lt_of_le_of_lt hσ.2 hτ)) k
    have d2 := lie_hasDerivAt (hok _ (hin σ hσ)).ana (hu _ (hin σ hσ)) k
    exact (d1.sub (d2.comp_const_add t σ)).hasDerivWithinAt
  · intro σ hσ
    have b1 := ok.b5 σ hσ.1 (lt_of_le_of_lt hσ.2 hτ)
    have b2 := (hok _ (hin σ hσ)).l5
    refine (norm_sub_le _ _).trans ?_
    have : 2 / ε = 1 / ε + 1 / ε := by ring
    linarith

/-- **Global error.**  `N` steps of size `T/N` follow the solution up to `C / N^4`, and the states at which they evaluate the right-hand
side stay in any given neighbourhood of the trajectory. -/
theorem rk4_global {G : V → V} {u : ℝ → V} {T : ℝ} (hT : 0 ≤ T) (hu : ∀ t ∈ Icc 0 T, HasDerivAt u (G (u t)) t)
    (hG : ∀ t ∈ Icc 0 T, AnalyticAt ℝ G (u t)) {W : Set V} (hW : ∀ t ∈ Icc 0 T, W ∈ 𝓝 (u t)) :
    ∃ (C : ℝ) (N₀ : ℕ), 0 < N₀ ∧ ∀ N : ℕ, N₀ ≤ N → ∀ k, k ≤ N → ‖(rk4 G (T / N))^[k] (u 0) - u (k * (T / N))‖ ≤ C / (N : ℝ) ^ 4 ∧
      ∀ r ∈ stages G (T / N) ((rk4 G (T / N))^[k] (u 0)), r ∈ W := by
  have hc : ContinuousOn u (Icc 0 T) := fun t ht => (hu t ht).continuousAt.continuousWithinAt
  obtain ⟨ε, hε, hok⟩ := stepOk_along hc hG hW
  obtain ⟨C, hC⟩ : ∃ C, C = T * (2 / ε) * T ^ 4 * Real.exp (T * (1 / ε)) := ⟨_, rfl⟩
  have C0 : 0 ≤ C := by rw [hC]; positivity
  obtain ⟨N₀, hN₀⟩ := exists_nat_gt (max (T / ε) (C / ε))
  refine ⟨C, N₀ + 1, by omega, fun N hN => ?_⟩
  have hNr : max (T / ε) (C / ε) < (N : ℝ) := hN₀.trans_le (by exact_mod_cast (by omega : N₀ ≤ N))
  have hN1 : (1 : ℝ) ≤ N := by exact_mod_cast (by omega : 1 ≤ N)
  have hNp : (0 : ℝ) < N := by linarith
  obtain ⟨τ, hτ⟩ : ∃ τ, τ = T / (N : ℝ) := ⟨_, rfl⟩
  rw [← hτ]
  have τ0 : 0 ≤ τ := by rw [hτ]; positivity
  have τε : τ < ε := by
    rw [hτ, div_lt_iff₀ hNp]
    have := (div_lt_iff₀ hε).mp ((le_max_left _ _).trans_lt hNr)
    linarith
  have Cε : C / (N : ℝ) ^ 4 < ε := by
    have h1 : C / (N : ℝ) ^ 4 ≤ C / N := div_le_div_of_nonneg_left C0 hNp (le_self_pow₀ hN1 (by norm_num))
    refine h1.trans_lt ?_
    rw [div_lt_iff₀ hNp]
    have := (div_lt_iff₀ hε).mp ((le_max_right _ _).trans_lt hNr)
    linarith
  have hNτ : (N : ℝ) * τ = T := by rw [hτ]; field_simp
  have tin : ∀ k, k ≤ N → (k : ℝ) * τ ∈ Icc 0 T := by
    intro k hk
    have : (k : ℝ) ≤ N := by exact_mod_cast hk
    exact ⟨by positivity, by nlinarith⟩
  -- the bound on the recursion is below `C / N^4`
  have bnd : ∀ k, k ≤ N → (k : ℝ) * (2 / ε * τ ^ 5) * (1 + τ * (1 / ε)) ^ k ≤ C / (N : ℝ) ^ 4 := by
    intro k hk
    have kN : (k : ℝ) ≤ N := by exact_mod_cast hk
    have h1 : (1 + τ * (1 / ε)) ^ k ≤ Real.exp (T * (1 / ε)) := by
      have a1 : 1 + τ * (1 / ε) ≤ Real.exp (τ * (1 / ε)) := by rw [add_comm]; exact Real.add_one_le_exp _
      calc (1 + τ * (1 / ε)) ^ k ≤ Real.exp (τ * (1 / ε)) ^ k := pow_le_pow_left₀ (by positivity) a1 k
        _ = Real.exp (k * (τ * (1 / ε))) := by rw [← Real.exp_nat_mul]
        _ ≤ Real.exp (T * (1 / ε)) := by
          rw [Real.exp_le_exp, ← mul_assoc]
          exact mul_le_mul_of_nonneg_right (tin k hk).2 (by positivity)
    have h2 : (k : ℝ) * (2 / ε * τ ^ 5) ≤ T * (2 / ε) * τ ^ 4 := by
      have := (tin k hk).2
      calc (k : ℝ) * (2 / ε * τ ^ 5) = (k * τ) * (2 / ε * τ ^ 4) := by ring
        _ ≤ T * (2 / ε * τ ^ 4) := mul_le_mul_of_nonneg_right this (by positivity)
        _ = _ := by ring
    calc (k : ℝ) * (2 / ε * τ ^ 5) * (1 + τ * (1 / ε)) ^ k ≤ T * (2 / ε) * τ ^ 4 * Real.exp (T * (1 / ε)) :=
          mul_le_mul h2 h1 (by positivity) (by positivity)
      _ = C / (N : ℝ) ^ 4 := by rw [hC, hτ, div_pow]; ring
  have key : ∀ k, k ≤ N → ‖(rk4 G τ)^[k] (u 0) - u (k * τ)‖ ≤ k * (2 / ε * τ ^ 5) * (1 + τ * (1 / ε)) ^ k := by
    intro k
    induction k with
    | zero => intro _; simp
    | succ k ih =>
      intro hk
      have h1 := ih (by omega)
      have hkN := (h1.trans (bnd k (by omega))).trans_lt Cε
      have tk := tin k (by omega)
      obtain ⟨v, hv⟩ : ∃ v, v = (rk4 G τ)^[k] (u 0) := ⟨_, rfl⟩
      rw [Function.iterate_succ_apply', ← hv]
      rw [← hv] at h1 hkN
      have ok := hok _ tk (u (k * τ)) (by rw [dist_self]; exact hε)
      have l1 := ok.lip v (by rw [dist_eq_norm]; exact hkN) τ τ0 τε
      have tk1 := tin (k + 1) hk
      have etk : ((k + 1 : ℕ) : ℝ) * τ = k * τ + τ := by push_cast; ring
      have l2 := local_error_uniform (W := W) hε hu (fun t ht => hok t ht (u t) (by rw [dist_self]; exact hε)) τ0 τε tk.1 (by rw [← etk]; exact tk1.2)
      rw [etk]
      have l3 : ‖rk4 G τ v - rk4 G τ (u (k * τ))‖ ≤ (1 + τ * (1 / ε)) * ‖v - u (k * τ)‖ := by
        rw [rk4_slope, rk4_slope]
        have : v + τ • slope G (τ, v) - (u (k * τ) + τ • slope G (τ, u (k * τ))) = (v - u (k * τ)) + τ • (slope G (τ, v) - slope G (τ, u (k * τ))) := by
          rw [smul_sub]; abel
        rw [this]
        refine (norm_add_le _ _).trans ?_
        rw [norm_smul, Real.norm_eq_abs, abs_of_nonneg τ0]
        have := mul_le_mul_of_nonneg_left l1 τ0
        linarith
      have l4 : ‖rk4 G τ v - u (k * τ + τ)‖ ≤ ‖rk4 G τ v - rk4 G τ (u (k * τ))‖ + ‖rk4 G τ (u (k * τ)) - u (k * τ + τ)‖ := norm_sub_le_norm_sub_add_norm_sub _ _ _
      have a0 : 0 ≤ τ * (1 / ε) := by positivity
      have b0 : 0 ≤ 2 / ε * τ ^ 5 := by positivity
      have h3 : (1:ℝ) ≤ (1 + τ * (1 / ε)) ^ (k + 1) := one_le_pow₀ (by linarith)
      have h4 := mul_le_mul_of_nonneg_left h1 (show 0 ≤ 1 + τ * (1 / ε) by linarith)
      have h5 : 2 / ε * τ ^ 5 ≤ 2 / ε * τ ^ 5 * (1 + τ * (1 / ε)) ^ (k + 1) := le_mul_of_one_le_right b0 h3
      push_cast
      calc ‖rk4 G τ v - u (k * τ + τ)‖ ≤ (1 + τ * (1 / ε)) * (k * (2 / ε * τ ^ 5) * (1 + τ * (1 / ε)) ^ k) + 2 / ε * τ ^ 5 * (1 + τ * (1 / ε)) ^ (k + 1) := by linarith
        _ = (k + 1) * (2 / ε * τ ^ 5) * (1 + τ * (1 / ε)) ^ (k + 1) := by ring
  intro k hk
  have h1 := (key k hk).trans (bnd k hk)
  refine ⟨h1, ?_⟩
  have ok := hok _ (tin k hk) _ (by rw [dist_eq_norm]; exact h1.trans_lt Cε)
  exact ok.stg τ τ0 τε

end SFK
