import Verif.Lemmas.RKGlobal
import Mathlib.Analysis.SpecificLimits.Normed
/-
Runge-Kutta steps with a damping operator applied once per step, for step sizes tending to zero.
-/
namespace SFK
open Filter Topology Set

variable {V : Type*} [NormedAddCommGroup V] [NormedSpace ℝ V] [CompleteSpace V]

/-- what is used of the step at a state -/
structure RelOk (G : V → V) (W : Set V) (s : V) (ε : ℝ) : Prop where
  stg : ∀ τ, 0 ≤ τ → τ < ε → ∀ r ∈ stages G τ s, r ∈ W
  bd : ∀ τ, 0 ≤ τ → τ < ε → ‖slope G (τ, s)‖ ≤ 1 / ε
  lip : ∀ s', dist s' s < ε → ∀ τ, 0 ≤ τ → τ < ε → ‖slope G (τ, s') - G s‖ ≤ 1 / ε * (‖s' - s‖ + τ)

omit [CompleteSpace V] in
theorem RelOk.weaken {G : V → V} {W : Set V} {s : V} {ε ε' : ℝ} (h0 : 0 < ε') (hle : ε' ≤ ε) (h : RelOk G W s ε) : RelOk G W s ε' := by
  have hi : 1 / ε ≤ 1 / ε' := one_div_le_one_div_of_le h0 hle
  exact ⟨fun τ a b => h.stg τ a (b.trans_le hle), fun τ a b => (h.bd τ a (b.trans_le hle)).trans hi, fun s' hs' τ a b =>
    (h.lip s' (hs'.trans_le hle) τ a (b.trans_le hle)).trans (mul_le_mul_of_nonneg_right hi (add_nonneg (norm_nonneg _) a))⟩

omit [CompleteSpace V] in
theorem slope_zero (G : V → V) (s : V) : slope G (0, s) = G s := by
  unfold slope
  simp only [zero_div, zero_smul, add_zero]
  module

theorem relOk_near {G : V → V} {W : Set V} {s0 : V} (hGt : AnalyticAt ℝ G s0) (hWt : W ∈ 𝓝 s0) :
    ∃ ε, 0 < ε ∧ ∀ s, dist s s0 < ε → RelOk G W s ε := by
  have e2 := stages_eventually hGt hWt
  have c4 := (slope_analytic hGt).continuousAt.norm
  obtain ⟨B, hB⟩ : ∃ B, B = 1 + ‖slope G (0, s0)‖ := ⟨_, rfl⟩
  have n1 := norm_nonneg (slope G (0, s0))
  have e4 := c4.eventually (gt_mem_nhds (show ‖slope G (0, s0)‖ < B by rw [hB]; linarith))
  obtain ⟨L, U, hU, hL⟩ := ((slope_analytic hGt).contDiffAt (n := 1)).exists_lipschitzOnWith
  obtain ⟨d2, p2, q2⟩ := Metric.eventually_nhds_iff.mp (e2.and e4)
  obtain ⟨d3, p3, q3⟩ := Metric.mem_nhds_iff.mp hU
  have hL0 : (0 : ℝ) ≤ L := L.coe_nonneg
  obtain ⟨ε, hε⟩ : ∃ ε, ε = min d2 (min (d3 / 2) (1 / (B + L))) := ⟨_, rfl⟩
  have hBL : 0 < B + L := by linarith
  have ε0 : 0 < ε := by rw [hε]; exact lt_min p2 (lt_min (by linarith) (by positivity))
  have l2 : ε ≤ d2 := by rw [hε]; exact min_le_left _ _
  have l3 : ε ≤ d3 / 2 := by rw [hε]; exact (min_le_right _ _).trans (min_le_left _ _)
  have l4 : B + L ≤ 1 / ε := by
    have : ε ≤ 1 / (B + L) := by rw [hε]; exact (min_le_right _ _).trans (min_le_right _ _)
    rw [le_div_iff₀ hBL] at this
    rw [le_div_iff₀ ε0]; linarith
  refine ⟨ε, ε0, fun s hs => ?_⟩
  have hz : ∀ τ : ℝ, 0 ≤ τ → τ < ε → ∀ r : V, dist r s0 < ε + ε → dist ((τ, r) : ℝ × V) (0, s0) < ε + ε := by
    intro τ a b r hr
    rw [Prod.dist_eq, max_lt_iff]
    refine ⟨?_, hr⟩
    rw [Real.dist_0_eq_abs, abs_of_nonneg a]; linarith
  have hz' : ∀ τ : ℝ, 0 ≤ τ → τ < ε → dist ((τ, s) : ℝ × V) (0, s0) < d2 := by
    intro τ a b
    rw [Prod.dist_eq, max_lt_iff]
    refine ⟨?_, hs.trans_le l2⟩
    rw [Real.dist_0_eq_abs, abs_of_nonneg a]; linarith
  refine ⟨fun τ a b => (q2 (hz' τ a b)).1, fun τ a b => ?_, fun s' hs' τ a b => ?_⟩
  · have := (q2 (hz' τ a b)).2
    linarith
  · have m1 : ((τ, s') : ℝ × V) ∈ U := q3 (lt_of_lt_of_le (hz τ a b s' (lt_of_le_of_lt (dist_triangle _ s _) (by linarith))) (by linarith))
    have m2 : ((0, s) : ℝ × V) ∈ U := q3 (lt_of_lt_of_le (hz 0 le_rfl ε0 s (by linarith)) (by linarith))
    have := hL.dist_le_mul _ m1 _ m2
    rw [dist_eq_norm, Prod.dist_eq, slope_zero, Real.dist_0_eq_abs, abs_of_nonneg a, dist_eq_norm] at this
    have hmax : max τ ‖s' - s‖ ≤ ‖s' - s‖ + τ := max_le (by linarith [norm_nonneg (s' - s)]) (by linarith)
    have h1 := mul_le_mul_of_nonneg_left hmax hL0
    have h2 : (L : ℝ) * (‖s' - s‖ + τ) ≤ 1 / ε * (‖s' - s‖ + τ) := mul_le_mul_of_nonneg_right (by linarith) (by positivity)
    linarith

theorem relOk_along {G : V → V} {u : ℝ → V} {T : ℝ} (hu : ContinuousOn u (Icc 0 T)) (hG : ∀ t ∈ Icc 0 T, AnalyticAt ℝ G (u t)) {W : Set V}
    (hW : ∀ t ∈ Icc 0 T, W ∈ 𝓝 (u t)) : ∃ ε, 0 < ε ∧ ∀ t ∈ Icc 0 T, ∀ s, dist s (u t) < ε → RelOk G W s ε :=
  uniform_along hu (Q := fun s ε => RelOk G W s ε) (fun _ _ _ h0 hle h => h.weaken h0 hle) fun t ht => relOk_near (hG t ht) (hW t ht)

/-- along a convergent sequence -/
theorem relOk_seq {G : V → V} {W : Set V} {a : ℕ → V} {b : V} {ε₁ : ℝ} (h1 : 0 < ε₁) (hb : ∀ s, dist s b < ε₁ → RelOk G W s ε₁)
    (ha : Tendsto a atTop (𝓝 b)) (hG : ∀ j, AnalyticAt ℝ G (a j)) (hW : ∀ j, W ∈ 𝓝 (a j)) :
    ∃ ε, 0 < ε ∧ ε ≤ ε₁ ∧ ∀ j s, dist s (a j) < ε → RelOk G W s ε := by
  obtain ⟨J, hJ⟩ := Metric.tendsto_atTop.mp ha (ε₁ / 2) (by linarith)
  have fin : ∀ n : ℕ, ∃ ε, 0 < ε ∧ ε ≤ ε₁ / 2 ∧ ∀ j, j < n → ∀ s, dist s (a j) < ε → RelOk G W s ε := by
    intro n
    induction n with
    | zero => exact ⟨ε₁ / 2, by linarith, le_rfl, fun j hj => absurd hj (by omega)⟩
    | succ n ih =>
      obtain ⟨ε, a1, a2, a3⟩ := ih
      obtain ⟨δ, b1, b2⟩ := relOk_near (hG n) (hW n)
      refine ⟨min ε δ, lt_min a1 b1, (min_le_left _ _).trans a2, fun j hj s hs => ?_⟩
      rcases Nat.lt_succ_iff_lt_or_eq.mp hj with hj | rfl
      · exact (a3 j hj s (hs.trans_le (min_le_left _ _))).weaken (lt_min a1 b1) (min_le_left _ _)
      · exact (b2 s (hs.trans_le (min_le_right _ _))).weaken (lt_min a1 b1) (min_le_right _ _)
  obtain ⟨ε, a1, a2, a3⟩ := fin J
  refine ⟨ε, a1, by linarith, fun j s hs => ?_⟩
  by_cases hj : j < J
  · exact a3 j hj s hs
  · have := hJ j (by omega)
    exact (hb s (lt_of_le_of_lt (dist_triangle s (a j) b) (by linarith))).weaken a1 (by linarith)

/-- discrete Gronwall inequality with a decaying source -/
theorem gronwall_layer {v : ℕ → ℝ} {τ L C r : ℝ} {N : ℕ} (hτ : 0 ≤ τ) (hL : 0 ≤ L) (hC : 0 ≤ C) (r0 : 0 < r) (r1 : r < 1) (h0 : v 0 ≤ 0)
    (hs : ∀ k, k < N → v (k + 1) ≤ (1 + τ * L) * v k + τ * C * (r ^ k + τ)) :
    ∀ k, k ≤ N → v k ≤ Real.exp (N * τ * L) * (τ * C * (1 / (1 - r) + N * τ)) := by
  have hr : 0 < 1 - r := by linarith
  have key : ∀ k, k ≤ N → v k ≤ (1 + τ * L) ^ k * (τ * C * (∑ j ∈ Finset.range k, r ^ j + k * τ)) := by
    intro k
    induction k with
    | zero => intro _; simpa using h0
    | succ k ih =>
      intro hk
      have h1 := ih (by omega)
      have h2 := hs k (by omega)
      have h3 : 0 ≤ τ * L := by positivity
      have h4 : (1:ℝ) ≤ (1 + τ * L) ^ (k + 1) := one_le_pow₀ (by linarith)
      have h5 : 0 ≤ τ * C * (r ^ k + τ) := by positivity
      have h6 : τ * C * (r ^ k + τ) ≤ (1 + τ * L) ^ (k + 1) * (τ * C * (r ^ k + τ)) := le_mul_of_one_le_left h5 h4
      have h7 := mul_le_mul_of_nonneg_left h1 (show 0 ≤ 1 + τ * L by linarith)
      rw [Finset.sum_range_succ]
      push_cast
      calc v (k + 1) ≤ (1 + τ * L) * ((1 + τ * L) ^ k * (τ * C * (∑ j ∈ Finset.range k, r ^ j + k * τ))) + (1 + τ * L) ^ (k + 1) * (τ * C * (r ^ k + τ)) := by
            linarith
        _ = _ := by ring
  intro k hk
  refine (key k hk).trans ?_
  have kN : (k : ℝ) ≤ N := by exact_mod_cast hk
  have g1 : ∑ j ∈ Finset.range k, r ^ j ≤ 1 / (1 - r) := by
    rw [geom_sum_eq r1.ne, ← neg_div_neg_eq, neg_sub, neg_sub]; exact div_le_div_of_nonneg_right (by linarith [pow_nonneg r0.le k]) hr.le
  have g2 : (1 + τ * L) ^ k ≤ Real.exp (N * τ * L) := by
    have a1 : 1 + τ * L ≤ Real.exp (τ * L) := by rw [add_comm]; exact Real.add_one_le_exp _
    calc (1 + τ * L) ^ k ≤ Real.exp (τ * L) ^ k := pow_le_pow_left₀ (by positivity) a1 k
      _ = Real.exp (k * (τ * L)) := by rw [← Real.exp_nat_mul]
      _ ≤ Real.exp (N * τ * L) := by
        rw [Real.exp_le_exp, mul_assoc]
        exact mul_le_mul_of_nonneg_right kN (by positivity)
  have g3 : (k : ℝ) * τ ≤ N * τ := mul_le_mul_of_nonneg_right kN hτ
  have g4 : 0 ≤ ∑ j ∈ Finset.range k, r ^ j := Finset.sum_nonneg fun j _ => by positivity
  exact mul_le_mul g2 (mul_le_mul_of_nonneg_left (by linarith) (by positivity)) (by positivity) (Real.exp_pos _).le


/-! ### the damped steps -/

section
variable {G : V → V} {W : Set V} {D Q : V →L[ℝ] V} {y : V} {u : ℝ → V} {T M r ε τ : ℝ} {N J₀ : ℕ}

/-- the state after the operator has been applied for the `k`-th time -/
noncomputable def zseq (G : V → V) (D : V →L[ℝ] V) (y : V) (τ : ℝ) : ℕ → V
  | 0 => D y
  | k + 1 => D (rk4 G τ (zseq G D y τ k))

/-- its part the operator leaves alone -/
noncomputable def aseq (G : V → V) (D Q : V →L[ℝ] V) (y : V) (τ : ℝ) : ℕ → V
  | 0 => Q y
  | k + 1 => aseq G D Q y τ k + τ • Q (slope G (τ, zseq G D y τ k))

omit [CompleteSpace V] in
theorem zseq_unroll (G : V → V) (D : V →L[ℝ] V) (y : V) (τ : ℝ) (k : ℕ) : zseq G D y τ k =
    (D ^ (k + 1)) y + τ • ∑ j ∈ Finset.range k, (D ^ (k - j)) (slope G (τ, zseq G D y τ j)) := by
  induction k with
  | zero => simp [zseq]
  | succ k ih =>
    rw [zseq, rk4_slope, map_add, map_smul]
    conv_lhs => rw [ih]
    rw [map_add, map_smul, map_sum, Finset.sum_range_succ, show k + 1 - k = 1 by omega, pow_one, add_assoc, smul_add]
    congr 1
    · rw [← ContinuousLinearMap.mul_apply, ← pow_succ']
    · rw [← ih]
      congr 2
      refine Finset.sum_congr rfl fun j hj => ?_
      rw [← ContinuousLinearMap.mul_apply, ← pow_succ', show k - j + 1 = k + 1 - j by have := Finset.mem_range.mp hj; omega]

omit [CompleteSpace V] in
theorem aseq_unroll (G : V → V) (D Q : V →L[ℝ] V) (y : V) (τ : ℝ) (k : ℕ) : aseq G D Q y τ k =
    Q y + τ • ∑ j ∈ Finset.range k, Q (slope G (τ, zseq G D y τ j)) := by
  induction k with
  | zero => simp [aseq]
  | succ k ih => rw [aseq, ih, Finset.sum_range_succ, smul_add, add_assoc]

theorem geom_rev {r : ℝ} (r0 : 0 < r) (r1 : r < 1) (k : ℕ) : ∑ j ∈ Finset.range k, r ^ (k - j) ≤ 1 / (1 - r) := by
  induction k with
  | zero => simp; linarith
  | succ k ih =>
    rw [Finset.sum_range_succ, show k + 1 - k = 1 by omega, pow_one]
    have e : ∑ j ∈ Finset.range k, r ^ (k + 1 - j) = r * ∑ j ∈ Finset.range k, r ^ (k - j) := by
      rw [Finset.mul_sum]
      refine Finset.sum_congr rfl fun j hj => ?_
      rw [← pow_succ', show k - j + 1 = k + 1 - j by have := Finset.mem_range.mp hj; omega]
    rw [e]
    have h1 : 0 < 1 - r := by linarith
    have h2 := mul_le_mul_of_nonneg_left ih r0.le
    have h3 : r * (1 / (1 - r)) + r ≤ 1 / (1 - r) := by
      rw [le_div_iff₀ h1]
      have : (r * (1 / (1 - r)) + r) * (1 - r) = r + r * (1 - r) := by field_simp
      rw [this]
      nlinarith [sq_nonneg (1 - r)]
    linarith

omit [CompleteSpace V] in
theorem z_sub_a (r0 : 0 < r) (r1 : r < 1) (hM : 0 ≤ M) (hD : ∀ k, ‖D ^ k - Q‖ ≤ M * r ^ k) {B : ℝ} (hB : 0 ≤ B) (hτ : 0 ≤ τ) {k : ℕ}
    (hs : ∀ j, j < k → ‖slope G (τ, zseq G D y τ j)‖ ≤ B) :
    ‖zseq G D y τ k - aseq G D Q y τ k‖ ≤ M * ‖y‖ * r ^ k + τ * (M * B * (1 / (1 - r))) := by
  rw [zseq_unroll, aseq_unroll, add_sub_add_comm, ← smul_sub, ← Finset.sum_sub_distrib]
  refine (norm_add_le _ _).trans (add_le_add ?_ ?_)
  · rw [← _root_.sub_apply]
    refine (ContinuousLinearMap.le_opNorm _ _).trans ?_
    have h1 := hD (k + 1)
    have h2 : M * r ^ (k + 1) ≤ M * r ^ k := mul_le_mul_of_nonneg_left (pow_le_pow_of_le_one r0.le r1.le (by omega)) hM
    calc ‖D ^ (k + 1) - Q‖ * ‖y‖ ≤ M * r ^ k * ‖y‖ := mul_le_mul_of_nonneg_right (h1.trans h2) (norm_nonneg _)
      _ = _ := by ring
  · rw [norm_smul, Real.norm_eq_abs, abs_of_nonneg hτ]
    refine mul_le_mul_of_nonneg_left ?_ hτ
    refine (norm_sum_le _ _).trans ?_
    calc ∑ j ∈ Finset.range k, ‖(D ^ (k - j)) (slope G (τ, zseq G D y τ j)) - Q (slope G (τ, zseq G D y τ j))‖
        ≤ ∑ j ∈ Finset.range k, M * r ^ (k - j) * B := Finset.sum_le_sum fun j hj => by
          rw [← _root_.sub_apply]
          exact (ContinuousLinearMap.le_opNorm _ _).trans (mul_le_mul (hD _) (hs j (Finset.mem_range.mp hj)) (norm_nonneg _) (by positivity))
      _ = M * B * ∑ j ∈ Finset.range k, r ^ (k - j) := by
          rw [Finset.mul_sum]
          exact Finset.sum_congr rfl fun j _ => by ring
      _ ≤ _ := mul_le_mul_of_nonneg_left (geom_rev r0 r1 k) (by positivity)

omit [CompleteSpace V] in
theorem z_near_start (r0 : 0 < r) (r1 : r < 1) (hM : 0 ≤ M) (hD : ∀ k, ‖D ^ k - Q‖ ≤ M * r ^ k) {B : ℝ} (hτ : 0 ≤ τ) {k : ℕ}
    (hs : ∀ j, j < k → ‖slope G (τ, zseq G D y τ j)‖ ≤ B) : ‖zseq G D y τ k - (D ^ (k + 1)) y‖ ≤ τ * (k * ((M + ‖Q‖) * B)) := by
  rw [zseq_unroll, add_sub_cancel_left, norm_smul, Real.norm_eq_abs, abs_of_nonneg hτ]
  refine mul_le_mul_of_nonneg_left ?_ hτ
  refine (norm_sum_le _ _).trans ?_
  have hp : ∀ k, ‖D ^ k‖ ≤ M + ‖Q‖ := by
    intro k
    have h1 : D ^ k = (D ^ k - Q) + Q := by rw [sub_add_cancel]
    rw [h1]
    refine (norm_add_le _ _).trans (add_le_add_left ((hD k).trans ?_) _)
    exact mul_le_of_le_one_right hM (pow_le_one₀ r0.le r1.le)
  calc ∑ j ∈ Finset.range k, ‖(D ^ (k - j)) (slope G (τ, zseq G D y τ j))‖ ≤ ∑ j ∈ Finset.range k, (M + ‖Q‖) * B :=
        Finset.sum_le_sum fun j hj => (ContinuousLinearMap.le_opNorm _ _).trans
          (mul_le_mul (hp _) (hs j (Finset.mem_range.mp hj)) (norm_nonneg _) (by positivity))
    _ = _ := by rw [Finset.sum_const, Finset.card_range, nsmul_eq_mul]

omit [CompleteSpace V] in
/-- one Euler step of the limit equation -/
theorem euler_defect (hε : 0 < ε) (hok : ∀ t ∈ Icc 0 T, ∀ s, dist s (u t) < ε → RelOk G W s ε)
    (hu : ∀ t ∈ Icc 0 T, HasDerivAt u (Q (G (u t))) t) {t : ℝ} (ht : 0 ≤ t) (hτ : 0 ≤ τ) (htT : t + τ ≤ T) (hsm : ‖Q‖ * (1 / ε) * τ < ε) :
    ‖u (t + τ) - u t‖ ≤ ‖Q‖ * (1 / ε) * τ ∧ ‖u (t + τ) - u t - τ • Q (G (u t))‖ ≤ ‖Q‖ * (1 / ε) * (‖Q‖ * (1 / ε)) * τ ^ 2 := by
  have hin : ∀ σ ∈ Icc t (t + τ), σ ∈ Icc 0 T := fun σ hσ => ⟨by linarith [hσ.1], by linarith [hσ.2]⟩
  have hself : ∀ σ ∈ Icc t (t + τ), RelOk G W (u σ) ε := fun σ hσ => hok σ (hin σ hσ) _ (by rw [dist_self]; exact hε)
  have hbd : ∀ σ ∈ Icc t (t + τ), ‖Q (G (u σ))‖ ≤ ‖Q‖ * (1 / ε) := by
    intro σ hσ
    have := (hself σ hσ).bd 0 le_rfl hε
    rw [slope_zero] at this
    exact (Q.le_opNorm _).trans (mul_le_mul_of_nonneg_left this (norm_nonneg _))
  have hP : 0 ≤ ‖Q‖ * (1 / ε) := by positivity
  have mv : ∀ σ ∈ Icc t (t + τ), ‖u σ - u t‖ ≤ ‖Q‖ * (1 / ε) * τ := by
    intro σ hσ
    have := Convex.norm_image_sub_le_of_norm_hasDerivWithin_le (f := u) (f' := fun σ => Q (G (u σ))) (s := Icc t (t + τ)) (x := t) (y := σ)
      (fun s hs => (hu s (hin s hs)).hasDerivWithinAt) hbd (convex_Icc _ _) ⟨le_rfl, by linarith⟩ hσ
    rw [Real.norm_eq_abs, abs_of_nonneg (by linarith [hσ.1])] at this
    exact this.trans (mul_le_mul_of_nonneg_left (by linarith [hσ.2]) hP)
  have hl : t ∈ Icc t (t + τ) := ⟨le_rfl, by linarith⟩
  refine ⟨mv _ ⟨by linarith, le_rfl⟩, ?_⟩
  have := Convex.norm_image_sub_le_of_norm_hasDerivWithin_le (f := fun σ => u σ - (σ - t) • Q (G (u t)))
    (f' := fun σ => Q (G (u σ)) - (1 : ℝ) • Q (G (u t))) (s := Icc t (t + τ)) (x := t) (y := t + τ) (C := ‖Q‖ * (1 / ε) * (‖Q‖ * (1 / ε)) * τ)
    (fun s hs => ((hu s (hin s hs)).sub (((hasDerivAt_id s).sub_const t).smul_const (Q (G (u t))))).hasDerivWithinAt)
    (fun s hs => by
      rw [one_smul, ← map_sub]
      refine (Q.le_opNorm _).trans ?_
      have d := mv s hs
      have := (hself t hl).lip (u s) (by rw [dist_eq_norm]; exact d.trans_lt hsm) 0 le_rfl hε
      rw [slope_zero, add_zero] at this
      have h3 : ‖G (u s) - G (u t)‖ ≤ 1 / ε * (‖Q‖ * (1 / ε) * τ) := this.trans (mul_le_mul_of_nonneg_left d (by positivity))
      calc ‖Q‖ * ‖G (u s) - G (u t)‖ ≤ ‖Q‖ * (1 / ε * (‖Q‖ * (1 / ε) * τ)) := mul_le_mul_of_nonneg_left h3 (norm_nonneg _)
        _ = _ := by ring)
    (convex_Icc _ _) hl ⟨by linarith, le_rfl⟩
  rw [sub_self, zero_smul, sub_zero, add_sub_cancel_left, Real.norm_eq_abs, abs_of_nonneg hτ, sub_right_comm] at this
  refine this.trans_eq (by ring)

omit [CompleteSpace V] in
/-- the steps stay near the limit solution, except for a layer of finitely many steps at the beginning -/
theorem relaxed_core (r0 : 0 < r) (r1 : r < 1) (hM : 0 ≤ M) (hD : ∀ k, ‖D ^ k - Q‖ ≤ M * r ^ k) (hε : 0 < ε) (hT : 0 ≤ T)
    (hok : ∀ t ∈ Icc 0 T, ∀ s, dist s (u t) < ε → RelOk G W s ε) (hseq : ∀ (j : ℕ) (s : V), dist s ((D ^ (j + 1)) y) < ε → RelOk G W s ε)
    (hu : ∀ t ∈ Icc 0 T, HasDerivAt u (Q (G (u t))) t) (hu0 : Q y = u 0) {B L Ce C K : ℝ} (hB : B = 1 / ε) (hL : L = ‖Q‖ * B)
    (hCe : Ce = M * B * (1 / (1 - r))) (hC : C = L * (M * ‖y‖ + Ce + 1) + 2 * L / r ^ J₀ + L * L)
    (hK : K = Real.exp (T * L) * (C * (1 / (1 - r) + T))) (hτ : 0 ≤ τ) (hNτ : (N : ℝ) * τ = T) (hJ : M * ‖y‖ * r ^ J₀ ≤ ε / 2) (t1 : τ < ε)
    (t2 : L * τ < ε) (t3 : τ * (J₀ * ((M + ‖Q‖) * B)) < ε) (t4 : τ * (Ce + K) < ε / 2) :
    ∀ k, k ≤ N → RelOk G W (zseq G D y τ k) ε ∧ ‖zseq G D y τ k - aseq G D Q y τ k‖ ≤ M * ‖y‖ * r ^ k + τ * Ce ∧
      ‖aseq G D Q y τ k - u (k * τ)‖ ≤ τ * K := by
  have B0 : 0 ≤ B := by rw [hB]; positivity
  have L0 : 0 ≤ L := by rw [hL]; positivity
  have r10 : 0 < 1 - r := by linarith
  have Ce0 : 0 ≤ Ce := by rw [hCe]; positivity
  have C0 : 0 ≤ C := by rw [hC]; positivity
  have K0 : 0 ≤ K := by rw [hK]; positivity
  have tin : ∀ k, k ≤ N → (k : ℝ) * τ ∈ Icc 0 T := by
    intro k hk
    have : (k : ℝ) ≤ N := by exact_mod_cast hk
    exact ⟨by positivity, by rw [← hNτ]; exact mul_le_mul_of_nonneg_right this hτ⟩
  obtain ⟨z, hz⟩ : ∃ z, z = zseq G D y τ := ⟨_, rfl⟩
  obtain ⟨a, ha⟩ : ∃ a, a = aseq G D Q y τ := ⟨_, rfl⟩
  have a_succ : ∀ k, a (k + 1) = a k + τ • Q (slope G (τ, z k)) := by intro k; rw [ha, hz, aseq]
  have a_zero : a 0 = u 0 := by rw [ha, aseq, hu0]
  obtain ⟨v, hv⟩ : ∃ v : ℕ → ℝ, v = fun k => ‖a k - u (k * τ)‖ := ⟨_, rfl⟩
  have v_ap : ∀ k, v k = ‖a k - u (k * τ)‖ := fun k => by rw [hv]
  have v0 : v 0 ≤ 0 := by rw [v_ap, a_zero]; simp
  -- consequences of the induction hypothesis
  have cons : ∀ k, k ≤ N → (∀ j, j < k → RelOk G W (z j) ε ∧ v (j + 1) ≤ (1 + τ * L) * v j + τ * C * (r ^ j + τ)) →
      ‖z k - a k‖ ≤ M * ‖y‖ * r ^ k + τ * Ce ∧ v k ≤ τ * K := by
    intro k hk ih
    have hs : ∀ j, j < k → ‖slope G (τ, zseq G D y τ j)‖ ≤ B := fun j hj => by
      rw [hB, ← hz]; exact (ih j hj).1.bd τ hτ t1
    refine ⟨?_, ?_⟩
    · rw [hz, ha, hCe]
      exact z_sub_a r0 r1 hM hD B0 hτ hs
    · have := gronwall_layer hτ L0 C0 r0 r1 v0 (fun j hj => (ih j hj).2) k le_rfl
      refine this.trans ?_
      have h1 := (tin k hk).2
      have h2 : Real.exp (k * τ * L) ≤ Real.exp (T * L) := Real.exp_le_exp.mpr (mul_le_mul_of_nonneg_right h1 L0)
      have h3 : C * (1 / (1 - r) + k * τ) ≤ C * (1 / (1 - r) + T) := mul_le_mul_of_nonneg_left (by linarith) C0
      calc Real.exp (k * τ * L) * (τ * C * (1 / (1 - r) + k * τ)) = τ * (Real.exp (k * τ * L) * (C * (1 / (1 - r) + k * τ))) := by ring
        _ ≤ τ * K := mul_le_mul_of_nonneg_left (by
            rw [hK]
            exact mul_le_mul h2 h3 (by have := (tin k hk).1; positivity) (Real.exp_pos _).le) hτ
  have near : ∀ k, J₀ ≤ k → ‖z k - a k‖ ≤ M * ‖y‖ * r ^ k + τ * Ce → v k ≤ τ * K → dist (z k) (u (k * τ)) < ε := by
    intro k hk h1 h2
    rw [dist_eq_norm, show z k - u (k * τ) = (z k - a k) + (a k - u (k * τ)) by abel]
    refine (norm_add_le _ _).trans_lt ?_
    rw [← v_ap]
    have : M * ‖y‖ * r ^ k ≤ M * ‖y‖ * r ^ J₀ := mul_le_mul_of_nonneg_left (pow_le_pow_of_le_one r0.le r1.le hk) (by positivity)
    have : τ * (Ce + K) = τ * Ce + τ * K := by ring
    linarith
  have step : ∀ k, k ≤ N → RelOk G W (z k) ε ∧ (k < N → v (k + 1) ≤ (1 + τ * L) * v k + τ * C * (r ^ k + τ)) := by
    intro k
    induction k using Nat.strong_induction_on with
    | _ k IH =>
      intro hk
      have ih : ∀ j, j < k → RelOk G W (z j) ε ∧ v (j + 1) ≤ (1 + τ * L) * v j + τ * C * (r ^ j + τ) := fun j hj =>
        ⟨(IH j hj (by omega)).1, (IH j hj (by omega)).2 (by omega)⟩
      obtain ⟨c1, c2⟩ := cons k hk ih
      have good : RelOk G W (z k) ε := by
        by_cases hkJ : J₀ ≤ k
        · exact hok _ (tin k hk) _ (near k hkJ c1 c2)
        · refine hseq k _ ?_
          have hs : ∀ j, j < k → ‖slope G (τ, zseq G D y τ j)‖ ≤ B := fun j hj => by
            rw [hB, ← hz]; exact (ih j hj).1.bd τ hτ t1
          rw [dist_eq_norm, hz]
          refine (z_near_start r0 r1 hM hD hτ hs).trans_lt (lt_of_le_of_lt ?_ t3)
          have : (k : ℝ) ≤ J₀ := by exact_mod_cast (by omega : k ≤ J₀)
          exact mul_le_mul_of_nonneg_left (mul_le_mul_of_nonneg_right this (by positivity)) hτ
      refine ⟨good, fun hkN => ?_⟩
      have hb : ‖slope G (τ, z k)‖ ≤ B := by rw [hB]; exact good.bd τ hτ t1
      have okt : RelOk G W (u (k * τ)) ε := hok _ (tin k hk) _ (by rw [dist_self]; exact hε)
      have hbG : ‖G (u (k * τ))‖ ≤ B := by
        have := okt.bd 0 le_rfl hε
        rwa [slope_zero, ← hB] at this
      have hrk : 0 < r ^ k := by positivity
      have hrJ : 0 < r ^ J₀ := by positivity
      -- the difference of the slopes
      have sl : ‖Q‖ * ‖slope G (τ, z k) - G (u (k * τ))‖ ≤ L * v k + (L * (M * ‖y‖ + Ce + 1) + 2 * L / r ^ J₀) * (r ^ k + τ) := by
        have hv0 : 0 ≤ v k := by rw [v_ap]; exact norm_nonneg _
        by_cases hkJ : J₀ ≤ k
        · have := okt.lip (z k) (near k hkJ c1 c2) τ hτ t1
          rw [← hB] at this
          have tri : ‖z k - u (k * τ)‖ ≤ M * ‖y‖ * r ^ k + τ * Ce + v k := by
            rw [show z k - u (k * τ) = (z k - a k) + (a k - u (k * τ)) by abel, v_ap]
            exact (norm_add_le _ _).trans (add_le_add_left c1 _)
          have h5 : ‖slope G (τ, z k) - G (u (k * τ))‖ ≤ B * (M * ‖y‖ * r ^ k + τ * Ce + v k + τ) :=
            this.trans (mul_le_mul_of_nonneg_left (by linarith) B0)
          have h6 := mul_le_mul_of_nonneg_left h5 (norm_nonneg Q)
          refine h6.trans ?_
          have e1 : ‖Q‖ * (B * (M * ‖y‖ * r ^ k + τ * Ce + v k + τ)) = L * v k + L * (M * ‖y‖ * r ^ k + (Ce + 1) * τ) := by rw [hL]; ring
          rw [e1]
          have e2 : M * ‖y‖ * r ^ k + (Ce + 1) * τ ≤ (M * ‖y‖ + Ce + 1) * (r ^ k + τ) := by
            have p1 : 0 ≤ M * ‖y‖ * τ := by positivity
            have p2 : 0 ≤ (Ce + 1) * r ^ k := by positivity
            nlinarith
          have e3 := mul_le_mul_of_nonneg_left e2 L0
          have e4 : 0 ≤ 2 * L / r ^ J₀ * (r ^ k + τ) := by positivity
          have e5 : (L * (M * ‖y‖ + Ce + 1) + 2 * L / r ^ J₀) * (r ^ k + τ) = L * ((M * ‖y‖ + Ce + 1) * (r ^ k + τ)) + 2 * L / r ^ J₀ * (r ^ k + τ) := by ring
          linarith
        · have h5 : ‖slope G (τ, z k) - G (u (k * τ))‖ ≤ 2 * B := (norm_sub_le _ _).trans (by linarith)
          have h6 := mul_le_mul_of_nonneg_left h5 (norm_nonneg Q)
          have e1 : ‖Q‖ * (2 * B) = 2 * L := by rw [hL]; ring
          have e2 : 2 * L ≤ 2 * L / r ^ J₀ * r ^ k := by
            rw [div_mul_eq_mul_div, le_div_iff₀ hrJ]
            exact mul_le_mul_of_nonneg_left (pow_le_pow_of_le_one r0.le r1.le (by omega)) (by positivity)
          have e3 : 0 ≤ L * v k := by positivity
          have e4 : 0 ≤ L * (M * ‖y‖ + Ce + 1) * (r ^ k + τ) := by positivity
          have e5 : 0 ≤ 2 * L / r ^ J₀ * τ := by positivity
          have e6 : (L * (M * ‖y‖ + Ce + 1) + 2 * L / r ^ J₀) * (r ^ k + τ) =
            L * (M * ‖y‖ + Ce + 1) * (r ^ k + τ) + 2 * L / r ^ J₀ * r ^ k + 2 * L / r ^ J₀ * τ := by ring
          linarith
      have kt : ((k : ℝ) + 1) * τ ≤ T := by
        have := (tin (k + 1) (by omega)).2
        push_cast at this
        exact this
      have hd := (euler_defect hε hok hu (tin k hk).1 hτ (by linarith) (by rw [← hB, ← hL]; exact t2)).2
      rw [← hB, ← hL] at hd
      have dec : a (k + 1) - u (((k + 1 : ℕ) : ℝ) * τ) = (a k - u (k * τ)) + (τ • Q (slope G (τ, z k) - G (u (k * τ))) -
          (u (k * τ + τ) - u (k * τ) - τ • Q (G (u (k * τ))))) := by
        rw [a_succ, map_sub, smul_sub]
        push_cast
        rw [show ((k : ℝ) + 1) * τ = k * τ + τ by ring]
        abel
      rw [v_ap (k + 1), dec]
      refine (norm_add_le _ _).trans ?_
      rw [← v_ap]
      have n1 : ‖τ • Q (slope G (τ, z k) - G (u (k * τ)))‖ ≤ τ * (L * v k + (L * (M * ‖y‖ + Ce + 1) + 2 * L / r ^ J₀) * (r ^ k + τ)) := by
        rw [norm_smul, Real.norm_eq_abs, abs_of_nonneg hτ]
        exact mul_le_mul_of_nonneg_left ((Q.le_opNorm _).trans sl) hτ
      have n2 := (norm_sub_le (τ • Q (slope G (τ, z k) - G (u (k * τ)))) (u (k * τ + τ) - u (k * τ) - τ • Q (G (u (k * τ)))))
      have n3 : 0 ≤ τ * (L * L) * r ^ k := by positivity
      have e7 : (1 + τ * L) * v k + τ * C * (r ^ k + τ) = v k + τ * (L * v k + (L * (M * ‖y‖ + Ce + 1) + 2 * L / r ^ J₀) * (r ^ k + τ)) +
          L * L * τ ^ 2 + τ * (L * L) * r ^ k := by rw [hC]; ring
      rw [e7]
      linarith
  intro k hk
  have c := cons k hk fun j hj => ⟨(step j (by omega)).1, (step j (by omega)).2 (by omega)⟩
  rw [hz, ha] at c
  refine ⟨by rw [← hz]; exact (step k hk).1, c.1, ?_⟩
  rw [← ha, ← v_ap]
  exact c.2

end

omit [CompleteSpace V] in
theorem zseq_iterate (G : V → V) (D : V →L[ℝ] V) (y : V) (τ : ℝ) (k : ℕ) :
    zseq G D y τ k = D ((fun s => rk4 G τ (D s))^[k] y) := by
  induction k with
  | zero => rfl
  | succ k ih => rw [Function.iterate_succ_apply', ← ih]; rfl

/-- **Steps with damping.**  If the powers of `D` tend to `Q` geometrically, then `N` steps of size `T/N`, each preceded by an application
of `D`, follow the solution of `u' = Q (G u)`, `u 0 = Q y`, up to `C (r^k + 1/N)`. -/
theorem rk4_relaxed {G : V → V} {D Q : V →L[ℝ] V} {y : V} {u : ℝ → V} {T M r : ℝ} (r0 : 0 < r) (r1 : r < 1)
    (hD : ∀ k, ‖D ^ k - Q‖ ≤ M * r ^ k) (hT : 0 ≤ T) (hu : ∀ t ∈ Icc 0 T, HasDerivAt u (Q (G (u t))) t) (hu0 : Q y = u 0)
    (hG : ∀ t ∈ Icc 0 T, AnalyticAt ℝ G (u t)) {W : Set V} (hW : ∀ t ∈ Icc 0 T, W ∈ 𝓝 (u t))
    (hG' : ∀ j : ℕ, AnalyticAt ℝ G ((D ^ (j + 1)) y)) (hW' : ∀ j : ℕ, W ∈ 𝓝 ((D ^ (j + 1)) y)) :
    ∃ (C : ℝ) (N₀ : ℕ), 0 < N₀ ∧ ∀ N : ℕ, N₀ ≤ N → ∀ k, k ≤ N →
      ‖(fun s => rk4 G (T / N) (D s))^[k] y - u (k * (T / N))‖ ≤ C * (r ^ k + 1 / N) ∧
      ∀ s ∈ stages G (T / N) (D ((fun s => rk4 G (T / N) (D s))^[k] y)), s ∈ W := by
  have hM : 0 ≤ M := by have := (norm_nonneg _).trans (hD 0); simpa using this
  have hc : ContinuousOn u (Icc 0 T) := fun t ht => (hu t ht).continuousAt.continuousWithinAt
  obtain ⟨ε₁, p1, ok1⟩ := relOk_along hc hG hW
  have lim : Tendsto (fun j : ℕ => (D ^ (j + 1)) y) atTop (𝓝 (u 0)) := by
    rw [tendsto_iff_norm_sub_tendsto_zero]
    have l1 : Tendsto (fun j : ℕ => M * r ^ (j + 1) * ‖y‖) atTop (𝓝 (M * 0 * ‖y‖)) :=
      ((tendsto_const_nhds.mul ((tendsto_pow_atTop_nhds_zero_of_lt_one r0.le r1).comp (tendsto_add_atTop_nat 1)))).mul tendsto_const_nhds
    rw [mul_zero, zero_mul] at l1
    refine squeeze_zero (fun _ => norm_nonneg _) (fun j => ?_) l1
    rw [← hu0, ← _root_.sub_apply]
    exact (ContinuousLinearMap.le_opNorm _ _).trans (mul_le_mul_of_nonneg_right (hD _) (norm_nonneg _))
  obtain ⟨ε, hε, hle, ok2⟩ := relOk_seq p1 (ok1 0 ⟨le_rfl, hT⟩) lim hG' hW'
  have ok1' : ∀ t ∈ Icc 0 T, ∀ s, dist s (u t) < ε → RelOk G W s ε := fun t ht s hs => (ok1 t ht s (hs.trans_le hle)).weaken hε hle
  obtain ⟨J₀, hJ₀⟩ : ∃ J₀ : ℕ, M * ‖y‖ * r ^ J₀ ≤ ε / 2 := by
    have l1 : Tendsto (fun j : ℕ => M * ‖y‖ * r ^ j) atTop (𝓝 (M * ‖y‖ * 0)) :=
      tendsto_const_nhds.mul (tendsto_pow_atTop_nhds_zero_of_lt_one r0.le r1)
    rw [mul_zero] at l1
    obtain ⟨J, hJ⟩ := (l1.eventually (gt_mem_nhds (show 0 < ε / 2 by linarith))).exists
    exact ⟨J, hJ.le⟩
  obtain ⟨B, hB⟩ : ∃ B, B = 1 / ε := ⟨_, rfl⟩
  obtain ⟨L, hL⟩ : ∃ L, L = ‖Q‖ * B := ⟨_, rfl⟩
  obtain ⟨Ce, hCe⟩ : ∃ Ce, Ce = M * B * (1 / (1 - r)) := ⟨_, rfl⟩
  obtain ⟨C, hC⟩ : ∃ C, C = L * (M * ‖y‖ + Ce + 1) + 2 * L / r ^ J₀ + L * L := ⟨_, rfl⟩
  obtain ⟨K, hK⟩ : ∃ K, K = Real.exp (T * L) * (C * (1 / (1 - r) + T)) := ⟨_, rfl⟩
  have B0 : 0 ≤ B := by rw [hB]; positivity
  have L0 : 0 ≤ L := by rw [hL]; positivity
  have r10 : 0 < 1 - r := by linarith
  have Ce0 : 0 ≤ Ce := by rw [hCe]; positivity
  have C0 : 0 ≤ C := by rw [hC]; positivity
  have K0 : 0 ≤ K := by rw [hK]; positivity
  -- small enough steps
  obtain ⟨S, hS⟩ : ∃ S, S = 1 + L + J₀ * ((M + ‖Q‖) * B) + 2 * (Ce + K) := ⟨_, rfl⟩
  have x3 : 0 ≤ (J₀ : ℝ) * ((M + ‖Q‖) * B) := by positivity
  have S0 : 0 < S := by rw [hS]; linarith
  obtain ⟨N₀, hN₀⟩ := exists_nat_gt (T * S / ε)
  -- the constant
  obtain ⟨C₁, hC₁⟩ : ∃ C₁, C₁ = ‖y - u 0‖ + M * ‖y‖ / r + (Ce + K + B + L) * T := ⟨_, rfl⟩
  have y0 := norm_nonneg (y - u 0)
  have x4 : 0 ≤ (Ce + K + B + L) * T := by positivity
  have x5 : 0 ≤ M * ‖y‖ / r := by positivity
  refine ⟨C₁, N₀ + 1, by omega, fun N hN => ?_⟩
  have hN1 : (1 : ℝ) ≤ N := by exact_mod_cast (by omega : 1 ≤ N)
  have hNp : (0 : ℝ) < N := by linarith
  obtain ⟨τ, hτ⟩ : ∃ τ, τ = T / (N : ℝ) := ⟨_, rfl⟩
  rw [← hτ]
  have τ0 : 0 ≤ τ := by rw [hτ]; positivity
  have hNτ : (N : ℝ) * τ = T := by rw [hτ]; field_simp
  have τS : τ * S < ε := by
    have h1 : T * S / ε < N := hN₀.trans_le (by exact_mod_cast (by omega : N₀ ≤ N))
    rw [div_lt_iff₀ hε] at h1
    rw [hτ, div_mul_eq_mul_div, div_lt_iff₀ hNp]
    linarith
  have eS : τ * S = τ + L * τ + τ * (J₀ * ((M + ‖Q‖) * B)) + 2 * (τ * (Ce + K)) := by rw [hS]; ring
  have q1 : 0 ≤ L * τ := by positivity
  have q2 : 0 ≤ τ * (J₀ * ((M + ‖Q‖) * B)) := by positivity
  have q3 : 0 ≤ τ * (Ce + K) := by positivity
  have core := relaxed_core (N := N) r0 r1 hM hD hε hT ok1' ok2 hu hu0 hB hL hCe hC hK τ0 hNτ hJ₀ (by linarith) (by linarith) (by linarith) (by linarith)
  intro k hk
  refine ⟨?_, ?_⟩
  · cases k with
    | zero =>
      simp only [Function.iterate_zero, id, Nat.cast_zero, zero_mul, pow_zero]
      have h1 : ‖y - u 0‖ ≤ C₁ := by rw [hC₁]; linarith
      have h2 : 0 ≤ C₁ * (1 / (N : ℝ)) := by rw [hC₁]; positivity
      linarith
    | succ k =>
      obtain ⟨c1, c2, c3⟩ := core k (by omega)
      have hk1 : (k : ℝ) * τ + τ ≤ T := by
        rw [← hNτ]
        have : ((k : ℝ) + 1) ≤ N := by exact_mod_cast hk
        nlinarith
      have hmv := (euler_defect hε ok1' hu (t := k * τ) (by positivity) τ0 hk1 (by rw [← hB, ← hL]; linarith)).1
      rw [← hB, ← hL] at hmv
      have hb : ‖slope G (τ, zseq G D y τ k)‖ ≤ B := by rw [hB]; exact c1.bd τ τ0 (by linarith)
      rw [Function.iterate_succ_apply', ← zseq_iterate, rk4_slope]
      push_cast
      rw [show ((k : ℝ) + 1) * τ = k * τ + τ by ring]
      have dec : zseq G D y τ k + τ • slope G (τ, zseq G D y τ k) - u (k * τ + τ) = ((zseq G D y τ k - aseq G D Q y τ k) + (aseq G D Q y τ k - u (k * τ))) +
          (τ • slope G (τ, zseq G D y τ k) - (u (k * τ + τ) - u (k * τ))) := by abel
      rw [dec]
      have n1 : ‖τ • slope G (τ, zseq G D y τ k)‖ ≤ τ * B := by
        rw [norm_smul, Real.norm_eq_abs, abs_of_nonneg τ0]
        exact mul_le_mul_of_nonneg_left hb τ0
      have n2 := norm_sub_le (τ • slope G (τ, zseq G D y τ k)) (u (k * τ + τ) - u (k * τ))
      have n3 := norm_add_le (zseq G D y τ k - aseq G D Q y τ k) (aseq G D Q y τ k - u (k * τ))
      refine (norm_add_le _ _).trans ?_
      have tot : M * ‖y‖ * r ^ k + τ * Ce + τ * K + (τ * B + L * τ) ≤ C₁ * (r ^ (k + 1) + 1 / N) := by
        have e1 : M * ‖y‖ * r ^ k = M * ‖y‖ / r * r ^ (k + 1) := by rw [pow_succ]; field_simp
        have e2 : τ * Ce + τ * K + (τ * B + L * τ) = (Ce + K + B + L) * T * (1 / N) := by rw [hτ]; ring
        have e3 : M * ‖y‖ / r * r ^ (k + 1) ≤ C₁ * r ^ (k + 1) := mul_le_mul_of_nonneg_right (by rw [hC₁]; linarith) (by positivity)
        have e4 : (Ce + K + B + L) * T * (1 / N) ≤ C₁ * (1 / N) := mul_le_mul_of_nonneg_right (by rw [hC₁]; linarith) (by positivity)
        rw [mul_add]
        linarith
      linarith
  · rw [← zseq_iterate]
    exact (core k hk).1.stg τ τ0 (by linarith)

end SFK
