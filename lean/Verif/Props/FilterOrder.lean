import Verif.Lemmas.Spectral
import Verif.Props.FD
import Mathlib.Analysis.SpecialFunctions.Exp
/-
C91: what the two radial filters do to a smooth function.
-/
namespace SFK
open Scalar CR Polynomial Finset

namespace FD

/-- the eighth difference of a smooth function -/
theorem k8_error {f : ℝ → ℝ} {y h M : ℝ} (hh : 0 < h)
    (hf : ∀ z ∈ Set.Icc y (y + 8 * h), ContDiffAt ℝ ((8 : ℕ) : WithTop ℕ∞) f z)
    (hM : ∀ z ∈ Set.Icc y (y + 8 * h), |iteratedDeriv 8 f z| ≤ M) :
    |(1 / 256) * ∑ j ∈ Finset.range 9, (k8 j : ℝ) * f (y + j * h)| ≤ 107 * M * h ^ 8 := by
  have hM0 : 0 ≤ M := le_trans (abs_nonneg _) (hM y ⟨le_refl _, by linarith⟩)
  obtain ⟨a, ha⟩ : ∃ a : ℕ → ℝ, a = fun k => iteratedDeriv k f y / (k.factorial : ℝ) := ⟨_, rfl⟩
  have hR : ∀ j ∈ Finset.range 9, |f (y + j * h) - ∑ k ∈ Finset.range 8, a k * ((j : ℝ) * h) ^ k| ≤ M * ((j : ℝ) * h) ^ 8 / 5040 := by
    intro j hj
    have hj' : (j : ℝ) ≤ 8 := by exact_mod_cast (by have := Finset.mem_range.mp hj; omega : j ≤ 8)
    have hsub : ∀ z ∈ Set.Icc y (y + (j : ℝ) * h), z ∈ Set.Icc y (y + 8 * h) := fun z hz => ⟨hz.1, hz.2.trans (by nlinarith)⟩
    have := taylor_bound (f := f) (N := 7) (y := y) (t := j * h) (M := M) (by positivity)
      (fun z hz => by exact_mod_cast hf z (hsub z hz)) (fun z hz => hM z (hsub z hz))
    rw [ha]
    simpa [Nat.factorial] using this
  have e : ∑ j ∈ Finset.range 9, (k8 j : ℝ) * f (y + j * h) =
      ∑ j ∈ Finset.range 9, (k8 j : ℝ) * (f (y + j * h) - ∑ k ∈ Finset.range 8, a k * ((j : ℝ) * h) ^ k) := by
    simp only [mul_sub, Finset.sum_sub_distrib]
    rw [k8_poly a h, sub_zero]
  have b : |∑ j ∈ Finset.range 9, (k8 j : ℝ) * f (y + j * h)| ≤ ∑ j ∈ Finset.range 9, |(k8 j : ℝ)| * (M * ((j : ℝ) * h) ^ 8 / 5040) := by
    rw [e]
    refine (Finset.abs_sum_le_sum_abs _ _).trans (Finset.sum_le_sum fun j hj => ?_)
    rw [abs_mul]
    exact mul_le_mul_of_nonneg_left (hR j hj) (abs_nonneg _)
  have c : ∑ j ∈ Finset.range 9, |(k8 j : ℝ)| * (M * ((j : ℝ) * h) ^ 8 / 5040) = 136761984 / 5040 * (M * h ^ 8) := by
    simp only [Finset.sum_range_succ, Finset.sum_range_zero, k8, Nat.choose]
    norm_num
    ring
  rw [c] at b
  rw [abs_mul, abs_of_pos (by norm_num : (0 : ℝ) < 1 / 256)]
  have : 0 ≤ M * h ^ 8 := by positivity
  linarith

end FD

/-- C91, finite differences: the dissipation filter changes the samples of a function with bounded eighth derivative by at most `107·max|f⁽⁸⁾|·h⁸`, at
every grid point of every grid: two orders better than the derivatives. -/
theorem C91_fd_eighth_order (n : ℕ) (hn : 4 ≤ n) (hW : n < W) (lo up : ℝ) (hlu : lo < up) (nd : Bool)
    (x : ℕ → ℝ) (hx : ∀ i, (FD.mk' n (fin lo) (fin up) nd).pt i = fin (x i))
    (f : ℝ → ℝ) (M : ℝ) (hf : ∀ z ∈ Set.Icc lo up, ContDiffAt ℝ 8 f z) (hM : ∀ z ∈ Set.Icc lo up, |iteratedDeriv 8 f z| ≤ M) :
    ∃ w : ℕ → ℝ, (FD.mk' n (fin lo) (fin up) nd).filter (tab n fun i => fin (f (x i))) = .ok (tab n fun i => fin (w i)) ∧
      ∀ i, i < n → |w i - f (x i)| ≤ 107 * M * ((up - lo) / ((n : ℝ) - 1)) ^ 8 := by
  have hn1 : (0 : ℝ) < (n : ℝ) - 1 := by
    have : (4 : ℝ) ≤ n := by exact_mod_cast hn
    linarith
  obtain ⟨h, hh⟩ : ∃ h, h = (up - lo) / ((n : ℝ) - 1) := ⟨_, rfl⟩
  have hh0 : 0 < h := by rw [hh]; exact div_pos (by linarith) hn1
  have hxi : ∀ i : ℕ, x i = lo + i * h := by
    intro i
    have := hx i
    rw [C10_points n (by omega) hW, fin_inj] at this
    rw [← this, hh]
  have hM0 : 0 ≤ M := (abs_nonneg _).trans (hM lo ⟨le_refl _, hlu.le⟩)
  refine ⟨fun i => if 4 ≤ i ∧ i < n - 4 then f (x i) - (1/256) * ∑ j ∈ Finset.range 9, (FD.k8 j : ℝ) * f (x (i - 4 + j)) else f (x i), ?_, ?_⟩
  · rw [FD.filter_eq _ (by exact hn) (by exact hW) (by simp; rfl)]
    congr 1
    show tab n _ = _
    refine tab_congr fun i hi => ?_
    rw [← FD.filterV_fin n (fun i => f (x i)) i]
    show FD.filterV n _ i = _
    unfold FD.filterV
    split_ifs with hc
    · rw [gv_tab (by omega), gv_tab (by omega), gv_tab (by omega), gv_tab (by omega), gv_tab (by omega), gv_tab (by omega), gv_tab (by omega),
        gv_tab (by omega), gv_tab (by omega)]
    · rw [gv_tab hi]
  · intro i hi
    beta_reduce
    rw [← hh]
    split_ifs with hc
    · have e : ∀ j : ℕ, x (i - 4 + j) = (lo + ((i - 4 : ℕ) : ℝ) * h) + j * h := by
        intro j; rw [hxi]; push_cast; ring
      simp only [e]
      rw [sub_sub_cancel_left, abs_neg]
      have hin : ∀ z ∈ Set.Icc (lo + ((i - 4 : ℕ) : ℝ) * h) (lo + ((i - 4 : ℕ) : ℝ) * h + 8 * h), z ∈ Set.Icc lo up := by
        intro z hz
        have h0 : 0 ≤ ((i - 4 : ℕ) : ℝ) * h := by positivity
        have h1 : ((i - 4 : ℕ) : ℝ) + 8 ≤ (n : ℝ) - 1 := by
          have : (i - 4 : ℕ) + 9 ≤ n := by omega
          have : ((i - 4 : ℕ) : ℝ) + 9 ≤ n := by exact_mod_cast this
          linarith
        have h2 : (((i - 4 : ℕ) : ℝ) + 8) * h ≤ ((n : ℝ) - 1) * h := mul_le_mul_of_nonneg_right h1 hh0.le
        have h3 : ((n : ℝ) - 1) * h = up - lo := by rw [hh, mul_div_cancel₀ _ hn1.ne']
        exact ⟨by linarith [hz.1], by linarith [hz.2]⟩
      exact FD.k8_error hh0 (fun z hz => by exact_mod_cast hf z (hin z hz)) (fun z hz => hM z (hin z hz))
    · rw [sub_self, abs_zero]; positivity

/-- non-vacuity of C91 (finite differences): the cosine on `[1,3]`, 33 points -/
example : ∃ x : ℕ → ℝ, (∀ i, (FD.mk' 33 (fin 1) (fin 3) false).pt i = fin (x i)) ∧ (∀ z ∈ Set.Icc (1:ℝ) 3, ContDiffAt ℝ 8 Real.cos z) ∧
    ∃ M, ∀ z ∈ Set.Icc (1:ℝ) 3, |iteratedDeriv 8 Real.cos z| ≤ M := by
  refine ⟨_, fun i => C10_points 33 (by norm_num) (by decide) 1 3 false i, fun z _ => Real.contDiff_cos.contDiffAt, ?_⟩
  have : Continuous (iteratedDeriv 8 Real.cos) := (Real.contDiff_cos (n := 8)).continuous_iteratedDeriv 8 (by norm_num)
  obtain ⟨B, hB⟩ := (isCompact_Icc (a := (1:ℝ)) (b := 3)).exists_bound_of_continuousOn this.continuousOn
  exact ⟨B, hB⟩

theorem chebPoly_sub (m : ℕ) (lo up : ℝ) (a b : ℕ → ℝ) : chebPoly m lo up (fun k => a k - b k) = chebPoly m lo up a - chebPoly m lo up b := by
  unfold chebPoly
  rw [← sum_sub_distrib]
  refine sum_congr rfl fun k _ => ?_
  rw [C_sub, sub_mul]

/-- C91, Chebyshev: the low pass filter changes the samples of a smooth function by at most `K/n¹⁶`, with one constant for every number of points. -/
theorem C91_cheb_sixteenth_order {lo up : ℝ} (hlu : lo < up) {f : ℝ → ℝ} (hf : ContDiff ℝ 19 f) :
    ∃ K, 0 ≤ K ∧ ∀ (n : ℕ) (dct : List CR → List CR) (nd : Bool) (c : Cheb CR), 2 ≤ n → n < W → FftwOk n dct →
      Cheb.mk' n (fin lo) (fin up) dct true nd = .ok c →
      ∃ w : ℕ → ℝ, c.filter (tab n fun i => fin (f (chebPt n lo up i))) = .ok (tab n fun i => fin (w i)) ∧
        ∀ i, i < n → |w i - f (chebPt n lo up i)| ≤ K / (n : ℝ) ^ 16 := by
  obtain ⟨a, C, hC, ha, happ⟩ := Four.cos_approx (s := 17) (by exact_mod_cast hf) ((up + lo) / 2) ((up - lo) / 2)
  obtain ⟨S, hS0, hS⟩ := Four.sum_sq
  refine ⟨40 * C * S + 2 * C, by positivity, ?_⟩
  intro n dct nd c hn hW hfw hc
  have hn0 : (0 : ℝ) < n := by exact_mod_cast (by omega : 0 < n)
  have hδ : ∀ i, i < n → |f (chebPt n lo up i) - (chebPoly n lo up a).eval (chebPt n lo up i)| ≤ C / ((n : ℝ) + 1) ^ 17 := by
    intro i _
    obtain ⟨θ, hθ⟩ := mem_cos hlu (chebPt_mem hn hlu i)
    rw [hθ, chebPoly_eval_cos hlu]
    exact happ n θ
  obtain ⟨e, he⟩ := interp hn hlu (fun i => f (chebPt n lo up i) - (chebPoly n lo up a).eval (chebPt n lo up i))
  have hek : ∀ k, k < n → |e k| ≤ 2 * (C / ((n : ℝ) + 1) ^ 17) := fun k hk => coef_le hn hlu (fun i hi => by rw [he i hi]; exact hδ i hi) hk
  have hu : (tab n fun i => fin (f (chebPt n lo up i))) = tab n fun i => fin ((chebPoly n lo up fun k => a k + e k).eval (chebPt n lo up i)) :=
    tab_congr fun i hi => by rw [chebPoly_add, eval_add, he i hi, add_sub_cancel]
  obtain ⟨g, g1, g2, -, -, g3⟩ := C21_filter_damps hn hW hlu hfw hc (fun k => a k + e k)
  refine ⟨fun i => (chebPoly n lo up fun k => g k * (a k + e k)).eval (chebPt n lo up i), by rw [hu]; exact g1, fun i hi => ?_⟩
  beta_reduce
  have e1 : f (chebPt n lo up i) = (chebPoly n lo up fun k => a k + e k).eval (chebPt n lo up i) := by
    rw [chebPoly_add, eval_add, he i hi, add_sub_cancel]
  rw [e1, ← eval_sub, ← chebPoly_sub]
  refine (chebPoly_abs_le hlu n _ (chebPt_mem hn hlu i)).trans ?_
  have one : ∀ k ∈ range n, |g k * (a k + e k) - (a k + e k)| ≤ 40 * C / (n : ℝ) ^ 16 * (1 / ((k : ℝ) + 1) ^ 2) + 2 * (C / ((n : ℝ) + 1) ^ 17) := by
    intro k hk
    rw [mem_range] at hk
    have hg0 : 0 ≤ 1 - g k := by linarith [(g2 k).2]
    have hg1 : 1 - g k ≤ 1 := by linarith [(g2 k).1]
    have hg : 1 - g k ≤ 40 * ((k : ℝ) / n) ^ 16 := by
      rw [g3]
      linarith [Real.add_one_le_exp (-40 * ((k : ℝ) / n) ^ 16)]
    have e2 : g k * (a k + e k) - (a k + e k) = -((1 - g k) * a k + (1 - g k) * e k) := by ring
    rw [e2, abs_neg]
    refine (abs_add_le _ _).trans (add_le_add ?_ ?_)
    · rw [abs_mul, abs_of_nonneg hg0]
      have k1 : (0 : ℝ) < (k : ℝ) + 1 := by positivity
      calc (1 - g k) * |a k| ≤ 40 * ((k : ℝ) / n) ^ 16 * (C / ((k : ℝ) + 1) ^ (17 + 2)) := mul_le_mul hg (ha k) (abs_nonneg _) (by positivity)
        _ = 40 * C / (n : ℝ) ^ 16 * ((k : ℝ) ^ 16 / ((k : ℝ) + 1) ^ (17 + 2)) := by rw [div_pow]; ring
        _ ≤ _ := by
          refine mul_le_mul_of_nonneg_left ?_ (by positivity)
          rw [div_le_div_iff₀ (by positivity) (by positivity), one_mul]
          have : (k : ℝ) ^ 16 ≤ ((k : ℝ) + 1) ^ 16 := pow_le_pow_left₀ (by positivity) (by linarith) 16
          calc (k : ℝ) ^ 16 * ((k : ℝ) + 1) ^ 2 ≤ ((k : ℝ) + 1) ^ 16 * ((k : ℝ) + 1) ^ 2 := mul_le_mul_of_nonneg_right this (by positivity)
            _ = ((k : ℝ) + 1) ^ 18 := by ring
            _ ≤ ((k : ℝ) + 1) ^ (17 + 2) := pow_le_pow_right₀ (by linarith [(by positivity : (0:ℝ) ≤ k)]) (by norm_num)
    · rw [abs_mul, abs_of_nonneg hg0]
      exact (mul_le_of_le_one_left (abs_nonneg _) hg1).trans (hek k hk)
  refine (sum_le_sum one).trans ?_
  rw [sum_add_distrib, ← mul_sum, sum_const, card_range, nsmul_eq_mul]
  have s1 : ∑ k ∈ range n, 1 / ((k : ℝ) + 1) ^ 2 ≤ S := sum_le_hasSum _ (fun _ _ => by positivity) hS
  have s2 : 40 * C / (n : ℝ) ^ 16 * ∑ k ∈ range n, 1 / ((k : ℝ) + 1) ^ 2 ≤ 40 * C / (n : ℝ) ^ 16 * S := mul_le_mul_of_nonneg_left s1 (by positivity)
  have s3 : (n : ℝ) * (2 * (C / ((n : ℝ) + 1) ^ 17)) ≤ 2 * C / (n : ℝ) ^ 16 := by
    rw [mul_div_assoc', mul_div_assoc', div_le_div_iff₀ (by positivity) (by positivity)]
    have : (n : ℝ) ^ 17 ≤ ((n : ℝ) + 1) ^ 17 := pow_le_pow_left₀ hn0.le (by linarith) 17
    calc (n : ℝ) * (2 * C) * (n : ℝ) ^ 16 = 2 * C * (n : ℝ) ^ 17 := by ring
      _ ≤ _ := mul_le_mul_of_nonneg_left this (by positivity)
  have s4 : (40 * C * S + 2 * C) / (n : ℝ) ^ 16 = 40 * C / (n : ℝ) ^ 16 * S + 2 * C / (n : ℝ) ^ 16 := by ring
  linarith

/-- C91, Chebyshev: the order 16 is sharp, already for the linear function `f(x)=x`: at the upper end point the filter moves the sample by at least
`20(up-lo)/(n¹⁶+40)`. -/
theorem C91_cheb_sharp {lo up : ℝ} (hlu : lo < up) {n : ℕ} {dct : List CR → List CR} {nd : Bool} {c : Cheb CR} (hn : 2 ≤ n) (hW : n < W)
    (hf : FftwOk n dct) (hc : Cheb.mk' n (fin lo) (fin up) dct true nd = .ok c) :
    ∃ w : ℕ → ℝ, c.filter (tab n fun i => fin (chebPt n lo up i)) = .ok (tab n fun i => fin (w i)) ∧ chebPt n lo up 0 = up ∧
      20 * (up - lo) / ((n : ℝ) ^ 16 + 40) ≤ |w 0 - chebPt n lo up 0| := by
  have hd : 0 < up - lo := by linarith
  have hn0 : (0 : ℝ) < n := by exact_mod_cast (by omega : 0 < n)
  have two : ∀ b : ℕ → ℝ, (∀ k, 2 ≤ k → b k = 0) → ∀ i, (chebPoly n lo up b).eval (chebPt n lo up i) = b 0 + b 1 * Real.cos (Real.pi * i / ((n : ℝ) - 1)) := by
    intro b hb i
    obtain ⟨m, rfl⟩ : ∃ m, n = m + 2 := ⟨n - 2, by omega⟩
    unfold chebPt
    rw [add_comm ((up - lo) / 2 * _), chebPoly_eval_cos hlu, sum_range_succ', sum_range_succ', sum_eq_zero (fun k _ => by rw [hb _ (by omega), zero_mul])]
    simp [add_comm]
  obtain ⟨a, ha⟩ : ∃ a : ℕ → ℝ, a = fun k => if k = 0 then (up + lo) / 2 else if k = 1 then (up - lo) / 2 else 0 := ⟨_, rfl⟩
  have a2 : ∀ k, 2 ≤ k → a k = 0 := fun k hk => by rw [ha]; simp only; rw [if_neg (by omega), if_neg (by omega)]
  have a0 : a 0 = (up + lo) / 2 := by rw [ha]; simp
  have a1 : a 1 = (up - lo) / 2 := by rw [ha]; simp
  obtain ⟨g, g1, g2, -, g0, g3⟩ := C21_filter_damps hn hW hlu hf hc a
  have hu : (tab n fun i => fin (chebPt n lo up i)) = tab n fun i => fin ((chebPoly n lo up a).eval (chebPt n lo up i)) :=
    tab_congr fun i hi => by rw [two a a2, a0, a1, add_comm]; rfl
  have p0 : chebPt n lo up 0 = up := by unfold chebPt; simp; ring
  refine ⟨fun i => (chebPoly n lo up fun k => g k * a k).eval (chebPt n lo up i), by rw [hu]; exact g1, p0, ?_⟩
  beta_reduce
  rw [two _ (fun k hk => by rw [a2 k hk, mul_zero]), p0, a0, a1, g0]
  have e : 1 * ((up + lo) / 2) + g 1 * ((up - lo) / 2) * Real.cos (Real.pi * ((0 : ℕ) : ℝ) / ((n : ℝ) - 1)) - up = -((1 - g 1) * ((up - lo) / 2)) := by
    simp; ring
  rw [e, abs_neg, abs_of_nonneg (mul_nonneg (by linarith [(g2 1).2]) (by linarith))]
  have hg : g 1 ≤ (n : ℝ) ^ 16 / ((n : ℝ) ^ 16 + 40) := by
    rw [g3, Nat.cast_one, one_div, inv_pow, neg_mul, Real.exp_neg, ← one_div, div_le_div_iff₀ (Real.exp_pos _) (by positivity), one_mul]
    have := Real.add_one_le_exp (40 * ((n : ℝ) ^ 16)⁻¹)
    have h2 := mul_le_mul_of_nonneg_left this (by positivity : 0 ≤ (n : ℝ) ^ 16)
    have h3 : (n : ℝ) ^ 16 * (40 * ((n : ℝ) ^ 16)⁻¹ + 1) = (n : ℝ) ^ 16 + 40 := by field_simp; ring
    linarith
  have : (n : ℝ) ^ 16 / ((n : ℝ) ^ 16 + 40) = 1 - 40 / ((n : ℝ) ^ 16 + 40) := by field_simp; ring
  rw [this] at hg
  have h4 : 40 / ((n : ℝ) ^ 16 + 40) * ((up - lo) / 2) ≤ (1 - g 1) * ((up - lo) / 2) := mul_le_mul_of_nonneg_right (by linarith) (by linarith)
  refine le_trans (le_of_eq ?_) h4
  ring

/-- non-vacuity of C91 (Chebyshev) -/
example : ∃ (dct : List CR → List CR) (c : Cheb CR), FftwOk 65 dct ∧ Cheb.mk' 65 (fin 1) (fin 3) dct true false = .ok c ∧ ContDiff ℝ 19 Real.sin := by
  obtain ⟨dct, h⟩ := exists_fftw 65
  exact ⟨dct, _, h, Cheb.mk'_eq _ _ _ _ _, Real.contDiff_sin⟩

end SFK
