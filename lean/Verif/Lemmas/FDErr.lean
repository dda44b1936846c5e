import Verif.Lemmas.FDReal
import Mathlib.Data.Nat.Choose.Sum

namespace SFK
namespace FD
open Scalar CR Polynomial

theorem contDiffAt_deriv {f : ℝ → ℝ} {n : ℕ} {z : ℝ} (h : ContDiffAt ℝ ((n + 1 : ℕ) : WithTop ℕ∞) f z) :
    ContDiffAt ℝ (n : WithTop ℕ∞) (deriv f) z := by
  have h1 : ContDiffAt ℝ (n : WithTop ℕ∞) (fderiv ℝ f) z := h.fderiv_right (by norm_cast)
  have h2 : ContDiffAt ℝ (n : WithTop ℕ∞) (fun x => fderiv ℝ f x 1) z := h1.clm_apply contDiffAt_const
  exact h2

/-- stencil error: first derivative -/
theorem c1_error {f : ℝ → ℝ} {y h M : ℝ} (hh : 0 < h) {s : ℕ} (hs : s ≤ 6)
    (hf : ∀ z ∈ Set.Icc y (y + 6 * h), ContDiffAt ℝ ((7 : ℕ) : WithTop ℕ∞) f z)
    (hM : ∀ z ∈ Set.Icc y (y + 6 * h), |iteratedDeriv 7 f z| ≤ M) :
    |(∑ j ∈ Finset.range 7, c1 s j * f (y + j * h)) / h - deriv f (y + s * h)| ≤ 2200 * M * h ^ 6 := by
  have hM0 : 0 ≤ M := le_trans (abs_nonneg _) (hM y ⟨le_refl _, by linarith⟩)
  set a : ℕ → ℝ := fun k => iteratedDeriv k f y / (k.factorial : ℝ) with ha
  have hsub : ∀ j : ℕ, j ≤ 6 → ∀ z ∈ Set.Icc y (y + (j : ℝ) * h), z ∈ Set.Icc y (y + 6 * h) := by
    intro j hj z hz
    refine ⟨hz.1, le_trans hz.2 ?_⟩
    have : (j : ℝ) ≤ 6 := by exact_mod_cast hj
    nlinarith
  have hR : ∀ j ∈ Finset.range 7, |f (y + j * h) - ∑ k ∈ Finset.range 7, a k * ((j : ℝ) * h) ^ k| ≤
      M * ((j : ℝ) * h) ^ 7 / 720 := by
    intro j hj
    have hj' : j ≤ 6 := by have := Finset.mem_range.mp hj; omega
    have := taylor_bound (f := f) (N := 6) (y := y) (t := j * h) (M := M) (by positivity)
      (fun z hz => by exact_mod_cast hf z (hsub j hj' z hz)) (fun z hz => hM z (hsub j hj' z hz))
    simpa [Nat.factorial] using this
  have hD : |deriv f (y + s * h) - ∑ k ∈ Finset.range 6, ((k : ℝ) + 1) * a (k + 1) * ((s : ℝ) * h) ^ k| ≤
      M * ((s : ℝ) * h) ^ 6 / 120 := by
    have := taylor_bound (f := deriv f) (N := 5) (y := y) (t := s * h) (M := M) (by positivity)
      (fun z hz => by
        have := contDiffAt_deriv (n := 6) (by exact_mod_cast hf z (hsub s hs z hz))
        exact_mod_cast this)
      (fun z hz => by
        rw [← iteratedDeriv_succ']
        exact hM z (hsub s hs z hz))
    have e : ∑ k ∈ Finset.range (5 + 1), iteratedDeriv k (deriv f) y / (k.factorial : ℝ) * ((s : ℝ) * h) ^ k =
        ∑ k ∈ Finset.range 6, ((k : ℝ) + 1) * a (k + 1) * ((s : ℝ) * h) ^ k := by
      apply Finset.sum_congr rfl
      intro k _
      rw [ha]
      simp only
      rw [iteratedDeriv_succ', Nat.factorial_succ]
      push_cast
      have : (k.factorial : ℝ) ≠ 0 := by positivity
      field_simp
    rw [e] at this
    simpa [Nat.factorial] using this
  have hex := c1_exact a h hh.ne' s hs
  have hlin : (∑ j ∈ Finset.range 7, c1 s j * f (y + j * h)) / h =
      (∑ j ∈ Finset.range 7, c1 s j * ∑ k ∈ Finset.range 7, a k * ((j : ℝ) * h) ^ k) / h +
      (∑ j ∈ Finset.range 7, c1 s j * (f (y + j * h) - ∑ k ∈ Finset.range 7, a k * ((j : ℝ) * h) ^ k)) / h := by
    rw [← add_div, ← Finset.sum_add_distrib]
    congr 1
    apply Finset.sum_congr rfl
    intro j _
    ring
  have hS : |(∑ j ∈ Finset.range 7, c1 s j * (f (y + j * h) - ∑ k ∈ Finset.range 7, a k * ((j : ℝ) * h) ^ k)) / h| ≤
      ((∑ j ∈ Finset.range 7, |c1 s j| * (j : ℝ) ^ 7) / 720) * M * h ^ 6 := by
    rw [abs_div, abs_of_pos hh, div_le_iff₀ hh]
    calc |∑ j ∈ Finset.range 7, c1 s j * (f (y + j * h) - ∑ k ∈ Finset.range 7, a k * ((j : ℝ) * h) ^ k)|
        ≤ ∑ j ∈ Finset.range 7, |c1 s j * (f (y + j * h) - ∑ k ∈ Finset.range 7, a k * ((j : ℝ) * h) ^ k)| :=
          Finset.abs_sum_le_sum_abs _ _
      _ ≤ ∑ j ∈ Finset.range 7, |c1 s j| * (M * ((j : ℝ) * h) ^ 7 / 720) := by
          apply Finset.sum_le_sum
          intro j hj
          rw [abs_mul]
          exact mul_le_mul_of_nonneg_left (hR j hj) (abs_nonneg _)
      _ = _ := by
          rw [Finset.sum_div, Finset.sum_mul, Finset.sum_mul, Finset.sum_mul]
          apply Finset.sum_congr rfl
          intro j _
          rw [mul_pow]; ring
  rw [hlin, hex]
  calc |_| ≤ M * ((s : ℝ) * h) ^ 6 / 120 + ((∑ j ∈ Finset.range 7, |c1 s j| * (j : ℝ) ^ 7) / 720) * M * h ^ 6 := by
        rw [abs_sub_comm] at hD
        rw [add_sub_right_comm]
        exact le_trans (abs_add_le _ _) (add_le_add hD hS)
    _ = ((∑ j ∈ Finset.range 7, |c1 s j| * (j : ℝ) ^ 7) / 720 + (s : ℝ) ^ 6 / 120) * (M * h ^ 6) := by
        rw [mul_pow]; ring
    _ ≤ 2200 * (M * h ^ 6) := mul_le_mul_of_nonneg_right (c1_abs s hs) (by positivity)
    _ = _ := by ring

/-- stencil error: second derivative -/
theorem c2_error {f : ℝ → ℝ} {y h M : ℝ} (hh : 0 < h) {s L : ℕ} (hs : s ≤ 7) (hs4 : s ≠ 4) (hsL : s ≤ L)
    (hz7 : ∀ j, L < j → j < 8 → c2 s j = 0)
    (hf : ∀ z ∈ Set.Icc y (y + L * h), ContDiffAt ℝ ((8 : ℕ) : WithTop ℕ∞) f z)
    (hM : ∀ z ∈ Set.Icc y (y + L * h), |iteratedDeriv 8 f z| ≤ M) :
    |(∑ j ∈ Finset.range 8, c2 s j * f (y + j * h)) / h ^ 2 - iteratedDeriv 2 f (y + s * h)| ≤ 18600 * M * h ^ 6 := by
  have hM0 : 0 ≤ M := le_trans (abs_nonneg _) (hM y ⟨le_refl _, by
    have : 0 ≤ (L : ℝ) * h := by positivity
    linarith⟩)
  set a : ℕ → ℝ := fun k => iteratedDeriv k f y / (k.factorial : ℝ) with ha
  have hsub : ∀ j : ℕ, j ≤ L → ∀ z ∈ Set.Icc y (y + (j : ℝ) * h), z ∈ Set.Icc y (y + L * h) := by
    intro j hj z hz
    refine ⟨hz.1, le_trans hz.2 ?_⟩
    have : (j : ℝ) ≤ L := by exact_mod_cast hj
    nlinarith
  have hR : ∀ j ∈ Finset.range 8, |c2 s j * (f (y + j * h) - ∑ k ∈ Finset.range 8, a k * ((j : ℝ) * h) ^ k)| ≤
      |c2 s j| * (M * ((j : ℝ) * h) ^ 8 / 5040) := by
    intro j hj
    by_cases hjL : j ≤ L
    · have := taylor_bound (f := f) (N := 7) (y := y) (t := j * h) (M := M) (by positivity)
        (fun z hz => by exact_mod_cast hf z (hsub j hjL z hz)) (fun z hz => hM z (hsub j hjL z hz))
      rw [abs_mul]
      refine mul_le_mul_of_nonneg_left ?_ (abs_nonneg _)
      simpa [Nat.factorial] using this
    · rw [hz7 j (by omega) (Finset.mem_range.mp hj)]
      simp
  have hD : |iteratedDeriv 2 f (y + s * h) -
      ∑ k ∈ Finset.range 6, ((k : ℝ) + 1) * ((k : ℝ) + 2) * a (k + 2) * ((s : ℝ) * h) ^ k| ≤
      M * ((s : ℝ) * h) ^ 6 / 120 := by
    have hd2 : iteratedDeriv 2 f = deriv (deriv f) := by
      rw [iteratedDeriv_succ', iteratedDeriv_succ', iteratedDeriv_zero]
    have := taylor_bound (f := deriv (deriv f)) (N := 5) (y := y) (t := s * h) (M := M) (by positivity)
      (fun z hz => by
        have := contDiffAt_deriv (n := 6) (contDiffAt_deriv (n := 7) (by exact_mod_cast hf z (hsub s hsL z hz)))
        exact_mod_cast this)
      (fun z hz => by
        rw [← iteratedDeriv_succ', ← iteratedDeriv_succ']
        exact hM z (hsub s hsL z hz))
    have e : ∑ k ∈ Finset.range (5 + 1), iteratedDeriv k (deriv (deriv f)) y / (k.factorial : ℝ) * ((s : ℝ) * h) ^ k =
        ∑ k ∈ Finset.range 6, ((k : ℝ) + 1) * ((k : ℝ) + 2) * a (k + 2) * ((s : ℝ) * h) ^ k := by
      apply Finset.sum_congr rfl
      intro k _
      rw [ha]
      simp only
      rw [iteratedDeriv_succ', iteratedDeriv_succ', Nat.factorial_succ, Nat.factorial_succ]
      push_cast
      have : (k.factorial : ℝ) ≠ 0 := by positivity
      field_simp
      ring
    rw [e] at this
    rw [hd2]
    simpa [Nat.factorial] using this
  have hex := c2_exact a h hh.ne' s hs hs4
  have hlin : (∑ j ∈ Finset.range 8, c2 s j * f (y + j * h)) / h ^ 2 =
      (∑ j ∈ Finset.range 8, c2 s j * ∑ k ∈ Finset.range 8, a k * ((j : ℝ) * h) ^ k) / h ^ 2 +
      (∑ j ∈ Finset.range 8, c2 s j * (f (y + j * h) - ∑ k ∈ Finset.range 8, a k * ((j : ℝ) * h) ^ k)) / h ^ 2 := by
    rw [← add_div, ← Finset.sum_add_distrib]
    congr 1
    apply Finset.sum_congr rfl
    intro j _
    ring
  have hS : |(∑ j ∈ Finset.range 8, c2 s j * (f (y + j * h) - ∑ k ∈ Finset.range 8, a k * ((j : ℝ) * h) ^ k)) / h ^ 2| ≤
      ((∑ j ∈ Finset.range 8, |c2 s j| * (j : ℝ) ^ 8) / 5040) * M * h ^ 6 := by
    rw [abs_div, abs_of_pos (by positivity : (0 : ℝ) < h ^ 2), div_le_iff₀ (by positivity)]
    calc |∑ j ∈ Finset.range 8, c2 s j * (f (y + j * h) - ∑ k ∈ Finset.range 8, a k * ((j : ℝ) * h) ^ k)|
        ≤ ∑ j ∈ Finset.range 8, |c2 s j * (f (y + j * h) - ∑ k ∈ Finset.range 8, a k * ((j : ℝ) * h) ^ k)| :=
          Finset.abs_sum_le_sum_abs _ _
      _ ≤ ∑ j ∈ Finset.range 8, |c2 s j| * (M * ((j : ℝ) * h) ^ 8 / 5040) := Finset.sum_le_sum hR
      _ = _ := by
          rw [Finset.sum_div, Finset.sum_mul, Finset.sum_mul, Finset.sum_mul]
          apply Finset.sum_congr rfl
          intro j _
          rw [mul_pow]; ring
  rw [hlin, hex]
  calc |_| ≤ M * ((s : ℝ) * h) ^ 6 / 120 + ((∑ j ∈ Finset.range 8, |c2 s j| * (j : ℝ) ^ 8) / 5040) * M * h ^ 6 := by
        rw [abs_sub_comm] at hD
        rw [add_sub_right_comm]
        exact le_trans (abs_add_le _ _) (add_le_add hD hS)
    _ = ((∑ j ∈ Finset.range 8, |c2 s j| * (j : ℝ) ^ 8) / 5040 + (s : ℝ) ^ 6 / 120) * (M * h ^ 6) := by
        rw [mul_pow]; ring
    _ ≤ 18600 * (M * h ^ 6) := mul_le_mul_of_nonneg_right (c2_abs s hs hs4) (by positivity)
    _ = _ := by ring

/-! ### dissipation filter -/

/-- `(-1)^j binom(8,j)` -/
def k8 (j : ℕ) : ℤ := (-1) ^ j * (Nat.choose 8 j : ℤ)

theorem k8_moment : ∀ k : ℕ, k < 8 → ∑ j ∈ Finset.range 9, k8 j * (j : ℤ) ^ k = 0 := by
  decide +kernel

/-- interior value of the filtered data, exact arithmetic -/
theorem koE_fin (m4 m3 m2 m1 z p1 p2 p3 p4 : ℝ) :
    koE (fin m4) (fin m3) (fin m2) (fin m1) (fin z) (fin p1) (fin p2) (fin p3) (fin p4) =
      fin (z - (1/256) * (m4 - 8 * m3 + 28 * m2 - 56 * m1 + 70 * z - 56 * p1 + 28 * p2 - 8 * p3 + p4)) := by
  unfold koE
  simp
  ring

theorem k8_sum (w : ℕ → ℝ) : ∑ j ∈ Finset.range 9, (k8 j : ℝ) * w j =
    w 0 - 8 * w 1 + 28 * w 2 - 56 * w 3 + 70 * w 4 - 56 * w 5 + 28 * w 6 - 8 * w 7 + w 8 := by
  simp [Finset.sum_range_succ, k8, Nat.choose]
  ring

/-- `filterV` in exact arithmetic -/
theorem filterV_fin (n : ℕ) (u : ℕ → ℝ) (i : ℕ) :
    filterV n (fun i => fin (u i)) i =
      fin (if 4 ≤ i ∧ i < n - 4 then u i - (1/256) * ∑ j ∈ Finset.range 9, (k8 j : ℝ) * u (i - 4 + j) else u i) := by
  unfold filterV
  split
  · rename_i h
    obtain ⟨k, rfl⟩ : ∃ k, i = k + 4 := ⟨i - 4, by omega⟩
    rw [koE_fin, k8_sum]
    simp only [Nat.add_sub_cancel, add_zero]
    have e1 : k + 4 - 3 = k + 1 := by omega
    have e2 : k + 4 - 2 = k + 2 := by omega
    have e3 : k + 4 - 1 = k + 3 := by omega
    simp only [e1, e2, e3, add_assoc]
  · rfl

theorem k8_poly (a : ℕ → ℝ) (h : ℝ) :
    ∑ j ∈ Finset.range 9, (k8 j : ℝ) * ∑ k ∈ Finset.range 8, a k * ((j : ℝ) * h) ^ k = 0 := by
  simp only [Finset.mul_sum]
  rw [Finset.sum_comm]
  apply Finset.sum_eq_zero
  intro k hk
  have h1 : ∑ j ∈ Finset.range 9, (k8 j : ℝ) * (j : ℝ) ^ k = 0 := by
    exact_mod_cast k8_moment k (Finset.mem_range.mp hk)
  calc _ = a k * h ^ k * ∑ j ∈ Finset.range 9, (k8 j : ℝ) * (j : ℝ) ^ k := by
        rw [Finset.mul_sum]
        apply Finset.sum_congr rfl
        intro j _
        rw [mul_pow]; ring
    _ = 0 := by rw [h1, mul_zero]

theorem k8_cos (k t : ℝ) : ∑ j ∈ Finset.range 9, (k8 j : ℝ) * Real.cos (t + ((j : ℝ) - 4) * k) =
    256 * Real.sin (k / 2) ^ 8 * Real.cos t := by
  rw [k8_sum]
  have e1 : ∀ m : ℝ, Real.cos (t - m * k) + Real.cos (t + m * k) = 2 * Real.cos t * Real.cos (m * k) := by
    intro m; rw [Real.cos_sub, Real.cos_add]; ring
  have s2 : Real.sin (k / 2) ^ 2 = (1 - Real.cos k) / 2 := by
    have := Real.cos_sq (k / 2)
    have h2 := Real.sin_sq_add_cos_sq (k / 2)
    have h3 : 2 * (k / 2) = k := by ring
    rw [h3] at this
    linarith
  have s8 : Real.sin (k / 2) ^ 8 = ((1 - Real.cos k) / 2) ^ 4 := by
    rw [← s2]; ring
  have c2 : Real.cos (2 * k) = 2 * Real.cos k ^ 2 - 1 := Real.cos_two_mul k
  have c3 : Real.cos (3 * k) = 4 * Real.cos k ^ 3 - 3 * Real.cos k := Real.cos_three_mul k
  have c4 : Real.cos (4 * k) = 8 * Real.cos k ^ 4 - 8 * Real.cos k ^ 2 + 1 := by
    have : (4 : ℝ) * k = 2 * (2 * k) := by ring
    rw [this, Real.cos_two_mul, c2]; ring
  have f1 := e1 1
  have f2 := e1 2
  have f3 := e1 3
  have f4 := e1 4
  rw [one_mul] at f1
  rw [c2] at f2
  rw [c3] at f3
  rw [c4] at f4
  have g : ∀ x : ℝ, t + (x - 4) * k = t + (x - 4) * k := fun _ => rfl
  have t0 : t + (((0 : ℕ) : ℝ) - 4) * k = t - 4 * k := by push_cast; ring
  have t1 : t + (((1 : ℕ) : ℝ) - 4) * k = t - 3 * k := by push_cast; ring
  have t2 : t + (((2 : ℕ) : ℝ) - 4) * k = t - 2 * k := by push_cast; ring
  have t3 : t + (((3 : ℕ) : ℝ) - 4) * k = t - k := by push_cast; ring
  have t4 : t + (((4 : ℕ) : ℝ) - 4) * k = t := by push_cast; ring
  have t5 : t + (((5 : ℕ) : ℝ) - 4) * k = t + k := by push_cast; ring
  have t6 : t + (((6 : ℕ) : ℝ) - 4) * k = t + 2 * k := by push_cast; ring
  have t7 : t + (((7 : ℕ) : ℝ) - 4) * k = t + 3 * k := by push_cast; ring
  have t8 : t + (((8 : ℕ) : ℝ) - 4) * k = t + 4 * k := by push_cast; ring
  rw [t0, t1, t2, t3, t4, t5, t6, t7, t8, s8]
  linear_combination f4 - 8 * f3 + 28 * f2 - 56 * f1

end FD
end SFK
