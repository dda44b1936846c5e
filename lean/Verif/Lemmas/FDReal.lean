import Verif.Lemmas.FD
import Verif.Model.CR
import Mathlib.Algebra.Polynomial.Taylor
import Mathlib.Analysis.Calculus.Taylor
import Mathlib.Tactic.IntervalCases
import Mathlib.Tactic.FieldSimp

namespace SFK
namespace FD
open Scalar CR Polynomial

/-- coefficients of the first-derivative stencils: `q1 s j` multiplies the `j`-th of seven consecutive samples
when the derivative is taken at sample `s` -/
def q1 : ℕ → ℕ → ℚ
  | 0, 0 => -49/20 | 0, 1 => 6 | 0, 2 => -15/2 | 0, 3 => 20/3 | 0, 4 => -15/4 | 0, 5 => 6/5 | 0, 6 => -1/6
  | 1, 0 => -1/6 | 1, 1 => -77/60 | 1, 2 => 5/2 | 1, 3 => -5/3 | 1, 4 => 5/6 | 1, 5 => -1/4 | 1, 6 => 1/30
  | 2, 0 => 1/30 | 2, 1 => -2/5 | 2, 2 => -7/12 | 2, 3 => 4/3 | 2, 4 => -1/2 | 2, 5 => 2/15 | 2, 6 => -1/60
  | 3, 0 => -1/60 | 3, 1 => 3/20 | 3, 2 => -3/4 | 3, 3 => 0 | 3, 4 => 3/4 | 3, 5 => -3/20 | 3, 6 => 1/60
  | 4, 0 => 1/60 | 4, 1 => -2/15 | 4, 2 => 1/2 | 4, 3 => -4/3 | 4, 4 => 7/12 | 4, 5 => 2/5 | 4, 6 => -1/30
  | 5, 0 => -1/30 | 5, 1 => 1/4 | 5, 2 => -5/6 | 5, 3 => 5/3 | 5, 4 => -5/2 | 5, 5 => 77/60 | 5, 6 => 1/6
  | 6, 0 => 1/6 | 6, 1 => -6/5 | 6, 2 => 15/4 | 6, 3 => -20/3 | 6, 4 => 15/2 | 6, 5 => -6 | 6, 6 => 49/20
  | _, _ => 0

/-- coefficients of the second-derivative stencils on eight consecutive samples -/
def q2 : ℕ → ℕ → ℚ
  | 0, 0 => 469/90 | 0, 1 => -223/10 | 0, 2 => 879/20 | 0, 3 => -949/18 | 0, 4 => 41 | 0, 5 => -201/10 | 0, 6 => 1019/180 | 0, 7 => -7/10
  | 1, 0 => 7/10 | 1, 1 => -7/18 | 1, 2 => -27/10 | 1, 3 => 19/4 | 1, 4 => -67/18 | 1, 5 => 9/5 | 1, 6 => -1/2 | 1, 7 => 11/180
  | 2, 0 => -11/180 | 2, 1 => 107/90 | 2, 2 => -21/10 | 2, 3 => 13/18 | 2, 4 => 17/36 | 2, 5 => -3/10 | 2, 6 => 4/45 | 2, 7 => -1/90
  | 3, 0 => 1/90 | 3, 1 => -3/20 | 3, 2 => 3/2 | 3, 3 => -49/18 | 3, 4 => 3/2 | 3, 5 => -3/20 | 3, 6 => 1/90 | 3, 7 => 0
  | 5, 7 => -11/180 | 5, 6 => 107/90 | 5, 5 => -21/10 | 5, 4 => 13/18 | 5, 3 => 17/36 | 5, 2 => -3/10 | 5, 1 => 4/45 | 5, 0 => -1/90
  | 6, 7 => 7/10 | 6, 6 => -7/18 | 6, 5 => -27/10 | 6, 4 => 19/4 | 6, 3 => -67/18 | 6, 2 => 9/5 | 6, 1 => -1/2 | 6, 0 => 11/180
  | 7, 7 => 469/90 | 7, 6 => -223/10 | 7, 5 => 879/20 | 7, 4 => -949/18 | 7, 3 => 41 | 7, 2 => -201/10 | 7, 1 => 1019/180 | 7, 0 => -7/10
  | _, _ => 0

/-- `q1` as real numbers -/
noncomputable def c1 (s j : ℕ) : ℝ := (q1 s j : ℝ)
/-- `q2` as real numbers -/
noncomputable def c2 (s j : ℕ) : ℝ := (q2 s j : ℝ)

/-- first sample of the stencil of row `i` (first derivative) -/
def b1 (n i : ℕ) : ℕ := if i < 3 then 0 else if i < n - 3 then i - 3 else n - 7
/-- first sample of the stencil of row `i` (second derivative) -/
def b2 (n i : ℕ) : ℕ := if i < 3 then 0 else if i < n - 3 then i - 3 else n - 8

theorem derV_fin (fd : FD CR) {h : ℝ} (hdx : fd.dx = fin h) (hh : h ≠ 0) (hn : 7 ≤ fd.n) (u : ℕ → ℝ) {i : ℕ}
    (hi : i < fd.n) :
    derV fd (fun i => fin (u i)) i =
      fin ((∑ j ∈ Finset.range 7, c1 (i - b1 fd.n i) j * u (b1 fd.n i + j)) / h) := by
  unfold derV derE0 derE1 derE2 derI
  simp only [hdx]
  simp only [Finset.sum_range_succ, Finset.sum_range_zero]
  by_cases h0 : i = 0
  · subst h0; simp [b1, c1, q1, hh]; ring
  by_cases h1 : i = 1
  · subst h1; simp [b1, c1, q1, hh]; ring
  by_cases h2 : i = 2
  · subst h2; simp [b1, c1, q1, hh]; ring
  rw [if_neg h0, if_neg h1, if_neg h2]
  obtain ⟨n, lo, up, dx, nd⟩ := fd
  simp only at *
  obtain ⟨m, rfl⟩ : ∃ m, n = m + 7 := ⟨n - 7, by omega⟩
  by_cases hI : i < m + 7 - 3
  · rw [if_neg (by omega), if_neg (by omega), if_neg (by omega)]
    obtain ⟨k, rfl⟩ : ∃ k, i = k + 3 := ⟨i - 3, by omega⟩
    have e1 : b1 (m + 7) (k + 3) = k := by unfold b1; rw [if_neg (by omega), if_pos hI]; rfl
    have e2 : k + 3 - k = 3 := by omega
    rw [e1, e2]
    have e3 : k + 3 - 1 = k + 2 := by omega
    have e4 : k + 3 - 2 = k + 1 := by omega
    have e5 : k + 3 - 3 = k := by omega
    simp [c1, q1, hh, e3, e4, e5, add_assoc]; ring
  · have e1 : b1 (m + 7) i = m := by unfold b1; rw [if_neg (by omega), if_neg hI]; omega
    rw [e1]
    have a1 : m + 7 - 1 = m + 6 := by omega
    have a2 : m + 7 - 2 = m + 5 := by omega
    have a3 : m + 7 - 3 = m + 4 := by omega
    have a4 : m + 7 - 4 = m + 3 := by omega
    have a5 : m + 7 - 5 = m + 2 := by omega
    have a6 : m + 7 - 6 = m + 1 := by omega
    have a7 : m + 7 - 7 = m := by omega
    rw [a1, a2, a3, a4, a5, a6, a7]
    rcases (by omega : i = m + 6 ∨ i = m + 5 ∨ i = m + 4) with hc | hc | hc
    · subst hc
      have : m + 6 - m = 6 := by omega
      rw [this]
      simp [c1, q1, hh]; ring
    · subst hc
      have : m + 5 - m = 5 := by omega
      rw [this]
      simp [c1, q1, hh]; ring
    · subst hc
      have : m + 4 - m = 4 := by omega
      rw [this]
      simp [c1, q1, hh]; ring

theorem der2V_fin (fd : FD CR) {h : ℝ} (hdx : fd.dx = fin h) (hh : h ≠ 0) (hn : 8 ≤ fd.n) (u : ℕ → ℝ) {i : ℕ}
    (hi : i < fd.n) :
    der2V fd (fun i => fin (u i)) i =
      fin ((∑ j ∈ Finset.range 8, c2 (i - b2 fd.n i) j * u (b2 fd.n i + j)) / h ^ 2) := by
  unfold der2V der2E0 der2E1 der2E2 der2I
  simp only [hdx]
  simp only [Finset.sum_range_succ, Finset.sum_range_zero]
  by_cases h0 : i = 0
  · subst h0; simp [b2, c2, q2, hh]; ring
  by_cases h1 : i = 1
  · subst h1; simp [b2, c2, q2, hh]; ring
  by_cases h2 : i = 2
  · subst h2; simp [b2, c2, q2, hh]; ring
  rw [if_neg h0, if_neg h1, if_neg h2]
  obtain ⟨n, lo, up, dx, nd⟩ := fd
  simp only at *
  obtain ⟨m, rfl⟩ : ∃ m, n = m + 8 := ⟨n - 8, by omega⟩
  by_cases hI : i < m + 8 - 3
  · rw [if_neg (by omega), if_neg (by omega), if_neg (by omega)]
    obtain ⟨k, rfl⟩ : ∃ k, i = k + 3 := ⟨i - 3, by omega⟩
    have e1 : b2 (m + 8) (k + 3) = k := by unfold b2; rw [if_neg (by omega), if_pos hI]; rfl
    have e2 : k + 3 - k = 3 := by omega
    rw [e1, e2]
    have e3 : k + 3 - 1 = k + 2 := by omega
    have e4 : k + 3 - 2 = k + 1 := by omega
    have e5 : k + 3 - 3 = k := by omega
    simp [c2, q2, hh, e3, e4, e5, add_assoc]; ring
  · have e1 : b2 (m + 8) i = m := by unfold b2; rw [if_neg (by omega), if_neg hI]; omega
    rw [e1]
    have a1 : m + 8 - 1 = m + 7 := by omega
    have a2 : m + 8 - 2 = m + 6 := by omega
    have a3 : m + 8 - 3 = m + 5 := by omega
    have a4 : m + 8 - 4 = m + 4 := by omega
    have a5 : m + 8 - 5 = m + 3 := by omega
    have a6 : m + 8 - 6 = m + 2 := by omega
    have a7 : m + 8 - 7 = m + 1 := by omega
    have a8 : m + 8 - 8 = m := by omega
    rw [a1, a2, a3, a4, a5, a6, a7, a8]
    rcases (by omega : i = m + 7 ∨ i = m + 6 ∨ i = m + 5) with hc | hc | hc
    · subst hc
      have : m + 7 - m = 7 := by omega
      rw [this]
      simp [c2, q2, hh]; ring
    · subst hc
      have : m + 6 - m = 6 := by omega
      rw [this]
      simp [c2, q2, hh]; ring
    · subst hc
      have : m + 5 - m = 5 := by omega
      rw [this]
      simp [c2, q2, hh]; ring

/-- offsets occurring in the first-derivative stencils -/
theorem b1_spec {n i : ℕ} (hn : 7 ≤ n) (hi : i < n) : b1 n i + 6 < n ∧ b1 n i ≤ i ∧ i - b1 n i ≤ 6 := by
  unfold b1; split
  · omega
  · split <;> omega

theorem b2_spec {n i : ℕ} (hn : 8 ≤ n) (hi : i < n) : b2 n i ≤ i ∧
    (b2 n i + 6 < n ∧ i - b2 n i = 3 ∨ b2 n i + 7 < n ∧ (i - b2 n i = 0 ∨ i - b2 n i = 1 ∨ i - b2 n i = 2 ∨
      i - b2 n i = 5 ∨ i - b2 n i = 6 ∨ i - b2 n i = 7)) := by
  unfold b2; split
  · omega
  · split <;> omega

theorem q1_moment : ∀ s : ℕ, s < 7 → ∀ k : ℕ, k < 7 →
    ∑ j ∈ Finset.range 7, q1 s j * (j : ℚ) ^ k = (k : ℚ) * (s : ℚ) ^ (k - 1) := by
  decide +kernel

theorem q2_moment : ∀ s : ℕ, s < 8 → s ≠ 4 → ∀ k : ℕ, k < 8 →
    ∑ j ∈ Finset.range 8, q2 s j * (j : ℚ) ^ k = (k : ℚ) * ((k : ℚ) - 1) * (s : ℚ) ^ (k - 2) := by
  decide +kernel

/-- absolute value by cases (reduces in the kernel) -/
def absq (q : ℚ) : ℚ := if 0 ≤ q then q else -q

theorem absq_eq (q : ℚ) : absq q = |q| := by
  unfold absq
  split
  · rw [abs_of_nonneg ‹_›]
  · rw [abs_of_neg (not_le.mp ‹_›)]

theorem q1_abs : ∀ s : ℕ, s < 7 →
    (∑ j ∈ Finset.range 7, absq (q1 s j) * (j : ℚ) ^ 7) / 720 + (s : ℚ) ^ 6 / 120 ≤ 2200 := by
  decide +kernel

theorem q2_abs : ∀ s : ℕ, s < 8 → s ≠ 4 →
    (∑ j ∈ Finset.range 8, absq (q2 s j) * (j : ℚ) ^ 8) / 5040 + (s : ℚ) ^ 6 / 120 ≤ 18600 := by
  decide +kernel

theorem c1_moment (s : ℕ) (hs : s ≤ 6) (k : ℕ) (hk : k < 7) :
    ∑ j ∈ Finset.range 7, c1 s j * (j : ℝ) ^ k = (k : ℝ) * (s : ℝ) ^ (k - 1) := by
  have := q1_moment s (by omega) k hk
  unfold c1
  exact_mod_cast this

theorem c2_moment (s : ℕ) (hs : s ≤ 7) (hs4 : s ≠ 4) (k : ℕ) (hk : k < 8) :
    ∑ j ∈ Finset.range 8, c2 s j * (j : ℝ) ^ k = (k : ℝ) * ((k : ℝ) - 1) * (s : ℝ) ^ (k - 2) := by
  have := q2_moment s (by omega) hs4 k hk
  unfold c2
  exact_mod_cast this

/-- the seven-point stencils differentiate polynomials of degree 6 exactly -/
theorem c1_exact (a : ℕ → ℝ) (h : ℝ) (hh : h ≠ 0) (s : ℕ) (hs : s ≤ 6) :
    (∑ j ∈ Finset.range 7, c1 s j * ∑ k ∈ Finset.range 7, a k * ((j : ℝ) * h) ^ k) / h =
      ∑ k ∈ Finset.range 6, ((k : ℝ) + 1) * a (k + 1) * ((s : ℝ) * h) ^ k := by
  have e : ∑ j ∈ Finset.range 7, c1 s j * ∑ k ∈ Finset.range 7, a k * ((j : ℝ) * h) ^ k =
      ∑ k ∈ Finset.range 7, a k * h ^ k * ((k : ℝ) * (s : ℝ) ^ (k - 1)) := by
    simp only [Finset.mul_sum]
    rw [Finset.sum_comm]
    apply Finset.sum_congr rfl
    intro k hk
    rw [← c1_moment s hs k (Finset.mem_range.mp hk), Finset.mul_sum]
    apply Finset.sum_congr rfl
    intro j _
    rw [mul_pow]; ring
  rw [e, Finset.sum_range_succ']
  simp only [Nat.cast_zero, zero_mul, mul_zero, add_zero]
  rw [Finset.sum_div]
  apply Finset.sum_congr rfl
  intro k _
  rw [Nat.add_sub_cancel, mul_pow]
  push_cast
  field_simp
  ring

theorem c2_exact (a : ℕ → ℝ) (h : ℝ) (hh : h ≠ 0) (s : ℕ) (hs : s ≤ 7) (hs4 : s ≠ 4) :
    (∑ j ∈ Finset.range 8, c2 s j * ∑ k ∈ Finset.range 8, a k * ((j : ℝ) * h) ^ k) / h ^ 2 =
      ∑ k ∈ Finset.range 6, ((k : ℝ) + 1) * ((k : ℝ) + 2) * a (k + 2) * ((s : ℝ) * h) ^ k := by
  have e : ∑ j ∈ Finset.range 8, c2 s j * ∑ k ∈ Finset.range 8, a k * ((j : ℝ) * h) ^ k =
      ∑ k ∈ Finset.range 8, a k * h ^ k * ((k : ℝ) * ((k : ℝ) - 1) * (s : ℝ) ^ (k - 2)) := by
    simp only [Finset.mul_sum]
    rw [Finset.sum_comm]
    apply Finset.sum_congr rfl
    intro k hk
    rw [← c2_moment s hs hs4 k (Finset.mem_range.mp hk), Finset.mul_sum]
    apply Finset.sum_congr rfl
    intro j _
    rw [mul_pow]; ring
  rw [e, Finset.sum_range_succ', Finset.sum_range_succ']
  simp only [Nat.cast_zero, zero_mul, mul_zero, add_zero, zero_add, Nat.cast_one, sub_self]
  rw [Finset.sum_div]
  apply Finset.sum_congr rfl
  intro k _
  have : k + 1 + 1 - 2 = k := by omega
  rw [this, mul_pow]
  push_cast
  field_simp
  ring

theorem c1_abs (s : ℕ) (hs : s ≤ 6) :
    (∑ j ∈ Finset.range 7, |c1 s j| * ((j : ℝ)) ^ 7) / 720 + (s : ℝ) ^ 6 / 120 ≤ 2200 := by
  have h := q1_abs s (by omega)
  simp only [absq_eq] at h
  have h2 := (Rat.cast_le (K := ℝ)).mpr h
  push_cast at h2
  exact h2

theorem c2_abs (s : ℕ) (hs : s ≤ 7) (hs4 : s ≠ 4) :
    (∑ j ∈ Finset.range 8, |c2 s j| * ((j : ℝ)) ^ 8) / 5040 + (s : ℝ) ^ 6 / 120 ≤ 18600 := by
  have h := q2_abs s (by omega) hs4
  simp only [absq_eq] at h
  have h2 := (Rat.cast_le (K := ℝ)).mpr h
  push_cast at h2
  exact h2

theorem poly_eval_taylor (P : ℝ[X]) {N : ℕ} (hP : P.natDegree < N) (y t : ℝ) :
    P.eval (y + t) = ∑ k ∈ Finset.range N, (taylor y P).coeff k * t ^ k := by
  have h1 : (taylor y P).eval t = P.eval (y + t) := by
    rw [taylor_eval, add_comm]
  rw [← h1, eval_eq_sum_range' (by rw [natDegree_taylor]; exact hP)]

theorem taylor_der (P : ℝ[X]) (y : ℝ) (k : ℕ) :
    (taylor y (derivative P)).coeff k = ((k : ℝ) + 1) * (taylor y P).coeff (k + 1) := by
  have : taylor y (derivative P) = derivative (taylor y P) := by
    simp [taylor_apply, derivative_comp]
  rw [this, coeff_derivative]; ring

/-- Taylor bound from the left end point, in terms of the (unrestricted) iterated derivatives -/
theorem taylor_bound {f : ℝ → ℝ} {N : ℕ} {y t M : ℝ} (ht : 0 ≤ t)
    (hf : ∀ z ∈ Set.Icc y (y + t), ContDiffAt ℝ (N + 1) f z)
    (hM : ∀ z ∈ Set.Icc y (y + t), |iteratedDeriv (N + 1) f z| ≤ M) :
    |f (y + t) - ∑ k ∈ Finset.range (N + 1), (iteratedDeriv k f y / (k.factorial : ℝ)) * t ^ k| ≤
      M * t ^ (N + 1) / (N.factorial : ℝ) := by
  rcases eq_or_lt_of_le ht with h0 | h0
  · subst h0
    rw [Finset.sum_range_succ']
    simp
  · have hud := uniqueDiffOn_Icc (by linarith : y < y + t)
    have hcd : ContDiffOn ℝ (N + 1) f (Set.Icc y (y + t)) := fun z hz => (hf z hz).contDiffWithinAt
    have hl : y ∈ Set.Icc y (y + t) := ⟨le_refl _, by linarith⟩
    have hr : y + t ∈ Set.Icc y (y + t) := ⟨by linarith, le_refl _⟩
    have key := taylor_mean_remainder_bound (C := M) (by linarith : y ≤ y + t) hcd hr (by
      intro z hz
      rw [iteratedDerivWithin_eq_iteratedDeriv hud (by exact_mod_cast hf z hz) hz]
      exact hM z hz)
    rw [taylor_within_apply] at key
    have e : ∑ k ∈ Finset.range (N + 1), ((k.factorial : ℝ)⁻¹ * (y + t - y) ^ k) •
        iteratedDerivWithin k f (Set.Icc y (y + t)) y =
        ∑ k ∈ Finset.range (N + 1), (iteratedDeriv k f y / (k.factorial : ℝ)) * t ^ k := by
      apply Finset.sum_congr rfl
      intro k hk
      have hk' : k < N + 1 := Finset.mem_range.mp hk
      rw [iteratedDerivWithin_eq_iteratedDeriv hud ((hf y hl).of_le (by exact_mod_cast hk'.le)) hl]
      simp only [smul_eq_mul, add_sub_cancel_left]
      field_simp
    rw [e] at key
    simpa using key

end FD
end SFK
