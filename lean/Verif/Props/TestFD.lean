import Verif.Lemmas.FDTest
import Verif.Props.TestLines
/-
C101, continued: the test `derivatives` of test_finite_diff.cpp in exact arithmetic.
-/
namespace SFK
open Scalar CR Polynomial

namespace FDTest

theorem sumQ_cast (f : ℕ → ℚ) (n : ℕ) : ((sumQ f n : ℚ) : ℝ) = ∑ i ∈ Finset.range n, ((f i : ℚ) : ℝ) := by
  induction n with
  | zero => simp [sumQ]
  | succ n ih => rw [Finset.sum_range_succ, ← ih, sumQ]; push_cast; rfl

theorem absQ_cast (x : ℚ) : ((absQ x : ℚ) : ℝ) = |(x : ℝ)| := by
  unfold absQ
  split_ifs with h
  · rw [abs_of_neg (by exact_mod_cast h)]; push_cast; rfl
  · rw [abs_of_nonneg (by exact_mod_cast not_lt.mp h)]

theorem sum_pairs (f : ℕ → ℝ) (n : ℕ) : ∑ m ∈ Finset.range (2 * n), f m = ∑ k ∈ Finset.range n, (f (2 * k) + f (2 * k + 1)) := by
  induction n with
  | zero => simp
  | succ n ih => rw [Finset.sum_range_succ, ← ih, show 2 * (n + 1) = 2 * n + 1 + 1 by omega, Finset.sum_range_succ, Finset.sum_range_succ, add_assoc]

theorem I_even (k : ℕ) : Complex.I ^ (2 * k) = (((-1) ^ k : ℝ) : ℂ) := by
  rw [pow_mul, Complex.I_sq]
  push_cast
  rfl

theorem sinQ_cast (q : ℚ) : ((sinQ q : ℚ) : ℝ) = (sinP 22).eval (q : ℝ) := by
  unfold sinQ sinP
  rw [sumQ_cast, eval_finsetSum, show (22 : ℕ) = 2 * 11 from rfl, sum_pairs]
  refine Finset.sum_congr rfl fun k _ => ?_
  rw [pow_succ Complex.I, I_even, Complex.im_ofReal_mul, Complex.I_im, Complex.ofReal_im, mul_one, eval_mul, eval_mul, eval_C, eval_C, eval_pow, eval_pow, eval_X]
  push_cast
  ring

theorem cosQ_cast (q : ℚ) : ((cosQ q : ℚ) : ℝ) = (cosP 22).eval (q : ℝ) := by
  unfold cosQ cosP
  rw [sumQ_cast, eval_finsetSum, show (22 : ℕ) = 2 * 11 from rfl, sum_pairs]
  refine Finset.sum_congr rfl fun k _ => ?_
  rw [pow_succ Complex.I, I_even, Complex.re_ofReal_mul, Complex.I_re, Complex.ofReal_re, mul_zero, eval_mul, eval_mul, eval_C, eval_C, eval_pow, eval_pow, eval_X]
  push_cast
  ring

/-- bound on the error of the Taylor polynomials used -/
noncomputable def del : ℝ := 1 / 10 ^ 20

theorem sin_near {q : ℚ} (h0 : 0 ≤ q) (h1 : q ≤ 1) : |Real.sin q - ((sinQ q : ℚ) : ℝ)| ≤ del ∧ |Real.cos q - ((cosQ q : ℚ) : ℝ)| ≤ del := by
  have hq : |(q : ℝ)| ≤ 1 := by rw [abs_of_nonneg (by exact_mod_cast h0)]; exact_mod_cast h1
  obtain ⟨a, b⟩ := taylor_bound (n := 22) (by norm_num) hq
  have hd : (((22 : ℕ) : ℝ) + 1) / (((22 : ℕ).factorial : ℝ) * ((22 : ℕ) : ℝ)) ≤ del := by
    unfold del
    rw [show ((22 : ℕ).factorial : ℝ) = 1124000727777607680000 by norm_num [Nat.factorial]]
    norm_num
  rw [sinQ_cast, cosQ_cast]
  exact ⟨a.trans hd, b.trans hd⟩

theorem stencil_near {m : ℕ} {c u U : ℕ → ℝ} {C d : ℝ} (hC : ∑ j ∈ Finset.range m, |c j| ≤ C) (hd : 0 ≤ d) (h : ∀ j, j < m → |u j - U j| ≤ d) :
    |∑ j ∈ Finset.range m, c j * u j - ∑ j ∈ Finset.range m, c j * U j| ≤ C * d := by
  rw [← Finset.sum_sub_distrib]
  refine (Finset.abs_sum_le_sum_abs _ _).trans ?_
  refine le_trans ?_ (mul_le_mul_of_nonneg_right hC hd)
  rw [Finset.sum_mul]
  refine Finset.sum_le_sum fun j hj => ?_
  rw [← mul_sub, abs_mul]
  exact mul_le_mul_of_nonneg_left (h j (Finset.mem_range.mp hj)) (abs_nonneg _)

theorem q1_sum : ∀ s : ℕ, s ≤ 6 → sumQ (fun j => absQ (FD.q1 s j)) 7 ≤ 28 := by decide +kernel
theorem q2_sum : ∀ s : ℕ, s ≤ 7 → sumQ (fun j => absQ (FD.q2 s j)) 8 ≤ 192 := by decide +kernel

theorem c1_sum {s : ℕ} (hs : s ≤ 6) : ∑ j ∈ Finset.range 7, |FD.c1 s j| ≤ 28 := by
  have h : ((sumQ (fun j => absQ (FD.q1 s j)) 7 : ℚ) : ℝ) ≤ 28 := by exact_mod_cast q1_sum s hs
  rw [sumQ_cast] at h
  simp only [absQ_cast] at h
  exact h

theorem c2_sum {s : ℕ} (hs : s ≤ 7) : ∑ j ∈ Finset.range 8, |FD.c2 s j| ≤ 192 := by
  have h : ((sumQ (fun j => absQ (FD.q2 s j)) 8 : ℚ) : ℝ) ≤ 192 := by exact_mod_cast q2_sum s hs
  rw [sumQ_cast] at h
  simp only [absQ_cast] at h
  exact h

/-- the test function at point `i` of `n` -/
noncomputable def vT (n i : ℕ) : ℝ := (i : ℝ) / ((n : ℝ) - 1) * Real.sin ((i : ℝ) / ((n : ℝ) - 1))
/-- its derivative -/
noncomputable def dvT (n i : ℕ) : ℝ := (i : ℝ) / ((n : ℝ) - 1) * Real.cos ((i : ℝ) / ((n : ℝ) - 1)) + Real.sin ((i : ℝ) / ((n : ℝ) - 1))
/-- its second derivative -/
noncomputable def ddvT (n i : ℕ) : ℝ := -((i : ℝ) / ((n : ℝ) - 1)) * Real.sin ((i : ℝ) / ((n : ℝ) - 1)) + 2 * Real.cos ((i : ℝ) / ((n : ℝ) - 1))

section
variable {n i : ℕ} (hn : 8 ≤ n) (hi : i < n)
include hn hi

theorem node_q : 0 ≤ (i : ℚ) / ((n - 1 : ℕ) : ℚ) ∧ (i : ℚ) / ((n - 1 : ℕ) : ℚ) ≤ 1 ∧ (((i : ℚ) / ((n - 1 : ℕ) : ℚ) : ℚ) : ℝ) = (i : ℝ) / ((n : ℝ) - 1) := by
  have hp : (0 : ℚ) < ((n - 1 : ℕ) : ℚ) := by exact_mod_cast (by omega : 0 < n - 1)
  refine ⟨by positivity, ?_, ?_⟩
  · rw [div_le_one hp]
    exact_mod_cast (by omega : i ≤ n - 1)
  · push_cast [Nat.cast_sub (by omega : 1 ≤ n)]
    rfl

theorem vT_near : |vT n i - (((i : ℚ) / ((n - 1 : ℕ) : ℚ) * sinQ ((i : ℚ) / ((n - 1 : ℕ) : ℚ)) : ℚ) : ℝ)| ≤ del := by
  obtain ⟨h0, h1, h2⟩ := node_q hn hi
  generalize (i : ℚ) / ((n - 1 : ℕ) : ℚ) = q at *
  unfold vT
  rw [← h2, Rat.cast_mul, ← mul_sub, abs_mul, abs_of_nonneg (by exact_mod_cast h0)]
  exact (mul_le_of_le_one_left (abs_nonneg _) (by exact_mod_cast h1)).trans (sin_near h0 h1).1

theorem dvT_near : |dvT n i - (((i : ℚ) / ((n - 1 : ℕ) : ℚ) * cosQ ((i : ℚ) / ((n - 1 : ℕ) : ℚ)) + sinQ ((i : ℚ) / ((n - 1 : ℕ) : ℚ)) : ℚ) : ℝ)| ≤ 2 * del := by
  obtain ⟨h0, h1, h2⟩ := node_q hn hi
  generalize (i : ℚ) / ((n - 1 : ℕ) : ℚ) = q at *
  unfold dvT
  rw [← h2, Rat.cast_add, Rat.cast_mul]
  obtain ⟨a, b⟩ := sin_near h0 h1
  rw [show (q : ℝ) * Real.cos q + Real.sin q - ((q : ℝ) * (cosQ q : ℝ) + (sinQ q : ℝ)) = (q : ℝ) * (Real.cos q - (cosQ q : ℝ)) + (Real.sin q - (sinQ q : ℝ)) by ring]
  refine (abs_add_le _ _).trans ?_
  rw [abs_mul, abs_of_nonneg (by exact_mod_cast h0)]
  have := (mul_le_of_le_one_left (abs_nonneg (Real.cos q - (cosQ q : ℝ))) (by exact_mod_cast h1 : (q : ℝ) ≤ 1)).trans b
  linarith

theorem ddvT_near : |ddvT n i - ((-((i : ℚ) / ((n - 1 : ℕ) : ℚ)) * sinQ ((i : ℚ) / ((n - 1 : ℕ) : ℚ)) + 2 * cosQ ((i : ℚ) / ((n - 1 : ℕ) : ℚ)) : ℚ) : ℝ)| ≤ 3 * del := by
  obtain ⟨h0, h1, h2⟩ := node_q hn hi
  generalize (i : ℚ) / ((n - 1 : ℕ) : ℚ) = q at *
  unfold ddvT
  rw [← h2, Rat.cast_add, Rat.cast_mul, Rat.cast_mul, Rat.cast_neg, Rat.cast_ofNat]
  obtain ⟨a, b⟩ := sin_near h0 h1
  rw [show -(q : ℝ) * Real.sin q + 2 * Real.cos q - (-(q : ℝ) * (sinQ q : ℝ) + 2 * (cosQ q : ℝ)) = 2 * (Real.cos q - (cosQ q : ℝ)) + -((q : ℝ) * (Real.sin q - (sinQ q : ℝ))) by ring]
  refine (abs_add_le _ _).trans ?_
  rw [abs_neg, abs_mul, abs_mul, abs_of_nonneg (by exact_mod_cast h0 : (0 : ℝ) ≤ q), abs_of_nonneg (by norm_num : (0 : ℝ) ≤ 2)]
  have := (mul_le_of_le_one_left (abs_nonneg (Real.sin q - (sinQ q : ℝ))) (by exact_mod_cast h1 : (q : ℝ) ≤ 1)).trans a
  linarith

end

/-- the numerical first derivative of the test function -/
noncomputable def numD (n i : ℕ) : ℝ := (∑ j ∈ Finset.range 7, FD.c1 (i - FD.b1 n i) j * vT n (FD.b1 n i + j)) / ((1 - 0) / ((n : ℝ) - 1))
/-- the numerical second derivative of the test function -/
noncomputable def numDD (n i : ℕ) : ℝ := (∑ j ∈ Finset.range 8, FD.c2 (i - FD.b2 n i) j * vT n (FD.b2 n i + j)) / ((1 - 0) / ((n : ℝ) - 1)) ^ 2

theorem abs_near {a b d : ℝ} (h : |a - b| ≤ d) : |a| ≤ |b| + d ∧ |b| - d ≤ |a| := by
  have := abs_abs_sub_abs_le_abs_sub a b
  have h2 := abs_le.mp (this.trans h)
  constructor <;> linarith [h2.1, h2.2]

section
variable {n i : ℕ} (hn : 8 ≤ n) (hN : n ≤ 65) (hi : i < n)
include hn hN hi

theorem num1_near : |dvT n i - numD n i - ((-(err1 n i) : ℚ) : ℝ)| ≤ 1 / 10 ^ 15 := by
  obtain ⟨b1, b2, b3⟩ := FD.b1_spec (by omega : 7 ≤ n) hi
  have hs := stencil_near (c := FD.c1 (i - FD.b1 n i)) (u := fun j => vT n (FD.b1 n i + j)) (c1_sum b3) (by unfold del; positivity)
    (fun j hj => vT_near hn (i := FD.b1 n i + j) (by omega))
  have hd := dvT_near hn hi
  have hp : (0 : ℝ) < (n : ℝ) - 1 := by
    have : (8 : ℝ) ≤ n := by exact_mod_cast hn
    linarith
  have hle : (n : ℝ) - 1 ≤ 64 := by
    have : (n : ℝ) ≤ 65 := by exact_mod_cast hN
    linarith
  have e1 : ((n - 1 : ℕ) : ℝ) = (n : ℝ) - 1 := by push_cast [Nat.cast_sub (by omega : 1 ≤ n)]; rfl
  have hnum : numD n i = (∑ j ∈ Finset.range 7, FD.c1 (i - FD.b1 n i) j * vT n (FD.b1 n i + j)) * ((n : ℝ) - 1) := by
    unfold numD
    rw [sub_zero, div_div_eq_mul_div, div_one]
  have herr : ((err1 n i : ℚ) : ℝ) = (∑ j ∈ Finset.range 7, FD.c1 (i - FD.b1 n i) j *
      (((((FD.b1 n i + j : ℕ) : ℚ) / ((n - 1 : ℕ) : ℚ) * sinQ (((FD.b1 n i + j : ℕ) : ℚ) / ((n - 1 : ℕ) : ℚ)) : ℚ) : ℝ))) * ((n : ℝ) - 1)
      - (((i : ℚ) / ((n - 1 : ℕ) : ℚ) * cosQ ((i : ℚ) / ((n - 1 : ℕ) : ℚ)) + sinQ ((i : ℚ) / ((n - 1 : ℕ) : ℚ)) : ℚ) : ℝ) := by
    unfold err1
    rw [Rat.cast_sub, Rat.cast_mul, sumQ_cast, Rat.cast_natCast, e1]
    simp only [Rat.cast_mul, FD.c1]
  rw [hnum, Rat.cast_neg, herr]
  generalize (∑ j ∈ Finset.range 7, FD.c1 (i - FD.b1 n i) j * vT n (FD.b1 n i + j)) = A at *
  generalize (∑ j ∈ Finset.range 7, FD.c1 (i - FD.b1 n i) j *
      (((((FD.b1 n i + j : ℕ) : ℚ) / ((n - 1 : ℕ) : ℚ) * sinQ (((FD.b1 n i + j : ℕ) : ℚ) / ((n - 1 : ℕ) : ℚ)) : ℚ) : ℝ))) = B at *
  generalize ((((i : ℚ) / ((n - 1 : ℕ) : ℚ) * cosQ ((i : ℚ) / ((n - 1 : ℕ) : ℚ)) + sinQ ((i : ℚ) / ((n - 1 : ℕ) : ℚ)) : ℚ) : ℝ)) = D at *
  rw [show dvT n i - A * ((n : ℝ) - 1) - -(B * ((n : ℝ) - 1) - D) = (dvT n i - D) + -((A - B) * ((n : ℝ) - 1)) by ring]
  refine (abs_add_le _ _).trans ?_
  rw [abs_neg, abs_mul, abs_of_pos hp]
  have h3 : |A - B| * ((n : ℝ) - 1) ≤ 28 * del * 64 := mul_le_mul hs hle hp.le (by unfold del; positivity)
  refine (add_le_add hd h3).trans ?_
  unfold del
  norm_num

theorem num2_near : |ddvT n i - numDD n i - ((-(err2 n i) : ℚ) : ℝ)| ≤ 1 / 10 ^ 13 := by
  have hb2 : i - FD.b2 n i ≤ 7 ∧ ∀ j, j < 8 → (FD.b2 n i + j < n ∨ FD.c2 (i - FD.b2 n i) j = 0) := by
    obtain ⟨a, b⟩ := FD.b2_spec hn hi
    rcases b with ⟨b, c⟩ | ⟨b, c⟩
    · refine ⟨by omega, fun j hj => ?_⟩
      by_cases h7 : j = 7
      · right
        rw [h7, c]
        simp [FD.c2, FD.q2]
      · left
        omega
    · exact ⟨by omega, fun j hj => Or.inl (by omega)⟩
  have hs : |∑ j ∈ Finset.range 8, FD.c2 (i - FD.b2 n i) j * vT n (FD.b2 n i + j) - ∑ j ∈ Finset.range 8, FD.c2 (i - FD.b2 n i) j *
      (((((FD.b2 n i + j : ℕ) : ℚ) / ((n - 1 : ℕ) : ℚ) * sinQ (((FD.b2 n i + j : ℕ) : ℚ) / ((n - 1 : ℕ) : ℚ)) : ℚ) : ℝ))| ≤ 192 * del := by
    rw [← Finset.sum_sub_distrib]
    refine (Finset.abs_sum_le_sum_abs _ _).trans ?_
    refine le_trans ?_ (mul_le_mul_of_nonneg_right (c2_sum hb2.1) (by unfold del; positivity))
    rw [Finset.sum_mul]
    refine Finset.sum_le_sum fun j hj => ?_
    rw [← mul_sub, abs_mul]
    rcases hb2.2 j (Finset.mem_range.mp hj) with h | h
    · exact mul_le_mul_of_nonneg_left (vT_near hn h) (abs_nonneg _)
    · rw [h, abs_zero, zero_mul, zero_mul]
  have hd := ddvT_near hn hi
  have hp : (0 : ℝ) < (n : ℝ) - 1 := by
    have : (8 : ℝ) ≤ n := by exact_mod_cast hn
    linarith
  have hle : ((n : ℝ) - 1) ^ 2 ≤ 64 ^ 2 := by
    have : (n : ℝ) ≤ 65 := by exact_mod_cast hN
    exact pow_le_pow_left₀ hp.le (by linarith) 2
  have e1 : ((n - 1 : ℕ) : ℝ) = (n : ℝ) - 1 := by push_cast [Nat.cast_sub (by omega : 1 ≤ n)]; rfl
  have hnum : numDD n i = (∑ j ∈ Finset.range 8, FD.c2 (i - FD.b2 n i) j * vT n (FD.b2 n i + j)) * ((n : ℝ) - 1) ^ 2 := by
    unfold numDD
    rw [sub_zero, div_pow, one_pow, div_div_eq_mul_div, div_one]
  have herr : ((err2 n i : ℚ) : ℝ) = (∑ j ∈ Finset.range 8, FD.c2 (i - FD.b2 n i) j *
      (((((FD.b2 n i + j : ℕ) : ℚ) / ((n - 1 : ℕ) : ℚ) * sinQ (((FD.b2 n i + j : ℕ) : ℚ) / ((n - 1 : ℕ) : ℚ)) : ℚ) : ℝ))) * ((n : ℝ) - 1) ^ 2
      - ((-((i : ℚ) / ((n - 1 : ℕ) : ℚ)) * sinQ ((i : ℚ) / ((n - 1 : ℕ) : ℚ)) + 2 * cosQ ((i : ℚ) / ((n - 1 : ℕ) : ℚ)) : ℚ) : ℝ) := by
    unfold err2
    rw [Rat.cast_sub, Rat.cast_mul, sumQ_cast, Rat.cast_pow, Rat.cast_natCast, e1]
    simp only [Rat.cast_mul, FD.c2]
  rw [hnum, Rat.cast_neg, herr]
  generalize (∑ j ∈ Finset.range 8, FD.c2 (i - FD.b2 n i) j * vT n (FD.b2 n i + j)) = A at *
  generalize (∑ j ∈ Finset.range 8, FD.c2 (i - FD.b2 n i) j *
      (((((FD.b2 n i + j : ℕ) : ℚ) / ((n - 1 : ℕ) : ℚ) * sinQ (((FD.b2 n i + j : ℕ) : ℚ) / ((n - 1 : ℕ) : ℚ)) : ℚ) : ℝ))) = B at *
  generalize (((-((i : ℚ) / ((n - 1 : ℕ) : ℚ)) * sinQ ((i : ℚ) / ((n - 1 : ℕ) : ℚ)) + 2 * cosQ ((i : ℚ) / ((n - 1 : ℕ) : ℚ)) : ℚ) : ℝ)) = D at *
  rw [show ddvT n i - A * ((n : ℝ) - 1) ^ 2 - -(B * ((n : ℝ) - 1) ^ 2 - D) = (ddvT n i - D) + -((A - B) * ((n : ℝ) - 1) ^ 2) by ring]
  refine (abs_add_le _ _).trans ?_
  rw [abs_neg, abs_mul, abs_of_pos (by positivity : (0 : ℝ) < ((n : ℝ) - 1) ^ 2)]
  have h3 : |A - B| * ((n : ℝ) - 1) ^ 2 ≤ 192 * del * 64 ^ 2 := mul_le_mul hs hle (by positivity) (by unfold del; positivity)
  refine (add_le_add hd h3).trans ?_
  unfold del
  norm_num

end

theorem sum_near {n : ℕ} {f : ℕ → ℝ} {g : ℕ → ℚ} {d : ℝ} (h : ∀ i, i < n → |f i - ((-(g i) : ℚ) : ℝ)| ≤ d) :
    ∑ i ∈ Finset.range n, |f i| ≤ ((sumQ (fun i => absQ (g i)) n : ℚ) : ℝ) + n * d ∧ ((sumQ (fun i => absQ (g i)) n : ℚ) : ℝ) - n * d ≤ ∑ i ∈ Finset.range n, |f i| := by
  rw [sumQ_cast]
  have hc : (n : ℝ) * d = ∑ _i ∈ Finset.range n, d := by rw [Finset.sum_const, Finset.card_range, nsmul_eq_mul]
  have key : ∀ i, i < n → |f i| ≤ ((absQ (g i) : ℚ) : ℝ) + d ∧ ((absQ (g i) : ℚ) : ℝ) - d ≤ |f i| := by
    intro i hi
    have := abs_near (h i hi)
    rwa [Rat.cast_neg, abs_neg, ← absQ_cast] at this
  rw [hc]
  constructor
  · rw [← Finset.sum_add_distrib]
    exact Finset.sum_le_sum fun i hi => (key i (Finset.mem_range.mp hi)).1
  · rw [← Finset.sum_sub_distrib]
    exact Finset.sum_le_sum fun i hi => (key i (Finset.mem_range.mp hi)).2

theorem err_first : (∑ i ∈ Finset.range 65, |dvT 65 i - numD 65 i|) / 65 < 1 / 64 * ((∑ i ∈ Finset.range 33, |dvT 33 i - numD 33 i|) / 33) := by
  obtain ⟨a, -⟩ := sum_near (n := 65) (f := fun i => dvT 65 i - numD 65 i) (g := err1 65) (fun i hi => num1_near (by norm_num) (by norm_num) hi)
  obtain ⟨-, b⟩ := sum_near (n := 33) (f := fun i => dvT 33 i - numD 33 i) (g := err1 33) (fun i hi => num1_near (by norm_num) (by norm_num) hi)
  have c1 : ((sumQ (fun i => absQ (err1 65 i)) 65 : ℚ) : ℝ) < ((40 / 10 ^ 12 : ℚ) : ℝ) := by exact_mod_cast cert65_1
  have c2 : ((17 / 10 ^ 10 : ℚ) : ℝ) < ((sumQ (fun i => absQ (err1 33 i)) 33 : ℚ) : ℝ) := by exact_mod_cast cert33_1
  push_cast at c1 c2 a b
  linarith

theorem err_second : (∑ i ∈ Finset.range 65, |ddvT 65 i - numDD 65 i|) / 65 < 1 / 64 * ((∑ i ∈ Finset.range 33, |ddvT 33 i - numDD 33 i|) / 33) := by
  obtain ⟨a, -⟩ := sum_near (n := 65) (f := fun i => ddvT 65 i - numDD 65 i) (g := err2 65) (fun i hi => num2_near (by norm_num) (by norm_num) hi)
  obtain ⟨-, b⟩ := sum_near (n := 33) (f := fun i => ddvT 33 i - numDD 33 i) (g := err2 33) (fun i hi => num2_near (by norm_num) (by norm_num) hi)
  have c1 : ((sumQ (fun i => absQ (err2 65 i)) 65 : ℚ) : ℝ) < ((14 / 10 ^ 11 : ℚ) : ℝ) := by exact_mod_cast cert65_2
  have c2 : ((82 / 10 ^ 10 : ℚ) : ℝ) < ((sumQ (fun i => absQ (err2 33 i)) 33 : ℚ) : ℝ) := by exact_mod_cast cert33_2
  push_cast at c1 c2 a b
  linarith

end FDTest

open Tests FDTest

/-- the test function of test_finite_diff.cpp:26 -/
noncomputable def xsin (t : ℝ) : ℝ := t * Real.sin t

theorem deriv_xsin (t : ℝ) : deriv xsin t = t * Real.cos t + Real.sin t := by
  have h : HasDerivAt xsin (1 * Real.sin t + t * Real.cos t) t := (hasDerivAt_id t).mul (Real.hasDerivAt_sin t)
  rw [h.deriv]
  ring

theorem deriv2_xsin (t : ℝ) : iteratedDeriv 2 xsin t = -t * Real.sin t + 2 * Real.cos t := by
  rw [iteratedDeriv_succ, iteratedDeriv_one, show deriv xsin = fun t => t * Real.cos t + Real.sin t from funext deriv_xsin]
  have h : HasDerivAt (fun t : ℝ => t * Real.cos t + Real.sin t) (1 * Real.cos t + t * -Real.sin t + Real.cos t) t :=
    ((hasDerivAt_id t).mul (Real.hasDerivAt_cos t)).add (Real.hasDerivAt_sin t)
  rw [h.deriv]
  ring

theorem fillFD_eq {n : ℕ} (hn : 2 ≤ n) (hW : n < W) {F : CR → CR} {f : ℝ → ℝ} (hF : ∀ x, F (fin x) = fin (f x)) :
    fillFD (FD.mk' n (fin 0) (fin 1) nd) n F (List.replicate n 0) = .ok (tab n fun i : ℕ => fin (f ((i : ℝ) / ((n : ℝ) - 1)))) := by
  unfold fillFD
  apply forRange_fill _ (by simp)
  intro i w hi _ _
  rw [C10_points n hn hW, hF]
  congr 4
  ring

theorem meanAbs_eq {n : ℕ} (hn : n ≠ 0) {a b : List CR} {f g : ℕ → ℝ} (ha : a.length = n) (hb : b.length = n) (hf : ∀ i, i < n → gv a i = fin (f i))
    (hg : ∀ i, i < n → gv b i = fin (g i)) : meanAbs n a b = .ok (fin ((∑ i ∈ Finset.range n, |f i - g i|) / n)) := by
  unfold meanAbs
  have key : forRange 0 n (0 : CR) (fun i s => do
      let x ← rd a i
      let y ← rd b i
      .ok (s + fabs (x - y))) = .ok (fin (∑ i ∈ Finset.range n, |f i - g i|)) := by
    apply forRange_closed (fun m => fin (∑ i ∈ Finset.range m, |f i - g i|)) (Nat.zero_le _)
    · rw [Finset.sum_range_zero, ← fin_ofNat_zero]
    · intro m _ hm
      rw [rd_ok (by omega), ok_bind, rd_ok (by omega), ok_bind, hf _ (by omega), hg _ (by omega), Finset.sum_range_succ]
      rfl
  rw [key, ok_bind, fin_dbl, fin_div _ _ (by exact_mod_cast hn)]

theorem norm_derivatives_eq {n : ℕ} (hn : 2 ≤ n) (hW : n < W) {d1 d2 : FD CR → List CR → List CR → Exec (List CR)} {f g : ℕ → ℝ}
    (h1 : ∃ w, d1 (FD.mk' n (fin 0) (fin 1) nd) (tab n fun i : ℕ => fin (xsin ((i : ℝ) / ((n : ℝ) - 1)))) (List.replicate n 0) = .ok w ∧ w.length = n ∧
      ∀ i, i < n → gv w i = fin (f i))
    (h2 : ∃ w, d2 (FD.mk' n (fin 0) (fin 1) nd) (tab n fun i : ℕ => fin (xsin ((i : ℝ) / ((n : ℝ) - 1)))) (List.replicate n 0) = .ok w ∧ w.length = n ∧
      ∀ i, i < n → gv w i = fin (g i)) :
    norm_derivatives_with d1 d2 nd n = .ok
      (fin ((∑ i ∈ Finset.range n, |deriv xsin ((i : ℝ) / ((n : ℝ) - 1)) - f i|) / n),
        fin ((∑ i ∈ Finset.range n, |iteratedDeriv 2 xsin ((i : ℝ) / ((n : ℝ) - 1)) - g i|) / n)) := by
  obtain ⟨w, w1, w2, w3⟩ := h1
  obtain ⟨z, z1, z2, z3⟩ := h2
  unfold norm_derivatives_with
  dsimp only
  rw [show FD.mk' n (0 : CR) 1 nd = FD.mk' n (fin 0) (fin 1) nd by rw [fin_ofNat_zero, fin_ofNat_one]]
  rw [fillFD_eq (nd := nd) hn hW (F := fun x => x * sin x) (f := xsin) (fun x => rfl), ok_bind,
    fillFD_eq (nd := nd) hn hW (F := fun x => x * cos x + sin x) (f := deriv xsin) (fun x => by rw [deriv_xsin]; rfl), ok_bind,
    fillFD_eq (nd := nd) hn hW (F := fun x => -x * sin x + 2 * cos x) (f := iteratedDeriv 2 xsin) (fun x => by rw [deriv2_xsin, fin_ofNat']; rfl), ok_bind,
    w1, ok_bind, z1, ok_bind, meanAbs_eq (by omega) (by simp) w2 (fun i hi => gv_tab hi) w3, ok_bind,
    meanAbs_eq (by omega) (by simp) z2 (fun i hi => gv_tab hi) z3, ok_bind]

/-- **C101**: what the test `derivatives` of the finite differences decides.  The functions tested are arbitrary programs `d1`, `d2` that return numbers
`f n i` and `g n i` when given the samples of `t sin t` at the `n` points `i/(n-1)`: the test passes if and only if the mean distances from the true first and second derivatives
are more than 64 times smaller with 65 points than with 33. -/
theorem C101_fd_derivatives_verdict {d1 d2 : FD CR → List CR → List CR → Exec (List CR)} {f g : ℕ → ℕ → ℝ}
    (h1 : ∀ n, n = 33 ∨ n = 65 → ∃ w, d1 (FD.mk' n (fin 0) (fin 1) nd) (tab n fun i : ℕ => fin (xsin ((i : ℝ) / ((n : ℝ) - 1)))) (List.replicate n 0) = .ok w ∧
      w.length = n ∧ ∀ i, i < n → gv w i = fin (f n i))
    (h2 : ∀ n, n = 33 ∨ n = 65 → ∃ w, d2 (FD.mk' n (fin 0) (fin 1) nd) (tab n fun i : ℕ => fin (xsin ((i : ℝ) / ((n : ℝ) - 1)))) (List.replicate n 0) = .ok w ∧
      w.length = n ∧ ∀ i, i < n → gv w i = fin (g n i)) :
    ∃ r, fd_derivatives_with d1 d2 nd = .ok r ∧ (r = true ↔
      (∑ i ∈ Finset.range 65, |deriv xsin ((i : ℝ) / 64) - f 65 i|) / 65 < 1 / 64 * ((∑ i ∈ Finset.range 33, |deriv xsin ((i : ℝ) / 32) - f 33 i|) / 33) ∧
      (∑ i ∈ Finset.range 65, |iteratedDeriv 2 xsin ((i : ℝ) / 64) - g 65 i|) / 65
        < 1 / 64 * ((∑ i ∈ Finset.range 33, |iteratedDeriv 2 xsin ((i : ℝ) / 32) - g 33 i|) / 33)) := by
  have a := norm_derivatives_eq (nd := nd) (n := 33) (by norm_num) (by decide) (h1 33 (Or.inl rfl)) (h2 33 (Or.inl rfl))
  have b := norm_derivatives_eq (nd := nd) (n := 65) (by norm_num) (by decide) (h1 65 (Or.inr rfl)) (h2 65 (Or.inr rfl))
  unfold fd_derivatives_with
  rw [a, ok_bind, b, ok_bind]
  refine ⟨_, rfl, ?_⟩
  have e : (1 / 64 : CR) = fin (1 / 64) := by
    rw [fin_ofNat_one, fin_ofNat', fin_div _ _ (by norm_num)]
  rw [e]
  dsimp only
  rw [fin_mul, fin_mul, Bool.and_eq_true, fin_lt, fin_lt]
  have e1 : ((65 : ℕ) : ℝ) - 1 = 64 := by norm_num
  have e2 : ((33 : ℕ) : ℝ) - 1 = 32 := by norm_num
  have e3 : ((65 : ℕ) : ℝ) = 65 := by norm_num
  have e4 : ((33 : ℕ) : ℝ) = 33 := by norm_num
  rw [e1, e2, e3, e4]

/-- **C101**: in exact arithmetic the test of the finite-difference derivatives passes. -/
theorem C101_fd_derivatives : fd_derivatives CR nd = .ok true := by
  unfold fd_derivatives
  obtain ⟨r, r1, r2⟩ := C101_fd_derivatives_verdict (nd := nd) (d1 := FD.der) (d2 := FD.der2) (f := numD) (g := numDD)
    (fun n hn => ⟨_, der_fin (by omega) (by rcases hn with rfl | rfl <;> decide) one_pos nd (vT n) (by simp), by simp, fun i hi => by rw [gv_tab hi]; rfl⟩)
    (fun n hn => ⟨_, der2_fin (by omega) (by rcases hn with rfl | rfl <;> decide) one_pos nd (vT n) (by simp), by simp, fun i hi => by rw [gv_tab hi]; rfl⟩)
  rw [r1, r2.mpr]
  have h1 : ∀ n i : ℕ, dvT n i = deriv xsin ((i : ℝ) / ((n : ℝ) - 1)) := fun n i => by rw [deriv_xsin]; rfl
  have h2 : ∀ n i : ℕ, ddvT n i = iteratedDeriv 2 xsin ((i : ℝ) / ((n : ℝ) - 1)) := fun n i => by rw [deriv2_xsin]; rfl
  have a := err_first
  have b := err_second
  simp only [h1] at a
  simp only [h2] at b
  have e1 : ((65 : ℕ) : ℝ) - 1 = 64 := by norm_num
  have e2 : ((33 : ℕ) : ℝ) - 1 = 32 := by norm_num
  rw [e1, e2] at a b
  exact ⟨a, b⟩

/-- **C101**: the test compares two errors and never looks at one of them alone: functions that return the derivatives exactly, at both resolutions, fail it. -/
theorem C101_fd_derivatives_exact_fails {d1 d2 : FD CR → List CR → List CR → Exec (List CR)}
    (h1 : ∀ n, n = 33 ∨ n = 65 → ∃ w, d1 (FD.mk' n (fin 0) (fin 1) nd) (tab n fun i : ℕ => fin (xsin ((i : ℝ) / ((n : ℝ) - 1)))) (List.replicate n 0) = .ok w ∧
      w.length = n ∧ ∀ i, i < n → gv w i = fin (deriv xsin ((i : ℝ) / ((n : ℝ) - 1))))
    (h2 : ∀ n, n = 33 ∨ n = 65 → ∃ w, d2 (FD.mk' n (fin 0) (fin 1) nd) (tab n fun i : ℕ => fin (xsin ((i : ℝ) / ((n : ℝ) - 1)))) (List.replicate n 0) = .ok w ∧
      w.length = n ∧ ∀ i, i < n → gv w i = fin (iteratedDeriv 2 xsin ((i : ℝ) / ((n : ℝ) - 1)))) :
    fd_derivatives_with d1 d2 nd = .ok false := by
  obtain ⟨r, r1, r2⟩ := C101_fd_derivatives_verdict (nd := nd) (f := fun n i => deriv xsin ((i : ℝ) / ((n : ℝ) - 1)))
    (g := fun n i => iteratedDeriv 2 xsin ((i : ℝ) / ((n : ℝ) - 1))) h1 h2
  rw [r1]
  refine congrArg Except.ok (Bool.not_eq_true r ▸ fun hr => ?_)
  have h := (r2.mp hr).1
  beta_reduce at h
  have e1 : ((65 : ℕ) : ℝ) - 1 = 64 := by norm_num
  have e2 : ((33 : ℕ) : ℝ) - 1 = 32 := by norm_num
  rw [e1, e2] at h
  have z : ∀ (n : ℕ) (u : ℕ → ℝ), ∑ i ∈ Finset.range n, |u i - u i| = 0 := fun n u => Finset.sum_eq_zero fun i _ => by rw [sub_self, abs_zero]
  rw [z, z, zero_div, zero_div, mul_zero] at h
  exact lt_irrefl _ h

/-- Such functions exist. -/
example : ∃ d1 d2 : FD CR → List CR → List CR → Exec (List CR),
    (∀ n, n = 33 ∨ n = 65 → ∃ w, d1 (FD.mk' n (fin 0) (fin 1) nd) (tab n fun i : ℕ => fin (xsin ((i : ℝ) / ((n : ℝ) - 1)))) (List.replicate n 0) = .ok w ∧
      w.length = n ∧ ∀ i, i < n → gv w i = fin (deriv xsin ((i : ℝ) / ((n : ℝ) - 1)))) ∧
    (∀ n, n = 33 ∨ n = 65 → ∃ w, d2 (FD.mk' n (fin 0) (fin 1) nd) (tab n fun i : ℕ => fin (xsin ((i : ℝ) / ((n : ℝ) - 1)))) (List.replicate n 0) = .ok w ∧
      w.length = n ∧ ∀ i, i < n → gv w i = fin (iteratedDeriv 2 xsin ((i : ℝ) / ((n : ℝ) - 1)))) :=
  ⟨fun fd _ _ => .ok (tab fd.n fun i => fin (deriv xsin ((i : ℝ) / ((fd.n : ℝ) - 1)))),
    fun fd _ _ => .ok (tab fd.n fun i => fin (iteratedDeriv 2 xsin ((i : ℝ) / ((fd.n : ℝ) - 1)))),
    fun _ _ => ⟨_, rfl, tab_length _ _, fun _ hi => gv_tab hi⟩, fun _ _ => ⟨_, rfl, tab_length _ _, fun _ hi => gv_tab hi⟩⟩

end SFK
