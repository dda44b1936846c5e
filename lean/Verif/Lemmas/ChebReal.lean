import Verif.Spec.Cheb
import Verif.Lemmas.Cheb
import Mathlib.Analysis.SpecialFunctions.Trigonometric.Chebyshev.Basic
import Mathlib.Tactic.Ring
import Mathlib.Tactic.Linarith
import Mathlib.Tactic.FieldSimp
import Mathlib.Algebra.BigOperators.Field

namespace SFK
open CR Finset

/-- quadrature weights 1,2,...,2,1 -/
noncomputable def wN (N j : ℕ) : ℝ := if j = 0 ∨ j = N then 1 else 2

theorem cos_npi (k : ℕ) {N : ℕ} (hN : 1 ≤ N) : Real.cos (Real.pi * N * k / N) = (-1) ^ k := by
  have : (N : ℝ) ≠ 0 := by positivity
  rw [show Real.pi * N * k / N = k * Real.pi by field_simp]
  exact Real.cos_nat_mul_pi k

theorem sum_wN {N : ℕ} (hN : 1 ≤ N) (g : ℕ → ℝ) :
    ∑ j ∈ range (N + 1), wN N j * g j = g 0 + g N + 2 * ∑ j ∈ Ico 1 N, g j := by
  rw [sum_range_succ, Finset.range_eq_Ico, sum_eq_sum_Ico_succ_bot (by omega)]
  have : ∑ k ∈ Ico (0 + 1) N, wN N k * g k = 2 * ∑ j ∈ Ico 1 N, g j := by
    rw [mul_sum]
    apply sum_congr rfl
    intro k hk
    rw [mem_Ico] at hk
    unfold wN
    rw [if_neg (by omega)]
  rw [this]
  simp [wN]
  ring

theorem redft00_eq {N : ℕ} (hN : 1 ≤ N) (u : ℕ → ℝ) (k : ℕ) :
    redft00 N u k = ∑ j ∈ range (N + 1), wN N j * (u j * Real.cos (Real.pi * j * k / N)) := by
  rw [sum_wN hN, cos_npi k hN]
  unfold redft00
  simp
  ring

theorem half_sum (θ : ℝ) (M : ℕ) :
    Real.sin (θ / 2) * (1 + 2 * ∑ k ∈ Ico 1 (M + 1), Real.cos (k * θ)) = Real.sin ((M + 1 / 2) * θ) := by
  induction M with
  | zero => simp; congr 1; ring
  | succ M ih =>
    rw [sum_Ico_succ_top (by omega : 1 ≤ M + 1)]
    have e1 : ((M : ℝ) + 1 / 2) * θ = ((M + 1 : ℕ) : ℝ) * θ - θ / 2 := by push_cast; ring
    have e2 : (((M + 1 : ℕ) : ℝ) + 1 / 2) * θ = ((M + 1 : ℕ) : ℝ) * θ + θ / 2 := by push_cast; ring
    rw [e1, Real.sin_sub] at ih
    rw [e2, Real.sin_add]
    linear_combination ih

/-- the weighted cosine sum vanishes unless the frequency is a multiple of `2N` -/
theorem cos_sum {N : ℕ} (hN : 1 ≤ N) (p : ℤ) :
    ∑ k ∈ range (N + 1), wN N k * Real.cos (Real.pi * k * p / N)
      = if (2 * N : ℤ) ∣ p then 2 * (N : ℝ) else 0 := by
  have hN0 : (N : ℝ) ≠ 0 := by positivity
  split_ifs with h
  · obtain ⟨q, rfl⟩ := h
    have : ∀ k ∈ range (N + 1), wN N k * Real.cos (Real.pi * k * ((2 * N * q : ℤ) : ℝ) / N) = wN N k * 1 := by
      intro k _
      congr 1
      rw [show Real.pi * k * ((2 * N * q : ℤ) : ℝ) / N = ((k * q : ℤ) : ℝ) * (2 * Real.pi) by
        push_cast; field_simp]
      exact Real.cos_int_mul_two_pi _
    rw [sum_congr rfl this, sum_wN hN (fun _ => 1)]
    simp
    rw [Nat.cast_sub hN]
    push_cast; ring
  · rw [sum_wN hN (fun k => Real.cos (Real.pi * k * p / N))]
    set θ : ℝ := Real.pi * p / N with hθ
    have hs : Real.sin (θ / 2) ≠ 0 := by
      intro h0
      obtain ⟨m, hm⟩ := Real.sin_eq_zero_iff.mp h0
      apply h
      refine ⟨m, ?_⟩
      rw [hθ] at hm
      have hpi := Real.pi_ne_zero
      field_simp at hm
      have : (p : ℝ) = 2 * N * m := by linarith
      exact_mod_cast this
    have e0 : ∀ k : ℕ, Real.cos (Real.pi * k * p / N) = Real.cos (k * θ) := by
      intro k; congr 1; rw [hθ]; ring
    simp only [e0]
    have hh := half_sum θ (N - 1)
    rw [show N - 1 + 1 = N by omega] at hh
    have hc : ((N - 1 : ℕ) : ℝ) = N - 1 := by rw [Nat.cast_sub hN]; simp
    rw [hc, show ((N : ℝ) - 1 + 1 / 2) * θ = N * θ - θ / 2 by ring, Real.sin_sub] at hh
    have hsin : Real.sin (N * θ) = 0 := by
      rw [hθ, show (N : ℝ) * (Real.pi * p / N) = p * Real.pi by field_simp]
      exact Real.sin_int_mul_pi p
    rw [hsin] at hh
    have : Real.sin (θ / 2) * (Real.cos ((0 : ℕ) * θ) + Real.cos (N * θ) + 2 * ∑ k ∈ Ico 1 N, Real.cos (k * θ)) = 0 := by
      rw [Nat.cast_zero, zero_mul, Real.cos_zero]
      linear_combination hh
    exact (mul_eq_zero.mp this).resolve_left hs

/-- discrete orthogonality -/
theorem dct_orth {N m j : ℕ} (hN : 1 ≤ N) (hm : m ≤ N) (hj : j ≤ N) :
    ∑ k ∈ range (N + 1), wN N k * (Real.cos (Real.pi * j * k / N) * Real.cos (Real.pi * k * m / N))
      = if m = j then 2 * (N : ℝ) / wN N j else 0 := by
  have e : ∀ k ∈ range (N + 1), wN N k * (Real.cos (Real.pi * j * k / N) * Real.cos (Real.pi * k * m / N))
      = 1 / 2 * (wN N k * Real.cos (Real.pi * k * ((m - j : ℤ) : ℝ) / N))
        + 1 / 2 * (wN N k * Real.cos (Real.pi * k * ((m + j : ℤ) : ℝ) / N)) := by
    intro k _
    have a1 : Real.pi * k * ((m - j : ℤ) : ℝ) / N = Real.pi * k * m / N - Real.pi * j * k / N := by push_cast; ring
    have a2 : Real.pi * k * ((m + j : ℤ) : ℝ) / N = Real.pi * k * m / N + Real.pi * j * k / N := by push_cast; ring
    rw [a1, a2, Real.cos_add, Real.cos_sub]
    ring
  rw [sum_congr rfl e, sum_add_distrib, ← mul_sum, ← mul_sum, cos_sum hN, cos_sum hN]
  have d1 : ((2 * N : ℤ) ∣ (m - j : ℤ)) ↔ m = j := by
    constructor
    · rintro ⟨q, hq⟩
      have hq0 : q = 0 := by
        by_contra hne
        rcases lt_or_gt_of_ne hne with h | h
        · have : (2 * N : ℤ) * q ≤ 2 * N * (-1) := mul_le_mul_of_nonneg_left (by omega) (by omega)
          omega
        · have : (2 * N : ℤ) * 1 ≤ 2 * N * q := mul_le_mul_of_nonneg_left (by omega) (by omega)
          omega
      rw [hq0] at hq; omega
    · rintro rfl; simp
  have d2 : ((2 * N : ℤ) ∣ (m + j : ℤ)) ↔ (m = j ∧ (j = 0 ∨ j = N)) := by
    constructor
    · rintro ⟨q, hq⟩
      have hq1 : q = 0 ∨ q = 1 := by
        by_contra hne
        rcases (by omega : q ≤ -1 ∨ 2 ≤ q) with h | h
        · have : (2 * N : ℤ) * q ≤ 2 * N * (-1) := mul_le_mul_of_nonneg_left (by omega) (by omega)
          omega
        · have : (2 * N : ℤ) * 2 ≤ 2 * N * q := mul_le_mul_of_nonneg_left (by omega) (by omega)
          omega
      rcases hq1 with rfl | rfl
      · omega
      · omega
    · rintro ⟨rfl, rfl | rfl⟩
      · simp
      · exact ⟨1, by push_cast; ring⟩
  by_cases h1 : m = j
  · rw [if_pos (d1.mpr h1), if_pos h1]
    by_cases h2 : j = 0 ∨ j = N
    · rw [if_pos (d2.mpr ⟨h1, h2⟩), wN, if_pos h2]; ring
    · rw [if_neg (fun h => h2 (d2.mp h).2), wN, if_neg h2]; ring
  · rw [if_neg (fun h => h1 (d1.mp h)), if_neg (fun h => h1 (d2.mp h).1), if_neg h1]; ring

theorem wN_pos (N j : ℕ) : 0 < wN N j := by unfold wN; split_ifs <;> norm_num

/-- the Chebyshev series of the normalised transform reproduces the data -/
theorem series_of_dct {N : ℕ} (hN : 1 ≤ N) (u : ℕ → ℝ) {m : ℕ} (hm : m ≤ N) :
    ∑ k ∈ range (N + 1), wN N k * redft00 N u k / (2 * N) * Real.cos (Real.pi * k * m / N) = u m := by
  have hN0 : (N : ℝ) ≠ 0 := by positivity
  have e : ∀ k ∈ range (N + 1), wN N k * redft00 N u k / (2 * N) * Real.cos (Real.pi * k * m / N)
      = ∑ j ∈ range (N + 1), wN N j * u j / (2 * N) *
          (wN N k * (Real.cos (Real.pi * j * k / N) * Real.cos (Real.pi * k * m / N))) := by
    intro k _
    rw [redft00_eq hN, mul_sum, Finset.sum_div, sum_mul]
    apply sum_congr rfl
    intro j _
    ring
  rw [sum_congr rfl e, sum_comm]
  have e2 : ∀ j ∈ range (N + 1), ∑ k ∈ range (N + 1), wN N j * u j / (2 * N) *
          (wN N k * (Real.cos (Real.pi * j * k / N) * Real.cos (Real.pi * k * m / N)))
        = if m = j then u j else 0 := by
    intro j hj
    rw [mem_range] at hj
    rw [← mul_sum, dct_orth hN hm (by omega)]
    have := (wN_pos N j).ne'
    split_ifs with h
    · field_simp
    · ring
  rw [sum_congr rfl e2, sum_ite_eq, if_pos (by rw [mem_range]; omega)]

/-- transforming the values of a Chebyshev series returns its coefficients -/
theorem dct_of_series {N : ℕ} (hN : 1 ≤ N) (a : ℕ → ℝ) {m : ℕ} (hm : m ≤ N) :
    wN N m * redft00 N (fun j => ∑ k ∈ range (N + 1), a k * Real.cos (Real.pi * k * j / N)) m / (2 * N) = a m := by
  have hN0 : (N : ℝ) ≠ 0 := by positivity
  rw [redft00_eq hN]
  have e : ∀ j ∈ range (N + 1), wN N j * ((∑ k ∈ range (N + 1), a k * Real.cos (Real.pi * k * j / N)) *
        Real.cos (Real.pi * j * m / N))
      = ∑ k ∈ range (N + 1), a k *
          (wN N j * (Real.cos (Real.pi * k * j / N) * Real.cos (Real.pi * j * m / N))) := by
    intro j _
    rw [sum_mul, mul_sum]
    apply sum_congr rfl
    intro k _
    ring
  rw [sum_congr rfl e, sum_comm]
  have e2 : ∀ k ∈ range (N + 1), ∑ j ∈ range (N + 1), a k *
          (wN N j * (Real.cos (Real.pi * k * j / N) * Real.cos (Real.pi * j * m / N)))
        = if m = k then a k * (2 * N / wN N k) else 0 := by
    intro k hk
    rw [mem_range] at hk
    rw [← mul_sum, dct_orth hN hm (by omega)]
    split_ifs <;> simp
  rw [sum_congr rfl e2, sum_ite_eq, if_pos (by rw [mem_range]; omega)]
  have := (wN_pos N m).ne'
  field_simp

/-! ### derivative of a Chebyshev series -/

open Polynomial in
theorem series_derivative (n : ℕ) (a b : ℕ → ℝ) (hb : ∀ k, b k = 2 * (k + 1) * a (k + 1) + b (k + 2))
    (hz : ∀ k, n ≤ k + 2 → b k = 0) (ha : ∀ k, n ≤ k + 2 → a k = 0) :
    derivative (∑ k ∈ range n, C (a k) * Chebyshev.T ℝ k)
      = ∑ k ∈ range n, C (if k = 0 then b 0 / 2 else b k) * Chebyshev.T ℝ k := by
  -- partial summation
  have key : ∀ M : ℕ, ∑ k ∈ range M, C (b k - b (k + 2)) * Chebyshev.U ℝ k
      = ∑ k ∈ range M, C (if k = 0 then b 0 else 2 * b k) * Chebyshev.T ℝ k
        - (C (b M) * Chebyshev.U ℝ ((M : ℤ) - 2) + C (b (M + 1)) * Chebyshev.U ℝ ((M : ℤ) - 1))
        - (if M = 0 then C (b 0) else 0) := by
    intro M
    induction M with
    | zero => simp
    | succ M ih =>
      rw [sum_range_succ, ih, sum_range_succ]
      have hT : (2 : ℝ[X]) * Chebyshev.T ℝ M = Chebyshev.U ℝ M - Chebyshev.U ℝ ((M : ℤ) - 2) := by
        have := Chebyshev.two_mul_T_eq_U_sub_U ℝ ((M : ℤ) - 2)
        rwa [sub_add_cancel] at this
      have e1 : ((M + 1 : ℕ) : ℤ) - 2 = (M : ℤ) - 1 := by push_cast; ring
      have e2 : ((M + 1 : ℕ) : ℤ) - 1 = (M : ℤ) := by push_cast; ring
      rw [e1, e2, if_neg (by omega : ¬ M + 1 = 0)]
      by_cases hM : M = 0
      · subst hM
        simp only [if_true, C_sub]
        simp
      · rw [if_neg hM, if_neg hM]
        simp only [C_sub, C_mul]
        have c2 : (C (2 : ℝ) : ℝ[X]) = 2 := rfl
        rw [c2]
        linear_combination -(C (b M)) * hT
  have hU : derivative (∑ k ∈ range n, C (a k) * Chebyshev.T ℝ k)
      = ∑ k ∈ range n, C ((k + 1) * a (k + 1)) * Chebyshev.U ℝ k := by
    rw [derivative_sum]
    rcases Nat.eq_zero_or_pos n with h0 | hn
    · subst h0; simp
    obtain ⟨q, rfl⟩ : ∃ q, n = q + 1 := ⟨n - 1, by omega⟩
    rw [sum_range_succ', sum_range_succ]
    have hlast : a (q + 1) = 0 := ha _ (by omega)
    rw [hlast]
    simp only [derivative_mul, derivative_C, zero_mul, zero_add, Chebyshev.T_derivative_eq_U]
    simp
    apply sum_congr rfl
    intro k _
    ring
  have h2 : ∀ k : ℕ, ((k : ℝ) + 1) * a (k + 1) = 1 / 2 * (b k - b (k + 2)) := by
    intro k; rw [hb k]; ring
  rw [hU]
  simp only [h2, C_mul, mul_assoc]
  rw [← mul_sum, key n, hz n (by omega), hz (n + 1) (by omega)]
  have hz0 : (if n = 0 then (C (b 0) : ℝ[X]) else 0) = 0 := by
    split_ifs with h
    · subst h; rw [hz 0 (by omega)]; simp
    · rfl
  rw [hz0, mul_sub, mul_sub, mul_sum]
  simp only [C_0, zero_mul, add_zero, mul_zero, sub_zero]
  apply sum_congr rfl
  intro k _
  rw [← mul_assoc, ← C_mul]
  congr 2
  split_ifs <;> ring

end SFK
