import Verif.Props.TestLines
import Mathlib.Analysis.SpecialFunctions.Trigonometric.Bounds
/-
C101, continued: the total-variation test of the Chebyshev filter in exact arithmetic.
-/
namespace SFK
open Scalar CR Polynomial

namespace Tests

theorem tv_antitone {u : ℕ → ℝ} {n : ℕ} (h : ∀ i, i < n → u (i + 1) ≤ u i) : ∑ i ∈ Finset.range n, |u (i + 1) - u i| = u 0 - u n := by
  induction n with
  | zero => simp
  | succ n ih =>
    rw [Finset.sum_range_succ, ih fun i hi => h i (by omega), abs_of_nonpos (by have := h n (by omega); linarith)]
    ring

theorem tv_ends (u : ℕ → ℝ) (n : ℕ) : u 0 - u n ≤ ∑ i ∈ Finset.range n, |u (i + 1) - u i| := by
  induction n with
  | zero => simp
  | succ n ih =>
    rw [Finset.sum_range_succ]
    have := neg_le_abs (u (n + 1) - u n)
    linarith

/-- the multipliers of the filter on 32 points -/
noncomputable def gC (k : ℕ) : ℝ := Real.exp (-40 * ((k : ℝ) / 32) ^ 16)

end Tests
open Tests
variable {dct : List CR → List CR} {nd : Bool}

/-- **C101**: the verdict of `filter_is_TVD` of the Chebyshev grid, for every polynomial that the noisy data sample (there is one for all finite data, by
C19_coefficients): the test passes if and only if the total variation of the damped polynomial at the nodes is smaller. -/
theorem C101_cheb_filter_verdict (hf : FftwOk 32 dct) {tan : CR → CR} {noise : ℕ → CR} {a : ℕ → ℝ}
    (hu : ∀ i, i < 32 → tan (fin (chebPt 32 0 1 i)) * (1 + noise i) = fin ((chebPoly 32 0 1 a).eval (chebPt 32 0 1 i))) :
    ∃ r, cheb_filter_is_TVD dct true nd tan noise = .ok r ∧
      (r = true ↔ ∑ i ∈ Finset.range 31, |(chebPoly 32 0 1 fun k => Real.exp (-40 * ((k : ℝ) / 32) ^ 16) * a k).eval (chebPt 32 0 1 (i + 1)) -
          (chebPoly 32 0 1 fun k => Real.exp (-40 * ((k : ℝ) / 32) ^ 16) * a k).eval (chebPt 32 0 1 i)| <
        ∑ i ∈ Finset.range 31, |(chebPoly 32 0 1 a).eval (chebPt 32 0 1 (i + 1)) - (chebPoly 32 0 1 a).eval (chebPt 32 0 1 i)|) := by
  obtain ⟨c, hc⟩ : ∃ c, Cheb.mk' 32 (fin 0) (fin 1) dct true nd = .ok c := ⟨_, Cheb.mk'_eq 32 (fin 0) (fin 1) dct nd⟩
  obtain ⟨x, x1, _, _, _, x2, _, x3⟩ := C18_points (by norm_num) (by decide) (by norm_num) hf hc
  have hx : ∀ i, i < 32 → c.pt i = .ok (fin (chebPt 32 0 1 i)) := fun i hi => by rw [x1 i hi, x3 i hi]; rfl
  obtain ⟨g, g1, _, _, _, g5⟩ := C21_filter_damps (by norm_num) (by decide) (by norm_num) hf hc a
  have e : (fun k => g k * a k) = fun k : ℕ => Real.exp (-40 * ((k : ℝ) / 32) ^ 16) * a k := by
    funext k
    rw [g5 k]
    norm_num
  rw [e] at g1
  obtain ⟨w, hw⟩ : ∃ w : ℝ[X], w = chebPoly 32 0 1 fun k => Real.exp (-40 * ((k : ℝ) / 32) ^ 16) * a k := ⟨_, rfl⟩
  rw [← hw] at g1 ⊢
  obtain ⟨u, hu'⟩ : ∃ u : ℝ[X], u = chebPoly 32 0 1 a := ⟨_, rfl⟩
  rw [← hu'] at g1 hu ⊢
  refine ⟨lt (fin (∑ i ∈ Finset.range (32 - 1), |w.eval (chebPt 32 0 1 (i + 1)) - w.eval (chebPt 32 0 1 i)|))
    (fin (∑ i ∈ Finset.range (32 - 1), |u.eval (chebPt 32 0 1 (i + 1)) - u.eval (chebPt 32 0 1 i)|)), ?_, ?_⟩
  · unfold cheb_filter_is_TVD
    rw [fin_ofNat_zero, fin_ofNat_one, hc, ok_bind, ← fin_ofNat_zero,
      fillCheb_eq hx (f := fun i => u.eval (chebPt 32 0 1 i)) (fun i hi => by rw [← fin_ofNat_one]; exact hu i hi) (by simp), ok_bind, g1, ok_bind,
      tvLoop_eq (by norm_num) (by decide) (f := fun i => u.eval (chebPt 32 0 1 i)) (by simp) (fun i hi => gv_tab hi), ok_bind,
      tvLoop_eq (by norm_num) (by decide) (f := fun i => w.eval (chebPt 32 0 1 i)) (by simp) (fun i hi => gv_tab hi), ok_bind]
  · exact fin_lt _ _

/-- **C101**: ... so the test fails whenever the noisy data are monotone and the filter does not reduce the odd part of the polynomial at the ends:
a total variation cannot be smaller than the difference of the end values. -/
theorem C101_cheb_filter_monotone (hf : FftwOk 32 dct) {tan : CR → CR} {noise : ℕ → CR} {a : ℕ → ℝ}
    (hu : ∀ i, i < 32 → tan (fin (chebPt 32 0 1 i)) * (1 + noise i) = fin ((chebPoly 32 0 1 a).eval (chebPt 32 0 1 i)))
    (hmono : ∀ i, i < 31 → (chebPoly 32 0 1 a).eval (chebPt 32 0 1 (i + 1)) ≤ (chebPoly 32 0 1 a).eval (chebPt 32 0 1 i))
    (hends : (chebPoly 32 0 1 a).eval 1 - (chebPoly 32 0 1 a).eval 0 ≤
      (chebPoly 32 0 1 fun k => Real.exp (-40 * ((k : ℝ) / 32) ^ 16) * a k).eval 1 -
        (chebPoly 32 0 1 fun k => Real.exp (-40 * ((k : ℝ) / 32) ^ 16) * a k).eval 0) :
    cheb_filter_is_TVD dct true nd tan noise = .ok false := by
  obtain ⟨r, h1, h2⟩ := C101_cheb_filter_verdict (nd := nd) hf hu
  rw [h1]
  refine congrArg Except.ok (Bool.eq_false_iff.mpr fun hr => ?_)
  rw [h2] at hr
  obtain ⟨w, hw⟩ : ∃ w : ℝ[X], w = chebPoly 32 0 1 fun k => Real.exp (-40 * ((k : ℝ) / 32) ^ 16) * a k := ⟨_, rfl⟩
  rw [← hw] at hr hends
  have e0 : chebPt 32 0 1 0 = 1 := by unfold chebPt; simp; norm_num
  have e31 : chebPt 32 0 1 31 = 0 := by
    unfold chebPt
    rw [show Real.pi * ((31 : ℕ) : ℝ) / (((32 : ℕ) : ℝ) - 1) = Real.pi by push_cast; field_simp; norm_num, Real.cos_pi]
    norm_num
  have t1 := tv_antitone (u := fun i => (chebPoly 32 0 1 a).eval (chebPt 32 0 1 i)) hmono
  have t2 := tv_ends (fun i => w.eval (chebPt 32 0 1 i)) 31
  beta_reduce at t1 t2
  rw [e0, e31] at t1 t2
  linarith

/-! ### both verdicts occur with noise between 0 and 0.1 -/
namespace Tests

/-- coefficients of `103/100 x + 57/100 x^3 + s (1 + T_31(2x-1))` -/
noncomputable def coC (s : ℝ) (k : ℕ) : ℝ :=
  if k = 0 then 103 / 200 + 57 / 320 + s else if k = 1 then 103 / 200 + 171 / 640 else if k = 2 then 171 / 1600 else if k = 3 then 57 / 3200
  else if k = 31 then s else 0

theorem co_eval (h : ℕ → ℝ) (s : ℝ) (j : ℕ) : (chebPoly 32 0 1 fun k => h k * coC s k).eval (chebPt 32 0 1 j) =
    h 0 * (103 / 200 + 57 / 320 + s) + h 1 * (103 / 200 + 171 / 640) * Real.cos (Real.pi * j / 31) +
      h 2 * (171 / 1600) * Real.cos (2 * (Real.pi * j / 31)) + h 3 * (57 / 3200) * Real.cos (3 * (Real.pi * j / 31)) + h 31 * s * (-1) ^ j := by
  rw [chebPoly_eval (n := 32) (by norm_num) (by norm_num)]
  have hz : ∀ k, k ∈ Finset.range 32 → k ∉ ({0, 1, 2, 3, 31} : Finset ℕ) → (fun k => h k * coC s k) k * Real.cos (Real.pi * k * j / ((32 - 1 : ℕ) : ℝ)) = 0 := by
    intro k _ hk
    simp only [Finset.mem_insert, Finset.mem_singleton, not_or] at hk
    beta_reduce
    unfold coC
    rw [if_neg hk.1, if_neg hk.2.1, if_neg hk.2.2.1, if_neg hk.2.2.2.1, if_neg hk.2.2.2.2]
    ring
  rw [← Finset.sum_subset (s₁ := {0, 1, 2, 3, 31}) (by decide) hz]
  rw [Finset.sum_insert (by decide), Finset.sum_insert (by decide), Finset.sum_insert (by decide), Finset.sum_insert (by decide), Finset.sum_singleton]
  have e31 : Real.cos (Real.pi * ((31 : ℕ) : ℝ) * j / ((32 - 1 : ℕ) : ℝ)) = (-1) ^ j := by
    rw [show Real.pi * ((31 : ℕ) : ℝ) * j / ((32 - 1 : ℕ) : ℝ) = j * Real.pi by norm_num; ring, Real.cos_nat_mul_pi]
  rw [e31]
  have e : ∀ k : ℕ, Real.pi * (k : ℝ) * j / ((32 - 1 : ℕ) : ℝ) = k * (Real.pi * j / 31) := fun k => by norm_num; ring
  rw [e 0, e 1, e 2, e 3]
  unfold coC
  norm_num
  ring

theorem co_node (s : ℝ) (j : ℕ) : (chebPoly 32 0 1 (coC s)).eval (chebPt 32 0 1 j) =
    103 / 100 * chebPt 32 0 1 j + 57 / 100 * chebPt 32 0 1 j ^ 3 + s * (1 + (-1) ^ j) := by
  have h := co_eval (fun _ => 1) s j
  simp only [one_mul] at h
  rw [show (fun k => coC s k) = coC s from rfl] at h
  rw [h, Real.cos_two_mul, Real.cos_three_mul]
  have : chebPt 32 0 1 j = (1 + Real.cos (Real.pi * j / 31)) / 2 := by
    unfold chebPt
    norm_num
    ring
  rw [this]
  ring

theorem node_gap {i : ℕ} (hi : i < 31) : 1 / 961 ≤ chebPt 32 0 1 i - chebPt 32 0 1 (i + 1) := by
  have e : chebPt 32 0 1 i - chebPt 32 0 1 (i + 1) = Real.sin (Real.pi * (2 * i + 1) / 62) * Real.sin (Real.pi / 62) := by
    have h := Real.cos_sub_cos (Real.pi * i / 31) (Real.pi * (i + 1) / 31)
    have h1 : (Real.pi * i / 31 + Real.pi * (i + 1) / 31) / 2 = Real.pi * (2 * i + 1) / 62 := by ring
    have h2 : (Real.pi * i / 31 - Real.pi * (i + 1) / 31) / 2 = -(Real.pi / 62) := by ring
    rw [h1, h2, Real.sin_neg] at h
    have h3 : chebPt 32 0 1 i - chebPt 32 0 1 (i + 1) = (Real.cos (Real.pi * i / 31) - Real.cos (Real.pi * (i + 1) / 31)) / 2 := by
      unfold chebPt
      push_cast
      norm_num
      ring
    rw [h3, h]
    ring
  have hp := Real.pi_pos
  have j1 : 1 / 31 ≤ Real.sin (Real.pi / 62) := by
    refine le_trans (le_of_eq ?_) (Real.mul_le_sin (x := Real.pi / 62) (by positivity) (by linarith))
    field_simp
    norm_num
  have j2 : 1 / 31 ≤ Real.sin (Real.pi * (2 * i + 1) / 62) := by
    have hi' : (i : ℝ) ≤ 30 := by exact_mod_cast Nat.lt_succ_iff.mp hi
    have h0 : (0 : ℝ) ≤ i := Nat.cast_nonneg i
    rcases le_total (i : ℝ) 15 with h | h
    · refine le_trans ?_ (Real.mul_le_sin (x := Real.pi * (2 * i + 1) / 62) (by positivity) (by nlinarith))
      rw [show 2 / Real.pi * (Real.pi * (2 * (i : ℝ) + 1) / 62) = (2 * i + 1) / 31 by field_simp; norm_num]
      linarith
    · rw [← Real.sin_pi_sub]
      refine le_trans ?_ (Real.mul_le_sin (x := Real.pi - Real.pi * (2 * i + 1) / 62) (by nlinarith) (by nlinarith))
      rw [show 2 / Real.pi * (Real.pi - Real.pi * (2 * (i : ℝ) + 1) / 62) = (61 - 2 * i) / 31 by field_simp; ring]
      linarith
  rw [e]
  nlinarith

theorem node_mem {i : ℕ} (hi : i < 31) : 1 / 961 ≤ chebPt 32 0 1 i ∧ chebPt 32 0 1 i ≤ 1 := by
  have hc : ∀ j, chebPt 32 0 1 j = (1 + Real.cos (Real.pi * j / 31)) / 2 := fun j => by
    unfold chebPt
    norm_num
    ring
  have h1 := node_gap hi
  have h2 := Real.neg_one_le_cos (Real.pi * ((i + 1 : ℕ) : ℝ) / 31)
  have h3 := Real.cos_le_one (Real.pi * (i : ℝ) / 31)
  have h4 := hc i
  have h5 := hc (i + 1)
  constructor <;> linarith

theorem taylor12 (x : ℝ) :
    (sinP 12).eval x = x - x ^ 3 / 6 + x ^ 5 / 120 - x ^ 7 / 5040 + x ^ 9 / 362880 - x ^ 11 / 39916800 ∧
      (cosP 12).eval x = 1 - x ^ 2 / 2 + x ^ 4 / 24 - x ^ 6 / 720 + x ^ 8 / 40320 - x ^ 10 / 3628800 := by
  have e : ∀ n : ℕ, Complex.I ^ (n + 4) = Complex.I ^ n := fun n => by rw [pow_add, Complex.I_pow_four, mul_one]
  have i2 : Complex.I ^ 2 = -1 := Complex.I_sq
  have i3 : Complex.I ^ 3 = -Complex.I := Complex.I_pow_three
  unfold sinP cosP
  constructor
  · simp only [Finset.sum_range_succ, Finset.sum_range_zero, eval_add, eval_mul, eval_C, eval_pow, eval_X, eval_zero]
    rw [show Complex.I ^ 4 = Complex.I ^ 0 from e 0, show Complex.I ^ 5 = Complex.I ^ 1 from e 1, show Complex.I ^ 6 = Complex.I ^ 2 from e 2,
      show Complex.I ^ 7 = Complex.I ^ 3 from e 3, show Complex.I ^ 8 = Complex.I ^ 0 from (e 4).trans (e 0),
      show Complex.I ^ 9 = Complex.I ^ 1 from (e 5).trans (e 1), show Complex.I ^ 10 = Complex.I ^ 2 from (e 6).trans (e 2),
      show Complex.I ^ 11 = Complex.I ^ 3 from (e 7).trans (e 3), i2, i3]
    norm_num [Nat.factorial]
    ring
  · simp only [Finset.sum_range_succ, Finset.sum_range_zero, eval_add, eval_mul, eval_C, eval_pow, eval_X, eval_zero]
    rw [show Complex.I ^ 4 = Complex.I ^ 0 from e 0, show Complex.I ^ 5 = Complex.I ^ 1 from e 1, show Complex.I ^ 6 = Complex.I ^ 2 from e 2,
      show Complex.I ^ 7 = Complex.I ^ 3 from e 3, show Complex.I ^ 8 = Complex.I ^ 0 from (e 4).trans (e 0),
      show Complex.I ^ 9 = Complex.I ^ 1 from (e 5).trans (e 1), show Complex.I ^ 10 = Complex.I ^ 2 from (e 6).trans (e 2),
      show Complex.I ^ 11 = Complex.I ^ 3 from (e 7).trans (e 3), i2, i3]
    norm_num [Nat.factorial]
    ring

theorem cubic_ineq {y : ℝ} (y0 : 0 ≤ y) (y1 : y ≤ 1) :
    1 / 1000 ≤ (103 / 100 + 57 / 100 * y) * (1 - y / 2 + y ^ 2 / 24 - y ^ 3 / 720 + y ^ 4 / 40320 - y ^ 5 / 3628800) -
        (1 - y / 6 + y ^ 2 / 120 - y ^ 3 / 5040 + y ^ 4 / 362880 - y ^ 5 / 39916800) ∧
      1 / 1000 ≤ 11 / 10 * (1 - y / 6 + y ^ 2 / 120 - y ^ 3 / 5040 + y ^ 4 / 362880 - y ^ 5 / 39916800) -
        (103 / 100 + 57 / 100 * y) * (1 - y / 2 + y ^ 2 / 24 - y ^ 3 / 720 + y ^ 4 / 40320 - y ^ 5 / 3628800) := by
  have q2 : 0 ≤ y ^ 2 := by positivity
  have q3 : 0 ≤ y ^ 3 := by positivity
  have q6 : 0 ≤ y ^ 6 := by positivity
  have p2 : y ^ 2 ≤ y := by nlinarith
  have p3 : y ^ 3 ≤ y ^ 2 := pow_le_pow_of_le_one y0 y1 (by norm_num)
  have p4 : y ^ 4 ≤ y ^ 3 := pow_le_pow_of_le_one y0 y1 (by norm_num)
  have p5 : y ^ 5 ≤ y ^ 4 := pow_le_pow_of_le_one y0 y1 (by norm_num)
  have p6 : y ^ 6 ≤ y ^ 5 := pow_le_pow_of_le_one y0 y1 (by norm_num)
  have sq : 0 ≤ y ^ 2 - 26 / 25 * y + 169 / 625 := by
    have := sq_nonneg (y - 13 / 25)
    ring_nf at this ⊢
    exact this
  constructor
  · have : (103 / 100 + 57 / 100 * y) * (1 - y / 2 + y ^ 2 / 24 - y ^ 3 / 720 + y ^ 4 / 40320 - y ^ 5 / 3628800) -
        (1 - y / 6 + y ^ 2 / 120 - y ^ 3 / 5040 + y ^ 4 / 362880 - y ^ 5 / 39916800) =
      3 / 100 + (57 / 100 - 103 / 200 + 1 / 6) * y + (103 / 2400 - 57 / 200 - 1 / 120) * y ^ 2 +
      (57 / 2400 - 103 / 72000 + 1 / 5040) * y ^ 3 + (103 / 4032000 - 57 / 72000 - 1 / 362880) * y ^ 4 +
      (57 / 4032000 - 103 / 362880000 + 1 / 39916800) * y ^ 5 - 57 / 362880000 * y ^ 6 := by ring
    rw [this]
    linarith
  · have : 11 / 10 * (1 - y / 6 + y ^ 2 / 120 - y ^ 3 / 5040 + y ^ 4 / 362880 - y ^ 5 / 39916800) -
        (103 / 100 + 57 / 100 * y) * (1 - y / 2 + y ^ 2 / 24 - y ^ 3 / 720 + y ^ 4 / 40320 - y ^ 5 / 3628800) =
      7 / 100 + (-11 / 60 - (57 / 100 - 103 / 200)) * y + (11 / 1200 - (103 / 2400 - 57 / 200 )) * y ^ 2 +
      (-11 / 50400 - (57 / 2400 - 103 / 72000)) * y ^ 3 + (11 / 3628800 - (103 / 4032000 - 57 / 72000)) * y ^ 4 +
      (-11 / 399168000 - (57 / 4032000 - 103 / 362880000)) * y ^ 5 + 57 / 362880000 * y ^ 6 := by ring
    rw [this]
    linarith

theorem near_mul {x P C c : ℝ} (hP : 0 ≤ x * P) (hP2 : x * P ≤ 2) (h1 : -(1 / 10 ^ 8) ≤ c - C) (h2 : c - C ≤ 1 / 10 ^ 8) :
    -(2 / 10 ^ 8) ≤ x * P * c - x * P * C ∧ x * P * c - x * P * C ≤ 2 / 10 ^ 8 := by
  rw [← mul_sub, ← abs_le, abs_mul, abs_of_nonneg hP]
  calc x * P * |c - C| ≤ 2 * (1 / 10 ^ 8) := mul_le_mul hP2 (abs_le.mpr ⟨h1, h2⟩) (abs_nonneg _) (by norm_num)
    _ = 2 / 10 ^ 8 := by norm_num

/-- the cubic lies between the tangent and 1.1 times the tangent, with room to spare -/
theorem tan_cubic {x : ℝ} (h0 : 1 / 961 ≤ x) (h1 : x ≤ 1) :
    Real.sin x + 1 / 10 ^ 7 ≤ (103 / 100 * x + 57 / 100 * x ^ 3) * Real.cos x ∧
      (103 / 100 * x + 57 / 100 * x ^ 3) * Real.cos x + 1 / 10 ^ 7 ≤ 11 / 10 * Real.sin x := by
  have hx0 : 0 ≤ x := by linarith
  obtain ⟨b1, b2⟩ := taylor_bound (n := 12) (y := x) (by norm_num) (by rw [abs_of_nonneg hx0]; exact h1)
  have hd : (((12 : ℕ) : ℝ) + 1) / (((12 : ℕ).factorial : ℝ) * ((12 : ℕ) : ℝ)) ≤ 1 / 10 ^ 8 := by norm_num [Nat.factorial]
  obtain ⟨s1, s2⟩ := taylor12 x
  rw [s1] at b1
  rw [s2] at b2
  have b1' := abs_le.mp (b1.trans hd)
  have b2' := abs_le.mp (b2.trans hd)
  clear b1 b2 s1 s2 hd
  obtain ⟨y, hy⟩ : ∃ y, y = x ^ 2 := ⟨_, rfl⟩
  have y0 : 0 ≤ y := by rw [hy]; positivity
  have y1 : y ≤ 1 := by rw [hy]; exact pow_le_one₀ hx0 h1
  obtain ⟨k1, k2⟩ := cubic_ineq y0 y1
  obtain ⟨C, hC⟩ : ∃ C, C = 1 - y / 2 + y ^ 2 / 24 - y ^ 3 / 720 + y ^ 4 / 40320 - y ^ 5 / 3628800 := ⟨_, rfl⟩
  obtain ⟨S, hS⟩ : ∃ S, S = 1 - y / 6 + y ^ 2 / 120 - y ^ 3 / 5040 + y ^ 4 / 362880 - y ^ 5 / 39916800 := ⟨_, rfl⟩
  have eS : x - x ^ 3 / 6 + x ^ 5 / 120 - x ^ 7 / 5040 + x ^ 9 / 362880 - x ^ 11 / 39916800 = x * S := by rw [hS, hy]; ring
  have eC : 1 - x ^ 2 / 2 + x ^ 4 / 24 - x ^ 6 / 720 + x ^ 8 / 40320 - x ^ 10 / 3628800 = C := by rw [hC, hy]; ring
  rw [eS] at b1'
  rw [eC] at b2'
  rw [← hC, ← hS] at k1 k2
  clear hC hS eS eC
  have eP : 103 / 100 * x + 57 / 100 * x ^ 3 = x * (103 / 100 + 57 / 100 * y) := by rw [hy]; ring
  obtain ⟨P, hP⟩ : ∃ P, P = 103 / 100 + 57 / 100 * y := ⟨_, rfl⟩
  rw [eP]
  rw [← hP] at k1 k2 ⊢
  have P0 : 0 ≤ x * P := by rw [hP]; positivity
  have P2 : x * P ≤ 2 := by
    have : P ≤ 2 := by rw [hP]; linarith
    have hPn : 0 ≤ P := by rw [hP]; positivity
    calc x * P ≤ 1 * 2 := mul_le_mul h1 this hPn (by norm_num)
      _ = 2 := by norm_num
  obtain ⟨m1, m2⟩ := near_mul P0 P2 b2'.1 b2'.2
  have n1 := mul_le_mul_of_nonneg_left k1 hx0
  have n2 := mul_le_mul_of_nonneg_left k2 hx0
  rw [mul_sub, ← mul_assoc] at n1 n2
  obtain ⟨l1, l2⟩ := b1'
  clear hP hy k1 k2 P0 P2 b2' eP
  have n2' : x * (1 / 1000) ≤ 11 / 10 * (x * S) - x * P * C := by
    rw [mul_assoc x P C]
    calc _ ≤ _ := n2
      _ = _ := by ring
  have hx3 : 1 / 961000 ≤ x * (1 / 1000) := by linarith
  clear n2
  generalize x * (1 / 1000) = t at *
  generalize x * S = xs at *
  generalize x * P * C = pc at *
  generalize x * P * Real.cos x = px at *
  generalize Real.sin x = sx at *
  constructor
  · norm_num at *
    linarith
  · norm_num at *
    linarith

theorem noise_range {i : ℕ} (hi : i < 31) {s : ℝ} (hs : |s| ≤ 1 / 10 ^ 8) :
    0 < Real.tan (chebPt 32 0 1 i) ∧ Real.tan (chebPt 32 0 1 i) ≤ (chebPoly 32 0 1 (coC s)).eval (chebPt 32 0 1 i) ∧
      (chebPoly 32 0 1 (coC s)).eval (chebPt 32 0 1 i) ≤ 11 / 10 * Real.tan (chebPt 32 0 1 i) := by
  rw [co_node]
  obtain ⟨x, hx⟩ : ∃ x, x = chebPt 32 0 1 i := ⟨_, rfl⟩
  obtain ⟨h0, h1⟩ := node_mem hi
  rw [← hx] at h0 h1 ⊢
  obtain ⟨t1, t2⟩ := tan_cubic h0 h1
  have hpi := Real.pi_gt_three
  have hc : 0 < Real.cos x := Real.cos_pos_of_mem_Ioo ⟨by linarith, by linarith⟩
  have hc1 := Real.cos_le_one x
  have hsn : |s * (1 + (-1) ^ i)| ≤ 2 / 10 ^ 8 := by
    rw [abs_mul]
    have : |1 + (-1 : ℝ) ^ i| ≤ 2 := by
      rcases neg_one_pow_eq_or ℝ i with h | h <;> rw [h] <;> norm_num
    calc |s| * |1 + (-1 : ℝ) ^ i| ≤ 1 / 10 ^ 8 * 2 := mul_le_mul hs this (abs_nonneg _) (by norm_num)
      _ = 2 / 10 ^ 8 := by norm_num
  obtain ⟨e, he⟩ : ∃ e, e = s * (1 + (-1) ^ i) := ⟨_, rfl⟩
  rw [← he] at hsn ⊢
  obtain ⟨e1, e2⟩ := abs_le.mp hsn
  obtain ⟨P, hP⟩ : ∃ P, P = 103 / 100 * x + 57 / 100 * x ^ 3 := ⟨_, rfl⟩
  rw [← hP] at t1 t2 ⊢
  have hecos : |e * Real.cos x| ≤ 2 / 10 ^ 8 := by
    rw [abs_mul, abs_of_pos hc]
    exact (mul_le_of_le_one_right (abs_nonneg _) hc1).trans hsn
  obtain ⟨f1, f2⟩ := abs_le.mp hecos
  refine ⟨Real.tan_pos_of_pos_of_lt_pi_div_two (by linarith) (by linarith), ?_, ?_⟩
  · rw [Real.tan_eq_sin_div_cos, div_le_iff₀ hc, add_mul]
    linarith
  · rw [Real.tan_eq_sin_div_cos, ← mul_div_assoc, le_div_iff₀ hc, add_mul]
    linarith

/-- the noise that turns the tangent into the chosen polynomial -/
noncomputable def noiseC (s : ℝ) (i : ℕ) : ℝ :=
  if i < 31 then (chebPoly 32 0 1 (coC s)).eval (chebPt 32 0 1 i) / Real.tan (chebPt 32 0 1 i) - 1 else 0

theorem noiseC_range {s : ℝ} (hs : |s| ≤ 1 / 10 ^ 8) (i : ℕ) : 0 ≤ noiseC s i ∧ noiseC s i ≤ 1 / 10 := by
  unfold noiseC
  by_cases hi : i < 31
  · rw [if_pos hi]
    obtain ⟨h1, h2, h3⟩ := noise_range hi hs
    rw [← one_le_div h1] at h2
    have h4 := (div_le_iff₀ h1).mpr h3
    constructor <;> linarith
  · rw [if_neg hi]
    norm_num

theorem noiseC_data {s : ℝ} (hs : |s| ≤ 1 / 10 ^ 8) {i : ℕ} (hi : i < 32) :
    CR.map Real.tan (fin (chebPt 32 0 1 i)) * (1 + (fin (noiseC s i) : CR)) = fin ((chebPoly 32 0 1 (coC s)).eval (chebPt 32 0 1 i)) := by
  rw [fin_ofNat_one, fin_add]
  show fin (Real.tan (chebPt 32 0 1 i)) * fin (1 + noiseC s i) = _
  rw [fin_mul, fin_inj]
  unfold noiseC
  by_cases h : i < 31
  · rw [if_pos h]
    have := (noise_range h hs).1
    field_simp
    ring
  · obtain rfl : i = 31 := by omega
    rw [if_neg h, co_node]
    have e31 : chebPt 32 0 1 31 = 0 := by
      unfold chebPt
      rw [show Real.pi * ((31 : ℕ) : ℝ) / (((32 : ℕ) : ℝ) - 1) = Real.pi by push_cast; field_simp; norm_num, Real.cos_pi]
      norm_num
    rw [e31, Real.tan_zero]
    norm_num

theorem gC_bounds (k : ℕ) : 0 < gC k ∧ gC k ≤ 1 ∧ 1 - gC k ≤ 40 * ((k : ℝ) / 32) ^ 16 := by
  unfold gC
  refine ⟨Real.exp_pos _, ?_, ?_⟩
  · rw [Real.exp_le_one_iff]
    have : 0 ≤ ((k : ℝ) / 32) ^ 16 := by positivity
    linarith
  · have := Real.add_one_le_exp (-40 * ((k : ℝ) / 32) ^ 16)
    linarith

theorem gC_31 : gC 31 ≤ 1 / 2 := by
  unfold gC
  have h1 : Real.exp (-40 * (((31 : ℕ) : ℝ) / 32) ^ 16) ≤ Real.exp (-1) := by
    rw [Real.exp_le_exp]
    norm_num
  have h2 : Real.exp (-1) ≤ 1 / 2 := by
    rw [Real.exp_neg, inv_eq_one_div]
    have := Real.add_one_le_exp (1 : ℝ)
    exact one_div_le_one_div_of_le (by norm_num) (by linarith)
  exact h1.trans h2

theorem coP_mono {s : ℝ} (hs : |s| ≤ 1 / 10 ^ 8) {i : ℕ} (hi : i < 31) :
    1 / 1000 ≤ (chebPoly 32 0 1 (coC s)).eval (chebPt 32 0 1 i) - (chebPoly 32 0 1 (coC s)).eval (chebPt 32 0 1 (i + 1)) := by
  rw [co_node, co_node]
  have hg := node_gap hi
  have h0 : 0 ≤ chebPt 32 0 1 (i + 1) := by
    unfold chebPt
    have := Real.neg_one_le_cos (Real.pi * ((i + 1 : ℕ) : ℝ) / (((32 : ℕ) : ℝ) - 1))
    linarith
  have hc : chebPt 32 0 1 (i + 1) ^ 3 ≤ chebPt 32 0 1 i ^ 3 := pow_le_pow_left₀ h0 (by linarith) 3
  have he : s * (1 + (-1) ^ (i + 1)) - s * (1 + (-1) ^ i) ≤ 2 / 10 ^ 8 := by
    obtain ⟨s1, s2⟩ := abs_le.mp hs
    rw [pow_succ]
    norm_num at s1 s2 ⊢
    rcases neg_one_pow_eq_or ℝ i with h | h <;> rw [h] <;> linarith
  norm_num at he ⊢
  linarith

theorem wC_diff (s : ℝ) (i j : ℕ) : (chebPoly 32 0 1 fun k => gC k * coC s k).eval (chebPt 32 0 1 i) -
      (chebPoly 32 0 1 fun k => gC k * coC s k).eval (chebPt 32 0 1 j) =
    ((chebPoly 32 0 1 (coC s)).eval (chebPt 32 0 1 i) - (chebPoly 32 0 1 (coC s)).eval (chebPt 32 0 1 j)) -
      ((1 - gC 1) * (103 / 200 + 171 / 640) * (Real.cos (Real.pi * i / 31) - Real.cos (Real.pi * j / 31)) +
        (1 - gC 2) * (171 / 1600) * (Real.cos (2 * (Real.pi * i / 31)) - Real.cos (2 * (Real.pi * j / 31))) +
        (1 - gC 3) * (57 / 3200) * (Real.cos (3 * (Real.pi * i / 31)) - Real.cos (3 * (Real.pi * j / 31))) +
        (1 - gC 31) * s * ((-1) ^ i - (-1) ^ j)) := by
  have h := fun m => co_eval (fun _ => 1) s m
  simp only [one_mul] at h
  rw [co_eval, co_eval, show coC s = fun k => coC s k from rfl, h, h]
  ring

theorem small_term {d a x y b : ℝ} (hd : 0 ≤ d) (hb : d * a ≤ b) (ha : 0 ≤ a) (hx : -1 ≤ x ∧ x ≤ 1) (hy : -1 ≤ y ∧ y ≤ 1) : d * a * (x - y) ≤ 2 * b := by
  have h1 : x - y ≤ 2 := by linarith [hx.2, hy.1]
  have h2 : 0 ≤ d * a := mul_nonneg hd ha
  calc d * a * (x - y) ≤ d * a * 2 := mul_le_mul_of_nonneg_left h1 h2
    _ ≤ b * 2 := mul_le_mul_of_nonneg_right hb (by norm_num)
    _ = 2 * b := by ring

theorem wC_mono {s : ℝ} (hs : |s| ≤ 1 / 10 ^ 8) {i : ℕ} (hi : i < 31) :
    (chebPoly 32 0 1 fun k => gC k * coC s k).eval (chebPt 32 0 1 (i + 1)) ≤ (chebPoly 32 0 1 fun k => gC k * coC s k).eval (chebPt 32 0 1 i) := by
  have h := wC_diff s i (i + 1)
  have hm := coP_mono hs hi
  have hc : ∀ y, -1 ≤ Real.cos y ∧ Real.cos y ≤ 1 := fun y => ⟨Real.neg_one_le_cos y, Real.cos_le_one y⟩
  have hg : ∀ k, 0 ≤ 1 - gC k := fun k => by linarith [(gC_bounds k).2.1]
  have hb : ∀ k a b : ℝ, ∀ n : ℕ, 0 ≤ a → a ≤ 1 → (n : ℝ) ≤ 3 → (1 - gC n) * a ≤ 1 / 10 ^ 10 := by
    intro _ a _ n a0 a1 hn
    have h1 := (gC_bounds n).2.2
    have h2 : ((n : ℝ) / 32) ^ 16 ≤ (3 / 32) ^ 16 := pow_le_pow_left₀ (by positivity) (by linarith) 16
    have h3 : 40 * ((3 : ℝ) / 32) ^ 16 ≤ 1 / 10 ^ 10 := by norm_num
    refine (mul_le_of_le_one_right (hg n) a1).trans ?_
    linarith
  have t1 := small_term (hg 1) (hb 0 (103 / 200 + 171 / 640) 0 1 (by norm_num) (by norm_num) (by norm_num)) (by norm_num) (hc (Real.pi * i / 31)) (hc (Real.pi * ((i + 1 : ℕ) : ℝ) / 31))
  have t2 := small_term (hg 2) (hb 0 (171 / 1600) 0 2 (by norm_num) (by norm_num) (by norm_num)) (by norm_num) (hc (2 * (Real.pi * i / 31))) (hc (2 * (Real.pi * ((i + 1 : ℕ) : ℝ) / 31)))
  have t3 := small_term (hg 3) (hb 0 (57 / 3200) 0 3 (by norm_num) (by norm_num) (by norm_num)) (by norm_num) (hc (3 * (Real.pi * i / 31))) (hc (3 * (Real.pi * ((i + 1 : ℕ) : ℝ) / 31)))
  have t4 : (1 - gC 31) * s * ((-1) ^ i - (-1) ^ (i + 1)) ≤ 2 / 10 ^ 8 := by
    have e : |(1 - gC 31) * s * ((-1) ^ i - (-1) ^ (i + 1))| ≤ 2 / 10 ^ 8 := by
      rw [abs_mul, abs_mul, abs_of_nonneg (hg 31)]
      have e1 : |(-1 : ℝ) ^ i - (-1) ^ (i + 1)| ≤ 2 := by
        rw [pow_succ]
        rcases neg_one_pow_eq_or ℝ i with h | h <;> rw [h] <;> norm_num
      have e2 : (1 - gC 31) * |s| ≤ 1 / 10 ^ 8 := (mul_le_of_le_one_left (abs_nonneg _) (by linarith [(gC_bounds 31).1])).trans hs
      calc (1 - gC 31) * |s| * |(-1 : ℝ) ^ i - (-1) ^ (i + 1)| ≤ 1 / 10 ^ 8 * 2 := mul_le_mul e2 e1 (abs_nonneg _) (by norm_num)
        _ = 2 / 10 ^ 8 := by norm_num
    exact (le_abs_self _).trans e
  norm_num at t1 t2 t3 t4 hm h ⊢
  linarith

theorem wC_ends (s : ℝ) : (chebPoly 32 0 1 fun k => gC k * coC s k).eval (chebPt 32 0 1 0) - (chebPoly 32 0 1 fun k => gC k * coC s k).eval (chebPt 32 0 1 31) =
    ((chebPoly 32 0 1 (coC s)).eval (chebPt 32 0 1 0) - (chebPoly 32 0 1 (coC s)).eval (chebPt 32 0 1 31)) -
      2 * ((1 - gC 1) * (103 / 200 + 171 / 640) + (1 - gC 3) * (57 / 3200) + (1 - gC 31) * s) := by
  rw [wC_diff]
  have a0 : Real.pi * ((0 : ℕ) : ℝ) / 31 = 0 := by simp
  have a1 : Real.pi * ((31 : ℕ) : ℝ) / 31 = Real.pi := by push_cast; field_simp
  have a3 : Real.cos (3 * Real.pi) = -1 := by
    have := Real.cos_nat_mul_pi 3
    push_cast at this
    rw [this]
    norm_num
  rw [a0, a1, mul_zero, mul_zero, Real.cos_zero, Real.cos_pi, Real.cos_two_pi, a3]
  norm_num
  ring

end Tests

/-- **C101**: the verdict depends on the random numbers. With the true tangent, numbers between 0 and 0.1, as the test draws them, exist with which it
passes and others with which it fails. -/
theorem C101_cheb_filter (hf : FftwOk 32 dct) :
    (∃ r : ℕ → ℝ, (∀ i, 0 ≤ r i ∧ r i ≤ 1 / 10) ∧ cheb_filter_is_TVD dct true nd (CR.map Real.tan) (fun i => fin (r i)) = .ok true) ∧
      ∃ r : ℕ → ℝ, (∀ i, 0 ≤ r i ∧ r i ≤ 1 / 10) ∧ cheb_filter_is_TVD dct true nd (CR.map Real.tan) (fun i => fin (r i)) = .ok false := by
  have hp : |(1 / 10 ^ 8 : ℝ)| ≤ 1 / 10 ^ 8 := by rw [abs_of_nonneg (by norm_num)]
  have hn : |(-(1 / 10 ^ 8) : ℝ)| ≤ 1 / 10 ^ 8 := by rw [abs_neg, abs_of_nonneg (by norm_num)]
  refine ⟨⟨noiseC (1 / 10 ^ 8), noiseC_range hp, ?_⟩, ⟨noiseC (-(1 / 10 ^ 8)), noiseC_range hn, ?_⟩⟩
  · obtain ⟨r, h1, h2⟩ := C101_cheb_filter_verdict (nd := nd) hf (noise := fun i => fin (noiseC (1 / 10 ^ 8) i)) (fun i hi => noiseC_data hp hi)
    rw [h1]
    refine congrArg Except.ok (h2.mpr ?_)
    have t1 := tv_antitone (u := fun i => (chebPoly 32 0 1 fun k => gC k * coC (1 / 10 ^ 8) k).eval (chebPt 32 0 1 i)) (n := 31) (fun i hi => wC_mono hp hi)
    have t2 := tv_ends (fun i => (chebPoly 32 0 1 (coC (1 / 10 ^ 8))).eval (chebPt 32 0 1 i)) 31
    refine lt_of_eq_of_lt t1 (lt_of_lt_of_le ?_ t2)
    beta_reduce
    rw [wC_ends]
    have g1 := (gC_bounds 1).2.1
    have g3 := (gC_bounds 3).2.1
    have g31 := gC_31
    norm_num
    linarith
  · refine C101_cheb_filter_monotone hf (fun i hi => noiseC_data hn hi) (fun i hi => by linarith [coP_mono hn hi]) ?_
    have e0 : (1 : ℝ) = chebPt 32 0 1 0 := by unfold chebPt; simp; norm_num
    have e31 : (0 : ℝ) = chebPt 32 0 1 31 := by
      unfold chebPt
      rw [show Real.pi * ((31 : ℕ) : ℝ) / (((32 : ℕ) : ℝ) - 1) = Real.pi by push_cast; field_simp; norm_num, Real.cos_pi]
      norm_num
    have key := wC_ends (-(1 / 10 ^ 8))
    rw [← e0, ← e31] at key
    have key' : (chebPoly 32 0 1 fun k => Real.exp (-40 * ((k : ℝ) / 32) ^ 16) * coC (-(1 / 10 ^ 8)) k) = chebPoly 32 0 1 fun k => gC k * coC (-(1 / 10 ^ 8)) k := rfl
    rw [key', key]
    have g1 := (gC_bounds 1).2.2
    have g3 := (gC_bounds 3).2.2
    have g31 := gC_31
    norm_num at g1 g3 ⊢
    linarith

/-- The hypothesis of the last theorem is met by a DCT; those of the two before it by the data of its proof. -/
example : ∃ dct, FftwOk 32 dct ∧ ∃ a : ℕ → ℝ, ∃ noise : ℕ → CR,
    (∀ i, i < 32 → CR.map Real.tan (fin (chebPt 32 0 1 i)) * (1 + noise i) = fin ((chebPoly 32 0 1 a).eval (chebPt 32 0 1 i))) ∧
      ∀ i, i < 31 → (chebPoly 32 0 1 a).eval (chebPt 32 0 1 (i + 1)) ≤ (chebPoly 32 0 1 a).eval (chebPt 32 0 1 i) := by
  obtain ⟨dct, h⟩ := exists_fftw 32
  have hp : |(1 / 10 ^ 8 : ℝ)| ≤ 1 / 10 ^ 8 := by rw [abs_of_nonneg (by norm_num)]
  exact ⟨dct, h, coC (1 / 10 ^ 8), fun i => fin (noiseC (1 / 10 ^ 8) i), fun i hi => noiseC_data hp hi, fun i hi => by linarith [coP_mono hp hi]⟩

end SFK
