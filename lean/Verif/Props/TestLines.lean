import Verif.Lemmas.Tests
import Verif.Props.Spectral
import Mathlib.Analysis.Complex.Exponential
/-
C101, continued: the unit tests of the radial discretisations in exact arithmetic.
-/
namespace SFK
open Scalar CR Polynomial

namespace Tests

theorem expectLine_eq {n : ℕ} {a b : List CR} {f g : ℕ → ℝ} (ha : a.length = n) (hb : b.length = n) (hf : ∀ i, i < n → gv a i = fin (f i))
    (hg : ∀ i, i < n → gv b i = fin (g i)) (e : ℝ) :
    ∃ r, expectLine n (fin e) a b = .ok r ∧ (r = true ↔ ∀ i, i < n → |f i - g i| < e) := by
  obtain ⟨r, h1, h2⟩ := verdict_loop (n := n) (P := fun i => lt (fabs (fin (f i) - fin (g i))) (fin e))
    (b := fun i ok => do
      let x ← rd a i
      let y ← rd b i
      .ok (ok && lt (fabs (x - y)) (fin e))) (fun i ok hi => by
        rw [rd_ok (by omega), ok_bind, rd_ok (by omega), ok_bind, hf i hi, hg i hi]) true
  refine ⟨r, h1, ?_⟩
  rw [h2]
  simp only [true_and, fin_sub, fin_fabs, fin_lt]

theorem fillCheb_eq {c : Cheb CR} {n : ℕ} {x : ℕ → ℝ} (hx : ∀ i, i < n → c.pt i = .ok (fin (x i))) {F : ℕ → CR → CR} {f : ℕ → ℝ}
    (hF : ∀ i, i < n → F i (fin (x i)) = fin (f i)) {v : List CR} (hv : v.length = n) :
    fillCheb c n F v = .ok (tab n fun i => fin (f i)) := by
  unfold fillCheb
  apply forRange_fill _ hv
  intro i w hi _ _
  rw [hx i hi, ok_bind, hF i hi]

end Tests
open Tests
variable {dct : List CR → List CR} {nd : Bool}

/-- **C101**: `to_and_from` of the Chebyshev transform passes, for every library function `tan` that is finite on `[0,1]`. -/
theorem C101_cheb_to_and_from (hf : FftwOk 32 dct) {tan : CR → CR} (ht : ∀ y : ℝ, 0 ≤ y → y ≤ 1 → ∃ r, tan (fin y) = fin r) :
    cheb_to_and_from dct true nd tan = .ok true := by
  obtain ⟨c, hc⟩ : ∃ c, Cheb.mk' 32 (fin 0) (fin 1) dct true nd = .ok c := ⟨_, Cheb.mk'_eq 32 (fin 0) (fin 1) dct nd⟩
  obtain ⟨x, x1, _, _, _, x2, _⟩ := C18_points (by norm_num) (by decide) (by norm_num) hf hc
  have ht' : ∀ i, ∃ r, i < 32 → tan (fin (x i)) = fin r := by
    intro i
    by_cases hi : i < 32
    · obtain ⟨r, hr⟩ := ht (x i) (x2 i hi).1 (x2 i hi).2
      exact ⟨r, fun _ => hr⟩
    · exact ⟨0, fun h => absurd h hi⟩
  choose u hu using ht'
  obtain ⟨⟨ch, h, a1, a2⟩, _⟩ := C19_round_trip (by norm_num) (by decide) (by norm_num) hf hc u (o := List.replicate 32 0) (o' := List.replicate 32 0)
    (by simp) (by simp)
  obtain ⟨r, r1, r2⟩ := expectLine_eq (n := 32) (a := tab 32 fun i => fin (u i)) (b := tab 32 fun i => fin (u i)) (f := u) (g := u) (by simp) (by simp)
    (fun i hi => gv_tab hi) (fun i hi => gv_tab hi) (1 / 10 ^ 14)
  unfold cheb_to_and_from
  rw [fin_ofNat_zero, fin_ofNat_one, hc, ok_bind, ← fin_ofNat_zero, fillCheb_eq x1 (f := u) (fun i hi => hu i hi) (by simp), ok_bind, a1, ok_bind, a2, ok_bind, fin_tenth]
  dsimp only
  rw [r1, r2.mpr fun i _ => by rw [sub_self, abs_zero]; positivity]

/-! ### sine and cosine as polynomials -/

/-- Taylor polynomial of the sine -/
noncomputable def sinP (n : ℕ) : ℝ[X] := ∑ m ∈ Finset.range n, C ((Complex.I ^ m).im / m.factorial) * X ^ m
/-- Taylor polynomial of the cosine -/
noncomputable def cosP (n : ℕ) : ℝ[X] := ∑ m ∈ Finset.range n, C ((Complex.I ^ m).re / m.factorial) * X ^ m

theorem derivative_sinP (n : ℕ) : derivative (sinP (n + 1)) = cosP n := by
  unfold sinP cosP
  rw [Finset.sum_range_succ', derivative_add, derivative_sum]
  simp only [pow_zero, Complex.one_im, zero_div, C_0, zero_mul, derivative_zero, add_zero]
  refine Finset.sum_congr rfl fun m _ => ?_
  rw [derivative_C_mul_X_pow, Nat.add_sub_cancel]
  congr 2
  rw [pow_succ, Complex.mul_I_im, Nat.factorial_succ]
  have h1 : ((m.factorial : ℕ) : ℝ) ≠ 0 := by exact_mod_cast m.factorial_ne_zero
  have h2 : ((m + 1 : ℕ) : ℝ) ≠ 0 := by exact_mod_cast (by omega : m + 1 ≠ 0)
  rw [Nat.cast_mul]
  field_simp

theorem sinP_natDegree (n : ℕ) : (sinP (n + 1)).natDegree ≤ n := by
  unfold sinP
  refine natDegree_sum_le_of_forall_le _ _ fun m hm => (natDegree_C_mul_X_pow_le _ _).trans ?_
  rw [Finset.mem_range] at hm
  omega

theorem taylor_bound {n : ℕ} (hn : 0 < n) {y : ℝ} (hy : |y| ≤ 1) :
    |Real.sin y - (sinP n).eval y| ≤ (n + 1) / (n.factorial * n) ∧ |Real.cos y - (cosP n).eval y| ≤ (n + 1) / (n.factorial * n) := by
  have hb := Complex.exp_bound (x := (y : ℂ) * Complex.I) (by simpa using hy) hn
  have hle : ‖(y : ℂ) * Complex.I‖ ^ n * ((n.succ : ℝ) * (n.factorial * n : ℝ)⁻¹) ≤ (n + 1) / (n.factorial * n) := by
    have h1 : ‖(y : ℂ) * Complex.I‖ ^ n ≤ 1 := pow_le_one₀ (norm_nonneg _) (by simpa using hy)
    have h2 : 0 ≤ ((n.succ : ℝ) * (n.factorial * n : ℝ)⁻¹) := by positivity
    refine (mul_le_of_le_one_left h2 h1).trans (le_of_eq ?_)
    rw [Nat.cast_succ, div_eq_mul_inv]
  have hterm : ∀ m : ℕ, ((y : ℂ) * Complex.I) ^ m / (m.factorial : ℂ) = ((y ^ m / m.factorial : ℝ) : ℂ) * Complex.I ^ m := by
    intro m
    push_cast
    rw [mul_pow]
    ring
  have him : (∑ m ∈ Finset.range n, ((y : ℂ) * Complex.I) ^ m / (m.factorial : ℂ)).im = (sinP n).eval y := by
    unfold sinP
    rw [eval_finsetSum, Complex.im_sum]
    refine Finset.sum_congr rfl fun m _ => ?_
    rw [hterm, Complex.im_ofReal_mul, eval_mul, eval_C, eval_pow, eval_X]
    ring
  have hre : (∑ m ∈ Finset.range n, ((y : ℂ) * Complex.I) ^ m / (m.factorial : ℂ)).re = (cosP n).eval y := by
    unfold cosP
    rw [eval_finsetSum, Complex.re_sum]
    refine Finset.sum_congr rfl fun m _ => ?_
    rw [hterm, Complex.re_ofReal_mul, eval_mul, eval_C, eval_pow, eval_X]
    ring
  constructor
  · have := (Complex.abs_im_le_norm _).trans hb
    rw [Complex.sub_im, him, Complex.exp_ofReal_mul_I_im] at this
    exact this.trans hle
  · have := (Complex.abs_re_le_norm _).trans hb
    rw [Complex.sub_re, hre, Complex.exp_ofReal_mul_I_re] at this
    exact this.trans hle

/-- **C101**: `derivatives` of the Chebyshev grid passes. -/
theorem C101_cheb_derivatives (hf : FftwOk 32 dct) : cheb_derivatives dct true nd = .ok true := by
  obtain ⟨c, hc⟩ : ∃ c, Cheb.mk' 32 (fin 0) (fin 1) dct true nd = .ok c := ⟨_, Cheb.mk'_eq 32 (fin 0) (fin 1) dct nd⟩
  obtain ⟨x, x1, _, _, _, x2, _, x3⟩ := C18_points (by norm_num) (by decide) (by norm_num) hf hc
  have hx : ∀ i, i < 32 → chebPt 32 0 1 i = x i := fun i hi => by rw [x3 i hi]; rfl
  obtain ⟨w, _, w1, _, w2⟩ := C89_best_approximation (by norm_num) (by decide) (by norm_num) hf hc (fun i => x i * Real.sin (x i))
    (o := List.replicate 32 0) (o' := List.replicate 32 0) (by simp) (by simp)
  have habs : ∀ i, i < 32 → |x i| ≤ 1 := fun i hi => by rw [abs_of_nonneg (x2 i hi).1]; exact (x2 i hi).2
  have hdeg : (X * sinP 28).degree < ((32 - 2 : ℕ) : WithBot ℕ) := by
    refine lt_of_le_of_lt degree_le_natDegree ?_
    have h1 : (X * sinP 28).natDegree ≤ 28 := by
      refine natDegree_mul_le.trans ?_
      have : (sinP 28).natDegree ≤ 27 := sinP_natDegree 27
      have h2 : (X : ℝ[X]).natDegree ≤ 1 := natDegree_X_le
      omega
    exact_mod_cast lt_of_le_of_lt h1 (by norm_num)
  have hδ : ∀ i, i < 32 → |x i * Real.sin (x i) - (X * sinP 28).eval (chebPt 32 0 1 i)| ≤ 1 / 10 ^ 28 := by
    intro i hi
    rw [hx i hi, eval_mul, eval_X, ← mul_sub, abs_mul]
    have h1 := (taylor_bound (n := 28) (by norm_num) (habs i hi)).1
    have h2 : ((28 : ℕ) + 1 : ℝ) / ((28 : ℕ).factorial * (28 : ℕ)) ≤ 1 / 10 ^ 28 := by
      norm_num [Nat.factorial]
    exact (mul_le_of_le_one_left (abs_nonneg _) (habs i hi)).trans (h1.trans h2)
  have hq := w2 (X * sinP 28) (1 / 10 ^ 28) hdeg hδ
  obtain ⟨r, r1, r2⟩ := expectLine_eq (n := 32) (a := tab 32 fun i => fin (x i * Real.cos (x i) + Real.sin (x i))) (b := tab 32 fun i => fin (w i))
    (f := fun i => x i * Real.cos (x i) + Real.sin (x i)) (g := w) (by simp) (by simp) (fun i hi => gv_tab hi) (fun i hi => gv_tab hi) (5 / 10 ^ 14)
  have hr : r = true := by
    rw [r2]
    intro i hi
    have h1 := (hq i hi).1
    rw [hx i hi, derivative_mul, derivative_X, one_mul, show (28 : ℕ) = 27 + 1 from rfl, derivative_sinP, eval_add, eval_mul, eval_X] at h1
    have h2 := (taylor_bound (n := 28) (by norm_num) (habs i hi)).1
    have h3 := (taylor_bound (n := 27) (by norm_num) (habs i hi)).2
    have h4 : |x i * (Real.cos (x i) - (cosP 27).eval (x i))| ≤ |Real.cos (x i) - (cosP 27).eval (x i)| := by
      rw [abs_mul]
      exact mul_le_of_le_one_left (abs_nonneg _) (habs i hi)
    have e28 : ((28 : ℕ) + 1 : ℝ) / ((28 : ℕ).factorial * (28 : ℕ)) ≤ 1 / 10 ^ 28 := by norm_num [Nat.factorial]
    have e27 : ((27 : ℕ) + 1 : ℝ) / ((27 : ℕ).factorial * (27 : ℕ)) ≤ 1 / 10 ^ 27 := by norm_num [Nat.factorial]
    have hK : 4 * ((32 : ℕ) : ℝ) ^ 3 / (1 - 0) * (1 / 10 ^ 28) ≤ 1 / 10 ^ 20 := by norm_num
    have hA := h1.trans hK
    have hB := h2.trans e28
    have hC := h4.trans (h3.trans e27)
    have e1 : x i * Real.cos (x i) + Real.sin (x i) - w i = (Real.sin (x i) - (sinP 28).eval (x i)) + x i * (Real.cos (x i) - (cosP 27).eval (x i))
        - (w i - ((sinP (27 + 1)).eval (x i) + x i * (cosP 27).eval (x i))) := by ring
    rw [e1]
    generalize Real.sin (x i) - (sinP 28).eval (x i) = α at *
    generalize x i * (Real.cos (x i) - (cosP 27).eval (x i)) = β at *
    generalize (w i - ((sinP (27 + 1)).eval (x i) + x i * (cosP 27).eval (x i))) = γ at *
    calc |α + β - γ| ≤ |α + β| + |γ| := abs_sub _ _
      _ ≤ |α| + |β| + |γ| := by have := abs_add_le α β; linarith
      _ ≤ 1 / 10 ^ 28 + 1 / 10 ^ 27 + 1 / 10 ^ 20 := by linarith
      _ < 5 / 10 ^ 14 := by norm_num
  have e5 : ((5 / 10 ^ 14 : ℚ) : ℝ) = 5 / 10 ^ 14 := by norm_num
  unfold cheb_derivatives cheb_derivatives_with
  rw [fin_ofNat_zero, fin_ofNat_one, hc, ok_bind, ← fin_ofNat_zero,
    fillCheb_eq x1 (f := fun i => x i * Real.sin (x i)) (fun i _ => by simp only [fin_sin, fin_mul]) (by simp), ok_bind,
    fillCheb_eq x1 (f := fun i => x i * Real.cos (x i) + Real.sin (x i)) (fun i _ => by simp only [fin_sin, fin_cos, fin_mul, fin_add]) (by simp), ok_bind,
    w1, ok_bind, fin_lit, e5, r1, hr]

/-- **C101**: and with any function in place of `der` that returns finite numbers, it passes if and only if these are within `5e-14` of the derivative of
`x sin x` at every point of the grid. -/
theorem C101_cheb_derivatives_detects (hf : FftwOk 32 dct) {op : Cheb CR → List CR → List CR → Exec (List CR)} {f : ℕ → ℝ}
    (hop : ∀ (c : Cheb CR) v o, ∃ w, op c v o = .ok w ∧ w.length = 32 ∧ ∀ i, i < 32 → gv w i = fin (f i)) :
    ∃ r, cheb_derivatives_with op dct true nd = .ok r ∧ (r = true ↔ ∀ i : ℕ, i < 32 →
      |deriv (fun t => t * Real.sin t) ((1 + Real.cos (Real.pi * i / 31)) / 2) - f i| < 5 / 10 ^ 14) := by
  obtain ⟨c, hc⟩ : ∃ c, Cheb.mk' 32 (fin 0) (fin 1) dct true nd = .ok c := ⟨_, Cheb.mk'_eq 32 (fin 0) (fin 1) dct nd⟩
  obtain ⟨x, x1, _, _, _, x2, _, x3⟩ := C18_points (by norm_num) (by decide) (by norm_num) hf hc
  obtain ⟨w, w1, w2, w3⟩ := hop c (tab 32 fun i => fin (x i * Real.sin (x i))) (List.replicate 32 0)
  obtain ⟨r, r1, r2⟩ := expectLine_eq (n := 32) (a := tab 32 fun i => fin (x i * Real.cos (x i) + Real.sin (x i))) (b := w)
    (f := fun i => x i * Real.cos (x i) + Real.sin (x i)) (g := f) (by simp) w2 (fun i hi => gv_tab hi) w3 (5 / 10 ^ 14)
  have e5 : ((5 / 10 ^ 14 : ℚ) : ℝ) = 5 / 10 ^ 14 := by norm_num
  refine ⟨r, ?_, ?_⟩
  · unfold cheb_derivatives_with
    rw [fin_ofNat_zero, fin_ofNat_one, hc, ok_bind, ← fin_ofNat_zero,
      fillCheb_eq x1 (f := fun i => x i * Real.sin (x i)) (fun i _ => by simp only [fin_sin, fin_mul]) (by simp), ok_bind,
      fillCheb_eq x1 (f := fun i => x i * Real.cos (x i) + Real.sin (x i)) (fun i _ => by simp only [fin_sin, fin_cos, fin_mul, fin_add]) (by simp), ok_bind,
      w1, ok_bind, fin_lit, e5, r1]
  · rw [r2]
    refine forall_congr' fun i => imp_congr_right fun hi => ?_
    have hd : deriv (fun t : ℝ => t * Real.sin t) (x i) = x i * Real.cos (x i) + Real.sin (x i) := by
      have := ((hasDerivAt_id (x i)).mul (Real.hasDerivAt_sin (x i))).deriv
      simp only [id] at this
      refine this.trans ?_
      ring
    have hx : (1 + Real.cos (Real.pi * i / 31)) / 2 = x i := by
      rw [x3 i hi, show (((32 : ℕ) : ℝ) - 1) = 31 by norm_num]
      ring
    rw [hx, hd]

/-! ### the filter test -/

theorem tvLoop_eq {n : ℕ} (hn : 1 ≤ n) (hW : n < W) {a : List CR} {f : ℕ → ℝ} (ha : a.length = n) (hf : ∀ i, i < n → gv a i = fin (f i)) :
    tvLoop n a = .ok (fin (∑ i ∈ Finset.range (n - 1), |f (i + 1) - f i|)) := by
  unfold tvLoop
  have hu : usub n 1 = n - 1 := usub_of_le hW hn
  rw [hu]
  apply forRange_closed (fun m => fin (∑ i ∈ Finset.range m, |f (i + 1) - f i|)) (Nat.zero_le _)
  · rw [Finset.sum_range_zero, ← fin_ofNat_zero]
  · intro m _ hm
    rw [rd_ok (by omega), ok_bind, rd_ok (by omega), ok_bind, hf _ (by omega), hf _ (by omega), Finset.sum_range_succ]
    rfl

/-- filtering does not decrease the total variation of monotone data -/
theorem filter_tv_monotone (fd : FD CR) (hn : 4 ≤ fd.n) (hW : fd.n < W) {u : ℕ → ℝ} (hmono : ∀ i, i < fd.n - 1 → u i ≤ u (i + 1)) :
    ∃ a b, (do
      let po2 ← fd.filter (tab fd.n fun i => fin (u i))
      let tv1 ← tvLoop fd.n (tab fd.n fun i => fin (u i))
      let tv2 ← tvLoop fd.n po2
      .ok (lt tv2 tv1) : Exec Bool) = .ok (lt (fin b) (fin a)) ∧ a ≤ b := by
  obtain ⟨fu, _, hfu, _, _⟩ := C15_filter_linear fd hn hW u u 0 0
  obtain ⟨w, w1, w2, w3⟩ := C15_filter_keeps_ends fd hn hW (tab fd.n fun i => fin (u i)) (by simp)
  rw [hfu] at w1
  injection w1 with w1
  have e0 : fu 0 = u 0 := by
    have := w3 0 (by omega) (Or.inl (by omega))
    rwa [← w1, gv_tab (by omega), gv_tab (by omega), fin_inj] at this
  have e1 : fu (fd.n - 1) = u (fd.n - 1) := by
    have := w3 (fd.n - 1) (by omega) (Or.inr (by omega))
    rwa [← w1, gv_tab (by omega), gv_tab (by omega), fin_inj] at this
  refine ⟨∑ i ∈ Finset.range (fd.n - 1), |u (i + 1) - u i|, ∑ i ∈ Finset.range (fd.n - 1), |fu (i + 1) - fu i|, ?_, ?_⟩
  · rw [hfu, ok_bind, tvLoop_eq (by omega) hW (by simp) (fun i hi => gv_tab hi), ok_bind, tvLoop_eq (by omega) hW (by simp) (fun i hi => gv_tab hi), ok_bind]
  · rw [Finset.sum_congr rfl (fun i hi => abs_of_nonneg (sub_nonneg.mpr (hmono i (Finset.mem_range.mp hi)))), Finset.sum_range_sub, ← e0, ← e1,
      ← Finset.sum_range_sub fu]
    exact Finset.sum_le_sum fun i _ => le_abs_self _

/-- **C101**: `filter_is_TVD` of the finite differences does not test a property of the filter alone: whatever the filter does in the interior, if the
random numbers happen to leave the data monotone the test fails, because the filter keeps the two ends. -/
theorem C101_fd_filter_monotone {tan : CR → CR} {noise : ℕ → CR} {u : ℕ → ℝ} (hu : ∀ i, i < 128 → tan ((FD.mk' 128 (0 : CR) 1 nd).pt i) * (1 + noise i) = fin (u i))
    (hmono : ∀ i, i < 127 → u i ≤ u (i + 1)) : fd_filter_is_TVD nd tan noise = .ok false := by
  unfold fd_filter_is_TVD
  obtain ⟨fd, hfd⟩ : ∃ fd, fd = FD.mk' 128 (0 : CR) 1 nd := ⟨_, rfl⟩
  have hnn : fd.n = 128 := by rw [hfd]; rfl
  rw [← hfd] at hu ⊢
  clear hfd
  dsimp only
  obtain ⟨N, hN⟩ : ∃ N, N = 128 := ⟨_, rfl⟩
  have h127 : N - 1 = 127 := by omega
  have hWN : N < W := by rw [hN]; decide
  have hN4 : 4 ≤ N := by omega
  rw [← h127] at hmono
  rw [← hN] at hu hnn ⊢
  clear hN h127
  have hp : forRange 0 N (List.replicate N (0 : CR)) (fun i v => wr v i (tan (fd.pt i) * (1 + noise i))) = .ok (tab N fun i => fin (u i)) := by
    apply forRange_fill _ (by simp)
    intro i w hi _ _
    rw [hu i hi]
  rw [hp, ok_bind]
  subst hnn
  obtain ⟨a, b, h1, h2⟩ := filter_tv_monotone fd hN4 hWN hmono
  rw [h1]
  congr 1
  rw [fin_lt_false]
  exact h2

/-- ... for instance if `rand()` returns the same number every time: with the true tangent and any constant the test fails. -/
theorem C101_fd_filter_constant_noise {r : ℝ} (hr : 0 ≤ r) : fd_filter_is_TVD nd (CR.map Real.tan) (fun _ => fin r) = .ok false := by
  have hpt : ∀ i : ℕ, (FD.mk' 128 (0 : CR) 1 nd).pt i = fin ((i : ℝ) / 127) := by
    intro i
    unfold FD.mk' FD.pt
    have hu : usub 128 1 = 127 := by decide
    simp only [hu, fin_ofNat_zero, fin_ofNat_one, fin_sub, fin_dbl]
    rw [fin_div _ _ (by norm_num), fin_mul, fin_add, fin_inj]
    push_cast
    ring
  refine C101_fd_filter_monotone (u := fun i => Real.tan ((i : ℝ) / 127) * (1 + r)) (fun i _ => ?_) (fun i hi => ?_)
  · rw [hpt i, fin_ofNat_one, fin_add]
    rfl
  · refine mul_le_mul_of_nonneg_right ?_ (by linarith)
    have h1 : (i : ℝ) + 1 ≤ 127 := by exact_mod_cast hi
    have h2 : (1 : ℝ) < Real.pi / 2 := by have := Real.pi_gt_three; linarith
    have h0 : (0 : ℝ) ≤ i := Nat.cast_nonneg i
    refine Real.strictMonoOn_tan.monotoneOn ⟨?_, ?_⟩ ⟨?_, ?_⟩ ?_
    · have : (0 : ℝ) ≤ i / 127 := by positivity
      linarith
    · have : (i : ℝ) / 127 ≤ 1 := by rw [div_le_one (by norm_num)]; linarith
      linarith
    · have : (0 : ℝ) ≤ ((i + 1 : ℕ) : ℝ) / 127 := by positivity
      linarith
    · have : ((i + 1 : ℕ) : ℝ) / 127 ≤ 1 := by rw [div_le_one (by norm_num)]; push_cast; linarith
      linarith
    · push_cast
      exact div_le_div_of_nonneg_right (by linarith) (by norm_num)

/-- The hypotheses on the transform and on the tangent are met by a DCT and by the true tangent. -/
example : ∃ dct, FftwOk 32 dct ∧ ∀ y : ℝ, 0 ≤ y → y ≤ 1 → ∃ r, CR.map Real.tan (fin y) = fin r := by
  obtain ⟨dct, h⟩ := exists_fftw 32
  exact ⟨dct, h, fun y _ _ => ⟨Real.tan y, rfl⟩⟩

end SFK
