import Verif.Lemmas.FDErr
import Mathlib.Analysis.SpecialFunctions.Trigonometric.Deriv
/-
C10-C17: the finite-difference class.
Exact arithmetic (`CR`, where `fin x` certifies that no NaN/infinity was produced) for the analytic claims,
arbitrary `Scalar` (hence IEEE doubles) for the bookkeeping claims.
-/
namespace SFK
open Scalar CR Polynomial

/-! ## C10 -/

/-- C10: closed form of the grid points, exact arithmetic. -/
theorem C10_points (n : ℕ) (hn : 2 ≤ n) (hW : n < W) (lo up : ℝ) (nd : Bool) (i : ℕ) :
    (FD.mk' n (fin lo) (fin up) nd).pt i = fin (lo + i * ((up - lo) / ((n : ℝ) - 1))) := by
  have h1 : ((n - 1 : ℕ) : ℝ) = (n : ℝ) - 1 := by push_cast [show 1 ≤ n by omega]; ring
  have h2 : ((n : ℝ) - 1) ≠ 0 := by
    have : (2 : ℝ) ≤ n := by exact_mod_cast hn
    linarith
  unfold FD.mk' FD.pt
  simp only [fin_sub, fin_dbl]
  rw [usub_of_le hW (by omega), h1, fin_div _ _ h2]
  simp only [fin_mul, fin_add, fin_inj]
  ring

/-- C10: point 0 is `lower`, point n-1 is `upper`, equal spacing, strictly increasing. -/
theorem C10_uniform_grid (n : ℕ) (hn : 2 ≤ n) (hW : n < W) (lo up : ℝ) (hlu : lo < up) (nd : Bool) :
    ∃ x : ℕ → ℝ, (∀ i, (FD.mk' n (fin lo) (fin up) nd).pt i = fin (x i)) ∧ x 0 = lo ∧ x (n - 1) = up ∧
      (∀ i, x (i + 1) - x i = (up - lo) / ((n : ℝ) - 1)) ∧ (∀ i j, i < j → x i < x j) := by
  have h1 : ((n - 1 : ℕ) : ℝ) = (n : ℝ) - 1 := by push_cast [show 1 ≤ n by omega]; ring
  have h2 : 0 < ((n : ℝ) - 1) := by
    have : (2 : ℝ) ≤ n := by exact_mod_cast hn
    linarith
  have h3 : 0 < (up - lo) / ((n : ℝ) - 1) := div_pos (by linarith) h2
  refine ⟨fun i => lo + i * ((up - lo) / ((n : ℝ) - 1)), fun i => C10_points n hn hW lo up nd i, by simp, ?_, ?_, ?_⟩
  · simp only [h1]; field_simp; ring
  · intro i; push_cast; ring
  · intro i j hij
    have : (i : ℝ) < j := by exact_mod_cast hij
    have := mul_lt_mul_of_pos_right this h3
    linarith

/-- C10, boundary: with a single point the spacing is a division by zero, so no point is a number. -/
theorem C10_single_point_is_bad (lo up : ℝ) (nd : Bool) (i : ℕ) : (FD.mk' 1 (fin lo) (fin up) nd).pt i = bad := by
  unfold FD.mk' FD.pt
  have : usub 1 1 = 0 := by unfold usub W; rfl
  simp only [fin_sub, fin_dbl, this, Nat.cast_zero, fin_div_zero]
  rfl

example : (2 : ℕ) ≤ 33 ∧ 33 < W ∧ (0 : ℝ) < 1 := ⟨by omega, by unfold W; omega, one_pos⟩

/-! ## C11, C12 -/

theorem pt_shift {n : ℕ} (hn : 2 ≤ n) (hW : n < W) {lo up : ℝ} {nd : Bool} {x : ℕ → ℝ}
    (hx : ∀ i, (FD.mk' n (fin lo) (fin up) nd).pt i = fin (x i)) (a b : ℕ) :
    x (a + b) = x a + b * ((up - lo) / ((n : ℝ) - 1)) := by
  have h1 := hx (a + b)
  have h2 := hx a
  rw [C10_points n hn hW] at h1 h2
  rw [fin_inj] at h1 h2
  rw [← h1, ← h2]; push_cast; ring

theorem dx_fin {n : ℕ} (hn : 2 ≤ n) (hW : n < W) (lo up : ℝ) (nd : Bool) :
    (FD.mk' n (fin lo) (fin up) nd).dx = fin ((up - lo) / ((n : ℝ) - 1)) := by
  have h1 : ((n - 1 : ℕ) : ℝ) = (n : ℝ) - 1 := by push_cast [show 1 ≤ n by omega]; ring
  have h2 : ((n : ℝ) - 1) ≠ 0 := by
    have : (2 : ℝ) ≤ n := by exact_mod_cast hn
    linarith
  unfold FD.mk'
  simp only [fin_sub, fin_dbl]
  rw [usub_of_le hW (by omega), h1, fin_div _ _ h2]

theorem h_ne {n : ℕ} (hn : 2 ≤ n) {lo up : ℝ} (hlu : lo < up) : 0 < (up - lo) / ((n : ℝ) - 1) := by
  have : (2 : ℝ) ≤ n := by exact_mod_cast hn
  exact div_pos (by linarith) (by linarith)

theorem gv_tab_fun {u : ℕ → ℝ} {n : ℕ} : ∀ i, i < n → gv (tab n fun i => fin (u i)) i = fin (u i) :=
  fun _ hi => gv_tab hi

theorem derV_congr {α : Type} [Scalar α] (fd : FD α) (hn : 7 ≤ fd.n) {v w : ℕ → α} (h : ∀ i, i < fd.n → v i = w i)
    {i : ℕ} (hi : i < fd.n) : fd.derV v i = fd.derV w i := by
  unfold FD.derV
  rw [h 0 (by omega), h 1 (by omega), h 2 (by omega), h 3 (by omega), h 4 (by omega), h 5 (by omega), h 6 (by omega),
    h (fd.n - 1) (by omega), h (fd.n - 2) (by omega), h (fd.n - 3) (by omega), h (fd.n - 4) (by omega),
    h (fd.n - 5) (by omega), h (fd.n - 6) (by omega), h (fd.n - 7) (by omega)]
  by_cases hI : 3 ≤ i ∧ i < fd.n - 3
  · rw [h (i+3) (by omega), h (i+2) (by omega), h (i+1) (by omega), h (i-1) (by omega), h (i-2) (by omega),
      h (i-3) (by omega)]
  · rcases (by omega : i = 0 ∨ i = 1 ∨ i = 2 ∨ i = fd.n - 1 ∨ i = fd.n - 2 ∨ i = fd.n - 3) with h | h | h | h | h | h <;>
      simp [h]

theorem der2V_congr {α : Type} [Scalar α] (fd : FD α) (hn : 8 ≤ fd.n) {v w : ℕ → α} (h : ∀ i, i < fd.n → v i = w i)
    {i : ℕ} (hi : i < fd.n) : fd.der2V v i = fd.der2V w i := by
  unfold FD.der2V
  rw [h 0 (by omega), h 1 (by omega), h 2 (by omega), h 3 (by omega), h 4 (by omega), h 5 (by omega), h 6 (by omega),
    h 7 (by omega),
    h (fd.n - 1) (by omega), h (fd.n - 2) (by omega), h (fd.n - 3) (by omega), h (fd.n - 4) (by omega),
    h (fd.n - 5) (by omega), h (fd.n - 6) (by omega), h (fd.n - 7) (by omega), h (fd.n - 8) (by omega), h i hi]
  by_cases hI : 3 ≤ i ∧ i < fd.n - 3
  · rw [h (i+3) (by omega), h (i+2) (by omega), h (i+1) (by omega), h (i-1) (by omega), h (i-2) (by omega),
      h (i-3) (by omega)]
  · rcases (by omega : i = 0 ∨ i = 1 ∨ i = 2 ∨ i = fd.n - 1 ∨ i = fd.n - 2 ∨ i = fd.n - 3) with h | h | h | h | h | h <;>
      simp [h]

theorem der_fin {n : ℕ} (hn : 7 ≤ n) (hW : n < W) {lo up : ℝ} (hlu : lo < up) (nd : Bool) (u : ℕ → ℝ)
    {dv : List CR} (hd : dv.length = n) :
    (FD.mk' n (fin lo) (fin up) nd).der (tab n fun i => fin (u i)) dv =
      .ok (tab n fun i => fin ((∑ j ∈ Finset.range 7, FD.c1 (i - FD.b1 n i) j * u (FD.b1 n i + j)) /
        ((up - lo) / ((n : ℝ) - 1)))) := by
  rw [FD.der_eq (FD.mk' n (fin lo) (fin up) nd) hn hW (v := tab n fun i => fin (u i)) (tab_length _ _) hd]
  congr 1
  apply tab_congr
  intro i hi
  rw [derV_congr _ hn (w := fun i => fin (u i)) (fun j hj => gv_tab hj) hi]
  exact FD.derV_fin _ (dx_fin (by omega) hW lo up nd) (h_ne (by omega) hlu).ne' hn u hi

theorem der2_fin {n : ℕ} (hn : 8 ≤ n) (hW : n < W) {lo up : ℝ} (hlu : lo < up) (nd : Bool) (u : ℕ → ℝ)
    {dv : List CR} (hd : dv.length = n) :
    (FD.mk' n (fin lo) (fin up) nd).der2 (tab n fun i => fin (u i)) dv =
      .ok (tab n fun i => fin ((∑ j ∈ Finset.range 8, FD.c2 (i - FD.b2 n i) j * u (FD.b2 n i + j)) /
        ((up - lo) / ((n : ℝ) - 1)) ^ 2)) := by
  rw [FD.der2_eq (FD.mk' n (fin lo) (fin up) nd) hn hW (v := tab n fun i => fin (u i)) (tab_length _ _) hd]
  congr 1
  apply tab_congr
  intro i hi
  rw [der2V_congr _ hn (w := fun i => fin (u i)) (fun j hj => gv_tab hj) hi]
  exact FD.der2V_fin _ (dx_fin (by omega) hW lo up nd) (h_ne (by omega) hlu).ne' hn u hi

/-- C11: `der` of the samples of any polynomial of degree at most 6 is its exact derivative at every grid point
(both ends included), whatever the previous content of the output. -/
theorem C11_der_exact (n : ℕ) (hn : 7 ≤ n) (hW : n < W) (lo up : ℝ) (hlu : lo < up) (nd : Bool)
    (x : ℕ → ℝ) (hx : ∀ i, (FD.mk' n (fin lo) (fin up) nd).pt i = fin (x i))
    (P : ℝ[X]) (hP : P.natDegree ≤ 6) (dv : List CR) (hd : dv.length = n) :
    (FD.mk' n (fin lo) (fin up) nd).der (tab n fun i => fin (P.eval (x i))) dv =
      .ok (tab n fun i => fin ((derivative P).eval (x i))) := by
  rw [der_fin hn hW hlu nd (fun i => P.eval (x i)) hd]
  congr 1
  apply tab_congr
  intro i hi
  obtain ⟨b1, b2, b3⟩ := FD.b1_spec hn hi
  set h := (up - lo) / ((n : ℝ) - 1)
  have hh : h ≠ 0 := (h_ne (by omega) hlu).ne'
  set b := FD.b1 n i
  have e1 : ∀ j : ℕ, P.eval (x (b + j)) = ∑ k ∈ Finset.range 7, (taylor (x b) P).coeff k * ((j : ℝ) * h) ^ k := by
    intro j
    rw [pt_shift (by omega) hW hx b j]
    exact FD.poly_eval_taylor P (by omega) _ _
  simp only [e1]
  rw [FD.c1_exact _ h hh _ b3, fin_inj]
  have e2 : x i = x b + ((i - b : ℕ) : ℝ) * h := by
    rw [← pt_shift (by omega) hW hx b (i - b)]
    congr 1; omega
  rw [e2, FD.poly_eval_taylor (derivative P) (N := 6) (by
    have := Polynomial.natDegree_derivative_le P; omega)]
  apply Finset.sum_congr rfl
  intro k _
  rw [FD.taylor_der]

/-- C12: `der2` of the samples of any polynomial of degree at most 7 is its exact second derivative at every
grid point. -/
theorem C12_der2_exact (n : ℕ) (hn : 8 ≤ n) (hW : n < W) (lo up : ℝ) (hlu : lo < up) (nd : Bool)
    (x : ℕ → ℝ) (hx : ∀ i, (FD.mk' n (fin lo) (fin up) nd).pt i = fin (x i))
    (P : ℝ[X]) (hP : P.natDegree ≤ 7) (dv : List CR) (hd : dv.length = n) :
    (FD.mk' n (fin lo) (fin up) nd).der2 (tab n fun i => fin (P.eval (x i))) dv =
      .ok (tab n fun i => fin ((derivative (derivative P)).eval (x i))) := by
  rw [der2_fin hn hW hlu nd (fun i => P.eval (x i)) hd]
  congr 1
  apply tab_congr
  intro i hi
  obtain ⟨b1, b2⟩ := FD.b2_spec hn hi
  set h := (up - lo) / ((n : ℝ) - 1)
  have hh : h ≠ 0 := (h_ne (by omega) hlu).ne'
  set b := FD.b2 n i
  have e1 : ∀ j : ℕ, P.eval (x (b + j)) = ∑ k ∈ Finset.range 8, (taylor (x b) P).coeff k * ((j : ℝ) * h) ^ k := by
    intro j
    rw [pt_shift (by omega) hW hx b j]
    exact FD.poly_eval_taylor P (by omega) _ _
  simp only [e1]
  rw [FD.c2_exact _ h hh _ (by omega) (by omega), fin_inj]
  have e2 : x i = x b + ((i - b : ℕ) : ℝ) * h := by
    rw [← pt_shift (by omega) hW hx b (i - b)]
    congr 1; omega
  rw [e2, FD.poly_eval_taylor (derivative (derivative P)) (N := 6) (by
    have := Polynomial.natDegree_derivative_le P
    have := Polynomial.natDegree_derivative_le (derivative P); omega)]
  apply Finset.sum_congr rfl
  intro k _
  rw [FD.taylor_der, FD.taylor_der]
  push_cast
  ring

/-- C11 is sharp: degree 7 is not differentiated exactly (x^7 on 0..6 at 0 gives -720, not 0), so the theorem's
degree bound is the right one. -/
theorem C11_degree_sharp :
    ∃ y : ℝ, y ≠ 0 ∧ ∃ w, (FD.mk' 7 (fin 0) (fin 6) false).der (tab 7 fun i => fin ((i : ℝ) ^ 7)) (tab 7 fun _ => bad)
      = .ok w ∧ gv w 0 = fin y := by
  refine ⟨-720, by norm_num, _, der_fin (le_refl _) (by unfold W; omega) (by norm_num) _ _ (by simp), ?_⟩
  rw [gv_tab (by omega)]
  simp [FD.b1, FD.c1, FD.q1, Finset.sum_range_succ]
  norm_num

example : ∃ (P : ℝ[X]) (x : ℕ → ℝ), P.natDegree ≤ 6 ∧ P ≠ 0 ∧
    (∀ i, (FD.mk' 33 (fin 2) (fin 5) true).pt i = fin (x i)) :=
  ⟨X ^ 6, _, by simp, by simp, fun i => C10_points 33 (by omega) (by unfold W; omega) 2 5 true i⟩

/-! ## C13 -/

/-- C13, first derivative: sixth-order error bound with an explicit constant, at every grid point. -/
theorem C13_der_sixth_order (n : ℕ) (hn : 7 ≤ n) (hW : n < W) (lo up : ℝ) (hlu : lo < up) (nd : Bool)
    (x : ℕ → ℝ) (hx : ∀ i, (FD.mk' n (fin lo) (fin up) nd).pt i = fin (x i))
    (f : ℝ → ℝ) (M : ℝ) (hf : ∀ z ∈ Set.Icc lo up, ContDiffAt ℝ 7 f z)
    (hM : ∀ z ∈ Set.Icc lo up, |iteratedDeriv 7 f z| ≤ M) (dv : List CR) (hd : dv.length = n) :
    ∃ w, (FD.mk' n (fin lo) (fin up) nd).der (tab n fun i => fin (f (x i))) dv = .ok w ∧ w.length = n ∧
      ∀ i, i < n → ∃ y, gv w i = fin y ∧ |y - deriv f (x i)| ≤ 2200 * M * ((up - lo) / ((n : ℝ) - 1)) ^ 6 := by
  refine ⟨_, der_fin hn hW hlu nd (fun i => f (x i)) hd, by simp, fun i hi => ⟨_, gv_tab hi, ?_⟩⟩
  obtain ⟨h1, h2, h3⟩ := FD.b1_spec hn hi
  set h := (up - lo) / ((n : ℝ) - 1) with hdef
  have hh : 0 < h := h_ne (by omega) hlu
  set b := FD.b1 n i
  have e0 : x 0 = lo := by
    have := hx 0
    rw [C10_points n (by omega) hW, fin_inj] at this
    simpa using this.symm
  have eb : x b = lo + b * h := by
    have := pt_shift (by omega) hW hx 0 b
    rwa [zero_add, e0] at this
  have e1 : ∀ j : ℕ, x (b + j) = x b + j * h := fun j => pt_shift (by omega) hW hx b j
  have e2 : x i = x b + ((i - b : ℕ) : ℝ) * h := by
    rw [← e1]; congr 1; omega
  have hup : up = lo + ((n : ℝ) - 1) * h := by
    rw [hdef]
    have : ((n : ℝ) - 1) ≠ 0 := by
      have : (7 : ℝ) ≤ n := by exact_mod_cast hn
      linarith
    field_simp; ring
  have hsub : ∀ z ∈ Set.Icc (x b) (x b + 6 * h), z ∈ Set.Icc lo up := by
    intro z hz
    refine ⟨?_, ?_⟩
    · have : 0 ≤ (b : ℝ) * h := by positivity
      linarith [hz.1]
    · refine le_trans hz.2 ?_
      rw [eb, hup]
      have : (b : ℝ) + 6 ≤ (n : ℝ) - 1 := by
        have : ((b + 6 + 1 : ℕ) : ℝ) ≤ n := by exact_mod_cast h1
        push_cast at this
        linarith
      nlinarith
  simp only [e1]
  rw [e2]
  exact FD.c1_error hh h3 (fun z hz => by exact_mod_cast hf z (hsub z hz)) (fun z hz => hM z (hsub z hz))

/-- C13, second derivative. -/
theorem C13_der2_sixth_order (n : ℕ) (hn : 8 ≤ n) (hW : n < W) (lo up : ℝ) (hlu : lo < up) (nd : Bool)
    (x : ℕ → ℝ) (hx : ∀ i, (FD.mk' n (fin lo) (fin up) nd).pt i = fin (x i))
    (f : ℝ → ℝ) (M : ℝ) (hf : ∀ z ∈ Set.Icc lo up, ContDiffAt ℝ 8 f z)
    (hM : ∀ z ∈ Set.Icc lo up, |iteratedDeriv 8 f z| ≤ M) (dv : List CR) (hd : dv.length = n) :
    ∃ w, (FD.mk' n (fin lo) (fin up) nd).der2 (tab n fun i => fin (f (x i))) dv = .ok w ∧ w.length = n ∧
      ∀ i, i < n → ∃ y, gv w i = fin y ∧
        |y - iteratedDeriv 2 f (x i)| ≤ 18600 * M * ((up - lo) / ((n : ℝ) - 1)) ^ 6 := by
  refine ⟨_, der2_fin hn hW hlu nd (fun i => f (x i)) hd, by simp, fun i hi => ⟨_, gv_tab hi, ?_⟩⟩
  obtain ⟨h2, h3⟩ := FD.b2_spec hn hi
  set h := (up - lo) / ((n : ℝ) - 1) with hdef
  have hh : 0 < h := h_ne (by omega) hlu
  set b := FD.b2 n i
  have e0 : x 0 = lo := by
    have := hx 0
    rw [C10_points n (by omega) hW, fin_inj] at this
    simpa using this.symm
  have eb : x b = lo + b * h := by
    have := pt_shift (by omega) hW hx 0 b
    rwa [zero_add, e0] at this
  have e1 : ∀ j : ℕ, x (b + j) = x b + j * h := fun j => pt_shift (by omega) hW hx b j
  have e2 : x i = x b + ((i - b : ℕ) : ℝ) * h := by
    rw [← e1]; congr 1; omega
  have hup : up = lo + ((n : ℝ) - 1) * h := by
    rw [hdef]
    have : ((n : ℝ) - 1) ≠ 0 := by
      have : (8 : ℝ) ≤ n := by exact_mod_cast hn
      linarith
    field_simp; ring
  have hsub : ∀ L : ℕ, b + L < n → ∀ z ∈ Set.Icc (x b) (x b + L * h), z ∈ Set.Icc lo up := by
    intro L hL z hz
    refine ⟨?_, ?_⟩
    · have : 0 ≤ (b : ℝ) * h := by positivity
      linarith [hz.1]
    · refine le_trans hz.2 ?_
      rw [eb, hup]
      have : (b : ℝ) + L ≤ (n : ℝ) - 1 := by
        have : ((b + L + 1 : ℕ) : ℝ) ≤ n := by exact_mod_cast hL
        push_cast at this
        linarith
      nlinarith
  simp only [e1]
  rw [e2]
  rcases h3 with ⟨hb, hs⟩ | ⟨hb, hs⟩
  · refine FD.c2_error (L := 6) hh (by omega) (by omega) (by omega) ?_
      (fun z hz => by exact_mod_cast hf z (hsub 6 hb z hz)) (fun z hz => hM z (hsub 6 hb z hz))
    intro j h6 h8
    have : j = 7 := by omega
    subst this
    rw [hs]; simp [FD.c2, FD.q2]
  · exact FD.c2_error (L := 7) hh (by omega) (by omega) (by omega) (fun j h7 h8 => by omega)
      (fun z hz => by exact_mod_cast hf z (hsub 7 hb z hz)) (fun z hz => hM z (hsub 7 hb z hz))

example : ∃ f : ℝ → ℝ, (∀ z ∈ Set.Icc (0 : ℝ) 1, ContDiffAt ℝ 8 f z) ∧ (∀ z ∈ Set.Icc (0 : ℝ) 1, ContDiffAt ℝ 7 f z) ∧
    (∀ z ∈ Set.Icc (0 : ℝ) 1, |iteratedDeriv 7 f z| ≤ 1) ∧ (∀ z ∈ Set.Icc (0 : ℝ) 1, |iteratedDeriv 8 f z| ≤ 1) := by
  refine ⟨Real.sin, fun _ _ => Real.contDiff_sin.contDiffAt, fun _ _ => Real.contDiff_sin.contDiffAt, ?_, ?_⟩
  · intro z _
    have : iteratedDeriv 7 Real.sin z = - Real.cos z := by
      simp [iteratedDeriv_succ, iteratedDeriv_zero]
    rw [this, abs_neg]; exact Real.abs_cos_le_one z
  · intro z _
    have : iteratedDeriv 8 Real.sin z = Real.sin z := by
      simp [iteratedDeriv_succ, iteratedDeriv_zero]
    rw [this]; exact Real.abs_sin_le_one z

/-! ## C14 -/

section bookkeeping
variable {α : Type} [Scalar α]

omit [Scalar α] in
theorem rd7_ub {v : List α} (f : α → α → α → α → α → α → α → α) (h : v.length < 7) :
    rd7 v 0 1 2 3 4 5 6 f = .error .ub := by
  match v, h with
  | [], _ => rfl
  | [_], _ => rfl
  | [_, _], _ => rfl
  | [_, _, _], _ => rfl
  | [_, _, _, _], _ => rfl
  | [_, _, _, _, _], _ => rfl
  | [_, _, _, _, _, _], _ => rfl
  | _ :: _ :: _ :: _ :: _ :: _ :: _ :: _, h => simp only [List.length_cons] at h; omega

omit [Scalar α] in
theorem rd8_ub {v : List α} (f : α → α → α → α → α → α → α → α → α) (h : v.length < 8) :
    rd8 v 0 1 2 3 4 5 6 7 f = .error .ub := by
  match v, h with
  | [], _ => rfl
  | [_], _ => rfl
  | [_, _], _ => rfl
  | [_, _, _], _ => rfl
  | [_, _, _, _], _ => rfl
  | [_, _, _, _, _], _ => rfl
  | [_, _, _, _, _, _], _ => rfl
  | [_, _, _, _, _, _, _], _ => rfl
  | _ :: _ :: _ :: _ :: _ :: _ :: _ :: _ :: _, h => simp only [List.length_cons] at h; omega

/-- C14, `der`: with correctly sized arrays it stays in bounds iff n >= 7; below, the out-of-bounds access
happens with assertions on or off. Any scalar arithmetic. -/
theorem C14_der_bounds (fd : FD α) (hW : fd.n < W) (v dv : List α) (hv : v.length = fd.n) (hd : dv.length = fd.n) :
    (7 ≤ fd.n → ∃ w, fd.der v dv = .ok w ∧ w.length = fd.n) ∧ (fd.n < 7 → fd.der v dv = .error .ub) := by
  refine ⟨fun hn => ⟨_, FD.der_eq fd hn hW hv hd, by simp⟩, fun hn => ?_⟩
  unfold FD.der
  rw [cassert_true _ _ (by simp [hv]), cassert_true _ _ (by simp [hd]), ok_bind, ok_bind]
  simp only [rd7_ub _ (hv ▸ hn)]
  rfl

/-- C14, `der2`: the threshold is n >= 8. -/
theorem C14_der2_bounds (fd : FD α) (hW : fd.n < W) (v dv : List α) (hv : v.length = fd.n) (hd : dv.length = fd.n) :
    (8 ≤ fd.n → ∃ w, fd.der2 v dv = .ok w ∧ w.length = fd.n) ∧ (fd.n < 8 → fd.der2 v dv = .error .ub) := by
  refine ⟨fun hn => ⟨_, FD.der2_eq fd hn hW hv hd, by simp⟩, fun hn => ?_⟩
  unfold FD.der2
  rw [cassert_true _ _ (by simp [hv]), cassert_true _ _ (by simp [hd]), ok_bind, ok_bind]
  simp only [rd8_ub _ (hv ▸ hn)]
  rfl

/-- C14, `filter`: in bounds iff n >= 4, and a no-op for 4 <= n <= 8; for n < 4 the unsigned loop bound wraps. -/
theorem C14_filter_bounds (fd : FD α) (hW : fd.n < W) (v : List α) (hv : v.length = fd.n) :
    (4 ≤ fd.n → ∃ w, fd.filter v = .ok w ∧ w.length = fd.n) ∧ (4 ≤ fd.n → fd.n ≤ 8 → fd.filter v = .ok v) ∧
    (fd.n < 4 → fd.filter v = .error .ub) := by
  refine ⟨fun hn => ⟨_, FD.filter_eq fd hn hW hv, by simp⟩, fun hn h8 => ?_, fun hn => ?_⟩
  · rw [FD.filter_eq fd hn hW hv]
    congr 1
    refine (eq_tab hv fun i hi => ?_).symm
    unfold FD.filterV
    rw [if_neg (by omega)]
  · unfold FD.filter
    rw [cassert_true _ _ (by simp [hv]), ok_bind, usub_wrap (by unfold W; omega) hn]
    dsimp only
    have h1 : ∀ b : ℕ → List α → Exec (List α), b 4 (List.replicate fd.n 0) = .error .ub →
        forRange 4 (fd.n + W - 4) (List.replicate fd.n 0) b = .error .ub :=
      fun b hb => forRange_first_err (by unfold W; omega) hb
    rw [h1]
    · rfl
    · match v, hv with
      | [], _ => rfl
      | [_], _ => rfl
      | [_, _], _ => rfl
      | [_, _, _], _ => rfl
      | _ :: _ :: _ :: _ :: _, hv => simp only [List.length_cons] at hv; omega

/-- C14, full overwrite: the previous content of the output array never matters (bit for bit). -/
theorem C14_der_overwrites (fd : FD α) (hW : fd.n < W) (v dv dv' : List α) (hv : v.length = fd.n)
    (hd : dv.length = fd.n) (hd' : dv'.length = fd.n) :
    fd.der v dv = fd.der v dv' ∧ fd.der2 v dv = fd.der2 v dv' := by
  refine ⟨?_, ?_⟩
  · rcases Nat.lt_or_ge fd.n 7 with h | h
    · rw [(C14_der_bounds fd hW v dv hv hd).2 h, (C14_der_bounds fd hW v dv' hv hd').2 h]
    · rw [FD.der_eq fd h hW hv hd, FD.der_eq fd h hW hv hd']
  · rcases Nat.lt_or_ge fd.n 8 with h | h
    · rw [(C14_der2_bounds fd hW v dv hv hd).2 h, (C14_der2_bounds fd hW v dv' hv hd').2 h]
    · rw [FD.der2_eq fd h hW hv hd, FD.der2_eq fd h hW hv hd']

/-- C14: arrays of the wrong size are caught when assertions are on. -/
theorem C14_wrong_size_aborts (fd : FD α) (hnd : fd.ndebug = false) (v dv : List α) (hv : v.length ≠ fd.n) :
    fd.der v dv = .error .abort ∧ fd.der2 v dv = .error .abort ∧ fd.filter v = .error .abort := by
  have : cassert fd.ndebug (v.length == fd.n) = .error .abort := by simp [cassert, hnd, hv]
  unfold FD.der FD.der2 FD.filter
  simp [this]

example : ∃ fd : FD Float, fd.n < W ∧ 7 ≤ fd.n ∧ fd.ndebug = false := ⟨⟨9, 0, 1, 0.125, false⟩, by decide, by decide, rfl⟩
example : ∃ fd : FD Float, fd.n < W ∧ fd.n < 4 ∧ 1 ≤ fd.n := ⟨⟨3, 0, 1, 0.5, false⟩, by decide, by decide, by decide⟩

/-! ## C15 -/

/-- C15: `filter` never changes the first and last four values (bit for bit). -/
theorem C15_filter_keeps_ends (fd : FD α) (hn : 4 ≤ fd.n) (hW : fd.n < W) (v : List α) (hv : v.length = fd.n) :
    ∃ w, fd.filter v = .ok w ∧ w.length = fd.n ∧ ∀ i, i < fd.n → (i < 4 ∨ fd.n - 4 ≤ i) → gv w i = gv v i := by
  refine ⟨_, FD.filter_eq fd hn hW hv, by simp, fun i hi hc => ?_⟩
  rw [gv_tab hi]
  unfold FD.filterV
  rw [if_neg (by omega)]

end bookkeeping

theorem filterV_congr {α : Type} [Scalar α] {n : ℕ} {v w : ℕ → α} (h : ∀ i, i < n → v i = w i)
    {i : ℕ} (hi : i < n) : FD.filterV n v i = FD.filterV n w i := by
  unfold FD.filterV
  split
  · rw [h (i-4) (by omega), h (i-3) (by omega), h (i-2) (by omega), h (i-1) (by omega), h i hi, h (i+1) (by omega),
      h (i+2) (by omega), h (i+3) (by omega), h (i+4) (by omega)]
  · exact h i hi

theorem filter_fin (fd : FD CR) (hn : 4 ≤ fd.n) (hW : fd.n < W) (u : ℕ → ℝ) :
    fd.filter (tab fd.n fun i => fin (u i)) = .ok (tab fd.n fun i => fin (if 4 ≤ i ∧ i < fd.n - 4 then
      u i - (1/256) * ∑ j ∈ Finset.range 9, (FD.k8 j : ℝ) * u (i - 4 + j) else u i)) := by
  rw [FD.filter_eq fd hn hW (by simp)]
  congr 1
  apply tab_congr
  intro i hi
  rw [filterV_congr gv_tab_fun hi, FD.filterV_fin]

/-- C15: samples of a polynomial of degree at most 7 on equally spaced points are unchanged. -/
theorem C15_filter_fixes_polynomials (fd : FD CR) (hn : 4 ≤ fd.n) (hW : fd.n < W) (x0 h : ℝ)
    (P : ℝ[X]) (hP : P.natDegree ≤ 7) :
    fd.filter (tab fd.n fun i => fin (P.eval (x0 + i * h))) = .ok (tab fd.n fun i => fin (P.eval (x0 + i * h))) := by
  rw [filter_fin fd hn hW fun i => P.eval (x0 + i * h)]
  congr 1
  apply tab_congr
  intro i hi
  rw [fin_inj]
  split
  · rename_i hc
    have e : ∀ j : ℕ, P.eval (x0 + ((i - 4 + j : ℕ) : ℝ) * h) =
        ∑ k ∈ Finset.range 8, (taylor (x0 + ((i - 4 : ℕ) : ℝ) * h) P).coeff k * ((j : ℝ) * h) ^ k := by
      intro j
      rw [← FD.poly_eval_taylor P (by omega)]
      congr 1; push_cast; ring
    simp only [e]
    rw [FD.k8_poly, mul_zero, sub_zero]
  · rfl

/-- C15: `filter` is linear (exact arithmetic). -/
theorem C15_filter_linear (fd : FD CR) (hn : 4 ≤ fd.n) (hW : fd.n < W) (u v : ℕ → ℝ) (a b : ℝ) :
    ∃ fu fv : ℕ → ℝ, fd.filter (tab fd.n fun i => fin (u i)) = .ok (tab fd.n fun i => fin (fu i)) ∧
      fd.filter (tab fd.n fun i => fin (v i)) = .ok (tab fd.n fun i => fin (fv i)) ∧
      fd.filter (tab fd.n fun i => fin (a * u i + b * v i)) = .ok (tab fd.n fun i => fin (a * fu i + b * fv i)) := by
  refine ⟨_, _, filter_fin fd hn hW u, filter_fin fd hn hW v, ?_⟩
  rw [filter_fin fd hn hW fun i => a * u i + b * v i]
  congr 1
  apply tab_congr
  intro i hi
  rw [fin_inj]
  split
  · have : ∀ j ∈ Finset.range 9, (FD.k8 j : ℝ) * (a * u (i - 4 + j) + b * v (i - 4 + j)) =
        a * ((FD.k8 j : ℝ) * u (i - 4 + j)) + b * ((FD.k8 j : ℝ) * v (i - 4 + j)) := fun j _ => by ring
    rw [Finset.sum_congr rfl this, Finset.sum_add_distrib, ← Finset.mul_sum, ← Finset.mul_sum]
    ring
  · rfl

example : ∃ fd : FD CR, 9 ≤ fd.n ∧ fd.n < W ∧ fd.n - 4 > 4 := ⟨FD.mk' 33 (fin 0) (fin 1) false, by decide, by decide, by decide⟩

/-! ## C16 -/

/-- C16: on every interior point a Fourier mode (any wavenumber `k` and phase `p`) is multiplied by
`1 - sin^8(k/2)`. -/
theorem C16_filter_symbol (fd : FD CR) (hn : 4 ≤ fd.n) (hW : fd.n < W) (k p : ℝ) :
    ∃ w, fd.filter (tab fd.n fun i => fin (Real.cos (k * i + p))) = .ok w ∧ w.length = fd.n ∧
      ∀ i, 4 ≤ i → i < fd.n - 4 → gv w i = fin ((1 - Real.sin (k / 2) ^ 8) * Real.cos (k * i + p)) := by
  refine ⟨_, filter_fin fd hn hW fun i => Real.cos (k * i + p), by simp, fun i h4 hi => ?_⟩
  rw [gv_tab (by omega), fin_inj, if_pos ⟨h4, hi⟩]
  have e : ∀ j : ℕ, Real.cos (k * ((i - 4 + j : ℕ) : ℝ) + p) = Real.cos ((k * i + p) + ((j : ℝ) - 4) * k) := by
    intro j
    congr 1
    push_cast [h4]; ring
  simp only [e]
  rw [FD.k8_cos]
  ring

/-- C16: the factor lies in [0,1]; it is 1 only for modes that are constant on the grid; it is 0 exactly for the
alternating mode. -/
theorem C16_symbol_range (k : ℝ) :
    0 ≤ 1 - Real.sin (k / 2) ^ 8 ∧ 1 - Real.sin (k / 2) ^ 8 ≤ 1 ∧
    (1 - Real.sin (k / 2) ^ 8 = 1 ↔ Real.cos k = 1) ∧ (1 - Real.sin (k / 2) ^ 8 = 0 ↔ Real.cos k = -1) := by
  have s2 : Real.sin (k / 2) ^ 2 = (1 - Real.cos k) / 2 := by
    have := Real.cos_sq (k / 2)
    have h2 := Real.sin_sq_add_cos_sq (k / 2)
    have h3 : 2 * (k / 2) = k := by ring
    rw [h3] at this
    linarith
  have s8 : Real.sin (k / 2) ^ 8 = ((1 - Real.cos k) / 2) ^ 4 := by
    rw [← s2]; ring
  have c1 := Real.cos_le_one k
  have c2 := Real.neg_one_le_cos k
  rw [s8]
  have h0 : 0 ≤ (1 - Real.cos k) / 2 := by linarith
  have h1 : (1 - Real.cos k) / 2 ≤ 1 := by linarith
  have hp : ((1 - Real.cos k) / 2) ^ 4 ≤ 1 := pow_le_one₀ h0 h1
  refine ⟨by linarith, by linarith [pow_nonneg h0 4], ?_, ?_⟩
  · constructor
    · intro h
      have : ((1 - Real.cos k) / 2) ^ 4 = 0 := by linarith
      have := pow_eq_zero_iff (by norm_num : (4 : ℕ) ≠ 0) |>.mp this
      linarith
    · intro h; rw [h]; norm_num
  · constructor
    · intro h
      have h4 : ((1 - Real.cos k) / 2) ^ 4 = 1 := by linarith
      have := (pow_eq_one_iff_of_nonneg h0 (by norm_num : (4 : ℕ) ≠ 0)).mp h4
      linarith
    · intro h; rw [h]; norm_num

/-- C16: the grid-scale mode (-1)^i is removed on the interior. -/
theorem C16_alternating_removed (fd : FD CR) (hn : 4 ≤ fd.n) (hW : fd.n < W) :
    ∃ w, fd.filter (tab fd.n fun i => fin (Real.cos (Real.pi * i + 0))) = .ok w ∧
      ∀ i, 4 ≤ i → i < fd.n - 4 → gv w i = fin 0 := by
  obtain ⟨w, h1, _, h3⟩ := C16_filter_symbol fd hn hW Real.pi 0
  refine ⟨w, h1, fun i a b => ?_⟩
  rw [h3 i a b, (C16_symbol_range Real.pi).2.2.2.mpr Real.cos_pi, zero_mul]

example : ∃ fd : FD CR, 4 ≤ fd.n ∧ fd.n < W ∧ ∃ i, 4 ≤ i ∧ i < fd.n - 4 :=
  ⟨FD.mk' 33 (fin 0) (fin 1) false, by decide, by decide, 7, by decide, by decide⟩

/-! ## C17 -/

/-- discrete total variation of `n` samples -/
noncomputable def TV (n : ℕ) (u : ℕ → ℝ) : ℝ := ∑ i ∈ Finset.range (n - 1), |u (i + 1) - u i|

/-- The property C17 asks for. -/
def FilterTVD (fd : FD CR) : Prop :=
  ∀ u w : ℕ → ℝ, fd.filter (tab fd.n fun i => fin (u i)) = .ok (tab fd.n fun i => fin (w i)) →
    TV fd.n w ≤ TV fd.n u

/-- samples of a step between positions 7 and 8 -/
noncomputable def stepU (i : ℕ) : ℝ := if i < 8 then 0 else 1

/-- C17 is false of the code: a step function on 16 points gains total variation. -/
theorem C17_filter_not_TVD : ¬ FilterTVD (FD.mk' 16 (fin 0) (fin 1) true) := by
  intro h
  have h2 := h stepU _ (filter_fin (FD.mk' 16 (fin 0) (fin 1) true) (by decide) (by decide) stepU)
  have e1 : TV 16 stepU = 1 := by
    simp [TV, stepU, Finset.sum_range_succ]
  have hn : (FD.mk' 16 (fin 0) (fin 1) true).n = 16 := rfl
  rw [hn, e1] at h2
  unfold TV at h2
  simp only [FD.k8_sum] at h2
  simp only [Finset.sum_range_succ, Finset.sum_range_zero, stepU] at h2
  norm_num [abs_of_pos, abs_of_neg, abs_div] at h2

/-- seventh difference coefficients -/
def k7 (j : ℕ) : ℤ := (-1) ^ (j + 1) * (Nat.choose 7 j : ℤ)

theorem k8_by_parts (w : ℕ → ℝ) :
    ∑ j ∈ Finset.range 9, (FD.k8 j : ℝ) * w j = ∑ j ∈ Finset.range 8, (k7 j : ℝ) * (w (j + 1) - w j) := by
  rw [FD.k8_sum]
  simp [Finset.sum_range_succ, k7, Nat.choose]
  ring

theorem k7_abs : ∑ j ∈ Finset.range 8, |(k7 j : ℝ)| = 128 := by
  have : ∑ j ∈ Finset.range 8, |k7 j| = 128 := by decide +kernel
  exact_mod_cast this

/-- C17 (partial): total variation at most doubles, for every input and every n.  Missing: that it does not
increase, which is false (`C17_filter_not_TVD`). -/
theorem C17_filter_TV_bound_partial (fd : FD CR) (hn : 4 ≤ fd.n) (hW : fd.n < W) (u w : ℕ → ℝ)
    (h : fd.filter (tab fd.n fun i => fin (u i)) = .ok (tab fd.n fun i => fin (w i))) :
    TV fd.n w ≤ 2 * TV fd.n u := by
  rw [filter_fin fd hn hW u] at h
  have hw : ∀ i, i < fd.n → w i = (if 4 ≤ i ∧ i < fd.n - 4 then
      u i - (1/256) * ∑ j ∈ Finset.range 9, (FD.k8 j : ℝ) * u (i - 4 + j) else u i) := by
    intro i hi
    have h2 := Except.ok.inj h
    have := tab_inj h2 hi
    rw [fin_inj] at this
    exact this.symm
  generalize fd.n = n at *
  -- the correction
  set e : ℕ → ℝ := fun i => if 4 ≤ i ∧ i < n - 4 then
    (1/256) * ∑ j ∈ Finset.range 9, (FD.k8 j : ℝ) * u (i - 4 + j) else 0 with he
  have hwe : ∀ i, i < n → w i = u i - e i := by
    intro i hi
    rw [hw i hi, he]
    simp only
    split
    · rfl
    · rw [sub_zero]
  have hTVu : 0 ≤ TV n u := Finset.sum_nonneg fun _ _ => abs_nonneg _
  have heb : ∑ i ∈ Finset.range n, |e i| ≤ TV n u / 2 := by
    have h1 : ∀ i ∈ Finset.range n, |e i| ≤ ∑ j ∈ Finset.range 8, (|(k7 j : ℝ)| / 256) *
        (if 4 ≤ i ∧ i < n - 4 then |u (i - 4 + j + 1) - u (i - 4 + j)| else 0) := by
      intro i _
      rw [he]
      simp only
      split
      · rw [k8_by_parts (fun j => u (i - 4 + j)), abs_mul, abs_of_pos (by norm_num : (0 : ℝ) < 1 / 256)]
        calc _ ≤ 1 / 256 * ∑ j ∈ Finset.range 8, |(k7 j : ℝ) * (u (i - 4 + (j + 1)) - u (i - 4 + j))| :=
              mul_le_mul_of_nonneg_left (Finset.abs_sum_le_sum_abs _ _) (by norm_num)
          _ = _ := by
              rw [Finset.mul_sum]
              apply Finset.sum_congr rfl
              intro j _
              rw [abs_mul, add_assoc]; ring
      · simp
    refine le_trans (Finset.sum_le_sum h1) ?_
    rw [Finset.sum_comm]
    have h2 : ∀ j ∈ Finset.range 8, ∑ i ∈ Finset.range n, (|(k7 j : ℝ)| / 256) *
        (if 4 ≤ i ∧ i < n - 4 then |u (i - 4 + j + 1) - u (i - 4 + j)| else 0) ≤ (|(k7 j : ℝ)| / 256) * TV n u := by
      intro j hj
      have hj8 := Finset.mem_range.mp hj
      rw [← Finset.mul_sum]
      refine mul_le_mul_of_nonneg_left ?_ (by positivity)
      rw [← Finset.sum_filter]
      unfold TV
      have hinj : Set.InjOn (fun i => i - 4 + j) ((Finset.range n).filter fun i => 4 ≤ i ∧ i < n - 4) := by
        intro a ha b hb hab
        simp only [Finset.coe_filter, Set.mem_ofPred_eq] at ha hb
        simp only at hab
        omega
      rw [← Finset.sum_image (f := fun i => |u (i + 1) - u i|) hinj]
      refine Finset.sum_le_sum_of_subset_of_nonneg ?_ (fun _ _ _ => abs_nonneg _)
      intro i hi
      simp only [Finset.mem_image, Finset.mem_filter, Finset.mem_range] at hi ⊢
      omega
    refine le_trans (Finset.sum_le_sum h2) ?_
    rw [← Finset.sum_mul, ← Finset.sum_div, k7_abs]
    linarith
  have hstep : TV n w ≤ TV n u + (∑ i ∈ Finset.range (n - 1), |e (i + 1)| + ∑ i ∈ Finset.range (n - 1), |e i|) := by
    unfold TV
    rw [← Finset.sum_add_distrib, ← Finset.sum_add_distrib]
    apply Finset.sum_le_sum
    intro i hi
    have hi' := Finset.mem_range.mp hi
    rw [hwe (i + 1) (by omega), hwe i (by omega)]
    have : u (i + 1) - e (i + 1) - (u i - e i) = (u (i + 1) - u i) + (e i - e (i + 1)) := by ring
    rw [this]
    refine le_trans (abs_add_le _ _) ?_
    have := abs_sub (e i) (e (i + 1))
    linarith
  have hs1 : ∑ i ∈ Finset.range (n - 1), |e (i + 1)| ≤ ∑ i ∈ Finset.range n, |e i| := by
    obtain ⟨m, rfl⟩ : ∃ m, n = m + 1 := ⟨n - 1, by omega⟩
    rw [Finset.sum_range_succ' (fun i => |e i|) m]
    simp
  have hs2 : ∑ i ∈ Finset.range (n - 1), |e i| ≤ ∑ i ∈ Finset.range n, |e i| :=
    Finset.sum_le_sum_of_subset_of_nonneg (by intro i; simp; omega) (fun _ _ _ => abs_nonneg _)
  linarith

end SFK
