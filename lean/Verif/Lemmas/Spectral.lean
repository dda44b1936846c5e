import Verif.Props.Cheb
import Verif.Lemmas.Fourier
import Mathlib.Analysis.SpecialFunctions.Trigonometric.Chebyshev.RootsExtrema
import Mathlib.Analysis.Calculus.MeanValue
/-
Accuracy of the Chebyshev operators: size of the differentiation and filter operators on samples, and polynomial approximation of
smooth functions.
-/
namespace SFK
open Scalar CR Finset Polynomial

/-! ### size of Chebyshev polynomials and their derivatives on `[-1,1]` -/

theorem abs_U_le (k : ℕ) {x : ℝ} (hx : |x| ≤ 1) : |(Chebyshev.U ℝ k).eval x| ≤ k + 1 := by
  induction k with
  | zero => simp
  | succ k ih =>
    have h := Chebyshev.U_eq_X_mul_U_add_T ℝ (k : ℤ)
    push_cast
    rw [h, eval_add, eval_mul, eval_X]
    have hT := Chebyshev.abs_eval_T_real_le_one ((k : ℤ) + 1) hx
    have hU : |x * (Chebyshev.U ℝ k).eval x| ≤ 1 * (k + 1) := by
      rw [abs_mul]
      exact mul_le_mul hx ih (abs_nonneg _) zero_le_one
    have := (abs_add_le _ _).trans (add_le_add hU hT)
    linarith

theorem abs_T_derivative_le (k : ℕ) {x : ℝ} (hx : |x| ≤ 1) : |(derivative (Chebyshev.T ℝ k)).eval x| ≤ (k : ℝ) ^ 2 := by
  rcases Nat.eq_zero_or_pos k with rfl | hk
  · simp
  · obtain ⟨q, rfl⟩ : ∃ q, k = q + 1 := ⟨k - 1, by omega⟩
    rw [Chebyshev.T_derivative_eq_U, show ((q + 1 : ℕ) : ℤ) - 1 = q by push_cast; ring]
    have hU := abs_U_le q hx
    have e : (((q + 1 : ℕ) : ℤ) * Chebyshev.U ℝ q : ℝ[X]).eval x = (q + 1) * (Chebyshev.U ℝ q).eval x := by
      rw [eval_mul]
      congr 1
      simp
    rw [e, abs_mul, abs_of_nonneg (by positivity)]
    push_cast
    rw [sq]
    exact mul_le_mul_of_nonneg_left hU (by positivity)

section
variable {n : ℕ} {lo up : ℝ} {dct : List CR → List CR} {nd : Bool} {c : Cheb CR}

theorem cheb_arg (hlu : lo < up) {x : ℝ} (hx : x ∈ Set.Icc lo up) :
    |(C (2 / (up - lo)) * X - C ((up + lo) / (up - lo)) : ℝ[X]).eval x| ≤ 1 := by
  have hd : 0 < up - lo := by linarith
  have : (C (2 / (up - lo)) * X - C ((up + lo) / (up - lo)) : ℝ[X]).eval x = (2 * x - (up + lo)) / (up - lo) := by
    simp; field_simp
  rw [this, abs_div, abs_of_pos hd, div_le_one hd, abs_le]
  constructor <;> linarith [hx.1, hx.2]

theorem chebPoly_abs_le (hlu : lo < up) (m : ℕ) (a : ℕ → ℝ) {x : ℝ} (hx : x ∈ Set.Icc lo up) :
    |(chebPoly m lo up a).eval x| ≤ ∑ k ∈ range m, |a k| := by
  unfold chebPoly
  rw [eval_finsetSum]
  refine (abs_sum_le_sum_abs _ _).trans (sum_le_sum fun k _ => ?_)
  rw [eval_mul, eval_C, eval_comp, abs_mul]
  exact mul_le_of_le_one_right (abs_nonneg _) (Chebyshev.abs_eval_T_real_le_one _ (cheb_arg hlu hx))

theorem chebPoly_derivative_abs_le (hlu : lo < up) (m : ℕ) (a : ℕ → ℝ) {x : ℝ} (hx : x ∈ Set.Icc lo up) :
    |(derivative (chebPoly m lo up a)).eval x| ≤ ∑ k ∈ range m, |a k| * (2 / (up - lo) * (k : ℝ) ^ 2) := by
  have hd : 0 < up - lo := by linarith
  unfold chebPoly
  rw [derivative_sum, eval_finsetSum]
  refine (abs_sum_le_sum_abs _ _).trans (sum_le_sum fun k _ => ?_)
  have e : derivative (C (2 / (up - lo)) * X - C ((up + lo) / (up - lo)) : ℝ[X]) = C (2 / (up - lo)) := by simp
  rw [derivative_C_mul, derivative_comp, e, eval_mul, eval_C, eval_mul, eval_C, eval_comp, abs_mul, abs_mul,
    abs_of_pos (by positivity : 0 < 2 / (up - lo))]
  gcongr
  exact abs_T_derivative_le k (cheb_arg hlu hx)

theorem chebPoly_eval_cos (hlu : lo < up) (m : ℕ) (a : ℕ → ℝ) (θ : ℝ) :
    (chebPoly m lo up a).eval ((up + lo) / 2 + (up - lo) / 2 * Real.cos θ) = ∑ k ∈ range m, a k * Real.cos (k * θ) := by
  have hd : up - lo ≠ 0 := by linarith
  unfold chebPoly
  rw [eval_finsetSum]
  refine sum_congr rfl fun k _ => ?_
  rw [eval_mul, eval_C, eval_comp]
  have : (C (2 / (up - lo)) * X - C ((up + lo) / (up - lo)) : ℝ[X]).eval ((up + lo) / 2 + (up - lo) / 2 * Real.cos θ) = Real.cos θ := by
    simp; field_simp; ring
  rw [this, Chebyshev.T_real_cos]
  push_cast
  rfl

theorem chebPt_mem (hn : 2 ≤ n) (hlu : lo < up) (i : ℕ) : chebPt n lo up i ∈ Set.Icc lo up := by
  unfold chebPt
  have h1 := Real.neg_one_le_cos (Real.pi * i / ((n : ℝ) - 1))
  have h2 := Real.cos_le_one (Real.pi * i / ((n : ℝ) - 1))
  constructor <;> nlinarith

/-- Coefficients of the interpolating polynomial are at most twice the largest sample. -/
theorem coef_le (hn : 2 ≤ n) (hlu : lo < up) {a : ℕ → ℝ} {δ : ℝ} (h : ∀ i, i < n → |(chebPoly n lo up a).eval (chebPt n lo up i)| ≤ δ)
    {k : ℕ} (hk : k < n) : |a k| ≤ 2 * δ := by
  have e := dct_of_series (N := n - 1) (by omega) a (m := k) (by omega)
  rw [show n - 1 + 1 = n by omega] at e
  have hN0 : (0 : ℝ) < ((n - 1 : ℕ) : ℝ) := by exact_mod_cast (by omega : 0 < n - 1)
  have e2 : ∀ j : ℕ, ∑ k ∈ range n, a k * Real.cos (Real.pi * k * j / ((n - 1 : ℕ) : ℝ)) = (chebPoly n lo up a).eval (chebPt n lo up j) :=
    fun j => (chebPoly_eval hn hlu n a j).symm
  simp only [e2] at e
  have hδ : 0 ≤ δ := (abs_nonneg _).trans (h 0 (by omega))
  have hr : |redft00 (n - 1) (fun j => (chebPoly n lo up a).eval (chebPt n lo up j)) k| ≤ 2 * ((n - 1 : ℕ) : ℝ) * δ := by
    rw [redft00_eq (by omega)]
    refine (abs_sum_le_sum_abs _ _).trans ?_
    have hw : ∑ j ∈ range (n - 1 + 1), wN (n - 1) j = 2 * ((n - 1 : ℕ) : ℝ) := by
      have := sum_wN (N := n - 1) (by omega) (fun _ => (1 : ℝ))
      simp only [mul_one, sum_const, Nat.card_Ico, nsmul_eq_mul] at this
      rw [this, Nat.cast_sub (by omega)]
      push_cast; ring
    rw [← hw, sum_mul]
    refine sum_le_sum fun j hj => ?_
    rw [mem_range] at hj
    rw [abs_mul, abs_of_pos (wN_pos _ _), abs_mul]
    refine mul_le_mul_of_nonneg_left ?_ (wN_pos _ _).le
    exact (mul_le_of_le_one_right (abs_nonneg _) (Real.abs_cos_le_one _)).trans (h j (by omega))
  have hw : wN (n - 1) k ≤ 2 := by unfold wN; split_ifs <;> norm_num
  rw [← e, abs_div, abs_mul, abs_of_pos (wN_pos _ _), abs_of_pos (by positivity : 0 < 2 * ((n - 1 : ℕ) : ℝ)), div_le_iff₀ (by positivity)]
  calc _ ≤ 2 * (2 * ((n - 1 : ℕ) : ℝ) * δ) := mul_le_mul hw hr (abs_nonneg _) (by norm_num)
    _ = _ := by ring

theorem sum_sq_le (n : ℕ) : ∑ k ∈ range n, (k : ℝ) ^ 2 ≤ (n : ℝ) ^ 3 := by
  calc _ ≤ ∑ _k ∈ range n, (n : ℝ) ^ 2 := sum_le_sum fun k hk => by
        rw [mem_range] at hk
        exact pow_le_pow_left₀ (by positivity) (by exact_mod_cast hk.le) 2
    _ = (n : ℝ) ^ 3 := by rw [sum_const, card_range, nsmul_eq_mul]; ring

/-- interpolating coefficients of any samples -/
theorem interp (hn : 2 ≤ n) (hlu : lo < up) (u : ℕ → ℝ) :
    ∃ a : ℕ → ℝ, ∀ i, i < n → (chebPoly n lo up a).eval (chebPt n lo up i) = u i := by
  refine ⟨fun k => wN (n - 1) k * redft00 (n - 1) u k / (2 * ((n - 1 : ℕ) : ℝ)), fun i hi => ?_⟩
  rw [chebPoly_eval hn hlu]
  have := series_of_dct (N := n - 1) (by omega) u (m := i) (by omega)
  rw [show n - 1 + 1 = n by omega] at this
  rw [← this]

theorem chebPoly_add (m : ℕ) (lo up : ℝ) (a b : ℕ → ℝ) : chebPoly m lo up (fun k => a k + b k) = chebPoly m lo up a + chebPoly m lo up b := by
  unfold chebPoly
  rw [← sum_add_distrib]
  refine sum_congr rfl fun k _ => ?_
  rw [C_add, add_mul]

/-- Differentiation of samples that are within `δ` of a polynomial of degree `≤ n-3`. -/
theorem der_near (hn : 2 ≤ n) (hW : n < W) (hlu : lo < up) (hf : FftwOk n dct)
    (hc : Cheb.mk' n (fin lo) (fin up) dct true nd = .ok c) {Q : ℝ[X]} (hQ : Q.degree < (n - 2 : ℕ)) {u : ℕ → ℝ} {δ : ℝ}
    (hu : ∀ i, i < n → |u i - Q.eval (chebPt n lo up i)| ≤ δ) {o : List CR} (ho : o.length = n) :
    ∃ w : ℕ → ℝ, c.der (tab n fun i => fin (u i)) o = .ok (tab n fun i => fin (w i)) ∧
      ∀ i, i < n → |w i - Q.derivative.eval (chebPt n lo up i)| ≤ 4 * (n : ℝ) ^ 3 / (up - lo) * δ := by
  have hd : 0 < up - lo := by linarith
  obtain ⟨e, he⟩ := interp hn hlu (fun i => u i - Q.eval (chebPt n lo up i))
  obtain ⟨q, hq⟩ := interp hn hlu (fun i => Q.eval (chebPt n lo up i))
  have hu' : (tab n fun i => fin (u i)) = tab n fun i => fin ((chebPoly n lo up fun k => q k + e k).eval (chebPt n lo up i)) := by
    refine tab_congr fun i hi => ?_
    rw [chebPoly_add, eval_add, hq i hi, he i hi, fin_inj]
    ring
  have h1 := C20_action hn hW hlu hf hc (fun k => q k + e k) ho
  have h2 := C20_action hn hW hlu hf hc q ho
  have h3 := C20_exact_partial hn hW hlu hf hc hQ ho
  have hQ' : (tab n fun i => fin (Q.eval (chebPt n lo up i))) = tab n fun i => fin ((chebPoly n lo up q).eval (chebPt n lo up i)) :=
    tab_congr fun i hi => by rw [hq i hi]
  rw [hQ', h2] at h3
  injection h3 with h3
  refine ⟨fun i => (derivative (chebPoly n lo up fun k => if k + 2 < n then q k + e k else 0)).eval (chebPt n lo up i),
    by rw [hu', h1], fun i hi => ?_⟩
  beta_reduce
  have h4 : (derivative (chebPoly n lo up fun k => if k + 2 < n then q k else 0)).eval (chebPt n lo up i) = Q.derivative.eval (chebPt n lo up i) := by
    have := congrArg (fun l => gv l i) h3
    simp only [gv_tab hi, fin_inj] at this
    exact this
  have h5 : chebPoly n lo up (fun k => if k + 2 < n then q k + e k else 0) =
      chebPoly n lo up (fun k => if k + 2 < n then q k else 0) + chebPoly n lo up (fun k => if k + 2 < n then e k else 0) := by
    rw [← chebPoly_add]
    congr 1
    funext k
    split_ifs <;> simp
  rw [h5, derivative_add, eval_add, h4, add_sub_cancel_left]
  refine (chebPoly_derivative_abs_le hlu n _ (chebPt_mem hn hlu i)).trans ?_
  have hδ : 0 ≤ δ := (abs_nonneg _).trans (hu 0 (by omega))
  have hek : ∀ k, k < n → |if k + 2 < n then e k else 0| ≤ 2 * δ := by
    intro k hk
    split_ifs
    · exact coef_le hn hlu (fun i hi => by rw [he i hi]; exact hu i hi) hk
    · rw [abs_zero]; positivity
  calc _ ≤ ∑ k ∈ range n, 2 * δ * (2 / (up - lo) * (k : ℝ) ^ 2) := sum_le_sum fun k hk => by
        rw [mem_range] at hk
        exact mul_le_mul_of_nonneg_right (hek k hk) (by positivity)
    _ = 4 * δ / (up - lo) * ∑ k ∈ range n, (k : ℝ) ^ 2 := by rw [mul_sum]; refine sum_congr rfl fun k _ => by ring
    _ ≤ 4 * δ / (up - lo) * (n : ℝ) ^ 3 := mul_le_mul_of_nonneg_left (sum_sq_le n) (by positivity)
    _ = _ := by ring

end

/-! ### polynomial approximation -/

theorem exists_antideriv (P : ℝ[X]) {N : ℕ} (hP : P.degree < N) (x₀ y₀ : ℝ) :
    ∃ Q : ℝ[X], Q.degree < (N + 1 : ℕ) ∧ derivative Q = P ∧ Q.eval x₀ = y₀ := by
  obtain ⟨Q, h1, h2⟩ : ∃ Q : ℝ[X], Q.degree < (N + 1 : ℕ) ∧ derivative Q = P := by
    rcases eq_or_ne P 0 with rfl | h0
    · exact ⟨0, by rw [degree_zero]; exact WithBot.bot_lt_coe _, by simp⟩
    refine ⟨∑ i ∈ range N, C (P.coeff i / (i + 1)) * X ^ (i + 1), ?_, ?_⟩
    · refine lt_of_le_of_lt (degree_sum_le _ _) ?_
      rw [Finset.sup_lt_iff (WithBot.bot_lt_coe _)]
      intro i hi
      rw [mem_range] at hi
      refine lt_of_le_of_lt (degree_C_mul_X_pow_le _ _) ?_
      exact_mod_cast (by omega : i + 1 < N + 1)
    · rw [derivative_sum]
      have hs : P = ∑ i ∈ range N, C (P.coeff i) * X ^ i := by
        conv_lhs => rw [as_sum_range_C_mul_X_pow' (n := N) P ((natDegree_lt_iff_degree_lt h0).mpr hP)]
      conv_rhs => rw [hs]
      refine sum_congr rfl fun i _ => ?_
      rw [derivative_C_mul_X_pow]
      have : ((i : ℝ) + 1) ≠ 0 := by positivity
      push_cast
      rw [div_mul_cancel₀ _ this]
  refine ⟨Q + C (y₀ - Q.eval x₀), ?_, ?_, ?_⟩
  · refine lt_of_le_of_lt (degree_add_le _ _) (max_lt h1 (lt_of_le_of_lt degree_C_le ?_))
    exact_mod_cast Nat.succ_pos N
  · simp [h2]
  · simp

/-- A family of functions with candidates for their first two derivatives, uniformly approximated on `[lo,up]` by polynomials of
degree below `N` at the rate `N^-s`. -/
def Approx2 {ι : Type} (lo up : ℝ) (s : ℕ) (S : Set ι) (u u1 u2 : ι → ℝ → ℝ) : Prop :=
  ∃ K, 0 ≤ K ∧ ∀ N : ℕ, ∀ i ∈ S, ∃ Q : ℝ[X], Q.degree < N ∧ ∀ x ∈ Set.Icc lo up,
    |u i x - Q.eval x| ≤ K / ((N : ℝ) + 1) ^ s ∧ |u1 i x - Q.derivative.eval x| ≤ K / ((N : ℝ) + 1) ^ s ∧
    |u2 i x - Q.derivative.derivative.eval x| ≤ K / ((N : ℝ) + 1) ^ s

/-- two functions with close derivatives and the same value at the left end -/
theorem close_of_deriv {f f' : ℝ → ℝ} {Q : ℝ[X]} {lo up ε : ℝ} (hf : ∀ x, HasDerivAt f (f' x) x)
    (h : ∀ x ∈ Set.Icc lo up, |f' x - Q.derivative.eval x| ≤ ε) (h0 : Q.eval lo = f lo) {x : ℝ} (hx : x ∈ Set.Icc lo up) :
    |f x - Q.eval x| ≤ ε * (up - lo) := by
  have hε : 0 ≤ ε := (abs_nonneg _).trans (h x hx)
  have key := (convex_Icc lo up).norm_image_sub_le_of_norm_hasDerivWithin_le (f := fun x => f x - Q.eval x)
    (f' := fun x => f' x - Q.derivative.eval x) (C := ε) (x := lo) (y := x)
    (fun x _ => ((hf x).sub (Q.hasDerivAt x)).hasDerivWithinAt) (fun x hx => by rw [Real.norm_eq_abs]; exact h x hx)
    ⟨le_refl _, hx.1.trans hx.2⟩ hx
  simp only [h0, sub_self, sub_zero, Real.norm_eq_abs] at key
  refine key.trans (mul_le_mul_of_nonneg_left ?_ hε)
  rw [abs_of_nonneg (by linarith [hx.1])]
  linarith [hx.2]

theorem mem_cos {lo up : ℝ} (hlu : lo < up) {x : ℝ} (hx : x ∈ Set.Icc lo up) :
    ∃ θ, x = (up + lo) / 2 + (up - lo) / 2 * Real.cos θ := by
  have hd : 0 < up - lo := by linarith
  refine ⟨Real.arccos ((2 * x - (up + lo)) / (up - lo)), ?_⟩
  rw [Real.cos_arccos]
  · field_simp; ring
  · rw [le_div_iff₀ hd]; linarith [hx.1]
  · rw [div_le_one hd]; linarith [hx.2]

/-- Smooth functions are approximated with their first two derivatives. -/
theorem approx2_of_smooth {f : ℝ → ℝ} {s : ℕ} (hf : ContDiff ℝ (s + 4 : ℕ) f) {lo up : ℝ} (hlu : lo < up) :
    Approx2 lo up s (Set.univ : Set Unit) (fun _ => f) (fun _ => deriv f) (fun _ => deriv (deriv f)) := by
  have hd : 0 < up - lo := by linarith
  have h1 : ContDiff ℝ (s + 3 : ℕ) (deriv f) :=
    (contDiff_succ_iff_deriv.mp (by exact_mod_cast hf : ContDiff ℝ ((s + 3 : ℕ) + 1) f)).2.2
  have h2 : ContDiff ℝ (s + 2 : ℕ) (deriv (deriv f)) :=
    (contDiff_succ_iff_deriv.mp (by exact_mod_cast h1 : ContDiff ℝ ((s + 2 : ℕ) + 1) (deriv f))).2.2
  have d0 : ∀ x, HasDerivAt f (deriv f x) x := fun x => ((hf.differentiable (by simp)) x).hasDerivAt
  have d1 : ∀ x, HasDerivAt (deriv f) (deriv (deriv f) x) x := fun x => ((h1.differentiable (by simp)) x).hasDerivAt
  obtain ⟨a, A, hA, _, happ⟩ := Four.cos_approx h2 ((up + lo) / 2) ((up - lo) / 2)
  have bd : ∀ u : ℝ → ℝ, Continuous u → ∃ B, 0 ≤ B ∧ ∀ x ∈ Set.Icc lo up, |u x| ≤ B := fun u hu => by
    obtain ⟨B, hB⟩ := (isCompact_Icc (a := lo) (b := up)).exists_bound_of_continuousOn hu.continuousOn
    exact ⟨max B 0, le_max_right _ _, fun x hx => (hB x hx).trans (le_max_left _ _)⟩
  obtain ⟨B0, z0, b0⟩ := bd f hf.continuous
  obtain ⟨B1, z1, b1⟩ := bd _ h1.continuous
  obtain ⟨B2, z2, b2⟩ := bd _ h2.continuous
  obtain ⟨K, hK⟩ : ∃ K, K = 3 ^ s * (A * (1 + (up - lo) + (up - lo) * (up - lo)) + (B0 + B1 + B2)) := ⟨_, rfl⟩
  refine ⟨K, by rw [hK]; positivity, fun N _ _ => ?_⟩
  rcases Nat.lt_or_ge N 2 with hN | hN
  · refine ⟨0, by rw [degree_zero]; exact WithBot.bot_lt_coe _, fun x hx => ?_⟩
    have e : B0 + B1 + B2 ≤ K / ((N : ℝ) + 1) ^ s := by
      have hN1 : (N : ℝ) ≤ 1 := by exact_mod_cast (by omega : N ≤ 1)
      rw [le_div_iff₀ (by positivity), hK]
      have e1 : ((N : ℝ) + 1) ^ s ≤ 3 ^ s := pow_le_pow_left₀ (by positivity) (by linarith) s
      have e2 : 0 ≤ A * (1 + (up - lo) + (up - lo) * (up - lo)) := by positivity
      calc (B0 + B1 + B2) * ((N : ℝ) + 1) ^ s ≤ (B0 + B1 + B2) * 3 ^ s := mul_le_mul_of_nonneg_left e1 (by positivity)
        _ ≤ _ := by rw [mul_comm]; exact mul_le_mul_of_nonneg_left (by linarith) (by positivity)
    simp only [derivative_zero, eval_zero, sub_zero]
    refine ⟨(b0 x hx).trans ?_, (b1 x hx).trans ?_, (b2 x hx).trans ?_⟩ <;> linarith
  · obtain ⟨M, rfl⟩ : ∃ M, N = M + 2 := ⟨N - 2, by omega⟩
    obtain ⟨Q1, q1, q2, q3⟩ := exists_antideriv (chebPoly M lo up a) (chebPoly_degree M lo up a) lo (deriv f lo)
    obtain ⟨Q, p1, p2, p3⟩ := exists_antideriv Q1 q1 lo (f lo)
    obtain ⟨ε, hε⟩ : ∃ ε, ε = A / ((M : ℝ) + 1) ^ s := ⟨_, rfl⟩
    have e2 : ∀ x ∈ Set.Icc lo up, |deriv (deriv f) x - Q.derivative.derivative.eval x| ≤ ε := by
      intro x hx
      obtain ⟨θ, rfl⟩ := mem_cos hlu hx
      rw [p2, q2, chebPoly_eval_cos hlu, hε]
      exact happ M θ
    have e1 : ∀ x ∈ Set.Icc lo up, |deriv f x - Q.derivative.eval x| ≤ ε * (up - lo) := by
      intro x hx
      rw [p2]
      refine close_of_deriv d1 (fun x hx => ?_) q3 hx
      rw [← p2]; exact e2 x hx
    have e0 : ∀ x ∈ Set.Icc lo up, |f x - Q.eval x| ≤ ε * (up - lo) * (up - lo) := fun x hx => close_of_deriv d0 e1 p3 hx
    refine ⟨Q, p1, fun x hx => ?_⟩
    have hε0 : 0 ≤ ε := by rw [hε]; positivity
    have hb : ε * (1 + (up - lo) + (up - lo) * (up - lo)) ≤ K / (((M + 2 : ℕ) : ℝ) + 1) ^ s := by
      rw [hε, hK, div_mul_eq_mul_div, div_le_div_iff₀ (by positivity) (by positivity)]
      have e1 : (((M + 2 : ℕ) : ℝ) + 1) ^ s ≤ 3 ^ s * ((M : ℝ) + 1) ^ s := by
        rw [← mul_pow]
        refine pow_le_pow_left₀ (by positivity) ?_ s
        push_cast
        linarith [(Nat.cast_nonneg M : (0 : ℝ) ≤ M)]
      have e2 : 0 ≤ A * (1 + (up - lo) + (up - lo) * (up - lo)) := by positivity
      have e3 : 0 ≤ (3 : ℝ) ^ s * ((M : ℝ) + 1) ^ s * (B0 + B1 + B2) := by positivity
      have e4 := mul_le_mul_of_nonneg_left e1 e2
      linarith
    have t1 : 0 ≤ ε * (up - lo) := by positivity
    have t2 : 0 ≤ ε * (up - lo) * (up - lo) := by positivity
    refine ⟨(e0 x hx).trans (le_trans ?_ hb), (e1 x hx).trans (le_trans ?_ hb), (e2 x hx).trans (le_trans ?_ hb)⟩ <;> linarith

namespace Approx2
variable {ι : Type} {lo up : ℝ} {s : ℕ} {S : Set ι} {u u1 u2 v v1 v2 : ι → ℝ → ℝ}

theorem add (h : Approx2 lo up s S u u1 u2) (h' : Approx2 lo up s S v v1 v2) :
    Approx2 lo up s S (fun i x => u i x + v i x) (fun i x => u1 i x + v1 i x) (fun i x => u2 i x + v2 i x) := by
  obtain ⟨K, k0, hK⟩ := h
  obtain ⟨K', k0', hK'⟩ := h'
  refine ⟨K + K', by positivity, fun N i hi => ?_⟩
  obtain ⟨Q, a, b⟩ := hK N i hi
  obtain ⟨Q', a', b'⟩ := hK' N i hi
  refine ⟨Q + Q', lt_of_le_of_lt (degree_add_le _ _) (max_lt a a'), fun x hx => ?_⟩
  have t : ∀ p q p' q' e e' : ℝ, |p - q| ≤ e → |p' - q'| ≤ e' → |p + p' - (q + q')| ≤ e + e' := fun p q p' q' e e' h1 h2 => by
    rw [show p + p' - (q + q') = (p - q) + (p' - q') by ring]
    exact (abs_add_le _ _).trans (add_le_add h1 h2)
  obtain ⟨b1, b2, b3⟩ := b x hx
  obtain ⟨b1', b2', b3'⟩ := b' x hx
  simp only [derivative_add, eval_add, add_div]
  exact ⟨t _ _ _ _ _ _ b1 b1', t _ _ _ _ _ _ b2 b2', t _ _ _ _ _ _ b3 b3'⟩

theorem mul (h : Approx2 lo up s S u u1 u2) {b : ι → ℝ} {B : ℝ} (hb : ∀ i ∈ S, |b i| ≤ B) (hB : 0 ≤ B) :
    Approx2 lo up s S (fun i x => b i * u i x) (fun i x => b i * u1 i x) (fun i x => b i * u2 i x) := by
  obtain ⟨K, k0, hK⟩ := h
  refine ⟨B * K, by positivity, fun N i hi => ?_⟩
  obtain ⟨Q, a, e⟩ := hK N i hi
  refine ⟨C (b i) * Q, lt_of_le_of_lt (by rw [← smul_eq_C_mul]; exact degree_smul_le _ _) a, fun x hx => ?_⟩
  obtain ⟨e1, e2, e3⟩ := e x hx
  have t : ∀ p q e : ℝ, |p - q| ≤ e → |b i * p - b i * q| ≤ B * e := fun p q e h => by
    rw [← mul_sub, abs_mul]
    exact mul_le_mul (hb i hi) h (abs_nonneg _) hB
  simp only [derivative_C_mul, eval_mul, eval_C, mul_div_assoc]
  exact ⟨t _ _ _ e1, t _ _ _ e2, t _ _ _ e3⟩

theorem const {f f1 f2 : ℝ → ℝ} (h : Approx2 lo up s (Set.univ : Set Unit) (fun _ => f) (fun _ => f1) (fun _ => f2)) :
    Approx2 lo up s S (fun _ => f) (fun _ => f1) (fun _ => f2) := by
  obtain ⟨K, k0, hK⟩ := h
  exact ⟨K, k0, fun N i hi => hK N () trivial⟩

theorem zero : Approx2 lo up s S (fun _ _ => 0) (fun _ _ => 0) (fun _ _ => 0) := by
  refine ⟨0, le_refl _, fun N i hi => ⟨0, by rw [degree_zero]; exact WithBot.bot_lt_coe _, fun x hx => by simp⟩⟩

theorem sum {κ : Type} [DecidableEq κ] (T : Finset κ) {U U1 U2 : κ → ι → ℝ → ℝ} (h : ∀ k ∈ T, Approx2 lo up s S (U k) (U1 k) (U2 k)) :
    Approx2 lo up s S (fun i x => ∑ k ∈ T, U k i x) (fun i x => ∑ k ∈ T, U1 k i x) (fun i x => ∑ k ∈ T, U2 k i x) := by
  induction T using Finset.induction_on with
  | empty => simpa using zero
  | insert k T hk ih =>
    have := (h k (Finset.mem_insert_self _ _)).add (ih fun k' hk' => h k' (Finset.mem_insert_of_mem hk'))
    simpa only [Finset.sum_insert hk] using this

end Approx2

end SFK
