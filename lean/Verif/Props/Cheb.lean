import Verif.Lemmas.ChebReal
import Mathlib.LinearAlgebra.Lagrange
/-
C18-C21: the Chebyshev radial grid (built with USE_CHEB), in exact arithmetic, for every size `n ≥ 2` and interval.
FFTW enters through its documented transform (`FftwOk`).
-/
namespace SFK
open Scalar CR Finset Polynomial

/-- such transforms exist (so the hypothesis `FftwOk` below is satisfiable) -/
theorem exists_fftw (n : ℕ) : ∃ dct, FftwOk n dct := by
  classical
  let r : CR → ℝ := fun x => match x with | fin y => y | bad => 0
  refine ⟨fun v => tab n fun k => fin (redft00 (n - 1) (fun i => r (gv v i)) k), fun v _ => by simp, fun u => ?_⟩
  apply tab_congr
  intro k hk
  rw [fin_inj]
  unfold redft00
  beta_reduce
  have g : ∀ i, i < n → r (gv (tab n fun i => fin (u i)) i) = u i := fun i hi => by rw [gv_tab hi]
  rw [g 0 (by omega), g (n - 1) (by omega)]
  congr 2
  apply sum_congr rfl
  intro j hj
  rw [mem_Ico] at hj
  rw [g j (by omega)]

section
variable {n : ℕ} {lo up : ℝ} {dct : List CR → List CR} {nd : Bool} {c : Cheb CR}

/-- what construction gives -/
structure Built (m : ℕ) (lo up : ℝ) (dct : List CR → List CR) (c : Cheb CR) : Prop where
  wf : c.Wf
  n : c.n = m
  jac : c.jacobian = fin ((up - lo) / 2)
  pts : c.pts = tab m fun i => fin (chebPt m lo up i)
  low : c.lowPass = tab m fun i => fin (Real.exp (-40 * ((i : ℝ) / m) ^ 16))
  dct : c.dct = dct

theorem built (hn : 2 ≤ n) (hW : n < W) (hf : FftwOk n dct)
    (hc : Cheb.mk' n (fin lo) (fin up) dct true nd = .ok c) : Built n lo up dct c := by
  rw [Cheb.mk'_eq] at hc
  injection hc with hc
  subst hc
  have h1 : ((n : ℝ) - 1) ≠ 0 := by
    have : (2 : ℝ) ≤ n := by exact_mod_cast hn
    linarith
  have h0 : (n : ℝ) ≠ 0 := by
    have : (2 : ℝ) ≤ n := by exact_mod_cast hn
    linarith
  refine ⟨⟨hn, hW, by simp, by simp, hf.len⟩, rfl, ?_, ?_, ?_, rfl⟩
  · simp
  · apply tab_congr
    intro i _
    unfold chebPt
    simp [h1]
  · apply tab_congr
    intro i _
    simp [h0]

/-- C18: the points are the Chebyshev points, `upper` first, strictly decreasing, inside the interval, symmetric about
its centre. -/
theorem C18_points (hn : 2 ≤ n) (hW : n < W) (hlu : lo < up) (hf : FftwOk n dct)
    (hc : Cheb.mk' n (fin lo) (fin up) dct true nd = .ok c) :
    ∃ x : ℕ → ℝ, (∀ i, i < n → c.pt i = .ok (fin (x i))) ∧ x 0 = up ∧ x (n - 1) = lo ∧
      (∀ i j, i < j → j < n → x j < x i) ∧ (∀ i, i < n → lo ≤ x i ∧ x i ≤ up) ∧
      (∀ i, i < n → x i + x (n - 1 - i) = lo + up) ∧
      (∀ i, i < n → x i = (up - lo) / 2 * Real.cos (Real.pi * i / (n - 1)) + (up + lo) / 2) := by
  have hb := built hn hW hf hc
  have h2 : (2 : ℝ) ≤ n := by exact_mod_cast hn
  have h1 : (0 : ℝ) < (n : ℝ) - 1 := by linarith
  have hcast : ((n - 1 : ℕ) : ℝ) = (n : ℝ) - 1 := by rw [Nat.cast_sub (by omega)]; simp
  have hpi := Real.pi_pos
  refine ⟨chebPt n lo up, ?_, ?_, ?_, ?_, ?_, ?_, fun _ _ => rfl⟩
  · intro i hi
    unfold Cheb.pt
    rw [hb.pts, rd_tab hi]
  · unfold chebPt; simp; ring
  · unfold chebPt
    rw [hcast, mul_div_assoc, div_self h1.ne', mul_one, Real.cos_pi]; ring
  · intro i j hij hj
    unfold chebPt
    have hij' : (i : ℝ) < j := by exact_mod_cast hij
    have hj' : (j : ℝ) ≤ n - 1 := by rw [← hcast]; exact_mod_cast (by omega : j ≤ n - 1)
    have : Real.cos (Real.pi * j / (n - 1)) < Real.cos (Real.pi * i / (n - 1)) := by
      apply Real.cos_lt_cos_of_nonneg_of_le_pi
      · positivity
      · rw [div_le_iff₀ h1]; exact mul_le_mul_of_nonneg_left hj' hpi.le
      · exact div_lt_div_of_pos_right (mul_lt_mul_of_pos_left hij' hpi) h1
    have h3 : 0 < (up - lo) / 2 := by linarith
    have := mul_lt_mul_of_pos_left this h3
    linarith
  · intro i _
    unfold chebPt
    have a := Real.neg_one_le_cos (Real.pi * i / (n - 1))
    have b := Real.cos_le_one (Real.pi * i / (n - 1))
    constructor <;> nlinarith
  · intro i hi
    unfold chebPt
    have : ((n - 1 - i : ℕ) : ℝ) = (n : ℝ) - 1 - i := by rw [Nat.cast_sub (by omega), hcast]
    rw [this, show Real.pi * ((n : ℝ) - 1 - i) / (n - 1) = Real.pi - Real.pi * i / (n - 1) by field_simp,
      Real.cos_pi_sub]
    ring

/-- C18, boundary: with a single point the angle is 0/0, so the point is not a number. -/
theorem C18_single_point_is_bad (lo up : ℝ) (dct : List CR → List CR) (nd : Bool) :
    ∃ c, Cheb.mk' 1 (fin lo) (fin up) dct true nd = .ok c ∧ c.pt 0 = .ok bad := by
  rw [Cheb.mk'_eq]
  refine ⟨_, rfl, ?_⟩
  unfold Cheb.pt
  dsimp only
  rw [rd_tab (by omega)]
  congr 1
  simp
  rfl

/-! ### transforms -/

theorem toChP_fin (hn : 2 ≤ n) (hf : FftwOk n dct) (hb : Built n lo up dct c) (u : ℕ → ℝ) :
    c.toChP (tab n fun i => fin (u i))
      = tab n fun k => fin (wN (n - 1) k * redft00 (n - 1) u k / (2 * ((n - 1 : ℕ) : ℝ))) := by
  unfold Cheb.toChP
  rw [hb.dct, hb.n, hf.val]
  apply tab_congr
  intro k hk
  have h0 : (((n - 1 : ℕ) : ℝ)) ≠ 0 := by
    have : (n - 1) ≠ 0 := by omega
    exact_mod_cast this
  unfold Cheb.toChV wN
  rw [gv_tab hk]
  split_ifs
  · simp [h0]
  · simp [h0]
    field_simp

theorem toPoP_fin (hn : 2 ≤ n) (hf : FftwOk n dct) (hb : Built n lo up dct c) (a : ℕ → ℝ) :
    c.toPoP (tab n fun i => fin (a i))
      = tab n fun j => fin (∑ k ∈ range n, a k * Real.cos (Real.pi * k * j / ((n - 1 : ℕ) : ℝ))) := by
  unfold Cheb.toPoP
  have e : c.halfP (tab n fun i => fin (a i)) = tab n fun k => fin (a k / wN (n - 1) k) := by
    unfold Cheb.halfP
    rw [hb.n]
    apply tab_congr
    intro k hk
    unfold Cheb.halfV wN
    rw [gv_tab hk]
    split_ifs
    · simp
    · simp
  rw [e, hb.dct, hf.val]
  apply tab_congr
  intro j _
  rw [fin_inj, redft00_eq (by omega), show n - 1 + 1 = n by omega]
  apply sum_congr rfl
  intro k _
  have := (wN_pos (n - 1) k).ne'
  field_simp

theorem chebPoly_eval (hn : 2 ≤ n) (hlu : lo < up) (m : ℕ) (a : ℕ → ℝ) (j : ℕ) :
    (chebPoly m lo up a).eval (chebPt n lo up j)
      = ∑ k ∈ range m, a k * Real.cos (Real.pi * k * j / ((n - 1 : ℕ) : ℝ)) := by
  have hcast : ((n - 1 : ℕ) : ℝ) = (n : ℝ) - 1 := by rw [Nat.cast_sub (by omega)]; simp
  unfold chebPoly
  rw [eval_finsetSum]
  apply sum_congr rfl
  intro k _
  rw [eval_mul, eval_C, eval_comp]
  have hd : up - lo ≠ 0 := by linarith
  have : (C (2 / (up - lo)) * X - C ((up + lo) / (up - lo))).eval (chebPt n lo up j)
      = Real.cos (Real.pi * j / ((n : ℝ) - 1)) := by
    simp [chebPt]
    field_simp
    ring
  rw [this, Chebyshev.T_real_cos, hcast]
  congr 2
  push_cast
  ring

theorem chebPt_inj (hn : 2 ≤ n) (hlu : lo < up) : Set.InjOn (chebPt n lo up) (Set.Iio n) := by
  have h2 : (2 : ℝ) ≤ n := by exact_mod_cast hn
  have h1 : (0 : ℝ) < (n : ℝ) - 1 := by linarith
  have hcast : ((n - 1 : ℕ) : ℝ) = (n : ℝ) - 1 := by rw [Nat.cast_sub (by omega)]; simp
  intro i hi j hj hij
  rw [Set.mem_Iio] at hi hj
  unfold chebPt at hij
  have hd : (up - lo) / 2 ≠ 0 := by
    have : 0 < up - lo := by linarith
    positivity
  have hcos : Real.cos (Real.pi * i / (n - 1)) = Real.cos (Real.pi * j / (n - 1)) := by
    have := add_right_cancel hij
    exact mul_left_cancel₀ hd this
  have mem : ∀ k : ℕ, k < n → Real.pi * k / (n - 1) ∈ Set.Icc 0 Real.pi := by
    intro k hk
    have : (k : ℝ) ≤ n - 1 := by rw [← hcast]; exact_mod_cast (by omega : k ≤ n - 1)
    have hpi := Real.pi_pos
    refine ⟨by positivity, ?_⟩
    rw [div_le_iff₀ h1]; exact mul_le_mul_of_nonneg_left this hpi.le
  have := Real.injOn_cos (mem i hi) (mem j hj) hcos
  have hpi := Real.pi_ne_zero
  field_simp at this
  exact_mod_cast this

theorem chebPoly_degree (m : ℕ) (lo up : ℝ) (a : ℕ → ℝ) : (chebPoly m lo up a).degree < m := by
  unfold chebPoly
  refine lt_of_le_of_lt (degree_sum_le _ _) ?_
  rw [Finset.sup_lt_iff (WithBot.bot_lt_coe _)]
  intro k hk
  rw [mem_range] at hk
  refine lt_of_le_of_lt (degree_le_natDegree) ?_
  have h1 : (C (a k) * (Chebyshev.T ℝ k).comp (C (2 / (up - lo)) * X - C ((up + lo) / (up - lo)))).natDegree ≤ k := by
    refine (natDegree_C_mul_le _ _).trans ?_
    rw [natDegree_comp, Chebyshev.natDegree_T]
    have : (C (2 / (up - lo)) * X - C ((up + lo) / (up - lo))).natDegree ≤ 1 := by
      compute_degree
    calc _ ≤ (Int.natAbs k) * 1 := Nat.mul_le_mul_left _ this
      _ = k := by simp
  exact_mod_cast lt_of_le_of_lt h1 hk

/-- every polynomial of degree `< m` is a Chebyshev series of length `m` -/
theorem exists_chebPoly (hlu : lo < up) {m : ℕ} {Q : ℝ[X]} (hQ : Q.degree < m) :
    ∃ a : ℕ → ℝ, Q = chebPoly m lo up a := by
  rcases Nat.lt_or_ge m 2 with hm | hm
  · refine ⟨fun _ => Q.coeff 0, ?_⟩
    rcases (by omega : m = 0 ∨ m = 1) with rfl | rfl
    · simp at hQ; subst hQ; simp [chebPoly]
    · have : Q.degree ≤ 0 := by
        rw [← Nat.WithBot.lt_one_iff_le_zero]; exact_mod_cast hQ
      rw [eq_C_of_degree_le_zero this]
      simp [chebPoly]
  · refine ⟨fun k => wN (m - 1) k * redft00 (m - 1) (fun i => Q.eval (chebPt m lo up i)) k / (2 * ((m - 1 : ℕ) : ℝ)), ?_⟩
    apply eq_of_degrees_lt_of_eval_index_eq (s := range m) (v := chebPt m lo up)
    · intro i hi j hj
      rw [mem_coe, mem_range] at hi hj
      exact chebPt_inj hm hlu hi hj
    · rwa [card_range]
    · rw [card_range]; exact chebPoly_degree _ _ _ _
    · intro i hi
      rw [mem_range] at hi
      rw [chebPoly_eval hm hlu]
      have := series_of_dct (N := m - 1) (by omega) (fun i => Q.eval (chebPt m lo up i)) (m := i) (by omega)
      rw [show m - 1 + 1 = m by omega] at this
      rw [← this]

/-- C19, forward: `to_ch` of any samples returns the Chebyshev coefficients of the polynomial of degree `≤ n-1` that
takes the sampled values at the grid points. -/
theorem C19_coefficients (hn : 2 ≤ n) (hW : n < W) (hlu : lo < up) (hf : FftwOk n dct)
    (hc : Cheb.mk' n (fin lo) (fin up) dct true nd = .ok c) (u : ℕ → ℝ) {o : List CR} (ho : o.length = n) :
    ∃ a : ℕ → ℝ, c.to_ch (tab n fun i => fin (u i)) o = .ok (tab n fun k => fin (a k)) ∧
      (chebPoly n lo up a).degree < n ∧ ∀ i, i < n → (chebPoly n lo up a).eval (chebPt n lo up i) = u i := by
  have hb := built hn hW hf hc
  refine ⟨fun k => wN (n - 1) k * redft00 (n - 1) u k / (2 * ((n - 1 : ℕ) : ℝ)), ?_, chebPoly_degree _ _ _ _, ?_⟩
  · rw [Cheb.to_ch_eq hb.wf (by simp [hb.n]) (by rw [ho, hb.n]), toChP_fin hn hf hb]
  · intro i hi
    rw [chebPoly_eval hn hlu]
    have := series_of_dct (N := n - 1) (by omega) u (m := i) (by omega)
    rwa [show n - 1 + 1 = n by omega] at this

/-- C19, backward: `to_po` of any coefficients returns the values of their Chebyshev series at the grid points, and
leaves the interior coefficients halved in its argument. -/
theorem C19_values (hn : 2 ≤ n) (hW : n < W) (hlu : lo < up) (hf : FftwOk n dct)
    (hc : Cheb.mk' n (fin lo) (fin up) dct true nd = .ok c) (a : ℕ → ℝ) {o : List CR} (ho : o.length = n) :
    c.to_po (tab n fun k => fin (a k)) o = .ok
      (tab n fun k => fin (if k = 0 ∨ k = n - 1 then a k else a k / 2),
       tab n fun i => fin ((chebPoly n lo up a).eval (chebPt n lo up i))) := by
  have hb := built hn hW hf hc
  rw [Cheb.to_po_eq hb.wf (by simp [hb.n]) (by rw [ho, hb.n]), toPoP_fin hn hf hb]
  congr 2
  · unfold Cheb.halfP
    rw [hb.n]
    apply tab_congr
    intro k hk
    unfold Cheb.halfV
    rw [gv_tab hk]
    split_ifs <;> simp
  · apply tab_congr
    intro i _
    rw [chebPoly_eval hn hlu]

/-- C19, round trips, both ways, for arbitrary data. -/
theorem C19_round_trip (hn : 2 ≤ n) (hW : n < W) (hlu : lo < up) (hf : FftwOk n dct)
    (hc : Cheb.mk' n (fin lo) (fin up) dct true nd = .ok c) (u : ℕ → ℝ) {o o' : List CR} (ho : o.length = n)
    (ho' : o'.length = n) :
    (∃ ch h, c.to_ch (tab n fun i => fin (u i)) o = .ok ch ∧ c.to_po ch o' = .ok (h, tab n fun i => fin (u i))) ∧
    (∃ h po, c.to_po (tab n fun i => fin (u i)) o = .ok (h, po) ∧ c.to_ch po o' = .ok (tab n fun i => fin (u i))) := by
  constructor
  · obtain ⟨a, h1, _, h3⟩ := C19_coefficients hn hW hlu hf hc u ho
    refine ⟨_, (tab n fun k => fin (if k = 0 ∨ k = n - 1 then a k else a k / 2)), h1, ?_⟩
    rw [C19_values hn hW hlu hf hc a ho']
    congr 2
    apply tab_congr
    intro i hi
    rw [h3 i hi]
  · refine ⟨_, _, C19_values hn hW hlu hf hc u ho, ?_⟩
    have hb := built hn hW hf hc
    rw [Cheb.to_ch_eq hb.wf (by simp [hb.n]) (by rw [ho', hb.n]), toChP_fin hn hf hb]
    congr 1
    apply tab_congr
    intro k hk
    have := dct_of_series (N := n - 1) (by omega) u (m := k) (by omega)
    rw [show n - 1 + 1 = n by omega] at this
    rw [← this]
    simp only [chebPoly_eval hn hlu]

/-- C19, the hazard: after `to_po` the caller's coefficient array is no longer the array it passed (whenever an interior
coefficient is non-zero), and transforming it again gives different samples. -/
theorem C19_argument_is_clobbered (hn : 2 ≤ n) (hW : n < W) (hlu : lo < up) (hf : FftwOk n dct)
    (hc : Cheb.mk' n (fin lo) (fin up) dct true nd = .ok c) (a : ℕ → ℝ) {o : List CR} (ho : o.length = n)
    {k : ℕ} (hk0 : 0 < k) (hk1 : k < n - 1) (hak : a k ≠ 0) :
    ∃ ch po ch' po', c.to_po (tab n fun k => fin (a k)) o = .ok (ch, po) ∧ ch ≠ (tab n fun k => fin (a k)) ∧
      c.to_po ch o = .ok (ch', po') ∧ po' ≠ po := by
  have e1 := C19_values hn hW hlu hf hc a ho
  have e2 := C19_values hn hW hlu hf hc (fun k => if k = 0 ∨ k = n - 1 then a k else a k / 2) ho
  have ne : (tab n fun k => fin (if k = 0 ∨ k = n - 1 then a k else a k / 2)) ≠ (tab n fun k => fin (a k)) := by
    intro h
    have := tab_inj h (by omega : k < n)
    rw [if_neg (by omega), fin_inj] at this
    apply hak
    linarith
  refine ⟨_, _, _, _, e1, ne, e2, ?_⟩
  intro h
  obtain ⟨-, h', po', r1, r2⟩ := C19_round_trip hn hW hlu hf hc a ho ho
  obtain ⟨-, h'', po'', s1, s2⟩ := C19_round_trip hn hW hlu hf hc (fun k => if k = 0 ∨ k = n - 1 then a k else a k / 2) ho ho
  rw [e1] at r1
  rw [e2] at s1
  simp only [Except.ok.injEq, Prod.mk.injEq] at r1 s1
  rw [← r1.2] at r2
  rw [← s1.2, h, r2] at s2
  injection s2 with s2
  exact ne s2.symm

/-! ### derivative -/

/-- real version of the recurrence -/
noncomputable def dR (n : ℕ) (a : ℕ → ℝ) (k : ℕ) : ℝ :=
  if k + 2 < n then 2 * ((k : ℝ) + 1) * a (k + 1) + dR n a (k + 2) else 0
termination_by n - k

theorem dV_fin (n : ℕ) (f : ℕ → CR) (a : ℕ → ℝ) (h : ∀ k, k < n → f k = fin (a k)) (k : ℕ) :
    Cheb.dV n f k = fin (dR n a k) := by
  induction hm : n - k using Nat.strong_induction_on generalizing k with
  | _ m ih =>
    rw [Cheb.dV, dR]
    split_ifs with hk
    · rw [ih (n - (k + 2)) (by omega) (k + 2) rfl, h (k + 1) (by omega)]
      simp
    · simp

/-- coefficients with the two top ones removed -/
noncomputable def trunc2 (n : ℕ) (a : ℕ → ℝ) (k : ℕ) : ℝ := if k + 2 < n then a k else 0

theorem derivative_chebPoly (hlu : lo < up) (n : ℕ) (a : ℕ → ℝ) :
    derivative (chebPoly n lo up (trunc2 n a))
      = C (2 / (up - lo)) * chebPoly n lo up (fun k => if k = 0 then dR n (trunc2 n a) 0 / 2 else dR n (trunc2 n a) k) := by
  have e : ∀ b : ℕ → ℝ, chebPoly n lo up b = (∑ k ∈ range n, C (b k) * Chebyshev.T ℝ k).comp
      (C (2 / (up - lo)) * X - C ((up + lo) / (up - lo))) := by
    intro b
    unfold chebPoly
    rw [Polynomial.sum_comp]
    apply sum_congr rfl
    intro k _
    rw [mul_comp, C_comp]
  rw [e, e, derivative_comp, series_derivative n (trunc2 n a) (dR n (trunc2 n a))]
  · congr 1
    simp
  · intro k
    rw [dR]
    split_ifs with hk
    · rfl
    · have h1 : trunc2 n a (k + 1) = 0 := by unfold trunc2; rw [if_neg (by omega)]
      have h2 : dR n (trunc2 n a) (k + 2) = 0 := by rw [dR, if_neg (by omega)]
      rw [h1, h2]; ring
  · intro k hk
    rw [dR, if_neg (by omega)]
  · intro k hk
    unfold trunc2; rw [if_neg (by omega)]

/-- C20, what `der` does: on the samples of `∑ a_k T_k` (any data are of this form, C19) it returns the exact derivative
of the series without its two highest terms. -/
theorem C20_action (hn : 2 ≤ n) (hW : n < W) (hlu : lo < up) (hf : FftwOk n dct)
    (hc : Cheb.mk' n (fin lo) (fin up) dct true nd = .ok c) (a : ℕ → ℝ) {o : List CR} (ho : o.length = n) :
    c.der (tab n fun i => fin ((chebPoly n lo up a).eval (chebPt n lo up i))) o = .ok
      (tab n fun i => fin ((derivative (chebPoly n lo up fun k => if k + 2 < n then a k else 0)).eval
        (chebPt n lo up i))) := by
  have hb := built hn hW hf hc
  rw [Cheb.der_eq hb.wf (by simp [hb.n]) (by rw [ho, hb.n])]
  congr 1
  have hch : c.toChP (tab n fun i => fin ((chebPoly n lo up a).eval (chebPt n lo up i))) = tab n fun k => fin (a k) := by
    rw [toChP_fin hn hf hb]
    apply tab_congr
    intro k hk
    have := dct_of_series (N := n - 1) (by omega) a (m := k) (by omega)
    rw [show n - 1 + 1 = n by omega] at this
    rw [← this]
    simp only [chebPoly_eval hn hlu]
  unfold Cheb.derP
  rw [hch, hb.n]
  have hco : tab n (Cheb.dcoef n (gv (tab n fun k => fin (a k))))
      = tab n fun k => fin (if k = 0 then dR n (trunc2 n a) 0 / 2 else dR n (trunc2 n a) k) := by
    apply tab_congr
    intro k hk
    unfold Cheb.dcoef
    have hT : ∀ k, k < n → Cheb.truncV n (gv (tab n fun k => fin (a k))) k = fin (trunc2 n a k) := by
      intro k hk
      unfold Cheb.truncV trunc2
      rw [gv_tab hk]
      split_ifs
      · rfl
      · simp
    rw [dV_fin n _ _ hT, dV_fin n _ _ hT]
    split_ifs
    · simp
    · rfl
  rw [hco, toPoP_fin hn hf hb, hb.jac]
  apply tab_congr
  intro i hi
  have hd : (up - lo) / 2 ≠ 0 := by
    have : 0 < up - lo := by linarith
    positivity
  rw [gv_tab hi, fin_div _ _ hd, fin_inj]
  have := derivative_chebPoly (lo := lo) (up := up) hlu n a
  unfold trunc2 at this ⊢
  rw [this, eval_mul, eval_C, chebPoly_eval hn hlu]
  rw [show (2 : ℝ) / (up - lo) = 1 / ((up - lo) / 2) by rw [one_div_div]]
  ring

/-- C20, the part that holds: samples of any polynomial of degree at most `n-3` are differentiated exactly at every
grid point.  (Missing: degrees `n-2` and `n-1`; see `C20_top_degrees_violated`.) -/
theorem C20_exact_partial (hn : 2 ≤ n) (hW : n < W) (hlu : lo < up) (hf : FftwOk n dct)
    (hc : Cheb.mk' n (fin lo) (fin up) dct true nd = .ok c) {Q : ℝ[X]} (hQ : Q.degree < (n - 2 : ℕ))
    {o : List CR} (ho : o.length = n) :
    c.der (tab n fun i => fin (Q.eval (chebPt n lo up i))) o =
      .ok (tab n fun i => fin (Q.derivative.eval (chebPt n lo up i))) := by
  obtain ⟨a, rfl⟩ := exists_chebPoly hlu hQ
  have e : chebPoly (n - 2) lo up a = chebPoly n lo up (fun k => if k + 2 < n then a k else 0) := by
    unfold chebPoly
    conv_rhs => rw [show n = n - 2 + 2 by omega]
    rw [sum_range_succ, sum_range_succ]
    beta_reduce
    rw [if_neg (by omega), if_neg (by omega)]
    simp only [map_zero, zero_mul, add_zero]
    apply sum_congr rfl
    intro k hk
    rw [mem_range] at hk
    rw [if_pos (by omega)]
  rw [e, C20_action hn hW hlu hf hc _ ho]
  congr 1
  apply tab_congr
  intro i _
  congr 4
  funext k
  split_ifs <;> rfl

/-- C20 as stated is false of the code, on every grid: the samples of the two highest Chebyshev polynomials the grid
resolves get derivative 0 everywhere, although their derivative at the first grid point is not 0.  (`line 96-97 of
cheb.cpp` zero the two highest coefficients before the recurrence.) -/
theorem C20_top_degrees_violated (hn : 3 ≤ n) (hW : n < W) (hlu : lo < up) (hf : FftwOk n dct)
    (hc : Cheb.mk' n (fin lo) (fin up) dct true nd = .ok c) {o : List CR} (ho : o.length = n)
    {d : ℕ} (hd : d = n - 2 ∨ d = n - 1) :
    ∃ Q : ℝ[X], Q.degree < n ∧ c.der (tab n fun i => fin (Q.eval (chebPt n lo up i))) o = .ok (tab n fun _ => fin 0) ∧
      Q.derivative.eval (chebPt n lo up 0) ≠ 0 := by
  refine ⟨chebPoly n lo up (fun k => if k = d then 1 else 0), chebPoly_degree _ _ _ _, ?_, ?_⟩
  · rw [C20_action (by omega) hW hlu hf hc _ ho]
    congr 1
    apply tab_congr
    intro i _
    rw [fin_inj]
    have : chebPoly n lo up (fun k => if k + 2 < n then (if k = d then (1 : ℝ) else 0) else 0) = 0 := by
      unfold chebPoly
      apply sum_eq_zero
      intro k _
      have : (if k + 2 < n then (if k = d then (1 : ℝ) else 0) else 0) = 0 := by
        split_ifs with h1 h2
        · omega
        · rfl
        · rfl
      beta_reduce
      rw [this]; simp
    rw [this]; simp
  · have e : chebPoly n lo up (fun k => if k = d then 1 else 0)
        = (Chebyshev.T ℝ d).comp (C (2 / (up - lo)) * X - C ((up + lo) / (up - lo))) := by
      unfold chebPoly
      rw [sum_eq_single d]
      · simp
      · intro k _ hk; beta_reduce; rw [if_neg hk]; simp
      · intro h; rw [mem_range] at h; omega
    rw [e, derivative_comp, Chebyshev.T_derivative_eq_U, eval_mul, eval_comp]
    have hne : up - lo ≠ 0 := by linarith
    have hx : (C (2 / (up - lo)) * X - C ((up + lo) / (up - lo))).eval (chebPt n lo up 0) = 1 := by
      simp [chebPt]
      field_simp
      ring
    rw [hx, eval_mul, Chebyshev.U_eval_one]
    have hd0 : (d : ℝ) ≠ 0 := by
      have : d ≠ 0 := by omega
      exact_mod_cast this
    simp
    exact ⟨hne, by omega⟩

/-! ### filter -/

/-- the damping factor of mode `k` -/
noncomputable def chebDamp (n k : ℕ) : ℝ := Real.exp (-40 * ((k : ℝ) / n) ^ 16)

/-- C21: the filter multiplies each Chebyshev coefficient of the data by a factor in (0,1], non-increasing in the mode
number and 1 for the constant mode. -/
theorem C21_filter_damps (hn : 2 ≤ n) (hW : n < W) (hlu : lo < up) (hf : FftwOk n dct)
    (hc : Cheb.mk' n (fin lo) (fin up) dct true nd = .ok c) (a : ℕ → ℝ) :
    ∃ g : ℕ → ℝ, c.filter (tab n fun i => fin ((chebPoly n lo up a).eval (chebPt n lo up i))) =
        .ok (tab n fun i => fin ((chebPoly n lo up fun k => g k * a k).eval (chebPt n lo up i))) ∧
      (∀ k, 0 < g k ∧ g k ≤ 1) ∧ (∀ k k', k ≤ k' → g k' ≤ g k) ∧ g 0 = 1 ∧
      ∀ k, g k = Real.exp (-40 * ((k : ℝ) / n) ^ 16) := by
  have hb := built hn hW hf hc
  refine ⟨chebDamp n, ?_, ?_, ?_, ?_, fun _ => rfl⟩
  · rw [Cheb.filter_eq hb.wf (by simp [hb.n])]
    congr 1
    have hch : c.toChP (tab n fun i => fin ((chebPoly n lo up a).eval (chebPt n lo up i))) = tab n fun k => fin (a k) := by
      rw [toChP_fin hn hf hb]
      apply tab_congr
      intro k hk
      have := dct_of_series (N := n - 1) (by omega) a (m := k) (by omega)
      rw [show n - 1 + 1 = n by omega] at this
      rw [← this]
      simp only [chebPoly_eval hn hlu]
    unfold Cheb.filterP
    rw [hch, hb.n, hb.low]
    have : (tab n fun i => (Mul.mul (gv (tab n fun k => fin (a k)) i)
        (gv (tab n fun i => fin (Real.exp (-40 * ((i : ℝ) / n) ^ 16))) i) : CR))
        = tab n fun k => fin (chebDamp n k * a k) := by
      apply tab_congr
      intro k hk
      rw [gv_tab hk, gv_tab hk]
      show fin (a k * Real.exp (-40 * ((k : ℝ) / n) ^ 16)) = fin (Real.exp (-40 * ((k : ℝ) / n) ^ 16) * a k)
      rw [mul_comm]
    refine (congrArg c.toPoP this).trans ?_
    rw [toPoP_fin hn hf hb]
    apply tab_congr
    intro i _
    rw [chebPoly_eval hn hlu]
  · intro k
    refine ⟨Real.exp_pos _, ?_⟩
    unfold chebDamp
    rw [Real.exp_le_one_iff]
    have : 0 ≤ ((k : ℝ) / n) ^ 16 := by positivity
    linarith
  · intro k k' hkk
    unfold chebDamp
    rw [Real.exp_le_exp]
    have hk : (k : ℝ) ≤ k' := by exact_mod_cast hkk
    have : ((k : ℝ) / n) ^ 16 ≤ ((k' : ℝ) / n) ^ 16 := by
      apply pow_le_pow_left₀ (by positivity)
      exact div_le_div_of_nonneg_right hk (by positivity)
    linarith
  · unfold chebDamp; simp

/-- C21: a constant is returned unchanged. -/
theorem C21_constants_unchanged (hn : 2 ≤ n) (hW : n < W) (hlu : lo < up) (hf : FftwOk n dct)
    (hc : Cheb.mk' n (fin lo) (fin up) dct true nd = .ok c) (x : ℝ) :
    c.filter (tab n fun _ => fin x) = .ok (tab n fun _ => fin x) := by
  obtain ⟨g, h1, _, _, h4, _⟩ := C21_filter_damps hn hW hlu hf hc (fun k => if k = 0 then x else 0)
  have e : ∀ f : ℕ → ℝ, f 0 = 1 → chebPoly n lo up (fun k => f k * if k = 0 then x else 0) = C x := by
    intro f hf0
    unfold chebPoly
    rw [sum_eq_single 0]
    · simp [hf0]
    · intro k _ hk; beta_reduce; rw [if_neg hk]; simp
    · intro h; rw [mem_range] at h; omega
  have e1 := e (fun _ => 1) rfl
  simp only [one_mul] at e1
  rw [e1, e g h4] at h1
  simpa using h1

/-- the hypotheses of this section hold for a concrete grid -/
example : ∃ (dct : List CR → List CR) (c : Cheb CR), FftwOk 33 dct ∧ (2 : ℕ) ≤ 33 ∧ 33 < W ∧ (0 : ℝ) < 1 ∧
    Cheb.mk' 33 (fin 0) (fin 1) dct true false = .ok c := by
  obtain ⟨dct, h⟩ := exists_fftw 33
  exact ⟨dct, _, h, by omega, by unfold W; omega, one_pos, Cheb.mk'_eq _ _ _ _ _⟩

/-- ... and C20 has non-trivial instances: `x^3` on a 33-point grid is within the proved degrees. -/
example : (X ^ 3 : ℝ[X]).degree < (33 - 2 : ℕ) := by
  rw [degree_X_pow]; norm_cast

end
end SFK
