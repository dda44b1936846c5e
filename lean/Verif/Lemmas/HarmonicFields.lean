import Verif.Lemmas.Harmonics
import Mathlib.Analysis.Calculus.Deriv.Add
import Mathlib.Analysis.Calculus.Deriv.Inv
import Mathlib.Algebra.BigOperators.Field
import Mathlib.Algebra.Order.Interval.Finset.SuccPred
/-
Derivatives of fields given by spherical-harmonic coefficients.
-/
namespace SFK
open Complex

/-- the angular-momentum raising operator on coefficients -/
noncomputable def upC (c : ℕ → ℤ → ℂ) (l : ℕ) (m : ℤ) : ℂ :=
  if m = -l then 0 else (Real.sqrt ((l - m + 1) * (l + m)) : ℝ) * c l (m - 1)

/-- the angular-momentum lowering operator on coefficients -/
noncomputable def downC (c : ℕ → ℤ → ℂ) (l : ℕ) (m : ℤ) : ℂ :=
  if m = l then 0 else (Real.sqrt ((l + m + 1) * (l - m)) : ℝ) * c l (m + 1)

theorem Ylm_dphi (l : ℕ) (m : ℤ) (θ φ : ℝ) :
    HasDerivAt (fun t : ℝ => Ylm l m θ t) (Complex.I * m * Ylm l m θ φ) φ := by
  unfold Ylm
  have h1 : HasDerivAt (fun t : ℝ => Complex.I * m * (t : ℂ)) (Complex.I * m) φ := by
    simpa using (hasDerivAt_id φ).ofReal_comp.const_mul (Complex.I * m)
  have := (h1.cexp).const_mul ((ThZ l m θ : ℂ))
  refine this.congr_deriv ?_
  ring

theorem fieldC_dphi (L : ℕ) (c : ℕ → ℤ → ℂ) (θ φ : ℝ) :
    HasDerivAt (fun t : ℝ => fieldC L c θ t) (fieldC L (fun l m => Complex.I * m * c l m) θ φ) φ := by
  unfold fieldC
  have : (fun t : ℝ => ∑ l ∈ Finset.range (L + 1), ∑ m ∈ Finset.Icc (-(l : ℤ)) l, c l m * Ylm l m θ t)
      = ∑ l ∈ Finset.range (L + 1), fun t : ℝ => ∑ m ∈ Finset.Icc (-(l : ℤ)) l, c l m * Ylm l m θ t := by
    funext t; simp
  rw [this]
  apply HasDerivAt.sum
  intro l _
  have : (fun t : ℝ => ∑ m ∈ Finset.Icc (-(l : ℤ)) l, c l m * Ylm l m θ t)
      = ∑ m ∈ Finset.Icc (-(l : ℤ)) l, fun t : ℝ => c l m * Ylm l m θ t := by
    funext t; simp
  rw [this]
  apply HasDerivAt.sum
  intro m _
  refine ((Ylm_dphi l m θ φ).const_mul (c l m)).congr_deriv ?_
  ring

/-- derivative of the polar part -/
noncomputable def dTZ (l : ℕ) (m : ℤ) (θ : ℝ) : ℝ := deriv (ThZ l m) θ

theorem dTZ_spec (l : ℕ) (m : ℤ) (h1 : -(l : ℤ) ≤ m) (h2 : m ≤ l) {θ : ℝ} (hs : Real.sin θ ≠ 0) :
    HasDerivAt (ThZ l m) (dTZ l m θ) θ ∧
      dTZ l m θ - m * (Real.cos θ / Real.sin θ) * ThZ l m θ
        = (if m = l then 0 else Real.sqrt (((l : ℝ) - m) * (l + m + 1)) * ThZ l (m + 1) θ) ∧
      -dTZ l m θ - m * (Real.cos θ / Real.sin θ) * ThZ l m θ
        = (if m = -l then 0 else Real.sqrt (((l : ℝ) + m) * (l - m + 1)) * ThZ l (m - 1) θ) := by
  obtain ⟨d, hd, h3, h4⟩ := ThZ_deriv l m h1 h2 hs
  have : dTZ l m θ = d := hd.deriv
  rw [this]
  exact ⟨hd, h3, h4⟩

/-- `∂θ` of the field with coefficients `c` -/
noncomputable def dthC (L : ℕ) (c : ℕ → ℤ → ℂ) (θ φ : ℝ) : ℂ :=
  ∑ l ∈ Finset.range (L + 1), ∑ m ∈ Finset.Icc (-(l : ℤ)) l, c l m * ((dTZ l m θ : ℂ) * Complex.exp (Complex.I * m * φ))

theorem fieldC_dtheta (L : ℕ) (c : ℕ → ℤ → ℂ) {θ : ℝ} (φ : ℝ) (hs : Real.sin θ ≠ 0) :
    HasDerivAt (fun t : ℝ => fieldC L c t φ) (dthC L c θ φ) θ := by
  unfold fieldC dthC
  have : (fun t : ℝ => ∑ l ∈ Finset.range (L + 1), ∑ m ∈ Finset.Icc (-(l : ℤ)) l, c l m * Ylm l m t φ)
      = ∑ l ∈ Finset.range (L + 1), fun t : ℝ => ∑ m ∈ Finset.Icc (-(l : ℤ)) l, c l m * Ylm l m t φ := by
    funext t; simp
  rw [this]
  apply HasDerivAt.sum
  intro l _
  have : (fun t : ℝ => ∑ m ∈ Finset.Icc (-(l : ℤ)) l, c l m * Ylm l m t φ)
      = ∑ m ∈ Finset.Icc (-(l : ℤ)) l, fun t : ℝ => c l m * Ylm l m t φ := by
    funext t; simp
  rw [this]
  apply HasDerivAt.sum
  intro m hm
  rw [Finset.mem_Icc] at hm
  unfold Ylm
  exact (((dTZ_spec l m hm.1 hm.2 hs).1.ofReal_comp).mul_const _).const_mul _

theorem sum_shift_up (l : ℕ) (F : ℤ → ℂ) :
    ∑ m ∈ Finset.Icc (-(l : ℤ)) l, (if m = (l : ℤ) then 0 else F (m + 1))
      = ∑ m ∈ Finset.Icc (-(l : ℤ)) l, (if m = -(l : ℤ) then 0 else F m) := by
  rw [← Finset.sum_filter_add_sum_filter_not (Finset.Icc (-(l : ℤ)) l) (fun m => m = (l : ℤ))]
  rw [← Finset.sum_filter_add_sum_filter_not (Finset.Icc (-(l : ℤ)) l) (fun m => m = -(l : ℤ))
    (fun m => if m = -(l : ℤ) then 0 else F m)]
  have z1 : ∑ x ∈ Finset.Icc (-(l : ℤ)) l with x = (l : ℤ), (if x = (l : ℤ) then 0 else F (x + 1)) = 0 :=
    Finset.sum_eq_zero fun x hx => by rw [if_pos (Finset.mem_filter.mp hx).2]
  have z2 : ∑ x ∈ Finset.Icc (-(l : ℤ)) l with x = -(l : ℤ), (if x = -(l : ℤ) then 0 else F x) = 0 :=
    Finset.sum_eq_zero fun x hx => by rw [if_pos (Finset.mem_filter.mp hx).2]
  rw [z1, z2, zero_add, zero_add]
  apply Finset.sum_bij (fun m _ => m + 1)
  · intro m hm
    rw [Finset.mem_filter, Finset.mem_Icc] at hm ⊢
    omega
  · intro a _ b _ h; omega
  · intro b hb
    rw [Finset.mem_filter, Finset.mem_Icc] at hb
    exact ⟨b - 1, by rw [Finset.mem_filter, Finset.mem_Icc]; omega, by omega⟩
  · intro m hm
    rw [Finset.mem_filter, Finset.mem_Icc] at hm
    rw [if_neg hm.2, if_neg (by omega)]

theorem sum_shift_down (l : ℕ) (F : ℤ → ℂ) :
    ∑ m ∈ Finset.Icc (-(l : ℤ)) l, (if m = -(l : ℤ) then 0 else F (m - 1))
      = ∑ m ∈ Finset.Icc (-(l : ℤ)) l, (if m = (l : ℤ) then 0 else F m) := by
  have := sum_shift_up l (fun m => F (m - 1))
  simp only [add_sub_cancel_right] at this
  exact this.symm

/-- `L₊ f` has the raised coefficients -/
theorem fieldC_raise (L : ℕ) (c : ℕ → ℤ → ℂ) {θ : ℝ} (φ : ℝ) (hs : Real.sin θ ≠ 0) :
    fieldC L (upC c) θ φ = Complex.exp (Complex.I * φ) * (dthC L c θ φ
      + Complex.I * ((Real.cos θ / Real.sin θ : ℝ) : ℂ) * fieldC L (fun l m => Complex.I * m * c l m) θ φ) := by
  unfold fieldC dthC
  rw [Finset.mul_sum, ← Finset.sum_add_distrib, Finset.mul_sum]
  apply Finset.sum_congr rfl
  intro l _
  rw [Finset.mul_sum, ← Finset.sum_add_distrib, Finset.mul_sum]
  have h := sum_shift_up l (fun m => (Real.sqrt ((l - m + 1) * (l + m)) : ℝ) * c l (m - 1) * Ylm l m θ φ)
  have lhs : ∀ m, upC c l m * Ylm l m θ φ
      = if m = -(l : ℤ) then 0 else (Real.sqrt ((l - m + 1) * (l + m)) : ℝ) * c l (m - 1) * Ylm l m θ φ := by
    intro m; unfold upC; split_ifs <;> simp
  simp only [lhs]
  rw [← h]
  apply Finset.sum_congr rfl
  intro m hm
  rw [Finset.mem_Icc] at hm
  have hd := (dTZ_spec l m hm.1 hm.2 hs).2.1
  unfold Ylm
  have hI : Complex.I * Complex.I = -1 := Complex.I_mul_I
  have e2 : Complex.exp (Complex.I * ((m + 1 : ℤ) : ℂ) * φ) = Complex.exp (Complex.I * φ) * Complex.exp (Complex.I * m * φ) := by
    rw [← Complex.exp_add]; congr 1; push_cast; ring
  have hdc := congrArg (fun x : ℝ => (x : ℂ)) hd
  rw [e2]
  have e3 : m + 1 - 1 = m := by ring
  rw [e3]
  split_ifs with hml
  · rw [if_pos hml] at hdc
    push_cast at hdc ⊢
    linear_combination (-(c l m * Complex.exp (Complex.I * m * φ) * Complex.exp (Complex.I * φ))) * hdc
      - Complex.exp (Complex.I * φ) * (Complex.cos θ / Complex.sin θ) * m * c l m * ThZ l m θ * Complex.exp (Complex.I * m * φ) * hI
  · rw [if_neg hml] at hdc
    have e4 : (((l : ℝ) - ((m + 1 : ℤ) : ℝ) + 1) * ((l : ℝ) + ((m + 1 : ℤ) : ℝ))) = ((l : ℝ) - m) * (l + m + 1) := by push_cast; ring
    rw [e4]
    push_cast at hdc ⊢
    linear_combination (-(c l m * Complex.exp (Complex.I * m * φ) * Complex.exp (Complex.I * φ))) * hdc
      - Complex.exp (Complex.I * φ) * (Complex.cos θ / Complex.sin θ) * m * c l m * ThZ l m θ * Complex.exp (Complex.I * m * φ) * hI

/-- `L₋ f` has the lowered coefficients -/
theorem fieldC_lower (L : ℕ) (c : ℕ → ℤ → ℂ) {θ : ℝ} (φ : ℝ) (hs : Real.sin θ ≠ 0) :
    fieldC L (downC c) θ φ = Complex.exp (-(Complex.I * φ)) * (-dthC L c θ φ
      + Complex.I * ((Real.cos θ / Real.sin θ : ℝ) : ℂ) * fieldC L (fun l m => Complex.I * m * c l m) θ φ) := by
  unfold fieldC dthC
  rw [Finset.mul_sum, ← Finset.sum_neg_distrib, ← Finset.sum_add_distrib, Finset.mul_sum]
  apply Finset.sum_congr rfl
  intro l _
  rw [Finset.mul_sum, ← Finset.sum_neg_distrib, ← Finset.sum_add_distrib, Finset.mul_sum]
  have h := sum_shift_down l (fun m => (Real.sqrt ((l + m + 1) * (l - m)) : ℝ) * c l (m + 1) * Ylm l m θ φ)
  have lhs : ∀ m, downC c l m * Ylm l m θ φ
      = if m = (l : ℤ) then 0 else (Real.sqrt ((l + m + 1) * (l - m)) : ℝ) * c l (m + 1) * Ylm l m θ φ := by
    intro m; unfold downC; split_ifs <;> simp
  simp only [lhs]
  rw [← h]
  apply Finset.sum_congr rfl
  intro m hm
  rw [Finset.mem_Icc] at hm
  have hd := (dTZ_spec l m hm.1 hm.2 hs).2.2
  unfold Ylm
  have hI : Complex.I * Complex.I = -1 := Complex.I_mul_I
  have e2 : Complex.exp (Complex.I * ((m - 1 : ℤ) : ℂ) * φ) = Complex.exp (-(Complex.I * φ)) * Complex.exp (Complex.I * m * φ) := by
    rw [← Complex.exp_add]; congr 1; push_cast; ring
  have hdc := congrArg (fun x : ℝ => (x : ℂ)) hd
  rw [e2]
  have e3 : m - 1 + 1 = m := by ring
  rw [e3]
  split_ifs with hml
  · rw [if_pos hml] at hdc
    push_cast at hdc ⊢
    linear_combination (-(c l m * Complex.exp (Complex.I * m * φ) * Complex.exp (-(Complex.I * φ)))) * hdc
      - Complex.exp (-(Complex.I * φ)) * (Complex.cos θ / Complex.sin θ) * m * c l m * ThZ l m θ * Complex.exp (Complex.I * m * φ) * hI
  · rw [if_neg hml] at hdc
    have e4 : (((l : ℝ) + ((m - 1 : ℤ) : ℝ) + 1) * ((l : ℝ) - ((m - 1 : ℤ) : ℝ))) = ((l : ℝ) + m) * (l - m + 1) := by push_cast; ring
    rw [e4]
    push_cast at hdc ⊢
    linear_combination (-(c l m * Complex.exp (Complex.I * m * φ) * Complex.exp (-(Complex.I * φ)))) * hdc
      - Complex.exp (-(Complex.I * φ)) * (Complex.cos θ / Complex.sin θ) * m * c l m * ThZ l m θ * Complex.exp (Complex.I * m * φ) * hI

/-! ### Laplacian -/

/-- `(1/sin θ) d/dθ (sin θ dΘ/dθ) = (m²/sin²θ - l(l+1)) Θ` -/
theorem ThZ_lap (l : ℕ) (m : ℤ) (h1 : -(l : ℤ) ≤ m) (h2 : m ≤ l) {θ : ℝ} (hs : Real.sin θ ≠ 0) :
    HasDerivAt (fun t => Real.sin t * dTZ l m t)
      (Real.sin θ * ((m ^ 2 / Real.sin θ ^ 2 - l * (l + 1)) * ThZ l m θ)) θ := by
  have hev : ∀ᶠ t in nhds θ, Real.sin t ≠ 0 := Real.continuous_sin.continuousAt.eventually_ne hs
  have hsc := Real.sin_sq_add_cos_sq θ
  by_cases hml : m = l
  · -- top order: `sin Θ' = m cos Θ`
    have heq : (fun t => Real.sin t * dTZ l m t) =ᶠ[nhds θ] fun t => m * Real.cos t * ThZ l m t := by
      filter_upwards [hev] with t ht
      have := (dTZ_spec l m h1 h2 ht).2.1
      rw [if_pos hml] at this
      have e : dTZ l m t = m * (Real.cos t / Real.sin t) * ThZ l m t := by linarith
      rw [e]; field_simp
    refine HasDerivAt.congr_of_eventuallyEq ?_ heq
    have hd := dTZ_spec l m h1 h2 hs
    have e := hd.2.1
    rw [if_pos hml] at e
    have e' : dTZ l m θ = m * (Real.cos θ / Real.sin θ) * ThZ l m θ := by linarith
    refine (((Real.hasDerivAt_cos θ).const_mul (m : ℝ)).mul hd.1).congr_deriv ?_
    rw [e']
    have hl : (l : ℝ) = m := by rw [hml]; simp
    rw [hl]
    field_simp
    have : Real.cos θ ^ 2 = 1 - Real.sin θ ^ 2 := by linarith
    linear_combination ((m : ℝ) ^ 2 * ThZ l m θ) * this
  · have heq : (fun t => Real.sin t * dTZ l m t) =ᶠ[nhds θ] fun t => m * Real.cos t * ThZ l m t
        + Real.sqrt (((l : ℝ) - m) * (l + m + 1)) * Real.sin t * ThZ l (m + 1) t := by
      filter_upwards [hev] with t ht
      have := (dTZ_spec l m h1 h2 ht).2.1
      rw [if_neg hml] at this
      have e : dTZ l m t = m * (Real.cos t / Real.sin t) * ThZ l m t
        + Real.sqrt (((l : ℝ) - m) * (l + m + 1)) * ThZ l (m + 1) t := by linarith
      rw [e]; field_simp
    refine HasDerivAt.congr_of_eventuallyEq ?_ heq
    have hd := dTZ_spec l m h1 h2 hs
    have hd' := dTZ_spec l (m + 1) (by omega) (by omega) hs
    have e := hd.2.1
    rw [if_neg hml] at e
    have e' : dTZ l m θ = m * (Real.cos θ / Real.sin θ) * ThZ l m θ
      + Real.sqrt (((l : ℝ) - m) * (l + m + 1)) * ThZ l (m + 1) θ := by linarith
    have f := hd'.2.2
    rw [if_neg (by omega)] at f
    have eA : ((l : ℝ) + ((m + 1 : ℤ) : ℝ)) * (l - ((m + 1 : ℤ) : ℝ) + 1) = ((l : ℝ) - m) * (l + m + 1) := by
      push_cast; ring
    rw [eA, show m + 1 - 1 = m by ring] at f
    have f' : dTZ l (m + 1) θ = -(((m + 1 : ℤ) : ℝ) * (Real.cos θ / Real.sin θ) * ThZ l (m + 1) θ)
      - Real.sqrt (((l : ℝ) - m) * (l + m + 1)) * ThZ l m θ := by linarith
    have hA : Real.sqrt (((l : ℝ) - m) * (l + m + 1)) * Real.sqrt (((l : ℝ) - m) * (l + m + 1))
        = ((l : ℝ) - m) * (l + m + 1) := by
      apply Real.mul_self_sqrt
      have a1 : (m : ℝ) ≤ l := by exact_mod_cast h2
      have a2 : -(l : ℝ) ≤ m := by exact_mod_cast h1
      apply mul_nonneg <;> linarith
    refine (((((Real.hasDerivAt_cos θ).const_mul (m : ℝ)).mul hd.1)).add
      (((Real.hasDerivAt_sin θ).const_mul _).mul hd'.1)).congr_deriv ?_
    rw [e', f']
    push_cast
    field_simp
    have : Real.cos θ ^ 2 = 1 - Real.sin θ ^ 2 := by linarith
    linear_combination ((m : ℝ) ^ 2 * ThZ l m θ) * this - (Real.sin θ ^ 2 * ThZ l m θ) * hA

/-- `(1/sin θ) ∂θ(sin θ ∂θ f) + (1/sin²θ) ∂φ² f` for the field with coefficients `c` -/
theorem fieldC_lap (L : ℕ) (c : ℕ → ℤ → ℂ) {θ : ℝ} (φ : ℝ) (hs : Real.sin θ ≠ 0) :
    ∃ D : ℂ, HasDerivAt (fun t : ℝ => (Real.sin t : ℂ) * dthC L c t φ) D θ ∧
      D / (Real.sin θ : ℂ) + fieldC L (fun l m => Complex.I * m * (Complex.I * m * c l m)) θ φ / (Real.sin θ : ℂ) ^ 2
        = fieldC L (fun l m => -((l : ℂ) * (l + 1)) * c l m) θ φ := by
  have hsC : (Real.sin θ : ℂ) ≠ 0 := by exact_mod_cast hs
  refine ⟨∑ l ∈ Finset.range (L + 1), ∑ m ∈ Finset.Icc (-(l : ℤ)) l,
    c l m * (((Real.sin θ * ((m ^ 2 / Real.sin θ ^ 2 - l * (l + 1)) * ThZ l m θ) : ℝ) : ℂ)
      * Complex.exp (Complex.I * m * φ)), ?_, ?_⟩
  · have : (fun t : ℝ => (Real.sin t : ℂ) * dthC L c t φ)
        = ∑ l ∈ Finset.range (L + 1), ∑ m ∈ Finset.Icc (-(l : ℤ)) l,
          fun t : ℝ => c l m * (((Real.sin t * dTZ l m t : ℝ) : ℂ) * Complex.exp (Complex.I * m * φ)) := by
      funext t
      unfold dthC
      rw [Finset.sum_apply, Finset.mul_sum]
      apply Finset.sum_congr rfl
      intro l _
      rw [Finset.sum_apply, Finset.mul_sum]
      apply Finset.sum_congr rfl
      intro m _
      push_cast
      ring
    rw [this]
    apply HasDerivAt.sum
    intro l _
    apply HasDerivAt.sum
    intro m hm
    rw [Finset.mem_Icc] at hm
    exact (((ThZ_lap l m hm.1 hm.2 hs).ofReal_comp).mul_const _).const_mul _
  · unfold fieldC
    rw [Finset.sum_div, Finset.sum_div, ← Finset.sum_add_distrib]
    apply Finset.sum_congr rfl
    intro l _
    rw [Finset.sum_div, Finset.sum_div, ← Finset.sum_add_distrib]
    apply Finset.sum_congr rfl
    intro m _
    unfold Ylm
    have hI : Complex.I * Complex.I = -1 := Complex.I_mul_I
    push_cast at hsC ⊢
    field_simp
    rw [Complex.I_sq]
    ring

/-! ### Real fields -/

/-- the coefficients of all orders of the real field with coefficients `c l m`, `0≤m≤M` -/
noncomputable def extC (M : ℕ) (c : ℕ → ℕ → ℂ) (l : ℕ) (m : ℤ) : ℂ :=
  if m.natAbs ≤ M then
    (if m = 0 then ((c l 0).re : ℂ) else if 0 < m then c l m.toNat else (-1) ^ m.natAbs * (starRingEnd ℂ) (c l m.natAbs))
  else 0

theorem sum_Icc_symm (l : ℕ) (F : ℤ → ℂ) :
    ∑ m ∈ Finset.Icc (-(l : ℤ)) l, F m = F 0 + ∑ m ∈ Finset.Icc 1 l, (F m + F (-(m : ℤ))) := by
  induction l with
  | zero => simp
  | succ l ih =>
    rw [Finset.sum_Icc_succ_top (by omega)]
    have : Finset.Icc (-((l + 1 : ℕ) : ℤ)) ((l + 1 : ℕ) : ℤ)
        = insert ((l + 1 : ℕ) : ℤ) (insert (-((l + 1 : ℕ) : ℤ)) (Finset.Icc (-(l : ℤ)) l)) := by
      ext x
      simp only [Finset.mem_insert, Finset.mem_Icc]
      omega
    rw [this, Finset.sum_insert, Finset.sum_insert, ih]
    · ring
    · simp
    · simp only [Finset.mem_insert, Finset.mem_Icc]
      omega

theorem Ylm_conj (l m : ℕ) (θ φ : ℝ) :
    Ylm l (-(m : ℤ)) θ φ = (-1) ^ m * (starRingEnd ℂ) (Ylm l m θ φ) := by
  unfold Ylm
  rw [ThZ_neg, ThZ_nat]
  simp only [map_mul, Complex.conj_ofReal, ← Complex.exp_conj, Complex.conj_I, map_intCast]
  push_cast
  rw [mul_assoc]
  congr 3
  simp

theorem fieldR_eq (L M : ℕ) (c : ℕ → ℕ → ℂ) (θ φ : ℝ) : (fieldR L M c θ φ : ℂ) = fieldC L (extC M c) θ φ := by
  unfold fieldR fieldC
  rw [Complex.ofReal_sum]
  apply Finset.sum_congr rfl
  intro l _
  rw [sum_Icc_symm]
  have h0 : extC M c l 0 * Ylm l 0 θ φ = (((c l 0).re * ThN l 0 θ : ℝ) : ℂ) := by
    unfold extC Ylm
    have : ThZ l 0 = ThN l 0 := ThZ_nat l 0
    rw [this]
    simp
  rw [h0]
  have hm : ∀ m ∈ Finset.Icc 1 l, extC M c l m * Ylm l m θ φ + extC M c l (-(m : ℤ)) * Ylm l (-(m : ℤ)) θ φ
      = if m ≤ M then ((2 * (c l m * Ylm l m θ φ).re : ℝ) : ℂ) else 0 := by
    intro m hm
    rw [Finset.mem_Icc] at hm
    unfold extC
    rw [Int.natAbs_neg, Int.natAbs_natCast]
    by_cases hM : m ≤ M
    · rw [if_pos hM, if_pos hM, if_pos hM, if_neg (by omega), if_pos (by omega), if_neg (by omega), if_neg (by omega),
        Ylm_conj, Int.toNat_natCast]
      have h1 : ((-1 : ℂ) ^ m) * (-1) ^ m = 1 := by rw [← mul_pow]; simp
      have h2 : (-1 : ℂ) ^ m * (starRingEnd ℂ) (c l m) * ((-1) ^ m * (starRingEnd ℂ) (Ylm l m θ φ))
          = (starRingEnd ℂ) (c l m * Ylm l m θ φ) := by
        rw [map_mul]
        linear_combination ((starRingEnd ℂ) (c l m) * (starRingEnd ℂ) (Ylm l m θ φ)) * h1
      rw [h2, Complex.add_conj]
    · rw [if_neg hM, if_neg hM, if_neg hM]; ring
  rw [Finset.sum_congr rfl hm, ← Finset.sum_filter]
  have hf : Finset.filter (fun m => m ≤ M) (Finset.Icc 1 l) = Finset.Icc 1 (min l M) := by
    ext x; simp only [Finset.mem_filter, Finset.mem_Icc]; omega
  rw [hf]
  push_cast
  rw [Complex.re_sum]
  push_cast
  rw [Finset.mul_sum]

theorem hasDerivAt_re {f : ℝ → ℝ} {d : ℂ} {x : ℝ} (h : HasDerivAt (fun t : ℝ => (f t : ℂ)) d x) :
    HasDerivAt f d.re x ∧ d.im = 0 := by
  constructor
  · have := Complex.reCLM.hasFDerivAt.comp_hasDerivAt x h
    simpa [Function.comp_def] using this
  · have h2 := Complex.imCLM.hasFDerivAt.comp_hasDerivAt x h
    have h3 : HasDerivAt (fun _ : ℝ => (0 : ℝ)) d.im x := by simpa [Function.comp_def] using h2
    exact h3.unique (hasDerivAt_const x 0)

/-- multiplying the coefficients of a real field by `i m` -/
theorem extC_phi (M : ℕ) (c : ℕ → ℕ → ℂ) (l : ℕ) (m : ℤ) :
    Complex.I * m * extC M c l m = extC M (fun l m => Complex.I * m * c l m) l m := by
  unfold extC
  by_cases hM : m.natAbs ≤ M
  · rw [if_pos hM, if_pos hM]
    rcases lt_trichotomy m 0 with h | h | h
    · rw [if_neg (by omega), if_neg (by omega), if_neg (by omega), if_neg (by omega)]
      obtain ⟨k, rfl⟩ : ∃ k : ℕ, m = -(k : ℤ) := ⟨(-m).toNat, by omega⟩
      simp only [Int.natAbs_neg, Int.natAbs_natCast, map_mul, Complex.conj_I, map_natCast]
      push_cast; ring
    · subst h; simp
    · rw [if_neg (by omega), if_pos h, if_neg (by omega), if_pos h]
      obtain ⟨k, rfl⟩ : ∃ k : ℕ, m = (k : ℤ) := ⟨m.toNat, by omega⟩
      simp
  · rw [if_neg hM, if_neg hM, mul_zero]

/-- multiplying the coefficients of a real field by real factors that do not depend on `m` -/
theorem extC_scale (M : ℕ) (c : ℕ → ℕ → ℂ) (a : ℕ → ℝ) (l : ℕ) (m : ℤ) :
    (a l : ℂ) * extC M c l m = extC M (fun l m => (a l : ℂ) * c l m) l m := by
  unfold extC
  split_ifs
  · simp
  · rfl
  · simp; ring
  · simp

theorem fieldR_dPh (L M : ℕ) (c : ℕ → ℕ → ℂ) (θ φ : ℝ) :
    HasDerivAt (fun t => fieldR L M c θ t) (fieldR L M (fun l m => Complex.I * m * c l m) θ φ) φ := by
  have h := fieldC_dphi L (extC M c) θ φ
  have h1 : (fun t : ℝ => fieldC L (extC M c) θ t) = fun t : ℝ => (fieldR L M c θ t : ℂ) := by
    funext t; rw [fieldR_eq]
  have h2 : fieldC L (fun l m => Complex.I * m * extC M c l m) θ φ
      = (fieldR L M (fun l m => Complex.I * m * c l m) θ φ : ℂ) := by
    rw [fieldR_eq]; congr 1; funext l m; exact extC_phi M c l m
  rw [h1, h2] at h
  have := (hasDerivAt_re h).1
  simpa using this

/-- The azimuthal derivative of a real field. -/
theorem dPh_fieldR (L M : ℕ) (c : ℕ → ℕ → ℂ) : dPh (fieldR L M c) = fieldR L M (fun l m => Complex.I * m * c l m) := by
  funext θ φ
  exact (fieldR_dPh L M c θ φ).deriv

theorem fieldR_dTh (L M : ℕ) (c : ℕ → ℕ → ℂ) {θ : ℝ} (φ : ℝ) (hs : Real.sin θ ≠ 0) :
    HasDerivAt (fun t => fieldR L M c t φ) (dTh (fieldR L M c) θ φ) θ ∧
      (dTh (fieldR L M c) θ φ : ℂ) = dthC L (extC M c) θ φ := by
  have h := fieldC_dtheta L (extC M c) φ hs
  have h1 : (fun t : ℝ => fieldC L (extC M c) t φ) = fun t : ℝ => (fieldR L M c t φ : ℂ) := by
    funext t; rw [fieldR_eq]
  rw [h1] at h
  have h2 := hasDerivAt_re h
  have h3 : dTh (fieldR L M c) θ φ = (dthC L (extC M c) θ φ).re := h2.1.deriv
  refine ⟨by rw [h3]; exact h2.1, ?_⟩
  rw [h3]
  apply Complex.ext
  · simp
  · simp [h2.2]

/-- The spherical Laplacian of a real field multiplies its coefficients by `-l(l+1)`. -/
theorem lapS2_fieldR (L M : ℕ) (c : ℕ → ℕ → ℂ) {θ : ℝ} (φ : ℝ) (hs : Real.sin θ ≠ 0) :
    lapS2 (fieldR L M c) θ φ = fieldR L M (fun l m => -((l : ℂ) * (l + 1)) * c l m) θ φ := by
  obtain ⟨D, hD, he⟩ := fieldC_lap L (extC M c) φ hs
  have hev : ∀ᶠ t in nhds θ, Real.sin t ≠ 0 := Real.continuous_sin.continuousAt.eventually_ne hs
  have heq : (fun t : ℝ => (((Real.sin t * dTh (fieldR L M c) t φ : ℝ)) : ℂ))
      =ᶠ[nhds θ] fun t : ℝ => (Real.sin t : ℂ) * dthC L (extC M c) t φ := by
    filter_upwards [hev] with t ht
    rw [Complex.ofReal_mul, (fieldR_dTh L M c φ ht).2]
  have h1 := hasDerivAt_re (hD.congr_of_eventuallyEq heq)
  have hDre : (D.re : ℂ) = D := by
    apply Complex.ext
    · simp
    · simp [h1.2]
  unfold lapS2
  rw [h1.1.deriv, dPh_fieldR, dPh_fieldR]
  have hph : fieldC L (fun l m => Complex.I * m * (Complex.I * m * extC M c l m)) θ φ
      = (fieldR L M (fun l m => Complex.I * m * (Complex.I * m * c l m)) θ φ : ℂ) := by
    rw [fieldR_eq]; congr 1; funext l m; rw [extC_phi, extC_phi]
  have hl : fieldC L (fun l m => -((l : ℂ) * (l + 1)) * extC M c l m) θ φ
      = (fieldR L M (fun l m => -((l : ℂ) * (l + 1)) * c l m) θ φ : ℂ) := by
    rw [fieldR_eq]; congr 1; funext l m
    have := extC_scale M c (fun l => -((l : ℝ) * (l + 1))) l m
    push_cast at this
    exact this
  rw [hph, hl, ← hDre] at he
  exact_mod_cast he

/-- `-L₊f L₋f + (∂φ f)²` is the squared angular gradient. -/
theorem ladder_gradSq (L M : ℕ) (c : ℕ → ℕ → ℂ) {θ : ℝ} (φ : ℝ) (hs : Real.sin θ ≠ 0) :
    -(fieldC L (upC (extC M c)) θ φ * fieldC L (downC (extC M c)) θ φ)
      + (fieldR L M (fun l m => Complex.I * m * c l m) θ φ : ℂ) ^ 2 = (gradSq (fieldR L M c) θ φ : ℂ) := by
  rw [fieldC_raise L _ φ hs, fieldC_lower L _ φ hs]
  have hph : fieldC L (fun l m => Complex.I * m * extC M c l m) θ φ
      = (fieldR L M (fun l m => Complex.I * m * c l m) θ φ : ℂ) := by
    rw [fieldR_eq]; congr 1; funext l m; exact extC_phi M c l m
  rw [hph, ← (fieldR_dTh L M c φ hs).2]
  unfold gradSq
  rw [dPh_fieldR]
  have he : Complex.exp (Complex.I * φ) * Complex.exp (-(Complex.I * φ)) = 1 := by
    rw [← Complex.exp_add]; simp
  have hsC : (Real.sin θ : ℂ) ≠ 0 := by exact_mod_cast hs
  have hsc : (Real.cos θ : ℂ) ^ 2 = 1 - (Real.sin θ : ℂ) ^ 2 := by
    have := Real.sin_sq_add_cos_sq θ
    have h2 : Real.cos θ ^ 2 = 1 - Real.sin θ ^ 2 := by linarith
    exact_mod_cast h2
  generalize fieldR L M (fun l m => Complex.I * m * c l m) θ φ = P
  generalize dTh (fieldR L M c) θ φ = T
  have hI : Complex.I ^ 2 = -1 := Complex.I_sq
  rw [Complex.ofReal_add, Complex.ofReal_div, Complex.ofReal_pow, Complex.ofReal_div, Complex.ofReal_pow,
    Complex.ofReal_pow]
  have expand : -(Complex.exp (Complex.I * φ) * ((T : ℂ) + Complex.I * ((Real.cos θ : ℂ) / (Real.sin θ : ℂ)) * P) *
      (Complex.exp (-(Complex.I * φ)) * (-(T : ℂ) + Complex.I * ((Real.cos θ : ℂ) / (Real.sin θ : ℂ)) * P)))
      = -((Complex.exp (Complex.I * φ) * Complex.exp (-(Complex.I * φ))) *
        (-(T : ℂ) ^ 2 + Complex.I ^ 2 * ((Real.cos θ : ℂ) / (Real.sin θ : ℂ)) ^ 2 * (P : ℂ) ^ 2)) := by ring
  rw [expand, he, hI, div_pow, hsc]
  field_simp
  ring

end SFK
