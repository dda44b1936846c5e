import Verif.Lemmas.LinSphere
/-
The squared gradient the code computes for the axisymmetric field `Y_{nm+1,0}+Y_{nl,0}` when at least two orders are missing (`nm≤nl-2`).
-/
namespace SFK
open Scalar CR

theorem fieldC_single {L l0 : ℕ} {m0 : ℤ} (hl : l0 ≤ L) (hm : |m0| ≤ (l0 : ℤ)) (a : ℂ) (θ φ : ℝ) :
    fieldC L (fun l m => if l = l0 ∧ m = m0 then a else 0) θ φ = a * Ylm l0 m0 θ φ := by
  unfold fieldC
  rw [Finset.sum_eq_single l0]
  · rw [Finset.sum_eq_single m0]
    · beta_reduce; rw [if_pos ⟨rfl, rfl⟩]
    · intro m _ hne; beta_reduce; rw [if_neg (fun h => hne h.2), zero_mul]
    · intro h; rw [abs_le] at hm; exact absurd (Finset.mem_Icc.mpr hm) h
  · intro l _ hne
    exact Finset.sum_eq_zero fun m _ => by beta_reduce; rw [if_neg (fun h => hne h.1), zero_mul]
  · intro h; exact absurd (Finset.mem_range.mpr (by omega)) h

/-- the coefficients of the field -/
noncomputable def axiC (L M : ℕ) (a b : ℝ) (l m : ℕ) : ℂ := if m = 0 ∧ (l = M + 1 ∨ l = L) then ((if l = L then b else a : ℝ) : ℂ) else 0

theorem extC_axi (L M : ℕ) (a b : ℝ) (l : ℕ) (m : ℤ) : extC M (axiC L M a b) l m = if m = 0 ∧ (l = M + 1 ∨ l = L) then ((if l = L then b else a : ℝ) : ℂ) else 0 := by
  unfold extC axiC
  by_cases hm : m = 0
  · subst hm
    simp only [Int.natAbs_zero, Nat.zero_le, if_true, true_and]
    split_ifs <;> simp
  · rw [if_neg (by tauto : ¬ (m = 0 ∧ _)), if_neg hm]
    have h1 : ¬ m.natAbs = 0 := by omega
    split_ifs <;> first | rfl | (exfalso; omega) | simp

/-- sizes: two orders missing, but not many -/
structure Gap (L M : ℕ) : Prop where
  pos : 1 ≤ M
  gap : M + 2 ≤ L
  sq : (L - M) ^ 2 < L

namespace Gap
variable {L M : ℕ}

theorem row (h : Gap L M) : L * L + 1 ≤ prow M L + M := by
  obtain ⟨d, rfl⟩ : ∃ d, L = M + 1 + d := ⟨L - (M + 1), by have := h.gap; omega⟩
  rw [prow_high]
  have h2 := h.sq
  rw [show M + 1 + d - M = d + 1 by omega] at h2
  nlinarith

theorem ncp (h : Gap L M) : L ^ 2 ≤ prow M (L + 1) := by
  have := h.row
  have := h.gap
  rw [prow, pow_two, Nat.min_eq_right (by omega)]; omega

theorem idx (M l : ℕ) (m : ℤ) (h1 : |m| ≤ (l : ℤ)) (h2 : |m| ≤ (M : ℤ)) : ∃ j : ℕ, j ≤ 2 * min l M ∧ m = (j : ℤ) - (min l M : ℕ) ∧
    (pidx M l m).toNat = prow M l + j := by
  rw [abs_le] at h1 h2
  refine ⟨(m + (min l M : ℕ)).toNat, by omega, by omega, ?_⟩
  rw [← pidx_toNat]
  congr 2
  omega

theorem sqrt_iff (k L : ℕ) : k.sqrt < L ↔ k < L * L := Nat.sqrt_lt

theorem raise (h : Gap L M) (a b : ℝ) (l : ℕ) (m : ℤ) (hl : l ≤ L) (h1 : -(l : ℤ) ≤ m) (h2 : m ≤ l) :
    cutC M (raisedG L M (extC M (axiC L M a b))) l m
      = (if l = M + 1 ∧ m = 1 then ((Real.sqrt ((M + 2) * (M + 1)) * a : ℝ) : ℂ) else 0) + if l = L ∧ m = 0 then (b : ℂ) else 0 := by
  have hp := h.pos
  have hg := h.gap
  have hrow := h.row
  have hlow := prow_low (M := M) (Nat.le_refl (M + 1))
  have hsq : (M + 2) * (M + 2) ≤ L * L := Nat.mul_le_mul hg hg
  unfold cutC
  by_cases hm : |m| ≤ (M : ℤ)
  · rw [if_pos hm]
    obtain ⟨j, hj, hmj, hk⟩ := idx M l m (abs_le.mpr ⟨h1, h2⟩) hm
    unfold raisedG
    rw [hk]
    by_cases hs : (prow M l + j).sqrt < L
    · rw [if_pos hs]
      rw [sqrt_iff] at hs
      unfold prevC
      by_cases hmin : m = -((min l M : ℕ) : ℤ)
      · rw [if_pos hmin, extC_axi]
        dsimp only
        rw [if_neg (by omega : ¬ (((min (l - 1) M : ℕ) : ℤ) = 0 ∧ (l - 1 = M + 1 ∨ l - 1 = L))), if_neg (by omega : ¬ (l = M + 1 ∧ m = 1)),
          if_neg (by omega : ¬ (l = L ∧ m = 0))]
        simp
      · rw [if_neg hmin, extC_axi]
        dsimp only
        by_cases hm1 : m = 1
        · have hl0 : l ≠ L := by
            rintro rfl
            rw [Nat.min_eq_right (by omega)] at hmj
            omega
          by_cases hlM : l = M + 1
          · subst hlM
            rw [Nat.min_eq_right (by omega)] at hmj
            have hj' : j = M + 1 := by omega
            subst hj'
            rw [hlow]
            have e1 : ((M + 1) * (M + 1) + (M + 1)).sqrt = M + 1 := Sphere.sqrt_block (Nat.le_add_right _ _) (by omega)
            rw [e1, if_neg (by omega), if_pos ⟨by omega, Or.inl rfl⟩, if_neg hl0, if_pos ⟨rfl, hm1⟩, if_neg (by omega), add_zero]
            push_cast
            rw [show ((2 * ((M : ℝ) + 1) + 1 - (((M : ℝ) + 1) * (M + 1) + (M + 1) - (M + 1) * (M + 1))) * ((M + 1) * (M + 1) + (M + 1) - (M + 1) * (M + 1)))
              = (M + 2) * (M + 1) by ring]
          · rw [if_neg (by omega : ¬ (m - 1 = 0 ∧ (l = M + 1 ∨ l = L))), if_neg (by omega : ¬ (l = M + 1 ∧ m = 1)), if_neg (by omega : ¬ (l = L ∧ m = 0))]
            simp
        · rw [if_neg (by omega : ¬ (m - 1 = 0 ∧ (l = M + 1 ∨ l = L))), if_neg (by omega : ¬ (l = M + 1 ∧ m = 1))]
          by_cases hL : l = L ∧ m = 0
          · exfalso
            obtain ⟨rfl, rfl⟩ := hL
            rw [Nat.min_eq_right (by omega)] at hmj
            omega
          · rw [if_neg hL]; simp
    · rw [if_neg hs, extC_axi]
      rw [sqrt_iff] at hs
      by_cases hlM : l = M + 1
      · exfalso
        subst hlM
        rw [hlow] at hs
        rw [Nat.min_eq_right (by omega)] at hj
        apply hs
        nlinarith
      · rw [if_neg (by omega : ¬ (l = M + 1 ∧ m = 1)), zero_add]
        by_cases hL : l = L ∧ m = 0
        · rw [if_pos hL, if_pos ⟨hL.2, Or.inr hL.1⟩, if_pos hL.1]
        · rw [if_neg hL, if_neg (by omega)]
  · rw [if_neg hm]
    rw [abs_le] at hm
    rw [if_neg (by omega), if_neg (by omega)]
    simp

theorem lower (h : Gap L M) (a b : ℝ) (l : ℕ) (m : ℤ) (hl : l ≤ L) (h1 : -(l : ℤ) ≤ m) (h2 : m ≤ l) :
    cutC M (loweredG L M (extC M (axiC L M a b))) l m
      = (if l = M + 1 ∧ m = -1 then ((Real.sqrt (M * (M + 3)) * a : ℝ) : ℂ) else 0) + if l = L ∧ m = 0 then (b : ℂ) else 0 := by
  have hp := h.pos
  have hg := h.gap
  have hrow := h.row
  have hlow := prow_low (M := M) (Nat.le_refl (M + 1))
  have hsq : (M + 2) * (M + 2) ≤ L * L := Nat.mul_le_mul hg hg
  unfold cutC
  by_cases hm : |m| ≤ (M : ℤ)
  · rw [if_pos hm]
    obtain ⟨j, hj, hmj, hk⟩ := idx M l m (abs_le.mpr ⟨h1, h2⟩) hm
    unfold loweredG
    rw [hk]
    by_cases hs : (prow M l + j).sqrt < L
    · rw [if_pos hs]
      rw [sqrt_iff] at hs
      unfold nextC
      by_cases hmin : m = ((min l M : ℕ) : ℤ)
      · rw [if_pos hmin, extC_axi]
        dsimp only
        rw [if_neg (by omega : ¬ (-((min (l + 1) M : ℕ) : ℤ) = 0 ∧ (l + 1 = M + 1 ∨ l + 1 = L))), if_neg (by omega : ¬ (l = M + 1 ∧ m = -1)),
          if_neg (by omega : ¬ (l = L ∧ m = 0))]
        simp
      · rw [if_neg hmin, extC_axi]
        dsimp only
        by_cases hm1 : m = -1
        · have hl0 : l ≠ L := by
            rintro rfl
            rw [Nat.min_eq_right (by omega)] at hmj
            omega
          by_cases hlM : l = M + 1
          · subst hlM
            rw [Nat.min_eq_right (by omega)] at hmj
            obtain ⟨i, rfl⟩ : ∃ i, M = i + 1 := ⟨M - 1, by omega⟩
            have hj' : j = i := by omega
            subst hj'
            rw [hlow]
            have e1 : ((j + 1 + 1) * (j + 1 + 1) + j).sqrt = j + 1 + 1 := Sphere.sqrt_block (Nat.le_add_right _ _) (by omega)
            rw [e1, if_neg (by omega), if_pos ⟨by omega, Or.inl rfl⟩, if_neg hl0, if_pos ⟨rfl, hm1⟩, if_neg (by omega), add_zero]
            push_cast
            rw [show (((j : ℝ) + 1 + 1) * (j + 1 + 1) + j - (j + 1 + 1) * (j + 1 + 1) + 1) * (2 * (j + 1 + 1) - ((j + 1 + 1) * (j + 1 + 1) + j - (j + 1 + 1) * (j + 1 + 1)))
              = (j + 1) * (j + 1 + 3) by ring]
          · rw [if_neg (by omega : ¬ (m + 1 = 0 ∧ (l = M + 1 ∨ l = L))), if_neg (by omega : ¬ (l = M + 1 ∧ m = -1)), if_neg (by omega : ¬ (l = L ∧ m = 0))]
            simp
        · rw [if_neg (by omega : ¬ (m + 1 = 0 ∧ (l = M + 1 ∨ l = L))), if_neg (by omega : ¬ (l = M + 1 ∧ m = -1))]
          by_cases hL : l = L ∧ m = 0
          · exfalso
            obtain ⟨rfl, rfl⟩ := hL
            rw [Nat.min_eq_right (by omega)] at hmj
            omega
          · rw [if_neg hL]; simp
    · rw [if_neg hs, extC_axi]
      rw [sqrt_iff] at hs
      by_cases hlM : l = M + 1
      · exfalso
        subst hlM
        rw [hlow] at hs
        rw [Nat.min_eq_right (by omega)] at hj
        apply hs
        nlinarith
      · rw [if_neg (by omega : ¬ (l = M + 1 ∧ m = -1)), zero_add]
        by_cases hL : l = L ∧ m = 0
        · rw [if_pos hL, if_pos ⟨hL.2, Or.inr hL.1⟩, if_pos hL.1]
        · rw [if_neg hL, if_neg (by omega)]
  · rw [if_neg hm]
    rw [abs_le] at hm
    rw [if_neg (by omega), if_neg (by omega)]
    simp

theorem sphXG_axi (h : Gap L M) (a b θ φ : ℝ) : sphXG L M (axiC L M a b) θ φ =
    a * (a * (Real.sqrt ((M + 2) * (M + 1)) * Real.sqrt (M * (M + 3)) * ThN (M + 1) 1 θ ^ 2)
      - b * (Real.sqrt ((M + 2) * (M + 1)) - Real.sqrt (M * (M + 3))) * ThN (M + 1) 1 θ * ThN L 0 θ * Real.cos φ) := by
  have hp := h.pos
  have hg := h.gap
  have hphi : fieldR L M (phiC L M (axiC L M a b)) θ φ = b * ThN L 0 θ := by
    have : fieldR L M (phiC L M (axiC L M a b)) θ φ = fieldR L M (fun l m => if l = L ∧ m = 0 then (b : ℂ) else 0) θ φ := by
      apply fieldR_congr
      intro l m hl hm hM
      unfold phiC axiC
      by_cases h1 : l < L ∧ m < M
      · rw [if_pos h1, if_neg (by omega : ¬ (l = L ∧ _))]
        by_cases h0 : m = 0
        · rw [h0]; simp
        · rw [if_neg (by omega)]; simp
      · rw [if_neg h1]
        by_cases h2 : l = L ∧ m = 0
        · rw [if_pos h2, if_pos ⟨h2.2, Or.inr h2.1⟩, if_pos h2.1]
        · rw [if_neg h2, if_neg (by omega)]
    rw [this]
    unfold fieldR
    rw [Finset.sum_eq_single L]
    · rw [Finset.sum_eq_zero]
      · simp
      · intro m hm
        rw [Finset.mem_Icc] at hm
        beta_reduce
        rw [if_neg (by omega), zero_mul]
    · intro l _ hne
      rw [Finset.sum_eq_zero]
      · simp [hne]
      · intro m hm
        beta_reduce
        rw [if_neg (by omega), zero_mul]
    · intro hh; exact absurd (Finset.mem_range.mpr (by omega)) hh
  unfold sphXG
  rw [hphi, fieldC_congr (fun l m a1 b1 d => h.raise a b l m a1 b1 d), fieldC_congr (fun l m a1 b1 d => h.lower a b l m a1 b1 d),
    fieldC_add, fieldC_add, fieldC_single (by omega) (by rw [abs_le]; push_cast; omega), fieldC_single (by omega) (by simp),
    fieldC_single (by omega) (by rw [abs_le]; push_cast; omega)]
  unfold Ylm
  have t1 : ThZ (M + 1) 1 θ = ThN (M + 1) 1 θ := by have := ThZ_nat (M + 1) 1; exact_mod_cast congrFun this θ
  have t2 : ThZ (M + 1) (-1) θ = -ThN (M + 1) 1 θ := by
    have := congrFun (ThZ_neg (M + 1) 1) θ
    simp only [Nat.cast_one, pow_one, neg_mul, one_mul] at this
    exact this
  have t0 : ThZ L 0 θ = ThN L 0 θ := by have := ThZ_nat L 0; exact_mod_cast congrFun this θ
  rw [t0, t1, t2]
  have e1 : Complex.exp (Complex.I * ((1 : ℤ) : ℂ) * φ) = ⟨Real.cos φ, Real.sin φ⟩ := by
    rw [show Complex.I * ((1 : ℤ) : ℂ) * φ = (φ : ℂ) * Complex.I by push_cast; ring, Complex.exp_mul_I]
    apply Complex.ext <;> simp [Complex.cos_ofReal_re, Complex.sin_ofReal_re, Complex.cos_ofReal_im, Complex.sin_ofReal_im]
  have e2 : Complex.exp (Complex.I * ((-1 : ℤ) : ℂ) * φ) = ⟨Real.cos φ, -Real.sin φ⟩ := by
    rw [show Complex.I * ((-1 : ℤ) : ℂ) * φ = ((-φ : ℝ) : ℂ) * Complex.I by push_cast; ring, Complex.exp_mul_I]
    apply Complex.ext <;> simp [Complex.cos_ofReal_re, Complex.sin_ofReal_re, Complex.cos_ofReal_im, Complex.sin_ofReal_im]
  have e0 : Complex.exp (Complex.I * ((0 : ℤ) : ℂ) * φ) = 1 := by simp
  rw [e0, e1, e2]
  generalize Real.sqrt ((M + 2) * (M + 1)) = A
  generalize Real.sqrt (M * (M + 3)) = B
  generalize ThN (M + 1) 1 θ = Y
  generalize ThN L 0 θ = T
  simp only [Complex.add_re, Complex.mul_re, Complex.mul_im, Complex.ofReal_re, Complex.ofReal_im, Complex.add_im, Complex.one_re, Complex.one_im]
  have hcs := Real.sin_sq_add_cos_sq φ
  linear_combination a ^ 2 * A * B * Y ^ 2 * hcs

theorem factor (M : ℕ) : Real.sqrt (M * (M + 3)) < Real.sqrt ((M + 2) * (M + 1)) := by
  apply Real.sqrt_lt_sqrt (by positivity)
  nlinarith

theorem fieldR_axi (a b θ φ φ' : ℝ) : fieldR L M (axiC L M a b) θ φ = fieldR L M (axiC L M a b) θ φ' := by
  unfold fieldR
  refine Finset.sum_congr rfl fun l _ => ?_
  rw [Finset.sum_eq_zero, Finset.sum_eq_zero]
  · intro m hm
    rw [Finset.mem_Icc] at hm
    unfold axiC
    rw [if_neg (by omega), zero_mul]
  · intro m hm
    rw [Finset.mem_Icc] at hm
    unfold axiC
    rw [if_neg (by omega), zero_mul]

end Gap

/-- a node that is on a zero of neither polynomial -/
theorem exists_node {L M nlat : ℕ} {x : ℕ → ℝ} (hn : L + M < nlat) (hin : ∀ it, it < nlat → -1 < x it ∧ x it < 1)
    (hinj : ∀ i j, i < nlat → j < nlat → x i = x j → i = j) :
    ∃ it, it < nlat ∧ ThN L 0 (Real.arccos (x it)) ≠ 0 ∧ ThN (M + 1) 1 (Real.arccos (x it)) ≠ 0 := by
  classical
  have hne : ∀ l m, m ≤ l → (Polynomial.derivative^[m] (legP l)) ≠ 0 ∧ (Polynomial.derivative^[m] (legP l)).natDegree ≤ l - m := by
    intro l m hm
    refine ⟨fun h0 => ?_, (Polynomial.natDegree_iterate_derivative _ _).trans (Nat.sub_le_sub_right (legP_natDegree_le l) m)⟩
    have := congrArg (fun p => p.coeff (l - m)) h0
    simp only [Polynomial.coeff_iterate_derivative, Polynomial.coeff_zero] at this
    rw [Nat.sub_add_cancel hm, smul_eq_zero] at this
    rcases this with h | h
    · rw [Nat.descFactorial_eq_zero_iff_lt] at h; omega
    · exact legP_coeff_top l h
  obtain ⟨p0, p1⟩ := hne L 0 (Nat.zero_le _)
  obtain ⟨r0, r1⟩ := hne (M + 1) 1 (by omega)
  set S : Finset ℝ := (Polynomial.derivative^[0] (legP L)).roots.toFinset ∪ (Polynomial.derivative^[1] (legP (M + 1))).roots.toFinset with hS
  have hcard : S.card ≤ L + M := by
    refine (Finset.card_union_le _ _).trans (Nat.add_le_add ?_ ?_)
    · exact (Multiset.toFinset_card_le _).trans ((Polynomial.card_roots' _).trans (by simpa using p1))
    · exact (Multiset.toFinset_card_le _).trans ((Polynomial.card_roots' _).trans (by simpa using r1))
  have hnot : ¬ ((Finset.range nlat).image x ⊆ S) := by
    intro hsub
    have h1 := Finset.card_le_card hsub
    rw [Finset.card_image_of_injOn, Finset.card_range] at h1
    · omega
    · intro i hi j hj he
      simp only [Finset.coe_range, Set.mem_Iio] at hi hj
      exact hinj i j hi hj he
  rw [Finset.not_subset] at hnot
  obtain ⟨y, hy, hyS⟩ := hnot
  rw [Finset.mem_image] at hy
  obtain ⟨it, hit, rfl⟩ := hy
  rw [Finset.mem_range] at hit
  rw [hS, Finset.mem_union, not_or, Multiset.mem_toFinset, Multiset.mem_toFinset, Polynomial.mem_roots p0, Polynomial.mem_roots r0] at hyS
  have hi := hin it hit
  have hcos : Real.cos (Real.arccos (x it)) = x it := Real.cos_arccos hi.1.le hi.2.le
  have hsin : Real.sin (Real.arccos (x it)) ≠ 0 := by
    rw [Real.sin_arccos]
    have : 0 < 1 - x it ^ 2 := by nlinarith [hi.1, hi.2]
    exact (Real.sqrt_pos.mpr this).ne'
  refine ⟨it, hit, ?_, ?_⟩
  · unfold ThN
    rw [hcos]
    have := (nrmY_pos L 0).ne'
    refine mul_ne_zero (by simpa using this) hyS.1
  · unfold ThN
    rw [hcos]
    have := (nrmY_pos (M + 1) 1).ne'
    refine mul_ne_zero (mul_ne_zero (mul_ne_zero (by norm_num) this) (pow_ne_zero _ hsin)) hyS.2

end SFK
