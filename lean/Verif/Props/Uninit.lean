import Verif.Lemmas.Axisym
import Verif.Props.Packed
/-
C22, continued: with too few orders not only the result of `lower` but the squared angular gradient itself depends on memory nobody wrote.
-/
namespace SFK
open Scalar CR

variable {s : Sphere CR} {contig : Bool} {x : ℕ → ℝ} {A : ℕ → ℕ → ℕ → ℝ}

/-- `sphereX`, whatever `lower` returns -/
theorem sphereX_of_lower (h : s.Wf) (J : Junk (Cx CR)) {v out : List CR} {lo : List (Cx CR)} (hv : v.length = s.nSph)
    (ho : out.length = s.nSph) (hlo : ∀ o : List (Cx CR), o.length = s.nSph → s.lower (J.sub 1) v o = .ok lo) (hl : lo.length = s.nSph) :
    s.sphereX J v out = .ok (tab s.nSph fun i => -(Cx.mul (gv (s.ladP s.raiseP v) i) (gv lo i)).re + pown (gv (s.phiP v) i) 2) := by
  unfold Sphere.sphereX
  rw [cassert_true _ _ (by simp [hv]), ok_bind, cassert_true _ _ (by simp [ho]), ok_bind, h.raise_eq _ hv (by simp), ok_bind]
  rw [hlo _ (by simp), ok_bind, h.partial_phi_eq _ hv (by simp), ok_bind]
  have l1 : (s.ladP s.raiseP v).length = s.nSph := h.ladP_length (fun _ _ => by simp [Sphere.raiseP]) hv
  have l3 : (s.phiP v).length = s.nSph := h.thruP_length _ _
  apply forRange_fill _ ho
  intro i w hi _ _
  rw [rd_ok (by omega), ok_bind, rd_ok (by omega), ok_bind, rd_ok (by omega)]
  rfl

/-- the field `Y_{1,0}` -/
def dipC (l m : ℕ) : ℂ := if l = 1 ∧ m = 0 then 1 else 0

theorem dipC_real (l : ℕ) : (dipC l 0).im = 0 := by
  unfold dipC
  split_ifs <;> simp

theorem dipC_raise {L M : ℕ} (hM : 1 ≤ M) (hL : 2 ≤ L) (θ φ : ℝ) :
    fieldC L (cutC M (raisedG L M (extC M dipC))) θ φ = ((Real.sqrt 2 : ℝ) : ℂ) * Ylm 1 1 θ φ := by
  rw [← fieldC_single (L := L) (l0 := 1) (m0 := 1) (by omega) (by norm_num)]
  have hz : ∀ (l : ℕ) (m : ℤ), extC M dipC l m = if l = 1 ∧ m = 0 then 1 else 0 := by
    intro l m
    unfold extC dipC
    by_cases hm : m = 0
    · subst hm
      by_cases hl : l = 1 <;> simp [hl]
    · by_cases hl : l = 1 <;> simp [hl, hm]
  refine fieldC_congr (fun l m hl h1 h2 => ?_) θ φ
  unfold cutC
  by_cases hmM : |m| ≤ (M : ℤ)
  · rw [if_pos hmM, raisedG_resolved hl (abs_le.mpr ⟨h1, h2⟩) hmM (fun l m a _ => by rw [hz, if_neg (by omega)])]
    unfold raised
    simp only [hz]
    by_cases e : l = 1 ∧ m = 1
    · obtain ⟨rfl, rfl⟩ := e
      rw [if_pos (by omega), if_neg (by norm_num), if_pos (by norm_num), if_pos (by norm_num)]
      norm_num
    · rw [if_neg e]
      split_ifs with a b c
      · rfl
      · exact absurd ⟨c.1, by omega⟩ e
      · simp
      · omega
      · rfl
  · rw [if_neg hmM, if_neg]
    rintro ⟨_, rfl⟩
    apply hmM
    norm_num
    omega

theorem Y11_ne {θ : ℝ} (hs : Real.sin θ ≠ 0) (φ : ℝ) : Ylm 1 1 θ φ ≠ 0 := by
  unfold Ylm
  refine mul_ne_zero ?_ (Complex.exp_ne_zero _)
  rw [Complex.ofReal_ne_zero]
  unfold ThZ ThN
  rw [if_pos (by norm_num)]
  have hn := (nrmY_pos 1 1).ne'
  have hp : (Polynomial.derivative^[1] (legP 1)).eval (Real.cos θ) ≠ 0 := by
    have hd : (Polynomial.derivative^[1] (legP 1)).natDegree ≤ 0 :=
      (Polynomial.natDegree_iterate_derivative _ _).trans (Nat.sub_le_sub_right (legP_natDegree_le 1) 1)
    rw [Polynomial.eq_C_of_natDegree_le_zero hd, Polynomial.eval_C, Polynomial.coeff_iterate_derivative]
    have := legP_coeff_top 1
    simpa using this
  have e : (1 : ℤ).toNat = 1 := rfl
  rw [e]
  refine mul_ne_zero (mul_ne_zero (mul_ne_zero (by norm_num) hn) (pow_ne_zero _ hs)) hp

/-- **C22**, violated for what the evolution uses: with the orders truncated so far that the library stores fewer than `lmax^2` coefficients of a
complex field (and not a square number of them), there is a field whose squared angular gradient depends on memory that nobody wrote. -/
theorem C22_gradient_uninitialised (h : s.Wf) (hm : s.sht.Math contig s.nlat s.nphi x A) (h1 : 1 ≤ s.mmax) (hn : s.sht.ncp < s.lmax ^ 2)
    (hsq : ¬ IsSquare s.sht.ncp) {out : List CR} (ho : out.length = s.nSph) :
    ∃ v : List CR, v.length = s.nSph ∧ ∃ J J' w w', s.sphereX J v out = .ok w ∧ s.sphereX J' v out = .ok w' ∧ w ≠ w' := by
  obtain ⟨v, hv⟩ := exists_rep h dipC dipC_real
  have hvl : v.length = s.nSph := Rep.len h hv
  have hrt := hm.roundTrip h.api
  have hemb := hm.emb h.api hv
  rw [h.api.mmax_eq] at hemb
  have hq := hrt.cplx _ _ hemb
  have hL : 2 ≤ s.lmax := by
    by_contra hlt
    have e1 : s.lmax ^ 2 ≤ 1 ^ 2 := Nat.pow_le_pow_left (by omega) 2
    have : 1 ≤ s.sht.ncp := by rw [h.ncp_eq]; exact Nat.one_le_iff_ne_zero.mpr (by positivity)
    omega
  obtain ⟨k, hk, hz⟩ := lowerP_last h hn hsq hq
  choose c a1 a2 a3 using hz
  have rz : ∀ z, s.sht.RepC _ (c z) := fun z => ⟨_, a1 z, rfl⟩
  obtain ⟨lo, hlo⟩ : ∃ lo : ℂ → List (Cx CR), ∀ z, lo z = s.sht.shToSpatC ((s.lowerP (s.sht.spatToSHC (v.map Cx.ofRe)
    ++ ((Junk.all (toCx z)).buf 1 ((s.lmax + 1) ^ 2)).drop s.sht.ncp)).take s.sht.ncp) := ⟨_, fun _ => rfl⟩
  have rl : ∀ z, s.sht.RepC (lo z) (c z) := fun z => by rw [hlo]; exact rz z
  have hll : ∀ z, (lo z).length = s.nSph := fun z => RepC.len h (rl z)
  have hX := fun z => sphereX_of_lower h (Junk.all (toCx z)) hvl ho (lo := lo z) (fun o ho => by rw [hlo]; exact lower_junk h (Junk.all (toCx z)) hvl ho) (hll z)
  -- the values of `lower` depend affinely on the junk
  have hc : ∀ (z : ℂ) l m, s.sht.ResC l m → c z l m = (1 - z) * c 0 l m + z * c 1 l m := by
    intro z l m hr
    have hlt := hr.lt h.api.mmax_le
    rw [h.api.mmax_eq] at hlt
    by_cases hlast : (pidx s.mmax l m).toNat + 1 = s.sht.ncp
    · rw [a3 z l m hr hlast, a3 0 l m hr hlast, a3 1 l m hr hlast]; ring
    · have hlt' : (pidx s.mmax l m).toNat + 1 < s.sht.ncp := by omega
      rw [a2 z l m hr hlt', a2 0 l m hr hlt', a2 1 l m hr hlt']; ring
  have hF : ∀ (z : ℂ) θ φ, fieldC s.lmax (cutC s.mmax (c z)) θ φ
      = (1 - z) * fieldC s.lmax (cutC s.mmax (c 0)) θ φ + z * fieldC s.lmax (cutC s.mmax (c 1)) θ φ := by
    intro z θ φ
    unfold fieldC
    rw [Finset.mul_sum, Finset.mul_sum, ← Finset.sum_add_distrib]
    refine Finset.sum_congr rfl fun l hl => ?_
    rw [Finset.mul_sum, Finset.mul_sum, ← Finset.sum_add_distrib]
    refine Finset.sum_congr rfl fun m hm' => ?_
    rw [Finset.mem_range] at hl
    rw [Finset.mem_Icc] at hm'
    unfold cutC
    by_cases hM : |m| ≤ (s.mmax : ℤ)
    · rw [if_pos hM, if_pos hM, if_pos hM, hc z l m ⟨by rw [h.api.lmax_eq]; omega, abs_le.mpr hm', by rw [h.api.mmax_eq]; exact hM⟩]
      ring
    · rw [if_neg hM, if_neg hM, if_neg hM]; ring
  by_contra hcon
  push Not at hcon
  have hsame : ∀ z, _ := fun z => hcon v hvl _ _ _ _ (hX z) (hX 0)
  -- then the results of `lower` agree
  have r1 : s.sht.RepC (s.ladP s.raiseP v) (raisedG s.lmax s.mmax (extC s.mmax dipC)) := ⟨_, raiseP_coefs h hq, rfl⟩
  have hd : ∀ it ip, it < s.nlat → ip < s.nphi → fieldC s.lmax (cutC s.mmax (c 1)) (Real.arccos (x it)) (phiN s.nphi ip)
      = fieldC s.lmax (cutC s.mmax (c 0)) (Real.arccos (x it)) (phiN s.nphi ip) := by
    intro it ip hit hip
    have hi : spos contig s.nlat s.nphi it ip < s.nSph := by rw [h.nSph']; exact spos_lt hit hip
    have hin := hm.inside it hit
    have hsin : Real.sin (Real.arccos (x it)) ≠ 0 := by
      rw [Real.sin_arccos]
      have : 0 < 1 - x it ^ 2 := by nlinarith [hin.1, hin.2]
      exact (Real.sqrt_pos.mpr this).ne'
    have key : ∀ z : ℂ, ((((Real.sqrt 2 : ℝ) : ℂ) * Ylm 1 1 (Real.arccos (x it)) (phiN s.nphi ip)) *
        (fieldC s.lmax (cutC s.mmax (c z)) (Real.arccos (x it)) (phiN s.nphi ip)
          - fieldC s.lmax (cutC s.mmax (c 0)) (Real.arccos (x it)) (phiN s.nphi ip))).re = 0 := by
      intro z
      have he := congrArg (fun w => gv w (spos contig s.nlat s.nphi it ip)) (hsame z)
      beta_reduce at he
      rw [gv_tab hi, gv_tab hi, (repC_samples h hm r1).2 it ip hit hip, (repC_samples h hm (rl z)).2 it ip hit hip,
        (repC_samples h hm (rl 0)).2 it ip hit hip, dipC_raise h1 hL, (rep_samples h hm (phiP_rep h hrt hv)).2 it ip hit hip] at he
      simp only [toCx, Cx.mul, fin_mul, fin_sub, fin_neg, fin_pown, fin_add, fin_inj] at he
      rw [Complex.mul_re, Complex.sub_re, Complex.sub_im]
      linear_combination -he
    have k1 := key 1
    have k2 := key Complex.I
    rw [hF Complex.I] at k2
    obtain ⟨D, hD⟩ : ∃ D, D = ((Real.sqrt 2 : ℝ) : ℂ) * Ylm 1 1 (Real.arccos (x it)) (phiN s.nphi ip) := ⟨_, rfl⟩
    have hD0 : D ≠ 0 := by
      rw [hD]
      exact mul_ne_zero (Complex.ofReal_ne_zero.mpr (Real.sqrt_ne_zero'.mpr (by norm_num))) (Y11_ne hsin _)
    rw [← hD] at k1 k2
    obtain ⟨F0, hF0⟩ : ∃ F, F = fieldC s.lmax (cutC s.mmax (c 0)) (Real.arccos (x it)) (phiN s.nphi ip) := ⟨_, rfl⟩
    obtain ⟨F1, hF1⟩ : ∃ F, F = fieldC s.lmax (cutC s.mmax (c 1)) (Real.arccos (x it)) (phiN s.nphi ip) := ⟨_, rfl⟩
    rw [← hF0, ← hF1] at k1 k2 ⊢
    rw [show D * ((1 - Complex.I) * F0 + Complex.I * F1 - F0) = Complex.I * (D * (F1 - F0)) by ring, Complex.I_mul_re] at k2
    have : D * (F1 - F0) = 0 := Complex.ext k1 (by rw [Complex.zero_im]; linarith)
    exact sub_eq_zero.mp ((mul_eq_zero.mp this).resolve_left hD0)
  have hpos : 0 < s.sht.ncp := by rw [h.ncp_eq]; positivity
  obtain ⟨l, m, hr, hp⟩ := Shtns.pidx_surj (s := s.sht) h.api.mmax_le (k := s.sht.ncp - 1) (by omega)
  rw [h.api.mmax_eq] at hp
  have heq : lo 1 = lo 0 := by
    have b1 := repC_samples h hm (rl 1)
    have b0 := repC_samples h hm (rl 0)
    refine list_ext_gv (by rw [hll, hll]) fun i hi => ?_
    rw [hll, h.nSph'] at hi
    obtain ⟨it, ip, q1, q2, rfl⟩ := spos_surj (contig := contig) hi
    rw [b1.2 it ip q1 q2, b0.2 it ip q1 q2, hd it ip q1 q2]
  have e0 := (hrt.cplx _ _ (rl 0)).2 l m hr
  rw [← heq, (hrt.cplx _ _ (rl 1)).2 l m hr] at e0
  have := toCx_inj e0
  rw [a3 1 l m hr (by omega), a3 0 l m hr (by omega)] at this
  simp [hk] at this

/-- `nl=20`, `nm=14` on a 36x40 sphere meets the hypotheses. -/
example : ∃ (s : Sphere CR) (x : ℕ → ℝ) (A : ℕ → ℕ → ℕ → ℝ) (out : List CR), s.Wf ∧ s.sht.Math true s.nlat s.nphi x A ∧
    s.lmax = 20 ∧ s.mmax = 14 ∧ 1 ≤ s.mmax ∧ s.sht.ncp < s.lmax ^ 2 ∧ ¬ IsSquare s.sht.ncp ∧ out.length = s.nSph := by
  obtain ⟨s, x, A, hw, hm, h1, h2, h3, h4, _⟩ := exists_sphere true false (L := 20) (M := 14) (nlat := 36) (nphi := 40)
    (by omega) (by omega) (by omega) (by omega)
  have hncp : s.sht.ncp = 399 := by rw [hw.ncp_eq, h1, h2]; norm_num
  refine ⟨s, x, A, List.replicate s.nSph (fin 0), hw, hm, h1, h2, by omega, ?_, ?_, by simp⟩
  · rw [hncp, h1]; norm_num
  · rw [hncp]
    rintro ⟨r, hr⟩
    have h1 : r < 20 := by by_contra h; have : 20 * 20 ≤ r * r := Nat.mul_le_mul (by omega) (by omega); omega
    have h2 : 19 < r := by by_contra h; have : r * r ≤ 19 * 19 := Nat.mul_le_mul (by omega) (by omega); omega
    omega

end SFK
