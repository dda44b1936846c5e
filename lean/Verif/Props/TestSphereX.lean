import Verif.Props.Tests
import Verif.Props.JunkGradient
import Verif.Lemmas.SphereInstance
/-
C101, continued: the verdict of the unit test `sphereX` depends on memory that nobody wrote.
-/
namespace SFK
open Scalar CR
open Tests
open Polynomial

variable {sht : Shtns CR} {contig nd : Bool} {x : ℕ → ℝ} {A : ℕ → ℕ → ℕ → ℝ}

/-- every polynomial is a sum of Legendre polynomials -/
theorem leg_expand (n : ℕ) : ∀ p : ℝ[X], p.natDegree ≤ n → ∃ a : ℕ → ℝ, p = ∑ l ∈ Finset.range (n + 1), C (a l) * legP l := by
  induction n with
  | zero =>
    intro p hp
    have h0 := legP_coeff_top 0
    have e0 : legP 0 = C ((legP 0).coeff 0) := eq_C_of_natDegree_le_zero (legP_natDegree_le 0)
    refine ⟨fun _ => p.coeff 0 / (legP 0).coeff 0, ?_⟩
    rw [Finset.sum_range_one, e0, ← C_mul, coeff_C_zero, div_mul_cancel₀ _ h0, ← eq_C_of_natDegree_le_zero hp]
  | succ n ih =>
    intro p hp
    have h0 := legP_coeff_top (n + 1)
    obtain ⟨q, hq⟩ : ∃ q, q = p - C (p.coeff (n + 1) / (legP (n + 1)).coeff (n + 1)) * legP (n + 1) := ⟨_, rfl⟩
    have hd : q.natDegree ≤ n := by
      rw [natDegree_le_iff_coeff_eq_zero]
      intro N hN
      rw [hq, coeff_sub, coeff_C_mul]
      by_cases e : N = n + 1
      · rw [e, div_mul_cancel₀ _ h0, sub_self]
      · rw [coeff_eq_zero_of_natDegree_lt (by omega : p.natDegree < N),
          coeff_eq_zero_of_natDegree_lt (by have := legP_natDegree_le (n + 1); omega : (legP (n + 1)).natDegree < N)]
        ring
    obtain ⟨a, ha⟩ := ih q hd
    refine ⟨fun l => if l = n + 1 then p.coeff (n + 1) / (legP (n + 1)).coeff (n + 1) else a l, ?_⟩
    rw [Finset.sum_range_succ]
    beta_reduce
    rw [if_pos rfl, Finset.sum_congr rfl (g := fun l => C (a l) * legP l), ← ha, hq]
    · ring
    · intro l hl
      rw [Finset.mem_range] at hl
      rw [if_neg (by omega)]

/-- a polynomial of resolved degree that vanishes at all polar nodes is zero -/
theorem nodes_unisolvent {s : Shtns CR} {nlat nphi : ℕ} (hm : s.Math contig nlat nphi x A) {p : ℝ[X]} (hp : p.natDegree ≤ s.lmax)
    (h0 : ∀ it, it < nlat → p.eval (x it) = 0) : p = 0 := by
  obtain ⟨a, ha⟩ := leg_expand s.lmax p hp
  have hn : (nphi : ℝ) ≠ 0 := by have := hm.nphi_gt; exact_mod_cast (by omega : nphi ≠ 0)
  have key : ∀ l, l ≤ s.lmax → a l = 0 := by
    intro l hl
    have h1 : ∑ it ∈ Finset.range nlat, A l 0 it * p.eval (x it) = a l / nrmY l 0 * (1 / nphi) := by
      have e : ∀ it, it < nlat → p.eval (x it) = ∑ l' ∈ Finset.range (s.lmax + 1), a l' / nrmY l' 0 * ThN l' 0 (Real.arccos (x it)) := by
        intro it hit
        have hin := hm.inside it hit
        rw [ha, eval_finsetSum]
        refine Finset.sum_congr rfl fun l' _ => ?_
        unfold ThN
        rw [Real.cos_arccos hin.1.le hin.2.le, eval_mul, eval_C]
        have := (nrmY_pos l' 0).ne'
        simp only [pow_zero, one_mul, mul_one, Function.iterate_zero, id]
        field_simp
      rw [Finset.sum_congr rfl (fun it hit => by rw [e it (Finset.mem_range.mp hit), Finset.mul_sum]), Finset.sum_comm, Finset.sum_eq_single l]
      · rw [← Finset.sum_congr rfl (fun it _ => by ring : ∀ it ∈ Finset.range nlat, a l / nrmY l 0 * (A l 0 it * ThN l 0 (Real.arccos (x it)))
          = A l 0 it * (a l / nrmY l 0 * ThN l 0 (Real.arccos (x it)))), ← Finset.mul_sum,
          hm.quad 0 l l (Nat.zero_le _) (Nat.zero_le _) hl (Nat.zero_le _) hl, if_pos rfl]
      · intro l' hl' hne
        rw [Finset.mem_range] at hl'
        rw [← Finset.sum_congr rfl (fun it _ => by ring : ∀ it ∈ Finset.range nlat, a l' / nrmY l' 0 * (A l 0 it * ThN l' 0 (Real.arccos (x it)))
          = A l 0 it * (a l' / nrmY l' 0 * ThN l' 0 (Real.arccos (x it)))), ← Finset.mul_sum,
          hm.quad 0 l l' (Nat.zero_le _) (Nat.zero_le _) hl (Nat.zero_le _) (by omega), if_neg (Ne.symm hne), mul_zero]
      · intro hc
        exact absurd (Finset.mem_range.mpr (by omega)) hc
    rw [Finset.sum_eq_zero (fun it hit => by rw [h0 it (Finset.mem_range.mp hit), mul_zero])] at h1
    have := (nrmY_pos l 0).ne'
    field_simp at h1
    simpa using h1.symm
  rw [ha]
  exact Finset.sum_eq_zero fun l hl => by rw [key l (by have := Finset.mem_range.mp hl; omega), C_0, zero_mul]

theorem node_sin {y : ℝ} (h : -1 < y ∧ y < 1) : 0 < Real.sin (Real.arccos y) := by
  rw [Real.sin_arccos]
  have : 0 < 1 - y ^ 2 := by nlinarith [h.1, h.2]
  exact Real.sqrt_pos.mpr this

theorem junkFactor_469 : junkFactor 469 = Real.sqrt 420 := by
  unfold junkFactor
  have e : (469 - 1 : ℕ).sqrt = 21 := Sphere.sqrt_block (l := 21) (by norm_num) (by norm_num)
  rw [e]
  norm_num

theorem not_square_469 : ¬ IsSquare 469 := by
  rintro ⟨r, hr⟩
  have h1 : r < 22 := by by_contra h; have : 22 * 22 ≤ r * r := Nat.mul_le_mul (by omega) (by omega); omega
  have h2 : 21 < r := by by_contra h; have : r * r ≤ 21 * 21 := Nat.mul_le_mul (by omega) (by omega); omega
  omega

/-- **C101**: the verdict of `sphereX` is decided by one number in memory nobody wrote: with `z` the value of the 470th complex entry of the
second buffer `lower` allocates, the test passes if and only if `|sin(2θ)cos(φ) sqrt(420) Re(z Y_{24,12}(θ,φ))|<5e-12` at every grid point. -/
theorem C101_sphereX_verdict (hA : sht.Api 24 12 48 28) (hm : sht.Math contig 48 28 x A) {na : ℕ} (hna : na = sht.nspat) (J : Junk (Cx CR))
    {z : ℂ} (hJ : J [1, 1] 469 = toCx z) :
    ∃ r, Tests.sphereX sht na contig nd J = .ok r ∧ (r = true ↔ ∀ it ip, it < 48 → ip < 28 →
      |Real.sin (2 * Real.arccos (x it)) * Real.cos (phiN 28 ip) * (Real.sqrt 420 * (z * Ylm 24 12 (Real.arccos (x it)) (phiN 28 ip)).re)|
        < 5 / 10 ^ 12) := by
  obtain ⟨s, h1, hw, hm, hl, hM, e1, e2, _⟩ := construct (nd := nd) hA hm hna (by norm_num)
  have hW : s.nlat * s.nphi < W := by rw [e1, e2]; decide
  have hncp : s.sht.ncp = 469 := by rw [hw.ncp_eq, hl, hM]; norm_num
  obtain ⟨v, v1, v2⟩ := fill_bump hw hm hW (by omega) (by omega)
  obtain ⟨d, d1, d2⟩ := fill_ref (F := fun th ph => 4 * pown (sin th * cos ph) 2 * (pown (cos th * cos ph) 2 + pown (sin ph) 2))
    (f := fun θ φ => 4 * (Real.sin θ * Real.cos φ) ^ 2 * ((Real.cos θ * Real.cos φ) ^ 2 + Real.sin φ ^ 2)) hw hm hW (fun a b => by
    simp only [fin_sin, fin_cos, fin_pown, fin_mul, fin_ofNat', fin_add])
  obtain ⟨w, w1, w2⟩ := C26_garbage_term hw hm (by rw [hncp, hl]; norm_num) (by rw [hncp]; exact not_square_469) (J := J) (z := z)
    (by rw [hncp]; exact hJ) (out := List.replicate s.nSph 0) (fun l _ => bumpC_real l)
    (fun l m a b d => by
      unfold bumpC
      rw [if_neg (by omega), if_neg (by omega), if_neg (by omega)])
    (by unfold bumpC; rw [hM]; norm_num) v2 (by simp)
  obtain ⟨r, r1, r2⟩ := near_all hW w2.1 d2.1 w2.2 d2.2 (5 / 10 ^ 12) true
  refine ⟨r, ?_, ?_⟩
  · unfold Tests.sphereX
    rw [h1, ok_bind, v1, ok_bind, d1, ok_bind, w1, ok_bind, fin_lit, ← r1]
    norm_num
  · rw [r2]
    simp only [true_and]
    have hval : ∀ it ip, it < s.nlat → |(gradSq (fieldR s.lmax s.mmax bumpC) (Real.arccos (x it)) (phiN s.nphi ip)
        - (Complex.exp (Complex.I * (phiN s.nphi ip : ℝ)) * ((dTh (fieldR s.lmax s.mmax bumpC) (Real.arccos (x it)) (phiN s.nphi ip) : ℝ)
        + Complex.I * ((Real.cos (Real.arccos (x it)) / Real.sin (Real.arccos (x it)) : ℝ) : ℂ) * (dPh (fieldR s.lmax s.mmax bumpC) (Real.arccos (x it)) (phiN s.nphi ip) : ℝ))
          * (junkFactor s.sht.ncp * z * Ylm s.lmax s.mmax (Real.arccos (x it)) (phiN s.nphi ip))).re)
        - 4 * (Real.sin (Real.arccos (x it)) * Real.cos (phiN s.nphi ip)) ^ 2
          * ((Real.cos (Real.arccos (x it)) * Real.cos (phiN s.nphi ip)) ^ 2 + Real.sin (phiN s.nphi ip) ^ 2)|
        = |Real.sin (2 * Real.arccos (x it)) * Real.cos (phiN 28 ip) * (Real.sqrt 420 * (z * Ylm 24 12 (Real.arccos (x it)) (phiN 28 ip)).re)| := by
      intro it ip hit
      have hsin : Real.sin (Real.arccos (x it)) ≠ 0 := by
        rw [Real.sin_arccos]
        have := hm.inside it hit
        have : 0 < 1 - x it ^ 2 := by nlinarith [this.1, this.2]
        exact (Real.sqrt_pos.mpr this).ne'
      rw [e2, hl, hM, hncp, junkFactor_469, fieldR_bumpR (by norm_num) (by norm_num)]
      unfold gradSq
      rw [dPh_bump, dTh_bump]
      generalize Real.arccos (x it) = θ at *
      generalize phiN 28 ip = φ
      have hexp : Complex.exp (Complex.I * (φ : ℂ)) = (Real.cos φ : ℂ) + (Real.sin φ : ℂ) * Complex.I := by
        rw [mul_comm, Complex.exp_mul_I, ← Complex.ofReal_cos, ← Complex.ofReal_sin]
      have hup : Complex.exp (Complex.I * (φ : ℂ)) * (((2 * Real.sin θ * Real.cos θ * Real.cos φ ^ 2 : ℝ) : ℂ)
          + Complex.I * ((Real.cos θ / Real.sin θ : ℝ) : ℂ) * ((Real.sin θ ^ 2 * (-2 * Real.sin φ * Real.cos φ) : ℝ) : ℂ))
          = ((Real.sin (2 * θ) * Real.cos φ : ℝ) : ℂ) := by
        rw [hexp, Real.sin_two_mul]
        have hq : Real.cos θ / Real.sin θ * (Real.sin θ ^ 2 * (-2 * Real.sin φ * Real.cos φ)) = -2 * Real.sin θ * Real.cos θ * Real.sin φ * Real.cos φ := by
          field_simp
        rw [mul_assoc Complex.I, ← Complex.ofReal_mul, hq]
        have hsc := Real.sin_sq_add_cos_sq φ
        apply Complex.ext
        · simp only [Complex.mul_re, Complex.add_re, Complex.add_im, Complex.ofReal_re, Complex.ofReal_im, Complex.I_re, Complex.I_im, Complex.mul_im]
          linear_combination (2 * Real.sin θ * Real.cos θ * Real.cos φ) * hsc
        · simp only [Complex.mul_re, Complex.add_re, Complex.add_im, Complex.ofReal_re, Complex.ofReal_im, Complex.I_re, Complex.I_im, Complex.mul_im]
          ring
      rw [hup, mul_assoc ((Real.sqrt 420 : ℝ) : ℂ), Complex.re_ofReal_mul, Complex.re_ofReal_mul]
      have hg : (2 * Real.sin θ * Real.cos θ * Real.cos φ ^ 2) ^ 2 + (Real.sin θ ^ 2 * (-2 * Real.sin φ * Real.cos φ)) ^ 2 / Real.sin θ ^ 2
          = 4 * (Real.sin θ * Real.cos φ) ^ 2 * ((Real.cos θ * Real.cos φ) ^ 2 + Real.sin φ ^ 2) := by
        field_simp
        ring
      rw [hg, sub_sub_cancel_left, abs_neg]
      norm_cast
    constructor
    · intro h it ip a b
      rw [← hval it ip (by omega)]
      exact h it ip (by omega) (by omega)
    · intro h it ip a b
      rw [hval it ip a]
      exact h it ip (by omega) (by omega)

/-- **C101**: if that number happens to be zero the test passes ... -/
theorem C101_sphereX_zero (hA : sht.Api 24 12 48 28) (hm : sht.Math contig 48 28 x A) {na : ℕ} (hna : na = sht.nspat) (J : Junk (Cx CR))
    (hJ : J [1, 1] 469 = toCx 0) : Tests.sphereX sht na contig nd J = .ok true := by
  obtain ⟨r, r1, r2⟩ := C101_sphereX_verdict (nd := nd) hA hm hna J hJ
  rw [r1, r2.mpr fun it ip _ _ => by simp]

/-- **C101**: ... but there are contents of uninitialised memory with which it fails, on the same library and the same machine. -/
theorem C101_sphereX_garbage (hA : sht.Api 24 12 48 28) (hm : sht.Math contig 48 28 x A) {na : ℕ} (hna : na = sht.nspat) :
    ∃ J J' : Junk (Cx CR), Tests.sphereX sht na contig nd J = .ok true ∧ Tests.sphereX sht na contig nd J' = .ok false := by
  have hne : (X * derivative^[12] (legP 24) : ℝ[X]) ≠ 0 := by
    intro h0
    have := congrArg (fun p => coeff p 13) h0
    beta_reduce at this
    rw [coeff_X_mul, coeff_iterate_derivative, coeff_zero] at this
    have h1 := legP_coeff_top 24
    simp only [nsmul_eq_mul, mul_eq_zero, Nat.cast_eq_zero] at this
    rcases this with h | h
    · rw [Nat.descFactorial_eq_zero_iff_lt] at h
      omega
    · exact h1 h
  have hdeg : (X * derivative^[12] (legP 24) : ℝ[X]).natDegree ≤ 24 := by
    refine (natDegree_mul_le).trans ?_
    have h1 := (natDegree_iterate_derivative (legP 24) 12).trans (Nat.sub_le_sub_right (legP_natDegree_le 24) 12)
    have h2 : (X : ℝ[X]).natDegree ≤ 1 := natDegree_X_le
    omega
  obtain ⟨it, hit, hx⟩ : ∃ it, it < 48 ∧ (X * derivative^[12] (legP 24) : ℝ[X]).eval (x it) ≠ 0 := by
    by_contra hcon
    push Not at hcon
    exact hne (nodes_unisolvent hm (by rw [hA.lmax_eq]; exact hdeg) hcon)
  have hin := hm.inside it hit
  have hsin := node_sin hin
  rw [eval_mul, eval_X] at hx
  have hx0 : x it ≠ 0 := left_ne_zero_of_mul hx
  have hT : ThN 24 12 (Real.arccos (x it)) ≠ 0 := by
    unfold ThN
    rw [Real.cos_arccos hin.1.le hin.2.le]
    exact mul_ne_zero (mul_ne_zero (mul_ne_zero (by norm_num) (nrmY_pos 24 12).ne') (pow_ne_zero _ hsin.ne')) (right_ne_zero_of_mul hx)
  have hs2 : Real.sin (2 * Real.arccos (x it)) ≠ 0 := by
    rw [Real.sin_two_mul, Real.cos_arccos hin.1.le hin.2.le]
    exact mul_ne_zero (mul_ne_zero (by norm_num) hsin.ne') hx0
  have hK : Real.sin (2 * Real.arccos (x it)) * (Real.sqrt 420 * ThN 24 12 (Real.arccos (x it))) ≠ 0 :=
    mul_ne_zero hs2 (mul_ne_zero (Real.sqrt_pos.mpr (by norm_num)).ne' hT)
  obtain ⟨K, hKd⟩ : ∃ K, K = Real.sin (2 * Real.arccos (x it)) * (Real.sqrt 420 * ThN 24 12 (Real.arccos (x it))) := ⟨_, rfl⟩
  rw [← hKd] at hK
  refine ⟨Junk.all (toCx 0), Junk.all (toCx (((1 / K : ℝ)) : ℂ)), C101_sphereX_zero hA hm hna _ rfl, ?_⟩
  obtain ⟨r, r1, r2⟩ := C101_sphereX_verdict (nd := nd) hA hm hna (Junk.all (toCx (((1 / K : ℝ)) : ℂ))) rfl
  rw [r1]
  congr 1
  by_contra hr
  have := (r2.mp (by simpa using hr)) it 0 hit (by norm_num)
  have hY : Ylm 24 12 (Real.arccos (x it)) (phiN 28 0) = (ThN 24 12 (Real.arccos (x it)) : ℂ) := by
    unfold Ylm
    have e : ThZ 24 12 = ThN 24 12 := ThZ_nat 24 12
    rw [e]
    simp [phiN]
  rw [hY, ← Complex.ofReal_mul, Complex.ofReal_re, show phiN 28 0 = 0 by simp [phiN], Real.cos_zero] at this
  have e : Real.sin (2 * Real.arccos (x it)) * 1 * (Real.sqrt 420 * (1 / K * ThN 24 12 (Real.arccos (x it)))) = K * (1 / K) := by
    generalize 1 / K = k
    rw [hKd]
    ring
  rw [e, mul_one_div_cancel hK] at this
  norm_num at this

/-- For the sizes of every one of these tests there is a library that meets the contract. -/
example (contig : Bool) : (∃ (t : Shtns CR) (x : ℕ → ℝ) (A : ℕ → ℕ → ℕ → ℝ), t.Api 32 16 34 96 ∧ t.Math contig 34 96 x A) ∧
    (∃ (t : Shtns CR) (x : ℕ → ℝ) (A : ℕ → ℕ → ℕ → ℝ), t.Api 20 14 40 32 ∧ t.Math contig 40 32 x A) ∧
    (∃ (t : Shtns CR) (x : ℕ → ℝ) (A : ℕ → ℕ → ℕ → ℝ), t.Api 24 12 48 28 ∧ t.Math contig 48 28 x A) ∧
    (∃ (t : Shtns CR) (x : ℕ → ℝ) (A : ℕ → ℕ → ℕ → ℝ), t.Api 32 24 34 60 ∧ t.Math contig 34 60 x A) :=
  ⟨exists_shtns contig (by norm_num) (by norm_num) (by norm_num), exists_shtns contig (by norm_num) (by norm_num) (by norm_num),
    exists_shtns contig (by norm_num) (by norm_num) (by norm_num), exists_shtns contig (by norm_num) (by norm_num) (by norm_num)⟩

/-- A sphere, a field and garbage that meet the hypotheses of C26_garbage_term: `nl=24`, `nm=12`, the field of the unit tests, garbage 1. -/
example : ∃ (s : Sphere CR) (x : ℕ → ℝ) (A : ℕ → ℕ → ℕ → ℝ) (J : Junk (Cx CR)) (z : ℂ) (v : List CR), s.Wf ∧ s.sht.Math true s.nlat s.nphi x A ∧
    s.sht.ncp < s.lmax ^ 2 ∧ ¬ IsSquare s.sht.ncp ∧ J [1, 1] s.sht.ncp = toCx z ∧ z ≠ 0 ∧ Resolved s bumpC ∧ bumpC s.mmax s.mmax = 0 ∧
    Samples true s.nlat s.nphi x v (fieldR s.lmax s.mmax bumpC) := by
  obtain ⟨s, x, A, hw, hm, h1, h2, h3, h4, _⟩ := exists_sphere true false (L := 24) (M := 12) (nlat := 48) (nphi := 28)
    (by omega) (by omega) (by omega) (by omega)
  have hW : s.nlat * s.nphi < W := by rw [h3, h4]; decide
  have hncp : s.sht.ncp = 469 := by rw [hw.ncp_eq, h1, h2]; norm_num
  obtain ⟨v, _, v2⟩ := fill_bump hw hm hW (by omega) (by omega)
  refine ⟨s, x, A, Junk.all (toCx 1), 1, v, hw, hm, by rw [hncp, h1]; norm_num, by rw [hncp]; exact not_square_469, rfl, one_ne_zero, ?_, ?_, v2⟩
  · intro l m a b d
    unfold bumpC
    rw [if_neg (by omega), if_neg (by omega), if_neg (by omega)]
  · unfold bumpC; rw [h2]; norm_num

end SFK
