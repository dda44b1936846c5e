import Verif.Lemmas.KerrMetric
import Verif.Props.Kerr
import Mathlib.Analysis.Calculus.ContDiff.Operations
/-
C77, C78: the evolved equation and the written density against the Kerr metric itself (not against the documented operator
formulas).
-/
namespace SFK
open Scalar CR Kerr

/-! ## C77 -/

/-- C77, the background: the metric used as specification is the textbook Kerr line element in Boyer-Lindquist coordinates after
`dt = dv - 2Mr/Δ dr`, `dφ_BL = dφ - a/Δ dr`. -/
theorem C77_background_is_kerr {M a : ℝ} {x : Pt} (hr : 0 < x 1) (hD : Del M a (x 1) ≠ 0) (dv dr dθ dφ : ℝ) :
    line2 (metric M a x) ![dv, dr, dθ, dφ] =
      boyerLindquist M a (x 1) (x 2) (dv - 2 * M * x 1 / Del M a (x 1) * dr) dr dθ (dφ - a / Del M a (x 1) * dr) :=
  line2_boyerLindquist hr hD dv dr dθ dφ

/-- C77, the documented operators: for every function that is C² at a point off the axis, at that point, the documented `□` and `(∇ψ)²` (whose
coefficients the solver stores, C38) are the wave operator and the squared gradient of the Kerr metric. -/
theorem C77_wave_operator (M a : ℝ) {ψ : Pt → ℝ} {x : Pt} (h : ContDiffAt ℝ 2 ψ x) (hr : 0 < x 1) (hs : 0 < Real.sin (x 2)) :
    boxG (metric M a) ψ x = box M a (x 1) (x 2) (jetOf ψ x) ∧ gradG (metric M a) ψ x = grad2 M a (x 1) (x 2) (jetOf ψ x) :=
  ⟨boxG_eq h hr hs, gradG_eq hr hs.ne'⟩

/-- The line element printed in the documentation is not the inverse of the documented operator: its `dφ²` term lacks `sin²θ`. -/
theorem C77_printed_line_element_differs {M a : ℝ} (hM : 0 ≤ M) {x : Pt} (hr : 0 < x 1) (hs : 0 < Real.sin (x 2)) (hc : Real.cos (x 2) ≠ 0) :
    metricPrinted M a x * (metric M a x)⁻¹ ≠ 1 := by
  intro h
  have hS := Sig_pos' (a := a) (θ := x 2) hr
  rw [metric_inv hS.ne' hs.ne'] at h
  have h33 := congrFun (congrFun h 3) 3
  have hc2 := cos_sq_eq (x 2)
  have hcp : 0 < Real.cos (x 2) ^ 2 := by positivity
  simp [Matrix.mul_apply, Fin.sum_univ_succ, metricPrinted, invMetric] at h33
  have hS' : Sig a (x 1) (x 2) = x 1 ^ 2 + a ^ 2 * (1 - Real.sin (x 2) ^ 2) := by unfold Sig; rw [hc2]
  generalize Sig a (x 1) (x 2) = S at *
  generalize Real.sin (x 2) = s at *
  generalize Real.cos (x 2) = c at *
  generalize x 1 = r at *
  have h1 := hS.ne'
  have h2 := hs.ne'
  field_simp at h33
  have h3 : (1 - s ^ 2) * (S * (r ^ 2 + a ^ 2) + 2 * M * a ^ 2 * r * s ^ 2) = 0 := by
    subst hS'
    linear_combination h33
  have h4 : 0 < S * (r ^ 2 + a ^ 2) + 2 * M * a ^ 2 * r * s ^ 2 := by positivity
  rcases mul_eq_zero.mp h3 with h5 | h5
  · rw [← hc2] at h5; linarith
  · linarith

variable {E : Env CR} {P : ParamRec CR} {g : Grid CR} {e : Eom CR} {q : Phys}

/-- C77: at every grid point at finite radius off the axis, and for every C² spacetime function `ψ` whose value and derivatives at
that point are the ones in the solver's arrays, `ψ` satisfies the covariant field equation
`□ψ + k'/(2k) (∇ψ)² - V'/k = 0` of the Kerr metric at the point if and only if its second time derivative is the value the solver
computes. -/
theorem C77_covariant_equation (hS : Setup E P g) (hq : q.Is P) (ho : q.Ok) (he : Eom.Of g P e) (J : Junk (Cx CR))
    {f p fk pk : List CR} (hf : f.length = P.nx * P.nlat * P.nphi) (hp : p.length = P.nx * P.nlat * P.nphi)
    (hfk : fk.length = P.nx * P.nlat * P.nphi) (hpk : pk.length = P.nx * P.nlat * P.nphi) :
    ∃ e' pk' dr drp drr dph drph X lap, e.set_k g J f p fk pk = .ok (e', p, pk') ∧
      Derivs g f p dr drp drr dph drph X lap ∧
      ∀ ix it ip, ix < P.nx → it < P.nlat → ip < P.nphi → ∀ (R θ : ℝ) (φ : CR),
        g.getR_th_ph ix it ip = .ok ⟨fin R, fin θ, φ⟩ → 0 < R → 1 / 10 ^ 16 < q.L - R → 0 < Real.sin θ →
        ∀ (ψ : Pt → ℝ) (x : Pt), ContDiffAt ℝ 2 ψ x → x 1 = physR q.L R → x 2 = θ →
        JetAt g ix it ip f p dr drp drr dph drph X lap (jetOf ψ x) → ψ x ≠ -1 → q.kin (ψ x) ≠ 0 →
        (eomLhs q.kin q.pot (ψ x) (boxG (metric q.M q.a) ψ x) (gradG (metric q.M q.a) ψ x) = 0 ↔
          g.d.at3 pk' ix it ip = fin (pd 0 (pd 0 ψ) x)) := by
  obtain ⟨e', pk', dr, drp, drr, dph, drph, X, lap, h1, _, h3, h4⟩ := C39_equation_of_motion hS hq ho he J hf hp hfk hpk
  refine ⟨e', pk', dr, drp, drr, dph, drph, X, lap, h1, h3, ?_⟩
  intro ix it ip hx ht hip R θ φ hg hR hL hs ψ x hψ hx1 hx2 hj hk1 hk2
  obtain ⟨y, hy1, hy2⟩ := (h4 ix it ip hx ht hip R θ φ hg _ hj hk1 hk2).1 hR hL
  have hr : 0 < physR q.L R := by
    have hLp := ho.L_pos
    unfold physR
    have : R / q.L < 1 := by
      rw [div_lt_one hLp]
      have : (0:ℝ) < 1 / 10 ^ 16 := by positivity
      linarith
    have : 0 < 1 - R / q.L := by linarith
    positivity
  obtain ⟨b1, b2⟩ := C77_wave_operator q.M q.a hψ (x := x) (by rw [hx1]; exact hr) (by rw [hx2]; exact hs)
  rw [b1, b2, hy1, fin_inj, hx1, hx2]
  have hSg := Sig_pos' (a := q.a) (θ := θ) hr
  have hN : 0 < 1 + 2 * q.M * physR q.L R / Sig q.a (physR q.L R) θ := by have := ho.M_pos; positivity
  have key : eomLhs q.kin q.pot (ψ x) (box q.M q.a (physR q.L R) θ (jetOf ψ x)) (grad2 q.M q.a (physR q.L R) θ (jetOf ψ x)) =
      (1 + 2 * q.M * physR q.L R / Sig q.a (physR q.L R) θ) * (y - pd 0 (pd 0 ψ) x) := by
    rw [← sub_zero (eomLhs _ _ _ _ _), ← hy2]
    unfold eomLhs box grad2 jetOf
    ring
  rw [key, mul_eq_zero, or_iff_right hN.ne']
  constructor <;> intro h <;> linarith

/-! ## C78 -/

/-- C78 (partial): what the solver writes as energy density, compared with the contraction `n^μ n^ν T_{μν}` that defines it, for
every C² function agreeing with the arrays.  Twice the kinetic part written exceeds the true kinetic part by
`k·(4Mr/Σ)·∂_vψ·∂_rψ`: the documented formula, which the solver follows, has the wrong sign in its mixed term, and the solver
halves it once more (C42).  They agree only where `k·(B - (16Mr/Σ)∂_vψ∂_rψ) = 0`, `B` the documented bracket.  Missing: equality,
which is false of the code. -/
theorem C78_density_partial (hS : Setup E P g) (hq : q.Is P) (ho : q.Ok) (he : Eom.Of g P e) {f p : List CR}
    (hf : f.length = P.nx * P.nlat * P.nphi) (hp : p.length = P.nx * P.nlat * P.nphi) :
    ∃ rho' dr drp drr dph drph X lap, (∀ J rho, rho.length = P.nx * P.nlat * P.nphi →
        ∃ e', e.set_rho g J f p rho = .ok (e', rho') ∧ Eom.Of g P e') ∧
      Derivs g f p dr drp drr dph drph X lap ∧
      ∀ ix it ip, ix < P.nx → it < P.nlat → ip < P.nphi → ∀ (R θ : ℝ) (φ : CR),
        g.getR_th_ph ix it ip = .ok ⟨fin R, fin θ, φ⟩ → 0 < R → 1 / 10 ^ 16 < q.L - R → 0 < Real.sin θ →
        ∀ (ψ : Pt → ℝ) (x : Pt), x 1 = physR q.L R → x 2 = θ →
        JetAt g ix it ip f p dr drp drr dph drph X lap (jetOf ψ x) → ψ x ≠ -1 →
        ∃ y, g.d.at3 rho' ix it ip = fin y ∧
          2 * (y - q.pot (ψ x)) = (density q.kin q.pot (metric q.M q.a) ψ x - q.pot (ψ x)) +
            q.kin (ψ x) * (4 * q.M * physR q.L R / Sig q.a (physR q.L R) θ) * pd 0 ψ x * pd 1 ψ x ∧
          (y = density q.kin q.pot (metric q.M q.a) ψ x ↔ q.kin (ψ x) * (rhoBracket q.M q.a (physR q.L R) θ (jetOf ψ x) -
            16 * q.M * physR q.L R / Sig q.a (physR q.L R) θ * pd 0 ψ x * pd 1 ψ x) = 0) := by
  obtain ⟨rho', dr, drp, drr, dph, drph, X, lap, h1, h2, h3⟩ := C42_half_of_documented_partial hS hq ho he hf hp
  refine ⟨rho', dr, drp, drr, dph, drph, X, lap, h1, h2, ?_⟩
  intro ix it ip hx ht hip R θ φ hg hR hL hs ψ x hx1 hx2 hj hk1
  obtain ⟨y, hy1, hy2, _⟩ := h3 ix it ip hx ht hip R θ φ hg hR hL _ hj hk1
  have hr : 0 < physR q.L R := by
    have hLp := ho.L_pos
    unfold physR
    have : R / q.L < 1 := by
      rw [div_lt_one hLp]
      have : (0:ℝ) < 1 / 10 ^ 16 := by positivity
      linarith
    have : 0 < 1 - R / q.L := by linarith
    positivity
  have hd := density_eq q.kin q.pot (M := q.M) (a := q.a) ho.M_pos.le (ψ := ψ) (x := x) (by rw [hx1]; exact hr) (by rw [hx2]; exact hs.ne')
  rw [hx1, hx2] at hd
  have e1 : (jetOf ψ x).psi = ψ x := rfl
  have e2 : rhoBracket q.M q.a (physR q.L R) θ { jetOf ψ x with v := -(jetOf ψ x).v } = rhoBracket q.M q.a (physR q.L R) θ (jetOf ψ x)
      - 8 * q.M * physR q.L R / Sig q.a (physR q.L R) θ * pd 0 ψ x * pd 1 ψ x := by
    unfold rhoBracket jetOf
    ring
  rw [e2] at hd
  unfold rho at hy2
  rw [e1] at hy2
  have y1 : 2 * (y - q.pot (ψ x)) = (density q.kin q.pot (metric q.M q.a) ψ x - q.pot (ψ x)) +
            q.kin (ψ x) * (4 * q.M * physR q.L R / Sig q.a (physR q.L R) θ) * pd 0 ψ x * pd 1 ψ x := by
    rw [hy2, hd]; ring
  refine ⟨y, hy1, y1, ?_⟩
  have y2 : 4 * (density q.kin q.pot (metric q.M q.a) ψ x - y) = q.kin (ψ x) * (rhoBracket q.M q.a (physR q.L R) θ (jetOf ψ x) -
            16 * q.M * physR q.L R / Sig q.a (physR q.L R) θ * pd 0 ψ x * pd 1 ψ x) := by
    rw [hd] at y1 ⊢
    linear_combination -2 * y1
  rw [← y2]
  constructor <;> intro h <;> linarith

/-! ### every set of derivative values belongs to a function -/

theorem pd_quad {F : Pt → ℝ} {y : Pt} {μ : Fin 4} {A B C : ℝ}
    (h : ∀ t, F (Function.update y μ t) = A + B * (t - y μ) + C * (t - y μ) ^ 2) : pd μ F y = B := by
  refine pd_of (G := fun t => A + B * (t - y μ) + C * (t - y μ) ^ 2) (Filter.Eventually.of_forall h) ?_
  have d := (hasDerivAt_id (y μ)).sub_const (y μ)
  have := ((d.const_mul B).const_add A).add ((d.pow 2).const_mul C)
  refine (this.congr_of_eventuallyEq (Filter.Eventually.of_forall fun t => ?_)).congr_deriv ?_
  · simp
  · simp

/-- non-vacuity of C77, C78: all values of the derivatives with `ang ≥ φ²/sin²θ` (as squared gradients satisfy) are those of a C²
function at a given point. -/
theorem jet_realised (j : Jet) (x : Pt) (hs : 0 < Real.sin (x 2)) (h : j.phi ^ 2 / Real.sin (x 2) ^ 2 ≤ j.ang) :
    ∃ ψ : Pt → ℝ, ContDiff ℝ 2 ψ ∧ jetOf ψ x = j := by
  obtain ⟨b, hb⟩ : ∃ b, b ^ 2 = j.ang - j.phi ^ 2 / Real.sin (x 2) ^ 2 := ⟨_, Real.sq_sqrt (by linarith)⟩
  obtain ⟨c, hc⟩ : ∃ c, Real.cos (x 2) * b + Real.sin (x 2) * c = j.lap * Real.sin (x 2) :=
    ⟨(j.lap * Real.sin (x 2) - Real.cos (x 2) * b) / Real.sin (x 2), by field_simp; ring⟩
  let ψ : Pt → ℝ := fun y => j.psi + j.v * (y 0 - x 0) + j.r * (y 1 - x 1) + j.vv / 2 * (y 0 - x 0) ^ 2 + j.vr * (y 0 - x 0) * (y 1 - x 1)
    + j.rr / 2 * (y 1 - x 1) ^ 2 + j.phi * (y 3 - x 3) + j.rphi * (y 1 - x 1) * (y 3 - x 3) + b * (y 2 - x 2) + c / 2 * (y 2 - x 2) ^ 2
  have hψ : ContDiff ℝ 2 ψ := by
    have hc : ∀ i : Fin 4, ContDiff ℝ 2 (fun y : Pt => y i - x i) := fun i => (contDiff_apply ℝ ℝ i).sub contDiff_const
    exact ((((((((contDiff_const.add (contDiff_const.mul (hc 0))).add (contDiff_const.mul (hc 1))).add
      (contDiff_const.mul ((hc 0).pow 2))).add ((contDiff_const.mul (hc 0)).mul (hc 1))).add (contDiff_const.mul ((hc 1).pow 2))).add
      (contDiff_const.mul (hc 3))).add ((contDiff_const.mul (hc 1)).mul (hc 3))).add (contDiff_const.mul (hc 2))).add
      (contDiff_const.mul ((hc 2).pow 2))
  have p0 : pd 0 ψ = fun y => j.v + j.vv * (y 0 - x 0) + j.vr * (y 1 - x 1) := by
    funext y
    refine pd_quad (A := ψ y) (C := j.vv / 2) fun t => ?_
    simp only [ψ, Function.update_self, Function.update_of_ne (show (1 : Fin 4) ≠ 0 by decide),
      Function.update_of_ne (show (2 : Fin 4) ≠ 0 by decide), Function.update_of_ne (show (3 : Fin 4) ≠ 0 by decide)]
    ring
  have p1 : pd 1 ψ = fun y => j.r + j.vr * (y 0 - x 0) + j.rr * (y 1 - x 1) + j.rphi * (y 3 - x 3) := by
    funext y
    refine pd_quad (A := ψ y) (C := j.rr / 2) fun t => ?_
    simp only [ψ, Function.update_self, Function.update_of_ne (show (0 : Fin 4) ≠ 1 by decide),
      Function.update_of_ne (show (2 : Fin 4) ≠ 1 by decide), Function.update_of_ne (show (3 : Fin 4) ≠ 1 by decide)]
    ring
  have p2 : pd 2 ψ = fun y => b + c * (y 2 - x 2) := by
    funext y
    refine pd_quad (A := ψ y) (C := c / 2) fun t => ?_
    simp only [ψ, Function.update_self, Function.update_of_ne (show (0 : Fin 4) ≠ 2 by decide),
      Function.update_of_ne (show (1 : Fin 4) ≠ 2 by decide), Function.update_of_ne (show (3 : Fin 4) ≠ 2 by decide)]
    ring
  have p3 : pd 3 ψ = fun y => j.phi + j.rphi * (y 1 - x 1) := by
    funext y
    refine pd_quad (A := ψ y) (C := 0) fun t => ?_
    simp only [ψ, Function.update_self, Function.update_of_ne (show (0 : Fin 4) ≠ 3 by decide),
      Function.update_of_ne (show (1 : Fin 4) ≠ 3 by decide), Function.update_of_ne (show (2 : Fin 4) ≠ 3 by decide)]
    ring
  have q00 : pd 0 (pd 0 ψ) x = j.vv := by
    rw [p0]; refine pd_quad (A := j.v) (C := 0) fun t => ?_
    simp
  have q10 : pd 1 (pd 0 ψ) x = j.vr := by
    rw [p0]; refine pd_quad (A := j.v) (C := 0) fun t => ?_
    simp
  have q11 : pd 1 (pd 1 ψ) x = j.rr := by
    rw [p1]; refine pd_quad (A := j.r) (C := 0) fun t => ?_
    simp
  have q13 : pd 1 (pd 3 ψ) x = j.rphi := by
    rw [p3]; refine pd_quad (A := j.phi) (C := 0) fun t => ?_
    simp
  have q22 : pd 2 (pd 2 ψ) x = c := by
    rw [p2]; refine pd_quad (A := b) (C := 0) fun t => ?_
    simp
  have q33 : pd 3 (pd 3 ψ) x = 0 := by
    rw [p3]; refine pd_quad (A := j.phi) (C := 0) fun t => ?_
    simp
  have hl := lap_eq (x := x) hψ.contDiffAt
  have hg := grad_eq ψ x
  refine ⟨ψ, hψ, ?_⟩
  unfold jetOf
  rw [hl, hg, q00, q10, q11, q13, q22, q33, p0, p1, p2, p3]
  simp only [ψ, sub_self, mul_zero, add_zero, zero_pow (two_ne_zero), zero_div]
  rw [hc, hb, mul_div_assoc, div_self hs.ne']
  cases j
  simp

end SFK
