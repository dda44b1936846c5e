import Verif.Lemmas.Azimuth
import Verif.Props.Mirror
import Verif.Props.Converge
/-
C111: reversing the spin of the hole is reversing the azimuth.
-/
namespace SFK
open Scalar CR Kerr ComplexConjugate

variable {E : Env CR} {P : ParamRec CR} {g : Grid CR} {q : Phys} {x : ℕ → ℝ} {A : ℕ → ℕ → ℕ → ℝ} {e : Eom CR}

/-- the set-up with another spin -/
theorem Exact.spin (h : Exact E P g q x A) (a : ℝ) : Exact E (P.spin a) g { q with a := a } x A :=
  ⟨⟨⟨h.setup.sized, h.setup.sizes, h.setup.grid⟩, h.setup.orders⟩, h.env, ⟨h.phys.M, rfl, h.phys.L, h.phys.lo, h.phys.up, h.phys.dt, h.phys.km1,
    h.phys.k0, h.phys.k1, h.phys.k2, h.phys.V2, h.phys.V3, h.phys.V4⟩, h.lu, h.L0⟩

/-- what the two objects share -/
theorem spin_same (h : Exact E P g q x A) {e₁ e₂ : Eom CR} (he₁ : Eom.Of g P e₁) (he₂ : Eom.Of g (P.spin (-q.a)) e₂) :
    (∀ i, i < g.d.total → gv e₂.coef i = (gv e₁.coef i).flip) ∧ (∀ c f p r vr rr ph rph X lap, e₂.pk c f p r vr rr ph rph X lap = e₁.pk c f p r vr rr ph rph X lap) ∧
      ∀ c f p r ph X, e₂.rhoVal c f p r ph X = e₁.rhoVal c f p r ph X := by
  obtain ⟨s₁, _, rfl⟩ := he₁.eq h.setup
  obtain ⟨s₂, _, rfl⟩ := he₂.eq (h.spin (-q.a)).setup
  refine ⟨fun i hi => ?_, fun _ _ _ _ _ _ _ _ _ _ => rfl, fun _ _ _ _ _ _ => rfl⟩
  show gv (g.d.mk3 fun ix it _ => Eom.coefAt g (P.spin (-q.a)) ix it : List (Coef CR)) _ = (gv (g.d.mk3 fun ix it _ => Eom.coefAt g P ix it : List (Coef CR)) _).flip
  unfold Dims.mk3
  rw [gv_tab hi, gv_tab hi]
  unfold Eom.coefAt
  rw [h.phys.a, h.phys.M, ← coefOf_spin, ← h.phys.M]
  rfl

namespace Exact
variable (h : Exact E P g q x A)
include h

theorem azi_below {f : List CR} {u : ℕ → ℝ} (hf : IsF g.d.total f u) (hb : BelowTop P g.d x f) :
    ∀ ix, ix < g.d.nx → AnaBelow g.sphere A fun it ip => u (g.d.pos3 ix it ip) := by
  intro ix hx l m a b d ht
  have hw := h.setup.wf
  have hm := h.math
  obtain ⟨c, c1, c2, c3⟩ := hb
  have e1 : g.sphere.sht.lmax = P.nl := by rw [hw.sph.api.lmax_eq, hw.lmax, h.setup.dims]
  have e2 : g.sphere.sht.mmax = P.nm := by rw [hw.sph.api.mmax_eq, hw.mmax, h.setup.dims]
  have e3 : g.sphere.lmax = P.nl := by rw [hw.lmax, h.setup.dims]
  have e4 : g.sphere.mmax = P.nm := by rw [hw.mmax, h.setup.dims]
  rw [e3] at a ht
  rw [e4] at d ht
  have k := anaN_fieldR hm (c := c ix) (fun l _ => c1 ix l) (l := l) (m := m) (by rw [e1]; exact a) b (by rw [e2]; exact d)
  rw [e1, e2] at k
  rw [anaN_congr (w := fun it ip => fieldR P.nl P.nm (c ix) (Real.arccos (x it)) (phiN g.sphere.nphi ip)) fun it ip b1 b2 => ?_, k]
  · exact c2 ix l m (by omega)
  · rw [hw.nlat] at b1
    rw [hw.nphi] at b2
    have := c3 ix it ip hx b1 b2
    rw [hf.at3 hw.ok ⟨hx, b1, b2⟩, fin_inj] at this
    rw [this, hw.nphi, h.nphi]

/-- the linear operators and the reversal -/
theorem azi_lin {T : List CR → List CR} (hT : LinR g.d.nx T) {v w : List CR} {u : ℕ → ℝ} (hv : IsF g.d.total v u) (hw : IsF g.d.total w fun i => u (g.d.azi i)) :
    ∃ y, IsF g.d.total (g.d.ofLines fun it ip => T (g.d.lineOf v it ip)) y ∧ IsF g.d.total (g.d.ofLines fun it ip => T (g.d.lineOf w it ip)) fun i => y (g.d.azi i) := by
  obtain ⟨D, a, b, _⟩ := lift_lines_azi h.setup.wf.ok hT
  exact ⟨D u, a v u hv, (a w _ hw).congr fun i hi => b u i hi⟩

/-- the same for data of which one is the opposite of the reversed other one -/
theorem azi_lin_neg {T : List CR → List CR} (hT : LinR g.d.nx T) {v w : List CR} {u : ℕ → ℝ} (hv : IsF g.d.total v u)
    (hw : IsF g.d.total w fun i => -u (g.d.azi i)) :
    ∃ y, IsF g.d.total (g.d.ofLines fun it ip => T (g.d.lineOf v it ip)) y ∧ IsF g.d.total (g.d.ofLines fun it ip => T (g.d.lineOf w it ip)) fun i => -y (g.d.azi i) := by
  obtain ⟨D, a, b, c⟩ := lift_lines_azi h.setup.wf.ok hT
  refine ⟨D u, a v u hv, (a w _ hw).congr fun i hi => ?_⟩
  rw [c (fun j => u (g.d.azi j)) i hi, b u i hi]

theorem azi_mul {T : List CR → List CR} {μ : ℕ → ℕ → ℂ} (hμ : ∀ l m, conj (μ l m) = μ l m) (hT : ∀ v u, Is2 g.d.contig g.sphere.nlat g.sphere.nphi v u →
    Is2 g.d.contig g.sphere.nlat g.sphere.nphi (T v) (mulN g.sphere x A μ u)) {v w : List CR} {u : ℕ → ℝ} (hv : IsF g.d.total v u)
    (hv' : IsF g.d.total w fun i => u (g.d.azi i)) :
    ∃ y, IsF g.d.total (g.d.ofShells fun ix => T (g.d.shellOf v ix)) y ∧ IsF g.d.total (g.d.ofShells fun ix => T (g.d.shellOf w ix)) fun i => y (g.d.azi i) := by
  have hw := h.setup.wf
  have hT' := hT
  rw [hw.nlat, hw.nphi] at hT'
  have a := lift_shells hw.ok _ hT'
  refine ⟨_, a v u hv, (a w _ hv').congr fun i hi => ?_⟩
  have := lift_shells_azi (d := g.d) (D := mulN g.sphere x A μ) (B := fun _ => True) (σ := 1)
    (fun u w hu => mulN_congr μ (by rw [hw.nlat, hw.nphi]; exact hu))
    (fun u it ip _ hit hip => by
      have := mulN_opp (s := g.sphere) (x := x) (A := A) hμ u it (ip := ip) (by rw [hw.nphi]; exact hip)
      rw [hw.nphi] at this
      rw [one_mul]
      exact this) u (fun _ _ => trivial) hi
  rw [one_mul] at this
  exact this

theorem azi_phi {v w : List CR} {u : ℕ → ℝ} (hv : IsF g.d.total v u) (hv' : IsF g.d.total w fun i => u (g.d.azi i))
    (hb : ∀ ix, ix < g.d.nx → AnaBelow g.sphere A fun it ip => u (g.d.pos3 ix it ip)) :
    ∃ y, IsF g.d.total (g.pphiP v) y ∧ IsF g.d.total (g.pphiP w) fun i => -y (g.d.azi i) := by
  have hw := h.setup.wf
  have hm := h.math
  have hT := fun v u hv => phiP_is2 (v := v) (u := u) hw.sph hm hv
  rw [hw.nlat, hw.nphi] at hT
  have a := lift_shells hw.ok _ hT
  refine ⟨_, a v u hv, (a w _ hv').congr fun i hi => ?_⟩
  have := lift_shells_azi (d := g.d) (D := mulN g.sphere x A phiM) (B := fun u => AnaBelow g.sphere A u) (σ := -1)
    (fun u w hu => mulN_congr phiM (by rw [hw.nlat, hw.nphi]; exact hu))
    (fun u it ip hB hit hip => by
      have := mulN_phi_opp (s := g.sphere) (x := x) (A := A) hB it (ip := ip) (by rw [hw.nphi]; exact hip)
      rw [hw.nphi] at this
      rw [neg_one_mul]
      exact this) u hb hi
  rw [neg_one_mul] at this
  exact this

theorem azi_X (hml : P.nl ≤ P.nm + 1) {v w : List CR} {u : ℕ → ℝ} (hv : IsF g.d.total v u) (hv' : IsF g.d.total w fun i => u (g.d.azi i))
    (hb : ∀ ix, ix < g.d.nx → AnaBelow g.sphere A fun it ip => u (g.d.pos3 ix it ip)) :
    ∃ y, IsF g.d.total (g.psphXP v) y ∧ IsF g.d.total (g.psphXP w) fun i => y (g.d.azi i) := by
  have hw := h.setup.wf
  have hm := h.math
  have hml' : g.sphere.lmax ≤ g.sphere.mmax + 1 := by rw [hw.mmax, hw.lmax, h.setup.dims]; exact hml
  have hT := fun v u hv => sphXP_is2 (v := v) (u := u) hw.sph hm h.setup.full hv
  have hin := hm.inside
  have e1 := hw.nlat
  have e2 := hw.nphi
  unfold AnaBelow at hb
  generalize g.sphere.lmax = L at hT hml' hb
  generalize g.sphere.mmax = M at hT hml' hb
  rw [e1, e2] at hT
  rw [e1] at hin
  simp only [e1, e2] at hb
  have a := lift_shells hw.ok (fun u it ip => sphXG L M (anaN A g.d.nlat g.d.nphi u) (Real.arccos (x it)) (phiN g.d.nphi ip)) hT
  refine ⟨_, a v u hv, (a w _ hv').congr fun i hi => ?_⟩
  have hs : ∀ it, it < g.d.nlat → Real.sin (Real.arccos (x it)) ≠ 0 := by
    intro it hit
    rw [Real.sin_arccos]
    have := hin it hit
    have : 0 < 1 - x it ^ 2 := by nlinarith [this.1, this.2]
    exact (Real.sqrt_pos.mpr this).ne'
  have per : ∀ (c : ℕ → ℕ → ℂ) θ φ (k : ℤ), sphXV L M c θ (φ + k * (2 * Real.pi)) = sphXV L M c θ φ := by
    intro c θ φ k
    unfold sphXV dTh dPh
    rw [fieldR_period, fieldR_period]
    have d1 : (fun t => fieldR L M (lowC L c) t (φ + k * (2 * Real.pi))) = fun t => fieldR L M (lowC L c) t φ := by
      funext t; exact fieldR_period _ _ _ _ _ _
    have d2 : deriv (fun t => fieldR L M (lowC L c) θ t) (φ + k * (2 * Real.pi)) = deriv (fun t => fieldR L M (lowC L c) θ t) φ := by
      rw [← deriv_comp_add_const (f := fun t => fieldR L M (lowC L c) θ t)]
      congr 1
      funext t
      exact fieldR_period _ _ _ _ _ _
    rw [d1, d2]
  have := lift_shells_azi (d := g.d) (D := fun u it ip => sphXG L M (anaN A g.d.nlat g.d.nphi u) (Real.arccos (x it)) (phiN g.d.nphi ip))
    (B := fun u => ∀ l m, l ≤ L → m ≤ l → m ≤ M → ¬(l < L ∧ m < M) → anaN A g.d.nlat g.d.nphi u l m = 0) (σ := 1)
    (fun u w hu => by funext it ip; exact sphXN_congr hu _ _)
    (fun u it ip hB hit hip => by
      obtain ⟨k, hk⟩ := phi_opp hip
      rw [one_mul, sphXG_eq hml' _ _ (hs it hit), sphXG_eq hml' _ _ (hs it hit), hk, per]
      exact sphXV_opp hB (fun l m => anaN_opp u l m) _ _) u hb hi
  rw [one_mul] at this
  exact this

end Exact

theorem azi_rel (hw : g.d.Ok) {v w : List CR} {u : ℕ → ℝ} (hv : IsF g.d.total v u) (hl : w.length = g.d.total) (h : Reversed g.d v w) :
    IsF g.d.total w fun i => u (g.d.azi i) :=
  ⟨hl, fun i hi => by rw [(reversed_iff hw v w).mp h i hi, hv.2 _ (g.d.azi_lt hi)]⟩

/-- **C111**: the second time derivatives.  For a field `f₁` without content in the top degree and order, any velocity `p₁`, and the field and the velocity
with the azimuth reversed, the code computes, around the hole with the opposite spin, the same second time derivatives with the azimuth reversed.  Needs at
most one order missing (`nm≥nl-1`) or a constant kinetic function.  For fields with content in the top degree see C111_reversed_violated. -/
theorem C111_reversed_derivatives_partial (h : Exact E P g q x A) (hml : P.nl ≤ P.nm + 1 ∨ q.km1 = 0 ∧ q.k1 = 0 ∧ q.k2 = 0) {e₁ e₂ : Eom CR}
    (he₁ : Eom.Of g P e₁) (he₂ : Eom.Of g (P.spin (-q.a)) e₂) (J₁ J₂ : Junk (Cx CR)) {f₁ p₁ f₂ p₂ z : List CR}
    (hf₁ : f₁.length = P.nx * P.nlat * P.nphi) (hp₁ : p₁.length = P.nx * P.nlat * P.nphi) (hf₂ : f₂.length = P.nx * P.nlat * P.nphi)
    (hp₂ : p₂.length = P.nx * P.nlat * P.nphi) (hz : z.length = P.nx * P.nlat * P.nphi) (hb : BelowTop P g.d x f₁) (hF : AllFin f₁) (hQ : AllFin p₁)
    (hFr : Reversed g.d f₁ f₂) (hQr : Reversed g.d p₁ p₂) :
    ∃ a₁ a₂ k₁ k₂ l₁ l₂, e₁.set_k g J₁ f₁ p₁ z z = .ok (a₁, k₁, l₁) ∧ e₂.set_k g J₂ f₂ p₂ z z = .ok (a₂, k₂, l₂) ∧ Reversed g.d k₁ k₂ ∧
      (AllFin l₁ → Reversed g.d l₁ l₂) := by
  have hw := h.setup.wf
  have ht := h.setup.total
  have hm := h.math
  obtain ⟨c1, c2, _⟩ := spin_same h he₁ he₂
  obtain ⟨q1, _, q3, q4, _⟩ := he₁.par h.setup h.phys
  refine ⟨_, _, _, _, _, _, Eom.set_k_eq hw (he₁.wf h.setup) J₁ (hf₁.trans ht.symm) (hp₁.trans ht.symm) (hz.trans ht.symm) (hz.trans ht.symm),
    Eom.set_k_eq hw (he₂.wf (h.spin (-q.a)).setup) J₂ (hf₂.trans ht.symm) (hp₂.trans ht.symm) (hz.trans ht.symm) (hz.trans ht.symm), hQr, fun hl => ?_⟩
  obtain ⟨u, hu⟩ := hF.isF (hf₁.trans ht.symm)
  obtain ⟨r, hr⟩ := hQ.isF (hp₁.trans ht.symm)
  have hu' := azi_rel hw.ok hu (hf₂.trans ht.symm) hFr
  have hr' := azi_rel hw.ok hr (hp₂.trans ht.symm) hQr
  have hbb := h.azi_below hu hb
  obtain ⟨y1, a1, b1⟩ := h.azi_lin h.linR_opr hu hu'
  obtain ⟨y2, a2, b2⟩ := h.azi_lin h.linR_opr hr hr'
  obtain ⟨y3, a3, b3⟩ := h.azi_lin h.linR_op2r hu hu'
  obtain ⟨y4, a4, b4⟩ := h.azi_phi hu hu' hbb
  obtain ⟨y5, a5, b5⟩ := h.azi_lin_neg h.linR_opr a4 b4
  obtain ⟨y7, a7, b7⟩ := h.azi_mul (μ := lapM) (fun l m => by unfold lapM; simp) (fun v u hv => lapP_is2 hw.sph hm hv) hu hu'
  rw [reversed_iff hw.ok]
  intro i hi
  have hi' := g.d.azi_lt hi
  have kf := (hl.isF (n := g.d.total) (by simp)).choose_spec.2 _ hi'
  have hcoef : gv e₁.coef (g.d.azi i) = gv e₁.coef i := by
    obtain ⟨s, _, rfl⟩ := he₁.eq h.setup
    obtain ⟨r1, r2, r3⟩ := g.d.azi_dec hi
    show gv (g.d.mk3 fun ix it _ => Eom.coefAt g P ix it : List (Coef CR)) _ = gv (g.d.mk3 fun ix it _ => Eom.coefAt g P ix it : List (Coef CR)) _
    unfold Dims.mk3
    rw [gv_tab hi, gv_tab hi', r1, r2]
  rw [kf]
  unfold Eom.rhs at kf ⊢
  rw [gv_tab hi'] at kf
  rw [gv_tab hi, c2, c1 i hi, hu'.2 i hi, hr'.2 i hi]
  change e₁.pk _ _ _ (gv (g.prP f₂) i) _ _ _ _ _ _ = _
  have f1 : gv (g.prP f₂) i = gv (g.prP f₁) (g.d.azi i) := (b1.2 i hi).trans (a1.2 _ hi').symm
  have f2 : gv (g.prP p₂) i = gv (g.prP p₁) (g.d.azi i) := (b2.2 i hi).trans (a2.2 _ hi').symm
  have f3 : gv (g.p2rP f₂) i = gv (g.p2rP f₁) (g.d.azi i) := (b3.2 i hi).trans (a3.2 _ hi').symm
  have f4 : gv (g.pphiP f₂) i = -gv (g.pphiP f₁) (g.d.azi i) := (b4.2 i hi).trans (by rw [a4.2 _ hi', fin_neg])
  have f5 : gv (g.prP (g.pphiP f₂)) i = -gv (g.prP (g.pphiP f₁)) (g.d.azi i) := (b5.2 i hi).trans (by
    have := a5.2 _ hi'
    change gv (g.prP (g.pphiP f₁)) (g.d.azi i) = _ at this
    rw [this, fin_neg])
  have f7 : gv (g.plapP f₂) i = gv (g.plapP f₁) (g.d.azi i) := (b7.2 i hi).trans (a7.2 _ hi').symm
  rw [f1, f2, f3, f4, f5, f7, pk_flip, ← hcoef, ← hu.2 _ hi', ← hr.2 _ hi']
  rcases hml with hml | ⟨z1, z2, z3⟩
  · obtain ⟨y6, a6, b6⟩ := h.azi_X hml hu hu' hbb
    rw [(b6.2 i hi).trans (a6.2 _ hi').symm]
    exact kf
  · obtain ⟨X, x1, _⟩ := h.opX
    rw [(x1 _ _ hu').2 i hi]
    exact pk_noX kf (by rw [q1, z1]) (by rw [q3, z2]) (by rw [q4, z3]) _

/-- **C111**: the energy density.  Same restriction on the field, and at most one order missing. -/
theorem C111_reversed_density_partial (h : Exact E P g q x A) (hml : P.nl ≤ P.nm + 1) {e₁ e₂ : Eom CR} (he₁ : Eom.Of g P e₁)
    (he₂ : Eom.Of g (P.spin (-q.a)) e₂) (J₁ J₂ : Junk (Cx CR)) {f₁ p₁ f₂ p₂ z : List CR} (hf₁ : f₁.length = P.nx * P.nlat * P.nphi)
    (hp₁ : p₁.length = P.nx * P.nlat * P.nphi) (hf₂ : f₂.length = P.nx * P.nlat * P.nphi) (hp₂ : p₂.length = P.nx * P.nlat * P.nphi)
    (hz : z.length = P.nx * P.nlat * P.nphi) (hb : BelowTop P g.d x f₁) (hF : AllFin f₁) (hQ : AllFin p₁) (hFr : Reversed g.d f₁ f₂)
    (hQr : Reversed g.d p₁ p₂) :
    ∃ a₁ a₂ D₁ D₂, e₁.set_rho g J₁ f₁ p₁ z = .ok (a₁, D₁) ∧ e₂.set_rho g J₂ f₂ p₂ z = .ok (a₂, D₂) ∧ Reversed g.d D₁ D₂ := by
  have hw := h.setup.wf
  have ht := h.setup.total
  obtain ⟨c1, _, c3⟩ := spin_same h he₁ he₂
  refine ⟨_, _, _, _, Eom.set_rho_eq hw (he₁.wf h.setup) J₁ (hf₁.trans ht.symm) (hp₁.trans ht.symm) (hz.trans ht.symm),
    Eom.set_rho_eq hw (he₂.wf (h.spin (-q.a)).setup) J₂ (hf₂.trans ht.symm) (hp₂.trans ht.symm) (hz.trans ht.symm), ?_⟩
  obtain ⟨u, hu⟩ := hF.isF (hf₁.trans ht.symm)
  obtain ⟨r, hr⟩ := hQ.isF (hp₁.trans ht.symm)
  have hu' := azi_rel hw.ok hu (hf₂.trans ht.symm) hFr
  have hr' := azi_rel hw.ok hr (hp₂.trans ht.symm) hQr
  have hbb := h.azi_below hu hb
  obtain ⟨y1, a1, b1⟩ := h.azi_lin h.linR_opr hu hu'
  obtain ⟨y4, a4, b4⟩ := h.azi_phi hu hu' hbb
  obtain ⟨y6, a6, b6⟩ := h.azi_X hml hu hu' hbb
  rw [reversed_iff hw.ok]
  intro i hi
  have hi' := g.d.azi_lt hi
  have hcoef : gv e₁.coef (g.d.azi i) = gv e₁.coef i := by
    obtain ⟨s, _, rfl⟩ := he₁.eq h.setup
    obtain ⟨r1, r2, r3⟩ := g.d.azi_dec hi
    show gv (g.d.mk3 fun ix it _ => Eom.coefAt g P ix it : List (Coef CR)) _ = gv (g.d.mk3 fun ix it _ => Eom.coefAt g P ix it : List (Coef CR)) _
    unfold Dims.mk3
    rw [gv_tab hi, gv_tab hi', r1, r2]
  unfold Eom.rhoP
  rw [gv_tab hi, gv_tab hi', c3, c1 i hi, hu'.2 i hi, hr'.2 i hi, hcoef, hu.2 _ hi', hr.2 _ hi', b6.2 i hi, a6.2 _ hi', b4.2 i hi, a4.2 _ hi', ← fin_neg, rho_flip]
  have f1 : gv (g.prP f₂) i = gv (g.prP f₁) (g.d.azi i) := (b1.2 i hi).trans (a1.2 _ hi').symm
  rw [f1]

/-! ## With content in the top degree the property fails -/

/-- a field that is one axisymmetric harmonic of the top degree, with the radial profile `R-R₀` -/
theorem azi_top (h : Exact E P g q x A) (R₀ : ℝ) (ρ : ℕ → ℝ) {F : List CR}
    (hF : IsF g.d.total F fun i => (ρ (g.d.dX i) - R₀) * ThN P.nl 0 (Real.arccos (x (g.d.dT i)))) :
    IsF g.d.total (g.pphiP F) fun i => (ρ (g.d.dX i) - R₀) * ThN P.nl 0 (Real.arccos (x (g.d.dT i))) := by
  have hw := h.setup.wf
  have hm := h.math
  have e1 : g.sphere.sht.lmax = P.nl := by rw [hw.sph.api.lmax_eq, hw.lmax, h.setup.dims]
  have e2 : g.sphere.sht.mmax = P.nm := by rw [hw.sph.api.mmax_eq, hw.mmax, h.setup.dims]
  have e3 : g.sphere.lmax = P.nl := by rw [hw.lmax, h.setup.dims]
  have e4 : g.sphere.mmax = P.nm := by rw [hw.mmax, h.setup.dims]
  have hT := fun v u hv => phiP_is2 (v := v) (u := u) hw.sph hm hv
  rw [hw.nlat, hw.nphi] at hT
  have a := lift_shells hw.ok _ hT
  refine (a F _ hF).congr fun i hi => ?_
  obtain ⟨h1, h2⟩ := g.d.dec3 hi
  beta_reduce
  obtain ⟨k, hk⟩ : ∃ k, k = ρ (g.d.dX i) - R₀ := ⟨_, rfl⟩
  obtain ⟨c, hc⟩ : ∃ c : ℕ → ℕ → ℂ, c = fun l m => if l = P.nl ∧ m = 0 then (k : ℂ) else 0 := ⟨_, rfl⟩
  have hfld : ∀ θ φ, fieldR P.nl P.nm c θ φ = k * ThN P.nl 0 θ := by
    intro θ φ
    unfold fieldR
    rw [Finset.sum_eq_single P.nl]
    · have : ∑ m ∈ Finset.Icc 1 (min P.nl P.nm), c P.nl m * Ylm P.nl m θ φ = 0 := by
        refine Finset.sum_eq_zero fun m hm => ?_
        rw [Finset.mem_Icc] at hm
        rw [hc]
        beta_reduce
        rw [if_neg (by omega), zero_mul]
      rw [this, hc]
      simp
    · intro l _ hl
      have : ∑ m ∈ Finset.Icc 1 (min l P.nm), c l m * Ylm l m θ φ = 0 := by
        refine Finset.sum_eq_zero fun m hm => ?_
        rw [hc]
        beta_reduce
        rw [if_neg (by omega), zero_mul]
      rw [this, hc]
      simp [hl]
    · intro hn
      exact absurd (Finset.mem_range.mpr (Nat.lt_succ_self _)) hn
  have hre : ∀ l, l ≤ g.sphere.sht.lmax → (c l 0).im = 0 := by
    intro l _
    rw [hc]
    beta_reduce
    split_ifs <;> simp
  have key := fun {l m} => anaN_fieldR hm (c := c) hre (l := l) (m := m)
  rw [e1, e2] at key
  unfold mulN
  have hcg := mulN_congr (s := g.sphere) (x := x) (A := A) phiM (u := fun it ip => (ρ (g.d.dX (g.d.pos3 (g.d.dX i) it ip)) - R₀) * ThN P.nl 0 (Real.arccos (x (g.d.dT (g.d.pos3 (g.d.dX i) it ip)))))
    (w := fun it ip => fieldR P.nl P.nm c (Real.arccos (x it)) (phiN g.sphere.nphi ip)) (fun it ip b1 b2 => by
      rw [hw.nlat] at b1
      rw [hw.nphi] at b2
      rw [g.d.dX_pos3 ⟨h1.1, b1, b2⟩, g.d.dT_pos3 ⟨h1.1, b1, b2⟩, hfld, hk])
  have := congrFun (congrFun hcg (g.d.dT i)) (g.d.dP i)
  unfold mulN at this
  rw [this, ← hk, ← hfld _ (phiN g.sphere.nphi (g.d.dP i)), e3, e4]
  apply fieldR_congr
  intro l m a b d
  rw [key a b d]
  by_cases hlt : l < P.nl ∧ m < P.nm
  · rw [if_pos hlt, hc]
    beta_reduce
    rw [if_neg (by omega), mul_zero]
  · rw [if_neg hlt]

/-- not all values of the axisymmetric top harmonic on the grid vanish -/
theorem azi_node (h : Exact E P g q x A) : ∃ it, it < P.nlat ∧ ThN P.nl 0 (Real.arccos (x it)) ≠ 0 := by
  by_contra hn
  push Not at hn
  have hw := h.setup.wf
  have hm := h.math
  have e1 : g.sphere.sht.lmax = P.nl := by rw [hw.sph.api.lmax_eq, hw.lmax, h.setup.dims]
  have e2 : g.sphere.sht.mmax = P.nm := by rw [hw.sph.api.mmax_eq, hw.mmax, h.setup.dims]
  obtain ⟨c, hc⟩ : ∃ c : ℕ → ℕ → ℂ, c = fun l m => if l = P.nl ∧ m = 0 then 1 else 0 := ⟨_, rfl⟩
  have hre : ∀ l, l ≤ g.sphere.sht.lmax → (c l 0).im = 0 := by
    intro l _
    rw [hc]
    beta_reduce
    split_ifs <;> simp
  have key := anaN_fieldR hm (c := c) hre (l := P.nl) (m := 0) e1.ge (Nat.zero_le _) (Nat.zero_le _)
  rw [anaN_congr (w := fun _ _ => 0)] at key
  · rw [hc] at key
    unfold anaN at key
    simp at key
  · intro it ip a b
    rw [hw.nlat, h.nlat] at a
    rw [e1, e2]
    unfold fieldR
    refine Finset.sum_eq_zero fun l _ => ?_
    have z : ∑ m ∈ Finset.Icc 1 (min l P.nm), c l m * Ylm l m (Real.arccos (x it)) (phiN g.sphere.nphi ip) = 0 := by
      refine Finset.sum_eq_zero fun m hm => ?_
      rw [Finset.mem_Icc] at hm
      rw [hc]
      beta_reduce
      rw [if_neg (by omega), zero_mul]
    rw [z]
    by_cases hl : l = P.nl
    · subst hl
      rw [hn it a]
      simp
    · rw [hc]
      simp [hl]

/-- its radial derivative where its profile vanishes -/
theorem azi_slope (h : Exact E P g q x A) (hnx : 4 ≤ P.nx) (hq : q.Ok) (hlu : q.lo < q.up) {ix it : ℕ} (hix : ix < P.nx) (hit : it < P.nlat)
    (hR : 0 < radPt E.useCheb P.nx q.lo q.up ix) (hL : radPt E.useCheb P.nx q.lo q.up ix < q.L) (T : ℕ → ℝ) (hT : T it ≠ 0) {F : List CR}
    (hF : IsF g.d.total F fun i => (radPt E.useCheb P.nx q.lo q.up (g.d.dX i) - radPt E.useCheb P.nx q.lo q.up ix) * T (g.d.dT i)) :
    ∃ y, gv (g.prP F) (g.d.pos3 ix it 0) = fin y ∧ y ≠ 0 := by
  have hS := h.setup
  have hw := hS.wf
  have ht := hS.total
  have hphi : 0 < P.nphi := by have := hw.ok.nphi_pos; rw [h.nphi] at this; exact this
  have hg := hS.grid
  rw [h.phys.L, h.phys.lo, h.phys.up] at hg
  obtain ⟨R0, hR0⟩ : ∃ R0, R0 = radPt E.useCheb P.nx q.lo q.up ix := ⟨_, rfl⟩
  obtain ⟨o1, _, a1, _, a3⟩ := C32_chain_rule hS.sized (fun _ => h.env.fftw) hS.sizes hq.L_pos hlu hg
    (fun it _ => (Polynomial.X - Polynomial.C R0) * Polynomial.C (T it)) (v := F) (dv := F) (by
      intro it ip
      have hd : ((Polynomial.X - Polynomial.C R0) * Polynomial.C (T it)).natDegree ≤ 1 :=
        (Polynomial.natDegree_mul_le).trans (by rw [Polynomial.natDegree_X_sub_C, Polynomial.natDegree_C])
      split_ifs with hc
      · exact lt_of_le_of_lt (Polynomial.degree_le_of_natDegree_le hd) (by exact_mod_cast (by omega : 1 < P.nx - 2))
      · omega) (hF.1.trans ht) (hF.1.trans ht)
    (by
      intro ix' it' ip' b1 b2 b3
      have hr := hS.inR b1 b2 b3
      rw [hF.at3 hw.ok hr, g.d.dX_pos3 hr, g.d.dT_pos3 hr, hR0]
      simp)
  rw [hw.set_partial_r_eq hF.1 hF.1] at a1
  cases a1
  obtain ⟨y1, _, b1, _, b3⟩ := a3 ix it 0 hix hit hphi
  have hr := hS.inR hix hit hphi
  rw [hw.ok.at3_eq _ hr] at b1
  refine ⟨y1, b1, fun h0 => ?_⟩
  have hd := ((b3 _ rfl).1 hR hL).1
  rw [h0] at hd
  -- the derivative of the compactified radius does not vanish
  obtain ⟨r, hrd⟩ : ∃ r, r = physR q.L (radPt E.useCheb P.nx q.lo q.up ix) := ⟨_, rfl⟩
  rw [← hrd] at hd
  have hLp := hq.L_pos
  have hrp : 0 < r := by
    rw [hrd]
    unfold physR
    have : 0 < 1 - radPt E.useCheb P.nx q.lo q.up ix / q.L := by rw [sub_pos, div_lt_one hLp]; exact hL
    positivity
  have hpos : 0 < 1 + r / q.L := by positivity
  have hd2 : HasDerivAt (fun r => (compR q.L r - R0) * T it) ((1 * (1 + r / q.L) - r * (1 / q.L)) / (1 + r / q.L) ^ 2 * T it) r := by
    have k1 : HasDerivAt (fun r : ℝ => r) 1 r := hasDerivAt_id r
    have k2 : HasDerivAt (fun r : ℝ => 1 + r / q.L) (1 / q.L) r := (k1.div_const q.L).const_add 1
    exact ((k1.div k2 hpos.ne').sub_const R0).mul_const (T it)
  have he : (fun r => ((Polynomial.X - Polynomial.C R0) * Polynomial.C (T it)).eval (compR q.L r)) = fun r => (compR q.L r - R0) * T it := by
    funext r
    simp
  rw [he] at hd
  have := hd.unique hd2
  rw [show 1 * (1 + r / q.L) - r * (1 / q.L) = 1 by ring] at this
  exact (mul_ne_zero (by positivity) hT) this.symm

/-- **C111 fails for fields with content in the top degree**: for every spinning hole there are an axisymmetric field - its own reversal - and a vanishing
velocity for which the code computes finite second time derivatives that differ between the two spins at a point of the half-plane `φ=0`, which the reversal
leaves where it is.  The longitude derivative leaves the coefficients of the top degree and order as they are instead of multiplying them by `i m`. -/
theorem C111_reversed_violated (h : Exact E P g q x A) (hnx : 4 ≤ P.nx) (hq : q.Ok) (ha : q.a ≠ 0) (hk : q.k0 + q.km1 ≠ 0) (hlu : q.lo < q.up) {e₁ e₂ : Eom CR}
    (he₁ : Eom.Of g P e₁) (he₂ : Eom.Of g (P.spin (-q.a)) e₂) {ix : ℕ} (hix : ix < P.nx) (hR : 0 < radPt E.useCheb P.nx q.lo q.up ix)
    (hL : 1 / 10 ^ 16 < q.L - radPt E.useCheb P.nx q.lo q.up ix) {z : List CR} (hz : z.length = P.nx * P.nlat * P.nphi) :
    ∃ (f p : List CR) (it : ℕ), f.length = P.nx * P.nlat * P.nphi ∧ p.length = P.nx * P.nlat * P.nphi ∧ AllFin f ∧ AllFin p ∧ it < P.nlat ∧
      Reversed g.d f f ∧ Reversed g.d p p ∧ ∀ J₁ J₂, ∃ a₁ a₂ k₁ k₂ l₁ l₂ y₁ y₂, e₁.set_k g J₁ f p z z = .ok (a₁, k₁, l₁) ∧
        e₂.set_k g J₂ f p z z = .ok (a₂, k₂, l₂) ∧ g.d.at3 l₁ ix it 0 = fin y₁ ∧ g.d.at3 l₂ ix it 0 = fin y₂ ∧ y₁ ≠ y₂ ∧ ¬Reversed g.d l₁ l₂ := by
  have hS := h.setup
  have hw := hS.wf
  have ht := hS.total
  have hphi : 0 < P.nphi := by have := hw.ok.nphi_pos; rw [h.nphi] at this; exact this
  obtain ⟨it, hit, hT⟩ := azi_node h
  obtain ⟨R0, hR0⟩ : ∃ R0, R0 = radPt E.useCheb P.nx q.lo q.up ix := ⟨_, rfl⟩
  obtain ⟨u, hu⟩ : ∃ u : ℕ → ℝ, u = fun i => (radPt E.useCheb P.nx q.lo q.up (g.d.dX i) - R0) * ThN P.nl 0 (Real.arccos (x (g.d.dT i))) := ⟨_, rfl⟩
  obtain ⟨F, hFd⟩ : ∃ F : List CR, F = tab g.d.total fun i => fin (u i) := ⟨_, rfl⟩
  obtain ⟨Q, hQd⟩ : ∃ Q : List CR, Q = tab g.d.total fun _ => fin 0 := ⟨_, rfl⟩
  have hF : IsF g.d.total F u := ⟨by rw [hFd]; simp, fun i hi => by rw [hFd, gv_tab hi]⟩
  have hQ : IsF g.d.total Q fun _ => 0 := ⟨by rw [hQd]; simp, fun i hi => by rw [hQd, gv_tab hi]⟩
  refine ⟨F, Q, it, by rw [hF.1, ht], by rw [hQ.1, ht], (allFin_iff hF.1).mpr fun i hi => ⟨_, hF.2 i hi⟩,
    (allFin_iff hQ.1).mpr fun i hi => ⟨_, hQ.2 i hi⟩, hit, ?_, ?_, ?_⟩
  · rw [reversed_iff hw.ok]
    intro i hi
    obtain ⟨r1, r2, _⟩ := g.d.azi_dec hi
    rw [hF.2 i hi, hF.2 _ (g.d.azi_lt hi), hu]
    beta_reduce
    rw [r1, r2]
  · rw [reversed_iff hw.ok]
    intro i hi
    rw [hQ.2 i hi, hQ.2 _ (g.d.azi_lt hi)]
  have hr := hS.inR hix hit hphi
  obtain ⟨i0, hi0⟩ : ∃ i, i = g.d.pos3 ix it 0 := ⟨_, rfl⟩
  have l0 : i0 < g.d.total := by rw [hi0]; exact g.d.pos3_lt hr
  have hu0 : u i0 = 0 := by
    rw [hu, hi0]
    beta_reduce
    rw [g.d.dX_pos3 hr, hR0, sub_self, zero_mul]
  have hph : IsF g.d.total (g.pphiP F) u := by
    have := azi_top h R0 (radPt E.useCheb P.nx q.lo q.up) (F := F) (by rw [hu] at hF; exact hF)
    rw [hu]
    exact this
  obtain ⟨pr, p2r, ph, lap, fl, o⟩ := h.ops
  obtain ⟨X, hX, _⟩ := h.opX
  have hL' : radPt E.useCheb P.nx q.lo q.up ix < q.L := by
    have : (0:ℝ) < 1 / 10 ^ 16 := by positivity
    linarith
  obtain ⟨s, hs, hs0⟩ := azi_slope h hnx hq hlu hix hit hR hL' (fun it => ThN P.nl 0 (Real.arccos (x it))) hT (F := F)
    (by rw [hu, hR0] at hF; exact hF)
  rw [← hi0] at hs
  have vs : pr u i0 = s := by
    have := (o.pr.1 _ _ hF).2 i0 l0
    rw [hs, fin_inj] at this
    exact this.symm
  have v1 := (o.pr.1 _ _ hF).2 i0 l0
  have v2 := (o.pr.1 _ _ hQ).2 i0 l0
  have v3 := (o.p2r.1 _ _ hF).2 i0 l0
  have v4 := hph.2 i0 l0
  have v5 := (o.pr.1 _ _ hph).2 i0 l0
  have v6 := (hX _ _ hF).2 i0 l0
  have v7 := (o.lap.1 _ _ hF).2 i0 l0
  have vF := hF.2 i0 l0
  have vQ := hQ.2 i0 l0
  rw [hu0] at vF v4
  rw [vs] at v1 v5
  obtain ⟨b1, b2, _⟩ := spin_same h he₁ he₂
  obtain ⟨c1, _⟩ := he₁.coef_real hS h.phys hq hix hit hphi (hS.coords h.phys h.env hix hit hphi)
  obtain ⟨hr0, c1⟩ := c1 hR hL
  unfold Dims.at3 at c1
  rw [hw.ok.indx3 hr, ← hi0] at c1
  change gv e₁.coef i0 = _ at c1
  obtain ⟨c, hcd⟩ : ∃ c, c = docCoef q.M q.a (physR q.L (radPt E.useCheb P.nx q.lo q.up ix)) (Real.arccos (x it)) := ⟨_, rfl⟩
  rw [← hcd] at c1
  have hc : c.p_dphi_dr_f ≠ 0 := by
    rw [hcd]
    unfold docCoef
    dsimp only
    have hSg : 0 < Sig q.a (physR q.L (radPt E.useCheb P.nx q.lo q.up ix)) (Real.arccos (x it)) := Sig_pos' hr0
    have : 0 < 1 + 2 * q.M * physR q.L (radPt E.useCheb P.nx q.lo q.up ix) / Sig q.a (physR q.L (radPt E.useCheb P.nx q.lo q.up ix)) (Real.arccos (x it)) := by
      have := hq.M_pos
      positivity
    exact div_ne_zero (div_ne_zero (mul_ne_zero two_ne_zero ha) hSg.ne') this.ne'
  obtain ⟨c', hc'⟩ : ∃ c' : Coef ℝ, c' = { c with p_dphi_dr_f := -c.p_dphi_dr_f, p_dr_f_dphi_f := -c.p_dr_f_dphi_f, rho_rphi := -c.rho_rphi } := ⟨_, rfl⟩
  have c2 : gv e₂.coef i0 = c'.map fin := by
    rw [b1 i0 l0, c1, hc']
    unfold Coef.flip Coef.map
    simp only [fin_neg]
  have kin0 : q.kin 0 ≠ 0 := by
    unfold Phys.kin Kerr.kin
    simpa [add_comm] using hk
  have n1 : (0:ℝ) ≠ -1 := by norm_num
  have k1 := he₁.pk_real hS h.phys c (j := ⟨0, 0, s, 0, pr (fun _ => 0) i0, p2r u i0, 0, s, lap u i0, X u i0⟩) n1 kin0
  have k2 := he₁.pk_real hS h.phys c' (j := ⟨0, 0, s, 0, pr (fun _ => 0) i0, p2r u i0, 0, s, lap u i0, X u i0⟩) n1 kin0
  have r1 : gv (e₁.rhs g F Q) i0 = fin (pkR q c ⟨0, 0, s, 0, pr (fun _ => 0) i0, p2r u i0, 0, s, lap u i0, X u i0⟩) := by
    unfold Eom.rhs
    rw [gv_tab l0, c1, vF, vQ, v1, v2, v3, v4, v5, v6, v7]
    exact k1
  have r2 : gv (e₂.rhs g F Q) i0 = fin (pkR q c' ⟨0, 0, s, 0, pr (fun _ => 0) i0, p2r u i0, 0, s, lap u i0, X u i0⟩) := by
    unfold Eom.rhs
    rw [gv_tab l0, b2, c2, vF, vQ, v1, v2, v3, v4, v5, v6, v7]
    exact k2
  have hne : pkR q c ⟨0, 0, s, 0, pr (fun _ => 0) i0, p2r u i0, 0, s, lap u i0, X u i0⟩ ≠ pkR q c' ⟨0, 0, s, 0, pr (fun _ => 0) i0, p2r u i0, 0, s, lap u i0, X u i0⟩ := by
    intro hh
    have : 2 * (c.p_dphi_dr_f * s) = 0 := by
      have := sub_eq_zero.mpr hh
      rw [hc'] at this
      unfold pkR at this
      dsimp only at this
      rw [← this]
      ring
    exact hs0 ((mul_eq_zero.mp ((mul_eq_zero.mp this).resolve_left two_ne_zero)).resolve_left hc)
  intro J₁ J₂
  have t1 := (hw.ok.at3_eq (e₁.rhs g F Q) hr).trans ((congrArg _ hi0.symm).trans r1)
  have t2 := (hw.ok.at3_eq (e₂.rhs g F Q) hr).trans ((congrArg _ hi0.symm).trans r2)
  refine ⟨_, _, _, _, _, _, _, _, Eom.set_k_eq hw (he₁.wf hS) J₁ hF.1 hQ.1 (by rw [hz, ht]) (by rw [hz, ht]),
    Eom.set_k_eq hw (he₂.wf (h.spin (-q.a)).setup) J₂ hF.1 hQ.1 (by rw [hz, ht]) (by rw [hz, ht]), t1, t2, hne, fun hrev => ?_⟩
  have := hrev ix it 0 hr.1 hr.2.1 hr.2.2
  rw [Nat.sub_zero, Nat.mod_self, t1, t2, fin_inj] at this
  exact hne this.symm

/-! ## Without spin -/

/-- with a constant kinetic function and no coefficient in front of the mixed derivative, the longitude derivatives do not enter -/
theorem pk_nophi {c : Coef CR} {f p r vr rr ph rph X lap : CR} {y : ℝ} (h : e.pk c f p r vr rr ph rph X lap = fin y) (hc : c.flip = c)
    (h1 : e.km1 = fin 0) (h2 : e.k1 = fin 0) (h3 : e.k2 = fin 0) (ph' rph' : ℝ) : e.pk c f p r vr rr (fin ph') (fin rph') X lap = fin y := by
  obtain ⟨cc, kp, ik, vp, f', p', r', vr', rr', ph0, rph0, X0, lap', ⟨c1, c2, c3, c4, c5, c6, c7, c8, c9, c10, c11, c12⟩, ⟨m1, m2, m3⟩,
      ⟨v1, v2, v3, v4, v5, v6, v7, v8, v9⟩, rfl⟩ := pk_fin h
  have hk : kp = 0 := by
    unfold Eom.kprime at m1
    obtain ⟨_, _, n1, n2, rfl⟩ := add_fin m1
    obtain ⟨_, _, n3, n4, rfl⟩ := add_fin n1
    obtain ⟨_, _, n5, _, _, rfl⟩ := div_fin n3
    obtain ⟨_, _, n6, _, rfl⟩ := mul_fin n2
    rw [h1, fin_neg, fin_inj] at n5
    rw [h2, fin_inj] at n4
    rw [h3, fin_inj] at n6
    rw [← n4, ← n5, ← n6]
    simp
  have h0 : cc.p_dphi_dr_f = 0 := by
    have : c.flip.p_dphi_dr_f = c.p_dphi_dr_f := by rw [hc]
    unfold Coef.flip at this
    dsimp only at this
    rw [c5, fin_neg, fin_inj] at this
    linarith
  rw [h0] at c5
  subst hk
  unfold Eom.pk
  rw [c1, c2, c3, c4, c5, c6, c7, c8, c9, c10, c11, c12, m1, m2, m3, v1, v2, v3, v4, v7, v8]
  simp only [fin_lit, fin_mul, fin_add, fin_sub, fin_pown, fin_inj, h0]
  push_cast
  ring

theorem sym_azi (h : Exact E P g q x A) (he : Eom.Of g P e) (ha : q.a = 0) (z1 : q.km1 = 0) (z2 : q.k1 = 0) (z3 : q.k2 = 0) :
    Sym e g (ι := Bool) (fun r => r = false) fun v => ∀ i, i < g.d.total → gv (v true) i = gv (v false) (g.d.azi i) := by
  obtain ⟨X, x1, _⟩ := h.opX
  obtain ⟨pr, _, ph, _, _, o⟩ := h.ops
  obtain ⟨q1, q2, q3, q4, _⟩ := he.par h.setup h.phys
  have hw := h.setup.wf
  have hm := h.math
  have hρ : ∀ i, i < g.d.total → g.d.azi i < g.d.total := fun i hi => g.d.azi_lt hi
  have hrel : ∀ {v w : List CR} {u : ℕ → ℝ}, IsF g.d.total v u → w.length = g.d.total → (∀ i, i < g.d.total → gv w i = gv v (g.d.azi i)) →
      IsF g.d.total w fun i => u (g.d.azi i) := fun hv hl hh => ⟨hl, fun i hi => by rw [hh i hi, hv.2 _ (hρ i hi)]⟩
  refine ⟨?_, ?_, ?_⟩
  · intro u w c h1 h2 i hi
    rw [Eom.ax_gv hi, Eom.ax_gv (hρ i hi), h1 i hi, h2 i hi]
  · intro u hl hf h1 i hi
    obtain ⟨y, hy⟩ := (hf false rfl).isF (hl false)
    obtain ⟨y', a, b⟩ := h.azi_mul (μ := filtM g.sphere.lmax) (fun l m => by unfold filtM; exact Complex.conj_ofReal _)
      (fun v u hv => filtP_is2 hw.sph hm hv) hy (hrel hy (hl true) h1)
    exact (b.2 i hi).trans (a.2 _ (hρ i hi)).symm
  · intro u w hl hl' hf hf' hr h1 h2 i hi
    obtain ⟨y, hy⟩ := (hf false rfl).isF (hl false)
    obtain ⟨z, hz⟩ := (hf' false rfl).isF (hl' false)
    have hy' := hrel hy (hl true) h1
    have hz' := hrel hz (hl' true) h2
    have hi' := hρ i hi
    obtain ⟨y1, a1, b1⟩ := h.azi_lin h.linR_opr hy hy'
    obtain ⟨y2, a2, b2⟩ := h.azi_lin h.linR_opr hz hz'
    obtain ⟨y3, a3, b3⟩ := h.azi_lin h.linR_op2r hy hy'
    obtain ⟨y7, a7, b7⟩ := h.azi_mul (μ := lapM) (fun l m => by unfold lapM; simp) (fun v u hv => lapP_is2 hw.sph hm hv) hy hy'
    have hcoef : gv e.coef (g.d.azi i) = gv e.coef i ∧ (gv e.coef i).flip = gv e.coef i := by
      obtain ⟨s, _, rfl⟩ := he.eq h.setup
      obtain ⟨r1, r2, r3⟩ := g.d.azi_dec hi
      show gv (g.d.mk3 fun ix it _ => Eom.coefAt g P ix it : List (Coef CR)) _ = gv (g.d.mk3 fun ix it _ => Eom.coefAt g P ix it : List (Coef CR)) _ ∧
        (gv (g.d.mk3 fun ix it _ => Eom.coefAt g P ix it : List (Coef CR)) _).flip = gv (g.d.mk3 fun ix it _ => Eom.coefAt g P ix it : List (Coef CR)) _
      unfold Dims.mk3
      rw [gv_tab hi, gv_tab hi', r1, r2]
      refine ⟨rfl, ?_⟩
      unfold Eom.coefAt
      rw [h.phys.a, h.phys.M, ha, ← coefOf_spin, neg_zero]
    obtain ⟨rf, hrf⟩ := (hr false rfl).isF (n := g.d.total) (by simp)
    have kf := hrf.2 _ hi'
    rw [kf]
    unfold Eom.rhs at kf ⊢
    rw [gv_tab hi'] at kf
    have f1 : gv (g.prP (u true)) i = gv (g.prP (u false)) (g.d.azi i) := (b1.2 i hi).trans (a1.2 _ hi').symm
    have f2 : gv (g.prP (w true)) i = gv (g.prP (w false)) (g.d.azi i) := (b2.2 i hi).trans (a2.2 _ hi').symm
    have f3 : gv (g.p2rP (u true)) i = gv (g.p2rP (u false)) (g.d.azi i) := (b3.2 i hi).trans (a3.2 _ hi').symm
    have f7 : gv (g.plapP (u true)) i = gv (g.plapP (u false)) (g.d.azi i) := (b7.2 i hi).trans (a7.2 _ hi').symm
    rw [gv_tab hi, h1 i hi, h2 i hi, f1, f2, f3, f7, ← hcoef.1, (o.ph.1 _ _ hy').2 i hi, (o.pr.1 _ _ (o.ph.1 _ _ hy')).2 i hi, (x1 _ _ hy').2 i hi]
    refine pk_noX (X := gv (g.psphXP (u false)) (g.d.azi i)) (pk_nophi kf ?_ (by rw [q1, z1]) (by rw [q3, z2]) (by rw [q4, z3]) _ _)
      (by rw [q1, z1]) (by rw [q3, z2]) (by rw [q4, z3]) _
    rw [hcoef.1, hcoef.2]

/-- C111 without spin: around a hole that does not rotate, with a constant kinetic function (any potential), the whole evolution commutes with the reversal of
the azimuth, for all fields, for any number of steps (as long as it stays finite). -/
theorem C111_no_spin (h : Exact E P g q x A) (ha : q.a = 0) (z1 : q.km1 = 0) (z2 : q.k1 = 0) (z3 : q.k2 = 0) {e₁ e₂ : Eom CR}
    (he₁ : Eom.Of g P e₁) (he₂ : Eom.Of g P e₂) (J₁ J₂ : ℕ → Junk (Cx CR)) {f₁ p₁ f₂ p₂ : Field CR}
    (hf₁ : f₁.Sized (P.nx * P.nlat * P.nphi)) (hp₁ : p₁.Sized (P.nx * P.nlat * P.nphi)) (hf₂ : f₂.Sized (P.nx * P.nlat * P.nphi))
    (hp₂ : p₂.Sized (P.nx * P.nlat * P.nphi)) (N : ℕ) (hF : Reversed g.d f₁.n f₂.n) (hQ : Reversed g.d p₁.n p₂.n) (hfin : StaysFinite g e₁ f₁ p₁ N) :
    ∃ a₁ a₂ F₁ F₂ Q₁ Q₂, evolve g J₁ e₁ f₁ p₁ N = .ok (a₁, F₁, Q₁) ∧ evolve g J₂ e₂ f₂ p₂ N = .ok (a₂, F₂, Q₂) ∧
      Reversed g.d F₁.n F₂.n ∧ Reversed g.d Q₁.n Q₂.n := by
  have hS := h.setup
  have ht := hS.total
  have hev : evoP e₂ g f₂.n p₂.n N = evoP e₁ g f₂.n p₂.n N := by
    obtain ⟨s1, _, rfl⟩ := he₁.eq hS
    obtain ⟨s2, _, rfl⟩ := he₂.eq hS
    clear hfin
    induction N with
    | zero => rfl
    | succ N ih => unfold evoP; rw [ih]; rfl
  obtain ⟨s1, F₁, Q₁, a1, _, _, _, a5, a6⟩ := evolve_eq hS he₁ J₁ hf₁ hp₁ N
  obtain ⟨s2, F₂, Q₂, b1, _, _, _, b5, b6⟩ := evolve_eq hS he₂ J₂ hf₂ hp₂ N
  refine ⟨_, _, F₁, F₂, Q₁, Q₂, a1, b1, ?_⟩
  obtain ⟨_, _, _, _, _, _, _, hdt⟩ := he₁.par hS h.phys
  have key := (sym_azi h he₁ ha z1 z2 z3).evo hdt (F := fun r => if r then f₂.n else f₁.n) (Q := fun r => if r then p₂.n else p₁.n)
    (fun r => by cases r <;> simp [hf₁.1, hf₂.1, ht]) (fun r => by cases r <;> simp [hp₁.1, hp₂.1, ht])
    (by simpa using (reversed_iff hS.wf.ok _ _).mp hF) (by simpa using (reversed_iff hS.wf.ok _ _).mp hQ) N
    (fun r hr j hj => by subst hr; simpa using hfin.evoP hS he₁ hf₁ hp₁ j hj)
  rw [reversed_iff hS.wf.ok, reversed_iff hS.wf.ok, a5, a6, b5, b6, hev]
  simpa using key

/-! ## The hypotheses are satisfiable -/

/-- non-vacuity of the first two theorems of C111: around a spinning hole, a field without content in the top degree that is not its own reversal, with the
same non-zero velocity, its reversal, and finite second time derivatives. -/
example (contig ndebug useCheb : Bool) : ∃ (E : Env CR) (x : ℕ → ℝ) (A : ℕ → ℕ → ℕ → ℝ) (g : Grid CR) (e₁ e₂ : Eom CR) (f₁ f₂ z : List CR),
    Exact E freeP g freeQ x A ∧ freeP.nl ≤ freeP.nm + 1 ∧ freeQ.a ≠ 0 ∧ Eom.Of g freeP e₁ ∧ Eom.Of g (freeP.spin (-freeQ.a)) e₂ ∧
    f₁.length = freeP.nx * freeP.nlat * freeP.nphi ∧ f₂.length = freeP.nx * freeP.nlat * freeP.nphi ∧ z.length = freeP.nx * freeP.nlat * freeP.nphi ∧
    BelowTop freeP g.d x f₁ ∧ AllFin f₁ ∧ Reversed g.d f₁ f₂ ∧ f₁ ≠ f₂ ∧
    ∀ J, ∃ a k l, e₁.set_k g J f₁ f₁ z z = .ok (a, k, l) ∧ AllFin l := by
  obtain ⟨E, x, A, g, e₁, h, he₁, ho, h0, h1, h2, hk0, hk⟩ := free_exact contig ndebug useCheb
  obtain ⟨e₂, _, he₂⟩ := Eom.Of.exists (h.spin (-freeQ.a)).setup
  have hS := h.setup
  have hw := hS.wf
  have ht := hS.total
  have hm := h.math
  obtain ⟨c, hc⟩ : ∃ c : ℕ → ℕ → ℂ, c = fun l m => if l = 1 ∧ m = 1 then Complex.I else 0 := ⟨_, rfl⟩
  obtain ⟨y, hy⟩ : ∃ y : ℕ → ℝ, y = fun i => fieldR freeP.nl freeP.nm c (Real.arccos (x (g.d.dT i))) (phiN freeP.nphi (g.d.dP i)) := ⟨_, rfl⟩
  obtain ⟨B, hB0, hB⟩ := exists_bound g.d.total y
  obtain ⟨R, hR⟩ := rhs_small h he₁ ho h0 h1 h2 hk0 rfl rfl rfl rfl rfl
  obtain ⟨a, hap, ha⟩ : ∃ a : ℝ, 0 < a ∧ |a| * B < 1 := by
    refine ⟨1 / (B + 1), by positivity, ?_⟩
    rw [abs_of_pos (by positivity), one_div, inv_mul_lt_iff₀ (by linarith)]
    linarith
  obtain ⟨F, hFd⟩ : ∃ F : List CR, F = tab g.d.total fun i => fin (a * y i) := ⟨_, rfl⟩
  obtain ⟨F', hFd'⟩ : ∃ F' : List CR, F' = tab g.d.total fun i => fin (a * y (g.d.azi i)) := ⟨_, rfl⟩
  have hF : IsF g.d.total F fun i => a * y i := ⟨by rw [hFd]; simp, fun i hi => by rw [hFd, gv_tab hi]⟩
  have hF' : IsF g.d.total F' fun i => a * y (g.d.azi i) := ⟨by rw [hFd']; simp, fun i hi => by rw [hFd', gv_tab hi]⟩
  have hre : ∀ l, (c l 0).im = 0 := fun l => by rw [hc]; simp
  refine ⟨E, x, A, g, e₁, e₂, F, F', F, h, by decide, by simp [freeQ, demoQ], he₁, he₂, by rw [hF.1, ht], by rw [hF'.1, ht], by rw [hF.1, ht], ?_,
    (allFin_iff hF.1).mpr fun i hi => ⟨_, hF.2 i hi⟩, ?_, ?_, fun J => ⟨_, _, _, Eom.set_k_eq hw (he₁.wf hS) J hF.1 hF.1 hF.1 hF.1, ?_⟩⟩
  · refine ⟨fun _ l m => a * c l m, fun _ l => by simp [hre l], fun _ l m hlm => ?_, fun ix it ip b1 b2 b3 => ?_⟩
    · rw [hc]
      beta_reduce
      have d1 : freeP.nl = 7 := rfl
      have d2 : freeP.nm = 7 := rfl
      rw [if_neg (by omega), mul_zero]
    · rw [hF.at3 hw.ok ⟨b1, b2, b3⟩, hy]
      beta_reduce
      rw [g.d.dT_pos3 ⟨b1, b2, b3⟩, g.d.dP_pos3 ⟨b1, b2, b3⟩]
      have := congrFun (congrFun (fieldR_smul_fun freeP.nl freeP.nm c a) (Real.arccos (x it))) (phiN freeP.nphi ip)
      rw [this]
  · rw [reversed_iff hw.ok]
    intro i hi
    rw [hF'.2 i hi, hF.2 _ (g.d.azi_lt hi)]
  · intro hh
    have e1 : g.sphere.sht.lmax = freeP.nl := by rw [hw.sph.api.lmax_eq, hw.lmax, h.setup.dims]
    have e2 : g.sphere.sht.mmax = freeP.nm := by rw [hw.sph.api.mmax_eq, hw.mmax, h.setup.dims]
    have hx0 : 0 < g.d.nx := by rw [h.setup.dims]; show 0 < 33; decide
    have eq : ∀ it ip, it < g.d.nlat → ip < g.d.nphi → fieldR freeP.nl freeP.nm c (Real.arccos (x it)) (phiN g.d.nphi ip)
        = fieldR freeP.nl freeP.nm c (Real.arccos (x it)) (phiN g.d.nphi (opp g.d.nphi ip)) := by
      intro it ip b1 b2
      have hr : g.d.InR 0 it ip := ⟨hx0, b1, b2⟩
      have hlt := g.d.pos3_lt hr
      have k1 := hF.2 _ hlt
      rw [hh, hF'.2 _ hlt, fin_inj, hy] at k1
      beta_reduce at k1
      rw [g.d.azi_pos3 hr] at k1
      have k2 := mul_left_cancel₀ hap.ne' k1
      have hr' : g.d.InR 0 it (opp g.d.nphi ip) := ⟨hx0, b1, opp_lt b2⟩
      rw [g.d.dT_pos3 hr, g.d.dP_pos3 hr, g.d.dT_pos3 hr', g.d.dP_pos3 hr', ← h.nphi] at k2
      exact k2.symm
    have key := anaN_fieldR hm (c := c) (fun l _ => hre l) (l := 1) (m := 1) (by rw [e1]; decide) le_rfl (by rw [e2]; decide)
    have key2 := anaN_opp (A := A) (nlat := g.sphere.nlat) (nphi := g.sphere.nphi)
      (fun it ip => fieldR g.sphere.sht.lmax g.sphere.sht.mmax c (Real.arccos (x it)) (phiN g.sphere.nphi ip)) 1 1
    rw [anaN_congr (w := fun it ip => fieldR g.sphere.sht.lmax g.sphere.sht.mmax c (Real.arccos (x it)) (phiN g.sphere.nphi ip)) (fun it ip b1 b2 => by
      rw [hw.nlat] at b1
      rw [hw.nphi] at b2 ⊢
      rw [e1, e2]
      exact (eq it ip b1 b2).symm), key, hc] at key2
    have := congrArg Complex.im key2
    norm_num at this
  · exact (allFin_iff (hR y y B a F F hB ha hF hF).1).mpr fun i hi => ⟨_, (hR y y B a F F hB ha hF hF).2 i hi⟩

/-- non-vacuity of C111_reversed_violated: the spinning hole of the other examples meets its hypotheses. -/
example (contig ndebug useCheb : Bool) : ∃ (E : Env CR) (x : ℕ → ℝ) (A : ℕ → ℕ → ℕ → ℝ) (g : Grid CR) (e₁ e₂ : Eom CR) (ix : ℕ),
    Exact E freeP g freeQ x A ∧ 4 ≤ freeP.nx ∧ freeQ.Ok ∧ freeQ.a ≠ 0 ∧ freeQ.k0 + freeQ.km1 ≠ 0 ∧ freeQ.lo < freeQ.up ∧ Eom.Of g freeP e₁ ∧
    Eom.Of g (freeP.spin (-freeQ.a)) e₂ ∧ ix < freeP.nx ∧ 0 < radPt E.useCheb freeP.nx freeQ.lo freeQ.up ix ∧
    1 / 10 ^ 16 < freeQ.L - radPt E.useCheb freeP.nx freeQ.lo freeQ.up ix := by
  obtain ⟨E, x, A, g, e₁, h, he₁, ho, h0, h1, h2, hk0, hk⟩ := free_exact contig ndebug useCheb
  obtain ⟨e₂, _, he₂⟩ := Eom.Of.exists (h.spin (-freeQ.a)).setup
  have hlo : compR 100 (9/10) = 900 / 1009 := by unfold compR; norm_num
  have z1 : freeP.nx = 33 := rfl
  obtain ⟨ix, hix, hR⟩ : ∃ ix, ix < 33 ∧ radPt E.useCheb 33 freeQ.lo freeQ.up ix = 900 / 1009 := by
    cases E.useCheb
    · exact ⟨0, by omega, by simp only [radPt, freeQ, demoQ, hlo]; norm_num⟩
    · refine ⟨32, by omega, ?_⟩
      simp only [radPt, freeQ, demoQ, hlo, chebPt]
      rw [show Real.pi * ((32 : ℕ) : ℝ) / (((33 : ℕ) : ℝ) - 1) = Real.pi by push_cast; field_simp; norm_num, Real.cos_pi]
      norm_num
  refine ⟨E, x, A, g, e₁, e₂, ix, h, by decide, ho, by simp [freeQ, demoQ], hk, h1, he₁, he₂, by rw [z1]; exact hix, ?_, ?_⟩
  · rw [z1, hR]; norm_num
  · rw [z1, hR]; simp only [freeQ, demoQ]; norm_num

/-- non-vacuity of C111_no_spin: runs of 3 steps around a hole without spin that stay finite, from a state that differs from its reversal. -/
example (contig ndebug useCheb : Bool) : ∃ (E : Env CR) (x : ℕ → ℝ) (A : ℕ → ℕ → ℕ → ℝ) (g : Grid CR) (e : Eom CR) (f₁ f₂ : Field CR),
    Exact E stillP g stillQ x A ∧ stillQ.a = 0 ∧ stillQ.km1 = 0 ∧ stillQ.k1 = 0 ∧ stillQ.k2 = 0 ∧ Eom.Of g stillP e ∧
    f₁.Sized (stillP.nx * stillP.nlat * stillP.nphi) ∧ f₂.Sized (stillP.nx * stillP.nlat * stillP.nphi) ∧ Reversed g.d f₁.n f₂.n ∧
    StaysFinite g e f₁ f₁ 3 ∧ gv f₁.n (g.d.pos3 0 0 1) ≠ gv f₂.n (g.d.pos3 0 0 1) := by
  obtain ⟨E, x, A, g, h, ho, h0, h1, h2, ha, _, _⟩ := still_exact contig ndebug useCheb
  obtain ⟨e, _, he⟩ := Eom.Of.exists h.setup
  have ht := h.setup.total
  have hw := h.setup.wf
  have hk0 : stillQ.k0 ≠ 0 := by simp [stillQ, freeQ, demoQ]
  obtain ⟨y, hy⟩ : ∃ y : ℕ → ℝ, y = fun i : ℕ => (i : ℝ) + 1 := ⟨_, rfl⟩
  obtain ⟨ε, hε, key⟩ := C74_small_free_fields_stay_finite h he ho h0 h1 h2 hk0 rfl rfl rfl rfl rfl y y 3
  obtain ⟨mk, hmkd⟩ : ∃ mk : (ℕ → ℝ) → Field CR, mk = fun w => ⟨"f", tab g.d.total fun i => fin (w i), tab g.d.total fun i => fin (w i),
    tab g.d.total fun i => fin (w i), tab g.d.total fun i => fin (w i), g.d.total⟩ := ⟨_, rfl⟩
  have hmk : ∀ w, (mk w).Sized (stillP.nx * stillP.nlat * stillP.nphi) := fun w => by rw [← ht, hmkd]; simp [Field.Sized]
  have hgv : ∀ (w : ℕ → ℝ) i, i < g.d.total → gv (mk w).n i = fin (w i) := fun w i hi => by rw [hmkd]; exact gv_tab hi
  refine ⟨E, x, A, g, e, mk fun i => ε / 2 * y i, mk fun i => ε / 2 * y (g.d.azi i), h, ha, rfl, rfl, rfl, he, hmk _, hmk _, ?_, ?_, ?_⟩
  · rw [reversed_iff hw.ok]
    intro i hi
    rw [hgv _ i hi, hgv _ _ (g.d.azi_lt hi)]
  · exact key (ε / 2) (by rw [abs_of_pos (by linarith)]; linarith) _ _ (hmk _) (hmk _) (fun i hi => hgv _ i (by rw [ht]; exact hi))
      (fun i hi => hgv _ i (by rw [ht]; exact hi))
  · have d : g.d.nphi = stillP.nphi := by rw [h.setup.dims]
    have d2 : stillP.nphi = freeP.nphi := rfl
    have hr : g.d.InR 0 0 1 := ⟨by rw [h.setup.dims]; show 0 < stillP.nx; decide, by rw [h.setup.dims]; show 0 < stillP.nlat; decide,
      by rw [h.setup.dims]; show 1 < stillP.nphi; decide⟩
    have hr' : g.d.InR 0 0 (opp g.d.nphi 1) := ⟨hr.1, hr.2.1, opp_lt hr.2.2⟩
    have hne : opp g.d.nphi 1 ≠ 1 := by rw [d]; decide
    rw [hgv _ _ (g.d.pos3_lt hr), hgv _ _ (g.d.pos3_lt hr), g.d.azi_pos3 hr, hy]
    intro hh
    rw [fin_inj] at hh
    have := mul_left_cancel₀ (by linarith : ε / 2 ≠ 0) hh
    have h3 : (g.d.pos3 0 0 1 : ℝ) = g.d.pos3 0 0 (opp g.d.nphi 1) := by linarith
    have h4 : g.d.pos3 0 0 1 = g.d.pos3 0 0 (opp g.d.nphi 1) := by exact_mod_cast h3
    have h5 := congrArg g.d.dP h4
    rw [g.d.dP_pos3 hr, g.d.dP_pos3 hr'] at h5
    exact hne h5.symm

end SFK
