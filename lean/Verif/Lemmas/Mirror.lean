import Verif.Lemmas.LinEom
import Verif.Spec.Mirror
import Mathlib.Algebra.Polynomial.Eval.Degree
import Mathlib.Algebra.Polynomial.Eval.SMul
import Mathlib.Algebra.BigOperators.Intervals
/-
Reflection about the equatorial plane.
-/
namespace SFK
open Scalar CR Polynomial

/-! ## Parity of the harmonics -/

theorem iter_deriv_comp_neg (p : ℝ[X]) (k : ℕ) : (derivative^[k] p).comp (-X) = (-1) ^ k * derivative^[k] (p.comp (-X)) := by
  induction k generalizing p with
  | zero => simp
  | succ k ih =>
    rw [Function.iterate_succ_apply, ih, Function.iterate_succ_apply, derivative_comp, derivative_neg, derivative_X]
    rw [show (-1 : ℝ[X]) * (derivative p).comp (-X) = -((derivative p).comp (-X)) by ring, iterate_derivative_neg]
    ring

theorem legP_comp_neg (l : ℕ) : (legP l).comp (-X) = (-1) ^ l * legP l := by
  unfold legP
  rw [mul_comp, C_comp, iter_deriv_comp_neg]
  have : ((X ^ 2 - 1 : ℝ[X]) ^ l).comp (-X) = (X ^ 2 - 1) ^ l := by
    rw [pow_comp, sub_comp, pow_comp, X_comp, one_comp]
    ring
  rw [this]
  ring

theorem leg_parity (l m : ℕ) (y : ℝ) : (derivative^[m] (legP l)).eval (-y) = (-1) ^ (l + m) * (derivative^[m] (legP l)).eval y := by
  have h := iter_deriv_comp_neg (legP l) m
  rw [legP_comp_neg] at h
  have e : derivative^[m] ((-1) ^ l * legP l) = (-1) ^ l * derivative^[m] (legP l) := by
    have := iterate_derivative_C_mul ((-1 : ℝ) ^ l) (legP l) m
    rw [C_pow, C_neg, C_1] at this
    exact this
  rw [e] at h
  have := congrArg (eval y) h
  rw [eval_comp] at this
  simp only [eval_neg, eval_X, eval_mul, eval_pow, eval_one] at this
  rw [this, pow_add]
  ring

theorem ThN_mir (l m : ℕ) (θ : ℝ) : ThN l m (Real.pi - θ) = (-1) ^ (l + m) * ThN l m θ := by
  unfold ThN
  rw [Real.sin_pi_sub, Real.cos_pi_sub, leg_parity]
  ring

/-- the sign a coefficient gets -/
noncomputable def eps (l m : ℕ) : ℝ := (-1) ^ (l + m)

theorem eps_sq (l m : ℕ) : eps l m * eps l m = 1 := by
  unfold eps
  rw [← mul_pow]; simp

theorem ThZ_mir (l m : ℕ) (θ : ℝ) : ThZ l (m : ℤ) (Real.pi - θ) = eps l m * ThZ l (m : ℤ) θ := by
  rw [ThZ_nat, ThN_mir]; rfl

theorem fieldR_mir (L M : ℕ) (c : ℕ → ℕ → ℂ) (θ φ : ℝ) :
    fieldR L M (fun l m => (eps l m : ℂ) * c l m) θ φ = fieldR L M c (Real.pi - θ) φ := by
  unfold fieldR
  refine Finset.sum_congr rfl fun l _ => ?_
  congr 1
  · rw [Complex.re_ofReal_mul, ThN_mir]
    show eps l 0 * (c l 0).re * ThN l 0 θ = (c l 0).re * (eps l 0 * ThN l 0 θ)
    ring
  · congr 2
    refine Finset.sum_congr rfl fun m _ => ?_
    unfold Ylm
    rw [ThZ_mir]
    push_cast
    ring

section ana
variable {A : ℕ → ℕ → ℕ → ℝ} {nlat nphi L M : ℕ} {x : ℕ → ℝ}

theorem anaN_mir (h : EquatorSym nlat L M x A) (u : ℕ → ℕ → ℝ) {l m : ℕ} (hl : l ≤ L) (hml : m ≤ l) (hm : m ≤ M) :
    anaN A nlat nphi (fun it ip => u (nlat - 1 - it) ip) l m = (eps l m : ℂ) * anaN A nlat nphi u l m := by
  unfold anaN
  rw [← Finset.sum_range_reflect, Finset.mul_sum]
  refine Finset.sum_congr rfl fun it hit => ?_
  rw [Finset.mem_range] at hit
  beta_reduce
  rw [h.weight l m it hl hml hm hit, show nlat - 1 - (nlat - 1 - it) = it by omega]
  unfold eps
  push_cast
  ring

theorem arccos_mir (h : EquatorSym nlat L M x A) {it : ℕ} (hit : it < nlat) : Real.arccos (x (nlat - 1 - it)) = Real.pi - Real.arccos (x it) := by
  rw [h.node it hit, Real.arccos_neg]

end ana

section ops
variable {s : Sphere CR} {contig : Bool} {x : ℕ → ℝ} {A : ℕ → ℕ → ℕ → ℝ}

theorem mulN_mir (h : EquatorSym s.nlat s.lmax s.mmax x A) (μ : ℕ → ℕ → ℂ) (u : ℕ → ℕ → ℝ) {it : ℕ} (hit : it < s.nlat) (ip : ℕ) :
    mulN s x A μ (fun it ip => u (s.nlat - 1 - it) ip) it ip = mulN s x A μ u (s.nlat - 1 - it) ip := by
  unfold mulN
  rw [arccos_mir h hit, ← fieldR_mir]
  apply fieldR_congr
  intro l m h1 h2 h3
  rw [anaN_mir h u h1 h2 h3]
  split_ifs <;> ring

theorem phiC_mir (L M : ℕ) (c : ℕ → ℕ → ℂ) : phiC L M (fun l m => (eps l m : ℂ) * c l m) = fun l m => (eps l m : ℂ) * phiC L M c l m := by
  funext l m; unfold phiC; split_ifs <;> ring
theorem lowC_mir (L : ℕ) (c : ℕ → ℕ → ℂ) : lowC L (fun l m => (eps l m : ℂ) * c l m) = fun l m => (eps l m : ℂ) * lowC L c l m := by
  funext l m; unfold lowC; split_ifs <;> simp
theorem topC_mir (L : ℕ) (c : ℕ → ℕ → ℂ) : topC L (fun l m => (eps l m : ℂ) * c l m) = fun l m => (eps l m : ℂ) * topC L c l m := by
  funext l m; unfold topC; split_ifs <;> simp

theorem sphXV_mir (L M : ℕ) (c : ℕ → ℕ → ℂ) (θ φ : ℝ) : sphXV L M (fun l m => (eps l m : ℂ) * c l m) θ φ = sphXV L M c (Real.pi - θ) φ := by
  have e : ∀ c : ℕ → ℕ → ℂ, fieldR L M (fun l m => (eps l m : ℂ) * c l m) = fun θ φ => fieldR L M c (Real.pi - θ) φ := fun c => by
    funext θ φ; exact fieldR_mir L M c θ φ
  unfold sphXV
  rw [phiC_mir, lowC_mir, topC_mir, e, e, e]
  unfold dTh dPh
  beta_reduce
  rw [deriv_comp_const_sub (f := fun t => fieldR L M (lowC L c) t φ), Real.cos_pi_sub, Real.sin_pi_sub]
  ring

theorem sphXG_congr {L M : ℕ} (hLM : L ≤ M + 1) {c c' : ℕ → ℕ → ℂ} (h : ∀ l m, l ≤ L → m ≤ l → m ≤ M → c l m = c' l m) {θ : ℝ} (φ : ℝ)
    (hs : Real.sin θ ≠ 0) : sphXG L M c θ φ = sphXG L M c' θ φ := by
  have e : ∀ T : (ℕ → ℕ → ℂ) → ℕ → ℕ → ℂ, (∀ l m, l ≤ L → m ≤ l → m ≤ M → T c l m = T c' l m) → fieldR L M (T c) = fieldR L M (T c') := fun T hT => by
    funext θ φ; exact fieldR_congr hT θ φ
  rw [sphXG_eq hLM _ _ hs, sphXG_eq hLM _ _ hs]
  unfold sphXV
  rw [e (lowC L) fun l m a b d => by unfold lowC; rw [h l m a b d], e (topC L) fun l m a b d => by unfold topC; rw [h l m a b d],
    e (phiC L M) fun l m a b d => by unfold phiC; rw [h l m a b d]]

theorem sphXN_mir {nlat nphi L M : ℕ} (hLM : L ≤ M + 1) (h : EquatorSym nlat L M x A) (hin : ∀ it, it < nlat → -1 < x it ∧ x it < 1)
    (u : ℕ → ℕ → ℝ) {it : ℕ} (hit : it < nlat) (φ : ℝ) :
    sphXG L M (anaN A nlat nphi fun it ip => u (nlat - 1 - it) ip) (Real.arccos (x it)) φ
      = sphXG L M (anaN A nlat nphi u) (Real.arccos (x (nlat - 1 - it))) φ := by
  have hs : ∀ it, it < nlat → Real.sin (Real.arccos (x it)) ≠ 0 := by
    intro it hit
    rw [Real.sin_arccos]
    have := hin it hit
    have : 0 < 1 - x it ^ 2 := by nlinarith [this.1, this.2]
    exact (Real.sqrt_pos.mpr this).ne'
  rw [sphXG_congr hLM (c' := fun l m => (eps l m : ℂ) * anaN A nlat nphi u l m) (fun l m a b d => anaN_mir h u a b d) _ (hs it hit),
    sphXG_eq hLM _ _ (hs it hit), sphXG_eq hLM _ _ (hs _ (by omega)), sphXV_mir, arccos_mir h hit]

end ops

/-! ## The grid -/

/-- the flat index of the grid point on the other side of the equator -/
def Dims.mir (d : Dims) (i : ℕ) : ℕ := d.pos3 (d.dX i) (d.nlat - 1 - d.dT i) (d.dP i)

section lift
variable {d : Dims}

theorem Dims.mir_in {i : ℕ} (hi : i < d.total) : d.InR (d.dX i) (d.nlat - 1 - d.dT i) (d.dP i) := by
  obtain ⟨h1, _⟩ := d.dec3 hi
  exact ⟨h1.1, by have := h1.2.1; omega, h1.2.2⟩

theorem Dims.mir_lt {i : ℕ} (hi : i < d.total) : d.mir i < d.total := d.pos3_lt (d.mir_in hi)

theorem Dims.mir_dec {i : ℕ} (hi : i < d.total) : d.dX (d.mir i) = d.dX i ∧ d.dT (d.mir i) = d.nlat - 1 - d.dT i ∧ d.dP (d.mir i) = d.dP i :=
  ⟨d.dX_pos3 (d.mir_in hi), d.dT_pos3 (d.mir_in hi), d.dP_pos3 (d.mir_in hi)⟩

theorem Dims.mir_pos3 {ix it ip : ℕ} (h : d.InR ix it ip) : d.mir (d.pos3 ix it ip) = d.pos3 ix (d.nlat - 1 - it) ip := by
  unfold Dims.mir
  rw [d.dX_pos3 h, d.dT_pos3 h, d.dP_pos3 h]

theorem lift_lines_mir (h : d.Ok) {T : List CR → List CR} (hT : LinR d.nx T) :
    ∃ D, ActsF d.total (fun v => d.ofLines fun it ip => T (d.lineOf v it ip)) D ∧ RotF d.total d.mir D := by
  obtain ⟨D, a, b⟩ := hT
  refine ⟨fun u i => D (fun ix => u (d.pos3 ix (d.dT i) (d.dP i))) (d.dX i), ?_, ?_⟩
  · intro v u hv
    refine ⟨by simp, fun i hi => ?_⟩
    obtain ⟨h1, h2⟩ := d.dec3 hi
    unfold Dims.ofLines Dims.mk3
    rw [gv_tab hi]
    refine (a _ (fun ix => u (d.pos3 ix (d.dT i) (d.dP i))) ⟨by simp, fun ix hx => ?_⟩).2 _ h1.1
    unfold Dims.lineOf
    rw [gv_tab hx, hv.at3 h ⟨hx, h1.2.1, h1.2.2⟩]
  · intro u i hi
    obtain ⟨h1, h2⟩ := d.dec3 hi
    obtain ⟨r1, r2, r3⟩ := d.mir_dec hi
    beta_reduce
    rw [r1, r2, r3]
    refine a.congr (fun j hj => ?_) _ h1.1
    rw [d.mir_pos3 ⟨hj, h1.2.1, h1.2.2⟩]

theorem lift_shells_mir {D : (ℕ → ℕ → ℝ) → ℕ → ℕ → ℝ}
    (hc : ∀ u w : ℕ → ℕ → ℝ, (∀ it ip, it < d.nlat → ip < d.nphi → u it ip = w it ip) → D u = D w)
    (hD : ∀ u it ip, it < d.nlat → D (fun it ip => u (d.nlat - 1 - it) ip) it ip = D u (d.nlat - 1 - it) ip) :
    RotF d.total d.mir (fun u i => D (fun it ip => u (d.pos3 (d.dX i) it ip)) (d.dT i) (d.dP i)) := by
  intro u i hi
  obtain ⟨h1, h2⟩ := d.dec3 hi
  obtain ⟨r1, r2, r3⟩ := d.mir_dec hi
  beta_reduce
  rw [r1, r2, r3, ← hD _ _ _ h1.2.1]
  have := hc (fun it ip => u (d.mir (d.pos3 (d.dX i) it ip))) (fun it ip => u (d.pos3 (d.dX i) (d.nlat - 1 - it) ip))
    (fun it ip ht hp => by rw [d.mir_pos3 ⟨h1.1, ht, hp⟩])
  exact congrFun (congrFun this _) _

end lift

variable {E : Env CR} {P : ParamRec CR} {g : Grid CR} {q : Phys} {x : ℕ → ℝ} {A : ℕ → ℕ → ℕ → ℝ}

/-- `T` acts on finite data and commutes with the reflection. -/
def MirF (d : Dims) (T : List CR → List CR) : Prop := ∃ D, ActsF d.total T D ∧ RotF d.total d.mir D

namespace Exact
variable (h : Exact E P g q x A) (hs : EquatorSym P.nlat P.nl P.nm x A)
include h hs

theorem eqSym : EquatorSym g.sphere.nlat g.sphere.lmax g.sphere.mmax x A := by
  have hw := h.setup.wf
  rw [hw.nlat, hw.lmax, hw.mmax, h.setup.dims]
  exact hs

theorem mir_mul {T : List CR → List CR} {μ : ℕ → ℕ → ℂ} (hT : ∀ v u, Is2 g.d.contig g.sphere.nlat g.sphere.nphi v u →
    Is2 g.d.contig g.sphere.nlat g.sphere.nphi (T v) (mulN g.sphere x A μ u)) :
    MirF g.d (fun v => g.d.ofShells fun ix => T (g.d.shellOf v ix)) := by
  have hw := h.setup.wf
  have hT' := hT
  rw [hw.nlat, hw.nphi] at hT'
  refine ⟨_, lift_shells hw.ok _ hT', lift_shells_mir ?_ ?_⟩
  · intro u w hu
    exact mulN_congr μ (by rw [hw.nlat, hw.nphi]; exact hu)
  · intro u it ip hit
    have := mulN_mir (h.eqSym hs) μ u (it := it) (by rw [hw.nlat]; exact hit) ip
    rw [hw.nlat] at this
    exact this

theorem mir_ops : MirF g.d g.prP ∧ MirF g.d g.p2rP ∧ MirF g.d g.pphiP ∧ MirF g.d g.plapP ∧ MirF g.d g.filtP := by
  have hw := h.setup.wf
  have hm := h.math
  exact ⟨lift_lines_mir hw.ok h.linR_opr, lift_lines_mir hw.ok h.linR_op2r, h.mir_mul hs (fun v u hv => phiP_is2 hw.sph hm hv),
    h.mir_mul hs (fun v u hv => lapP_is2 hw.sph hm hv), h.mir_mul hs (fun v u hv => filtP_is2 hw.sph hm hv)⟩

theorem mir_X (hml : P.nl ≤ P.nm + 1) : MirF g.d g.psphXP := by
  have hw := h.setup.wf
  have hm := h.math
  have hml' : g.sphere.lmax ≤ g.sphere.mmax + 1 := by rw [hw.mmax, hw.lmax, h.setup.dims]; exact hml
  have hT := fun v u hv => sphXP_is2 (v := v) (u := u) hw.sph hm h.setup.full hv
  have hin := hm.inside
  have e1 := hw.nlat
  have e2 := hw.nphi
  have hs' := h.eqSym hs
  generalize g.sphere.lmax = L at hT hml' hs'
  generalize g.sphere.mmax = M at hT hml' hs'
  rw [e1, e2] at hT
  rw [e1] at hin hs'
  refine ⟨_, lift_shells hw.ok (fun u it ip => sphXG L M (anaN A g.d.nlat g.d.nphi u) (Real.arccos (x it)) (phiN g.d.nphi ip)) hT,
    lift_shells_mir (d := g.d) (D := fun u it ip => sphXG L M (anaN A g.d.nlat g.d.nphi u) (Real.arccos (x it)) (phiN g.d.nphi ip)) ?_ ?_⟩
  · intro u w hu
    funext it ip
    exact sphXN_congr hu _ _
  · intro u it ip hit
    exact sphXN_mir hml' hs' hin u hit _

end Exact

end SFK
