import Verif.Spec.TimeOrder
import Verif.Lemmas.LinEom
import Verif.Lemmas.RK4
import Verif.Props.Kerr
import Mathlib.Analysis.Analytic.Constructions
import Mathlib.Analysis.Analytic.Linear
import Mathlib.Analysis.Calculus.FDeriv.Analytic
import Mathlib.Analysis.ODE.ExistUnique
/-
The semi-discrete equation as an analytic vector field on finite states.
-/
namespace SFK
open Scalar CR Filter Topology

/-! ### the squared angular gradient as a sum of products of linear functionals -/

variable {E : Env CR} {P : ParamRec CR} {g : Grid CR} {e : Eom CR} {q : Phys} {x : ℕ → ℝ} {A : ℕ → ℕ → ℕ → ℝ}

theorem Exact.opX_quad (h : Exact E P g q x A) : ∃ X r1 r2 s1 s2 t : (ℕ → ℝ) → ℕ → ℝ, ActsF g.d.total g.psphXP X ∧
    LinF g.d.total r1 ∧ LinF g.d.total r2 ∧ LinF g.d.total s1 ∧ LinF g.d.total s2 ∧ LinF g.d.total t ∧
    ∀ u i, i < g.d.total → X u i = -(r1 u i * s1 u i - r2 u i * s2 u i) + t u i ^ 2 := by
  have hw := h.setup.wf
  have hm := h.math
  have hT := fun v u hv => sphXP_is2 (v := v) (u := u) hw.sph hm h.setup.full hv
  have e1 := hw.nlat
  have e2 := hw.nphi
  generalize g.sphere.lmax = L at hT
  generalize g.sphere.mmax = M at hT
  rw [e1, e2] at hT
  have hana : ∀ (a b : ℝ) (u w : ℕ → ℕ → ℝ), anaN A g.d.nlat g.d.nphi (fun it ip => a * u it ip + b * w it ip)
      = fun l m => a * anaN A g.d.nlat g.d.nphi u l m + b * anaN A g.d.nlat g.d.nphi w l m := fun a b u w =>
    funext fun l => funext fun m => anaN_comb a b u w l m
  have kR : ∀ (a b : ℝ) (u w : ℕ → ℕ → ℝ) (it ip : ℕ),
      fieldC L (cutC M (raisedG L M (extC M (anaN A g.d.nlat g.d.nphi (fun it ip => a * u it ip + b * w it ip))))) (Real.arccos (x it)) (phiN g.d.nphi ip)
      = a * fieldC L (cutC M (raisedG L M (extC M (anaN A g.d.nlat g.d.nphi u)))) (Real.arccos (x it)) (phiN g.d.nphi ip)
      + b * fieldC L (cutC M (raisedG L M (extC M (anaN A g.d.nlat g.d.nphi w)))) (Real.arccos (x it)) (phiN g.d.nphi ip) := by
    intro a b u w it ip
    rw [hana, extC_comb, up_comb, fieldC_comb]
  have kL : ∀ (a b : ℝ) (u w : ℕ → ℕ → ℝ) (it ip : ℕ),
      fieldC L (cutC M (loweredG L M (extC M (anaN A g.d.nlat g.d.nphi (fun it ip => a * u it ip + b * w it ip))))) (Real.arccos (x it)) (phiN g.d.nphi ip)
      = a * fieldC L (cutC M (loweredG L M (extC M (anaN A g.d.nlat g.d.nphi u)))) (Real.arccos (x it)) (phiN g.d.nphi ip)
      + b * fieldC L (cutC M (loweredG L M (extC M (anaN A g.d.nlat g.d.nphi w)))) (Real.arccos (x it)) (phiN g.d.nphi ip) := by
    intro a b u w it ip
    rw [hana, extC_comb, down_comb, fieldC_comb]
  refine ⟨_, _, _, _, _, _, lift_shells hw.ok (fun u it ip => sphXG L M (anaN A g.d.nlat g.d.nphi u) (Real.arccos (x it)) (phiN g.d.nphi ip)) hT,
    lift_shells_lin (d := g.d) (D := fun u it ip => (fieldC L (cutC M (raisedG L M (extC M (anaN A g.d.nlat g.d.nphi u)))) (Real.arccos (x it)) (phiN g.d.nphi ip)).re) ?_,
    lift_shells_lin (d := g.d) (D := fun u it ip => (fieldC L (cutC M (raisedG L M (extC M (anaN A g.d.nlat g.d.nphi u)))) (Real.arccos (x it)) (phiN g.d.nphi ip)).im) ?_,
    lift_shells_lin (d := g.d) (D := fun u it ip => (fieldC L (cutC M (loweredG L M (extC M (anaN A g.d.nlat g.d.nphi u)))) (Real.arccos (x it)) (phiN g.d.nphi ip)).re) ?_,
    lift_shells_lin (d := g.d) (D := fun u it ip => (fieldC L (cutC M (loweredG L M (extC M (anaN A g.d.nlat g.d.nphi u)))) (Real.arccos (x it)) (phiN g.d.nphi ip)).im) ?_,
    lift_shells_lin (d := g.d) (D := fun u it ip => fieldR L M (phiC L M (anaN A g.d.nlat g.d.nphi u)) (Real.arccos (x it)) (phiN g.d.nphi ip)) ?_, ?_⟩
  · intro a b u w it ip; beta_reduce; rw [kR]; simp
  · intro a b u w it ip; beta_reduce; rw [kR]; simp
  · intro a b u w it ip; beta_reduce; rw [kL]; simp
  · intro a b u w it ip; beta_reduce; rw [kL]; simp
  · intro a b u w it ip
    beta_reduce
    rw [hana, phiC_comb, fieldR_comb]
  · intro u i hi
    beta_reduce
    unfold sphXG
    rw [Complex.mul_re]

/-! ### finite states -/

/-- the state as a function of the flat index -/
noncomputable def extF {n : ℕ} (y : Fin n → ℝ) (i : ℕ) : ℝ := if h : i < n then y ⟨i, h⟩ else 0

theorem extF_val {n : ℕ} (y : Fin n → ℝ) (i : Fin n) : extF y i = y i := by simp [extF]

theorem arr_isF {n : ℕ} (y : Fin n → ℝ) : IsF n (arr y) (extF y) := by
  refine ⟨by simp [arr], fun i hi => ?_⟩
  unfold gv arr extF
  rw [List.getElem?_eq_getElem (by simpa using hi)]
  simp [hi]

theorem IsF.arr {n : ℕ} {v : List CR} {w : ℕ → ℝ} (h : IsF n v w) : v = arr fun i : Fin n => w i :=
  h.ext ((arr_isF _).congr fun i hi => by simp [extF, hi])

theorem arr_inj {n : ℕ} {y z : Fin n → ℝ} (h : arr y = arr z) : y = z := by
  funext i
  have := (arr_isF y).unique (h ▸ arr_isF z) i i.2
  rwa [extF_val, extF_val] at this

/-- a linear functional of one of the fields is analytic in the state -/
theorem LinF.analytic {n : ℕ} {D : (ℕ → ℝ) → ℕ → ℝ} (hD : LinF n D) (π : State n →L[ℝ] (Fin n → ℝ)) {i : ℕ} (hi : i < n) (s0 : State n) :
    AnalyticAt ℝ (fun s => D (extF (π s)) i) s0 := by
  have hadd : ∀ y z : Fin n → ℝ, extF (y + z) = fun j => 1 * extF y j + 1 * extF z j := fun y z => by
    funext j; unfold extF; split_ifs <;> simp
  have hsm : ∀ (a : ℝ) (y : Fin n → ℝ), extF (a • y) = fun j => a * extF y j + 0 * extF y j := fun a y => by
    funext j; unfold extF; split_ifs <;> simp
  let T : (Fin n → ℝ) →ₗ[ℝ] ℝ :=
    { toFun := fun y => D (extF y) i
      map_add' := fun y z => by rw [hadd, hD 1 1 _ _ i hi]; ring
      map_smul' := fun a y => by rw [hsm, hD a 0 _ _ i hi]; simp }
  exact (T.toContinuousLinearMap.comp π).analyticAt s0

theorem kin_analytic (q : Phys) {y : ℝ} (hy : y ≠ -1) : AnalyticAt ℝ q.kin y := by
  have h1 : AnalyticAt ℝ (fun y : ℝ => y + 1) y := analyticAt_id.add analyticAt_const
  have h1' : AnalyticAt ℝ (fun y : ℝ => 1 + y) y := analyticAt_const.add analyticAt_id
  have h0 : y + 1 ≠ 0 := fun h => hy (by linarith)
  have h0' : 1 + y ≠ 0 := fun h => hy (by linarith)
  unfold Phys.kin Kerr.kin
  fun_prop (disch := assumption)

theorem pot_analytic (q : Phys) (y : ℝ) : AnalyticAt ℝ q.pot y := by
  unfold Phys.pot Kerr.pot
  fun_prop

end SFK
