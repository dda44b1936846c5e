import Verif.Spec.Env
import Verif.Lemmas.Grid
import Verif.Props.FD
import Verif.Props.Cheb
import Verif.Props.SphereMath
/-
The constructor of Grid: it succeeds on admissible sizes, and what the object then contains.
-/
namespace SFK
open Scalar CR

namespace Grid
variable {α : Type} [Scalar α]

/-- The radial member the constructor builds. -/
def radialOf (E : Env α) (Rmin Rmax : α) (nx : Nat) : Radial α :=
  if E.useCheb then .cheb
    { n := nx, lower := Rmin, upper := Rmax, jacobian := (Rmax - Rmin) / 2,
      pts := tab nx fun i => (Rmax - Rmin) / 2 * cos (pi * dbl i / (dbl nx - 1)) + ((Rmax + Rmin) / 2),
      lowPass := tab nx fun i => exp (-40 * pown (dbl i / dbl nx) 16), dct := E.dct nx, ndebug := E.ndebug }
  else .fd (FD.mk' nx Rmin Rmax E.ndebug)

theorem ctor_wf {E : Env α} {nx nl nm nlat nphi : Nat} (hE : E.Sized nx nl nm nlat nphi)
    (hz : Sizes E.useCheb nx nl nlat nphi) (cl Rmin Rmax : α) :
    ∃ g, ctor E cl Rmin Rmax nx nl nm nlat nphi = .ok g ∧ g.Wf ∧ g.d = ⟨nx, nl, nm, nlat, nphi, E.contig, E.ndebug⟩ ∧
      g.cl = cl ∧ g.radial = radialOf E Rmin Rmax nx ∧ g.sphere.sht = E.sht nl nm nlat nphi ∧ g.Rmin = Rmin ∧ g.Rmax = Rmax := by
  obtain ⟨s, e1, hs, a1, a2, a3, a4, a5, a6⟩ := Sphere.mk'_wf (nd := E.ndebug) hE.api hE.alloc hz.nl_lt
  have hx : 2 ≤ nx ∧ nx < W := by
    have h1 := hz.nx_min
    have h2 := hz.fits
    have h3 : nx ≤ nx * nlat * nphi :=
      Nat.le_trans (Nat.le_mul_of_pos_right _ hz.nlat_pos) (Nat.le_mul_of_pos_right _ hz.nphi_pos)
    refine ⟨?_, by omega⟩
    split at h1 <;> omega
  have hd : (⟨nx, nl, nm, nlat, nphi, E.contig, E.ndebug⟩ : Dims).Ok :=
    ⟨by show 0 < nx; omega, hz.nlat_pos, hz.nphi_pos, hz.fits, hz.fitsl⟩
  have e2 : mkRadial E nx Rmin Rmax = .ok (radialOf E Rmin Rmax nx) := by
    unfold mkRadial
    unfold radialOf
    cases hc : E.useCheb
    · rfl
    · simp only [if_true]
      rw [hE.plan, Cheb.mk'_eq, ok_bind]
  have hr : (radialOf E Rmin Rmax nx).Wf nx := by
    unfold radialOf
    have h1 := hz.nx_min
    cases hc : E.useCheb
    · rw [hc] at h1
      exact ⟨rfl, h1, hx.2⟩
    · exact ⟨rfl, ⟨hx.1, hx.2, by simp, by simp, hE.dct⟩⟩
  obtain ⟨g, f1, f2, f3, f4, f5, f6, f7, f8⟩ := mk'_wf hd hs a3 hr a4 a1 a2 cl Rmin Rmax
  refine ⟨g, ?_, f2, f3, f4, f6, by rw [f5, a5], f7, f8⟩
  unfold ctor
  rw [e1, ok_bind, e2, ok_bind, f1]

end Grid

/-- Libraries with the documented behaviour exist for all resolved sizes (so the hypotheses `Env.Sized`, `Env.Exact`
are satisfiable), in every build configuration. -/
theorem exists_env_inj (contig ndebug useCheb : Bool) {nx nl nm nlat nphi : ℕ} (hM : nm ≤ nl) (hL : nl < nlat)
    (hp : 2 * nm < nphi) :
    ∃ (E : Env CR) (x : ℕ → ℝ) (A : ℕ → ℕ → ℕ → ℝ), E.contig = contig ∧ E.ndebug = ndebug ∧ E.useCheb = useCheb ∧
      E.Exact nx nl nm nlat nphi x A ∧ ∀ i j, i < nlat → j < nlat → x i = x j → i = j := by
  obtain ⟨t, x, A, h1, h2, h3⟩ := exists_shtns_inj contig hM hL hp
  obtain ⟨dct, hd⟩ := exists_fftw nx
  exact ⟨⟨contig, ndebug, useCheb, fun _ _ _ _ => t, fun _ _ _ _ => t.nspat, fun _ => dct, fun _ => true⟩, x, A, rfl, rfl,
    rfl, ⟨⟨h1, rfl, rfl, hd.len⟩, h2, hd⟩, h3⟩

theorem exists_env (contig ndebug useCheb : Bool) {nx nl nm nlat nphi : ℕ} (hM : nm ≤ nl) (hL : nl < nlat)
    (hp : 2 * nm < nphi) :
    ∃ (E : Env CR) (x : ℕ → ℝ) (A : ℕ → ℕ → ℕ → ℝ), E.contig = contig ∧ E.ndebug = ndebug ∧ E.useCheb = useCheb ∧
      E.Exact nx nl nm nlat nphi x A := by
  obtain ⟨E, x, A, h1, h2, h3, h4, _⟩ := exists_env_inj contig ndebug useCheb (nx := nx) hM hL hp
  exact ⟨E, x, A, h1, h2, h3, h4⟩

/-- radial points in exact arithmetic -/
theorem radialOf_pt {E : Env CR} {nx : ℕ} (h2 : 2 ≤ nx) (hW : nx < W) (lo up : ℝ) {ix : ℕ} (hi : ix < nx) :
    (Grid.radialOf E (fin lo) (fin up) nx).ptV ix = fin (radPt E.useCheb nx lo up ix) := by
  have h1 : ((nx : ℝ) - 1) ≠ 0 := by
    have : (2 : ℝ) ≤ nx := by exact_mod_cast h2
    linarith
  unfold Grid.radialOf radPt
  cases hc : E.useCheb
  · simp only [if_false, Bool.false_eq_true]
    exact C10_points nx h2 hW lo up _ ix
  · simp only [if_true]
    show gv (tab nx _) ix = _
    rw [gv_tab hi]
    unfold chebPt
    simp [h1]

theorem Sizes.two {uc : Bool} {nx nl nlat nphi : ℕ} (hz : Sizes uc nx nl nlat nphi) : 2 ≤ nx ∧ nx < W := by
  have h1 := hz.nx_min
  have h2 := hz.fits
  have h3 : nx ≤ nx * nlat * nphi :=
    Nat.le_trans (Nat.le_mul_of_pos_right _ hz.nlat_pos) (Nat.le_mul_of_pos_right _ hz.nphi_pos)
  refine ⟨?_, by omega⟩
  split at h1 <;> omega

end SFK
