import Verif.Model.ScalarEom
import Verif.Model.Main
import Verif.Lemmas.Base
import Verif.Lemmas.Cheb
import Verif.Lemmas.Setup
/-
C76: in a build with assertions, every public routine stops the program before it reads or writes anything when one of its array
arguments has the wrong size.
-/
namespace SFK
open Scalar

set_option linter.unusedSimpArgs false

/-- "the call stops at an assertion" -/
def Aborts {σ : Type} (x : Exec σ) : Prop := x = .error .abort

theorem aborts_assert {σ : Type} {b : Bool} (h : b = false) (k : Unit → Exec σ) : Aborts (cassert false b >>= k) := by
  subst h; rfl

theorem aborts_step {σ : Type} {b : Bool} {k : Unit → Exec σ} (h : b = true → Aborts (k ())) : Aborts (cassert false b >>= k) := by
  cases b
  · rfl
  · exact h rfl

variable {α : Type} [Scalar α]

/-- C76, finite differences: a wrong input or output size stops `der`, `der2` and `filter`. -/
theorem C76_fd (fd : FD α) (hnd : fd.ndebug = false) (v dv : List α) :
    (v.length ≠ fd.n ∨ dv.length ≠ fd.n → Aborts (fd.der v dv) ∧ Aborts (fd.der2 v dv)) ∧
    (v.length ≠ fd.n → Aborts (fd.filter v)) := by
  refine ⟨fun h => ⟨?_, ?_⟩, fun h => ?_⟩
  · unfold FD.der; rw [hnd]
    refine aborts_step fun h1 => aborts_step fun h2 => ?_
    exfalso; simp at h1 h2; tauto
  · unfold FD.der2; rw [hnd]
    refine aborts_step fun h1 => aborts_step fun h2 => ?_
    exfalso; simp at h1 h2; tauto
  · unfold FD.filter; rw [hnd]
    refine aborts_step fun h1 => ?_
    exfalso; simp at h1; tauto

/-- C76, Chebyshev: a failed transform plan stops the constructor; a wrong input or output size stops the transforms, the derivative
and the filter. -/
theorem C76_cheb (c : Cheb α) (hnd : c.ndebug = false) (v w : List α) :
    (v.length ≠ c.n ∨ w.length ≠ c.n → Aborts (c.to_ch v w) ∧ Aborts (c.to_po v w) ∧ Aborts (c.der v w)) ∧
    (v.length ≠ c.n → Aborts (c.filter v)) := by
  refine ⟨fun h => ⟨?_, ?_, ?_⟩, fun h => ?_⟩
  · unfold Cheb.to_ch; rw [hnd]
    refine aborts_step fun h1 => aborts_step fun h2 => ?_
    exfalso; simp at h1 h2; tauto
  · unfold Cheb.to_po; rw [hnd]
    refine aborts_step fun h1 => aborts_step fun h2 => ?_
    exfalso; simp at h1 h2; tauto
  · unfold Cheb.der; rw [hnd]
    refine aborts_step fun h1 => aborts_step fun h2 => ?_
    exfalso; simp at h1 h2; tauto
  · unfold Cheb.filter; rw [hnd]
    refine aborts_step fun h1 => ?_
    exfalso; simp at h1; tauto

/-- C76, sphere: a wrong input or output size stops the transforms and the operators on one shell. -/
theorem C76_sphere (s : Sphere α) (hnd : s.ndebug = false) (J : Junk (Cx α)) (v w : List α) (y : List (Cx α)) (z : List (Cx α)) :
    (v.length ≠ s.nSph ∨ y.length ≠ s.nYlm → Aborts (s.to_Ylm J v y) ∧ Aborts (s.to_Sph J y v)) ∧
    (z.length ≠ s.nSph ∨ y.length ≠ (s.lmax + 1) ^ 2 → Aborts (s.to_YlmC J z y) ∧ Aborts (s.to_SphC J y z)) ∧
    (v.length ≠ s.nSph ∨ w.length ≠ s.nSph → Aborts (s.laplace_beltrami J v w) ∧ Aborts (s.partial_phi J v w) ∧
      Aborts (s.sphereX J v w)) ∧
    (v.length ≠ s.nSph → Aborts (s.filter J v)) ∧
    (v.length ≠ s.nSph ∨ z.length ≠ s.nSph → Aborts (s.raise J v z) ∧ Aborts (s.lower J v z)) ∧
    (v.length ≠ s.nSph ∨ w.length ≠ s.lmax → Aborts (s.power_spectrum J v w)) := by
  have t1 : ∀ g v w, (v.length ≠ s.nSph ∨ w.length ≠ s.nSph) → Aborts (s.throughYlm J g v w) := by
    intro g v w h
    unfold Sphere.throughYlm; rw [hnd]
    refine aborts_step fun h1 => aborts_step fun h2 => ?_
    exfalso; simp at h1 h2; tauto
  have t2 : ∀ lp v w, (v.length ≠ s.nSph ∨ w.length ≠ s.nSph) → Aborts (s.throughYlmC J lp v w) := by
    intro g v w h
    unfold Sphere.throughYlmC; rw [hnd]
    refine aborts_step fun h1 => aborts_step fun h2 => ?_
    exfalso; simp at h1 h2; tauto
  refine ⟨fun h => ⟨?_, ?_⟩, fun h => ⟨?_, ?_⟩, fun h => ⟨t1 _ _ _ h, t1 _ _ _ h, ?_⟩, fun h => t1 _ _ _ (Or.inl h),
    fun h => ⟨t2 _ _ _ h, t2 _ _ _ h⟩, fun h => ?_⟩
  · unfold Sphere.to_Ylm; rw [hnd]
    refine aborts_step fun h1 => aborts_step fun h2 => ?_
    exfalso; simp at h1 h2; tauto
  · unfold Sphere.to_Sph; rw [hnd]
    refine aborts_step fun h1 => aborts_step fun h2 => ?_
    exfalso; simp at h1 h2; tauto
  · unfold Sphere.to_YlmC; rw [hnd]
    refine aborts_step fun h1 => aborts_step fun h2 => ?_
    exfalso; simp at h1 h2; tauto
  · unfold Sphere.to_SphC; rw [hnd]
    refine aborts_step fun h1 => aborts_step fun h2 => ?_
    exfalso; simp at h1 h2; tauto
  · unfold Sphere.sphereX; rw [hnd]
    refine aborts_step fun h1 => aborts_step fun h2 => ?_
    exfalso; simp at h1 h2; tauto
  · unfold Sphere.power_spectrum; rw [hnd]
    refine aborts_step fun h1 => aborts_step fun h2 => ?_
    exfalso; simp at h1 h2; tauto

/-- C76, constructors: a transform plan that could not be made stops the Chebyshev constructor, a transform library that wants
another amount of storage than it announces stops the sphere constructor. -/
theorem C76_constructors (n nl nm nlat nphi ns : Nat) (lo up : α) (dct : List α → List α) (sht : Shtns α) :
    Aborts (Cheb.mk' n lo up dct false false) ∧ (sht.nspat ≠ ns → Aborts (Sphere.mk' nl nm nlat nphi ns sht false)) := by
  refine ⟨?_, fun h => ?_⟩
  · unfold Cheb.mk'
    dsimp only
    rw [Cheb.mkPts_eq, Cheb.mkLow_eq]
    rfl
  · unfold Sphere.mk'
    exact aborts_assert (by simpa using h) _

omit [Scalar α] in
/-- C76, row and slab access: with either array of the wrong size every routine stops, whatever the position arguments.  (For
`get_row_R_ph` only the grid argument is listed: the size it demands of its result is the wrong one, C06.) -/
theorem C76_rows (d : Dims) (hd : d.Ok) (hnd : d.ndebug = false) (i j : Nat) (u w : List α) :
    (u.length ≠ d.nx * d.nlat * d.nphi ∨ w.length ≠ d.nx → Aborts (d.get_row_R i j u w) ∧ Aborts (d.set_row_R i j w u)) ∧
    (u.length ≠ d.nx * d.nlat * d.nphi ∨ w.length ≠ d.nlat → Aborts (d.get_row_th i j u w) ∧ Aborts (d.set_row_th i j w u)) ∧
    (u.length ≠ d.nx * d.nlat * d.nphi ∨ w.length ≠ d.nphi → Aborts (d.get_row_ph i j u w) ∧ Aborts (d.set_row_ph i j w u)) ∧
    (u.length ≠ d.nx * d.nl ∨ w.length ≠ d.nx → Aborts (d.get_row_n i u w) ∧ Aborts (d.set_row_n i w u)) ∧
    (u.length ≠ d.nx * d.nlat * d.nphi ∨ w.length ≠ d.nx * d.nlat → Aborts (d.get_row_R_th i u w) ∧ Aborts (d.set_row_R_th i w u)) ∧
    (u.length ≠ d.nx * d.nlat * d.nphi ∨ w.length ≠ d.nlat * d.nphi → Aborts (d.get_row_th_ph i u w) ∧ Aborts (d.set_row_th_ph i w u)) ∧
    (u.length ≠ d.nx * d.nlat * d.nphi ∨ w.length ≠ d.nx * d.nphi → Aborts (d.set_row_R_ph i w u)) ∧
    (u.length ≠ d.nx * d.nl ∨ w.length ≠ d.nl → Aborts (d.set_row_l i w u)) ∧
    (u.length ≠ d.nx * d.nlat * d.nphi → Aborts (d.get_row_R_ph i u w)) := by
  have hF : d.nFull = d.nx * d.nlat * d.nphi := hd.nFull_eq
  have hl := hd.nxnl
  have ht := hd.nxnlat
  have hp := hd.nxnphi
  have hs : umul d.nphi d.nlat = d.nlat * d.nphi := hd.nphinlat
  refine ⟨fun h => ?_, fun h => ?_, fun h => ?_, fun h => ?_, fun h => ?_, fun h => ?_, fun h => ?_, fun h => ?_, fun h => ?_⟩
  · constructor
    · unfold Dims.get_row_R; rw [hnd]
      refine aborts_step fun h1 => aborts_step fun h2 => ?_
      exfalso; simp [hF, hl, ht, hp, hs] at h1 h2; tauto
    · unfold Dims.set_row_R; rw [hnd]
      refine aborts_step fun h1 => aborts_step fun h2 => ?_
      exfalso; simp [hF, hl, ht, hp, hs] at h1 h2; tauto
  · constructor
    · unfold Dims.get_row_th; rw [hnd]
      refine aborts_step fun h1 => aborts_step fun h2 => ?_
      exfalso; simp [hF, hl, ht, hp, hs] at h1 h2; tauto
    · unfold Dims.set_row_th; rw [hnd]
      refine aborts_step fun h1 => aborts_step fun h2 => ?_
      exfalso; simp [hF, hl, ht, hp, hs] at h1 h2; tauto
  · constructor
    · unfold Dims.get_row_ph; rw [hnd]
      refine aborts_step fun h1 => aborts_step fun h2 => ?_
      exfalso; simp [hF, hl, ht, hp, hs] at h1 h2; tauto
    · unfold Dims.set_row_ph; rw [hnd]
      refine aborts_step fun h1 => aborts_step fun h2 => ?_
      exfalso; simp [hF, hl, ht, hp, hs] at h1 h2; tauto
  · constructor
    · unfold Dims.get_row_n; rw [hnd]
      refine aborts_step fun h1 => aborts_step fun h2 => ?_
      exfalso; simp [hF, hl, ht, hp, hs] at h1 h2; tauto
    · unfold Dims.set_row_n; rw [hnd]
      refine aborts_step fun h1 => aborts_step fun h2 => ?_
      exfalso; simp [hF, hl, ht, hp, hs] at h1 h2; tauto
  · constructor
    · unfold Dims.get_row_R_th; rw [hnd]
      refine aborts_step fun h1 => aborts_step fun h2 => ?_
      exfalso; simp [hF, hl, ht, hp, hs] at h1 h2; tauto
    · unfold Dims.set_row_R_th; rw [hnd]
      refine aborts_step fun h1 => aborts_step fun h2 => ?_
      exfalso; simp [hF, hl, ht, hp, hs] at h1 h2; tauto
  · constructor
    · unfold Dims.get_row_th_ph; rw [hnd]
      refine aborts_step fun h1 => aborts_step fun h2 => ?_
      exfalso; simp [hF, hl, ht, hp, hs] at h1 h2; tauto
    · unfold Dims.set_row_th_ph; rw [hnd]
      refine aborts_step fun h1 => aborts_step fun h2 => ?_
      exfalso; simp [hF, hl, ht, hp, hs] at h1 h2; tauto
  · unfold Dims.set_row_R_ph; rw [hnd]
    refine aborts_step fun h1 => aborts_step fun h2 => ?_
    exfalso; simp [hF, hl, ht, hp, hs] at h1 h2; tauto
  · unfold Dims.set_row_l; rw [hnd]
    refine aborts_step fun h1 => aborts_step fun h2 => ?_
    exfalso; simp [hF, hl, ht, hp, hs] at h1 h2; tauto
  · unfold Dims.get_row_R_ph; rw [hnd]
    refine aborts_step fun h1 => ?_
    exfalso; simp [hF] at h1; tauto

variable {E : Env α} {P : ParamRec α} {g : Grid α} {e : Eom α}

/-- C76, grid operators: with either array of the wrong size every grid-wide routine stops. -/
theorem C76_grid (hS : BuiltGrid E P g) (hnd : g.d.ndebug = false) (J : Junk (Cx α)) (c : Cheb α) (dt : α) (u w z : List α) :
    (u.length ≠ P.nx * P.nlat * P.nphi ∨ w.length ≠ P.nx * P.nlat * P.nphi →
      Aborts (g.set_partial_phi J u w) ∧ Aborts (g.set_spherical_lap J u w) ∧ Aborts (g.set_sphereX J u w) ∧
      Aborts (g.set_partial_R u w) ∧ Aborts (g.set_partial_r u w) ∧ Aborts (g.set_partial2_r u w)) ∧
    (u.length ≠ P.nx * P.nlat * P.nphi ∨ w.length ≠ P.nx * P.nl →
      Aborts (g.set_angular_power_spectrum J u w) ∧ Aborts (g.set_n_l_coef c J u w)) ∧
    (u.length ≠ P.nx * P.nlat * P.nphi → Aborts (g.filter J u) ∧ Aborts (g.total_variation u)) ∧
    (u.length ≠ P.nx * P.nlat * P.nphi ∨ w.length ≠ P.nx * P.nlat * P.nphi ∨ z.length ≠ P.nx * P.nlat * P.nphi →
      Aborts (g.norm_indep_res dt u w z)) := by
  have hw := hS.wf
  have hT : g.nTot = P.nx * P.nlat * P.nphi := by rw [hw.nTot_eq, hS.total]
  have hl : umul g.d.nx g.d.nl = P.nx * P.nl := by rw [hw.ok.nxnl, hS.dims]
  have t1 : ∀ op, (u.length ≠ P.nx * P.nlat * P.nphi ∨ w.length ≠ P.nx * P.nlat * P.nphi) → Aborts (g.perShell op u w) := by
    intro op h
    unfold Grid.perShell; rw [hnd]
    refine aborts_step fun h1 => aborts_step fun h2 => ?_
    exfalso; simp [hT] at h1 h2; tauto
  have t2 : ∀ op, (u.length ≠ P.nx * P.nlat * P.nphi ∨ w.length ≠ P.nx * P.nlat * P.nphi) → Aborts (g.perLine op u w) := by
    intro op h
    unfold Grid.perLine; rw [hnd]
    refine aborts_step fun h1 => aborts_step fun h2 => ?_
    exfalso; simp [hT] at h1 h2; tauto
  refine ⟨fun h => ⟨t1 _ h, t1 _ h, t1 _ h, t2 _ h, t2 _ h, t2 _ h⟩, fun h => ⟨?_, ?_⟩, fun h => ⟨?_, ?_⟩, fun h => ?_⟩
  · unfold Grid.set_angular_power_spectrum; rw [hnd]
    refine aborts_step fun h1 => aborts_step fun h2 => ?_
    exfalso; simp [hT, hl] at h1 h2; tauto
  · unfold Grid.set_n_l_coef; rw [hnd]
    refine aborts_step fun h1 => aborts_step fun h2 => ?_
    exfalso; simp [hT, hl] at h1 h2; tauto
  · unfold Grid.filter; rw [hnd]
    refine aborts_step fun h1 => ?_
    exfalso; simp [hT] at h1; tauto
  · unfold Grid.total_variation; rw [hnd]
    refine aborts_step fun h1 => ?_
    exfalso; simp [hT] at h1; tauto
  · unfold Grid.norm_indep_res; rw [hnd]
    refine aborts_step fun h1 => aborts_step fun h2 => aborts_step fun h3 => ?_
    exfalso; simp [hT] at h1 h2 h3; tauto

/-- C76, evolution: with a field of the wrong size `set_k`, `set_rho` and `time_step` stop. -/
theorem C76_evolution (hS : BuiltGrid E P g) (he : Eom.Of g P e) (hnd : e.ndebug = false) (J : Junk (Cx α)) (f p fk pk : List α)
    (F Q : Field α) :
    (f.length ≠ P.nx * P.nlat * P.nphi ∨ p.length ≠ P.nx * P.nlat * P.nphi ∨ fk.length ≠ P.nx * P.nlat * P.nphi ∨
      pk.length ≠ P.nx * P.nlat * P.nphi → Aborts (e.set_k g J f p fk pk)) ∧
    (f.length ≠ P.nx * P.nlat * P.nphi ∨ p.length ≠ P.nx * P.nlat * P.nphi ∨ fk.length ≠ P.nx * P.nlat * P.nphi →
      Aborts (e.set_rho g J f p fk)) ∧
    (F.size ≠ P.nx * P.nlat * P.nphi ∨ Q.size ≠ P.nx * P.nlat * P.nphi → Aborts (e.time_step g J F Q)) := by
  have hn : e.n = P.nx * P.nlat * P.nphi := by rw [(he.wf0 hS).n_eq, hS.total]
  refine ⟨fun h => ?_, fun h => ?_, fun h => ?_⟩
  · unfold Eom.set_k; rw [hnd]
    refine aborts_step fun h1 => aborts_step fun h2 => aborts_step fun h3 => aborts_step fun h4 => ?_
    exfalso; simp [hn] at h1 h2 h3 h4; tauto
  · unfold Eom.set_rho; rw [hnd]
    refine aborts_step fun h1 => aborts_step fun h2 => aborts_step fun h3 => ?_
    exfalso; simp [hn] at h1 h2 h3; tauto
  · unfold Eom.time_step; rw [hnd]
    refine aborts_step fun h1 => aborts_step fun h2 => ?_
    exfalso; simp [hn] at h1 h2; tauto

/-- non-vacuity of C76: a debug set-up with its equations object, and a wrong-sized array. -/
example : ∃ (E : Env CR) (g : Grid CR) (e : Eom CR), Setup E demoP g ∧ g.d.Ok ∧ g.d.ndebug = false ∧ Eom.Of g demoP e ∧ e.ndebug = false ∧
    ([] : List CR).length ≠ demoP.nx * demoP.nlat * demoP.nphi := by
  obtain ⟨E, x, A, g, e, _, h2, _, _, h5, _, h7⟩ := demo_setup false false false
  have hg : g.d.ndebug = false := by rw [h5.dims]; exact h2
  refine ⟨E, g, e, h5, h5.wf.ok, hg, h7, ?_, by decide⟩
  obtain ⟨s, _, rfl⟩ := h7.eq h5
  exact hg

end SFK
