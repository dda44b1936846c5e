import Verif.Lemmas.FPEom
/-
Families of runs in floating-point arithmetic beside one exact run.
-/
namespace SFK
open Scalar CR Filter Asymptotics Topology

variable {ι : Type*} {l : Filter ι} {φ : ι → Format}

/-- a family of floating-point runs beside an exact run -/
structure RunFam (φ : ι → Format) (κ : ℝ) (M : LibMats) (q : Phys) (E0 : Env CR) (P0 : ParamRec CR) (g0 : Grid CR) (e0 : Eom CR)
    (E : ∀ i, Env (φ i).T) (P : ∀ i, ParamRec (φ i).T) (g : ∀ i, Grid (φ i).T) (e : ∀ i, Eom (φ i).T) : Prop where
  run : ∀ i, (φ i).Run κ M E0 P0 (E i) (P i) (g i) (e i)
  setup : Setup E0 P0 g0
  eom : Eom.Of g0 P0 e0
  mats : E0.Mats P0.nx P0.nl P0.nm P0.nlat P0.nphi M
  phys : q.Is P0
  ties : q.NoTies E0.useCheb P0.nx
  lu : q.lo ≠ q.up
  L0 : q.L ≠ 0

namespace RunFam
variable {κ : ℝ} {M : LibMats} {q : Phys} {E0 : Env CR} {P0 : ParamRec CR} {g0 : Grid CR} {e0 : Eom CR}
  {E : ∀ i, Env (φ i).T} {P : ∀ i, ParamRec (φ i).T} {g : ∀ i, Grid (φ i).T} {e : ∀ i, Eom (φ i).T}
  (h : RunFam φ κ M q E0 P0 g0 e0 E P g e)
include h

theorem d (i : ι) : (g i).d = g0.d := by
  rw [(h.run i).setup.dims, h.setup.dims, (h.run i).par.nx, (h.run i).par.nl, (h.run i).par.nm, (h.run i).par.nlat, (h.run i).par.nphi,
    (h.run i).contig, (h.run i).ndebug]

theorem nx0 : g0.d.nx = P0.nx := by rw [h.setup.dims]
theorem nlat0 : g0.d.nlat = P0.nlat := by rw [h.setup.dims]
theorem nphi0 : g0.d.nphi = P0.nphi := by rw [h.setup.dims]

theorem sht (i : ι) : (g i).sphere.sht = (E i).sht P0.nl P0.nm P0.nlat P0.nphi := by
  rw [(h.run i).setup.sht, (h.run i).par.nl, (h.run i).par.nm, (h.run i).par.nlat, (h.run i).par.nphi]

theorem rad (i : ι) : (g i).radial = Grid.radialOf (E i) (P i).Rmin (P i).Rmax P0.nx := by
  rw [(h.run i).setup.radial, (h.run i).par.nx]

theorem sphFam : SphFam φ κ M (fun i => (g i).sphere) g0.sphere := by
  have l0 : g0.sphere.lmax = P0.nl := by rw [h.setup.wf.lmax, h.setup.dims]
  have m0 : g0.sphere.mmax = P0.nm := by rw [h.setup.wf.mmax, h.setup.dims]
  have t0 : g0.sphere.nlat = P0.nlat := by rw [h.setup.wf.nlat, h.setup.dims]
  have p0 : g0.sphere.nphi = P0.nphi := by rw [h.setup.wf.nphi, h.setup.dims]
  constructor
  · exact fun i => (h.run i).setup.wf.sph
  · exact h.setup.wf.sph
  · intro i; rw [(h.run i).setup.wf.lmax, h.d i, h.setup.wf.lmax]
  · intro i; rw [(h.run i).setup.wf.mmax, h.d i, h.setup.wf.mmax]
  · intro i; rw [(h.run i).setup.wf.nlat, h.d i, h.setup.wf.nlat]
  · intro i; rw [(h.run i).setup.wf.nphi, h.d i, h.setup.wf.nphi]
  all_goals rw [l0] <;> skip
  all_goals (try rw [m0]) <;> rw [t0, p0]
  · intro i; rw [h.sht i]; exact (h.run i).lib.ana
  · intro i; rw [h.sht i]; exact (h.run i).lib.syn
  · intro i; rw [h.sht i]; exact (h.run i).lib.anaC
  · intro i; rw [h.sht i]; exact (h.run i).lib.synC
  · rw [h.setup.sht]; exact h.mats.ana
  · rw [h.setup.sht]; exact h.mats.syn
  · rw [h.setup.sht]; exact h.mats.anaC
  · rw [h.setup.sht]; exact h.mats.synC

theorem rmin : NearF l φ (fun i => (P i).Rmin) P0.Rmin := NearF.of_close (fun i => (h.run i).par.Rmin) ⟨_, h.phys.lo⟩
theorem rmax : NearF l φ (fun i => (P i).Rmax) P0.Rmax := NearF.of_close (fun i => (h.run i).par.Rmax) ⟨_, h.phys.up⟩

theorem pt0 {ix : ℕ} (hx : ix < P0.nx) : g0.radial.ptV ix = fin (radPt E0.useCheb P0.nx q.lo q.up ix) := by
  rw [h.setup.radial, h.phys.lo, h.phys.up]
  exact radialOf_pt h.setup.sizes.two.1 h.setup.sizes.two.2 q.lo q.up hx

variable (hF : Fine l φ)
include hF

theorem dx (hn : 2 ≤ P0.nx) (hW : P0.nx < W) :
    NearF l φ (fun i => (FD.mk' P0.nx (P i).Rmin (P i).Rmax (E i).ndebug).dx) (FD.mk' P0.nx P0.Rmin P0.Rmax E0.ndebug).dx := by
  unfold FD.mk'
  dsimp only
  rw [usub_of_le (by omega) (by omega)]
  exact (h.rmax.sub hF h.rmin).div hF (NearF.dbl hF _) (dbl_ne (by omega))

theorem radials : (∀ (v : ∀ i, List (φ i).T) V, NearFL l φ P0.nx v V → NearFL l φ P0.nx (fun i => (g i).radial.derP (v i)) (g0.radial.derP V)) ∧
    (∀ (v : ∀ i, List (φ i).T) V, NearFL l φ P0.nx v V → NearFL l φ P0.nx (fun i => (g i).radial.der2P (v i)) (g0.radial.der2P V)) ∧
    ∀ ix, ix < P0.nx → NearF l φ (fun i => (g i).radial.ptV ix) (g0.radial.ptV ix) := by
  obtain ⟨h2, hW⟩ := h.setup.sizes.two
  have hmin := h.setup.sizes.nx_min
  simp only [h.rad]
  rw [h.setup.radial]
  unfold Grid.radialOf
  simp only [(h.run _).useCheb]
  cases hc : E0.useCheb
  · rw [hc] at hmin
    simp only [Bool.false_eq_true, if_false] at hmin ⊢
    have hdx := h.dx hF h2 hW
    have hn1 : (P0.nx : ℝ) - 1 ≠ 0 := by
      have : (2 : ℝ) ≤ P0.nx := by exact_mod_cast h2
      linarith
    have hdx0 : (FD.mk' P0.nx P0.Rmin P0.Rmax E0.ndebug).dx ≠ fin 0 := by
      unfold FD.mk'
      dsimp only
      rw [usub_of_le (by omega) (by omega), h.phys.lo, h.phys.up]
      simp only [fin_sub, fin_dbl]
      rw [Nat.cast_sub (by omega), Nat.cast_one, fin_div _ _ hn1, ne_eq, fin_inj]
      exact div_ne_zero (sub_ne_zero.mpr h.lu.symm) hn1
    refine ⟨fun v V hv => ?_, fun v V hv => ?_, fun ix hx => ?_⟩
    · exact FD.derV_nearF hF (fd := fun i => FD.mk' P0.nx (P i).Rmin (P i).Rmax (E i).ndebug) (fd0 := FD.mk' P0.nx P0.Rmin P0.Rmax E0.ndebug)
        (fun i => rfl) (by show 7 ≤ P0.nx; omega) hdx hdx0 hv
    · exact FD.der2V_nearF hF (fd := fun i => FD.mk' P0.nx (P i).Rmin (P i).Rmax (E i).ndebug) (fd0 := FD.mk' P0.nx P0.Rmin P0.Rmax E0.ndebug)
        (fun i => rfl) (by show 8 ≤ P0.nx; omega) hdx hdx0 hv
    · exact (hdx.mul hF (NearF.dbl hF ix)).add hF h.rmin
  · simp only [if_true]
    have hj : NearF l φ (fun i => ((P i).Rmax - (P i).Rmin) / 2) ((P0.Rmax - P0.Rmin) / 2) :=
      (h.rmax.sub hF h.rmin).div hF (NearF.nat hF 2) (ofNat_ne (by norm_num))
    have hj0 : (P0.Rmax - P0.Rmin) / 2 ≠ fin 0 := by
      rw [h.phys.lo, h.phys.up, fin_sub, fin_ofNat', fin_div _ _ (by norm_num), ne_eq, fin_inj]
      exact div_ne_zero (sub_ne_zero.mpr h.lu.symm) (by norm_num)
    have hfam : ChebFam l φ κ M.dct (fun i => ({
          n := P0.nx, lower := (P i).Rmin, upper := (P i).Rmax, jacobian := ((P i).Rmax - (P i).Rmin) / 2,
          pts := tab P0.nx fun k => ((P i).Rmax - (P i).Rmin) / 2 * cos ((Scalar.pi : (φ i).T) * dbl k / (dbl P0.nx - 1)) + (((P i).Rmax + (P i).Rmin) / 2),
          lowPass := tab P0.nx fun k => exp (-40 * pown (dbl k / dbl P0.nx) 16), dct := (E i).dct P0.nx, ndebug := (E i).ndebug } : Cheb (φ i).T))
        ({
          n := P0.nx, lower := P0.Rmin, upper := P0.Rmax, jacobian := (P0.Rmax - P0.Rmin) / 2,
          pts := tab P0.nx fun k => (P0.Rmax - P0.Rmin) / 2 * cos ((Scalar.pi : CR) * dbl k / (dbl P0.nx - 1)) + ((P0.Rmax + P0.Rmin) / 2),
          lowPass := tab P0.nx fun k => exp (-40 * pown (dbl k / dbl P0.nx) 16), dct := E0.dct P0.nx, ndebug := E0.ndebug } : Cheb CR) := by
      refine ⟨fun _ => rfl, h2, fun i v hv => ?_, fun i => ?_, ?_, hj, hj0⟩
      · have := (h.run i).setup.sized.dct
        rw [(h.run i).par.nx] at this
        exact this v hv
      · exact (h.run i).lib.dct ((h.run i).useCheb.trans hc)
      · exact h.mats.dct hc
    refine ⟨fun v V hv => hfam.der hF hv, fun v V hv => hfam.der hF (hfam.der hF hv), fun ix hx => ?_⟩
    simp only [Radial.ptV, gv_tab hx]
    refine (hj.mul hF (NearF.cos hF ?_)).add hF ((h.rmax.add hF h.rmin).div hF (NearF.nat hF 2) (ofNat_ne (by norm_num)))
    refine ((NearF.pi hF).mul hF (NearF.dbl hF _)).div hF ((NearF.dbl hF _).sub hF (NearF.nat hF 1)) ?_
    have : (2 : ℝ) ≤ P0.nx := by exact_mod_cast h2
    intro hh
    simp at hh
    linarith

omit hF in
theorem cl : NearF l φ (fun i => (g i).cl) g0.cl := by
  simp only [(h.run _).setup.cl]
  rw [h.setup.cl]
  exact NearF.of_close (fun i => (h.run i).par.cl) ⟨_, h.phys.L⟩

theorem grFam : GrFam l φ κ M g g0 := by
  obtain ⟨r1, r2, r3⟩ := h.radials hF
  refine ⟨fun i => (h.run i).setup.wf, h.setup.wf, h.d, h.sphFam, ?_, ?_, ?_, h.cl, ?_⟩
  · rw [h.nx0]; exact r1
  · rw [h.nx0]; exact r2
  · rw [h.nx0]; exact r3
  · rw [h.setup.cl, h.phys.L, ne_eq, fin_inj]; exact h.L0

theorem coef {ix it : ℕ} (hx : ix < P0.nx) (ht : it < P0.nlat) :
    NearCoef l φ (fun i => Eom.coefAt (g i) (P i) ix it) (Eom.coefAt g0 P0 ix it) := by
  have hm : NearF l φ (fun i => (P i).bh_mass) P0.bh_mass := NearF.of_close (fun i => (h.run i).par.mass) ⟨_, h.phys.M⟩
  have ha : NearF l φ (fun i => (P i).bh_spin) P0.bh_spin := NearF.of_close (fun i => (h.run i).par.spin) ⟨_, h.phys.a⟩
  have hc : NearF l φ (fun i => (P i).cl) P0.cl := NearF.of_close (fun i => (h.run i).par.cl) ⟨_, h.phys.L⟩
  have hr := (h.radials hF).2.2 ix hx
  rw [h.phys.M] at hm
  rw [h.phys.a] at ha
  rw [h.phys.L] at hc
  rw [h.pt0 hx] at hr
  unfold Eom.coefAt
  simp only [(h.run _).setup.cl]
  rw [h.setup.cl, h.phys.M, h.phys.a, h.phys.L, h.pt0 hx]
  refine coefOf_near hF (hm.2 _ rfl) (ha.2 _ rfl) h.ties.mass h.ties.extreme h.ties.spin
    (invR_near hF (hc.2 _ rfl) (hr.2 _ rfl) (h.ties.scri ix hx)) ?_
  obtain ⟨x, e1, e2, e3⟩ := h.mats.nodes it ht
  unfold Grid.thV
  simp only [h.sht]
  rw [h.setup.sht, e1, fin_acos _ e2.le e3.le]
  refine (Conv.acos hF ?_ e2 e3).near
  have : NearF l φ (fun i => gv ((E i).sht P0.nl P0.nm P0.nlat P0.nphi).ct it) (gv (E0.sht P0.nl P0.nm P0.nlat P0.nphi).ct it) :=
    NearF.of_close (fun i => (h.run i).ct it ht) ⟨_, e1⟩
  rw [e1] at this
  exact this.2 _ rfl

theorem eoFam : EoFam l φ g0.d.total e e0 := by
  obtain ⟨s0, _, rfl⟩ := h.eom.eq h.setup
  have hs : ∀ i, ∃ s : Scratch (φ i).T, e i =
    { n := (g i).d.total, dt := (P i).dt, km1 := (P i).km1, k0 := (P i).k0, k1 := (P i).k1, k2 := (P i).k2, v2 := (P i).V2, v3 := (P i).V3, v4 := (P i).V4,
      coef := (g i).d.mk3 fun ix it _ => Eom.coefAt (g i) (P i) ix it, scr := s, ndebug := (g i).d.ndebug } := fun i => by
    obtain ⟨s, _, h1⟩ := (h.run i).eom.eq (h.run i).setup
    exact ⟨s, h1⟩
  choose s hs using hs
  have : e = _ := funext hs
  subst this
  refine ⟨NearF.of_close (fun i => (h.run i).par.dt) ⟨_, h.phys.dt⟩, (NearF.of_close (fun i => (h.run i).par.km1) ⟨_, h.phys.km1⟩).2,
    (NearF.of_close (fun i => (h.run i).par.k0) ⟨_, h.phys.k0⟩).2, (NearF.of_close (fun i => (h.run i).par.k1) ⟨_, h.phys.k1⟩).2,
    (NearF.of_close (fun i => (h.run i).par.k2) ⟨_, h.phys.k2⟩).2, (NearF.of_close (fun i => (h.run i).par.V2) ⟨_, h.phys.V2⟩).2,
    (NearF.of_close (fun i => (h.run i).par.V3) ⟨_, h.phys.V3⟩).2, (NearF.of_close (fun i => (h.run i).par.V4) ⟨_, h.phys.V4⟩).2, fun k hk => ?_⟩
  unfold Dims.mk3
  simp only [h.d, gv_tab hk]
  have hb := g0.d.dec3 hk
  exact h.coef hF (h.nx0 ▸ hb.1.1) (h.nlat0 ▸ hb.1.2.1)

end RunFam
end SFK
